import Mathlib.Init

/-! # What printed monomials and series look like -/

namespace Obake

/-- The factor `name^x` as printed: the exponent 1 is omitted. -/
def printFactor (name : String) (x : Int) : String := if x = 1 then name else name ++ "**" ++ toString x

/-- The printed factors: those of the symbols with non-zero exponents, in symbol order. -/
def printFactors (ss : List String) (xs : List Int) : List String :=
  (List.zip ss xs).filterMap fun p => if p.2 = 0 then none else some (printFactor p.1 p.2)

/-- Strings separated by `*`. -/
def starJoin : List String → String
  | [] => ""
  | [a] => a
  | a :: b :: l => a ++ "*" ++ starJoin (b :: l)

/-- The printed monomial: the factors separated by `*`, or `1` if there are none. -/
def printMono (ss : List String) (xs : List Int) : String :=
  match printFactors ss xs with
  | [] => "1"
  | l => starJoin l

/-! ## TeX -/

/-- A factor with exponent `n > 0` in TeX: the exponent 1 is omitted. -/
def texFactor (name : String) (n : Int) : String := "{" ++ name ++ "}" ++ (if n = 1 then "" else "^{" ++ toString n ++ "}")

/-- The concatenation of the factors of the symbols with positive exponents. -/
def texNum (ss : List String) (xs : List Int) : String :=
  String.join ((List.zip ss xs).filterMap fun p => if 0 < p.2 then some (texFactor p.1 p.2) else none)

/-- The concatenation of the factors of the symbols with negative exponents, with the sign of the exponents changed. -/
def texDen (ss : List String) (xs : List Int) : String :=
  String.join ((List.zip ss xs).filterMap fun p => if p.2 < 0 then some (texFactor p.1 (-p.2)) else none)

/-- A monomial in TeX: a fraction if there are negative exponents. -/
def texMono (ss : List String) (xs : List Int) : String :=
  if ∃ x ∈ xs, x < 0 then
    "\\frac{" ++ (if ∃ x ∈ xs, 0 < x then texNum ss xs else "1") ++ "}{" ++ texDen ss xs ++ "}"
  else if ∃ x ∈ xs, 0 < x then texNum ss xs
  else "1"

/-- The text of a monomial in plain or TeX mode. -/
def monoText (tex : Bool) : List String → List Int → String := if tex then texMono else printMono

/-! ## Series -/

/-- A term without its sign: `body` is the text of the absolute value of the coefficient and `key` that of the monomial.  Unit monomials and coefficients are omitted. -/
def termText (tex : Bool) (body key : String) : String :=
  if key = "1" then body else if body = "1" then key else body ++ (if tex then "" else "*") ++ key

/-- A sum of terms, given by sign (`true` for negative), absolute value of the coefficient, and monomial.  No sign is written before the first term if it is positive. -/
def sumText (tex : Bool) : (first : Bool) → List (Bool × String × String) → String
  | _, [] => ""
  | first, (neg, body, key) :: l => (if neg then "-" else if first then "" else "+") ++ termText tex body key ++ sumText tex false l

/-- A printed series: `0` if it is empty, the sum of its terms if there are at most 50, and otherwise the sum of the first 50 terms followed by an ellipsis. -/
def seriesText (tex : Bool) (l : List (Bool × String × String)) : String :=
  if l = [] then "0"
  else if l.length ≤ 50 then sumText tex true l
  else sumText tex true (l.take 50) ++ (if tex then "+\\ldots" else "+...")

/-- How a coefficient that is itself a series with the terms `l` appears in front of the monomial `key`: a single term as it is, several terms in parentheses, which are omitted if the monomial is 1 (except in TeX mode). -/
def nestedTerm (tex : Bool) (key : String) : List (Bool × String × String) → Bool × String × String
  | [] => (false, "0", key)
  | [(neg, b, k)] => (neg, termText tex b k, key)
  | (neg, b, k) :: p :: l =>
    if tex = false ∧ key = "1" then (neg, seriesText tex ((false, b, k) :: p :: l), key)
    else (false, (if tex then "\\left(" else "(") ++ seriesText tex ((neg, b, k) :: p :: l) ++ (if tex then "\\right)" else ")"), key)

/-- A symbol set as a text. -/
def symSetText (ss : List String) : String := "{" ++ ", ".intercalate (ss.map fun n => "'" ++ n ++ "'") ++ "}"

/-- How a type of coefficients is printed: an optional minus sign followed by text without signs, not starting with a parenthesis. -/
structure CfText {ε C : Type} (cs : C → Except ε String) (G : C → Prop) (neg : C → Bool) (body : C → String) : Prop where
  text : ∀ c, G c → cs c = .ok ((if neg c then "-" else "") ++ body c)
  ne : ∀ c, G c → body c ≠ ""
  sign : ∀ c, G c → '+' ∉ (body c).toList ∧ '-' ∉ (body c).toList
  paren : ∀ c, G c → (body c).toList.head? ≠ some '('

/-- The symbol names for which the text of a series is the sum of its terms: not empty, without `+`, and not starting with `-`. -/
def PrintableName (n : String) : Prop := n ≠ "" ∧ '+' ∉ n.toList ∧ n.toList.head? ≠ some '-'

/-- The symbol names for which a series can be recovered from its text; `D` are the characters of numbers.  In plain mode names are not empty and do not start with a character of `D`; in TeX mode they contain no closing brace. -/
structure ReadableName (D : Char → Bool) (tex : Bool) (n : String) : Prop where
  ne : n ≠ ""
  sign : '+' ∉ n.toList ∧ '-' ∉ n.toList
  star : tex = false → '*' ∉ n.toList
  head : tex = false → ∀ c, n.toList.head? = some c → D c = false
  brace : tex = true → '}' ∉ n.toList

end Obake
