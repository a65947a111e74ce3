import Verif.Model.PowerSeries

/-!
# Printing: TeX output of monomials, plain and TeX output of series

The model gives the characters written to the stream, for a stream with default flags.  Type names (`obake::type_name`) are parameters.  A character of the model is a byte of a C++ string.
-/

namespace Obake

/-! ## Monomials -/

/-- packed_monomial.cpp:145-175: the loop body of `packed_monomial_tex_stream_insert`, the state being the contents of the streams `oss_num`, `oss_den`.  The multiprecision integer `tmp_mp` is an `Int`. -/
def texStep (ss : List String) (i : Nat) (x : Int) (s : String × String) : Res (String × String) := do
  let var ← rd ss i
  if x ≠ 0 then
    if 0 < x then
      let out := s.1 ++ ("{" ++ var ++ "}")
      pure (if x ≠ 1 then out ++ ("^{" ++ toString x ++ "}") else out, s.2)
    else
      let out := s.2 ++ ("{" ++ var ++ "}")
      pure (s.1, if -x ≠ 1 then out ++ ("^{" ++ toString (-x) ++ "}") else out)
  else pure s

/-- packed_monomial.cpp:177-195: what is written after the loop; `isOne` is the asserted condition in the last branch. -/
def texFinish (isOne : Bool) (s : String × String) : Res String :=
  if s.1.isEmpty = false ∧ s.2.isEmpty = false then .ok ("\\frac{" ++ s.1 ++ "}{" ++ s.2 ++ "}")
  else if s.1.isEmpty = false ∧ s.2.isEmpty = true then .ok s.1
  else if s.1.isEmpty = true ∧ s.2.isEmpty = false then .ok ("\\frac{1}{" ++ s.2 ++ "}")
  else do
    cassert isOne
    pure "1"

/-- packed_monomial.cpp:123-196 `packed_monomial_tex_stream_insert`. -/
def PM.texInsert (t : KT) (v : Int) (ss : List String) : Res String := do
  PM.assertCompat t v ss.length
  let ku ← KUnpacker.new t v ss.length
  let s ← unpackFor t (texStep ss) ss.length 0 ku ("", "")
  texFinish (decide (v = 0)) s

/-- d_packed_monomial.hpp:383-461 `key_tex_stream_insert`. -/
def DPM.texInsert (t : KT) (P : Nat) (c : List Int) (ss : List String) : Res String := do
  DPM.assertCompat t P c ss.length
  let s ← DPM.unpackFor t P (texStep ss) ss.length 0 c ("", "")
  texFinish (c.all fun n => decide (n = 0)) s

/-! ## Series -/

/-- src/series.cpp:21-56 `series_stream_single_term(ret, str_cf, str_key, tex_mode)`: the new value of `ret`. -/
def streamTerm (tex : Bool) (ret cf key : String) : String :=
  let cfOne := decide (cf = "1")
  let cfMinus := decide (cf = "-1")
  let keyOne := decide (key = "1")
  let cf :=
    if cfOne && !keyOne then ""
    else if cfMinus && !keyOne then "-"
    else if keyOne && decide (cf.toList.length > 2) && decide (cf.toList.head? = some '(') && decide (cf.toList.getLast? = some ')') then
      String.ofList (cf.toList.drop 1).dropLast
    else cf
  let ret := ret ++ cf
  let ret := if !cfOne && !cfMinus && !keyOne && !tex then ret ++ "*" else ret
  if !keyOne then ret ++ key else ret

/-- series.hpp:2000 `limit`. -/
def printLimit : Nat := 50

/-- series.hpp:2009-2038: the loop over the terms.  `cs` is `cf_stream_insert`/`cf_tex_stream_insert`, `ks` is `key_stream_insert`/`key_tex_stream_insert`; the loop runs over the terms in the order of iteration and yields `ret`, the final value of `count`, and the terms not visited. -/
def streamLoop {K C : Type} (tex : Bool) (cs : C → Res String) (ks : K → List String → Res String) (ss : List String) :
    List (K × C) → (count : Nat) → (ret : String) → Res (String × Nat × List (K × C))
  | [], count, ret => .ok (ret, count, [])
  | (k, c) :: ts, count, ret =>
    if count ≠ printLimit then do
      let cf ← cs c
      let key ← ks k ss
      let ret := streamTerm tex ret cf key
      let ret := if !ts.isEmpty then ret ++ "+" else ret
      streamLoop tex cs ks ss ts (count + 1) ret
    else .ok (ret, count, (k, c) :: ts)

/-- `ret.find("+-")`: the position of the first occurrence. -/
def findPM : List Char → Option Nat
  | [] => none
  | c :: l => if c = '+' ∧ l.head? = some '-' then some 0 else (findPM l).map (· + 1)

/-- series.hpp:2049-2057: the loop that replaces `+-` by `-`.  Each iteration shortens the string, `fuel` is its length. -/
def replLoop : (fuel : Nat) → (ret : List Char) → (index : Nat) → List Char
  | 0, ret, _ => ret
  | fuel + 1, ret, index =>
    match findPM (ret.drop index) with
    | none => ret
    | some j => replLoop fuel (ret.take (index + j) ++ '-' :: ret.drop (index + j + 2)) (index + j + 1)

/-- series.hpp:1986-2060 `series_stream_terms_impl<TexMode>`. -/
def streamTerms {K C T : Type} (tex : Bool) (cs : C → Res String) (ks : K → List String → Res String) (s : Series String K C T) : Res String :=
  if s.isEmpty then .ok "0"
  else do
    let (ret, count, rest) ← streamLoop tex cs ks s.ss s.terms 0 ""
    let ret := if count = printLimit ∧ rest.isEmpty = false then ret ++ (if tex then "\\ldots" else "...") else ret
    pure (String.ofList (replLoop ret.toList.length ret.toList 0))

/-- series.hpp:2077-2093 `cf_stream_insert` and 2100-2118 `cf_tex_stream_insert` for a coefficient that is itself a series. -/
def cfStreamSeries {K C T : Type} (tex : Bool) (cs : C → Res String) (ks : K → List String → Res String) (s : Series String K C T) : Res String :=
  if s.size > 1 then do
    let r ← streamTerms tex cs ks s
    pure ((if tex then "\\left(" else "(") ++ r ++ (if tex then "\\right)" else ")"))
  else streamTerms tex cs ks s

/-- src/symbols.cpp:42-56 `to_string(symbol_set)`: the loop. -/
def symsLoop : List String → String → String
  | [], r => r
  | a :: l, r =>
    let r := r ++ "'" ++ a ++ "'"
    symsLoop l (if !l.isEmpty then r ++ ", " else r)

/-- src/symbols.cpp:42-56 `to_string(symbol_set)`. -/
def symsText (ss : List String) : String := symsLoop ss "{" ++ "}"

/-- power_series.hpp:313-340 `operator<<(os, tag)`. -/
def tagText : Trunc String → String
  | .none => "Series type: power series\n" ++ "Truncation: none"
  | .total d => "Series type: power series\n" ++ ("Truncation degree: " ++ toString d)
  | .part d S => "Series type: power series\n" ++ ("Partial truncation degree: " ++ toString d ++ ", " ++ symsText S)

/-- series.hpp:2144-2162 the default implementation of `series_stream_insert`; `tag` is the text of the tag if it has one, `kn`, `cn`, `rank` the names of the key and coefficient types and the rank. -/
def seriesStream {K C T : Type} (tag : T → Option String) (kn cn : String) (rank : Nat) (cs : C → Res String) (ks : K → List String → Res String) (s : Series String K C T) : Res String := do
  let head := match tag s.tag with
    | none => ""
    | some t => t ++ "\n"
  let head := head ++ "Key type: " ++ kn ++ "\n" ++ "Coefficient type: " ++ cn ++ "\n" ++ "Rank: " ++ toString rank ++ "\n"
    ++ "Symbol set: " ++ symsText s.ss ++ "\n" ++ "Number of terms: " ++ toString s.size ++ "\n"
  let r ← streamTerms false cs ks s
  pure (head ++ r)

/-- power_series.hpp:926-932: the loop over the symbols of a partial truncation. -/
def truncSyms : List String → String → String
  | [], r => r
  | a :: l, r =>
    let r := r ++ a
    truncSyms l (if !l.isEmpty then r ++ ", " else r)

/-- power_series.hpp:905-944: the text of the truncation in TeX mode (the stream `oss` starts with its initial contents, and writing goes on at their end).  The degrees are integers, whose TeX text is their decimal representation. -/
def truncTex : Trunc String → String
  | .none => ""
  | .total d => " + \\mathcal{O}\\left( " ++ "> " ++ toString d ++ " \\right)"
  | .part d S => truncSyms S (" + \\mathcal{O}\\left( " ++ "> " ++ toString d ++ " ; ") ++ " \\right)"

/-- power_series.hpp:896-945 `tex_stream_insert(os, ps)`. -/
def psTexStream {K C : Type} (cs : C → Res String) (ks : K → List String → Res String) (s : Series String K C (Trunc String)) : Res String := do
  let r ← streamTerms true cs ks s
  pure (r ++ truncTex s.tag)

/-- series.hpp:2100-2118 `cf_tex_stream_insert` for a coefficient that is a power series: `obake::tex_stream_insert` is that of power_series.hpp:896-945. -/
def cfTexPs {K C : Type} (cs : C → Res String) (ks : K → List String → Res String) (s : Series String K C (Trunc String)) : Res String :=
  if s.size > 1 then do
    let r ← psTexStream cs ks s
    pure ("\\left(" ++ r ++ "\\right)")
  else psTexStream cs ks s

end Obake
