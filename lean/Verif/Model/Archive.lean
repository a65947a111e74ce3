import Verif.Model.PowerSeries

/-!
# Serialisation in terms of primitive values

`Model/Series` describes `save()`/`load()` of a series with an archive of keys, tags and symbol sets.  Here an archive is the list of the primitive values that `ar << x` writes for primitive `x`: machine integers,
strings, coefficients (whose own serialisation is outside of obake).  Class information that Boost.Serialization adds by itself is not modelled.  `load` functions get the previous content of the object.
-/

namespace Obake

/-- A primitive value in an archive. -/
inductive Prim (α C : Type) where
  /-- a size, an index, or a number of segments -/
  | nat (n : Nat)
  /-- an integral value (packed exponents, degrees) -/
  | int (z : Int)
  /-- a symbol name -/
  | sym (a : α)
  /-- a coefficient -/
  | cf (c : C)

/-- A pair of functions `save`/`load` of a type: `load` gets the previous content of the object and returns its new content and the rest of the archive. -/
structure Codec (P X : Type) where
  save : X → List P
  load : X → List P → Res (X × List P)

section
variable {α C : Type}

/-- `ar >> n` for a size.  The archive throws if it cannot deliver. -/
def readNat : List (Prim α C) → Res (Nat × List (Prim α C))
  | .nat n :: ar => .ok (n, ar)
  | _ => .error .user

/-- `ar << z`, `ar >> z` for an integral value. -/
def intCodec (α C : Type) : Codec (Prim α C) Int where
  save z := [.int z]
  load _ := fun
    | .int z :: ar => .ok (z, ar)
    | _ => .error .user

/-- `ar << s`, `ar >> s` for a string. -/
def symCodec (α C : Type) : Codec (Prim α C) α where
  save a := [.sym a]
  load _ := fun
    | .sym a :: ar => .ok (a, ar)
    | _ => .error .user

/-- `ar << c`, `ar >> c` for a coefficient. -/
def cfCodec (α C : Type) : Codec (Prim α C) C where
  save c := [.cf c]
  load _ := fun
    | .cf c :: ar => .ok (c, ar)
    | _ => .error .user

/-- `resize(n)` of a sequence: truncated, or filled up with value-initialised elements. -/
def resizeTo {X : Type} (d : X) (n : Nat) (l : List X) : List X := l.take n ++ List.replicate (n - l.length) d

/-- `for (auto &n : v) ar >> n;` -/
def readAll {X P : Type} (c : Codec P X) : List X → List P → Res (List X × List P)
  | [], ar => .ok ([], ar)
  | x :: xs, ar => do
    let (y, ar) ← c.load x ar
    let (ys, ar) ← readAll c xs ar
    pure (y :: ys, ar)

/-- symbols.hpp:161-169 `save(ar, symbol_set)`. -/
def saveSyms (ss : List α) : List (Prim α C) := .nat ss.length :: ss.flatMap (symCodec α C).save

/-- symbols.hpp:171-190 `load(ar, symbol_set)`: `adopt_sequence(ordered_unique_range_t{}, seq)` requires a sorted sequence without duplicates. -/
def loadSyms [LinearOrder α] (d : α) (ss : List α) (ar : List (Prim α C)) : Res (List α × List (Prim α C)) := do
  let (n, ar) ← readNat ar
  let (seq, ar) ← readAll (symCodec α C) (resizeTo d n ss) ar
  if seq.Pairwise (· < ·) then pure (seq, ar) else .error .ub

/-- packed_monomial.hpp:134-138 `serialize`: the packed value. -/
def pmCodec (α C : Type) : Codec (Prim α C) Int := intCodec α C

/-- d_packed_monomial.hpp:193-212 `save`, `load`: the size of the container and its elements. -/
def dpmCodec (α C : Type) : Codec (Prim α C) (List Int) where
  save k := .nat k.length :: k.flatMap (intCodec α C).save
  load k ar := do
    let (n, ar) ← readNat ar
    readAll (intCodec α C) (resizeTo 0 n k) ar

/-- polynomial.hpp:78-84: the tag of polynomials has no content. -/
def unitCodec (α C : Type) : Codec (Prim α C) Unit where
  save _ := []
  load _ ar := .ok ((), ar)

/-- power_series.hpp:97-105 and 232-236 `save` of a truncation (`no_truncation` writes nothing, 57-60; a pair writes both members) and of the tag. -/
def saveTruncP : Trunc α → List (Prim α C)
  | .none => [.nat 0]
  | .total d => [.nat 1, .int d]
  | .part d S => [.nat 2, .int d] ++ saveSyms S

/-- power_series.hpp:107-159 and 237-254 `load` of a truncation and of the tag, through temporaries: the previous content is irrelevant. -/
def loadTruncP [LinearOrder α] (d₀ : α) (_t : Trunc α) (ar : List (Prim α C)) : Res (Trunc α × List (Prim α C)) := do
  let (idx, ar) ← readNat ar
  match idx with
  | 0 => pure (.none, ar)
  | 1 => do
    let (d, ar) ← (intCodec α C).load 0 ar
    pure (.total d, ar)
  | 2 => do
    let (d, ar) ← (intCodec α C).load 0 ar
    let (S, ar) ← loadSyms d₀ [] ar
    pure (.part d S, ar)
  | _ => .error .invalidArg

/-- The tag of power series. -/
def truncCodec [LinearOrder α] (d₀ : α) (C : Type) : Codec (Prim α C) (Trunc α) := ⟨saveTruncP, loadTruncP d₀⟩

variable {K T P : Type} [DecidableEq K] [Inhabited T]

/-- series.hpp:1427-1443 `save`. -/
def saveSeriesP (ck : Codec (Prim α C) K) (ct : Codec (Prim α C) T) (s : Series α K C T) : List (Prim α C) :=
  .nat s.log2 :: (ct.save s.tag ++ (saveSyms s.ss ++ s.tabs.flatMap fun t => .nat t.length :: t.flatMap fun p => ck.save p.1 ++ (cfCodec α C).save p.2))

/-- series.hpp:1488-1503: the loop of `load` that reads `n` terms into the `i`-th table, through the temporaries `tmp_k` and `tmp_c`. -/
def loadTermsP (ko : KeyOps α K) (ce : CEnv K C) (ck : Codec (Prim α C) K) (i : Nat) : (n : Nat) → Series α K C T → K × C → List (Prim α C) → Except (Exc × Series α K C T) (Series α K C T × (K × C) × List (Prim α C))
  | 0, s, tmp, ar => .ok (s, tmp, ar)
  | n + 1, s, (tk, tc), ar =>
    match ck.load tk ar with
    | .error e => .error (e, s)
    | .ok (k, ar) =>
      match (cfCodec α C).load tc ar with
      | .error e => .error (e, s)
      | .ok (c, ar) =>
        match addTermAt ko ce ⟨true, false, false, false, true⟩ s i k (.ok c) with
        | .error e => .error e
        | .ok s' => loadTermsP ko ce ck i n s' (k, c) ar

/-- series.hpp:1483-1504: the loop of `load` over the tables. -/
def loadTablesP (ko : KeyOps α K) (ce : CEnv K C) (ck : Codec (Prim α C) K) : (m i : Nat) → Series α K C T → K × C → List (Prim α C) → Except (Exc × Series α K C T) (Series α K C T × List (Prim α C))
  | 0, _, s, _, ar => .ok (s, ar)
  | m + 1, i, s, tmp, ar =>
    match readNat ar with
    | .error e => .error (e, s)
    | .ok (n, ar) =>
      match loadTermsP ko ce ck i n s tmp ar with
      | .error e => .error e
      | .ok (s', tmp', ar') => loadTablesP ko ce ck m (i + 1) s' tmp' ar'

/-- series.hpp:1444-1511: the body of the `try` block of `load`; `tk` and `tc` are the default constructed `tmp_k` and `tmp_c`. -/
def loadBodyP [LinearOrder α] (ko : KeyOps α K) (ce : CEnv K C) (ck : Codec (Prim α C) K) (ct : Codec (Prim α C) T) (d₀ : α) (tk : K) (tc : C) (s : Series α K C T) (ar : List (Prim α C)) :
    Except (Exc × Series α K C T) (Series α K C T × List (Prim α C)) :=
  match readNat ar with
  | .error e => .error (e, s)
  | .ok (l, ar) =>
    match s.setNSegments l with
    | .error e => .error e
    | .ok s =>
      match ct.load s.tag ar with
      | .error e => .error (e, s)
      | .ok (t, ar) =>
        match loadSyms d₀ [] ar with
        | .error e => .error (e, { s with tag := t })
        | .ok (ss, ar) => loadTablesP ko ce ck (2 ^ l) 0 { s with tag := t, ss := ss } (tk, tc) ar

/-- series.hpp:1444-1511 `load` into the existing object `s`: an exception clears the object. -/
def loadSeriesP [LinearOrder α] (ko : KeyOps α K) (ce : CEnv K C) (ck : Codec (Prim α C) K) (ct : Codec (Prim α C) T) (d₀ : α) (tk : K) (tc : C) (s : Series α K C T) (ar : List (Prim α C)) :
    Except (Exc × Series α K C T) (Series α K C T × List (Prim α C)) :=
  match loadBodyP ko ce ck ct d₀ tk tc s.clear ar with
  | .ok r => .ok r
  | .error (e, s') => .error (e, s'.clear)

end

end Obake
