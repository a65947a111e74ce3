import Verif.Model.Poly

/-!
# Model of include/obake/power_series/power_series.hpp

A power series is a series whose tag is its truncation: none, a total degree, or a partial degree with a symbol set (the type `Trunc`, which is also the type of
the truncation arguments of the multiplication of polynomials).  The flyweight in which the library keeps the truncation is transparent and not modelled, nor is
the printing of power series.  The type of degrees is the type of the keys' degrees, an integral type; conversions to it are explicit (`Res Int`).
-/

namespace Obake

deriving instance DecidableEq for Trunc

/-- power_series.hpp:74-76: the default value of the variant is its first alternative. -/
instance {α : Type} : Inhabited (Trunc α) := ⟨.none⟩

/-- `std::variant::index()` of the truncation (power_series.hpp:74-76). -/
def Trunc.kind {α : Type} : Trunc α → Nat
  | .none => 0
  | .total _ => 1
  | .part _ _ => 2

section
variable {α : Type} {K : Type} {A B C : Type} [LinearOrder α]

/-! ## Truncation -/

/-- power_series.hpp:548-562 `truncate(ps)`; `power_series::truncate_degree/truncate_p_degree` (417-455) are those of polynomials. -/
def psTruncate (ko : KeyOps α K) (ps : Series α K C (Trunc α)) : Mut (Series α K C (Trunc α)) :=
  match ps.tag with
  | .none => .ok ps
  | .total d => truncateDegree ko ps d
  | .part d S => truncatePDegree ko ps d S

/-- power_series.hpp:462-492 `set_truncation_impl(ps, d)`; `deg` is the outcome of `safe_cast` of `d` to the type of degrees. -/
def setTruncation (ko : KeyOps α K) (ps : Series α K C (Trunc α)) (deg : Res Int) : Mut (Series α K C (Trunc α)) :=
  match deg with
  | .error e => .error (e, ps)
  | .ok d =>
    match truncateDegree ko ps d with
    | .error (e, ps') => .error (e, ps'.clear)
    | .ok ps' => .ok { ps' with tag := .total d }

/-- power_series.hpp:494-525 `set_truncation_impl(ps, d, ss)`. -/
def setTruncationP (ko : KeyOps α K) (ps : Series α K C (Trunc α)) (deg : Res Int) (S : List α) : Mut (Series α K C (Trunc α)) :=
  match deg with
  | .error e => .error (e, ps)
  | .ok d =>
    match truncatePDegree ko ps d S with
    | .error (e, ps') => .error (e, ps'.clear)
    | .ok ps' => .ok { ps' with tag := .part d S }

omit [LinearOrder α] in
/-- power_series.hpp:535-539 `unset_truncation(ps)`. -/
def unsetTruncation (ps : Series α K C (Trunc α)) : Series α K C (Trunc α) := { ps with tag := .none }

/-! ## Generators -/

/-- power_series.hpp:584-602 (`make_p_series_impl`, no truncation), 686-706 (`make_p_series_t_impl`, total degree), 795-815 (`make_p_series_p_impl`, partial degree): the lambda for one generator without a symbol set: the generator of polynomials, truncated. -/
def makePs [DecidableEq K] (ko : KeyOps α K) (ce : CEnv K C) (one : Res C) (tr : Trunc α) (s : α) : Res (Series α K C (Trunc α)) := do
  let r ← makePoly ko ce one s
  match tr with
  | .none => pure r
  | .total d => (setTruncation ko r (.ok d)).res
  | .part d S => (setTruncationP ko r (.ok d) S).res

/-- power_series.hpp:618-660 (no truncation), 727-773 (total degree), 837-884 (partial degree): the lambda for one generator over the symbol set `ss`. -/
def makePsIn [DecidableEq K] (ko : KeyOps α K) (ce : CEnv K C) (one : Res C) (tr : Trunc α) (ss : List α) (tmp : List Int) (s : α) :
    Res (Series α K C (Trunc α) × List Int) := do
  let (r, tmp) ← makeGen ko ce one ss tmp s
  match tr with
  | .none => pure (r, tmp)
  | .total d => do
    let r ← (setTruncation ko r (.ok d)).res
    pure (r, tmp)
  | .part d S => do
    let r ← (setTruncationP ko r (.ok d) S).res
    pure (r, tmp)

/-- `make_array(make_p_series(names)...)`. -/
def makePsLoop [DecidableEq K] (ko : KeyOps α K) (ce : CEnv K C) (one : Res C) (tr : Trunc α) (ss : List α) : List Int → List α → Res (List (Series α K C (Trunc α)))
  | _, [] => .ok []
  | tmp, s :: names => do
    let (p, tmp) ← makePsIn ko ce one tr ss tmp s
    let ps ← makePsLoop ko ce one tr ss tmp names
    pure (p :: ps)

/-! ## Addition and subtraction -/

variable [DecidableEq K]

/-- power_series.hpp:1007-1068 `ps_addsub_impl`, algorithm 2 (operands of the same rank). -/
def psAddSub (ko : KeyOps α K) (ce : CEnv K C) (sign : Bool) (cva : Conv A C) (cvb : Conv B C) (x : Series α K A (Trunc α)) (y : Series α K B (Trunc α)) :
    Res (Series α K C (Trunc α)) :=
  if x.tag.kind = y.tag.kind then
    if x.tag ≠ y.tag then .error .invalidArg
    else do
      let r ← addSub ko ce sign cva cvb x y
      pure { r with tag := x.tag }
  else if x.tag.kind = 0 ∨ y.tag.kind = 0 then do
    let orig := if y.tag.kind = 0 then x.tag else y.tag
    let r ← addSub ko ce sign cva cvb x y
    (psTruncate ko { r with tag := orig }).res
  else .error .invalidArg

/-- power_series.hpp:992-1006 `ps_addsub_impl`, algorithm 1 (an operand of lower rank). -/
def psAddSubScalar (ko : KeyOps α K) (ce : CEnv K C) (sign flip : Bool) (cv : Conv A C) (x : Series α K A (Trunc α)) (arg : Res C) : Res (Series α K C (Trunc α)) := do
  let r ← addSubScalar ko ce sign flip cv x arg
  (psTruncate ko r).res

/-- power_series.hpp:1158-1218 `ps_in_place_addsub_impl`, algorithm 2, for distinct objects; `mv` says whether `y` is an rvalue. -/
def psInPlace (ko : KeyOps α K) (ce : CEnv K C) (sign mv : Bool) (ceB : CEnv K B) (cvb : Conv B C) (x : Series α K C (Trunc α)) (y : Series α K B (Trunc α)) :
    Except (Exc × InPlace α K C B (Trunc α)) (InPlace α K C B (Trunc α)) :=
  if x.tag.kind = y.tag.kind then
    if x.tag ≠ y.tag then .error (.invalidArg, ⟨x, y⟩)
    else match inPlaceAddSub ko ce sign mv ceB cvb x y with
      | .error e => .error e
      | .ok r => .ok { r with lhs := { r.lhs with tag := x.tag } }
  else if x.tag.kind = 0 ∨ y.tag.kind = 0 then
    let orig := if y.tag.kind = 0 then x.tag else y.tag
    match inPlaceAddSub ko ce sign mv ceB cvb x y with
    | .error e => .error e
    | .ok r =>
      match psTruncate ko { r.lhs with tag := orig } with
      | .error (e, s) => .error (e, { r with lhs := s })
      | .ok s => .ok { r with lhs := s }
  else .error (.invalidArg, ⟨x, y⟩)

/-- power_series.hpp:1158-1218 on one object, `x ⊕= x`: its truncation is the same as its truncation. -/
def psInPlaceSelf (ko : KeyOps α K) (ce : CEnv K C) (sign : Bool) (x : Series α K C (Trunc α)) : Mut (Series α K C (Trunc α)) :=
  match inPlaceSelf ko ce sign x with
  | .error e => .error e
  | .ok r => .ok { r with tag := x.tag }

/-- power_series.hpp:1143-1157 `ps_in_place_addsub_impl`, algorithm 1. -/
def psInPlaceScalar (ko : KeyOps α K) (ce : CEnv K C) (sign : Bool) (x : Series α K C (Trunc α)) (arg : Res C) : Mut (Series α K C (Trunc α)) :=
  match inPlaceScalar ko ce sign x arg with
  | .error e => .error e
  | .ok r => psTruncate ko r

/-! ## Multiplication -/

/-- power_series.hpp:1284-1367 `series_mul`. -/
def psMul (ko : KeyOps α K) (ce : CEnv K C) (ceA : CEnv K A) (ceB : CEnv K B) (mo : MulOps A B C) (mo' : MulOps B A C) (ex : Exec α K A B C) (ex' : Exec α K B A C) (mv : MulEnv)
    (x : Series α K A (Trunc α)) (y : Series α K B (Trunc α)) : Res (Series α K C (Trunc α)) :=
  if x.tag.kind = y.tag.kind then
    if x.tag ≠ y.tag then .error .invalidArg
    else if x.tag.kind = 0 then polyMul ko ce ceA ceB mo mo' ex ex' mv .none x y
    else do
      let r ← polyMul ko ce ceA ceB mo mo' ex ex' mv x.tag x y
      pure { r with tag := x.tag }
  else if x.tag.kind = 0 then do
    let r ← polyMul ko ce ceA ceB mo mo' ex ex' mv y.tag x y
    pure { r with tag := y.tag }
  else if y.tag.kind = 0 then do
    let r ← polyMul ko ce ceA ceB mo mo' ex ex' mv x.tag x y
    pure { r with tag := x.tag }
  else .error .invalidArg

/-! ## Exponentiation, differentiation, integration -/

/-- power_series.hpp:1371-1386 `pow`; the products of `pow_poly_impl` are those of power series (`po.mul`). -/
def psPow (ko : KeyOps α K) (ce : CEnv K C) (po : PowOps α K C (Trunc α)) (c : PowCache α K C (Trunc α)) (x : Series α K C (Trunc α)) (e : Option Int) :
    Cached α K C (Trunc α) (Series α K C (Trunc α)) :=
  match polyPow ko ce po c x e with
  | (.error ex, c') => (.error ex, c')
  | (.ok r, c') => ((psTruncate ko { r with tag := x.tag }).res, c')

/-- power_series.hpp:1411-1416 `diff`, when the types of the coefficients do not change: no explicit truncation. -/
def psDiff (ko : KeyOps α K) (ce : CEnv K C) (cdiff : C → Res C) (mulI : C → Int → Res C) (x : Series α K C (Trunc α)) (s : α) : Res (Series α K C (Trunc α)) :=
  diffSeries ko ce cdiff mulI x s

/-- power_series.hpp:1426-1440 `integrate`, when the types of the coefficients do not change. -/
def psIntegrate (ko : KeyOps α K) (ce : CEnv K C) (cdz : C → Res Bool) (divI : C → Int → Res C) (x : Series α K C (Trunc α)) (s : α) : Res (Series α K C (Trunc α)) := do
  let r ← integrateSeries ko ce cdz divI x s
  (psTruncate ko r).res

end

/-! ## Serialisation of the truncation -/

/-- The values in an archive to which a truncation is written. -/
inductive TrTok (α : Type) where
  | idx (n : Nat)
  | unit
  | deg (d : Int)
  | degSyms (d : Int) (S : List α)

/-- power_series.hpp:97-105 `save`: the index of the alternative, and its value. -/
def saveTrunc {α : Type} (t : Trunc α) : List (TrTok α) :=
  match t with
  | .none => [.idx t.kind, .unit]
  | .total d => [.idx t.kind, .deg d]
  | .part d S => [.idx t.kind, .degSyms d S]

/-- power_series.hpp:107-159 `load` into `t`; a value of another type than the expected one, or the end of the archive, is an exception of the archive. -/
def loadTrunc {α : Type} (t : Trunc α) : List (TrTok α) → Mut (Trunc α × List (TrTok α))
  | .idx 0 :: .unit :: ar => .ok (.none, ar)
  | .idx 1 :: .deg d :: ar => .ok (.total d, ar)
  | .idx 2 :: .degSyms d S :: ar => .ok (.part d S, ar)
  | .idx (n + 3) :: ar => .error (.invalidArg, (t, ar))
  | ar => .error (.user, (t, ar))

end Obake
