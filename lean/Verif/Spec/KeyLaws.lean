import Verif.Model.Key
import Verif.Spec.Mono
import Verif.Props.Symbols
import Verif.Lemmas.PackedOps

/-!
# What the key types guarantee

`KeyLaws ko` states, in terms of exponent vectors, what the key operations `ko` do.  It is not an assumption about the library: the
laws are proved for both key types of the library (`pmLaws`, `dpmLaws` in Verif/Lemmas/KeyInst.lean), and every theorem about
series and polynomials that mentions a `KeyLaws` therefore holds for both.
-/

namespace Obake

/-- `Enc xs k`: the key `k` is the one constructed from the exponents `xs`. -/
structure KeyLaws {α K : Type _} [LinearOrder α] (ko : KeyOps α K) where
  Enc : List Int → K → Prop
  /-- the values of the type of degrees -/
  DegT : Int → Prop
  /-- the sequences whose left-to-right partial sums are computed without overflow -/
  DegFits : List Int → Prop
  ofExps : ∀ {xs k}, ko.ofExps xs = .ok k ↔ Enc xs k
  ofExps_err : ∀ {xs}, (¬ ∃ k, Enc xs k) → ko.ofExps xs = .error .overflow ∨ ko.ofExps xs = .error .safeCastFailure
  inj : ∀ {xs ys k}, Enc xs k → Enc ys k → xs.length = ys.length → xs = ys
  compat_total : ∀ k ss, ∃ b, ko.compat k ss = .ok b
  compat : ∀ {xs k} {ss : List α}, Enc xs k → ss.length = xs.length → ko.compat k ss = .ok true
  isZero : ∀ k ss, ko.isZero k ss = false
  isOne : ∀ {xs k} {ss : List α}, Enc xs k → ss.length = xs.length → (ko.isOne k ss = true ↔ ∀ x ∈ xs, x = 0)
  unit : ∀ {xs k} {ss : List α}, Enc xs k → ss.length = xs.length → Enc (List.replicate xs.length 0) (ko.unit ss)
  hash_lt : ∀ k, ko.hash k < 2 ^ 64
  hash_mul : ∀ {xs ys a b c}, Enc xs a → Enc ys b → xs.length = ys.length → Enc (List.zipWith (· + ·) xs ys) c →
    ∀ l ≤ 64, ko.hash c % 2 ^ l = (ko.hash a % 2 ^ l + ko.hash b % 2 ^ l) % 2 ^ l
  merge : ∀ {xs k} {ss : List α} {m : List (Nat × List α)}, Enc xs k → ss.length = xs.length →
    (m.Pairwise fun p q => p.1 < q.1) → (∀ p ∈ m, p.1 ≤ ss.length) →
    (∀ w, Enc (replay (zeroMap m) 0 xs) w → ko.merge k m ss = .ok w) ∧
    ((¬ ∃ w, Enc (replay (zeroMap m) 0 xs) w) → ko.merge k m ss = .error .overflow ∨ ko.merge k m ss = .error .safeCastFailure)
  mul : ∀ {xs ys a b c out} {ss : List α}, Enc xs a → Enc ys b → ss.length = xs.length → ss.length = ys.length →
    Enc (List.zipWith (· + ·) xs ys) c → ko.compat out ss = .ok true → ko.mul out a b ss = .ok c
  check : ∀ {E1 E2 : List (List Int)} {r1 r2 : List K} {ss : List α}, List.Forall₂ (fun x k => ss.length = x.length ∧ Enc x k) E1 r1 →
    List.Forall₂ (fun x k => ss.length = x.length ∧ Enc x k) E2 r2 → ∀ ra sp1 sp2,
    ∃ b, ko.check r1 r2 ss ra sp1 sp2 = .ok b ∧
      (b = true ↔ ∀ x ∈ E1, ∀ y ∈ E2, (∃ w, Enc (List.zipWith (· + ·) x y) w) ∧ DegT (List.zipWith (· + ·) x y).sum)
  degree : ∀ {xs k} {ss : List α}, Enc xs k → ss.length = xs.length →
    (DegFits xs → ko.degree k ss = .ok xs.sum) ∧ (¬ DegFits xs → ko.degree k ss = .error .overflow)
  pDegree : ∀ {xs k} {ss : List α} {si : List Nat}, Enc xs k → ss.length = xs.length → si.Pairwise (· < ·) → (∀ j ∈ si, j < xs.length) →
    (DegFits (si.map fun j => xs.getD j 0) → ko.pDegree k si ss = .ok (si.map fun j => xs.getD j 0).sum) ∧
    (¬ DegFits (si.map fun j => xs.getD j 0) → ko.pDegree k si ss = .error .overflow)
  degFits_sum : ∀ {xs}, DegFits xs → DegT xs.sum
  degAdd : ∀ {a b}, DegT (a + b) → ko.degAdd a b = .ok (a + b)
  pow : ∀ {xs k} {ss : List α} {e : Int}, Enc xs k → ss.length = xs.length →
    (∀ w, Enc (xs.map (· * e)) w → ko.pow k (some e) ss = .ok w) ∧
    ((¬ ∃ w, Enc (xs.map (· * e)) w) → ko.pow k (some e) ss = .error .overflow)
  pow_none : ∀ {xs k} {ss : List α}, Enc xs k → ss.length = xs.length → ko.pow k none ss = .error .invalidArg
  diff : ∀ {xs k} {ss : List α} {i : Nat}, Enc xs k → ss.length = xs.length → i < xs.length →
    (xs.getD i 0 = 0 → ko.diff k i ss = .ok (0, k)) ∧
    (xs.getD i 0 ≠ 0 → (∀ w, Enc (xs.set i (xs.getD i 0 - 1)) w → ko.diff k i ss = .ok (xs.getD i 0, w)) ∧
      ((¬ ∃ w, Enc (xs.set i (xs.getD i 0 - 1)) w) → ko.diff k i ss = .error .overflow))
  integrate : ∀ {xs k} {ss : List α} {i : Nat}, Enc xs k → ss.length = xs.length → i < xs.length →
    (xs.getD i 0 = -1 → ko.integrate k i ss = .error .domain) ∧
    (xs.getD i 0 ≠ -1 → (∀ w, Enc (xs.set i (xs.getD i 0 + 1)) w → ko.integrate k i ss = .ok (xs.getD i 0 + 1, w)) ∧
      ((¬ ∃ w, Enc (xs.set i (xs.getD i 0 + 1)) w) → ko.integrate k i ss = .error .overflow))
  trimIdentify : ∀ {xs k} {ss : List α} {fl : List Nat}, Enc xs k → ss.length = xs.length → fl.length = xs.length →
    ko.trimIdentify fl k ss = .ok (List.zipWith (fun f x => if x ≠ 0 then 0 else f) fl xs)
  trim : ∀ {xs k} {ss : List α} {si : List Nat}, Enc xs k → ss.length = xs.length → si.Pairwise (· < ·) → (∀ j ∈ si, j < xs.length) →
    ∃ w, ko.trim k si ss = .ok w ∧ Enc (keepIdx si 0 xs) w

end Obake
