import Verif.Spec.NestedExpr
import Verif.Props.Nested
import Verif.Props.Expr

/-! # Expressions over objects of any ranks -/

set_option linter.unusedSectionVars false
set_option linter.unusedVariables false

namespace Obake

open AddMonoidAlgebra (single)

section
variable {R α : Type} [LinearOrder α] [CommRing R]

theorem upTo_self {n : Nat} (c : RingN R α n) : upTo (le_refl n) c = c := Nat.leRecOn_self c

theorem upTo_succ {n N : Nat} (h : n ≤ N) (h' : n ≤ N + 1) (c : RingN R α n) : upTo h' c = (show RingN R α (N + 1) from (single 0 (upTo h c) : Poly (RingN R α N) α)) := Nat.leRecOn_succ h c

theorem upTo_constN (m : Nat) : ∀ (k : Nat) (c : RingN R α m), upTo (Nat.le_add_right m k) c = constN m k c := by
  intro k
  induction k with
  | zero => exact fun c => upTo_self c
  | succ k ih =>
    intro c
    rw [upTo_succ (Nat.le_add_right m k) _ c, ih]
    rfl

theorem upTo_trans {m n N : Nat} (h : m ≤ n) (h' : n ≤ N) (c : RingN R α m) : upTo h' (upTo h c) = upTo (h.trans h') c := (Nat.leRecOn_trans h h' c).symm

/-- The constants, as a ring homomorphism. -/
theorem upTo_hom {n N : Nat} (h : n ≤ N) : ∃ φ : RingN R α n →+* RingN R α N, ∀ c, φ c = upTo h c := by
  obtain ⟨k, rfl⟩ := Nat.exists_eq_add_of_le h
  exact ⟨constNHom R α n k, fun c => by rw [constNHom_apply, upTo_constN]⟩

theorem upTo_inj {n N : Nat} (h : n ≤ N) {c d : RingN R α n} (he : upTo h c = upTo h d) : c = d := by
  obtain ⟨k, rfl⟩ := Nat.exists_eq_add_of_le h
  rw [upTo_constN, upTo_constN] at he
  exact constN_inj n k he

theorem flatN_upTo {n N : Nat} (h : n ≤ N) (c : RingN R α n) : flatN N (upTo h c) = flatN n c := by
  obtain ⟨k, rfl⟩ := Nat.exists_eq_add_of_le h
  rw [upTo_constN, flatN_constN]

theorem derN_eq (D : R → R) (s : α) : ∀ n, derN D s n = derivN D s n := by
  intro n
  induction n with
  | zero => rfl
  | succ n ih =>
    show (fun P => derivP (R := RingN R α n) (derN D s n) s P) = fun P => derivP (R := RingN R α n) (derivN D s n) s P
    rw [ih]

theorem derivN_add {D : R → R} (hD : ∀ a b, D (a + b) = D a + D b) (s : α) (n : Nat) (P Q : RingN R α n) : derivN D s n (P + Q) = derivN D s n P + derivN D s n Q := by
  rw [← derN_eq]; exact derN_add hD s n P Q

theorem derivN_mul {D : R → R} (hD : ∀ a b, D (a + b) = D a + D b) (hM : ∀ a b, D (a * b) = a * D b + D a * b) (s : α) : ∀ (n : Nat) (P Q : RingN R α n), derivN D s n (P * Q) = P * derivN D s n Q + derivN D s n P * Q := by
  intro n
  induction n with
  | zero => exact hM
  | succ n ih => exact fun P Q => derivP_mul (R := RingN R α n) (derivN_add hD s n) ih s P Q

theorem derivN_upTo {D : R → R} (hD : ∀ a b, D (a + b) = D a + D b) (s : α) {n N : Nat} (h : n ≤ N) (c : RingN R α n) : derivN D s N (upTo h c) = upTo h (derivN D s n c) := by
  induction N, h using Nat.le_induction with
  | base => rw [upTo_self, upTo_self]
  | succ N h ih =>
    rw [upTo_succ h, upTo_succ h]
    have h0 : derivN D s N (0 : RingN R α N) = 0 := by
      have := derivN_add hD s N (0 : RingN R α N) 0
      simpa using this
    show derivP (R := RingN R α N) (derivN D s N) s (single 0 (upTo h c)) = single 0 (upTo h (derivN D s n c))
    rw [derivP_single (R := RingN R α N) h0, ih]
    simp

/-- The derivative as a derivation. -/
noncomputable def derivationN {D : R → R} (hD : ∀ a b, D (a + b) = D a + D b) (hM : ∀ a b, D (a * b) = a * D b + D a * b) (s : α) (n : Nat) : Derivation ℤ (RingN R α n) (RingN R α n) :=
  Derivation.mk' (AddMonoidHom.mk' (derivN D s n) (derivN_add hD s n)).toIntLinearMap fun P Q => by
    show derivN D s n (P * Q) = P • derivN D s n Q + Q • derivN D s n P
    rw [derivN_mul hD hM, smul_eq_mul, smul_eq_mul, mul_comm Q]

end

section
variable {ι α S S' : Type} [CommRing S] [CommRing S']

theorem Ex.val_hom (j : S →+* S') {d : α → S → S} {d' : α → S' → S'} (hd : ∀ s x, j (d s x) = d' s (j x)) (f : ι → S) : ∀ e : Ex ι α, j (e.val d f) = e.val d' fun i => j (f i) := by
  intro e
  induction e with
  | var i => rfl
  | neg a ih => rw [Ex.val, Ex.val, map_neg, ih]
  | bin op a b iha ihb =>
    rw [Ex.val, Ex.val, ← iha, ← ihb]
    cases op
    · exact map_add j _ _
    · exact map_sub j _ _
    · exact map_mul j _ _
  | pow a n ih => rw [Ex.val, Ex.val, map_pow, ih]
  | diff a s ih => rw [Ex.val, Ex.val, hd, ih]

end

section
variable {ι α : Type} {K : Nat → Type} {C R : Type} [LinearOrder α] [∀ n, DecidableEq (K n)] [CommRing R] {ko : (n : Nat) → KeyOps α (K n)} {ce : CEnv (K 0) C} {V : Val C R} {E : Exc → Prop}
variable {rp : RankPar α K C} {D : α → R → R} {o : AnyOps α C}

theorem val_eq {N : Nat} {x : AnyRank α K C} (h : x.1 ≤ N) : x.val ko V N = upTo h ((valN ko V x.1).v x.2) := dif_pos h

theorem anyOf_sat {n : Nat} {r : Res (RankN α K C n)} {E' : Exc → Prop} {P : AnyRank α K C → Prop} (h : Sat r E' fun x => P ⟨n, x⟩) : Sat (anyOf n r) E' P := by
  cases r with
  | ok x => exact h
  | error e => exact h

/-- What a binary operation must do: the rank is the larger one, the state is legal and the value is the given one in all rings of sufficient rank. -/
def BinOk (ko : (n : Nat) → KeyOps α (K n)) (V : Val C R) (op : {S : Type} → [CommRing S] → S → S → S) (u v w : AnyRank α K C) : Prop :=
  w.1 = max u.1 v.1 ∧ w.Legal ko V ∧ (∀ a ∈ w.syms, a ∈ u.syms ∨ a ∈ v.syms) ∧ ∀ N, w.1 ≤ N → w.val ko V N = op (u.val ko V N) (v.val ko V N)

theorem val_self {n : Nat} (x : RankN α K C n) : AnyRank.val ko V n ⟨n, x⟩ = (valN ko V n).v x := (val_eq (x := (⟨n, x⟩ : AnyRank α K C)) (le_refl n)).trans (upTo_self _)

theorem val_add {m : Nat} (k : Nat) (x : RankN α K C m) : AnyRank.val ko V (m + k) ⟨m, x⟩ = constN m k ((valN ko V m).v x) := (val_eq (x := (⟨m, x⟩ : AnyRank α K C)) (Nat.le_add_right m k)).trans (upTo_constN m k _)

theorem binOk_of {op : {S : Type} → [CommRing S] → S → S → S} (hop : ∀ {S S' : Type} [CommRing S] [CommRing S'] (φ : S →+* S') (a b : S), φ (op a b) = op (φ a) (φ b)) {u v : AnyRank α K C} {n : Nat} {w : RankN α K C n}
    (h1 : n = max u.1 v.1) (h2 : (valN ko V n).G w) (hss : ∀ a ∈ AnyRank.syms ⟨n, w⟩, a ∈ u.syms ∨ a ∈ v.syms) (h3 : (valN ko V n).v w = op (u.val ko V n) (v.val ko V n)) : BinOk ko V op u v ⟨n, w⟩ := by
  refine ⟨h1, h2, hss, fun N hN => ?_⟩
  have hu : u.1 ≤ n := h1 ▸ le_max_left _ _
  have hv : v.1 ≤ n := h1 ▸ le_max_right _ _
  obtain ⟨φ, hφ⟩ := upTo_hom (R := R) (α := α) hN
  rw [val_eq hN, val_eq (hu.trans hN), val_eq (hv.trans hN), ← upTo_trans hu hN, ← upTo_trans hv hN, ← val_eq hu, ← val_eq hv]
  show upTo hN ((valN ko V n).v w) = _
  rw [h3, ← hφ, hop, hφ, hφ]

theorem addAt_sat (ho : AnySpec ko ce rp V E D o) (L : ∀ n, KeyLaws (ko n)) {A : α → Prop} (hu : ∀ n ss, IsSymSet ss → (∀ a ∈ ss, A a) → IsKey (ko n) ss ((ko n).unit ss)) (sign : Bool) {m n : Nat} (c : RankCmp m n) (x : RankN α K C m) (y : RankN α K C n)
    (hx : (valN ko V m).G x) (hy : (valN ko V n).G y) (hxA : ∀ a ∈ AnyRank.syms ⟨m, x⟩, A a) (hyA : ∀ a ∈ AnyRank.syms ⟨n, y⟩, A a) :
    Sat (addAt ko ce rp sign c x y) (SubsErr E) (BinOk ko V (fun a b => if sign then a + b else a - b) ⟨m, x⟩ ⟨n, y⟩) := by
  have hop : ∀ {S S' : Type} [CommRing S] [CommRing S'] (φ : S →+* S') (a b : S), φ (if sign then a + b else a - b) = if sign then φ a + φ b else φ a - φ b := by
    intro S S' _ _ φ a b; cases sign
    · exact map_sub φ a b
    · exact map_add φ a b
  have hu0 : ∀ n, IsKey (ko n) [] ((ko n).unit []) := fun n => hu n [] List.Pairwise.nil (fun a h => nomatch h)
  cases c with
  | eq =>
    refine anyOf_sat ?_
    cases m with
    | zero =>
      have h : Sat (sameAdd ko ce rp sign 0 x y) (SubsErr E) fun w : C => V.G w ∧ V.v w = if sign then V.v x + V.v y else V.v x - V.v y := by
        cases sign
        · exact ((ho.env.sub hx hy).imp (fun _ h => Or.inl h) fun _ h => h)
        · exact ((ho.env.add hx hy).imp (fun _ h => Or.inl h) fun _ h => h)
      refine h.post fun w hw => binOk_of hop (by simp) hw.1 (fun a h => nomatch h) ?_
      rw [val_self, val_self]
      exact hw.2
    | succ n =>
      refine ((C55_arithmetic ho.env L ho.mul ho.est ho.par n x y hx hy).1 sign).post ?_
      rintro w ⟨h1, hw, h2⟩
      refine binOk_of (n := n + 1) (w := w) hop (by simp) h1 (fun a h => (hw a).1 h) ?_
      rw [val_self, val_self]
      exact h2
  | lt _ k =>
    refine anyOf_sat ((C55_mixed_add ho.env L ho.mul ho.est ho.par hu0 m k sign true y hy (hu _ _ (SerOk.sym hy) hyA) x hx).post ?_)
    rintro w ⟨h1, hw, h2⟩
    refine binOk_of (n := m + (k + 1)) (w := w) hop (by simp) h1 (fun a h => Or.inr (show a ∈ y.ss by rw [← hw]; exact h)) ?_
    rw [val_self, val_add]
    refine Eq.trans h2 ?_
    cases sign <;> rfl
  | gt _ k =>
    refine anyOf_sat ((C55_mixed_add ho.env L ho.mul ho.est ho.par hu0 n k sign false x hx (hu _ _ (SerOk.sym hx) hxA) y hy).post ?_)
    rintro w ⟨h1, hw, h2⟩
    refine binOk_of (n := n + (k + 1)) (w := w) hop (by simp) h1 (fun a h => Or.inl (show a ∈ x.ss by rw [← hw]; exact h)) ?_
    rw [val_self, val_add]
    refine Eq.trans h2 ?_
    cases sign <;> rfl

theorem mulAt_sat (ho : AnySpec ko ce rp V E D o) (L : ∀ n, KeyLaws (ko n)) {mul : (n : Nat) → Series α (K n) (RankN α K C n) Unit → Series α (K n) (RankN α K C n) Unit → Res (Series α (K n) (RankN α K C n) Unit)}
    (hmul : ∀ n, IsMul (ko n) (rankEnv ko ce rp n) (rankMul ko ce o.mo rp n) o.M (mul n)) {m n : Nat} (c : RankCmp m n) (x : RankN α K C m) (y : RankN α K C n) (hx : (valN ko V m).G x) (hy : (valN ko V n).G y) :
    Sat (mulAt ko ce rp (sameMul ce mul) c x y) (SubsErr E) (BinOk ko V (fun a b => a * b) ⟨m, x⟩ ⟨n, y⟩) := by
  have hop : ∀ {S S' : Type} [CommRing S] [CommRing S'] (φ : S →+* S') (a b : S), φ (a * b) = φ a * φ b := fun φ a b => map_mul φ a b
  cases c with
  | eq =>
    refine anyOf_sat ?_
    cases m with
    | zero =>
      refine (ho.env.mul hx hy).imp (fun _ h => Or.inl h) fun w hw => binOk_of (n := 0) (w := w) hop (by simp) hw.1 (fun a h => nomatch h) ?_
      rw [val_self, val_self]
      exact hw.2
    | succ n =>
      obtain ⟨hs, hms⟩ := rank_spec (rp := rp) ho.env L ho.mul ho.est ho.par n
      refine (isMul_sat hs (L n) hms (fun mv h e h' => Or.inl (ho.est mv h e h')) (hmul n) hx hy).imp (fun e => subsErr_idem) ?_
      rintro w ⟨h1, hw, h2⟩
      refine binOk_of (n := n + 1) (w := w) hop (by simp) h1 (fun a h => (setUnion_mem x.ss y.ss a).1 (show a ∈ setUnion x.ss y.ss by rw [← hw]; exact h)) ?_
      rw [val_self, val_self]
      exact h2
  | lt _ k =>
    refine anyOf_sat (((C55_mixed_mul ho.env L ho.mul ho.est ho.par m (k + 1) y hy x hx).and (C55_mixed_mul_symbols ho.env L ho.mul ho.est ho.par m k y hy x hx)).imp (fun e h => h.1) ?_)
    rintro w ⟨⟨h1, h2⟩, _, hw⟩
    refine binOk_of (n := m + (k + 1)) (w := w) hop (by simp) h1 (fun a h => Or.inr (show a ∈ y.ss by rw [← hw]; exact h)) ?_
    rw [val_self, val_add, mul_comm]
    exact h2
  | gt _ k =>
    refine anyOf_sat (((C55_mixed_mul ho.env L ho.mul ho.est ho.par n (k + 1) x hx y hy).and (C55_mixed_mul_symbols ho.env L ho.mul ho.est ho.par n k x hx y hy)).imp (fun e h => h.1) ?_)
    rintro w ⟨⟨h1, h2⟩, _, hw⟩
    refine binOk_of (n := n + (k + 1)) (w := w) hop (by simp) h1 (fun a h => Or.inl (show a ∈ x.ss by rw [← hw]; exact h)) ?_
    rw [val_self, val_add]
    exact h2

theorem eqAt_sat (ho : AnySpec ko ce rp V E D o) (L : ∀ n, KeyLaws (ko n)) {m n : Nat} (c : RankCmp m n) (x : RankN α K C m) (y : RankN α K C n) (hx : (valN ko V m).G x) (hy : (valN ko V n).G y) {N : Nat} (hm : m ≤ N) (hn : n ≤ N) :
    Sat (eqAt ko ce rp c x y) (SubsErr E) fun b => b = true ↔ AnyRank.val ko V N ⟨m, x⟩ = AnyRank.val ko V N ⟨n, y⟩ := by
  rw [val_eq (x := (⟨m, x⟩ : AnyRank α K C)) hm, val_eq (x := (⟨n, y⟩ : AnyRank α K C)) hn]
  cases c with
  | eq =>
    refine ((rank_spec (rp := rp) ho.env L ho.mul ho.est ho.par m).1.eq hx hy).post fun b hb => ?_
    rw [hb]
    exact ⟨fun h => by dsimp only; rw [h], fun h => upTo_inj _ h⟩
  | lt _ k =>
    refine (C55_mixed_equality ho.env L ho.mul ho.est ho.par m (k + 1) y hy x hx).post fun b hb => ?_
    rw [hb, ← upTo_constN, ← upTo_trans (Nat.le_add_right m (k + 1)) hn]
    exact ⟨fun h => by dsimp only; rw [h], fun h => (upTo_inj _ h).symm⟩
  | gt _ k =>
    refine (C55_mixed_equality ho.env L ho.mul ho.est ho.par n (k + 1) x hx y hy).post fun b hb => ?_
    rw [hb, ← upTo_constN, ← upTo_trans (Nat.le_add_right n (k + 1)) hm]
    exact ⟨fun h => by dsimp only; rw [h], fun h => upTo_inj _ h⟩

theorem literalN_sat (ho : AnySpec ko ce rp V E D o) (L : ∀ n, KeyLaws (ko n)) (hu : ∀ n, IsKey (ko n) [] ((ko n).unit [])) {lit : Res C} {r : R} (hl : ArgSpec V E lit r) :
    ∀ n, ArgSpec (valN ko V n) (SubsErr E) (literalN ko ce rp lit n) (upTo (Nat.zero_le n) (show RingN R α 0 from r)) := by
  intro n
  induction n with
  | zero => exact hl.subsErr
  | succ n ih =>
    have hs := (rank_spec (rp := rp) ho.env L ho.mul ho.est ho.par n).1
    refine (fromScalar_sat (T := Unit) (R := RingN R α n) hs (L n) List.Pairwise.nil (hu n) ih).post ?_
    rintro w ⟨h1, _, _, _, h2⟩
    refine ⟨h1, Eq.trans h2 ?_⟩
    rw [upTo_succ (Nat.zero_le n)]

theorem powN_sat (ho : AnySpec ko ce rp V E D o) (L : ∀ n, KeyLaws (ko n)) (hu : ∀ n, IsKey (ko n) [] ((ko n).unit [])) :
    ∀ (n : Nat) (x : RankN α K C n) (j : Nat) (r : Res (RankN α K C n)), j < 2 ^ 32 → (valN ko V n).G x → powN ko ce rp V o n x j r → Sat r (SubsErr E) fun w => (valN ko V n).G w ∧ (valN ko V n).v w = (valN ko V n).v x ^ j ∧ ∀ a ∈ AnyRank.syms ⟨n, w⟩, a ∈ AnyRank.syms ⟨n, x⟩ := by
  intro n
  induction n with
  | zero =>
    intro c j r hj hc h
    have h' : r = o.cpow c j := h
    rw [h']
    exact (ho.cpow c j hj hc).subsErr.post fun w hw => ⟨hw.1, hw.2, fun a h => nomatch h⟩
  | succ n ih =>
    intro x j r hj hx h
    obtain ⟨po, hist, p1, p2, p3, p4, p5, p6, rfl⟩ := h
    obtain ⟨hs, hms⟩ := rank_spec (rp := rp) ho.env L ho.mul ho.est ho.par n
    obtain ⟨φ, hφ⟩ := upTo_hom (R := R) (α := α) (Nat.zero_le n)
    have hz := literalN_sat (n := n) ho L hu ho.zero
    have hone := literalN_sat (n := n) ho L hu ho.one
    rw [← hφ, show φ (show RingN R α 0 from (0 : R)) = 0 from map_zero φ] at hz
    rw [← hφ, show φ (show RingN R α 0 from (1 : R)) = 1 from map_one φ] at hone
    have hp : PowSpec (ko n) (rankEnv ko ce rp n) (rankMul ko ce o.mo rp n) o.M po (valN ko V n) (SubsErr E) :=
      { zero := by rw [p2]; exact hz
        one := by rw [p3]; exact hone
        cpow := fun c i hi hc => (ih c i _ hi hc (p1 c i hi hc)).post fun w hw => ⟨hw.1, hw.2.1⟩
        ceq := fun a b ha hb => by rw [p4]; exact hs.eq ha hb
        mul := p5 }
    refine (C36_pow hs (L n) hms (hu n) hp hist p6 x hx j hj).imp (fun e h => subsErr_idem (h.subsErr fun mv hM e he => Or.inl (ho.est mv hM e he))) ?_
    rintro w ⟨h1, h2, _, hw⟩
    refine ⟨h1, h2, fun a h => ?_⟩
    have h : a ∈ w.ss := h
    rcases hw with hw | ⟨hw, _⟩
    · rw [hw] at h; exact h
    · rw [hw] at h; cases h

theorem anyDiff_sat (ho : AnySpec ko ce rp V E D o) (L : ∀ n, KeyLaws (ko n)) (s : α) (u : AnyRank α K C) (hu : u.Legal ko V) :
    Sat (anyDiff ko ce rp o.mulI (o.cdiff s) s u) (SubsErr E) fun w => w.1 = u.1 ∧ w.Legal ko V ∧ (∀ a ∈ w.syms, a ∈ u.syms) ∧ ∀ N, w.1 ≤ N → w.val ko V N = derivN (D s) s N (u.val ko V N) := by
  obtain ⟨n, x⟩ := u
  refine anyOf_sat ?_
  have h1 := rankDiff_sat (rp := rp) ho.env L ho.mul ho.est ho.par ho.mulI (ho.dadd s) (ho.diff s) s n x hu
  have h2 : Sat (rankDiff ko ce o.mulI (o.cdiff s) rp s n x) (SubsErr E) fun w => ∀ a ∈ AnyRank.syms ⟨n, w⟩, a ∈ AnyRank.syms ⟨n, x⟩ := by
    cases n with
    | zero => exact h1.post fun w _ a h => nomatch h
    | succ n =>
      have hs := (rank_spec (rp := rp) ho.env L ho.mul ho.est ho.par n).1
      have := diffSeries_sat (T := Unit) (R := RingN R α n) hs (L n) (derN_add (ho.dadd s) s n) (fun c hc => rankDiff_sat (rp := rp) ho.env L ho.mul ho.est ho.par ho.mulI (ho.dadd s) (ho.diff s) s n c hc)
        (fun c m hc => rankMulI_sat ho.env L ho.mul ho.est ho.par ho.mulI n c m hc) hu s
      refine this.imp (fun e h => h.subsErr) ?_
      rintro r ⟨_, r2, _⟩ a h
      have h : a ∈ r.ss := h
      rw [r2] at h
      exact h
  refine (h1.and h2).imp (fun e h => h.1) ?_
  rintro w ⟨⟨w1, w2⟩, w3⟩
  refine ⟨rfl, w1, w3, fun N hN => ?_⟩
  rw [val_eq hN, val_eq (x := (⟨n, x⟩ : AnyRank α K C)) hN, derivN_upTo (ho.dadd s), ← derN_eq (D s) s n]
  exact congrArg _ w2

theorem anyNeg_sat (ho : AnySpec ko ce rp V E D o) (L : ∀ n, KeyLaws (ko n)) (u : AnyRank α K C) (hu : u.Legal ko V) :
    Sat (anyNeg ko ce rp u) (SubsErr E) fun w => w.1 = u.1 ∧ w.Legal ko V ∧ (∀ a ∈ w.syms, a ∈ u.syms) ∧ ∀ N, w.1 ≤ N → w.val ko V N = - u.val ko V N := by
  obtain ⟨n, x⟩ := u
  refine anyOf_sat ?_
  have h1 : Sat ((rankEnv ko ce rp n).neg x) (SubsErr E) fun w => (valN ko V n).G w ∧ (valN ko V n).v w = - (valN ko V n).v x := (rank_spec (rp := rp) ho.env L ho.mul ho.est ho.par n).1.neg hu
  have h2 : Sat ((rankEnv ko ce rp n).neg x) (SubsErr E) fun w => ∀ a ∈ AnyRank.syms ⟨n, w⟩, a ∈ AnyRank.syms ⟨n, x⟩ := by
    cases n with
    | zero => exact h1.post fun w _ a h => nomatch h
    | succ n =>
      refine ((C55_arithmetic ho.env L ho.mul ho.est ho.par n x x hu hu).2.2.1).post ?_
      rintro r ⟨_, r2, _⟩ a h
      have h : a ∈ r.ss := h
      rw [r2] at h
      exact h
  refine (h1.and h2).imp (fun e h => h.1) ?_
  rintro w ⟨⟨w1, w2⟩, w3⟩
  refine ⟨rfl, w1, w3, fun N hN => ?_⟩
  obtain ⟨φ, hφ⟩ := upTo_hom (R := R) (α := α) (n := n) (N := N) hN
  rw [val_eq hN, val_eq (x := (⟨n, x⟩ : AnyRank α K C)) hN, ← hφ, ← hφ, ← map_neg]
  exact congrArg _ w2

theorem evals_any (ho : AnySpec ko ce rp V E D o) (L : ∀ n, KeyLaws (ko n)) {A : α → Prop} (hu : ∀ n ss, IsSymSet ss → (∀ a ∈ ss, A a) → IsKey (ko n) ss ((ko n).unit ss)) {ρ : ι → AnyRank α K C} (hρ : ∀ i, (ρ i).Legal ko V)
    (hA : ∀ i, ∀ a ∈ (ρ i).syms, A a) {e : Ex ι α} {r : Res (AnyRank α K C)} (he : e.ExpOk) (h : Evals (anyPrims ko ce rp V o) ρ e r) :
    Sat r (SubsErr E) fun u => u.1 = e.rank (fun i => (ρ i).1) ∧ u.Legal ko V ∧ (∀ a ∈ u.syms, ∃ i, e.Uses i ∧ a ∈ (ρ i).syms) ∧
      ∀ N, u.1 ≤ N → u.val ko V N = e.val (fun s => derivN (D s) s N) fun i => (ρ i).val ko V N := by
  have hu0 : ∀ n, IsKey (ko n) [] ((ko n).unit []) := fun n => hu n [] List.Pairwise.nil (fun a h => nomatch h)
  induction h with
  | var i => exact ⟨rfl, hρ i, fun a ha => ⟨i, rfl, ha⟩, fun N _ => rfl⟩
  | negE _ ih => exact (ih he :)
  | binL _ ih => exact (ih he.1 :)
  | binR _ ih => exact (ih he.2 :)
  | powE _ ih => exact (ih he.1 :)
  | diffE _ ih => exact (ih he :)
  | neg _ hr ih =>
    obtain ⟨i1, i2, i3, i4⟩ := ih he
    rw [show _ = _ from hr]
    refine (anyNeg_sat ho L _ i2).post ?_
    rintro w ⟨w1, w2, w3, w4⟩
    exact ⟨w1.trans i1, w2, fun a ha => i3 a (w3 a ha), fun N hN => by rw [w4 N hN, i4 N (w1 ▸ hN), Ex.val]⟩
  | @bin op a b u v r _ _ hr iha ihb =>
    obtain ⟨a1, a2, a3, a4⟩ := iha he.1
    obtain ⟨b1, b2, b3, b4⟩ := ihb he.2
    have haA : ∀ c ∈ u.syms, A c := fun c hc => by obtain ⟨i, _, h⟩ := a3 c hc; exact hA i c h
    have hbA : ∀ c ∈ v.syms, A c := fun c hc => by obtain ⟨i, _, h⟩ := b3 c hc; exact hA i c h
    have hfin : ∀ (op' : {S : Type} → [CommRing S] → S → S → S), (∀ N, @op' (RingN R α N) _ = fun x y => BOp.val op x y) → ∀ w, BinOk ko V op' u v w → w.1 = (Ex.bin op a b).rank (fun i => (ρ i).1) ∧ w.Legal ko V ∧ (∀ c ∈ w.syms, ∃ i, (Ex.bin op a b).Uses i ∧ c ∈ (ρ i).syms) ∧
        ∀ N, w.1 ≤ N → w.val ko V N = (Ex.bin op a b).val (fun s => derivN (D s) s N) fun i => (ρ i).val ko V N := by
      rintro op' hop w ⟨w1, w2, w3, w4⟩
      refine ⟨by rw [w1, a1, b1, Ex.rank], w2, fun c hc => ?_, fun N hN => ?_⟩
      · rcases w3 c hc with h | h
        · obtain ⟨i, h1, h2⟩ := a3 c h
          exact ⟨i, Or.inl h1, h2⟩
        · obtain ⟨i, h1, h2⟩ := b3 c h
          exact ⟨i, Or.inr h1, h2⟩
      · rw [w4 N hN, Ex.val, ← a4 N (le_trans (by rw [w1]; exact le_max_left _ _) hN), ← b4 N (le_trans (by rw [w1]; exact le_max_right _ _) hN)]
        exact congrFun (congrFun (hop N) _) _
    cases op with
    | add =>
      rw [show r = _ from hr]
      exact (addAt_sat ho L hu true (rankCmp u.1 v.1) u.2 v.2 a2 b2 haA hbA).post (hfin _ fun N => rfl)
    | sub =>
      rw [show r = _ from hr]
      exact (addAt_sat ho L hu false (rankCmp u.1 v.1) u.2 v.2 a2 b2 haA hbA).post (hfin _ fun N => rfl)
    | mul =>
      obtain ⟨mul, hmul, rfl⟩ := hr
      exact (mulAt_sat ho L hmul (rankCmp u.1 v.1) u.2 v.2 a2 b2).post (hfin _ fun N => rfl)
  | @pow a n u r _ hr ih =>
    obtain ⟨i1, i2, i3, i4⟩ := ih he.1
    obtain ⟨q, hq, rfl⟩ := hr
    refine anyOf_sat ((powN_sat ho L hu0 u.1 u.2 n q he.2 i2 hq).post ?_)
    rintro w ⟨w1, w2, w3⟩
    refine ⟨i1, w1, fun c hc => i3 c (w3 c hc), fun N hN => ?_⟩
    have hN : u.1 ≤ N := hN
    obtain ⟨φ, hφ⟩ := upTo_hom (R := R) (α := α) hN
    rw [Ex.val, ← i4 N hN, val_eq hN, val_eq (x := (⟨u.1, w⟩ : AnyRank α K C)) hN, ← hφ, ← hφ, ← map_pow]
    exact congrArg _ w2
  | @diff a s u r _ hr ih =>
    obtain ⟨i1, i2, i3, i4⟩ := ih he
    rw [show r = _ from hr]
    refine (anyDiff_sat ho L s u i2).post ?_
    rintro w ⟨w1, w2, w3, w4⟩
    exact ⟨w1.trans i1, w2, fun c hc => i3 c (w3 c hc), fun N hN => by rw [w4 N hN, i4 N (w1 ▸ hN), Ex.val]⟩

end

end Obake
