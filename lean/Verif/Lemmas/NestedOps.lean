import Verif.Lemmas.Nested
import Verif.Lemmas.Degree
import Verif.Lemmas.Trim

/-! # Operations on polynomials of any rank -/

set_option linter.unusedSimpArgs false
set_option linter.unusedVariables false
set_option linter.unusedSectionVars false

namespace Obake

open AddMonoidAlgebra (single)

variable {α : Type} {K : Nat → Type} {C R : Type} [LinearOrder α] [∀ n, DecidableEq (K n)] [CommRing R] {ko : (n : Nat) → KeyOps α (K n)} {ce : CEnv (K 0) C} {V : Val C R} {E : Exc → Prop}
variable {mo : MulOps C C C} {M : MulEnv → Prop} {rp : RankPar α K C}

theorem rankMulI_sat (he : EnvSpec ce V E) (L : ∀ n, KeyLaws (ko n)) (hm : MulSpec mo V V V E) (hM : ∀ mv, M mv → ∀ e, mv.est = .error e → SubsErr E e)
    (hp : rp.Ok ko ce mo M E) {mulI : C → Int → Res C} (hi : ∀ c m, V.G c → ArgSpec V E (mulI c m) (V.v c * (m : R))) :
    ∀ (n : Nat) (c : RankN α K C n) (m : Int), (valN ko V n).G c → ArgSpec (valN ko V n) (SubsErr E) (rankMulI ko ce mulI rp n c m) ((valN ko V n).v c * (m : RingN R α n)) := by
  intro n
  induction n with
  | zero => exact fun c m hc => (hi c m hc).subsErr
  | succ n ih =>
    intro c m hc
    have hs := (rank_spec (rp := rp) he L hm hM hp n).1
    have := scalarMul_sat (T := Unit) (R := RingN R α n) (cv := .same) (bz := .ok (decide (m = 0))) (mulB := fun c => rankMulI ko ce mulI rp n c m) (b := (m : RingN R α n)) hs (L n) (fun a h => ⟨h, rfl⟩)
      (by show decide (m = 0) = true → _; intro h; rw [of_decide_eq_true h]; simp) (fun c hc => ih c m hc) hc
    refine this.post ?_
    rintro r ⟨r1, _, _, r4, _⟩
    refine ⟨r1, ?_⟩
    show den (ko n) (valN ko V n) r = (den (R := RingN R α n) (ko n) (valN ko V n) c) * ((m : Poly (RingN R α n) α))
    rw [r4, mul_comm, AddMonoidAlgebra.intCast_def]
    ext μ
    rw [AddMonoidAlgebra.coeff_single_zero_mul, AddMonoidAlgebra.coeff_smul]
    rfl

theorem DiffErr.subsErr {T C K : Type} {ko : KeyOps α K} {x : Series α K C T} {s : α} {e : Exc} (h : DiffErr ko (SubsErr E) x s e) : SubsErr E e := by
  rcases h with h | ⟨h, _⟩ | ⟨h, _⟩
  · exact h
  · exact Or.inr (Or.inl h)
  · exact Or.inr (Or.inl h)

theorem rankDiff_sat (he : EnvSpec ce V E) (L : ∀ n, KeyLaws (ko n)) (hm : MulSpec mo V V V E) (hM : ∀ mv, M mv → ∀ e, mv.est = .error e → SubsErr E e)
    (hp : rp.Ok ko ce mo M E) {mulI : C → Int → Res C} (hi : ∀ c m, V.G c → ArgSpec V E (mulI c m) (V.v c * (m : R))) {cdiff : C → Res C} {D : R → R} (hD : ∀ a b, D (a + b) = D a + D b)
    (hd : ∀ c, V.G c → ArgSpec V E (cdiff c) (D (V.v c))) (s : α) :
    ∀ (n : Nat) (c : RankN α K C n), (valN ko V n).G c → ArgSpec (valN ko V n) (SubsErr E) (rankDiff ko ce mulI cdiff rp s n c) (derN D s n ((valN ko V n).v c)) := by
  intro n
  induction n with
  | zero => exact fun c hc => (hd c hc).subsErr
  | succ n ih =>
    intro c hc
    have hs := (rank_spec (rp := rp) he L hm hM hp n).1
    have := diffSeries_sat (T := Unit) (R := RingN R α n) hs (L n) (derN_add hD s n) ih (fun c m hc => rankMulI_sat he L hm hM hp hi n c m hc) hc s
    refine this.imp (fun e h => h.subsErr) ?_
    rintro r ⟨r1, _, _, _, r5⟩
    exact ⟨r1, r5⟩

theorem rankEval_sat {U R' : Type} [CommRing R'] (L : ∀ n, KeyLaws (ko n)) {kev : (n : Nat) → K n → List (Nat × U) → List α → Res R'} {pw : U → ℤ → R'} (h0 : ∀ u, pw u 0 = 1)
    (hk : ∀ n, KeyEvalSpec (ko n) (kev n) pw E) {φ : R →+* R'} {cev : C → Res R'} (hc : ∀ c, V.G c → Sat (cev c) E fun x => x = φ (V.v c)) {sm : List (α × U)} (hm : (sm.map (·.1)).Pairwise (· < ·))
    {pt : α → U} (hpt : ∀ a u, assoc sm a = some u → pt a = u) :
    ∀ (n : Nat) (c : RankN α K C n), (valN ko V n).G c → Sat (rankEval kev cev sm n c) (fun e => E e ∨ e = .invalidArg) fun x => x = evalNHom φ pw pt n ((valN ko V n).v c) := by
  intro n
  induction n with
  | zero => exact fun c h => (hc c h).err (fun e h => Or.inl h)
  | succ n ih =>
    intro c h
    have := evaluate_sat (T := Unit) (R := RingN R α n) (E := fun e => E e ∨ e = .invalidArg) (L n) h0 (fun ss xs k us h1 h2 h3 => (hk n ss xs k us h1 h2 h3).err fun e h => Or.inl h) ih h hm
    refine this.imp ?_ ?_
    · rintro e (h | ⟨h, _⟩)
      · exact h
      · exact Or.inr h
    · rintro r ⟨r1, r2⟩
      refine r2 pt fun x hx => ?_
      obtain ⟨u, hu⟩ := Option.isSome_iff_exists.1 (r1 x hx)
      rw [hu, hpt x u hu]

theorem rankTrim_sat (he : EnvSpec ce V E) (L : ∀ n, KeyLaws (ko n)) (hm : MulSpec mo V V V E) (hM : ∀ mv, M mv → ∀ e, mv.est = .error e → SubsErr E e)
    (hp : rp.Ok ko ce mo M E) {ctrim : C → Res C} (hc : ∀ c, V.G c → ArgSpec V E (ctrim c) (V.v c)) :
    ∀ (n : Nat) (c : RankN α K C n), (valN ko V n).G c → ArgSpec (valN ko V n) (SubsErr E) (rankTrim ko ce ctrim rp n c) ((valN ko V n).v c) := by
  intro n
  induction n with
  | zero => exact fun c h => (hc c h).subsErr
  | succ n ih =>
    intro c h
    have hs := (rank_spec (rp := rp) he L hm hM hp n).1
    have := trimSeries_sat (T := Unit) (R := RingN R α n) hs (L n) ih h
    refine this.post ?_
    rintro r ⟨r1, _, r3, _⟩
    exact ⟨r1, r3⟩

/-- `d` is the maximum of the total degrees of the exponent vectors in `S`, and 0 if `z`. -/
def IsMaxTdeg (z : Prop) (S : Set (α →₀ ℤ)) (d : ℤ) : Prop := (z → d = 0) ∧ (¬ z → ∃ ν ∈ S, d = tdeg ν) ∧ ∀ ν ∈ S, tdeg ν ≤ d

theorem rankDegree_sat (L : ∀ n, KeyLaws (ko n)) {dadd : Int → Int → Res Int} (ha : ∀ a b, Sat (dadd a b) (fun e => e = .overflow) fun d => d = a + b) :
    ∀ (n : Nat) (x : RankN α K C (n + 1)), (valN ko V (n + 1)).G x → Sat (rankDegree ko dadd n x) (fun e => e = .overflow) (IsMaxTdeg ((valN ko V (n + 1)).v x = 0) (suppN (n + 1) ((valN ko V (n + 1)).v x))) := by
  intro n
  induction n with
  | zero =>
    show ∀ x : Series α (K 0) C Unit, SeriesInv (ko 0) V x → Sat (seriesDegree (dexKey (ko 0) x.ss) x) (fun e => e = .overflow) (IsMaxTdeg (den (ko 0) V x = 0) { ν | ∃ μ ∈ (den (ko 0) V x).coeff.support, ∃ ρ ∈ ({0} : Set (α →₀ ℤ)), ν = ρ + μ })
    intro x hx
    refine (seriesDegree_sat (d := fun p => tdeg (mon (ko 0) x.ss p.1)) (E := fun e => e = .overflow) fun p hp => ?_).post ?_
    · exact (degree_sat (L 0) (hx.term hp).1).imp (fun e h => h.1) fun d h => h.1
    · rintro d ⟨h1, h2, h3⟩
      rw [IsMaxTdeg, den_eq_zero_iff (L 0) hx]
      refine ⟨h1, ?_, ?_⟩
      · intro h
        obtain ⟨p, hp, e⟩ := h2 h
        exact ⟨_, ⟨_, (exists_term (L 0) hx).2 ⟨p, hp, rfl⟩, 0, rfl, (zero_add _).symm⟩, e⟩
      · rintro ν ⟨μ, hμ, ρ, hρ, rfl⟩
        rw [Set.mem_singleton_iff] at hρ
        subst hρ
        obtain ⟨p, hp, rfl⟩ := (exists_term (L 0) hx).1 hμ
        rw [zero_add]
        exact h3 p hp
  | succ n ih =>
    have key : ∀ x : Series α (K (n + 1)) (RankN α K C (n + 1)) Unit, SeriesInv (R := RingN R α (n + 1)) (ko (n + 1)) (valN ko V (n + 1)) x →
        Sat (seriesDegree (dexBoth (ko (n + 1)) (rankDegree ko dadd n) dadd x.ss) x) (fun e => e = .overflow) (IsMaxTdeg (den (R := RingN R α (n + 1)) (ko (n + 1)) (valN ko V (n + 1)) x = 0)
          { ν | ∃ μ ∈ (den (R := RingN R α (n + 1)) (ko (n + 1)) (valN ko V (n + 1)) x).coeff.support, ∃ ρ ∈ suppN (n + 1) ((den (R := RingN R α (n + 1)) (ko (n + 1)) (valN ko V (n + 1)) x).coeff μ), ν = ρ + μ }) := by
      intro x hx
      have hcf : ∀ p ∈ x.terms, (den (R := RingN R α (n + 1)) (ko (n + 1)) (valN ko V (n + 1)) x).coeff (mon (ko (n + 1)) x.ss p.1) = (valN ko V (n + 1)).v p.2 := fun p hp => coeff_den_mem (L (n + 1)) hx hp
      refine (seriesDegree_rel (Q := fun p d => ∃ e, d = tdeg (mon (ko (n + 1)) x.ss p.1) + e ∧ IsMaxTdeg ((valN ko V (n + 1)).v p.2 = 0) (suppN (n + 1) ((valN ko V (n + 1)).v p.2)) e) (E := fun e => e = .overflow)
        fun p hp => ?_).post ?_
      · unfold dexBoth
        refine Sat.bind ((degree_sat (L (n + 1)) (hx.term hp).1).imp (fun e h => h.1) fun d h => h.1) ?_
        rintro a rfl
        refine Sat.bind (ih p.2 (hx.term hp).2.1) ?_
        intro b hb
        refine (ha _ _).post ?_
        rintro d rfl
        exact ⟨b, rfl, hb⟩
      · rintro d ⟨h1, h2, h3⟩
        rw [IsMaxTdeg, den_eq_zero_iff (R := RingN R α (n + 1)) (L (n + 1)) hx]
        refine ⟨h1, ?_, ?_⟩
        · intro h
          obtain ⟨p, hp, e, rfl, hm⟩ := h2 h
          obtain ⟨ρ, hρ, rfl⟩ := hm.2.1 ((hx.term hp).2.2.1 trivial)
          refine ⟨ρ + mon (ko (n + 1)) x.ss p.1, ⟨_, (exists_term (R := RingN R α (n + 1)) (L (n + 1)) hx).2 ⟨p, hp, rfl⟩, ρ, ?_, rfl⟩, by rw [tdeg_add, add_comm]⟩
          rw [hcf p hp]; exact hρ
        · rintro ν ⟨μ, hμ, ρ, hρ, rfl⟩
          obtain ⟨p, hp, rfl⟩ := (exists_term (R := RingN R α (n + 1)) (L (n + 1)) hx).1 hμ
          rw [hcf p hp] at hρ
          obtain ⟨_, ⟨e, rfl, hm⟩, hle⟩ := h3 p hp
          have := hm.2.2 ρ hρ
          rw [tdeg_add]
          omega
    exact key

/-! ## Operands of lower rank -/

theorem single_zero_ne {S : Type} [CommRing S] {a b : S} : (single 0 a : Poly S α) = single 0 b ↔ a = b := ⟨fun h => single_inj_right h, fun h => by rw [h]⟩

/-- The constants, as a ring homomorphism. -/
noncomputable def constNHom (R α : Type) [LinearOrder α] [CommRing R] (m : Nat) : (k : Nat) → RingN R α m →+* RingN R α (m + k)
  | 0 => RingHom.id _
  | k + 1 => (AddMonoidAlgebra.singleZeroRingHom (R := RingN R α (m + k)) (M := α →₀ ℤ)).comp (constNHom R α m k)

theorem constNHom_apply (m : Nat) : ∀ (k : Nat) (c : RingN R α m), constNHom R α m k c = constN m k c := by
  intro k
  induction k with
  | zero => intro c; rfl
  | succ k ih =>
    intro c
    show (single 0 (constNHom R α m k c) : Poly (RingN R α (m + k)) α) = single 0 (constN m k c)
    rw [ih]

theorem constN_zero (m k : Nat) : constN m k (0 : RingN R α m) = 0 := by rw [← constNHom_apply, map_zero]

theorem constN_inj (m : Nat) : ∀ (k : Nat) {c d : RingN R α m}, constN m k c = constN m k d → c = d := by
  intro k
  induction k with
  | zero => exact fun h => h
  | succ k ih => exact fun h => ih (single_inj_right (R := RingN R α (m + k)) h)

theorem constN_eq_zero (m k : Nat) {c : RingN R α m} : constN m k c = 0 ↔ c = 0 := ⟨fun h => constN_inj m k (h.trans (constN_zero m k).symm), fun h => by rw [h, constN_zero]⟩

theorem liftN_sat (he : EnvSpec ce V E) (L : ∀ n, KeyLaws (ko n)) (hm : MulSpec mo V V V E) (hM : ∀ mv, M mv → ∀ e, mv.est = .error e → SubsErr E e)
    (hp : rp.Ok ko ce mo M E) (hu : ∀ n, IsKey (ko n) [] ((ko n).unit [])) (m : Nat) :
    ∀ (k : Nat) (c : RankN α K C m), (valN ko V m).G c → ArgSpec (valN ko V (m + k)) (SubsErr E) (liftN ko ce rp m k c) (constN m k ((valN ko V m).v c)) := by
  intro k
  induction k with
  | zero => exact fun c hc => ⟨hc, rfl⟩
  | succ k ih =>
    intro c hc
    have hs := (rank_spec (rp := rp) he L hm hM hp (m + k)).1
    refine (fromScalar_sat (T := Unit) (R := RingN R α (m + k)) hs (L (m + k)) List.Pairwise.nil (hu (m + k)) (ih c hc)).post ?_
    rintro r ⟨r1, _, _, _, r5⟩
    exact ⟨r1, r5⟩

theorem lowMul_sat (he : EnvSpec ce V E) (L : ∀ n, KeyLaws (ko n)) (hm : MulSpec mo V V V E) (hM : ∀ mv, M mv → ∀ e, mv.est = .error e → SubsErr E e)
    (hp : rp.Ok ko ce mo M E) (m : Nat) :
    ∀ (k : Nat) (x : RankN α K C (m + k)) (c : RankN α K C m), (valN ko V (m + k)).G x → (valN ko V m).G c →
      ArgSpec (valN ko V (m + k)) (SubsErr E) (lowMul ko ce rp m k x c) ((valN ko V (m + k)).v x * constN m k ((valN ko V m).v c)) := by
  have hs0 := (rank_spec (rp := rp) he L hm hM hp m).1
  intro k
  induction k with
  | zero => exact fun x c hx hc => hs0.mul hx hc
  | succ k ih =>
    intro x c hx hc
    have hs := (rank_spec (rp := rp) he L hm hM hp (m + k)).1
    have := scalarMul_sat (T := Unit) (R := RingN R α (m + k)) (cv := .same) (bz := (rankEnv ko ce rp m).isZero c) (mulB := fun d => lowMul ko ce rp m k d c) (b := constN m k ((valN ko V m).v c)) hs (L (m + k)) (fun a h => ⟨h, rfl⟩)
      ((hs0.isZero hc).post fun b h hb => (constN_eq_zero m k).2 (h.1 hb)) (fun d hd => ih d c hd hc) hx
    refine this.post ?_
    rintro r ⟨r1, _, _, r4, _⟩
    refine ⟨r1, ?_⟩
    show den (ko (m + k)) (valN ko V (m + k)) r = (den (R := RingN R α (m + k)) (ko (m + k)) (valN ko V (m + k)) x) * ((single 0 (constN m k ((valN ko V m).v c)) : Poly (RingN R α (m + k)) α))
    rw [r4, mul_comm]
    ext μ
    rw [AddMonoidAlgebra.coeff_single_zero_mul, AddMonoidAlgebra.coeff_smul]
    rfl

theorem lowEq_sat (he : EnvSpec ce V E) (L : ∀ n, KeyLaws (ko n)) (hm : MulSpec mo V V V E) (hM : ∀ mv, M mv → ∀ e, mv.est = .error e → SubsErr E e)
    (hp : rp.Ok ko ce mo M E) (m : Nat) :
    ∀ (k : Nat) (x : RankN α K C (m + k)) (c : RankN α K C m), (valN ko V (m + k)).G x → (valN ko V m).G c →
      Sat (lowEq ko ce rp m k x c) (SubsErr E) fun b => b = true ↔ (valN ko V (m + k)).v x = constN m k ((valN ko V m).v c) := by
  have hs0 := (rank_spec (rp := rp) he L hm hM hp m).1
  intro k
  induction k with
  | zero => exact fun x c hx hc => hs0.eq hx hc
  | succ k ih =>
    intro x c hx hc
    refine (seriesEqScalar_sat (T := Unit) (R := RingN R α (m + k)) (r := constN m k ((valN ko V m).v c)) (L (m + k)) ?_ (fun d hd => ih d c hd hc) hx).post ?_
    · exact (hs0.isZero hc).post fun b h => by rw [h, constN_eq_zero]
    · intro b h
      exact h

theorem lowerN_sat (L : ∀ n, KeyLaws (ko n)) (m : Nat) :
    ∀ (k : Nat) (x : RankN α K C (m + 1 + k)), (valN ko V (m + 1 + k)).G x →
      Sat (lowerN ko m k x) (fun e => e = .invalidArg ∧ ¬ ∃ r, (valN ko V (m + 1 + k)).v x = constN (m + 1) k r) fun r => (valN ko V (m + 1)).G r ∧ (valN ko V (m + 1 + k)).v x = constN (m + 1) k ((valN ko V (m + 1)).v r) := by
  intro k
  induction k with
  | zero => exact fun x hx => ⟨hx, rfl⟩
  | succ k ih =>
    intro x hx
    refine (fromHigher_sat' (T := Unit) (R := RingN R α (m + 1 + k)) (E := fun r e => e = .invalidArg ∧ ¬ ∃ r', r = constN (m + 1) k r') (Q := fun r y => (valN ko V (m + 1)).G y ∧ r = constN (m + 1) k ((valN ko V (m + 1)).v y)) (L (m + 1 + k)) ?_ (fun c hc => ih c hc) hx).imp ?_ ?_
    · refine ⟨emptyS_ok (ko := ko m) (V := valN ko V m) (T := Unit) (ss := []) (l := 0) (tag := ()) List.Pairwise.nil (Nat.zero_le _), ?_⟩
      have : den (ko m) (valN ko V m) (emptyS [] 0 () : Series α (K m) (RankN α K C m) Unit) = 0 := emptyS_den _ _ _
      exact (constN_zero (m + 1) k).symm.trans (congrArg (constN (R := R) (α := α) (m + 1) k) this.symm)
    · rintro e (⟨r, hr, h1, h2⟩ | ⟨h1, h2⟩)
      · refine ⟨h1, fun ⟨r', h'⟩ => h2 ⟨r', ?_⟩⟩
        exact single_inj_right (R := RingN R α (m + 1 + k)) (hr.symm.trans h')
      · exact ⟨h1, fun ⟨r', h'⟩ => h2 ⟨_, h'⟩⟩
    · rintro y ⟨r, h1, h2, h3⟩
      refine ⟨h2, ?_⟩
      refine Eq.trans (b := (single 0 r : Poly (RingN R α (m + 1 + k)) α)) h1 ?_
      rw [h3]; rfl

theorem lowerCf_sat (L : ∀ n, KeyLaws (ko n)) {zero : Res C} (hz : ArgSpec V E zero 0) :
    ∀ (k : Nat) (x : RankN α K C (0 + k)), (valN ko V (0 + k)).G x →
      Sat (lowerCf ko zero k x) (fun e => E e ∨ e = .invalidArg ∧ ¬ ∃ r : R, (valN ko V (0 + k)).v x = constN 0 k r) fun r => V.G r ∧ (valN ko V (0 + k)).v x = constN 0 k (V.v r) := by
  intro k
  induction k with
  | zero => exact fun x hx => ⟨hx, rfl⟩
  | succ k ih =>
    intro x hx
    refine (toScalar_sat' (T := Unit) (R := RingN R α (0 + k)) (E := fun r e => E e ∨ e = .invalidArg ∧ ¬ ∃ r' : R, r = constN 0 k r') (Q := fun r y => V.G y ∧ r = constN 0 k (V.v y)) (L (0 + k)) ?_ (fun c hc => ih c hc) hx).imp ?_ ?_
    · refine hz.imp (fun e h => Or.inl h) ?_
      rintro y ⟨h1, h2⟩
      refine ⟨h1, ?_⟩
      rw [h2]
      exact (constN_zero (R := R) (α := α) 0 k).symm
    · rintro e (⟨r, hr, h1 | ⟨h1, h2⟩⟩ | ⟨h1, h2⟩)
      · exact Or.inl h1
      · refine Or.inr ⟨h1, fun ⟨r', h'⟩ => h2 ⟨r', ?_⟩⟩
        exact single_inj_right (R := RingN R α (0 + k)) (hr.symm.trans h')
      · exact Or.inr ⟨h1, fun ⟨r', h'⟩ => h2 ⟨_, h'⟩⟩
    · rintro y ⟨r, h1, h2, h3⟩
      refine ⟨h2, ?_⟩
      refine Eq.trans (b := (single 0 r : Poly (RingN R α (0 + k)) α)) h1 ?_
      rw [h3]; rfl

theorem flatN_constN (m : Nat) : ∀ (k : Nat) (c : RingN R α m), flatN (m + k) (constN m k c) = flatN m c := by
  intro k
  induction k with
  | zero => intro c; rfl
  | succ k ih =>
    intro c
    show flat (S := RingN R α (m + k)) (flatN (m + k)) (single 0 (constN m k c)) = flatN m c
    rw [flat_single (by rw [← flatNHom_apply, map_zero]), ih]
    exact mul_one _

end Obake
