import Verif.Lemmas.PowCache
import Verif.Lemmas.PolyMul3
import Verif.Lemmas.SeriesConv
import Verif.Lemmas.PolyGen
import Verif.Lemmas.SeriesMisc
import Verif.Spec.PolyPow

/-! # Exponentiation of polynomials -/

set_option linter.unusedSimpArgs false
set_option linter.unusedVariables false
set_option linter.unusedSectionVars false

namespace Obake

open AddMonoidAlgebra (single)

variable {α K C T R : Type} [LinearOrder α] [DecidableEq K] [DecidableEq T] [Inhabited T] [CommRing R] {ko : KeyOps α K} {ce : CEnv K C} {V : Val C R} {E : Exc → Prop}
  {mo : MulOps C C C} {M : MulEnv → Prop} {po : PowOps α K C T}

theorem polyMul_same_sat {A B : Type} {ceA : CEnv K A} {ceB : CEnv K B} {VA : Val A R} {VB : Val B R} {mo : MulOps A B C} {mo' : MulOps B A C} {mv : MulEnv} {tr : Trunc α} {x : Series α K A T} {y : Series α K B T}
    {ex : Exec α K A B C} {ex' : Exec α K B A C} (hex : IsPar ko ce mo ex) (hex' : IsPar ko ce mo' ex') (he : EnvSpec ce V E) (L : KeyLaws ko) (hm : MulSpec mo VA VB V E) (hm' : MulSpec mo' VB VA V E)
    (hx : SerOk ko VA True x) (hy : SerOk ko VB True y) (hss : x.ss = y.ss) (htr : tr.SymOk) (hps : PartSafe L tr x.ss (den ko VA x) (den ko VB y)) :
    Sat (polyMul ko ce ceA ceB mo mo' ex ex' mv tr x y) (MulErr1 L E mv tr x.ss (den ko VA x) (den ko VB y)) fun r =>
      SerOk ko V True r ∧ r.ss = x.ss ∧ r.tag = default ∧ AllFit L x.ss (den ko VA x) (den ko VB y) ∧ IsTrunc tr (den ko VA x * den ko VB y) (den ko V r) := by
  unfold polyMul
  split
  · rename_i hsz
    unfold mulMerge
    simp only [hsz, decide_true, cassert_tt, res_ok_bind]
    rw [if_pos hss]
    exact mulIdentical_sat hex he L hm hx hy hss htr hsz hps
  · rename_i hsz
    have hsz : y.size ≤ x.size := by omega
    unfold mulMerge
    simp only [hsz, decide_true, cassert_tt, res_ok_bind]
    rw [if_pos hss.symm]
    rw [hss] at hps ⊢
    refine (mulIdentical_sat hex' he L hm' hy hx hss.symm htr hsz hps.symm).imp ?_ ?_
    · intro e h; exact h.symm
    · rintro r ⟨h1, h2, h3, h4, h5⟩
      exact ⟨h1, h2, h3, h4.symm, by rwa [mul_comm]⟩

/-- What the cache stores for the exponent `i`. -/
def IsPower (ko : KeyOps α K) (V : Val C R) (b : Series α K C T) (i : Nat) (p : Series α K C T) : Prop :=
  SerOk ko V True p ∧ den ko V p = den ko V b ^ i ∧ p.ss = (if i = 0 then [] else b.ss) ∧ p.tag = default

theorem fill_sat (he : EnvSpec ce V E) (L : KeyLaws ko) (hm : MulSpec mo V V V E) {b : Series α K C T} (hb : SerOk ko V True b) (hne : b.terms ≠ [])
    {i : Nat} {p : Series α K C T} (hp : IsPower ko V b i p) {o : Res (Series α K C T)} (ho : PolyProd ko ce mo M p b o) : Sat o (PowErr1 L E M V b i) (IsPower ko V b (i + 1)) := by
  obtain ⟨ex, ex', mv, hex, hex', hmv, rfl⟩ := ho
  obtain ⟨p1, p2, p3, p4⟩ := hp
  have hMul1 : ∀ e, MulErr1 L E mv .none b.ss (den ko V p) (den ko V b) e → PowErr1 L E M V b i e := by
    rw [p2]
    rintro e (⟨h, h'⟩ | ⟨_, h | ⟨h, h' | h'⟩ | h | ⟨h, n, hn, Z, hZ, h'⟩⟩)
    · exact Or.inr (Or.inl ⟨h, h'⟩)
    · exact Or.inl h
    · obtain ⟨μ, _, h'⟩ := h'; exact absurd trivial h'
    · obtain ⟨μ, _, h'⟩ := h'; exact absurd trivial h'
    · exact Or.inr (Or.inr (Or.inr ⟨mv, hmv, Or.inl h⟩))
    · rw [isTrunc_none hZ, ← pow_succ] at h'
      exact Or.inr (Or.inr (Or.inr ⟨mv, hmv, Or.inr ⟨h, n, hn, h'⟩⟩))
  by_cases hi : i = 0
  · rw [if_pos hi] at p3
    have hu : setUnion p.ss b.ss = b.ss := by rw [p3]; simp [setUnion]
    refine (polyMul_sat (tr := .none) hex hex' he he he L hm hm p1 hb trivial (fun d S h => by cases h)).imp ?_ ?_
    · rw [hu]
      rintro e (h | (h | ⟨h, q, hq, h'⟩ | ⟨h, h', h''⟩) | (h | ⟨h, q, hq, h'⟩ | ⟨h, h', h''⟩))
      · exact hMul1 e h
      · exact Or.inl h
      · obtain ⟨t, ts, ht⟩ := List.exists_cons_of_ne_nil hne
        have hkt := (hb.term (p := t) (by rw [ht]; simp)).1
        have hun := isKey_unit L hkt
        refine absurd ⟨ko.unit b.ss, hun, ?_⟩ h'
        rw [mon_unit L hun, p3]
        obtain ⟨xs, hl, hen⟩ := (isKey_iff L).1 (p3 ▸ (p1.term hq).1 : IsKey ko [] q.1)
        rw [mon_eq L hl hen]
        cases xs with
        | nil => simp [mono]
        | cons _ _ => simp at hl
      · by_cases hpl : p.log2 = 0
        · exact absurd hpl h'
        · exfalso
          have : p.size ≤ 1 := by
            rw [size_eq_card L p1, p2, hi, pow_zero, AddMonoidAlgebra.one_def]
            rw [AddMonoidAlgebra.coeff_single]
            exact (Finset.card_le_card Finsupp.support_single_subset).trans (by simp)
          have hl := p1.log2
          have : 1 ≤ maxTableSize p.log2 := (by decide : 1 ≤ maxTableSize maxLog2).trans (maxTableSize_anti hl)
          omega
      · exact Or.inl h
      · exact absurd ⟨q.1, (hb.term hq).1, rfl⟩ h'
      · exact Or.inr (Or.inr (Or.inl ⟨h, _, h', hb.log2, h''⟩))
    · rintro r ⟨h1, h2, h3, _, h4⟩
      refine ⟨h1, ?_, ?_, h3⟩
      · rw [isTrunc_none h4, p2, pow_succ]
      · rw [h2, hu, if_neg (by omega)]
  · rw [if_neg hi] at p3
    refine (polyMul_same_sat (tr := .none) hex hex' he L hm hm p1 hb p3 trivial (fun d S h => by cases h)).imp ?_ ?_
    · rw [p3]; exact hMul1
    · rintro r ⟨h1, h2, h3, _, h4⟩
      refine ⟨h1, ?_, ?_, h3⟩
      · rw [isTrunc_none h4, p2, pow_succ]
      · rw [h2, p3, if_neg (by omega)]


/-- The bases in the cache. -/
def CacheBase (ko : KeyOps α K) (V : Val C R) (b : Series α K C T) : Prop := SeriesInv ko V b ∧ b.terms ≠ []

theorem fromOne_sat (he : EnvSpec ce V E) (L : KeyLaws ko) (h0 : IsKey ko [] (ko.unit [])) {one : Res C} (h1 : ArgSpec V E one 1) (b : Series α K C T) :
    Sat (fromScalar ko ce [] one : Res (Series α K C T)) E (IsPower ko V b 0) := by
  refine (fromScalar_sat he L (by simp [IsSymSet]) h0 h1).post ?_
  rintro s ⟨h1, h2, h3, h4, h5⟩
  refine ⟨h1, ?_, by rw [h2, if_pos rfl], h4⟩
  rw [h5, pow_zero, AddMonoidAlgebra.one_def]

theorem cmp_sat (L : KeyLaws ko) {ceq : C → C → Res Bool} (hc : EqSpec ceq V V E) :
    CmpSpec (CacheBase ko V) (IsPower ko V) E (PowErr1 (T := T) L E M V) (areIdentical ko ceq) := by
  intro a b ha hb
  refine (areIdentical_sat L hc ha.1 hb.1).post ?_
  intro r hr h
  obtain ⟨h1, h2, h3⟩ := hr.1 h
  constructor
  · rintro i p ⟨p1, p2, p3, p4⟩
    exact ⟨p1, by rw [p2, h3], by rw [p3, h1], p4⟩
  · rintro i e (h | ⟨h, h'⟩ | h | h)
    · exact Or.inl h
    · rw [h1, h3] at h'; exact Or.inr (Or.inl ⟨h, h'⟩)
    · rw [size_eq_card L ha.1, h3, ← size_eq_card L hb.1] at h; exact Or.inr (Or.inr (Or.inl h))
    · rw [h3] at h; exact Or.inr (Or.inr (Or.inr h))

theorem Copied.ne_nil {x x' : Series α K C T} (h : Copied x x') (hx : x.terms ≠ []) : x'.terms ≠ [] := by
  intro h0
  have := h.terms
  rw [h0] at this
  exact hx this.nil_eq.symm

theorem copySpec_poly (he : EnvSpec ce V E) (L : KeyLaws ko) : CopySpec (CacheBase ko V) (IsPower ko V) E (PowErr1 (T := T) L E M V) (copySeries ce) where
  base b hb := by
    refine (copySeries_sat he b).post ?_
    intro b' h
    refine ⟨⟨h.ok hb.1, h.ne_nil hb.2⟩, ?_, ?_⟩
    · rintro i p ⟨p1, p2, p3, p4⟩
      exact ⟨p1, by rw [p2, h.den], by rw [p3, h.ss], p4⟩
    · intro i e h'
      unfold PowErr1 at h' ⊢
      rw [h.den, h.ss, h.size] at h'
      exact h'
  power b i p hp := by
    refine (copySeries_sat he p).post ?_
    obtain ⟨p1, p2, p3, p4⟩ := hp
    intro p' h
    exact ⟨h.ok p1, by rw [h.den, p2], by rw [h.ss, p3], by rw [h.tag, p4]⟩

theorem powCached_poly (he : EnvSpec ce V E) (L : KeyLaws ko) (hm : MulSpec mo V V V E) (h0 : IsKey ko [] (ko.unit [])) (hp : PowSpec ko ce mo M po V E) {hash : Series α K C T → Nat}
    {c : PowCache α K C T} (hc : CacheOk (CacheBase ko V) (IsPower ko V) c) {b : Series α K C T} (hb : CacheBase ko V b) (n : Nat) :
    Sat (powCached (copySeries ce) hash (areIdentical ko po.ceq) po.mul (fromScalar ko ce [] po.one) c b n).1 (FillErr E (PowErr1 L E M V) b n) (IsPower ko V b n) ∧
    CacheOk (CacheBase ko V) (IsPower ko V) (powCached (copySeries ce) hash (areIdentical ko po.ceq) po.mul (fromScalar ko ce [] po.one) c b n).2 :=
  powCached_sat (copySpec_poly he L) (cmp_sat L hp.ceq) (fun b _ => fromOne_sat he L h0 hp.one b)
    (fun b i p hb hpw => fill_sat he L hm hb.1 hb.2 hpw (hp.mul p b)) hc hb n

theorem polyPow_many (he : EnvSpec ce V E) (L : KeyLaws ko) (hm : MulSpec mo V V V E) (h0 : IsKey ko [] (ko.unit [])) (hp : PowSpec ko ce mo M po V E)
    {c : PowCache α K C T} (hc : CacheOk (CacheBase ko V) (IsPower ko V) c) {x : Series α K C T} (hx : SeriesInv ko V x) (h2 : 2 ≤ x.size) (e : Option Int) :
    (polyPow ko ce po c x e = match e with
      | none => (.error .invalidArg, c)
      | some e => if e = 0 then (fromScalar ko ce [] po.one, c)
        else if 0 ≤ e ∧ e < 2 ^ 32 then powCached (copySeries ce) (powHash ko po.thash) (areIdentical ko po.ceq) po.mul (fromScalar ko ce [] po.one) c x e.toNat
        else (.error .invalidArg, c)) ∧ CacheBase ko V x := by
  constructor
  · unfold polyPow
    rw [if_neg (by omega)]
    unfold defaultPow
    have : x.isSingleCf ko = .ok false := by
      unfold Series.isSingleCf
      obtain ⟨k, hk⟩ : ∃ k, x.size = k + 2 := ⟨x.size - 2, by omega⟩
      rw [hk]; rfl
    rw [this]
    rfl
  · refine ⟨hx, ?_⟩
    intro h
    rw [size_eq, h] at h2
    simp at h2

theorem polyPow_cache (he : EnvSpec ce V E) (L : KeyLaws ko) (hm : MulSpec mo V V V E) (h0 : IsKey ko [] (ko.unit [])) (hp : PowSpec ko ce mo M po V E)
    {c : PowCache α K C T} (hc : CacheOk (CacheBase ko V) (IsPower ko V) c) {x : Series α K C T} (hx : SeriesInv ko V x) (e : Option Int) :
    CacheOk (CacheBase ko V) (IsPower ko V) (polyPow ko ce po c x e).2 := by
  by_cases h2 : 2 ≤ x.size
  · obtain ⟨h, hb⟩ := polyPow_many he L hm h0 hp hc hx h2 e
    rw [h]
    cases e with
    | none => exact hc
    | some e =>
      dsimp only
      split
      · exact hc
      · split
        · exact (powCached_poly he L hm h0 hp hc hb _).2
        · exact hc
  · unfold polyPow
    split
    · exact hc
    · unfold defaultPow
      have : x.isSingleCf ko = .ok true := by
        unfold Series.isSingleCf
        rw [show x.size = 0 by omega]; rfl
      rw [this]
      dsimp only
      split <;> exact hc

theorem pow_key (L : KeyLaws ko) {ss : List α} (hs : IsSymSet ss) {k : K} (hk : IsKey ko ss k) (e : Int) :
    Sat (ko.pow k (some e) ss) (fun x => x = .overflow ∧ ¬ Rep ko ss (e • mon ko ss k)) fun w => IsKey ko ss w ∧ mon ko ss w = e • mon ko ss k := by
  obtain ⟨xs, hl, hen⟩ := (isKey_iff L).1 hk
  have hmono : e • mon ko ss k = mono ss (xs.map (· * e)) := by
    rw [mon_eq L hl hen, ← mono_smul]
  by_cases hw : ∃ w, L.Enc (xs.map (· * e)) w
  · obtain ⟨w, hw⟩ := hw
    rw [(L.pow hen hl).1 w hw]
    exact ⟨(isKey_iff L).2 ⟨_, by simpa using hl, hw⟩, by rw [hmono, mon_eq L (by simpa using hl) hw]⟩
  · rw [(L.pow hen hl).2 hw]
    refine ⟨rfl, ?_⟩
    rw [hmono, rep_iff L hs (by simpa using hl)]
    exact hw

theorem single_pow' (μ : α →₀ ℤ) (r : R) (n : Nat) : (single μ r : Poly R α) ^ n = single (n • μ) (r ^ n) := by
  exact AddMonoidAlgebra.single_pow μ r n

/-- A polynomial with one term. -/
theorem polyPow_one (he : EnvSpec ce V E) (L : KeyLaws ko) {c : PowCache α K C T} {x : Series α K C T} (hx : SerOk ko V True x) (h1 : x.size = 1) (e : Int) :
    ∃ k cf, x.terms = [(k, cf)] ∧ V.G cf ∧ V.v cf ≠ 0 ∧ den ko V x = single (mon ko x.ss k) (V.v cf) ∧
    ∀ r, ArgSpec V E (po.cpow cf (some e)) r → Sat (polyPow ko ce po c x (some e)).1 (fun ex => E ex ∨ (ex = .overflow ∧ ¬ Rep ko x.ss (e • mon ko x.ss k)))
      fun p => SerOk ko V True p ∧ p.ss = x.ss ∧ p.tag = default ∧ den ko V p = single (e • mon ko x.ss k) r := by
  rcases single_case L hx with ⟨h, _, hd⟩ | ⟨p, h, ht, hb, hk, hg, hv, hd⟩ | ⟨h, hn⟩
  · omega
  · refine ⟨p.1, p.2, ht, hg, hv, hd, ?_⟩
    intro r hr
    unfold polyPow
    rw [if_pos h1]
    dsimp only
    rw [new_setSymbolSet, res_ok_bind, hb, res_ok_bind]
    refine Sat.bind ((pow_key L hx.sym hk e).err fun x h => Or.inr h) ?_
    rintro w ⟨hw, hwm⟩
    refine (addNew_sat he L hx.sym hw hr).imp (fun x h => Or.inl h) ?_
    rintro s ⟨a, b, c, _, d⟩
    exact ⟨a, b, c, by rw [d, hwm]⟩
  · omega

theorem polyPow_nat (he : EnvSpec ce V E) (L : KeyLaws ko) (hm : MulSpec mo V V V E) (h0 : IsKey ko [] (ko.unit [])) (hp : PowSpec ko ce mo M po V E)
    {c : PowCache α K C T} (hc : CacheOk (CacheBase ko V) (IsPower ko V) c) {x : Series α K C T} (hx : SeriesInv ko V x) {n : Nat} (hn : n < 2 ^ 32) :
    Sat (polyPow ko ce po c x (some n)).1 (PowErr L E M V x n)
      fun p => SerOk ko V True p ∧ den ko V p = den ko V x ^ n ∧ p.tag = default ∧ (p.ss = x.ss ∨ (p.ss = [] ∧ (n = 0 ∨ den ko V x = 0))) := by
  rcases Nat.lt_or_ge x.size 2 with hlt | h2
  · rcases Nat.lt_or_ge x.size 1 with hlt | h1
    · rcases single_case L hx with ⟨h, ht, hd⟩ | ⟨p, h, _⟩ | ⟨h, _⟩
      · unfold polyPow
        rw [if_neg (by omega)]
        unfold defaultPow
        have : x.isSingleCf ko = .ok true := by
          unfold Series.isSingleCf
          rw [h]; rfl
        rw [this]
        dsimp only
        rw [if_pos ((isEmpty_iff x).2 ht)]
        have ha : ArgSpec V E (do po.cpow (← po.zero) (some (n : Int))) (0 ^ n : R) := by
          refine Sat.bind hp.zero ?_
          rintro z ⟨hz, hv⟩
          have := hp.cpow z n hn hz
          rw [hv] at this
          exact this
        refine (fromScalar_sat he L (by simp [IsSymSet]) h0 ha).imp (fun e h => Or.inl h) ?_
        rintro s ⟨h1, h2, h3, h4, h5⟩
        refine ⟨h1, ?_, h4, Or.inr ⟨h2, Or.inr hd⟩⟩
        rw [h5, hd]
        rcases Nat.eq_zero_or_pos n with rfl | hpos
        · rw [pow_zero, pow_zero, AddMonoidAlgebra.one_def]
        · rw [zero_pow (by omega), zero_pow (by omega), AddMonoidAlgebra.single_zero]
      · omega
      · omega
    · obtain ⟨k, cf, ht, hg, hv, hd, hh⟩ := polyPow_one (po := po) (c := c) he L hx (by omega) n
      refine (hh _ (hp.cpow cf n hn hg)).imp ?_ ?_
      · rintro e (h | ⟨h, h'⟩)
        · exact Or.inl h
        · exact Or.inr (Or.inr ⟨h, _, _, hd, hv, by simpa using h'⟩)
      · rintro p ⟨a, b, c, d⟩
        exact ⟨a, by rw [d, hd, single_pow']; simp, c, Or.inl b⟩
  · obtain ⟨h, hb⟩ := polyPow_many he L hm h0 hp hc hx h2 (some n)
    rw [h]
    dsimp only
    rcases Nat.eq_zero_or_pos n with rfl | hpos
    · rw [if_pos (by simp)]
      refine (fromOne_sat he L h0 hp.one x).imp (fun e h => Or.inl h) ?_
      rintro p ⟨a, b, c, d⟩
      exact ⟨a, b, d, Or.inr ⟨c, Or.inl rfl⟩⟩
    · rw [if_neg (by omega), if_pos (by omega)]
      refine (powCached_poly he L hm h0 hp hc hb _).1.imp ?_ ?_
      · rintro e (h | ⟨i, hi, h⟩)
        · exact Or.inl h
        · exact Or.inr (Or.inl ⟨h2, i, by omega, h⟩)
      · rintro p ⟨a, b, c, d⟩
        rw [Int.toNat_natCast] at b c
        rw [if_neg (by omega)] at c
        exact ⟨a, b, d, Or.inl c⟩

/-! ## The hash of bases -/

theorem powHash_eq (thash : T → Nat) (b : Series α K C T) : powHash ko thash b = (thash b.tag + (b.terms.map fun p => ko.hash p.1).sum) % 2 ^ 64 := by
  unfold powHash
  suffices h : ∀ (l : List (K × C)) (a : Nat), l.foldl (fun h p => (h + ko.hash p.1) % 2 ^ 64) (a % 2 ^ 64) = (a + (l.map fun p => ko.hash p.1).sum) % 2 ^ 64 from h _ _
  intro l
  induction l with
  | nil => intro a; simp
  | cons p l ih =>
    intro a
    rw [List.foldl_cons, Nat.mod_add_mod, ih, List.map_cons, List.sum_cons, Nat.add_assoc]

theorem powHash_congr (L : KeyLaws ko) (thash : T → Nat) {a b : Series α K C T} (ha : SerOk ko V True a) (hb : SerOk ko V True b)
    (h1 : a.ss = b.ss) (h2 : a.tag = b.tag) (h3 : den ko V a = den ko V b) : powHash ko thash a = powHash ko thash b := by
  rw [powHash_eq, powHash_eq, h2]
  have hperm : (a.terms.map (·.1)).Perm (b.terms.map (·.1)) := by
    rw [List.perm_ext_iff_of_nodup (terms_keys_nodup L ha) (terms_keys_nodup L hb)]
    have sub : ∀ {a b : Series α K C T}, SerOk ko V True a → SerOk ko V True b → a.ss = b.ss → den ko V a = den ko V b → ∀ k ∈ a.terms.map (·.1), k ∈ b.terms.map (·.1) := by
      intro a b ha hb h1 h3 k hk
      obtain ⟨p, hp, rfl⟩ := List.mem_map.1 hk
      have := (exists_term L ha (μ := mon ko a.ss p.1)).2 ⟨p, hp, rfl⟩
      rw [h3] at this
      obtain ⟨q, hq, e⟩ := (exists_term L hb).1 this
      have : p.1 = q.1 := mon_inj L ha.sym (ha.term hp).1 (h1 ▸ (hb.term hq).1) (by rw [← e, h1])
      exact List.mem_map.2 ⟨q, hq, this.symm⟩
    exact fun k => ⟨sub ha hb h1 h3 k, sub hb ha h1.symm h3.symm k⟩
  have hs := (hperm.map ko.hash).sum_eq
  rw [List.map_map, List.map_map] at hs
  exact congrArg (fun x => (thash b.tag + x) % 2 ^ 64) hs

end Obake
