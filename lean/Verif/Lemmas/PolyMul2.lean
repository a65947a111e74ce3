import Verif.Lemmas.ParMul
import Verif.Lemmas.SeriesOps

/-! # Polynomial multiplication -/

set_option linter.unusedSimpArgs false
set_option linter.unusedVariables false
set_option linter.unusedSectionVars false

namespace Obake

open AddMonoidAlgebra (single)

variable {α K A B C T R : Type} [LinearOrder α] [DecidableEq K] [CommRing R] {ko : KeyOps α K} {ce : CEnv K C} {VA : Val A R} {VB : Val B R} {V : Val C R} {E : Exc → Prop}
  {mo : MulOps A B C} {ss : List α} {tr : Trunc α}

/-! ## The overflow check -/

theorem keys_enc (L : KeyLaws ko) {ks : List K} (h : ∀ k ∈ ks, IsKey ko ss k) : ∃ Es, List.Forall₂ (fun x k => ss.length = x.length ∧ L.Enc x k) Es ks := by
  induction ks with
  | nil => exact ⟨[], List.Forall₂.nil⟩
  | cons k ks ih =>
    obtain ⟨Es, hE⟩ := ih (fun k hk => h k (List.mem_cons_of_mem _ hk))
    obtain ⟨xs, hl, he⟩ := (isKey_iff L).1 (h k (by simp))
    exact ⟨xs :: Es, List.Forall₂.cons ⟨hl, he⟩ hE⟩

theorem forall₂_left {X Y : Type} {r : X → Y → Prop} {l : List X} {m : List Y} (h : List.Forall₂ r l m) : (∀ x ∈ l, ∃ y ∈ m, r x y) ∧ ∀ y ∈ m, ∃ x ∈ l, r x y := by
  induction h with
  | nil => simp
  | cons h1 _ ih =>
    refine ⟨?_, ?_⟩
    · intro x hx
      rcases List.mem_cons.1 hx with rfl | hx
      · exact ⟨_, by simp, h1⟩
      · obtain ⟨y, hy, hr⟩ := ih.1 x hx; exact ⟨y, List.mem_cons_of_mem _ hy, hr⟩
    · intro y hy
      rcases List.mem_cons.1 hy with rfl | hy
      · exact ⟨_, by simp, h1⟩
      · obtain ⟨x, hx, hr⟩ := ih.2 y hy; exact ⟨x, List.mem_cons_of_mem _ hx, hr⟩

theorem check_ok (L : KeyLaws ko) (hs : IsSymSet ss) {r1 r2 : List K} (h1 : ∀ k ∈ r1, IsKey ko ss k) (h2 : ∀ k ∈ r2, IsKey ko ss k) (ra : Bool) (sp1 sp2 : PM.Split) :
    ∃ b, ko.check r1 r2 ss ra sp1 sp2 = .ok b ∧
      (b = true ↔ ∀ a ∈ r1, ∀ c ∈ r2, Rep ko ss (mon ko ss a + mon ko ss c) ∧ L.DegT (tdeg (mon ko ss a + mon ko ss c))) := by
  obtain ⟨E1, f1⟩ := keys_enc L h1
  obtain ⟨E2, f2⟩ := keys_enc L h2
  obtain ⟨b, hb, hiff⟩ := L.check f1 f2 ra sp1 sp2
  refine ⟨b, hb, hiff.trans ?_⟩
  have key : ∀ x y a c, ss.length = x.length ∧ L.Enc x a → ss.length = y.length ∧ L.Enc y c →
      ((∃ w, L.Enc (List.zipWith (· + ·) x y) w) ∧ L.DegT (List.zipWith (· + ·) x y).sum ↔ Rep ko ss (mon ko ss a + mon ko ss c) ∧ L.DegT (tdeg (mon ko ss a + mon ko ss c))) := by
    rintro x y a c ⟨l1, e1⟩ ⟨l2, e2⟩
    have hlen : ss.length = (List.zipWith (· + ·) x y).length := by simp; omega
    rw [mon_eq L l1 e1, mon_eq L l2 e2, ← mono_add _ _ _ (by omega), rep_iff L hs hlen, tdeg_mono _ _ hlen]
  constructor
  · intro h a ha c hc
    obtain ⟨x, hx, rx⟩ := (forall₂_left f1).2 a ha
    obtain ⟨y, hy, ry⟩ := (forall₂_left f2).2 c hc
    exact (key x y a c rx ry).1 (h x hx y hy)
  · intro h x hx y hy
    obtain ⟨a, ha, rx⟩ := (forall₂_left f1).1 x hx
    obtain ⟨c, hc, ry⟩ := (forall₂_left f2).1 y hy
    exact (key x y a c rx ry).2 (h a ha c hc)

/-! ## Degrees -/

/-- A term with its degree. -/
noncomputable def wdeg (ko : KeyOps α K) (tr : Trunc α) (ss : List α) (p : K × A) : Int × K × A := (tr.deg (mon ko ss p.1), p)

theorem termDeg_sat (L : KeyLaws ko) (hs : IsSymSet ss) (ht : tr.SymOk) {k : K} (hk : IsKey ko ss k) :
    Sat (termDeg ko tr ss k) (fun e => e = .overflow ∧ ¬ tr.Fits L ss (mon ko ss k)) fun d => d = tr.deg (mon ko ss k) := by
  have huniq : ∀ xs, ss.length = xs.length → L.Enc xs k → ∀ ys, ss.length = ys.length → mono ss ys = mon ko ss k → ys = xs := by
    intro xs hl he ys hl' e
    rw [mon_eq L hl he] at e
    exact mono_inj hs.nodup hl' hl e
  cases tr with
  | none => exact Sat.ok rfl
  | total d =>
    refine (degree_sat L hk).imp ?_ (fun a h => h.1)
    rintro e ⟨h1, h2⟩
    refine ⟨h1, fun hf => h2 ?_⟩
    intro xs hl he
    exact hf xs hl (mon_eq L hl he).symm
  | part d S =>
    refine (pDegree_sat L ht hs hk).imp ?_ (fun a h => h.1)
    rintro e ⟨h1, h2⟩
    refine ⟨h1, fun hf => h2 ?_⟩
    intro xs hl he
    exact hf xs hl (mon_eq L hl he).symm

theorem withDegs_sat (L : KeyLaws ko) (hs : IsSymSet ss) (ht : tr.SymOk) : ∀ (ps : List (K × A)), (∀ p ∈ ps, IsKey ko ss p.1) →
    Sat (withDegs ko tr ss ps) (fun e => e = .overflow ∧ ∃ p ∈ ps, ¬ tr.Fits L ss (mon ko ss p.1)) fun w => w = ps.map (wdeg ko tr ss) := by
  intro ps
  induction ps with
  | nil => intro _; exact Sat.ok rfl
  | cons p ps ih =>
    intro h
    unfold withDegs
    refine Sat.bind ((termDeg_sat L hs ht (h p (by simp))).err ?_) ?_
    · rintro e ⟨h1, h2⟩; exact ⟨h1, p, by simp, h2⟩
    rintro d rfl
    refine Sat.bind ((ih fun q hq => h q (List.mem_cons_of_mem _ hq)).err ?_) ?_
    · rintro e ⟨h1, q, hq, h2⟩; exact ⟨h1, q, List.mem_cons_of_mem _ hq, h2⟩
    rintro w rfl
    exact Sat.ok rfl

/-! ## Preparation of an operand -/

theorem prepare_sat (L : KeyLaws ko) (hs : IsSymSet ss) (ht : tr.SymOk) (srt : Sorter) (l : Nat) {v : List (K × A)} (hv : ∀ p ∈ v, IsKey ko ss p.1) :
    Sat (prepare ko srt tr ss l v) (fun e => e = .overflow ∧ ∃ p ∈ v, ¬ tr.Fits L ss (mon ko ss p.1)) fun r =>
      ∃ cs, r = (elems cs, offs 0 cs) ∧ ChunksOk (fun x : Int × K × A => ko.hash x.2.1 % 2 ^ l) (2 ^ l) cs ∧ (∀ c ∈ cs, DegSorted tr.lim c.2) ∧ (elems cs).Perm (v.map (wdeg ko tr ss)) := by
  unfold prepare
  dsimp only
  generalize hv' : srt.sort (fun p : K × A => ((ko.hash p.1 % 2 ^ l : Nat) : Int)) v = v'
  have hperm : v'.Perm v := by rw [← hv']; exact srt.perm _ _
  have hsort : (v'.map fun p => ko.hash p.1 % 2 ^ l).Pairwise (· ≤ ·) := by
    rw [List.pairwise_map, ← hv']
    exact (srt.sorted _ v).imp (by intro a b h; exact_mod_cast h)
  obtain ⟨cs, e1, e2, e3, e4⟩ := computeVseg_ok (h := fun p : K × A => ko.hash p.1 % 2 ^ l) (n := 2 ^ l) hsort (fun x _ => Nat.mod_lt _ (by positivity))
  refine Sat.bind (P := fun a => offs 0 cs = a) (Sat.ofRes e1 rfl) ?_
  rintro _ rfl
  refine Sat.bind ((withDegs_sat L hs ht v' fun p hp => hv p (hperm.mem_iff.1 hp)).err ?_) ?_
  · rintro e ⟨h1, p, hp, h2⟩; exact ⟨h1, p, hperm.mem_iff.1 hp, h2⟩
  rintro w rfl
  -- the chunks with degrees
  have hw : elems (cs.map fun c => (c.1, c.2.map (wdeg ko tr ss))) = v'.map (wdeg ko tr ss) := by
    rw [← e2]; unfold elems
    rw [List.map_map, List.map_flatten, List.map_map]; rfl
  have hoff : offs 0 (cs.map fun c => (c.1, c.2.map (wdeg ko tr ss))) = offs 0 cs := by
    refine offs_congr ?_
    rw [List.map_map]
    refine List.map_congr_left ?_
    intro c _; simp
  have hck : ChunksOk (fun x : Int × K × A => ko.hash x.2.1 % 2 ^ l) (2 ^ l) (cs.map fun c => (c.1, c.2.map (wdeg ko tr ss))) := by
    refine ⟨?_, ?_, ?_⟩
    · rw [List.map_map]; exact e3.sorted
    · intro c hc
      obtain ⟨d, hd, rfl⟩ := List.mem_map.1 hc
      exact e3.lt d hd
    · intro c hc x hx
      obtain ⟨d, hd, rfl⟩ := List.mem_map.1 hc
      obtain ⟨y, hy, rfl⟩ := List.mem_map.1 hx
      exact e3.hash d hd y hy
  have hck' : (cs.map fun c => (c.1, c.2.map (wdeg ko tr ss))).length < 2 ^ l → ∀ c ∈ cs.map fun c => (c.1, c.2.map (wdeg ko tr ss)), c.2 ≠ [] := by
    intro hlt c hc
    obtain ⟨d, hd, rfl⟩ := List.mem_map.1 hc
    rw [List.length_map] at hlt
    have := e4 hlt d hd
    simpa using this
  have hseg : ∃ cs', (segSort srt (v'.map (wdeg ko tr ss)) (offs 0 cs), offs 0 cs) = (elems cs', offs 0 cs') ∧ ChunksOk (fun x : Int × K × A => ko.hash x.2.1 % 2 ^ l) (2 ^ l) cs' ∧
      (cs'.length < 2 ^ l → ∀ c ∈ cs', c.2 ≠ []) ∧ (∀ c ∈ cs', DegSorted tr.lim c.2) ∧ (elems cs').Perm (v.map (wdeg ko tr ss)) := by
    have hss := segSort_ok srt (cs.map fun c => (c.1, c.2.map (wdeg ko tr ss))) []
    rw [List.nil_append, List.nil_append, List.length_nil, hw, hoff] at hss
    refine ⟨_, by
      rw [hss, ← hoff]
      congr 1
      refine offs_congr ?_
      rw [List.map_map, List.map_map, List.map_map]
      refine List.map_congr_left ?_
      intro c _
      simp only [Function.comp, Prod.mk.injEq, true_and]
      exact ((srt.perm _ _).length_eq).symm, ?_, ?_, ?_, ?_⟩
    rotate_left
    · intro hlt c hc
      obtain ⟨d, hd, rfl⟩ := List.mem_map.1 hc
      rw [List.length_map] at hlt
      intro h0
      have h0' : srt.sort (·.1) d.2 = [] := h0
      have := (srt.perm (·.1) d.2).length_eq
      rw [h0'] at this
      exact hck' hlt d hd (List.length_eq_zero_iff.1 this.symm)
    rotate_left 2
    · refine ⟨?_, ?_, ?_⟩
      · rw [List.map_map]; exact hck.sorted
      · intro c hc
        obtain ⟨d, hd, rfl⟩ := List.mem_map.1 hc
        exact hck.lt d hd
      · intro c hc x hx
        obtain ⟨d, hd, rfl⟩ := List.mem_map.1 hc
        exact hck.hash d hd x ((srt.perm _ _).mem_iff.1 hx)
    · intro c hc hlim
      obtain ⟨d, hd, rfl⟩ := List.mem_map.1 hc
      exact srt.sorted _ _
    · refine List.Perm.trans ?_ (hperm.map _)
      rw [← hw]
      generalize (cs.map fun c => (c.1, c.2.map (wdeg ko tr ss))) = ds
      induction ds with
      | nil => exact List.Perm.refl _
      | cons d ds ih => rw [List.map_cons, elems_cons, elems_cons]; exact (srt.perm _ _).append ih
  have hfin : ∀ (w : List (Int × K × A)), (∃ cs', (w, offs 0 cs) = (elems cs', offs 0 cs') ∧ ChunksOk (fun x : Int × K × A => ko.hash x.2.1 % 2 ^ l) (2 ^ l) cs' ∧
      (cs'.length < 2 ^ l → ∀ c ∈ cs', c.2 ≠ []) ∧ (∀ c ∈ cs', DegSorted tr.lim c.2) ∧ (elems cs').Perm (v.map (wdeg ko tr ss))) →
      Sat (do
        cassert (verifySeg (w.map fun x => ko.hash x.2.1 % 2 ^ l) (2 ^ l) (offs 0 cs))
        pure (w, offs 0 cs) : Res (List (Int × K × A) × List (Nat × Nat × Nat))) (fun e => e = .overflow ∧ ∃ p ∈ v, ¬ tr.Fits L ss (mon ko ss p.1)) fun r =>
      ∃ cs, r = (elems cs, offs 0 cs) ∧ ChunksOk (fun x : Int × K × A => ko.hash x.2.1 % 2 ^ l) (2 ^ l) cs ∧ (∀ c ∈ cs, DegSorted tr.lim c.2) ∧ (elems cs).Perm (v.map (wdeg ko tr ss)) := by
    rintro w ⟨cs', f1, f2, f3, f4, f5⟩
    rw [Prod.mk.injEq] at f1
    rw [f1.1, f1.2, verifySeg_ok f2 f3]
    exact Sat.ok ⟨cs', rfl, f2, f4, f5⟩
  cases tr with
  | none => exact hfin _ ⟨_, by rw [hw, hoff], hck, hck', fun c _ h => by simp [Trunc.lim] at h, by rw [hw]; exact hperm.map _⟩
  | total d => exact hfin _ hseg
  | part d S => exact hfin _ hseg

theorem totMults_ok {lim : Option Int} {w2 : List (Int × K × B)} (hs2 : DegSorted lim w2) : ∀ (w1 : List (Int × K × A)), DegsAdd ko lim w1 w2 →
    totMults ko lim w2 w1 = .ok (allPairs lim w1 w2).length := by
  intro w1
  induction w1 with
  | nil => intro _; rfl
  | cons p w1 ih =>
    intro hd
    unfold totMults
    obtain ⟨a, b, e, h1, h2⟩ := endIdx_ok (ko := ko) (lim := lim) (d := p.1) (pre := []) (l := w2) (post := []) hs2 (fun hl q hq => hd hl p (by simp) q hq)
    simp only [List.nil_append, List.append_nil, List.length_nil, Nat.zero_add] at h1
    simp only [bind, Except.bind, h1, ih (fun hl p' hp' => hd hl p' (List.mem_cons_of_mem _ hp')), pure, Except.pure]
    unfold allPairs
    rw [List.flatMap_cons, h2]; simp

/-! ## The implementations -/

/-- What goes wrong when two polynomials over the same symbol set `u` are multiplied; `P`, `Q` are their values.  Either the product of two of their monomials does not fit (and the exception is
`overflow_error`), or all products fit and the exception is one of the coefficients, of the computation of degrees, of the estimation of the number of tables, or a table is too large. -/
def MulErr1 (L : KeyLaws ko) (E : Exc → Prop) (mv : MulEnv) (tr : Trunc α) (u : List α) (P Q : Poly R α) (e : Exc) : Prop :=
  (e = .overflow ∧ ¬ AllFit L u P Q) ∨ (AllFit L u P Q ∧ (E e ∨
  (e = .overflow ∧ ((∃ μ ∈ P.coeff.support, ¬ tr.Fits L u μ) ∨ ∃ μ ∈ Q.coeff.support, ¬ tr.Fits L u μ)) ∨
  mv.est = .error e ∨ (e = .overflow ∧ ∃ n, mv.est = .ok n ∧ ∃ Z, IsTrunc tr (P * Q) Z ∧ maxTableSize (min n maxLog2) < Z.coeff.support.card)))

/-- Adding partial degrees cannot overflow. -/
def PartSafe (L : KeyLaws ko) (tr : Trunc α) (u : List α) (P Q : Poly R α) : Prop :=
  ∀ d S, tr = .part d S → ∀ μ ∈ P.coeff.support, ∀ ν ∈ Q.coeff.support, Rep ko u (μ + ν) → L.DegT (tdeg (μ + ν)) → L.DegT (pdeg S (μ + ν))

section
variable {mv : MulEnv} {x : Series α K A T} {y : Series α K B T}

theorem degsAdd_of (L : KeyLaws ko) (hx : SerOk ko VA True x) (hy : SerOk ko VB True y) (hss : x.ss = y.ss)
    (hps : PartSafe L tr x.ss (den ko VA x) (den ko VB y))
    (hck : ∀ a ∈ x.terms.map (·.1), ∀ c ∈ y.terms.map (·.1), Rep ko x.ss (mon ko x.ss a + mon ko x.ss c) ∧ L.DegT (tdeg (mon ko x.ss a + mon ko x.ss c)))
    {w1 : List (Int × K × A)} {w2 : List (Int × K × B)} (p1 : w1.Perm (x.terms.map (wdeg ko tr x.ss))) (p2 : w2.Perm (y.terms.map (wdeg ko tr x.ss))) : DegsAdd ko tr.lim w1 w2 := by
  intro hl p hp q hq
  obtain ⟨a, ha, rfl⟩ := List.mem_map.1 (p1.mem_iff.1 hp)
  obtain ⟨b, hb, rfl⟩ := List.mem_map.1 (p2.mem_iff.1 hq)
  obtain ⟨c1, c2⟩ := hck a.1 (List.mem_map_of_mem ha) b.1 (List.mem_map_of_mem hb)
  refine L.degAdd ?_
  unfold wdeg
  dsimp only
  rw [← trdeg_add]
  cases tr with
  | none => simp [Trunc.lim] at hl
  | total d => exact c2
  | part d S =>
    exact hps d S rfl _ ((exists_term L hx).2 ⟨a, ha, rfl⟩) _ ((exists_term L hy).2 ⟨b, hb, by rw [hss]⟩) c1 c2

theorem check_err (L : KeyLaws ko) (hx : SerOk ko VA True x) (hy : SerOk ko VB True y) (hss : x.ss = y.ss) (ra : Bool) (sp1 sp2 : PM.Split) :
    ∃ b, ko.check (x.terms.map (·.1)) (y.terms.map (·.1)) x.ss ra sp1 sp2 = .ok b ∧
      (b = true → ∀ a ∈ x.terms.map (·.1), ∀ c ∈ y.terms.map (·.1), Rep ko x.ss (mon ko x.ss a + mon ko x.ss c) ∧ L.DegT (tdeg (mon ko x.ss a + mon ko x.ss c))) ∧
      (b = false → ¬ AllFit L x.ss (den ko VA x) (den ko VB y)) := by
  obtain ⟨b, hb, hiff⟩ := check_ok L hx.sym (r1 := x.terms.map (·.1)) (r2 := y.terms.map (·.1))
    (by intro k hk; obtain ⟨p, hp, rfl⟩ := List.mem_map.1 hk; exact (hx.term hp).1)
    (by intro k hk; obtain ⟨p, hp, rfl⟩ := List.mem_map.1 hk; rw [hss]; exact (hy.term hp).1) ra sp1 sp2
  refine ⟨b, hb, hiff.1, ?_⟩
  intro h0 hc
  have : b = true := hiff.2 (by
    intro a ha c hcm
    obtain ⟨p, hp, rfl⟩ := List.mem_map.1 ha
    obtain ⟨q, hq, rfl⟩ := List.mem_map.1 hcm
    exact hc _ ((exists_term L hx).2 ⟨p, hp, rfl⟩) _ ((exists_term L hy).2 ⟨q, hq, by rw [hss]⟩))
  rw [h0] at this; cases this

theorem allFit_of (L : KeyLaws ko) (hx : SerOk ko VA True x) (hy : SerOk ko VB True y) (hss : x.ss = y.ss)
    (hck : ∀ a ∈ x.terms.map (·.1), ∀ c ∈ y.terms.map (·.1), Rep ko x.ss (mon ko x.ss a + mon ko x.ss c) ∧ L.DegT (tdeg (mon ko x.ss a + mon ko x.ss c))) :
    AllFit L x.ss (den ko VA x) (den ko VB y) := by
  intro μ hμ ν hν
  obtain ⟨p, hp, rfl⟩ := (exists_term L hx).1 hμ
  obtain ⟨q, hq, rfl⟩ := (exists_term L hy).1 hν
  rw [← hss]
  exact hck _ (List.mem_map_of_mem hp) _ (List.mem_map_of_mem hq)

theorem pairOk_of (L : KeyLaws ko) (hx : SerOk ko VA True x) (hy : SerOk ko VB True y) (hss : x.ss = y.ss)
    (hck : ∀ a ∈ x.terms.map (·.1), ∀ c ∈ y.terms.map (·.1), Rep ko x.ss (mon ko x.ss a + mon ko x.ss c) ∧ L.DegT (tdeg (mon ko x.ss a + mon ko x.ss c)))
    {l i : Nat} {p : K × A} {q : K × B} (hp : p ∈ x.terms) (hq : q ∈ y.terms) (hh : (ko.hash p.1 % 2 ^ l + ko.hash q.1 % 2 ^ l) % 2 ^ l = i) : PairOk ko VA VB x.ss l i (p, q) where
  k1 := (hx.term hp).1
  k2 := by rw [hss]; exact (hy.term hq).1
  g1 := (hx.term hp).2.1
  g2 := (hy.term hq).2.1
  rep := (hck p.1 (List.mem_map_of_mem hp) q.1 (List.mem_map_of_mem hq)).1
  hash := hh

theorem mem_allPairs {lim : Option Int} {l1 : List (Int × K × A)} {l2 : List (Int × K × B)} {pq : (K × A) × (K × B)} (h : pq ∈ allPairs lim l1 l2) :
    ∃ p ∈ l1, ∃ q ∈ l2, pq = (p.2, q.2) := by
  unfold allPairs at h
  obtain ⟨p, hp, h⟩ := List.mem_flatMap.1 h
  obtain ⟨q, hq, rfl⟩ := List.mem_map.1 h
  exact ⟨p, hp, q, (List.mem_filter.1 hq).1, rfl⟩

theorem mem_pairsOf {lim : Option Int} {h1 : Int × K × A → Nat} {h2 : Int × K × B → Nat} {n seg : Nat} {l1 : List (Int × K × A)} {l2 : List (Int × K × B)} {pq : (K × A) × (K × B)}
    (h : pq ∈ pairsOf lim h1 h2 n seg l1 l2) : ∃ p ∈ l1, ∃ q ∈ l2, pq = (p.2, q.2) ∧ (h1 p + h2 q) % n = seg := by
  unfold pairsOf at h
  obtain ⟨p, hp, h⟩ := List.mem_flatMap.1 h
  obtain ⟨q, hq, rfl⟩ := List.mem_map.1 h
  have := List.mem_filter.1 hq
  simp only [Bool.and_eq_true, decide_eq_true_eq] at this
  exact ⟨p, hp, q, this.1, rfl, this.2.1⟩

theorem pairsOf_length {lim : Option Int} {h1 : Int × K × A → Nat} {h2 : Int × K × B → Nat} {n seg : Nat} (l1 : List (Int × K × A)) (l2 : List (Int × K × B)) :
    (pairsOf lim h1 h2 n seg l1 l2).length ≤ l1.length * l2.length := by
  unfold pairsOf
  induction l1 with
  | nil => simp
  | cons p l1 ih =>
    rw [List.flatMap_cons, List.length_append, List.length_map, List.length_cons, Nat.add_mul, Nat.one_mul]
    have := List.length_filter_le (fun q => decide ((h1 p + h2 q) % n = seg) && okDeg lim p.1 q.1) l2
    omega

/-- The truncated product, as a sum over the pairs of terms. -/
theorem trunc_den (hss : x.ss = y.ss) {w1 : List (Int × K × A)} {w2 : List (Int × K × B)} (p1 : w1.Perm (x.terms.map (wdeg ko tr x.ss))) (p2 : w2.Perm (y.terms.map (wdeg ko tr x.ss))) :
    IsTrunc tr (den ko VA x * den ko VB y) (prodT ko VA VB x.ss (allPairs tr.lim w1 w2)) := by
  rw [allPairs_perm _ p1 p2]
  have := allPairs_trunc (ko := ko) (VA := VA) (VB := VB) (ss := x.ss) tr x.terms y.terms
  unfold den
  rw [← hss]
  exact this

theorem pairs_perm {l1 l1' : List (Int × K × A)} {l2 l2' : List (Int × K × B)} (p1 : l1.Perm l1') (p2 : l2.Perm l2') :
    (l1.flatMap fun p => l2.map fun q => (p.2, q.2)).Perm (l1'.flatMap fun p => l2'.map fun q => (p.2, q.2)) :=
  List.Perm.flatMap p1 fun p _ => p2.map _

theorem pairs_sub (l1 : List (Int × K × A)) (l2 : List (Int × K × B)) (c : Int × K × A → Int × K × B → Bool) :
    (l1.flatMap fun p => (l2.filter (c p)).map fun q => (p.2, q.2)).Sublist (l1.flatMap fun p => l2.map fun q => (p.2, q.2)) := by
  induction l1 with
  | nil => simp
  | cons p l1 ih => rw [List.flatMap_cons, List.flatMap_cons]; exact ((List.filter_sublist).map _).append ih

theorem pairs_in {l1 : List (Int × K × A)} {l2 : List (Int × K × B)} (p1 : l1.Perm (x.terms.map (wdeg ko tr x.ss))) (p2 : l2.Perm (y.terms.map (wdeg ko tr x.ss))) (c : Int × K × A → Int × K × B → Bool) :
    PairsIn x y (l1.flatMap fun p => (l2.filter (c p)).map fun q => (p.2, q.2)) := by
  have h := (pairs_sub l1 l2 c).subperm.trans (pairs_perm p1 p2).subperm
  rw [List.flatMap_map] at h
  simp only [List.map_map] at h
  exact h

theorem allPairs_in {l1 : List (Int × K × A)} {l2 : List (Int × K × B)} (p1 : l1.Perm (x.terms.map (wdeg ko tr x.ss))) (p2 : l2.Perm (y.terms.map (wdeg ko tr x.ss))) : PairsIn x y (allPairs tr.lim l1 l2) :=
  pairs_in p1 p2 fun p q => okDeg tr.lim p.1 q.1

theorem pairsOf_in {l1 : List (Int × K × A)} {l2 : List (Int × K × B)} {h1 : Int × K × A → Nat} {h2 : Int × K × B → Nat} {n seg : Nat} (p1 : l1.Perm (x.terms.map (wdeg ko tr x.ss)))
    (p2 : l2.Perm (y.terms.map (wdeg ko tr x.ss))) : PairsIn x y (pairsOf tr.lim h1 h2 n seg l1 l2) :=
  pairs_in p1 p2 fun p q => decide ((h1 p + h2 q) % n = seg) && okDeg tr.lim p.1 q.1

theorem mulPre (hne1 : x.terms ≠ []) (hne2 : y.terms ≠ []) (hsz : x.size ≤ y.size) (hss : x.ss = y.ss) [Inhabited T] :
    cassert (!x.isEmpty && !y.isEmpty && decide (x.size ≤ y.size) && decide (({ ss := x.ss, log2 := 0, tabs := [[]], tag := default } : Series α K C T).ss = x.ss) &&
      decide (({ ss := x.ss, log2 := 0, tabs := [[]], tag := default } : Series α K C T).ss = y.ss) && ({ ss := x.ss, log2 := 0, tabs := [[]], tag := default } : Series α K C T).isEmpty &&
      decide (({ ss := x.ss, log2 := 0, tabs := [[]], tag := default } : Series α K C T).tabs.length = 1)) = .ok () := by
  have e1 : x.isEmpty = false := by rw [Bool.eq_false_iff, ne_eq, isEmpty_iff]; exact hne1
  have e2 : y.isEmpty = false := by rw [Bool.eq_false_iff, ne_eq, isEmpty_iff]; exact hne2
  rw [e1, e2, ← hss]
  simp [cassert, hsz, Series.isEmpty]

/-- `ps j` are the pairs of terms of `x` and `y` whose products belong to the table `j` of `2 ^ l`: up to the order of the terms of `x` and of `y`, the pairs of terms kept by the truncation. -/
def SegPairs (ko : KeyOps α K) (VA : Val A R) (VB : Val B R) (tr : Trunc α) (x : Series α K A T) (y : Series α K B T) (l : Nat) (ps : Nat → List ((K × A) × (K × B))) : Prop :=
  ∃ l1 l2, l1.Perm (x.terms.map (wdeg ko tr x.ss)) ∧ l2.Perm (y.terms.map (wdeg ko tr x.ss)) ∧
    (ps = fun j => pairsOf tr.lim (fun x : Int × K × A => ko.hash x.2.1 % 2 ^ l) (fun x : Int × K × B => ko.hash x.2.1 % 2 ^ l) (2 ^ l) j l1 l2) ∧ ∀ j < 2 ^ l, ∀ pq ∈ ps j, PairOk ko VA VB x.ss l j pq

/-- As `MulErr1`, for coefficients that need not form a ring. -/
def MulErrQ (L : KeyLaws ko) (E : Exc → Prop) (mv : MulEnv) (tr : Trunc α) (VA : Val A R) (VB : Val B R) (Q : Nat → Nat → List ((K × A) × (K × B)) → List (K × C) → Prop) (x : Series α K A T) (y : Series α K B T) (e : Exc) : Prop :=
  (e = .overflow ∧ ¬ AllFit L x.ss (den ko VA x) (den ko VB y)) ∨ (AllFit L x.ss (den ko VA x) (den ko VB y) ∧ (E e ∨
  (e = .overflow ∧ ((∃ μ ∈ (den ko VA x).coeff.support, ¬ tr.Fits L x.ss μ) ∨ ∃ μ ∈ (den ko VB y).coeff.support, ¬ tr.Fits L x.ss μ)) ∨
  mv.est = .error e ∨ (e = .overflow ∧ ∃ n, mv.est = .ok n ∧ ∃ ps, SegPairs ko VA VB tr x y (min n maxLog2) ps ∧ ∃ j t, j < 2 ^ min n maxLog2 ∧ Q (min n maxLog2) j (ps j) t ∧ maxTableSize (min n maxLog2) < t.length)))

/-- The tables of `r` are those that `Q` relates to the pairs of terms of `x` and `y`. -/
def MulResQ [Inhabited T] (L : KeyLaws ko) (tr : Trunc α) (VA : Val A R) (VB : Val B R) (Q : Nat → Nat → List ((K × A) × (K × B)) → List (K × C) → Prop) (x : Series α K A T) (y : Series α K B T) (r : Series α K C T) : Prop :=
  r.ss = x.ss ∧ r.tag = default ∧ AllFit L x.ss (den ko VA x) (den ko VB y) ∧ r.log2 ≤ maxLog2 ∧ r.tabs.length = 2 ^ r.log2 ∧
    ∃ ps, SegPairs ko VA VB tr x y r.log2 ps ∧ ∀ j t, r.tabs[j]? = some t → Q r.log2 j (ps j) t

theorem pairsOf_one (lim : Option Int) (h1 : Int × K × A → Nat) (h2 : Int × K × B → Nat) (l1 : List (Int × K × A)) (l2 : List (Int × K × B)) : pairsOf lim h1 h2 1 0 l1 l2 = allPairs lim l1 l2 := by
  simp [pairsOf, allPairs, Nat.mod_one]

theorem pairsOf_sub (lim : Option Int) (h1 : Int × K × A → Nat) (h2 : Int × K × B → Nat) (n j : Nat) (l1 : List (Int × K × A)) (l2 : List (Int × K × B)) {pq : (K × A) × (K × B)} (h : pq ∈ pairsOf lim h1 h2 n j l1 l2) : pq ∈ allPairs lim l1 l2 := by
  simp only [pairsOf, allPairs, List.mem_flatMap, List.mem_map, List.mem_filter, Bool.and_eq_true, decide_eq_true_eq] at h ⊢
  obtain ⟨p, hp, q, ⟨hq, _, ho⟩, rfl⟩ := h
  exact ⟨p, hp, q, ⟨hq, ho⟩, rfl⟩

variable {Q : Nat → Nat → List ((K × A) × (K × B)) → List (K × C) → Prop}

theorem mulSimple_q [Inhabited T] (LS : LoopQ ko ce mo VA VB E x.ss (PairsIn x y) Q) (L : KeyLaws ko) (hx : SerOk ko VA True x) (hy : SerOk ko VB True y) (hss : x.ss = y.ss) (htr : tr.SymOk)
    (hsz : x.size ≤ y.size) (hne1 : x.terms ≠ []) (hne2 : y.terms ≠ []) (hps : PartSafe L tr x.ss (den ko VA x) (den ko VB y)) :
    Sat (mulSimple ko ce mo mv tr ({ ss := x.ss, log2 := 0, tabs := [[]], tag := default } : Series α K C T) x y).res (MulErrQ L E mv tr VA VB Q x y) (MulResQ L tr VA VB Q x y) := by
  unfold mulSimple
  rw [mulPre hne1 hne2 hsz hss]
  simp only [res_ok_bind]
  obtain ⟨b, hb, hbt, hbf⟩ := check_err (VA := VA) (VB := VB) L hx hy hss mv.ra mv.sp1 mv.sp2
  rw [hb]
  simp only [res_ok_bind]
  cases b with
  | false => exact Or.inl ⟨rfl, hbf rfl⟩
  | true =>
    have hck := hbt rfl
    have haf : AllFit L x.ss (den ko VA x) (den ko VB y) := allFit_of L hx hy hss hck
    have s1 := withDegs_sat (tr := tr) L hx.sym htr x.terms (fun p hp => (hx.term hp).1)
    have s2 := withDegs_sat (tr := tr) L hx.sym htr y.terms (fun p hp => by rw [hss]; exact (hy.term hp).1)
    cases h1 : withDegs ko tr x.ss x.terms with
    | error e =>
      obtain ⟨h, p, hp, hf⟩ := s1.of_error h1
      exact Or.inr ⟨haf, Or.inr (Or.inl ⟨h, Or.inl ⟨_, (exists_term L hx).2 ⟨p, hp, rfl⟩, hf⟩⟩)⟩
    | ok w1 =>
      cases h2 : withDegs ko tr x.ss y.terms with
      | error e =>
        obtain ⟨h, p, hp, hf⟩ := s2.of_error h2
        exact Or.inr ⟨haf, Or.inr (Or.inl ⟨h, Or.inr ⟨_, (exists_term L hy).2 ⟨p, hp, rfl⟩, by rw [← hss]; exact hf⟩⟩)⟩
      | ok w2 =>
        have e1 := s1.of_ok h1
        have e2 := s2.of_ok h2
        simp only [Bool.not_true, Bool.false_eq_true, if_false, res_ok_bind]
        generalize hw1' : (match tr with | .none => w1 | _ => mv.srt1.sort (·.1) w1) = w1'
        generalize hw2' : (match tr with | .none => w2 | _ => mv.srt2.sort (·.1) w2) = w2'
        have q1 : w1'.Perm (x.terms.map (wdeg ko tr x.ss)) := by
          rw [← hw1', ← e1]
          cases tr with
          | none => exact List.Perm.refl _
          | total d => exact mv.srt1.perm _ _
          | part d S => exact mv.srt1.perm _ _
        have q2 : w2'.Perm (y.terms.map (wdeg ko tr x.ss)) := by
          rw [← hw2', ← e2]
          cases tr with
          | none => exact List.Perm.refl _
          | total d => exact mv.srt2.perm _ _
          | part d S => exact mv.srt2.perm _ _
        have d1 : DegSorted tr.lim w1' := by
          rw [← hw1']
          cases tr with
          | none => intro h; simp [Trunc.lim] at h
          | total d => exact fun _ => mv.srt1.sorted _ _
          | part d S => exact fun _ => mv.srt1.sorted _ _
        have d2 : DegSorted tr.lim w2' := by
          rw [← hw2']
          cases tr with
          | none => intro h; simp [Trunc.lim] at h
          | total d => exact fun _ => mv.srt2.sorted _ _
          | part d S => exact fun _ => mv.srt2.sorted _ _
        have hrp : rangePairs ko tr.lim w1' w2' 0 w2'.length (List.range w1'.length) = .ok (allPairs tr.lim w1' w2') := by
          have := rangePairs_ok (pre2 := []) (post2 := []) d2 w1' [] [] d1 (degsAdd_of L hx hy hss hps hck q1 q2)
          simpa [List.range_eq_range'] using this
        have hpo : ∀ pq ∈ allPairs tr.lim w1' w2', PairOk ko VA VB x.ss 0 0 pq := by
          intro pq hpq
          obtain ⟨p, hp, q, hq, rfl⟩ := mem_allPairs hpq
          obtain ⟨a, ha, rfl⟩ := List.mem_map.1 (q1.mem_iff.1 hp)
          obtain ⟨c, hc, rfl⟩ := List.mem_map.1 (q2.mem_iff.1 hq)
          exact pairOk_of L hx hy hss hck ha hc (by simp [Nat.mod_one])
        obtain ⟨p0, hp0⟩ := List.exists_mem_of_ne_nil _ hne1
        have hunit := isKey_compat L (isKey_unit L (hx.term hp0).1)
        have hloop := LS.loop (seg := none) (l := 0) (i := 0) ⟨by omega, Or.inr rfl⟩ (allPairs tr.lim w1' w2') (ko.unit x.ss) hunit hpo (allPairs_in q1 q2)
        have htab : Sat (do
            let pairs ← rangePairs ko tr.lim w1' w2' 0 w2'.length (List.range w1'.length)
            let st ← mulLoop ko ce mo x.ss none (ko.unit x.ss, []) pairs
            eraseZeros ce st.2) E fun t => Q 0 0 (allPairs tr.lim w1' w2') t := by
          rw [hrp]
          simp only [res_ok_bind]
          refine Sat.bind hloop ?_
          rintro st ⟨_, h4⟩
          exact h4
        have hgoal : Sat (match (do
            let pairs ← rangePairs ko tr.lim w1' w2' 0 w2'.length (List.range w1'.length)
            let st ← mulLoop ko ce mo x.ss none (ko.unit x.ss, []) pairs
            eraseZeros ce st.2 : Res (List (K × C))) with
          | .error e => .error (e, (({ ss := x.ss, log2 := 0, tabs := [[]], tag := default } : Series α K C T)).clearTerms)
          | .ok t => .ok { ss := x.ss, log2 := 0, tabs := [t], tag := default } : Mut (Series α K C T)).res (MulErrQ L E mv tr VA VB Q x y) (MulResQ L tr VA VB Q x y) := by
          revert htab
          generalize (do
            let pairs ← rangePairs ko tr.lim w1' w2' 0 w2'.length (List.range w1'.length)
            let st ← mulLoop ko ce mo x.ss none (ko.unit x.ss, []) pairs
            eraseZeros ce st.2 : Res (List (K × C))) = r
          intro htab
          cases r with
          | error e => exact Or.inr ⟨haf, Or.inl htab⟩
          | ok t =>
            refine ⟨rfl, rfl, haf, by simp, by simp, _, ⟨w1', w2', q1, q2, rfl, ?_⟩, ?_⟩
            · intro j hj pq hpq
              have hj0 : j = 0 := by simpa using hj
              subst hj0
              exact hpo pq (pairsOf_sub _ _ _ _ _ _ _ hpq)
            · intro j t' ht'
              cases j with
              | zero =>
                simp at ht'; subst ht'
                dsimp only
                rw [show (2 : Nat) ^ 0 = 1 from rfl, pairsOf_one]
                exact htab
              | succ i => simp at ht'
        cases tr <;> (subst hw1'; subst hw2'; exact hgoal)

theorem mulMT_q [Inhabited T] {ex : Exec α K A B C} (hex : IsPar ko ce mo ex) (LS : LoopQ ko ce mo VA VB E x.ss (PairsIn x y) Q) (hq0 : ∀ l i, Q l i [] []) (L : KeyLaws ko) (hx : SerOk ko VA True x) (hy : SerOk ko VB True y) (hss : x.ss = y.ss) (htr : tr.SymOk)
    (hsz : x.size ≤ y.size) (hne1 : x.terms ≠ []) (hne2 : y.terms ≠ []) (hps : PartSafe L tr x.ss (den ko VA x) (den ko VB y)) :
    Sat (mulMT ko ex mv tr ({ ss := x.ss, log2 := 0, tabs := [[]], tag := default } : Series α K C T) x y).res (MulErrQ L E mv tr VA VB Q x y) (MulResQ L tr VA VB Q x y) := by
  unfold mulMT
  rw [mulPre hne1 hne2 hsz hss]
  simp only [res_ok_bind]
  obtain ⟨b, hb, hbt, hbf⟩ := check_err (VA := VA) (VB := VB) L hx hy hss mv.ra mv.sp1 mv.sp2
  rw [hb]
  simp only [res_ok_bind]
  cases b with
  | false => exact Or.inl ⟨rfl, hbf rfl⟩
  | true =>
    have hck := hbt rfl
    have haf : AllFit L x.ss (den ko VA x) (den ko VB y) := allFit_of L hx hy hss hck
    have k1 : ∀ p ∈ x.terms, IsKey ko x.ss p.1 := fun p hp => (hx.term hp).1
    have k2 : ∀ p ∈ y.terms, IsKey ko x.ss p.1 := fun p hp => by rw [hss]; exact (hy.term hp).1
    have s1 := withDegs_sat (tr := tr) L hx.sym htr x.terms k1
    have s2 := withDegs_sat (tr := tr) L hx.sym htr y.terms k2
    have er1 : ∀ e, (e = Exc.overflow ∧ ∃ p ∈ x.terms, ¬ tr.Fits L x.ss (mon ko x.ss p.1)) → MulErrQ L E mv tr VA VB Q x y e := by
      rintro e ⟨h, p, hp, hf⟩
      exact Or.inr ⟨haf, Or.inr (Or.inl ⟨h, Or.inl ⟨_, (exists_term L hx).2 ⟨p, hp, rfl⟩, hf⟩⟩)⟩
    have er2 : ∀ e, (e = Exc.overflow ∧ ∃ p ∈ y.terms, ¬ tr.Fits L x.ss (mon ko x.ss p.1)) → MulErrQ L E mv tr VA VB Q x y e := by
      rintro e ⟨h, p, hp, hf⟩
      exact Or.inr ⟨haf, Or.inr (Or.inl ⟨h, Or.inr ⟨_, (exists_term L hy).2 ⟨p, hp, rfl⟩, by rw [← hss]; exact hf⟩⟩)⟩
    cases h1 : withDegs ko tr x.ss x.terms with
    | error e => exact er1 e (s1.of_error h1)
    | ok w1 =>
      cases h2 : withDegs ko tr x.ss y.terms with
      | error e => exact er2 e (s2.of_error h2)
      | ok w2 =>
        have e1 := s1.of_ok h1
        have e2 := s2.of_ok h2
        have q1 : w1.Perm (x.terms.map (wdeg ko tr x.ss)) := by rw [e1]
        have q2 : (mv.srt2.sort (·.1) w2).Perm (y.terms.map (wdeg ko tr x.ss)) := by rw [← e2]; exact mv.srt2.perm _ _
        have htm := totMults_ok (ko := ko) (lim := tr.lim) (w2 := mv.srt2.sort (·.1) w2) (fun _ => mv.srt2.sorted _ _) w1 (degsAdd_of L hx hy hss hps hck q1 q2)
        simp only [Bool.not_true, Bool.false_eq_true, if_false, res_ok_bind, htm]
        by_cases h0 : (tr.lim.isSome && decide ((allPairs tr.lim w1 (mv.srt2.sort (·.1) w2)).length = 0)) = true
        · rw [if_pos h0]
          simp only [Bool.and_eq_true, decide_eq_true_eq, List.length_eq_zero_iff] at h0
          have hnil : ∀ j, pairsOf tr.lim (fun x : Int × K × A => ko.hash x.2.1 % 2 ^ 0) (fun x : Int × K × B => ko.hash x.2.1 % 2 ^ 0) (2 ^ 0) j w1 (mv.srt2.sort (·.1) w2) = [] := by
            intro j
            rw [List.eq_nil_iff_forall_not_mem]
            intro pq hpq
            have := pairsOf_sub _ _ _ _ _ _ _ hpq
            rw [h0.2] at this
            exact (List.not_mem_nil this).elim
          refine ⟨rfl, rfl, haf, by simp, by simp, _, ⟨w1, mv.srt2.sort (·.1) w2, q1, q2, rfl, ?_⟩, ?_⟩
          · intro j _ pq hpq
            dsimp only at hpq
            rw [hnil] at hpq
            exact (List.not_mem_nil hpq).elim
          · intro j t ht
            dsimp only
            rw [hnil]
            cases j with
            | zero => simp at ht; subst ht; exact hq0 _ _
            | succ j => simp at ht
        · rw [if_neg h0]
          cases hest : mv.est with
          | error e => exact Or.inr ⟨haf, Or.inr (Or.inr (Or.inl hest))⟩
          | ok n =>
            simp only [res_ok_bind]
            show Sat (Mut.res (match (({ ss := x.ss, log2 := 0, tabs := [[]], tag := default } : Series α K C T).setNSegments (min n maxLog2)) with
              | .error e => _
              | .ok r => _)) _ _
            generalize hl : min n maxLog2 = l
            have hl63 : l ≤ maxLog2 := by rw [← hl]; exact Nat.min_le_right _ _
            have hset : ({ ss := x.ss, log2 := 0, tabs := [[]], tag := default } : Series α K C T).setNSegments l = .ok (emptyS x.ss l default) := by
              unfold Series.setNSegments
              rw [if_neg (by omega)]
              rfl
            rw [hset]
            dsimp only
            have t1 := prepare_sat (tr := tr) L hx.sym htr mv.srt1 l k1
            have t2 := prepare_sat (tr := tr) L hx.sym htr mv.srt2 l k2
            show Sat (Mut.res (match prepare ko mv.srt1 tr x.ss l x.terms with
              | .error e => _
              | .ok (w1, vs1) => _)) _ _
            cases hp1 : prepare ko mv.srt1 tr x.ss l x.terms with
            | error e => exact er1 e (t1.of_error hp1)
            | ok r1 =>
              obtain ⟨cs1, rfl, c1, so1, pe1⟩ := t1.of_ok hp1
              dsimp only
              show Sat (Mut.res (match prepare ko mv.srt2 tr x.ss l y.terms with
                | .error e => _
                | .ok (w2, vs2) => _)) _ _
              cases hp2 : prepare ko mv.srt2 tr x.ss l y.terms with
              | error e => exact er2 e (t2.of_error hp2)
              | ok r2 =>
                obtain ⟨cs2, rfl, c2, so2, pe2⟩ := t2.of_ok hp2
                dsimp only
                have hsegd : Segd ko tr.lim (fun x : Int × K × A => ko.hash x.2.1 % 2 ^ l) (fun x : Int × K × B => ko.hash x.2.1 % 2 ^ l) (2 ^ l) cs1 cs2 :=
                  ⟨c1, c2, so1, so2, degsAdd_of L hx hy hss hps hck pe1 pe2⟩
                obtain ⟨p0, hp0⟩ := List.exists_mem_of_ne_nil _ hne1
                have hunit := isKey_compat L (isKey_unit L (hx.term hp0).1)
                have hlen1 : (elems cs1).length = x.size := by rw [pe1.length_eq, List.length_map, size_eq]
                have hlen2 : (elems cs2).length = y.size := by rw [pe2.length_eq, List.length_map, size_eq]
                have hpo : ∀ j < 2 ^ l, ∀ pq ∈ pairsOf tr.lim (fun x : Int × K × A => ko.hash x.2.1 % 2 ^ l) (fun x : Int × K × B => ko.hash x.2.1 % 2 ^ l) (2 ^ l) j (elems cs1) (elems cs2),
                    PairOk ko VA VB x.ss l j pq := by
                  intro j _ pq hpq
                  obtain ⟨p, hp, q, hq, rfl, hh⟩ := mem_pairsOf hpq
                  obtain ⟨a, ha, rfl⟩ := List.mem_map.1 (pe1.mem_iff.1 hp)
                  obtain ⟨c, hc, rfl⟩ := List.mem_map.1 (pe2.mem_iff.1 hq)
                  exact pairOk_of L hx hy hss hck ha hc hh
                have hmt := parOutcome_q (ce := ce) LS L hx.sym (l := l) (by unfold maxLog2 at hl63; omega) hunit
                  (ps := fun j => pairsOf tr.lim (fun x : Int × K × A => ko.hash x.2.1 % 2 ^ l) (fun x : Int × K × B => ko.hash x.2.1 % 2 ^ l) (2 ^ l) j (elems cs1) (elems cs2))
                  (fun j hj => segPairs_ok hsegd (by omega)) hpo (fun j _ => pairsOf_in pe1 pe2) (hex x.ss l (segPairs ko tr.lim (elems cs1) (offs 0 cs1) (elems cs2) (offs 0 cs2) (2 ^ l)))
                revert hmt
                have hcount : checkMults tr x.size y.size l (segPairs ko tr.lim (elems cs1) (offs 0 cs1) (elems cs2) (offs 0 cs2) (2 ^ l)) = .ok () := by
                  have hmc := multCount_ok (2 ^ l) 0 (fun j _ hj => segPairs_ok hsegd (by omega : j < 2 ^ l))
                  cases tr with
                  | none =>
                    unfold checkMults
                    dsimp only
                    rw [hmc]
                    simp only [res_ok_bind, Trunc.lim]
                    rw [multCount_all _ _ (by positivity), hlen1, hlen2]
                    simp [cassert, bind, Except.bind, pure, Except.pure]
                  | total d => rfl
                  | part d S => rfl
                show Sat (ex x.ss l _) _ _ → Sat (Mut.res (match (do
                    let ts ← ex x.ss l _
                    _ : Res (List (List (K × C)))) with
                  | .error e => _
                  | .ok ts => _)) _ _
                cases ex x.ss l (segPairs ko tr.lim (elems cs1) (offs 0 cs1) (elems cs2) (offs 0 cs2) (2 ^ l)) with
                | error e =>
                  rintro (h | ⟨h, j, t, h'⟩)
                  · exact Or.inr ⟨haf, Or.inl h⟩
                  · refine Or.inr ⟨haf, Or.inr (Or.inr (Or.inr ⟨h, n, hest, _, ⟨elems cs1, elems cs2, pe1, pe2, rfl, ?_⟩, ?_⟩))⟩
                    · rw [hl]; exact hpo
                    · rw [hl]; exact ⟨j, t, h'⟩
                | ok ts =>
                  rintro ⟨a1, a2⟩
                  simp only [res_ok_bind]
                  rw [hcount]
                  exact ⟨rfl, rfl, haf, hl63, a1, _, ⟨elems cs1, elems cs2, pe1, pe2, rfl, hpo⟩, a2⟩

end
end Obake
