import Verif.Lemmas.Program
import Verif.Lemmas.PsProgram
import Verif.Lemmas.PolyPow
import Verif.Lemmas.PsPow
import Verif.Lemmas.PsSubs
import Verif.Lemmas.Expr
import Verif.Spec.Cmd

/-!
# Programs with control flow
-/

set_option linter.unusedSectionVars false
set_option linter.unusedVariables false

namespace Obake

section generic
variable {A L X S P : Type} {Rep : X → A → Prop} {M : S → P → Prop} {exec : S → X → L → Except (Exc × X) (X × L)} {sem : P → A → L → Set (POut A L)}

/-- The outcome of an action. -/
def actOut (r : Except (Exc × X) (X × L)) (l : L) : Out X L :=
  match r with
  | .ok (x', l') => .normal x' l'
  | .error (e, x') => .thrown e x' l

theorem run_act (exec : S → X → L → Except (Exc × X) (X × L)) (n : Nat) (s : L → S) (x : X) (l : L) : (Cmd.act s).run exec (n + 1) x l = actOut (exec (s l) x l) l := by
  rw [Cmd.run]; rfl

theorem Out.agrees_undef (o : Out X L) : o.Agrees Rep (.undef : POut A L) := by cases o <;> exact trivial

/-- If the actions of two programs of the same control flow correspond to each other, then so do the outcomes. -/
theorem run_agrees (hact : ∀ s p x a l, M s p → Rep x a → ∃ o ∈ sem p a l, (actOut (exec s x l) l).Agrees Rep o) :
    ∀ (n : Nat) (c : Cmd S L) (pc : Cmd P L) (x : X) (a : A) (l : L), c.Match M pc → Rep x a → ∃ o ∈ pc.outcomes sem n a l, (c.run exec n x l).Agrees Rep o := by
  intro n
  induction n with
  | zero =>
    intro c pc x a l _ _
    refine ⟨.timeout, by cases pc <;> exact rfl, ?_⟩
    rw [Cmd.run]
    exact trivial
  | succ n ih =>
    intro c pc x a l hm hr
    have then_ : ∀ (c : Cmd S L) (pc : Cmd P L) (k : Cmd S L) (pk : Cmd P L), c.Match M pc → k.Match M pk →
        ∃ o ∈ ⋃ o ∈ pc.outcomes sem n a l, o.andThen (pk.outcomes sem n), Out.Agrees Rep (match c.run exec n x l with
          | .normal x' l' => k.run exec n x' l'
          | o => o) o := by
      intro c pc k pk h1 h2
      obtain ⟨o, ho, hag⟩ := ih c pc x a l h1 hr
      cases o with
      | normal a' l' =>
        cases hc : c.run exec n x l with
        | normal x' l'' =>
          rw [hc] at hag
          obtain ⟨hr', rfl⟩ := hag
          obtain ⟨o', ho', hag'⟩ := ih k pk x' a' l'' h2 hr'
          exact ⟨o', Set.mem_biUnion ho ho', hag'⟩
        | thrown e x' l'' => rw [hc] at hag; exact absurd hag id
        | timeout => rw [hc] at hag; exact absurd hag id
      | thrown e a' l' =>
        refine ⟨.thrown e a' l', Set.mem_biUnion ho rfl, ?_⟩
        cases hc : c.run exec n x l with
        | normal x' l'' => rw [hc] at hag; exact absurd hag id
        | thrown e x' l'' => rw [hc] at hag; exact hag
        | timeout => rw [hc] at hag; exact absurd hag id
      | timeout =>
        refine ⟨.timeout, Set.mem_biUnion ho rfl, ?_⟩
        cases hc : c.run exec n x l with
        | normal x' l'' => rw [hc] at hag; exact absurd hag id
        | thrown e x' l'' => rw [hc] at hag; exact absurd hag id
        | timeout => exact trivial
      | undef =>
        refine ⟨.undef, Set.mem_biUnion ho rfl, ?_⟩
        exact Out.agrees_undef _
    cases hm with
    | skip => exact ⟨_, rfl, hr, rfl⟩
    | act h =>
      obtain ⟨o, ho, hag⟩ := hact _ _ x a l (h l) hr
      exact ⟨o, ho, by rw [run_act]; exact hag⟩
    | assign f => exact ⟨_, rfl, hr, rfl⟩
    | throw e => exact ⟨_, rfl, rfl, hr, rfl⟩
    | seq h h' =>
      rw [Cmd.run, Cmd.outcomes]
      dsimp only
      exact then_ _ _ _ _ h h'
    | ite b h h' =>
      rw [Cmd.run, Cmd.outcomes]
      dsimp only
      by_cases hb : b l = true
      · rw [if_pos hb, if_pos hb]; exact ih _ _ x a l h hr
      · rw [if_neg hb, if_neg hb]; exact ih _ _ x a l h' hr
    | «while» b h =>
      rw [Cmd.run, Cmd.outcomes]
      dsimp only
      by_cases hb : b l = true
      · rw [if_pos hb, if_pos hb]; exact then_ _ _ _ _ h (.while b h)
      · rw [if_neg hb, if_neg hb]; exact ⟨_, rfl, hr, rfl⟩
    | tryCatch hd h1 h2 =>
      rename_i c d c' d'
      rw [Cmd.run, Cmd.outcomes]
      dsimp only
      obtain ⟨o, ho, hag⟩ := ih c c' x a l h1 hr
      cases o with
      | normal a' l' =>
        refine ⟨.normal a' l', Set.mem_biUnion ho rfl, ?_⟩
        cases hc : c.run exec n x l with
        | normal x' l'' => rw [hc] at hag; exact hag
        | thrown e x' l'' => rw [hc] at hag; exact absurd hag id
        | timeout => rw [hc] at hag; exact absurd hag id
      | thrown e a' l' =>
        cases hc : c.run exec n x l with
        | normal x' l'' => rw [hc] at hag; exact absurd hag id
        | thrown e' x' l'' =>
          rw [hc] at hag
          obtain ⟨rfl, hr', rfl⟩ := hag
          dsimp only
          by_cases hh : hd e' = true
          · rw [if_pos hh]
            obtain ⟨o', ho', hag'⟩ := ih d d' x' a' l'' h2 hr'
            exact ⟨o', Set.mem_biUnion ho (by unfold POut.orElse; dsimp only; rw [if_pos hh]; exact ho'), hag'⟩
          · rw [if_neg hh]
            exact ⟨.thrown e' a' l'', Set.mem_biUnion ho (by unfold POut.orElse; dsimp only; rw [if_neg hh]; exact rfl), rfl, hr', rfl⟩
        | timeout => rw [hc] at hag; exact absurd hag id
      | timeout =>
        refine ⟨.timeout, Set.mem_biUnion ho rfl, ?_⟩
        cases hc : c.run exec n x l with
        | normal x' l'' => rw [hc] at hag; exact absurd hag id
        | thrown e x' l'' => rw [hc] at hag; exact absurd hag id
        | timeout => exact trivial
      | undef =>
        refine ⟨.undef, Set.mem_biUnion ho rfl, ?_⟩
        exact Out.agrees_undef _

/-- More steps do not change the outcome of a program that has come to its end. -/
theorem run_mono (exec : S → X → L → Except (Exc × X) (X × L)) : ∀ (n m : Nat) (c : Cmd S L) (x : X) (l : L), n ≤ m → c.run exec n x l ≠ .timeout → c.run exec m x l = c.run exec n x l := by
  intro n
  induction n with
  | zero => intro m c x l _ h; exact absurd (by rw [Cmd.run]) h
  | succ n ih =>
    intro m c x l hm h
    obtain ⟨m, rfl⟩ : ∃ k, m = k + 1 := ⟨m - 1, by omega⟩
    have hm : n ≤ m := by omega
    have then_ : ∀ c k : Cmd S L, (match c.run exec n x l with
          | .normal x' l' => k.run exec n x' l'
          | o => o) ≠ .timeout → (match c.run exec m x l with
          | .normal x' l' => k.run exec m x' l'
          | o => o) = (match c.run exec n x l with
          | .normal x' l' => k.run exec n x' l'
          | o => o) := by
      intro c k h
      have hc := ih m c x l hm
      cases hr : c.run exec n x l with
      | normal x' l' =>
        rw [hr] at h hc
        rw [hc (by simp)]
        exact ih m k x' l' hm h
      | thrown e x' l' => rw [hr] at h hc; rw [hc (by simp)]
      | timeout => rw [hr] at h; exact absurd rfl h
    cases c with
    | skip => rw [Cmd.run, Cmd.run]
    | act s => rw [Cmd.run, Cmd.run]
    | assign f => rw [Cmd.run, Cmd.run]
    | throw e => rw [Cmd.run, Cmd.run]
    | seq c d => rw [Cmd.run] at h ⊢; rw [Cmd.run]; exact then_ c d h
    | ite b c d =>
      rw [Cmd.run] at h ⊢
      rw [Cmd.run]
      by_cases hb : b l = true
      · rw [if_pos hb] at h ⊢; rw [if_pos hb]; exact ih m c x l hm h
      · rw [if_neg hb] at h ⊢; rw [if_neg hb]; exact ih m d x l hm h
    | «while» b c =>
      rw [Cmd.run] at h ⊢
      rw [Cmd.run]
      by_cases hb : b l = true
      · rw [if_pos hb] at h ⊢; rw [if_pos hb]; exact then_ c (.while b c) h
      · rw [if_neg hb] at h ⊢; rw [if_neg hb]
    | tryCatch c hd d =>
      rw [Cmd.run] at h ⊢
      rw [Cmd.run]
      have hc := ih m c x l hm
      cases hr : c.run exec n x l with
      | normal x' l' => rw [hr] at h hc; rw [hc (by simp)]
      | thrown e x' l' =>
        rw [hr] at h hc
        rw [hc (by simp)]
        dsimp only at h ⊢
        by_cases hh : hd e = true
        · rw [if_pos hh] at h ⊢; rw [if_pos hh]; exact ih m d x' l' hm h
        · rw [if_neg hh, if_neg hh]
      | timeout => rw [hr] at h; exact absurd rfl h

end generic

variable {ι α K C T R L : Type} [CommRing R] [DecidableEq ι] [DecidableEq K] [LinearOrder α] {ko : KeyOps α K} {ce : CEnv K C} {V : Val C R} {E : Exc → Prop}

theorem powErr_actErr {M : MulEnv → Prop} {Lw : KeyLaws ko} {x : Series α K C T} {n : Nat} {e : Exc} (h : PowErr Lw E M V x n e) : ActErr E M e := by
  rcases h with h | ⟨_, i, _, h | ⟨h, _⟩ | ⟨h, _⟩ | ⟨mv, h1, h2 | ⟨h2, _⟩⟩⟩ | ⟨h, _⟩
  · exact Or.inl (Or.inl h)
  · exact Or.inl (Or.inl h)
  · exact Or.inl (Or.inr (Or.inl h))
  · exact Or.inl (Or.inr (Or.inl h))
  · exact Or.inr ⟨mv, h1, h2⟩
  · exact Or.inl (Or.inr (Or.inl h2))
  · exact Or.inl (Or.inr (Or.inl h))

/-- The store and the cache of powers represent the state. -/
def CacheRep [DecidableEq T] [Inhabited T] (ko : KeyOps α K) (V : Val C R) (x : Store ι α K C T × PowCache α K C T) (A : ι → Option (Poly R α)) : Prop :=
  Represents ko V x.1 A ∧ CacheOk (CacheBase ko V) (IsPower ko V) x.2

/-- Actions on polynomials. -/
theorem act_agrees [DecidableEq T] [Inhabited T] {mo : MulOps C C C} {M : MulEnv → Prop} {po : PowOps α K C T} (he : EnvSpec ce V E) (Lw : KeyLaws ko) (hm : MulSpec mo V V V E)
    (h0 : IsKey ko [] (ko.unit [])) (hp : PowSpec ko ce mo M po V E) (s : Act ι α K C T L) (p : PAct ι (Poly R α) L) (x : Store ι α K C T × PowCache α K C T) (A : ι → Option (Poly R α)) (l : L)
    (hs : s.Means ko V E p) (hr : CacheRep ko V x A) : ∃ o ∈ p.outcomes (ActErr E M) A l, (actOut (s.exec ko ce po x l) l).Agrees (CacheRep ko V) o := by
  have und : ∀ {o : Out (Store ι α K C T × PowCache α K C T) L}, o.Agrees (CacheRep ko V) (.undef : POut (ι → Option (Poly R α)) L) := by intro o; cases o <;> exact trivial
  cases hs with
  | @st s p h =>
    cases hst : p.step A with
    | none =>
      refine ⟨.undef, ?_, und⟩
      unfold PAct.outcomes; dsimp only; rw [hst]; exact rfl
    | some A' =>
      have := exec_sat (ce := ce) he Lw hr.1 h hst
      unfold PAct.outcomes Act.exec
      dsimp only
      rw [hst]
      revert this
      cases s.exec ko ce x.1 with
      | ok σ => exact fun h => ⟨.normal A' l, Or.inl rfl, ⟨h, hr.2⟩, rfl⟩
      | error y => exact fun h => ⟨.thrown y.1 (p.thrown A) l, Or.inr ⟨y.1, Or.inl h.1, rfl⟩, rfl, ⟨h.2, hr.2⟩, rfl⟩
  | @pow t a n h =>
    cases ha : A a with
    | none =>
      refine ⟨.undef, ?_, und⟩
      unfold PAct.outcomes PStmt.step; dsimp only; rw [ha]; exact rfl
    | some q =>
      obtain ⟨b, hb, rfl⟩ := hr.1.2 a q ha
      have hinv := hr.1.1.inv hb
      have h1 := polyPow_nat he Lw hm h0 hp hr.2 hinv h
      have h2 := polyPow_cache he Lw hm h0 hp hr.2 hinv (some (n : Int))
      unfold PAct.outcomes PStmt.step Act.exec
      dsimp only
      rw [ha, hb, val_good]
      dsimp only [Option.map]
      revert h1
      cases (polyPow ko ce po x.2 b (some (n : Int))).1 with
      | ok r =>
        rintro ⟨r1, r2, _⟩
        refine ⟨_, Or.inl rfl, ⟨?_, h2⟩, rfl⟩
        refine hr.1.assign (P := fun _ => False) hr.1.1 (fun _ _ => rfl) r1 ?_ ?_
        · intro p hp; (try dsimp only at hp); rw [setVar_self] at hp; cases hp; exact r2
        · intro v p hv hp
          (try dsimp only at hp)
          rw [setVar_ne _ _ hv] at hp
          exact ⟨(dropVar_some hp).1, id⟩
      | error e =>
        intro h1
        refine ⟨_, Or.inr ⟨e, powErr_actErr h1, rfl⟩, rfl, ⟨?_, h2⟩, rfl⟩
        exact hr.1.thrown hr.1.1 fun _ _ => rfl
  | clearCache => exact ⟨_, rfl, ⟨hr.1, cacheOk_nil⟩, rfl⟩
  | @obs1 a f φ h =>
    cases ha : A a with
    | none =>
      refine ⟨.undef, ?_, und⟩
      unfold PAct.outcomes; dsimp only; rw [ha]; exact rfl
    | some q =>
      obtain ⟨b, hb, rfl⟩ := hr.1.2 a q ha
      have := h b (hr.1.1.inv hb)
      unfold PAct.outcomes Act.exec obsSt1
      dsimp only
      rw [ha, hb, val_good]
      dsimp only
      revert this
      cases f b with
      | ok l' => exact fun h => ⟨_, Or.inl ⟨l', h, rfl⟩, hr, rfl⟩
      | error e => exact fun h => ⟨_, Or.inr ⟨e, Or.inl h, rfl⟩, rfl, hr, rfl⟩
  | @obs2 a b f φ h =>
    cases ha : A a with
    | none =>
      refine ⟨.undef, ?_, und⟩
      unfold PAct.outcomes; dsimp only; rw [ha]; exact rfl
    | some p =>
      cases hb : A b with
      | none =>
        refine ⟨.undef, ?_, und⟩
        unfold PAct.outcomes; dsimp only; rw [ha, hb]; exact rfl
      | some q =>
        obtain ⟨x1, hx1, rfl⟩ := hr.1.2 a p ha
        obtain ⟨x2, hx2, rfl⟩ := hr.1.2 b q hb
        have := h x1 x2 (hr.1.1.inv hx1) (hr.1.1.inv hx2)
        unfold PAct.outcomes Act.exec obsSt2
        dsimp only
        rw [ha, hb, hx1, hx2, val_good, val_good]
        dsimp only
        revert this
        cases f x1 x2 with
        | ok l' => exact fun h => ⟨_, Or.inl ⟨l', h, rfl⟩, hr, rfl⟩
        | error e => exact fun h => ⟨_, Or.inr ⟨e, Or.inl h, rfl⟩, rfl, hr, rfl⟩

/-- The store and the cache of powers represent the state. -/
def PsCacheRep (ko : KeyOps α K) (V : Val C R) (x : Store ι α K C (Trunc α) × PowCache α K C (Trunc α)) (A : ι → Option (TPoly R α)) : Prop :=
  PsRepresents ko V x.1 A ∧ CacheOk (PsCacheBase ko V) (IsPsPower ko V) x.2

/-- Actions on power series. -/
theorem psAct_agrees {mo : MulOps C C C} {M : MulEnv → Prop} {po : PowOps α K C (Trunc α)} (he : EnvSpec ce V E) (Lw : KeyLaws ko) (hm : MulSpec mo V V V E) (hps : PartSafeAll Lw R)
    (hM : ∀ mv, M mv → ∀ e, mv.est = .error e → SubsErr E e) (h0 : IsKey ko [] (ko.unit [])) (hp : PsPowSpec ko ce mo M po V E)
    (s : PsAct ι α K C L) (p : PAct ι (TPoly R α) L × Option (ι × ι)) (x : Store ι α K C (Trunc α) × PowCache α K C (Trunc α)) (A : ι → Option (TPoly R α)) (l : L)
    (hs : s.Means ko V E p) (hr : PsCacheRep ko V x A) : ∃ o ∈ p.1.psOutcomes (SubsErr E) p.2 A l, (actOut (s.exec ko ce po x l) l).Agrees (PsCacheRep ko V) o := by
  have und : ∀ {o : Out (Store ι α K C (Trunc α) × PowCache α K C (Trunc α)) L}, o.Agrees (PsCacheRep ko V) (.undef : POut (ι → Option (TPoly R α)) L) := by intro o; cases o <;> exact trivial
  cases hs with
  | @st s p h =>
    cases hst : p.st.step A with
    | none =>
      refine ⟨.undef, ?_, und⟩
      unfold PAct.psOutcomes PAct.outcomes
      dsimp only
      rw [if_neg (by rw [hst]; simp), hst]; exact rfl
    | some A' =>
      unfold PAct.psOutcomes PAct.outcomes PsAct.exec
      dsimp only
      by_cases hc : p.Clashes A
      · rw [if_pos ⟨by rw [hst]; simp, hc⟩, ps_clash_exec hr.1 h hc]
        exact ⟨_, rfl, rfl, hr, rfl⟩
      · rw [if_neg fun h => hc h.2, hst]
        have := ps_exec_sat (ce := ce) he Lw hr.1 h hc hst
        revert this
        cases s.exec ko ce x.1 with
        | ok σ => exact fun h => ⟨.normal A' l, Or.inl rfl, ⟨h, hr.2⟩, rfl⟩
        | error y => exact fun h => ⟨.thrown y.1 (p.st.thrown A) l, Or.inr ⟨y.1, h.1, rfl⟩, rfl, ⟨h.2, hr.2⟩, rfl⟩
  | @pow t a n h hnn =>
    have hncl : ¬ QStmt.Clashes A ⟨PStmt.unary t a false fun p => (truncP p.2 (p.1 ^ n), p.2), none⟩ := by
      rintro ⟨_, _, _, _, h, _⟩; cases h
    cases ha : A a with
    | none =>
      refine ⟨.undef, ?_, und⟩
      unfold PAct.psOutcomes PAct.outcomes PStmt.step; dsimp only
      rw [if_neg fun h => hncl h.2, ha]; exact rfl
    | some q =>
      obtain ⟨b, hb, hi, rfl⟩ := hr.1.get ha
      have hdeg : ∀ μ ∈ (den ko V b).coeff.support, 0 ≤ b.tag.deg μ := by
        intro μ hμ
        obtain ⟨p, hp, rfl⟩ := (exists_term Lw hi.inv).1 hμ
        exact deg_nonneg_of fun s => hnn _ _ hi.inv.sym (hi.inv.term hp).1 s
      have h1 := psPow_sat he Lw hm hps h0 hp hr.2 hi h
      have h2 := polyPow_ps_cache he Lw hm hps h0 hp hr.2 hi (some (n : Int))
      rw [← psPow_cache_eq] at h2
      unfold PAct.psOutcomes PAct.outcomes PStmt.step PsAct.exec
      dsimp only
      rw [if_neg fun h => hncl h.2, ha, hb, val_good]
      dsimp only [Option.map]
      revert h1
      cases (psPow ko ce po x.2 b (some (n : Int))).1 with
      | ok r =>
        rintro ⟨r1, r2, _, Q, hq, r4⟩
        have hd : IsTrunc b.tag (den ko V b ^ n) (den ko V r) := by
          rcases hq with ⟨rfl, _⟩ | hq
          · exact r4
          · exact r4.trans (hq.agree hdeg)
        refine ⟨_, Or.inl rfl, ⟨?_, h2⟩, rfl⟩
        refine hr.1.assign (P := fun _ => False) hr.1.1 (fun _ _ => rfl) (psInv_of r1 r2 hi.sym r4) ?_ ?_
        · intro p hp; (try dsimp only at hp); rw [setVar_self] at hp; cases hp; rw [r2, hd.eq_truncP]
        · intro v p hv hp
          (try dsimp only at hp)
          rw [setVar_ne _ _ hv] at hp
          exact ⟨(dropVar_some hp).1, id⟩
      | error e =>
        intro h1
        refine ⟨_, Or.inr ⟨e, PsPowErr'.subsErr hM h1, rfl⟩, rfl, ⟨?_, h2⟩, rfl⟩
        exact hr.1.thrown hr.1.1 fun _ _ => rfl
  | clearCache => exact ⟨_, rfl, ⟨hr.1, cacheOk_nil⟩, rfl⟩
  | @obs1 a f φ h =>
    cases ha : A a with
    | none =>
      refine ⟨.undef, ?_, und⟩
      unfold PAct.psOutcomes PAct.outcomes; dsimp only; rw [ha]; exact rfl
    | some q =>
      obtain ⟨b, hb, hi, rfl⟩ := hr.1.get ha
      have := h b hi
      unfold PAct.psOutcomes PAct.outcomes PsAct.exec obsSt1
      dsimp only
      rw [ha, hb, val_good]
      dsimp only
      revert this
      cases f b with
      | ok l' => exact fun h => ⟨_, Or.inl ⟨l', h, rfl⟩, hr, rfl⟩
      | error e => exact fun h => ⟨_, Or.inr ⟨e, h, rfl⟩, rfl, hr, rfl⟩
  | @obs2 a b f φ h =>
    cases ha : A a with
    | none =>
      refine ⟨.undef, ?_, und⟩
      unfold PAct.psOutcomes PAct.outcomes; dsimp only; rw [ha]; exact rfl
    | some p =>
      cases hb : A b with
      | none =>
        refine ⟨.undef, ?_, und⟩
        unfold PAct.psOutcomes PAct.outcomes; dsimp only; rw [ha, hb]; exact rfl
      | some q =>
        obtain ⟨x1, hx1, hi1, rfl⟩ := hr.1.get ha
        obtain ⟨x2, hx2, hi2, rfl⟩ := hr.1.get hb
        have := h x1 x2 hi1 hi2
        unfold PAct.psOutcomes PAct.outcomes PsAct.exec obsSt2
        dsimp only
        rw [ha, hb, hx1, hx2, val_good, val_good]
        dsimp only
        revert this
        cases f x1 x2 with
        | ok l' => exact fun h => ⟨_, Or.inl ⟨l', h, rfl⟩, hr, rfl⟩
        | error e => exact fun h => ⟨_, Or.inr ⟨e, h, rfl⟩, rfl, hr, rfl⟩

end Obake
