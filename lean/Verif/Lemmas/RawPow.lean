import Verif.Spec.RawPow
import Verif.Lemmas.RawMul
import Verif.Lemmas.RawOps2
import Verif.Lemmas.PolyPow

/-!
# Lemmas: powers of polynomials with arbitrary coefficients
-/

set_option linter.unusedSimpArgs false
set_option linter.unusedVariables false
set_option linter.unusedSectionVars false

namespace Obake

section Cache

variable {α K C T : Type} {hash : Series α K C T → Nat} {cmp : Series α K C T → Series α K C T → Res Bool}
variable {Good : Series α K C T → Prop} {pwr : Series α K C T → Nat → Series α K C T → Prop} {E : Exc → Prop} {F : Series α K C T → Nat → Exc → Prop}
  {Sim : Series α K C T → Series α K C T → Prop}

theorem CacheOk.mono {Good' : Series α K C T → Prop} (h : ∀ b, Good b → Good' b) {c : PowCache α K C T} (hc : CacheOk Good pwr c) : CacheOk Good' pwr c :=
  fun i e he => ⟨h _ (hc i e he).1, (hc i e he).2⟩

/-- The entry that is found compares equal to the base. -/
theorem cacheFind_raw {b : Series α K C T} (hc : ∀ a, Good a → Sat (cmp a b) E fun r => r = true → Sim a b) : ∀ {c : PowCache α K C T} {i : Nat}, CacheOk Good pwr c →
    Sat (cacheFind hash cmp b i c) E fun r => ∀ j, r = some j → i ≤ j ∧ ∃ e, c[j - i]? = some e ∧ Sim e.1 b := by
  intro c
  induction c with
  | nil => intro i _; simp [cacheFind, Sat]
  | cons e c ih =>
    intro i h
    obtain ⟨hg, hv⟩ := h 0 e rfl
    have h' : CacheOk Good pwr c := fun j e' he' => h (j + 1) e' (by simpa using he')
    unfold cacheFind
    refine Sat.bind (P := fun r => r = true → Sim e.1 b) ?_ ?_
    · by_cases hh : hash e.1 = hash b
      · rw [if_pos hh]; exact hc e.1 hg
      · rw [if_neg hh]; intro h; cases h
    · intro r hr
      cases r with
      | true =>
        rw [if_pos rfl]
        rintro j hj
        cases hj
        exact ⟨Nat.le_refl _, e, by simp, hr rfl⟩
      | false =>
        rw [if_neg (by simp)]
        refine (ih h').post ?_
        intro r hr j hj
        obtain ⟨h1, e', h2, h3⟩ := hr j hj
        refine ⟨by omega, e', ?_, h3⟩
        rw [show j - i = (j - (i + 1)) + 1 by omega, List.getElem?_cons_succ]
        exact h2

theorem powFromCache_raw {mul : Series α K C T → Series α K C T → Res (Series α K C T)} {one : Res (Series α K C T)} {base : Series α K C T} (hc : ∀ a, Good a → Sat (cmp a base) E fun r => r = true → Sim a base)
    (h1 : ∀ b, Good b → Sat one E (pwr b 0)) (hm : ∀ b i p, Good b → pwr b i p → Sat (mul p b) (F b i) (pwr b (i + 1))) {c : PowCache α K C T} (h : CacheOk Good pwr c)
    (hb : Good base) (n : Nat) :
    Sat (powFromCache hash cmp mul one c base n).1 (fun e => E e ∨ ∃ a, (a = base ∨ (Good a ∧ Sim a base)) ∧ FillErr E F a n e) (fun r => ∃ a, (a = base ∨ (Good a ∧ Sim a base)) ∧ pwr a n r) ∧
      CacheOk Good pwr (powFromCache hash cmp mul one c base n).2 := by
  unfold powFromCache
  have hfind := cacheFind_raw (hash := hash) (i := 0) hc h
  cases hf : cacheFind hash cmp base 0 c with
  | error e => rw [hf] at hfind; exact ⟨Or.inl hfind, h⟩
  | ok o =>
    rw [hf] at hfind
    cases o with
    | none =>
      dsimp only
      obtain ⟨a1, a2⟩ := powVec_sat (h1 base hb) (fun i p => hm base i p hb) n (v := []) (by simp)
      exact ⟨a1.imp (fun e he => Or.inr ⟨base, Or.inl rfl, he⟩) fun r hr => ⟨base, Or.inl rfl, hr⟩, h.push hb a2⟩
    | some i =>
      obtain ⟨-, e, he, hs⟩ := hfind i rfl
      rw [Nat.sub_zero] at he
      dsimp only
      rw [he]
      dsimp only
      obtain ⟨hg, hv⟩ := h i e he
      obtain ⟨a1, a2⟩ := powVec_sat (h1 e.1 hg) (fun i p => hm e.1 i p hg) n hv
      exact ⟨a1.imp (fun x hx => Or.inr ⟨e.1, Or.inr ⟨hg, hs⟩, hx⟩) fun r hr => ⟨e.1, Or.inr ⟨hg, hs⟩, hr⟩, h.set hg a2⟩

end Cache

variable {α K C T : Type} [LinearOrder α] [DecidableEq K] [DecidableEq T] [Inhabited T] {ko : KeyOps α K} {ce : CEnv K C} {E : Exc → Prop}
  {mo : MulOps C C C} {M : MulEnv → Prop} {po : PowOps α K C T}

theorem SameCf.refl (a : Series α K C T) : SameCf ko a a := ⟨rfl, rfl, fun _ => rfl⟩
theorem SameCf.symm {a b : Series α K C T} (h : SameCf ko a b) : SameCf ko b a := ⟨h.ss.symm, h.tag.symm, fun μ => (h.cf μ).symm⟩
theorem SameCf.trans {a b c : Series α K C T} (h : SameCf ko a b) (h' : SameCf ko b c) : SameCf ko a c := ⟨h.ss.trans h'.ss, h.tag.trans h'.tag, fun μ => (h.cf μ).trans (h'.cf μ)⟩

theorem SameCf.size (L : KeyLaws ko) {a b : Series α K C T} (h : SameCf ko a b) (ha : RawInv ko ce a) (hb : RawInv ko ce b) : a.size = b.size :=
  size_of_cfAt L ha hb fun μ => by rw [h.cf μ]

theorem Copied.same (L : KeyLaws ko) {x x' : Series α K C T} (h : Copied x x') (hx : RawInv ko ce x) : SameCf ko x' x :=
  ⟨h.ss, h.tag, fun μ => h.cfAt L hx μ⟩

theorem copySeries_raw (he : RawSpec ce E) (x : Series α K C T) : Sat (copySeries ce x) E fun x' => Copied x x' :=
  Sat.bind (copyTabs_raw he x.tabs) fun ts h => ⟨rfl, rfl, rfl, h⟩

theorem EqSer.congr {ceq : C → C → Res Bool} {a b b' : Series α K C T} (h : EqSer ko ceq a b) (hs : SameCf ko b b') : EqSer ko ceq a b' :=
  ⟨h.ss.trans hs.ss, h.tag.trans hs.tag, fun μ => by rw [← hs.cf μ]; exact h.cf μ⟩

theorem areIdentical_raw (L : KeyLaws ko) {ceq : C → C → Res Bool} (hc : ∀ a b, Sat (ceq a b) E fun _ => True) {a b : Series α K C T} (ha : RawInv ko ce a) (hb : RawInv ko ce b) :
    Sat (areIdentical ko ceq a b) E fun r => r = true ↔ EqSer ko ceq a b := by
  unfold areIdentical
  by_cases h : a.ss = b.ss
  · rw [if_pos h]
    refine (cmpIdentical_raw L hc ha hb h).post ?_
    intro r hr
    rw [hr]
    exact ⟨fun h' => ⟨h, h'.1, h'.2⟩, fun h' => ⟨h'.tag, h'.cf⟩⟩
  · rw [if_neg h]
    exact ⟨fun h' => (by cases h'), fun h' : EqSer ko ceq a b => absurd h'.ss h⟩

theorem RawConst.congr {co : CfOps C} {arg : Res C} {p p' : Series α K C T} (h : RawConst ko co arg p) (hs : SameCf ko p' p) : RawConst ko co arg p' := by
  obtain ⟨h1, h2, h3⟩ := h
  exact ⟨hs.ss.trans h1, by rw [hs.cf]; exact h2, fun μ hμ => by rw [hs.cf μ, h3 μ hμ]⟩

theorem RawPow.congr {co : CfOps C} {one : Res C} {t : Trunc α} {b p p' : Series α K C T} {i : Nat} (h : RawPow ko co mo one t b i p) (hs : SameCf ko p' p) : RawPow ko co mo one t b i p' := by
  have hp : ∀ {u v : Series α K C T}, RawProd ko co mo t u v p → RawProd ko co mo t u v p' := fun h =>
    ⟨fun μ hμ => by rw [hs.cf μ]; exact h.kept μ hμ, fun μ hμ => by rw [hs.cf μ]; exact h.removed μ hμ⟩
  cases h with
  | zero h => exact .zero (h.congr hs)
  | succ a b c d => exact .succ a (hs.ss.trans b) (fun h => hp (c h)) fun h => hp (d h)

theorem RawPow.base (L : KeyLaws ko) {co : CfOps C} {one : Res C} {t : Trunc α} {b b' p : Series α K C T} {i : Nat} (h : RawPow ko co mo one t b i p) (hs : SameCf ko b' b) (hb : RawInv ko ce b) (hb' : RawInv ko ce b') :
    RawPow ko co mo one t b' i p := by
  have hsz := hs.size L hb' hb
  induction h with
  | zero h => exact .zero h
  | succ a b c d ih =>
    exact .succ ih (b.trans hs.ss.symm) (fun h => (c (by omega)).congr (fun _ => rfl) fun μ => (hs.cf μ).symm) fun h => (d (by omega)).congr (fun μ => (hs.cf μ).symm) fun _ => rfl

/-- The kinds of series that `pow` is applied to: the truncation of the products, the tag of the products, and the legal tags. -/
structure TagKind (α T : Type) where
  tr : T → Trunc α
  tg : T → T
  ok : T → Prop

/-- Polynomials are not truncated. -/
def polyKind (α T : Type) [Inhabited T] : TagKind α T := ⟨fun _ => .none, fun _ => default, fun _ => True⟩

/-- The invariant of the powers in the cache. -/
def IsRawPower (tk : TagKind α T) (ko : KeyOps α K) (ce : CEnv K C) (mo : MulOps C C C) (one : Res C) (b : Series α K C T) (i : Nat) (p : Series α K C T) : Prop :=
  RawInv ko ce p ∧ p.tag = (if i = 0 then default else tk.tg b.tag) ∧ RawPow ko ce.toCfOps mo one (tk.tr b.tag) b i p

/-- Legal bases. -/
def RawGood (tk : TagKind α T) (ko : KeyOps α K) (ce : CEnv K C) (b : Series α K C T) : Prop := RawInv ko ce b ∧ tk.ok b.tag

variable {tk : TagKind α T}

theorem RawGood.same {b b' : Series α K C T} (h : RawGood tk ko ce b) (h' : RawInv ko ce b') (ht : b'.tag = b.tag) : RawGood tk ko ce b' := ⟨h', by rw [ht]; exact h.2⟩

theorem RawPow.ss {co : CfOps C} {one : Res C} {t : Trunc α} {b p : Series α K C T} {i : Nat} (h : RawPow ko co mo one t b i p) : p.ss = if i = 0 then [] else b.ss := by
  cases h with
  | zero h => rw [if_pos rfl]; exact h.1
  | succ _ h => rw [if_neg (by omega)]; exact h

theorem fill_raw (he : RawSpec ce E) (L : KeyLaws ko) (hm : RawMulSpec mo E) {one : Res C} {b : Series α K C T} (hb : RawInv ko ce b)
    {i : Nat} {p : Series α K C T} (hp : IsRawPower (polyKind α T) ko ce mo one b i p) {o : Res (Series α K C T)} (ho : PolyProd ko ce mo M p b o) :
    Sat o (RawPowErr1 L E M ce.toCfOps mo one .none b i) (IsRawPower (polyKind α T) ko ce mo one b (i + 1)) := by
  obtain ⟨ex, ex', mv, hex, hex', hmv, rfl⟩ := ho
  obtain ⟨p1, p2, p3⟩ := hp
  have hu : setUnion p.ss b.ss = b.ss := by
    rw [p3.ss]
    by_cases h : i = 0
    · rw [if_pos h]; unfold setUnion; rfl
    · rw [if_neg h, setUnion_self hb.sym]
  refine (polyMul_raw (tr := .none) hex hex' he he he hm hm L p1 hb trivial (fun d S h => by cases h)).imp ?_ ?_
  · intro e h
    rw [hu] at h
    exact ⟨p, mv, p3, hmv, h⟩
  · rintro r ⟨h1, h2, h3, -, h4, h5⟩
    exact ⟨h1, h3.trans (by rw [if_neg (by omega)]; rfl), .succ p3 (h2.trans hu) h4 h5⟩

theorem fromScalar_raw (he : RawSpec ce E) (L : KeyLaws ko) (h0 : IsKey ko [] (ko.unit [])) {arg : Res C} (ha : Sat arg E fun _ => True) :
    Sat (fromScalar ko ce [] arg : Res (Series α K C T)) E fun p => RawInv ko ce p ∧ p.tag = default ∧ RawConst ko ce.toCfOps arg p := by
  have hE : RawInv ko ce (emptyS [] 0 default : Series α K C T) := emptyS_ok (by simp [IsSymSet]) (by simp [maxLog2])
  have ht : (emptyS [] 0 default : Series α K C T).terms = [] := emptyS_terms _ _ _
  unfold fromScalar
  refine (Sat.res (E := E) (addTermAt_raw he L (s := emptyS [] 0 default) hE h0 (by show _ % 2 ^ 0 = 0; simp [Nat.mod_one]) (fun _ p hp => by rw [ht] at hp; cases hp) (ha.post fun _ _ => Or.inl rfl)) ?_).post ?_
  · rintro e x ⟨h | ⟨_, h, _⟩, -⟩
    · exact h
    · cases h
  · intro s h
    have hmon : mon ko [] (ko.unit []) = (0 : α →₀ ℤ) := by
      ext s
      exact mon_not_mem L h0 (by simp)
    refine ⟨h.ok, h.same.tag.symm ▸ rfl, h.same.ss, ?_⟩
    have h1 := h.new
    have hn : ∀ μ, cfAt ko (emptyS [] 0 default : Series α K C T) μ = none := cfAt_nil ht
    rw [hn] at h1
    have hss : (emptyS [] 0 default : Series α K C T).ss = [] := rfl
    rw [hss, hmon] at h1
    refine ⟨?_, fun μ hμ => ?_⟩
    · rw [← h1]
      cases arg <;> rfl
    · rw [h.old μ (by rw [hss, hmon]; exact hμ), hn]

omit [DecidableEq T] in
theorem addNew_log2 (he : RawSpec ce E) (L : KeyLaws ko) {ss : List α} (hs : IsSymSet ss) {tag : T} {k : K} (hk : IsKey ko ss k) {arg : Res C} (ha : Sat arg E fun _ => True) :
    Sat (addTermPub ko ce true (emptyS ss 0 tag) k arg).res E fun p => RawInv ko ce p ∧ p.ss = ss ∧ p.tag = tag ∧ p.log2 = 0 ∧ RawTerm ko ce.toCfOps (mon ko ss k) arg p := by
  have hE : RawInv ko ce (emptyS ss 0 tag : Series α K C T) := emptyS_ok hs (by simp)
  have ht : (emptyS ss 0 tag : Series α K C T).terms = [] := emptyS_terms _ _ _
  refine (Sat.res (E := E) (addTerm_raw (fl := ⟨true, true, true, true, false⟩) he L hE (by exact hk) (by simp) (ha.post fun _ _ => Or.inl rfl)) ?_).post ?_
  · rintro e s ⟨h | h, -⟩
    · exact h
    · exact absurd rfl h.2.2.1
  · intro s h
    refine ⟨h.ok, h.same.ss, h.same.tag, h.same.log2, ?_⟩
    have h1 := h.new
    have hn : ∀ μ, cfAt ko (emptyS ss 0 tag : Series α K C T) μ = none := cfAt_nil ht
    rw [hn] at h1
    refine ⟨?_, fun μ hμ => ?_⟩
    · have hss : (emptyS ss 0 tag : Series α K C T).ss = ss := rfl
      rw [hss] at h1
      rw [← h1]
      cases arg <;> rfl
    · rw [h.old μ hμ, hn]

theorem addNew_raw (he : RawSpec ce E) (L : KeyLaws ko) {ss : List α} (hs : IsSymSet ss) {tag : T} {k : K} (hk : IsKey ko ss k) {arg : Res C} (ha : Sat arg E fun _ => True) :
    Sat (addTermPub ko ce true (emptyS ss 0 tag) k arg).res E fun p => RawInv ko ce p ∧ p.ss = ss ∧ p.tag = tag ∧ RawTerm ko ce.toCfOps (mon ko ss k) arg p :=
  (addNew_log2 he L hs hk ha).post fun p h => ⟨h.1, h.2.1, h.2.2.1, h.2.2.2.2⟩

/-- The bases in the cache are arguments of earlier calls. -/
def RawBase (tk : TagKind α T) (ko : KeyOps α K) (ce : CEnv K C) (h : List (PowEvent α K C T)) (b : Series α K C T) : Prop :=
  RawGood tk ko ce b ∧ ∃ y e, PowEvent.pow y e ∈ h ∧ SameCf ko b y

/-- The cache after the history `h`. -/
abbrev RawCache (tk : TagKind α T) (ko : KeyOps α K) (ce : CEnv K C) (mo : MulOps C C C) (one : Res C) (h : List (PowEvent α K C T)) (c : PowCache α K C T) : Prop :=
  CacheOk (RawBase tk ko ce h) (IsRawPower tk ko ce mo one) c

/-- The multiplication of a power by its base. -/
def FillSpec (tk : TagKind α T) (ko : KeyOps α K) (L : KeyLaws ko) (ce : CEnv K C) (mo : MulOps C C C) (one : Res C) (E : Exc → Prop) (M : MulEnv → Prop) (mul : Series α K C T → Series α K C T → Res (Series α K C T)) : Prop :=
  ∀ b i p, RawGood tk ko ce b → IsRawPower tk ko ce mo one b i p → Sat (mul p b) (RawPowErr1 L E M ce.toCfOps mo one (tk.tr b.tag) b i) (IsRawPower tk ko ce mo one b (i + 1))

theorem fillSpec_poly (he : RawSpec ce E) (L : KeyLaws ko) (hm : RawMulSpec mo E) (hp : RawPowSpec ko ce mo M po E) : FillSpec (polyKind α T) ko L ce mo po.one E M po.mul :=
  fun b i p hb hpw => fill_raw he L hm hb.1 hpw (hp.mul p b)

theorem RawCache.cons {one : Res C} {h : List (PowEvent α K C T)} {c : PowCache α K C T} (hc : RawCache tk ko ce mo one h c) (ev : PowEvent α K C T) : RawCache tk ko ce mo one (ev :: h) c :=
  CacheOk.mono (fun b hb => ⟨hb.1, let ⟨y, e, h1, h2⟩ := hb.2; ⟨y, e, List.mem_cons_of_mem _ h1, h2⟩⟩) hc

theorem powCached_raw (he : RawSpec ce E) (L : KeyLaws ko) (h0 : IsKey ko [] (ko.unit [])) (hp : RawPowCf po E) (hfill : FillSpec tk ko L ce mo po.one E M po.mul) {hash : Series α K C T → Nat}
    {h : List (PowEvent α K C T)} {c : PowCache α K C T} (hc : RawCache tk ko ce mo po.one h c) {x : Series α K C T} (hx : RawGood tk ko ce x) (n : Nat) (ee : Option Int) :
    Sat (powCached (copySeries ce) hash (areIdentical ko po.ceq) po.mul (fromScalar ko ce [] po.one) c x n).1
      (fun e => ∃ b, BaseFor ko po.ceq h x b ∧ RawPowErr L E M ce.toCfOps mo po.one (tk.tr x.tag) b n e)
      (fun r => RawInv ko ce r ∧ r.tag = (if n = 0 then default else tk.tg x.tag) ∧ ∃ b, RawInv ko ce b ∧ BaseFor ko po.ceq h x b ∧ RawPow ko ce.toCfOps mo po.one (tk.tr x.tag) b n r) ∧
    RawCache tk ko ce mo po.one (.pow x ee :: h) (powCached (copySeries ce) hash (areIdentical ko po.ceq) po.mul (fromScalar ko ce [] po.one) c x n).2 := by
  have hxx : BaseFor ko po.ceq h x x := Or.inl (SameCf.refl x)
  unfold powCached
  have hcb := copySeries_raw he x
  cases hcp : copySeries ce x with
  | error e => rw [hcp] at hcb; exact ⟨⟨x, hxx, Or.inl hcb⟩, hc.cons _⟩
  | ok b =>
    rw [hcp] at hcb
    have hcb' : Copied x b := hcb
    have hb : RawInv ko ce b := hcb'.ok hx.1
    have hbx := hcb'.same L hx.1
    have hg : RawBase tk ko ce (.pow x ee :: h) b := ⟨hx.same hb hbx.tag, x, ee, by simp, hbx⟩
    dsimp only
    obtain ⟨a1, a2⟩ := powFromCache_raw (hash := hash) (cmp := areIdentical ko po.ceq) (Good := RawBase tk ko ce (.pow x ee :: h)) (pwr := IsRawPower tk ko ce mo po.one) (E := E)
      (F := fun b => RawPowErr1 L E M ce.toCfOps mo po.one (tk.tr b.tag) b) (Sim := EqSer ko po.ceq) (mul := po.mul) (one := fromScalar ko ce [] po.one) (base := b)
      (fun a ha => (areIdentical_raw L hp.ceq ha.1.1 hb).post fun r hr h => hr.1 h)
      (fun b' _ => (fromScalar_raw he L h0 hp.one).post fun p h => ⟨h.1, h.2.1, .zero h.2.2⟩)
      (fun b' i p hb' hpw => hfill b' i p hb'.1 hpw) (hc.cons _) hg n
    have hfor : ∀ a, (a = b ∨ (RawBase tk ko ce (.pow x ee :: h) a ∧ EqSer ko po.ceq a b)) → BaseFor ko po.ceq h x a := by
      rintro a (rfl | ⟨⟨_, y, e, hy, hs⟩, hsim⟩)
      · exact Or.inl hbx
      · rcases List.mem_cons.1 hy with hy | hy
        · cases hy; exact Or.inl hs
        · exact Or.inr ⟨hsim.congr hbx, y, e, hy, hs⟩
    have htag : ∀ a, BaseFor ko po.ceq h x a → a.tag = x.tag := fun a ha => ha.elim (fun h => h.tag) fun h => h.1.tag
    refine ⟨?_, a2⟩
    refine Sat.bind (a1.err ?_) ?_
    · rintro e (he' | ⟨a, ha, hf⟩)
      · exact ⟨x, hxx, Or.inl he'⟩
      · refine ⟨a, hfor a ha, ?_⟩
        rw [← htag a (hfor a ha)]
        exact hf
    · rintro r ⟨a, ha, h1, h2, h3⟩
      refine (copySeries_raw he r).imp (fun e he' => ⟨x, hxx, Or.inl he'⟩) ?_
      intro r' hr'
      rw [htag a (hfor a ha)] at h2 h3
      exact ⟨hr'.ok h1, hr'.tag.trans h2, a, ha.elim (fun h => h ▸ hb) fun h => h.1.1.1, hfor a ha, h3.congr (hr'.same L h1)⟩

theorem polyPow_raw (he : RawSpec ce E) (L : KeyLaws ko) (h0 : IsKey ko [] (ko.unit [])) (hp : RawPowCf po E) (hfill : FillSpec tk ko L ce mo po.one E M po.mul)
    {h : List (PowEvent α K C T)} {c : PowCache α K C T} (hc : RawCache tk ko ce mo po.one h c) {x : Series α K C T} (hg : RawGood tk ko ce x) (n : Int) :
    Sat (polyPow ko ce po c x (some n)).1
      (fun e => E e ∨ (e = .overflow ∧ ∃ ν cf, x.size = 1 ∧ cfAt ko x ν = some cf ∧ ¬ Rep ko x.ss (n • ν)) ∨ (e = .invalidArg ∧ 2 ≤ x.size ∧ ¬ (0 ≤ n ∧ n < 2 ^ 32)) ∨
        (2 ≤ x.size ∧ ∃ b, BaseFor ko po.ceq h x b ∧ RawPowErr L E M ce.toCfOps mo po.one (tk.tr x.tag) b n.toNat e))
      (fun r => RawPowRes ko ce mo po (tk.tr x.tag) h x n r ∧ (r.tag = default ∨ r.tag = tk.tg x.tag)) ∧
    RawCache tk ko ce mo po.one (.pow x (some n) :: h) (polyPow ko ce po c x (some n)).2 := by
  have hx := hg.1
  rcases single_case L hx with ⟨hz, ht, hd⟩ | ⟨p, h1, ht, hb, hk, hgc, hv, hd⟩ | ⟨h2, hn⟩
  · unfold polyPow
    rw [if_neg (by omega)]
    unfold defaultPow
    have : x.isSingleCf ko = .ok true := by
      unfold Series.isSingleCf
      rw [hz]; rfl
    rw [this]
    dsimp only
    rw [if_pos ((isEmpty_iff x).2 ht)]
    refine ⟨?_, hc.cons _⟩
    refine (fromScalar_raw he L h0 (arg := po.zero >>= fun z => po.cpow z (some n)) (Sat.bind hp.zero fun z _ => hp.cpow z n)).imp (fun e h => Or.inl h) ?_
    rintro r ⟨a, b, d⟩
    refine ⟨⟨a, fun _ => d, ?_, fun ⟨μ, ν, _, ⟨c, h⟩, _⟩ => by rw [cfAt_nil ht] at h; cases h⟩, Or.inl b⟩
    intro ν cf hν
    rw [cfAt_nil ht] at hν
    cases hν
  · unfold polyPow
    rw [if_pos h1]
    refine ⟨?_, hc.cons _⟩
    dsimp only
    rw [new_setSymbolSet, res_ok_bind, hb, res_ok_bind]
    have hcf : cfAt ko x (mon ko x.ss p.1) = some p.2 := by
      rw [cfAt_some L hx, ht]
      exact ⟨p.1, by simp, rfl⟩
    refine Sat.bind ((pow_key L hx.sym hk n).err fun e h => Or.inr (Or.inl ⟨h.1, _, _, h1, hcf, h.2⟩)) ?_
    rintro w ⟨hw, hwm⟩
    refine (addNew_raw he L hx.sym hw (hp.cpow p.2 n)).imp (fun e h => Or.inl h) ?_
    rintro r ⟨a, b, d, f⟩
    have hone : ∀ μ, HasTerm ko x μ → μ = mon ko x.ss p.1 := by
      rintro μ ⟨c, hc⟩
      rw [cfAt_some L hx, ht] at hc
      obtain ⟨k, hk, e⟩ := hc
      rw [List.mem_singleton] at hk
      rw [← e, ← hk]
    refine ⟨⟨a, ?_, ?_, fun ⟨μ, ν, hne, h, h'⟩ => absurd ((hone μ h).trans (hone ν h').symm) hne⟩, Or.inl d⟩
    · intro hall
      rw [hall] at hcf; cases hcf
    · intro ν cf hν hun
      have hμ : mon ko x.ss p.1 = ν := by
        by_contra hne
        rw [hun _ hne] at hcf; cases hcf
      rw [hμ, hν] at hcf
      cases hcf
      rw [hwm, hμ] at f
      exact ⟨b, f⟩
  · have hpol : polyPow ko ce po c x (some n) = if n = 0 then (fromScalar ko ce [] po.one, c)
        else if 0 ≤ n ∧ n < 2 ^ 32 then powCached (copySeries ce) (powHash ko po.thash) (areIdentical ko po.ceq) po.mul (fromScalar ko ce [] po.one) c x n.toNat
        else (.error .invalidArg, c) := by
      unfold polyPow
      rw [if_neg (by omega)]
      unfold defaultPow
      have : x.isSingleCf ko = .ok false := by
        unfold Series.isSingleCf
        rcases hsz : x.size with _ | _ | k
        · omega
        · omega
        · rfl
      rw [this]
    have hno : ∀ r, RawInv ko ce r → (0 ≤ n ∧ ∃ b, RawInv ko ce b ∧ BaseFor ko po.ceq h x b ∧ RawPow ko ce.toCfOps mo po.one (tk.tr x.tag) b n.toNat r) → RawPowRes ko ce mo po (tk.tr x.tag) h x n r := by
      intro r ha hd
      refine ⟨ha, ?_, ?_, fun _ => hd⟩
      · intro hall
        have := size_of_cfAt L hx (emptyS_ok (l := 0) (tag := x.tag) hx.sym (by simp) : RawInv ko ce (emptyS x.ss 0 x.tag : Series α K C T)) (fun μ => by
          rw [hall, cfAt_nil (emptyS_terms _ _ _)])
        rw [emptyS_size] at this
        omega
      · intro ν cf hν hun
        exfalso
        have hlen := size_eq x
        have hnd := terms_mon_nodup L hx
        have hall : ∀ p ∈ x.terms, mon ko x.ss p.1 = ν := by
          intro p hp
          by_contra hne
          have := (cfAt_some L hx (μ := mon ko x.ss p.1) (c := p.2)).2 ⟨p.1, hp, rfl⟩
          rw [hun _ hne] at this
          cases this
        have hrep : x.terms.map (fun p => mon ko x.ss p.1) = List.replicate x.terms.length ν := by
          rw [List.eq_replicate_iff]
          refine ⟨by simp, ?_⟩
          intro μ hμ
          obtain ⟨p, hp, rfl⟩ := List.mem_map.1 hμ
          exact hall p hp
        rw [hrep, List.nodup_replicate] at hnd
        omega
    rw [hpol]
    by_cases hn0 : n = 0
    · rw [if_pos hn0]
      refine ⟨?_, hc.cons _⟩
      refine (fromScalar_raw he L h0 hp.one).imp (fun e h => Or.inl h) ?_
      rintro r ⟨a, b, d⟩
      refine ⟨hno r a ⟨by omega, x, hx, Or.inl (SameCf.refl x), ?_⟩, Or.inl b⟩
      rw [hn0]
      exact .zero d
    · rw [if_neg hn0]
      by_cases hr : 0 ≤ n ∧ n < 2 ^ 32
      · rw [if_pos hr]
        obtain ⟨a1, a2⟩ := powCached_raw (hash := powHash ko po.thash) he L h0 hp hfill hc hg n.toNat (some n)
        refine ⟨a1.imp (fun e he' => Or.inr (Or.inr (Or.inr ⟨h2, he'⟩))) ?_, a2⟩
        rintro r ⟨b1, b2, b3⟩
        refine ⟨hno r b1 ⟨hr.1, b3⟩, Or.inr ?_⟩
        rw [b2, if_neg (by omega)]
      · rw [if_neg hr]
        exact ⟨Or.inr (Or.inr (Or.inl ⟨rfl, h2, hr⟩)), hc.cons _⟩

/-- Exponents that are not integers do not change the cache. -/
theorem polyPow_none_cache (c : PowCache α K C T) (x : Series α K C T) : (polyPow ko ce po c x none).2 = c := by
  unfold polyPow
  by_cases h : x.size = 1
  · rw [if_pos h]
  · rw [if_neg h]
    unfold defaultPow
    cases x.isSingleCf ko with
    | error e => rfl
    | ok b =>
      cases b with
      | false => rfl
      | true =>
        dsimp only
        by_cases h : x.isEmpty = true
        · rw [if_pos h]
        · rw [if_neg h]

theorem cacheAfter_raw (he : RawSpec ce E) (L : KeyLaws ko) (hm : RawMulSpec mo E) (h0 : IsKey ko [] (ko.unit [])) (hp : RawPowSpec ko ce mo M po E) :
    ∀ h : List (PowEvent α K C T), (∀ y e, PowEvent.pow y e ∈ h → RawInv ko ce y) → RawCache (polyKind α T) ko ce mo po.one h (cacheAfter ko ce po h)
  | [], _ => cacheOk_nil
  | .pow x e :: h, hh => by
    have ih := cacheAfter_raw he L hm h0 hp h fun y e' hy => hh y e' (List.mem_cons_of_mem _ hy)
    cases e with
    | none =>
      show RawCache (polyKind α T) ko ce mo po.one _ (polyPow ko ce po (cacheAfter ko ce po h) x none).2
      rw [polyPow_none_cache]
      exact ih.cons _
    | some n => exact (polyPow_raw he L h0 hp.toRawPowCf (fillSpec_poly he L hm hp) ih ⟨hh x (some n) (by simp), trivial⟩ n).2
  | .clear :: h, hh => cacheOk_nil

/-- Bases that compare equal have the same terms, if equal coefficients are identical. -/
theorem EqSer.same (L : KeyLaws ko) {ceq : C → C → Res Bool} (hq : ∀ a b, NZ ce.toCfOps a → NZ ce.toCfOps b → ceq a b = .ok true → a = b) {a b : Series α K C T} (ha : RawInv ko ce a) (hb : RawInv ko ce b)
    (h : EqSer ko ceq a b) : SameCf ko a b := by
  refine ⟨h.ss, h.tag, fun μ => ?_⟩
  have := h.cf μ
  cases h1 : cfAt ko a μ with
  | none =>
    cases h2 : cfAt ko b μ with
    | none => rfl
    | some d => rw [h1, h2] at this; exact this.elim
  | some c =>
    cases h2 : cfAt ko b μ with
    | none => rw [h1, h2] at this; exact this.elim
    | some d =>
      rw [h1, h2] at this
      rw [hq c d (cfAt_nz L ha h1) (cfAt_nz L hb h2) this]

/-- The exceptions, for concurrent calls. -/
def RawFill (tk : TagKind α T) (ko : KeyOps α K) (L : KeyLaws ko) (E : Exc → Prop) (M : MulEnv → Prop) (ce : CEnv K C) (mo : MulOps C C C) (one : Res C) (b : Series α K C T) (i : Nat) (e : Exc) : Prop :=
  ∃ b', RawInv ko ce b' ∧ SameCf ko b' b ∧ RawPowErr1 L E M ce.toCfOps mo one (tk.tr b'.tag) b' i e

theorem cmp_raw (L : KeyLaws ko) {ceq : C → C → Res Bool} (hc : ∀ a b, Sat (ceq a b) E fun _ => True) (hq : ∀ a b, NZ ce.toCfOps a → NZ ce.toCfOps b → ceq a b = .ok true → a = b) {one : Res C} :
    CmpSpec (RawGood tk ko ce) (IsRawPower tk ko ce mo one) E (RawFill tk ko L E M ce mo one) (areIdentical ko ceq) := by
  intro a b ha hb
  refine (areIdentical_raw L hc ha.1 hb.1).post ?_
  intro r hr h
  have hs := (hr.1 h).same L hq ha.1 hb.1
  exact ⟨fun i p hp => ⟨hp.1, by rw [hp.2.1, hs.tag], by rw [← hs.tag]; exact hp.2.2.base L hs.symm ha.1 hb.1⟩, fun i e ⟨b', h1, h2, h3⟩ => ⟨b', h1, h2.trans hs, h3⟩⟩

theorem copySpec_raw (he : RawSpec ce E) (L : KeyLaws ko) {one : Res C} : CopySpec (RawGood tk ko ce) (IsRawPower tk ko ce mo one) E (RawFill tk ko L E M ce mo one) (copySeries ce) where
  base b hb := by
    refine (copySeries_raw he b).post ?_
    intro b' h
    have hs := h.same L hb.1
    have hb' : RawInv ko ce b' := h.ok hb.1
    exact ⟨hb.same hb' hs.tag, fun i p hp => ⟨hp.1, by rw [hp.2.1, hs.tag], by rw [← hs.tag]; exact hp.2.2.base L hs.symm hb' hb.1⟩, fun i e ⟨b'', h1, h2, h3⟩ => ⟨b'', h1, h2.trans hs, h3⟩⟩
  power b i p hp := by
    refine (copySeries_raw he p).post ?_
    intro p' h
    exact ⟨h.ok hp.1, h.tag.trans hp.2.1, hp.2.2.congr (h.same L hp.1)⟩

theorem fill_raw' (he : RawSpec ce E) (L : KeyLaws ko) (hm : RawMulSpec mo E) {one : Res C} (b : Series α K C T) (i : Nat) (p : Series α K C T) (o : Res (Series α K C T)) (hb : RawInv ko ce b)
    (hp : IsRawPower (polyKind α T) ko ce mo one b i p) (ho : PolyProd ko ce mo M p b o) :
    Sat o (RawFill (polyKind α T) ko L E M ce mo one b i) (IsRawPower (polyKind α T) ko ce mo one b (i + 1)) :=
  (fill_raw he L hm hb hp ho).err fun e h => ⟨b, hb, SameCf.refl b, h⟩

/-- A base with a coefficient to which nothing compares equal is never found. -/
theorem cacheFind_never {hash : Series α K C T → Nat} {ceq : C → C → Res Bool} (L : KeyLaws ko) (hc : ∀ a b, Sat (ceq a b) E fun _ => True) {b : Series α K C T} (hb : RawInv ko ce b) {μ : α →₀ ℤ} {d : C}
    (hd : cfAt ko b μ = some d) (hn : ∀ a, ceq a d ≠ .ok true) {Good : Series α K C T → Prop} (hg : ∀ a, Good a → RawInv ko ce a) {pwr : Series α K C T → Nat → Series α K C T → Prop} :
    ∀ {c : PowCache α K C T} {i : Nat}, CacheOk Good pwr c → Sat (cacheFind hash (areIdentical ko ceq) b i c) E fun r => r = none := by
  intro c i h
  refine (cacheFind_raw (Sim := fun _ _ => False) (fun a ha => (areIdentical_raw L hc (hg a ha) hb).post fun r hr h => ?_) h).post ?_
  · have := (hr.1 h).cf μ
    rw [hd] at this
    cases h1 : cfAt ko a μ with
    | none => rw [h1] at this; exact this
    | some a' => rw [h1] at this; exact hn a' this
  · intro r hr
    cases r with
    | none => rfl
    | some j =>
      obtain ⟨_, e, _, hf⟩ := hr j rfl
      exact hf.elim

end Obake
