import Verif.Lemmas.RawPow
import Verif.Props.RawMul
import Verif.Props.Poly

/-!
# C76: powers of polynomials with arbitrary coefficients

Nothing is assumed about the values that the operations on coefficients return, unless a hypothesis says so.
-/

set_option linter.unusedSimpArgs false
set_option linter.unusedVariables false
set_option linter.unusedSectionVars false

namespace Obake

variable {α K C T : Type} [LinearOrder α] [DecidableEq K] [DecidableEq T] [Inhabited T] {ko : KeyOps α K} {ce : CEnv K C} {E : Exc → Prop}
  {mo : MulOps C C C} {M : MulEnv → Prop} {po : PowOps α K C T}

/-- **C76, `pow(x, n)` after any history of calls**: for a polynomial with several terms the result is computed by repeated multiplication from `x`, or from an argument of an earlier call whose coefficients compare equal to
those of `x`; for a polynomial with one term or none, from the power of its coefficient. -/
theorem C76_pow (he : RawSpec ce E) (L : KeyLaws ko) (hm : RawMulSpec mo E) (h0 : IsKey ko [] (ko.unit [])) (hp : RawPowSpec ko ce mo M po E)
    (h : List (PowEvent α K C T)) (hh : ∀ y e, PowEvent.pow y e ∈ h → RawInv ko ce y) (x : Series α K C T) (hx : RawInv ko ce x) (n : Int) :
    Sat (polyPow ko ce po (cacheAfter ko ce po h) x (some n)).1
      (fun e => E e ∨ (e = .overflow ∧ ∃ ν cf, x.size = 1 ∧ cfAt ko x ν = some cf ∧ ¬ Rep ko x.ss (n • ν)) ∨ (e = .invalidArg ∧ 2 ≤ x.size ∧ ¬ (0 ≤ n ∧ n < 2 ^ 32)) ∨
        (2 ≤ x.size ∧ ∃ b, BaseFor ko po.ceq h x b ∧ RawPowErr L E M ce.toCfOps mo po.one .none b n.toNat e))
      (fun r => RawPowRes ko ce mo po .none h x n r ∧ r.tag = default) :=
  (polyPow_raw he L h0 hp.toRawPowCf (fillSpec_poly he L hm hp) (cacheAfter_raw he L hm h0 hp h hh) ⟨hx, trivial⟩ n).1.post fun r h => ⟨h.1, h.2.elim id id⟩

/-- **C76, types whose `==` is identity** (for numbers different from zero, as for floating-point types): the cache is not observable, the result is computed from `x` itself. -/
theorem C76_exact (he : RawSpec ce E) (L : KeyLaws ko) (hm : RawMulSpec mo E) (h0 : IsKey ko [] (ko.unit [])) (hp : RawPowSpec ko ce mo M po E)
    (hq : ∀ a b, NZ ce.toCfOps a → NZ ce.toCfOps b → po.ceq a b = .ok true → a = b)
    (h : List (PowEvent α K C T)) (hh : ∀ y e, PowEvent.pow y e ∈ h → RawInv ko ce y) (x : Series α K C T) (hx : RawInv ko ce x) (n : Int)
    (h2 : ∃ μ ν, μ ≠ ν ∧ HasTerm ko x μ ∧ HasTerm ko x ν) (r : Series α K C T) (hr : (polyPow ko ce po (cacheAfter ko ce po h) x (some n)).1 = .ok r) :
    RawInv ko ce r ∧ RawPow ko ce.toCfOps mo po.one .none x n.toNat r := by
  have hres := ((C76_pow he L hm h0 hp h hh x hx n).of_ok hr).1
  obtain ⟨hn, b, hb, hf, hpw⟩ := hres.many h2
  refine ⟨hres.inv, hpw.base L ?_ hb hx⟩
  rcases hf with hf | ⟨hf, _⟩
  · exact hf.symm
  · exact (hf.same L hq hb hx).symm

/-- **C76, concurrent calls**: with a `==` that is identity, every call that has returned has the result of repeated multiplication of its argument, whatever other threads do with the cache. -/
theorem C76_concurrent (he : RawSpec ce E) (L : KeyLaws ko) (hm : RawMulSpec mo E) (h0 : IsKey ko [] (ko.unit [])) (hp : RawPowSpec ko ce mo M po E)
    (hq : ∀ a b, NZ ce.toCfOps a → NZ ce.toCfOps b → po.ceq a b = .ok true → a = b)
    (s : PowState α K C T)
    (hs : PowRun (fun b => RawInv ko ce b) (copySeries ce) (powHash ko po.thash) (areIdentical ko po.ceq) (PolyProd ko ce mo M) (fromScalar ko ce [] po.one) s)
    (t : Nat) (b : Series α K C T) (n : Nat) (r : Option (Res (Series α K C T))) (hr : s.pc t = .done (.pow b n) r) :
    ∃ r', r = some r' ∧ Sat r' (fun e => E e ∨ ∃ i < n, ∃ b', RawInv ko ce b' ∧ SameCf ko b' b ∧ RawPowErr1 L E M ce.toCfOps mo po.one .none b' i e)
      fun p => RawInv ko ce p ∧ p.tag = default ∧ RawPow ko ce.toCfOps mo po.one .none b n p := by
  have hgood : (fun b : Series α K C T => RawInv ko ce b) = RawGood (polyKind α T) ko ce := by
    funext b
    exact propext ⟨fun h => ⟨h, trivial⟩, fun h => h.1⟩
  rw [hgood] at hs
  obtain ⟨hi, _⟩ := PowInv.run (Good := RawGood (polyKind α T) ko ce) (pwr := IsRawPower (polyKind α T) ko ce mo po.one) (F := RawFill (polyKind α T) ko L E M ce mo po.one) (copySpec_raw he L) (cmp_raw L hp.ceq hq)
    (fun b _ => (fromScalar_raw he L h0 hp.one).post fun p h => ⟨h.1, h.2.1, .zero h.2.2⟩) (fun b i p o hb hpw ho => fill_raw' he L hm b i p o hb.1 hpw ho) hs
  have := hi.pc t
  rw [hr] at this
  cases r with
  | none => exact this.elim
  | some r => exact ⟨r, rfl, this.2.post fun p hp => ⟨hp.1, hp.2.1.trans (by split <;> rfl), hp.2.2⟩⟩

/-- **C76, commutative products**: each power is the product of the previous one and the base, in this order. -/
theorem C76_commutative {co : CfOps C} (h1 : ∀ a b, mo.mul b a = mo.mul a b) (h2 : ∀ c a b, mo.fma c b a = mo.fma c a b) {one : Res C} {b q : Series α K C T} {n : Nat}
    {tr : Trunc α} (h : RawPow ko co mo one tr b (n + 1) q) : ∃ p, RawPow ko co mo one tr b n p ∧ RawProd ko co mo tr p b q := by
  cases h with
  | @succ _ p _ a _ c d =>
    refine ⟨p, a, ?_⟩
    by_cases hs : p.size ≤ b.size
    · exact c hs
    · exact (d (by omega)).swap h1 h2

theorem first_power (L : KeyLaws ko) (hc1 : ∀ a b, mo.mul b a = mo.mul a b) (hc2 : ∀ c a b, mo.fma c b a = mo.fma c a b) (u : C) (hu : NZ ce.toCfOps u)
    (h1 : ∀ c, NZ ce.toCfOps c → mo.mul u c = .ok c) {b r : Series α K C T} (hb : RawInv ko ce b)
    (h : RawPow ko ce.toCfOps mo (.ok u) .none b 1 r) : ∀ μ, cfAt ko r μ = cfAt ko b μ := by
  obtain ⟨p, a, hpr⟩ := C76_commutative hc1 hc2 h
  cases a with
  | zero hc =>
      have hu' : cfAt ko p 0 = some u := by
        have := hc.2.1
        rw [show (Except.ok u >>= keepCf ce.toCfOps) = .ok (some u) from keepCf_nz hu] at this
        exact (Except.ok.inj this).symm
      intro μ
      obtain ⟨l, hl, e⟩ := hpr.kept μ trivial
      have hmem : ∀ q, q ∈ l ↔ q.1 = (0, u) ∧ q.2.1 = μ ∧ cfAt ko b μ = some q.2.2 := by
        rintro ⟨⟨q1, q2⟩, q3, q4⟩
        rw [hl.mem]
        dsimp only
        constructor
        · rintro ⟨e1, e2, e3⟩
          have h0 : q1 = 0 := by
            by_contra hne
            rw [hc.2.2 q1 hne] at e2
            cases e2
          subst h0
          rw [hu'] at e2
          cases e2
          rw [zero_add] at e1
          subst e1
          exact ⟨rfl, rfl, e3⟩
        · rintro ⟨e1, e2, e3⟩
          cases e1
          subst e2
          exact ⟨by simp, hu', e3⟩
      cases hcb : cfAt ko b μ with
      | none =>
        have hnil : l = [] := by
          rw [List.eq_nil_iff_forall_not_mem]
          intro q hq
          have := ((hmem q).1 hq).2.2
          rw [hcb] at this
          cases this
        rw [hnil] at e
        exact (Except.ok.inj e).symm
      | some d =>
        have hone : l = [((0, u), (μ, d))] := by
          have hp : l.Perm [((0, u), (μ, d))] := by
            refine (List.perm_ext_iff_of_nodup hl.nodup (by simp)).2 ?_
            rintro ⟨q1, q2, q3⟩
            rw [hmem, hcb]
            simp only [List.mem_singleton, Prod.mk.injEq, Option.some.injEq]
            exact ⟨fun ⟨a, b, c⟩ => ⟨a, b, c.symm⟩, fun ⟨a, b, c⟩ => ⟨a, b, c.symm⟩⟩
          exact List.perm_singleton.1 hp
        rw [hone] at e
        have hd := cfAt_nz L hb hcb
        have e' : (mo.mul u d >>= fun c => accum mo (some c) []) >>= keepOpt ce.toCfOps = .ok (cfAt ko r μ) := e
        rw [h1 d hd] at e'
        have e'' : keepCf ce.toCfOps d = .ok (cfAt ko r μ) := e'
        rw [keepCf_nz hd] at e''
        exact (Except.ok.inj e'').symm

/-- **C76, exponent 1**: if products are commutative and those with the constant one are exact, then `pow(x, 1)` has the coefficients of `x`. -/
theorem C76_first (he : RawSpec ce E) (L : KeyLaws ko) (hm : RawMulSpec mo E) (h0 : IsKey ko [] (ko.unit [])) (hp : RawPowSpec ko ce mo M po E)
    (hq : ∀ a b, NZ ce.toCfOps a → NZ ce.toCfOps b → po.ceq a b = .ok true → a = b) (hc1 : ∀ a b, mo.mul b a = mo.mul a b) (hc2 : ∀ c a b, mo.fma c b a = mo.fma c a b)
    (u : C) (hu : po.one = .ok u) (hz : NZ ce.toCfOps u) (h1 : ∀ c, NZ ce.toCfOps c → mo.mul u c = .ok c)
    (h : List (PowEvent α K C T)) (hh : ∀ y e, PowEvent.pow y e ∈ h → RawInv ko ce y) (x : Series α K C T) (hx : RawInv ko ce x)
    (h2 : ∃ μ ν, μ ≠ ν ∧ HasTerm ko x μ ∧ HasTerm ko x ν) (r : Series α K C T) (hr : (polyPow ko ce po (cacheAfter ko ce po h) x (some 1)).1 = .ok r) :
    ∀ μ, cfAt ko r μ = cfAt ko x μ := by
  have := (C76_exact he L hm h0 hp hq h hh x hx 1 h2 r hr).2
  rw [hu] at this
  exact first_power L hc1 hc2 u hz h1 hx this

/-- **C76, coefficients that are not equal to anything** (NaN): a base with such a coefficient is never found in the cache, every call of `pow` adds an entry, and all its powers are computed again. -/
theorem C76_not_cached (he : RawSpec ce E) (L : KeyLaws ko) (hm : RawMulSpec mo E) (h0 : IsKey ko [] (ko.unit [])) (hp : RawPowSpec ko ce mo M po E)
    (h : List (PowEvent α K C T)) (hh : ∀ y e, PowEvent.pow y e ∈ h → RawInv ko ce y) (x : Series α K C T) (hx : RawInv ko ce x)
    (h2 : ∃ μ ν, μ ≠ ν ∧ HasTerm ko x μ ∧ HasTerm ko x ν) (μ : α →₀ ℤ) (d : C) (hd : cfAt ko x μ = some d) (hn : ∀ a, po.ceq a d = .ok false) (n : Int) (hn1 : 0 < n) (hn2 : n < 2 ^ 32)
    (r : Series α K C T) (hr : (polyPow ko ce po (cacheAfter ko ce po h) x (some n)).1 = .ok r) :
    (cacheAfter ko ce po (.pow x (some n) :: h)).length = (cacheAfter ko ce po h).length + 1 := by
  have hc := cacheAfter_raw he L hm h0 hp h hh
  have hsz : 2 ≤ x.size := by
    obtain ⟨μ, ν, hne, ⟨c, hcμ⟩, ⟨c', hcν⟩⟩ := h2
    obtain ⟨k, hk, ek⟩ := (cfAt_some L hx).1 hcμ
    obtain ⟨k', hk', ek'⟩ := (cfAt_some L hx).1 hcν
    rw [size_eq]
    rcases hl : x.terms with _ | ⟨a, _ | ⟨b, l⟩⟩
    · rw [hl] at hk; cases hk
    · rw [hl, List.mem_singleton] at hk hk'
      rw [← hk'] at hk
      cases hk
      exact absurd (ek.symm.trans ek') hne
    · simp
  show ((polyPow ko ce po (cacheAfter ko ce po h) x (some n)).2).length = _
  revert hr
  generalize cacheAfter ko ce po h = c at hc
  unfold polyPow
  rw [if_neg (by omega)]
  unfold defaultPow
  have hsc : x.isSingleCf ko = .ok false := by
    unfold Series.isSingleCf
    rcases hs : x.size with _ | _ | k
    · omega
    · omega
    · rfl
  rw [hsc]
  dsimp only
  rw [if_neg (by omega), if_pos ⟨by omega, hn2⟩]
  unfold powCached
  have hcb := copySeries_raw he x
  cases hcp : copySeries ce x with
  | error e => intro h; cases h
  | ok b =>
    rw [hcp] at hcb
    have hcb' : Copied x b := hcb
    dsimp only
    intro hr
    have hf := cacheFind_never (hash := powHash ko po.thash) (ceq := po.ceq) L hp.ceq (hcb'.ok hx : RawInv ko ce b) (μ := μ) (d := d) (by rw [hcb'.cfAt L hx]; exact hd)
      (fun a => by rw [hn a]; simp) (fun a ha => ha.1.1) (i := 0) hc
    unfold powFromCache at hr ⊢
    cases hfd : cacheFind (powHash ko po.thash) (areIdentical ko po.ceq) b 0 c with
    | error e => rw [hfd] at hr; cases hr
    | ok o =>
      rw [hfd] at hf
      have : o = none := hf
      subst this
      simp

/-! ## Examples -/

/-- Powers of the toy floating-point type: repeated multiplication. -/
def flPow (n : Nat) : PowOps Nat Int Fl Unit where
  cpow c e := match e with
    | some e => .ok ((List.replicate e.toNat c).foldl (flOp (· * ·)) (.num 1))
    | none => .error .invalidArg
  zero := .ok (.num 0)
  one := .ok (.num 1)
  ceq a b := .ok (flEq a b)
  thash _ := 0
  mul := flMulX n .none

theorem flPow_spec (n : Nat) : RawPowSpec (pmOps Nat .i32) (flEnv Int) flMul (fun mv => mv = exEnv n) (flPow n) fun _ => False :=
  ⟨⟨trivial, trivial, fun _ _ => trivial, fun _ _ => trivial⟩, fun x y => ⟨_, _, _, seqExec_isPar _ _ _, seqExec_isPar _ _ _, rfl, rfl⟩⟩

theorem flEq_exact (a b : Fl) (h : flEq a b = true) : a = b := by
  cases a <;> cases b <;> simp_all [flEq]

theorem flHas (x : Series Nat Int Fl Unit) (hx : RawInv (pmOps Nat .i32) (flEnv Int) x) (k : Int) (c : Fl) (h : (k, c) ∈ x.terms) : HasTerm (pmOps Nat .i32) x (mon (pmOps Nat .i32) x.ss k) :=
  ⟨c, (cfAt_some (pmLaws Nat .i32) hx).2 ⟨k, h, rfl⟩⟩

theorem flB_two : ∃ μ ν, μ ≠ ν ∧ HasTerm (pmOps Nat .i32) flB μ ∧ HasTerm (pmOps Nat .i32) flB ν := by
  have h1 := flHas flB flB_inv 1 (.num 6) (by decide +kernel)
  have h2 := flHas flB flB_inv 0 (.num 500) (by decide +kernel)
  refine ⟨_, _, ?_, h1, h2⟩
  intro e
  have := mon_inj (pmLaws Nat .i32) flB_inv.sym (flB_inv.term (p := (1, .num 6)) (by decide +kernel)).1 (flB_inv.term (p := (0, .num 500)) (by decide +kernel)).1 e
  cases this

theorem flA_two : ∃ μ ν, μ ≠ ν ∧ HasTerm (pmOps Nat .i32) flA μ ∧ HasTerm (pmOps Nat .i32) flA ν := by
  have h1 := flHas flA flA_inv 1 (.num 99) (by decide +kernel)
  have h2 := flHas flA flA_inv 46337 .nan (by decide +kernel)
  refine ⟨_, _, ?_, h1, h2⟩
  intro e
  have := mon_inj (pmLaws Nat .i32) flA_inv.sym (flA_inv.term (p := (1, .num 99)) (by decide +kernel)).1 (flA_inv.term (p := (46337, .nan)) (by decide +kernel)).1 e
  cases this

/-- The hypotheses are met: the square of `6 a + 2 b + 500` after a history with a NaN. -/
example (r : Series Nat Int Fl Unit)
    (hr : (polyPow (pmOps Nat .i32) (flEnv Int) (flPow 1) (cacheAfter (pmOps Nat .i32) (flEnv Int) (flPow 1) [.pow flA (some 3), .clear, .pow flB (some 1)]) flB (some 2)).1 = .ok r) :
    RawPow (pmOps Nat .i32) (flEnv Int).toCfOps flMul (.ok (.num 1)) .none flB 2 r :=
  (C76_exact (flEnv_raw Int) (pmLaws Nat .i32) flMul_raw (C36_packed_unit _ _) (flPow_spec 1) (fun a b _ _ h => flEq_exact a b (Except.ok.inj h)) _
    (by
      intro y e hy
      simp at hy
      rcases hy with ⟨rfl, _⟩ | ⟨rfl, _⟩
      · exact flA_inv
      · exact flB_inv) flB flB_inv 2 flB_two r hr).2
example : (polyPow (pmOps Nat .i32) (flEnv Int) (flPow 1) (cacheAfter (pmOps Nat .i32) (flEnv Int) (flPow 1) [.pow flA (some 3), .clear, .pow flB (some 1)]) flB (some 2)).1.map (fun r => tabFind r.terms 1) =
    .ok (some .nan) := by decide +kernel
example : (polyPow (pmOps Nat .i32) (flEnv Int) (flPow 1) [] flB (some 1)).1.map (fun r => tabFind r.terms 1) = .ok (some (.num 6)) := by decide +kernel

/-- **Every call of `pow` with a NaN coefficient adds an entry to the cache**, so that it grows without bound until it is cleared. -/
example : (cacheAfter (pmOps Nat .i32) (flEnv Int) (flPow 1) [.pow flA (some 2), .pow flA (some 2), .pow flA (some 2)]).length = 3 ∧
    (cacheAfter (pmOps Nat .i32) (flEnv Int) (flPow 1) [.pow flB (some 2), .pow flB (some 2), .pow flB (some 2)]).length = 1 := by decide +kernel
example (h : List (PowEvent Nat Int Fl Unit)) (hh : ∀ y e, PowEvent.pow y e ∈ h → RawInv (pmOps Nat .i32) (flEnv Int) y) (r : Series Nat Int Fl Unit)
    (hr : (polyPow (pmOps Nat .i32) (flEnv Int) (flPow 1) (cacheAfter (pmOps Nat .i32) (flEnv Int) (flPow 1) h) flA (some 2)).1 = .ok r) :
    (cacheAfter (pmOps Nat .i32) (flEnv Int) (flPow 1) (.pow flA (some 2) :: h)).length = (cacheAfter (pmOps Nat .i32) (flEnv Int) (flPow 1) h).length + 1 :=
  C76_not_cached (flEnv_raw Int) (pmLaws Nat .i32) flMul_raw (C36_packed_unit _ _) (flPow_spec 1) h hh flA flA_inv flA_two _ .nan
    ((cfAt_some (pmLaws Nat .i32) flA_inv).2 ⟨46337, by decide +kernel, rfl⟩) (fun a => by cases a <;> rfl) 2 (by omega) (by omega) r hr

/-! Numbers with a precision (like `mppp::real`): a value and a number of decimal digits; sums and products have the larger precision of their operands, and `==` compares only values. -/

structure Pr where
  val : Int
  prec : Nat
deriving DecidableEq

/-- Rounding to one digit, or none. -/
def prRound (n : Int) (p : Nat) : Pr := ⟨if p ≤ 1 ∧ 10 ≤ n.natAbs then 10 * n.tdiv 10 else n, p⟩

def prOp (op : Int → Int → Int) (a b : Pr) : Pr := prRound (op a.val b.val) (max a.prec b.prec)

def prEnv : CEnv Int Pr where
  add a b := .ok (prOp (· + ·) a b)
  sub a b := .ok (prOp (· - ·) a b)
  mul a b := .ok (prOp (· * ·) a b)
  neg a := .ok ⟨-a.val, a.prec⟩
  isZero a := .ok (decide (a.val = 0))
  eq a b := .ok (decide (a.val = b.val))
  reord t := t

def prMul : MulOps Pr Pr Pr where
  mul a b := .ok (prOp (· * ·) a b)
  fma c a b := .ok (prOp (· + ·) c (prOp (· * ·) a b))

def prPow : PowOps Nat Int Pr Unit where
  cpow c e := .ok c
  zero := .ok ⟨0, 1⟩
  one := .ok ⟨1, 1⟩
  ceq a b := .ok (decide (a.val = b.val))
  thash _ := 0
  mul := polyMul (pmOps Nat .i32) prEnv prEnv prEnv prMul prMul (seqExec (pmOps Nat .i32) prEnv prMul) (seqExec (pmOps Nat .i32) prEnv prMul) (exEnv 0) .none

/-- `3 a + 5`, with one and with three digits. -/
def prX1 : Series Nat Int Pr Unit := ⟨[0], 0, [[(1, ⟨3, 1⟩), (0, ⟨5, 1⟩)]], ()⟩
def prX3 : Series Nat Int Pr Unit := ⟨[0], 0, [[(1, ⟨3, 3⟩), (0, ⟨5, 3⟩)]], ()⟩

/-- **The power depends on the history**: the square of `3 a + 5` with three digits is `9 a^2 + 30 a + 25`, but `9 a^2 + 30 a + 20` with one digit if the square of the same polynomial with one digit has been computed before.
The hypothesis of `C76_exact` about `==` cannot be omitted. -/
example : (polyPow (pmOps Nat .i32) prEnv prPow (cacheAfter (pmOps Nat .i32) prEnv prPow []) prX3 (some 2)).1.map (fun r => tabFind r.terms 0) = .ok (some ⟨25, 3⟩) ∧
    (polyPow (pmOps Nat .i32) prEnv prPow (cacheAfter (pmOps Nat .i32) prEnv prPow [.pow prX1 (some 2)]) prX3 (some 2)).1.map (fun r => tabFind r.terms 0) = .ok (some ⟨20, 1⟩) := by decide +kernel

end Obake
