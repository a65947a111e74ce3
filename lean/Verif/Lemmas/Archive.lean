import Verif.Model.Archive
import Verif.Lemmas.SeriesConv
import Verif.Spec.PolyMul

/-!
# Lemmas on serialisation in terms of primitive values
-/

set_option linter.unusedSimpArgs false
set_option linter.unusedVariables false
set_option linter.unusedSectionVars false

namespace Obake

/-- Loading gives back the saved object, whatever the previous content of the destination, and leaves the rest of the archive; loading does not look at the archive beyond what it consumes. -/
structure CodecOk {P X : Type} (c : Codec P X) (G : X → Prop) : Prop where
  round : ∀ x d rest, G x → c.load d (c.save x ++ rest) = .ok (x, rest)
  mono : ∀ d ar x rest ext, c.load d ar = .ok (x, rest) → c.load d (ar ++ ext) = .ok (x, rest ++ ext)

section
variable {α C : Type}

theorem readNat_mono {ar : List (Prim α C)} {n : Nat} {rest : List (Prim α C)} (ext : List (Prim α C)) (h : readNat ar = .ok (n, rest)) : readNat (ar ++ ext) = .ok (n, rest ++ ext) := by
  unfold readNat at h
  split at h
  · simp only [Except.ok.injEq, Prod.mk.injEq] at h
    obtain ⟨rfl, rfl⟩ := h
    rfl
  · simp at h

theorem intCodec_ok : CodecOk (intCodec α C) fun _ => True where
  round _ _ _ _ := rfl
  mono d ar x rest ext h := by
    unfold intCodec at h ⊢
    dsimp only at h ⊢
    split at h
    · simp only [Except.ok.injEq, Prod.mk.injEq] at h
      obtain ⟨rfl, rfl⟩ := h
      rfl
    · simp at h

theorem symCodec_ok : CodecOk (symCodec α C) fun _ => True where
  round _ _ _ _ := rfl
  mono d ar x rest ext h := by
    unfold symCodec at h ⊢
    dsimp only at h ⊢
    split at h
    · simp only [Except.ok.injEq, Prod.mk.injEq] at h
      obtain ⟨rfl, rfl⟩ := h
      rfl
    · simp at h

theorem cfCodec_ok : CodecOk (cfCodec α C) fun _ => True where
  round _ _ _ _ := rfl
  mono d ar x rest ext h := by
    unfold cfCodec at h ⊢
    dsimp only at h ⊢
    split at h
    · simp only [Except.ok.injEq, Prod.mk.injEq] at h
      obtain ⟨rfl, rfl⟩ := h
      rfl
    · simp at h

theorem resizeTo_length {X : Type} (d : X) (n : Nat) (l : List X) : (resizeTo d n l).length = n := by
  unfold resizeTo
  simp only [List.length_append, List.length_take, List.length_replicate]
  omega

theorem readAll_round {P X : Type} {c : Codec P X} {G : X → Prop} (hc : CodecOk c G) {rest : List P} : ∀ (xs ds : List X), ds.length = xs.length → (∀ x ∈ xs, G x) →
    readAll c ds (xs.flatMap c.save ++ rest) = .ok (xs, rest) := by
  intro xs
  induction xs with
  | nil =>
    intro ds h _
    rw [List.length_nil, List.length_eq_zero_iff] at h
    subst h; rfl
  | cons x xs ih =>
    intro ds h hg
    cases ds with
    | nil => simp at h
    | cons d ds =>
      unfold readAll
      rw [List.flatMap_cons, List.append_assoc, hc.round x d _ (hg x (by simp))]
      simp only [res_ok_bind]
      rw [ih ds (by simpa using h) (fun y hy => hg y (by simp [hy]))]
      rfl

theorem readAll_mono {P X : Type} {c : Codec P X} {G : X → Prop} (hc : CodecOk c G) {ext : List P} : ∀ (ds : List X) {ar : List P} {xs : List X} {rest : List P},
    readAll c ds ar = .ok (xs, rest) → readAll c ds (ar ++ ext) = .ok (xs, rest ++ ext) := by
  intro ds
  induction ds with
  | nil =>
    intro ar xs rest h
    unfold readAll at h ⊢
    simp only [Except.ok.injEq, Prod.mk.injEq] at h
    obtain ⟨rfl, rfl⟩ := h; rfl
  | cons d ds ih =>
    intro ar xs rest h
    unfold readAll at h ⊢
    cases h1 : c.load d ar with
    | error e => rw [h1] at h; simp [bind, Except.bind] at h
    | ok y =>
      obtain ⟨y, ar1⟩ := y
      rw [h1] at h
      rw [hc.mono _ _ _ _ _ h1]
      simp only [res_ok_bind] at h ⊢
      cases h2 : readAll c ds ar1 with
      | error e => rw [h2] at h; simp [bind, Except.bind] at h
      | ok z =>
        obtain ⟨z, ar2⟩ := z
        rw [h2] at h
        rw [ih h2]
        simp only [res_ok_bind, res_pure, Except.ok.injEq, Prod.mk.injEq] at h ⊢
        obtain ⟨rfl, rfl⟩ := h
        exact ⟨rfl, rfl⟩

theorem syms_round [LinearOrder α] (d₀ : α) {ss : List α} (hs : IsSymSet ss) (ds : List α) (rest : List (Prim α C)) : loadSyms d₀ ds (saveSyms ss ++ rest) = .ok (ss, rest) := by
  unfold loadSyms saveSyms
  rw [List.cons_append]
  show (readAll (symCodec α C) (resizeTo d₀ ss.length ds) (ss.flatMap (symCodec α C).save ++ rest) >>= _) = _
  rw [readAll_round symCodec_ok ss _ (resizeTo_length _ _ _) (fun _ _ => trivial), res_ok_bind]
  exact if_pos hs

theorem syms_mono [LinearOrder α] (d₀ : α) {ds ss : List α} {ar rest : List (Prim α C)} (ext : List (Prim α C)) (h : loadSyms d₀ ds ar = .ok (ss, rest)) :
    loadSyms d₀ ds (ar ++ ext) = .ok (ss, rest ++ ext) := by
  unfold loadSyms at h ⊢
  cases h1 : readNat ar with
  | error e => rw [h1] at h; simp [bind, Except.bind] at h
  | ok y =>
    obtain ⟨n, ar1⟩ := y
    rw [h1] at h
    rw [readNat_mono ext h1]
    simp only [res_ok_bind] at h ⊢
    cases h2 : readAll (symCodec α C) (resizeTo d₀ n ds) ar1 with
    | error e => rw [h2] at h; simp [bind, Except.bind] at h
    | ok z =>
      obtain ⟨z, ar2⟩ := z
      rw [h2] at h
      rw [readAll_mono symCodec_ok _ h2]
      simp only [res_ok_bind] at h ⊢
      by_cases hz : z.Pairwise (· < ·)
      · rw [if_pos hz] at h ⊢
        simp only [res_pure, Except.ok.injEq, Prod.mk.injEq] at h ⊢
        obtain ⟨rfl, rfl⟩ := h
        exact ⟨rfl, rfl⟩
      · rw [if_neg hz] at h; simp at h

theorem syms_loaded [LinearOrder α] (d₀ : α) {ds ss : List α} {ar rest : List (Prim α C)} (h : loadSyms d₀ ds ar = .ok (ss, rest)) : IsSymSet ss := by
  unfold loadSyms at h
  cases h1 : readNat ar with
  | error e => rw [h1] at h; simp [bind, Except.bind] at h
  | ok y =>
    obtain ⟨n, ar1⟩ := y
    rw [h1] at h
    simp only [res_ok_bind] at h
    cases h2 : readAll (symCodec α C) (resizeTo d₀ n ds) ar1 with
    | error e => rw [h2] at h; simp [bind, Except.bind] at h
    | ok z =>
      obtain ⟨z, ar2⟩ := z
      rw [h2] at h
      simp only [res_ok_bind] at h
      by_cases hz : z.Pairwise (· < ·)
      · rw [if_pos hz] at h
        simp only [res_pure, Except.ok.injEq, Prod.mk.injEq] at h
        obtain ⟨rfl, rfl⟩ := h
        exact hz
      · rw [if_neg hz] at h; simp at h

theorem dpmCodec_ok : CodecOk (dpmCodec α C) fun _ => True where
  round x d rest _ := by
    show (readAll (intCodec α C) (resizeTo 0 x.length d) (x.flatMap (intCodec α C).save ++ rest)) = _
    exact readAll_round intCodec_ok x _ (resizeTo_length _ _ _) (fun _ _ => trivial)
  mono d ar x rest ext h := by
    unfold dpmCodec at h ⊢
    dsimp only at h ⊢
    cases h1 : readNat ar with
    | error e => rw [h1] at h; simp [bind, Except.bind] at h
    | ok y =>
      obtain ⟨n, ar1⟩ := y
      rw [h1] at h
      rw [readNat_mono ext h1]
      simp only [res_ok_bind] at h ⊢
      exact readAll_mono intCodec_ok _ h

theorem unitCodec_ok : CodecOk (unitCodec α C) fun _ => True where
  round _ _ _ _ := rfl
  mono d ar x rest ext h := by
    unfold unitCodec at h ⊢
    simp only [Except.ok.injEq, Prod.mk.injEq] at h ⊢
    exact ⟨h.1, by rw [h.2]⟩

theorem truncCodec_ok [LinearOrder α] (d₀ : α) : CodecOk (truncCodec d₀ C) fun t : Trunc α => t.SymOk where
  round x d rest h := by
    cases x with
    | none => rfl
    | total d => rfl
    | part d S =>
      show (loadSyms d₀ [] (saveSyms S ++ rest) >>= _) = _
      rw [syms_round d₀ h]
      rfl
  mono d ar x rest ext h := by
    unfold truncCodec loadTruncP at h ⊢
    dsimp only at h ⊢
    cases h1 : readNat ar with
    | error e => rw [h1] at h; simp [bind, Except.bind] at h
    | ok y =>
      obtain ⟨n, ar1⟩ := y
      rw [h1] at h
      rw [readNat_mono ext h1]
      simp only [res_ok_bind] at h ⊢
      match n with
      | 0 =>
        simp only [res_pure, Except.ok.injEq, Prod.mk.injEq] at h ⊢
        obtain ⟨rfl, rfl⟩ := h
        exact ⟨rfl, rfl⟩
      | 1 =>
        simp only at h ⊢
        cases h2 : (intCodec α C).load 0 ar1 with
        | error e => rw [h2] at h; simp [bind, Except.bind] at h
        | ok z =>
          rw [h2] at h
          rw [intCodec_ok.mono _ _ _ _ ext h2]
          simp only [res_ok_bind, res_pure, Except.ok.injEq, Prod.mk.injEq] at h ⊢
          obtain ⟨rfl, rfl⟩ := h
          exact ⟨rfl, rfl⟩
      | 2 =>
        simp only at h ⊢
        cases h2 : (intCodec α C).load 0 ar1 with
        | error e => rw [h2] at h; simp [bind, Except.bind] at h
        | ok z =>
          obtain ⟨z, ar2⟩ := z
          rw [h2] at h
          rw [intCodec_ok.mono _ _ _ _ ext h2]
          simp only [res_ok_bind] at h ⊢
          cases h3 : loadSyms d₀ [] ar2 with
          | error e => rw [h3] at h; simp [bind, Except.bind] at h
          | ok w =>
            obtain ⟨w, ar3⟩ := w
            rw [h3] at h
            rw [syms_mono d₀ ext h3]
            simp only [res_ok_bind, res_pure, Except.ok.injEq, Prod.mk.injEq] at h ⊢
            obtain ⟨rfl, rfl⟩ := h
            exact ⟨rfl, rfl⟩
      | n + 3 => simp at h

variable {K T R : Type} [LinearOrder α] [DecidableEq K] [Inhabited T] [CommRing R] {ko : KeyOps α K} {ce : CEnv K C} {V : Val C R} {ck : Codec (Prim α C) K} {ct : Codec (Prim α C) T} {GK : K → Prop} {GT : T → Prop}

theorem loadTerms_zero {i : Nat} {s : Series α K C T} {ar : List (Tok α K C T)} : loadTerms ko ce i 0 s ar = .ok (s, ar) := by unfold loadTerms; rfl

theorem loadTerms_succ {i n : Nat} {s : Series α K C T} {k : K} {c : C} {ar : List (Tok α K C T)} : loadTerms ko ce i (n + 1) s (.key k :: .cf c :: ar) =
    match addTermAt ko ce ⟨true, false, false, false, true⟩ s i k (.ok c) with
    | .error (e, s') => .error (e, s', ar)
    | .ok s' => loadTerms ko ce i n s' ar := by
  conv_lhs => unfold loadTerms
  rcases addTermAt ko ce ⟨true, false, false, false, true⟩ s i k (.ok c) with ⟨e, s'⟩ | s' <;> rfl

theorem loadTables_zero {i : Nat} {s : Series α K C T} {ar : List (Tok α K C T)} : loadTables ko ce 0 i s ar = .ok (s, ar) := by unfold loadTables; rfl

theorem loadTables_succ {m i n : Nat} {s : Series α K C T} {ar : List (Tok α K C T)} : loadTables ko ce (m + 1) i s (.nat n :: ar) =
    match loadTerms ko ce i n s ar with
    | .error e => .error e
    | .ok (s', ar') => loadTables ko ce m (i + 1) s' ar' := by
  conv_lhs => unfold loadTables
  rcases loadTerms ko ce i n s ar with e | ⟨s', ar'⟩ <;> rfl

theorem loadTermsP_of (hk : CodecOk ck GK) {i : Nat} {rest : List (Prim α C)} : ∀ (t : List (K × C)) {s s' : Series α K C T} {tmp : K × C}, (∀ p ∈ t, GK p.1) →
    loadTerms ko ce i t.length s ((t.flatMap fun p => [.key p.1, .cf p.2]) ++ []) = .ok (s', []) →
    ∃ tmp', loadTermsP ko ce ck i t.length s tmp ((t.flatMap fun p => ck.save p.1 ++ (cfCodec α C).save p.2) ++ rest) = .ok (s', tmp', rest) := by
  intro t
  induction t with
  | nil =>
    intro s s' tmp _ h
    rw [List.length_nil, loadTerms_zero] at h
    simp only [List.flatMap_nil, List.nil_append, Except.ok.injEq, Prod.mk.injEq] at h
    exact ⟨tmp, by rw [← h.1]; rfl⟩
  | cons p t ih =>
    intro s s' tmp hg h
    obtain ⟨tk, tc⟩ := tmp
    rw [List.length_cons, List.flatMap_cons, List.append_assoc, List.cons_append, List.cons_append, List.nil_append, loadTerms_succ] at h
    rw [List.length_cons]
    unfold loadTermsP
    rw [List.flatMap_cons, List.append_assoc, List.append_assoc, hk.round _ _ _ (hg p (by simp))]
    dsimp only
    rw [cfCodec_ok.round _ _ _ trivial]
    dsimp only
    cases h1 : addTermAt ko ce ⟨true, false, false, false, true⟩ s i p.1 (.ok p.2) with
    | error e => rw [h1] at h; simp at h
    | ok s1 =>
      rw [h1] at h
      exact ih (fun q hq => hg q (by simp [hq])) h

theorem loadTablesP_of (hk : CodecOk ck GK) {rest : List (Prim α C)} : ∀ (ts : List (List (K × C))) {i : Nat} {s s' : Series α K C T} {tmp : K × C}, (∀ t ∈ ts, ∀ p ∈ t, GK p.1) →
    (∀ (t : List (K × C)) (i : Nat) (s : Series α K C T) (r : List (Tok α K C T)), t ∈ ts → ∀ s1 r1, loadTerms ko ce i t.length s ((t.flatMap fun p => [.key p.1, .cf p.2]) ++ r) = .ok (s1, r1) →
      r1 = r ∧ loadTerms ko ce i t.length s ((t.flatMap fun p => [.key p.1, .cf p.2]) ++ []) = .ok (s1, [])) →
    loadTables ko ce ts.length i s ((ts.flatMap fun t => .nat t.length :: t.flatMap fun p => [.key p.1, .cf p.2]) ++ []) = .ok (s', []) →
    loadTablesP ko ce ck ts.length i s tmp ((ts.flatMap fun t => .nat t.length :: t.flatMap fun p => ck.save p.1 ++ (cfCodec α C).save p.2) ++ rest) = .ok (s', rest) := by
  intro ts
  induction ts with
  | nil =>
    intro i s s' tmp _ _ h
    rw [List.length_nil, loadTables_zero] at h
    simp only [List.flatMap_nil, List.nil_append, Except.ok.injEq, Prod.mk.injEq] at h
    rw [← h.1]; rfl
  | cons t ts ih =>
    intro i s s' tmp hg hsep h
    rw [List.length_cons, List.flatMap_cons, List.cons_append, List.cons_append, List.append_assoc, loadTables_succ] at h
    rw [List.length_cons, List.flatMap_cons, List.cons_append, List.cons_append, List.append_assoc]
    unfold loadTablesP
    simp only [readNat]
    cases h1 : loadTerms ko ce i t.length s ((t.flatMap fun p => [.key p.1, .cf p.2]) ++ ((ts.flatMap fun t => .nat t.length :: t.flatMap fun p => [.key p.1, .cf p.2]) ++ [])) with
    | error e => rw [h1] at h; simp at h
    | ok y =>
      obtain ⟨s1, r1⟩ := y
      rw [h1] at h
      dsimp only at h
      obtain ⟨hr, h1'⟩ := hsep t i s _ (by simp) s1 r1 h1
      subst hr
      obtain ⟨tmp', h2⟩ := loadTermsP_of (tmp := tmp) (rest := (ts.flatMap fun t => .nat t.length :: t.flatMap fun p => ck.save p.1 ++ (cfCodec α C).save p.2) ++ rest) hk t (hg t (by simp)) h1'
      rw [h2]
      dsimp only
      exact ih (fun t ht => hg t (by simp [ht])) (fun t i s r ht => hsep t i s r (by simp [ht])) h

/-- `loadTerms` reads exactly the tokens of the terms. -/
theorem loadTerms_sep {i : Nat} : ∀ (t : List (K × C)) {s s1 : Series α K C T} {r r1 : List (Tok α K C T)}, loadTerms ko ce i t.length s ((t.flatMap fun p => [.key p.1, .cf p.2]) ++ r) = .ok (s1, r1) →
    r1 = r ∧ loadTerms ko ce i t.length s ((t.flatMap fun p => [.key p.1, .cf p.2]) ++ []) = .ok (s1, []) := by
  intro t
  induction t with
  | nil =>
    intro s s1 r r1 h
    rw [List.length_nil, loadTerms_zero] at h ⊢
    simp only [List.flatMap_nil, List.nil_append, Except.ok.injEq, Prod.mk.injEq] at h ⊢
    exact ⟨h.2.symm, h.1, trivial⟩
  | cons p t ih =>
    intro s s1 r r1 h
    rw [List.length_cons, List.flatMap_cons, List.append_assoc, List.cons_append, List.cons_append, List.nil_append, loadTerms_succ] at h ⊢
    cases h1 : addTermAt ko ce ⟨true, false, false, false, true⟩ s i p.1 (.ok p.2) with
    | error e => rw [h1] at h; simp at h
    | ok s2 => rw [h1] at h; exact ih h

theorem loadSeriesP_round (hk : CodecOk ck GK) (ht : CodecOk ct GT) (L : KeyLaws ko) (hre : ∀ t, (ce.reord t).Perm t) (hal : ∀ t k, ce.alloc t k = .ok ()) (d₀ : α) (tk : K) (tc : C) {x : Series α K C T} (hx : SeriesInv ko V x)
    (hgk : ∀ p ∈ x.terms, GK p.1) (hgt : GT x.tag) (dest : Series α K C T) (rest : List (Prim α C)) :
    ∃ ts, loadSeriesP ko ce ck ct d₀ tk tc dest (saveSeriesP ck ct x ++ rest) = .ok ({ x with tabs := ts }, rest) ∧ List.Forall₂ List.Perm ts x.tabs := by
  obtain ⟨ts, h1, h2⟩ := loadTables_roundtrip (ko := ko) (ce := ce) hre hal (rest := []) (ts := x.tabs)
    (s := { ss := x.ss, log2 := x.log2, tabs := List.replicate (2 ^ x.log2) [], tag := x.tag }) (pre := []) (by rw [hx.len]; simp) (by
      intro t ht
      obtain ⟨i, _, h⟩ := hx.tab_mem ht
      exact h.nodup) (by
      intro t ht p hp
      obtain ⟨i, _, h⟩ := hx.tab_mem ht
      exact isKey_compat L (h.key p hp))
  refine ⟨ts, ?_, h2⟩
  have hl : ¬ x.log2 > maxLog2 := by have := hx.log2; omega
  have h3 := loadTablesP_of (ck := ck) (tmp := (tk, tc)) (rest := rest) hk x.tabs (by
    intro t ht p hp
    exact hgk p (List.mem_flatten.2 ⟨t, ht, hp⟩)) (fun t i s r _ s1 r1 h => loadTerms_sep t h) h1
  rw [hx.len] at h3
  unfold loadSeriesP loadBodyP saveSeriesP
  simp only [List.cons_append, readNat, Series.setNSegments, if_neg hl]
  rw [List.append_assoc, ht.round _ _ _ hgt]
  dsimp only
  rw [List.append_assoc, syms_round d₀ hx.sym]
  dsimp only
  rw [show ({ ss := x.ss, log2 := x.log2, tabs := List.replicate (2 ^ x.log2) [], tag := x.tag } : Series α K C T) =
    { ss := x.ss, log2 := x.log2, tabs := List.replicate (2 ^ x.log2) [], tag := x.tag } from rfl] at h3
  simp only [List.length_nil] at h3
  rw [h3]
  rfl

/-! ## Failure -/

theorem loadTermsP_shape {i : Nat} : ∀ {n : Nat} {s : Series α K C T} {tmp : K × C} {ar : List (Prim α C)},
    Sat (loadTermsP ko ce ck i n s tmp ar) (fun x => Same s x.2 ∧ x.2.tabs.length = s.tabs.length) fun x => Same s x.1 ∧ x.1.tabs.length = s.tabs.length := by
  intro n
  induction n with
  | zero => intro s tmp ar; unfold loadTermsP; exact ⟨Same.refl s, rfl⟩
  | succ n ih =>
    intro s tmp ar
    obtain ⟨tk, tc⟩ := tmp
    unfold loadTermsP
    cases ck.load tk ar with
    | error e => exact ⟨Same.refl s, rfl⟩
    | ok y =>
      obtain ⟨k, ar1⟩ := y
      dsimp only
      cases (cfCodec α C).load tc ar1 with
      | error e => exact ⟨Same.refl s, rfl⟩
      | ok z =>
        obtain ⟨c, ar2⟩ := z
        dsimp only
        have h1 := addTermAt_shape (ko := ko) (ce := ce) (fl := ⟨true, false, false, false, true⟩) (s := s) (i := i) (k := k) (arg := .ok c)
        revert h1
        cases addTermAt ko ce ⟨true, false, false, false, true⟩ s i k (.ok c) with
        | error x => intro h1; exact h1
        | ok s' =>
          intro h1
          have h1 : Same s s' ∧ s'.tabs.length = s.tabs.length := h1
          refine ih.imp ?_ ?_
          · intro x h2; exact ⟨h1.1.trans h2.1, h2.2.trans h1.2⟩
          · intro x h2; exact ⟨h1.1.trans h2.1, h2.2.trans h1.2⟩

theorem loadTablesP_shape : ∀ {m i : Nat} {s : Series α K C T} {tmp : K × C} {ar : List (Prim α C)},
    Sat (loadTablesP ko ce ck m i s tmp ar) (fun x => Same s x.2 ∧ x.2.tabs.length = s.tabs.length) fun x => Same s x.1 ∧ x.1.tabs.length = s.tabs.length := by
  intro m
  induction m with
  | zero => intro i s tmp ar; unfold loadTablesP; exact ⟨Same.refl s, rfl⟩
  | succ m ih =>
    intro i s tmp ar
    unfold loadTablesP
    cases readNat ar with
    | error e => exact ⟨Same.refl s, rfl⟩
    | ok y =>
      obtain ⟨n, ar1⟩ := y
      dsimp only
      have h1 := loadTermsP_shape (ko := ko) (ce := ce) (ck := ck) (i := i) (n := n) (s := s) (tmp := tmp) (ar := ar1)
      revert h1
      cases loadTermsP ko ce ck i n s tmp ar1 with
      | error x => intro h1; exact h1
      | ok y =>
        intro h1
        have h1 : Same s y.1 ∧ y.1.tabs.length = s.tabs.length := h1
        refine ih.imp ?_ ?_
        · intro x h2; exact ⟨h1.1.trans h2.1, h2.2.trans h1.2⟩
        · intro x h2; exact ⟨h1.1.trans h2.1, h2.2.trans h1.2⟩

theorem loadBodyP_error {d₀ : α} {tk : K} {tc : C} {s : Series α K C T} (hl : s.log2 ≤ maxLog2) (hlen : s.tabs.length = 2 ^ s.log2) {ar : List (Prim α C)} {e : Exc × Series α K C T}
    (h : loadBodyP ko ce ck ct d₀ tk tc s ar = .error e) : e.2.log2 ≤ maxLog2 ∧ e.2.tabs.length = 2 ^ e.2.log2 := by
  unfold loadBodyP at h
  cases h1 : readNat ar with
  | error x => rw [h1] at h; simp only [Except.error.injEq] at h; subst h; exact ⟨hl, hlen⟩
  | ok y =>
    obtain ⟨l, ar1⟩ := y
    rw [h1] at h
    dsimp only at h
    unfold Series.setNSegments at h
    by_cases hle : l > maxLog2
    · rw [if_pos hle] at h
      simp only [Except.error.injEq] at h
      subst h
      exact ⟨hl, hlen⟩
    · rw [if_neg hle] at h
      dsimp only at h
      split at h
      · simp only [Except.error.injEq] at h
        subst h
        exact ⟨by show l ≤ _; omega, by simp⟩
      · split at h
        · simp only [Except.error.injEq] at h
          subst h
          exact ⟨by show l ≤ _; omega, by simp⟩
        · rename_i _ t ar2 _ _ ss ar3 _
          have hsh := loadTablesP_shape (ko := ko) (ce := ce) (ck := ck) (m := 2 ^ l) (i := 0) (s := { ss := ss, log2 := l, tabs := List.replicate (2 ^ l) [], tag := t }) (tmp := (tk, tc)) (ar := ar3)
          have := hsh.of_error h
          refine ⟨?_, ?_⟩
          · rw [this.1.log2]; show l ≤ maxLog2; omega
          · rw [this.2, this.1.log2]; simp

theorem loadSeriesP_error {d₀ : α} {tk : K} {tc : C} {s : Series α K C T} (hl : s.log2 ≤ maxLog2) (hlen : s.tabs.length = 2 ^ s.log2) {ar : List (Prim α C)} {e : Exc × Series α K C T}
    (h : loadSeriesP ko ce ck ct d₀ tk tc s ar = .error e) : SeriesInv ko V e.2 ∧ e.2.terms = [] := by
  unfold loadSeriesP at h
  have hc : s.clear.log2 ≤ maxLog2 ∧ s.clear.tabs.length = 2 ^ s.clear.log2 := ⟨hl, by simp [Series.clear, Series.clearTerms, hlen]⟩
  cases h1 : loadBodyP ko ce ck ct d₀ tk tc s.clear ar with
  | ok r => rw [h1] at h; simp at h
  | error x =>
    obtain ⟨x, s'⟩ := x
    rw [h1] at h
    simp only [Except.error.injEq] at h
    subst h
    obtain ⟨a, b⟩ := loadBodyP_error hc.1 hc.2 h1
    exact ⟨clear_ok a b, clear_terms _⟩

/-! ## Loading does not look beyond what it consumes -/

theorem loadTermsP_mono (hk : CodecOk ck GK) {i : Nat} (ext : List (Prim α C)) : ∀ {n : Nat} {s : Series α K C T} {tmp : K × C} {ar : List (Prim α C)} {y : Series α K C T × (K × C) × List (Prim α C)},
    loadTermsP ko ce ck i n s tmp ar = .ok y → loadTermsP ko ce ck i n s tmp (ar ++ ext) = .ok (y.1, y.2.1, y.2.2 ++ ext) := by
  intro n
  induction n with
  | zero =>
    intro s tmp ar y h
    unfold loadTermsP at h ⊢
    simp only [Except.ok.injEq] at h
    subst h; rfl
  | succ n ih =>
    intro s tmp ar y h
    obtain ⟨tk, tc⟩ := tmp
    unfold loadTermsP at h ⊢
    cases h1 : ck.load tk ar with
    | error e => rw [h1] at h; simp at h
    | ok z =>
      obtain ⟨k, ar1⟩ := z
      rw [h1] at h
      rw [hk.mono _ _ _ _ ext h1]
      dsimp only at h ⊢
      cases h2 : (cfCodec α C).load tc ar1 with
      | error e => rw [h2] at h; simp at h
      | ok z =>
        obtain ⟨c, ar2⟩ := z
        rw [h2] at h
        rw [cfCodec_ok.mono _ _ _ _ ext h2]
        dsimp only at h ⊢
        cases h3 : addTermAt ko ce ⟨true, false, false, false, true⟩ s i k (.ok c) with
        | error e => rw [h3] at h; simp at h
        | ok s' => rw [h3] at h; exact ih h

theorem loadTablesP_mono (hk : CodecOk ck GK) (ext : List (Prim α C)) : ∀ {m i : Nat} {s : Series α K C T} {tmp : K × C} {ar : List (Prim α C)} {y : Series α K C T × List (Prim α C)},
    loadTablesP ko ce ck m i s tmp ar = .ok y → loadTablesP ko ce ck m i s tmp (ar ++ ext) = .ok (y.1, y.2 ++ ext) := by
  intro m
  induction m with
  | zero =>
    intro i s tmp ar y h
    unfold loadTablesP at h ⊢
    simp only [Except.ok.injEq] at h
    subst h; rfl
  | succ m ih =>
    intro i s tmp ar y h
    unfold loadTablesP at h ⊢
    cases h1 : readNat ar with
    | error e => rw [h1] at h; simp at h
    | ok z =>
      obtain ⟨n, ar1⟩ := z
      rw [h1] at h
      rw [readNat_mono ext h1]
      dsimp only at h ⊢
      cases h2 : loadTermsP ko ce ck i n s tmp ar1 with
      | error e => rw [h2] at h; simp at h
      | ok z =>
        rw [h2] at h
        rw [loadTermsP_mono hk ext h2]
        exact ih h

theorem loadSeriesP_mono (hk : CodecOk ck GK) (ht : CodecOk ct GT) (d₀ : α) (tk : K) (tc : C) (ext : List (Prim α C)) {s : Series α K C T} {ar : List (Prim α C)} {y : Series α K C T × List (Prim α C)}
    (h : loadSeriesP ko ce ck ct d₀ tk tc s ar = .ok y) : loadSeriesP ko ce ck ct d₀ tk tc s (ar ++ ext) = .ok (y.1, y.2 ++ ext) := by
  have hb : loadBodyP ko ce ck ct d₀ tk tc s.clear ar = .ok y := by
    unfold loadSeriesP at h
    cases h1 : loadBodyP ko ce ck ct d₀ tk tc s.clear ar with
    | ok r => rw [h1] at h; exact h
    | error e => rw [h1] at h; simp at h
  suffices hb' : loadBodyP ko ce ck ct d₀ tk tc s.clear (ar ++ ext) = .ok (y.1, y.2 ++ ext) by
    unfold loadSeriesP; rw [hb']
  unfold loadBodyP at hb ⊢
  cases h1 : readNat ar with
  | error e => rw [h1] at hb; simp at hb
  | ok z =>
    obtain ⟨l, ar1⟩ := z
    rw [h1] at hb
    rw [readNat_mono ext h1]
    dsimp only at hb ⊢
    cases h2 : s.clear.setNSegments l with
    | error e => rw [h2] at hb; simp at hb
    | ok s1 =>
      rw [h2] at hb
      dsimp only at hb ⊢
      cases h3 : ct.load s1.tag ar1 with
      | error e => rw [h3] at hb; simp at hb
      | ok z =>
        obtain ⟨t, ar2⟩ := z
        rw [h3] at hb
        rw [ht.mono _ _ _ _ ext h3]
        dsimp only at hb ⊢
        cases h4 : loadSyms d₀ [] ar2 with
        | error e => rw [h4] at hb; simp at hb
        | ok z =>
          obtain ⟨ss, ar3⟩ := z
          rw [h4] at hb
          rw [syms_mono d₀ ext h4]
          exact loadTablesP_mono hk ext hb

end

end Obake
