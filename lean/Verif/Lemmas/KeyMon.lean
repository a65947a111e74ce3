import Verif.Spec.Poly
import Verif.Spec.KeyLaws
import Verif.Lemmas.Sat
import Verif.Lemmas.Mono

/-! # The key laws in terms of monomials -/

set_option linter.unusedSimpArgs false
set_option linter.unusedVariables false
set_option linter.unusedSectionVars false

namespace Obake

theorem IsSymSet.nodup {α : Type _} [LinearOrder α] {s : List α} (h : IsSymSet s) : s.Nodup :=
  List.Pairwise.imp (fun h => ne_of_lt h) h

variable {α K C A B T : Type} [LinearOrder α] {ko : KeyOps α K} (L : KeyLaws ko)

include L

theorem isKey_iff {ss : List α} {k : K} : IsKey ko ss k ↔ ∃ xs, ss.length = xs.length ∧ L.Enc xs k := by
  unfold IsKey
  simp only [L.ofExps]

theorem mon_eq {ss : List α} {k : K} {xs : List Int} (hl : ss.length = xs.length) (h : L.Enc xs k) : mon ko ss k = mono ss xs := by
  have hk : IsKey ko ss k := (isKey_iff L).2 ⟨xs, hl, h⟩
  unfold mon
  rw [dif_pos hk]
  have := hk.choose_spec
  rw [L.inj (L.ofExps.1 this.2) h (by rw [← this.1, hl])]

theorem enc_fun {xs : List Int} {k k' : K} (h : L.Enc xs k) (h' : L.Enc xs k') : k = k' := by
  have := (L.ofExps.2 h).symm.trans (L.ofExps.2 h')
  injection this

theorem mon_inj {ss : List α} (hs : IsSymSet ss) {k k' : K} (h : IsKey ko ss k) (h' : IsKey ko ss k') (e : mon ko ss k = mon ko ss k') : k = k' := by
  obtain ⟨xs, hl, he⟩ := (isKey_iff L).1 h
  obtain ⟨ys, hl', he'⟩ := (isKey_iff L).1 h'
  rw [mon_eq L hl he, mon_eq L hl' he'] at e
  have := mono_inj hs.nodup hl hl' e
  subst this
  exact enc_fun L he he'

theorem rep_iff {ss : List α} (hs : IsSymSet ss) {xs : List Int} (hl : ss.length = xs.length) : Rep ko ss (mono ss xs) ↔ ∃ k, L.Enc xs k := by
  constructor
  · rintro ⟨k, hk, e⟩
    obtain ⟨ys, hl', he'⟩ := (isKey_iff L).1 hk
    rw [mon_eq L hl' he'] at e
    have := mono_inj hs.nodup hl' hl e
    subst this
    exact ⟨k, he'⟩
  · rintro ⟨k, hk⟩
    exact ⟨k, (isKey_iff L).2 ⟨xs, hl, hk⟩, mon_eq L hl hk⟩

theorem isKey_compat {ss : List α} {k : K} (h : IsKey ko ss k) : ko.compat k ss = .ok true := by
  obtain ⟨xs, hl, he⟩ := (isKey_iff L).1 h
  exact L.compat he hl

theorem mono_replicate (ss : List α) (n : Nat) : mono ss (List.replicate n 0) = 0 := by
  have := mono_zeros (α := α) ss (List.replicate n ())
  simpa using this

theorem isKey_unit {ss : List α} {k : K} (h : IsKey ko ss k) : IsKey ko ss (ko.unit ss) := by
  obtain ⟨xs, hl, he⟩ := (isKey_iff L).1 h
  exact (isKey_iff L).2 ⟨_, by simp [hl], L.unit he hl⟩

theorem mon_unit {ss : List α} (h : IsKey ko ss (ko.unit ss)) : mon ko ss (ko.unit ss) = 0 := by
  obtain ⟨xs, hl, he⟩ := (isKey_iff L).1 h
  rw [mon_eq L (by simp [hl]) (L.unit he hl), mono_replicate L]

theorem isOne_iff {ss : List α} (hs : IsSymSet ss) {k : K} (h : IsKey ko ss k) : ko.isOne k ss = true ↔ mon ko ss k = 0 := by
  obtain ⟨xs, hl, he⟩ := (isKey_iff L).1 h
  rw [L.isOne he hl, mon_eq L hl he]
  constructor
  · intro h0
    rw [List.eq_replicate_of_mem h0, mono_replicate L]
  · intro e
    rw [← mono_replicate L ss xs.length] at e
    have := mono_inj hs.nodup hl (by simp [hl]) e
    intro x hx
    rw [this] at hx
    exact List.eq_of_mem_replicate hx

/-- The exponents of symbols outside the symbol set are zero. -/
theorem mon_not_mem {ss : List α} {k : K} (h : IsKey ko ss k) {s : α} (hs : s ∉ ss) : mon ko ss k s = 0 := by
  obtain ⟨xs, hl, he⟩ := (isKey_iff L).1 h
  rw [mon_eq L hl he, mono_not_mem hs]

theorem hash_add {ss : List α} (hs : IsSymSet ss) {a b c : K} (ha : IsKey ko ss a) (hb : IsKey ko ss b) (hc : IsKey ko ss c)
    (e : mon ko ss c = mon ko ss a + mon ko ss b) {l : Nat} (hl : l ≤ 64) :
    ko.hash c % 2 ^ l = (ko.hash a % 2 ^ l + ko.hash b % 2 ^ l) % 2 ^ l := by
  obtain ⟨xa, la, ea⟩ := (isKey_iff L).1 ha
  obtain ⟨xb, lb, eb⟩ := (isKey_iff L).1 hb
  obtain ⟨xc, lc, ec⟩ := (isKey_iff L).1 hc
  rw [mon_eq L la ea, mon_eq L lb eb, mon_eq L lc ec, ← mono_add _ _ _ (by omega)] at e
  have := mono_inj hs.nodup lc (by simp; omega) e
  subst this
  exact L.hash_mul ea eb (by omega) ec l hl

/-- What an insertion map does. -/
structure MapOk (ss u : List α) (m : List (Nat × List α)) : Prop where
  eq : replay m 0 ss = u
  sorted : m.Pairwise fun p q => p.1 < q.1
  bound : ∀ p ∈ m, p.1 ≤ ss.length

theorem merge_sat {ss u : List α} {m : List (Nat × List α)} (hu : IsSymSet u) (hm : MapOk ss u m) {k : K} (hk : IsKey ko ss k) :
    Sat (ko.merge k m ss) (fun e => (e = .overflow ∨ e = .safeCastFailure) ∧ ¬ Rep ko u (mon ko ss k))
      fun w => IsKey ko u w ∧ mon ko u w = mon ko ss k := by
  obtain ⟨xs, hl, he⟩ := (isKey_iff L).1 hk
  have h := L.merge he hl hm.sorted hm.bound
  have hlen : u.length = (replay (zeroMap m) 0 xs).length := by rw [← hm.eq]; exact replay_length_eq m ss xs 0 hl
  have hmono : mono u (replay (zeroMap m) 0 xs) = mono ss xs := by rw [← hm.eq]; exact mono_replay m ss xs 0 hl
  by_cases hw : ∃ w, L.Enc (replay (zeroMap m) 0 xs) w
  · obtain ⟨w, hw⟩ := hw
    refine Sat.ofRes (h.1 w hw) ⟨(isKey_iff L).2 ⟨_, hlen, hw⟩, ?_⟩
    rw [mon_eq L hlen hw, hmono, mon_eq L hl he]
  · have hn : ¬ Rep ko u (mon ko ss k) := by
      rw [mon_eq L hl he, ← hmono, rep_iff L hu hlen]
      exact hw
    rcases h.2 hw with h | h <;> rw [h]
    · exact ⟨Or.inl rfl, hn⟩
    · exact ⟨Or.inr rfl, hn⟩

theorem mul_sat {ss : List α} (hs : IsSymSet ss) {a b out : K} (ha : IsKey ko ss a) (hb : IsKey ko ss b)
    (hr : Rep ko ss (mon ko ss a + mon ko ss b)) (ho : ko.compat out ss = .ok true) :
    ∃ c, ko.mul out a b ss = .ok c ∧ IsKey ko ss c ∧ mon ko ss c = mon ko ss a + mon ko ss b := by
  obtain ⟨xa, la, ea⟩ := (isKey_iff L).1 ha
  obtain ⟨xb, lb, eb⟩ := (isKey_iff L).1 hb
  have hlen : ss.length = (List.zipWith (· + ·) xa xb).length := by simp; omega
  rw [mon_eq L la ea, mon_eq L lb eb, ← mono_add _ _ _ (by omega)] at hr ⊢
  obtain ⟨c, hc⟩ := (rep_iff L hs hlen).1 hr
  exact ⟨c, L.mul ea eb la lb hc ho, (isKey_iff L).2 ⟨_, hlen, hc⟩, mon_eq L hlen hc⟩

end Obake
