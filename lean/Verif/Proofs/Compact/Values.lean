import Verif.Proofs.Compact.Final

/-! # Compaction: values of external variables, and the new tables are consistent -/

namespace Verif.Compact

open Verif.Spec
open Verif.Core (upd)
open Verif.Model.Queue

variable {t t' : Tables} {r : Renumber}

theorem trueLit_value (ht : Consistent t) (hm : Moved t t') {f : Nat} (hf : f < t.vars) (hfirst : First t f) :
    t'.values (trueLit t f) = 1 ∧ t'.values (neg (trueLit t f)) = -1 := by
  have hk : kept t f = true := kept_iff.2 (Or.inr hfirst)
  have e0 : 2 * f / 2 = f := by omega
  have h0 := hm.values (2 * f) (by rw [e0]; exact hf) (by rw [e0]; exact hk)
  have h1 := hm.values (neg (2 * f)) (by rw [neg_div, e0]; exact hf) (by rw [neg_div, e0]; exact hk)
  rw [newLit_even] at h0
  rw [newLit_neg, newLit_even, ht.anti] at h1
  have hne := (ht.fixed f hf hfirst.1).1
  have hd := ht.dom (2 * f)
  unfold trueLit
  split
  · rw [neg_neg, h0, h1]
    omega
  · rw [h0, h1]
    omega

/-- The values of external variables are the same. -/
theorem value_moved (ht : Consistent t) (h : RInv t t.vars r) (hm : Moved t t')
    (himp : t'.imports = finalImports t r) (e : Int) : t'.value e = t.value e := by
  unfold Tables.value
  simp only
  rw [hm.size, hm.eliminated, himp]
  by_cases hs : t.size ≤ e.natAbs
  · rw [if_pos hs, if_pos hs]
  rw [if_neg hs, if_neg hs]
  rcases classify ht e.natAbs with ⟨u, hu, he⟩ | ⟨v, hv, he, ha⟩ | ⟨v, hv, he, hel⟩ |
    ⟨v, hv, he, ha, hf, hel⟩ | ⟨h1, h2⟩
  · have hun := ht.unit u hu
    obtain ⟨f, f1, f2, f3⟩ := final_unit ht h hu
    obtain ⟨t1, t2⟩ := trueLit_value ht hm f1 f2
    have hval : t'.values (if u < 0 then neg (trueLit t f) else trueLit t f) =
        t.values (t.imports u.natAbs).lit := by
      rw [hun.2.2.2.2.2.2]
      split
      · exact t2
      · exact t1
    rw [← he, f3]
    simp only
    rw [hun.2.2.1, hun.2.2.2.1]
    simp only [Bool.not_true, Bool.false_eq_true, if_false]
    rw [hval]
  · rw [← he, final_kept ht h hv (kept_active ha)]
    simp only
    have hel := ((ht.flags v).1 ha).2
    have hi := ht.imports v hv
    rw [hi.1, hi.2.1, hel, hi.2.2 hel]
    simp only [Bool.not_true, Bool.false_eq_true, if_false]
    have e0 : 2 * v / 2 = v := by omega
    have h0 := hm.values (2 * v) (by rw [e0]; exact hv) (by rw [e0]; exact kept_active ha)
    rw [newLit_even] at h0
    rw [h0]
  · rw [← he, final_eliminated ht h hv hel]
    have hi := ht.imports v hv
    rw [hi.2.1, hel]
    simp only [if_true]
  · rw [← he, final_inactive ht h hv ha hf hel]
    simp only
    have hi := ht.imports v hv
    rw [hi.1, hi.2.1, hel, hi.2.2 hel, ht.unassigned v hv ha hf]
    simp
  · rw [final_rest ht h h1 h2]
    by_cases hi : (t.imports e.natAbs).imported = true
    · by_cases hel : (t.imports e.natAbs).eliminated = true
      · rw [hel]
        simp only [if_true]
      · rcases ht.back e.natAbs (Nat.lt_of_not_le hs) hi (by simpa using hel) with ⟨v, hv, hv'⟩ | hu | hu
        · exact absurd (by rw [hv']; simp) (h2 v hv)
        · exact absurd (by simp) (h1 _ hu)
        · exact absurd (by simp) (h1 _ hu)
    · have : (t.imports e.natAbs).imported = false := by simpa using hi
      rw [this]
      rfl

theorem consistent_moved (ht : Consistent t) (h : RInv t t.vars r) (hm : Moved t t')
    (himp : t'.imports = finalImports t r)
    (hfo : ∀ v, t'.vars ≤ v → t'.flags v = ⟨false, false, false⟩)
    (hvo : ∀ l, 2 * t'.vars ≤ l → t'.values l = 0) : Consistent t' := by
  have honto : ∀ m, m < t'.vars → ∃ v, v < t.vars ∧ kept t v = true ∧ rank t v = m := by
    intro m hmv
    rw [hm.vars] at hmv
    exact rank_onto hmv
  have hontol : ∀ l, l < 2 * t'.vars → ∃ x, x / 2 < t.vars ∧ kept t (x / 2) = true ∧ newLit t x = l := by
    intro l hl
    obtain ⟨v, h1, h2, h3⟩ := honto (l / 2) (by omega)
    rcases Nat.mod_two_eq_zero_or_one l with e | e
    · refine ⟨2 * v, by rw [show 2 * v / 2 = v by omega]; exact h1,
        by rw [show 2 * v / 2 = v by omega]; exact h2, ?_⟩
      rw [newLit_even]; omega
    · refine ⟨2 * v + 1, by rw [show (2 * v + 1) / 2 = v by omega]; exact h1,
        by rw [show (2 * v + 1) / 2 = v by omega]; exact h2, ?_⟩
      rw [newLit_of_odd (by omega), show (2 * v + 1) / 2 = v by omega]; omega
  have helk : ∀ v, kept t v = true → (t.flags v).eliminated = false := by
    intro v hk
    rcases kept_iff.1 hk with hc | hc
    · exact ((ht.flags v).1 hc).2
    · exact (ht.flags v).2 hc.1
  have hval2 : ∀ v, v < t.vars → kept t v = true → t'.values (2 * rank t v) = t.values (2 * v) := by
    intro v hv hk
    have e0 : 2 * v / 2 = v := by omega
    rw [← newLit_even]
    exact hm.values (2 * v) (by rw [e0]; exact hv) (by rw [e0]; exact hk)
  refine ⟨fun m hmv => ?_, fun m hmv => ?_, fun m n hmv hnv he => ?_, fun e he hi hel => ?_, fun u hu => ?_,
    fun m hmv hf => ?_, fun m => ?_, fun l => ?_, fun l => ?_, fun m hmv ha hf => ?_, fun m hmv ha hv => ?_⟩
  · obtain ⟨v, h1, h2, h3⟩ := honto m hmv
    rw [← h3, hm.exports v h1 h2, hm.size]; exact ht.exports v h1
  · obtain ⟨v, h1, h2, h3⟩ := honto m hmv
    rw [← h3, hm.exports v h1 h2, himp, final_kept ht h h1 h2, hm.flags v h1 h2]
    refine ⟨(ht.imports v h1).1, (ht.imports v h1).2.1, fun _ => rfl⟩
  · obtain ⟨v, h1, h2, h3⟩ := honto m hmv
    obtain ⟨w, g1, g2, g3⟩ := honto n hnv
    rw [← h3, ← g3, hm.exports v h1 h2, hm.exports w g1 g2] at he
    rw [← h3, ← g3, ht.inj v w h1 g1 he]
  · rw [himp] at hi hel
    rw [hm.units]
    rw [hm.size] at he
    rcases classify ht e with ⟨u, hu, hue⟩ | ⟨v, hv, hve, ha⟩ | ⟨v, hv, hve, hev⟩ |
      ⟨v, hv, hve, ha, hf, hev⟩ | ⟨h1, h2⟩
    · right
      rcases Int.natAbs_eq u with h3 | h3
      · left; rw [← hue, ← h3]; exact hu
      · right; rw [← hue, ← h3]; exact hu
    · left
      refine ⟨rank t v, ?_, ?_⟩
      · rw [hm.vars]; exact rank_lt t (kept_active ha) hv
      · rw [hm.exports v hv (kept_active ha), ← hve]
        have := (ht.exports v hv).1
        omega
    · rw [← hve, final_eliminated ht h hv hev, (ht.imports v hv).2.1, hev] at hel
      cases hel
    · rw [← hve, final_inactive ht h hv ha hf hev] at hi
      cases hi
    · rw [final_rest ht h h1 h2] at hi hel
      rcases ht.back e he hi hel with ⟨v, hv, hv'⟩ | hu | hu
      · exact absurd (by rw [hv']; simp) (h2 v hv)
      · exact absurd (by simp) (h1 _ hu)
      · exact absurd (by simp) (h1 _ hu)
  · rw [hm.units] at hu
    have hun := ht.unit u hu
    obtain ⟨f, f1, f2, f3⟩ := final_unit ht h hu
    obtain ⟨t1, t2⟩ := trueLit_value ht hm f1 f2
    have hk : kept t f = true := kept_iff.2 (Or.inr f2)
    have hdiv : trueLit t f / 2 = rank t f := by
      unfold trueLit; split
      · rw [neg_div]; omega
      · omega
    rw [himp, hm.size, f3]
    have hd2 : (if u < 0 then neg (trueLit t f) else trueLit t f) / 2 = rank t f := by
      split
      · rw [neg_div, hdiv]
      · exact hdiv
    refine ⟨hun.1, hun.2.1, hun.2.2.1, hun.2.2.2.1, ?_, ?_, ?_⟩
    · show (if u < 0 then neg (trueLit t f) else trueLit t f) / 2 < _
      rw [hd2, hm.vars]; exact rank_lt t hk f1
    · show (t'.flags ((if u < 0 then neg (trueLit t f) else trueLit t f) / 2)).fixed = true
      rw [hd2, hm.flags f f1 hk]; exact f2.1
    · show t'.values (if u < 0 then neg (trueLit t f) else trueLit t f) = _
      split
      · exact t2
      · exact t1
  · obtain ⟨v, h1, h2, h3⟩ := honto m hmv
    rw [← h3, hm.flags v h1 h2] at hf
    rw [← h3, hval2 v h1 h2, (hm.assigned v h1 h2).1, hm.exports v h1 h2, hm.units]
    exact ht.fixed v h1 hf
  · by_cases hmv : m < t'.vars
    · obtain ⟨v, h1, h2, h3⟩ := honto m hmv
      rw [← h3, hm.flags v h1 h2]; exact ht.flags v
    · rw [hfo m (Nat.le_of_not_lt hmv)]; simp
  · by_cases hl : l < 2 * t'.vars
    · obtain ⟨x, h1, h2, h3⟩ := hontol l hl
      rw [← h3, hm.values x h1 h2]; exact ht.dom x
    · rw [hvo l (Nat.le_of_not_lt hl)]; simp
  · by_cases hl : l < 2 * t'.vars
    · obtain ⟨x, h1, h2, h3⟩ := hontol l hl
      rw [← h3, ← newLit_neg, hm.values x h1 h2, hm.values (neg x) (by rw [neg_div]; exact h1)
        (by rw [neg_div]; exact h2)]
      exact ht.anti x
    · rw [hvo l (Nat.le_of_not_lt hl), hvo (neg l)]
      · rfl
      · have := neg_div l; omega
  · obtain ⟨v, h1, h2, h3⟩ := honto m hmv
    rw [← h3, hm.flags v h1 h2] at ha hf
    rcases kept_iff.1 h2 with hc | hc
    · rw [ha] at hc; cases hc
    · have := hc.1; rw [hf] at this; cases this
  · obtain ⟨v, h1, h2, h3⟩ := honto m hmv
    rw [← h3] at ha hv ⊢
    rw [hm.flags v h1 h2] at ha
    rw [hval2 v h1 h2] at hv
    rw [(hm.assigned v h1 h2).1]
    exact ht.active v h1 ha hv

theorem anchored_moved (hl : Anchored t) (hm : Moved t t') : Anchored t' := by
  have hact : ∀ l, l / 2 < t.vars ∧ (t.flags (l / 2)).active = true →
      newLit t l / 2 < t'.vars ∧ (t'.flags (newLit t l / 2)).active = true := by
    rintro l ⟨h1, h2⟩
    have hk := kept_active h2
    rw [newLit_div, hm.vars, hm.flags _ h1 hk]
    exact ⟨rank_lt t hk h1, h2⟩
  refine ⟨fun m hmt => ?_, ?_, fun m hmt hb => ?_, fun m hmt => ?_, hm.queueVars, ?_, fun m hms => ?_⟩
  · rw [hm.trail] at hmt
    obtain ⟨l, h1, rfl⟩ := List.mem_map.1 hmt
    exact hact l (hl.trail l h1)
  · rw [hm.trail, List.map_map, List.nodup_iff_pairwise_ne, List.pairwise_map]
    have := hl.nodup
    rw [List.nodup_iff_pairwise_ne, List.pairwise_map] at this
    refine List.Pairwise.imp_of_mem ?_ this
    intro a b ha hb hab e
    simp only [Function.comp, newLit_div] at e
    exact hab (rank_inj (kept_active (hl.trail a ha).2) (kept_active (hl.trail b hb).2) e)
  · rw [hm.trail] at hmt
    obtain ⟨l, h1, rfl⟩ := List.mem_map.1 hmt
    have h2 := hl.trail l h1
    rw [newLit_div] at hb ⊢
    rw [(hm.assigned _ h2.1 (kept_active h2.2)).2.2] at hb
    rw [hm.reason l h1 hb]
    exact hact _ (hl.reason l h1 hb)
  · rw [hm.frames] at hmt
    obtain ⟨l, h1, rfl⟩ := List.mem_map.1 hmt
    exact hact l (hl.frames l h1)
  · obtain ⟨l, h1, h2⟩ := hl.queue
    refine ⟨_, (hm.queue l h1 h2).1, fun v hv => ?_⟩
    obtain ⟨w, hw, rfl⟩ := List.mem_map.1 hv
    have hwv : w < t.vars := by have := h1.holds.vars w hw; rw [hl.vars] at this; exact this
    rw [hm.flags w hwv (kept_active (h2 w hw))]
    exact h2 w hw
  · rw [hm.sweep] at hms
    obtain ⟨w, hw, rfl⟩ := List.mem_map.1 hms
    rw [List.mem_filter] at hw
    rw [hm.vars]
    exact rank_lt t hw.2 (hl.sweep w hw.1)

end Verif.Compact
