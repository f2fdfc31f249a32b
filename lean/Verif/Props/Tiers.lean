import Verif.Proofs.Tiers

/-!
# C69: glue limits follow the usage of clauses
-/

namespace Verif.Props

open Verif.Model Verif.Model.Tiers Verif.Spec.Tiers

/-- **C69** The counters say how often clauses were used: for every history of uses `es` (mode and glue of the clause)
the number of uses up to a glue is the number of such events; larger glues are counted at 127. -/
theorem C69_counts (es : List (Bool × Nat)) (s : State) (h0 : ∀ b, s.used b = List.replicate 128 0)
    (hn : es.length < 2 ^ 64) (stable : Bool) :
    ((es.foldl (fun s e => s.count e.1 e.2) s).used stable).length = 128 ∧
    ((es.foldl (fun s e => s.count e.1 e.2) s).used stable).sum = (es.countP fun e => e.1 == stable) ∧
    ∀ g, g < 127 → upTo ((es.foldl (fun s e => s.count e.1 e.2) s).used stable) g =
      es.countP fun e => e.1 == stable && decide (e.2 ≤ g) := by
  have hz : ∀ g, upTo (s.used stable) g = 0 := by
    intro g
    rw [h0]; unfold upTo
    rw [List.take_replicate]
    simp
  have hlen : (s.used stable).length = 128 := by rw [h0]; simp
  have hsum : (s.used stable).sum = 0 := by rw [h0]; simp
  have key := fun g => Verif.Proofs.Tiers.count_spec stable g es s hlen (by omega)
  refine ⟨(key 0).1, ?_, fun g hg => ?_⟩
  · have h1 := (key 127).2
    have h2 := (key 127).1
    rw [hz] at h1
    unfold upTo at h1
    rw [List.take_of_length_le (by omega)] at h1
    rw [h1, Nat.zero_add]
    refine List.countP_congr fun e _ => ?_
    simp
    omega
  · rw [(key g).2, hz, Nat.zero_add]
    refine List.countP_congr fun e _ => ?_
    simp
    intro _
    omega

/-- **C69** The first limit is the smallest glue up to which the first share of all uses is reached, and the second
limit is the smallest one for the second share, if the shares are ordered and at most the number of all uses. -/
theorem C69_limits (opt1 opt2 : Nat) (lim1 lim2 : Nat → Nat) (used : List Nat) (h : used.sum < 2 ^ 64)
    (h0 : used.sum ≠ 0) (h1 : lim1 used.sum ≤ lim2 used.sum) (h2 : lim2 used.sum ≤ used.sum) :
    Smallest used (lim1 used.sum) (limits opt1 opt2 lim1 lim2 used).1 ∧
    Smallest used (lim2 used.sum) (limits opt1 opt2 lim1 lim2 used).2 := by
  rcases Verif.Proofs.Tiers.limits_spec opt1 opt2 lim1 lim2 used h with ⟨h3, _⟩ | ⟨_, t1, t2, h4, h5, h6⟩
  · omega
  · rw [h4]
    refine ⟨h5, ?_⟩
    rcases h6 with ⟨h6, rfl⟩ | ⟨_, _, h6⟩ | ⟨h6, _⟩
    · exact ⟨h5.1, h6, fun j hj => Nat.lt_of_lt_of_le (h5.2.2 j hj) h1⟩
    · exact h6
    · omega

/-- **C69** Without uses the limits are those of the options. -/
theorem C69_unused (opt1 opt2 : Nat) (lim1 lim2 : Nat → Nat) (used : List Nat) (h : used.sum = 0) :
    limits opt1 opt2 lim1 lim2 used = (opt1, max opt2 opt1) := by
  rcases Verif.Proofs.Tiers.limits_spec opt1 opt2 lim1 lim2 used (by rw [h]; exact Nat.two_pow_pos 64) with
    ⟨_, h3⟩ | ⟨h3, _⟩
  · exact h3
  · exact absurd h h3

/-- **C69** For any shares, the first limit is at most the second one, and both are glues with a counter as soon as
there are uses and the first share is at most their number. -/
theorem C69_order (opt1 opt2 : Nat) (lim1 lim2 : Nat → Nat) (used : List Nat) (h : used.sum < 2 ^ 64) :
    (limits opt1 opt2 lim1 lim2 used).1 ≤ (limits opt1 opt2 lim1 lim2 used).2 ∧
    (used.sum ≠ 0 → lim1 used.sum ≤ used.sum → (limits opt1 opt2 lim1 lim2 used).2 < used.length) := by
  rcases Verif.Proofs.Tiers.limits_spec opt1 opt2 lim1 lim2 used h with ⟨h3, h4⟩ | ⟨_, t1, t2, h4, h5, h6⟩
  · rw [h4]
    exact ⟨Nat.le_max_right _ _, fun _ _ => by omega⟩
  · rw [h4]
    have := h5.1
    rcases h6 with ⟨_, rfl⟩ | ⟨_, h7, h6⟩ | ⟨_, rfl⟩
    · exact ⟨Nat.le_refl _, fun _ _ => this⟩
    · exact ⟨by show t1 ≤ t2; omega, fun _ _ => h6.1⟩
    · exact ⟨Nat.le_refl _, fun _ _ => this⟩

/-- **C69** The table printed for the limits has one line for each row: the rows cover all glues from the first to the
second limit, the numbers are the uses in the row and up to its end, the texts in a column have the same width, and the
marks are at the limits. -/
theorem C69_table (t1 t2 : Nat) (used : List Nat) (hl : used.length = 128) (hs : used.sum < 10 ^ 19) (h12 : t1 ≤ t2)
    (h2 : t2 ≤ 127) :
    ∃ w v, (∀ r ∈ rows t1 t2, (label r).length ≤ w ∧ (printNat (between used r.1 r.2)).length ≤ v) ∧
      table t1 t2 used = some ((rows t1 t2).flatMap fun r =>
        [.head, .line (label r ++ List.replicate (w - (label r).length) 32) (between used r.1 r.2) v
          (upTo used r.2) (r.1 == t1) (r.2 == t2)]) := by
  obtain ⟨w, h3, h4⟩ := Verif.Proofs.Tiers.table_eq hl hs h12 h2
  have := (Verif.Proofs.Tiers.wide_mono used (rows t1 t2) (1, 1)).2.2
  rw [h3] at this
  exact ⟨w.1, w.2, this, h4⟩

/-- The rows are consecutive intervals from `t1` to `t2`. -/
theorem Tiers_rows_cover (t1 t2 : Nat) (h : t1 ≤ t2) (g : Nat) :
    (∃ r ∈ rows t1 t2, r.1 ≤ g ∧ g ≤ r.2) ↔ t1 ≤ g ∧ g ≤ t2 := by
  unfold rows
  split
  · constructor
    · rintro ⟨r, hr, h1, h2⟩
      obtain ⟨x, hx, rfl⟩ := List.mem_map.1 hr
      rw [List.mem_range'_1] at hx
      dsimp only at h1 h2
      omega
    · intro hg
      exact ⟨(g, g), List.mem_map.2 ⟨g, List.mem_range'_1.2 ⟨hg.1, by omega⟩, rfl⟩, Nat.le_refl _, Nat.le_refl _⟩
  · rename_i hn
    simp only [List.mem_cons, List.not_mem_nil, or_false]
    constructor
    · rintro ⟨r, rfl | rfl | rfl | rfl | rfl, h1, h2⟩ <;> dsimp only at h1 h2 <;> omega
    · intro hg
      by_cases x1 : g = t1
      · exact ⟨(t1, t1), by simp, by dsimp only; omega, by dsimp only; omega⟩
      by_cases x2 : g = t1 + 1
      · exact ⟨(t1 + 1, t1 + 1), by simp, by dsimp only; omega, by dsimp only; omega⟩
      by_cases x3 : g = t2
      · exact ⟨(t2, t2), by simp, by dsimp only; omega, by dsimp only; omega⟩
      by_cases x4 : g = t2 - 1
      · exact ⟨(t2 - 1, t2 - 1), by simp, by dsimp only; omega, by dsimp only; omega⟩
      · exact ⟨(t1 + 2, t2 - 2), by simp, by dsimp only; omega, by dsimp only; omega⟩

theorem Tiers_focused (opt1 opt2 : Nat) (lim1 lim2 : Nat → Nat) (s : State) :
    (s.set opt1 opt2 lim1 lim2 false).effective =
      ((limits opt1 opt2 lim1 lim2 (s.used false)).1,
        max (s.tier2 true) (limits opt1 opt2 lim1 lim2 (s.used false)).1) := rfl

theorem Tiers_stable (opt1 opt2 : Nat) (lim1 lim2 : Nat → Nat) (s : State) :
    (s.set opt1 opt2 lim1 lim2 true).effective =
      (s.tier1 false, max (limits opt1 opt2 lim1 lim2 (s.used true)).2 (s.tier1 false)) := rfl

/-- **C69** After limits were computed in focused mode the first limit in effect is the smallest glue for the first
share of the uses in focused mode, and it is at most the second limit in effect.  Missing: the second limit in effect
is not the one for the uses in focused mode (`C69_focused_second_ignored`). -/
theorem C69_focused_partial (opt1 opt2 : Nat) (lim1 lim2 : Nat → Nat) (s : State) (h : (s.used false).sum < 2 ^ 64)
    (h0 : (s.used false).sum ≠ 0) (h1 : lim1 (s.used false).sum ≤ lim2 (s.used false).sum)
    (h2 : lim2 (s.used false).sum ≤ (s.used false).sum) :
    Smallest (s.used false) (lim1 (s.used false).sum) (s.set opt1 opt2 lim1 lim2 false).effective.1 ∧
    (s.set opt1 opt2 lim1 lim2 false).effective.1 ≤ (s.set opt1 opt2 lim1 lim2 false).effective.2 := by
  rw [Tiers_focused]
  exact ⟨(C69_limits opt1 opt2 lim1 lim2 _ h h0 h1 h2).1, Nat.le_max_right _ _⟩

/-- **C69** After limits were computed in stable mode clauses with glue up to the smallest one for the second share of
the uses in stable mode are of the second tier, and if the second limit in effect is larger, then it is the first one.
Missing: the first limit in effect is the one of focused mode, as the default of the option `focusedtiers` says, for
every value of this option. -/
theorem C69_stable_partial (opt1 opt2 : Nat) (lim1 lim2 : Nat → Nat) (s : State) (h : (s.used true).sum < 2 ^ 64)
    (h0 : (s.used true).sum ≠ 0) (h1 : lim1 (s.used true).sum ≤ lim2 (s.used true).sum)
    (h2 : lim2 (s.used true).sum ≤ (s.used true).sum) :
    ∃ g, Smallest (s.used true) (lim2 (s.used true).sum) g ∧
      g ≤ (s.set opt1 opt2 lim1 lim2 true).effective.2 ∧
      (g < (s.set opt1 opt2 lim1 lim2 true).effective.2 →
        (s.set opt1 opt2 lim1 lim2 true).effective.2 = (s.set opt1 opt2 lim1 lim2 true).effective.1) := by
  rw [Tiers_stable]
  refine ⟨_, (C69_limits opt1 opt2 lim1 lim2 _ h h0 h1 h2).2, Nat.le_max_left _ _, fun hl => ?_⟩
  dsimp only at hl ⊢
  omega

/-- **C69 is false** as far as the second limit of focused mode is concerned: whatever it is, it has no effect on reductions
and promotion.  (Vivification reads it by default, vivify.c:128-134.) -/
theorem C69_focused_second_ignored (opt1 opt2 : Nat) (lim1 lim2 lim2' : Nat → Nat) (s : State)
    (h : (s.used false).sum < 2 ^ 64) :
    (s.set opt1 opt2 lim1 lim2 false).effective = (s.set opt1 opt2 lim1 lim2' false).effective := by
  rw [Tiers_focused, Tiers_focused]
  have : (limits opt1 opt2 lim1 lim2 (s.used false)).1 = (limits opt1 opt2 lim1 lim2' (s.used false)).1 := by
    rcases Verif.Proofs.Tiers.limits_spec opt1 opt2 lim1 lim2 (s.used false) h with
      ⟨h3, h4⟩ | ⟨h3, t1, t2, h4, h5, _⟩ <;>
    rcases Verif.Proofs.Tiers.limits_spec opt1 opt2 lim1 lim2' (s.used false) h with
      ⟨h3', h4'⟩ | ⟨h3', t1', t2', h4', h5', _⟩ <;> rw [h4, h4']
    · have := Verif.Proofs.Tiers.upTo_le (s.used false) t1'
      have := h5'.2.1
      omega
    · have := Verif.Proofs.Tiers.upTo_le (s.used false) t1
      have := h5.2.1
      omega
    · refine Nat.le_antisymm (Nat.le_of_not_lt fun hx => ?_) (Nat.le_of_not_lt fun hx => ?_)
      · have := h5.2.2 t1' hx
        have := h5'.2.1
        omega
      · have := h5'.2.2 t1 hx
        have := h5.2.1
        omega
  rw [this]

/-! ## Examples -/

/-- Ten uses with glue 2, four with glue 9, one with glue 12. -/
def Tiers_used : List Nat :=
  [0, 0, 10, 0, 0, 0, 0, 0, 0, 4, 0, 0, 1] ++ List.replicate 115 0

/-- Half of the uses and ninety percent of them. -/
def Tiers_lim1 (n : Nat) : Nat := n / 2
def Tiers_lim2 (n : Nat) : Nat := n * 9 / 10

example : Tiers_used.length = 128 ∧ Tiers_used.sum = 15 ∧ Tiers_lim1 15 ≤ Tiers_lim2 15 ∧ Tiers_lim2 15 ≤ 15 ∧
    limits 2 6 Tiers_lim1 Tiers_lim2 Tiers_used = (2, 9) := by decide +kernel

/-- In focused mode the limits 2 and 9 are computed, but 2 and 6 are in effect: clauses with glue 9 are of the last
tier although usage says they are of the second. -/
example : (State.set 2 6 Tiers_lim1 Tiers_lim2 false (State.init 2 6 ⟨fun _ => 0, fun _ => 0, fun _ => Tiers_used⟩)).effective
    = (2, 6) := by decide +kernel

example : table 2 9 Tiers_used = some
    [.head, .line [50, 32, 32] 10 2 10 true false, .head, .line [51, 32, 32] 0 2 10 false false,
      .head, .line [52, 45, 55] 0 2 10 false false, .head, .line [56, 32, 32] 0 2 10 false false,
      .head, .line [57, 32, 32] 4 2 14 false true] := by decide +kernel

example : rows 2 9 = [(2, 2), (3, 3), (4, 7), (8, 8), (9, 9)] ∧ rows 2 5 = [(2, 2), (3, 3), (4, 4), (5, 5)] := by
  decide +kernel

example : (([(false, 2), (true, 300), (false, 2), (false, 9)].foldl (fun s e => s.count e.1 e.2)
    (⟨fun _ => 0, fun _ => 0, fun _ => List.replicate 128 0⟩ : State)).used false).take 10 =
      [0, 0, 2, 0, 0, 0, 0, 0, 0, 1] := by decide +kernel

end Verif.Props
