import Verif.Model.Averages
import Mathlib.Tactic.Ring
import Mathlib.Tactic.Linarith
import Mathlib.Tactic.LinearCombination
import Mathlib.Data.List.GetD
import Mathlib.Tactic.FieldSimp
import Mathlib.Tactic.Positivity
import Mathlib.Algebra.BigOperators.Ring.Finset
import Mathlib.Algebra.Order.BigOperators.Ring.Finset

/-! # Proofs about moving averages -/

namespace Verif.Model.Averages

open Verif.Spec.Averages Finset

/-- The sum of weighted values. -/
def total (β : ℚ) (ys : List ℚ) : ℚ := ∑ i ∈ range ys.length, β ^ (ys.length - 1 - i) * ys.getD i 0

/-- The sum of `n` weights. -/
def weight (β : ℚ) (n : Nat) : ℚ := ∑ i ∈ range n, β ^ (n - 1 - i)

theorem mean_eq (β : ℚ) (ys : List ℚ) : mean β ys = total β ys / weight β ys.length := rfl

theorem total_append (β : ℚ) (ys : List ℚ) (y : ℚ) : total β (ys ++ [y]) = β * total β ys + y := by
  unfold total
  rw [List.length_append, List.length_singleton, sum_range_succ, mul_sum]
  congr 1
  · refine sum_congr rfl fun i hi => ?_
    have hi := mem_range.1 hi
    rw [List.getD_append _ _ _ _ hi, ← mul_assoc, ← pow_succ']
    congr 2; omega
  · rw [show ys.length + 1 - 1 - ys.length = 0 by omega, pow_zero, one_mul,
      List.getD_append_right _ _ _ _ le_rfl]
    simp

theorem weight_succ (β : ℚ) (n : Nat) : weight β (n + 1) = β * weight β n + 1 := by
  unfold weight
  rw [sum_range_succ, mul_sum]
  congr 1
  · refine sum_congr rfl fun i hi => ?_
    have hi := mem_range.1 hi
    rw [← pow_succ']
    congr 1; omega
  · simp

theorem weight_geom (β : ℚ) (n : Nat) : (1 - β) * weight β n = 1 - β ^ n := by
  induction n with
  | zero => simp [weight]
  | succ n ih => rw [weight_succ, pow_succ]; linear_combination β * ih

theorem weight_nonneg {β : ℚ} (h : 0 ≤ β) (n : Nat) : 0 ≤ weight β n :=
  sum_nonneg fun _ _ => pow_nonneg h _

theorem weight_pos {β : ℚ} (h : 0 ≤ β) {n : Nat} (hn : n ≠ 0) : 0 < weight β n := by
  obtain ⟨k, rfl⟩ := Nat.exists_eq_succ_of_ne_zero hn
  rw [weight_succ]
  have := mul_nonneg h (weight_nonneg h k)
  linarith

theorem getD_mem {ys : List ℚ} {i : Nat} (h : i < ys.length) : ys.getD i 0 ∈ ys := by
  rw [List.getD_eq_getElem _ _ h]; exact List.getElem_mem h

theorem le_total {β a : ℚ} (h : 0 ≤ β) {ys : List ℚ} (ha : ∀ y ∈ ys, a ≤ y) : a * weight β ys.length ≤ total β ys := by
  unfold weight total
  rw [mul_sum]
  refine sum_le_sum fun i hi => ?_
  rw [mul_comm]
  exact mul_le_mul_of_nonneg_left (ha _ (getD_mem (mem_range.1 hi))) (pow_nonneg h _)

theorem total_le {β b : ℚ} (h : 0 ≤ β) {ys : List ℚ} (hb : ∀ y ∈ ys, y ≤ b) : total β ys ≤ b * weight β ys.length := by
  unfold weight total
  rw [mul_sum]
  refine sum_le_sum fun i hi => ?_
  rw [mul_comm b]
  exact mul_le_mul_of_nonneg_left (hb _ (getD_mem (mem_range.1 hi))) (pow_nonneg h _)

theorem mean_ge {β a : ℚ} (h : 0 ≤ β) {ys : List ℚ} (hn : ys ≠ []) (ha : ∀ y ∈ ys, a ≤ y) : a ≤ mean β ys := by
  rw [mean_eq, le_div_iff₀ (weight_pos h (by simpa using hn))]
  exact le_total h ha

theorem mean_le {β b : ℚ} (h : 0 ≤ β) {ys : List ℚ} (hn : ys ≠ []) (hb : ∀ y ∈ ys, y ≤ b) : mean β ys ≤ b := by
  rw [mean_eq, div_le_iff₀ (weight_pos h (by simpa using hn))]
  exact total_le h hb

/-- A moving average with a given window which has seen the given values. -/
structure Smooth.Seen (w : Nat) (s : Smooth) (ys : List ℚ) : Prop where
  alpha : s.alpha = 1 / w
  beta : s.beta = 1 - 1 / w
  biased : s.biased = s.alpha * total s.beta ys
  exp : s.exp = s.beta ^ ys.length
  value : s.value = mean s.beta ys

theorem window_pos {w : Nat} (hw : 2 ≤ w) : (0 : ℚ) < 1 / w ∧ (0 : ℚ) < 1 - 1 / w := by
  have h : (2 : ℚ) ≤ w := by exact_mod_cast hw
  constructor
  · positivity
  · rw [sub_pos, div_lt_one (by linarith)]; linarith

theorem init_seen {w : Nat} (hw : 2 ≤ w) : ∃ s, Smooth.init w = some s ∧ s.Seen w [] := by
  refine ⟨_, by rw [Smooth.init, if_neg (by omega)]; exact if_pos (window_pos hw).2, rfl, rfl, ?_, ?_, ?_⟩
  · simp [total]
  · simp
  · simp [mean]

theorem update_seen {w : Nat} (hw : 2 ≤ w) {s : Smooth} {ys : List ℚ} (h : s.Seen w ys) (y : ℚ) :
    ∃ t, s.update y = some t ∧ t.Seen w (ys ++ [y]) := by
  obtain ⟨a0, b0⟩ := window_pos hw
  rw [← h.alpha] at a0
  rw [← h.beta] at b0
  have hab : s.alpha = 1 - s.beta := by rw [h.alpha, h.beta]; ring
  have b1 : s.beta < 1 := by linarith
  have e0 : 0 < s.exp := by rw [h.exp]; exact pow_pos b0 _
  have e1 : s.exp * s.beta = s.beta ^ (ys ++ [y]).length := by
    rw [h.exp, List.length_append, List.length_singleton, pow_succ]
  have e2 : s.exp * s.beta < 1 := by rw [e1]; exact pow_lt_one₀ b0.le b1 (by simp)
  have e3 : s.exp * s.beta ≠ s.exp := fun e => by
    have : s.exp * s.beta < s.exp * 1 := mul_lt_mul_of_pos_left b1 e0
    linarith
  have hb : s.biased + s.alpha * (y - s.biased) = s.alpha * total s.beta (ys ++ [y]) := by
    rw [total_append, h.biased, hab]; ring
  refine ⟨{ s with
      biased := s.biased + s.alpha * (y - s.biased), exp := s.exp * s.beta,
      value := (s.biased + s.alpha * (y - s.biased)) / (1 - s.exp * s.beta) }, ?_, h.alpha, h.beta, hb, e1, ?_⟩
  · unfold Smooth.update
    simp only
    rw [if_pos e0.ne', if_neg (not_not.2 e2), if_neg e3, if_neg (not_not.2 (by linarith))]
  show (s.biased + s.alpha * (y - s.biased)) / (1 - s.exp * s.beta) = mean s.beta (ys ++ [y])
  rw [hb, e1, ← weight_geom, ← hab, mean_eq, mul_div_mul_left _ _ a0.ne']

/-- Averages which have seen the given glues and decision rates, if initialized. -/
structure Bank.Seen (o : Options) (a : Bank) (gs rs : List ℚ) : Prop where
  fast : a.initialized = true → a.fastGlue.Seen o.fast gs
  slow : a.initialized = true → a.slowGlue.Seen o.slow gs
  rate : a.initialized = true → a.decisionRate.Seen o.slow rs
  empty : a.initialized = false → gs = [] ∧ rs = [] ∧ a.fastGlue.value = 0 ∧ a.slowGlue.value = 0 ∧
    a.decisionRate.value = 0

theorem bank_init {o : Options} (hf : 2 ≤ o.fast) (hs : 2 ≤ o.slow) {a : Bank} {gs rs : List ℚ} (h : a.Seen o gs rs) :
    ∃ b, a.init o = some b ∧ b.Seen o gs rs ∧ b.initialized = true ∧ b.saved = a.saved := by
  unfold Bank.init
  cases hi : a.initialized with
  | true => exact ⟨a, by simp, h, hi, rfl⟩
  | false =>
    obtain ⟨f, f1, f2⟩ := init_seen hf
    obtain ⟨s, s1, s2⟩ := init_seen hs
    obtain ⟨rfl, rfl, -⟩ := h.empty hi
    refine ⟨{ a with fastGlue := f, slowGlue := s, decisionRate := s, initialized := true },
      by simp [f1, s1], ⟨fun _ => f2, fun _ => s2, fun _ => s2, fun e => by simp at e⟩, rfl, rfl⟩

theorem averages_set (s : State) (a : Bank) (mode : Bool) :
    (s.setAverages a).averages mode = if mode = s.stable then a else s.averages mode := by
  unfold State.setAverages State.averages
  cases mode <;> cases s.stable <;> simp

theorem set_stable (s : State) (a : Bank) : (s.setAverages a).stable = s.stable := by
  unfold State.setAverages; split <;> rfl

theorem set_decisions (s : State) (a : Bank) : (s.setAverages a).decisions = s.decisions := by
  unfold State.setAverages; split <;> rfl

/-- Both modes have seen what they should have seen. -/
structure State.Inv (o : Options) (s : State) (gs rs : Bool → List ℚ) (n : Nat) : Prop where
  seen : ∀ mode, (s.averages mode).Seen o (gs mode) (rs mode)
  ready : (s.averages s.stable).initialized = true
  since : (s.averages s.stable).saved + n = s.decisions

theorem run_inv {o : Options} (hf : 2 ≤ o.fast) (hs : 2 ≤ o.slow) (es : List Event) {s : State}
    {gs rs : Bool → List ℚ} {n : Nat} (h : s.Inv o gs rs n) :
    ∃ t n', s.run o es = some t ∧ t.Inv o (fun m => gs m ++ glues m s.stable es)
      (fun m => rs m ++ rates m s.stable n es) n' := by
  induction es generalizing s gs rs n with
  | nil => exact ⟨s, n, rfl, by simpa [glues, rates] using h⟩
  | cons e es ih =>
    suffices hsuf : ∃ (s' : State) (gs' rs' : Bool → List ℚ) (n' : Nat), s.step o e = some s' ∧ s'.Inv o gs' rs' n' ∧
        (∀ m, gs' m ++ glues m s'.stable es = gs m ++ glues m s.stable (e :: es)) ∧
        (∀ m, rs' m ++ rates m s'.stable n' es = rs m ++ rates m s.stable n (e :: es)) by
      obtain ⟨s', gs', rs', n', h1, h2, h3, h4⟩ := hsuf
      obtain ⟨t, k, h5, h6⟩ := ih h2
      refine ⟨t, k, by rw [State.run, h1]; exact h5, ?_⟩
      simpa only [h3, h4] using h6
    have hseen := h.seen s.stable
    cases e with
    | decision =>
      refine ⟨_, gs, rs, n + 1, rfl, ⟨h.seen, h.ready, ?_⟩, fun m => rfl, fun m => rfl⟩
      have := h.since
      show (s.averages s.stable).saved + (n + 1) = s.decisions + 1
      omega
    | conflict =>
      have hle := h.since
      obtain ⟨r, r1, r2⟩ := update_seen hs (hseen.rate h.ready) (n : ℚ)
      refine ⟨s.setAverages { s.averages s.stable with saved := s.decisions, decisionRate := r }, gs,
        fun m => if m = s.stable then rs m ++ [(n : ℚ)] else rs m, 0, ?_, ⟨fun mode => ?_, ?_, ?_⟩, fun m => ?_,
        fun m => ?_⟩
      · show s.updateDecisionRate = _
        unfold State.updateDecisionRate
        simp only
        rw [if_neg (by omega), show s.decisions - (s.averages s.stable).saved = n by omega, r1]
        rfl
      · rw [averages_set]
        by_cases e : mode = s.stable
        · subst e
          simp only [if_true]
          exact ⟨hseen.fast, hseen.slow, fun _ => r2, fun e => by simp [h.ready] at e⟩
        · simp only [if_neg e]; exact h.seen mode
      · rw [set_stable, averages_set, if_pos rfl]; exact h.ready
      · rw [set_stable, averages_set, if_pos rfl, set_decisions]; rfl
      · rw [set_stable]; rfl
      · rw [set_stable, rates]
        by_cases e : m = s.stable
        · simp [e]
        · simp only [if_neg e, if_neg (Ne.symm e)]
    | learn g =>
      obtain ⟨f, f1, f2⟩ := update_seen hf (hseen.fast h.ready) (g : ℚ)
      obtain ⟨l, l1, l2⟩ := update_seen hs (hseen.slow h.ready) (g : ℚ)
      refine ⟨s.setAverages { s.averages s.stable with fastGlue := f, slowGlue := l },
        fun m => if m = s.stable then gs m ++ [(g : ℚ)] else gs m, rs, n, ?_, ⟨fun mode => ?_, ?_, ?_⟩, fun m => ?_,
        fun m => ?_⟩
      · show s.learned g = _
        simp [State.learned, f1, l1]
      · rw [averages_set]
        by_cases e : mode = s.stable
        · subst e
          simp only [if_true]
          exact ⟨fun _ => f2, fun _ => l2, hseen.rate, fun e => by simp [h.ready] at e⟩
        · simp only [if_neg e]; exact h.seen mode
      · rw [set_stable, averages_set, if_pos rfl]; exact h.ready
      · rw [set_stable, averages_set, if_pos rfl, set_decisions]; exact h.since
      · rw [set_stable, glues]
        by_cases e : m = s.stable
        · simp [e]
        · simp only [if_neg e, if_neg (Ne.symm e)]
      · rw [set_stable]; rfl
    | switch =>
      obtain ⟨b, b1, b2, b3, -⟩ := bank_init hf hs (h.seen (!s.stable))
      refine ⟨State.setAverages { s with stable := !s.stable } { b with saved := s.decisions }, gs, rs, 0, ?_,
        ⟨fun mode => ?_, ?_, ?_⟩, fun m => ?_, fun m => ?_⟩
      · show s.switch o = _
        unfold State.switch
        simp only
        rw [show State.averages { s with stable := !s.stable } (!s.stable) = s.averages (!s.stable) from rfl, b1]
        rfl
      · rw [averages_set]
        by_cases e : mode = !s.stable
        · subst e
          simp only [if_true]
          exact ⟨b2.fast, b2.slow, b2.rate, b2.empty⟩
        · simp only [if_neg e]; exact h.seen mode
      · rw [set_stable, averages_set, if_pos rfl]; exact b3
      · rw [set_stable, averages_set, if_pos rfl, set_decisions]; rfl
      · rw [set_stable]; rfl
      · rw [set_stable]; rfl

theorem start_inv {o : Options} (hf : 2 ≤ o.fast) (hs : 2 ≤ o.slow) (stable : Bool) (n : Nat) :
    ∃ s, State.start o stable n = some s ∧ s.stable = stable ∧ s.Inv o (fun _ => []) (fun _ => []) n := by
  have h0 : Bank.Seen o {} [] [] := ⟨fun e => by simp at e, fun e => by simp at e, fun e => by simp at e,
    fun _ => ⟨rfl, rfl, rfl, rfl, rfl⟩⟩
  obtain ⟨b, b1, b2, b3, b4⟩ := bank_init hf hs h0
  have hav : ∀ m, State.averages { stable := stable, decisions := n } m = {} := fun m => by cases m <;> rfl
  refine ⟨State.setAverages { stable := stable, decisions := n } b, ?_, set_stable _ _, fun mode => ?_, ?_, ?_⟩
  · unfold State.start
    simp only [hav, b1]
    rfl
  · rw [averages_set]
    split
    · exact b2
    · rw [hav]; exact h0
  · rw [set_stable, averages_set, if_pos rfl]; exact b3
  · rw [set_stable, averages_set, if_pos rfl, set_decisions, b4]; exact Nat.zero_add n

theorem seen_values {o : Options} {a : Bank} {gs rs : List ℚ} (h : a.Seen o gs rs) :
    a.fastGlue.value = mean (1 - 1 / o.fast) gs ∧ a.slowGlue.value = mean (1 - 1 / o.slow) gs ∧
      a.decisionRate.value = mean (1 - 1 / o.slow) rs := by
  cases hi : a.initialized with
  | true =>
    exact ⟨by rw [(h.fast hi).value, (h.fast hi).beta], by rw [(h.slow hi).value, (h.slow hi).beta],
      by rw [(h.rate hi).value, (h.rate hi).beta]⟩
  | false =>
    obtain ⟨rfl, rfl, h1, h2, h3⟩ := h.empty hi
    simp [mean, h1, h2, h3]

end Verif.Model.Averages
