import Verif.Model.Compact
import Verif.Proofs.Cnf
import Verif.Proofs.Queue

/-! # Compaction: the new numbers -/

namespace Verif.Compact

open Verif.Spec
open Verif.Core (upd)

theorem upd_apply {α : Type} (f : Nat → α) (i : Nat) (a : α) (j : Nat) :
    upd f i a j = if j = i then a else f j := rfl

/-- The variables which get a number of their own: active ones and the first fixed one. -/
def kept (t : Tables) (v : Nat) : Bool :=
  (t.flags v).active || ((t.flags v).fixed && (List.range v).all fun j => !(t.flags j).fixed)

/-- The new number: number of smaller variables which get a number. -/
def rank (t : Tables) (v : Nat) : Nat := (List.range v).countP (kept t)

/-- The first fixed variable. -/
def First (t : Tables) (f : Nat) : Prop := (t.flags f).fixed = true ∧ ∀ j, j < f → (t.flags j).fixed = false

/-- The true literal with the new number of the first fixed variable. -/
def trueLit (t : Tables) (f : Nat) : Nat :=
  if t.values (2 * f) < 0 then neg (2 * rank t f) else 2 * rank t f

/-- The literal with the same number. -/
def newLit (t : Tables) (l : Nat) : Nat := if l % 2 = 0 then 2 * rank t (l / 2) else 2 * rank t (l / 2) + 1

/-- How tables fit together.  All variables have an external number; an external variable
which is imported and not eliminated is the number of an internal variable, or it is fixed. -/
structure Consistent (t : Tables) : Prop where
  exports : ∀ v, v < t.vars → 0 < t.exports v ∧ (t.exports v).natAbs < t.size
  imports : ∀ v, v < t.vars → (t.imports (t.exports v).natAbs).imported = true ∧
    (t.imports (t.exports v).natAbs).eliminated = (t.flags v).eliminated ∧
    ((t.flags v).eliminated = false → (t.imports (t.exports v).natAbs).lit = 2 * v)
  inj : ∀ v w, v < t.vars → w < t.vars → t.exports v = t.exports w → v = w
  back : ∀ e, e < t.size → (t.imports e).imported = true → (t.imports e).eliminated = false →
    (∃ v, v < t.vars ∧ t.exports v = e) ∨ (e : Int) ∈ t.units ∨ - (e : Int) ∈ t.units
  unit : ∀ u ∈ t.units, u ≠ 0 ∧ u.natAbs < t.size ∧ (t.imports u.natAbs).imported = true ∧
    (t.imports u.natAbs).eliminated = false ∧ (t.imports u.natAbs).lit / 2 < t.vars ∧
    (t.flags ((t.imports u.natAbs).lit / 2)).fixed = true ∧
    t.values (t.imports u.natAbs).lit = if u < 0 then -1 else 1
  fixed : ∀ v, v < t.vars → (t.flags v).fixed = true → t.values (2 * v) ≠ 0 ∧
    (t.assigned v).level = 0 ∧ (if t.values (2 * v) < 0 then - t.exports v else t.exports v) ∈ t.units
  flags : ∀ v, ((t.flags v).active = true → (t.flags v).fixed = false ∧ (t.flags v).eliminated = false) ∧
    ((t.flags v).fixed = true → (t.flags v).eliminated = false)
  dom : ∀ l, t.values l = 1 ∨ t.values l = 0 ∨ t.values l = -1
  anti : ∀ l, t.values (neg l) = - t.values l
  unassigned : ∀ v, v < t.vars → (t.flags v).active = false → (t.flags v).fixed = false →
    t.values (2 * v) = 0
  active : ∀ v, v < t.vars → (t.flags v).active = true → t.values (2 * v) ≠ 0 →
    (t.assigned v).level ≠ 0

theorem rank_succ (t : Tables) (v : Nat) : rank t (v + 1) = rank t v + if kept t v then 1 else 0 := by
  unfold rank
  rw [List.range_succ, List.countP_append, List.countP_singleton]

theorem rank_le (t : Tables) (v : Nat) : rank t v ≤ v := by
  unfold rank
  exact Nat.le_trans List.countP_le_length (by simp)

theorem rank_mono (t : Tables) {v w : Nat} (h : v ≤ w) : rank t v ≤ rank t w := by
  induction h with
  | refl => exact Nat.le_refl _
  | step _ ih => rw [rank_succ]; omega

theorem rank_lt (t : Tables) {v w : Nat} (hk : kept t v = true) (h : v < w) : rank t v < rank t w := by
  have h1 := rank_mono t (show v + 1 ≤ w from h)
  have h2 := rank_succ t v
  rw [hk] at h2
  simp at h2
  omega

theorem rank_inj {t : Tables} {v w : Nat} (hv : kept t v = true) (hw : kept t w = true)
    (h : rank t v = rank t w) : v = w := by
  rcases Nat.lt_trichotomy v w with hl | hl | hl
  · have := rank_lt t hv hl; omega
  · exact hl
  · have := rank_lt t hw hl; omega

/-- Every smaller number is used. -/
theorem rank_onto {t : Tables} : ∀ {n m : Nat}, m < rank t n → ∃ v, v < n ∧ kept t v = true ∧ rank t v = m
  | 0, m, h => by unfold rank at h; simp at h
  | n + 1, m, h => by
    rw [rank_succ] at h
    by_cases hm : m < rank t n
    · obtain ⟨v, h1, h2⟩ := rank_onto hm
      exact ⟨v, by omega, h2⟩
    · by_cases hk : kept t n = true
      · rw [hk] at h; simp at h
        exact ⟨n, by omega, hk, by omega⟩
      · simp [hk] at h; omega

theorem rank_eq_self {t : Tables} {n : Nat} (h : rank t n = n) : ∀ v, v < n → kept t v = true ∧ rank t v = v := by
  intro v hv
  have hk : kept t v = true := by
    apply Classical.byContradiction
    intro hk
    have h2 := rank_succ t v
    simp [hk] at h2
    have h3 : rank t n ≤ rank t (v + 1) + (n - (v + 1)) := by
      have : ∀ k, rank t (v + 1 + k) ≤ rank t (v + 1) + k := by
        intro k
        induction k with
        | zero => exact Nat.le_refl _
        | succ k ih =>
          have := rank_succ t (v + 1 + k)
          have e : v + 1 + (k + 1) = v + 1 + k + 1 := by omega
          rw [e, this]; split <;> omega
      have := this (n - (v + 1))
      rwa [show v + 1 + (n - (v + 1)) = n by omega] at this
    have := rank_le t v
    omega
  refine ⟨hk, ?_⟩
  have h3 : rank t n ≤ rank t v + (n - v) := by
    have : ∀ k, rank t (v + k) ≤ rank t v + k := by
      intro k
      induction k with
      | zero => exact Nat.le_refl _
      | succ k ih =>
        have := rank_succ t (v + k)
        have e : v + (k + 1) = v + k + 1 := by omega
        rw [e, this]; split <;> omega
    have := this (n - v)
    rwa [show v + (n - v) = n by omega] at this
  have := rank_le t v
  omega

theorem kept_iff {t : Tables} {v : Nat} : kept t v = true ↔ (t.flags v).active = true ∨ First t v := by
  unfold kept First
  rw [Bool.or_eq_true, Bool.and_eq_true, List.all_eq_true]
  simp

theorem First.unique {t : Tables} {f g : Nat} (hf : First t f) (hg : First t g) : f = g := by
  rcases Nat.lt_trichotomy f g with h | h | h
  · have := hg.2 f h; rw [hf.1] at this; cases this
  · exact h
  · have := hf.2 g h; rw [hg.1] at this; cases this

theorem First.exists {t : Tables} : ∀ {v : Nat}, (t.flags v).fixed = true → ∃ f, f ≤ v ∧ First t f := by
  intro v
  induction v using Nat.strongRecOn with
  | ind v ih =>
    intro h
    by_cases hj : ∃ j, j < v ∧ (t.flags j).fixed = true
    · obtain ⟨j, h1, h2⟩ := hj
      obtain ⟨f, h3, h4⟩ := ih j h1 h2
      exact ⟨f, by omega, h4⟩
    · refine ⟨v, Nat.le_refl _, h, fun j hj' => ?_⟩
      cases hb : (t.flags j).fixed with
      | false => rfl
      | true => exact absurd ⟨j, hj', hb⟩ hj

/-- The entry of the external number of `v` in the new table. -/
def newImport (t : Tables) (v : Nat) (i : Import) : Import → Prop := fun j =>
  if (t.flags v).eliminated = true then j = i
  else if kept t v = true then j = { i with lit := 2 * rank t v }
  else if (t.flags v).fixed = true then ∀ f, First t f →
    j = { i with lit := if t.values (2 * v) < 0 then neg (trueLit t f) else trueLit t f }
  else j = { i with imported := false }

/-- After `n` variables. -/
structure RInv (t : Tables) (n : Nat) (r : Renumber) : Prop where
  vars : r.vars = rank t n
  none : r.mfixed = none → ∀ j, j < n → (t.flags j).fixed = false
  some : ∀ m, r.mfixed = some m → ∃ f, f < n ∧ First t f ∧ m = trueLit t f
  done : ∀ v, v < n → newImport t v (t.imports (t.exports v).natAbs) (r.imports (t.exports v).natAbs)
  todo : ∀ v, n ≤ v → v < t.vars → r.imports (t.exports v).natAbs = t.imports (t.exports v).natAbs
  other : ∀ e, (∀ v, v < t.vars → (t.exports v).natAbs ≠ e) → r.imports e = t.imports e
  exports : ∀ v, r.exports v = if v < n ∧ (t.flags v).active = false ∧ (t.flags v).fixed = false ∧
    (t.flags v).eliminated = false then 0 else t.exports v

theorem reimport_eq {t : Tables} (ht : Consistent t) {r : Renumber} {n mlit : Nat} (hn : n < t.vars)
    (he : r.exports n = t.exports n)
    (hi : r.imports (t.exports n).natAbs = t.imports (t.exports n).natAbs)
    (hel : (t.flags n).eliminated = false) :
    (reimport r n mlit).imports = upd r.imports (t.exports n).natAbs
      { t.imports (t.exports n).natAbs with lit := mlit } ∧
    (reimport r n mlit).exports = r.exports ∧ (reimport r n mlit).mfixed = r.mfixed ∧
    (reimport r n mlit).vars = r.vars := by
  have hpos := (ht.exports n hn).1
  have hlit := (ht.imports n hn).2.2 hel
  unfold reimport
  split
  · rename_i e
    refine ⟨?_, rfl, rfl, rfl⟩
    funext x
    rw [upd_apply]
    split
    · rename_i hx
      rw [hx, hi, e, ← hlit]
    · rfl
  · simp only
    rw [he, if_neg (by omega), hi]
    exact ⟨rfl, trivial, trivial, trivial⟩

theorem step_imports {t : Tables} (ht : Consistent t) {r r' : Renumber} {n : Nat} (hn : n < t.vars)
    (h : RInv t n r) {i : Import} (hi : r'.imports = upd r.imports (t.exports n).natAbs i)
    (hnew : newImport t n (t.imports (t.exports n).natAbs) i) :
    (∀ v, v < n + 1 → newImport t v (t.imports (t.exports v).natAbs) (r'.imports (t.exports v).natAbs)) ∧
    (∀ v, n + 1 ≤ v → v < t.vars →
      r'.imports (t.exports v).natAbs = t.imports (t.exports v).natAbs) ∧
    (∀ e, (∀ v, v < t.vars → (t.exports v).natAbs ≠ e) → r'.imports e = t.imports e) := by
  have hne : ∀ v, v < t.vars → v ≠ n → (t.exports v).natAbs ≠ (t.exports n).natAbs := by
    intro v hv hvn e
    have h1 := (ht.exports v hv).1
    have h2 := (ht.exports n hn).1
    exact hvn (ht.inj v n hv hn (by omega))
  refine ⟨fun v hv => ?_, fun v hv hv' => ?_, fun e he => ?_⟩
  · rw [hi, upd_apply]
    by_cases hvn : v = n
    · subst hvn; rw [if_pos rfl]; exact hnew
    · rw [if_neg (hne v (by omega) hvn)]
      exact h.done v (by omega)
  · rw [hi, upd_apply, if_neg (hne v hv' (by omega))]
    exact h.todo v (by omega) hv'
  · rw [hi, upd_apply, if_neg (Ne.symm (he n hn))]
    exact h.other e he

theorem fixed_value {t : Tables} (ht : Consistent t) {v : Nat} (hv : v < t.vars)
    (hf : (t.flags v).fixed = true) : t.fixed (2 * v) = t.values (2 * v) := by
  unfold Tables.fixed
  rw [if_neg]
  rintro ⟨_, h⟩
  rw [show 2 * v / 2 = v by omega] at h
  exact h (ht.fixed v hv hf).2.1

theorem renumberStep_ok {t : Tables} (ht : Consistent t) {r : Renumber} {n : Nat} (hn : n < t.vars)
    (h : RInv t n r) : RInv t (n + 1) (renumberStep t r n) := by
  have hfl := ht.flags n
  have hen : r.exports n = t.exports n := by
    rw [h.exports, if_neg (by omega)]
  have hin := h.todo n (Nat.le_refl _) hn
  have hexp : ∀ (_ : (t.flags n).active = true ∨ (t.flags n).fixed = true ∨ (t.flags n).eliminated = true)
      (v : Nat), r.exports v = if v < n + 1 ∧ (t.flags v).active = false ∧ (t.flags v).fixed = false ∧
      (t.flags v).eliminated = false then 0 else t.exports v := by
    intro hc v
    rw [h.exports]
    by_cases hv : v = n
    · subst hv
      rw [if_neg (by omega), if_neg]
      rintro ⟨_, h1, h2, h3⟩
      rcases hc with hc | hc | hc
      · rw [h1] at hc; cases hc
      · rw [h2] at hc; cases hc
      · rw [h3] at hc; cases hc
    · have : v < n + 1 ↔ v < n := by omega
      simp only [this]
  unfold renumberStep
  simp only
  by_cases hel : (t.flags n).eliminated = true
  · rw [if_pos hel]
    have hna : (t.flags n).active = false := by
      cases hb : (t.flags n).active with
      | false => rfl
      | true => have := (hfl.1 hb).2; rw [hel] at this; cases this
    have hnf : (t.flags n).fixed = false := by
      cases hb : (t.flags n).fixed with
      | false => rfl
      | true => have := hfl.2 hb; rw [hel] at this; cases this
    have hk : kept t n = false := by
      unfold kept; rw [hna, hnf]; rfl
    obtain ⟨d1, d2, d3⟩ := step_imports ht hn h (r' := r) (i := t.imports (t.exports n).natAbs) (by
      funext x; rw [upd_apply]; split
      · rename_i e; rw [e, hin]
      · rfl) (by unfold newImport; rw [if_pos hel])
    refine ⟨?_, ?_, ?_, d1, d2, d3, hexp (.inr (.inr hel))⟩
    · rw [h.vars, rank_succ, hk]; rfl
    · intro hm j hj
      by_cases e : j = n
      · rw [e]; exact hnf
      · exact h.none hm j (by omega)
    · intro m hm
      obtain ⟨f, h1, h2⟩ := h.some m hm
      exact ⟨f, by omega, h2⟩
  have hel : (t.flags n).eliminated = false := by simpa using hel
  rw [if_neg (by rw [hel]; simp)]
  by_cases hf : (t.flags n).fixed = true
  · rw [if_pos hf, fixed_value ht hn hf]
    cases hm : r.mfixed with
    | none =>
      simp only
      have hfirst : First t n := ⟨hf, h.none hm⟩
      have hk : kept t n = true := kept_iff.2 (.inr hfirst)
      generalize hr1 : ({ r with
        mfixed := some (if t.values (2 * n) < 0 then neg (2 * r.vars) else 2 * r.vars)
        vars := r.vars + 1 } : Renumber) = r1
      have e1 : r1.imports = r.imports := by rw [← hr1]
      have e2 : r1.exports = r.exports := by rw [← hr1]
      have e3 : r1.mfixed = some (if t.values (2 * n) < 0 then neg (2 * r.vars) else 2 * r.vars) := by rw [← hr1]
      have e4 : r1.vars = r.vars + 1 := by rw [← hr1]
      obtain ⟨g1, g2, g3, g4⟩ := reimport_eq ht (r := r1) (mlit := 2 * r.vars) hn (by rw [e2, hen]) (by rw [e1, hin]) hel
      obtain ⟨d1, d2, d3⟩ := step_imports ht hn h (r' := reimport r1 n (2 * r.vars)) (by rw [g1, e1])
        (by unfold newImport; rw [if_neg (by rw [hel]; simp), if_pos hk, h.vars])
      refine ⟨?_, ?_, ?_, d1, d2, d3, ?_⟩
      · rw [g4, e4, h.vars, rank_succ, hk]; rfl
      · rw [g3, e3]; intro e; cases e
      · rw [g3, e3]
        intro m hm
        cases hm
        refine ⟨n, by omega, hfirst, ?_⟩
        unfold trueLit; rw [h.vars]
      · rw [g2, e2]; exact hexp (.inr (.inl hf))
    | some mf =>
      simp only
      obtain ⟨f, hf1, hf2, hf3⟩ := h.some mf hm
      have hk : kept t n = false := by
        cases hb : kept t n with
        | false => rfl
        | true =>
          rcases kept_iff.1 hb with hc | hc
          · have := (hfl.1 hc).1; rw [hf] at this; cases this
          · have := hc.unique hf2; omega
      obtain ⟨g1, g2, g3, g4⟩ := reimport_eq ht (r := r)
        (mlit := if t.values (2 * n) < 0 then neg mf else mf) hn hen hin hel
      obtain ⟨d1, d2, d3⟩ := step_imports ht hn h (r' := reimport r n _) g1
        (by
          unfold newImport
          rw [if_neg (by rw [hel]; simp), if_neg (by rw [hk]; simp), if_pos hf]
          intro f' hf'
          rw [← hf2.unique hf', hf3])
      refine ⟨?_, ?_, ?_, d1, d2, d3, ?_⟩
      · rw [g4, h.vars, rank_succ, hk]; rfl
      · rw [g3, hm]; intro e; cases e
      · rw [g3, hm]; intro m e; cases e
        exact ⟨f, by omega, hf2, hf3⟩
      · rw [g2]; exact hexp (.inr (.inl hf))
  have hf : (t.flags n).fixed = false := by simpa using hf
  rw [if_neg (by rw [hf]; simp)]
  have hnone : r.mfixed = none → ∀ j, j < n + 1 → (t.flags j).fixed = false := by
    intro hm j hj
    by_cases e : j = n
    · rw [e]; exact hf
    · exact h.none hm j (by omega)
  have hsome : ∀ m, r.mfixed = some m → ∃ f, f < n + 1 ∧ First t f ∧ m = trueLit t f := by
    intro m hm
    obtain ⟨f, h1, h2⟩ := h.some m hm
    exact ⟨f, by omega, h2⟩
  by_cases ha : (t.flags n).active = true
  · rw [if_pos ha]
    have hk : kept t n = true := kept_iff.2 (.inl ha)
    generalize hr1 : ({ r with vars := r.vars + 1 } : Renumber) = r1
    have e1 : r1.imports = r.imports := by rw [← hr1]
    have e2 : r1.exports = r.exports := by rw [← hr1]
    have e3 : r1.mfixed = r.mfixed := by rw [← hr1]
    have e4 : r1.vars = r.vars + 1 := by rw [← hr1]
    obtain ⟨g1, g2, g3, g4⟩ := reimport_eq ht (r := r1) (mlit := 2 * r.vars) hn (by rw [e2, hen]) (by rw [e1, hin]) hel
    obtain ⟨d1, d2, d3⟩ := step_imports ht hn h (r' := reimport r1 n (2 * r.vars)) (by rw [g1, e1])
      (by unfold newImport; rw [if_neg (by rw [hel]; simp), if_pos hk, h.vars])
    refine ⟨?_, ?_, ?_, d1, d2, d3, ?_⟩
    · rw [g4, e4, h.vars, rank_succ, hk]; rfl
    · rw [g3, e3]; exact hnone
    · rw [g3, e3]; exact hsome
    · rw [g2, e2]; exact hexp (.inl ha)
  have ha : (t.flags n).active = false := by simpa using ha
  rw [if_neg (by rw [ha]; simp)]
  have hk : kept t n = false := by
    unfold kept; rw [ha, hf]; rfl
  have hpos := (ht.exports n hn).1
  rw [hen, if_pos (by omega), hin]
  obtain ⟨d1, d2, d3⟩ := step_imports ht hn h (r' := { r with
      imports := upd r.imports (t.exports n).natAbs { t.imports (t.exports n).natAbs with imported := false }
      exports := upd r.exports n 0 }) rfl
    (by unfold newImport; rw [if_neg (by rw [hel]; simp), if_neg (by rw [hk]; simp), if_neg (by rw [hf]; simp)])
  refine ⟨?_, hnone, hsome, d1, d2, d3, ?_⟩
  · show r.vars = _
    rw [h.vars, rank_succ, hk]; rfl
  · intro v
    show upd r.exports n 0 v = _
    rw [upd_apply, h.exports]
    by_cases e : v = n
    · subst e
      rw [if_pos rfl, if_pos ⟨by omega, ha, hf, hel⟩]
    · rw [if_neg e]
      have : v < n + 1 ↔ v < n := by omega
      simp only [this]

theorem foldl_range {β : Type} (f : β → Nat → β) (P : Nat → β → Prop) (b : β) (n : Nat) (h0 : P 0 b)
    (hs : ∀ k c, k < n → P k c → P (k + 1) (f c k)) : P n ((List.range n).foldl f b) := by
  induction n with
  | zero => exact h0
  | succ n ih =>
    rw [List.range_succ, List.foldl_append]
    exact hs n _ (by omega) (ih fun k c hk => hs k c (by omega))

theorem compactLiterals_ok {t : Tables} (ht : Consistent t) : RInv t t.vars (compactLiterals t) := by
  unfold compactLiterals
  refine foldl_range _ (RInv t) _ _ ⟨rfl, fun _ j hj => absurd hj (Nat.not_lt_zero _),
    fun m hm => (by cases hm), fun v hv => absurd hv (Nat.not_lt_zero _), fun v _ _ => rfl,
    fun e _ => rfl, fun v => ?_⟩ fun k c hk hc => renumberStep_ok ht hk hc
  rw [if_neg (by omega)]

/-! ## Mapped literals -/

theorem newLit_neg (t : Tables) (l : Nat) : newLit t (neg l) = neg (newLit t l) := by
  unfold newLit
  rw [neg_div]
  rcases Nat.mod_two_eq_zero_or_one l with e | e
  · have : neg l % 2 = 1 := by unfold neg; rw [if_pos e]; omega
    rw [if_neg (by omega), if_pos e]
    unfold neg; rw [if_pos (by omega)]
  · have : neg l % 2 = 0 := by unfold neg; rw [if_neg (by omega)]; omega
    rw [if_pos this, if_neg (by omega)]
    unfold neg; rw [if_neg (by omega)]; omega

theorem newLit_div (t : Tables) (l : Nat) : newLit t l / 2 = rank t (l / 2) := by
  unfold newLit; split <;> omega

theorem newLit_even (t : Tables) (v : Nat) : newLit t (2 * v) = 2 * rank t v := by
  unfold newLit
  rw [if_pos (by omega), show 2 * v / 2 = v by omega]

theorem newLit_le (t : Tables) (l : Nat) : newLit t l ≤ l := by
  have := rank_le t (l / 2)
  unfold newLit; split <;> omega

theorem newLit_inj {t : Tables} {l m : Nat} (hl : kept t (l / 2) = true) (hm : kept t (m / 2) = true)
    (h : newLit t l = newLit t m) : l = m := by
  have h1 : rank t (l / 2) = rank t (m / 2) := by rw [← newLit_div, h, newLit_div]
  have h2 := rank_inj hl hm h1
  unfold newLit at h
  split at h <;> split at h <;> omega

theorem mapLiteral_eq {imports : Nat → Import} {exports : Nat → Int} {l : Nat} (h : 0 < exports (l / 2)) :
    mapLiteral imports exports l =
      if (imports (exports (l / 2)).natAbs).eliminated then none
      else some (if l % 2 = 1 then neg (imports (exports (l / 2)).natAbs).lit
        else (imports (exports (l / 2)).natAbs).lit) := by
  have he : exportLiteral exports l = if l % 2 = 1 then - exports (l / 2) else exports (l / 2) := by
    unfold exportLiteral; simp only; rw [if_neg (by omega)]
  unfold mapLiteral
  simp only
  rw [he]
  rcases Nat.mod_two_eq_zero_or_one l with e | e
  · have e' : ¬ l % 2 = 1 := by omega
    simp only [if_neg e']
    rw [if_neg (show ¬ exports (l / 2) = 0 by omega), if_neg (show ¬ exports (l / 2) < 0 by omega)]
  · simp only [if_pos e]
    rw [if_neg (show ¬ - exports (l / 2) = 0 by omega), if_pos (show - exports (l / 2) < 0 by omega),
      Int.natAbs_neg]

/-- Literals as seen by `kissat_map_literal` before exports are cleared. -/
theorem map_kept {t : Tables} (ht : Consistent t) {r : Renumber} (h : RInv t t.vars r)
    {exports : Nat → Int} {l : Nat} (hl : l / 2 < t.vars) (hk : kept t (l / 2) = true)
    (he : exports (l / 2) = t.exports (l / 2)) :
    mapLiteral r.imports exports l = some (newLit t l) := by
  have hpos := (ht.exports _ hl).1
  have hfl := ht.flags (l / 2)
  have hel : (t.flags (l / 2)).eliminated = false := by
    rcases kept_iff.1 hk with hc | hc
    · exact (hfl.1 hc).2
    · exact hfl.2 hc.1
  have hd := h.done _ hl
  unfold newImport at hd
  rw [if_neg (by rw [hel]; simp), if_pos hk] at hd
  rw [mapLiteral_eq (by rw [he]; exact hpos), he, hd]
  simp only
  rw [(ht.imports _ hl).2.1, hel, if_neg (by simp)]
  unfold newLit
  rcases Nat.mod_two_eq_zero_or_one l with e | e
  · rw [if_neg (by omega), if_pos e]
  · rw [if_pos e, if_neg (by omega)]
    unfold neg; rw [if_pos (by omega)]

theorem map_zero {imports : Nat → Import} {exports : Nat → Int} {l : Nat} (h : exports (l / 2) = 0) :
    mapLiteral imports exports l = none := by
  unfold mapLiteral exportLiteral
  simp only
  rw [if_pos h, if_pos rfl]

/-! ## Clearing exports -/

theorem clearExports_eq {t : Tables} (r : Renumber) (v : Nat) (hv : v < t.vars) :
    clearExports t r v = if kept t v then r.exports v else 0 := by
  have key := foldl_range
    (fun (s : (Nat → Int) × Bool) iidx =>
      if (t.flags iidx).fixed && s.2 then (s.1, false)
      else if !(t.flags iidx).active then (upd s.1 iidx 0, s.2)
      else s)
    (fun n s => (s.2 = true ↔ ∀ j, j < n → (t.flags j).fixed = false) ∧
      ∀ v, s.1 v = if v < n ∧ kept t v = false then 0 else r.exports v) (r.exports, true) t.vars
    ⟨by simp, fun v => by simp⟩ (fun k s hk hs => by
      obtain ⟨h1, h2⟩ := hs
      have hlt : ∀ v, v ≠ k → (v < k + 1 ↔ v < k) := fun v hv => by omega
      have hex : ∀ f : Nat → Int, f k = (if kept t k = false then 0 else r.exports k) →
          (∀ v, v ≠ k → f v = s.1 v) →
          ∀ v, f v = if v < k + 1 ∧ kept t v = false then 0 else r.exports v := by
        intro f e1 e2 v
        by_cases e : v = k
        · subst e
          rw [e1]
          simp
        · rw [e2 v e, h2]
          simp only [hlt v e]
      by_cases hf : ((t.flags k).fixed && s.2) = true
      · rw [if_pos hf]
        rw [Bool.and_eq_true] at hf
        have hfirst : First t k := ⟨hf.1, h1.1 hf.2⟩
        refine ⟨?_, hex s.1 ?_ fun _ _ => rfl⟩
        · constructor
          · intro e; cases e
          · intro hj
            have := hj k (by omega)
            rw [hf.1] at this; cases this
        · rw [h2, if_neg (by omega), kept_iff.2 (.inr hfirst)]; rfl
      · rw [if_neg hf]
        have hnf : ¬ First t k := fun hc => hf (by
          rw [Bool.and_eq_true]; exact ⟨hc.1, h1.2 hc.2⟩)
        have hb : s.2 = true ↔ ∀ j, j < k + 1 → (t.flags j).fixed = false := by
          rw [h1]
          constructor
          · intro hj j hj'
            by_cases e : j = k
            · subst e
              cases hb : (t.flags j).fixed with
              | false => rfl
              | true => exact absurd (by rw [Bool.and_eq_true]; exact ⟨hb, h1.2 hj⟩) hf
            · exact hj j (by omega)
          · exact fun hj j hj' => hj j (by omega)
        by_cases ha : (t.flags k).active = true
        · rw [if_neg (by rw [ha]; simp)]
          refine ⟨hb, hex s.1 ?_ fun _ _ => rfl⟩
          rw [h2, if_neg (by omega), kept_iff.2 (.inl ha)]; rfl
        · have ha : (t.flags k).active = false := by simpa using ha
          rw [if_pos (by rw [ha]; rfl)]
          refine ⟨hb, hex (upd s.1 k 0) ?_ fun v hv => ?_⟩
          · have : kept t k = false := by
              cases hb : kept t k with
              | false => rfl
              | true =>
                rcases kept_iff.1 hb with hc | hc
                · rw [ha] at hc; cases hc
                · exact absurd hc hnf
            rw [upd_apply, if_pos rfl, this]; rfl
          · rw [upd_apply, if_neg hv])
  unfold clearExports
  rw [key.2 v]
  cases kept t v <;> simp [hv]

theorem clearExports_kept {t : Tables} {r : Renumber} (h : RInv t t.vars r) {v : Nat}
    (hv : v < t.vars) : clearExports t r v = if kept t v then t.exports v else 0 := by
  rw [clearExports_eq r v hv]
  split
  · rename_i hk
    rw [h.exports, if_neg]
    rintro ⟨_, h1, h2, _⟩
    rcases kept_iff.1 hk with hc | hc
    · rw [h1] at hc; cases hc
    · have := hc.1; rw [h2] at this; cases this
  · rfl

end Verif.Compact
