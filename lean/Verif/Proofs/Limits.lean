import Verif.Proofs.Reach
import Verif.Proofs.RunMore

/-! # Decisions, limits and termination requests -/

namespace Verif.Core

open Verif.Spec

/-- What an iteration can do to the number of decisions, and why it went on. -/
theorem iteration_decisions {orig : Base} [Deletes orig] {G : Assignment → Prop} {o : Oracle}
    {t t' : Search} (h : Between orig G t.s) (ho : o.Fair t.s) (hit : iteration o t = .next t') :
    (t'.s.decisions = t.s.decisions ∧ ((t.flagged || o.request) = true →
        (∃ c, (searchPropagate t.s).2 = some c) ∨ (searchPropagate t.s).1.iterating = true)) ∨
    (t'.s.decisions = t.s.decisions + 1 ∧ (t.flagged || o.request) = false ∧
      limitHit t.decisionLimit t.s.decisions = false ∧
      limitHit t.conflictLimit (searchPropagate t.s).1.conflicts = false) := by
  have hp := searchPropagate_ok h.prop
  have hc := h.consistent
  unfold iteration at hit
  cases hres : searchPropagate t.s with
  | mk s c =>
    rw [hres] at hp hit
    obtain ⟨hsame, hok, hlev, hp⟩ := hp
    simp only at hsame hok hlev hp hit ⊢
    have hdec := hsame.decisions
    cases c with
    | some c =>
      simp only at hp hit
      left
      refine ⟨?_, fun _ => .inl ⟨c, rfl⟩⟩
      by_cases h0 : t.s.level = 0
      · rw [if_pos h0] at hp
        have ha : analyze s c = some (s, 20) := by unfold analyze; rw [hp]; rfl
        rw [ha] at hit
        simp at hit
      · rw [if_neg h0] at hp
        obtain ⟨hi, hco, k, hk, hf⟩ := hp
        have hA := AInv.of_conflict hok (by omega) hco hk hf
        obtain ⟨s', r, ha, hr⟩ := analyze_ok (hi.trans hc) hA
        rw [ha] at hit
        simp only at hit
        rcases hr with ⟨rfl, h1, h2⟩ | ⟨rfl, h1, h2, h3⟩
        · rw [if_pos rfl] at hit
          injection hit with e; subst e
          exact h2.decisions.trans hdec
        · simp at hit
    | none =>
      simp only at hp hit
      obtain ⟨hP, hfull, hi⟩ := hp
      have hS : Between orig G s := ⟨hP, hi.trans hc⟩
      by_cases h1 : s.iterating = true
      · rw [if_pos h1] at hit
        injection hit with e; subst e
        exact .inl ⟨hdec, fun _ => .inr h1⟩
      rw [if_neg h1] at hit
      by_cases h2 : s.unassigned = 0
      · rw [if_pos h2] at hit; cases hit
      rw [if_neg h2] at hit
      by_cases h3 : (t.flagged || o.request) = true
      · rw [if_pos h3] at hit; cases hit
      rw [if_neg h3] at hit
      have h3' : (t.flagged || o.request) = false := by simpa using h3
      have key : t'.s.decisions = t.s.decisions → (t'.s.decisions = t.s.decisions ∧
          ((t.flagged || o.request) = true →
          (∃ c, (none : Option Conflict) = some c) ∨ s.iterating = true)) :=
        fun h => ⟨h, fun h => absurd h h3⟩
      cases hred : o.reducing with
      | some refs =>
        rw [hred] at hit
        simp only at hit
        by_cases hr : s.unflushed ≠ 0 ∧ s.rootConflict = true
        · rw [if_pos hr] at hit; cases hit
        rw [if_neg hr] at hit
        obtain ⟨g1, g2, g3, _⟩ := reduce_ok hP hfull
          (fun e => by
            have := searchPropagate_flushed (s := t.s) (by rw [hres]) (by rw [hres]; exact e)
            rw [hres] at this; exact this) hr hS.consistent refs o.collecting
        rw [if_pos g3] at hit
        injection hit with e; subst e
        exact .inl (key (g2.decisions.trans hdec))
      | none =>
        rw [hred] at hit
        simp only at hit
        by_cases h4 : o.switching = true
        · rw [if_pos h4] at hit
          injection hit with e; subst e
          exact .inl (key hdec)
        rw [if_neg h4] at hit
        cases hrs : o.restarting with
        | some n =>
          rw [hrs] at hit
          simp only at hit
          injection hit with e; subst e
          obtain ⟨g1, g2⟩ := hP.backtrack n
          exact .inl (key (g2.decisions.trans hdec))
        | none =>
          rw [hrs] at hit
          simp only at hit
          by_cases h5 : o.reordering = true
          · rw [if_pos h5] at hit
            injection hit with e; subst e
            exact .inl (key hdec)
          rw [if_neg h5] at hit
          by_cases h6 : o.rephasing = true
          · rw [if_pos h6] at hit
            by_cases hr : s.rootConflict = true
            · rw [if_pos hr] at hit; split at hit <;> cases hit
            rw [if_neg hr] at hit
            obtain ⟨g1, gp, g2, g0⟩ := flushToRoot_ok hP hfull (by simpa using hr)
            cases hwm : o.warming with
            | none =>
              rw [hwm] at hit
              injection hit with e; subst e
              exact .inl (key (g2.decisions.trans hdec))
            | some ds =>
              rw [hwm] at hit
              obtain ⟨u, w1, _, w3⟩ := warmup_ok g1 gp g0 (order := o.order) (fun v => by
                rw [g2.vars, g2.removed, hsame.vars, hsame.removed]; exact ho v) ds
              simp only at hit
              rw [w1] at hit
              injection hit with e; subst e
              exact .inl (key ((g2.trans w3.kept).decisions.trans hdec))
          rw [if_neg h6] at hit
          by_cases h7 : limitHit t.conflictLimit s.conflicts = true
          · rw [if_pos h7] at hit; cases hit
          rw [if_neg h7] at hit
          by_cases h8 : limitHit t.decisionLimit s.decisions = true
          · rw [if_pos h8] at hit; cases hit
          rw [if_neg h8] at hit
          right
          have ho' : o.Fair s := fun v => by
            rw [hsame.vars, hsame.removed]; exact ho v
          have hd := hit
          unfold Solver.decide at hd
          cases hnv : nextDecisionVariable s o.order with
          | none => rw [hnv] at hd; cases hd
          | some v =>
            rw [hnv] at hd
            simp only at hd
            injection hd with e; subst e
            refine ⟨?_, h3', ?_, by simpa using h7⟩
            · show s.decisions + 1 = _
              rw [hdec]
            · rw [← hdec]; simpa using h8

theorem Searching.decisions {a : Api} {orig : List (List Nat)} (h : ApiInv orig a) {t : Search}
    (ht : Searching a t) : t.decisionLimit = a.decisionLimit ∧ t.conflictLimit = a.conflictLimit ∧
    ∀ L, a.decisionLimit = some L → t.s.decisions ≤ max L a.s.decisions := by
  induction ht with
  | start => exact ⟨rfl, rfl, fun L _ => Nat.le_max_right _ _⟩
  | @next t o t' hs ho hit ih =>
    have hb := hs.between h
    have h1 := iteration_ok hb ho
    rw [hit] at h1
    obtain ⟨_, _, h2, h3, _⟩ := h1
    obtain ⟨i1, i2, i3⟩ := ih
    refine ⟨h3.trans i1, h2.trans i2, fun L hL => ?_⟩
    have := i3 L hL
    rcases iteration_decisions hb ho hit with ⟨e, _⟩ | ⟨e, _, hl, _⟩
    · rw [e]; exact this
    · rw [i1, hL] at hl
      unfold limitHit at hl
      simp at hl
      omega

/-- The states in which the loop ends. -/
theorem searchLoop_last {a : Api} : ∀ (os : List Oracle) {t t' : Search} {res : Nat},
    Searching a t → (∀ o ∈ os, o.Fair a.s) → t.s.vars = a.s.vars → t.s.removed = a.s.removed →
    (∀ u, Searching a u → u.s.vars = a.s.vars ∧ u.s.removed = a.s.removed) →
    searchLoop os t = some (.done t' res) →
    ∃ u o, Searching a u ∧ o ∈ os ∧ o.Fair u.s ∧ iteration o u = .done t' res
  | [], t, t', res, _, _, _, _, _, h => by simp [searchLoop] at h
  | o :: os, t, t', res, hs, hf, hv, hr, hall, h => by
    have hfair : o.Fair t.s := fun v => by rw [hv, hr]; exact hf o (by simp) v
    unfold searchLoop at h
    cases hit : iteration o t with
    | next u =>
      rw [hit] at h
      have hu : Searching a u := .next hs hfair hit
      obtain ⟨u', o', h1, h2, h3, h4⟩ := searchLoop_last os hu (fun o' ho' => hf o' (by simp [ho']))
        (hall u hu).1 (hall u hu).2 hall h
      exact ⟨u', o', h1, by simp [h2], h3, h4⟩
    | done u r =>
      rw [hit] at h
      simp only [Option.some.injEq, Outcome.done.injEq] at h
      obtain ⟨rfl, rfl⟩ := h
      exact ⟨t, o, hs, by simp, hfair, hit⟩
    | stuck => rw [hit] at h; simp at h

theorem Searching.stay {orig : List (List Nat)} {a : Api} (h : ApiInv orig a) {t : Search}
    (ht : Searching a t) : t.s.vars = a.s.vars ∧ t.s.removed = a.s.removed := by
  induction ht with
  | start => exact ⟨rfl, rfl⟩
  | @next t o t' hs ho hit ih =>
    have h1 := iteration_ok (hs.between h) ho
    rw [hit] at h1
    obtain ⟨_, h2, _⟩ := h1
    exact ⟨h2.vars.trans ih.1, h2.removed.trans ih.2⟩

/-- A search that was started ends in an iteration of the loop. -/
theorem solve_last {orig : List (List Nat)} {a a' : Api} {os : List Oracle} {res : Nat}
    (h : ApiInv orig a) (ho : ∀ o ∈ os, o.Fair a.s) (hs : a.solve os = .done a' res)
    (hn : a'.searches ≠ a.searches) :
    ∃ u o t, Searching a u ∧ o ∈ os ∧ o.Fair u.s ∧ iteration o u = .done t res ∧ a'.s = t.s := by
  unfold Api.solve at hs
  split at hs
  · cases hs
  · split at hs
    · cases hs
    · rename_i h0
      split at hs
      · injection hs with e1 e2; subst e1; exact absurd rfl hn
      · rename_i hi
        split at hs
        · injection hs with e1 e2; subst e1; exact absurd rfl hn
        · split at hs
          · cases hs
          · cases hs
          · cases hs
          · rename_i t r heq
            injection hs with e1 e2
            subst e1 e2
            obtain ⟨u, o, h1, h2, h3, h4⟩ := searchLoop_last os
              (.start (by simpa using h0) (by simpa using hi)) ho rfl rfl
              (fun u hu => hu.stay h) heq
            exact ⟨u, o, t, h1, h2, h3, h4, rfl⟩

/-- An iteration ending the loop makes no decision. -/
theorem iteration_done_decisions {orig : Base} [Deletes orig] {G : Assignment → Prop} {o : Oracle}
    {t t' : Search} {res : Nat} (h : Between orig G t.s) (ho : o.Fair t.s)
    (hit : iteration o t = .done t' res) (h10 : res ≠ 20) :
    t'.s = (searchPropagate t.s).1 ∧ t'.s.decisions = t.s.decisions := by
  have hp := searchPropagate_ok h.prop
  have hi := iteration_ok h ho
  rw [hit] at hi
  obtain ⟨hA, -⟩ := hi
  have hr : res = 10 ∨ res = 0 := by
    rcases hA with h | h | h
    · exact .inl h.1
    · exact absurd h.1 h10
    · exact .inr h.1
  unfold iteration at hit
  cases hres : searchPropagate t.s with
  | mk s c =>
    rw [hres] at hp hit
    obtain ⟨hsame, hok, hlev, hp⟩ := hp
    simp only at hsame hok hlev hp hit ⊢
    have hdec := hsame.decisions
    cases c with
    | some c =>
      simp only at hp hit
      have : res = 20 := by
        by_cases h0 : t.s.level = 0
        · rw [if_pos h0] at hp
          have ha : analyze s c = some (s, 20) := by unfold analyze; rw [hp]; rfl
          rw [ha] at hit
          simp at hit
          exact hit.2.symm
        · rw [if_neg h0] at hp
          obtain ⟨hi, hco, k, hk, hf⟩ := hp
          have hA := AInv.of_conflict hok (by omega) hco hk hf
          obtain ⟨s', r, ha, hr⟩ := analyze_ok (hi.trans h.consistent) hA
          rw [ha] at hit
          simp only at hit
          rcases hr with ⟨rfl, h1, h2⟩ | ⟨rfl, h1, h2, h3⟩
          · rw [if_pos rfl] at hit; cases hit
          · simp at hit; exact hit.2.symm
      exact absurd this h10
    | none =>
      simp only at hp hit
      obtain ⟨hP, hfull, hi⟩ := hp
      have hfin : ∀ {fl r}, Outcome.done { t with s := s, flagged := fl } r = .done t' res →
          t'.s = s ∧ t'.s.decisions = t.s.decisions := by
        intro fl r h
        injection h with e1 e2; subst e1; exact ⟨rfl, hdec⟩
      by_cases h1 : s.iterating = true
      · rw [if_pos h1] at hit; cases hit
      rw [if_neg h1] at hit
      by_cases h2 : s.unassigned = 0
      · rw [if_pos h2] at hit; exact hfin hit
      rw [if_neg h2] at hit
      by_cases h3 : (t.flagged || o.request) = true
      · rw [if_pos h3] at hit; exact hfin hit
      rw [if_neg h3] at hit
      cases hred : o.reducing with
      | some refs =>
        rw [hred] at hit
        simp only at hit
        by_cases hr : s.unflushed ≠ 0 ∧ s.rootConflict = true
        · rw [if_pos hr] at hit; injection hit with _ e; exact absurd e.symm h10
        rw [if_neg hr] at hit
        obtain ⟨g1, g2, g3, _⟩ := reduce_ok hP hfull
          (fun e => by
            have := searchPropagate_flushed (s := t.s) (by rw [hres]) (by rw [hres]; exact e)
            rw [hres] at this; exact this) hr (hi.trans h.consistent) refs o.collecting
        rw [if_pos g3] at hit; cases hit
      | none =>
        rw [hred] at hit
        simp only at hit
        by_cases h4 : o.switching = true
        · rw [if_pos h4] at hit; cases hit
        rw [if_neg h4] at hit
        cases hrs : o.restarting with
        | some n => rw [hrs] at hit; cases hit
        | none =>
          rw [hrs] at hit
          simp only at hit
          by_cases h5 : o.reordering = true
          · rw [if_pos h5] at hit; cases hit
          rw [if_neg h5] at hit
          by_cases h6 : o.rephasing = true
          · rw [if_pos h6] at hit
            by_cases hr : s.rootConflict = true
            · rw [if_pos hr] at hit
              split at hit
              · cases hit
              · injection hit with _ e; exact absurd e.symm h10
            rw [if_neg hr] at hit
            cases hwm : o.warming with
            | none => rw [hwm] at hit; cases hit
            | some ds =>
              rw [hwm] at hit
              simp only at hit
              cases hwu : warmup o.order ds s.flushToRoot with
              | none => rw [hwu] at hit; cases hit
              | some u => rw [hwu] at hit; cases hit
          rw [if_neg h6] at hit
          by_cases h7 : limitHit t.conflictLimit s.conflicts = true
          · rw [if_pos h7] at hit; exact hfin hit
          rw [if_neg h7] at hit
          by_cases h8 : limitHit t.decisionLimit s.decisions = true
          · rw [if_pos h8] at hit; exact hfin hit
          rw [if_neg h8] at hit
          cases hd : s.decide o.order o.phase with
          | none => rw [hd] at hit; cases hit
          | some s' => rw [hd] at hit; cases hit

end Verif.Core
