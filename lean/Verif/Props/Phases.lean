import Verif.Proofs.Phases

/-!
# Phases of decisions (C71)

`Model/Phases.lean` against `Spec/Phases.lean`.  Histories are arbitrary lists of calls from the state of a solver with
any number of variables, where `update` is the point at which an assignment is looked at before backtracking.
-/

namespace Verif.Props

open Verif.Model Verif.Model.Phases Verif.Spec.Phases
open Verif.Proofs.Phases

/-- C71: no call accesses an array out of range, after any history. -/
theorem C71_calls {n : Nat} {i : Int} {ops : List Op} {s : State} (h : run (.init n i) ops = some s) {op : Op}
    (hl : Legal s op) : ∃ s', exec s op = some s' := by
  obtain ⟨hs, -⟩ := run_sized ops (init_sized n i) h
  obtain ⟨s', e, -⟩ := exec_spec hs hl
  exact ⟨s', e⟩

/-- C71: the kinds of rephasing take turns.  After a history with `k` rephasings the next one is of kind `k`; best,
original and inverted phases and the result of local search become the saved phases, and these are the new target.
Values and best phases stay. -/
theorem C71_rephase {n : Nat} {i : Int} {ops : List Op} {s : State} (h : run (.init n i) ops = some s)
    {walk : Option (List Int)} (hw : ∀ w, walk = some w → w.length = n) :
    ∃ s', exec s (.rephase walk) = some s' ∧ Resets s walk s'.saved (kindOf (rephasings ops)) ∧
      s'.target = s'.saved ∧ s'.best = s.best ∧ s'.values = s.values ∧ s'.targetAssigned = 0 ∧
      (kindOf (rephasings ops) = .best → s'.bestAssigned = 0) := by
  obtain ⟨hs, hv, -⟩ := run_sized ops (init_sized n i) h
  have hr := run_rephased ops (init_sized n i) h
  have hr : s.rephased = rephasings ops := by rw [hr]; simp [State.init]
  have hv : s.vars = n := hv
  obtain ⟨s', kind, e, -, hk, -, -, h1, -, -, -, h2, -, h3, h4, h5, h6⟩ := rephase_spec hs (walk := walk)
    (fun w hwe => (hw w hwe).trans hv.symm)
  rw [schedule_eq, hr] at hk
  have hk : kindOf (rephasings ops) = kind := Option.some.inj hk
  rw [hk]
  exact ⟨s', e, h6, h4, h2, h1, h3, fun hb => by rw [h5, if_pos hb]⟩

/-- C71: the size of an assignment, by which assignments are compared below, is the number of variables which have
a value or have been removed. -/
theorem C71_size {n : Nat} {i : Int} {ops : List Op} {s : State} (hp : ProperRun (.init n i) ops)
    (h : run (.init n i) ops = some s) : (s.assigned : Int) = valued s + gone ops := by
  have h0 : valued (.init n i) = 0 := by
    unfold valued
    rw [List.countP_eq_zero]
    intro v _
    have : (State.init n i).values.getD (2 * v) 0 = 0 := by
      simp only [State.init, List.getD_eq_getElem?_getD, List.getElem?_replicate]
      split <;> rfl
    rw [this]; decide
  obtain ⟨h1, h2⟩ := run_count ops (g := 0) (init_sized n i) hp h (Int.le_refl _) (by rw [h0]; simp [State.init])
  unfold State.assigned
  omega

/-- C71: target phases are those of the largest assignment since the last rephasing.  `s` is the state at the beginning
or after rephasing (then the counter is zero), `t` any later one in which an assignment is counted, which is larger than
all counted before and not smaller than the ones counted afterwards.  Then in the end (`u`) the target phase of
every variable assigned in `t` is its value in `t`. -/
theorem C71_target {n : Nat} {i : Int} {ops a b : List Op} {s t u : State} (h : run (.init n i) ops = some s)
    (h0 : s.targetAssigned = 0) (ha : run s a = some t) (hb : run t (.update :: b) = some u)
    (hra : ∀ w, Op.rephase w ∉ a) (hrb : ∀ w, Op.rephase w ∉ b) (hc : Counted t) (hpos : 0 < t.assigned)
    (hbefore : During (fun t' => t'.assigned < t.assigned) s a)
    (hafter : During (fun t' => t'.assigned ≤ t.assigned) t (.update :: b)) :
    ∀ (v : Nat) (x : Int), t.values[2 * v]? = some x → x ≠ 0 → u.target[v]? = some x := by
  obtain ⟨hs, -⟩ := run_sized ops (init_sized n i) h
  obtain ⟨ht, -⟩ := run_sized a hs ha
  have hlt := target_below a hs ha hra hbefore (by omega)
  rw [run] at hb
  obtain ⟨t', e1, e2⟩ := Option.bind_eq_some_iff.1 hb
  obtain ⟨ht', -⟩ := exec_sized ht e1
  obtain ⟨t'', e3, -, -, -, -, -, -, -, -, -, h1, -⟩ := update_spec ht
  have e1' : t.update = some t' := e1
  rw [e1'] at e3; cases e3
  rw [if_pos ⟨hc.1, hc.2, hlt⟩] at h1
  obtain ⟨-, h3⟩ := target_kept b ht' e2 hrb (during_tail hafter e1) h1.1
  intro v x hx hne
  rw [h3, h1.2.get v x hx, if_pos hne]

/-- C71: the same for best phases, since the last rephasing to best phases. -/
theorem C71_best {n : Nat} {i : Int} {ops a b : List Op} {s t u : State} (h : run (.init n i) ops = some s)
    (h0 : s.bestAssigned = 0) (ha : run s a = some t) (hb : run t (.update :: b) = some u)
    (hra : NoBest (rephasings ops) a) (hrb : NoBest (rephasings (ops ++ a)) b) (hc : Counted t)
    (hpos : 0 < t.assigned)
    (hbefore : During (fun t' => t'.assigned < t.assigned) s a)
    (hafter : During (fun t' => t'.assigned ≤ t.assigned) t (.update :: b)) :
    ∀ (v : Nat) (x : Int), t.values[2 * v]? = some x → x ≠ 0 → u.best[v]? = some x := by
  obtain ⟨hs, -⟩ := run_sized ops (init_sized n i) h
  obtain ⟨ht, -⟩ := run_sized a hs ha
  have hr : s.rephased = rephasings ops := by
    rw [run_rephased ops (init_sized n i) h]; simp [State.init]
  have hr' : t.rephased = rephasings (ops ++ a) := by
    rw [run_rephased (ops ++ a) (init_sized n i) (by rw [run_append, h]; exact ha)]; simp [State.init]
  have hlt := best_below a hs ha (by rw [hr]; exact hra) hbefore (by omega)
  rw [run] at hb
  obtain ⟨t', e1, e2⟩ := Option.bind_eq_some_iff.1 hb
  obtain ⟨ht', -⟩ := exec_sized ht e1
  obtain ⟨t'', e3, -, -, -, -, -, hre, -, -, -, -, h1⟩ := update_spec ht
  have e1' : t.update = some t' := e1
  rw [e1'] at e3; cases e3
  rw [if_pos ⟨hc.1, hc.2, hlt⟩] at h1
  obtain ⟨-, h3⟩ := best_kept b ht' e2 (by rw [hre, hr']; exact hrb) (during_tail hafter e1) h1.1
  intro v x hx hne
  rw [h3, h1.2.get v x hx, if_pos hne]

/-- C71: so that decisions in stable mode repeat this assignment (options `forcephase` unset and `target` set). -/
theorem C71_decision {n : Nat} {i : Int} {ops a b : List Op} {s t u : State} (h : run (.init n i) ops = some s)
    (h0 : s.targetAssigned = 0) (ha : run s a = some t) (hb : run t (.update :: b) = some u)
    (hra : ∀ w, Op.rephase w ∉ a) (hrb : ∀ w, Op.rephase w ∉ b) (hc : Counted t) (hpos : 0 < t.assigned)
    (hbefore : During (fun t' => t'.assigned < t.assigned) s a)
    (hafter : During (fun t' => t'.assigned ≤ t.assigned) t (.update :: b))
    {p : Decide.PhaseInput} (hf : p.forcephase = false) (ho : p.target ≠ 0) (hst : p.stable = true)
    (ht : ∀ v, p.targetOf v = u.target.getD v 0) :
    ∀ (v : Nat) (x : Int), t.values[2 * v]? = some x → x ≠ 0 → Decide.decidePhase p v = x := by
  intro v x hx hne
  have h1 := C71_target h h0 ha hb hra hrb hc hpos hbefore hafter v x hx hne
  have hdom : x = 1 ∨ x = 0 ∨ x = -1 := by
    refine run_dom (ops ++ a) (init_sized n i) (t := t) (by rw [run_append, h]; exact ha) (fun y hy => ?_) x
      (List.mem_of_getElem? hx)
    exact .inr (.inl (List.eq_of_mem_replicate hy))
  have h2 : p.targetOf v = x := by rw [ht, List.getD_eq_getElem?_getD, h1]; rfl
  unfold Decide.decidePhase
  simp only [hf, hst, h2, if_neg ho]
  rcases hdom with rfl | rfl | rfl
  · simp
  · exact absurd rfl hne
  · simp

/-- C71: outside of probing the saved phase of a variable is the value it was assigned last, until phases are reset or
local search stores an assignment. -/
theorem C71_saved {n : Nat} {i : Int} {ops b : List Op} {s t u : State} (h : run (.init n i) ops = some s)
    (hp : s.probing = false) {lit : Nat} (hl : exec s (.assign lit) = some t) (hb : run t b = some u)
    (hrest : ∀ op ∈ b, (∀ w, op ≠ .rephase w) ∧ (∀ w, op ≠ .walk w) ∧ ∀ k, op = .assign k → k / 2 ≠ lit / 2) :
    u.saved[lit / 2]? = some (if lit % 2 = 1 then -1 else 1) := by
  obtain ⟨hs, -⟩ := run_sized ops (init_sized n i) h
  have ht : t.saved[lit / 2]? = some (if lit % 2 = 1 then -1 else 1) := by
    simp only [exec, State.assign] at hl
    by_cases hc : lit < s.values.length ∧ (if lit % 2 = 0 then lit + 1 else lit - 1) < s.values.length ∧
        lit / 2 < s.saved.length
    · rw [if_pos hc] at hl
      cases hl
      simp only [hp]
      exact List.getElem?_set_self hc.2.2
    · rw [if_neg hc] at hl; cases hl
  have hts := (exec_sized hs hl).1
  clear h hl hs
  induction b generalizing t with
  | nil => cases hb; exact ht
  | cons op b ih =>
    rw [run] at hb
    obtain ⟨t', e1, e2⟩ := Option.bind_eq_some_iff.1 hb
    refine ih e2 (fun o ho => hrest o (List.mem_cons_of_mem _ ho)) ?_ (exec_sized hts e1).1
    obtain ⟨h1, h2, h3⟩ := hrest op List.mem_cons_self
    cases op with
    | assign k =>
      simp only [exec, State.assign] at e1
      by_cases hc : k < t.values.length ∧ (if k % 2 = 0 then k + 1 else k - 1) < t.values.length ∧
          k / 2 < t.saved.length
      · rw [if_pos hc] at e1
        cases e1
        simp only
        split
        · exact ht
        · rw [List.getElem?_set_ne (h3 k rfl)]; exact ht
      · rw [if_neg hc] at e1; cases e1
    | unassign k =>
      simp only [exec, State.unassign] at e1
      by_cases hc : k < t.values.length ∧ (if k % 2 = 0 then k + 1 else k - 1) < t.values.length
      · rw [if_pos hc] at e1; cases e1; exact ht
      · rw [if_neg hc] at e1; cases e1
    | update =>
      obtain ⟨t'', e3, -, -, -, -, hsv, -⟩ := update_spec hts
      have e1 : t.update = some t' := e1
      rw [e1] at e3; cases e3
      rw [hsv]; exact ht
    | rephase w => exact absurd rfl (h1 w)
    | walk w => exact absurd rfl (h2 w)
    | remove => cases e1; exact ht
    | insert => cases e1; exact ht
    | mode c => cases e1; exact ht
    | probe c => cases e1; exact ht

/-- Three variables in stable mode: an assignment of two variables counts, a smaller one later does not. -/
def exPhases : List Op × List Op :=
  ([.mode true, .assign 1, .assign 2], [.unassign 2, .unassign 1, .assign 0, .update])

/-- The hypotheses are met: after the second assignment is looked at the target phases are still those of the first. -/
example : ∃ t u, run (.init 3 1) exPhases.1 = some t ∧ run t (.update :: exPhases.2) = some u ∧ Counted t ∧
    t.assigned = 2 ∧ u.assigned = 1 ∧ t.values = [-1, 1, 1, -1, 0, 0] ∧ u.target = [-1, 1, 0] ∧
    u.saved = [1, 1, 0] ∧ u.best = [-1, 1, 0] :=
  ⟨_, _, rfl, rfl, ⟨rfl, rfl⟩, rfl, rfl, rfl, rfl, rfl, rfl⟩

example : ∃ t, run (.init 3 1) exPhases.1 = some t ∧
    During (fun t' => t'.assigned < t.assigned) (.init 3 1) exPhases.1 ∧
    During (fun t' => t'.assigned ≤ t.assigned) t (.update :: exPhases.2) := by
  refine ⟨_, rfl, fun a b u e hr hc => ?_, fun a b u e hr hc => ?_⟩
  · have : Op.update ∈ exPhases.1 := by rw [e]; simp
    simp [exPhases] at this
  · -- the two updates
    rcases a with _ | ⟨o1, _ | ⟨o2, _ | ⟨o3, _ | ⟨o4, _ | ⟨o5, a⟩⟩⟩⟩⟩ <;> simp [exPhases] at e
    · cases hr; exact Nat.le_refl _
    · obtain ⟨rfl, rfl, rfl, rfl, -⟩ := e
      cases hr
      decide

/-- A proper history: one variable is removed, one assigned. -/
example : ProperRun (.init 3 1) [.remove, .assign 3] ∧ ∃ s, run (.init 3 1) [.remove, .assign 3] = some s ∧
    s.assigned = 2 ∧ valued s = 1 ∧ gone [.remove, .assign 3] = 1 := by
  refine ⟨⟨by show 0 < 3; decide, fun s hs => ?_⟩, _, rfl, rfl, rfl, rfl⟩
  cases hs
  exact ⟨⟨by decide, by decide, by decide⟩, fun _ _ => trivial⟩

/-- Three rephasings: best, walking (with a result) and inverted. -/
example : (run (.init 2 1) [.rephase none, .rephase (some [1, -1]), .rephase none]).map (·.saved) = some [-1, -1] ∧
    (run (.init 2 1) [.rephase none, .rephase (some [1, -1])]).map (·.target) = some [1, -1] := ⟨rfl, rfl⟩

end Verif.Props
