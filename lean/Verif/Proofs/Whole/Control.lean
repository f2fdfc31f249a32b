import Verif.Proofs.Whole.Start
import Verif.Proofs.History

/-!
# Limits and termination
-/

namespace Verif.Whole

open Verif.Spec Verif.Model Verif.Core

/-- Limits and termination flag are the same. -/
def SameLimits (w w' : State) : Prop :=
  w'.t.conflictLimit = w.t.conflictLimit ∧ w'.t.decisionLimit = w.t.decisionLimit ∧ w'.t.flagged = w.t.flagged

theorem SameLimits.trans {w w' w'' : State} (h : SameLimits w w') (h' : SameLimits w' w'') : SameLimits w w'' :=
  ⟨h'.1.trans h.1, h'.2.1.trans h.2.1, h'.2.2.trans h.2.2⟩

theorem resume_limits {w w' : State} {b : Bool} {x : Simp.State} {c : Option Conflict} (h : w.resume b x = (w', c)) :
    SameLimits w w' := by
  unfold State.resume at h
  simp only [Prod.mk.injEq] at h
  obtain ⟨rfl, _⟩ := h
  exact ⟨rfl, rfl, rfl⟩

theorem simplify_limits {w w' : State} {res : Nat} (h : Simplify w w' res) : SameLimits w w' := by
  cases h with
  | unsat _ _ => exact ⟨rfl, rfl, rfl⟩
  | conflict _ _ h => exact resume_limits h
  | done _ _ h => exact resume_limits h

theorem lucky_limits {w w' : State} {on e : Bool} {res : Nat} (h : w.lucky on e = some (w', res)) : SameLimits w w' := by
  unfold State.lucky at h
  split at h
  · cases h
  · simp only [Option.some.injEq, Prod.mk.injEq] at h
    obtain ⟨rfl, _⟩ := h
    exact ⟨rfl, rfl, rfl⟩

theorem before_limits {o : LuckyOptions} {p : Bool} {a : Api} {w : State} {res : Nat} (h : Before o p a w res) :
    SameLimits (.ofApi a) w := by
  cases h with
  | inconsistent _ => exact ⟨rfl, rfl, rfl⟩
  | early _ h _ => exact lucky_limits h
  | preprocess _ h _ h' _ => exact (lucky_limits h).trans (simplify_limits h')
  | late _ h h' h'' =>
    refine (lucky_limits h).trans (SameLimits.trans ?_ (lucky_limits h''))
    cases p with
    | false => rw [if_neg (by simp)] at h'; rw [h']; exact ⟨rfl, rfl, rfl⟩
    | true => rw [if_pos rfl] at h'; exact simplify_limits h'

theorem step_limits {orig : List (List Nat)} {w w' : State} {r : Bool} {a : Option Nat} (hw : Running orig w)
    (h : Step w r w' a) :
    w'.t.conflictLimit = w.t.conflictLimit ∧ w'.t.decisionLimit = w.t.decisionLimit ∧ w'.t.flagged = (w.t.flagged || r) := by
  cases h with
  | next ho hit =>
    obtain ⟨F, hF, hb⟩ := hw
    have h1 := iteration_ok hb ho
    rename_i o t
    have h2 := iteration_flag o w.t
    rw [hit] at h1 h2
    exact ⟨h1.2.2.1, h1.2.2.2.1, h2⟩
  | done ho hit =>
    obtain ⟨F, hF, hb⟩ := hw
    have h1 := iteration_ok hb ho
    rename_i o t res
    have h2 := iteration_flag o w.t
    rw [hit] at h1 h2
    exact ⟨h1.2.1, h1.2.2.1, h2⟩
  | inprocess _ _ _ _ _ hs =>
    obtain ⟨h1, h2, h3⟩ := simplify_limits hs
    exact ⟨h1, h2, by rw [h3, Bool.or_false]⟩
  | conflict _ _ _ _ _ => exact ⟨rfl, rfl, by rw [Bool.or_false]⟩

/-- Why the loop ends without answer. -/
theorem step_unknown {orig : List (List Nat)} {w w' : State} {r : Bool} (hw : Running orig w) (h : Step w r w' (some 0)) :
    w'.t.flagged = true ∨ limitHit w'.t.conflictLimit w'.t.s.conflicts = true ∨
      limitHit w'.t.decisionLimit w'.t.s.decisions = true := by
  generalize hx : some 0 = x at h
  cases h with
  | next _ _ => cases hx
  | done ho hit =>
    cases hx
    obtain ⟨F, hF, hb⟩ := hw
    have h1 := iteration_ok hb ho
    rw [hit] at h1
    rcases h1.1 with ⟨h, _⟩ | ⟨h, _⟩ | ⟨_, _, _, h⟩
    · cases h
    · cases h
    · exact h
  | inprocess _ _ _ _ _ hs =>
    split at hx
    · cases hx
    · rename_i hne
      injection hx with hx
      exact absurd hx.symm hne
  | conflict _ _ _ _ _ => cases hx

theorem loop_unknown {orig : List (List Nat)} {w w' : State} {rs : List Bool} {res : Nat} (h : Loop w rs w' res) (h0 : res = 0) :
    Running orig w → w.t.flagged = true ∨ true ∈ rs ∨ limitHit w.t.conflictLimit w'.t.s.conflicts = true ∨
      limitHit w.t.decisionLimit w'.t.s.decisions = true := by
  induction h with
  | done hs =>
    intro hw
    subst h0
    obtain ⟨l1, l2, l3⟩ := step_limits hw hs
    have := step_unknown hw hs
    rw [l1, l2, l3, Bool.or_eq_true] at this
    rcases this with (h | h) | h | h
    · exact .inl h
    · exact .inr (.inl (by simp [h]))
    · exact .inr (.inr (.inl h))
    · exact .inr (.inr (.inr h))
  | next hs _ ih =>
    intro hw
    obtain ⟨l1, l2, l3⟩ := step_limits hw hs
    have := ih h0 (step_ok hw hs)
    rw [l1, l2, l3, Bool.or_eq_true] at this
    rcases this with (h | h) | h | h | h
    · exact .inl h
    · exact .inr (.inl (by simp [h]))
    · exact .inr (.inl (List.mem_cons_of_mem _ h))
    · exact .inr (.inr (.inl h))
    · exact .inr (.inr (.inr h))

theorem solve_unknown {orig : List (List Nat)} {a : Api} (h : ApiInv orig a) {o : LuckyOptions} {p : Bool} {rs : List Bool}
    {w : State} (hs : Solve o p a rs w 0) : a.flagged = true ∨ true ∈ rs ∨
      limitHit a.conflictLimit w.t.s.conflicts = true ∨ limitHit a.decisionLimit w.t.s.decisions = true := by
  generalize hx : 0 = x at hs
  cases hs with
  | before _ _ _ hne => exact absurd hx.symm hne
  | limit _ _ _ hl =>
    unfold Api.searching at hl
    dsimp only at hl
    split at hl
    · cases hl
    · split at hl
      · cases hl
      · split at hl
        · cases hl
        · split at hl
          · rename_i h; exact .inr (.inr (.inl h))
          · cases hl
  | search _ _ hb _ hl =>
    have := loop_unknown hl hx.symm ((before_ok h hb).2 rfl).1.running
    obtain ⟨l1, l2, l3⟩ := before_limits hb
    rw [l1, l2, l3] at this
    exact this

/-! ## Progress -/

theorem simplify_total (w : State) (x : Simp.State) (hx : Simp.Reach (· = w.toSimp) x) : ∃ w' res, Simplify w w' res := by
  cases hi : x.inconsistent with
  | true => exact ⟨_, _, .unsat hx hi⟩
  | false =>
    rcases hr : w.resume false x with ⟨w', _ | c⟩
    · exact ⟨_, _, .done hx hi hr⟩
    · exact ⟨_, _, .conflict hx hi hr⟩

theorem before_total {orig : List (List Nat)} {a : Api} (h : ApiInv orig a) (o : LuckyOptions) (p : Bool) :
    ∃ w res, Before o p a w res := by
  cases hi : a.s.inconsistent with
  | true => exact ⟨_, _, .inconsistent hi⟩
  | false =>
    obtain ⟨w, res, h1, h2, h3⟩ := lucky_outcome (ofApi_root h hi) h.loaded.loose o.luckyearly o.lucky
    by_cases h0 : res = 0
    · subst h0
      have h3 := h3 rfl
      cases p with
      | false =>
        obtain ⟨w', res, h4, _⟩ := lucky_outcome h3.1 h3.2 o.luckylate o.lucky
        exact ⟨w', res, .late hi h1 (by rw [if_neg (by simp)]) h4⟩
      | true =>
        obtain ⟨w', res, hs⟩ := simplify_total w _ (.start rfl)
        by_cases h0 : res = 0
        · subst h0
          rcases simplify_ok h3.1 hs with ⟨h, _⟩ | ⟨_, h4⟩
          · cases h
          · obtain ⟨w'', res, h5, _⟩ := lucky_outcome h4.1 h4.2 o.luckylate o.lucky
            exact ⟨w'', res, .late hi h1 (by rw [if_pos rfl]; exact hs) h5⟩
        · exact ⟨w', res, .preprocess hi h1 rfl hs h0⟩
    · exact ⟨w, res, .early hi h1 h0⟩

/-- Whatever the heuristics choose, an iteration is not stuck, as long as garbage was not collected on a
positive decision level or local search is not used. -/
theorem step_total {orig : List (List Nat)} {w : State} (h : Running orig w) (o : Oracle) (hl : w.t.s.loose = false ∨ o.localSearch = false)
    (ho : ∀ v, v ∈ o.order ↔ v < w.t.s.vars ∧ w.t.s.removed v = false) : ∃ w' a, Step w o.request w' a := by
  obtain ⟨F, hF, hb⟩ := h
  have := iteration_step hF hb ho
  cases hit : iteration o w.t with
  | stuck => rw [hit] at this; have this : w.t.s.loose = true ∧ o.localSearch = true := this; rw [this.1, this.2] at hl; simp at hl
  | next t => exact ⟨_, _, .next ho hit⟩
  | done t res => exact ⟨_, _, .done ho hit⟩

end Verif.Whole
