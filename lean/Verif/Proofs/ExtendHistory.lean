import Verif.Model.ExtendHistory
import Verif.Proofs.Extend

/-!
# Histories give well formed extension stacks
-/

namespace Verif.Model.Extend

open Verif.Spec

/-- What `kissat_weaken_clause` pushes. -/
def State.pushed (s : State) (w : Nat) (c : List Nat) : Int × List Int :=
  (s.exportLiteral w,
    (c.filter fun o => decide (w ≠ o) && decide (0 ≤ s.values o)).map s.exportLiteral)

theorem pushLiterals_eq (s : State) (w : Nat) (c : List Nat) :
    c.foldl (fun s other => if w ≠ other then s.pushLiteral other else s) s =
      { s with extend := s.extend ++ ((c.filter fun o => decide (w ≠ o) &&
        decide (0 ≤ s.values o)).map fun o => ⟨s.exportLiteral o, false⟩) } := by
  induction c generalizing s with
  | nil => simp
  | cons o c ih =>
    rw [List.foldl_cons]
    by_cases hw : w = o
    · simp only [hw, ne_eq, not_true, if_false, decide_false, Bool.false_and, List.filter_cons,
        Bool.false_eq_true]
      subst hw
      exact ih s
    · simp only [hw, ne_eq, not_false_eq_true, if_true, decide_true, Bool.true_and,
        List.filter_cons]
      unfold State.pushLiteral
      by_cases hv : s.values o < 0
      · have : ¬ 0 ≤ s.values o := by omega
        simp only [hv, if_true, this, decide_false, Bool.false_eq_true, if_false]
        have := ih s
        simpa [State.pushLiteral] using this
      · have h' : 0 ≤ s.values o := by omega
        simp only [hv, if_false, h', decide_true, if_true]
        have := ih { s with extend := s.extend ++ [⟨s.exportLiteral o, false⟩] }
        simp only [State.exportLiteral, State.pushLiteral] at this ⊢
        rw [this]
        simp

theorem weakenClause_eq (s : State) (w : Nat) (c : List Nat) :
    s.weakenClause w c = { s with extend := s.extend ++ entry (s.pushed w c) } := by
  unfold State.weakenClause
  rw [pushLiterals_eq]
  simp [State.pushWitness, entry, State.pushed, State.exportLiteral]

theorem weakenBinary_eq (s : State) (w o : Nat) (h : w ≠ o) :
    s.weakenBinary w o = s.weakenClause w [w, o] := by
  simp [State.weakenBinary, State.weakenClause, h]

theorem weakenUnit_eq (s : State) (w : Nat) : s.weakenUnit w = s.weakenClause w [w] := by
  simp [State.weakenUnit, State.weakenClause]

/-- What a history establishes. -/
structure Built (F₀ : Formula) (s : State) (F : Formula) (T : List (Int × List Int)) : Prop where
  stack : s.extend = T.flatMap entry
  reduces : Reduces F₀ (T.map coded) F
  etrail : s.etrail = []
  extended : s.extended = false
  zero : ∀ x ∈ s.eliminated, x = 0
  wf : WF s
  known : ∀ p ∈ T, ∀ e ∈ p.1 :: p.2, e ≠ 0 ∧ ∃ i, s.imports[e.natAbs]? = some i ∧ i.imported = true

theorem History.built {F₀ F : Formula} {s : State} (h : History F₀ s F) : ∃ T, Built F₀ s F T := by
  induction h with
  | start s h1 h2 h3 h4 h5 =>
    refine ⟨[], ⟨by simp [h1], .refl, h3, h4, by simp [h2], ⟨?_, ?_⟩, by simp⟩⟩
    · intro v i hi he
      rw [h5 i (List.mem_of_getElem? hi)] at he
      cases he
    · intro v i v' i' hi _ he
      rw [h5 i (List.mem_of_getElem? hi)] at he
      cases he
  | @change s s' F F' _ hu himp ih =>
    obtain ⟨T, hT⟩ := ih
    refine ⟨T, ⟨hu.extend.trans hT.stack, .restrict hT.reduces himp, hu.etrail.trans hT.etrail,
      hu.extended.trans hT.extended, by rw [hu.eliminated]; exact hT.zero, ⟨?_, ?_⟩, ?_⟩⟩
    · intro v i hi he
      rw [hu.eliminated]
      exact hT.wf.bound v i (hu.new v i hi he) he
    · intro v i v' i' hi hi' he he'
      exact hT.wf.inj v i v' i' (hu.new v i hi he) (hu.new v' i' hi' he') he he'
    · intro p hp e he
      obtain ⟨h0, i, h1, h2⟩ := hT.known p hp e he
      obtain ⟨i', h3, h4, _⟩ := hu.old _ i h1
      exact ⟨h0, i', h3, h4 h2⟩
  | @weaken s F F' w c _ hw hk hks hfalse hval hred himp ih =>
    obtain ⟨T, hT⟩ := ih
    rw [weakenClause_eq]
    have key : ∀ σ, SatFormula σ F' → (SatClause σ (coded (s.pushed w c)).2 ↔
        SatClause σ (c.map s.ext)) := by
      intro σ hσ
      constructor
      · rintro ⟨x, hx, ht⟩
        simp only [coded, State.pushed, List.map_cons, List.map_map, List.mem_cons, List.mem_map,
          List.mem_filter] at hx
        rcases hx with rfl | ⟨o, ⟨ho, _⟩, rfl⟩
        · exact ⟨s.ext w, List.mem_map.mpr ⟨w, hw, rfl⟩, ht⟩
        · exact ⟨s.ext o, List.mem_map.mpr ⟨o, ho, rfl⟩, ht⟩
      · rintro ⟨x, hx, ht⟩
        obtain ⟨o, ho, rfl⟩ := List.mem_map.mp hx
        refine ⟨s.ext o, ?_, ht⟩
        simp only [coded, State.pushed, List.map_cons, List.map_map, List.mem_cons, List.mem_map,
          List.mem_filter]
        by_cases hwo : o = w
        · rw [hwo]; exact Or.inl rfl
        · refine Or.inr ⟨o, ⟨ho, ?_⟩, rfl⟩
          have : ¬ s.values o < 0 := fun hv => hfalse o ho hv σ hσ ht
          simp only [Bool.and_eq_true, decide_eq_true_eq]
          exact ⟨fun hh => hwo hh.symm, by omega⟩
    refine ⟨T ++ [s.pushed w c], ⟨by simp [hT.stack], ?_, hT.etrail, hT.extended, hT.zero,
      ⟨hT.wf.bound, hT.wf.inj⟩, ?_⟩⟩
    · rw [List.map_append, List.map_singleton]
      refine .weaken (l := (coded (s.pushed w c)).1) (C := (coded (s.pushed w c)).2) hT.reduces
        (by simp [coded]) ?_ ?_
      · intro σ hσ hc
        exact hred σ hσ fun h => hc ((key σ hσ).mpr h)
      · intro σ hσ hc
        exact himp σ hσ ((key σ hσ).mp hc)
    · intro p hp e he
      rcases List.mem_append.mp hp with hp | hp
      · exact hT.known p hp e he
      · rw [List.mem_singleton.mp hp] at he
        simp only [State.pushed, List.mem_cons, List.mem_map, List.mem_filter, Bool.and_eq_true,
          decide_eq_true_eq] at he
        rcases he with rfl | ⟨o, ⟨ho, _, hv⟩, rfl⟩
        · exact hk
        · exact hks o ho hv
  | @eliminate s F idx _ hk hne ih =>
    obtain ⟨T, hT⟩ := ih
    obtain ⟨h0, i, h1, h2⟩ := hk
    have himp : ∀ (v : Nat), (s.markEliminated idx).imports[v]? =
        if v = (s.exportLiteral (2 * idx)).natAbs
        then some { i with lit := s.eliminated.length, eliminated := true }
        else s.imports[v]? := by
      intro v
      simp only [State.markEliminated, List.getElem?_modify]
      by_cases hv : v = (s.exportLiteral (2 * idx)).natAbs
      · subst hv; simp [h1]
      · have : ¬ (s.exportLiteral (2 * idx)).natAbs = v := fun hh => hv hh.symm
        simp [hv, this]
    refine ⟨T, ⟨hT.stack, hT.reduces, hT.etrail, hT.extended, ?_, ⟨?_, ?_⟩, ?_⟩⟩
    · intro x hx
      simp only [State.markEliminated, List.mem_append, List.mem_singleton] at hx
      rcases hx with hx | hx
      · exact hT.zero x hx
      · exact hx
    · intro v j hj he
      rw [himp] at hj
      simp only [State.markEliminated, List.length_append, List.length_singleton]
      split at hj
      · cases hj; simp
      · have := hT.wf.bound v j hj he
        omega
    · intro v j v' j' hj hj' he he' hl
      rw [himp] at hj hj'
      split at hj <;> split at hj'
      · simp_all
      · cases hj
        have := hT.wf.bound v' j' hj' he'
        simp only at hl
        omega
      · cases hj'
        have := hT.wf.bound v j hj he
        simp only at hl
        omega
      · exact hT.wf.inj v j v' j' hj hj' he he' hl
    · intro p hp e he
      obtain ⟨g0, j, g1, g2⟩ := hT.known p hp e he
      refine ⟨g0, ?_⟩
      rw [himp]
      split
      · exact ⟨_, rfl, h2⟩
      · exact ⟨j, g1, g2⟩

theorem Built.good {F₀ F : Formula} {s : State} {T : List (Int × List Int)} (h : Built F₀ s F T)
    (hc : s.Complete) : ∀ p ∈ T, GoodWitness s p.1 ∧ ∀ e ∈ p.2, Good s e := by
  intro p hp
  constructor
  · obtain ⟨h0, i, h1, h2⟩ := h.known p hp p.1 (by simp)
    have := hc ⟨p.1, true⟩ (by
      rw [h.stack]; exact List.mem_flatMap.mpr ⟨p, hp, by simp [entry]⟩) i h1
    exact ⟨h0, i, h1, h2, by simpa using this⟩
  · intro e he
    obtain ⟨h0, i, h1, h2⟩ := h.known p hp e (by simp [he])
    have := hc ⟨e, false⟩ (by
      rw [h.stack]; exact List.mem_flatMap.mpr ⟨p, hp, by simp [entry, he]⟩) i h1
    refine ⟨h0, i, h1, h2, fun hf => ?_⟩
    rcases this with h | h
    · rw [hf] at h; cases h
    · exact h.2

/-! ## Values -/

/-- The answer given in a state for a literal. -/
def State.answer (s : State) (e : Int) : Int :=
  if s.litVal e = 0 then 0 else if s.litVal e < 0 then - e else e

/-- Values can be looked up. -/
def Readable (s : State) : Prop :=
  ∀ (v : Nat) (i : Import), s.imports[v]? = some i → i.eliminated = true →
    i.lit < s.eliminated.length

theorem lookup_some {s : State} (h : Readable s) {v : Nat} {i : Import}
    (hi : s.imports[v]? = some i) : ∃ x, s.lookup i = some x := by
  unfold State.lookup
  cases he : i.eliminated with
  | true => exact ⟨_, by rw [if_pos rfl]; exact List.getElem?_eq_getElem (h v i hi he)⟩
  | false => exact ⟨_, rfl⟩

theorem answer_eq {s : State} {e : Int} {i : Import} (hi : s.imports[e.natAbs]? = some i)
    (him : i.imported = true) {x : Int} (hx : s.lookup i = some x) :
    s.answer e = if x = 0 then 0 else if (if e < 0 then - x else x) < 0 then - e else e := by
  have : s.val e.natAbs = x := by simp [State.val, hi, him, hx]
  unfold State.answer State.litVal
  rw [this]
  by_cases h0 : x = 0
  · simp [h0]
  · have h1 : -x ≠ 0 := by omega
    by_cases he : e < 0
    · simp [he, h0]
    · simp [he, h0]

/-- A query that does not trigger extension. -/
theorem value_plain {s : State} (h : Readable s) {e : Int}
    (hplain : ∀ i, s.imports[e.natAbs]? = some i → i.imported = true →
      ¬ (i.eliminated = true ∧ s.extended = false ∧ s.extend ≠ [])) :
    s.value e = some (s.answer e, s) := by
  unfold State.value
  cases hi : s.imports[e.natAbs]? with
  | none =>
    have : s.answer e = 0 := by simp [State.answer, State.litVal, State.val, hi]
    simp [this]
  | some i =>
    simp only
    cases him : i.imported with
    | false =>
      have : s.answer e = 0 := by simp [State.answer, State.litVal, State.val, hi, him]
      simp [this]
    | true =>
      obtain ⟨x, hx⟩ := lookup_some h hi
      rw [if_neg (hplain i hi him), answer_eq hi him hx]
      simp only [Bool.not_true, Bool.false_eq_true, if_false, hx]
      by_cases h0 : x = 0
      · simp [h0]
      · simp [h0]

/-- A query that triggers extension. -/
theorem value_extend {s s' : State} (h : Readable s') {e : Int} {i : Import}
    (hi : s.imports[e.natAbs]? = some i) (him : i.imported = true)
    (hel : i.eliminated = true ∧ s.extended = false ∧ s.extend ≠ [])
    (hx : s.extendModel = some s') (himp : s'.imports = s.imports) :
    s.value e = some (s'.answer e, s') := by
  have hi' : s'.imports[e.natAbs]? = some i := by rw [himp]; exact hi
  obtain ⟨x, hx'⟩ := lookup_some h hi'
  unfold State.value
  rw [hi]
  simp only [him, Bool.not_true, Bool.false_eq_true, if_false]
  rw [if_pos hel, hx]
  simp only [hx']
  rw [answer_eq hi' him hx']
  by_cases h0 : x = 0
  · simp [h0]
  · simp [h0]

theorem answers_plain {s : State} (h : Readable s) (hs : s.extended = true ∨ s.extend = [])
    (es : List Int) : s.answers es = some (es.map s.answer) := by
  induction es with
  | nil => rfl
  | cons e es ih =>
    have : s.value e = some (s.answer e, s) := value_plain h fun i _ _ hh => by
      rcases hs with h | h
      · rw [h] at hh; exact absurd hh.2.1 (by simp)
      · exact hh.2.2 h
    simp [State.answers, this, ih]

theorem answers_spec {s s' : State} (h : Readable s) (hx : s.extended = false)
    (hex : s.extendModel = some s') (hsame : Same { s with extended := true } s')
    (es : List Int) :
    s.answers es = some (es.map (if s.extend = [] then s.answer else s'.answer)) := by
  by_cases hemp : s.extend = []
  · rw [if_pos hemp]
    exact answers_plain h (Or.inr hemp) es
  rw [if_neg hemp]
  have h' : Readable s' := by
    intro v i hi he
    rw [hsame.imports] at hi
    rw [hsame.length]
    exact h v i hi he
  induction es with
  | nil => rfl
  | cons e es ih =>
    by_cases hel : ∃ i, s.imports[e.natAbs]? = some i ∧ i.imported = true ∧ i.eliminated = true
    · obtain ⟨i, h1, h2, h3⟩ := hel
      have := value_extend h' h1 h2 ⟨h3, hx, hemp⟩ hex hsame.imports
      simp [State.answers, this, answers_plain h' (Or.inl hsame.extended) es]
    · have hv : s.value e = some (s.answer e, s) :=
        value_plain h fun i h1 h2 h3 => hel ⟨i, h1, h2, h3.1⟩
      have : s.answer e = s'.answer e := by
        unfold State.answer State.litVal
        have : s'.val e.natAbs = s.val e.natAbs := by
          unfold State.val
          rw [hsame.imports]
          simp only
          cases hi : s.imports[e.natAbs]? with
          | none => rfl
          | some i =>
            simp only
            cases him : i.imported with
            | false => rfl
            | true =>
              have : i.eliminated = false := by
                cases hie : i.eliminated with
                | false => rfl
                | true => exact absurd ⟨i, hi, him, hie⟩ hel
              simp [State.lookup, this, hsame.values]
        rw [this]
      simp [State.answers, hv, ih, this]

end Verif.Model.Extend
