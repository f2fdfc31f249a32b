import Verif.Model.Simp.Forward
import Verif.Proofs.Simp.Same

/-!
# Forward subsumption keeps the invariant and the models
-/

namespace Verif.Simp

open Verif.Spec Verif.Model Verif.Model.Extend

/-! ## Duplicated binary clauses -/

/-- A live irredundant binary clause with the two literals. -/
def State.Bin (s : State) (a b k : Nat) : Prop :=
  (s.clause k).garbage = false ∧ (s.clause k).redundant = false ∧ (s.clause k).lits.length = 2 ∧
    a ∈ (s.clause k).lits ∧ b ∈ (s.clause k).lits ∧ b ≠ a

theorem State.Bin.iff {s : State} {a b k : Nat} (h : s.Bin a b k) {m : Nat} :
    m ∈ (s.clause k).lits ↔ m = a ∨ m = b := by
  obtain ⟨_, _, h3, h4, h5, h6⟩ := h
  constructor
  · exact binary_lits h3 h4 h5 h6
  · rintro (rfl | rfl) <;> assumption

/-- A unit which follows. -/
def State.Unit (s : State) (u : Nat) : Prop :=
  s.InRange u ∧ s.removed (u / 2) = false ∧ RUP s.irr [u]

theorem Unit.keep {s s' : State} {u : Nat} (h : s.Unit u) (he : s'.exports = s.exports)
    (hr : s'.removed = s.removed) (hk : ∀ c, s.irr c → ∃ d, s'.irr d ∧ SameLits c d) : s'.Unit u := by
  refine ⟨?_, by rw [hr]; exact h.2.1, RUP.mono hk (fun _ h => h) h.2.2⟩
  unfold State.InRange
  rw [he]
  exact h.1

/-- Deleting one of two copies. -/
theorem keep_copy {s : State} {a b r k : Nat} (hr : s.Bin a b r) (hk : s.Bin a b k) (hne : k ≠ r)
    {c : List Nat} (hc : s.irr c) : ∃ d, (s.markGarbage r).irr d ∧ SameLits c d := by
  rcases irr_or_garbage (clause_lt hr.1) hc with h | rfl
  · exact ⟨c, h, .refl _⟩
  · exact ⟨_, (irr_garbage (clause_lt hr.1)).2 (Or.inr ⟨k, hne, hk.1, hk.2.1, rfl⟩),
      fun m => by rw [hr.iff, hk.iff]⟩

theorem step_copy {orig : List (List Nat)} {s : State} (h : Inv orig none s) {a b r k : Nat}
    (hr : s.Bin a b r) (hk : s.Bin a b k) (hne : k ≠ r) : Step orig s (s.markGarbage r) := by
  refine .garbage h hr.1 (Or.inr fun σ hσ => ?_)
  have := hσ _ ((irr_garbage (clause_lt hr.1)).2 (Or.inr ⟨k, hne, hk.1, hk.2.1, rfl⟩))
  exact (satClause_same fun m => by rw [hr.iff, hk.iff]).1 this

/-- What survives while duplicates are deleted. -/
structure Quiet (s s' : State) : Prop where
  values : s'.values = s.values
  exports : s'.exports = s.exports
  removed : s'.removed = s.removed
  inconsistent : s'.inconsistent = s.inconsistent

theorem Quiet.refl (s : State) : Quiet s s := ⟨rfl, rfl, rfl, rfl⟩

theorem Quiet.trans {a b c : State} (h : Quiet a b) (h' : Quiet b c) : Quiet a c :=
  ⟨h'.values.trans h.values, h'.exports.trans h.exports, h'.removed.trans h.removed,
    h'.inconsistent.trans h.inconsistent⟩

theorem quiet_garbage (s : State) (r : Nat) : Quiet s (s.markGarbage r) := ⟨rfl, rfl, rfl, rfl⟩

theorem step_duplicatesOf {orig : List (List Nat)} (elig : Nat → Bool) {lit : Nat} :
    ∀ (rs marks delayed : List Nat) {s : State}, Inv orig none s → rs.Nodup →
    (∀ r ∈ rs, (s.clause r).garbage = false ∧ (s.clause r).redundant = false ∧ lit ∈ (s.clause r).lits) →
    (∀ o ∈ marks, ∃ k, k ∉ rs ∧ s.Bin lit o k) → (∀ u ∈ delayed, s.Unit u) →
    Step orig s (s.duplicatesOf elig lit rs marks delayed).1 ∧
      Quiet s (s.duplicatesOf elig lit rs marks delayed).1 ∧
      ∀ u ∈ (s.duplicatesOf elig lit rs marks delayed).2,
        (s.duplicatesOf elig lit rs marks delayed).1.Unit u
  | [], marks, delayed, s, h, _, _, _, hd => ⟨.refl h, .refl _, hd⟩
  | r :: rs, marks, delayed, s, h, hn, hr, hm, hd => by
    rw [List.nodup_cons] at hn
    have hr' : ∀ k ∈ rs, (s.clause k).garbage = false ∧ (s.clause k).redundant = false ∧
        lit ∈ (s.clause k).lits := fun k hk => hr k (List.mem_cons_of_mem _ hk)
    have hm' : ∀ o ∈ marks, ∃ k, k ∉ rs ∧ s.Bin lit o k := fun o ho => by
      obtain ⟨k, h1, h2⟩ := hm o ho
      exact ⟨k, fun h => h1 (List.mem_cons_of_mem _ h), h2⟩
    unfold State.duplicatesOf
    cases hb : s.binaryOther lit r with
    | none => exact step_duplicatesOf elig rs marks delayed h hn.2 hr' hm' hd
    | some other =>
      obtain ⟨b1, b2, b3⟩ := binaryOther_some hb
      obtain ⟨r1, r2, r3⟩ := hr r (by simp)
      have hbin : s.Bin lit other r := ⟨r1, r2, b1, r3, b2, b3⟩
      dsimp only
      by_cases h1 : (!(s.activeLit other && elig (other / 2))) = true
      · rw [if_pos h1]
        exact step_duplicatesOf elig rs marks delayed h hn.2 hr' hm' hd
      · rw [if_neg h1]
        by_cases h2 : marks.contains other = true
        · rw [if_pos h2]
          by_cases h3 : lit < other
          · rw [if_pos h3]
            obtain ⟨k, k1, k2⟩ := hm other (by simpa using h2)
            have hne : k ≠ r := fun e => k1 (by rw [e]; exact List.mem_cons_self)
            have st := step_copy h hbin k2 hne
            have hc : ∀ j, j ≠ r → (s.markGarbage r).clause j = s.clause j := fun j hj => by
              rw [clause_garbage (clause_lt r1), if_neg hj]
            obtain ⟨i1, i2, i3⟩ := step_duplicatesOf elig (lit := lit) rs marks delayed st.inv hn.2
              (fun j hj => by
                rw [hc j (fun e => hn.1 (e ▸ hj))]; exact hr' j hj)
              (fun o ho => by
                obtain ⟨k, k1, k2⟩ := hm o ho
                refine ⟨k, fun h => k1 (List.mem_cons_of_mem _ h), ?_⟩
                unfold State.Bin
                rw [hc k (fun e => k1 (by rw [e]; exact List.mem_cons_self))]
                exact k2)
              (fun u hu => Unit.keep (hd u hu) rfl rfl fun c hc => keep_copy hbin k2 hne hc)
            exact ⟨st.trans i1, (quiet_garbage s r).trans i2, i3⟩
          · rw [if_neg h3]
            exact step_duplicatesOf elig rs marks delayed h hn.2 hr' hm' hd
        · rw [if_neg h2]
          have hm2 : ∀ o ∈ other :: marks, ∃ k, k ∉ rs ∧ s.Bin lit o k := fun o ho => by
            rcases List.mem_cons.1 ho with rfl | ho
            · exact ⟨r, hn.1, hbin⟩
            · exact hm' o ho
          by_cases h3 : marks.contains (Spec.neg other) = true
          · rw [if_pos h3]
            refine step_duplicatesOf elig rs _ _ h hn.2 hr' hm2 fun u hu => ?_
            rcases List.mem_append.1 hu with hu | hu
            · exact hd u hu
            · rw [List.mem_singleton.1 hu]
              obtain ⟨k, _, k2⟩ := hm (Spec.neg other) (by simpa using h3)
              refine ⟨h.struct.clause r r1 _ r3, h.struct.removed r r1 r2 _ r3, ?_⟩
              refine rup_resolvent (x := other) (clause_irr r1 r2) (clause_irr k2.1 k2.2.1) b2
                (fun m hm hne => ?_) (fun m hm hne => ?_)
              · rcases hbin.iff.1 hm with rfl | rfl
                · simp
                · exact absurd rfl hne
              · rcases k2.iff.1 hm with rfl | rfl
                · simp
                · exact absurd rfl hne
          · rw [if_neg h3]
            exact step_duplicatesOf elig rs _ _ h hn.2 hr' hm2 hd

theorem nodup_occurrences (s : State) (l : Nat) : (s.occurrences l).Nodup :=
  List.Nodup.sublist List.filter_sublist List.nodup_range

theorem step_duplicatesAll {orig : List (List Nat)} (elig : Nat → Bool) :
    ∀ (lits delayed : List Nat) {s : State}, Inv orig none s → (∀ u ∈ delayed, s.Unit u) →
    Step orig s (s.duplicatesAll elig lits delayed).1 ∧
      Quiet s (s.duplicatesAll elig lits delayed).1 ∧
      ∀ u ∈ (s.duplicatesAll elig lits delayed).2, (s.duplicatesAll elig lits delayed).1.Unit u
  | [], delayed, s, h, hd => ⟨.refl h, .refl _, hd⟩
  | lit :: lits, delayed, s, h, hd => by
    unfold State.duplicatesAll
    split
    · obtain ⟨i1, i2, i3⟩ := step_duplicatesOf elig (s.occurrences lit) [] delayed h
        (nodup_occurrences s lit) (fun r hr => mem_occurrences.1 hr) (fun o ho => (by cases ho)) hd
      cases hp : s.duplicatesOf elig lit (s.occurrences lit) [] delayed with
      | mk s' d' =>
        rw [hp] at i1 i2 i3
        dsimp only at i1 i2 i3 ⊢
        obtain ⟨j1, j2, j3⟩ := step_duplicatesAll elig lits d' i1.inv i3
        exact ⟨i1.trans j1, i2.trans j2, j3⟩
    · exact step_duplicatesAll elig lits delayed h hd

theorem step_delayedUnits {orig : List (List Nat)} :
    ∀ (us : List Nat) {s : State}, Inv orig none s → (∀ u ∈ us, s.Unit u) →
    Step orig s (s.delayedUnits us)
  | [], s, h, _ => .refl h
  | u :: us, s, h, hu => by
    have hu' : ∀ u ∈ us, s.Unit u := fun k hk => hu k (List.mem_cons_of_mem _ hk)
    obtain ⟨u1, u2, u3⟩ := hu u (by simp)
    unfold State.delayedUnits
    split
    · exact step_delayedUnits us h hu'
    · split
      · rename_i h1 h2
        exact .empty h (rup_empty u3 (h.struct.neg_irr h2))
      · have st := Step.unit h (by omega) u1 u2 u3
        exact st.trans (step_delayedUnits us st.inv fun k hk =>
          Unit.keep (hu' k hk) rfl rfl fun c hc => ⟨c, irr_learnedUnit.2 (Or.inr hc), .refl _⟩)

theorem step_removeDuplicates {orig : List (List Nat)} {s : State} (h : Inv orig none s)
    (elig : Nat → Bool) (conn : Nat → Nat → Bool) : Step orig s (s.removeDuplicates elig conn) := by
  unfold State.removeDuplicates
  obtain ⟨i1, i2, i3⟩ := step_duplicatesAll elig (List.range (2 * s.exports.length)) [] h
    (fun u hu => (by cases hu))
  cases hp : s.duplicatesAll elig (List.range (2 * s.exports.length)) [] with
  | mk s' us =>
    rw [hp] at i1 i2 i3
    dsimp only at i1 i2 i3
    cases us with
    | nil => exact i1
    | cons u us =>
      have st := step_delayedUnits (u :: us) i1.inv i3
      dsimp only
      split
      · exact i1.trans st
      · exact (i1.trans st).trans (.flush st.inv conn)

/-! ## Subsumption -/

theorem match_spec (s : State) (marks : List Nat) : ∀ (c : List Nat) (cand : Option Nat),
    (s.match marks c cand = .satisfied → ∃ o ∈ c, 0 < s.values o) ∧
    (s.match marks c cand = .subsuming → cand = none ∧ ∀ o ∈ c, o ∈ marks ∨ s.values o < 0) ∧
    (∀ x, s.match marks c cand = .strengthener x →
      ((cand = some x ∧ ∀ o ∈ c, o ∈ marks ∨ s.values o < 0) ∨
      (cand = none ∧ x ∈ marks ∧ Spec.neg x ∈ c ∧
        ∀ o ∈ c, o ≠ Spec.neg x → o ∈ marks ∨ s.values o < 0)))
  | [], none => by
    unfold State.match
    exact ⟨fun h => (by cases h), fun _ => ⟨rfl, fun o ho => (by cases ho)⟩, fun x h => (by cases h)⟩
  | [], some y => by
    unfold State.match
    refine ⟨fun h => (by cases h), fun h => (by cases h), fun x h => Or.inl ⟨?_, fun o ho => (by cases ho)⟩⟩
    injection h with h
    rw [h]
  | other :: rest, cand => by
    obtain ⟨i1, i2, i3⟩ := match_spec s marks rest cand
    have easy : (other ∈ marks ∨ s.values other < 0) →
      (s.match marks rest cand = .satisfied → ∃ o ∈ other :: rest, 0 < s.values o) ∧
      (s.match marks rest cand = .subsuming → cand = none ∧ ∀ o ∈ other :: rest, o ∈ marks ∨ s.values o < 0) ∧
      (∀ x, s.match marks rest cand = .strengthener x →
        ((cand = some x ∧ ∀ o ∈ other :: rest, o ∈ marks ∨ s.values o < 0) ∨
        (cand = none ∧ x ∈ marks ∧ Spec.neg x ∈ other :: rest ∧
          ∀ o ∈ other :: rest, o ≠ Spec.neg x → o ∈ marks ∨ s.values o < 0))) := by
      intro ho
      refine ⟨fun e => ?_, fun e => ?_, fun x e => ?_⟩
      · obtain ⟨o, o1, o2⟩ := i1 e
        exact ⟨o, List.mem_cons_of_mem _ o1, o2⟩
      · refine ⟨(i2 e).1, fun o hm => ?_⟩
        rcases List.mem_cons.1 hm with rfl | hm
        · exact ho
        · exact (i2 e).2 o hm
      · rcases i3 x e with ⟨a, b⟩ | ⟨a, b, c, d⟩
        · refine Or.inl ⟨a, fun o hm => ?_⟩
          rcases List.mem_cons.1 hm with rfl | hm
          · exact ho
          · exact b o hm
        · refine Or.inr ⟨a, b, List.mem_cons_of_mem _ c, fun o hm hne => ?_⟩
          rcases List.mem_cons.1 hm with rfl | hm
          · exact ho
          · exact d o hm hne
    unfold State.match
    by_cases h1 : marks.contains other = true
    · rw [if_pos h1]
      exact easy (Or.inl (by simpa using h1))
    · rw [if_neg h1]
      by_cases h2 : s.values other < 0
      · rw [if_pos h2]
        exact easy (Or.inr h2)
      · rw [if_neg h2]
        by_cases h3 : s.values other > 0
        · rw [if_pos h3]
          exact ⟨fun _ => ⟨other, by simp, h3⟩, fun h => (by cases h), fun x h => (by cases h)⟩
        · rw [if_neg h3]
          cases cand with
          | some y => exact ⟨fun h => (by cases h), fun h => (by cases h), fun x h => (by cases h)⟩
          | none =>
            dsimp only
            by_cases h4 : marks.contains (Spec.neg other) = true
            · rw [if_pos h4]
              obtain ⟨j1, j2, j3⟩ := match_spec s marks rest (some (Spec.neg other))
              refine ⟨fun e => ?_, fun e => ?_, fun x e => ?_⟩
              · obtain ⟨o, o1, o2⟩ := j1 e
                exact ⟨o, List.mem_cons_of_mem _ o1, o2⟩
              · cases (j2 e).1
              · rcases j3 x e with ⟨a, b⟩ | ⟨a, _⟩
                · injection a with a
                  subst a
                  refine Or.inr ⟨rfl, by simpa using h4, by simp, fun o hm hne => ?_⟩
                  rcases List.mem_cons.1 hm with rfl | hm
                  · exact absurd (neg_neg _).symm hne
                  · exact b o hm
                · cases a
            · rw [if_neg h4]
              exact ⟨fun h => (by cases h), fun h => (by cases h), fun x h => (by cases h)⟩

/-- A clause which subsumes the marked one. -/
def State.Subsumes (s : State) (c : Nat) (marks : List Nat) : Prop :=
  ∃ d, d ≠ c ∧ (s.clause d).garbage = false ∧ (s.clause d).redundant = false ∧
    ∀ m ∈ (s.clause d).lits, m ∈ marks ∨ s.values m < 0

/-- A clause which strengthens the marked one. -/
def State.Removes (s : State) (c : Nat) (marks : List Nat) (x : Nat) : Prop :=
  x ∈ marks ∧ ∃ d, d ≠ c ∧ (s.clause d).garbage = false ∧ (s.clause d).redundant = false ∧
    Spec.neg x ∈ (s.clause d).lits ∧ ∀ m ∈ (s.clause d).lits, m ≠ Spec.neg x → m ∈ marks ∨ s.values m < 0

/-- What is known of the result. -/
structure Outcome (orig : List (List Nat)) (s : State) (c : Nat) (marks : List Nat)
    (o : State × Bool × Option Nat) : Prop where
  step : Step orig s o.1
  quiet : Quiet s o.1
  clause : o.1.clause c = s.clause c
  subsumes : o.2.1 = true → o.1.Subsumes c marks
  removes : ∀ x ∈ o.2.2, o.1.Removes c marks x

theorem Removes.garbage {orig : List (List Nat)} {s : State} (h : Inv orig none s) {c r o x : Nat}
    {marks : List Nat} (hM : ∀ m ∈ marks, s.values m = 0) (hg : (s.clause r).garbage = false)
    (ho : o ∈ (s.clause r).lits) (hv : 0 < s.values o) (hx : s.Removes c marks x) :
    (s.markGarbage r).Removes c marks x := by
  obtain ⟨x1, d, d1, d2, d3, d4, d5⟩ := hx
  have hne : d ≠ r := by
    rintro rfl
    by_cases e : o = Spec.neg x
    · rw [e, h.struct.neg, hM x x1] at hv
      omega
    · rcases d5 o ho e with h1 | h1
      · rw [hM o h1] at hv; omega
      · omega
  refine ⟨x1, d, d1, ?_⟩
  rw [clause_garbage (clause_lt hg), if_neg hne]
  exact ⟨d2, d3, d4, d5⟩

theorem outcome_literal {orig : List (List Nat)} {c lit : Nat} {marks : List Nat} {binaries : Bool}
    (hl : binaries = true → lit ∈ marks) :
    ∀ (rs : List Nat) (remove : Option Nat) {s : State}, Inv orig none s →
    (∀ m ∈ marks, s.values m = 0) →
    (∀ r ∈ rs, r ≠ c ∧ (s.clause r).garbage = false ∧ (s.clause r).redundant = false ∧
      lit ∈ (s.clause r).lits) → (∀ x ∈ remove, s.Removes c marks x) →
    Outcome orig s c marks (s.forwardLiteral marks lit binaries rs remove)
  | [], remove, s, h, _, _, hx => ⟨.refl h, .refl _, rfl, fun e => (by cases e), hx⟩
  | r :: rs, remove, s, h, hM, hr, hx => by
    have hr' : ∀ k ∈ rs, k ≠ c ∧ (s.clause k).garbage = false ∧ (s.clause k).redundant = false ∧
      lit ∈ (s.clause k).lits := fun k hk => hr k (List.mem_cons_of_mem _ hk)
    obtain ⟨r0, r1, r2, r3⟩ := hr r (by simp)
    unfold State.forwardLiteral
    cases hb : s.binaryOther lit r with
    | some other =>
      obtain ⟨b1, b2, b3⟩ := binaryOther_some hb
      have hbin : s.Bin lit other r := ⟨r1, r2, b1, r3, b2, b3⟩
      dsimp only
      cases binaries with
      | false =>
        rw [if_pos (by rfl)]
        exact outcome_literal hl rs remove h hM hr' hx
      | true =>
        rw [if_neg (by simp)]
        by_cases h2 : marks.contains other = true
        · rw [if_pos h2]
          refine ⟨.refl h, .refl _, rfl, fun _ => ⟨r, r0, r1, r2, fun m hm => Or.inl ?_⟩, hx⟩
          rcases hbin.iff.1 hm with rfl | rfl
          · exact hl rfl
          · simpa using h2
        · rw [if_neg h2]
          by_cases h3 : marks.contains (Spec.neg other) = true
          · rw [if_pos h3]
            refine ⟨.refl h, .refl _, rfl, fun e => (by cases e), fun x hx => ?_⟩
            have hx : Spec.neg other = x := by simpa using hx
            subst hx
            refine ⟨by simpa using h3, r, r0, r1, r2, by rw [neg_neg]; exact b2, fun m hm hne => Or.inl ?_⟩
            rcases hbin.iff.1 hm with rfl | rfl
            · exact hl rfl
            · exact absurd (neg_neg _).symm hne
          · rw [if_neg h3]
            exact outcome_literal hl rs remove h hM hr' hx
    | none =>
      obtain ⟨c1, c2, c3⟩ := match_spec s marks (s.clause r).lits none
      dsimp only
      cases hs : s.match marks (s.clause r).lits none with
      | satisfied =>
        obtain ⟨o, o1, o2⟩ := c1 hs
        exact ⟨.satisfied h r1 o1 o2, quiet_garbage s r, by
          rw [clause_garbage (clause_lt r1), if_neg (Ne.symm r0)], fun e => (by cases e),
          fun x hx' => Removes.garbage h hM r1 o1 o2 (hx x hx')⟩
      | subsuming =>
        exact ⟨.refl h, .refl _, rfl, fun _ => ⟨r, r0, r1, r2, (c2 hs).2⟩, hx⟩
      | strengthener x =>
        refine outcome_literal hl rs _ h hM hr' fun y hy => ?_
        have hy : x = y := by simpa using hy
        subst hy
        rcases c3 x hs with ⟨a, _⟩ | ⟨_, a, b, d⟩
        · cases a
        · exact ⟨a, r, r0, r1, r2, b, d⟩
      | nothing => exact outcome_literal hl rs remove h hM hr' hx

theorem mem_connectedTo {s : State} {watches : Nat → List Nat} {c l r : Nat}
    (h : r ∈ s.connectedTo watches c l) : r ≠ c ∧ (s.clause r).garbage = false ∧
      (s.clause r).redundant = false ∧ l ∈ (s.clause r).lits := by
  obtain ⟨_, h⟩ := List.mem_filter.1 h
  simp only [Bool.and_eq_true, List.contains_iff_mem, decide_eq_true_eq] at h
  exact ⟨h.2, mem_occurrences.1 h.1⟩

theorem outcome_marked {orig : List (List Nat)} {c : Nat} {marks : List Nat}
    (watches : Nat → List Nat) :
    ∀ (lits : List Nat) (remove : Option Nat) {s : State}, Inv orig none s →
    (∀ m ∈ marks, s.values m = 0) → (∀ l ∈ lits, s.values l = 0 → l ∈ marks) →
    (∀ x ∈ remove, s.Removes c marks x) →
    Outcome orig s c marks (s.forwardMarked watches c marks lits remove)
  | [], remove, s, h, _, _, hx => ⟨.refl h, .refl _, rfl, fun e => (by cases e), hx⟩
  | lit :: lits, remove, s, h, hM, hl, hx => by
    have hl' : ∀ l ∈ lits, s.values l = 0 → l ∈ marks := fun l h => hl l (List.mem_cons_of_mem _ h)
    unfold State.forwardMarked
    by_cases ha : (!s.activeLit lit) = true
    · rw [if_pos ha]
      exact outcome_marked watches lits remove h hM hl' hx
    · rw [if_neg ha]
      have hv : s.values lit = 0 := by
        unfold State.activeLit at ha
        simp at ha
        exact ha.1
      have o1 := outcome_literal (binaries := true) (fun _ => hl lit (by simp) hv)
        (s.connectedTo watches c lit) remove h hM (fun r hr => mem_connectedTo hr) hx
      cases hp : s.forwardLiteral marks lit true (s.connectedTo watches c lit) remove with
      | mk s1 q =>
        obtain ⟨b, rem1⟩ := q
        rw [hp] at o1
        obtain ⟨p1, p2, p3, p4, p5⟩ := o1
        dsimp only at p1 p2 p3 p4 p5
        cases b with
        | true => exact ⟨p1, p2, p3, p4, p5⟩
        | false =>
          dsimp only
          have hM1 : ∀ m ∈ marks, s1.values m = 0 := by rw [p2.values]; exact hM
          have o2 := outcome_literal (binaries := false) (marks := marks) (lit := Spec.neg lit)
            (fun e => (by cases e))
            (s1.connectedTo watches c (Spec.neg lit)) rem1 p1.inv hM1 (fun r hr => mem_connectedTo hr) p5
          cases hp2 : s1.forwardLiteral marks (Spec.neg lit) false
              (s1.connectedTo watches c (Spec.neg lit)) rem1 with
          | mk s2 q =>
            obtain ⟨b, rem2⟩ := q
            rw [hp2] at o2
            obtain ⟨q1, q2, q3, q4, q5⟩ := o2
            dsimp only at q1 q2 q3 q4 q5
            cases b with
            | true => exact ⟨p1.trans q1, p2.trans q2, q3.trans p3, q4, q5⟩
            | false =>
              dsimp only
              have qv := (p2.trans q2).values
              obtain ⟨k1, k2, k3, k4, k5⟩ := outcome_marked (c := c) (marks := marks) watches lits rem2 q1.inv
                (by rw [qv]; exact hM) (by rw [qv]; exact hl') q5
              exact ⟨(p1.trans q1).trans k1, (p2.trans q2).trans k2, k3.trans (q3.trans p3), k4, k5⟩

/-- Replacing a clause by a part of it which follows. -/
theorem step_replace {orig : List (List Nat)} {s : State} (h : Inv orig none s) {c : Nat} {d : List Nat}
    (hg : (s.clause c).garbage = false) (hr : (s.clause c).redundant = false)
    (hd : d.Sublist (s.clause c).lits) (hsz : 2 ≤ d.length) (hrup : RUP s.irr d) :
    Step orig s ((s.newClause d false).markGarbage c) := by
  have hsub : ∀ l ∈ d, l ∈ (s.clause c).lits := fun l hl => hd.subset hl
  have st := Step.new (red := false) h (fun l hl => h.struct.clause c hg l (hsub l hl))
    ((h.struct.nodup c hg).sublist hd)
    (fun l hl hn => h.struct.taut c hg l (hsub l hl) (hsub _ hn)) hsz
    (fun l hl => h.struct.removed c hg hr l (hsub l hl)) hrup
  have hlt := clause_lt hg
  have hc : (s.newClause d false).clause c = s.clause c := by
    rw [clause_new, if_neg (by omega)]
  refine st.trans (.garbage st.inv (by rw [hc]; exact hg) (Or.inr fun σ hσ => ?_))
  rw [hc]
  refine SatClause.mono hsub (hσ d ?_)
  refine (irr_garbage (clause_lt (by rw [hc]; exact hg))).2 (Or.inr ⟨s.arena.length, by omega, ?_⟩)
  rw [clause_new, if_pos rfl]
  exact ⟨rfl, rfl, rfl⟩

/-- Replacing a clause by a unit. -/
theorem step_replaceUnit {orig : List (List Nat)} {s : State} (h : Inv orig none s) {c u : Nat}
    (conn : Nat → Nat → Bool) (hg : (s.clause c).garbage = false) (hr : (s.clause c).redundant = false)
    (hu : u ∈ (s.clause c).lits) (hv : s.values u = 0) (hrup : RUP s.irr [u]) :
    Step orig s (((s.learnedUnit u).markGarbage c).flushUnitsWhileConnected conn) := by
  have st := Step.unit h hv (h.struct.clause c hg u hu) (h.struct.removed c hg hr u hu) hrup
  have st2 := Step.satisfied st.inv (r := c) (o := u) hg hu (by rw [values_learned, if_pos rfl]; omega)
  exact (st.trans st2).trans (.flush st2.inv conn)

theorem step_forwardSubsumed {orig : List (List Nat)} {s : State} (h : Inv orig none s) {c : Nat}
    (watches : Nat → List Nat) (conn : Nat → Nat → Bool) (hg : (s.clause c).garbage = false)
    (hr : (s.clause c).redundant = false) : Step orig s (s.forwardSubsumed watches conn c) := by
  unfold State.forwardSubsumed
  dsimp only
  by_cases hs : ((s.clause c).lits.any fun l => decide (s.values l > 0)) = true
  · rw [if_pos hs]
    obtain ⟨l, hl, hv⟩ := List.any_eq_true.1 hs
    exact .satisfied h hg hl (by simpa using hv)
  · rw [if_neg hs]
    have hns : ∀ l ∈ (s.clause c).lits, ¬ 0 < s.values l := fun l hl hv =>
      hs (List.any_eq_true.2 ⟨l, hl, by simpa using hv⟩)
    generalize hm : ((s.clause c).lits.filter fun l => decide (¬ s.values l < 0)) = marks
    have hsl : marks.Sublist (s.clause c).lits := by rw [← hm]; exact List.filter_sublist
    have hmem : ∀ l, l ∈ marks ↔ l ∈ (s.clause c).lits ∧ s.values l = 0 := by
      intro l
      rw [← hm, List.mem_filter]
      constructor
      · rintro ⟨h1, h2⟩
        have := hns l h1
        have h2 : ¬ s.values l < 0 := by simpa using h2
        exact ⟨h1, by omega⟩
      · rintro ⟨h1, h2⟩
        exact ⟨h1, by simp [h2]⟩
    have hfalse : ∀ l ∈ (s.clause c).lits, l ∈ marks ∨ s.irr [Spec.neg l] := by
      intro l hl
      by_cases e : s.values l = 0
      · exact Or.inl ((hmem l).2 ⟨hl, e⟩)
      · have := hns l hl
        exact Or.inr (h.struct.neg_irr (by omega))
    have hrup : RUP s.irr marks := rup_of (clause_irr hg hr) hfalse
    have hrest : 2 ≤ marks.length → Step orig s
        (match s.forwardMarked watches c marks (s.clause c).lits none with
          | (s, true, _) => s.markGarbage c
          | (s, false, none) => s
          | (s, false, some remove) =>
            match marks.filter (· ≠ remove) with
            | [u] => ((s.learnedUnit u).markGarbage c).flushUnitsWhileConnected conn
            | d => (s.newClause d false).markGarbage c) := by
      intro hlen
      have o := outcome_marked (c := c) (marks := marks) watches (s.clause c).lits none h
        (fun m hm => ((hmem m).1 hm).2) (fun l hl hv => (hmem l).2 ⟨hl, hv⟩) (fun x hx => (by cases hx))
      cases hp : s.forwardMarked watches c marks (s.clause c).lits none with
      | mk s' q =>
        obtain ⟨b, rem⟩ := q
        rw [hp] at o
        obtain ⟨p1, p2, p3, p4, p5⟩ := o
        dsimp only at p1 p2 p3 p4 p5
        have hg' : (s'.clause c).garbage = false := by rw [p3]; exact hg
        have hr' : (s'.clause c).redundant = false := by rw [p3]; exact hr
        cases b with
        | true =>
          dsimp only
          obtain ⟨d, d1, d2, d3, d4⟩ := p4 rfl
          refine p1.trans (.garbage p1.inv hg' (Or.inr ?_))
          have hd : (s'.markGarbage c).irr (s'.clause d).lits :=
            (irr_garbage (clause_lt hg')).2 (Or.inr ⟨d, d1, d2, d3, rfl⟩)
          refine RUP.entails (rup_of hd fun m hm => ?_)
          rcases d4 m hm with h1 | h1
          · rw [p3]; exact Or.inl ((hmem m).1 h1).1
          · refine Or.inr (Or.inl ?_)
            have := p1.inv.struct.neg_irr h1
            refine ⟨Spec.neg m, ?_, rfl⟩
            show Spec.neg m ∈ s'.trail
            rw [p1.inv.struct.trail, p1.inv.struct.neg]; omega
        | false =>
          cases rem with
          | none => exact p1
          | some x =>
            dsimp only
            obtain ⟨x1, d, d1, d2, d3, d4, d5⟩ := p5 x rfl
            have hx := (hmem x).1 x1
            have hrup' : RUP s'.irr (marks.filter (· ≠ x)) := by
              refine rup_resolvent (x := x) (clause_irr hg' hr') (clause_irr d2 d3)
                (by rw [p3]; exact hx.1) (fun m hm hne => ?_) (fun m hm hne => ?_)
              · rw [p3] at hm
                by_cases e : s.values m = 0
                · exact Or.inl (List.mem_filter.2 ⟨(hmem m).2 ⟨hm, e⟩, by simpa using hne⟩)
                · have := hns m hm
                  exact Or.inr (p1.inv.struct.neg_irr (by rw [p2.values]; omega))
              · rcases d5 m hm hne with h1 | h1
                · by_cases e : m = x
                  · exact absurd hm (by
                      rw [e]
                      intro hm
                      exact p1.inv.struct.taut d d2 x hm d4)
                  · exact Or.inl (List.mem_filter.2 ⟨h1, by simpa using e⟩)
                · exact Or.inr (p1.inv.struct.neg_irr h1)
            have hlen' : marks.length ≤ (marks.filter (· ≠ x)).length + 1 := by
              have hnd : marks.Nodup := (h.struct.nodup c hg).sublist hsl
              have e1 := List.length_eq_countP_add_countP (fun l => decide (l ≠ x)) (l := marks)
              rw [← List.countP_eq_length_filter]
              have e2 : marks.countP (fun a => decide ¬ (decide (a ≠ x)) = true) = marks.count x := by
                unfold List.count
                congr 1
                funext a
                by_cases e : a = x <;> simp [e]
              have e3 := (List.nodup_iff_count.1 hnd) x
              omega
            generalize he : marks.filter (· ≠ x) = dd at hrup' hlen'
            have hsl' : dd.Sublist (s'.clause c).lits := by
              rw [p3, ← he]; exact List.filter_sublist.trans hsl
            have hz : ∀ u ∈ dd, s'.values u = 0 := fun u hu => by
              rw [← he] at hu
              rw [p2.values]
              exact ((hmem u).1 (List.mem_filter.1 hu).1).2
            match dd, he, hrup', hlen', hsl', hz with
            | [], _, _, hlen', _, _ => simp at hlen'; omega
            | [u], _, hrup', _, hsl', hz =>
              exact p1.trans (step_replaceUnit p1.inv conn hg' hr' (hsl'.subset (by simp)) (hz u (by simp)) hrup')
            | a :: b :: t, _, hrup', _, hsl', _ =>
              exact p1.trans (step_replace p1.inv hg' hr' hsl' (by simp) hrup')
    match marks, hmem, hrup, hrest with
    | [], _, hrup, _ => exact .empty h hrup
    | [u], hmem, hrup, _ =>
      have := (hmem u).1 (by simp)
      exact step_replaceUnit h conn hg hr this.1 this.2 hrup
    | a :: b :: t, _, _, hrest => exact hrest (by simp)

theorem step_flushCandidates {orig : List (List Nat)} : ∀ (rs : List Nat) {s : State}, Inv orig none s →
    Step orig s (s.flushCandidates rs)
  | [], s, h => .refl h
  | r :: rs, s, h => by
    unfold State.flushCandidates
    split
    · exact step_flushCandidates rs h
    · rename_i hg
      simp only [Bool.or_eq_true, decide_eq_true_eq, not_or] at hg
      split
      · rename_i hs
        obtain ⟨l, hl, hv⟩ := List.any_eq_true.1 hs
        have st := Step.satisfied h (r := r) (by simpa using hg.1.1) hl (by simpa using hv)
        exact st.trans (step_flushCandidates rs st.inv)
      · exact step_flushCandidates rs h

theorem step_forwardLoop {orig : List (List Nat)} :
    ∀ (cs : List (Nat × (Nat → List Nat) × (Nat → Nat → Bool))) {s : State}, Inv orig none s →
    Step orig s (s.forwardLoop cs)
  | [], s, h => .refl h
  | (c, watches, conn) :: cs, s, h => by
    unfold State.forwardLoop
    split
    · exact step_forwardLoop cs h
    · rename_i hg
      simp only [Bool.or_eq_true, decide_eq_true_eq, not_or] at hg
      have st := step_forwardSubsumed h (c := c) watches conn (by simpa using hg.1.1) (by simpa using hg.1.2)
      dsimp only
      split
      · exact st
      · exact st.trans (step_forwardLoop cs st.inv)

theorem step_forwardSubsume {orig : List (List Nat)} {s : State} (h : Inv orig none s)
    (elig : Nat → Bool) (conn : Nat → Nat → Bool) (flushed : List Nat)
    (cs : List (Nat × (Nat → List Nat) × (Nat → Nat → Bool))) :
    Step orig s (s.forwardSubsume elig conn flushed cs) := by
  unfold State.forwardSubsume
  have st := step_removeDuplicates h elig conn
  dsimp only
  split
  · exact st
  · have st2 := step_flushCandidates flushed st.inv
    exact (st.trans st2).trans (step_forwardLoop cs st2.inv)

end Verif.Simp
