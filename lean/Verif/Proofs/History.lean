import Verif.Proofs.Limits

/-! # What the history of calls says about the interface state -/

namespace Verif.Core

open Verif.Spec

/-- Fields not changed by adding literals or reserving variables. -/
def SameControl (a b : Api) : Prop :=
  b.searches = a.searches ∧ b.flagged = a.flagged ∧ b.conflictLimit = a.conflictLimit ∧
  b.decisionLimit = a.decisionLimit

theorem SameControl.trans {a b c : Api} (h : SameControl a b) (h' : SameControl b c) :
    SameControl a c :=
  ⟨h'.1.trans h.1, h'.2.1.trans h.2.1, h'.2.2.1.trans h.2.2.1, h'.2.2.2.trans h.2.2.2⟩

theorem Grown.control {a b : Api} (h : Grown a b) : SameControl a b := by
  obtain ⟨n, i, e, hn, rfl⟩ := h; exact ⟨rfl, rfl, rfl, rfl⟩

theorem addLiteral_control {a : Api} (h : ImportInv a) {e : Int} (he : e ≠ 0) :
    SameControl a (a.addLiteral e) := by
  have hg := (importLiteral_ok h he).2.1.control
  unfold Api.addLiteral
  generalize a.importLiteral e = p at *
  obtain ⟨b, ilit⟩ := p
  simp only at hg ⊢
  repeat' (first | exact hg | split)

theorem add_control {a b : Api} (h : ImportInv a) {e : Int} (ha : a.add e = .ok b) :
    SameControl a b := by
  unfold Api.add at ha
  split at ha
  · cases ha
  · split at ha
    · rename_i hne
      split at ha
      · injection ha with e1; subst e1; exact addLiteral_control h hne
      · cases ha
    · injection ha with e1; subst e1; exact ⟨rfl, rfl, rfl, rfl⟩

theorem reserve_control {a b : Api} (h : ImportInv a) {n : Int} (hr : a.reserve n = .ok b) :
    SameControl a b := by
  unfold Api.reserve at hr
  split at hr
  · cases hr
  · split at hr
    · cases hr
    · split at hr
      · injection hr with e; subst e
        exact ⟨rfl, rfl, rfl, rfl⟩
      · obtain ⟨h1, h2, h3⟩ := importAll_ok (List.range n.natAbs) h
        simp only at hr
        generalize List.foldl _ a (List.range n.natAbs) = c at *
        split at hr
        · cases hr
        · injection hr with e; subst e
          exact h2.control

/-- Once a search has been counted it stays counted. -/
theorem step_searches {a b : Api} {c : Call} {ret : Nat} (h : ImportInv a)
    (hs : ApiStep a c b ret) : a.searches ≤ b.searches := by
  cases hs with
  | add ha => exact Nat.le_of_eq (add_control h ha).1.symm
  | reserve hr => exact Nat.le_of_eq (reserve_control h hr).1.symm
  | terminate => exact Nat.le_refl _
  | setTerminate => exact Nat.le_refl _
  | setConflictLimit => exact Nat.le_refl _
  | setDecisionLimit => exact Nat.le_refl _
  | solve hs =>
    unfold Api.solve at hs
    repeat' split at hs
    all_goals first | (injection hs with e1 e2; subst e1; exact Nat.le_refl _) |
      (injection hs with e1 e2; subst e1; exact Nat.le_succ _) | cases hs

theorem Run.append {a b c : Api} {cs ds : List Call} (h : Run a cs b) (h' : Run b ds c) :
    Run a (cs ++ ds) c := by
  induction h' with
  | nil => simpa using h
  | snoc _ hf hs ih => rw [← List.append_assoc]; exact .snoc ih hf hs

theorem run_searches {o : Options} {t : Bool} {p e : Nat} {cs ds : List Call} {a b : Api}
    (h : Run (Api.init o t p e) cs a) (h' : Run a ds b) : a.searches ≤ b.searches := by
  induction h' with
  | nil => exact Nat.le_refl _
  | snoc hr hf hs ih =>
    exact Nat.le_trans ih (step_searches (run_inv (h.append hr)).imports hs)

/-- Flag and limits come from calls. -/
theorem run_control {o : Options} {t : Bool} {p e : Nat} {cs : List Call} {a : Api}
    (h : Run (Api.init o t p e) cs a) :
    (a.flagged = true → Call.terminate ∈ cs) ∧
    (∀ L, a.conflictLimit = some L → ∃ n, Call.setConflictLimit n ∈ cs ∧ n ≤ L) ∧
    (∀ L, a.decisionLimit = some L → ∃ n, Call.setDecisionLimit n ∈ cs ∧ n ≤ L) := by
  induction h with
  | nil => simp [Api.init]
  | @snoc cs b c b' ret hb hf hs ih =>
    obtain ⟨i1, i2, i3⟩ := ih
    have lift : ∀ {x : Call}, x ∈ cs → x ∈ cs ++ [c] := fun h => List.mem_append.2 (.inl h)
    have same : SameControl b b' → (b'.flagged = true → Call.terminate ∈ cs ++ [c]) ∧
        (∀ L, b'.conflictLimit = some L → ∃ n, Call.setConflictLimit n ∈ cs ++ [c] ∧ n ≤ L) ∧
        (∀ L, b'.decisionLimit = some L → ∃ n, Call.setDecisionLimit n ∈ cs ++ [c] ∧ n ≤ L) := by
      rintro ⟨_, h1, h2, h3⟩
      rw [h1, h2, h3]
      exact ⟨fun h => lift (i1 h), fun L hL => (i2 L hL).imp fun n h => ⟨lift h.1, h.2⟩,
        fun L hL => (i3 L hL).imp fun n h => ⟨lift h.1, h.2⟩⟩
    have hI := (run_inv hb).imports
    cases hs with
    | add ha => exact same (add_control hI ha)
    | reserve hr => exact same (reserve_control hI hr)
    | terminate =>
      exact ⟨fun _ => by simp, fun L hL => (i2 L hL).imp fun n h => ⟨lift h.1, h.2⟩,
        fun L hL => (i3 L hL).imp fun n h => ⟨lift h.1, h.2⟩⟩
    | setTerminate => exact same ⟨rfl, rfl, rfl, rfl⟩
    | @setConflictLimit n =>
      refine ⟨fun h => lift (i1 h), fun L hL => ⟨n, by simp, ?_⟩,
        fun L hL => (i3 L hL).imp fun n h => ⟨lift h.1, h.2⟩⟩
      simp only [Api.setConflictLimit, Option.some.injEq] at hL
      omega
    | @setDecisionLimit n =>
      refine ⟨fun h => lift (i1 h), fun L hL => (i2 L hL).imp fun n h => ⟨lift h.1, h.2⟩,
        fun L hL => ⟨n, by simp, ?_⟩⟩
      simp only [Api.setDecisionLimit, Option.some.injEq] at hL
      omega
    | solve hs =>
      unfold Api.solve at hs
      repeat' split at hs
      all_goals first
        | (injection hs with e1 e2; subst e1; exact same ⟨rfl, rfl, rfl, rfl⟩)
        | (injection hs with e1 e2; subst e1; simp [stopSearch])
        | cases hs

/-- Literals of the incomplete clause without root value keep the clause buffer non empty. -/
theorem run_pending {o : Options} {t : Bool} {p e : Nat} {cs : List Call} {a : Api}
    (h : Run (Api.init o t p e) cs a) (h0 : a.searches = 0) :
    (∃ l ∈ a.original, a.s.fixed l = 0) → a.clause ≠ [] := by
  induction h with
  | nil => rintro ⟨l, h, _⟩; cases h
  | @snoc cs b c b' ret hb hf hs ih =>
    have hI := run_inv hb
    have h0' : b.searches = 0 := Nat.le_zero.1 (h0 ▸ step_searches hI.imports hs)
    have ih := ih h0'
    cases hs with
    | @add x _ ha =>
      unfold Api.add at ha
      split at ha
      · cases ha
      · split at ha
        · rename_i hne
          split at ha
          · injection ha with e1; subst e1
            obtain ⟨orig, hA, _⟩ := hI.loaded h0'
            obtain ⟨g1, g2, g3, g4⟩ := importLiteral_ok hI.imports hne
            have hpend := hA.pending
            unfold Api.addLiteral
            generalize b.importLiteral x = q at *
            obtain ⟨b1, ilit⟩ := q
            obtain ⟨m, i, ex, hm, rfl⟩ := g2
            simp only at g3 g4 ⊢
            have old : (∃ l ∈ b.original ++ [ilit], b.s.fixed l = 0) →
                b.s.fixed ilit ≠ 0 → b.clause ≠ [] := by
              rintro ⟨l, hl, hl0⟩ hne
              rcases List.mem_append.1 hl with hl | hl
              · exact ih ⟨l, hl, hl0⟩
              · rw [List.mem_singleton.1 hl] at hl0; exact absurd hl0 hne
            have marked : b.marks ilit ≠ 0 → b.clause ≠ [] := by
              intro hm hc
              have := hpend.marks ilit
              rw [hc] at this
              simp at this
              exact hm this
            split
            · split
              · rename_i hv
                exact fun h => old h (Int.ne_of_gt hv)
              · split
                · rename_i hv
                  exact fun h => old h (Int.ne_of_lt hv)
                · intro _; simp
            · rename_i hm
              split
              · exact fun _ => marked hm
              · exact fun _ => marked hm
          · cases ha
        · injection ha with e1; subst e1
          rintro ⟨l, h, _⟩; cases h
    | reserve hr =>
      obtain ⟨_, _, g2, _⟩ := reserve_ok hI.imports hr
      have hr' := hr
      unfold Api.reserve at hr
      split at hr
      · cases hr
      · split at hr
        · cases hr
        · split at hr
          · injection hr with e; subst e; exact ih
          · obtain ⟨k1, k2, k3⟩ := importAll_ok (List.range (Int.natAbs _)) hI.imports
            simp only at hr
            generalize List.foldl _ b (List.range _) = c at *
            split at hr
            · cases hr
            · injection hr with e; subst e
              obtain ⟨rem, ua, e, hrem⟩ := activateAll_eq ((List.range (Int.natAbs _)).map (2 * ·)) c.s
              obtain ⟨m, i, ex, hm, rfl⟩ := k2
              rw [e]
              exact ih
    | terminate => exact ih
    | setTerminate => exact ih
    | setConflictLimit => exact ih
    | setDecisionLimit => exact ih
    | solve hs =>
      unfold Api.solve at hs
      repeat' split at hs
      all_goals first
        | (injection hs with e1 e2; subst e1; exact ih)
        | (injection hs with e1 e2; subst e1; simp at h0)
        | cases hs

end Verif.Core
