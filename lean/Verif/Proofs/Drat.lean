import Verif.Proofs.Cnf
import Verif.Spec.Drat

/-! Facts about clausal proofs: accepted proofs preserve satisfiability. -/

namespace Verif.Spec

theorem sameLits_iff {c d : List Nat} : sameLits c d = true ↔ SameLits c d := by
  simp only [sameLits, Bool.and_eq_true, List.all_eq_true, List.contains_eq_mem, decide_eq_true_eq]
  exact ⟨fun ⟨h1, h2⟩ l => ⟨h1 l, h2 l⟩, fun h => ⟨fun l => (h l).1, fun l => (h l).2⟩⟩

theorem mem_deleteClause {db : List (List Nat)} {c d : List Nat} (h : d ∈ deleteClause db c) :
    d ∈ db := List.mem_of_mem_eraseP h

theorem mem_deleteClause_of_not {db : List (List Nat)} {c d : List Nat} (h : d ∈ db)
    (hn : ¬ SameLits c d) : d ∈ deleteClause db c := by
  unfold deleteClause
  have : ¬ sameLits c d = true := fun e => hn (sameLits_iff.1 e)
  exact (List.mem_eraseP_of_neg this).2 h

/-- Flipping a literal. -/
def flip (σ : Assignment) (l : Nat) : Assignment := fun v =>
  if v = l / 2 then decide (l % 2 = 0) else σ v

theorem flip_true (σ : Assignment) (l : Nat) : litTrue (flip σ l) l := by
  simp [litTrue, flip]

theorem flip_other {σ : Assignment} {l m : Nat} (h : m / 2 ≠ l / 2) :
    litTrue (flip σ l) m ↔ litTrue σ m := by
  simp [litTrue, flip, h]

/-- Adding a RAT clause preserves satisfiability. -/
theorem RAT.sat {F : Formula} {c : List Nat} (h : RAT F c) (hs : Satisfiable F) :
    Satisfiable (fun d => d = c ∨ F d) := by
  obtain ⟨σ, hσ⟩ := hs
  by_cases hc : SatClause σ c
  · exact ⟨σ, fun d hd => by
      rcases hd with rfl | hd
      · exact hc
      · exact hσ d hd⟩
  · obtain ⟨l, hl, hr⟩ := h
    have hlc : l ∈ c := List.mem_of_mem_head? hl
    refine ⟨flip σ l, fun d hd => ?_⟩
    rcases hd with rfl | hd
    · exact ⟨l, hlc, flip_true σ l⟩
    · by_cases hn : neg l ∈ d
      · obtain ⟨m, hm, ht⟩ := (hr d hd hn).entails σ hσ
        rcases List.mem_append.1 hm with hm | hm
        · exact absurd ⟨m, hm, ht⟩ hc
        · simp only [List.mem_filter, decide_eq_true_eq] at hm
          by_cases e : m = l
          · exact ⟨m, hm.1, e ▸ flip_true σ l⟩
          · refine ⟨m, hm.1, (flip_other fun hd => ?_).2 ht⟩
            rcases eq_or_eq_neg hd with h | h
            · exact e h
            · exact hm.2 h
      · obtain ⟨m, hm, ht⟩ := hσ d hd
        by_cases e : m = l
        · exact ⟨m, hm, e ▸ flip_true σ l⟩
        · refine ⟨m, hm, (flip_other fun hd => ?_).2 ht⟩
          rcases eq_or_eq_neg hd with h | h
          · exact e h
          · exact hn (h ▸ hm)

/-- An accepted proof preserves satisfiability. -/
theorem Replay.sat {orig : List (List Nat)} {lines : List Line} {db : List (List Nat)}
    (h : Replay orig lines db) (hs : Satisfiable (ofList orig)) : Satisfiable (ofList db) := by
  induction h with
  | nil => exact hs
  | @add lines db c h hr ih =>
    rcases hr with hr | hr
    · obtain ⟨σ, hσ⟩ := ih
      exact ⟨σ, fun d hd => by
        rcases List.mem_cons.1 hd with rfl | hd
        · exact hr.entails σ hσ
        · exact hσ d hd⟩
    · obtain ⟨σ, hσ⟩ := hr.sat ih
      exact ⟨σ, fun d hd => hσ d (by
        rcases List.mem_cons.1 hd with rfl | hd
        · exact .inl rfl
        · exact .inr hd)⟩
  | delete h ih =>
    obtain ⟨σ, hσ⟩ := ih
    exact ⟨σ, fun d hd => hσ d (mem_deleteClause hd)⟩

/-- An accepted proof that derives the empty clause refutes the original clauses. -/
theorem Replay.refutes {orig : List (List Nat)} {lines : List Line} {db : List (List Nat)}
    (h : Replay orig lines db) (he : [] ∈ db) : ¬ Satisfiable (ofList orig) := by
  intro hs
  obtain ⟨σ, hσ⟩ := h.sat hs
  exact not_satClause_nil σ (hσ [] he)

/-- Deriving a literal whose complement is assumed is a conflict. -/
theorem UP.conflict {F : Formula} {A : Nat → Prop} {l : Nat} (h : UP F A l)
    (hn : UP F A (neg l)) (ha : ¬ A l) : UPConflict F A := by
  cases h with
  | assumed h => exact absurd h ha
  | @unit c _ hc hl hm =>
    refine ⟨c, hc, fun m hmc => ?_⟩
    by_cases e : m = l
    · rw [e]; exact hn
    · exact hm m hmc e

/-- A unit derived without assumptions is RUP. -/
theorem RUP.of_UP {F : Formula} {l : Nat} (h : UP F (fun _ => False) l) : RUP F [l] := by
  left
  have h' : UP F (fun x => neg x ∈ [l]) l := h.mono (fun c hc => ⟨c, hc, .refl c⟩) (by simp)
  exact h'.conflict (.assumed (by simp)) (by simpa using neg_ne l)

end Verif.Spec
