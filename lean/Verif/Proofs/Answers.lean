import Verif.Proofs.Run

/-! # Answers in terms of the added integers -/

namespace Verif.Spec

theorem mem_clausesOf (es : List Int) :
    (∀ c ∈ clausesOf es, ∀ e ∈ c, e ∈ es ∧ e ≠ 0) ∧ ∀ e ∈ pendingOf es, e ∈ es ∧ e ≠ 0 := by
  rw [← List.reverse_reverse es]
  induction es.reverse with
  | nil => exact ⟨fun c h => (by cases h), fun c h => (by cases h)⟩
  | cons x r ih =>
    rw [List.reverse_cons]
    generalize r.reverse = es at ih ⊢
    obtain ⟨h1, h2⟩ := ih
    have up : ∀ e, e ∈ es ∧ e ≠ 0 → e ∈ es ++ [x] ∧ e ≠ 0 :=
      fun e h => ⟨List.mem_append.2 (.inl h.1), h.2⟩
    by_cases hx : x = 0
    · subst hx
      rw [clausesOf_zero, pendingOf_zero]
      refine ⟨fun c hc e he => ?_, fun e h => by cases h⟩
      rcases List.mem_append.1 hc with hc | hc
      · exact up e (h1 c hc e he)
      · rw [List.mem_singleton.1 hc] at he; exact up e (h2 e he)
    · rw [clausesOf_lit es hx, pendingOf_lit es hx]
      refine ⟨fun c hc e he => up e (h1 c hc e he), fun e he => ?_⟩
      rcases List.mem_append.1 he with he | he
      · exact up e (h2 e he)
      · rw [List.mem_singleton.1 he]; exact ⟨by simp, hx⟩

theorem litTrue_code {σ : Nat → Bool} {e : Int} (he : e ≠ 0) :
    litTrue σ (code e) ↔ ElitTrue σ e := by
  unfold litTrue ElitTrue code
  have h1 : (2 * e.natAbs + if e < 0 then 1 else 0) / 2 = e.natAbs := by split <;> omega
  rw [h1]
  by_cases h : 0 < e
  · rw [if_neg (by omega)]; simp [h]
  · rw [if_pos (by omega)]; simp [h]

/-- An accepted proof with the empty clause refutes the clauses. -/
theorem Accepted.refutes {cs : List (List Int)} {proof : List ProofLine} {db : List (List Nat)}
    (h : Accepted cs proof db) (he : [] ∈ db) (h0 : ∀ c ∈ cs, ∀ e ∈ c, e ≠ 0) :
    ¬ ESatisfiable cs := by
  rintro ⟨σ, hσ⟩
  refine h.replay.refutes he ⟨σ, fun c hc => ?_⟩
  obtain ⟨d, hd, rfl⟩ := List.mem_map.1 hc
  obtain ⟨e, h1, h2⟩ := hσ d hd
  exact ⟨code e, List.mem_map.2 ⟨e, h1, rfl⟩, (litTrue_code (h0 d hd e h1)).2 h2⟩

end Verif.Spec

namespace Verif.Core

open Verif.Spec

theorem Run.clauses {o : Options} {t : Bool} {p e : Nat} {cs : List Call} {a : Api}
    (h : Run (Api.init o t p e) cs a) (h0 : a.searches = 0) : ∃ orig, ApiInv orig a ∧
      orig.map (List.map a.exportLiteral) = clausesOf (addedInts cs) := by
  obtain ⟨orig, h1, h2, _⟩ := (run_inv h).loaded h0
  exact ⟨orig, h1, h2⟩

theorem solve_searches {a a' : Api} {os : List Oracle} {res : Nat}
    (hs : a.solve os = .done a' res) : a.searches = 0 := by
  unfold Api.solve at hs
  split at hs
  · cases hs
  · split at hs
    · cases hs
    · rename_i h; simpa using h

theorem proofLines_coded (a : Api) :
    a.proofLines.map ProofLine.coded =
      a.s.proof.map (Line.map fun l => code (a.exportLiteral l)) := by
  unfold Api.proofLines
  rw [List.map_map]
  refine List.map_congr_left fun x _ => ?_
  cases x <;> simp [ProofLine.coded, Line.map, Function.comp_def]

/-- The proof for internal clauses is accepted for the external ones. -/
theorem accepted_of {a : Api} (hi : ImportInv a) {orig : List (List Nat)} {db : List (List Nat)}
    (h : (apiBase orig).R a.s.vars a.s.proof db) :
    Accepted (orig.map (List.map a.exportLiteral)) a.proofLines
      (db.map (List.map fun l => code (a.exportLiteral l))) := by
  obtain ⟨h1, h2, h3⟩ := h
  unfold Accepted
  rw [proofLines_coded]
  have := h3.map hi.renaming h2 h1
  rw [List.map_map]
  simp only [Function.comp_def, List.map_map]
  exact this

theorem exportLiteral_congr {a a' : Api} (h : a'.exports = a.exports) :
    a'.exportLiteral = a.exportLiteral := by
  funext l; unfold Api.exportLiteral; rw [h]

/-- `kissat_value` of an imported literal. -/
theorem value_of {a : Api} (hi : ImportInv a) (ht : TrailInv a.s) {l : Nat} (hl : l / 2 < a.s.vars)
    (hv : validExternal (a.exportLiteral l) = true) :
    a.value (a.exportLiteral l) = .ok (a.s.values l * a.exportLiteral l) := by
  have hlt : l / 2 < a.exports.length := by rw [hi.len]; exact hl
  have hx := List.getElem?_eq_getElem hlt
  obtain ⟨x1, x2⟩ := hi.export hx
  obtain ⟨h1, h2⟩ := hi.bwd _ _ hx
  generalize a.exports[l / 2] = e at *
  unfold Api.value
  rw [hv]
  simp only [Bool.not_true, Bool.false_eq_true, if_false]
  have hd := ht.dom (2 * (l / 2))
  rcases eq_or_eq_neg (show l / 2 = 2 * (l / 2) / 2 by omega) with q | q
  · have : a.exportLiteral l = e := by rw [← q] at x1; exact x1
    rw [this, Int.natAbs_natCast, h1]
    simp only [Bool.not_true, Bool.false_eq_true, if_false]
    rw [← q] at hd ⊢
    have hn : ¬ ((e : Int) < 0) := by omega
    rcases hd with d | d | d <;> simp [d, hn]
  · have : a.exportLiteral l = - (e : Int) := by rw [← q] at x2; exact x2
    rw [this, Int.natAbs_neg, Int.natAbs_natCast, h1]
    simp only [Bool.not_true, Bool.false_eq_true, if_false]
    have hq : a.s.values l = - a.s.values (2 * (l / 2)) := by
      conv => lhs; rw [q]
      exact ht.anti _
    rw [hq]
    have hn : 0 < e := by omega
    rcases hd with d | d | d <;> simp [d, hn]

/-- A complete and completely propagated state gives a model. -/
theorem sat_of_prop {cs : List Call} {a a' : Api} (hr : RunInv cs a) {orig : List (List Nat)}
    (hA : ApiInv orig a)
    (hcl : orig.map (List.map a.exportLiteral) = clausesOf (addedInts cs)) (hk : Kept' a a')
    (hP : PropInv (apiBase orig) (Models orig) a'.s)
    (hfull : a'.s.propagate = a'.s.trail.length) (hall : a'.s.unassigned = 0) {σ : Nat → Bool}
    (hσ : ∀ x v, a'.value x = .ok v → v ≠ 0 → ElitTrue σ v) :
    ∀ c ∈ clausesOf (addedInts cs), ESat σ c := by
  obtain ⟨k1, k2, k3⟩ := hk
  have hi' : ImportInv a' := ⟨by rw [k2, k3]; exact hr.imports.len, by
    rw [k1, k2]; exact hr.imports.fwd, by rw [k1, k2]; exact hr.imports.bwd⟩
  have hex := exportLiteral_congr k2
  have ht := hP.ok.inv.trail
  let τ : Assignment := fun v =>
    if a'.s.values (2 * v) = 1 then true else if a'.s.values (2 * v) = -1 then false
    else σ (a'.exportLiteral (2 * v)).natAbs
  have hτ : ∀ l, a'.s.values l = 1 → litTrue τ l := by
    intro l hl
    unfold litTrue
    rcases Nat.mod_two_eq_zero_or_one l with e | e
    · have : 2 * (l / 2) = l := by omega
      simp only [τ, this, hl, e]; rfl
    · have : 2 * (l / 2) = neg l := by unfold neg; rw [if_neg (by omega)]; omega
      simp only [τ, this, ht.anti, hl, e]; rfl
  have hM := hP.model hfull hall hτ
  rw [← hcl]
  intro c hc
  obtain ⟨d, hd, rfl⟩ := List.mem_map.1 hc
  obtain ⟨l, hl, htl⟩ := hM d hd
  have hlb : l / 2 < a.s.vars := hA.bound d hd l hl
  have hmem := (mem_clausesOf (addedInts cs)).1 _ (hcl ▸ hc) (a.exportLiteral l)
    (List.mem_map.2 ⟨l, hl, rfl⟩)
  have hval := hr.valid _ hmem.1
  refine ⟨a.exportLiteral l, List.mem_map.2 ⟨l, hl, rfl⟩, ?_⟩
  rw [← hex] at hval hmem ⊢
  have hlb' : l / 2 < a'.s.vars := by rw [k3]; exact hlb
  have hv := value_of hi' ht hlb' hval
  rcases ht.dom l with d | d | d
  · rw [d, Int.one_mul] at hv
    exact hσ _ _ hv hmem.2
  · have d' : a'.s.values (2 * (l / 2)) = 0 := by
      rcases eq_or_eq_neg (show l / 2 = 2 * (l / 2) / 2 by omega) with q | q
      · rw [← q]; exact d
      · have := ht.anti (2 * (l / 2)); rw [← q, d] at this; omega
    have hx : a'.exportLiteral l = if l % 2 = 1 then - a'.exportLiteral (2 * (l / 2)) else
        a'.exportLiteral (2 * (l / 2)) := by
      rcases Nat.mod_two_eq_zero_or_one l with e | e
      · rw [if_neg (by omega), show 2 * (l / 2) = l by omega]
      · rw [if_pos e, show 2 * (l / 2) = neg l by unfold neg; rw [if_neg (by omega)]; omega]
        rw [exportLiteral_neg hi' hlb', Int.neg_neg]
    have hpos : 0 < a'.exportLiteral (2 * (l / 2)) := by
      have hlt : l / 2 < a'.exports.length := by rw [hi'.len]; exact hlb'
      have hg := List.getElem?_eq_getElem hlt
      have := (hi'.export hg).1
      have := (hi'.bwd _ _ hg).2
      omega
    unfold litTrue at htl
    simp only [τ, d'] at htl
    unfold ElitTrue
    rw [hx]
    have htl : σ (a'.exportLiteral (2 * (l / 2))).natAbs = decide (l % 2 = 0) := htl
    rcases Nat.mod_two_eq_zero_or_one l with e | e
    · rw [if_neg (by omega), htl, e]; simp [hpos]
    · rw [if_pos e, Int.natAbs_neg, htl, e]; simp; omega
  · have := hτ (neg l) (ht.neg_pos.2 d)
    rw [litTrue_neg] at this
    exact absurd htl this

/-- Answer 10. -/
theorem answer_sat {o : Options} {t : Bool} {p e : Nat} {cs : List Call} {a a' : Api}
    {os : List Oracle} (hrun : Run (Api.init o t p e) cs a) (hf : (Call.solve os).Fair a.s)
    (hs : a.solve os = .done a' 10) {σ : Nat → Bool}
    (hσ : ∀ x v, a'.value x = .ok v → v ≠ 0 → ElitTrue σ v) :
    ∀ c ∈ clausesOf (addedInts cs), ESat σ c := by
  obtain ⟨orig, hA, hcl⟩ := hrun.clauses (solve_searches hs)
  obtain ⟨h1, hk, _⟩ := solve_ok hA hf hs
  cases h1 with
  | sat hP hfull hall => exact sat_of_prop (run_inv hrun) hA hcl hk hP hfull hall hσ

/-- Answer 20. -/
theorem answer_unsat {o : Options} {t : Bool} {p e : Nat} {cs : List Call} {a a' : Api}
    {os : List Oracle} (hrun : Run (Api.init o t p e) cs a) (hf : (Call.solve os).Fair a.s)
    (hs : a.solve os = .done a' 20) :
    ∃ db, Accepted (clausesOf (addedInts cs)) a'.proofLines db ∧ [] ∈ db := by
  have hr := run_inv hrun
  obtain ⟨orig, hA, hcl⟩ := hrun.clauses (solve_searches hs)
  obtain ⟨h1, ⟨k1, k2, k3⟩, _⟩ := solve_ok hA hf hs
  have hi' : ImportInv a' := ⟨by rw [k2, k3]; exact hr.imports.len, by
    rw [k1, k2]; exact hr.imports.fwd, by rw [k1, k2]; exact hr.imports.bwd⟩
  have hex := exportLiteral_congr k2
  cases h1 with
  | unsat h he =>
    have := accepted_of hi' h
    rw [hex, hcl] at this
    exact ⟨_, this, List.mem_map.2 ⟨[], he, rfl⟩⟩

end Verif.Core
