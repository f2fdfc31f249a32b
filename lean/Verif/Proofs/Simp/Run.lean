import Verif.Model.Simp.Run
import Verif.Proofs.Simp.Eliminate
import Verif.Proofs.Simp.Forward
import Verif.Proofs.Simp.Fastel
import Verif.Proofs.Simp.SubstituteWith
import Verif.Proofs.Simp.Backbone
import Verif.Proofs.Simp.VivifyRound
import Verif.Proofs.Simp.FactorApply
import Verif.Proofs.Congruence.Main
import Verif.Proofs.Sweep.Main
import Verif.Props.Reconstruct

/-!
# Runs of the simplification techniques
-/

namespace Verif.Simp

open Verif.Spec Verif.Model Verif.Model.Extend

/-! ## The start -/

theorem getD_exports {n v : Nat} {cnf : List (List Int)} (h : v < n) :
    (State.ofClauses n cnf).exports.getD v 0 = (v : Int) + 1 := by
  simp [State.ofClauses, List.getD_eq_getElem?_getD, h]

theorem internal_div {e : Int} : internal e / 2 = e.natAbs - 1 := by
  unfold internal; split <;> omega

theorem export_internal {n : Nat} {cnf : List (List Int)} {e : Int} (h0 : e ≠ 0) (hn : e.natAbs ≤ n) :
    (State.ofClauses n cnf).exportLiteral (internal e) = e := by
  unfold Extend.State.exportLiteral
  rw [internal_div, getD_exports (by omega)]
  unfold internal
  by_cases he : e < 0
  · rw [if_pos he, if_pos (by omega)]; omega
  · rw [if_neg he, if_neg (by omega)]; omega

theorem internal_inj {a b : Int} (ha : a ≠ 0) (hb : b ≠ 0) (h : internal a = internal b) : a = b := by
  unfold internal at h
  split at h <;> split at h <;> omega

theorem internal_neg {a : Int} (ha : a ≠ 0) : internal (- a) = Spec.neg (internal a) := by
  unfold internal Spec.neg
  repeat' split
  all_goals omega

theorem nodup_map {α β : Type} {f : α → β} {l : List α} (h : l.Nodup)
    (hf : ∀ a ∈ l, ∀ b ∈ l, f a = f b → a = b) : (l.map f).Nodup := by
  induction l with
  | nil => exact List.nodup_nil
  | cons a l ih =>
    rw [List.nodup_cons] at h
    rw [List.map_cons, List.nodup_cons]
    refine ⟨fun hm => ?_, ih h.2 fun x hx y hy => hf x (List.mem_cons_of_mem _ hx) y (List.mem_cons_of_mem _ hy)⟩
    obtain ⟨b, hb, e⟩ := List.mem_map.1 hm
    have := hf b (List.mem_cons_of_mem _ hb) a (by simp) e
    exact h.1 (this ▸ hb)

theorem ofClauses_clause {n : Nat} {cnf : List (List Int)} {r : Nat}
    (h : ((State.ofClauses n cnf).clause r).garbage = false) :
    ∃ c ∈ cnf, (State.ofClauses n cnf).clause r = ⟨c.map internal, false, false⟩ := by
  have hlt := clause_lt h
  have hlt' : r < cnf.length := by simpa [State.ofClauses] using hlt
  refine ⟨cnf[r], List.getElem_mem hlt', ?_⟩
  simp [State.clause, State.ofClauses, List.getD_eq_getElem?_getD, hlt']

theorem Inv.ofClauses {n : Nat} {cnf : List (List Int)} (hc : Clean n cnf) :
    Inv (cnf.map fun c => c.map code) none (State.ofClauses n cnf) := by
  have hlen : (State.ofClauses n cnf).exports.length = n := by simp [State.ofClauses]
  have hext : ∀ c ∈ cnf, (c.map internal).map (State.ofClauses n cnf).ext = c.map code := by
    intro c h
    rw [List.map_map]
    refine List.map_congr_left fun e he => ?_
    obtain ⟨h1, h2, _⟩ := (hc c h).2.2 e he
    show code _ = code e
    rw [export_internal h1 h2]
  refine ⟨⟨fun l => rfl, fun l => Or.inr (Or.inl rfl), fun l => ?_, ?_, ?_, ?_, ?_, ?_, ?_, ?_, ?_, ?_, ?_, ?_, ?_, ?_, ?_⟩,
    ?_, ?_, ?_⟩
  · simp [State.ofClauses]
  · intro v hv
    rw [hlen] at hv
    rw [getD_exports hv]; omega
  · intro v w hv hw
    rw [hlen] at hv hw
    rw [getD_exports hv, getD_exports hw]; omega
  · intro v hv _
    rw [hlen] at hv
    rw [getD_exports hv, show ((v : Int) + 1).natAbs = v + 1 by omega]
    refine ⟨⟨2 * v, true, false⟩, ?_, rfl, rfl⟩
    simp [State.ofClauses, hv]
  · intro u i hi him he
    cases u with
    | zero =>
      simp [State.ofClauses] at hi
      rw [← hi] at him; cases him
    | succ u =>
      simp only [State.ofClauses, List.getElem?_cons_succ, List.getElem?_map, Option.map_eq_some_iff,
        List.getElem?_eq_some_iff, List.getElem_range, List.length_range] at hi
      obtain ⟨v, ⟨h1, h2⟩, rfl⟩ := hi
      subst h2
      refine ⟨?_, ?_⟩
      · unfold State.InRange
        rw [hlen]
        show 2 * u / 2 < n
        omega
      · unfold Extend.State.exportLiteral
        show (if 2 * u % 2 = 1 then _ else _) = _
        rw [if_neg (by omega)]
        show (State.ofClauses n cnf).exports.getD (2 * u / 2) 0 = _
        rw [getD_exports (by omega)]
        omega
  · intro r hr l hl
    obtain ⟨c, h1, h2⟩ := ofClauses_clause hr
    rw [h2] at hl
    obtain ⟨e, he, rfl⟩ := List.mem_map.1 hl
    obtain ⟨h3, h4, _⟩ := (hc c h1).2.2 e he
    unfold State.InRange
    rw [hlen, internal_div]; omega
  · intro l hl; cases hl
  · intro r hr
    obtain ⟨c, h1, h2⟩ := ofClauses_clause hr
    rw [h2]
    exact nodup_map (hc c h1).2.1 fun a ha b hb => internal_inj ((hc c h1).2.2 a ha).1 ((hc c h1).2.2 b hb).1
  · intro r hr l hl hl'
    obtain ⟨c, h1, h2⟩ := ofClauses_clause hr
    rw [h2] at hl hl'
    obtain ⟨e, he, rfl⟩ := List.mem_map.1 hl
    obtain ⟨f, hf, e2⟩ := List.mem_map.1 hl'
    obtain ⟨h3, h4, h5⟩ := (hc c h1).2.2 e he
    rw [← internal_neg h3] at e2
    have := internal_inj ((hc c h1).2.2 f hf).1 (by omega) e2
    exact h5 (this ▸ hf)
  · intro r hr
    obtain ⟨c, h1, h2⟩ := ofClauses_clause hr
    rw [h2]
    simpa using (hc c h1).1
  · intro r _ _ l _; rfl
  · intro v hv
    rw [hlen] at hv
    rw [getD_exports hv]
    simp [State.ofClauses]; omega
  · intro c h x hx
    obtain ⟨d, hd, rfl⟩ := List.mem_map.1 h
    obtain ⟨e, he, rfl⟩ := List.mem_map.1 hx
    obtain ⟨_, h2, _⟩ := (hc d hd).2.2 e he
    rw [code_div]
    simp [State.ofClauses]; omega
  · intro ln h; cases h
  · refine ⟨_, .nil, fun X => ?_, fun h => (by cases h)⟩
    unfold State.copies
    show ((cnf.map fun c => (⟨c.map internal, false, false⟩ : Clause)).countP _) + 0 ≤ _
    rw [List.countP_map, List.countP_map, Nat.add_zero]
    refine Nat.le_of_eq (List.countP_congr fun c h => ?_)
    simp only [Function.comp, Bool.not_false, Bool.true_and, hext c h]
  · unfold State.Hist
    refine .change (F := ofList (cnf.map fun c => c.map code)) (s := (State.ofClauses n cnf).toState)
      (.start _ rfl rfl rfl rfl ?_)
      ⟨rfl, rfl, rfl, rfl, fun _ i h => ⟨i, h, id, fun _ => rfl⟩, fun _ _ h _ => h⟩ ?_
    · intro i hi
      simp [State.ofClauses] at hi
      rcases hi with rfl | ⟨v, _, rfl⟩ <;> rfl
    · intro σ hσ c hcc
      obtain ⟨d, hd, rfl⟩ := List.mem_map.1 hcc
      refine hσ _ ⟨d.map internal, Or.inr ?_, (hext d hd).symm⟩
      obtain ⟨r, hr, rfl⟩ := List.mem_iff_getElem.1 hd
      refine ⟨r, ?_⟩
      have : (State.ofClauses n cnf).clause r = ⟨cnf[r].map internal, false, false⟩ := by
        simp [State.clause, State.ofClauses, List.getD_eq_getElem?_getD, hr]
      rw [this]
      exact ⟨rfl, rfl, rfl⟩
  · intro e he; cases he
  · intro σ hσ
    refine ⟨σ, fun d hd => hσ d ?_, fun _ _ _ => rfl⟩
    rcases hd with hd | ⟨r, hr, rfl⟩
    · exact Or.inl hd
    · obtain ⟨c, h1, h2⟩ := ofClauses_clause hr
      exact Or.inr ⟨r, hr, by rw [h2], rfl⟩

/-! ## What runs guarantee -/

theorem Run.clean {n : Nat} {cnf : List (List Int)} {s : State} (h : Run n cnf s) : Clean n cnf := by
  induction h with
  | start h => exact h.1
  | eliminate _ _ _ ih => exact ih
  | forward _ _ _ _ _ _ ih => exact ih
  | fastel _ _ ih => exact ih
  | substitute _ _ _ ih => exact ih
  | transitive _ _ _ ih => exact ih
  | backbone _ _ _ _ _ ih => exact ih
  | vivify _ _ _ _ _ ih => exact ih
  | factor _ _ _ _ ih => exact ih
  | congruence _ _ _ ih => exact ih
  | sweep _ _ _ _ _ ih => exact ih
  | propagate _ _ _ ih => exact ih
  | unit _ _ _ _ _ _ _ _ _ ih => exact ih
  | conflict _ _ _ _ _ ih => exact ih
  | satisfied _ _ _ _ _ _ _ ih => exact ih
  | reduce _ _ _ _ _ ih => exact ih
  | resume _ _ _ ih => exact ih
  | propagated _ _ _ ih => exact ih
  | learn _ _ _ _ _ _ _ ih => exact ih
  | learnUnit _ _ _ _ _ _ _ ih => exact ih

theorem Reach.fine {orig : List (List Nat)} {I : State → Prop} (hI : ∀ s, I s → Fine orig s) {s : State}
    (h : Reach I s) : Fine orig s := by
  induction h with
  | start h => exact hI _ h
  | eliminate sched h hk ih => exact Fine.eliminateLoop sched hk ih
  | forward elig conn flushed cs _ hi ih => exact (step_forwardSubsume (ih.inv hi) elig conn flushed cs).inv.fine
  | fastel rounds _ ih => exact ih.fastElimination rounds
  | substitute o _ hi ih => exact Fine.substituteRound (ih.inv hi) o
  | transitive sched _ hi ih => exact ((ih.inv hi).transitiveReduction sched).1.fine
  | backbone rounds _ hi hn hb ih =>
    obtain ⟨s', e, h1, _⟩ := (ih.inv hi).backbone rounds (Or.inr hn)
    rw [hb] at e
    injection e with e
    rw [e]; exact h1.fine
  | vivify _ _ _ hi hv ih => exact ((ih.inv hi).vivifyRound hv).1.fine
  | factor bound sched _ hi ih => exact ((ih.inv hi).factorize bound sched).1.fine
  | congruence o _ hi ih => exact (Congruence.congruence_inv (ih.inv hi) hi o).fine
  | sweep os order _ hi hk ih => exact (sweep_inv hk (ih.inv hi) order).fine
  | propagate order _ hi ih => exact ((ih.inv hi).propagateAll order).fine
  | unit r u _ hi hg hu hv hf hrem ih =>
    have h := ih.inv hi
    refine (h.learnedUnit hv (h.struct.clause r hg u hu) hrem ?_).fine
    exact rup_of (Struct.clause_formula hg) fun l hl => by
      by_cases e : l = u
      · exact Or.inl (by simp [e])
      · exact Or.inr (h.struct.neg_unit (hf l hl e))
  | conflict r _ hi hg hf ih =>
    have h := ih.inv hi
    exact (h.learnedEmpty (rup_of (Struct.clause_formula hg) fun l hl => Or.inr (h.struct.neg_unit (hf l hl)))).fine
  | satisfied r o _ hi hg ho hv ih => exact ((ih.inv hi).markSatisfied hg ho hv).fine
  | reduce r _ hi hg hr ih => exact ((ih.inv hi).markGarbage hg (Or.inl hr)).fine
  | resume rs _ hi ih => exact ((ih.inv hi).flushEliminated rs).fine
  | propagated k _ hi ih => exact ((ih.inv hi).setPropagate k).fine
  | learn c _ hi hr h2 hn hc ih =>
    exact ((ih.inv hi).newClause (fun l hl => (hc l hl).1) hn (fun l hl => (hc l hl).2.2) h2
      (fun _ l hl => (hc l hl).2.1) hr).fine
  | learnUnit l _ hi hr hl hv hrem ih => exact ((ih.inv hi).learnedUnit hv hl hrem hr).fine

theorem Run.fine {n : Nat} {cnf : List (List Int)} {s : State} (h : Run n cnf s) :
    Fine (cnf.map fun c => c.map code) s :=
  Reach.fine (fun s hs => by rw [hs.2]; exact (Inv.ofClauses hs.1).fine) h

theorem Struct.sat_irr {orig : List (List Nat)} {s : State} (h : Struct orig s)
    (hs : Satisfiable (ofList orig)) : ∃ σ, SatFormula σ s.formula := by
  obtain ⟨db, h1, h2⟩ := h.proof
  obtain ⟨σ, hσ⟩ := h1.sat hs
  refine ⟨pull s σ, fun c hc => ?_⟩
  have hr : ∀ l ∈ c, s.InRange l := by
    rcases hc with ⟨l, hl, rfl⟩ | ⟨r, hr, rfl⟩
    · intro m hm; rw [List.mem_singleton.1 hm]; exact (h.unit l hl).1
    · exact h.clause r hr
  rw [pull_clause h.nonzero hr]
  obtain ⟨d, hd, hsame⟩ := h2.mem hc
  exact (satClause_same hsame).2 (hσ d hd)

theorem history_zero {F₀ F : Formula} {s : Extend.State} (h : History F₀ s F) :
    ∀ i, s.imports[0]? = some i → i.eliminated = false := by
  induction h with
  | start s h1 h2 h3 h4 h5 => exact fun i hi => h5 i (List.mem_of_getElem? hi)
  | change h hu _ ih =>
    intro i hi
    cases he : i.eliminated with
    | false => rfl
    | true => rw [ih i (hu.new 0 i hi he)] at he; cases he
  | weaken w c h hw hk _ _ _ _ _ ih => 
    intro i hi
    rw [weakenClause_eq] at hi
    exact ih i hi
  | @eliminate s F idx h hk hn ih =>
    intro i hi
    unfold Extend.State.markEliminated at hi
    dsimp only at hi
    rw [List.getElem?_modify] at hi
    have h0 : (s.exportLiteral (2 * idx)).natAbs ≠ 0 := by have := hk.1; omega
    simp only [if_neg h0, Option.map_eq_map, Option.map_id'] at hi
    exact ih i hi

theorem found_value {s : State} {τ : Assignment} {l : Nat} :
    (0 < (s.found τ).values l ↔ litTrue τ l) ∧ (s.found τ).values l ≠ 0 := by
  unfold State.found litTrue
  dsimp only
  rcases Nat.mod_two_eq_zero_or_one l with h | h <;> cases τ (l / 2) <;> simp [h]

/-- Models found for the remaining clauses are extended to models of the original ones. -/
theorem Inv.reconstruct {orig : List (List Nat)} {s : State} (h : Inv orig none s) {τ : Assignment}
    (hτ : SatFormula τ s.irr) :
    ∃ f : Int → Int, (∀ queries, (s.found τ).answers queries = some (queries.map f)) ∧
      ∀ σ : Assignment, (∀ v : Nat, f v ≠ 0 → σ v = decide (f v = v)) → SatFormula σ (ofList orig) := by
  have hS := h.struct
  have hh : History (ofList orig) (s.found τ) (mapF s.ext s.irr) :=
    .change h.hist ⟨rfl, rfl, rfl, rfl, fun _ i h => ⟨i, h, id, fun _ => rfl⟩, fun _ _ h _ => h⟩ fun _ h => h
  refine Props.C43_reconstruction hh ?_ ?_ ?_
  · intro e he i hi
    cases hel : i.eliminated with
    | true => exact Or.inl rfl
    | false =>
      refine Or.inr ⟨?_, found_value.2⟩
      cases hb : e.blocking with
      | false => rfl
      | true =>
        rcases h.witness e he i hi with h1 | h1 | ⟨v, h1, _⟩
        · rw [h1] at hel; cases hel
        · rw [h1.1] at hb; cases hb
        · cases h1
  · intro i hi
    cases him : i.imported with
    | false => rfl
    | true =>
      obtain ⟨h1, h3⟩ := hS.back 0 i hi him (history_zero hh i hi)
      exact absurd h3 (exportLiteral_ne hS.nonzero h1)
  · rintro σ hσ c ⟨d, hd, rfl⟩
    obtain ⟨l, l1, l2⟩ := hτ d hd
    refine ⟨s.ext l, List.mem_map_of_mem l1, ?_⟩
    have hr : s.InRange l ∧ s.removed (l / 2) = false := by
      rcases hd with ⟨k, hk, rfl⟩ | ⟨r, r1, r2, rfl⟩
      · rw [List.mem_singleton.1 l1]; exact hS.unit k hk
      · exact ⟨hS.clause r r1 l l1, hS.removed r r1 r2 l l1⟩
    obtain ⟨i, i1, i2, i3⟩ := hS.imported _ hr.1 hr.2
    obtain ⟨b1, b3⟩ := hS.back _ i i1 i2 i3
    have hv := hσ _ i i1 i2 i3 found_value.2
    have hdiv : i.lit / 2 = l / 2 := by
      apply hS.inj _ _ b1 hr.1
      rw [← exportLiteral_abs, b3]
      rfl
    have key : litTrue σ (s.ext i.lit) ↔ litTrue τ i.lit := by
      rw [← (found_value (s := s) (τ := τ) (l := i.lit)).1]
      unfold litTrue
      rw [ext_div, hdiv, hv]
      have : s.ext i.lit % 2 = 0 := by
        show code _ % 2 = 0
        rw [b3]
        unfold code
        rw [if_neg (by omega)]
        omega
      simp [this]
    rcases eq_or_eq_neg hdiv with e | e
    · rw [← e] at l2 ⊢
      exact key.2 l2
    · have e' : l = Spec.neg i.lit := by rw [e, neg_neg]
      rw [e'] at l2 ⊢
      rw [ext_neg hS.nonzero b1, litTrue_neg, key, ← litTrue_neg]
      exact l2

theorem Inv.sat_iff {orig : List (List Nat)} {s : State} (h : Inv orig none s) :
    Satisfiable (ofList orig) ↔ Satisfiable s.irr := by
  constructor
  · intro hs
    obtain ⟨σ, hσ⟩ := h.struct.sat_irr hs
    exact ⟨σ, fun c hc => hσ c (State.irr_formula hc)⟩
  · rintro ⟨τ, hτ⟩
    obtain ⟨f, _, hf⟩ := h.reconstruct hτ
    exact ⟨fun v => decide (f v = v), hf _ fun _ _ => rfl⟩

end Verif.Simp
