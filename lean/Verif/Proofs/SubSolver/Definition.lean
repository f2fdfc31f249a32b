import Verif.Model.Simp.DefSolver
import Verif.Proofs.SubSolver.Sweep

/-!
# The sub-solver used for extracting definitions only claims what it has a refutation for
-/

namespace Verif.Simp

open Verif.Spec Verif.Model
open Verif.Kitten (Run Problem Good Link Klause SolveOk CoreOk)

/-! ## Refutations from cores -/

theorem rup_weaken {F G : Formula} {c : List Nat} (h : RUP F c) (hF : ∀ d, F d → ∃ e, G e ∧ SameLits d e) : RUP G c :=
  RUP.mono hF (fun _ h => h) h

theorem refutation_of_core : ∀ (L : List (Bool × List Nat)) {P G : Formula}, (∀ d, P d → ∃ e, G e ∧ SameLits d e) →
    (∀ c, (false, c) ∈ L → ∃ d, G d ∧ SameLits c d) → (true, []) ∈ L →
    (∀ (i : Nat) (c : List Nat), L[i]? = some (true, c) → RUP (fun d => P d ∨ ∃ b, (b, d) ∈ L.take i) c) →
    Refutation G (coreLemmas L)
  | [], _, _, _, _, h, _ => by cases h
  | (false, c) :: L, P, G, hP, hG, he, hp => by
    unfold coreLemmas
    refine refutation_of_core L (P := fun d => P d ∨ d = c) ?_ (fun d hd => hG d (List.mem_cons_of_mem _ hd)) ?_ fun i d hi => ?_
    · rintro d (hd | rfl)
      · exact hP d hd
      · exact hG d (by simp)
    · rcases List.mem_cons.1 he with h | h
      · cases h
      · exact h
    · refine rup_weaken (hp (i + 1) d hi) ?_
      rintro e (h | ⟨b, h⟩)
      · exact ⟨e, Or.inl (Or.inl h), SameLits.refl _⟩
      · rw [List.take_succ_cons] at h
        rcases List.mem_cons.1 h with h | h
        · cases h; exact ⟨_, Or.inl (Or.inr rfl), SameLits.refl _⟩
        · exact ⟨e, Or.inr ⟨b, h⟩, SameLits.refl _⟩
  | (true, []) :: L, P, G, hP, hG, he, hp => by
    unfold coreLemmas
    refine .done (rup_weaken (hp 0 [] rfl) ?_)
    rintro e (h | ⟨b, h⟩)
    · exact hP e h
    · cases h
  | (true, a :: c) :: L, P, G, hP, hG, he, hp => by
    unfold coreLemmas
    refine .learn (rup_weaken (hp 0 (a :: c) rfl) ?_) (refutation_of_core L (P := fun d => P d ∨ d = a :: c) ?_ ?_ ?_ fun i d hi => ?_)
    · rintro e (h | ⟨b, h⟩)
      · exact hP e h
      · cases h
    · rintro d (hd | rfl)
      · obtain ⟨e, h1, h2⟩ := hP d hd
        exact ⟨e, Or.inl h1, h2⟩
      · exact ⟨_, Or.inr rfl, SameLits.refl _⟩
    · intro d hd
      obtain ⟨e, h1, h2⟩ := hG d (List.mem_cons_of_mem _ hd)
      exact ⟨e, Or.inl h1, h2⟩
    · rcases List.mem_cons.1 he with h | h
      · cases h
      · exact h
    · refine rup_weaken (hp (i + 1) d hi) ?_
      rintro e (h | ⟨b, h⟩)
      · exact ⟨e, Or.inl (Or.inl h), SameLits.refl _⟩
      · rw [List.take_succ_cons] at h
        rcases List.mem_cons.1 h with h | h
        · cases h; exact ⟨_, Or.inl (Or.inr rfl), SameLits.refl _⟩
        · exact ⟨e, Or.inr ⟨b, h⟩, SameLits.refl _⟩

theorem coreLemmas_mem : ∀ (L : List (Bool × List Nat)) {c : List Nat}, c ∈ coreLemmas L → (true, c) ∈ L
  | [], _, h => by cases h
  | (false, d) :: L, c, h => by
    unfold coreLemmas at h
    exact List.mem_cons_of_mem _ (coreLemmas_mem L h)
  | (true, []) :: L, c, h => by
    unfold coreLemmas at h
    cases h
  | (true, a :: d) :: L, c, h => by
    unfold coreLemmas at h
    rcases List.mem_cons.1 h with rfl | h
    · exact List.mem_cons_self ..
    · exact List.mem_cons_of_mem _ (coreLemmas_mem L h)

/-! ## Histories -/

/-- The history so far. -/
structure DefRun (cs : List (List Nat)) (V : Nat → Prop) (k : Kitten.Kitten) : Prop where
  run : ∃ p f, Run k p f ∧ (∀ c ∈ p.clauses, cs[c.1]? = some c.2) ∧ p.assumptions = []
  heard : Heard V k
  track : k.antecedents = true

theorem defAdd_run {cs : List (List Nat)} {V : Nat → Prop} : ∀ (ds : List (List Nat)) {id : Nat} {k k' : Kitten.Kitten},
    DefRun cs V k → FreshCalls k → cs.drop id = ds → (∀ c ∈ ds, ∀ e ∈ c, V (e / 2)) → defAdd id ds k = some k' → DefRun cs V k'
  | [], _, _, _, h, _, _, _, he => by cases he; exact h
  | c :: ds, id, k, k', h, hf, hd, hV, he => by
    unfold defAdd at he
    cases hc : k.clause id c none with
    | none => rw [hc] at he; cases he
    | some k1 =>
      rw [hc] at he
      obtain ⟨p, f, r1, r2, r3⟩ := h.run
      obtain ⟨f1, f2⟩ := fresh_clause hf hc
      have hfil : (c.filter fun e => some e ≠ none) = c := List.filter_eq_self.2 (by simp)
      have hid : cs[id]? = some c := by
        have : (cs.drop id)[0]? = some c := by rw [hd]; rfl
        rw [List.getElem?_drop] at this
        simpa using this
      have hd' : cs.drop (id + 1) = ds := by
        rw [← List.drop_drop, Nat.add_comm] at *
        rw [hd]; rfl
      refine defAdd_run ds (id := id + 1) ⟨⟨_, f, Run.clause r1 hc (fresh_blocked hf _), ?_, ?_⟩,
          heard_clause (Kitten.run_rinv r1).good h.heard hc (hV c (by simp)), f2.trans h.track⟩ f1 hd'
          (fun c hc => hV c (List.mem_cons_of_mem _ hc)) he
      · intro d hd
        have hd : d ∈ p.clauses ++ [(id, c.filter fun e => some e ≠ none)] := hd
        rw [hfil] at hd
        rcases List.mem_append.1 hd with hd | hd
        · exact r2 d hd
        · rw [List.mem_singleton.1 hd]; exact hid
      · rw [hf.status, ready_zero]
        exact r3

theorem reconnect_same : ∀ (cs : List Klause) (k : Kitten.Kitten), (Kitten.Kitten.reconnect cs k).exports = k.exports ∧
    (Kitten.Kitten.reconnect cs k).antecedents = k.antecedents
  | [], _ => ⟨rfl, rfl⟩
  | c :: cs, k => by
    unfold Kitten.Kitten.reconnect
    dsimp only
    split
    · split
      · exact reconnect_same cs _
      · exact reconnect_same cs _
    · exact reconnect_same cs _
    · exact reconnect_same cs _

theorem shrink_same {k k' : Kitten.Kitten} (h : k.shrink = some k') : k'.exports = k.exports ∧ k'.antecedents = k.antecedents := by
  unfold Kitten.Kitten.shrink at h
  split at h
  · cases h
  · split at h
    · cases h
    · split at h
      · cases h
      · cases h
        exact reconnect_same _ _

/-- The core after a search. -/
structure DefCore (cs : List (List Nat)) (V : Nat → Prop) (k : Kitten.Kitten) : Prop where
  before : DefRun cs V k
  status : k.status = 21
  ids : ∃ ids, k.coreIds = some ids ∧ ∀ c, (false, c) ∈ k.coreList → ∃ i ∈ ids, ∃ d, cs[i]? = some d ∧ c.Perm d
  clauses : k.coreClauses = some k.coreList
  empty : (true, []) ∈ k.coreList
  proof : ∀ (i : Nat) (c : List Nat), k.coreList[i]? = some (true, c) → RUP (fun d => ∃ b, (b, d) ∈ k.coreList.take i) c
  vars : ∀ b c, (b, c) ∈ k.coreList → ∀ l ∈ c, V (l / 2)

theorem defSolve_run {cs : List (List Nat)} {V : Nat → Prop} {k k' : Kitten.Kitten} {o : DefChoice} (hcs : ∀ c ∈ cs, c ≠ [])
    (h : DefRun cs V k) (he : defSolve o k = some k') : DefCore cs V k' := by
  unfold defSolve at he
  obtain ⟨p, f, r1, r2, r3⟩ := h.run
  cases hs : k.solve o.choice o.rounds with
  | undefined => rw [hs] at he; cases he
  | unfinished => rw [hs] at he; cases he
  | done res k1 =>
    rw [hs] at he
    dsimp only at he
    by_cases e20 : res = 20
    · rw [if_pos e20] at he
      subst e20
      obtain ⟨s1, s2⟩ := Kitten.solved r1 hs
      have s2 : Link k1 (p.ready k.status) := s2
      have r4 := Run.solve r1 hs
      have hpc : (p.ready k.status).clauses = p.clauses := ready_clauses
      have hpa : (p.ready k.status).assumptions = [] := by unfold Problem.ready; split <;> first | rfl | exact r3
      have hco := Kitten.computeCore_ok s1.good he
      have hg2 := Kitten.core_good s1.good hco
      have hst2 := Kitten.calm_store hg2
      have hl2 := Kitten.link_core s2 hco
      have ha1 : k1.assumptions = [] := by rw [s2.assumptions, hpa]; rfl
      have ht : k'.antecedents = true := (hco.alike.antecedents.trans s1.antecedents).trans h.track
      have hh : Heard V k' := by unfold Heard; rw [hco.alike.exports, s1.exports]; exact h.heard
      refine ⟨⟨⟨_, _, Run.core r4 he, ?_, hpa⟩, hh, ht⟩, hco.status, ?_, Kitten.coreClauses_eq hst2 hco.status hco.valid, ?_, ?_, ?_⟩
      · show ∀ c ∈ (p.ready k.status).clauses, _
        rw [hpc]; exact r2
      · refine ⟨_, if_neg (by rw [hco.status]; simp), fun c hc => ?_⟩
        obtain ⟨d, d1, d2, _, ids, d3, d4⟩ := Kitten.core_given s1.good s2 hco hc
        unfold Kitten.Kitten.coreIds at d3
        rw [if_neg (by rw [hco.status]; simp)] at d3
        cases d3
        rw [hpc] at d1
        exact ⟨d.1, d4, d.2, r2 d d1, d2⟩
      · rcases s1.unsat rfl with hi | ⟨hi, h1, h2⟩
        · cases hr : k1.inconsistent with
          | none => exact absurd hr hi
          | some r =>
            obtain ⟨⟨kl, g1, g2⟩, _⟩ := hst2.inconsistent r (hco.alike.inconsistent.trans hr)
            have g2 := g2 ht
            have hm := Kitten.coreList_mem (hco.root r (by rw [hr]; rfl)) g1
            rw [g2] at hm
            cases hlr : kl.learned with
            | true => rw [hlr] at hm; exact hm
            | false =>
              obtain ⟨c, c1, _, c2⟩ := hl2.given kl (List.mem_of_getElem? g1) hlr
              rw [g2] at c2
              have := List.map_eq_nil_iff.1 c2.symm.eq_nil
              rw [hpc] at c1
              exact absurd this (hcs _ (List.mem_of_getElem? (r2 c c1)))
        · exfalso
          have hn : k1.failing = none := by
            cases hx : k1.failing with
            | none => rfl
            | some r => exact absurd ha1 (s1.good.failing (by rw [hx]; simp))
          obtain ⟨a, a1, _⟩ := h2 hn
          have := s1.good.failed a a1
          rw [ha1] at this
          cases this
      · intro i c hi
        exact Kitten.core_proof hg2.names hst2 ht hco.valid hco.topo hi
      · intro b c hm l hl
        obtain ⟨i, hi⟩ := List.getElem?_of_mem hm
        obtain ⟨r, kl, g1, g2, g3, rfl⟩ := Kitten.coreList_get hco.valid hi
        obtain ⟨m, hm, rfl⟩ := List.mem_map.1 hl
        have hlt : m / 2 < k'.exports.length := hst2.valid kl (List.mem_of_getElem? g2) m hm
        have : k'.outer m / 2 = k'.exports[m / 2] := by
          unfold Kitten.Kitten.outer
          rw [List.getD_eq_getElem?_getD, List.getElem?_eq_getElem hlt]
          show (2 * k'.exports[m / 2] + m % 2) / 2 = _
          omega
        rw [this]
        exact hh _ (List.getElem_mem hlt)
    · rw [if_neg e20] at he
      cases he

theorem defCores_run {cs : List (List Nat)} {V : Nat → Prop} (o : Nat → DefChoice) (hcs : ∀ c ∈ cs, c ≠ []) :
    ∀ (n : Nat) {k k' : Kitten.Kitten}, DefCore cs V k → defCores o n k = some k' → DefCore cs V k'
  | 0, _, _, h, he => by cases he; exact h
  | n + 1, k, k', h, he => by
    unfold defCores at he
    cases h1 : k.shrink with
    | none => rw [h1] at he; cases he
    | some k1 =>
      rw [h1] at he
      dsimp only at he
      cases h2 : k1.shuffle (o n).pick (o n).pickUnit with
      | none => rw [h2] at he; cases he
      | some k2 =>
        rw [h2] at he
        dsimp only at he
        cases h3 : defSolve (o n) k2 with
        | none => rw [h3] at he; cases he
        | some k3 =>
          rw [h3] at he
          obtain ⟨p, f, r1, r2, r3⟩ := h.before.run
          obtain ⟨x1, x2⟩ := shrink_same h1
          have y : k2.exports = k1.exports ∧ k2.antecedents = k1.antecedents := by
            unfold Kitten.Kitten.shuffle at h2
            split at h2
            · cases h2
            · cases h2; exact ⟨rfl, rfl⟩
          have hr := Run.shuffle (Run.shrink r1 h1 fun c hc => hcs _ (List.mem_of_getElem? (r2 c hc))) h2
          have : DefRun cs V k2 := ⟨⟨_, _, hr, fun c hc => r2 c (List.mem_filter.1 hc).1, r3⟩,
            by unfold Heard; rw [y.1, x1]; exact h.before.heard, (y.2.trans x2).trans h.before.track⟩
          exact defCores_run o hcs n (defSolve_run hcs this h3) he

/-- Whatever decisions, phases, limits, random numbers and number of attempts, kitten only claims what it has a refutation for. -/
theorem defSolver_sound (o : Nat → DefChoice) (cores : Nat) : (defSolver o cores).Sound := by
  intro cs core lemmas hcs he
  let V : Nat → Prop := fun v => ∃ d ∈ cs, ∃ m ∈ d, m / 2 = v
  unfold defSolver at he
  cases h0 : Kitten.Kitten.init.track with
  | none => rw [h0] at he; cases he
  | some k0 =>
    rw [h0] at he
    dsimp only at he
    have e0 : k0 = { Kitten.Kitten.init with antecedents := true } := by
      unfold Kitten.Kitten.track at h0
      rw [if_neg (by simp [Kitten.Kitten.init])] at h0
      cases h0; rfl
    have r0 : DefRun cs V k0 := by
      refine ⟨⟨_, _, Run.track Run.init h0, fun c hc => (by cases hc), rfl⟩, ?_, ?_⟩
      · rw [e0]; intro v hv; cases hv
      · rw [e0]
    cases h1 : defAdd 0 cs k0 with
    | none => rw [h1] at he; cases he
    | some k1 =>
      rw [h1] at he
      dsimp only at he
      have r1 := defAdd_run cs r0 (by rw [e0]; exact ⟨rfl, rfl⟩) rfl (fun c hc e he => ⟨c, hc, e, he, rfl⟩) h1
      cases h2 : defSolve (o cores) k1 with
      | none => rw [h2] at he; cases he
      | some k2 =>
        rw [h2] at he
        dsimp only at he
        have r2 := defSolve_run hcs r1 h2
        cases h3 : defCores o cores k2 with
        | none => rw [h3] at he; cases he
        | some k3 =>
          rw [h3] at he
          dsimp only at he
          have r3 := defCores_run o hcs cores r2 h3
          obtain ⟨ids, i1, i2⟩ := r3.ids
          rw [i1, r3.clauses] at he
          cases he
          refine ⟨refutation_of_core _ (P := fun _ => False) (fun d hd => hd.elim) (fun c hc => ?_) r3.empty fun i c hi => ?_,
            fun c hc l hl => r3.vars true c (coreLemmas_mem _ hc) l hl⟩
          · obtain ⟨i, i3, d, i4, i5⟩ := i2 c hc
            exact ⟨d, ⟨i, i3, i4⟩, Kitten.perm_same i5⟩
          · refine rup_weaken (r3.proof i c hi) fun d hd => ⟨d, Or.inr hd, SameLits.refl _⟩

end Verif.Simp
