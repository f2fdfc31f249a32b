import Verif.Model.Simp.SubSolver
import Verif.Proofs.Kitten.Semantics

/-!
# The sub-solver used for sweeping only claims what it has a core for
-/

namespace Verif.Simp

open Verif.Spec Verif.Model
open Verif.Kitten (Run Problem Good Link Klause SolveOk CoreOk)

/-! ## Known variables -/

/-- Variables known to the sub-solver satisfy `V`. -/
def Heard (V : Nat → Prop) (k : Kitten.Kitten) : Prop := ∀ v ∈ k.exports, V v

theorem heard_import {V : Nat → Prop} {k : Kitten.Kitten} {e : Nat} (h : Heard V k) (he : V (e / 2)) : Heard V (k.importLit e).1 := by
  unfold Kitten.Kitten.importLit
  dsimp only
  split
  · intro v hv
    rcases List.mem_append.1 hv with hv | hv
    · exact h v hv
    · rw [List.mem_singleton.1 hv]; exact he
  · exact h

theorem heard_importAll {V : Nat → Prop} : ∀ (es lits : List Nat) {k k' : Kitten.Kitten} {out : List Nat},
    Kitten.Kitten.importAll es lits k = some (k', out) → Heard V k → (∀ e ∈ es, V (e / 2)) → Heard V k'
  | [], _, _, _, _, h, hk, _ => by
    unfold Kitten.Kitten.importAll at h
    cases h; exact hk
  | e :: es, lits, k, k', out, h, hk, hV => by
    unfold Kitten.Kitten.importAll at h
    have h1 := heard_import hk (hV e (by simp))
    generalize k.importLit e = p at h h1
    obtain ⟨k1, i⟩ := p
    dsimp only at h
    split at h
    · cases h
    · exact heard_importAll es _ h h1 fun e he => hV e (List.mem_cons_of_mem _ he)

theorem heard_ready {V : Nat → Prop} {k : Kitten.Kitten} (hg : Good k) (h : Heard V k) : Heard V k.ready := by
  obtain ⟨_, _, h1, _⟩ := Kitten.ready_ok hg
  unfold Heard
  rw [h1]; exact h

theorem heard_clause {V : Nat → Prop} {k k' : Kitten.Kitten} {id : Nat} {c : List Nat} (hg : Good k) (h : Heard V k)
    (he : k.clause id c none = some k') (hV : ∀ e ∈ c, V (e / 2)) : Heard V k' := by
  unfold Kitten.Kitten.clause at he
  cases hi : Kitten.Kitten.importAll (c.filter fun e => some e ≠ none) [] k.ready with
  | none => rw [hi] at he; cases he
  | some x =>
    obtain ⟨k2, lits⟩ := x
    rw [hi] at he
    simp only [Option.some.injEq] at he
    subst he
    have := heard_importAll _ _ hi (heard_ready hg h) fun e he => hV e (List.mem_filter.1 he).1
    intro v hv
    rw [Kitten.newOriginal_eq, Kitten.add_exports] at hv
    exact this v hv

theorem heard_assume {V : Nat → Prop} {k : Kitten.Kitten} {e : Nat} (hg : Good k) (h : Heard V k) (he : V (e / 2)) : Heard V (k.assume e) := by
  have := heard_import (heard_ready hg h) he
  unfold Kitten.Kitten.assume
  generalize k.ready.importLit e = p at this
  obtain ⟨k1, i⟩ := p
  exact this

/-! ## Histories -/

theorem ready_zero {p : Problem} : p.ready 0 = p := rfl

theorem ready_some {p : Problem} {n : Nat} (h : n ≠ 0) : p.ready n = { p with assumptions := [] } := if_pos h

theorem ready_clauses {p : Problem} {n : Nat} : (p.ready n).clauses = p.clauses := by unfold Problem.ready; split <;> rfl

/-- The history so far. -/
structure SubRun (env : List (List Nat)) (V : Nat → Prop) (k : Kitten.Kitten) (as : List Nat) : Prop where
  run : ∃ p f, Run k p f ∧ p.clauses = env.map (fun c => (0, c)) ∧ (p.ready k.status).assumptions = as
  heard : Heard V k
  track : k.antecedents = true

theorem status_assume {k : Kitten.Kitten} {e : Nat} (hg : Good k) : (k.assume e).status = 0 ∧ (k.assume e).antecedents = k.antecedents := by
  obtain ⟨_, h1, _, _, _, _, h2, _⟩ := Kitten.ready_ok hg
  unfold Kitten.Kitten.assume Kitten.Kitten.importLit
  dsimp only
  split
  · exact ⟨h1, h2⟩
  · exact ⟨h1, h2⟩

theorem subAssume_run {env : List (List Nat)} {V : Nat → Prop} : ∀ (bs : List Nat) {k : Kitten.Kitten} {as : List Nat},
    SubRun env V k as → (∀ b ∈ bs, V (b / 2)) → SubRun env V (subAssume k bs) (as ++ bs)
  | [], k, as, h, _ => by rw [List.append_nil]; exact h
  | b :: bs, k, as, h, hV => by
    obtain ⟨p, f, h1, h2, h3⟩ := h.run
    have hg := (Kitten.run_rinv h1).good
    have hs := status_assume (e := b) hg
    have : SubRun env V (k.assume b) (as ++ [b]) := by
      refine ⟨⟨_, f, Run.assume b h1, ?_, ?_⟩, heard_assume hg h.heard (hV b (by simp)), hs.2.trans h.track⟩
      · show (p.ready k.status).clauses = _
        rw [ready_clauses]; exact h2
      · rw [hs.1, ready_zero]
        show (p.ready k.status).assumptions ++ [b] = _
        rw [h3]
    have := subAssume_run bs this fun b hb => hV b (List.mem_cons_of_mem _ hb)
    rw [List.append_assoc] at this
    exact this

theorem subFlips_run {env : List (List Nat)} {V : Nat → Prop} {as : List Nat} : ∀ (es : List Nat) {k k' : Kitten.Kitten},
    SubRun env V k as → subFlips es k = some k' → SubRun env V k' as
  | [], _, _, h, he => by cases he; exact h
  | e :: es, k, k', h, he => by
    unfold subFlips at he
    cases hf : k.flip e with
    | none => rw [hf] at he; cases he
    | some x =>
      obtain ⟨k1, res⟩ := x
      rw [hf] at he
      obtain ⟨p, f, h1, h2, h3⟩ := h.run
      obtain ⟨b1, b2⟩ := Kitten.run_both h1
      obtain ⟨f1, f2⟩ := Kitten.flip_ok b1.good b2 hf
      have hr := f1.rest
      have hst : k1.status = k.status := by rw [hr]
      refine subFlips_run es ⟨⟨p, f, Run.flip h1 hf, h2, by rw [hst]; exact h3⟩, ?_, ?_⟩ he
      · unfold Heard; rw [hr]; exact h.heard
      · rw [hr]; exact h.track

/-! ## Cores -/

theorem failed_clause {k k1 k2 : Kitten.Kitten} {p : Problem} (hs : SolveOk k k1 20) (hl : Link k1 p) (hc : CoreOk k1 k2)
    (hd : ∀ a ∈ p.assumptions, neg a ∉ p.assumptions) : ∃ b c, (b, c) ∈ k2.coreList ∧ ∀ l ∈ c, neg l ∈ p.assumptions := by
  have hg2 := Kitten.core_good hs.good hc
  have hst2 := Kitten.calm_store hg2
  have ha2 : k2.antecedents = true := hc.alike.antecedents.trans hc.before.2
  have hn := hs.good.names
  have key : ∀ {l : Nat}, k1.failed l = true → l / 2 < k1.n ∧ k1.outer l ∈ p.assumptions := by
    intro l hf
    obtain ⟨e, h1, h2, h3⟩ := Kitten.failed_known hs.good hl hf
    refine ⟨?_, ?_⟩
    · rw [← h2]; exact Kitten.inner_lt hn h3
    · rw [← h2, Kitten.outer_inner hn h3]; exact h1
  rcases hs.unsat rfl with hi | ⟨hi, h1, h2⟩
  · cases hr : k1.inconsistent with
    | none => exact absurd hr hi
    | some r =>
      obtain ⟨⟨kl, g1, g2⟩, _⟩ := hst2.inconsistent r (hc.alike.inconsistent.trans hr)
      refine ⟨_, _, Kitten.coreList_mem (hc.root r (by rw [hr]; rfl)) g1, fun l hl => ?_⟩
      rw [g2 ha2] at hl; cases hl
  · cases hr : k1.failing with
    | none =>
      obtain ⟨a, a1, a2⟩ := h2 hr
      obtain ⟨b1, b2⟩ := key a1
      obtain ⟨b3, b4⟩ := key a2
      rw [(Kitten.outer_renaming hn).1 a b1] at b4
      exact absurd b4 (hd _ b2)
    | some r =>
      obtain ⟨kl, g1, g2⟩ := h1 r hr
      obtain ⟨kl', g3, g4, _⟩ := Kitten.SameKs.get hc.alike.klauses.symm g1
      refine ⟨_, _, Kitten.coreList_mem (hc.root r (by rw [hi, hr]; rfl)) g3, fun l hl' => ?_⟩
      obtain ⟨m, hm, rfl⟩ := List.mem_map.1 hl'
      rw [g4] at hm
      obtain ⟨b1, b2⟩ := key (g2 m hm)
      have hmn : m / 2 < k1.n := by rw [← neg_div m]; exact b1
      have : k2.outer m = k1.outer m := by unfold Kitten.Kitten.outer; rw [hc.alike.exports]
      rw [this, ← (Kitten.outer_renaming hn).1 m hmn]
      exact b2

theorem subCall_run {env : List (List Nat)} {V : Nat → Prop} {k k' : Kitten.Kitten} {as : List Nat} {core : Option SweepCore}
    {o : SubChoice} (h : SubRun env V k []) (hV : ∀ a ∈ as, V (a / 2))
    (he : subCall o k as = some (k', core)) : SubRun env V k' [] ∧
      ∀ cs, core = some cs → (∀ a ∈ as, neg a ∉ as) → (∀ c, (false, c) ∈ cs → ∃ d ∈ env, c.Perm d) ∧
        (∀ (i : Nat) (c : List Nat), cs[i]? = some (true, c) → RUP (fun d => ∃ b, (b, d) ∈ cs.take i) c) ∧
        (∃ b c, (b, c) ∈ cs ∧ ∀ l ∈ c, neg l ∈ as) ∧ ∀ b c, (b, c) ∈ cs → ∀ l ∈ c, V (l / 2) := by
  have h1 := subAssume_run as h hV
  rw [List.nil_append] at h1
  generalize hk0 : subAssume k as = k0 at h1
  unfold subCall at he
  rw [hk0] at he
  obtain ⟨p, f, r1, r2, r3⟩ := h1.run
  cases hs : k0.solve o.choice o.rounds with
  | undefined => rw [hs] at he; cases he
  | unfinished => rw [hs] at he; cases he
  | done res k1 =>
    obtain ⟨s1, s2⟩ := Kitten.solved r1 hs
    have r4 := Run.solve r1 hs
    have hh : Heard V k1 := by unfold Heard; rw [s1.exports]; exact h1.heard
    have ht : k1.antecedents = true := s1.antecedents.trans h1.track
    rw [hs] at he
    dsimp only at he
    by_cases e20 : res = 20
    · rw [if_pos e20] at he
      subst e20
      cases hc : k1.computeCore with
      | none => rw [hc] at he; cases he
      | some k2 =>
        rw [hc] at he
        dsimp only at he
        have hco := Kitten.computeCore_ok s1.good hc
        have hg2 := Kitten.core_good s1.good hco
        have hst2 := Kitten.calm_store hg2
        rw [Kitten.coreClauses_eq hst2 hco.status hco.valid] at he
        simp only [Option.map_some, Option.some.injEq, Prod.mk.injEq] at he
        obtain ⟨e1, e2⟩ := he
        subst e1
        have s2' : Link k1 (p.ready k0.status) := s2
        have hh2 : Heard V k2 := by unfold Heard; rw [hco.alike.exports]; exact hh
        refine ⟨⟨⟨_, _, Run.core r4 hc, ?_, ?_⟩, hh2, hco.alike.antecedents.trans ht⟩, ?_⟩
        · show (p.ready k0.status).clauses = _
          rw [ready_clauses]; exact r2
        · rw [hco.status, ready_some (by simp)]
        · intro cs hcs hd
          rw [← e2] at hcs
          cases hcs
          refine ⟨fun c hm => ?_, fun i c hi => ?_, ?_, fun b c hm l hl => ?_⟩
          · obtain ⟨d, d1, d2, _⟩ := Kitten.core_given s1.good s2' hco hm
            rw [ready_clauses, r2] at d1
            obtain ⟨c', c1, rfl⟩ := List.mem_map.1 d1
            exact ⟨c', c1, d2⟩
          · exact Kitten.core_proof hg2.names hst2 (hco.alike.antecedents.trans ht) hco.valid hco.topo hi
          · have := failed_clause s1 s2' hco (by rw [r3]; exact hd)
            rw [r3] at this
            exact this
          · obtain ⟨i, hi⟩ := List.getElem?_of_mem hm
            obtain ⟨r, kl, g1, g2, g3, rfl⟩ := Kitten.coreList_get hco.valid hi
            obtain ⟨m, hm, rfl⟩ := List.mem_map.1 hl
            have hlt : m / 2 < k2.exports.length := hst2.valid kl (List.mem_of_getElem? g2) m hm
            have : k2.outer m / 2 = k2.exports[m / 2] := by
              unfold Kitten.Kitten.outer
              rw [List.getD_eq_getElem?_getD, List.getElem?_eq_getElem hlt]
              show (2 * k2.exports[m / 2] + m % 2) / 2 = _
              omega
            rw [this]
            exact hh2 _ (List.getElem_mem hlt)
    · rw [if_neg e20] at he
      have h5 : SubRun env V k1 [] := by
        refine ⟨⟨_, _, r4, ?_, ?_⟩, hh, ht⟩
        · split
          · exact r2
          · rw [ready_clauses]; exact r2
        · rw [s1.status]
          by_cases e0 : res = 0
          · rw [if_pos e0, e0, ready_zero]
          · rw [ready_some e0]
      by_cases e10 : res = 10
      · rw [if_pos e10] at he
        cases hf : subFlips o.flips k1 with
        | none => rw [hf] at he; cases he
        | some k2 =>
          rw [hf] at he
          cases he
          exact ⟨subFlips_run _ h5 hf, fun cs hcs => by cases hcs⟩
      · rw [if_neg e10] at he
        cases he
        exact ⟨h5, fun cs hcs => by cases hcs⟩

theorem subCalls_run {env : List (List Nat)} {V : Nat → Prop} {o : Nat → SubChoice} :
    ∀ (calls : List (List Nat)) {n : Nat} {k k' : Kitten.Kitten}, SubRun env V k [] → (∀ as ∈ calls, ∀ a ∈ as, V (a / 2)) →
    subCalls o n calls k = some k' → SubRun env V k' []
  | [], _, _, _, h, _, he => by cases he; exact h
  | as :: calls, n, k, k', h, hV, he => by
    unfold subCalls at he
    cases hc : subCall (o n) k as with
    | none => rw [hc] at he; cases he
    | some x =>
      obtain ⟨k1, core⟩ := x
      rw [hc] at he
      exact subCalls_run calls (subCall_run h (hV as (by simp)) hc).1 (fun as has => hV as (List.mem_cons_of_mem _ has)) he

/-! ## Copying clauses -/

/-- Before the first search nothing is assigned. -/
structure FreshCalls (k : Kitten.Kitten) : Prop where
  status : k.status = 0
  values : k.values = fun _ => 0

theorem fresh_import {k : Kitten.Kitten} {e : Nat} (h : FreshCalls k) : FreshCalls (k.importLit e).1 := by
  unfold Kitten.Kitten.importLit
  dsimp only
  split
  · exact ⟨h.status, h.values⟩
  · exact h

theorem fresh_importAll : ∀ (es lits : List Nat) {k k' : Kitten.Kitten} {out : List Nat},
    Kitten.Kitten.importAll es lits k = some (k', out) → FreshCalls k → FreshCalls k'
  | [], _, _, _, _, h, hk => by
    unfold Kitten.Kitten.importAll at h
    cases h; exact hk
  | e :: es, lits, k, k', out, h, hk => by
    unfold Kitten.Kitten.importAll at h
    have h1 := fresh_import (e := e) hk
    generalize k.importLit e = p at h h1
    obtain ⟨k1, i⟩ := p
    dsimp only at h
    split at h
    · cases h
    · exact fresh_importAll es _ h h1

theorem ants_importAll : ∀ (es lits : List Nat) {k k' : Kitten.Kitten} {out : List Nat},
    Kitten.Kitten.importAll es lits k = some (k', out) → k'.antecedents = k.antecedents
  | [], _, _, _, _, h => by
    unfold Kitten.Kitten.importAll at h
    cases h; rfl
  | e :: es, lits, k, k', out, h => by
    unfold Kitten.Kitten.importAll at h
    have h1 : (k.importLit e).1.antecedents = k.antecedents := by
      unfold Kitten.Kitten.importLit
      dsimp only
      split <;> rfl
    generalize k.importLit e = p at h h1
    obtain ⟨k1, i⟩ := p
    dsimp only at h
    split at h
    · cases h
    · exact (ants_importAll es _ h).trans h1

theorem fresh_clause {k k' : Kitten.Kitten} {id : Nat} {c : List Nat} (h : FreshCalls k) (he : k.clause id c none = some k') :
    FreshCalls k' ∧ k'.antecedents = k.antecedents := by
  have hr : k.ready = k := if_neg (by simp [h.status])
  unfold Kitten.Kitten.clause at he
  rw [hr] at he
  cases hi : Kitten.Kitten.importAll (c.filter fun e => some e ≠ none) [] k with
  | none => rw [hi] at he; cases he
  | some x =>
    obtain ⟨k2, lits⟩ := x
    rw [hi] at he
    simp only [Option.some.injEq] at he
    subst he
    have h1 := fresh_importAll _ _ hi h
    have h2 := ants_importAll _ _ hi
    rw [Kitten.newOriginal_eq]
    exact ⟨⟨by rw [Kitten.add_status]; exact h1.status, by rw [Kitten.add_values]; exact h1.values⟩,
      by rw [Kitten.add_antecedents]; exact h2⟩

theorem fresh_blocked {k : Kitten.Kitten} (h : FreshCalls k) (c : List Nat) : k.blocked c = false := by
  have hf : ∀ e, k.fixed e = 0 := by
    intro e
    unfold Kitten.Kitten.fixed
    rw [h.values]
    dsimp only
    repeat' split
    all_goals first | rfl | (simp at *)
  unfold Kitten.Kitten.blocked
  split
  · rw [if_neg (by rw [hf]; simp)]
  · rfl

theorem subAdd_run {V : Nat → Prop} : ∀ (cs pre : List (List Nat)) {k k' : Kitten.Kitten}, SubRun pre V k [] → FreshCalls k →
    (∀ c ∈ cs, ∀ e ∈ c, V (e / 2)) → subAdd cs k = some k' → SubRun (pre ++ cs) V k' []
  | [], pre, _, _, h, _, _, he => by
    cases he
    rw [List.append_nil]; exact h
  | c :: cs, pre, k, k', h, hf, hV, he => by
    unfold subAdd at he
    cases hc : k.clause 0 c none with
    | none => rw [hc] at he; cases he
    | some k1 =>
      rw [hc] at he
      obtain ⟨p, f, r1, r2, r3⟩ := h.run
      obtain ⟨f1, f2⟩ := fresh_clause hf hc
      have hfil : (c.filter fun e => some e ≠ none) = c := List.filter_eq_self.2 (by simp)
      have : SubRun (pre ++ [c]) V k1 [] := by
        refine ⟨⟨_, f, Run.clause r1 hc (fresh_blocked hf _), ?_, ?_⟩,
          heard_clause (Kitten.run_rinv r1).good h.heard hc (hV c (by simp)), f2.trans h.track⟩
        · show p.clauses ++ [(0, c.filter fun e => some e ≠ none)] = _
          rw [r2, hfil]; simp
        · rw [f1.status, ready_zero]
          exact r3
      have := subAdd_run cs (pre ++ [c]) this f1 (fun c hc => hV c (List.mem_cons_of_mem _ hc)) he
      rw [List.append_assoc] at this
      exact this

/-- Whatever decisions, phases, limits and flipped literals, kitten only claims what it has a core for. -/
theorem subSolver_sound (o : Nat → SubChoice) : (subSolver o).Sound := by
  intro env calls as core hd he
  let V : Nat → Prop := fun v => (∃ d ∈ env, ∃ m ∈ d, m / 2 = v) ∨ (∃ a ∈ as, a / 2 = v) ∨ ∃ as ∈ calls, ∃ a ∈ as, a / 2 = v
  unfold subSolver at he
  cases h0 : Kitten.Kitten.init.track with
  | none => rw [h0] at he; cases he
  | some k0 =>
    rw [h0] at he
    dsimp only at he
    have e0 : k0 = { Kitten.Kitten.init with antecedents := true } := by
      unfold Kitten.Kitten.track at h0
      rw [if_neg (by simp [Kitten.Kitten.init])] at h0
      cases h0; rfl
    have r0 : SubRun [] V k0 [] := by
      refine ⟨⟨_, _, Run.track Run.init h0, rfl, ?_⟩, ?_, ?_⟩
      · rw [e0]; rfl
      · rw [e0]; intro v hv; cases hv
      · rw [e0]
    cases h1 : subAdd env k0 with
    | none => rw [h1] at he; cases he
    | some k1 =>
      rw [h1] at he
      dsimp only at he
      have r1 := subAdd_run env [] r0 (by rw [e0]; exact ⟨rfl, rfl⟩) (fun c hc e he => Or.inl ⟨c, hc, e, he, rfl⟩) h1
      rw [List.nil_append] at r1
      cases h2 : subCalls o 0 calls k1 with
      | none => rw [h2] at he; cases he
      | some k2 =>
        rw [h2] at he
        dsimp only at he
        have r2 := subCalls_run calls r1 (fun as has a ha => Or.inr (Or.inr ⟨as, has, a, ha, rfl⟩)) h2
        cases h3 : subCall (o calls.length) k2 as with
        | none => rw [h3] at he; cases he
        | some x =>
          obtain ⟨k3, core'⟩ := x
          rw [h3] at he
          obtain ⟨_, r3⟩ := subCall_run r2 (fun a ha => Or.inr (Or.inl ⟨a, ha, rfl⟩)) h3
          obtain ⟨a1, a2, a3, a4⟩ := r3 core he hd
          exact ⟨a1, a2, a3, a4⟩

end Verif.Simp
