import Verif.Proofs.Kitten.Run
import Verif.Proofs.External

/-! # Answers of kitten in terms of the literals of the caller -/

namespace Verif.Kitten

open Verif.Spec
open Verif.Core (upd)

/-- The external literal. -/
def Kitten.outer (k : Kitten) (l : Nat) : Nat := 2 * k.exports.getD (l / 2) 0 + l % 2

/-- Assignment of the internal variables. -/
def Kitten.inward (k : Kitten) (σ : Assignment) : Assignment := fun i => σ (k.exports.getD i 0)

theorem litTrue_outer (k : Kitten) (σ : Assignment) (l : Nat) : litTrue (k.inward σ) l ↔ litTrue σ (k.outer l) := by
  unfold litTrue Kitten.inward Kitten.outer
  rw [show (2 * k.exports.getD (l / 2) 0 + l % 2) / 2 = k.exports.getD (l / 2) 0 by omega,
    show (2 * k.exports.getD (l / 2) 0 + l % 2) % 2 = l % 2 by omega]

theorem outer_inner {k : Kitten} (h : Names k) {e : Nat} (he : k.imports (e / 2) ≠ 0) : k.outer (k.inner e) = e := by
  unfold Kitten.outer
  rw [inner_div]
  have h1 := (h (e / 2) (k.imports (e / 2) - 1)).2 (by omega)
  rw [List.getD_eq_getElem?_getD, h1]
  unfold Kitten.inner
  simp only [Option.getD_some]
  omega

theorem inner_lt {k : Kitten} (h : Names k) {e : Nat} (he : k.imports (e / 2) ≠ 0) : k.inner e / 2 < k.n := by
  rw [inner_div]
  have h1 := (h (e / 2) (k.imports (e / 2) - 1)).2 (by omega)
  exact lt_of_get h1

theorem inner_outer {k : Kitten} (h : Names k) {l : Nat} (hl : l / 2 < k.n) : k.inner (k.outer l) = l ∧ k.imports (k.outer l / 2) ≠ 0 := by
  have hd : k.outer l / 2 = k.exports.getD (l / 2) 0 := by unfold Kitten.outer; omega
  have hlt : l / 2 < k.exports.length := hl
  have hg : k.exports.getD (l / 2) 0 = k.exports[l / 2] := by
    rw [List.getD_eq_getElem?_getD, List.getElem?_eq_getElem hlt]; rfl
  have := (h k.exports[l / 2] (l / 2)).1 (List.getElem?_eq_getElem hlt)
  unfold Kitten.inner
  rw [hd, hg, this]
  refine ⟨?_, by omega⟩
  unfold Kitten.outer
  omega

theorem exportLit_outer {k : Kitten} {l : Nat} (hl : l / 2 < k.n) : k.exportLit l = some (k.outer l) := by
  have hlt : l / 2 < k.exports.length := hl
  unfold Kitten.exportLit Kitten.outer
  rw [List.getD_eq_getElem?_getD, List.getElem?_eq_getElem hlt]
  rfl

theorem mapM_map {α β : Type} {f : α → Option β} {g : α → β} : ∀ {l : List α}, (∀ a ∈ l, f a = some (g a)) → l.mapM f = some (l.map g) := by
  intro l
  induction l with
  | nil => intro _; rfl
  | cons a l ih =>
    intro h
    rw [List.mapM_cons, h a (by simp), ih fun b hb => h b (List.mem_cons_of_mem _ hb)]
    rfl

theorem outer_renaming {k : Kitten} (h : Names k) : Renaming k.n k.outer := by
  constructor
  · intro l hl
    unfold Kitten.outer Spec.neg
    by_cases he : l % 2 = 0
    · rw [if_pos he, if_pos (by omega)]
      rw [show (l + 1) / 2 = l / 2 by omega]; omega
    · rw [if_neg he, if_neg (by omega)]
      rw [show (l - 1) / 2 = l / 2 by omega]; omega
  · intro l m hl hm he
    rw [← (inner_outer h hl).1, ← (inner_outer h hm).1, he]

theorem satClause_outer (k : Kitten) (σ : Assignment) (c : List Nat) : SatClause (k.inward σ) c ↔ SatClause σ (c.map k.outer) := by
  unfold SatClause
  constructor
  · rintro ⟨l, h1, h2⟩
    exact ⟨k.outer l, List.mem_map_of_mem h1, (litTrue_outer k σ l).1 h2⟩
  · rintro ⟨e, h1, h2⟩
    obtain ⟨l, h3, rfl⟩ := List.mem_map.1 h1
    exact ⟨l, h3, (litTrue_outer k σ l).2 h2⟩

/-- A stored clause in external literals. -/
theorem perm_outer {k : Kitten} (h : Names k) {c lits : List Nat} (hk : ∀ e ∈ c, k.imports (e / 2) ≠ 0)
    (hp : lits.Perm (c.map k.inner)) : (lits.map k.outer).Perm c := by
  have := hp.map k.outer
  rw [List.map_map] at this
  have h2 : c.map (k.outer ∘ k.inner) = c := by
    conv => rhs; rw [← List.map_id c]
    exact List.map_congr_left fun e he => outer_inner h (hk e he)
  rwa [h2] at this

theorem satClause_perm {σ : Assignment} {c d : List Nat} (h : c.Perm d) (hs : SatClause σ c) : SatClause σ d := by
  obtain ⟨l, h1, h2⟩ := hs
  exact ⟨l, h.mem_iff.1 h1, h2⟩

theorem orig_sat {k : Kitten} {p : Problem} (hn : Names k) (h : Link k p) {σ : Assignment} (hs : ∀ c ∈ p.clauses, SatClause σ c.2) :
    SatFormula (k.inward σ) (Orig k.klauses) := by
  rintro c ⟨kl, h1, h2, rfl⟩
  obtain ⟨c, h3, _, h5⟩ := h.given kl h1 h2
  exact (satClause_outer k σ _).2 (satClause_perm (perm_outer hn (h.known c h3) h5).symm (hs c h3))

/-- All clauses follow from the original ones. -/
theorem all_sat {k : Kitten} (h : Store k) {τ : Assignment} (hs : SatFormula τ (Orig k.klauses)) :
    ∀ (r : Nat) (kl : Klause), k.klauses[r]? = some kl → SatClause τ kl.lits := by
  intro r
  induction r using Nat.strongRecOn with
  | ind r ih =>
    intro kl hr
    cases hl : kl.learned with
    | false => exact hs _ ⟨kl, List.mem_of_getElem? hr, hl, rfl⟩
    | true =>
      obtain ⟨A, h1, _, h3⟩ := h.learned r kl hr hl
      refine h3.entails τ ?_
      rintro c ⟨a, kl', ha, hg, rfl⟩
      exact ih a (h1 a ha) kl' hg

theorem values_neg {k : Kitten} (h : Vals k) (l : Nat) : k.values (neg l) = - k.values l := h.anti l

theorem failed_known {k : Kitten} {p : Problem} (hg : Good k) (h : Link k p) {l : Nat} (hl : k.failed l = true) :
    ∃ e ∈ p.assumptions, k.inner e = l ∧ k.imports (e / 2) ≠ 0 := by
  have := hg.failed l hl
  rw [h.assumptions] at this
  obtain ⟨e, h1, h2⟩ := List.mem_map.1 this
  exact ⟨e, h1, h2, h.assumed e h1⟩

theorem isFailed_inner {k : Kitten} {e : Nat} (hs : k.status = 20) (he : k.imports (e / 2) ≠ 0) : k.isFailed e = some (k.failed (k.inner e)) := by
  unfold Kitten.isFailed Kitten.internal
  simp only
  rw [if_neg (by omega), if_neg he]
  rfl

theorem isFailed_assumed {k : Kitten} {p : Problem} (hg : Good k) (h : Link k p) {e : Nat} (he : k.isFailed e = some true) :
    e ∈ p.assumptions := by
  unfold Kitten.isFailed Kitten.internal at he
  simp only at he
  split at he
  · cases he
  · by_cases h0 : k.imports (e / 2) = 0
    · rw [if_pos h0] at he; cases he
    · rw [if_neg h0] at he
      have he : k.failed (k.inner e) = true := Option.some.inj he
      obtain ⟨e', h1, h2, h3⟩ := failed_known hg h he
      have := outer_inner hg.names h3
      rw [h2, outer_inner hg.names h0] at this
      rwa [this]

/-- Contradiction from failed assumptions. -/
theorem failed_sat {k : Kitten} {p : Problem} (hg : Good k) (h : Link k p) (hs : k.status = 20) {σ : Assignment}
    (hf : ∀ e, k.isFailed e = some true → litTrue σ e) {l : Nat} (hl : k.failed l = true) : litTrue (k.inward σ) l := by
  obtain ⟨e, h1, h2, h3⟩ := failed_known hg h hl
  rw [litTrue_outer, ← h2, outer_inner hg.names h3]
  exact hf e (by rw [isFailed_inner hs h3, h2, hl])

theorem unsat_failed {k k' : Kitten} {p : Problem} (hs : SolveOk k k' 20) (h : Link k' p) {σ : Assignment}
    (hc : ∀ c ∈ p.clauses, SatClause σ c.2) (hf : ∀ e, k'.isFailed e = some true → litTrue σ e) : False := by
  have ho := orig_sat hs.good.names h hc
  rcases hs.unsat rfl with hi | ⟨_, h1, h2⟩
  · cases hr : k'.inconsistent with
    | none => exact hi hr
    | some r => exact (hs.store.inconsistent r hr).2 ⟨_, ho⟩
  · cases hr : k'.failing with
    | none =>
      obtain ⟨a, a1, a2⟩ := h2 hr
      exact (litTrue_neg _ _).1 (failed_sat hs.good h hs.status hf a2) (failed_sat hs.good h hs.status hf a1)
    | some r =>
      obtain ⟨kl, k1, k2⟩ := h1 r hr
      obtain ⟨m, m1, m2⟩ := all_sat hs.store ho r kl k1
      exact (litTrue_neg _ _).1 (failed_sat hs.good h hs.status hf (k2 m m1)) m2

/-! ## Core -/

theorem core_defined {k k' : Kitten} (hs : SolveOk k k' 20) (ha : k'.antecedents = true) : ∃ k2, k'.computeCore = some k2 := by
  unfold Kitten.computeCore
  rw [if_neg (by rw [hs.status, ha]; simp)]
  cases hr : (k'.inconsistent <|> k'.failing) with
  | none => exact ⟨_, rfl⟩
  | some ref =>
    simp only
    have hlt : ref < k'.klauses.length := by
      cases hi : k'.inconsistent with
      | some r =>
        rw [hi] at hr
        cases hr
        obtain ⟨⟨kl, h1, _⟩, _⟩ := hs.store.inconsistent _ hi
        exact lt_of_get h1
      | none =>
        rw [hi] at hr
        have hr : k'.failing = some ref := hr
        rcases hs.unsat rfl with h' | ⟨_, h1, _⟩
        · exact absurd hi h'
        · obtain ⟨kl, k1, _⟩ := h1 ref hr
          exact lt_of_get k1
    obtain ⟨k1, e1, _⟩ := core_start hs.good hs.status ha hlt
    rw [e1]
    exact ⟨_, rfl⟩

/-- A clause of the core with its external literals. -/
def Kitten.coreEntry (k : Kitten) (r : Nat) : Bool × List Nat :=
  match k.klauses[r]? with
  | none => (false, [])
  | some c => (c.learned, c.lits.map k.outer)

/-- The clauses of the core with their external literals. -/
def Kitten.coreList (k : Kitten) : List (Bool × List Nat) := k.core.map k.coreEntry

theorem coreClauses_eq {k : Kitten} (hst : Store k) (h21 : k.status = 21) (hv : ∀ r ∈ k.core, r < k.klauses.length) :
    k.coreClauses = some k.coreList := by
  unfold Kitten.coreClauses Kitten.coreList
  rw [if_neg (by omega)]
  apply mapM_map
  intro r hr
  have hlt := hv r hr
  unfold Kitten.coreEntry
  rw [List.getElem?_eq_getElem hlt]
  simp only
  rw [mapM_map (g := k.outer) fun l hl => exportLit_outer (hst.valid _ (List.getElem_mem hlt) l hl)]
  rfl

theorem coreList_get {k : Kitten} (hv : ∀ r ∈ k.core, r < k.klauses.length) {i : Nat} {b : Bool} {c : List Nat}
    (h : k.coreList[i]? = some (b, c)) : ∃ r kl, k.core[i]? = some r ∧ k.klauses[r]? = some kl ∧ kl.learned = b ∧ c = kl.lits.map k.outer := by
  unfold Kitten.coreList at h
  rw [List.getElem?_map] at h
  cases hr : k.core[i]? with
  | none => rw [hr] at h; cases h
  | some r =>
    rw [hr] at h
    have hlt := hv r (List.mem_of_getElem? hr)
    unfold Kitten.coreEntry at h
    rw [Option.map_some, List.getElem?_eq_getElem hlt] at h
    simp only [Option.some.injEq, Prod.mk.injEq] at h
    exact ⟨r, _, rfl, List.getElem?_eq_getElem hlt, h.1, h.2.symm⟩

theorem coreList_mem {k : Kitten} {r : Nat} {kl : Klause} (hr : r ∈ k.core) (hk : k.klauses[r]? = some kl) :
    (kl.learned, kl.lits.map k.outer) ∈ k.coreList := by
  unfold Kitten.coreList
  refine List.mem_map.2 ⟨r, hr, ?_⟩
  unfold Kitten.coreEntry
  rw [hk]

theorem coreList_take {k : Kitten} {i r : Nat} {kl : Klause} (hr : r ∈ k.core.take i) (hk : k.klauses[r]? = some kl) :
    (kl.learned, kl.lits.map k.outer) ∈ k.coreList.take i := by
  unfold Kitten.coreList
  rw [← List.map_take]
  refine List.mem_map.2 ⟨r, hr, ?_⟩
  unfold Kitten.coreEntry
  rw [hk]

/-- Every learned clause of the core has a proof from the clauses traversed before. -/
theorem core_proof {k : Kitten} (hn : Names k) (hst : Store k) (ha : k.antecedents = true) (hv : ∀ r ∈ k.core, r < k.klauses.length)
    (ht : ∀ (i d : Nat) (kl : Klause), k.core[i]? = some d → k.klauses[d]? = some kl → kl.learned = true →
      ∀ a ∈ kl.ants, a ∈ k.core.take i)
    {i : Nat} {c : List Nat} (h : k.coreList[i]? = some (true, c)) :
    RUP (fun d => ∃ b, (b, d) ∈ k.coreList.take i) c := by
  obtain ⟨r, kl, h1, h2, h3, rfl⟩ := coreList_get hv h
  obtain ⟨A, _, q2, q3⟩ := hst.learned r kl h2 h3
  have q2 := q2 ha
  subst q2
  refine RUP.map (outer_renaming hn) ?_ (hst.valid kl (List.mem_of_getElem? h2)) q3
  rintro d ⟨a, kl', ha', hg, rfl⟩
  exact ⟨⟨_, coreList_take (ht i r kl h1 h2 h3 a ha') hg⟩, hst.valid kl' (List.mem_of_getElem? hg)⟩

/-- All clauses of the core follow from its original clauses. -/
theorem core_sat {F : List (Bool × List Nat)} {σ : Assignment} (ho : ∀ c, (false, c) ∈ F → SatClause σ c)
    (hp : ∀ (i : Nat) (c : List Nat), F[i]? = some (true, c) → RUP (fun d => ∃ b, (b, d) ∈ F.take i) c) :
    ∀ (i : Nat) (x : Bool × List Nat), F[i]? = some x → SatClause σ x.2 := by
  intro i
  induction i using Nat.strongRecOn with
  | ind i ih =>
    rintro ⟨b, c⟩ hx
    cases b with
    | false => exact ho c (List.mem_of_getElem? hx)
    | true =>
      refine (hp i c hx).entails σ ?_
      rintro d ⟨b, hd⟩
      obtain ⟨j, hj⟩ := List.getElem?_of_mem hd
      rw [List.getElem?_take] at hj
      split at hj
      · rename_i hlt
        exact ih j hlt _ hj
      · cases hj

theorem core_end {k k1 k2 : Kitten} {p : Problem} (hs : SolveOk k k1 20) (hl : Link k1 p) (hc : CoreOk k1 k2) {σ : Assignment}
    (ho : ∀ c, (false, c) ∈ k2.coreList → SatClause σ c) (hf : ∀ e, k1.isFailed e = some true → litTrue σ e) : False := by
  have hg2 := core_good hs.good hc
  have hst2 := calm_store hg2
  have ha1 := hc.before.2
  have ha2 : k2.antecedents = true := hc.alike.antecedents.trans ha1
  have hall := core_sat ho (fun i c h => core_proof hg2.names hst2 ha2 hc.valid hc.topo h)
  have hsat : ∀ (r : Nat) (kl : Klause), r ∈ k2.core → k2.klauses[r]? = some kl → SatClause (k2.inward σ) kl.lits := by
    intro r kl hr hk
    obtain ⟨i, hi⟩ := List.getElem?_of_mem (coreList_mem hr hk)
    exact (satClause_outer k2 σ _).2 (hall i _ hi)
  have hin : k2.inward σ = k1.inward σ := by unfold Kitten.inward; rw [hc.alike.exports]
  rcases hs.unsat rfl with hi | ⟨hi, h1, h2⟩
  · cases hr : k1.inconsistent with
    | none => exact hi hr
    | some r =>
      obtain ⟨⟨kl, g1, g2⟩, _⟩ := hst2.inconsistent r (hc.alike.inconsistent.trans hr)
      have := hsat r kl (hc.root r (by rw [hr]; rfl)) g1
      rw [g2 ha2] at this
      obtain ⟨l, h, _⟩ := this
      cases h
  · cases hr : k1.failing with
    | none =>
      obtain ⟨a, a1, a2⟩ := h2 hr
      exact (litTrue_neg _ _).1 (failed_sat hs.good hl hs.status hf a2) (failed_sat hs.good hl hs.status hf a1)
    | some r =>
      obtain ⟨kl, g1, g2⟩ := h1 r hr
      have hroot := hc.root r (by rw [hi, hr]; rfl)
      obtain ⟨kl', g3, g4, _⟩ := SameKs.get hc.alike.klauses.symm g1
      obtain ⟨m, m1, m2⟩ := hsat r kl' hroot g3
      rw [g4] at m1
      rw [hin] at m2
      exact (litTrue_neg _ _).1 (failed_sat hs.good hl hs.status hf (g2 m m1)) m2

/-- Original clauses of the core are clauses of the problem. -/
theorem core_given {k1 k2 : Kitten} {p : Problem} (hg : Good k1) (hl : Link k1 p) (hc : CoreOk k1 k2) {c : List Nat}
    (h : (false, c) ∈ k2.coreList) : ∃ d ∈ p.clauses, c.Perm d.2 ∧ k2.inCore d = true ∧ ∃ ids, k2.coreIds = some ids ∧ d.1 ∈ ids := by
  have hg2 := core_good hg hc
  have hl2 := link_core hl hc
  obtain ⟨i, hi⟩ := List.getElem?_of_mem h
  obtain ⟨r, kl, h1, h2, h3, rfl⟩ := coreList_get hc.valid hi
  obtain ⟨d, d1, d2, d3⟩ := hl2.given kl (List.mem_of_getElem? h2) h3
  have := (hc.flag r).2 (List.mem_of_getElem? h1)
  unfold Kitten.isCore at this
  rw [h2] at this
  have hcore : kl.core = true := this
  refine ⟨d, d1, perm_outer hg2.names (hl2.known d d1) d3, ?_, ?_⟩
  · unfold Kitten.inCore
    rw [List.any_eq_true]
    refine ⟨kl, List.mem_of_getElem? h2, ?_⟩
    simp only [Bool.and_eq_true, Bool.not_eq_true', beq_iff_eq, List.isPerm_iff]
    exact ⟨⟨⟨h3, hcore⟩, d2⟩, d3⟩
  · unfold Kitten.coreIds
    rw [if_neg (by rw [hc.status]; simp)]
    refine ⟨_, rfl, List.mem_map.2 ⟨kl, List.mem_filter.2 ⟨List.mem_of_getElem? h2, ?_⟩, d2⟩⟩
    rw [h3, hcore]; rfl

theorem solved {k k' : Kitten} {p : Problem} {f : Bool} (h : Run k p f) {choice : Nat → Choice} {rounds res : Nat}
    (he : k.solve choice rounds = .done res k') :
    SolveOk k k' res ∧ Link k' (if res = 0 then { p with assumptions := [] } else p.ready k.status) := by
  have hr := run_rinv h
  rcases solve_ok hr.good choice rounds with h' | ⟨res', k'', h', hs⟩
  · rw [h'] at he; cases he
  · rw [h'] at he
    cases he
    exact ⟨hs, link_solve hr.link hs⟩

theorem value_inner {k : Kitten} {e : Nat} (hs : k.status = 10) (he : k.imports (e / 2) ≠ 0) : k.value e = some (k.values (k.inner e)) := by
  unfold Kitten.value Kitten.internal
  simp only
  rw [if_neg (by omega), if_neg he]
  rfl

theorem value_unknown {k : Kitten} {e : Nat} (hs : k.status = 10) (he : k.imports (e / 2) = 0) : k.value e = some 0 := by
  unfold Kitten.value Kitten.internal
  simp only
  rw [if_neg (by omega), if_pos he]

theorem inner_neg (k : Kitten) (e : Nat) : k.inner (neg e) = neg (k.inner e) := by
  unfold Kitten.inner
  rw [neg_div]
  unfold neg
  by_cases he : e % 2 = 0
  · rw [if_pos he, if_pos (by omega)]; omega
  · rw [if_neg he, if_neg (by omega)]; omega

theorem value_opposite {k : Kitten} (hs : k.status = 10) (hv : Vals k) (e : Nat) :
    ∃ v, k.value e = some v ∧ k.value (neg e) = some (-v) := by
  by_cases he : k.imports (e / 2) = 0
  · exact ⟨0, value_unknown hs he, by rw [value_unknown hs (by rw [neg_div]; exact he)]; rfl⟩
  · exact ⟨_, value_inner hs he, by rw [value_inner hs (by rw [neg_div]; exact he), inner_neg, values_neg hv]⟩

theorem value_true {k : Kitten} (hs : k.status = 10) (hv : Vals k) {e : Nat} (he : k.value e = some 1) :
    litTrue (fun v => if k.value (2 * v) = some 1 then true else false) e := by
  show (if k.value (2 * (e / 2)) = some 1 then true else false) = decide (e % 2 = 0)
  by_cases h0 : e % 2 = 0
  · rw [show 2 * (e / 2) = e by omega, if_pos he]; simp [h0]
  · obtain ⟨v, v1, v2⟩ := value_opposite hs hv e
    rw [he] at v1
    cases v1
    have hn : neg e = 2 * (e / 2) := by unfold neg; rw [if_neg h0]; omega
    rw [hn] at v2
    rw [v2, if_neg (by decide)]
    simp [h0]

theorem shrink_inconsistent {k k' : Kitten} (h : k.shrink = some k') : k.inconsistent ≠ none := by
  intro hc
  unfold Kitten.shrink at h
  split at h
  · cases h
  · rw [hc] at h; cases h

end Verif.Kitten
