import Verif.Proofs.Walk

/-! # Local search: initialization and result -/

namespace Verif.Walk

open Verif.Spec

/-- Number of true literals of a list of watched literals. -/
theorem watchLiterals_count (values : Nat → Int) (r : Nat) : ∀ (ls : List Nat) (W : Nat → List Nat)
    (l x : Nat), (watchLiterals values r ls W l).count x =
      (W l).count x + if x = r ∧ values l ≠ 0 then ls.count l else 0
  | [], W, l, x => by unfold watchLiterals; simp
  | m :: ls, W, l, x => by
    unfold watchLiterals
    rw [watchLiterals_count values r ls]
    rw [List.count_cons]
    by_cases hm : values m = 0
    · rw [if_pos hm]
      by_cases hc : x = r ∧ values l ≠ 0
      · rw [if_pos hc, if_pos hc, if_neg]
        · omega
        · intro e
          have : m = l := by simpa using e
          subst this; exact hc.2 hm
      · rw [if_neg hc, if_neg hc]
    · rw [if_neg hm, set_apply]
      by_cases e : l = m
      · subst e
        rw [if_pos rfl, List.count_append, List.count_singleton]
        by_cases hx : x = r
        · subst hx; simp [hm]; omega
        · have : (r == x) = false := by simpa using Ne.symm hx
          simp [hx, this]
      · rw [if_neg e]
        have : (m == l) = false := by simpa using Ne.symm e
        simp [this]

theorem pushUnsat_ok {w : Walker} {r : Nat}
    (hmem : ∀ i x, w.unsat[i]? = some x → x < w.refs.length ∧ w.count x = 0 ∧ w.pos x = i ∧ x ≠ r)
    (hpos : ∀ x, x < w.refs.length → x ≠ r → w.count x = 0 → w.unsat[w.pos x]? = some x)
    (hr : r < w.refs.length) (h0 : w.count r = 0) : UInv (pushUnsat w r) := by
  unfold pushUnsat
  constructor
  · intro i x hx
    have hx : (w.unsat ++ [r])[i]? = some x := hx
    show x < w.refs.length ∧ w.count x = 0 ∧ set w.pos r w.unsat.length x = i
    rcases Nat.lt_or_ge i w.unsat.length with hi | hi
    · rw [List.getElem?_append_left hi] at hx
      obtain ⟨a, b, c, d⟩ := hmem i x hx
      rw [set_apply, if_neg d]
      exact ⟨a, b, c⟩
    · have hlt := (List.getElem?_eq_some_iff.1 hx).1
      simp only [List.length_append, List.length_cons, List.length_nil] at hlt
      have : i = w.unsat.length := by omega
      subst this
      simp at hx
      subst hx
      rw [set_apply, if_pos rfl]
      exact ⟨hr, h0, rfl⟩
  · intro x hx h0
    show (w.unsat ++ [r])[set w.pos r w.unsat.length x]? = some x
    rw [set_apply]
    split
    · rename_i e; subst e; simp
    · rename_i e
      have := hpos x hx e h0
      rw [List.getElem?_append_left (List.getElem?_eq_some_iff.1 this).1]; exact this

/-- What connecting clauses does not change. -/
structure Idle (w w' : Walker) : Prop where
  vars : w'.vars = w.vars
  values : w'.values = w.values
  trail : w'.trail = w.trail
  bestTrail : w'.bestTrail = w.bestTrail
  best : w'.best = w.best

theorem Idle.refl (w : Walker) : Idle w w := ⟨rfl, rfl, rfl, rfl, rfl⟩
theorem Idle.trans {w w' w'' : Walker} (h : Idle w w') (h' : Idle w' w'') : Idle w w'' :=
  ⟨h'.1.trans h.1, h'.2.trans h.2, h'.3.trans h.3, h'.4.trans h.4, h'.5.trans h.5⟩

theorem connect_ok {w : Walker} (h : WInv w) {lits : List Nat} (hs : ∃ l ∈ lits, w.values l ≠ 0) :
    WInv (connect w lits) ∧ Idle w (connect w lits) ∧ (connect w lits).refs = w.refs ++ [lits] := by
  have hget : ∀ r, (w.refs ++ [lits]).getD r [] =
      if r = w.refs.length then lits else w.refs.getD r [] := by
    intro r
    rw [List.getD_eq_getElem?_getD, List.getD_eq_getElem?_getD]
    split
    · rename_i e; subst e; simp
    · rename_i e
      rcases Nat.lt_or_ge r w.refs.length with hr | hr
      · rw [List.getElem?_append_left hr]
      · rw [List.getElem?_eq_none hr, List.getElem?_eq_none (by
          simp only [List.length_append, List.length_cons, List.length_nil]; omega)]
  have hwatch : ∀ l, w.values l ≠ 0 → ∀ r,
      (watchLiterals w.values w.refs.length lits w.watches l).count r =
        ((w.refs ++ [lits]).getD r []).count l := by
    intro l hl r
    rw [watchLiterals_count, h.watch l hl, hget]
    by_cases e : r = w.refs.length
    · subst e
      rw [if_pos ⟨rfl, hl⟩, if_pos rfl, List.getD_eq_getElem?_getD, List.getElem?_eq_none (Nat.le_refl _)]
      simp
    · rw [if_neg (fun hc => e hc.1), if_neg e]; rfl
  have hcount : ∀ r, r < (w.refs ++ [lits]).length →
      set w.count w.refs.length (lits.countP fun l => decide (0 < w.values l)) r =
        ((w.refs ++ [lits]).getD r []).countP fun l => decide (0 < w.values l) := by
    intro r hr
    rw [set_apply, hget]
    split
    · rfl
    · rename_i e
      simp only [List.length_append, List.length_cons, List.length_nil] at hr
      exact h.count r (by omega)
  have hsome : ∀ c ∈ w.refs ++ [lits], ∃ l ∈ c, w.values l ≠ 0 := by
    intro c hc
    rcases List.mem_append.1 hc with hc | hc
    · exact h.some c hc
    · rw [List.mem_singleton.1 hc]; exact hs
  have hmem : ∀ i x, w.unsat[i]? = some x → x < (w.refs ++ [lits]).length ∧
      set w.count w.refs.length (lits.countP fun l => decide (0 < w.values l)) x = 0 ∧
      w.pos x = i ∧ x ≠ w.refs.length := by
    intro i x hx
    obtain ⟨a, b, c⟩ := h.u.mem i x hx
    rw [set_apply, if_neg (by omega), List.length_append]
    exact ⟨by omega, b, c, by omega⟩
  have hpos : ∀ x, x < (w.refs ++ [lits]).length → x ≠ w.refs.length →
      set w.count w.refs.length (lits.countP fun l => decide (0 < w.values l)) x = 0 →
      w.unsat[w.pos x]? = some x := by
    intro x hx hne h0
    rw [set_apply, if_neg hne] at h0
    simp only [List.length_append, List.length_cons, List.length_nil] at hx
    exact h.u.pos x (by omega) h0
  unfold connect
  simp only
  split
  · rename_i hn
    refine ⟨⟨?_, h.dom, h.anti, h.bound, hcount, hwatch, hsome⟩, ⟨rfl, rfl, rfl, rfl, rfl⟩, rfl⟩
    refine pushUnsat_ok hmem hpos (by simp) ?_
    show set w.count w.refs.length _ w.refs.length = 0
    rw [set_apply, if_pos rfl]; exact hn
  · rename_i hn
    refine ⟨⟨⟨?_, ?_⟩, h.dom, h.anti, h.bound, hcount, hwatch, hsome⟩,
      ⟨rfl, rfl, rfl, rfl, rfl⟩, rfl⟩
    · intro i x hx
      obtain ⟨a, b, c, _⟩ := hmem i x hx
      exact ⟨a, b, c⟩
    · intro x hx h0
      refine hpos x hx ?_ h0
      intro e
      have h0 : set w.count w.refs.length _ x = 0 := h0
      rw [set_apply, if_pos e] at h0
      exact hn h0

/-- The binary clauses which are connected. -/
def keepBinary (values : Nat → Int) (p : Nat × Nat) : Bool := values p.1 ≠ 0 ∧ values p.2 ≠ 0

theorem connectBinary_ok : ∀ (bs : List (Nat × Nat)) {w : Walker}, WInv w →
    WInv (connectBinary bs w) ∧ Idle w (connectBinary bs w) ∧
    (connectBinary bs w).refs =
      w.refs ++ (bs.filter (keepBinary w.values)).map fun p => [p.1, p.2]
  | [], w, h => ⟨h, .refl w, by unfold connectBinary; simp⟩
  | (a, b) :: bs, w, h => by
    unfold connectBinary
    by_cases hz : w.values a = 0 ∨ w.values b = 0
    · rw [if_pos hz]
      obtain ⟨g1, g2, g3⟩ := connectBinary_ok bs h
      refine ⟨g1, g2, ?_⟩
      rw [g3, List.filter_cons_of_neg]
      unfold keepBinary
      simp; omega
    · rw [if_neg hz]
      obtain ⟨k1, k2, k3⟩ := connect_ok h (lits := [a, b]) ⟨a, by simp, by omega⟩
      obtain ⟨g1, g2, g3⟩ := connectBinary_ok bs k1
      refine ⟨g1, k2.trans g2, ?_⟩
      rw [g3, k3, k2.values, List.filter_cons_of_pos]
      · simp
      · unfold keepBinary
        simp; omega

/-- Candidate clauses in the arena. -/
def Clause.active (c : Clause) : Bool := !c.garbage && !c.redundant

/-- The root assignment satisfies the clause. -/
def Clause.rootSat (root : Nat → Int) (c : Clause) : Bool := c.lits.any fun l => 0 < root l

/-- Clauses satisfied by the root assignment become garbage. -/
def Clause.mark (root : Nat → Int) (c : Clause) : Clause :=
  if c.active && c.rootSat root then { c with garbage := true } else c

theorem connectLarge_ok {root : Nat → Int} : ∀ (cs : List Clause) {w : Walker}, WInv w →
    (∀ c ∈ cs, c.active = true → c.rootSat root = false → ∃ l ∈ c.lits, w.values l ≠ 0) →
    WInv (connectLarge root cs w).1 ∧ Idle w (connectLarge root cs w).1 ∧
    (connectLarge root cs w).1.refs =
      w.refs ++ (cs.filter fun c => c.active && !c.rootSat root).map Clause.lits ∧
    (connectLarge root cs w).2 = cs.map (Clause.mark root)
  | [], w, h, _ => ⟨h, .refl w, by unfold connectLarge; simp, rfl⟩
  | c :: cs, w, h, hc => by
    have hcs : ∀ d ∈ cs, d.active = true → d.rootSat root = false → ∃ l ∈ d.lits, w.values l ≠ 0 :=
      fun d hd => hc d (by simp [hd])
    unfold connectLarge
    by_cases h1 : (c.garbage || c.redundant) = true
    · rw [if_pos h1]
      have ha : c.active = false := by
        unfold Clause.active
        revert h1
        cases c.garbage <;> cases c.redundant <;> simp
      obtain ⟨g1, g2, g3, g4⟩ := connectLarge_ok cs h hcs
      refine ⟨g1, g2, ?_, ?_⟩
      · simp only
        rw [g3, List.filter_cons_of_neg (by simp [ha])]
      · simp only
        rw [g4, List.map_cons]
        unfold Clause.mark
        simp [ha]
    · rw [if_neg h1]
      have ha : c.active = true := by
        unfold Clause.active
        revert h1
        cases c.garbage <;> cases c.redundant <;> simp
      by_cases h2 : (c.lits.any fun l => decide (0 < root l)) = true
      · rw [if_pos h2]
        have hs : c.rootSat root = true := h2
        obtain ⟨g1, g2, g3, g4⟩ := connectLarge_ok cs h hcs
        refine ⟨g1, g2, ?_, ?_⟩
        · simp only
          rw [g3, List.filter_cons_of_neg (by simp [hs])]
        · simp only
          rw [g4, List.map_cons]
          congr 1
          unfold Clause.mark
          simp [ha, hs]
      · rw [if_neg h2]
        have hs : c.rootSat root = false := by
          unfold Clause.rootSat; simpa using h2
        obtain ⟨k1, k2, k3⟩ := connect_ok h (hc c (by simp) ha hs)
        obtain ⟨g1, g2, g3, g4⟩ := connectLarge_ok (w := connect w c.lits) cs k1
          (by rw [k2.values]; exact hcs)
        refine ⟨g1, k2.trans g2, ?_, ?_⟩
        · simp only
          rw [g3, k3, List.filter_cons_of_pos (by simp [ha, hs])]
          simp
        · simp only
          rw [g4, List.map_cons]
          congr 1
          unfold Clause.mark
          simp [hs]

/-! ## The input -/

/-- The irredundant clauses of the input. -/
def Input.formula (i : Input) : List (List Nat) :=
  i.binaries.map (fun p => [p.1, p.2]) ++ (i.clauses.filter Clause.active).map Clause.lits

/-- Root assignment extended by values of variables. -/
def Input.extend (i : Input) (b : Nat → Int) : Assignment := fun v =>
  if i.root (2 * v) ≠ 0 then i.root (2 * v) == 1 else b v == 1

/-- State in which `kissat_walk` is called: the root assignment is propagated (every
irredundant clause not satisfied has two unassigned literals), variables in clauses are
assigned or active, active variables are not assigned. -/
structure Input.Ready (i : Input) : Prop where
  dom : ∀ l, i.root l = 1 ∨ i.root l = 0 ∨ i.root l = -1
  anti : ∀ l, i.root (neg l) = - i.root l
  phase : ∀ v, v < i.vars → i.active v = true → i.phase v = 1 ∨ i.phase v = -1
  free : ∀ v, v < i.vars → i.active v = true → i.root (2 * v) = 0
  known : ∀ c ∈ i.formula, ∀ l ∈ c, i.root l = 0 → l / 2 < i.vars ∧ i.active (l / 2) = true
  propagated : ∀ c ∈ i.formula, (∃ l ∈ c, i.root l = 1) ∨
    ∃ l ∈ c, ∃ m ∈ c, l ≠ m ∧ i.root l = 0 ∧ i.root m = 0

/-- The variables local search assigns. -/
def Input.free (i : Input) (v : Nat) : Prop := v < i.vars ∧ i.active v = true

instance (i : Input) : DecidablePred i.free := fun v => by unfold Input.free; infer_instance

theorem neg_zero {root : Nat → Int} (ha : ∀ l, root (neg l) = - root l) (l : Nat) :
    root l = 0 ↔ root (2 * (l / 2)) = 0 := by
  rcases Nat.mod_two_eq_zero_or_one l with e | e
  · rw [show 2 * (l / 2) = l by omega]
  · have : 2 * (l / 2) = neg l := by unfold neg; rw [if_neg (by omega)]; omega
    rw [this, ha]; omega

theorem imported_nonzero {i : Input} (h : i.Ready) (l : Nat) :
    importedValues i l ≠ 0 ↔ i.free (l / 2) := by
  unfold importedValues Input.free
  by_cases hc : l / 2 < i.vars ∧ i.active (l / 2) = true
  · rw [if_pos hc]
    have := h.phase _ hc.1 hc.2
    constructor
    · exact fun _ => hc
    · intro _; split <;> omega
  · rw [if_neg hc]; simp [hc]

theorem start_ok {i : Input} (h : i.Ready) : WInv (start i) := by
  refine ⟨⟨fun j r hr => ?_, fun r hr => ?_⟩, fun l => ?_, fun l => ?_, fun l hl => ?_,
    fun r hr => ?_, fun l hl r => ?_, fun c hc => ?_⟩
  · have hr : ([] : List Nat)[j]? = some r := hr
    simp at hr
  · have hr : r < ([] : List (List Nat)).length := hr
    simp at hr
  · show importedValues i l = 1 ∨ importedValues i l = 0 ∨ importedValues i l = -1
    unfold importedValues
    split
    · rename_i hc
      have := h.phase _ hc.1 hc.2
      split <;> omega
    · simp
  · show importedValues i (neg l) = - importedValues i l
    unfold importedValues
    rw [neg_div]
    split
    · rcases Nat.mod_two_eq_zero_or_one l with e | e
      · have : neg l % 2 = 1 := by unfold neg; rw [if_pos e]; omega
        rw [if_neg (by omega), if_pos e]
      · have : neg l % 2 = 0 := by unfold neg; rw [if_neg (by omega)]; omega
        rw [if_pos this, if_neg (by omega)]; omega
    · rfl
  · have := (imported_nonzero h l).1 hl
    exact this.1
  · have hr : r < ([] : List (List Nat)).length := hr
    simp at hr
  · show ([] : List Nat).count r = (([] : List (List Nat)).getD r []).count l
    simp
  · have hc : c ∈ ([] : List (List Nat)) := hc
    simp at hc

theorem countP_filter_map {α : Type} (f : α → List Nat) (keep : α → Bool) (p q : List Nat → Bool) :
    ∀ (L : List α), (∀ x ∈ L, keep x = false → p (f x) = false) →
    (∀ x ∈ L, keep x = true → p (f x) = q (f x)) →
    (L.map f).countP p = ((L.filter keep).map f).countP q
  | [], _, _ => rfl
  | x :: L, h1, h2 => by
    have ih := countP_filter_map f keep p q L (fun y hy => h1 y (by simp [hy]))
      (fun y hy => h2 y (by simp [hy]))
    rw [List.map_cons, List.countP_cons, ih]
    by_cases hk : keep x = true
    · rw [List.filter_cons_of_pos hk, List.map_cons, List.countP_cons, h2 x (by simp) hk]
    · have hk : keep x = false := by simpa using hk
      rw [List.filter_cons_of_neg (by simp [hk]), h1 x (by simp) hk]; simp

/-- Literals of the connected clauses under the extended assignment. -/
theorem holds_extend {i : Input} (h : i.Ready) {b : Nat → Int}
    (hb : ∀ v, i.free v → b v = 1 ∨ b v = -1) {l : Nat} (hk : i.root l = 0 → i.free (l / 2))
    (hr : ¬ 0 < i.root l) :
    holds (i.extend b) l = (decide (i.free (l / 2)) && decide (0 < litValue b l)) := by
  unfold holds Input.extend litValue
  by_cases hz : i.root l = 0
  · have hf := hk hz
    rw [if_neg (fun hc => hc ((neg_zero h.anti l).1 hz))]
    have := hb _ hf
    rcases Nat.mod_two_eq_zero_or_one l with e | e
    · rw [if_pos e]; rcases this with e' | e' <;> simp [hf, e, e']
    · rw [if_neg (by omega)]; rcases this with e' | e' <;> simp [hf, e, e']
  · have hneg : i.root l = -1 := by have := h.dom l; omega
    have hnf : ¬ i.free (l / 2) := fun hf => hz ((neg_zero h.anti l).2 (h.free _ hf.1 hf.2))
    rw [if_pos (by rw [ne_eq, ← neg_zero h.anti]; exact hz)]
    simp only [hnf, decide_false, Bool.false_and]
    rcases Nat.mod_two_eq_zero_or_one l with e | e
    · rw [show 2 * (l / 2) = l by omega, hneg, e]; rfl
    · have : 2 * (l / 2) = neg l := by unfold neg; rw [if_neg (by omega)]; omega
      rw [this, h.anti, hneg, e]; rfl

theorem holds_root {i : Input} (h : i.Ready) {b : Nat → Int} {l : Nat} (hr : 0 < i.root l) :
    holds (i.extend b) l = true := by
  have hone : i.root l = 1 := by have := h.dom l; omega
  unfold holds Input.extend
  rw [if_pos (by rw [ne_eq, ← neg_zero h.anti]; omega)]
  rcases Nat.mod_two_eq_zero_or_one l with e | e
  · rw [show 2 * (l / 2) = l by omega, hone, e]; rfl
  · have : 2 * (l / 2) = neg l := by unfold neg; rw [if_neg (by omega)]; omega
    rw [this, h.anti, hone, e]; rfl

/-- The connected clauses are the ones which count. -/
theorem falsified_formula {i : Input} (h : i.Ready) {b : Nat → Int}
    (hb : ∀ v, i.free v → b v = 1 ∨ b v = -1) :
    numFalsified (i.extend b) i.formula =
      falsifiedBy i.free (((i.binaries.filter (keepBinary (importedValues i))).map fun p => [p.1, p.2]) ++
        (i.clauses.filter fun c => c.active && !c.rootSat i.root).map Clause.lits) b := by
  unfold numFalsified falsifiedBy Input.formula
  rw [List.countP_append, List.countP_append]
  have hsame : ∀ c ∈ i.formula, (∀ l ∈ c, ¬ 0 < i.root l) →
      (!c.any (holds (i.extend b))) =
        (!c.any fun l => decide (i.free (l / 2)) && decide (0 < litValue b l)) := by
    intro c hc hr
    congr 1
    rw [Bool.eq_iff_iff, List.any_eq_true, List.any_eq_true]
    constructor
    · rintro ⟨l, h1, h2⟩
      refine ⟨l, h1, ?_⟩
      rw [← holds_extend h hb (fun hz => h.known c hc l h1 hz) (hr l h1)]; exact h2
    · rintro ⟨l, h1, h2⟩
      refine ⟨l, h1, ?_⟩
      rw [holds_extend h hb (fun hz => h.known c hc l h1 hz) (hr l h1)]; exact h2
  have htrue : ∀ c : List Nat, (∃ l ∈ c, 0 < i.root l) → (!c.any (holds (i.extend b))) = false := by
    rintro c ⟨l, h1, h2⟩
    simp only [Bool.not_eq_false', List.any_eq_true]
    exact ⟨l, h1, holds_root h h2⟩
  congr 1
  · refine countP_filter_map _ _ _ _ _ (fun p hp hk => ?_) (fun p hp hk => ?_)
    · have hc : [p.1, p.2] ∈ i.formula :=
        List.mem_append_left _ (List.mem_map.2 ⟨p, hp, rfl⟩)
      rcases h.propagated _ hc with ⟨l, h1, h2⟩ | ⟨l, h1, m, h2, h3, h4, h5⟩
      · exact htrue _ ⟨l, h1, by omega⟩
      · exfalso
        have hz : i.root p.1 = 0 ∧ i.root p.2 = 0 := by
          simp only [List.mem_cons, List.not_mem_nil, or_false] at h1 h2
          rcases h1 with rfl | rfl <;> rcases h2 with rfl | rfl <;> first
            | exact absurd rfl h3 | exact ⟨h4, h5⟩ | exact ⟨h5, h4⟩
        have k1 := (imported_nonzero h p.1).2 (h.known _ hc p.1 (by simp) hz.1)
        have k2 := (imported_nonzero h p.2).2 (h.known _ hc p.2 (by simp) hz.2)
        unfold keepBinary at hk
        simp [k1, k2] at hk
    · have hc : [p.1, p.2] ∈ i.formula :=
        List.mem_append_left _ (List.mem_map.2 ⟨p, hp, rfl⟩)
      refine hsame _ hc fun l hl => ?_
      unfold keepBinary at hk
      simp only [decide_eq_true_eq] at hk
      rw [imported_nonzero h, imported_nonzero h] at hk
      have : i.root l = 0 := by
        simp only [List.mem_cons, List.not_mem_nil, or_false] at hl
        rcases hl with rfl | rfl
        · exact (neg_zero h.anti _).2 (h.free _ hk.1.1 hk.1.2)
        · exact (neg_zero h.anti _).2 (h.free _ hk.2.1 hk.2.2)
      omega
  · have e : (i.clauses.filter fun c => c.active && !c.rootSat i.root) =
        (i.clauses.filter Clause.active).filter fun c => !c.rootSat i.root := by
      rw [List.filter_filter]
      congr 1
      funext c
      rw [Bool.and_comm]
    rw [e]
    refine countP_filter_map _ _ _ _ _ (fun c hc hk => ?_) (fun c hc hk => ?_)
    · refine htrue _ ?_
      have : c.rootSat i.root = true := by simpa using hk
      unfold Clause.rootSat at this
      simpa using this
    · refine hsame _ (List.mem_append_right _ (List.mem_map.2 ⟨c, hc, rfl⟩)) fun l hl hr => ?_
      have : c.rootSat i.root = true := by
        unfold Clause.rootSat
        rw [List.any_eq_true]
        exact ⟨l, hl, by simpa using hr⟩
      rw [this] at hk; simp at hk

theorem saveFinal_eq {saved : Nat → Int} {w : Walker} (h : w.minimum ≠ w.initial) :
    saveFinalMinimum saved w = (fun v => if v < w.vars then bestNow w v else saved v, true) := by
  unfold saveFinalMinimum bestNow
  rw [if_neg h]
  cases hb : w.bestTrail with
  | none => rfl
  | some p =>
    simp only
    by_cases hp : p = 0
    · rw [if_pos hp, hp]; rfl
    · rw [if_neg hp]; rfl

/-- Result of local search. -/
theorem walk_ok {i : Input} (h : i.Ready) (choices : List Nat) :
    ∃ out, walk i choices = some out ∧ out.values = i.root ∧
      out.clauses = i.clauses.map (Clause.mark i.root) ∧
      out.initial = numFalsified (i.extend i.phase) i.formula ∧
      out.minimum ≤ out.initial ∧
      (out.improved = true ↔ out.minimum < out.initial) ∧
      (out.improved = false → out.saved = i.saved) ∧
      (out.improved = true → numFalsified (i.extend out.saved) i.formula = out.minimum) ∧
      (∀ v, i.vars ≤ v → out.saved v = i.saved v) := by
  obtain ⟨a1, a2, a3⟩ := connectBinary_ok i.binaries (start_ok h)
  obtain ⟨b1, b2, b3, b4⟩ := connectLarge_ok (root := i.root) i.clauses a1 (by
    intro c hc ha hs
    rw [a2.values]
    have hm : c.lits ∈ i.formula :=
      List.mem_append_right _ (List.mem_map.2 ⟨c, List.mem_filter.2 ⟨hc, ha⟩, rfl⟩)
    rcases h.propagated _ hm with ⟨l, h1, h2⟩ | ⟨l, h1, m, h2, h3, h4, h5⟩
    · exfalso
      have : c.rootSat i.root = true := by
        unfold Clause.rootSat
        rw [List.any_eq_true]
        exact ⟨l, h1, by simp [h2]⟩
      rw [this] at hs; cases hs
    · exact ⟨l, h1, (imported_nonzero h l).2 (h.known _ hm l h1 h4)⟩)
  unfold walk init
  simp only
  generalize hcl : connectLarge i.root i.clauses (connectBinary i.binaries (start i)) = res at b1 b2 b3 b4
  obtain ⟨w, cs⟩ := res
  simp only at b1 b2 b3 b4 ⊢
  have hid := a2.trans b2
  have hvals : w.values = importedValues i := hid.values
  have hrefs : w.refs = ((i.binaries.filter (keepBinary (importedValues i))).map fun p => [p.1, p.2]) ++
      (i.clauses.filter fun c => c.active && !c.rootSat i.root).map Clause.lits := by
    rw [b3, a3]; rfl
  have hbest : w.best = fun v => if v < i.vars ∧ i.active v = true then i.phase v else 0 := hid.best
  have hbt : w.bestTrail = some 0 := hid.bestTrail
  have htr : w.trail = [] := hid.trail
  have hvar : w.vars = i.vars := hid.vars
  have hact : ∀ l, w.values l ≠ 0 ↔ i.free (l / 2) := fun l => by
    rw [hvals]; exact imported_nonzero h l
  have hbv : ∀ v, i.free v → w.best v = i.phase v := fun v hv => by
    rw [hbest]; exact if_pos hv
  have hval : ∀ v, i.free v → w.values (2 * v) = w.best v := fun v hv => by
    rw [hbv v hv, hvals]
    unfold importedValues
    rw [show 2 * v / 2 = v by omega, if_pos (show v < i.vars ∧ i.active v = true from hv), if_pos (by omega)]
  have hphase : ∀ v, i.free v → i.phase v = 1 ∨ i.phase v = -1 := fun v hv => h.phase v hv.1 hv.2
  have hB : BInv i.free { w with current := w.unsat.length, initial := w.unsat.length, minimum := w.unsat.length } := by
    refine ⟨b1.congr rfl rfl rfl rfl rfl rfl rfl, hact, rfl, Nat.le_refl _, ?_, ?_, ?_, ?_, ?_⟩
    · show w.unsat.length = falsifiedBy i.free w.refs (match w.bestTrail with
        | none => w.best
        | some p => (w.trail.take p).foldl store w.best)
      rw [hbt, htr]
      exact falsified_current b1 hact hval
    · intro v hv
      show w.best v = 1 ∨ w.best v = -1
      rw [hbv v hv]; exact hphase v hv
    · intro l hl
      have hl : l ∈ w.trail := hl
      rw [htr] at hl; cases hl
    · intro p hp
      have hp : w.bestTrail = some p := hp
      rw [hbt] at hp; cases hp
      refine ⟨Nat.zero_le _, ?_⟩
      show ∀ v, i.free v → w.values (2 * v) = (w.trail.foldl store w.best) v
      rw [htr]; exact hval
    · intro hn
      have hn : w.bestTrail = none := hn
      rw [hbt] at hn; cases hn
  have hinit : w.unsat.length = numFalsified (i.extend i.phase) i.formula := by
    rw [falsified_formula h hphase, ← hrefs]
    exact falsified_current b1 hact fun v hv => by rw [hval v hv, hbv v hv]
  obtain ⟨w', hw', hB', hfix⟩ := round_ok choices hB
  rw [hw']
  simp only
  have hi' : w'.initial = w.unsat.length := hfix.initial
  have hm' : w'.minimum ≤ w.unsat.length := hfix.minimum
  have hr' : w'.refs = w.refs := hfix.refs
  have hv' : w'.vars = i.vars := hfix.vars.trans hvar
  by_cases hmin : w'.minimum = w'.initial
  · have hsf : saveFinalMinimum i.saved w' = (i.saved, false) := by
      unfold saveFinalMinimum; rw [if_pos hmin]
    rw [hsf]
    refine ⟨_, rfl, rfl, b4, by rw [← hinit]; exact hi', ?_, ?_, fun _ => rfl, fun hc => ?_, fun v _ => rfl⟩
    · show w'.minimum ≤ w'.initial
      omega
    · show false = true ↔ w'.minimum < w'.initial
      constructor
      · intro e; cases e
      · intro e; omega
    · cases hc
  · rw [saveFinal_eq hmin]
    have hdom : ∀ v, i.free v → bestNow w' v = 1 ∨ bestNow w' v = -1 := by
      intro v hv
      unfold bestNow
      cases w'.bestTrail with
      | none => exact hB'.dom v hv
      | some p => exact store_dom _ hB'.dom v hv
    refine ⟨_, rfl, rfl, b4, by rw [← hinit]; exact hi', ?_, ?_, fun hc => ?_, fun _ => ?_, fun v hv => ?_⟩
    · show w'.minimum ≤ w'.initial
      omega
    · show true = true ↔ w'.minimum < w'.initial
      constructor
      · intro _; omega
      · intro _; rfl
    · cases hc
    · show numFalsified (i.extend fun v => if v < w'.vars then bestNow w' v else i.saved v) i.formula = w'.minimum
      rw [hB'.minimum, hr', hrefs]
      have hsame : ∀ v, i.free v → (if v < w'.vars then bestNow w' v else i.saved v) = bestNow w' v := by
        intro v hv
        rw [hv', if_pos hv.1]
      rw [falsified_formula h (b := fun v => if v < w'.vars then bestNow w' v else i.saved v)
        (fun v hv => by rw [hsame v hv]; exact hdom v hv)]
      unfold falsifiedBy
      congr 1
      funext c
      congr 2
      funext l
      by_cases hl : i.free (l / 2)
      · have : litValue (fun v => if v < w'.vars then bestNow w' v else i.saved v) l = litValue (bestNow w') l := by
          unfold litValue
          simp only
          rw [hsame _ hl]
        rw [this]
      · simp [hl]
    · show (if v < w'.vars then bestNow w' v else i.saved v) = i.saved v
      rw [hv', if_neg (by omega)]

end Verif.Walk
