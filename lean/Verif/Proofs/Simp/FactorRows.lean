import Verif.Proofs.Simp.Factor

/-!
# Bounded variable addition: the clauses found
-/

namespace Verif.Simp

open Verif.Spec Verif.Model Verif.Model.Extend

/-- Clauses of one factor. -/
structure Column (s : State) (q : Quotient) : Prop where
  range : s.InRange q.factor
  kept : s.removed (q.factor / 2) = false
  nodup : q.clauses.Nodup
  live : ∀ r ∈ q.clauses, (s.clause r).garbage = false ∧ (s.clause r).redundant = false ∧ q.factor ∈ (s.clause r).lits

/-- The clauses at these positions have the same literals but for the factors. -/
def SameQuotient (s : State) (q p : Quotient) (i j : Nat) : Prop :=
  ∀ m, (m ∈ (s.clause (q.clauses.getD i 0)).lits ∧ m ≠ q.factor) ↔
    (m ∈ (s.clause (p.clauses.getD j 0)).lits ∧ m ≠ p.factor)

theorem SameQuotient.symm {s : State} {q p : Quotient} {i j : Nat} (h : SameQuotient s q p i j) : SameQuotient s p q j i :=
  fun m => (h m).symm

theorem SameQuotient.trans {s : State} {a b c : Quotient} {i j k : Nat} (h : SameQuotient s a b i j)
    (h' : SameQuotient s b c j k) : SameQuotient s a c i k := fun m => (h m).trans (h' m)

/-- Factors times quotients. -/
structure Rows (s : State) (rows : List Quotient) (n : Nat) : Prop where
  factors : (rows.map Quotient.factor).Nodup
  column : ∀ q ∈ rows, Column s q
  length : ∀ q ∈ rows, q.clauses.length = n
  same : ∀ q ∈ rows, ∀ p ∈ rows, ∀ i, i < n → SameQuotient s q p i i

theorem Rows.cons {s : State} {q p : Quotient} {rest : List Quotient} {n : Nat} (h : Rows s (p :: rest) n) (hq : Column s q)
    (hl : q.clauses.length = n) (hf : q.factor ∉ (p :: rest).map Quotient.factor)
    (hs : ∀ i, i < n → SameQuotient s q p i i) : Rows s (q :: p :: rest) n := by
  have key : ∀ a ∈ q :: p :: rest, ∀ i, i < n → SameQuotient s a p i i := by
    intro a ha i hi
    rcases List.mem_cons.1 ha with rfl | ha
    · exact hs i hi
    · exact h.same a ha p (by simp) i hi
  refine ⟨?_, ?_, ?_, fun a ha b hb i hi => (key a ha i hi).trans (key b hb i hi).symm⟩
  · rw [List.map_cons, List.nodup_cons]; exact ⟨hf, h.factors⟩
  · intro a ha
    rcases List.mem_cons.1 ha with rfl | ha
    · exact hq
    · exact h.column a ha
  · intro a ha
    rcases List.mem_cons.1 ha with rfl | ha
    · exact hl
    · exact h.length a ha

/-- Before flushing, the last quotient first. -/
def Columns (s : State) : List Quotient → Prop
  | [] => False
  | [q] => Column s q
  | q :: p :: qs => Column s q ∧ q.positions.length = q.clauses.length ∧ q.positions.Nodup ∧
      q.factor ∉ (p :: qs).map Quotient.factor ∧
      (∀ i, i < q.clauses.length → q.positions.getD i 0 < p.clauses.length ∧
        SameQuotient s q p i (q.positions.getD i 0)) ∧ Columns s (p :: qs)

theorem Columns.head {s : State} {q : Quotient} {qs : List Quotient} (h : Columns s (q :: qs)) : Column s q := by
  cases qs with
  | nil => exact h
  | cons p qs => exact h.1

theorem Columns.tail {s : State} {q p : Quotient} {qs : List Quotient} (h : Columns s (q :: p :: qs)) : Columns s (p :: qs) :=
  h.2.2.2.2.2

theorem Columns.drop {s : State} : ∀ (k : Nat) {qs : List Quotient}, Columns s qs → k < qs.length → Columns s (qs.drop k)
  | 0, _, h, _ => h
  | k + 1, [], h, hk => by simp at hk
  | k + 1, [q], h, hk => by simp at hk
  | k + 1, q :: p :: qs, h, hk => Columns.drop k h.tail (by simpa using hk)

theorem getD_map {f : Nat → Nat} {ps : List Nat} {i : Nat} (h : i < ps.length) : (ps.map f).getD i 0 = f (ps.getD i 0) := by
  rw [List.getD_eq_getElem?_getD, List.getD_eq_getElem?_getD, List.getElem?_map, List.getElem?_eq_getElem h]; rfl

theorem getD_mem {ps : List Nat} {i : Nat} (h : i < ps.length) : ps.getD i 0 ∈ ps := by
  rw [List.getD_eq_getElem?_getD, List.getElem?_eq_getElem h]; exact List.getElem_mem h

theorem mem_getD {ps : List Nat} {x : Nat} (h : x ∈ ps) : ∃ i, i < ps.length ∧ ps.getD i 0 = x := by
  obtain ⟨i, hi, rfl⟩ := List.mem_iff_getElem.1 h
  exact ⟨i, hi, by rw [List.getD_eq_getElem?_getD, List.getElem?_eq_getElem hi]; rfl⟩

theorem nodup_getD {ps : List Nat} (h : ps.Nodup) {i j : Nat} (hi : i < ps.length) (hj : j < ps.length)
    (e : ps.getD i 0 = ps.getD j 0) : i = j := by
  rw [List.getD_eq_getElem?_getD, List.getD_eq_getElem?_getD, List.getElem?_eq_getElem hi, List.getElem?_eq_getElem hj] at e
  exact (List.getElem_inj h).1 e

theorem nodup_select {ps cs : List Nat} (h : ps.Nodup) (hc : cs.Nodup) (hb : ∀ j ∈ ps, j < cs.length) :
    (ps.map fun j => cs.getD j 0).Nodup := by
  induction ps with
  | nil => exact List.nodup_nil
  | cons a ps ih =>
    rw [List.nodup_cons] at h
    rw [List.map_cons, List.nodup_cons]
    refine ⟨fun hm => ?_, ih h.2 fun j hj => hb j (List.mem_cons_of_mem _ hj)⟩
    obtain ⟨j, hj, e⟩ := List.mem_map.1 hm
    have := nodup_getD hc (hb j (List.mem_cons_of_mem _ hj)) (hb a (by simp)) e
    exact h.1 (this ▸ hj)

theorem column_select {s : State} {q : Quotient} (h : Column s q) {ps : List Nat} (hn : ps.Nodup)
    (hb : ∀ j ∈ ps, j < q.clauses.length) (positions : List Nat) :
    Column s ⟨q.factor, ps.map fun j => q.clauses.getD j 0, positions⟩ := by
  refine ⟨h.range, h.kept, nodup_select hn h.nodup hb, ?_⟩
  intro r hr
  obtain ⟨j, hj, rfl⟩ := List.mem_map.1 hr
  exact h.live _ (getD_mem (hb j hj))

theorem flushInto_factors (qs : List Quotient) : ∀ ps, (flushInto ps qs).map Quotient.factor = qs.map Quotient.factor := by
  induction qs with
  | nil => intro ps; rfl
  | cons q qs ih => intro ps; unfold flushInto; rw [List.map_cons, List.map_cons, ih]

theorem flushInto_rows {s : State} : ∀ (qs : List Quotient) (q : Quotient) (ps : List Nat), Columns s (q :: qs) → ps.Nodup →
    (∀ j ∈ ps, j < q.clauses.length) → Rows s (flushInto ps (q :: qs)) ps.length
  | [], q, ps, h, hn, hb => by
    unfold flushInto flushInto
    have hc := column_select h.head hn hb (ps.map fun j => q.positions.getD j 0)
    refine ⟨by simp, ?_, ?_, ?_⟩
    · intro a ha; rw [List.mem_singleton.1 ha]; exact hc
    · intro a ha; rw [List.mem_singleton.1 ha]; simp
    · intro a ha b hb i hi
      rw [List.mem_singleton.1 ha, List.mem_singleton.1 hb]
      exact fun _ => Iff.rfl
  | p :: qs, q, ps, h, hn, hb => by
    obtain ⟨h1, h2, h3, h4, h5, h6⟩ := h
    have hc := column_select h1 hn hb (ps.map fun j => q.positions.getD j 0)
    have hps : (ps.map fun j => q.positions.getD j 0).Nodup :=
      nodup_select hn h3 fun j hj => by rw [h2]; exact hb j hj
    have hb' : ∀ j ∈ ps.map (fun j => q.positions.getD j 0), j < p.clauses.length := by
      intro j hj
      obtain ⟨k, hk, rfl⟩ := List.mem_map.1 hj
      exact (h5 k (hb k hk)).1
    have ih := flushInto_rows qs p _ h6 hps hb'
    have e : flushInto ps (q :: p :: qs) =
      ⟨q.factor, ps.map fun j => q.clauses.getD j 0, ps.map fun j => q.positions.getD j 0⟩ ::
        flushInto (ps.map fun j => q.positions.getD j 0) (p :: qs) := rfl
    rw [e]
    have hfac := flushInto_factors (p :: qs) (ps.map fun j => q.positions.getD j 0)
    rw [List.length_map] at ih
    unfold flushInto at ih hfac ⊢
    refine Rows.cons ih hc (by simp) (by rw [hfac]; exact h4) ?_
    intro i hi m
    have hj := hb _ (getD_mem hi)
    have := (h5 _ hj).2 m
    dsimp only
    rw [getD_map (f := fun j => q.clauses.getD j 0) hi,
      getD_map (f := fun j => p.clauses.getD j 0) (by rw [List.length_map]; exact hi),
      getD_map (f := fun j => q.positions.getD j 0) hi]
    exact this

theorem flush_rows {s : State} {q : Quotient} {qs : List Quotient} (h : Columns s (q :: qs)) :
    Rows s (flushUnmatched (q :: qs)) q.clauses.length := by
  unfold flushUnmatched
  cases qs with
  | nil =>
    refine ⟨by simp [flushInto], ?_, ?_, ?_⟩
    · intro a ha; rw [List.mem_singleton.1 ha]; exact h
    · intro a ha; rw [List.mem_singleton.1 ha]
    · intro a ha b hb i hi
      rw [List.mem_singleton.1 ha, List.mem_singleton.1 hb]
      exact fun _ => Iff.rfl
  | cons p qs =>
    obtain ⟨h1, h2, h3, h4, h5, h6⟩ := h
    have ih := flushInto_rows qs p q.positions h6 h3 fun j hj => by
      obtain ⟨i, hi, rfl⟩ := mem_getD hj
      exact (h5 i (by omega)).1
    rw [h2] at ih
    have hfac := flushInto_factors (p :: qs) q.positions
    unfold flushInto at ih hfac ⊢
    refine Rows.cons ih h1 rfl (by rw [hfac]; exact h4) ?_
    intro i hi m
    have := (h5 i hi).2 m
    dsimp only
    rw [getD_map (f := fun j => p.clauses.getD j 0) (by omega)]
    exact this

/-! ## Matching -/

theorem superset_of_length : ∀ (d : List Nat) {q : List Nat}, d.Nodup → (∀ m ∈ d, m ∈ q) → q.length ≤ d.length → ∀ m ∈ q, m ∈ d
  | [], q, _, _, hl, m, hm => by
    have : q = [] := List.eq_nil_of_length_eq_zero (by simpa using hl)
    rw [this] at hm; exact hm
  | a :: d, q, hn, hs, hl, m, hm => by
    rw [List.nodup_cons] at hn
    have ha := hs a (by simp)
    by_cases e : m = a
    · simp [e]
    · refine List.mem_cons_of_mem _ (superset_of_length d (q := q.erase a) hn.2 ?_ ?_ m ((List.mem_erase_of_ne e).2 hm))
      · intro k hk
        exact (List.mem_erase_of_ne (fun e : k = a => hn.1 (e ▸ hk))).2 (hs k (List.mem_cons_of_mem _ hk))
      · rw [List.length_erase_of_mem ha]
        simp at hl; omega

theorem two_le_countP {p : Nat → Bool} {a b : Nat} : ∀ {l : List Nat}, a ∈ l → b ∈ l → a ≠ b → p a = true → p b = true →
    2 ≤ l.countP p
  | [], ha, _, _, _, _ => by cases ha
  | x :: l, ha, hb, hne, pa, pb => by
    rw [List.countP_cons]
    rcases List.mem_cons.1 ha with rfl | ha'
    · rcases List.mem_cons.1 hb with rfl | hb'
      · exact absurd rfl hne
      · have : 0 < l.countP p := List.countP_pos_iff.2 ⟨b, hb', pb⟩
        rw [pa, if_pos rfl]; omega
    · rcases List.mem_cons.1 hb with rfl | hb'
      · have : 0 < l.countP p := List.countP_pos_iff.2 ⟨a, ha', pa⟩
        rw [pb, if_pos rfl]; omega
      · have := two_le_countP ha' hb' hne pa pb
        omega

theorem mem_factorWatches {s : State} {conn : Nat → Bool} {l r : Nat} (h : r ∈ s.factorWatches conn l) :
    (s.clause r).garbage = false ∧ (s.clause r).redundant = false ∧ l ∈ (s.clause r).lits :=
  mem_occurrences.1 (List.mem_filter.1 h).1

theorem matchClause_spec {orig : List (List Nat)} {s : State} (h : Struct orig s) {conn : Nat → Bool} {factors used : List Nat}
    {factor next c d : Nat} (hm : s.matchClause conn factors factor next used c = some d)
    (hc : (s.clause c).garbage = false) (hfc : factor ∈ (s.clause c).lits) (hf : factor ∈ factors) (hn : next ∈ factors) :
    d ∉ used ∧ ((s.clause d).garbage = false ∧ (s.clause d).redundant = false ∧ next ∈ (s.clause d).lits) ∧
    ∀ m, (m ∈ (s.clause d).lits ∧ m ≠ next) ↔ (m ∈ (s.clause c).lits ∧ m ≠ factor) := by
  unfold State.matchClause at hm
  cases hb : s.binaryOther factor c with
  | some q =>
    rw [hb] at hm
    dsimp only at hm
    have hd := mem_factorWatches (List.mem_of_find?_eq_some hm)
    have hp := List.find?_some hm
    simp only [Bool.and_eq_true, decide_eq_true_eq, Bool.not_eq_true', List.contains_eq_mem, decide_eq_false_iff_not] at hp
    obtain ⟨b1, b2, b3⟩ := binaryOther_some hb
    obtain ⟨d1, d2, d3⟩ := binaryOther_some hp.1
    refine ⟨hp.2, ⟨hd.1, hd.2.1, d2⟩, fun m => ?_⟩
    constructor
    · rintro ⟨m1, m2⟩
      rcases binary_lits d1 hd.2.2 d2 d3 m1 with rfl | rfl
      · exact ⟨b2, b3⟩
      · exact absurd rfl m2
    · rintro ⟨m1, m2⟩
      rcases binary_lits b1 hfc b2 b3 m1 with rfl | rfl
      · exact absurd rfl m2
      · exact ⟨hd.2.2, fun e => d3 e.symm⟩
  | none =>
    rw [hb] at hm
    dsimp only at hm
    split at hm
    · cases hm
    · rename_i hcount
      have hcount : (s.clause c).lits.countP factors.contains = 1 := by simpa using hcount
      cases hml : s.minLit conn ((s.clause c).lits.filter fun l => !factors.contains l) none with
      | none => rw [hml] at hm; cases hm
      | some k =>
        rw [hml] at hm
        dsimp only at hm
        have hd := mem_factorWatches (List.mem_of_find?_eq_some hm)
        have hp := List.find?_some hm
        simp only [Bool.and_eq_true, decide_eq_true_eq, Bool.not_eq_true', List.all_eq_true,
          Bool.or_eq_true] at hp
        obtain ⟨⟨⟨⟨_, _⟩, hu⟩, hlen⟩, hall⟩ := hp
        have hQ : ∀ m, m ∈ (s.clause c).lits.filter (fun l => !factors.contains l) ↔ m ∈ (s.clause c).lits ∧ m ∉ factors := by
          intro m; rw [List.mem_filter]; simp
        have hother : ∀ m ∈ (s.clause c).lits, m ≠ factor → m ∉ factors := by
          intro m m1 m2 m3
          have := two_le_countP (p := factors.contains) m1 hfc m2 (by simpa using m3) (by simpa using hf)
          omega
        have hQlen : ((s.clause c).lits.filter fun l => !factors.contains l).length + 1 = (s.clause c).lits.length := by
          have h1 := List.length_eq_countP_add_countP (p := factors.contains) (l := (s.clause c).lits)
          rw [hcount] at h1
          rw [← List.countP_eq_length_filter]
          have h2 : List.countP (fun a => decide ¬ factors.contains a = true) (s.clause c).lits =
            List.countP (fun l => !factors.contains l) (s.clause c).lits := by
            congr 1
            funext a
            cases factors.contains a <;> rfl
          omega
        have hsub : ∀ m ∈ (s.clause d).lits, m ∈ next :: (s.clause c).lits.filter fun l => !factors.contains l := by
          intro m hm
          rcases hall m hm with h1 | h1
          · exact List.mem_cons_of_mem _ (by simpa using h1)
          · simp [h1]
        have hsup := superset_of_length _ (h.nodup d hd.1) hsub (by rw [List.length_cons]; omega)
        refine ⟨by simpa using hu, ⟨hd.1, hd.2.1, hsup next (by simp)⟩, fun m => ?_⟩
        constructor
        · rintro ⟨m1, m2⟩
          rcases List.mem_cons.1 (hsub m m1) with e | hm
          · exact absurd e m2
          · have := (hQ m).1 hm
            exact ⟨this.1, fun e => this.2 (e ▸ hf)⟩
        · rintro ⟨m1, m2⟩
          have hq := hother m m1 m2
          exact ⟨hsup m (List.mem_cons_of_mem _ ((hQ m).2 ⟨m1, hq⟩)), fun e => hq (e ▸ hn)⟩

/-- What the loop over the clauses of the last quotient establishes. -/
structure Partial (s : State) (q : Quotient) (next : Nat) (i : Nat) (cs ps : List Nat) : Prop where
  length : ps.length = cs.length
  nodup : cs.Nodup
  positions : ps.Nodup
  bound : ∀ j ∈ ps, j < i
  live : ∀ r ∈ cs, (s.clause r).garbage = false ∧ (s.clause r).redundant = false ∧ next ∈ (s.clause r).lits
  same : ∀ k, k < cs.length → ∀ m, (m ∈ (s.clause (cs.getD k 0)).lits ∧ m ≠ next) ↔
    (m ∈ (s.clause (q.clauses.getD (ps.getD k 0) 0)).lits ∧ m ≠ q.factor)

theorem factorizeLoop_spec {orig : List (List Nat)} {s : State} (h : Struct orig s) {conn : Nat → Bool} {factors : List Nat}
    {q : Quotient} {next : Nat} (hq : Column s q) (hf : q.factor ∈ factors) (hn : next ∈ factors) :
    ∀ (rest : List Nat) (i : Nat) (cs ps : List Nat), i + rest.length = q.clauses.length → rest = q.clauses.drop i →
    Partial s q next i cs ps →
    Partial s q next q.clauses.length (s.factorizeLoop conn factors q.factor next i rest cs ps).1
      (s.factorizeLoop conn factors q.factor next i rest cs ps).2
  | [], i, cs, ps, hl, _, hp => by
    have : i = q.clauses.length := by simpa using hl
    unfold State.factorizeLoop
    rw [← this]; exact hp
  | c :: rest, i, cs, ps, hl, hd, hp => by
    have hlt : i < q.clauses.length := by rw [List.length_cons] at hl; omega
    have hci : q.clauses[i]? = some c := by
      have := congrArg (fun l => l[0]?) hd
      simpa using this.symm
    have hc : q.clauses.getD i 0 = c := by
      rw [List.getD_eq_getElem?_getD, hci]; rfl
    have hmem : c ∈ q.clauses := List.mem_of_getElem? hci
    have hrest : rest = q.clauses.drop (i + 1) := by
      have := congrArg List.tail hd
      simpa using this
    have hl' : i + 1 + rest.length = q.clauses.length := by rw [List.length_cons] at hl; omega
    unfold State.factorizeLoop
    cases hm : s.matchClause conn factors q.factor next cs c with
    | none =>
      exact factorizeLoop_spec h hq hf hn rest (i + 1) cs ps hl' hrest
        ⟨hp.length, hp.nodup, hp.positions, fun j hj => by have := hp.bound j hj; omega, hp.live, hp.same⟩
    | some d =>
      obtain ⟨m1, m2, m3⟩ := matchClause_spec h hm (hq.live c hmem).1 (hq.live c hmem).2.2 hf hn
      refine factorizeLoop_spec h hq hf hn rest (i + 1) _ _ hl' hrest ⟨?_, ?_, ?_, ?_, ?_, ?_⟩
      · simp [hp.length]
      · rw [List.nodup_append]
        exact ⟨hp.nodup, by simp, fun a ha b hb e => m1 (by rw [List.mem_singleton.1 hb] at e; exact e ▸ ha)⟩
      · rw [List.nodup_append]
        refine ⟨hp.positions, by simp, fun a ha b hb e => ?_⟩
        rw [List.mem_singleton.1 hb] at e
        have := hp.bound a ha
        omega
      · intro j hj
        rcases List.mem_append.1 hj with hj | hj
        · have := hp.bound j hj; omega
        · rw [List.mem_singleton.1 hj]; omega
      · intro r hr
        rcases List.mem_append.1 hr with hr | hr
        · exact hp.live r hr
        · rw [List.mem_singleton.1 hr]; exact m2
      · intro k hk m
        by_cases hk' : k < cs.length
        · have e1 : (cs ++ [d]).getD k 0 = cs.getD k 0 := by
            rw [List.getD_eq_getElem?_getD, List.getD_eq_getElem?_getD, List.getElem?_append_left hk']
          have e2 : (ps ++ [i]).getD k 0 = ps.getD k 0 := by
            rw [List.getD_eq_getElem?_getD, List.getD_eq_getElem?_getD, List.getElem?_append_left (by rw [hp.length]; exact hk')]
          rw [e1, e2]
          exact hp.same k hk' m
        · have hk2 : k = cs.length := by simp at hk; omega
          subst hk2
          have e1 : (cs ++ [d]).getD cs.length 0 = d := by
            rw [List.getD_eq_getElem?_getD, List.getElem?_append_right (Nat.le_refl _)]; simp
          have e2 : (ps ++ [i]).getD cs.length 0 = i := by
            rw [List.getD_eq_getElem?_getD, List.getElem?_append_right (by rw [hp.length]; exact Nat.le_refl _), hp.length]; simp
          rw [e1, e2, hc]
          exact m3 m

theorem active_spec {s : State} {v : Nat} (h : s.active v = true) :
    v < s.exports.length ∧ s.removed v = false ∧ s.values (2 * v) = 0 := by
  unfold State.active at h
  simp only [Bool.and_eq_true, decide_eq_true_eq, Bool.not_eq_true'] at h
  exact ⟨h.1.1, h.1.2, h.2⟩

theorem Columns.next {orig : List (List Nat)} {s : State} (h : Struct orig s) {conn : Nat → Bool} {q : Quotient}
    {qs : List Quotient} {next : Nat} (hc : Columns s (q :: qs)) (hn : next ∉ (q :: qs).map Quotient.factor)
    (ha : s.active (next / 2) = true) :
    Columns s (s.factorizeNext conn (next :: (q :: qs).map Quotient.factor) q next :: q :: qs) := by
  obtain ⟨a1, a2, _⟩ := active_spec ha
  have k := factorizeLoop_spec h (conn := conn) (factors := next :: (q :: qs).map Quotient.factor) (q := q) (next := next) hc.head
    (by simp) (by simp) q.clauses 0 [] [] (by simp) (by simp)
    ⟨rfl, List.nodup_nil, List.nodup_nil, by simp, by simp, by simp⟩
  unfold State.factorizeNext
  dsimp only
  generalize s.factorizeLoop conn (next :: (q :: qs).map Quotient.factor) q.factor next 0 q.clauses [] [] = r at k ⊢
  exact ⟨⟨a1, a2, k.nodup, k.live⟩, k.length, k.positions, hn, fun i hi =>
    ⟨k.bound _ (getD_mem (by rw [k.length]; exact hi)), k.same i hi⟩, hc⟩

theorem Columns.loop {orig : List (List Nat)} {s : State} (h : Struct orig s) (conn : Nat → Bool) (initial : Nat) :
    ∀ (nexts : List Nat) (qs : List Quotient), Columns s qs → Columns s (s.quotientLoop conn initial nexts qs)
  | [], qs, hc => by unfold State.quotientLoop; exact hc
  | next :: rest, [], hc => hc.elim
  | next :: rest, q :: qs, hc => by
    unfold State.quotientLoop
    dsimp only
    split
    · exact hc
    · rename_i hb
      simp only [Bool.or_eq_true, not_or, Bool.not_eq_true', Bool.not_eq_false, List.contains_iff_mem, decide_eq_true_eq] at hb
      exact Columns.loop h conn initial rest _ (hc.next h hb.1.1 hb.1.2)

theorem Columns.first {orig : List (List Nat)} {s : State} (_ : Struct orig s) (conn : Nat → Bool) {first : Nat}
    (ha : s.active (first / 2) = true) : Columns s [s.firstFactor conn first] := by
  obtain ⟨a1, a2, _⟩ := active_spec ha
  refine ⟨a1, a2, ?_, fun r hr => mem_factorWatches hr⟩
  exact (occurrences_nodup s first).sublist List.filter_sublist

end Verif.Simp
