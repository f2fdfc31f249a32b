import Verif.Proofs.Simp.Vivify

/-!
# Vivification: assumptions, and what is deduced
-/

namespace Verif.Simp

open Verif.Spec Verif.Model Verif.Model.Extend

/-! ## Assumptions -/

/-- What propagation keeps of the solver. -/
structure Keeps (s s' : State) : Prop where
  pres : Preserves s s'
  arena : s'.arena = s.arena
  exports : s'.exports = s.exports
  removed : s'.removed = s.removed
  neg : ∀ l, s.values l < 0 → s'.values l < 0

theorem Keeps.refl (s : State) : Keeps s s := ⟨.refl s, rfl, rfl, rfl, fun _ h => h⟩

theorem Keeps.trans {a b c : State} (h : Keeps a b) (h' : Keeps b c) : Keeps a c :=
  ⟨h.pres.trans h'.pres, h'.arena.trans h.arena, h'.exports.trans h.exports, h'.removed.trans h.removed,
    fun l hl => h'.neg l (h.neg l hl)⟩

theorem Moved.keeps {orig : List (List Nat)} {cand : Nat} {p p' : VState} (h : Moved orig cand p p') : Keeps p.s p'.s :=
  ⟨h.pres, h.arena, h.exports, h.removed, h.neg⟩

/-- The state after the assumptions. -/
structure AOut (orig : List (List Nat)) (cand : Nat) (sorted : List Nat) (s : State) (a : Assumed) : Prop where
  inv : VInv orig a.p
  keeps : Keeps s a.p.s
  not : NotReason cand a.p.trail
  dec : (∀ e ∈ a.p.trail, e.reason = .decision → Spec.neg e.lit ∈ sorted) ∨
    (a.conflict = none ∧ a.implied = false ∧ sorted.length < a.p.level ∧
      ∀ x ∈ sorted, ∃ e ∈ a.p.trail, e.reason = .decision ∧ e.lit = Spec.neg x)
  conflict : ∀ r, a.conflict = some r → Conflicting a.p cand r

theorem AOut.before {orig : List (List Nat)} {cand : Nat} {sorted : List Nat} {s s' : State} {a : Assumed} (h : Keeps s s')
    (h' : AOut orig cand sorted s' a) : AOut orig cand sorted s a :=
  ⟨h'.inv, h.trans h'.keeps, h'.not, h'.dec, h'.conflict⟩

theorem assume_spec {orig : List (List Nat)} {jump : Bool} {cand : Nat} {sorted : List Nat} : ∀ (rest pre : List Nat) (level : Nat)
    (orders : List (List Nat)) {p : VState}, sorted = pre ++ rest → level = pre.length → VInv orig p → NotReason cand p.trail →
    (∀ x ∈ sorted, p.s.InRange x ∧ p.s.removed (x / 2) = false) →
    (∀ e ∈ p.trail, e.reason = .decision → e.level ≤ level → Spec.neg e.lit ∈ sorted) →
    (p.level ≤ level ∨ ∀ x ∈ pre, ∃ e ∈ p.trail, e.reason = .decision ∧ e.lit = Spec.neg x) →
    AOut orig cand sorted p.s (p.assumeLoop jump cand sorted level orders rest)
  | [], pre, level, orders, p, hs, hl, h, hn, hx, h2, h3 => by
    unfold VState.assumeLoop
    refine ⟨h, .refl _, hn, ?_, fun _ h => (by cases h)⟩
    rw [List.append_nil] at hs
    by_cases c : p.level ≤ level
    · exact Or.inl fun e he hd => h2 e he hd (Nat.le_trans (h.dec e he hd) c)
    · refine Or.inr ⟨rfl, rfl, by rw [hs, ← hl]; exact Nat.lt_of_not_le c, ?_⟩
      rw [hs]
      exact h3.resolve_left c
  | lit :: rest, pre, level, orders, p, hs, hl, h, hn, hx, h2, h3 => by
    have hlit : lit ∈ sorted := by rw [hs]; simp
    have hs' : sorted = (pre ++ [lit]) ++ rest := by rw [hs]; simp
    have hl' : level + 1 = (pre ++ [lit]).length := by rw [hl]; simp
    unfold VState.assumeLoop
    dsimp only
    by_cases c1 : (level < p.level && p.trail.any fun e => e.level = level + 1 && e.reason = .decision && e.lit = Spec.neg lit) = true
    · rw [if_pos c1]
      simp only [Bool.and_eq_true, decide_eq_true_eq, List.any_eq_true] at c1
      obtain ⟨hlt, e, e1, ⟨e2, e3⟩, e4⟩ := c1
      refine assume_spec rest (pre ++ [lit]) (level + 1) orders hs' hl' h hn hx (fun x hx hd hle => ?_) (Or.inr fun x hx => ?_)
      · by_cases c : x.level ≤ level
        · exact h2 x hx hd c
        · rw [h.uniq x hx e e1 hd e3 (by omega), e4, neg_neg]
          exact hlit
      · rcases List.mem_append.1 hx with hx | hx
        · exact h3.resolve_left (by omega) x hx
        · rw [List.mem_singleton.1 hx]; exact ⟨e, e1, e3, e4⟩
    · rw [if_neg c1]
      -- the state without decisions above
      have key : ∀ q : VState, VInv orig q → NotReason cand q.trail → q.s = p.s → q.level ≤ level →
          (∀ e ∈ q.trail, e.reason = .decision → Spec.neg e.lit ∈ sorted) →
          AOut orig cand sorted p.s (if q.value lit < 0 then q.assumeLoop jump cand sorted (level + 1) orders rest
            else if q.value lit > 0 then ⟨q, none, true⟩
            else
              match (q.assume (Spec.neg lit)).propagate jump cand (orders.headD []) with
              | (p', some r) => ⟨p', some r, false⟩
              | (p', none) =>
                if ((p'.trail.take (p'.trail.length - q.trail.length)).any fun e => sorted.contains e.lit) = true then ⟨p', none, true⟩
                else p'.assumeLoop jump cand sorted (level + 1) orders.tail rest) := by
        intro q hq hqn hqs hql hqd
        rw [← hqs] at hx ⊢
        by_cases c2 : q.value lit < 0
        · rw [if_pos c2]
          exact assume_spec rest (pre ++ [lit]) (level + 1) orders hs' hl' hq hqn hx (fun e he hd _ => hqd e he hd) (Or.inl (by omega))
        · rw [if_neg c2]
          by_cases c3 : q.value lit > 0
          · rw [if_pos c3]
            exact ⟨hq, .refl _, hqn, Or.inl hqd, fun _ h => (by cases h)⟩
          · rw [if_neg c3]
            have hv : q.value (Spec.neg lit) = 0 := by
              have h0 : q.value lit = 0 := by omega
              obtain ⟨v1, v2⟩ := value_unassigned h0
              rw [value_eq, if_neg, if_neg, hq.inv.struct.neg, v1]
              · rfl
              · rintro ⟨e, e1, e2⟩
                rw [neg_neg] at e2
                exact v2 e e1 (by rw [e2])
              · rintro ⟨e, e1, e2⟩
                exact v2 e e1 (by rw [e2, neg_div])
            have ha := hq.assume hv (inRange_neg.2 (hx lit hlit).1) (by rw [neg_div]; exact (hx lit hlit).2)
            have han : NotReason cand (q.assume (Spec.neg lit)).trail := fun e he => by
              rcases List.mem_cons.1 he with rfl | he
              · simp
              · exact hqn e he
            cases hp : (q.assume (Spec.neg lit)).propagate jump cand (orders.headD []) with
            | mk p' c =>
              obtain ⟨m1, m2⟩ := Moved.propagate _ ha han hp
              have hd' : ∀ e ∈ p'.trail, e.reason = .decision → Spec.neg e.lit ∈ sorted := fun e he hd => by
                rcases List.mem_cons.1 (m1.dec e he hd) with rfl | he
                · rw [neg_neg]; exact hlit
                · exact hqd e he hd
              have hk : Keeps q.s p'.s := m1.keeps
              cases c with
              | some r => exact ⟨m1.inv, hk, m1.not, Or.inl hd', fun r' e => by cases e; exact m2 r rfl⟩
              | none =>
                dsimp only
                split
                · exact ⟨m1.inv, hk, m1.not, Or.inl hd', fun _ h => (by cases h)⟩
                · refine .before hk (assume_spec rest (pre ++ [lit]) (level + 1) orders.tail hs' hl' m1.inv m1.not (fun x hx' => ?_)
                    (fun e he hd _ => hd' e he hd) (Or.inl ?_))
                  · rw [hk.removed]
                    have := hx x hx'
                    unfold State.InRange at this ⊢
                    rw [hk.exports]
                    exact this
                  · rw [m1.level]
                    show q.level + 1 ≤ level + 1
                    omega
      by_cases c2 : level < p.level
      · rw [if_pos c2]
        refine key (p.backtrack level) (h.backtrack level) (fun e he => hn e (List.mem_filter.1 he).1) rfl (Nat.min_le_right _ _) fun e he hd => ?_
        obtain ⟨e1, e2⟩ := List.mem_filter.1 he
        exact h2 e e1 hd (by simpa using e2)
      · rw [if_neg c2]
        exact key p h hn rfl (by omega) fun e he hd => h2 e he hd (Nat.le_trans (h.dec e he hd) (by omega))

/-! ## Literals of learned clauses -/

theorem deduceLoop_nodup {orig : List (List Nat)} {p : VState} (hS : Struct orig p.s) (hT : VT p.s p.trail) {sorted : List Nat} :
    ∀ (fuel : Nat) (todo analyzed c : List Nat) (red : Bool), (c ++ todo).Nodup →
    (∀ x ∈ c ++ todo, x ∈ analyzed ∨ ∀ e ∈ p.trail, e.lit ≠ Spec.neg x) →
    ∀ {c' S : List Nat} {red' : Bool}, p.deduceLoop sorted fuel todo analyzed c red = some (.learned c' S red') → c'.Nodup
  | fuel, [], analyzed, c, red, h1, _, c', S, red', he => by
    unfold VState.deduceLoop at he
    cases he
    simpa using h1
  | 0, _ :: _, _, _, _, _, _, _, _, _, he => by
    unfold VState.deduceLoop at he
    cases he
  | fuel + 1, notLit :: todo, analyzed, c, red, h1, h2, c', S, red', he => by
    unfold VState.deduceLoop at he
    have h1' : (c ++ todo).Nodup := List.Nodup.sublist ((List.Sublist.refl c).append (List.sublist_cons_self notLit todo)) h1
    have h2' : ∀ x ∈ c ++ todo, x ∈ analyzed ∨ ∀ e ∈ p.trail, e.lit ≠ Spec.neg x := fun x hx => h2 x (by
      rcases List.mem_append.1 hx with hx | hx
      · exact List.mem_append_left _ hx
      · exact List.mem_append_right _ (List.mem_cons_of_mem _ hx))
    have more : ∀ (new : List Nat) (red : Bool), new.Nodup → (∀ x ∈ new, x ∉ analyzed ∧ ∃ e ∈ p.trail, e.lit = Spec.neg x) →
        p.deduceLoop sorted fuel (todo ++ new) (analyzed ++ new) c red = some (.learned c' S red') → c'.Nodup := by
      intro new red n1 n2 he
      refine deduceLoop_nodup hS hT fuel (todo ++ new) (analyzed ++ new) c red ?_ (fun x hx => ?_) he
      · rw [← List.append_assoc, List.nodup_append]
        refine ⟨h1', n1, fun a ha b hb e => ?_⟩
        subst e
        obtain ⟨b1, e, b2, b3⟩ := n2 a hb
        rcases h2' a ha with h | h
        · exact b1 h
        · exact h e b2 b3
      · rw [← List.append_assoc] at hx
        rcases List.mem_append.1 hx with hx | hx
        · exact (h2' x hx).imp_left fun h => List.mem_append_left _ h
        · exact Or.inl (List.mem_append_right _ hx)
    cases hen : p.entry (Spec.neg notLit) with
    | none => rw [hen] at he; cases he
    | some e =>
      obtain ⟨lit, k, re⟩ := e
      obtain ⟨e1, e2⟩ := entry_some hen
      dsimp only at e2
      subst e2
      rw [hen] at he
      have hval := hT.valid _ e1
      cases re with
      | decision =>
        dsimp only at he
        rw [neg_neg] at he
        refine deduceLoop_nodup hS hT fuel todo analyzed (c ++ [notLit]) red ?_ (fun x hx => h2 x ?_) he
        · rw [List.append_assoc]; exact h1
        · rw [List.append_assoc] at hx; exact hx
      | binary other =>
        dsimp only at he
        by_cases c1 : (sorted.contains (Spec.neg notLit) && sorted.contains other) = true
        · rw [if_pos c1] at he; cases he
        · rw [if_neg c1] at he
          by_cases c2 : analyzed.contains other = true
          · rw [if_pos c2] at he
            exact deduceLoop_nodup hS hT fuel todo analyzed c red h1' h2' he
          · rw [if_neg c2] at he
            obtain ⟨_, y, y1, y2, _⟩ := hval
            refine more [other] red (by simp) (fun x hx => ?_) he
            rw [List.mem_singleton.1 hx]
            exact ⟨by simpa using c2, y, y1, y2⟩
      | clause r =>
        dsimp only at he
        by_cases c1 : ((p.s.clause r).lits.all fun m => sorted.contains m) = true
        · rw [if_pos c1] at he; cases he
        · rw [if_neg c1] at he
          refine more _ _ ((hS.nodup r hval.1).filter _) (fun x hx => ?_) he
          obtain ⟨x1, x2⟩ := List.mem_filter.1 hx
          simp only [Bool.and_eq_true, decide_eq_true_eq, Bool.not_eq_true', ne_eq] at x2
          exact ⟨by simpa using x2.2, (levelOf_pos hT).1 (by simpa using x2.1.2)⟩

/-! ## Deduced clauses -/

/-- The candidate. -/
structure Cand (p : VState) (cand : Nat) (sorted : List Nat) : Prop where
  live : (p.s.clause cand).garbage = false
  mem : ∀ x ∈ sorted, x ∈ (p.s.clause cand).lits
  rest : ∀ m ∈ (p.s.clause cand).lits, m ∈ sorted ∨ p.s.values m < 0
  free : ∀ x ∈ sorted, p.s.values x = 0
  size : 3 ≤ ((p.s.clause cand).lits.filter fun m => decide (p.s.values m = 0)).length
  large : 3 ≤ (p.s.clause cand).lits.length
  range : ∀ x ∈ sorted, p.s.InRange x
  removed : ∀ l ∈ (p.s.clause cand).lits, p.s.removed (l / 2) = false

/-- What is deduced. -/
structure DSpec (p : VState) (cand : Nat) (sorted : List Nat) (conflict implied : Option Nat) (d : Deduced) : Prop where
  binary : d = .subsumed none → ∃ e ∈ p.trail, ∃ o, e.reason = .binary o ∧ e.lit ∈ sorted ∧ o ∈ sorted
  clause : ∀ r, d = .subsumed (some r) → r ≠ cand ∧ (p.s.clause r).garbage = false ∧
    ∀ m ∈ (p.s.clause r).lits, m ∈ sorted ∨ p.s.values m < 0
  learned : ∀ c S red, d = .learned c S red → (∀ x ∈ c, x ∈ sorted) ∧ c.Nodup ∧
    ∀ F : Formula, HasBinaries p.s F → (∀ l ∈ p.s.trail, F [l]) →
      (∀ r, (p.s.clause r).garbage = false → (r ≠ cand ∨ (conflict = none ∧ implied = none)) →
        ((p.s.clause r).redundant = true → red = true) → F (p.s.clause r).lits) →
      UPConflict F fun l => Spec.neg l ∈ c

theorem handled_closure {p : VState} (hT : VT p.s p.trail) {S c : List Nat} {red : Bool} {F : Formula} {cand : Nat}
    (hn : NotReason cand p.trail) (hF : ∀ r, (p.s.clause r).garbage = false → r ≠ cand →
        ((p.s.clause r).redundant = true → red = true) → F (p.s.clause r).lits)
    (h : ∀ x ∈ S, Handled p S c red x) : Closure p F (fun l => Spec.neg l ∈ c) S := by
  have key : ∀ e ∈ p.trail, Spec.neg e.lit ∈ S → match e.reason with
      | .decision => Spec.neg e.lit ∈ c
      | .binary o => o ∈ S
      | .clause r => (∀ m ∈ (p.s.clause r).lits, m ≠ e.lit → p.levelOf m ≠ 0 → m ∈ S) ∧
          ((p.s.clause r).redundant = true → red = true) := by
    intro e he hS
    obtain ⟨e', h1, h2, h3⟩ := h _ hS
    rw [neg_neg] at h2
    rw [hT.inj e' h1 e he (by rw [h2])] at h3
    exact h3
  refine ⟨fun e he hS hr => ?_, fun e he hS o hr => ?_, fun e he hS r hr => ?_⟩
  · have := key e he hS
    rw [hr] at this
    exact .assumed this
  · have := key e he hS
    rw [hr] at this
    exact this
  · have h1 := key e he hS
    have h2 := hT.valid e he
    unfold Valid at h2
    rw [hr] at h1 h2
    exact ⟨hF r h2.1 (fun e' => hn e he (by rw [hr, e'])) h1.2, h1.1⟩

theorem deduce_spec {orig : List (List Nat)} {p : VState} {cand : Nat} {sorted : List Nat} {conflict implied : Option Nat}
    (h : VInv orig p) (hn : NotReason cand p.trail) (hc : Cand p cand sorted)
    (hdec : (∀ e ∈ p.trail, e.reason = .decision → Spec.neg e.lit ∈ sorted) ∨
      (conflict = none ∧ implied = none ∧ ∀ x ∈ sorted, ∃ e ∈ p.trail, e.reason = .decision ∧ e.lit = Spec.neg x))
    (hconf : ∀ r, conflict = some r → Conflicting p cand r)
    (himp : ∀ i, implied = some i → i ∈ sorted ∧ ∃ e ∈ p.trail, e.lit = i)
    {d : Deduced} (he : p.deduce cand sorted conflict implied = some d) : DSpec p cand sorted conflict implied d := by
  have hS := h.inv.struct
  have hT := h.trail
  unfold VState.deduce at he
  cases hi : implied with
  | some i =>
    rw [hi] at he
    dsimp only at he
    obtain ⟨i1, ei, i2, i3⟩ := himp i hi
    have hD := hdec.resolve_right (by rintro ⟨_, h, _⟩; rw [hi] at h; cases h)
    have hout := deduceLoop_spec hT _ _ _ _ _ (fun x hx => Or.inl hx) he
    refine ⟨hout.binary, fun r hr => ?_, fun c S red hd => ?_⟩
    · obtain ⟨⟨e, e1, e2⟩, e3⟩ := hout.clause r hr
      have := hT.valid e e1
      unfold Valid at this
      rw [e2] at this
      exact ⟨fun e' => hn e e1 (by rw [e2, e']), this.1, fun m hm => Or.inl (e3 m hm)⟩
    · obtain ⟨j1, j2, j3, j4, j5⟩ := hout.learned c S red hd
      refine ⟨fun x hx => ?_, ?_, fun F hF hU hcl => ?_⟩
      · rcases j5 x hx with h1 | ⟨e, e1, e2, e3⟩
        · rw [List.mem_singleton.1 h1]; exact i1
        · have := hD e e1 e3
          rw [e2, neg_neg] at this
          exact this
      · rw [hd] at he
        refine deduceLoop_nodup hS hT _ _ _ _ _ (by simpa using (neg_ne i).symm) (fun x hx => ?_) he
        rcases List.mem_append.1 hx with hx | hx
        · rw [List.mem_singleton.1 hx]
          refine Or.inr fun e e1 e2 => ?_
          have := hT.inj e e1 ei i2 (by rw [e2, i3, neg_div])
          rw [this, i3] at e2
          exact neg_ne i e2.symm
        · exact Or.inl hx
      · have hclo := handled_closure hT hn (fun r h1 h2 h3 => hcl r h1 (Or.inl h2) h3) j4
        have hup := closure_up hS hT hF hU hclo ei i2 (by rw [i3]; exact j1 _ (by simp))
        rw [i3] at hup
        have hic : i ∈ c := j2 i (by simp)
        have hni : UP F (fun l => Spec.neg l ∈ c) (Spec.neg i) := .assumed (by rw [neg_neg]; exact hic)
        refine hup.conflict hni fun hbad => ?_
        -- both `i` and its negation would be in the candidate
        have h1 : Spec.neg i ∈ (p.s.clause cand).lits := by
          rcases j5 _ hbad with h1 | ⟨e, e1, e2, e3⟩
          · exact absurd (List.mem_singleton.1 h1) (neg_ne i)
          · have := hD e e1 e3
            rw [e2, neg_neg] at this
            exact hc.mem _ this
        exact hS.taut cand hc.live i (hc.mem i i1) h1
  | none =>
    rw [hi] at he
    dsimp only at he
    have hR : (p.s.clause (conflict.getD cand)).garbage = false ∧
        (∀ m ∈ (p.s.clause (conflict.getD cand)).lits, p.s.values m = 0 ∨ p.s.values m < 0) ∧
        (conflict.getD cand ≠ cand ∨ conflict = none) := by
      cases hcf : conflict with
      | none =>
        refine ⟨hc.live, fun m hm => ?_, Or.inr rfl⟩
        rcases hc.rest m hm with h1 | h1
        · exact Or.inl (hc.free m h1)
        · exact Or.inr h1
      | some r =>
        obtain ⟨r1, r2, r3⟩ := hconf r hcf
        refine ⟨r1, fun m hm => ?_, Or.inl r2⟩
        by_cases hv : p.s.values m = 0
        · exact Or.inl hv
        · have := value_root hS hT hv
          have h2 := r3 m hm
          rw [this] at h2
          exact Or.inr h2
    have hsub : conflict = none → ∀ x ∈ (p.s.clause (conflict.getD cand)).lits.filter (fun m => decide (p.s.values m = 0)), x ∈ sorted := by
      intro hcn x hx
      rw [hcn] at hx
      obtain ⟨x1, x2⟩ := List.mem_filter.1 hx
      rcases hc.rest x x1 with h1 | h1
      · exact h1
      · have : p.s.values x = 0 := by simpa using x2
        omega
    obtain ⟨R1, R2, R3⟩ := hR
    have hcn : conflict.getD cand = cand → conflict = none := fun e => R3.resolve_left (fun h => h e)
    have hcl0 : ∀ {F : Formula} {red : Bool}, (∀ r, (p.s.clause r).garbage = false → (r ≠ cand ∨ (conflict = none ∧ (none : Option Nat) = none)) →
        ((p.s.clause r).redundant = true → red = true) → F (p.s.clause r).lits) →
        ((p.s.clause (conflict.getD cand)).redundant = true → red = true) → F (p.s.clause (conflict.getD cand)).lits :=
      fun hF hr => hF _ R1 (R3.imp_right fun h => ⟨h, rfl⟩) hr
    generalize conflict.getD cand = r at he hsub R1 R2 R3 hcn hcl0
    have hmem : ∀ m, m ∈ (p.s.clause r).lits.filter (fun m => decide (p.s.values m = 0)) ↔ m ∈ (p.s.clause r).lits ∧ p.s.values m = 0 := by
      intro m; rw [List.mem_filter]; simp
    have hnd := (hS.nodup r R1).filter (fun m => decide (p.s.values m = 0))
    generalize (p.s.clause r).lits.filter (fun m => decide (p.s.values m = 0)) = others at he hsub hmem hnd
    by_cases c1 : (decide (r ≠ cand) && others.all fun m => sorted.contains m) = true
    · rw [if_pos c1] at he
      cases he
      simp only [Bool.and_eq_true, decide_eq_true_eq, List.all_eq_true, List.contains_iff_mem] at c1
      refine ⟨fun h => (by cases h), fun r' hr => ?_, fun _ _ _ h => (by cases h)⟩
      cases hr
      refine ⟨c1.1, R1, fun m hm => ?_⟩
      rcases R2 m hm with h1 | h1
      · exact Or.inl (c1.2 m ((hmem m).2 ⟨hm, h1⟩))
      · exact Or.inr h1
    · rw [if_neg c1] at he
      have hout := deduceLoop_spec hT _ _ _ _ _ (fun x hx => Or.inl hx) he
      refine ⟨hout.binary, fun r hr => ?_, fun c S red hd => ?_⟩
      · obtain ⟨⟨e, e1, e2⟩, e3⟩ := hout.clause r hr
        have := hT.valid e e1
        unfold Valid at this
        rw [e2] at this
        exact ⟨fun e' => hn e e1 (by rw [e2, e']), this.1, fun m hm => Or.inl (e3 m hm)⟩
      · obtain ⟨j1, j2, j3, j4, j5⟩ := hout.learned c S red hd
        refine ⟨fun x hx => ?_, ?_, fun F hF hU hcl => ?_⟩
        · rcases hdec with hD | ⟨d1, _, d3⟩
          · rcases j5 x hx with h1 | ⟨e, e1, e2, e3⟩
            · cases h1
            · have := hD e e1 e3
              rw [e2, neg_neg] at this
              exact this
          · have := deduceLoop_decisions hT _ _ _ _ _ (fun x hx => d3 x (hsub d1 x hx)) he
            rw [hd] at this
            cases this
            exact hsub d1 x (by simpa using hx)
        · rw [hd] at he
          exact deduceLoop_nodup hS hT _ _ _ _ _ (by rw [List.nil_append]; exact hnd) (fun x hx => Or.inl (by simpa using hx)) he
        · have hclo := handled_closure hT hn (fun r h1 h2 h3 => hcl r h1 (Or.inl h2) h3) j4
          have hup := closure_up hS hT hF hU hclo
          refine ⟨_, hcl0 hcl j3, fun m hm => ?_⟩
          rcases R2 m hm with h1 | h1
          · have hmS := j1 m ((hmem m).2 ⟨hm, h1⟩)
            obtain ⟨e, e1, e2, _⟩ := j4 m hmS
            rw [← e2]
            exact hup e e1 (by rw [e2, neg_neg]; exact hmS)
          · refine .unit (hU (Spec.neg m) ?_) (by simp) fun k hk hne => absurd (List.mem_singleton.1 hk) hne
            rw [hS.trail, hS.neg]; omega

end Verif.Simp
