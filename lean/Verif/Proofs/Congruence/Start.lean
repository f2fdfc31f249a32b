import Verif.Proofs.Congruence.ExtractMore

/-!
# Saving binary clauses
-/

namespace Verif.Congruence

open Verif.Spec Verif.Model Verif.Simp

variable {orig : List (List Nat)} {F0 : Formula} {E : List (List Nat)} {c c' : Closure} {s : State}

/-- The clause `r` has these two literals. -/
structure Has (s : State) (a b r : Nat) : Prop where
  live : (s.clause r).garbage = false
  irredundant : (s.clause r).redundant = false
  lits : (s.clause r).lits = [a, b] ∨ (s.clause r).lits = [b, a]

theorem Has.swap {a b r : Nat} (h : Has s a b r) : Has s b a r := ⟨h.live, h.irredundant, h.lits.symm⟩

theorem Has.pair {a b r : Nat} (h : Has s a b r) : Has s (pair a b).1 (pair a b).2 r := by
  unfold Congruence.pair; split
  · exact h
  · exact h.swap

theorem Has.uc {a b r : Nat} (h : Has s a b r) : UC s.irr [a, b] := by
  have := clause_irr h.live h.irredundant
  rcases h.lits with e | e
  · rw [e] at this; exact .of_clause this
  · rw [e] at this; exact (UC.of_clause this).perm (.swap _ _ _)

theorem Has.ne (h : InvE orig F0 E s) {a b r : Nat} (hh : Has s a b r) : a ≠ b := by
  have := h.inv.struct.nodup r hh.live
  rcases hh.lits with e | e <;> rw [e] at this <;> simp at this
  · exact this
  · exact fun e => this e.symm

theorem Has.keep {a b r q : Nat} (h : Has s a b r) (hq : q < s.arena.length) (hne : r ≠ q) : Has (s.markGarbage q) a b r := by
  have e : (s.markGarbage q).clause r = s.clause r := by rw [clause_garbage hq, if_neg hne]
  exact ⟨by rw [e]; exact h.live, by rw [e]; exact h.irredundant, by rw [e]; exact h.lits⟩

theorem Has.ok (h : InvE orig F0 E s) {a b r : Nat} (hh : Has s a b r) : Ok s a ∧ Ok s b := by
  have h1 : ∀ l ∈ (s.clause r).lits, Ok s l := fun l hl =>
    ⟨h.inv.struct.clause r hh.live l hl, h.inv.struct.removed r hh.live hh.irredundant l hl⟩
  rcases hh.lits with e | e <;> rw [e] at h1
  · exact ⟨h1 a (by simp), h1 b (by simp)⟩
  · exact ⟨h1 a (by simp), h1 b (by simp)⟩

/-- There is a binary clause. -/
def Bin (s : State) (a b : Nat) : Prop := ∃ r, Has s a b r

/-- Binary clauses are kept, unless they are satisfied. -/
structure Keeps (s s' : State) : Prop where
  values : s'.values = s.values
  trail : s'.trail = s.trail
  exports : s'.exports = s.exports
  removed : s'.removed = s.removed
  inconsistent : s'.inconsistent = s.inconsistent
  bin : ∀ a b, Bin s a b → Bin s' a b ∨ 0 < s.values a ∨ 0 < s.values b

theorem Keeps.refl (s : State) : Keeps s s := ⟨rfl, rfl, rfl, rfl, rfl, fun _ _ h => Or.inl h⟩

theorem Keeps.trans {s s' s'' : State} (h : Keeps s s') (h' : Keeps s' s'') : Keeps s s'' :=
  ⟨h'.values.trans h.values, h'.trail.trans h.trail, h'.exports.trans h.exports, h'.removed.trans h.removed, h'.inconsistent.trans h.inconsistent, fun a b hb => by
    rcases h.bin a b hb with h1 | h1
    · have := h'.bin a b h1
      rwa [h.values] at this
    · exact Or.inr h1⟩

theorem Keeps.large {r : Nat} (hg : (s.clause r).garbage = false) (hl : 3 ≤ (s.clause r).lits.length) : Keeps s (s.markGarbage r) := by
  refine ⟨rfl, rfl, rfl, rfl, rfl, fun a b ⟨q, hq⟩ => Or.inl ⟨q, hq.keep (clause_lt hg) ?_⟩⟩
  rintro rfl
  rcases hq.lits with e | e <;> rw [e] at hl <;> simp at hl

theorem Keeps.satisfied {a b r : Nat} (h : Has s a b r) (hv : 0 < s.values a ∨ 0 < s.values b) : Keeps s (s.markGarbage r) := by
  refine ⟨rfl, rfl, rfl, rfl, rfl, fun x y ⟨q, hq⟩ => ?_⟩
  by_cases e : q = r
  · subst e
    right
    rcases h.lits with h1 | h1 <;> rcases hq.lits with h2 | h2 <;> rw [h1] at h2 <;> injection h2 with h2 h3 <;> injection h3 with h3 h4 <;>
      subst h2 h3
    · exact hv
    · exact hv.symm
    · exact hv.symm
    · exact hv
  · exact Or.inl ⟨q, hq.keep (clause_lt h.live) e⟩

theorem Keeps.duplicate {a b r q : Nat} (h : Has s a b r) (hq : Has s a b q) (hne : q ≠ r) : Keeps s (s.markGarbage r) := by
  refine ⟨rfl, rfl, rfl, rfl, rfl, fun x y ⟨k, hk⟩ => ?_⟩
  by_cases e : k = r
  · subst e
    left
    have hq' := hq.keep (clause_lt h.live) hne
    refine ⟨q, ?_⟩
    rcases h.lits with h1 | h1 <;> rcases hk.lits with h2 | h2 <;> rw [h1] at h2 <;> injection h2 with h2 h3 <;> injection h3 with h3 h4 <;>
      subst h2 h3
    · exact hq'
    · exact hq'.swap
    · exact hq'.swap
    · exact hq'
  · exact Or.inl ⟨k, hk.keep (clause_lt h.live) e⟩

theorem InvE.duplicate (h : InvE orig F0 E s) {a b r q : Nat} (hr : Has s a b r) (hq : Has s a b q) (hne : q ≠ r) :
    InvE orig F0 E (s.markGarbage r) := by
  refine h.markGarbage hr.live (Or.inr fun σ hσ => ?_)
  have hq' := hq.keep (clause_lt hr.live) hne
  obtain ⟨l, hl, ht⟩ := hσ _ (clause_irr hq'.live hq'.irredundant)
  refine ⟨l, ?_, ht⟩
  rcases hr.lits with h1 | h1 <;> rcases hq'.lits with h2 | h2 <;> rw [h1] <;> rw [h2] at hl <;> simp at hl ⊢
  · exact hl
  · exact hl.symm
  · exact hl.symm
  · exact hl

/-- The saved binary clauses. -/
structure Saved (s : State) (saved : List (Nat × Nat)) (rs : List Nat) : Prop where
  nodup : saved.Nodup
  lt : ∀ p ∈ saved, p.1 < p.2
  has : ∀ p ∈ saved, ∃ r, r ∉ rs ∧ Has s p.1 p.2 r

theorem Saved.tail {saved : List (Nat × Nat)} {r : Nat} {rs : List Nat} (h : Saved s saved (r :: rs)) : Saved s saved rs :=
  ⟨h.nodup, h.lt, fun p hp => by
    obtain ⟨q, h1, h2⟩ := h.has p hp
    exact ⟨q, fun hq => h1 (List.mem_cons_of_mem _ hq), h2⟩⟩

theorem Saved.mark {saved : List (Nat × Nat)} {r : Nat} {rs : List Nat} (h : Saved s saved (r :: rs)) (hr : (s.clause r).garbage = false) :
    Saved (s.markGarbage r) saved rs :=
  ⟨h.nodup, h.lt, fun p hp => by
    obtain ⟨q, h1, h2⟩ := h.has p hp
    exact ⟨q, fun hq => h1 (List.mem_cons_of_mem _ hq), h2.keep (clause_lt hr) fun e => h1 (by simp [e])⟩⟩

theorem pair_lt {a b : Nat} (h : a ≠ b) : (pair a b).1 < (pair a b).2 := by
  unfold pair; split
  · assumption
  · show b < a; omega

theorem Saved.add {saved : List (Nat × Nat)} {r : Nat} {rs : List Nat} {p : Nat × Nat} (h : Saved s saved (r :: rs)) (hr : r ∉ rs)
    (hh : Has s p.1 p.2 r) (hp : p.1 < p.2) (hm : p ∉ saved) : Saved s (saved ++ [p]) rs := by
  refine ⟨?_, fun x hx => ?_, fun x hx => ?_⟩
  · rw [List.nodup_append]
    refine ⟨h.nodup, by simp, fun x hx y hy e => ?_⟩
    rw [List.mem_singleton.1 hy] at e
    exact hm (e ▸ hx)
  · rcases List.mem_append.1 hx with hx | hx
    · exact h.lt x hx
    · rw [List.mem_singleton.1 hx]; exact hp
  · rcases List.mem_append.1 hx with hx | hx
    · exact h.tail.has x hx
    · rw [List.mem_singleton.1 hx]; exact ⟨r, hr, hh⟩

theorem Saved.copy {saved : List (Nat × Nat)} {r : Nat} {rs : List Nat} {p : Nat × Nat} (h : Saved s saved (r :: rs)) (hp : p ∈ saved) :
    ∃ q, q ≠ r ∧ Has s p.1 p.2 q := by
  obtain ⟨q, h1, h2⟩ := h.has p hp
  exact ⟨q, fun e => h1 (by simp [e]), h2⟩

theorem saveBinaries_spec : ∀ (rs : List Nat) {s : State} {saved : List (Nat × Nat)}, rs.Nodup → InvE orig F0 E s → Saved s saved rs →
    InvE orig F0 E (saveBinaries s saved rs).1 ∧ Saved (saveBinaries s saved rs).1 (saveBinaries s saved rs).2 [] ∧
    Keeps s (saveBinaries s saved rs).1
  | [], s, saved, _, h, hs => ⟨h, hs, .refl s⟩
  | r :: rs, s, saved, hnd, h, hs => by
    obtain ⟨n1, n2⟩ := List.nodup_cons.1 hnd
    unfold saveBinaries
    split
    · rename_i a b e1 e2
      have hr : Has s a b r := by
        simp only [Bool.or_eq_false_iff] at e1
        exact ⟨e1.1, e1.2, Or.inl e2⟩
      split
      · split
        · rename_i c2
          obtain ⟨q, q1, q2⟩ := hs.copy c2
          have i1 := h.duplicate hr.pair q2 q1
          obtain ⟨j1, j2, j3⟩ := saveBinaries_spec rs n2 i1 (hs.mark hr.live)
          exact ⟨j1, j2, (Keeps.duplicate hr.pair q2 q1).trans j3⟩
        · rename_i c2
          exact saveBinaries_spec rs n2 h (hs.add n1 hr.pair (pair_lt (hr.ne h)) c2)
      · split
        · rename_i c2
          have i1 : InvE orig F0 E (s.markGarbage r) := by
            rcases c2 with c2 | c2
            · exact h.satisfied hr.live (o := a) (by rw [e2]; simp) c2
            · exact h.satisfied hr.live (o := b) (by rw [e2]; simp) c2
          obtain ⟨j1, j2, j3⟩ := saveBinaries_spec rs n2 i1 (hs.mark hr.live)
          exact ⟨j1, j2, (Keeps.satisfied hr c2).trans j3⟩
        · exact saveBinaries_spec rs n2 h hs.tail
    · exact saveBinaries_spec rs n2 h hs.tail

theorem dedup_spec : ∀ (xs : List ((Nat × Nat) × Nat)) {s : State} {saved : List (Nat × Nat)}, (xs.map (·.2)).Nodup → InvE orig F0 E s →
    Saved s saved (xs.map (·.2)) → (∀ x ∈ xs, Has s x.1.1 x.1.2 x.2 ∧ x.1.1 < x.1.2) →
    InvE orig F0 E (dedup s saved xs).1 ∧ Saved (dedup s saved xs).1 (dedup s saved xs).2 [] ∧ Keeps s (dedup s saved xs).1
  | [], s, saved, _, h, hs, _ => ⟨h, hs, .refl s⟩
  | (p, r) :: xs, s, saved, hnd, h, hs, hx => by
    obtain ⟨n1, n2⟩ := List.nodup_cons.1 hnd
    unfold dedup
    obtain ⟨hr, hlt⟩ := hx (p, r) (by simp)
    split
    · rename_i c2
      obtain ⟨q, q1, q2⟩ := hs.copy c2
      have i1 := h.duplicate hr q2 q1
      suffices hh : ∀ x ∈ xs, Has (s.markGarbage r) x.1.1 x.1.2 x.2 ∧ x.1.1 < x.1.2 by
        obtain ⟨j1, j2, j3⟩ := dedup_spec xs n2 i1 (hs.mark hr.live) hh
        exact ⟨j1, j2, (Keeps.duplicate hr q2 q1).trans j3⟩
      intro x hm
      obtain ⟨x1, x2⟩ := hx x (by simp [hm])
      exact ⟨x1.keep (clause_lt hr.live) fun e => n1 (List.mem_map.2 ⟨x, hm, e⟩), x2⟩
    · rename_i c2
      exact dedup_spec xs n2 h (hs.add n1 hr hlt c2) fun x hm => hx x (by simp [hm])

theorem Saved.bins {saved : List (Nat × Nat)} {rs : List Nat} (h : Saved s saved rs) : Bins s.irr saved :=
  ⟨h.nodup, h.lt, fun p hp => by
    obtain ⟨r, _, hr⟩ := h.has p hp
    exact hr.uc⟩

theorem Bins.pair {F : Formula} {bins : List (Nat × Nat)} (h : Bins F bins) {a b : Nat} (hp : pair a b ∈ bins) : UC F [a, b] := by
  have := h.uc _ hp
  unfold Congruence.pair at this
  split at this
  · exact this
  · exact this.perm (.swap _ _ _)

/-! ## The beginning -/

/-- Before gates are extracted. -/
structure Fresh (orig : List (List Nat)) (F0 : Formula) (c : Closure) : Prop where
  inv : InvE orig F0 [] c.solver
  cons : c.solver.inconsistent = false
  repr : c.repr = fun l => l
  gates : c.gates = []
  occ : c.occurrences = fun _ => []

theorem Fresh.good (h : Fresh orig F0 c) (hb : ∀ p ∈ c.binaries, UC c.solver.irr [p.1, p.2] ∧ Ok c.solver p.1 ∧ Ok c.solver p.2) :
    Good orig F0 [] c := by
  refine ⟨⟨h.inv, h.cons, ?_, ?_, ?_, ?_, ?_, hb⟩, ?_, ?_⟩
  · intro l; rw [h.repr]
  · intro l; rw [h.repr]; simp
  · intro l hl; rw [h.repr]; exact hl
  · intro l; rw [h.repr]
  · intro l; rw [h.repr]; simp
  · intro g _ hg
    have := gate_lt hg
    rw [h.gates] at this; simp at this
  · intro m g hg
    rw [h.occ] at hg; cases hg

theorem Saved.ok {saved : List (Nat × Nat)} {rs : List Nat} (h : Saved s saved rs) (hi : InvE orig F0 E s) :
    ∀ p ∈ saved, UC s.irr [p.1, p.2] ∧ Ok s p.1 ∧ Ok s p.2 := fun p hp => by
  obtain ⟨r, _, hr⟩ := h.has p hp
  exact ⟨hr.uc, hr.ok hi⟩

theorem Fresh.enterDense (h : Fresh orig F0 c) : Fresh orig F0 c.enterDense ∧ Saved c.enterDense.solver c.enterDense.binaries [] ∧
    Keeps c.solver c.enterDense.solver := by
  obtain ⟨j1, j2, j3⟩ := saveBinaries_spec (orig := orig) (F0 := F0) (E := []) (List.range c.solver.arena.length) (saved := []) List.nodup_range
    h.inv ⟨by simp, by simp, by simp⟩
  exact ⟨⟨j1, j3.inconsistent.trans h.cons, h.repr, h.gates, h.occ⟩, j2, j3⟩

/-! ## Binary clauses from ternary ones -/

theorem strengthen_bot {F : Formula} {bins : List (Nat × Nat)} (hb : Bins F bins) {values : Nat → Int} {lits : List Nat} (hc : F lits)
    {l k : Nat} (hs : strengthen values bins lits = some (l, k)) : Bot F [neg l, neg k] ∧ values l = 0 ∧ values k = 0 ∧ ∃ d,
      lits.Perm [d, l, k] := by
  have main : ∀ d x y : Nat, UC F [d, x, y] → (pair (neg d) x ∈ bins ∨ pair (neg d) y ∈ bins) → Bot F [neg x, neg y] := by
    intro d x y hu hp
    have h1 : Imp F [neg x, neg y] d := (hu [] d [x, y] rfl).weaken (by simp)
    have h2 : Imp F [neg x, neg y] (neg d) := by
      rcases hp with hp | hp
      · exact ((hb.pair hp) [] (neg d) [x] rfl).weaken (by simp)
      · exact ((hb.pair hp) [] (neg d) [y] rfl).weaken (by simp)
    exact Bot.contra h1 h2
  unfold strengthen at hs
  split at hs
  · rename_i a b d
    have hu : UC F [a, b, d] := .of_clause hc
    split at hs
    · cases hs
    · rename_i c0
      simp only [not_or, Decidable.not_not] at c0
      obtain ⟨v1, v2, v3⟩ := c0
      have p2 : [a, b, d].Perm [b, a, d] := .swap _ _ _
      have p3 : [a, b, d].Perm [d, a, b] := (List.perm_append_comm (l₁ := [a, b]) (l₂ := [d]))
      split at hs
      · rename_i c1
        cases hs
        exact ⟨main _ _ _ hu c1, v2, v3, _, .refl _⟩
      · split at hs
        · rename_i c1
          cases hs
          exact ⟨main _ _ _ (hu.perm p2) c1, v1, v3, _, p2⟩
        · split at hs
          · rename_i c1
            cases hs
            exact ⟨main _ _ _ (hu.perm p3) c1, v1, v2, _, p3⟩
          · cases hs
  · cases hs

/-- After adding binary clauses. -/
structure Added (c c' : Closure) (xs : List ((Nat × Nat) × Nat)) : Prop where
  nodup : (xs.map (·.2)).Nodup
  large : ∀ x ∈ xs, c.solver.arena.length ≤ x.2
  has : ∀ x ∈ xs, Has c'.solver x.1.1 x.1.2 x.2 ∧ x.1.1 < x.1.2
  old : ∀ r, r < c.solver.arena.length → c'.solver.clause r = c.solver.clause r
  length : c.solver.arena.length ≤ c'.solver.arena.length
  irr : ∀ d, c.solver.irr d → c'.solver.irr d

theorem Fresh.extractTernaries (order : State → List Nat) {bins : List (Nat × Nat)} : ∀ (rs : List Nat) {c : Closure}, Fresh orig F0 c →
    Bins c.solver.irr bins → (∀ p ∈ c.binaries, UC c.solver.irr [p.1, p.2] ∧ Ok c.solver p.1 ∧ Ok c.solver p.2) →
    Fresh orig F0 (c.extractTernaries order bins rs).1 ∧
    Added c (c.extractTernaries order bins rs).1 (c.extractTernaries order bins rs).2
  | [], c, h, _, _ => ⟨h, by simp [Closure.extractTernaries], by simp [Closure.extractTernaries], by simp [Closure.extractTernaries],
      fun _ _ => rfl, Nat.le_refl _, fun _ h => h⟩
  | r :: rs, c, h, hb, hbs => by
    unfold Closure.extractTernaries
    split
    · exact Fresh.extractTernaries order rs h hb hbs
    · rename_i c1
      simp only [Bool.or_eq_true, not_or, Bool.not_eq_true] at c1
      split
      · exact Fresh.extractTernaries order rs h hb hbs
      · rename_i l k hs
        split
        · exact Fresh.extractTernaries order rs h hb hbs
        · have hirr := clause_irr c1.1 c1.2
          obtain ⟨h1, v1, v2, d, hp⟩ := strengthen_bot hb hirr hs
          have hl : l ∈ (c.solver.clause r).lits := hp.symm.subset (by simp)
          have hk : k ∈ (c.solver.clause r).lits := hp.symm.subset (by simp)
          have hne : l ≠ k := by
            have := hp.nodup_iff.1 (h.inv.inv.struct.nodup r c1.1)
            simp at this
            exact this.2
          have hnn : l ≠ neg k := fun e => h.inv.inv.struct.taut r c1.1 k hk (e ▸ hl)
          have hg := h.good hbs
          have ol := hg.base.clause_ok c1.1 c1.2 hl
          have ok := hg.base.clause_ok c1.1 c1.2 hk
          obtain ⟨o1, o2⟩ := hg.base.newBinary ol ok hne hnn (h1.le irr_base)
          rw [addBinary_new order h.cons v1 v2 hne hnn]
          have f1 : Fresh orig F0 (c.newBinary l k) := ⟨o1.inv, h.cons, h.repr, h.gates, h.occ⟩
          have hle := o1.rel.le
          obtain ⟨j1, j2⟩ := Fresh.extractTernaries order rs f1 (hb.le hle) (o1.base h.cons).bins
          have e1 : (c.newBinary l k).solver.arena.length = c.solver.arena.length + 1 := by
            show (c.solver.arena ++ [_]).length = _
            simp
          have hnew : (c.newBinary l k).solver.clause c.solver.arena.length = ⟨[l, k], false, false⟩ := by
            show (c.solver.newClause [l, k] false).clause _ = _
            rw [clause_new, if_pos rfl]; rfl
          refine ⟨j1, ?_, ?_, ?_, ?_, ?_, ?_⟩
          · show (_ :: List.map _ _).Nodup
            rw [List.nodup_cons]
            refine ⟨fun hm => ?_, j2.nodup⟩
            obtain ⟨x, hx, e⟩ := List.mem_map.1 hm
            have := j2.large x hx
            have e : x.2 = c.solver.arena.length := e
            omega
          · intro x hx
            rcases List.mem_cons.1 hx with rfl | hx
            · exact Nat.le_refl _
            · have := j2.large x hx; omega
          · intro x hx
            rcases List.mem_cons.1 hx with rfl | hx
            · have e2 := j2.old c.solver.arena.length (by omega)
              rw [hnew] at e2
              refine ⟨Has.pair ⟨by rw [e2], by rw [e2], by rw [e2]; exact Or.inl rfl⟩, pair_lt hne⟩
            · exact j2.has x hx
          · intro q hq
            rw [j2.old q (by omega)]
            show (c.solver.newClause [l, k] false).clause q = _
            rw [clause_new, if_neg (by omega)]
          · show _ ≤ (Closure.extractTernaries order bins (c.newBinary l k) rs).1.solver.arena.length
            have := j2.length; omega
          · intro e he
            exact j2.irr e (irr_new.2 (Or.inr he))

theorem Fresh.extractBinaries (h : Fresh orig F0 c) (hs : Saved c.solver c.binaries []) (order : State → List Nat) (rs : List Nat) :
    Fresh orig F0 (c.extractBinaries order rs) ∧
    Saved (c.extractBinaries order rs).solver (c.extractBinaries order rs).binaries [] := by
  obtain ⟨j1, j2⟩ := Fresh.extractTernaries order rs h hs.bins (hs.ok h.inv)
  have hs' : Saved (c.extractTernaries order c.binaries rs).1.solver c.binaries ((c.extractTernaries order c.binaries rs).2.map (·.2)) := by
    refine ⟨hs.nodup, hs.lt, fun p hp => ?_⟩
    obtain ⟨r, _, hr⟩ := hs.has p hp
    have hlt := clause_lt hr.live
    have e := j2.old r hlt
    refine ⟨r, fun hm => ?_, ⟨by rw [e]; exact hr.live, by rw [e]; exact hr.irredundant, by rw [e]; exact hr.lits⟩⟩
    obtain ⟨x, hx, e⟩ := List.mem_map.1 hm
    have := j2.large x hx
    omega
  obtain ⟨i1, i2, i3⟩ := dedup_spec _ j2.nodup j1.inv hs' j2.has
  exact ⟨⟨i1, i3.inconsistent.trans j1.cons, j1.repr, j1.gates, j1.occ⟩, i2⟩

end Verif.Congruence
