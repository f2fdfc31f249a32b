import Verif.Proofs.Congruence.Extract

/-!
# Extracting XOR and if-then-else gates, units and equivalences
-/

namespace Verif.Congruence

open Verif.Spec Verif.Model Verif.Simp

variable {orig : List (List Nat)} {F0 : Formula} {E : List (List Nat)} {c c' : Closure}

theorem perm_of_nodup {l m : List Nat} (hl : l.Nodup) (hm : m.Nodup) (h : ∀ x, x ∈ l ↔ x ∈ m) : l.Perm m := by
  rw [List.perm_iff_count]
  intro x
  have h1 := List.nodup_iff_count.1 hl x
  have h2 := List.nodup_iff_count.1 hm x
  have h3 := (List.count_pos_iff (a := x) (l := l))
  have h4 := (List.count_pos_iff (a := x) (l := m))
  by_cases hx : x ∈ l
  · have := h3.2 hx
    have := h4.2 ((h x).1 hx)
    omega
  · have a1 : ¬ 0 < l.count x := fun hh => hx (h3.1 hh)
    have a2 : ¬ 0 < m.count x := fun hh => hx ((h x).2 (h4.1 hh))
    omega

/-! ## XOR gates -/

theorem Flips.vars {b : Bool} {L C : List Nat} (h : Flips b L C) : C.map (· / 2) = L.map (· / 2) := by
  induction h with
  | nil => rfl
  | keep _ ih => simp [ih]
  | flip _ ih => simp [ih, neg_div]

theorem nodup_of_vars {L : List Nat} (h : (L.map (· / 2)).Nodup) : L.Nodup := by
  unfold List.Nodup at h ⊢
  rw [List.pairwise_map] at h
  exact h.imp fun hne e => hne (by rw [e])

theorem nodup_vars : ∀ {L : List Nat}, L.Nodup → (∀ l ∈ L, neg l ∉ L) → (L.map (· / 2)).Nodup
  | [], _, _ => by simp
  | x :: L, h, ht => by
    obtain ⟨h1, h2⟩ := List.nodup_cons.1 h
    rw [List.map_cons, List.nodup_cons]
    refine ⟨fun hm => ?_, nodup_vars h2 fun l hl hn => ht l (by simp [hl]) (by simp [hn])⟩
    obtain ⟨y, hy, e⟩ := List.mem_map.1 hm
    rcases eq_or_eq_neg e with e | e
    · exact h1 (e ▸ hy)
    · exact ht x (by simp) (by rw [← e]; simp [hy])

theorem XorL.strip {F : Formula} : ∀ {L : List Nat} {b : Bool} {M : List Nat}, XorL F b (L ++ M) →
    XorL F (b ^^ decide (parityLits L = 1)) (L.map Congruence.strip ++ M)
  | [], b, M, h => by simpa [parityLits] using h
  | x :: L, b, M, h => by
    have e0 : parityLits (x :: L) = (x + parityLits L) % 2 := rfl
    have hlt := parityLits_lt L
    rcases Nat.mod_two_eq_zero_or_one x with hx | hx
    · have e : Congruence.strip x = x := by unfold Congruence.strip; omega
      have h1 : XorL F b (L ++ x :: M) := h.perm List.perm_middle.symm
      have h2 := XorL.strip h1
      have e1 : parityLits (x :: L) = parityLits L := by rw [e0]; omega
      rw [e1, List.map_cons, e]
      exact h2.perm List.perm_middle
    · have e : Congruence.strip x = neg x := by unfold Congruence.strip neg; rw [if_neg (by omega)]; omega
      have h1 : XorL F (!b) (L ++ neg x :: M) := XorL.perm (XorL.flip h) List.perm_middle.symm
      have h2 := XorL.strip h1
      have e1 : (b ^^ decide (parityLits (x :: L) = 1)) = ((!b) ^^ decide (parityLits L = 1)) := by
        rw [e0]
        rcases (show parityLits L = 0 ∨ parityLits L = 1 by omega) with h3 | h3
        · have e2 : (x + parityLits L) % 2 = 1 := by omega
          rw [e2, h3]; cases b <;> rfl
        · have e2 : (x + parityLits L) % 2 = 0 := by omega
          rw [e2, h3]; cases b <;> rfl
      rw [e1, List.map_cons, e]
      exact h2.perm List.perm_middle

theorem parity_even : ∀ {L : List Nat}, (∀ l ∈ L, l % 2 = 0) → parityLits L = 0
  | [], _ => rfl
  | x :: L, h => by
    have h1 := parity_even (L := L) fun l hl => h l (by simp [hl])
    have h2 := h x (by simp)
    show (x + parityLits L) % 2 = 0
    omega

/-- At most one literal is negated. -/
theorem parity_signs : ∀ {L : List Nat}, L.Nodup → (∀ l ∈ L, l % 2 = 1 → ∀ k ∈ L, k % 2 = 1 → k = l) →
    decide (parityLits L = 1) = L.any fun l => decide (l % 2 = 1)
  | [], _, _ => rfl
  | x :: L, hnd, h => by
    obtain ⟨h1, h2⟩ := List.nodup_cons.1 hnd
    rw [List.any_cons]
    have e0 : parityLits (x :: L) = (x + parityLits L) % 2 := rfl
    rcases Nat.mod_two_eq_zero_or_one x with hx | hx
    · rw [← parity_signs h2 fun l hl hl' k hk hk' => h l (by simp [hl]) hl' k (by simp [hk]) hk', e0]
      have := parityLits_lt L
      have e1 : (x + parityLits L) % 2 = parityLits L := by omega
      rw [e1]; simp [hx]
    · have : parityLits L = 0 := parity_even fun l hl => by
        rcases Nat.mod_two_eq_zero_or_one l with hl' | hl'
        · exact hl'
        · have := h x (by simp) hx l (by simp [hl]) hl'
          exact absurd (this ▸ hl) h1
      have e1 : (x + parityLits L) % 2 = 1 := by omega
      rw [e0, e1]; simp [hx]

theorem xorSigns_unique {L : List Nat} (h : xorSigns L = true) : ∀ l ∈ L, l % 2 = 1 → ∀ k ∈ L, k % 2 = 1 → k = l := by
  unfold xorSigns at h
  simp only [List.all_eq_true, Bool.or_eq_true, decide_eq_true_eq] at h
  intro l hl hl' k hk hk'
  have h1 := (h l hl).resolve_left (by omega) k hk
  have h2 := (h k hk).resolve_left (by omega) l hl
  omega

theorem Base.sideClause (h : Base orig F0 E c) {side : List Nat} (hnd : side.Nodup) {r : Nat}
    (hs : sideClause c.solver side r = true) : UC c.solver.irr side := by
  unfold Congruence.sideClause at hs
  simp only [Bool.and_eq_true, Bool.not_eq_true', List.all_eq_true, Bool.or_eq_true, decide_eq_true_eq, List.contains_iff_mem] at hs
  obtain ⟨⟨⟨h1, h2⟩, h3⟩, h4⟩ := hs
  have hu := h.unassigned h1 h2 fun l hl => by rcases h3 l hl with hh | hh <;> omega
  refine hu.perm (perm_of_nodup ((h.inv.inv.struct.nodup r h1).filter _) hnd fun x => ?_)
  have hsub : ∀ x ∈ (c.solver.clause r).lits.filter (fun l => decide (c.solver.values l = 0)), x ∈ side := by
    intro x hx
    obtain ⟨x1, x2⟩ := List.mem_filter.1 hx
    have x2 : c.solver.values x = 0 := by simpa using x2
    rcases h3 x x1 with hh | hh
    · omega
    · exact hh.2
  exact ⟨hsub x, nodup_subset_of_length ((h.inv.inv.struct.nodup r h1).filter _) hsub (by rw [h4]; exact Nat.le_refl _) x⟩

theorem Good.xorCandidates (order : State → List Nat) {lits : List Nat} {negated : Bool} (hnd : lits.Nodup) (hlen : 3 ≤ lits.length)
    (he : ∀ l ∈ lits, l % 2 = 0) : ∀ (ls : List Nat) {c : Closure} {E : List (List Nat)}, (∀ l ∈ ls, l ∈ lits) → Good orig F0 E c →
    XorL c.solver.irr negated lits → (∀ l ∈ lits, Ok c.solver l) → Res orig F0 c (c.xorCandidates order lits negated ls)
  | [], c, E, _, h, _, _ => h.res
  | l :: ls, c, E, hsub, h, hx, hok => by
    unfold Closure.xorCandidates
    simp only
    have hl : l ∈ lits := hsub l (by simp)
    have hl2 := he l hl
    have hnl : neg l = l + 1 := by unfold neg; rw [if_pos hl2]
    have hnm : ∀ k ∈ lits, k ≠ neg l := fun k hk e => by have := he k hk; omega
    have r1 : Res orig F0 c (c.newXor order lits (if negated then l else neg l)) := by
      have hf : (lits.filter fun k => decide (k ≠ (if negated then l else neg l) ∧ k ≠ neg (if negated then l else neg l))) = lits.erase l := by
        rw [hnd.erase_eq_filter]
        refine List.filter_congr fun k hk => ?_
        have := hnm k hk
        by_cases e1 : k = l
        · cases negated <;> simp [e1, neg_neg]
        · cases negated <;> simp [e1, this, neg_neg]
      have hxl : XorL c.solver.irr negated (l :: lits.erase l) := hx.perm (List.perm_cons_erase hl)
      refine h.newXor order ?_ hok ?_ ?_ hnd ?_
      · cases negated
        · exact (hok l hl).neg
        · exact hok l hl
      · rw [hf]
        refine XorL.sub ?_ (Sub.of_le irr_base)
        cases negated
        · show XorL c.solver.irr false (neg (neg l) :: lits.erase l)
          rw [neg_neg]; exact hxl
        · exact hxl.flip
      · intro r hr _ _; exact he r hr
      · have h1 : 2 ≤ (lits.erase l).length := by rw [List.length_erase_of_mem hl]; omega
        obtain ⟨k, hk⟩ : ∃ k, k ∈ lits.erase l := by
          cases hh : lits.erase l with
          | nil => rw [hh] at h1; simp at h1
          | cons k _ => exact ⟨k, by simp⟩
        rw [← hf] at hk
        obtain ⟨k1, k2⟩ := List.mem_filter.1 hk
        exact ⟨k, k1, by simpa using k2⟩
    generalize (if negated = true then l else neg l) = lhs at r1 ⊢
    by_cases c1 : (c.newXor order lits lhs).solver.inconsistent = true
    · rw [if_pos c1]; exact r1
    · rw [if_neg c1]
      refine r1.then (fun E' h' => ?_) (fun hi => ?_)
      · exact Good.xorCandidates order hnd hlen he ls (fun k hk => hsub k (by simp [hk])) h' (hx.sub (Sub.of_le r1.mono.le))
          fun l hl => r1.mono.ok.2 (hok l hl)
      · contradiction

theorem Good.xorBase (h : Good orig F0 E c) (order : State → List Nat) (conn : List Nat) (r : Nat) :
    Res orig F0 c (c.xorBase order conn r) := by
  unfold Closure.xorBase
  by_cases c1 : ((c.solver.clause r).garbage || (c.solver.clause r).redundant) = true
  · rw [if_pos c1]; exact h.res
  rw [if_neg c1]
  simp only [Bool.or_eq_true, not_or, Bool.not_eq_true] at c1
  by_cases c2 : ((c.solver.clause r).lits.any fun l => decide (c.solver.values l > 0)) = true
  · rw [if_pos c2]; exact h.satisfied c1.1 c2
  rw [if_neg c2]
  simp only
  have hle : ∀ l ∈ (c.solver.clause r).lits, c.solver.values l ≤ 0 := by
    simp only [List.any_eq_true, decide_eq_true_eq, not_exists, not_and] at c2
    intro l hl; have := c2 l hl; omega
  have hu := h.base.unassigned c1.1 c1.2 hle
  have hnd := (h.base.inv.inv.struct.nodup r c1.1).filter (fun l => decide (c.solver.values l = 0))
  have hv : (((c.solver.clause r).lits.filter fun l => decide (c.solver.values l = 0)).map (· / 2)).Nodup :=
    nodup_vars hnd fun l hl hn =>
      h.base.inv.inv.struct.taut r c1.1 l (List.mem_filter.1 hl).1 (List.mem_filter.1 hn).1
  have hok : ∀ l ∈ (c.solver.clause r).lits.filter fun l => decide (c.solver.values l = 0), Ok c.solver l := fun l hl =>
    h.base.clause_ok c1.1 c1.2 (List.mem_filter.1 hl).1
  generalize (c.solver.clause r).lits.filter (fun l => decide (c.solver.values l = 0)) = lits at hu hnd hv hok ⊢
  split
  · exact h.res
  · rename_i c3
    simp only [Bool.or_eq_true, Bool.not_eq_true', decide_eq_true_eq, not_or, Bool.not_eq_false] at c3
    split
    · rename_i c4
      have hx : XorL c.solver.irr false lits := by
        obtain ⟨x, L, rfl⟩ : ∃ x L, lits = x :: L := by
          cases lits with
          | nil => simp at c3
          | cons x L => exact ⟨x, L, rfl⟩
        intro C hC
        have hm := parityClauses_all (n := 2 ^ ((x :: L).length - 1)) rfl (Nat.le_refl _) hC
        obtain ⟨n, hn⟩ : ∃ n, 2 ^ ((x :: L).length - 1) = n + 1 := ⟨2 ^ ((x :: L).length - 1) - 1, by
          have := Nat.two_pow_pos ((x :: L).length - 1); omega⟩
        rw [hn] at hm c4
        unfold parityClauses at hm c4
        rw [List.tail_cons] at c4
        rcases List.mem_cons.1 hm with rfl | hm
        · exact hu
        · have h2 := List.all_eq_true.1 c4 C hm
          obtain ⟨q, _, hq⟩ := List.any_eq_true.1 h2
          exact h.base.sideClause (nodup_of_vars (by rw [hC.vars]; exact hv)) hq
      have hx2 : XorL c.solver.irr (lits.any fun l => decide (l % 2 = 1)) (lits.map strip) := by
        have h1 : XorL c.solver.irr false (lits ++ []) := by rw [List.append_nil]; exact hx
        have := XorL.strip h1
        rw [parity_signs hnd (xorSigns_unique c3.1), List.append_nil, Bool.false_xor] at this
        exact this
      have hst : ∀ l ∈ lits.map strip, l % 2 = 0 ∧ Ok c.solver l := by
        intro l hl
        obtain ⟨k, hk, rfl⟩ := List.mem_map.1 hl
        refine ⟨by unfold strip; omega, ?_⟩
        obtain ⟨k1, k2⟩ := hok k hk
        have e : strip k / 2 = k / 2 := by unfold strip; omega
        refine ⟨?_, by rw [e]; exact k2⟩
        unfold State.InRange at k1 ⊢
        rw [e]; exact k1
      refine Good.xorCandidates order ?_ (by rw [List.length_map]; omega) (fun l hl => (hst l hl).1) _ (fun _ h => h) h hx2
        fun l hl => (hst l hl).2
      refine nodup_of_vars ?_
      rw [List.map_map]
      have : ((· / 2) ∘ strip) = (· / 2 : Nat → Nat) := by
        funext k; show strip k / 2 = k / 2; unfold strip; omega
      rw [this]; exact hv
    · exact h.res

theorem Good.extractXors (order : State → List Nat) (conn : List Nat) : ∀ (xs : List (Nat × List Nat)) {c : Closure}
    {E : List (List Nat)}, Good orig F0 E c → Res orig F0 c (c.extractXors order conn xs)
  | [], c, E, h => h.res
  | (r, sat) :: xs, c, E, h => by
    unfold Closure.extractXors
    rw [if_neg (by rw [h.base.cons]; simp)]
    obtain ⟨E1, h1, m1⟩ := Good.markSatisfied sat h
    have r1 := h1.xorBase order conn r
    refine Res.trans m1 (r1.then (fun E' h' => Good.extractXors order conn xs h') (fun hi => ?_))
    cases xs with
    | nil => rfl
    | cons x _ => obtain ⟨_, _⟩ := x; unfold Closure.extractXors; rw [if_pos hi]

/-! ## If-then-else gates -/

/-- A ternary clause. -/
structure Tern (s : State) (t : List Nat) : Prop where
  uc : UC s.irr t
  nodup : (t.map (· / 2)).Nodup
  len : t.length = 3
  ok : ∀ l ∈ t, Ok s l

theorem Tern.mono {t : List Nat} (h : Tern c.solver t) (hm : Mono c c') : Tern c'.solver t :=
  ⟨h.uc.le hm.le, h.nodup, h.len, fun l hl => hm.ok.2 (h.ok l hl)⟩

theorem Base.tern (h : Base orig F0 E c) {r : Nat} {t : List Nat} (ht : ternary c.solver r = some t) : Tern c.solver t := by
  unfold ternary at ht
  split at ht
  · rename_i c1
    cases ht
    simp only [Bool.and_eq_true, Bool.not_eq_true', List.all_eq_true, decide_eq_true_eq] at c1
    obtain ⟨⟨⟨h1, h2⟩, h3⟩, h4⟩ := c1
    refine ⟨h.unassigned h1 h2 h3, ?_, h4, fun l hl => h.clause_ok h1 h2 (List.mem_filter.1 hl).1⟩
    exact nodup_vars ((h.inv.inv.struct.nodup r h1).filter _) fun l hl hn =>
      h.inv.inv.struct.taut r h1 l (List.mem_filter.1 hl).1 (List.mem_filter.1 hn).1
  · cases ht

/-- Literals of a conditional binary clause. -/
structure Cond (s : State) (lit : Nat) (p : Nat × Nat) : Prop where
  uc : UC s.irr [lit, p.1, p.2]
  ok : Ok s lit ∧ Ok s p.1 ∧ Ok s p.2
  var : lit / 2 ≠ p.1 / 2 ∧ lit / 2 ≠ p.2 / 2

theorem Cond.swap {s : State} {lit x y : Nat} (h : Cond s lit (x, y)) : Cond s lit (y, x) :=
  ⟨h.uc.perm (.cons _ (.swap _ _ _)), ⟨h.ok.1, h.ok.2.2, h.ok.2.1⟩, ⟨h.var.2, h.var.1⟩⟩

theorem Tern.cond {s : State} {t : List Nat} (h : Tern s t) {values : Nat → Int} {lit : Nat} {p : Nat × Nat}
    (hp : condPair values lit t = some p) : Cond s lit p := by
  unfold condPair at hp
  split at hp
  · rename_i c1
    rw [List.contains_iff_mem] at c1
    split at hp
    · rename_i x y e
      cases hp
      have hmem : ∀ k : Nat, k ∈ [x, y] → k ∈ t ∧ k ≠ lit := by
        intro k hk
        rw [← e] at hk
        obtain ⟨k1, k2⟩ := List.mem_filter.1 hk
        have k2 : values k = 0 ∧ k ≠ lit := by simpa using k2
        exact ⟨k1, k2.2⟩
      obtain ⟨x1, x2⟩ := hmem x (by simp)
      obtain ⟨y1, y2⟩ := hmem y (by simp)
      have hnd := nodup_of_vars h.nodup
      have hxy : x ≠ y := by
        have := hnd.filter (fun l => decide (values l = 0 ∧ l ≠ lit))
        rw [e] at this
        simpa using this
      have hn3 : [lit, x, y].Nodup := by
        simp only [List.nodup_cons, List.mem_cons, List.not_mem_nil, or_false, not_or, not_false_eq_true, List.nodup_nil, and_true]
        exact ⟨⟨fun e => x2 e.symm, fun e => y2 e.symm⟩, hxy⟩
      have hsub : ∀ k ∈ [lit, x, y], k ∈ t := by
        intro k hk
        simp only [List.mem_cons, List.not_mem_nil, or_false] at hk
        rcases hk with rfl | rfl | rfl <;> assumption
      have hperm : t.Perm [lit, x, y] := perm_of_nodup hnd hn3 fun k =>
        ⟨nodup_subset_of_length hn3 hsub (by rw [h.len]; simp) k, hsub k⟩
      have hv : (([lit, x, y] : List Nat).map (· / 2)).Nodup := (hperm.map _).nodup_iff.1 h.nodup
      simp only [List.map_cons, List.map_nil, List.nodup_cons, List.mem_cons, List.not_mem_nil, or_false, not_or] at hv
      have hc : Cond s lit (x, y) := ⟨h.uc.perm hperm, ⟨h.ok _ c1, h.ok _ x1, h.ok _ y1⟩, hv.1⟩
      unfold pair
      split
      · exact hc
      · exact hc.swap
    · cases hp
  · cases hp

/-- Literals equivalent unless `lit` is true. -/
structure Equ (s : State) (lit : Nat) (p : Nat × Nat) : Prop where
  fwd : UC s.irr [lit, neg p.1, p.2]
  back : UC s.irr [lit, p.1, neg p.2]
  ok : Ok s lit ∧ Ok s p.1 ∧ Ok s p.2
  var : lit / 2 ≠ p.1 / 2 ∧ lit / 2 ≠ p.2 / 2

theorem equ_of {s : State} {lit : Nat} {bins : List (Nat × Nat)} (h : ∀ p ∈ bins, Cond s lit p) : ∀ p ∈ condEq bins, Equ s lit p := by
  intro p hp
  unfold condEq at hp
  obtain ⟨q, hq, hp⟩ := List.mem_flatMap.1 hp
  split at hp
  · rename_i c1
    have h1 := h q hq
    have h2 := h _ c1.2
    simp only [List.mem_cons, List.not_mem_nil, or_false] at hp
    rcases hp with rfl | rfl
    · refine ⟨h2.uc, ?_, ⟨h1.ok.1, h1.ok.2.1, h2.ok.2.2⟩, ⟨h1.var.1, h2.var.2⟩⟩
      show UC s.irr [lit, q.1, neg (neg q.2)]
      rw [neg_neg]; exact h1.uc
    · have g1 : UC s.irr [lit, q.2, q.1] := h1.uc.perm (.cons _ (.swap _ _ _))
      have g2 : UC s.irr [lit, neg q.2, neg q.1] := h2.uc.perm (.cons _ (.swap _ _ _))
      split
      · refine ⟨g2, ?_, ⟨h1.ok.1, h1.ok.2.2, h2.ok.2.1⟩, ⟨h1.var.2, h2.var.1⟩⟩
        show UC s.irr [lit, q.2, neg (neg q.1)]
        rw [neg_neg]; exact g1
      · refine ⟨?_, g2, ⟨h1.ok.1, h2.ok.2.2, h1.ok.2.1⟩, ⟨h2.var.2, h1.var.1⟩⟩
        show UC s.irr [lit, neg (neg q.2), q.1]
        rw [neg_neg]; exact g1
  · cases hp

theorem mem_insertPair {p q : Nat × Nat} : ∀ {ps : List (Nat × Nat)}, q ∈ insertPair p ps → q = p ∨ q ∈ ps
  | [], h => by unfold insertPair at h; exact Or.inl (by simpa using h)
  | r :: ps, h => by
    unfold insertPair at h
    split at h
    · rcases List.mem_cons.1 h with h | h
      · exact Or.inr (by simp [h])
      · exact (mem_insertPair h).imp id (List.mem_cons_of_mem _)
    · rcases List.mem_cons.1 h with h | h
      · exact Or.inl h
      · exact Or.inr h

theorem mem_sortPairs {q : Nat × Nat} : ∀ {ps : List (Nat × Nat)}, q ∈ sortPairs ps → q ∈ ps
  | [], h => h
  | p :: ps, h => by
    unfold sortPairs at h
    rcases mem_insertPair h with h | h
    · simp [h]
    · exact List.mem_cons_of_mem _ (mem_sortPairs h)

theorem mem_takeWhile {f : Nat × Nat → Bool} {x : Nat × Nat} : ∀ {l : List (Nat × Nat)}, x ∈ l.takeWhile f → f x = true
  | [], h => by cases h
  | y :: l, h => by
    rw [List.takeWhile_cons] at h
    split at h
    · rcases List.mem_cons.1 h with rfl | h
      · assumption
      · exact mem_takeWhile h
    · cases h

theorem mem_mergeCondEq {l t e : Nat} : ∀ {ps qs : List (Nat × Nat)}, (l, t, e) ∈ mergeCondEq ps qs → (l, t) ∈ ps ∧ (l, e) ∈ qs
  | [], _, h => by unfold mergeCondEq at h; cases h
  | (lhs, u) :: ps, qs, h => by
    unfold mergeCondEq at h
    simp only at h
    have hd : ∀ {f : Nat × Nat → Bool} {l : List (Nat × Nat)} {x : Nat × Nat}, x ∈ l.dropWhile f → x ∈ l := fun hx =>
      (List.dropWhile_sublist _).subset hx
    rcases List.mem_append.1 h with h | h
    · obtain ⟨q, hq, e⟩ := List.mem_map.1 h
      have h2 : q.1 = lhs := by simpa using mem_takeWhile hq
      have h3 := hd ((List.takeWhile_sublist _).subset hq)
      injection e with e1 e2
      injection e2 with e2 e3
      subst e1 e2 e3
      refine ⟨by simp, ?_⟩
      rw [← h2]; exact h3
    · obtain ⟨h1, h2⟩ := mem_mergeCondEq h
      exact ⟨List.mem_cons_of_mem _ h1, hd (hd h2)⟩

theorem Equ.mono {lit : Nat} {p : Nat × Nat} (h : Equ c.solver lit p) (hm : Mono c c') : Equ c'.solver lit p :=
  ⟨h.fwd.le hm.le, h.back.le hm.le, ⟨hm.ok.2 h.ok.1, hm.ok.2 h.ok.2.1, hm.ok.2 h.ok.2.2⟩, h.var⟩

theorem Good.newItes (order : State → List Nat) {cond : Nat} : ∀ (xs : List (Nat × Nat × Nat)) {c : Closure}
    {E : List (List Nat)}, Good orig F0 E c → (∀ x ∈ xs, Equ c.solver (neg cond) (x.1, x.2.1) ∧ Equ c.solver cond (x.1, x.2.2)) →
    Res orig F0 c (c.newItes order cond xs)
  | [], c, E, h, _ => h.res
  | (l, t, e) :: xs, c, E, h, hx => by
    unfold Closure.newItes
    simp only
    obtain ⟨h1, h2⟩ := hx (l, t, e) (by simp)
    simp only at h1 h2
    have r1 : Res orig F0 c (c.newIte order l cond t e) := by
      refine h.newIte order h1.ok.2.1 h2.ok.1 h1.ok.2.2 h2.ok.2.2 ?_ h2.var.2 ⟨?_, ?_, ?_, ?_⟩
      · have := h1.var.2; rwa [neg_div] at this
      · exact (h1.back.perm (.cons _ (.swap _ _ _))).le irr_base
      · exact (h1.fwd.perm (.cons _ (.swap _ _ _))).le irr_base
      · exact (h2.back.perm (.cons _ (.swap _ _ _))).le irr_base
      · exact (h2.fwd.perm (.cons _ (.swap _ _ _))).le irr_base
    split
    · exact r1
    · refine r1.then (fun E' h' => ?_) (fun hi => ?_)
      · exact Good.newItes order xs h' fun x hx' => ⟨(hx x (by simp [hx'])).1.mono r1.mono, (hx x (by simp [hx'])).2.mono r1.mono⟩
      · contradiction

theorem Good.itesOfVariable (h : Good orig F0 E c) (order : State → List Nat) {ternaries : List (List Nat)}
    (ht : ∀ t ∈ ternaries, Tern c.solver t) (idx : Nat) : Res orig F0 c (c.itesOfVariable order ternaries idx) := by
  unfold Closure.itesOfVariable
  have key : ∀ lit : Nat, ∀ p ∈ sortPairs (condEq (condBin c.solver.values ternaries lit)), Equ c.solver lit p := by
    intro lit p hp
    refine equ_of (fun q hq => ?_) p (mem_sortPairs hp)
    obtain ⟨t, h1, h2⟩ := List.mem_filterMap.1 hq
    exact (ht t h1).cond h2
  refine Good.newItes order _ h fun x hx => ?_
  obtain ⟨l, t, e⟩ := x
  obtain ⟨h1, h2⟩ := mem_mergeCondEq hx
  have e1 : neg (2 * idx) = 2 * idx + 1 := by unfold neg; rw [if_pos (by omega)]
  rw [e1]
  exact ⟨key _ _ h1, key _ _ h2⟩

theorem Good.extractItes (order : State → List Nat) {ternaries : List (List Nat)} : ∀ (xs : List Nat) {c : Closure}
    {E : List (List Nat)}, Good orig F0 E c → (∀ t ∈ ternaries, Tern c.solver t) → Res orig F0 c (c.extractItes order ternaries xs)
  | [], c, E, h, _ => h.res
  | idx :: xs, c, E, h, ht => by
    unfold Closure.extractItes
    rw [if_neg (by rw [h.base.cons]; simp)]
    split
    · have r1 := h.itesOfVariable order ht idx
      refine r1.then (fun E' h' => Good.extractItes order xs h' fun t ht' => (ht t ht').mono r1.mono) (fun hi => ?_)
      cases xs with
      | nil => rfl
      | cons x _ => unfold Closure.extractItes; rw [if_pos hi]
    · exact Good.extractItes order xs h ht

/-! ## Units and equivalences -/

theorem mem_others {s : State} {l o : Nat} (h : o ∈ others s l) : ∃ r, (s.clause r).garbage = false ∧ (s.clause r).redundant = false ∧
    (s.clause r).lits.length = 2 ∧ l ∈ (s.clause r).lits ∧ o ∈ (s.clause r).lits ∧ o ≠ l := by
  unfold others at h
  obtain ⟨r, _, h2⟩ := List.mem_filterMap.1 h
  split at h2
  · rename_i c1
    simp only [Bool.and_eq_true, Bool.not_eq_true', List.contains_iff_mem] at c1
    obtain ⟨b1, b2, b3⟩ := binaryOther_some h2
    exact ⟨r, c1.1.1, c1.1.2, b1, c1.2, b2, b3⟩
  · cases h2

theorem Base.others (h : Base orig F0 E c) {l o : Nat} (ho : o ∈ others c.solver l) :
    Imp c.solver.irr [Spec.neg l] o ∧ Ok c.solver l ∧ Ok c.solver o := by
  obtain ⟨r, h1, h2, h3, h4, h5, h6⟩ := mem_others ho
  refine ⟨Imp.clause (clause_irr h1 h2) h5 fun m hm hne => ?_, h.clause_ok h1 h2 h4, h.clause_ok h1 h2 h5⟩
  rcases binary_lits h3 h4 h5 h6 hm with rfl | rfl
  · exact Imp.mem (by simp)
  · exact absurd rfl hne

theorem Good.findUnits (order : State → List Nat) : ∀ (xs : List Nat) {c : Closure} {E : List (List Nat)}, Good orig F0 E c →
    Res orig F0 c (c.findUnits order xs)
  | [], c, E, h => h.res
  | idx :: xs, c, E, h => by
    have key : ∀ l : Nat, ((others c.solver l).any fun o => (others c.solver l).contains (neg o)) = true →
        Res orig F0 c ((c.learnUnit order l).findUnits order xs) := by
      intro l hl
      obtain ⟨o, ho, hn⟩ := List.any_eq_true.1 hl
      rw [List.contains_iff_mem] at hn
      obtain ⟨h1, h2, _⟩ := h.base.others ho
      obtain ⟨h3, _, _⟩ := h.base.others hn
      have r1 := h.out (h.base.learnUnit order h2 ((Bot.contra h1 h3).le irr_base)).1
      refine r1.then (fun E' h' => Good.findUnits order xs h') (fun hi => ?_)
      cases xs with
      | nil => rfl
      | cons x _ => unfold Closure.findUnits; rw [if_pos hi]
    unfold Closure.findUnits
    rw [if_neg (by rw [h.base.cons]; simp)]
    split
    · exact Good.findUnits order xs h
    · simp only
      split
      · rename_i c1; exact key _ c1
      · split
        · rename_i c1; exact key _ c1
        · exact Good.findUnits order xs h

theorem Good.findEquivalent (order : State → List Nat) (idx : Nat) : ∀ (fuel : Nat) {c : Closure} {E : List (List Nat)}, Good orig F0 E c →
    Res orig F0 c (c.findEquivalent order idx fuel)
  | 0, c, E, h => h.res
  | fuel + 1, c, E, h => by
    unfold Closure.findEquivalent
    split
    · exact h.res
    · split
      · exact h.res
      · rename_i other he
        unfold Closure.equivalent at he
        have h1 := List.mem_of_find?_eq_some he
        have h2 := List.find?_some he
        simp only [Bool.and_eq_true, List.contains_iff_mem] at h2
        obtain ⟨i1, _, o1⟩ := h.base.others h1
        obtain ⟨i2, o2, _⟩ := h.base.others h2.1.2
        rw [neg_neg] at i1
        have r1 := h.out (h.base.merge order (b := other) o2 o1
          ((Bot.contra (l := other) (i1.weaken (by simp)) (Imp.mem (by simp))).le irr_base)
          ((Bot.contra (l := other) (Imp.mem (by simp)) (i2.weaken (by simp))).le irr_base))
        refine r1.then (fun E' h' => Good.findEquivalent order idx fuel h') (fun hi => ?_)
        cases fuel with
        | zero => rfl
        | succ n => unfold Closure.findEquivalent; rw [if_pos (by rw [hi]; rfl)]

theorem Good.findEquivalences (order : State → List Nat) : ∀ (xs : List (Nat × Nat)) {c : Closure} {E : List (List Nat)}, Good orig F0 E c →
    Res orig F0 c (c.findEquivalences order xs)
  | [], c, E, h => h.res
  | (idx, fuel) :: xs, c, E, h => by
    unfold Closure.findEquivalences
    rw [if_neg (by rw [h.base.cons]; simp)]
    refine (Good.findEquivalent order idx fuel h).then (fun E' h' => Good.findEquivalences order xs h') (fun hi => ?_)
    cases xs with
    | nil => rfl
    | cons x _ => obtain ⟨_, _⟩ := x; unfold Closure.findEquivalences; rw [if_pos hi]

end Verif.Congruence
