import Verif.Proofs.Congruence.XorGate

/-!
# ITE gates
-/

namespace Verif.Congruence

open Verif.Spec Verif.Model Verif.Simp

variable {orig : List (List Nat)} {F0 : Formula} {E : List (List Nat)} {c c' : Closure} {F : Formula}

/-- The implications of an ITE gate. -/
structure IteFacts (F : Formula) (l a t e : Nat) : Prop where
  f1 : Imp F [a, t] l
  f1l : Imp F [a, neg l] (neg t)
  f1c : Imp F [t, neg l] (neg a)
  f2 : Imp F [a, neg t] (neg l)
  f2l : Imp F [a, l] t
  f2c : Imp F [neg t, l] (neg a)
  f3 : Imp F [neg a, e] l
  f3l : Imp F [neg a, neg l] (neg e)
  f3c : Imp F [e, neg l] a
  f4 : Imp F [neg a, neg e] (neg l)
  f4l : Imp F [neg a, l] e
  f4c : Imp F [neg e, l] a

theorem IteOk.facts {l a t e : Nat} (h : IteOk F l a t e) : IteFacts F l a t e := by
  obtain ⟨p1, p2, p3⟩ := h.c1.three
  obtain ⟨q1, q2, q3⟩ := h.c2.three
  obtain ⟨r1, r2, r3⟩ := h.c3.three
  obtain ⟨s1, s2, s3⟩ := h.c4.three
  simp only [neg_neg] at p1 p2 p3 q1 q2 q3 r1 r2 r3 s1 s2 s3
  exact ⟨p1, p2, p3, q1, q2, q3, r1, r2, r3, s1, s2, s3⟩

theorem IteOk.renameC {l a b t e : Nat} (h : IteOk F l a t e) (h1 : Imp F [a] b) (h2 : Imp F [neg a] (neg b)) (h3 : Imp F [b] a)
    (h4 : Imp F [neg b] (neg a)) : IteOk F l b t e :=
  ⟨h.c1.rename1 h2 (by rw [neg_neg, neg_neg]; exact h3), h.c2.rename1 h2 (by rw [neg_neg, neg_neg]; exact h3), h.c3.rename1 h1 h4,
    h.c4.rename1 h1 h4⟩

theorem IteOk.renameT {l a b t e : Nat} (h : IteOk F l a t e) (h1 : Imp F [t] b) (h2 : Imp F [neg t] (neg b)) (h3 : Imp F [b] t)
    (h4 : Imp F [neg b] (neg t)) : IteOk F l a b e :=
  ⟨((h.c1.perm (.swap _ _ _)).rename1 h2 (by rw [neg_neg, neg_neg]; exact h3)).perm (.swap _ _ _),
    ((h.c2.perm (.swap _ _ _)).rename1 h1 h4).perm (.swap _ _ _), h.c3, h.c4⟩

theorem IteOk.renameE {l a b t e : Nat} (h : IteOk F l a t e) (h1 : Imp F [e] b) (h2 : Imp F [neg e] (neg b)) (h3 : Imp F [b] e)
    (h4 : Imp F [neg b] (neg e)) : IteOk F l a t b := by
  have := (h.swap.renameT h1 h2 h3 h4).swap
  rwa [neg_neg] at this

/-! ## Matching -/

theorem pair_steps {a b x : Nat} (h1 : Bot F [neg a, neg b, neg x]) (h2 : Bot F [neg a, neg b, x]) :
    Steps F [[a, b, x], [a, b, neg x], [a, b]] := by
  refine ⟨h1, ?_, ?_, trivial⟩
  · simp only [List.map_cons, List.map_nil, neg_neg]
    exact h2.sub (.of_le (.of_sub fun _ h => Or.inl h))
  · refine UC.resolve (x := x) (D1 := [a, b]) (D2 := [a, b]) ?_ ?_ (fun _ h => h) (fun _ h => h)
    · exact (UC.of_clause (show Plus (Plus F [a, b, x]) [a, b, neg x] [a, b, x] from Or.inl (Or.inr rfl))).perm
        (List.perm_append_comm (l₁ := [a, b]) (l₂ := [x]))
    · exact (UC.of_clause (show Plus (Plus F [a, b, x]) [a, b, neg x] [a, b, neg x] from Or.inr rfl)).perm
        (List.perm_append_comm (l₁ := [a, b]) (l₂ := [neg x]))

theorem IteOk.match_ {l1 l2 a t e : Nat} (h1 : IteOk F l1 a t e) (h2 : IteOk F l2 a t e) : Bot F [neg l1, l2, neg a] ∧ Bot F [neg l1, l2, a] := by
  have f := h1.facts
  have k := h2.facts
  constructor
  · exact Bot.contra (l := l1) (f.f3.two (Imp.mem (by simp)) (k.f4l.weaken (by simp))) (Imp.mem (by simp))
  · exact Bot.contra (l := l1) (f.f1.two (Imp.mem (by simp)) (k.f2l.weaken (by simp))) (Imp.mem (by simp))

/-- Merging the left hand sides of ITE gates with the same inputs. -/
theorem Base.iteMerge (h : Base orig F0 E c) (order : State → List Nat) {l1 l2 a t e : Nat} (h1 : Ok c.solver l1)
    (h2 : Ok c.solver l2) (ha : Ok c.solver a) (x1 : IteOk (Congruence.base c.solver E) l1 a t e)
    (x2 : IteOk (Congruence.base c.solver E) l2 a t e) : Out orig F0 E c (c.mergeWith order (iteMatching a l1 l2) l1 l2) := by
  unfold iteMatching
  by_cases e : l1 = l2
  · rw [if_pos e]
    subst e
    refine h.mergeWith order .nil trivial (by simp) h1 h2 ?_ ?_
    · exact Bot.contra (l := l1) (Imp.mem (by simp)) (Imp.mem (by simp))
    · exact Bot.contra (l := l1) (Imp.mem (by simp)) (Imp.mem (by simp))
  · rw [if_neg e]
    obtain ⟨m1, m2⟩ := x1.match_ x2
    obtain ⟨m3, m4⟩ := x2.match_ x1
    have s1 : Steps (Congruence.base c.solver E) [[l1, Spec.neg l2, a], [l1, Spec.neg l2, Spec.neg a], [l1, Spec.neg l2]] :=
      pair_steps (by rw [neg_neg]; exact m1) (by rw [neg_neg]; exact m2)
    have hs : Sub (Congruence.base c.solver E) (Pluses (Congruence.base c.solver E) [[l1, Spec.neg l2, a], [l1, Spec.neg l2, Spec.neg a], [l1, Spec.neg l2]]) :=
      .of_le (.of_sub fun _ h => pluses_iff.2 (Or.inl h))
    have s2 : Steps (Pluses (Congruence.base c.solver E) [[l1, Spec.neg l2, a], [l1, Spec.neg l2, Spec.neg a], [l1, Spec.neg l2]])
        [[Spec.neg l1, l2, a], [Spec.neg l1, l2, Spec.neg a], [Spec.neg l1, l2]] :=
      pair_steps ((m3.weaken (by simp [neg_neg])).sub hs) ((m4.weaken (by simp [neg_neg])).sub hs)
    refine h.mergeWith order (cs := ([[l1, Spec.neg l2, a], [l1, Spec.neg l2, Spec.neg a]] ++ [[l1, Spec.neg l2]]) ++
      [[Spec.neg l1, l2, a], [Spec.neg l1, l2, Spec.neg a], [Spec.neg l1, l2]])
      (((chain_chain _).append (Chain.single _)).append (chain_chain _)) (Steps.append s1 s2) ?_ h1 h2 ?_ ?_
    · intro d hd l hl
      have r1 := h1.1
      have r2 := h2.1
      have r3 := ha.1
      simp only [List.cons_append, List.nil_append, List.mem_cons, List.not_mem_nil, or_false] at hd
      have n1 := inRange_neg h1.1
      have n2 := inRange_neg h2.1
      have n3 := inRange_neg ha.1
      rcases hd with rfl | rfl | rfl | rfl | rfl | rfl <;> simp only [List.mem_cons, List.not_mem_nil, or_false] at hl
      · rcases hl with rfl | rfl | rfl <;> assumption
      · rcases hl with rfl | rfl | rfl <;> assumption
      · rcases hl with rfl | rfl <;> assumption
      · rcases hl with rfl | rfl | rfl <;> assumption
      · rcases hl with rfl | rfl | rfl <;> assumption
      · rcases hl with rfl | rfl <;> assumption
    · refine UC.bot (UC.of_clause (C := [Spec.neg l1, l2]) (pluses_iff.2 (Or.inr (by simp)))) (by simp) fun m hm => ?_
      simp only [List.mem_cons, List.not_mem_nil, or_false] at hm
      rcases hm with rfl | rfl
      · exact Imp.mem (by simp [neg_neg])
      · exact Imp.mem (by simp)
    · refine UC.bot (UC.of_clause (C := [l1, Spec.neg l2]) (pluses_iff.2 (Or.inr (by simp)))) (by simp) fun m hm => ?_
      simp only [List.mem_cons, List.not_mem_nil, or_false] at hm
      rcases hm with rfl | rfl
      · exact Imp.mem (by simp)
      · exact Imp.mem (by simp [neg_neg])

/-! ## Connecting -/

theorem connect_gate (l g k : Nat) : (c.connect l g).gate k = c.gate k := rfl

theorem connect_occ {l g m k : Nat} : OccOk (c.connect l g) m k ↔ OccOk c m k := Iff.rfl

theorem Good.connects {g : Nat} : ∀ (ls : List Nat) {c : Closure}, Good orig F0 E c → g < c.gates.length →
    (∀ l ∈ ls, (c.gate g).garbage = false → OccOk c l g) → Good orig F0 E (c.connects g ls)
  | [], _, h, _, _ => h
  | l :: ls, c, h, hg, ho => by
    unfold Closure.connects
    exact Good.connects ls (h.connect hg (ho l (by simp))) hg fun k hk => ho k (by simp [hk])

theorem GoodX.connect {g l : Nat} (h : GoodX orig F0 E (some g) c) (hg : g < c.gates.length) : GoodX orig F0 E (some g) (c.connect l g) := by
  refine ⟨h.base.congr rfl rfl rfl, h.gates, fun m k hk => ?_⟩
  have hk' : k ∈ c.occurrences m ∨ (m = l ∧ k = g) := by
    unfold Closure.connect at hk
    simp only at hk
    split at hk
    · rename_i e
      rcases List.mem_append.1 hk with hk | hk
      · exact Or.inl hk
      · exact Or.inr ⟨e, List.mem_singleton.1 hk⟩
    · exact Or.inl hk
  rcases hk' with hk | ⟨_, rfl⟩
  · exact ⟨(h.occ m k hk).1, fun hx hn => (h.occ m k hk).2 hx hn⟩
  · exact ⟨hg, fun hx => absurd rfl hx⟩

theorem GoodX.connects {g : Nat} : ∀ (ls : List Nat) {c : Closure}, GoodX orig F0 E (some g) c → g < c.gates.length →
    GoodX orig F0 E (some g) (c.connects g ls)
  | [], _, h, _ => h
  | l :: ls, c, h, hg => by
    unfold Closure.connects
    exact GoodX.connects ls (h.connect hg) hg

theorem connects_mono (g : Nat) : ∀ (ls : List Nat) {c : Closure}, Mono c (c.connects g ls)
  | [], c => .refl c
  | l :: ls, c => (connect_mono l g).trans (connects_mono g ls)

theorem connects_same (g : Nat) : ∀ (ls : List Nat) {c : Closure}, (c.connects g ls).solver = c.solver ∧ (c.connects g ls).gates = c.gates ∧
    (c.connects g ls).repr = c.repr
  | [], c => ⟨rfl, rfl, rfl⟩
  | l :: ls, c => connects_same g ls (c := c.connect l g)

theorem mem_ordered {a b x : Nat} : x ∈ ordered a b ↔ x ∈ [a, b] := by
  unfold ordered
  split <;> simp [or_comm]

/-! ## Turning into AND gates -/

/-- An ITE gate becomes an AND gate. -/
theorem Good.iteToAnd (h : Good orig F0 E c) (order : State → List Nat) {g lhs a b : Nat} {old : List Nat} (hg : g < c.gates.length)
    (hl : Ok c.solver lhs) (ha : Ok c.solver a) (hb : Ok c.solver b) (hand : AndOk (base c.solver E) lhs [a, b]) :
    Res orig F0 c (c.iteToAnd order g lhs a b old) := by
  unfold Closure.iteToAnd
  have hx1 := (GoodX.weaken h g).set hg ⟨.and, lhs, ordered a b, false⟩
  have a3 : AndOk (base c.solver E) lhs (ordered a b) := hand.mem fun x => mem_ordered
  have hrs : ∀ r ∈ ordered a b, Ok c.solver r := by
    intro r hr
    rw [mem_ordered] at hr
    simp only [List.mem_cons, List.not_mem_nil, or_false] at hr
    rcases hr with rfl | rfl
    · exact ha
    · exact hb
  have e : (c.setGate g ⟨.and, lhs, ordered a b, false⟩).gate g = ⟨.and, lhs, ordered a b, false⟩ := by rw [gate_set hg, if_pos rfl]
  have hs : (c.setGate g ⟨.and, lhs, ordered a b, false⟩).solver = c.solver := rfl
  have hm : Mono c (c.setGate g ⟨.and, lhs, ordered a b, false⟩) := set_mono _ _
  have hlen : (c.setGate g ⟨.and, lhs, ordered a b, false⟩).gates.length = c.gates.length := List.length_set
  simp only
  generalize c.setGate g ⟨.and, lhs, ordered a b, false⟩ = d at hx1 e hs hm hlen ⊢
  cases hfind : d.findGate .and (ordered a b) (some g) with
  | none =>
    have hd : Good orig F0 E d := by
      refine hx1.full (fun _ => ?_) (fun _ m hm ht' => ?_)
      · rw [e, hs]
        exact ⟨hl, hrs, a3⟩
      · rw [e] at ht'; cases ht'
    refine ⟨hm.trans (connects_mono _ _), E, ?_, fun _ => ?_⟩
    · show InvE orig F0 E (Closure.connects _ _ _).solver
      rw [(connects_same g _).1]; exact hx1.base.inv
    · exact Good.connects _ hd (by rw [hlen]; exact hg) fun l _ _ ht' => by rw [e] at ht'; cases ht'
  | some k =>
    obtain ⟨k1, k2, k3, k4⟩ := findGate_some hfind
    obtain ⟨g1, g2, g3⟩ := hx1.gates k k1 k2
    rw [k3] at g3
    simp only [k4] at g3
    refine hx1.finish (by rw [hlen]; exact hg) (hx1.base.merge order (by rw [hs]; exact hl) g1 ?_ ?_) hm
    · rw [hs] at g3 ⊢; exact a3.match_ g3
    · rw [hs] at g3 ⊢; exact (g3.match_ a3).weaken (by simp)

theorem Good.simplifyIteWith (h : Good orig F0 E c) (order : State → List Nat) {g l a t e : Nat} (hg : g < c.gates.length)
    (hl : Ok c.solver l) (ha : Ok c.solver a) (ht : Ok c.solver t) (he : Ok c.solver e) (hite : IteOk (base c.solver E) l a t e)
    (hv : c.solver.values a ≠ 0 ∨ c.solver.values t ≠ 0 ∨ c.solver.values e ≠ 0) :
    Res orig F0 c (c.simplifyIteWith order g l a t e) := by
  have f := hite.facts
  have hw := GoodX.weaken h g
  have T : ∀ {x : Nat} {A : List Nat}, 0 < c.solver.values x → Imp (base c.solver E) A x := fun hx => h.base.true_imp hx
  have N : ∀ {x : Nat} {A : List Nat}, c.solver.values x < 0 → Imp (base c.solver E) A (neg x) := fun hx => h.base.false_imp hx
  have M : ∀ {x : Nat} {A : List Nat}, x ∈ A → Imp (base c.solver E) A x := fun hx => Imp.mem hx
  unfold Closure.simplifyIteWith
  simp only
  split
  · rename_i ca
    refine hw.finish hg (h.base.merge order hl ht ?_ ?_) (.refl _)
    · exact Bot.contra (l := t) (f.f2l.two (T ca) (M (by simp))) (M (by simp))
    · exact Bot.contra (l := l) (f.f1.two (T ca) (M (by simp))) (M (by simp))
  split
  · rename_i ca
    refine hw.finish hg (h.base.merge order hl he ?_ ?_) (.refl _)
    · exact Bot.contra (l := e) (f.f4l.two (N ca) (M (by simp))) (M (by simp))
    · exact Bot.contra (l := l) (f.f3.two (N ca) (M (by simp))) (M (by simp))
  split
  · rename_i ca
    refine hw.finish hg (h.base.learnUnit order hl ?_).1 (.refl _)
    exact Bot.contra (l := a) (f.f3c.two (T ca.2) (M (by simp))) (f.f1c.two (T ca.1) (M (by simp)))
  split
  · rename_i ca
    refine hw.finish hg (h.base.learnUnit order hl.neg ?_).1 (.refl _)
    exact Bot.contra (l := a) (f.f4c.two (N ca.2) (M (by simp [neg_neg]))) (f.f2c.two (N ca.1) (M (by simp [neg_neg])))
  split
  · rename_i ca
    refine hw.finish hg (h.base.merge order hl ha ?_ ?_) (.refl _)
    · exact Bot.contra (l := e) (f.f4l.two (M (by simp)) (M (by simp))) (N ca.2)
    · exact Bot.contra (l := l) (f.f1.two (M (by simp)) (T ca.1)) (M (by simp))
  split
  · rename_i ca
    refine hw.finish hg (h.base.merge order hl ha.neg ?_ ?_) (.refl _)
    · exact Bot.contra (l := t) (f.f2l.two (M (by simp [neg_neg])) (M (by simp))) (N ca.1)
    · exact Bot.contra (l := l) (f.f3.two (M (by simp)) (T ca.2)) (M (by simp))
  have P : ∀ {x y : Nat} {A : List Nat} {l : Nat}, Imp (base c.solver E) A x → Imp (base c.solver E) A y → ∀ r ∈ [x, y], Imp (base c.solver E) A r := by
    intro x y A l h1 h2 r hr
    simp only [List.mem_cons, List.not_mem_nil, or_false] at hr
    rcases hr with rfl | rfl
    · exact h1
    · exact h2
  split
  · rename_i ca
    have i := f.f1c.two (A := [neg l]) (T ca) (M (by simp))
    exact h.iteToAnd order hg hl.neg ha.neg he.neg ⟨P (l := 0) i (f.f3l.two i (M (by simp))), f.f4⟩
  split
  · rename_i ca
    have i := f.f2c.two (A := [l]) (N ca) (M (by simp))
    exact h.iteToAnd order hg hl ha.neg he ⟨P (l := 0) i (f.f4l.two i (M (by simp))), f.f3⟩
  split
  · rename_i ca
    have i := f.f3c.two (A := [neg l]) (T ca) (M (by simp))
    exact h.iteToAnd order hg hl.neg ht.neg ha ⟨P (l := 0) (f.f1l.two i (M (by simp))) i, f.f2.weaken (by simp)⟩
  · have ca : c.solver.values e < 0 := by omega
    have i := f.f4c.two (A := [l]) (N ca) (M (by simp))
    exact h.iteToAnd order hg hl ha ht ⟨P (l := 0) i (f.f2l.two i (M (by simp))), f.f1⟩

/-- Assigned inputs are dropped. -/
theorem Good.simplifyIte (h : Good orig F0 E c) (order : State → List Nat) {g m : Nat} (ht : (c.gate g).tag = .ite)
    (hm : c.solver.values m ≠ 0) (hocc : g ∈ c.occurrences m) : Res orig F0 c (c.simplifyIte order g) := by
  unfold Closure.simplifyIte
  by_cases hn : (c.gate g).garbage = true
  · rw [if_pos hn]; exact h.res
  rw [if_neg hn]
  have hn : (c.gate g).garbage = false := by simpa using hn
  have hg := gate_lt hn
  obtain ⟨g1, g2, g3⟩ := h.gates g (by simp) hn
  rw [ht] at g3
  obtain ⟨a, t, e, hrhs, hite, _⟩ := g3
  obtain ⟨r, hr, hv⟩ := (h.occ m g hocc).2 (by simp) hn ht
  have hrv : c.solver.values r ≠ 0 := by
    rw [← h.base.root_val] at hm
    rw [← h.base.root_val]
    rcases eq_or_eq_neg hv with e | e
    · rw [e]; exact hm
    · rw [e, h.base.vneg]; omega
  rw [hrhs] at hr g2 ⊢
  refine h.simplifyIteWith order hg g1 (g2 a (by simp)) (g2 t (by simp)) (g2 e (by simp)) hite ?_
  simp only [List.mem_cons, List.not_mem_nil, or_false] at hr
  rcases hr with rfl | rfl | rfl
  · exact Or.inl hrv
  · exact Or.inr (Or.inl hrv)
  · exact Or.inr (Or.inr hrv)

/-! ## Rewriting -/

theorem ordered_two (a b : Nat) : ordered a b = [(ordered a b).getD 0 0, (ordered a b).getD 1 0] := by
  unfold ordered; split <;> rfl

theorem addBinary_inconsistent {order : State → List Nat} {a b : Nat} (h : c.solver.inconsistent = true) : c.addBinary order a b = c := by
  unfold Closure.addBinary; rw [if_pos h]

/-- An ITE gate becomes an AND gate, with two new clauses. -/
theorem Good.rewrittenAnd (h : Good orig F0 E c) (order : State → List Nat) {g lhs a b : Nat} {old : List Nat} (hg : g < c.gates.length)
    (hl : Ok c.solver lhs) (ha : Ok c.solver a) (hb : Ok c.solver b) (h1 : Bot (base c.solver E) [lhs, neg a])
    (h2 : Bot (base c.solver E) [lhs, neg b]) (h3 : Imp (base c.solver E) [a, b] lhs) :
    Res orig F0 c (c.rewrittenAnd order g lhs a b old) := by
  have hx1 := (GoodX.weaken h g).set hg ⟨.and, lhs, ordered a b, false⟩
  have hrs : ∀ r ∈ ordered a b, Ok c.solver r ∧ Bot (base c.solver E) [lhs, neg r] := by
    intro r hr
    rw [mem_ordered] at hr
    simp only [List.mem_cons, List.not_mem_nil, or_false] at hr
    rcases hr with rfl | rfl
    · exact ⟨ha, h1⟩
    · exact ⟨hb, h2⟩
  have hback : Imp (base c.solver E) (ordered a b) lhs := h3.weaken fun x hx => mem_ordered.2 hx
  unfold Closure.rewrittenAnd
  have e : (c.setGate g ⟨.and, lhs, ordered a b, false⟩).gate g = ⟨.and, lhs, ordered a b, false⟩ := by rw [gate_set hg, if_pos rfl]
  have hs : (c.setGate g ⟨.and, lhs, ordered a b, false⟩).solver = c.solver := rfl
  have hm : Mono c (c.setGate g ⟨.and, lhs, ordered a b, false⟩) := set_mono _ _
  have hlen : (c.setGate g ⟨.and, lhs, ordered a b, false⟩).gates.length = c.gates.length := List.length_set
  simp only
  generalize c.setGate g ⟨.and, lhs, ordered a b, false⟩ = d at hx1 e hs hm hlen ⊢
  rw [ordered_two] at hrs hback e ⊢
  generalize (ordered a b).getD 0 0 = x at hrs hback e ⊢
  generalize (ordered a b).getD 1 0 = y at hrs hback e ⊢
  obtain ⟨ox, bx⟩ := hrs x (by simp)
  obtain ⟨oy, bY⟩ := hrs y (by simp)
  simp only [List.getD_cons_zero, List.getD_cons_succ]
  cases hfind : d.findGate .and [x, y] (some g) with
  | none =>
    simp only
    have hc1 := GoodX.connects (g := g) ([x, y].filter fun l => !old.contains l) hx1 (by rw [hlen]; exact hg)
    obtain ⟨q1, q2, q3⟩ := connects_same g ([x, y].filter fun l => !old.contains l) (c := d)
    have qm := hm.trans (connects_mono g ([x, y].filter fun l => !old.contains l) (c := d))
    have qe : (d.connectNew g [x, y] old) = d.connects g ([x, y].filter fun l => !old.contains l) := rfl
    rw [← qe] at hc1 q1 q2 q3 qm
    have egate : (d.connectNew g [x, y] old).gate g = ⟨.and, lhs, [x, y], false⟩ := by
      rw [← e]; unfold Closure.gate; rw [q2]
    rw [hs] at q1
    generalize d.connectNew g [x, y] old = d1 at hc1 q1 q2 q3 qm egate ⊢
    obtain ⟨o1, u1⟩ := hc1.base.addBinary order (a := neg lhs) (b := x) (by rw [q1]; exact hl.neg) (by rw [q1]; exact ox)
      (by rw [q1, neg_neg]; exact bx)
    cases hi : (d1.addBinary order (neg lhs) x).solver.inconsistent with
    | true =>
      rw [addBinary_inconsistent hi]
      exact ⟨qm.trans o1.rel.mono, E, o1.inv, by rw [hi]; intro h; cases h⟩
    | false =>
      have hc2 := hc1.out o1 hi
      have u1 := u1 hi
      obtain ⟨o2, u2⟩ := hc2.base.addBinary order (a := neg lhs) (b := y) (by rw [o1.rel.ok, q1]; exact hl.neg)
        (by rw [o1.rel.ok, q1]; exact oy) (by rw [neg_neg]; exact Bot.le (by rw [q1]; exact bY) o1.rel.base_le)
      refine ⟨(qm.trans o1.rel.mono).trans o2.rel.mono, E, o2.inv, fun hi2 => ?_⟩
      have u2 := u2 hi2
      have hle : Sub (base d1.solver E) (base ((d1.addBinary order (neg lhs) x).addBinary order (neg lhs) y).solver E) :=
        .of_le (o1.rel.base_le.trans o2.rel.base_le)
      have hokk : ∀ {l : Nat}, Ok c.solver l → Ok ((d1.addBinary order (neg lhs) x).addBinary order (neg lhs) y).solver l := by
        intro l hl; rw [o2.rel.ok, o1.rel.ok, q1]; exact hl
      have egate2 : ((d1.addBinary order (neg lhs) x).addBinary order (neg lhs) y).gate g = ⟨.and, lhs, [x, y], false⟩ := by
        rw [o2.rel.gate, o1.rel.gate, egate]
      refine (hc2.out o2 hi2).full (fun _ => ?_) (fun _ m _ ht' => ?_)
      · rw [egate2]
        refine ⟨hokk hl, fun r hr => ?_, fun r hr => ?_, ?_⟩
        · simp only [List.mem_cons, List.not_mem_nil, or_false] at hr
          rcases hr with rfl | rfl
          · exact hokk ox
          · exact hokk oy
        · simp only [List.mem_cons, List.not_mem_nil, or_false] at hr
          rcases hr with rfl | rfl
          · have := ((u1.le o2.rel.le).le irr_base (F := _) : UC (base _ E) _) [neg lhs] r [] rfl
            simpa [neg_neg] using this
          · have := (u2.le irr_base : UC (base _ E) _) [neg lhs] r [] rfl
            simpa [neg_neg] using this
        · exact Imp.sub (by rw [q1]; exact hback) hle
      · rw [egate2] at ht'; cases ht'
  | some k =>
    simp only
    obtain ⟨k1, k2, k3, k4⟩ := findGate_some hfind
    obtain ⟨g1, g2, g3⟩ := hx1.gates k k1 k2
    rw [k3] at g3
    simp only [k4] at g3
    have hsub : Sub (base d.solver E) (Pluses (base d.solver E) [[neg lhs, x], [neg lhs, y]]) :=
      .of_le (.of_sub fun _ h => pluses_iff.2 (Or.inl h))
    have a3 : AndOk (Pluses (base d.solver E) [[neg lhs, x], [neg lhs, y]]) lhs [x, y] := by
      refine ⟨fun r hr => ?_, Imp.sub (by rw [hs]; exact hback) hsub⟩
      have : UC (Pluses (base d.solver E) [[neg lhs, x], [neg lhs, y]]) [neg lhs, r] := by
        refine UC.of_clause (pluses_iff.2 (Or.inr ?_))
        simp only [List.mem_cons, List.not_mem_nil, or_false] at hr
        rcases hr with rfl | rfl <;> simp
      simpa [neg_neg] using this [neg lhs] r [] rfl
    refine hx1.finish (by rw [hlen]; exact hg) (hx1.base.mergeWith order (chain_chain _) ?_ ?_ (by rw [hs]; exact hl) g1 ?_ ?_) hm
    · refine Steps.of_all fun d' hd' => ?_
      rw [hs]
      simp only [List.mem_cons, List.not_mem_nil, or_false] at hd'
      rcases hd' with rfl | rfl
      · simp only [List.map_cons, List.map_nil, neg_neg]; exact bx
      · simp only [List.map_cons, List.map_nil, neg_neg]; exact bY
    · intro d' hd' l hl'
      rw [hs]
      have n1 := inRange_neg hl.1
      have n2 := ox.1
      have n3 := oy.1
      simp only [List.mem_cons, List.not_mem_nil, or_false] at hd'
      rcases hd' with rfl | rfl <;> simp only [List.mem_cons, List.not_mem_nil, or_false] at hl'
      · rcases hl' with rfl | rfl <;> assumption
      · rcases hl' with rfl | rfl <;> assumption
    · exact a3.match_ (AndOk.sub g3 hsub)
    · exact ((AndOk.sub g3 hsub).match_ a3).weaken (by simp)

theorem XorL.stripHead {b : Bool} {x : Nat} {L : List Nat} (h : XorL F b (x :: L)) : XorL F (b ^^ decide (x % 2 = 1)) (strip x :: L) := by
  rcases strip_cases x with ⟨e1, e2⟩ | ⟨e1, e2⟩
  · rw [e1, e2]; simpa using h
  · rw [e1, e2]; simpa using h.flip

theorem xorOk_strip {l a b : Nat} (h : XorOk F l [a, b]) : XorOk F (if (a + b) % 2 = 1 then neg l else l) [strip a, strip b] := by
  have h1 : XorL F false [a, b, neg l] := XorL.perm h (List.perm_append_comm (l₁ := [neg l]) (l₂ := [a, b]))
  have h2 := (h1.stripHead.perm (.swap _ _ _)).stripHead
  have h3 := xorOk_of (h2.perm (show [strip b, strip a, neg l].Perm [neg l, strip a, strip b] from
    (List.reverse_perm [neg l, strip a, strip b])))
  have e : (if (false ^^ decide (a % 2 = 1) ^^ decide (b % 2 = 1)) = true then neg l else l) = if (a + b) % 2 = 1 then neg l else l := by
    rcases Nat.mod_two_eq_zero_or_one a with e1 | e1 <;> rcases Nat.mod_two_eq_zero_or_one b with e2 | e2
    · have : (a + b) % 2 = 0 := by omega
      simp [e1, e2, this]
    · have : (a + b) % 2 = 1 := by omega
      simp [e1, e2, this]
    · have : (a + b) % 2 = 1 := by omega
      simp [e1, e2, this]
    · have : (a + b) % 2 = 0 := by omega
      simp [e1, e2, this]
  rw [e] at h3
  exact h3

/-- An ITE gate becomes an XOR gate. -/
theorem Good.rewrittenXor (h : Good orig F0 E c) (order : State → List Nat) {g l a b : Nat} {old : List Nat} (hg : g < c.gates.length)
    (hl : Ok c.solver l) (ha : Ok c.solver a) (hb : Ok c.solver b) (hab : a / 2 ≠ b / 2) (hx : XorOk (base c.solver E) l [a, b]) :
    Res orig F0 c (c.rewrittenXor order g l a b old) := by
  unfold Closure.rewrittenXor
  simp only
  have hperm : ((ordered a b).map strip).Perm [strip a, strip b] := by
    unfold ordered
    split
    · exact .swap _ _ _
    · exact .refl _
  have y1 := xorOk_strip hx
  have hlok : Ok c.solver (if (a + b) % 2 = 1 then neg l else l) := by
    split
    · exact hl.neg
    · exact hl
  generalize (if (a + b) % 2 = 1 then neg l else l) = lhs at y1 hlok ⊢
  have hp : (sortLits ((ordered a b).map strip)).Perm [strip a, strip b] := (sortLits_perm _).trans hperm
  have y2 := y1.perm hp.symm
  have hall : ∀ r ∈ sortLits ((ordered a b).map strip), Ok c.solver r ∧ r % 2 = 0 := by
    intro r hr
    have hr := hp.mem_iff.1 hr
    simp only [List.mem_cons, List.not_mem_nil, or_false] at hr
    have ok : ∀ {x : Nat}, Ok c.solver x → Ok c.solver (strip x) := by
      intro x hx
      unfold Ok State.InRange at hx ⊢
      rw [strip_div]; exact hx
    rcases hr with rfl | rfl
    · exact ⟨ok ha, strip_even _⟩
    · exact ⟨ok hb, strip_even _⟩
  have hnd : (sortLits ((ordered a b).map strip)).Nodup := by
    refine hp.nodup_iff.2 ?_
    refine List.nodup_cons.2 ⟨fun hm => hab ?_, by simp⟩
    have := List.mem_singleton.1 hm
    rw [← strip_div a, this, strip_div]
  have hne : sortLits ((ordered a b).map strip) ≠ [] := by
    intro e; rw [e] at hp; exact absurd hp.nil_eq (by simp)
  generalize sortLits ((ordered a b).map strip) = rhs at y2 hall hnd hne ⊢
  have hset := h.setXor hg (x := ⟨.xor, lhs, rhs, false⟩) ⟨hlok, fun r hr => (hall r hr).1, y2, fun r hr => (hall r hr).2, hnd⟩ rfl
  have e : (c.setGate g ⟨.xor, lhs, rhs, false⟩).gate g = ⟨.xor, lhs, rhs, false⟩ := by rw [gate_set hg, if_pos rfl]
  have hs : (c.setGate g ⟨.xor, lhs, rhs, false⟩).solver = c.solver := rfl
  have hm : Mono c (c.setGate g ⟨.xor, lhs, rhs, false⟩) := set_mono _ _
  have hlen : (c.setGate g ⟨.xor, lhs, rhs, false⟩).gates.length = c.gates.length := List.length_set
  generalize c.setGate g ⟨.xor, lhs, rhs, false⟩ = d at hset e hs hm hlen ⊢
  cases hfind : d.findGate .xor rhs (some g) with
  | none =>
    refine ⟨hm.trans (connects_mono _ _), E, ?_, fun _ => ?_⟩
    · show InvE orig F0 E (Closure.connects _ _ _).solver
      rw [(connects_same g _).1]; exact hset.base.inv
    · exact Good.connects _ hset (by rw [hlen]; exact hg) fun l _ _ ht' => by rw [e] at ht'; cases ht'
  | some k =>
    obtain ⟨k1, k2, k3, k4⟩ := findGate_some hfind
    obtain ⟨g1, g2, g3⟩ := hset.gates k (by simp) k2
    rw [k3] at g3
    simp only [k4] at g3
    exact (GoodX.weaken hset g).finish (by rw [hlen]; exact hg) (hset.base.xorMerge order (by rw [hs]; exact hlok) g1
      (fun r hr => by rw [hs]; exact (hall r hr).1) hne (by rw [hs]; exact y2) g3.1) hm

theorem IteOk.xor {l a e : Nat} (h : IteOk F l a (neg e) e) : XorOk F l [a, e] := by
  intro C hC
  have swap12 : ∀ {x y z : Nat}, UC F [x, y, z] → UC F [z, x, y] := fun h => h.perm (List.perm_append_comm (l₁ := [_, _]) (l₂ := [_]))
  generalize hb : false = b at hC
  cases hC with
  | keep hC =>
    subst hb
    generalize hb : false = b at hC
    cases hC with
    | keep hC =>
      subst hb
      generalize hb : false = b at hC
      cases hC with
      | keep hC => cases hC; exact swap12 h.c4
      | flip hC => cases hC; cases hb
    | flip hC =>
      cases hC with
      | keep hC => cases hC; cases hb
      | flip hC => cases hC; exact swap12 h.c2
  | flip hC =>
    rw [neg_neg]
    cases hC with
    | keep hC =>
      cases hC with
      | keep hC => cases hC; cases hb
      | flip hC => cases hC; exact swap12 h.c3
    | flip hC =>
      cases hC with
      | keep hC => cases hC; have := h.c1; rw [neg_neg] at this; exact swap12 this
      | flip hC => cases hC; cases hb

theorem normalizeIte_ok (a t e : Nat) : ∃ n a' t' e', normalizeIte a t e = (n, a', t', e') ∧
    (∀ (F : Formula) (l : Nat), IteOk F l a t e → IteOk F (if n then neg l else l) a' t' e') ∧ a' / 2 = a / 2 ∧
    ((t' / 2 = t / 2 ∧ e' / 2 = e / 2) ∨ (t' / 2 = e / 2 ∧ e' / 2 = t / 2)) := by
  unfold normalizeIte
  simp only
  by_cases h1 : a % 2 = 1
  · simp only [h1, if_true]
    by_cases h2 : e % 2 = 0
    · rw [if_pos h2]
      exact ⟨_, _, _, _, rfl, fun F l h => h.swap, neg_div a, Or.inr ⟨rfl, rfl⟩⟩
    · rw [if_neg h2]
      exact ⟨_, _, _, _, rfl, fun F l h => h.swap.negate, neg_div a, Or.inr ⟨neg_div e, neg_div t⟩⟩
  · simp only [h1, if_false]
    by_cases h2 : t % 2 = 0
    · rw [if_pos h2]
      exact ⟨_, _, _, _, rfl, fun F l h => h, rfl, Or.inl ⟨rfl, rfl⟩⟩
    · rw [if_neg h2]
      exact ⟨_, _, _, _, rfl, fun F l h => h.negate, rfl, Or.inl ⟨neg_div t, neg_div e⟩⟩

theorem Base.root_var (h : Base orig F0 E c) {l m : Nat} (e : l / 2 = m / 2) : c.findRepr l / 2 = c.findRepr m / 2 := by
  rcases eq_or_eq_neg e with e | e
  · rw [e]
  · rw [e, h.root_neg, neg_div]

theorem ok_var {s : State} {l m : Nat} (h : Ok s l) (e : m / 2 = l / 2) : Ok s m := by
  unfold Ok State.InRange at h ⊢; rw [e]; exact h

/-- An ITE gate becomes another ITE gate. -/
theorem Good.rewrittenIte (h : Good orig F0 E c) (order : State → List Nat) {g l a t e : Nat} {old : List Nat} (hg : g < c.gates.length)
    (hn : (c.gate g).garbage = false)
    (hl : Ok c.solver l) (ha : Ok c.solver a) (ht : Ok c.solver t) (he : Ok c.solver e) (hd1 : a / 2 ≠ t / 2) (hd2 : a / 2 ≠ e / 2)
    (hd3 : t / 2 ≠ e / 2) (hite : IteOk (base c.solver E) l a t e)
    (hocc : ∀ m, g ∈ c.occurrences m → ∃ r ∈ [a, t, e], c.findRepr r / 2 = c.findRepr m / 2) :
    Res orig F0 c (c.rewrittenIte order g l a t e old) := by
  obtain ⟨n, a', t', e', hnorm, hn1, hn2, hn3⟩ := normalizeIte_ok a t e
  unfold Closure.rewrittenIte
  rw [hnorm]
  simp only
  have y1 := hn1 _ l hite
  have hlok : Ok c.solver (if n = true then neg l else l) := by
    split
    · exact hl.neg
    · exact hl
  generalize (if n = true then neg l else l) = lhs at y1 hlok ⊢
  have oka : Ok c.solver a' := ok_var ha hn2
  have okt : Ok c.solver t' := by
    rcases hn3 with ⟨h1, h2⟩ | ⟨h1, h2⟩
    · exact ok_var ht h1
    · exact ok_var he h1
  have oke : Ok c.solver e' := by
    rcases hn3 with ⟨h1, h2⟩ | ⟨h1, h2⟩
    · exact ok_var he h2
    · exact ok_var ht h2
  have hdd : a' / 2 ≠ t' / 2 ∧ a' / 2 ≠ e' / 2 ∧ t' / 2 ≠ e' / 2 := by
    rcases hn3 with ⟨h1, h2⟩ | ⟨h1, h2⟩
    · rw [hn2, h1, h2]; exact ⟨hd1, hd2, hd3⟩
    · rw [hn2, h1, h2]; exact ⟨hd2, hd1, fun e => hd3 e.symm⟩
  have hocc' : ∀ m, g ∈ c.occurrences m → ∃ r ∈ [a', t', e'], c.findRepr r / 2 = c.findRepr m / 2 := by
    intro m hm
    obtain ⟨r, hr, hrm⟩ := hocc m hm
    simp only [List.mem_cons, List.not_mem_nil, or_false] at hr
    have key : ∀ r', r' ∈ [a', t', e'] → r' / 2 = r / 2 → ∃ r ∈ [a', t', e'], c.findRepr r / 2 = c.findRepr m / 2 :=
      fun r' h1 h2 => ⟨r', h1, (h.base.root_var h2).trans hrm⟩
    rcases hr with rfl | rfl | rfl
    · exact key a' (by simp) hn2
    · rcases hn3 with ⟨h1, h2⟩ | ⟨h1, h2⟩
      · exact key t' (by simp) h1
      · exact key e' (by simp) h2
    · rcases hn3 with ⟨h1, h2⟩ | ⟨h1, h2⟩
      · exact key e' (by simp) h2
      · exact key t' (by simp) h1
  have hw := (GoodX.weaken h g).set hg { c.gate g with rhs := [a', t', e'] }
  have hs : (c.setGate g { c.gate g with rhs := [a', t', e'] }).solver = c.solver := rfl
  have hm : Mono c (c.setGate g { c.gate g with rhs := [a', t', e'] }) := set_mono _ _
  have hlen : g < (c.setGate g { c.gate g with rhs := [a', t', e'] }).gates.length := by
    show g < (c.gates.set g _).length; rw [List.length_set]; exact hg
  have hrepr : ∀ l, (c.setGate g { c.gate g with rhs := [a', t', e'] }).findRepr l = c.findRepr l := fun _ => rfl
  have hoccs : (c.setGate g { c.gate g with rhs := [a', t', e'] }).occurrences = c.occurrences := rfl
  generalize c.setGate g { c.gate g with rhs := [a', t', e'] } = d at hw hs hm hlen hrepr hoccs ⊢
  cases hfind : d.findGate .ite [a', t', e'] (some g) with
  | none =>
    simp only
    have hw2 := hw.set hlen ⟨.ite, lhs, [a', t', e'], false⟩
    have e2 : (d.setGate g ⟨.ite, lhs, [a', t', e'], false⟩).gate g = ⟨.ite, lhs, [a', t', e'], false⟩ := by rw [gate_set hlen, if_pos rfl]
    have hfull : Good orig F0 E (d.setGate g ⟨.ite, lhs, [a', t', e'], false⟩) := by
      refine hw2.full (fun _ => ?_) (fun _ m hm' _ => ?_)
      · rw [e2]
        show GateOk (base d.solver E) (Ok d.solver) _
        rw [hs]
        refine ⟨hlok, fun r hr => ?_, a', t', e', rfl, y1, hdd⟩
        simp only [List.mem_cons, List.not_mem_nil, or_false] at hr
        rcases hr with rfl | rfl | rfl <;> assumption
      · rw [e2]
        have hm' : g ∈ d.occurrences m := hm'
        rw [hoccs] at hm'
        obtain ⟨r, h1, h2⟩ := hocc' m hm'
        refine ⟨r, h1, ?_⟩
        show d.findRepr r / 2 = d.findRepr m / 2
        rw [hrepr, hrepr]; exact h2
    refine ⟨(hm.trans (set_mono _ _)).trans (connects_mono _ _), E, ?_, fun _ => ?_⟩
    · show InvE orig F0 E (Closure.connects _ _ _).solver
      rw [(connects_same g _).1]; exact hfull.base.inv
    · refine Good.connects _ hfull ?_ fun l hl' _ _ => ?_
      · show g < (d.gates.set g _).length; rw [List.length_set]; exact hlen
      · rw [e2]
        exact ⟨l, (List.mem_filter.1 hl').1, rfl⟩
  | some k =>
    simp only
    obtain ⟨k1, k2, k3, k4⟩ := findGate_some hfind
    obtain ⟨g1, g2, g3⟩ := hw.gates k k1 k2
    rw [k3] at g3
    simp only [k4] at g3 ⊢
    obtain ⟨a2, t2, e2, q1, q2, _⟩ := g3
    simp only [List.cons.injEq, and_true] at q1
    obtain ⟨rfl, rfl, rfl⟩ := q1
    rw [hs] at q2
    exact hw.finish hlen (hw.base.iteMerge order g1 (by rw [hs]; exact hlok) (by rw [hs]; exact oka) (by rw [hs]; exact q2)
      (by rw [hs]; exact y1)) hm

/-- An input is replaced by its representative. -/
theorem Good.rewriteIte (h : Good orig F0 E c) (order : State → List Nat) {dst src g : Nat} (hti : (c.gate g).tag = .ite)
    (hroot : c.findRepr src = c.findRepr dst) (hok : Ok c.solver src → Ok c.solver dst) : Res orig F0 c (c.rewriteIte order dst src g) := by
  unfold Closure.rewriteIte
  by_cases hn : (c.gate g).garbage = true
  · rw [if_pos hn]; exact h.res
  rw [if_neg hn]
  have hn : (c.gate g).garbage = false := by simpa using hn
  have hg := gate_lt hn
  by_cases hsrc : src ∉ (c.gate g).rhs
  · rw [if_pos hsrc]; exact h.res
  rw [if_neg hsrc]
  have hsrc : src ∈ (c.gate g).rhs := by simpa using hsrc
  obtain ⟨hl, g2, g3⟩ := h.gates g (by simp) hn
  rw [hti] at g3
  obtain ⟨a, t, e, hrhs, hite, d1, d2, d3⟩ := g3
  have hdst := hok (g2 src hsrc)
  have hocc : ∀ m, g ∈ c.occurrences m → ∃ r ∈ [a, t, e], c.findRepr r / 2 = c.findRepr m / 2 := by
    intro m hm
    have := (h.occ m g hm).2 (by simp) hn hti
    rw [hrhs] at this
    exact this
  rw [hrhs] at g2 hsrc ⊢
  simp only
  have oa := g2 a (by simp)
  have ot := g2 t (by simp)
  have oe := g2 e (by simp)
  have i1 := h.base.same hroot
  have i2 := h.base.same_neg hroot
  have i3 := h.base.same hroot.symm
  have i4 := h.base.same_neg hroot.symm
  have M : ∀ {x : Nat} {A : List Nat}, x ∈ A → Imp (base c.solver E) A x := fun hx => Imp.mem hx
  have hvar : ∀ {x : Nat}, dst ≠ x → neg dst ≠ x → dst / 2 ≠ x / 2 := by
    intro x h1 h2 h3
    rcases eq_or_eq_neg h3 with h4 | h4
    · exact h1 h4
    · exact h2 (by rw [h4, neg_neg])
  unfold rewriteIteCase
  by_cases cs : src = a
  · subst cs
    rw [if_pos rfl]
    have hi := hite.renameC i1 i2 i3 i4
    have f := hi.facts
    by_cases e1 : dst = t
    · subst e1
      rw [if_pos rfl]
      refine h.rewrittenAnd order hg hl.neg ot.neg oe.neg ?_ ?_ f.f4
      · exact Bot.contra (l := (c.gate g).lhs) (f.f1.two (M (by simp [neg_neg])) (M (by simp [neg_neg]))) (M (by simp))
      · have j := f.f3c.two (A := [neg (c.gate g).lhs, neg (neg e)]) (M (by simp [neg_neg])) (M (by simp))
        exact Bot.contra (l := (c.gate g).lhs) (f.f1.two j j) (M (by simp))
    rw [if_neg e1]
    by_cases e2 : neg dst = t
    · subst e2
      rw [if_pos rfl]
      have f2 := f.f2
      rw [neg_neg] at f2
      refine h.rewrittenAnd order hg hl oe ot ?_ ?_ (f.f3.weaken (by simp))
      · have j := f.f4c.two (A := [(c.gate g).lhs, neg e]) (M (by simp)) (M (by simp))
        exact Bot.contra (l := (c.gate g).lhs) (M (by simp)) (f2.two j j)
      · exact Bot.contra (l := (c.gate g).lhs) (M (by simp)) (f2.two (M (by simp [neg_neg])) (M (by simp [neg_neg])))
    rw [if_neg e2]
    by_cases e3 : dst = e
    · subst e3
      rw [if_pos rfl]
      refine h.rewrittenAnd order hg hl oe ot ?_ ?_ f.f1
      · exact Bot.contra (l := (c.gate g).lhs) (M (by simp)) (f.f4.two (M (by simp)) (M (by simp)))
      · have j := f.f2c.two (A := [(c.gate g).lhs, neg t]) (M (by simp)) (M (by simp))
        exact Bot.contra (l := (c.gate g).lhs) (M (by simp)) (f.f4.two j j)
    rw [if_neg e3]
    by_cases e4 : neg dst = e
    · subst e4
      rw [if_pos rfl]
      refine h.rewrittenAnd order hg hl.neg ot.neg oe.neg ?_ ?_ (by rw [neg_neg]; exact f.f2.weaken (by simp))
      · have j := f.f1c.two (A := [neg (c.gate g).lhs, neg (neg t)]) (M (by simp [neg_neg])) (M (by simp))
        exact Bot.contra (l := (c.gate g).lhs) (f.f3.two j j) (M (by simp))
      · exact Bot.contra (l := (c.gate g).lhs) (f.f3.two (M (by simp [neg_neg])) (M (by simp [neg_neg]))) (M (by simp))
    rw [if_neg e4]
    refine h.rewrittenIte order hg hn hl hdst ot oe (hvar e1 e2) (hvar e3 e4) d3 hi fun m hm => ?_
    obtain ⟨r, hr, hrm⟩ := hocc m hm
    simp only [List.mem_cons, List.not_mem_nil, or_false] at hr
    rcases hr with rfl | rfl | rfl
    · exact ⟨dst, by simp, by rw [← hroot]; exact hrm⟩
    · exact ⟨r, by simp, hrm⟩
    · exact ⟨r, by simp, hrm⟩
  rw [if_neg cs]
  by_cases ct : src = t
  · subst ct
    rw [if_pos rfl]
    have hi := hite.renameT i1 i2 i3 i4
    have f := hi.facts
    by_cases e1 : dst = a
    · subst e1
      rw [if_pos rfl]
      refine h.rewrittenAnd order hg hl.neg oa.neg oe.neg ?_ ?_ f.f4
      · exact Bot.contra (l := (c.gate g).lhs) (f.f1.two (M (by simp [neg_neg])) (M (by simp [neg_neg]))) (M (by simp))
      · have j := f.f3c.two (A := [neg (c.gate g).lhs, neg (neg e)]) (M (by simp [neg_neg])) (M (by simp))
        exact Bot.contra (l := (c.gate g).lhs) (f.f1.two j j) (M (by simp))
    rw [if_neg e1]
    by_cases e2 : neg dst = a
    · subst e2
      rw [if_pos rfl]
      refine h.rewrittenAnd order hg hl oa.neg oe ?_ ?_ f.f3
      · exact Bot.contra (l := (c.gate g).lhs) (M (by simp)) (f.f2.two (M (by simp [neg_neg])) (M (by simp [neg_neg])))
      · have j := f.f4c.two (A := [(c.gate g).lhs, neg e]) (M (by simp)) (M (by simp))
        exact Bot.contra (l := (c.gate g).lhs) (M (by simp)) (f.f2.two j j)
    rw [if_neg e2]
    by_cases e3 : dst = e
    · subst e3
      rw [if_pos rfl]
      refine (GoodX.weaken h g).finish hg (h.base.merge order hl oe ?_ ?_) (.refl _)
      · exact Bot.contra (l := a) (f.f4c.two (M (by simp)) (M (by simp))) (f.f2c.two (M (by simp)) (M (by simp)))
      · exact Bot.contra (l := a) (f.f3c.two (M (by simp)) (M (by simp))) (f.f1c.two (M (by simp)) (M (by simp)))
    rw [if_neg e3]
    by_cases e4 : neg dst = e
    · rw [if_pos e4]
      have e5 : dst = neg e := by rw [← e4, neg_neg]
      rw [e5] at hi
      exact h.rewrittenXor order hg hl oa oe d2 hi.xor
    rw [if_neg e4]
    refine h.rewrittenIte order hg hn hl oa hdst oe (fun e' => hvar e1 e2 e'.symm) d2 (hvar e3 e4) hi fun m hm => ?_
    obtain ⟨r, hr, hrm⟩ := hocc m hm
    simp only [List.mem_cons, List.not_mem_nil, or_false] at hr
    rcases hr with rfl | rfl | rfl
    · exact ⟨r, by simp, hrm⟩
    · exact ⟨dst, by simp, by rw [← hroot]; exact hrm⟩
    · exact ⟨r, by simp, hrm⟩
  rw [if_neg ct]
  have ce : src = e := by
    simp only [List.mem_cons, List.not_mem_nil, or_false] at hsrc
    rcases hsrc with h' | h' | h'
    · exact absurd h' cs
    · exact absurd h' ct
    · exact h'
  subst ce
  have hi := hite.renameE i1 i2 i3 i4
  have f := hi.facts
  by_cases e1 : dst = a
  · subst e1
    rw [if_pos rfl]
    refine h.rewrittenAnd order hg hl oa ot ?_ ?_ f.f1
    · exact Bot.contra (l := (c.gate g).lhs) (M (by simp)) (f.f4.two (M (by simp)) (M (by simp)))
    · have j := f.f2c.two (A := [(c.gate g).lhs, neg t]) (M (by simp)) (M (by simp))
      exact Bot.contra (l := (c.gate g).lhs) (M (by simp)) (f.f4.two j j)
  rw [if_neg e1]
  by_cases e2 : neg dst = a
  · subst e2
    rw [if_pos rfl]
    have f3 := f.f3
    rw [neg_neg] at f3
    refine h.rewrittenAnd order hg hl.neg oa ot.neg ?_ ?_ f.f2
    · exact Bot.contra (l := (c.gate g).lhs) (f3.two (M (by simp [neg_neg])) (M (by simp [neg_neg]))) (M (by simp))
    · have j := f.f1c.two (A := [neg (c.gate g).lhs, neg (neg t)]) (M (by simp [neg_neg])) (M (by simp))
      rw [neg_neg dst] at j
      exact Bot.contra (l := (c.gate g).lhs) (f3.two j j) (M (by simp))
  rw [if_neg e2]
  by_cases e3 : dst = t
  · subst e3
    rw [if_pos rfl]
    refine (GoodX.weaken h g).finish hg (h.base.merge order hl ot ?_ ?_) (.refl _)
    · exact Bot.contra (l := a) (f.f4c.two (M (by simp)) (M (by simp))) (f.f2c.two (M (by simp)) (M (by simp)))
    · exact Bot.contra (l := a) (f.f3c.two (M (by simp)) (M (by simp))) (f.f1c.two (M (by simp)) (M (by simp)))
  rw [if_neg e3]
  by_cases e4 : neg dst = t
  · rw [if_pos e4]
    have e5 : dst = neg t := by rw [← e4, neg_neg]
    rw [e5] at hi
    have hi := hi.negate
    rw [neg_neg] at hi
    exact h.rewrittenXor order hg hl.neg oa ot d1 hi.xor
  rw [if_neg e4]
  refine h.rewrittenIte order hg hn hl oa ot hdst d1 (fun e' => hvar e1 e2 e'.symm) (fun e' => hvar e3 e4 e'.symm) hi fun m hm => ?_
  obtain ⟨r, hr, hrm⟩ := hocc m hm
  simp only [List.mem_cons, List.not_mem_nil, or_false] at hr
  rcases hr with rfl | rfl | rfl
  · exact ⟨r, by simp, hrm⟩
  · exact ⟨r, by simp, hrm⟩
  · exact ⟨dst, by simp, by rw [← hroot]; exact hrm⟩

end Verif.Congruence
