import Verif.Proofs.Congruence.Good

/-!
# XOR gates
-/

namespace Verif.Congruence

open Verif.Spec Verif.Model Verif.Simp

variable {orig : List (List Nat)} {F0 : Formula} {E : List (List Nat)} {c c' : Closure}

theorem xorRounds_mem {P : Nat → Prop} (hP : ∀ l, P l → P (neg l)) {l1 l2 : Nat} (h1 : P l1) (h2 : P l2) : ∀ {n : Nat} {L : List Nat},
    (∀ l ∈ L, P l) → ∀ d ∈ xorRounds l1 l2 n L, ∀ l ∈ d, P l
  | 0, _, _, d, hd => by cases hd
  | n + 1, L, hL, d, hd => by
    have hall : ∀ k, ∀ l ∈ incTimes k L, P l := by
      intro k l hl
      obtain ⟨b, hk⟩ := incTimes_flips k L
      rcases hk.mem l hl with h | h
      · exact hL l h
      · have := hP _ (hL _ h); rwa [neg_neg] at this
    unfold xorRounds at hd
    rcases List.mem_append.1 hd with hd | hd
    · rw [mem_xorRound] at hd
      obtain ⟨k, _, hd⟩ := hd
      intro l hl
      rcases hd with rfl | rfl
      · simp only [List.mem_append, List.mem_cons, List.not_mem_nil, or_false] at hl
        rcases hl with hl | rfl | rfl
        · exact hall k l hl
        · exact hP _ h1
        · exact h2
      · simp only [List.mem_append, List.mem_cons, List.not_mem_nil, or_false] at hl
        rcases hl with hl | rfl | rfl
        · exact hall k l hl
        · exact h1
        · exact hP _ h2
    · exact xorRounds_mem hP h1 h2 (fun l hl => hall _ l (List.dropLast_subset _ hl)) d hd

theorem inRange_neg {s : State} {l : Nat} (h : s.InRange l) : s.InRange (neg l) := by
  unfold State.InRange at h ⊢; rw [neg_div]; exact h

/-- Merging the left hand sides of XOR gates with the same inputs. -/
theorem Base.xorMerge (h : Base orig F0 E c) (order : State → List Nat) {l1 l2 : Nat} {rhs : List Nat} (h1 : Ok c.solver l1)
    (h2 : Ok c.solver l2) (hr : ∀ r ∈ rhs, Ok c.solver r) (hne : rhs ≠ []) (x1 : XorOk (Congruence.base c.solver E) l1 rhs)
    (x2 : XorOk (Congruence.base c.solver E) l2 rhs) : Out orig F0 E c (c.mergeWith order (xorMatching rhs l1 l2) l1 l2) := by
  unfold xorMatching
  by_cases e : l1 = l2
  · rw [if_pos e]
    subst e
    refine h.mergeWith order .nil trivial (by simp) h1 h2 ?_ ?_
    · exact Bot.contra (l := l1) (Imp.mem (by simp)) (Imp.mem (by simp))
    · exact Bot.contra (l := l1) (Imp.mem (by simp)) (Imp.mem (by simp))
  · rw [if_neg e]
    have hd : rhs = rhs.dropLast ++ [rhs.getLast hne] := (List.dropLast_concat_getLast hne).symm
    obtain ⟨v1, v2⟩ := level_xor (x := rhs.getLast hne) (L := rhs.dropLast) (by rw [← hd]; exact x1) (by rw [← hd]; exact x2)
    obtain ⟨s1, s2, s3⟩ := steps_xorRounds (n := rhs.length - 1) (by rw [List.length_dropLast]) v1 v2
    refine h.mergeWith order (chain_chain _) s1 ?_ h1 h2 s2 s3
    exact xorRounds_mem (P := c.solver.InRange) (fun _ => inRange_neg) h1.1 h2.1 fun l hl => (hr l (List.dropLast_subset _ hl)).1

theorem Good.updateXor (h : Good orig F0 E c) (order : State → List Nat) {g : Nat} (hn : (c.gate g).garbage = false)
    (ht : (c.gate g).tag = .xor) : Res orig F0 c (c.updateXor order g) ∧ ((c.updateXor order g).solver.inconsistent = true ∨
      ((c.updateXor order g).gate g).garbage = true ∨ ((c.updateXor order g).gate g).tag = .xor) := by
  have hg := gate_lt hn
  obtain ⟨hok, hrs, hx⟩ := h.gates g (by simp) hn
  rw [ht] at hx
  obtain ⟨x1, x2, x3⟩ := hx
  have hw := GoodX.weaken h g
  have done : ∀ {d : Closure}, Out orig F0 E c d → Res orig F0 c (d.finish g) ∧ ((d.finish g).solver.inconsistent = true ∨
      ((d.finish g).gate g).garbage = true ∨ ((d.finish g).gate g).tag = .xor) := by
    intro d ho
    refine ⟨hw.finish hg ho (.refl _), ?_⟩
    rcases finish_done (c := d) (g := g) (by rw [ho.rel.gates]; exact hg) with h | h
    · exact Or.inl h
    · exact Or.inr (Or.inl h)
  unfold Closure.updateXor
  have general : (c.gate g).rhs ≠ [] →
      Res orig F0 c (match (c.setGate g { c.gate g with rhs := sortLits (c.gate g).rhs }).findGate .xor (sortLits (c.gate g).rhs) (some g) with
        | some k => ((c.setGate g { c.gate g with rhs := sortLits (c.gate g).rhs }).mergeWith order
            (xorMatching (sortLits (c.gate g).rhs) (c.gate g).lhs ((c.setGate g { c.gate g with rhs := sortLits (c.gate g).rhs }).gate k).lhs)
            (c.gate g).lhs ((c.setGate g { c.gate g with rhs := sortLits (c.gate g).rhs }).gate k).lhs).finish g
        | none => c.setGate g { c.gate g with rhs := sortLits (c.gate g).rhs }) ∧
      ((match (c.setGate g { c.gate g with rhs := sortLits (c.gate g).rhs }).findGate .xor (sortLits (c.gate g).rhs) (some g) with
        | some k => ((c.setGate g { c.gate g with rhs := sortLits (c.gate g).rhs }).mergeWith order
            (xorMatching (sortLits (c.gate g).rhs) (c.gate g).lhs ((c.setGate g { c.gate g with rhs := sortLits (c.gate g).rhs }).gate k).lhs)
            (c.gate g).lhs ((c.setGate g { c.gate g with rhs := sortLits (c.gate g).rhs }).gate k).lhs).finish g
        | none => c.setGate g { c.gate g with rhs := sortLits (c.gate g).rhs }).solver.inconsistent = true ∨
      ((match (c.setGate g { c.gate g with rhs := sortLits (c.gate g).rhs }).findGate .xor (sortLits (c.gate g).rhs) (some g) with
        | some k => ((c.setGate g { c.gate g with rhs := sortLits (c.gate g).rhs }).mergeWith order
            (xorMatching (sortLits (c.gate g).rhs) (c.gate g).lhs ((c.setGate g { c.gate g with rhs := sortLits (c.gate g).rhs }).gate k).lhs)
            (c.gate g).lhs ((c.setGate g { c.gate g with rhs := sortLits (c.gate g).rhs }).gate k).lhs).finish g
        | none => c.setGate g { c.gate g with rhs := sortLits (c.gate g).rhs }).gate g).garbage = true ∨
      ((match (c.setGate g { c.gate g with rhs := sortLits (c.gate g).rhs }).findGate .xor (sortLits (c.gate g).rhs) (some g) with
        | some k => ((c.setGate g { c.gate g with rhs := sortLits (c.gate g).rhs }).mergeWith order
            (xorMatching (sortLits (c.gate g).rhs) (c.gate g).lhs ((c.setGate g { c.gate g with rhs := sortLits (c.gate g).rhs }).gate k).lhs)
            (c.gate g).lhs ((c.setGate g { c.gate g with rhs := sortLits (c.gate g).rhs }).gate k).lhs).finish g
        | none => c.setGate g { c.gate g with rhs := sortLits (c.gate g).rhs }).gate g).tag = .xor) := by
    intro hne
    have hx1 := hw.set hg { c.gate g with rhs := sortLits (c.gate g).rhs }
    have a3 := x1.perm (sortLits_perm (c.gate g).rhs).symm
    have e : (c.setGate g { c.gate g with rhs := sortLits (c.gate g).rhs }).gate g = { c.gate g with rhs := sortLits (c.gate g).rhs } := by
      rw [gate_set hg, if_pos rfl]
    have hs : (c.setGate g { c.gate g with rhs := sortLits (c.gate g).rhs }).solver = c.solver := rfl
    have hm : Mono c (c.setGate g { c.gate g with rhs := sortLits (c.gate g).rhs }) := set_mono _ _
    have hlen : (c.setGate g { c.gate g with rhs := sortLits (c.gate g).rhs }).gates.length = c.gates.length := List.length_set
    generalize c.setGate g { c.gate g with rhs := sortLits (c.gate g).rhs } = d at hx1 e hs hm hlen ⊢
    cases hfind : d.findGate .xor (sortLits (c.gate g).rhs) (some g) with
    | none =>
      refine ⟨⟨hm, E, hx1.base.inv, fun _ => hx1.full (fun _ => ?_) (fun _ m hm ht' => ?_)⟩, Or.inr (Or.inr (by show (d.gate g).tag = _; rw [e]; exact ht))⟩
      · rw [e, hs]
        refine ⟨hok, fun r hr => hrs r ((mem_sortLits r).1 hr), ?_⟩
        rw [ht]
        exact ⟨a3, fun r hr => x2 r ((mem_sortLits r).1 hr), (sortLits_perm _).nodup_iff.2 x3⟩
      · rw [e] at ht'; rw [ht] at ht'; cases ht'
    | some k =>
      obtain ⟨k1, k2, k3, k4⟩ := findGate_some hfind
      obtain ⟨g1, g2, g3⟩ := hx1.gates k k1 k2
      rw [k3] at g3
      simp only [k4] at g3
      have ho := hx1.base.xorMerge order (rhs := sortLits (c.gate g).rhs) (by rw [hs]; exact hok) g1
        (fun r hr => by rw [hs]; exact hrs r ((mem_sortLits r).1 hr))
        (fun e => hne (by have := (sortLits_perm (c.gate g).rhs); rw [e] at this; exact this.nil_eq.symm)) (by rw [hs]; exact a3) g3.1
      refine ⟨hx1.finish (by rw [hlen]; exact hg) ho hm, ?_⟩
      rcases finish_done (g := g) (by rw [ho.rel.gates, hlen]; exact hg) with h | h
      · exact Or.inl h
      · exact Or.inr (Or.inl h)
  match hrhs : (c.gate g).rhs, x1, hrs, general with
  | [], x1, _, _ =>
    refine done (h.base.learnUnit order hok.neg ?_).1
    exact UC.bot (x1 _ (.refl _)) (by simp) fun m hm => by
      rw [List.mem_singleton.1 hm, neg_neg]; exact Imp.mem (by simp [neg_neg])
  | [r], x1, hrs, _ =>
    have u1 := x1 _ (.refl _)
    have u2 : UC _ [Spec.neg (Spec.neg (c.gate g).lhs), Spec.neg r] := x1 _ (.flip (.flip .nil))
    refine done (h.base.unary order hok (hrs r (by simp)) ?_ ?_)
    · exact (u1 [Spec.neg (c.gate g).lhs] r [] rfl).weaken (by simp [neg_neg])
    · have := u2 [] _ [Spec.neg r] rfl
      rw [neg_neg] at this
      exact this.weaken (by simp [neg_neg])
  | a :: b :: rest, _, _, general => exact general (by simp)

/-- A gate is replaced by another one which is fine. -/
theorem Good.setXor (h : Good orig F0 E c) {g : Nat} (hg : g < c.gates.length) {x : Gate}
    (hx : GateOk (base c.solver E) (Ok c.solver) x) (ht : x.tag = .xor) : Good orig F0 E (c.setGate g x) := by
  refine ((GoodX.weaken h g).set hg x).full (fun _ => ?_) (fun _ m _ ht' => ?_)
  · rw [gate_set hg, if_pos rfl]; exact hx
  · rw [gate_set hg, if_pos rfl, ht] at ht'; cases ht'

/-- Assigned inputs are dropped. -/
theorem Good.simplifyXor (h : Good orig F0 E c) (order : State → List Nat) {g : Nat} (ht : (c.gate g).tag = .xor) :
    Res orig F0 c (c.simplifyXor order g) := by
  unfold Closure.simplifyXor
  by_cases hn : (c.gate g).garbage = true
  · rw [if_pos hn]; exact h.res
  rw [if_neg hn]
  have hn : (c.gate g).garbage = false := by simpa using hn
  have hg := gate_lt hn
  obtain ⟨g1, g2, g3⟩ := h.gates g (by simp) hn
  rw [ht] at g3
  obtain ⟨x1, x2, x3⟩ := g3
  have y1 : XorL (base c.solver E) false ((c.gate g).rhs ++ [neg (c.gate g).lhs]) :=
    XorL.perm x1 (List.perm_append_comm (l₁ := [neg (c.gate g).lhs]))
  have y2 := y1.filter (v := c.solver.values) (fun l hl => h.base.true_imp hl) (fun l hl => h.base.false_imp hl)
  have y3 := xorOk_of (y2.perm (List.perm_append_comm (l₂ := [neg (c.gate g).lhs])))
  simp only [Bool.false_bne, decide_eq_true_eq] at y3
  have hset : Good orig F0 E (c.setGate g { c.gate g with
      lhs := if ((c.gate g).rhs.filter fun l => c.solver.values l > 0).length % 2 = 1 then neg (c.gate g).lhs else (c.gate g).lhs
      rhs := (c.gate g).rhs.filter fun l => c.solver.values l = 0 }) := by
    refine h.setXor hg ⟨?_, fun r hr => g2 r (List.mem_filter.1 hr).1, ?_⟩ ht
    · show Ok _ (if _ then _ else _)
      split
      · exact g1.neg
      · exact g1
    · simp only [ht]
      exact ⟨y3, fun r hr => x2 r (List.mem_filter.1 hr).1, x3.filter _⟩
  refine Res.trans (set_mono _ _) (hset.updateXor order ?_ ?_).1
  · rw [gate_set hg, if_pos rfl]; exact hn
  · rw [gate_set hg, if_pos rfl]; exact ht

/-! ## Doubled inputs -/

theorem base_sub {s : State} {E' : List (List Nat)} (hE : ∀ d ∈ E, d ∈ E') : Sub (base s E) (base s E') :=
  .of_le (.of_sub fun _ h => h.imp id (hE _))

/-- One round of the proof. -/
theorem InvE.shrinkingStep {s : State} (h : InvE orig F0 E s) (hi : s.inconsistent = false) {pivot : Nat} {C : List Nat}
    (hp : s.InRange pivot) (hC : ∀ l ∈ C, s.InRange l) (b1 : Bot (base s E) ((C ++ [pivot]).map neg))
    (b2 : Bot (base s E) ((C ++ [neg pivot]).map neg)) : InvE orig F0 (C :: E) (shrinkingStep s pivot C) := by
  have r1 : ∀ l ∈ C ++ [pivot], s.InRange l := by
    intro l hl
    rcases List.mem_append.1 hl with hl | hl
    · exact hC l hl
    · rw [List.mem_singleton.1 hl]; exact hp
  have r2 : ∀ l ∈ C ++ [neg pivot], s.InRange l := by
    intro l hl
    rcases List.mem_append.1 hl with hl | hl
    · exact hC l hl
    · rw [List.mem_singleton.1 hl]; exact inRange_neg hp
  have h1 := h.emitAdd r1 (rup_full b1)
  have h2 := h1.emitAdd (c := C ++ [neg pivot]) r2 (rup_full (b2.sub (base_sub (s := s) (E' := (C ++ [pivot]) :: E) fun d hd => List.mem_cons_of_mem _ hd)))
  have b3 : Bot (base s ((C ++ [neg pivot]) :: (C ++ [pivot]) :: E)) (C.map neg) := by
    refine UC.resolve (x := pivot) (D1 := C) (D2 := C) ?_ ?_ (fun _ h => h) (fun _ h => h)
    · exact (UC.of_clause (Or.inr (by simp) : base s ((C ++ [neg pivot]) :: (C ++ [pivot]) :: E) (C ++ [pivot]))).perm List.perm_append_comm
    · exact (UC.of_clause (Or.inr (by simp) : base s ((C ++ [neg pivot]) :: (C ++ [pivot]) :: E) (C ++ [neg pivot]))).perm List.perm_append_comm
  have h3 := h2.emitAdd (c := C) hC (rup_full b3)
  have h4 := (h3.perm (E' := (C ++ [pivot]) :: (C ++ [neg pivot]) :: C :: E) (by
    exact ((List.Perm.swap _ _ _).trans ((List.Perm.swap _ _ _).cons _)).trans
      ((List.Perm.swap _ _ _)))).emitDelete hi
  exact h4.emitDelete hi

theorem shrinkingSteps_eq (pivot : Nat) : ∀ (cs : List (List Nat)) (s : State), ∃ p, shrinkingSteps s pivot cs = { s with proof := p }
  | [], s => ⟨s.proof, rfl⟩
  | c :: cs, s => by
    obtain ⟨p, hp⟩ := shrinkingSteps_eq pivot cs (shrinkingStep s pivot c)
    exact ⟨p, hp⟩

theorem InvE.shrinkingSteps {pivot : Nat} : ∀ {cs : List (List Nat)} {s : State} {E : List (List Nat)}, InvE orig F0 E s → s.inconsistent = false →
    s.InRange pivot → (∀ C ∈ cs, (∀ l ∈ C, s.InRange l) ∧ Bot (base s E) ((C ++ [pivot]).map neg) ∧ Bot (base s E) ((C ++ [neg pivot]).map neg)) →
    ∃ E', InvE orig F0 E' (shrinkingSteps s pivot cs) ∧ (∀ d ∈ E, d ∈ E') ∧ ∀ d ∈ cs, d ∈ E'
  | [], s, E, h, _, _, _ => ⟨E, h, fun _ h => h, by simp⟩
  | C :: cs, s, E, h, hi, hp, hall => by
    obtain ⟨c1, c2, c3⟩ := hall C (by simp)
    have h1 := h.shrinkingStep hi hp c1 c2 c3
    obtain ⟨E', e1, e2, e3⟩ := InvE.shrinkingSteps (cs := cs) (E := C :: E) h1 hi hp (fun D hD => by
      obtain ⟨d1, d2, d3⟩ := hall D (by simp [hD])
      exact ⟨d1, d2.sub (base_sub (s := s) fun d hd => List.mem_cons_of_mem _ hd), d3.sub (base_sub (s := s) fun d hd => List.mem_cons_of_mem _ hd)⟩)
    refine ⟨E', e1, fun d hd => e2 d (List.mem_cons_of_mem _ hd), fun d hd => ?_⟩
    rcases List.mem_cons.1 hd with rfl | hd
    · exact e2 _ (by simp)
    · exact e3 d hd

theorem GoodX.reproof {x : Option Nat} {E' : List (List Nat)} (h : GoodX orig F0 E x c) {p : List Line} (hi : InvE orig F0 E' { c.solver with proof := p })
    (hE : ∀ d ∈ E, d ∈ E') : GoodX orig F0 E' x { c with solver := { c.solver with proof := p } } :=
  ⟨h.base.reproof hi, fun g hx hg => (h.gates g hx hg).sub (base_sub (s := c.solver) hE) fun _ h => h, h.occ⟩

theorem parityLits_append : ∀ {L : List Nat} {x : Nat}, (∀ l ∈ L, l % 2 = 0) → parityLits (L ++ [x]) = x % 2
  | [], x, _ => by simp [parityLits]
  | l :: L, x, h => by
    show (l + parityLits (L ++ [x])) % 2 = x % 2
    rw [parityLits_append fun m hm => h m (by simp [hm])]
    have := h l (by simp)
    omega

theorem strip_cases (l : Nat) : (l % 2 = 0 ∧ strip l = l) ∨ (l % 2 = 1 ∧ strip l = neg l) := by
  unfold strip neg
  rcases Nat.mod_two_eq_zero_or_one l with h | h
  · left; omega
  · right; rw [if_neg (by omega)]; omega

theorem strip_div (l : Nat) : strip l / 2 = l / 2 := by unfold strip; omega

theorem strip_even (l : Nat) : strip l % 2 = 0 := by unfold strip; omega

/-- The proof for a doubled input. -/
theorem Good.shrinkingChain (h : Good orig F0 E c) {lhs d src dst : Nat} {rhs : List Nat} (hl : Ok c.solver lhs) (hr : ∀ r ∈ rhs, Ok c.solver r)
    (he : ∀ r ∈ rhs, r % 2 = 0) (hroot : c.findRepr src = c.findRepr dst) (hs : Ok c.solver src) (hd : d = dst ∨ d = neg dst)
    (hx : XorL (base c.solver E) false (d :: d :: (rhs ++ [neg lhs]))) :
    ∃ E', Good orig F0 E' { c with solver := shrinkingChain c.solver lhs rhs src } ∧
      XorOk (base (shrinkingChain c.solver lhs rhs src) E') lhs rhs := by
  unfold Congruence.shrinkingChain
  have hpar : parityLits (rhs ++ [neg lhs]) = neg lhs % 2 := parityLits_append he
  have hne : rhs ++ [neg lhs] ≠ [] := by simp
  obtain ⟨p, hp⟩ := shrinkingSteps_eq src (parityClauses (neg lhs % 2) (2 ^ (rhs.length + 1)) (rhs ++ [neg lhs])) c.solver
  have hsd : ∀ y, (y = src ∨ y = neg src) → Imp (base c.solver E) [y] d ∨ Imp (base c.solver E) [y] (neg d) := by
    intro y hy
    have i1 := h.base.same hroot
    have i2 := h.base.same_neg hroot
    rcases hy with rfl | rfl
    · rcases hd with rfl | rfl
      · exact Or.inl i1
      · exact Or.inr (by rw [neg_neg]; exact i1)
    · rcases hd with rfl | rfl
      · exact Or.inr i2
      · exact Or.inl i2
  have hbot : ∀ C ∈ parityClauses (neg lhs % 2) (2 ^ (rhs.length + 1)) (rhs ++ [neg lhs]), ∀ y, (y = src ∨ y = neg src) →
      Bot (base c.solver E) ((C ++ [y]).map neg) := by
    intro C hC y hy
    have hf := parityClauses_sound hne hpar C hC
    have u1 := hx _ (.keep (.keep hf))
    have u2 : UC _ (neg d :: neg d :: C) := hx _ (by have := Flips.flip (x := d) (Flips.flip (x := d) hf); simpa using this)
    have hmem : ∀ b ∈ C, Imp (base c.solver E) ((C ++ [y]).map neg) (neg b) := fun b hb =>
      Imp.mem (List.mem_map_of_mem (List.mem_append_left _ hb))
    have hyy : Imp (base c.solver E) ((C ++ [y]).map neg) (neg y) := Imp.mem (List.mem_map_of_mem (by simp))
    have hny : neg y = src ∨ neg y = neg src := by
      rcases hy with rfl | rfl
      · exact Or.inr rfl
      · exact Or.inl (neg_neg _)
    have key : ∀ z, UC (base c.solver E) (z :: z :: C) → Imp (base c.solver E) ((C ++ [y]).map neg) (neg z) → Bot (base c.solver E) ((C ++ [y]).map neg) := by
      intro z uz hz
      refine UC.bot uz (by simp) fun m hm => ?_
      simp only [List.mem_cons] at hm
      rcases hm with rfl | rfl | hm
      · exact hz
      · exact hz
      · exact hmem m hm
    rcases hsd _ hny with i | i
    · exact key _ u2 (by rw [neg_neg]; exact i.one hyy)
    · exact key _ u1 (i.one hyy)
  have hrange : ∀ C ∈ parityClauses (neg lhs % 2) (2 ^ (rhs.length + 1)) (rhs ++ [neg lhs]), ∀ l ∈ C, c.solver.InRange l := by
    intro C hC l hl'
    have hf := parityClauses_sound hne hpar C hC
    have hL : ∀ m ∈ rhs ++ [neg lhs], c.solver.InRange m := by
      intro m hm
      rcases List.mem_append.1 hm with hm | hm
      · exact (hr m hm).1
      · rw [List.mem_singleton.1 hm]; exact inRange_neg hl.1
    rcases hf.mem l hl' with hm | hm
    · exact hL l hm
    · have := inRange_neg (hL _ hm); rwa [neg_neg] at this
  obtain ⟨E', e1, e2, e3⟩ := h.base.inv.shrinkingSteps h.base.cons hs.1
    (fun C hC => ⟨hrange C hC, hbot C hC src (Or.inl rfl), hbot C hC (neg src) (Or.inr rfl)⟩)
  rw [hp] at e1 ⊢
  refine ⟨E', GoodX.reproof h e1 e2, ?_⟩
  show XorL (base c.solver E') false (neg lhs :: rhs)
  refine XorL.perm (L := rhs ++ [neg lhs]) ?_ (List.perm_append_comm (l₂ := [neg lhs]))
  intro C hC
  refine UC.of_clause (Or.inr (e3 C ?_))
  cases hc : rhs ++ [neg lhs] with
  | nil => exact absurd hc hne
  | cons a L =>
    have hlen : L.length = rhs.length := by
      have := congrArg List.length hc
      simp at this; omega
    rw [hc] at hpar hC
    exact parityClauses_all hpar (by rw [hlen]; exact Nat.pow_le_pow_right (by omega) (by omega)) hC

/-- A gate is connected. -/
theorem Good.connect (h : Good orig F0 E c) {l g : Nat} (hg : g < c.gates.length) (ho : (c.gate g).garbage = false → OccOk c l g) :
    Good orig F0 E (c.connect l g) := by
  refine ⟨h.base.congr rfl rfl rfl, h.gates, fun m k hk => ?_⟩
  have hk' : k ∈ c.occurrences m ∨ (m = l ∧ k = g) := by
    unfold Closure.connect at hk
    simp only at hk
    split at hk
    · rename_i e
      rcases List.mem_append.1 hk with hk | hk
      · exact Or.inl hk
      · exact Or.inr ⟨e, List.mem_singleton.1 hk⟩
    · exact Or.inl hk
  rcases hk' with hk | ⟨rfl, rfl⟩
  · exact ⟨(h.occ m k hk).1, fun _ hn => (h.occ m k hk).2 (by simp) hn⟩
  · exact ⟨hg, fun _ hn => ho hn⟩

theorem connect_mono (l g : Nat) : Mono c (c.connect l g) :=
  ⟨rfl, rfl, fun _ _ => rfl, fun _ _ h => h, fun m k hk => by
    unfold Closure.connect
    simp only
    split
    · exact List.mem_append_left _ hk
    · exact hk, Nat.le_refl _, .refl _⟩

theorem count_two {x : Nat} {l : List Nat} (h : l.count x = 2) : l.Perm (x :: x :: l.filter (· ≠ x)) := by
  have h1 := (List.filter_append_perm (· == x) l).symm
  rw [List.filter_beq, h] at h1
  have e : (l.filter fun y => !(y == x)) = l.filter (· ≠ x) := by
    congr 1; funext y
    by_cases hy : y = x <;> simp [hy]
  rw [e] at h1
  exact h1

/-- Replacing an input by a positive literal. -/
theorem Base.rewriteXorL (h : Base orig F0 E c) {src dst : Nat} (hroot : c.findRepr src = c.findRepr dst) {L : List Nat}
    (hx : XorL (Congruence.base c.solver E) false (src :: L)) :
    XorL (Congruence.base c.solver E) (decide (dst % 2 = 1)) (strip dst :: L) := by
  have h1 : XorL (Congruence.base c.solver E) false (dst :: L) :=
    hx.rename (h.same hroot) (h.same_neg hroot.symm) (h.same_neg hroot) (h.same hroot.symm)
  rcases strip_cases dst with ⟨e1, e2⟩ | ⟨e1, e2⟩
  · rw [e1, e2]; exact h1
  · rw [e1, e2]; exact h1.flip

theorem Good.rewriteXor (h : Good orig F0 E c) (order : State → List Nat) {dst src g : Nat} (ht : (c.gate g).tag = .xor)
    (hroot : c.findRepr src = c.findRepr dst) (hok : Ok c.solver src → Ok c.solver dst) : Res orig F0 c (c.rewriteXor order dst src g) := by
  unfold Closure.rewriteXor
  by_cases hn : (c.gate g).garbage = true
  · rw [if_pos hn]; exact h.res
  rw [if_neg hn]
  have hn : (c.gate g).garbage = false := by simpa using hn
  have hg := gate_lt hn
  by_cases hv : dst = (c.gate g).lhs ∨ dst = neg (c.gate g).lhs
  · rw [if_pos hv]
    exact ⟨set_mono _ _, E, h.base.inv, fun _ => (GoodX.weaken h g).drop hg⟩
  rw [if_neg hv]
  by_cases hsrc : src ∉ (c.gate g).rhs
  · rw [if_pos hsrc]; exact h.res
  rw [if_neg hsrc]
  have hsrc : src ∈ (c.gate g).rhs := by simpa using hsrc
  obtain ⟨g1, g2, g3⟩ := h.gates g (by simp) hn
  rw [ht] at g3
  obtain ⟨x1, x2, x3⟩ := g3
  have hoks : Ok c.solver src := g2 src hsrc
  have hokd : Ok c.solver (strip dst) := by
    have := hok hoks
    unfold Ok State.InRange at this ⊢
    rw [strip_div]; exact this
  simp only
  generalize hlits : ((c.gate g).rhs.map fun l => if l = src then strip dst else l) = lits
  have hp1 : (c.gate g).rhs.Perm (src :: (c.gate g).rhs.erase src) := List.perm_cons_erase hsrc
  have hne : src ∉ (c.gate g).rhs.erase src := (List.nodup_cons.1 (hp1.nodup_iff.1 x3)).1
  have hnd : ((c.gate g).rhs.erase src).Nodup := (List.nodup_cons.1 (hp1.nodup_iff.1 x3)).2
  have hp2 : lits.Perm (strip dst :: (c.gate g).rhs.erase src) := by
    rw [← hlits]
    refine (hp1.map _).trans ?_
    rw [List.map_cons, if_pos rfl]
    refine .cons _ ?_
    have : ((c.gate g).rhs.erase src).map (fun l => if l = src then strip dst else l) = (c.gate g).rhs.erase src := by
      conv => rhs; rw [← List.map_id ((c.gate g).rhs.erase src)]
      refine List.map_congr_left fun l hl => ?_
      have hne' : l ≠ src := fun e => hne (e ▸ hl)
      simp [hne']
    rw [this]
  have y0 : XorL (base c.solver E) (decide (dst % 2 = 1)) (lits ++ [neg (c.gate g).lhs]) := by
    have z1 : XorL (base c.solver E) false (src :: ((c.gate g).rhs.erase src ++ [neg (c.gate g).lhs])) :=
      XorL.perm x1 (((hp1.cons _).trans (List.perm_append_comm (l₁ := [neg (c.gate g).lhs]))).trans (.refl _))
    have z2 := h.base.rewriteXorL hroot z1
    exact z2.perm (hp2.symm.append (.refl [neg (c.gate g).lhs]))
  have y2 := y0.filter (v := c.solver.values) (fun l hl => h.base.true_imp hl) (fun l hl => h.base.false_imp hl)
  have y3 := xorOk_of (y2.perm (List.perm_append_comm (l₂ := [neg (c.gate g).lhs])))
  have hlok : ∀ r ∈ lits, Ok c.solver r ∧ r % 2 = 0 := by
    intro r hr
    rcases List.mem_cons.1 (hp2.mem_iff.1 hr) with rfl | hr
    · exact ⟨hokd, strip_even dst⟩
    · exact ⟨g2 r (List.mem_of_mem_erase hr), x2 r (List.mem_of_mem_erase hr)⟩
  generalize hT : (lits.filter fun l => decide (c.solver.values l > 0)).length = T at y3 ⊢
  generalize hleft : (lits.filter fun l => decide (c.solver.values l = 0)) = left at y3 ⊢
  have hleftok : ∀ r ∈ left, Ok c.solver r ∧ r % 2 = 0 := fun r hr => hlok r (by rw [← hleft] at hr; exact (List.mem_filter.1 hr).1)
  have hp3 : left.Perm ((strip dst :: (c.gate g).rhs.erase src).filter fun l => decide (c.solver.values l = 0)) := by
    rw [← hleft]; exact hp2.filter _
  have hneg : (if (decide (dst % 2 = 1) ^^ decide (T % 2 = 1)) = true then neg (c.gate g).lhs else (c.gate g).lhs) =
      (if (dst % 2 + T) % 2 = 1 then neg (c.gate g).lhs else (c.gate g).lhs) := by
    rcases Nat.mod_two_eq_zero_or_one dst with e1 | e1 <;> rcases Nat.mod_two_eq_zero_or_one T with e2 | e2
    · have : (0 + T) % 2 = 0 := by omega
      simp [e1, e2]
    · simp [e1, e2]
    · have : (1 + T) % 2 = 1 := by omega
      simp [e1, e2, this]
    · have : (1 + T) % 2 = 0 := by omega
      simp [e1, e2, this]
  rw [hneg] at y3
  generalize hlhs : (if (dst % 2 + T) % 2 = 1 then neg (c.gate g).lhs else (c.gate g).lhs) = lhs at y3 ⊢
  have hlhsok : Ok c.solver lhs := by
    rw [← hlhs]; split
    · exact g1.neg
    · exact g1
  -- the end
  suffices hmain : ∃ E', Good orig F0 E' (c.shrinkXor g lhs left (strip dst) src) by
    have hm : Mono c (c.shrinkXor g lhs left (strip dst) src) := by
      unfold Closure.shrinkXor
      split
      · refine Mono.trans (b := { c with solver := Congruence.shrinkingChain c.solver lhs (left.filter (· ≠ strip dst)) src })
          ⟨?_, ?_, ?_, fun _ _ h => h, fun _ _ h => h, Nat.le_refl _, ?_⟩ (set_mono g _)
        all_goals
          unfold Congruence.shrinkingChain
          obtain ⟨p, hp⟩ := shrinkingSteps_eq src (parityClauses (neg lhs % 2)
            (2 ^ ((left.filter (· ≠ strip dst)).length + 1)) (left.filter (· ≠ strip dst) ++ [neg lhs])) c.solver
          rw [hp]
        · exact fun _ _ => rfl
        · exact .refl _
      · exact set_mono g _
    have hgate : ((c.shrinkXor g lhs left (strip dst) src).gate g).garbage = false ∧ ((c.shrinkXor g lhs left (strip dst) src).gate g).tag = .xor := by
      unfold Closure.shrinkXor
      split
      · rw [gate_set (c := { c with solver := Congruence.shrinkingChain c.solver lhs (left.filter (· ≠ strip dst)) src }) hg, if_pos rfl]
        exact ⟨hn, ht⟩
      · rw [gate_set hg, if_pos rfl]; exact ⟨hn, ht⟩
    generalize c.shrinkXor g lhs left (strip dst) src = d at hm hgate hmain ⊢
    obtain ⟨E', hmain⟩ := hmain
    obtain ⟨r1, r2⟩ := hmain.updateXor order (g := g) hgate.1 hgate.2
    have r3 := Res.trans hm r1
    split
    · rename_i hcond
      simp only [Bool.and_eq_true, Bool.not_eq_true', decide_eq_true_eq] at hcond
      obtain ⟨⟨⟨q1, q2⟩, _⟩, _⟩ := hcond
      have htag : ((d.updateXor order g).gate g).tag = .xor := by
        rcases r2 with r2 | r2 | r2
        · rw [r2] at q2; cases q2
        · rw [r2] at q1; cases q1
        · exact r2
      obtain ⟨E2, i1, i2⟩ := r3.inv
      refine ⟨r3.mono.trans (connect_mono _ _), E2, i1, fun hc => ?_⟩
      exact (i2 hc).connect (gate_lt q1) fun _ h' => by rw [htag] at h'; cases h'
    · exact r3
  unfold Closure.shrinkXor
  by_cases hboth : left.count (strip dst) = 2
  · rw [if_pos hboth]
    have hnodup : (left.filter (· ≠ strip dst)).Nodup := by
      refine (hp3.filter _).nodup_iff.2 ?_
      rw [List.filter_filter, List.filter_cons_of_neg (by simp)]
      exact hnd.filter _
    have hsub : ∀ r ∈ left.filter (· ≠ strip dst), r ∈ left := fun r hr => (List.mem_filter.1 hr).1
    have hxl : XorL (base c.solver E) false (strip dst :: strip dst :: (left.filter (· ≠ strip dst) ++ [neg lhs])) := by
      refine XorL.perm y3 ?_
      exact (List.perm_append_comm (l₁ := [neg lhs]) (l₂ := left)).trans ((count_two hboth).append_right [neg lhs])
    obtain ⟨E', j1, j2⟩ := h.shrinkingChain (rhs := left.filter (· ≠ strip dst)) hlhsok (fun r hr => (hleftok r (hsub r hr)).1)
      (fun r hr => (hleftok r (hsub r hr)).2) hroot hoks
      (by rcases strip_cases dst with ⟨_, e⟩ | ⟨_, e⟩
          · exact Or.inl e
          · exact Or.inr e) hxl
    refine ⟨E', ?_⟩
    have hok' : ∀ l, Ok c.solver l → Ok (Congruence.shrinkingChain c.solver lhs (left.filter (· ≠ strip dst)) src) l := by
      intro l hl
      unfold Congruence.shrinkingChain
      obtain ⟨p, hp⟩ := shrinkingSteps_eq src (parityClauses (neg lhs % 2) (2 ^ ((left.filter (· ≠ strip dst)).length + 1))
        (left.filter (· ≠ strip dst) ++ [neg lhs])) c.solver
      rw [hp]; exact hl
    exact j1.setXor (c := { c with solver := Congruence.shrinkingChain c.solver lhs (left.filter (· ≠ strip dst)) src }) hg
      (x := { c.gate g with lhs := lhs, rhs := left.filter (· ≠ strip dst) })
      ⟨hok' _ hlhsok, fun r hr => hok' _ (hleftok r (hsub r hr)).1, by
        simp only [ht]
        exact ⟨j2, fun r hr => (hleftok r (hsub r hr)).2, hnodup⟩⟩ ht
  · rw [if_neg hboth]
    have hnodup : left.Nodup := by
      refine hp3.nodup_iff.2 ?_
      by_cases hv0 : c.solver.values (strip dst) = 0
      · rw [List.filter_cons_of_pos (by simpa using hv0)]
        refine List.nodup_cons.2 ⟨fun hmem => hboth ?_, hnd.filter _⟩
        rw [hp3.count_eq, List.filter_cons_of_pos (by simpa using hv0), List.count_cons_self]
        have c1 := List.nodup_iff_count.1 (hnd.filter fun l => decide (c.solver.values l = 0)) (strip dst)
        have c2 := List.count_pos_iff.2 hmem
        omega
      · rw [List.filter_cons_of_neg (by simpa using hv0)]
        exact hnd.filter _
    refine ⟨E, h.setXor hg (x := { c.gate g with lhs := lhs, rhs := left }) ⟨hlhsok, fun r hr => (hleftok r hr).1, ?_⟩ ht⟩
    simp only [ht]
    exact ⟨y3, fun r hr => (hleftok r hr).2, hnodup⟩

end Verif.Congruence
