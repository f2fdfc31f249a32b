import Verif.Proofs.Core.Drive

/-! # Reasons of literals, and walking down the trail -/

namespace Verif.Core

open Verif.Spec

theorem antecedents_ok {s : Solver} {L k : Nat} (h : InvAt s L k) {lit : Nat}
    (hv : s.values lit = 1) (h0 : s.lev lit ≠ 0) (hk : s.lev lit < L ∨ s.pos lit < k)
    (hd : (s.assigned (lit / 2)).reason ≠ .decision) :
    (∀ m ∈ s.antecedents lit, s.values m = -1 ∧ s.lev m ≤ s.lev lit ∧
      (s.lev m = 0 ∨ s.pos m < s.pos lit)) ∧
    (∃ m ∈ s.antecedents lit, s.lev m = s.lev lit) ∧
    (∀ A : Nat → Prop, (∀ m ∈ s.antecedents lit, UP s.formula A (neg m)) → UP s.formula A lit) := by
  unfold Solver.antecedents
  cases hre : (s.assigned (lit / 2)).reason with
  | unit => exact absurd hre (h.reason.unit lit hv h0)
  | decision => exact absurd hre hd
  | binary o =>
    obtain ⟨h1, h2, h3, h4⟩ := h.reason.binary lit o hv hre
    simp only [List.mem_singleton, forall_eq, exists_eq_left]
    refine ⟨⟨h1, by omega, .inr h3⟩, h2, fun A hA => ?_⟩
    exact (UP.bins h4).mono (fun c hc => ⟨c, hc, .refl c⟩) (by rintro x rfl; exact hA)
  | large r =>
    obtain ⟨h1, h2, h3, m, hm, hne, hl⟩ := h.reason.large lit r hv hre hk
    simp only [List.mem_filter, decide_eq_true_eq]
    refine ⟨fun m hm => h3 m hm.1 hm.2, ⟨m, ⟨hm, hne⟩, hl⟩, fun A hA => ?_⟩
    refine .unit (formula_large h1) ?_ fun m hm hne => hA m ⟨hm, hne⟩
    rcases h2 with h | h <;> exact List.mem_iff_getElem?.2 ⟨_, h⟩

/-- `rest` is the reversal of a prefix of the trail. -/
def Solver.Below (s : Solver) (rest : List Nat) : Prop :=
  rest = (s.trail.take rest.length).reverse

theorem Solver.below_all (s : Solver) : s.Below s.trail.reverse := by
  unfold Solver.Below; simp

theorem Solver.below_take (s : Solver) (n : Nat) : s.Below (s.trail.take n).reverse := by
  unfold Solver.Below
  rw [List.length_reverse, List.length_take, List.take_eq_take_min (l := s.trail) (i := n)]

theorem Solver.Below.mem {s : Solver} (ht : TrailInv s) {rest : List Nat} (h : s.Below rest)
    {x : Nat} : x ∈ rest ↔ x ∈ s.trail ∧ s.pos x < rest.length := by
  unfold Solver.Below at h
  constructor
  · intro hx
    rw [h, List.mem_reverse] at hx
    have := List.mem_of_mem_take hx
    exact ⟨this, (ht.mem_take this).1 hx⟩
  · rintro ⟨h1, h2⟩
    rw [h, List.mem_reverse]
    exact (ht.mem_take h1).2 h2

theorem Solver.Below.tail {s : Solver} (ht : TrailInv s) {lit : Nat} {rest : List Nat}
    (h : s.Below (lit :: rest)) : s.Below rest ∧ lit ∈ s.trail ∧ s.pos lit = rest.length := by
  have hm := (h.mem ht (x := lit)).1 (by simp)
  unfold Solver.Below at h ⊢
  have hlen : rest.length < s.trail.length := by
    have := congrArg List.length h
    simp only [List.length_cons, List.length_reverse, List.length_take] at this
    omega
  rw [List.length_cons, List.take_add_one, List.getElem?_eq_getElem hlen] at h
  simp only [Option.toList_some, List.reverse_append, List.reverse_cons, List.reverse_nil,
    List.nil_append, List.cons_append, List.cons.injEq] at h
  refine ⟨h.2, hm.1, ?_⟩
  exact ht.tpos _ _ (List.getElem?_eq_some_iff.2 ⟨hlen, h.1.symm⟩)

theorem Solver.Below.nodup {s : Solver} (ht : TrailInv s) {rest : List Nat} (h : s.Below rest) :
    rest.Nodup := by
  unfold Solver.Below at h
  rw [h]
  exact (List.reverse_perm _).symm.nodup ((List.take_sublist _ _).nodup ht.nodup)

theorem count_insert {rest : List Nat} {p q : Nat → Bool} {y : Nat} (hn : rest.Nodup)
    (hy : y ∈ rest) (hp : p y = false) (hq : ∀ x ∈ rest, q x = (p x || x == y)) :
    (rest.filter q).length = (rest.filter p).length + 1 := by
  induction rest with
  | nil => cases hy
  | cons a rest ih =>
    rw [List.nodup_cons] at hn
    have hqa := hq a (by simp)
    by_cases e : a = y
    · subst e
      have hrest : rest.filter q = rest.filter p := List.filter_congr fun x hx => by
        rw [hq x (by simp [hx])]
        have : x ≠ a := fun e => hn.1 (e ▸ hx)
        simp [this]
      simp at hqa
      rw [List.filter_cons_of_pos (by simp [hqa]), List.filter_cons_of_neg (by simp [hp]), hrest]
      rfl
    · have := ih hn.2 (by
        rcases List.mem_cons.1 hy with h | h
        · exact absurd h.symm e
        · exact h) fun x hx => hq x (by simp [hx])
      have hqa : q a = p a := by rw [hqa]; simp [e]
      by_cases hpa : p a = true
      · rw [List.filter_cons_of_pos (by rw [hqa]; exact hpa), List.filter_cons_of_pos hpa,
          List.length_cons, List.length_cons, this]
      · rw [List.filter_cons_of_neg (by rw [hqa]; exact hpa), List.filter_cons_of_neg hpa, this]

theorem UPConflict.cut {s : Solver} {A B : Nat → Prop} (h : UPConflict s.formula A)
    (hA : ∀ l, A l → UP s.formula B l) : UPConflict s.formula B :=
  h.mono (fun c hc => ⟨c, hc, .refl c⟩) hA

theorem UP.root {s : Solver} (ht : TrailInv s) {A : Nat → Prop} {m : Nat} (hv : s.values m = -1)
    (h0 : s.lev m = 0) : UP s.formula A (neg m) :=
  UP.of_unit (formula_unit (ht.neg_pos.2 hv) (by rw [lev_neg]; exact h0))

/-- A conflict is a unit propagation conflict given its negated literals. -/
theorem ConflictOk.upConflict {s : Solver} {c : Conflict} (h : ConflictOk s c) {A : Nat → Prop}
    (hA : ∀ m ∈ s.conflictLits c, UP s.formula A (neg m)) : UPConflict s.formula A :=
  ⟨_, h.formula, hA⟩

/-- On level one everything follows from the decision. -/
theorem up_decision {s : Solver} {L k : Nat} (h : InvAt s L k) {f : Frame}
    (hf : s.frames[0]? = some f) : ∀ (n l : Nat), s.pos l < n → s.values l = 1 → s.lev l ≤ 1 →
    (s.lev l = 1 → s.lev l < L ∨ s.pos l < k) →
    UP s.formula (fun x => x = f.decision) l := by
  intro n
  induction n with
  | zero => intro l hl; omega
  | succ n ih =>
    intro l hl hv h1 hk
    by_cases h0 : s.lev l = 0
    · exact UP.of_unit (formula_unit hv h0)
    · by_cases hd : (s.assigned (l / 2)).reason = .decision
      · obtain ⟨g, hg, e⟩ := h.reason.decision l hv hd
        have : s.lev l - 1 = 0 := by omega
        rw [this, hf] at hg
        cases hg
        exact .assumed e.symm
      · have hk' := hk (by omega)
        obtain ⟨a1, a2, a3⟩ := antecedents_ok h hv h0 hk' hd
        refine a3 _ fun m hm => ?_
        obtain ⟨b1, b2, b3⟩ := a1 m hm
        by_cases hm0 : s.lev m = 0
        · exact UP.root h.trail b1 hm0
        · have b3 : s.pos m < s.pos l := by omega
          refine ih (neg m) (by rw [pos_neg]; omega) (h.trail.neg_pos.2 b1)
            (by rw [lev_neg]; omega) fun _ => ?_
          rw [lev_neg, pos_neg]; omega

end Verif.Core
