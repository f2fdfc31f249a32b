import Verif.Proofs.Check.Table

/-! Finding and removing lines, backtracking. -/

namespace Verif.Check

open Verif.Spec

theorem same_of_subset {a b : List Nat} (ha : a.Nodup) (hs : ∀ x ∈ a, x ∈ b)
    (hl : a.length = b.length) : SameLits a b := fun x => ⟨hs x, fun hx => by
  by_cases h : x ∈ a
  · exact h
  · have := nodup_length_le (l := x :: a) (m := b) (List.nodup_cons.2 ⟨h, ha⟩) fun y hy => by
      rcases List.mem_cons.1 hy with rfl | hy
      · exact hx
      · exact hs y hy
    simp at this; omega⟩

theorem perm_of_same {a b : List Nat} (ha : a.Nodup) (hb : b.Nodup) (h : SameLits a b) :
    a.Perm b := by
  rw [List.perm_iff_count]
  intro x
  rw [ha.count, hb.count]
  simp only [h x]

theorem erase_mem {l : List Nat} (h : l.Nodup) (i j : Nat) : j ∈ l.erase i ↔ j ∈ l ∧ j ≠ i := by
  rw [h.mem_erase_iff, and_comm]

/-- Removing a line. -/
def Checker.drop (c : Checker) (i : Nat) : Checker :=
  let reduced := reduceHash (c.line i).hash c.hashed
  let c := { c with table := put c.table reduced ((c.table reduced).erase i) }
  let c := c.unwatchLine i
  { c with buckets := c.buckets - 1 }

theorem drop_ok {nonces : Nat → Nat} {nd : Prop} {c : Checker} (h : Wf c) (hx : Idx nonces nd c)
    {i : Nat} (hi : c.Live i) :
    Wf (c.drop i) ∧ Idx nonces nd (c.drop i) ∧ (∀ j, (c.drop i).Live j ↔ c.Live j ∧ j ≠ i) := by
  have htab : ∀ j k, j ∈ (c.drop i).table k ↔ j ∈ c.table k ∧ j ≠ i := fun j k => by
    show j ∈ put c.table (reduceHash (c.line i).hash c.hashed)
      ((c.table (reduceHash (c.line i).hash c.hashed)).erase i) k ↔ _
    unfold put
    split
    · next e => rw [e, erase_mem (hx.cnodup _)]
    · next e =>
      refine ⟨fun hj => ⟨hj, fun e' => e ?_⟩, fun hj => hj.1⟩
      rw [(hx.chain k j hj).1, e']
  have hlive : ∀ j, (c.drop i).Live j ↔ c.Live j ∧ j ≠ i := fun j => htab j _
  have hne := h.ne i hi
  have hw : ∀ j w, j ∈ (c.drop i).watches w ↔ j ∈ c.watches w ∧ j ≠ i := fun j w => by
    show j ∈ put (put c.watches (c.first i) ((c.watches (c.first i)).erase i)) (c.second i)
      ((put c.watches (c.first i) ((c.watches (c.first i)).erase i) (c.second i)).erase i) w ↔ _
    rw [put_other _ _ hne.symm]
    unfold put
    split
    · next e => rw [e, erase_mem (h.wnodup _)]
    · next e =>
      split
      · next e' => rw [e', erase_mem (h.wnodup _)]
      · next e' =>
        refine ⟨fun hj => ⟨hj, fun hji => ?_⟩, fun hj => hj.1⟩
        subst hji
        rcases ((h.watch j w).1 (.inl hj)).2 with h1 | h1
        · exact e' h1
        · exact e h1
  refine ⟨{
    dom := h.dom
    anti := h.anti
    trail := h.trail
    nodup := h.nodup
    bound := h.bound
    prop := h.prop
    idx := fun j hj => h.idx j ((hlive j).1 hj).1
    size := fun j hj => h.size j ((hlive j).1 hj).1
    ne := fun j hj => h.ne j ((hlive j).1 hj).1
    lbound := fun j hj => h.lbound j ((hlive j).1 hj).1
    watch := fun j w => by
      have := h.watch j w
      simp only [List.not_mem_nil, and_false, or_false] at this ⊢
      rw [hw, hlive, this]
      exact ⟨fun ⟨⟨a, b⟩, d⟩ => ⟨⟨a, d⟩, b⟩, fun ⟨⟨a, d⟩, b⟩ => ⟨⟨a, b⟩, d⟩⟩
    wnodup := fun w => by
      show (put (put c.watches (c.first i) ((c.watches (c.first i)).erase i)) (c.second i)
        ((put c.watches (c.first i) ((c.watches (c.first i)).erase i) (c.second i)).erase i) w).Nodup
      rw [put_other _ _ hne.symm]
      unfold put
      split
      · exact (h.wnodup _).erase _
      · split
        · exact (h.wnodup _).erase _
        · exact h.wnodup w
    rnodup := List.nodup_nil
    rdisj := fun j hj => by cases hj }, {
    chain := fun k j hj => hx.chain k j ((htab j k).1 hj).1
    cnodup := fun k => by
      show (put c.table _ _ k).Nodup
      unfold put
      split
      · exact (hx.cnodup _).erase _
      · exact hx.cnodup k
    zero := fun e => by
      have : i ∈ c.table _ := hi
      rw [(hx.zero e).2] at this
      cases this
    hash := fun j hj => hx.hash j ((hlive j).1 hj).1
    used := fun j hj => hx.used j ((hlive j).1 hj).1
    large := fun j hj => hx.large j ((hlive j).1 hj).1
    lnodup := fun e j hj => hx.lnodup e j ((hlive j).1 hj).1 }, hlive⟩

/-- What searching for a line finds. -/
theorem findLine_ok {nonces : Nat → Nat} {nd : Prop} {c : Checker} (hx : Idx nonces nd c)
    (imported : List Nat) :
    (c.findLine nonces imported = some none ∧
      ∀ i, c.Live i → ¬ (c.line i).lits.Perm imported) ∨
    ∃ i, c.findLine nonces imported = some (some i) ∧ c.Live i ∧
      (c.line i).lits.length = imported.length ∧ (∀ l ∈ (c.line i).lits, l ∈ imported) := by
  unfold Checker.findLine
  by_cases h0 : c.hashed = 0
  · rw [if_pos h0]
    refine .inl ⟨rfl, fun i hi => ?_⟩
    have : i ∈ c.table _ := hi
    rw [(hx.zero h0).2] at this
    cases this
  · rw [if_neg h0]
    obtain ⟨s, hs, hp, ho⟩ := sortLine_ok imported
    rw [hs]
    simp only
    cases hf : (c.table (reduceHash (hashLine nonces s) c.hashed)).find?
        (c.matchLine s (hashLine nonces s)) with
    | none =>
      refine .inl ⟨rfl, fun i hi hperm => ?_⟩
      rw [List.find?_eq_none] at hf
      have hh := hx.hash i hi s (hp.trans hperm.symm) ho
      have : i ∈ c.table _ := hi
      rw [hh] at this
      refine hf i this ?_
      unfold Checker.matchLine
      simp only [Bool.and_eq_true, decide_eq_true_eq, List.all_eq_true, List.contains_eq_mem]
      exact ⟨⟨(hperm.trans hp.symm).length_eq, hh⟩, fun l hl => hp.mem_iff.2 (hperm.mem_iff.1 hl)⟩
    | some i =>
      have hm := List.find?_some hf
      have hi := List.mem_of_find?_eq_some hf
      unfold Checker.matchLine at hm
      simp only [Bool.and_eq_true, decide_eq_true_eq, List.all_eq_true, List.contains_eq_mem] at hm
      refine .inr ⟨i, rfl, ?_, by rw [hm.1.1, hp.length_eq], fun l hl => hp.mem_iff.1 (hm.2 l hl)⟩
      unfold Checker.Live
      rw [← (hx.chain _ i hi).1]; exact hi

theorem removeLine_eq {nonces : Nat → Nat} {c : Checker} {imported : List Nat} {i : Nat}
    (h : c.findLine nonces imported = some (some i)) :
    c.removeLine nonces imported = .ok (c.drop i) := by
  unfold Checker.removeLine
  rw [h]
  rfl

/-- Backtracking restores the assignment. -/
theorem backtrack_ok {c c' : Checker} (h : Wf c) (h' : Wf c') (hf : Frame c c')
    (ht : ∃ e, c'.trail = c.trail ++ e) :
    Wf (c'.backtrack c.trail.length) ∧ Frame c (c'.backtrack c.trail.length) ∧
      (c'.backtrack c.trail.length).trail = c.trail := by
  obtain ⟨e, he⟩ := ht
  have htake : (c'.backtrack c.trail.length).trail = c.trail := by
    show c'.trail.take c.trail.length = c.trail
    rw [he]; simp
  have hdrop : c'.trail.drop c.trail.length = e := by rw [he]; simp
  have hfr : Frame c' (c'.backtrack c.trail.length) :=
    ⟨rfl, rfl, rfl, rfl, rfl, rfl, rfl, rfl, fun _ => rfl, fun _ => .refl _⟩
  have hnd := h'.nodup
  rw [he] at hnd
  have hdisj := (List.nodup_append.1 hnd).2.2
  have hval : ∀ x, (c'.backtrack c.trail.length).values x =
      if x ∈ e ∨ neg x ∈ e then 0 else c'.values x := fun x => by
    show (if x ∈ c'.trail.drop c.trail.length ∨ neg x ∈ c'.trail.drop c.trail.length then (0 : Int)
      else c'.values x) = _
    rw [hdrop]
  refine ⟨{ h' with
    dom := fun x => ?_
    anti := fun x => ?_
    trail := fun x => ?_
    nodup := by rw [htake]; exact h.nodup
    bound := fun x hx => ?_
    prop := by rw [htake]; exact Nat.le_refl _ }, hf.trans hfr, htake⟩
  · rw [hval]
    split
    · right; left; rfl
    · exact h'.dom x
  · rw [hval, hval, Spec.neg_neg]
    by_cases e1 : x ∈ e ∨ neg x ∈ e
    · rw [if_pos e1, if_pos e1.symm]; rfl
    · rw [if_neg e1, if_neg (fun h => e1 h.symm)]; exact h'.anti x
  · rw [htake, hval]
    have hx' := h'.trail x
    rw [he, List.mem_append] at hx'
    have hn' := h'.trail (neg x)
    rw [he, List.mem_append, h'.anti] at hn'
    by_cases e1 : x ∈ e ∨ neg x ∈ e
    · rw [if_pos e1]
      constructor
      · intro hm
        rcases e1 with e1 | e1
        · exact absurd rfl (hdisj x hm x e1)
        · have h1 := hx'.1 (.inl hm)
          have h2 := hn'.1 (.inr e1)
          omega
      · intro h0; cases h0
    · rw [if_neg e1, ← hx']
      exact ⟨.inl, fun h => h.resolve_right fun h => e1 (.inl h)⟩
  · rw [htake] at hx
    exact h'.bound x (by rw [he]; exact List.mem_append_left _ hx)

end Verif.Check
