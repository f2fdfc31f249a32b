import Verif.Proofs.Check.Wf
import Verif.Proofs.Core.OneLiteral
import Verif.Proofs.Containers.Sort
import Verif.Proofs.Lists

/-! Complete propagation, simplification of added clauses and sorting. -/

namespace Verif.Check

open Verif.Spec

theorem WfR.length_le {n : Nat} {rest : List Nat} {c : Checker} (h : WfR n rest c) :
    c.trail.length ≤ c.vars := by
  have hn : (c.trail.map (· / 2)).Nodup := by
    refine List.pairwise_map.2 (h.nodup.imp_of_mem fun {a b} ha hb hne hd => ?_)
    rcases eq_or_eq_neg hd with e | e
    · exact hne e
    · have h1 := (h.trail a).1 ha
      have h2 := (h.trail b).1 hb
      have h3 := h.anti b
      rw [← e] at h3; omega
  have := nodup_length_le (l := c.trail.map (· / 2)) (m := List.range c.vars) hn fun x hx => by
    obtain ⟨y, hy, rfl⟩ := List.mem_map.1 hx
    exact List.mem_range.2 (h.bound y hy)
  simpa using this

theorem propagateLoop_ok : ∀ {n : Nat} {c : Checker}, Wf c → c.vars + 1 ≤ n + c.propagated →
    ∃ c' res, propagateLoop n c = some (c', res) ∧ Wf c' ∧ Propagated c c' res := by
  intro n
  induction n with
  | zero =>
    intro c h hn
    have := h.length_le
    have := h.prop
    omega
  | succ n ih =>
    intro c h hn
    unfold propagateLoop
    cases hl : c.trail[c.propagated]? with
    | none => exact ⟨c, true, rfl, h, .refl c⟩
    | some lit =>
      obtain ⟨hlt, hlit⟩ := List.getElem?_eq_some_iff.1 hl
      have hm : lit ∈ c.trail := hlit ▸ List.getElem_mem hlt
      have hv : c.values (neg lit) = -1 := by rw [h.value_neg, Spec.neg_neg]; exact hm
      generalize hc1 : ({ c with propagated := c.propagated + 1,
                                 watches := put c.watches (neg lit) [] } : Checker) = c1
      have hf : Frame c c1 := by
        subst hc1
        exact ⟨rfl, rfl, rfl, rfl, rfl, rfl, rfl, rfl, fun _ => rfl, fun _ => .refl _⟩
      have hwf : WfR (neg lit) (c.watches (neg lit)) c1 := by
        subst hc1
        exact { h with
          prop := hlt
          watch := fun i w => by
            refine Iff.trans ?_ (h.watch i w)
            show i ∈ put c.watches (neg lit) [] w ∨ _ ↔ _
            unfold put
            split
            · next e => subst e; simp
            · next e => simp [e]
          wnodup := fun w => by
            show (put c.watches (neg lit) [] w).Nodup
            unfold put
            split
            · exact List.nodup_nil
            · exact h.wnodup w
          rnodup := h.wnodup _
          rdisj := fun i _ hi => by
            have hi : i ∈ put c.watches (neg lit) [] (neg lit) := hi
            simp at hi }
      have hv1 : c1.values (neg lit) = -1 := by subst hc1; exact hv
      have hp1 : c1.propagated = c.propagated + 1 := by subst hc1; rfl
      have ht1 : c1.trail = c.trail := by subst hc1; rfl
      simp only [hc1]
      cases hw : watchLoop (neg lit) (c.watches (neg lit)) c1 with
      | mk c2 res =>
        obtain ⟨a, b, d⟩ := watchLoop_ok hwf hv1 hw
        have hcomp := (Propagated.of_frame hf ht1).comp b
        cases res with
        | false => exact ⟨c2, false, rfl, a.change, hcomp⟩
        | true =>
          obtain ⟨c', res, e, w, p⟩ := ih (c := c2) a.change (by
            rw [d, hp1, hcomp.frame.vars]; omega)
          exact ⟨c', res, e, w, hcomp.comp p⟩

theorem propagate_ok {c : Checker} (h : Wf c) :
    ∃ c' res, c.propagate = some (c', res) ∧ Wf c' ∧ Propagated c c' res :=
  propagateLoop_ok h (by omega)

theorem strictWeak_lt : StrictWeak (fun a b : Nat => decide (a < b)) :=
  ⟨by simp, by simp only [decide_eq_true_eq]; omega, by simp only [decide_eq_true_eq]; omega⟩

theorem sortLine_ok (lits : List Nat) :
    ∃ s, sortLine lits = some s ∧ s.Perm lits ∧ s.Pairwise (· ≤ ·) := by
  obtain ⟨s, e, h⟩ := Proofs.Sort.sortStack_spec strictWeak_lt lits
  refine ⟨s, e, h.perm, h.ordered.imp fun {a b} hab => ?_⟩
  simp only [decide_eq_false_iff_not] at hab
  omega

theorem sorted_unique : ∀ {a b : List Nat}, a.Perm b → a.Pairwise (· ≤ ·) →
    b.Pairwise (· ≤ ·) → a = b := by
  intro a
  induction a with
  | nil => intro b hp _ _; exact (List.Perm.nil_eq hp)
  | cons x a ih =>
    intro b hp ha hb
    cases b with
    | nil => exact absurd hp.length_eq (by simp)
    | cons y b =>
      have e : x = y := by
        have h1 : x ∈ y :: b := hp.mem_iff.1 (List.mem_cons_self ..)
        have h2 : y ∈ x :: a := hp.mem_iff.2 (List.mem_cons_self ..)
        rcases List.mem_cons.1 h1 with e | h1
        · exact e
        · rcases List.mem_cons.1 h2 with e | h2
          · exact e.symm
          · have := (List.pairwise_cons.1 ha).1 y h2
            have := (List.pairwise_cons.1 hb).1 x h1
            omega
      subst e
      rw [ih (List.Perm.cons_inv hp) (List.pairwise_cons.1 ha).2 (List.pairwise_cons.1 hb).2]

theorem swap_eq (lits : List Nat) (i j : Nat) : swap lits i j = Core.swapLits lits j i := rfl

/-- State of the loop of `simplify_imported` before position `i`. -/
structure SimpInv (values : Nat → Int) (i : Nat) (lits marks : List Nat) (k : Nat) : Prop where
  le : i ≤ lits.length
  mem : ∀ x, x ∈ marks ↔ ∃ j, j < i ∧ lits[j]? = some x
  taut : ∀ x ∈ marks, neg x ∉ marks
  true' : ∀ x ∈ marks, values x ≤ 0
  ki : k ≤ i
  first : 0 < k → values (lits.getD 0 0) = 0
  second : 1 < k → values (lits.getD 1 0) = 0 ∧ lits.getD 0 0 ≠ lits.getD 1 0
  zero : k = 0 → ∀ x ∈ marks, values x < 0
  one : k = 1 → ∀ x ∈ marks, x = lits.getD 0 0 ∨ values x < 0

theorem getD_of {l : List Nat} {i x : Nat} (h : l[i]? = some x) : l.getD i 0 = x := by
  rw [List.getD_eq_getElem?_getD, h]; rfl

theorem of_getD {l : List Nat} {i : Nat} (h : i < l.length) : l[i]? = some (l.getD i 0) := by
  rw [List.getD_eq_getElem?_getD, List.getElem?_eq_getElem h]; rfl

theorem mem_swap {lits marks : List Nat} {i p : Nat} (hi : i < lits.length) (hp : p ≤ i)
    (h : ∀ x, x ∈ marks ↔ ∃ j, j < i ∧ lits[j]? = some x) (x : Nat) :
    x ∈ lits.getD i 0 :: marks ↔ ∃ j, j < i + 1 ∧ (swap lits i p)[j]? = some x := by
  have hget := Core.swapLits_get (l := lits) (i := p) (j := i) (by omega) hi
  rw [List.mem_cons, h, swap_eq]
  constructor
  · rintro (rfl | ⟨j, hj, e⟩)
    · exact ⟨p, by omega, by rw [hget, if_pos rfl, of_getD hi]⟩
    · by_cases e1 : j = p
      · subst e1
        refine ⟨i, by omega, ?_⟩
        rw [hget, if_neg (by omega), if_pos rfl]; exact e
      · exact ⟨j, by omega, by rw [hget, if_neg e1, if_neg (by omega)]; exact e⟩
  · rintro ⟨j, hj, e⟩
    rw [hget] at e
    by_cases e1 : j = p
    · rw [if_pos e1, of_getD hi] at e
      exact .inl (Option.some.inj e).symm
    · rw [if_neg e1] at e
      by_cases e2 : j = i
      · rw [if_pos e2] at e
        exact .inr ⟨p, by omega, e⟩
      · rw [if_neg e2] at e
        exact .inr ⟨j, by omega, e⟩

theorem mem_next {lits marks : List Nat} {i : Nat} (hi : i < lits.length)
    (h : ∀ x, x ∈ marks ↔ ∃ j, j < i ∧ lits[j]? = some x) (x : Nat) :
    x ∈ lits.getD i 0 :: marks ↔ ∃ j, j < i + 1 ∧ lits[j]? = some x := by
  rw [List.mem_cons, h]
  constructor
  · rintro (rfl | ⟨j, hj, e⟩)
    · exact ⟨i, by omega, of_getD hi⟩
    · exact ⟨j, by omega, e⟩
  · rintro ⟨j, hj, e⟩
    by_cases e2 : j = i
    · subst e2; rw [of_getD hi] at e; exact .inl (Option.some.inj e).symm
    · exact .inr ⟨j, by omega, e⟩

theorem cons_taut {marks : List Nat} {l : Nat} (h : ∀ x ∈ marks, neg x ∉ marks)
    (hn : neg l ∉ marks) : ∀ x ∈ l :: marks, neg x ∉ l :: marks := by
  intro x hx hm
  rcases List.mem_cons.1 hx with rfl | hx
  · rcases List.mem_cons.1 hm with e | hm
    · exact neg_ne x e
    · exact hn hm
  · rcases List.mem_cons.1 hm with e | hm
    · exact hn (by rw [← e, Spec.neg_neg]; exact hx)
    · exact h x hx hm

/-- What the loop of `simplify_imported` finds. -/
def SimpOk (values : Nat → Int) (lits : List Nat) : Option (List Nat × Nat) → Prop
  | none => ∃ l ∈ lits, 0 < values l ∨ neg l ∈ lits
  | some (lits', k) => lits'.Perm lits ∧ ∃ marks, SimpInv values lits'.length lits' marks k

theorem simplifyLoop_ok {values : Nat → Int} : ∀ {n i : Nat} {lits marks : List Nat} {k : Nat},
    SimpInv values i lits marks k → n + i = lits.length →
    SimpOk values lits (simplifyLoop values n i lits marks k) := by
  intro n
  induction n with
  | zero =>
    intro i lits marks k h hn
    rw [show i = lits.length by omega] at h
    exact ⟨.refl _, marks, h⟩
  | succ n ih =>
    intro i lits marks k h hn
    have hi : i < lits.length := by omega
    have hmem : ∀ x ∈ marks, x ∈ lits := fun x hx => by
      obtain ⟨j, _, e⟩ := (h.mem x).1 hx
      exact List.mem_of_getElem? e
    have hlm : lits.getD i 0 ∈ lits := List.mem_of_getElem? (of_getD hi)
    unfold simplifyLoop
    simp only
    by_cases h1 : lits.getD i 0 ∈ marks
    · rw [if_pos h1]
      refine ih { h with
        le := by omega
        mem := fun x => by
          rw [← mem_next hi h.mem, List.mem_cons]
          exact ⟨.inr, fun e => e.elim (fun e => e ▸ h1) id⟩
        ki := by have := h.ki; omega } (by omega)
    · rw [if_neg h1]
      by_cases h2 : neg (lits.getD i 0) ∈ marks
      · rw [if_pos h2]
        exact ⟨_, hlm, .inr (hmem _ h2)⟩
      · rw [if_neg h2]
        by_cases h3 : values (lits.getD i 0) < 0
        · rw [if_pos h3]
          refine ih { h with
            le := by omega
            mem := mem_next hi h.mem
            taut := cons_taut h.taut h2
            true' := fun x hx => by
              rcases List.mem_cons.1 hx with rfl | hx
              · omega
              · exact h.true' x hx
            ki := by have := h.ki; omega
            zero := fun e x hx => by
              rcases List.mem_cons.1 hx with rfl | hx
              · exact h3
              · exact h.zero e x hx
            one := fun e x hx => by
              rcases List.mem_cons.1 hx with rfl | hx
              · exact .inr h3
              · exact h.one e x hx } (by omega)
        · rw [if_neg h3]
          by_cases h4 : 0 < values (lits.getD i 0)
          · rw [if_pos h4]
            exact ⟨_, hlm, .inl h4⟩
          · rw [if_neg h4]
            have hv : values (lits.getD i 0) = 0 := by omega
            have hki := h.ki
            have htrue : ∀ x ∈ lits.getD i 0 :: marks, values x ≤ 0 := fun x hx => by
              rcases List.mem_cons.1 hx with rfl | hx
              · omega
              · exact h.true' x hx
            by_cases e0 : k = 0
            · rw [if_pos e0]
              have hget := Core.swapLits_get (l := lits) (i := 0) (j := i) (by omega) hi
              have hperm : (swap lits i 0).Perm lits := Core.swapLits_perm (by omega) hi
              have h0 : (swap lits i 0).getD 0 0 = lits.getD i 0 :=
                getD_of (by rw [swap_eq, hget, if_pos rfl, of_getD hi])
              have := ih (i := i + 1) (lits := swap lits i 0) (marks := lits.getD i 0 :: marks)
                (k := k + 1) {
                  le := by rw [hperm.length_eq]; omega
                  mem := mem_swap hi (by omega) h.mem
                  taut := cons_taut h.taut h2
                  true' := htrue
                  ki := by omega
                  first := fun _ => by rw [h0]; exact hv
                  second := fun e => by omega
                  zero := fun e => by omega
                  one := fun _ x hx => by
                    rw [h0]
                    rcases List.mem_cons.1 hx with rfl | hx
                    · exact .inl rfl
                    · exact .inr (h.zero e0 x hx) } (by rw [hperm.length_eq]; omega)
              revert this
              cases simplifyLoop values n (i + 1) (swap lits i 0) (lits.getD i 0 :: marks) (k + 1) with
              | none =>
                rintro ⟨l, hl, hx⟩
                exact ⟨l, hperm.mem_iff.1 hl, hx.imp id hperm.mem_iff.1⟩
              | some r => exact fun ⟨hp, hm⟩ => ⟨hp.trans hperm, hm⟩
            · rw [if_neg e0]
              by_cases e1 : k = 1
              · rw [if_pos e1]
                have hget := Core.swapLits_get (l := lits) (i := 1) (j := i) (by omega) hi
                have hperm : (swap lits i 1).Perm lits := Core.swapLits_perm (by omega) hi
                have hg0 : (swap lits i 1).getD 0 0 = lits.getD 0 0 :=
                  getD_of (by rw [swap_eq, hget, if_neg (by omega), if_neg (by omega), of_getD (by omega)])
                have hg1 : (swap lits i 1).getD 1 0 = lits.getD i 0 :=
                  getD_of (by rw [swap_eq, hget, if_pos rfl, of_getD hi])
                have h0m : lits.getD 0 0 ∈ marks := (h.mem _).2 ⟨0, by omega, of_getD (by omega)⟩
                have := ih (i := i + 1) (lits := swap lits i 1) (marks := lits.getD i 0 :: marks)
                  (k := k + 1) {
                    le := by rw [hperm.length_eq]; omega
                    mem := mem_swap hi (by omega) h.mem
                    taut := cons_taut h.taut h2
                    true' := htrue
                    ki := by omega
                    first := fun _ => by rw [hg0]; exact h.first (by omega)
                    second := fun _ => by
                      rw [hg0, hg1]
                      exact ⟨hv, fun e => h1 (e ▸ h0m)⟩
                    zero := fun e => by omega
                    one := fun e => by omega } (by rw [hperm.length_eq]; omega)
                revert this
                cases simplifyLoop values n (i + 1) (swap lits i 1) (lits.getD i 0 :: marks) (k + 1) with
                | none =>
                  rintro ⟨l, hl, hx⟩
                  exact ⟨l, hperm.mem_iff.1 hl, hx.imp id hperm.mem_iff.1⟩
                | some r => exact fun ⟨hp, hm⟩ => ⟨hp.trans hperm, hm⟩
              · rw [if_neg e1]
                exact ih {
                  le := by omega
                  mem := mem_next hi h.mem
                  taut := cons_taut h.taut h2
                  true' := htrue
                  ki := by omega
                  first := fun _ => h.first (by omega)
                  second := fun _ => h.second (by omega)
                  zero := fun e => by omega
                  one := fun e => by omega } (by omega)

/-- What `simplify_imported` does with the literals. -/
theorem simplifyLoop_spec (values : Nat → Int) (lits : List Nat) :
    SimpOk values lits (simplifyLoop values lits.length 0 lits [] 0) :=
  simplifyLoop_ok ⟨by omega, by simp, by simp, by simp, by omega, by omega, by omega, by simp,
    by omega⟩ (by omega)

theorem SimpInv.all {values : Nat → Int} {lits marks : List Nat} {k : Nat}
    (h : SimpInv values lits.length lits marks k) (x : Nat) : x ∈ marks ↔ x ∈ lits := by
  rw [h.mem]
  constructor
  · rintro ⟨j, _, e⟩; exact List.mem_of_getElem? e
  · intro hx
    obtain ⟨j, hj, e⟩ := List.getElem_of_mem hx
    exact ⟨j, hj, by rw [List.getElem?_eq_getElem hj, e]⟩

theorem satisfiedOrTrivial_spec {values : Nat → Int} : ∀ {lits marks : List Nat},
    satisfiedOrTrivial values lits marks = true →
    ∃ l ∈ lits, 0 < values l ∨ neg l ∈ lits ∨ neg l ∈ marks := by
  intro lits
  induction lits with
  | nil => intro marks h; simp [satisfiedOrTrivial] at h
  | cons x lits ih =>
    intro marks h
    unfold satisfiedOrTrivial at h
    split at h
    · obtain ⟨l, hl, hx⟩ := ih h
      exact ⟨l, List.mem_cons_of_mem _ hl, hx.imp id (Or.imp (List.mem_cons_of_mem _) id)⟩
    · split at h
      · exact ⟨x, List.mem_cons_self .., .inr (.inr (by assumption))⟩
      · split at h
        · exact ⟨x, List.mem_cons_self .., .inl (by assumption)⟩
        · obtain ⟨l, hl, hx⟩ := ih h
          refine ⟨l, List.mem_cons_of_mem _ hl, ?_⟩
          rcases hx with hx | hx | hx
          · exact .inl hx
          · exact .inr (.inl (List.mem_cons_of_mem _ hx))
          · rcases List.mem_cons.1 hx with hx | hx
            · exact .inr (.inl (hx ▸ List.mem_cons_self ..))
            · exact .inr (.inr hx)

theorem satisfiedOrTrivial_false {values : Nat → Int} : ∀ {lits marks : List Nat},
    satisfiedOrTrivial values lits marks = false →
    (∀ x ∈ marks, values x ≤ 0) → (∀ x ∈ marks, neg x ∉ marks) →
    (∀ l ∈ lits, values l ≤ 0) ∧ ∀ x, x ∈ lits ∨ x ∈ marks → neg x ∉ lits ∧ neg x ∉ marks := by
  intro lits
  induction lits with
  | nil =>
    intro marks _ _ ht
    exact ⟨fun l hl => (by cases hl), fun x hx => ⟨by simp, ht x (hx.resolve_left (by simp))⟩⟩
  | cons y lits ih =>
    intro marks h hv ht
    unfold satisfiedOrTrivial at h
    have fin : ∀ marks', satisfiedOrTrivial values lits marks' = false → y ∈ marks' →
        (∀ x ∈ marks', values x ≤ 0) → (∀ x ∈ marks', neg x ∉ marks') →
        (∀ x ∈ marks, x ∈ marks') →
        (∀ l ∈ y :: lits, values l ≤ 0) ∧
          ∀ x, x ∈ y :: lits ∨ x ∈ marks → neg x ∉ y :: lits ∧ neg x ∉ marks :=
      fun marks' h' hy hv' ht' hs => by
        obtain ⟨a, b⟩ := ih h' hv' ht'
        refine ⟨fun l hl => ?_, fun x hx => ?_⟩
        · rcases List.mem_cons.1 hl with rfl | hl
          · exact hv' _ hy
          · exact a l hl
        · have hx' : x ∈ lits ∨ x ∈ marks' := by
            rcases hx with hx | hx
            · rcases List.mem_cons.1 hx with rfl | hx
              · exact .inr hy
              · exact .inl hx
            · exact .inr (hs x hx)
          obtain ⟨b1, b2⟩ := b x hx'
          refine ⟨fun hm => ?_, fun hm => b2 (hs _ hm)⟩
          rcases List.mem_cons.1 hm with e | hm
          · exact b2 (e ▸ hy)
          · exact b1 hm
    split at h
    · exact fin marks h (by assumption) hv ht fun _ h => h
    · split at h
      · cases h
      · split at h
        · cases h
        · refine fin (y :: marks) h (List.mem_cons_self ..) (fun x hx => ?_)
            (cons_taut ht (by assumption)) fun _ h => List.mem_cons_of_mem _ h
          rcases List.mem_cons.1 hx with rfl | hx
          · omega
          · exact hv x hx

end Verif.Check
