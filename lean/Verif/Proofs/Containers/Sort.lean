import Verif.Spec.Sorting
import Verif.Model.Containers.Sort

/-!
# The comparison sort sorts
-/

namespace Verif.Proofs.Sort

open Verif.Spec Verif.Model.Sort

variable {α : Type} {less : α → α → Bool}

theorem StrictWeak.asymm (h : StrictWeak less) {a b : α} (hab : less a b = true) : less b a = false := by
  cases hba : less b a with
  | false => rfl
  | true => have := h.trans a b a hab hba; rw [h.irrefl] at this; cases this

/-- Not less in both steps gives not less. -/
theorem StrictWeak.nle (h : StrictWeak less) {a b c : α} (hab : less a b = false) (hbc : less b c = false) :
    less a c = false := by
  cases hac : less a c with
  | false => rfl
  | true =>
    rcases h.between a b c hac with h' | h'
    · rw [hab] at h'; cases h'
    · rw [hbc] at h'; cases h'

/-! ## Swapping -/

theorem set_set_perm : ∀ {a : List α} {i j : Nat} {x y : α}, a[i]? = some x → a[j]? = some y →
    ((a.set i y).set j x).Perm a := by
  have key : ∀ (a : List α) (j : Nat) (x y : α), a[j]? = some y → (x :: a.set j x |>.set 0 y).Perm (x :: a) := by
    intro a
    induction a with
    | nil => intro j x y h; simp at h
    | cons z zs ih =>
      intro j x y h
      cases j with
      | zero =>
        simp only [List.getElem?_cons_zero, Option.some.injEq] at h
        subst h
        simp only [List.set_cons_zero]
        exact .swap _ _ _
      | succ j =>
        simp only [List.getElem?_cons_succ] at h
        have := ih j x y h
        simp only [List.set_cons_succ, List.set_cons_zero] at this ⊢
        exact (List.Perm.swap _ _ _).trans ((this.cons z).trans (.swap _ _ _))
  intro a
  induction a with
  | nil => intro i j x y h; simp at h
  | cons z zs ih =>
    intro i j x y hi hj
    cases i with
    | zero =>
      simp only [List.getElem?_cons_zero, Option.some.injEq] at hi
      subst hi
      cases j with
      | zero =>
        simp only [List.getElem?_cons_zero, Option.some.injEq] at hj
        subst hj; simp
      | succ j =>
        simp only [List.getElem?_cons_succ] at hj
        have := key zs j z y hj
        simpa using this
    | succ i =>
      simp only [List.getElem?_cons_succ] at hi
      cases j with
      | zero =>
        simp only [List.getElem?_cons_zero, Option.some.injEq] at hj
        subst hj
        have := key zs i z x hi
        simpa using this
      | succ j =>
        simp only [List.getElem?_cons_succ] at hj
        simp only [List.set_cons_succ]
        exact (ih hi hj).cons z

theorem swap_spec {a : List α} {i j : Nat} (hi : i < a.length) (hj : j < a.length) :
    ∃ a', swap a i j = some a' ∧ a'.Perm a ∧ a'[j]? = a[i]? ∧ a'[i]? = a[j]? ∧
      ∀ k, k ≠ i → k ≠ j → a'[k]? = a[k]? := by
  unfold swap
  rw [List.getElem?_eq_getElem hi, List.getElem?_eq_getElem hj]
  refine ⟨_, rfl, set_set_perm (List.getElem?_eq_getElem hi) (List.getElem?_eq_getElem hj), ?_, ?_, ?_⟩
  · rw [List.getElem?_set_self (by rw [List.length_set]; exact hj)]
  · by_cases h : i = j
    · subst h; rw [List.getElem?_set_self (by rw [List.length_set]; exact hj)]
    · rw [List.getElem?_set_ne (Ne.symm h), List.getElem?_set_self hi]
  · intro k h1 h2
    rw [List.getElem?_set_ne (Ne.symm h2), List.getElem?_set_ne (Ne.symm h1)]

theorem greaterSwap_spec (hw : StrictWeak less) {a : List α} {i j : Nat} (hij : i < j) (hj : j < a.length) :
    ∃ a', greaterSwap less a i j = some a' ∧ a'.Perm a ∧ (∀ k, k ≠ i → k ≠ j → a'[k]? = a[k]?) ∧
      ∃ x y, a'[i]? = some x ∧ a'[j]? = some y ∧ less y x = false ∧
        (a[i]? = some x ∧ a[j]? = some y ∨ a[i]? = some y ∧ a[j]? = some x ∧ less x y = true) := by
  have hi : i < a.length := by omega
  unfold greaterSwap
  rw [List.getElem?_eq_getElem hi, List.getElem?_eq_getElem hj]
  dsimp only
  by_cases h : less a[j] a[i] = true
  · rw [if_pos h]
    obtain ⟨a', e, p, e1, e2, e3⟩ := swap_spec hi hj
    rw [List.getElem?_eq_getElem hi] at e1
    rw [List.getElem?_eq_getElem hj] at e2
    exact ⟨a', e, p, e3, _, _, e2, e1, StrictWeak.asymm hw h, .inr ⟨rfl, rfl, h⟩⟩
  · rw [if_neg h]
    exact ⟨a, rfl, .refl _, fun _ _ _ => rfl, _, _, List.getElem?_eq_getElem hi, List.getElem?_eq_getElem hj,
      by simpa using h, .inl ⟨rfl, rfl⟩⟩

/-! ## Quick sort permutes -/

theorem up_spec {pivot : α} {a : List α} : ∀ {fuel i j : Nat} {y : α}, i < j → a[j]? = some y →
    less y pivot = false → j - i ≤ fuel →
    ∃ i' x, up less pivot a fuel i = some i' ∧ i < i' ∧ i' ≤ j ∧ a[i']? = some x ∧ less x pivot = false
  | 0, i, j, y, h1, _, _, h4 => by omega
  | fuel + 1, i, j, y, h1, h2, h3, h4 => by
    have hj : j < a.length := (List.getElem?_eq_some_iff.1 h2).1
    unfold up
    rw [List.getElem?_eq_getElem (show i + 1 < a.length by omega)]
    dsimp only
    by_cases h : less a[i + 1] pivot = true
    · rw [if_pos h]
      have hne : i + 1 ≠ j := by
        intro e
        subst e
        rw [List.getElem?_eq_getElem hj, Option.some.injEq] at h2
        rw [h2, h3] at h; cases h
      obtain ⟨i', x, e, g1, g2, g3⟩ := up_spec (fuel := fuel) (i := i + 1) (by omega) h2 h3 (by omega)
      exact ⟨i', x, e, by omega, g2, g3⟩
    · rw [if_neg h]
      exact ⟨i + 1, _, rfl, by omega, by omega, List.getElem?_eq_getElem _, by simpa using h⟩

theorem down_spec {pivot : α} {a : List α} {l : Nat} : ∀ {j : Nat}, l < j → j ≤ a.length →
    ∃ j', down less pivot a l j = some j' ∧ l ≤ j' ∧ j' < j
  | 0, h, _ => by omega
  | j + 1, h, hj => by
    unfold down
    rw [List.getElem?_eq_getElem (show j < a.length by omega)]
    dsimp only
    by_cases h1 : less pivot a[j] = true
    · rw [if_pos h1]
      by_cases h2 : j = l
      · rw [if_pos h2]; exact ⟨j, rfl, by omega, by omega⟩
      · rw [if_neg h2]
        obtain ⟨j', e, g1, g2⟩ := down_spec (pivot := pivot) (a := a) (l := l) (j := j) (by omega) (by omega)
        exact ⟨j', e, g1, by omega⟩
    · rw [if_neg h1]; exact ⟨j, rfl, by omega, by omega⟩

theorem partitionLoop_spec {pivot : α} {l : Nat} : ∀ {fuel : Nat} {a : List α} {i j : Nat} {y : α},
    l ≤ i + 1 → i < j → l < j → a[j]? = some y → less y pivot = false → j - i ≤ fuel →
    ∃ a' i', partitionLoop less pivot l fuel a i j = some (a', i') ∧ a'.Perm a ∧ l ≤ i' ∧ i' ≤ j
  | 0, a, i, j, y, _, h1, _, _, _, h5 => by omega
  | fuel + 1, a, i, j, y, h0, h1, h2, h3, h4, h5 => by
    have hj : j < a.length := (List.getElem?_eq_some_iff.1 h3).1
    obtain ⟨i', x, e1, g1, g2, g3, g4⟩ := up_spec (less := less) (fuel := a.length) h1 h3 h4 (by omega)
    obtain ⟨j', e2, k1, k2⟩ := down_spec (less := less) (pivot := pivot) h2 (Nat.le_of_lt hj)
    unfold partitionLoop
    simp only [e1, e2]
    by_cases h : j' ≤ i'
    · rw [if_pos h]
      exact ⟨a, i', rfl, .refl _, by omega, by omega⟩
    · rw [if_neg h]
      obtain ⟨a', e3, p, m1, m2, m3⟩ := swap_spec (a := a) (i := i') (j := j') (by omega) (by omega)
      rw [e3]
      dsimp only
      obtain ⟨a'', i'', e4, p', n1, n2⟩ := partitionLoop_spec (pivot := pivot) (l := l) (fuel := fuel) (a := a')
        (i := i') (j := j') (y := x) (by omega) (by omega) (by omega) (by rw [m1, g3]) g4 (by omega)
      exact ⟨a'', i'', e4, p'.trans p, n1, by omega⟩

theorem partition_spec (hw : StrictWeak less) {a : List α} {l r : Nat} (h0 : 1 ≤ l) (h1 : l < r) (h2 : r < a.length) :
    ∃ a' i, partition less a l r = some (a', i) ∧ a'.Perm a ∧ l ≤ i ∧ i ≤ r := by
  unfold partition
  rw [List.getElem?_eq_getElem h2]
  dsimp only
  obtain ⟨a', i, e, p, g1, g2⟩ := partitionLoop_spec (less := less) (pivot := a[r]) (l := l) (fuel := a.length) (a := a)
    (i := l - 1) (j := r) (y := a[r]) (by omega) (by omega) h1 (List.getElem?_eq_getElem h2) (hw.irrefl _) (by omega)
  rw [e]
  dsimp only
  obtain ⟨a'', e2, p2, -⟩ := swap_spec (a := a') (i := i) (j := r) (by rw [p.length_eq]; omega)
    (by rw [p.length_eq]; omega)
  rw [e2]
  exact ⟨a'', i, rfl, p2.trans p, g1, g2⟩

theorem median_spec (hw : StrictWeak less) {a : List α} {l r : Nat} (h1 : l + 1 < r) (h2 : r < a.length) :
    ∃ a', median less a l r = some a' ∧ a'.Perm a := by
  unfold median
  obtain ⟨a1, e1, p1, -⟩ := swap_spec (a := a) (i := l + (r - l) / 2) (j := r - 1) (by omega) (by omega)
  rw [e1]; dsimp only
  obtain ⟨a2, e2, p2, -⟩ := greaterSwap_spec hw (a := a1) (i := l) (j := r - 1) (by omega)
    (by rw [p1.length_eq]; omega)
  rw [e2]; dsimp only
  obtain ⟨a3, e3, p3, -⟩ := greaterSwap_spec hw (a := a2) (i := l) (j := r) (by omega)
    (by rw [p2.length_eq, p1.length_eq]; omega)
  rw [e3]; dsimp only
  obtain ⟨a4, e4, p4, -⟩ := greaterSwap_spec hw (a := a3) (i := r - 1) (j := r) (by omega)
    (by rw [p3.length_eq, p2.length_eq, p1.length_eq]; omega)
  exact ⟨a4, e4, p4.trans (p3.trans (p2.trans p1))⟩

/-- The intervals on the stack are inside of the array and long; their total length is `m`. -/
inductive Sorter (n : Nat) : List Nat → Nat → Prop where
  | nil : Sorter n [] 0
  | cons {l r st m} : l + 10 < r → r < n → Sorter n st m → Sorter n (r :: l :: st) (r - l + m)

theorem quickLoop_spec (hw : StrictWeak less) : ∀ {fuel : Nat} {a : List α} {l r : Nat} {st : List Nat} {m : Nat},
    l + 10 < r → r < a.length → Sorter a.length st m → r - l + m ≤ fuel →
    ∃ a', quickLoop less fuel a l r st = some a' ∧ a'.Perm a
  | 0, a, l, r, st, m, h1, h2, h3, h4 => by omega
  | fuel + 1, a, l, r, st, m, h1, h2, h3, h4 => by
    obtain ⟨a1, e1, p1⟩ := median_spec hw (a := a) (l := l) (r := r) (by omega) h2
    obtain ⟨a2, i, e2, p2, g1, g2⟩ := partition_spec hw (a := a1) (l := l + 1) (r := r - 1) (by omega) (by omega)
      (by rw [p1.length_eq]; omega)
    have p : a2.Perm a := p2.trans p1
    have hlen := p.length_eq
    rw [← hlen] at h2 h3
    have fin : ∀ l' r' ll rr, r' < a2.length → rr < a2.length → (r' - l') + (rr - ll) + 1 ≤ r - l →
        r' - l' ≤ rr - ll →
        ∃ a', (if r' - l' > 10 then quickLoop less fuel a2 l' r' (rr :: ll :: st)
          else if rr - ll > 10 then quickLoop less fuel a2 ll rr st
          else match st with
            | r :: l :: sorter => quickLoop less fuel a2 l r sorter
            | _ => some a2) = some a' ∧ a'.Perm a := by
      intro l' r' ll rr b1 b2 b3 b4
      by_cases c1 : r' - l' > 10
      · rw [if_pos c1]
        obtain ⟨a', e, q⟩ := quickLoop_spec hw (fuel := fuel) (a := a2) (l := l') (r := r') (by omega) b1
          (.cons (l := ll) (r := rr) (by omega) b2 h3) (by omega)
        exact ⟨a', e, q.trans p⟩
      rw [if_neg c1]
      by_cases c2 : rr - ll > 10
      · rw [if_pos c2]
        obtain ⟨a', e, q⟩ := quickLoop_spec hw (fuel := fuel) (a := a2) (l := ll) (r := rr) (by omega) b2 h3 (by omega)
        exact ⟨a', e, q.trans p⟩
      rw [if_neg c2]
      cases h3 with
      | nil => exact ⟨a2, rfl, p⟩
      | cons d1 d2 d3 =>
        obtain ⟨a', e, q⟩ := quickLoop_spec hw (fuel := fuel) (a := a2) d1 d2 d3 (by omega)
        exact ⟨a', e, q.trans p⟩
    unfold quickLoop
    simp only [e1, e2]
    by_cases h : i - l < r - i
    · simp only [if_pos h]; exact fin _ _ _ _ (by omega) (by omega) (by omega) (by omega)
    · simp only [if_neg h]; exact fin _ _ _ _ (by omega) (by omega) (by omega) (by omega)

theorem quickSort_spec (hw : StrictWeak less) (a : List α) : ∃ a', quickSort less a = some a' ∧ a'.Perm a := by
  unfold quickSort
  by_cases h : a.length - 1 - 0 ≤ 10
  · rw [if_pos h]; exact ⟨a, rfl, .refl _⟩
  · rw [if_neg h]
    exact quickLoop_spec hw (by omega) (by omega) .nil (by omega)

/-! ## Insertion sort sorts -/

/-- Element `i` is not greater than any element from `i` on. -/
def Least (less : α → α → Bool) (a : List α) (i : Nat) : Prop :=
  ∀ x, a[i]? = some x → ∀ k y, i ≤ k → a[k]? = some y → less y x = false

theorem bubble_spec (hw : StrictWeak less) : ∀ {i : Nat} {a : List α}, i < a.length → Least less a i →
    ∃ a', bubble less i a = some a' ∧ a'.Perm a ∧ Least less a' 0
  | 0, a, _, h => ⟨a, rfl, .refl _, h⟩
  | i + 1, a, hi, h => by
    obtain ⟨a1, e1, p1, keep, x, y, hx, hy, hxy, hcase⟩ := greaterSwap_spec hw (a := a) (i := i) (j := i + 1)
      (by omega) hi
    have hl : Least less a1 i := by
      intro x' hx' k z hk hz
      rw [hx, Option.some.injEq] at hx'; subst hx'
      by_cases k1 : k = i
      · subst k1; rw [hx, Option.some.injEq] at hz; subst hz; exact hw.irrefl _
      by_cases k2 : k = i + 1
      · subst k2; rw [hy, Option.some.injEq] at hz; subst hz; exact hxy
      rw [keep k k1 k2] at hz
      rcases hcase with ⟨-, h2⟩ | ⟨-, h2, -⟩
      · exact StrictWeak.nle hw (h y h2 k z (by omega) hz) hxy
      · exact h x h2 k z (by omega) hz
    obtain ⟨a2, e2, p2, l2⟩ := bubble_spec hw (i := i) (a := a1) (by rw [p1.length_eq]; omega) hl
    refine ⟨a2, ?_, p2.trans p1, l2⟩
    unfold bubble; rw [e1]; exact e2

theorem shift_spec (hw : StrictWeak less) {pivot : α} : ∀ (n : Nat) (pre post : List α) (hole : α), pre.length = n →
    (∃ y, pre.head? = some y ∧ less pivot y = false) →
    ∃ p1 p2, pre = p1 ++ p2 ∧ p1 ≠ [] ∧
      shift less pivot n (pre ++ hole :: post) = some (p1 ++ pivot :: (p2 ++ post)) ∧
      (∀ y ∈ p2, less pivot y = true) ∧ (∀ y, p1.getLast? = some y → less pivot y = false)
  | 0, pre, post, hole, hn, ⟨y, hy, _⟩ => by
    rw [List.length_eq_zero_iff] at hn; subst hn; simp at hy
  | n + 1, pre, post, hole, hn, ⟨y, hy, hyp⟩ => by
    have hne : pre ≠ [] := by rintro rfl; simp at hn
    obtain ⟨p, z, hz⟩ : ∃ p z, pre = p ++ [z] := ⟨pre.dropLast, pre.getLast hne, (List.dropLast_concat_getLast hne).symm⟩
    subst hz
    have hp : p.length = n := by simpa using hn
    have hget : ((p ++ [z]) ++ hole :: post)[n]? = some z := by
      rw [List.append_assoc, List.getElem?_append_right (by omega), hp]; simp
    have hset : ∀ v, ((p ++ [z]) ++ hole :: post).set (n + 1) v = (p ++ [z]) ++ v :: post := by
      intro v
      rw [List.set_append_right _ _ (by simp [hp])]
      simp [hp]
    unfold shift
    rw [hget]
    dsimp only
    by_cases h : less pivot z = true
    · rw [if_pos h, hset, List.append_assoc]
      have hhead : ∃ y, p.head? = some y ∧ less pivot y = false := by
        cases p with
        | nil =>
          simp only [List.nil_append, List.head?_cons, Option.some.injEq] at hy
          subst hy; rw [h] at hyp; cases hyp
        | cons q qs => exact ⟨y, by simpa using hy, hyp⟩
      obtain ⟨p1, p2, e1, e2, e3, e4, e5⟩ := shift_spec hw n p (z :: post) z hp hhead
      refine ⟨p1, p2 ++ [z], by rw [e1, List.append_assoc], e2, ?_, ?_, e5⟩
      · rw [List.singleton_append, e3]; simp
      · intro w hw'
        rcases List.mem_append.1 hw' with h1 | h1
        · exact e4 w h1
        · rw [List.mem_singleton] at h1; subst h1; exact h
    · rw [if_neg h, hset]
      refine ⟨p ++ [z], [], by simp, by simp, rfl, by simp, ?_⟩
      intro w hw'
      rw [List.getLast?_concat, Option.some.injEq] at hw'
      subst hw'; simpa using h

/-- Ordered by `less`. -/
abbrev Ordered (less : α → α → Bool) (a : List α) : Prop := a.Pairwise fun x y => less y x = false

theorem shift_ordered (hw : StrictWeak less) {pivot : α} {p1 p2 : List α} (ho : Ordered less (p1 ++ p2))
    (h2 : ∀ y ∈ p2, less pivot y = true) (h1 : ∀ y, p1.getLast? = some y → less pivot y = false) :
    Ordered less (p1 ++ pivot :: p2) := by
  obtain ⟨o1, o2, o3⟩ := List.pairwise_append.1 ho
  have h1' : ∀ y ∈ p1, less pivot y = false := by
    intro y hy
    have hne : p1 ≠ [] := List.ne_nil_of_mem hy
    have hl := h1 _ (List.getLast?_eq_getLast hne)
    have hd : p1.dropLast ++ [p1.getLast hne] = p1 := List.dropLast_concat_getLast hne
    rw [← hd] at hy o1
    rcases List.mem_append.1 hy with h | h
    · exact StrictWeak.nle hw hl ((List.pairwise_append.1 o1).2.2 y h _ (by simp))
    · rw [List.mem_singleton] at h; rw [h]; exact hl
  refine List.pairwise_append.2 ⟨o1, List.pairwise_cons.2 ⟨fun y hy => StrictWeak.asymm hw (h2 y hy), o2⟩, ?_⟩
  intro a ha b hb
  rcases List.mem_cons.1 hb with rfl | hb
  · exact h1' a ha
  · exact o3 a ha b hb

theorem insertAll_spec (hw : StrictWeak less) : ∀ (k i : Nat) (a : List α), i + k = a.length → 0 < i →
    Ordered less (a.take i) → (∃ x, a.head? = some x ∧ ∀ y ∈ a, less y x = false) →
    ∃ a', insertAll less (List.range' i k) a = some a' ∧ a'.Perm a ∧ Ordered less a'
  | 0, i, a, hk, _, ho, _ => by
    refine ⟨a, rfl, .refl _, ?_⟩
    rwa [List.take_of_length_le (by omega)] at ho
  | k + 1, i, a, hk, hi, ho, ⟨x, hx, hmin⟩ => by
    have hlt : i < a.length := by omega
    have hdec : a = a.take i ++ a[i] :: a.drop (i + 1) := by
      rw [← List.drop_eq_getElem_cons hlt, List.take_append_drop]
    have hpre : (a.take i).length = i := by rw [List.length_take]; omega
    obtain ⟨p1, p2, e1, e2, e3, e4, e5⟩ := shift_spec hw (pivot := a[i]) i (a.take i) (a.drop (i + 1)) a[i] hpre
      ⟨x, by rw [List.head?_take, if_neg (by omega)]; exact hx, hmin _ (List.getElem_mem hlt)⟩
    rw [← hdec] at e3
    have hord : Ordered less (p1 ++ a[i] :: p2) := shift_ordered hw (by rw [← e1]; exact ho) e4 e5
    have hperm : (p1 ++ a[i] :: (p2 ++ a.drop (i + 1))).Perm a := by
      refine List.Perm.trans ?_ (List.Perm.of_eq hdec.symm)
      rw [e1]
      have : (p1 ++ a[i] :: (p2 ++ a.drop (i + 1))).Perm (a[i] :: (p1 ++ (p2 ++ a.drop (i + 1)))) := List.perm_middle
      refine this.trans ?_
      rw [← List.append_assoc]
      exact List.perm_middle.symm
    have hl2 : (p1 ++ a[i] :: p2).length = i + 1 := by
      have := congrArg List.length e1
      rw [hpre, List.length_append] at this
      simp only [List.length_append, List.length_cons]; omega
    obtain ⟨a', g1, g2, g3⟩ := insertAll_spec hw k (i + 1) (p1 ++ a[i] :: (p2 ++ a.drop (i + 1)))
      (by rw [hperm.length_eq]; omega) (by omega)
      (by
        have : p1 ++ a[i] :: (p2 ++ a.drop (i + 1)) = (p1 ++ a[i] :: p2) ++ a.drop (i + 1) := by simp
        rw [this, List.take_left' hl2]; exact hord)
      ⟨x, by
        cases p1 with
        | nil => exact absurd rfl e2
        | cons q qs =>
          have h1 : (a.take i).head? = some x := by rw [List.head?_take, if_neg (by omega)]; exact hx
          rw [e1] at h1
          simpa using h1, fun y hy => hmin y (hperm.mem_iff.1 hy)⟩
    refine ⟨a', ?_, g2.trans hperm, g3⟩
    rw [List.range'_succ]
    unfold insertAll
    rw [List.getElem?_eq_getElem hlt]
    dsimp only
    rw [e3]; exact g1

theorem insertionSort_spec (hw : StrictWeak less) {a : List α} (h : a.length ≠ 0) :
    ∃ a', insertionSort less a = some a' ∧ a'.Perm a ∧ Ordered less a' := by
  unfold insertionSort
  obtain ⟨a1, e1, p1, l1⟩ := bubble_spec hw (i := a.length - 1) (a := a) (by omega) (by
    intro x hx k y hk hy
    have : k < a.length := (List.getElem?_eq_some_iff.1 hy).1
    have : k = a.length - 1 := by omega
    subst this
    rw [hx, Option.some.injEq] at hy; subst hy; exact hw.irrefl _)
  rw [e1]
  dsimp only
  have hlen := p1.length_eq
  have hmin : ∃ x, a1.head? = some x ∧ ∀ y ∈ a1, less y x = false := by
    cases a1 with
    | nil => simp at hlen; omega
    | cons x xs =>
      refine ⟨x, rfl, fun y hy => ?_⟩
      obtain ⟨k, hk⟩ := List.getElem?_of_mem hy
      exact l1 x rfl k y (Nat.zero_le _) hk
  by_cases h1 : a1.length = 1
  · rw [h1]
    refine ⟨a1, rfl, p1, ?_⟩
    match a1, h1 with
    | [x], _ => exact List.pairwise_singleton _ _
  · obtain ⟨a2, e2, p2, o2⟩ := insertAll_spec hw (a1.length - 1 + 1 - 2) 2 a1 (by omega) (by omega) (by
      obtain ⟨x, hx, hm⟩ := hmin
      match a1, hx, hm with
      | [z], _, _ => exact List.pairwise_singleton _ _
      | z :: w :: zs, hx, hm =>
        simp only [List.head?_cons, Option.some.injEq] at hx
        subst hx
        simpa [Ordered] using hm w (by simp)) hmin
    exact ⟨a2, e2, p2.trans p1, o2⟩

theorem sort_spec (hw : StrictWeak less) (a : List α) : ∃ a', sort less a = some a' ∧ SortedBy less a a' := by
  unfold sort
  by_cases h : a.length = 0
  · rw [if_pos h]
    rw [List.length_eq_zero_iff] at h; subst h
    exact ⟨[], rfl, .refl _, .nil⟩
  · rw [if_neg h]
    obtain ⟨a1, e1, p1⟩ := quickSort_spec hw a
    rw [e1]
    dsimp only
    obtain ⟨a2, e2, p2, o2⟩ := insertionSort_spec hw (a := a1) (by rw [p1.length_eq]; exact h)
    exact ⟨a2, e2, p2.trans p1, o2⟩

theorem sortStack_spec (hw : StrictWeak less) (a : List α) :
    ∃ a', sortStack less a = some a' ∧ SortedBy less a a' := by
  unfold sortStack
  by_cases h : a.length ≤ 1
  · rw [if_pos h]
    refine ⟨a, rfl, .refl _, ?_⟩
    match a, h with
    | [], _ => exact .nil
    | [x], _ => exact List.pairwise_singleton _ _
  · rw [if_neg h]; exact sort_spec hw a

end Verif.Proofs.Sort
