import Verif.Spec.Sorting
import Verif.Model.Containers.Radix

/-!
# Radix sort is a stable sort
-/

namespace Verif.Proofs.Radix

open Verif.Spec Verif.Model.Radix

variable {α : Type}

/-! ## Stable sorting by two keys -/

theorem stably_refl {rank : α → Nat} {l : List α} (h : l.Pairwise fun a b => rank a ≤ rank b) :
    StablySorted rank l l := ⟨.refl _, h, fun _ => rfl⟩

theorem pairwise_lex {d : α → Nat} {R : α → α → Prop} : ∀ {l : List α},
    l.Pairwise (fun a b => d a ≤ d b) → (∀ m, (l.filter (fun x => d x == m)).Pairwise R) →
    l.Pairwise (fun a b => d a < d b ∨ d a = d b ∧ R a b)
  | [], _, _ => .nil
  | x :: xs, h, hm => by
    rw [List.pairwise_cons] at h
    refine List.pairwise_cons.2 ⟨fun b hb => ?_, pairwise_lex h.2 fun m => ?_⟩
    · rcases Nat.lt_or_eq_of_le (h.1 b hb) with hlt | heq
      · exact .inl hlt
      · refine .inr ⟨heq, ?_⟩
        have := hm (d x)
        rw [List.filter_cons_of_pos (by simp), List.pairwise_cons] at this
        exact this.1 b (List.mem_filter.2 ⟨hb, by simp [heq]⟩)
    · have := hm m
      rw [List.filter_cons] at this
      split at this
      · exact (List.pairwise_cons.1 this).2
      · exact this

theorem StablySorted.combine {key d : α → Nat} {B : Nat} (hB : 0 < B) (hk : ∀ x, key x < B)
    {l c t : List α} (h1 : StablySorted key l c) (h2 : StablySorted d c t) :
    StablySorted (fun x => d x * B + key x) l t := by
  refine ⟨h2.perm.trans h1.perm, ?_, fun k => ?_⟩
  · refine (pairwise_lex (R := fun a b => key a ≤ key b) h2.ordered fun m => ?_).imp ?_
    · rw [h2.stable]; exact h1.ordered.filter _
    · rintro a b (hlt | ⟨he, hle⟩)
      · have := Nat.mul_le_mul_right B (Nat.succ_le_of_lt hlt)
        have := hk a
        rw [Nat.succ_mul] at *; omega
      · rw [he]; omega
  · have split : ∀ x, (d x * B + key x == k) = ((d x == k / B) && (key x == k % B)) := by
      intro x
      have hx := hk x
      rw [Bool.eq_iff_iff, Bool.and_eq_true, beq_iff_eq, beq_iff_eq, beq_iff_eq]
      constructor
      · intro e
        subst e
        refine ⟨?_, ?_⟩
        · rw [Nat.mul_comm, Nat.mul_add_div hB, Nat.div_eq_of_lt hx]; rfl
        · rw [Nat.mul_comm, Nat.mul_add_mod, Nat.mod_eq_of_lt hx]
      · rintro ⟨e1, e2⟩
        rw [e1, e2, Nat.mul_comm]; exact Nat.div_add_mod k B
    have e : ∀ l : List α, l.filter (fun x => d x * B + key x == k)
        = (l.filter (fun x => d x == k / B)).filter (fun x => key x == k % B) := by
      intro l; rw [List.filter_filter]; congr 1; funext x; rw [split, Bool.and_comm]
    have e' : ∀ l : List α, (l.filter (fun x => d x == k / B)).filter (fun x => key x == k % B)
        = (l.filter (fun x => key x == k % B)).filter (fun x => d x == k / B) := by
      intro l; rw [List.filter_filter, List.filter_filter]; congr 1; funext x; rw [Bool.and_comm]
    rw [e, e, h2.stable, e', e', h1.stable]

/-! ## The concatenation of the classes of a list -/

/-- Number of elements with key `m`. -/
def cnt (d : α → Nat) (l : List α) (m : Nat) : Nat := (l.filter fun x => d x == m).length

/-- Concatenation of the elements with key below `n`. -/
def cat (d : α → Nat) (l : List α) : Nat → List α
  | 0 => []
  | n + 1 => cat d l n ++ l.filter fun x => d x == n

theorem mem_cat {d : α → Nat} {l : List α} {x : α} : ∀ {n}, x ∈ cat d l n ↔ x ∈ l ∧ d x < n
  | 0 => by simp [cat]
  | n + 1 => by
    simp only [cat, List.mem_append, mem_cat, List.mem_filter, beq_iff_eq]
    constructor
    · rintro (⟨h1, h2⟩ | ⟨h1, h2⟩) <;> exact ⟨h1, by omega⟩
    · rintro ⟨h1, h2⟩
      rcases Nat.lt_or_eq_of_le (Nat.le_of_lt_succ h2) with h | h
      · exact .inl ⟨h1, h⟩
      · exact .inr ⟨h1, h⟩

theorem filter_lt_succ {d : α → Nat} (n : Nat) : ∀ l : List α,
    ((l.filter fun x => decide (d x < n)) ++ l.filter fun x => d x == n).Perm
      (l.filter fun x => decide (d x < n + 1))
  | [] => .refl _
  | x :: xs => by
    have ih := filter_lt_succ (d := d) n xs
    rcases Nat.lt_trichotomy (d x) n with h | h | h
    · have h1 : d x < n + 1 := by omega
      have h2 : d x ≠ n := by omega
      simp only [List.filter_cons, h, h1, h2, decide_true, beq_iff_eq, ite_true, ite_false, List.cons_append]
      exact ih.cons x
    · have h1 : ¬ d x < n := by omega
      simp only [List.filter_cons, h, h1, decide_true, beq_self_eq_true, decide_false, ite_true,
        Nat.lt_irrefl, Nat.lt_succ_self, Bool.false_eq_true, ite_false]
      exact List.perm_middle.trans (ih.cons x)
    · have h1 : ¬ d x < n + 1 := by omega
      have h2 : ¬ d x < n := by omega
      have h3 : d x ≠ n := by omega
      simp only [List.filter_cons, h1, h2, h3, decide_false, beq_iff_eq, Bool.false_eq_true, ite_false]
      exact ih

theorem cat_perm {d : α → Nat} {l : List α} : ∀ n, (cat d l n).Perm (l.filter fun x => decide (d x < n))
  | 0 => by simp [cat]
  | n + 1 => ((cat_perm n).append_right _).trans (filter_lt_succ n l)

theorem cat_pairwise {d : α → Nat} {l : List α} : ∀ n, (cat d l n).Pairwise fun a b => d a ≤ d b
  | 0 => .nil
  | n + 1 => by
    refine List.pairwise_append.2 ⟨cat_pairwise n, ?_, fun a ha b hb => ?_⟩
    · refine List.pairwise_of_forall_mem_list fun a ha b hb => ?_
      have h1 := (List.mem_filter.1 ha).2
      have h2 := (List.mem_filter.1 hb).2
      rw [beq_iff_eq] at h1 h2; omega
    · have h1 := (mem_cat.1 ha).2
      have h2 := (List.mem_filter.1 hb).2
      rw [beq_iff_eq] at h2; omega

theorem cat_filter {d : α → Nat} {l : List α} (k : Nat) : ∀ n,
    (cat d l n).filter (fun x => d x == k) = if k < n then l.filter (fun x => d x == k) else []
  | 0 => rfl
  | n + 1 => by
    rw [cat, List.filter_append, cat_filter k n, List.filter_filter]
    by_cases hk : k < n
    · rw [if_pos hk, if_pos (by omega)]
      have : (l.filter fun x => (d x == k) && (d x == n)) = [] := by
        refine List.filter_eq_nil_iff.2 fun x _ => ?_
        simp only [Bool.and_eq_true, beq_iff_eq, not_and]; omega
      rw [this, List.append_nil]
    · rw [if_neg hk, List.nil_append]
      by_cases hn : k = n
      · subst hn; simp
      · rw [if_neg (by omega)]
        refine List.filter_eq_nil_iff.2 fun x _ => ?_
        simp only [Bool.and_eq_true, beq_iff_eq, not_and]; omega

theorem cat_stable {d : α → Nat} {l : List α} {n : Nat} (h : ∀ x ∈ l, d x < n) :
    StablySorted d l (cat d l n) := by
  refine ⟨?_, cat_pairwise n, fun k => ?_⟩
  · have := cat_perm (d := d) (l := l) n
    rwa [List.filter_eq_self.2 (by simpa using h)] at this
  · rw [cat_filter]
    split
    · rfl
    · rename_i hk
      refine (List.filter_eq_nil_iff.2 fun x hx => ?_).symm
      have := h x hx
      simp only [beq_iff_eq]; omega

theorem cat_get {d : α → Nat} {l : List α} {m i : Nat} (hi : i < cnt d l m) : ∀ {n}, m < n →
    (cat d l n)[(cat d l m).length + i]? = (l.filter fun x => d x == m)[i]?
  | n + 1, hm => by
    by_cases h : m = n
    · subst h
      rw [cat, List.getElem?_append_right (by omega)]; congr 1; omega
    · have ih := cat_get hi (n := n) (by omega)
      have hlt : (cat d l m).length + i < (cat d l n).length := by
        rcases Nat.lt_or_ge ((cat d l m).length + i) (cat d l n).length with h' | h'
        · exact h'
        · rw [List.getElem?_eq_none h'] at ih
          have := List.getElem?_eq_none_iff.1 ih.symm
          unfold cnt at hi; omega
      rw [cat, List.getElem?_append_left hlt, ih]

theorem cat_pos {d : α → Nat} {l : List α} {p : Nat} : ∀ {n}, p < (cat d l n).length →
    ∃ m i, m < n ∧ i < cnt d l m ∧ p = (cat d l m).length + i
  | 0, h => by simp [cat] at h
  | n + 1, h => by
    by_cases hp : p < (cat d l n).length
    · obtain ⟨m, i, h1, h2, h3⟩ := cat_pos hp
      exact ⟨m, i, by omega, h2, h3⟩
    · rw [cat, List.length_append] at h
      exact ⟨n, p - (cat d l n).length, by omega, by unfold cnt; omega, by omega⟩

theorem cat_mono {d : α → Nat} {l : List α} {m : Nat} : ∀ {n}, m < n →
    (cat d l m).length + cnt d l m ≤ (cat d l n).length
  | n + 1, h => by
    have e : (cat d l (n + 1)).length = (cat d l n).length + cnt d l n := by simp [cat, cnt]
    by_cases hm : m = n
    · subst hm; omega
    · have := cat_mono (l := l) (d := d) (m := m) (n := n) (by omega)
      omega

/-! ## Placing -/

theorem cnt_cons {d : α → Nat} {x : α} {xs : List α} {m : Nat} :
    cnt d (x :: xs) m = if d x = m then cnt d xs m + 1 else cnt d xs m := by
  unfold cnt
  by_cases h : d x = m <;> simp [h]

theorem place_spec {rank : α → Nat} {i : Nat} : ∀ {l : List α} {c : Nat → Nat} {D : List α},
    (∀ m, cnt (digit rank i) l m ≠ 0 → c m + cnt (digit rank i) l m ≤ D.length) →
    (∀ m m' p, c m ≤ p → p < c m + cnt (digit rank i) l m → c m' ≤ p →
      p < c m' + cnt (digit rank i) l m' → m = m') →
    ∃ c' D', place rank i l c D = some (c', D') ∧ D'.length = D.length ∧
      (∀ m j, j < cnt (digit rank i) l m → D'[c m + j]? = (l.filter fun x => digit rank i x == m)[j]?) ∧
      (∀ p, (∀ m, ¬ (c m ≤ p ∧ p < c m + cnt (digit rank i) l m)) → D'[p]? = D[p]?) ∧
      (∀ m, (∀ x ∈ l, digit rank i x ≠ m) → c' m = c m)
  | [], c, D, _, _ => ⟨c, D, rfl, rfl, fun m j h => by simp [cnt] at h, fun _ _ => rfl, fun _ _ => rfl⟩
  | x :: xs, c, D, hb, hd => by
    have hm : cnt (digit rank i) (x :: xs) (digit rank i x) = cnt (digit rank i) xs (digit rank i x) + 1 := by
      rw [cnt_cons, if_pos rfl]
    have ho : ∀ m, m ≠ digit rank i x → cnt (digit rank i) (x :: xs) m = cnt (digit rank i) xs m := by
      intro m h; rw [cnt_cons, if_neg (Ne.symm h)]
    generalize hM : digit rank i x = M at *
    have hlt : c M < D.length := by have := hb M; omega
    let c1 : Nat → Nat := fun j => if j = M then c M + 1 else c j
    have c1M : c1 M = c M + 1 := if_pos rfl
    have c1o : ∀ m, m ≠ M → c1 m = c m := fun m h => if_neg h
    have sub : ∀ m p, c1 m ≤ p → p < c1 m + cnt (digit rank i) xs m →
        c m ≤ p ∧ p < c m + cnt (digit rank i) (x :: xs) m ∧ p ≠ c M := by
      intro m p h1 h2
      by_cases e : m = M
      · subst e; rw [c1M] at h1 h2; rw [hm]; omega
      · rw [c1o m e] at h1 h2
        have h3 : p < c m + cnt (digit rank i) (x :: xs) m := by rw [ho m e]; exact h2
        refine ⟨h1, h3, fun hp => e (hd m M p h1 h3 (by omega) (by rw [hm]; omega))⟩
    obtain ⟨c', D', e1, e2, e3, e4, e5⟩ := place_spec (l := xs) (c := c1) (D := D.set (c M) x)
      (by
        intro m hn
        rw [List.length_set]
        by_cases e : m = M
        · subst e; rw [c1M]; have := hb m; omega
        · rw [c1o m e, ← ho m e]; exact hb m (by rw [ho m e]; exact hn))
      (fun m m' p h1 h2 h3 h4 =>
        hd m m' p (sub m p h1 h2).1 (sub m p h1 h2).2.1 (sub m' p h3 h4).1 (sub m' p h3 h4).2.1)
    refine ⟨c', D', ?_, by rw [e2, List.length_set], ?_, ?_, ?_⟩
    · unfold place
      simp only [hM]
      rw [if_pos hlt]; exact e1
    · intro m j hj
      by_cases e : m = M
      · subst e
        rw [List.filter_cons_of_pos (by simp [hM])]
        cases j with
        | zero =>
          rw [List.getElem?_cons_zero, Nat.add_zero, e4 (c m) (fun m' h => (sub m' _ h.1 h.2).2.2 rfl),
            List.getElem?_set_self hlt]
        | succ j =>
          rw [List.getElem?_cons_succ, ← e3 m j (by omega), c1M]; congr 1; omega
      · rw [List.filter_cons_of_neg (by simp [hM, Ne.symm e]), ← e3 m j (by rw [← ho m e]; exact hj), c1o m e]
    · intro p hp
      have hne : c M ≠ p := fun h => hp M ⟨by omega, by rw [hm]; omega⟩
      rw [e4 p (fun m h => hp m ⟨(sub m p h.1 h.2).1, (sub m p h.1 h.2).2.1⟩), List.getElem?_set_ne hne]
    · intro m hno
      have : m ≠ M := fun h => hno x (by simp) (by rw [hM, h])
      rw [e5 m (fun y hy => hno y (by simp [hy])), c1o m this]

/-- Placing at the accumulated positions gives the stable order. -/
theorem place_cat {rank : α → Nat} {i n : Nat} {l D : List α} {c : Nat → Nat} (hl : D.length = l.length)
    (hn : ∀ x ∈ l, digit rank i x < n)
    (hc : ∀ m, cnt (digit rank i) l m ≠ 0 → c m = (cat (digit rank i) l m).length) :
    ∃ c', place rank i l c D = some (c', cat (digit rank i) l n) ∧
      ∀ m, (∀ x ∈ l, digit rank i x ≠ m) → c' m = c m := by
  have hlen : (cat (digit rank i) l n).length = l.length := (cat_stable hn).perm.length_eq
  have hbound : ∀ m, cnt (digit rank i) l m ≠ 0 → m < n := by
    intro m hm
    obtain ⟨x, hx⟩ := List.exists_mem_of_length_pos (Nat.pos_of_ne_zero hm)
    have h1 := List.mem_filter.1 hx
    have := hn x h1.1
    have h2 := h1.2
    rw [beq_iff_eq] at h2; omega
  obtain ⟨c', D', e1, e2, e3, -, e5⟩ := place_spec (rank := rank) (i := i) (l := l) (c := c) (D := D)
    (by
      intro m hm
      rw [hc m hm, hl, ← hlen]
      exact cat_mono (hbound m hm))
    (by
      intro m m' p h1 h2 h3 h4
      have q1 := hc m (by omega)
      have q2 := hc m' (by omega)
      rw [q1] at h1 h2
      rw [q2] at h3 h4
      rcases Nat.lt_trichotomy m m' with h | h | h
      · have := cat_mono (d := digit rank i) (l := l) h; omega
      · exact h
      · have := cat_mono (d := digit rank i) (l := l) h; omega)
  refine ⟨c', ?_, e5⟩
  have : D' = cat (digit rank i) l n := by
    refine List.ext_getElem? fun p => ?_
    rcases Nat.lt_or_ge p l.length with hp | hp
    · obtain ⟨m, j, h1, h2, h3⟩ := cat_pos (d := digit rank i) (l := l) (n := n) (p := p) (by omega)
      have h4 := e3 m j h2
      rw [hc m (by omega), ← h3] at h4
      rw [h4, h3, cat_get h2 h1]
    · rw [List.getElem?_eq_none (by omega), List.getElem?_eq_none (by omega)]
  rw [e1, this]

/-! ## Counting and positions -/

theorem sums_spec {f : Nat → Nat} (B : Nat → Nat) (hB : ∀ j, B (j + 1) = B j + f j) : ∀ (n lo : Nat) (c : Nat → Nat),
    (∀ j, lo ≤ j → j < lo + n → c j = f j) →
    ∀ j, ((List.range' lo n).foldl sumStep (B lo, c)).2 j
      = if lo ≤ j ∧ j < lo + n then B j else c j
  | 0, lo, c, _, j => by rw [if_neg (by omega)]; rfl
  | n + 1, lo, c, h, j => by
    rw [List.range'_succ, List.foldl_cons]
    have e : sumStep (B lo, c) lo = (B (lo + 1), fun k => if k = lo then B lo else c k) := by
      unfold sumStep
      simp only [hB, h lo (Nat.le_refl _) (by omega)]
    rw [e, sums_spec B hB n (lo + 1) _ (fun j h1 h2 => by rw [if_neg (by omega)]; exact h j (by omega) (by omega))]
    by_cases hj : j = lo
    · subst hj; rw [if_neg (by omega), if_pos rfl, if_pos (by omega)]
    · by_cases h2 : lo ≤ j ∧ j < lo + (n + 1)
      · rw [if_pos (by omega), if_pos h2]
      · rw [if_neg (by omega), if_neg hj, if_neg h2]

/-- What the counting loop computes. -/
structure Scanned (rank : α → Nat) (i : Nat) (bounded : Bool) (t : Scan) (l : List α) (t' : Scan) : Prop where
  count : ∀ m, t'.count m = t.count m + cnt (digit rank i) l m
  bounds : bounded = true → t'.lower = t.lower ∧ t'.upper = t.upper
  keepLower : ∀ b, t'.lower.testBit b = true → t.lower.testBit b = true
  keepUpper : ∀ b, t.upper.testBit b = true → t'.upper.testBit b = true
  lower : bounded = false → ∀ x ∈ l, ∀ b, t'.lower.testBit b = true → (rank x).testBit b = true
  upper : bounded = false → ∀ x ∈ l, ∀ b, (rank x).testBit b = true → t'.upper.testBit b = true
  sorted : t'.sorted = true → t.sorted = true ∧ (∀ x ∈ l, t.last ≤ digit rank i x) ∧
    l.Pairwise fun a b => digit rank i a ≤ digit rank i b

theorem scan_spec {rank : α → Nat} {i : Nat} {bounded : Bool} : ∀ (l : List α) (t : Scan),
    Scanned rank i bounded t l (Scan.run rank i bounded t l)
  | [], t => ⟨fun _ => rfl, fun _ => ⟨rfl, rfl⟩, fun _ h => h, fun _ h => h, fun _ x hx => by simp at hx,
      fun _ x hx => by simp at hx, fun h => ⟨h, by simp, .nil⟩⟩
  | x :: xs, t => by
    have ih := scan_spec (rank := rank) (i := i) (bounded := bounded) xs (Scan.step rank i bounded t x)
    have hrun : Scan.run rank i bounded t (x :: xs) = Scan.run rank i bounded (Scan.step rank i bounded t x) xs := rfl
    rw [hrun]
    generalize Scan.run rank i bounded (Scan.step rank i bounded t x) xs = t' at ih ⊢
    have e1 : ∀ m, (Scan.step rank i bounded t x).count m
        = if m = digit rank i x then t.count m + 1 else t.count m := by
      intro m
      unfold Scan.step
      cases bounded <;> simp only [Bool.false_eq_true, if_true, if_false] <;> congr 1 <;> split <;> rfl
    have e2 : bounded = true → (Scan.step rank i bounded t x).lower = t.lower ∧
        (Scan.step rank i bounded t x).upper = t.upper := by
      intro hb; subst hb
      unfold Scan.step
      simp only [if_true]
      split <;> exact ⟨rfl, rfl⟩
    have e3 : bounded = false → (Scan.step rank i bounded t x).lower = t.lower &&& rank x ∧
        (Scan.step rank i bounded t x).upper = t.upper ||| rank x := by
      intro hb; subst hb
      unfold Scan.step
      simp only [Bool.false_eq_true, if_false]
      split <;> exact ⟨rfl, rfl⟩
    have e4 : (Scan.step rank i bounded t x).sorted = true →
        t.sorted = true ∧ t.last ≤ digit rank i x ∧ (Scan.step rank i bounded t x).last = digit rank i x := by
      unfold Scan.step
      cases bounded <;> simp only [Bool.false_eq_true, if_true, if_false]
      all_goals
        by_cases h : (t.sorted && decide (t.last > digit rank i x)) = true
        · rw [if_pos h]; intro h'; simp at h'
        · rw [if_neg h]; intro h'
          simp only at h'
          refine ⟨h', ?_, rfl⟩
          rw [h'] at h
          simp only [Bool.true_and, decide_eq_true_eq] at h; omega
    have kl : ∀ b, (Scan.step rank i bounded t x).lower.testBit b = true → t.lower.testBit b = true := by
      intro b hb
      cases hbd : bounded with
      | true => rwa [(e2 hbd).1] at hb
      | false => rw [(e3 hbd).1, Nat.testBit_and, Bool.and_eq_true] at hb; exact hb.1
    have ku : ∀ b, t.upper.testBit b = true → (Scan.step rank i bounded t x).upper.testBit b = true := by
      intro b hb
      rcases Bool.eq_false_or_eq_true bounded with hbd | hbd
      · rwa [(e2 hbd).2]
      · rw [(e3 hbd).2, Nat.testBit_or, hb, Bool.true_or]
    refine ⟨fun m => ?_, fun hb => ?_, fun b hb => kl b (ih.keepLower b hb), fun b hb => ih.keepUpper b (ku b hb),
      fun hb y hy b h => ?_, fun hb y hy b h => ?_, fun h => ?_⟩
    · rw [ih.count, e1, cnt_cons]
      by_cases h : m = digit rank i x
      · rw [if_pos h, if_pos h.symm]; omega
      · rw [if_neg h, if_neg (Ne.symm h)]
    · rw [(ih.bounds hb).1, (ih.bounds hb).2]; exact e2 hb
    · rcases List.mem_cons.1 hy with rfl | hy
      · have := ih.keepLower b h
        rw [(e3 hb).1, Nat.testBit_and, Bool.and_eq_true] at this; exact this.2
      · exact ih.lower hb y hy b h
    · rcases List.mem_cons.1 hy with rfl | hy
      · refine ih.keepUpper b ?_
        rw [(e3 hb).2, Nat.testBit_or, h, Bool.or_true]
      · exact ih.upper hb y hy b h
    · obtain ⟨h1, h2, h3⟩ := ih.sorted h
      obtain ⟨h4, h5, h6⟩ := e4 h1
      rw [h6] at h2
      refine ⟨h4, fun y hy => ?_, List.pairwise_cons.2 ⟨h2, h3⟩⟩
      rcases List.mem_cons.1 hy with rfl | hy
      · exact h5
      · exact Nat.le_trans h5 (h2 y hy)

/-! ## One pass -/

theorem le_of_testBit {a b : Nat} (h : ∀ i, a.testBit i = true → b.testBit i = true) : a ≤ b := by
  have : a &&& b = a := by
    refine Nat.eq_of_testBit_eq fun i => ?_
    rw [Nat.testBit_and]
    cases ha : a.testBit i with
    | false => rfl
    | true => rw [h i ha]; rfl
  rw [← this]; exact Nat.and_le_right

theorem testBit_digit (r i b : Nat) : ((r >>> i) &&& 255).testBit b = (decide (b < 8) && r.testBit (i + b)) := by
  have : (255 : Nat) = 2 ^ 8 - 1 := rfl
  rw [this, Nat.testBit_and, Nat.testBit_shiftRight, Nat.testBit_two_pow_sub_one, Bool.and_comm]

theorem digit_lt (rank : α → Nat) (i : Nat) (x : α) : digit rank i x < 256 :=
  Nat.lt_succ_of_le Nat.and_le_right

theorem digit_eq (rank : α → Nat) (i : Nat) (x : α) : digit rank i x = rank x / 2 ^ i % 256 := by
  unfold digit
  have : (255 : Nat) = 2 ^ 8 - 1 := rfl
  rw [this, Nat.and_two_pow_sub_one_eq_mod, Nat.shiftRight_eq_div_pow]

/-- All ranks have the bits of `lower` and no bits outside `upper`. -/
structure Bounds (rank : α → Nat) (l : List α) (lower upper : Nat) : Prop where
  lower : ∀ x ∈ l, ∀ b, lower.testBit b = true → (rank x).testBit b = true
  upper : ∀ x ∈ l, ∀ b, (rank x).testBit b = true → upper.testBit b = true

theorem Bounds.digit_le {rank : α → Nat} {l : List α} {lo up : Nat} (h : Bounds rank l lo up) (i : Nat) {x : α}
    (hx : x ∈ l) : (lo >>> i) &&& 255 ≤ digit rank i x ∧ digit rank i x ≤ (up >>> i) &&& 255 := by
  constructor
  · refine le_of_testBit fun b hb => ?_
    unfold digit
    rw [testBit_digit, Bool.and_eq_true] at hb ⊢
    exact ⟨hb.1, h.lower x hx _ hb.2⟩
  · refine le_of_testBit fun b hb => ?_
    unfold digit at hb
    rw [testBit_digit, Bool.and_eq_true] at hb ⊢
    exact ⟨hb.1, h.upper x hx _ hb.2⟩

theorem testBit_shift (i b : Nat) (hb : b < 8) : (255 <<< i).testBit (i + b) = true := by
  have : (255 : Nat) = 2 ^ 8 - 1 := rfl
  rw [Nat.testBit_shiftLeft, this, Nat.testBit_two_pow_sub_one]
  simp [hb]

theorem mask_eq {i lo up : Nat} (h : lo &&& (255 <<< i) = up &&& (255 <<< i)) :
    (lo >>> i) &&& 255 = (up >>> i) &&& 255 := by
  refine Nat.eq_of_testBit_eq fun b => ?_
  rw [testBit_digit, testBit_digit]
  by_cases hb : b < 8
  · have := congrArg (fun n => n.testBit (i + b)) h
    simp only [Nat.testBit_and, testBit_shift i b hb, Bool.and_true] at this
    rw [this]
  · simp [hb]

theorem Bounds.constant {rank : α → Nat} {l : List α} {lo up i : Nat} (h : Bounds rank l lo up)
    (he : lo &&& (255 <<< i) = up &&& (255 <<< i)) : l.Pairwise fun a b => digit rank i a ≤ digit rank i b := by
  have hm := mask_eq he
  refine List.pairwise_of_forall_mem_list fun a ha b hb => ?_
  have h1 := h.digit_le i ha
  have h2 := h.digit_le i hb
  omega

theorem Bounds.perm {rank : α → Nat} {l l' : List α} {lo up : Nat} (h : Bounds rank l lo up) (hp : l'.Perm l) :
    Bounds rank l' lo up :=
  ⟨fun x hx => h.lower x (hp.mem_iff.1 hx), fun x hx => h.upper x (hp.mem_iff.1 hx)⟩

/-- The invariant of the loop over the bytes. -/
structure RInv (rank : α → Nat) (n : Nat) (r : Radix α) : Prop where
  lenA : r.a.length = n
  lenB : r.b.length = n
  bounds : r.bounded = true → Bounds rank r.cur r.lower r.upper
  zero : ∀ j, j ≤ 255 → ¬ (r.mlower ≤ j ∧ j ≤ r.mupper) → r.count j = 0

theorem RInv.cur_length {rank : α → Nat} {n : Nat} {r : Radix α} (h : RInv rank n r) : r.cur.length = n := by
  unfold Radix.cur; split
  · exact h.lenB
  · exact h.lenA

theorem RInv.pass {rank : α → Nat} {n : Nat} {r : Radix α} (h : RInv rank n r) (i : Nat) :
    ∃ r', r.pass rank i = some r' ∧ RInv rank n r' ∧ StablySorted (digit rank i) r.cur r'.cur := by
  unfold Radix.pass
  by_cases h1 : (r.bounded && (r.lower &&& 255 <<< i == r.upper &&& 255 <<< i)) = true
  · rw [if_pos h1]
    rw [Bool.and_eq_true, beq_iff_eq] at h1
    exact ⟨r, rfl, h, stably_refl ((h.bounds h1.1).constant h1.2)⟩
  rw [if_neg h1]
  have hs := scan_spec (rank := rank) (i := i) (bounded := r.bounded) r.cur
    ⟨r.lower, r.upper, true, 0, clear r.count r.mlower r.mupper⟩
  generalize Scan.run rank i r.bounded ⟨r.lower, r.upper, true, 0, clear r.count r.mlower r.mupper⟩ r.cur = t at hs ⊢
  have hbd : Bounds rank r.cur t.lower t.upper := by
    cases hb : r.bounded with
    | true =>
      have := hs.bounds hb
      rw [this.1, this.2]; exact h.bounds hb
    | false => exact ⟨hs.lower hb, hs.upper hb⟩
  have hcount : ∀ m, m ≤ 255 → t.count m = cnt (digit rank i) r.cur m := by
    intro m hm
    rw [hs.count]
    have : (clear r.count r.mlower r.mupper) m = 0 := by
      unfold clear
      split
      · rfl
      · rename_i hn; exact h.zero m hm hn
    simp only [this, Nat.zero_add]
  have hin : ∀ m, cnt (digit rank i) r.cur m ≠ 0 →
      (t.lower >>> i) &&& 255 ≤ m ∧ m ≤ (t.upper >>> i) &&& 255 := by
    intro m hm
    obtain ⟨x, hx⟩ := List.exists_mem_of_length_pos (Nat.pos_of_ne_zero hm)
    obtain ⟨h3, h4⟩ := List.mem_filter.1 hx
    rw [beq_iff_eq] at h4
    rw [← h4]; exact hbd.digit_le i h3
  have hzero : ∀ j, j ≤ 255 → ¬ ((t.lower >>> i) &&& 255 ≤ j ∧ j ≤ (t.upper >>> i) &&& 255) → t.count j = 0 := by
    intro j hj hn
    rw [hcount j hj]
    exact Decidable.byContradiction fun hc => hn (hin j hc)
  have hup : (t.upper >>> i) &&& 255 ≤ 255 := Nat.and_le_right
  dsimp only
  by_cases h2 : (!r.bounded && (t.lower &&& 255 <<< i == t.upper &&& 255 <<< i)) = true
  · rw [if_pos h2]
    rw [Bool.and_eq_true, beq_iff_eq] at h2
    exact ⟨_, rfl, ⟨h.lenA, h.lenB, fun _ => hbd, hzero⟩, stably_refl (hbd.constant h2.2)⟩
  rw [if_neg h2]
  by_cases h3 : t.sorted = true
  · rw [if_pos h3]
    exact ⟨_, rfl, ⟨h.lenA, h.lenB, fun _ => hbd, hzero⟩, stably_refl (hs.sorted h3).2.2⟩
  rw [if_neg h3]
  have hsum : ∀ j, sums t.count ((t.lower >>> i) &&& 255) ((t.upper >>> i) &&& 255) j
      = if (t.lower >>> i) &&& 255 ≤ j ∧ j ≤ (t.upper >>> i) &&& 255 then (cat (digit rank i) r.cur j).length
        else t.count j := by
    intro j
    have hz : (cat (digit rank i) r.cur ((t.lower >>> i) &&& 255)).length = 0 := by
      rw [List.length_eq_zero_iff, List.eq_nil_iff_forall_not_mem]
      intro x hx
      have h4 := mem_cat.1 hx
      have := (hbd.digit_le i h4.1).1
      omega
    have := sums_spec (f := cnt (digit rank i) r.cur) (fun j => (cat (digit rank i) r.cur j).length)
      (fun j => by simp [cat, cnt]) ((t.upper >>> i &&& 255) + 1 - (t.lower >>> i &&& 255)) (t.lower >>> i &&& 255)
      t.count (fun j _ h5 => hcount j (by omega)) j
    simp only [hz] at this
    unfold sums
    rw [this]
    by_cases h6 : (t.lower >>> i &&& 255) ≤ j ∧ j ≤ (t.upper >>> i &&& 255)
    · rw [if_pos h6, if_pos (by omega)]
    · rw [if_neg h6, if_neg (by omega)]
  obtain ⟨c', hp, hc'⟩ := place_cat (rank := rank) (i := i) (n := 256) (l := r.cur)
    (D := if r.inB then r.a else r.b)
    (c := sums t.count ((t.lower >>> i) &&& 255) ((t.upper >>> i) &&& 255))
    (by rw [h.cur_length]; split
        · exact h.lenA
        · exact h.lenB)
    (fun x _ => digit_lt rank i x)
    (fun m hm => by rw [hsum, if_pos (hin m hm)])
  rw [hp]
  have hst := cat_stable (d := digit rank i) (l := r.cur) (n := 256) (fun x _ => digit_lt rank i x)
  have hzero' : ∀ j, j ≤ 255 → ¬ ((t.lower >>> i) &&& 255 ≤ j ∧ j ≤ (t.upper >>> i) &&& 255) → c' j = 0 := by
    intro j hj hn
    rw [hc' j (fun x hx he => hn (he ▸ hbd.digit_le i hx)), hsum, if_neg hn]
    exact hzero j hj hn
  have hlen : (cat (digit rank i) r.cur 256).length = n := by rw [hst.perm.length_eq, h.cur_length]
  dsimp only
  cases hB : r.inB with
  | true =>
    refine ⟨_, if_pos rfl, ⟨hlen, h.lenB, fun _ => ?_, hzero'⟩, hst⟩
    exact hbd.perm hst.perm
  | false =>
    refine ⟨_, if_neg (by simp), ⟨h.lenA, hlen, fun _ => ?_, hzero'⟩, hst⟩
    exact hbd.perm hst.perm

theorem passes_spec {rank : α → Nat} {n : Nat} {l : List α} : ∀ (k s : Nat) {r : Radix α}, RInv rank n r →
    StablySorted (fun x => rank x % 2 ^ (8 * s)) l r.cur →
    ∃ r', Radix.passes rank (List.range' s k) r = some r' ∧
      StablySorted (fun x => rank x % 2 ^ (8 * (s + k))) l r'.cur
  | 0, _, r, _, h => ⟨r, rfl, h⟩
  | k + 1, s, r, hr, h => by
    obtain ⟨r1, e1, i1, s1⟩ := hr.pass (8 * s)
    have hc := StablySorted.combine (Nat.two_pow_pos (8 * s)) (fun x => Nat.mod_lt _ (Nat.two_pow_pos _)) h s1
    have hkey : (fun x => digit rank (8 * s) x * 2 ^ (8 * s) + rank x % 2 ^ (8 * s))
        = fun x => rank x % 2 ^ (8 * (s + 1)) := by
      funext x
      have e2 : 2 ^ (8 * (s + 1)) = 2 ^ (8 * s) * 256 := by rw [Nat.mul_succ, Nat.pow_add]
      rw [digit_eq, e2, Nat.mod_mul, Nat.mul_comm, Nat.add_comm]
    rw [hkey] at hc
    obtain ⟨r2, e2, s2⟩ := passes_spec k (s + 1) i1 hc
    refine ⟨r2, ?_, ?_⟩
    · rw [List.range'_succ]
      unfold Radix.passes
      rw [e1]; exact e2
    · rw [show s + (k + 1) = s + 1 + k by omega]; exact s2

theorem radixSort_spec {rank : α → Nat} {bytes : Nat} {tmp l : List α} {junk : Nat → Nat}
    (hr : ∀ x ∈ l, rank x < 2 ^ (8 * bytes)) (ht : tmp.length = l.length) :
    ∃ l', radixSort rank bytes tmp junk l = some l' ∧ StablySorted rank l l' := by
  unfold radixSort
  by_cases h : l.length ≤ 1
  · rw [if_pos h]
    refine ⟨l, rfl, stably_refl ?_⟩
    match l, h with
    | [], _ => exact .nil
    | [x], _ => exact List.pairwise_singleton _ _
  rw [if_neg h, List.range_eq_range']
  obtain ⟨r, e, s⟩ := passes_spec (rank := rank) (n := l.length) (l := l) bytes 0
    (r := ⟨l, tmp, false, 2 ^ (8 * bytes) - 1, 0, false, 0, 255, junk⟩)
    ⟨rfl, ht, fun h => by simp at h, fun j hj hn => absurd ⟨Nat.zero_le j, hj⟩ hn⟩
    (stably_refl (List.pairwise_of_forall_mem_list fun a _ b _ => by simp [Nat.mod_one]))
  rw [e]
  refine ⟨r.cur, rfl, s.perm, ?_, fun k => ?_⟩
  · refine s.ordered.imp_of_mem fun {a b} ha hb hab => ?_
    have h1 := hr a (s.perm.mem_iff.1 ha)
    have h2 := hr b (s.perm.mem_iff.1 hb)
    rwa [Nat.zero_add, Nat.mod_eq_of_lt h1, Nat.mod_eq_of_lt h2] at hab
  · have e : ∀ l' : List α, (∀ x ∈ l', x ∈ l) →
        l'.filter (fun x => rank x == k) = l'.filter (fun x => rank x % 2 ^ (8 * (0 + bytes)) == k) := by
      intro l' hl'
      refine List.filter_congr fun x hx => ?_
      rw [Nat.zero_add, Nat.mod_eq_of_lt (hr x (hl' x hx))]
    rw [e _ (fun x hx => s.perm.mem_iff.1 hx), e _ (fun x hx => hx)]
    exact s.stable k

end Verif.Proofs.Radix
