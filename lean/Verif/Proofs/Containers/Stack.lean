import Verif.Model.Containers.Stack
import Verif.Props.Bits

/-!
# Stacks and queues refine sequences
-/

namespace Verif.Proofs.Containers

set_option linter.unusedSectionVars false

open Verif.Spec Verif.Model.Containers Verif.Model.Bits

variable {α : Type} [DecidableEq α]

theorem realloc_length {fill : Nat → α} {mem : List α} {n : Nat} : (realloc fill mem n).length = n := by
  unfold realloc
  simp only [List.length_append, List.length_take, List.length_map, List.length_range']
  omega

theorem realloc_take {fill : Nat → α} {mem : List α} {n k : Nat} (h1 : k ≤ n) (h2 : k ≤ mem.length) :
    (realloc fill mem n).take k = mem.take k := by
  unfold realloc
  rw [List.take_append_of_le_length (by rw [List.length_take]; omega), List.take_take]
  congr 1; omega

theorem alignBytes_mul : ∀ n b, ∃ k, alignBytes n b = b * 2 ^ k
  | 0, b => ⟨0, by simp [alignBytes]⟩
  | n + 1, b => by
    unfold alignBytes
    split
    · exact ⟨0, by simp⟩
    · obtain ⟨k, h⟩ := alignBytes_mul n (2 * b)
      exact ⟨k + 1, by rw [h, Nat.pow_succ]; ac_rfl⟩

/-- The stack represents the sequence. -/
structure Repr (s : Stack α) (l : List α) : Prop where
  size : s.size ≤ s.mem.length
  elements : s.mem.take s.size = l

theorem Repr.length {s : Stack α} {l : List α} (h : Repr s l) : l.length = s.size := by
  rw [← h.elements, List.length_take]; have := h.size; omega

theorem Repr.get {s : Stack α} {l : List α} (h : Repr s l) {i : Nat} (hi : i < s.size) : s.mem[i]? = l[i]? := by
  rw [← h.elements, List.getElem?_take_of_lt hi]

theorem Repr.realloc {s : Stack α} {l : List α} (h : Repr s l) {fill : Nat → α} {n : Nat} (hn : s.size ≤ n) :
    Repr (⟨realloc fill s.mem n, s.size⟩ : Stack α) l :=
  ⟨by rw [realloc_length]; exact hn, by rw [realloc_take hn h.size]; exact h.elements⟩

theorem Repr.enlarge {s : Stack α} {l : List α} (h : Repr s l) (hfull : s.size = s.mem.length) {fill : Nat → α}
    {bytes : Nat} (hb : 0 < bytes) : Repr (s.enlarge fill bytes) l ∧
      (s.enlarge fill bytes).size < (s.enlarge fill bytes).mem.length := by
  unfold Stack.enlarge
  have hn : s.size < (if s.mem.length * bytes ≠ 0 then 2 * (s.mem.length * bytes) else alignBytes 3 bytes) / bytes := by
    by_cases h0 : s.mem.length = 0
    · rw [h0, if_neg (by simp)]
      obtain ⟨k, hk⟩ := alignBytes_mul 3 bytes
      rw [hk, Nat.mul_div_cancel_left _ hb, hfull, h0]
      exact Nat.two_pow_pos k
    · rw [if_pos (Nat.mul_ne_zero h0 (by omega)), ← Nat.mul_assoc, Nat.mul_div_cancel _ hb]; omega
  refine ⟨h.realloc (Nat.le_of_lt hn), ?_⟩
  dsimp only
  rw [realloc_length]; exact hn

theorem Repr.shrink {s : Stack α} {l : List α} (h : Repr s l) {fill : Nat → α} {bytes : Nat} (hb : 0 < bytes)
    (hs : s.size < 2 ^ 64) : Repr (s.shrink fill bytes) l := by
  unfold Stack.shrink
  split
  · exact h
  · unfold Stack.shrinkMem
    dsimp only
    by_cases hc : alignBytes 3 ((if s.size ≠ 0 then 1 <<< log2Ceiling s.size else 0) * bytes) = s.mem.length * bytes
    · rw [if_pos hc]; exact h
    · rw [if_neg hc]
      refine h.realloc ?_
      obtain ⟨k, hk⟩ := alignBytes_mul 3 ((if s.size ≠ 0 then 1 <<< log2Ceiling s.size else 0) * bytes)
      rw [hk, Nat.mul_right_comm, Nat.mul_div_cancel _ hb]
      by_cases h0 : s.size = 0
      · omega
      · rw [if_pos h0, Nat.one_shiftLeft]
        have h1 := (Verif.Props.C33_log2_ceiling s.size h0 hs (log2Ceiling s.size)).2 (Nat.le_refl _)
        exact Nat.le_trans h1 (Nat.le_mul_of_pos_right _ (Nat.two_pow_pos k))

theorem Repr.push {s : Stack α} {l : List α} (h : Repr s l) {fill : Nat → α} {bytes : Nat} (hb : 0 < bytes) (e : α) :
    ∃ s', s.push fill bytes e = some s' ∧ Repr s' (l ++ [e]) := by
  unfold Stack.push
  have key : ∀ t : Stack α, Repr t l → t.size < t.mem.length →
      ∃ s', (if t.size < t.mem.length then some (⟨t.mem.set t.size e, t.size + 1⟩ : Stack α) else none) = some s' ∧
        Repr s' (l ++ [e]) := by
    intro t ht hlt
    refine ⟨_, if_pos hlt, ⟨by rw [List.length_set]; exact hlt, ?_⟩⟩
    dsimp only
    rw [List.take_add_one, List.getElem?_set_self hlt, List.take_set_of_le (Nat.le_refl _), ht.elements]; rfl
  dsimp only
  by_cases hf : s.size = s.mem.length
  · rw [if_pos hf]
    obtain ⟨h1, h2⟩ := h.enlarge hf (fill := fill) hb
    exact key _ h1 h2
  · rw [if_neg hf]
    exact key _ h (by have := h.size; omega)

theorem getLast?_of_repr {s : Stack α} {l : List α} (h : Repr s l) (h0 : s.size ≠ 0) :
    s.mem[s.size - 1]? = l.getLast? := by
  rw [h.get (by omega), List.getLast?_eq_getElem?, h.length]

theorem findElement_spec {mem : List α} {e : α} : ∀ {n p : Nat}, e ∈ (mem.drop p).take n →
    ∃ i, Stack.findElement mem e n p = some (p + i) ∧ i < n ∧ p + i < mem.length ∧
      ((mem.drop p).take n).erase e = (mem.drop p).take i ++ (mem.drop (p + i + 1)).take (n - (i + 1))
  | 0, p, h => by simp at h
  | n + 1, p, h => by
    have hp : p < mem.length := by
      rcases Nat.lt_or_ge p mem.length with hp | hp
      · exact hp
      · rw [List.drop_eq_nil_of_le hp] at h; simp at h
    rw [List.drop_eq_getElem_cons hp, List.take_succ_cons] at h ⊢
    unfold Stack.findElement
    rw [List.getElem?_eq_getElem hp]
    dsimp only
    by_cases he : mem[p] = e
    · rw [if_neg (by simpa using he)]
      refine ⟨0, rfl, by omega, by omega, ?_⟩
      rw [he, List.erase_cons_head]; simp
    · rw [if_pos he]
      have hm : e ∈ (mem.drop (p + 1)).take n := by
        rcases List.mem_cons.1 h with h | h
        · exact absurd h.symm he
        · exact h
      obtain ⟨i, h1, h2, h3, h4⟩ := findElement_spec hm
      refine ⟨i + 1, by rw [h1]; congr 1; omega, by omega, by omega, ?_⟩
      rw [List.erase_cons_tail (by simpa using he), h4, List.take_succ_cons]
      simp only [List.cons_append, List.cons.injEq, true_and]
      rw [show p + (i + 1) + 1 = p + 1 + i + 1 by omega, show n + 1 - (i + 1 + 1) = n - (i + 1) by omega]

theorem moveDown_spec : ∀ {n p : Nat} {mem : List α}, 0 < p → p + n ≤ mem.length →
    ∃ mem', Stack.moveDown mem n p = some mem' ∧ mem'.length = mem.length ∧
      mem'.take (p - 1 + n) = mem.take (p - 1) ++ (mem.drop p).take n
  | 0, p, mem, h0, h => ⟨mem, rfl, rfl, by simp⟩
  | n + 1, p, mem, h0, h => by
    have hp : p < mem.length := by omega
    unfold Stack.moveDown
    rw [List.getElem?_eq_getElem hp]
    dsimp only
    obtain ⟨mem', e1, e2, e3⟩ := moveDown_spec (n := n) (p := p + 1) (mem := mem.set (p - 1) mem[p]) (by omega)
      (by rw [List.length_set]; omega)
    refine ⟨mem', e1, by rw [e2, List.length_set], ?_⟩
    have a1 : p - 1 + (n + 1) = p + 1 - 1 + n := by omega
    rw [a1, e3, List.drop_set_of_lt (by omega)]
    have a2 : p + 1 - 1 = (p - 1) + 1 := by omega
    rw [a2, List.take_add_one, List.getElem?_set_self (by omega), List.take_set_of_le (Nat.le_refl _)]
    rw [List.drop_eq_getElem_cons hp, List.take_succ_cons]
    simp

theorem Repr.remove {s : Stack α} {l : List α} (h : Repr s l) {e : α} (he : e ∈ l) :
    ∃ s', s.remove e = some s' ∧ Repr s' (l.erase e) := by
  unfold Stack.remove
  have hm : e ∈ (s.mem.drop 0).take s.size := by rw [List.drop_zero, h.elements]; exact he
  obtain ⟨i, e1, e2, e3, e4⟩ := findElement_spec hm
  rw [e1]
  dsimp only
  have hs := h.size
  obtain ⟨mem', f1, f2, f3⟩ := moveDown_spec (n := s.size - (0 + i + 1)) (p := 0 + i + 1) (mem := s.mem) (by omega)
    (by omega)
  rw [f1]
  refine ⟨_, rfl, ⟨by dsimp only; omega, ?_⟩⟩
  dsimp only
  have a1 : s.size - 1 = 0 + i + 1 - 1 + (s.size - (0 + i + 1)) := by omega
  rw [a1, f3]
  rw [List.drop_zero, h.elements] at e4
  rw [e4]
  simp

theorem reverseLoop_spec : ∀ {n : Nat} {pre mid post : List α} {head tail : Nat}, pre.length = head →
    pre.length + mid.length = tail + 1 → mid.length ≤ 2 * n + 1 →
    Stack.reverseLoop n (pre ++ mid ++ post) head tail = some (pre ++ mid.reverse ++ post)
  | 0, pre, mid, post, head, tail, h1, h2, h3 => by
    unfold Stack.reverseLoop
    rw [if_neg (by omega)]
    match mid, h3 with
    | [], _ => rfl
    | [x], _ => rfl
  | n + 1, pre, mid, post, head, tail, h1, h2, h3 => by
    unfold Stack.reverseLoop
    by_cases h : head < tail
    · rw [if_pos h]
      have hne : mid ≠ [] := by rintro rfl; simp at h2; omega
      match mid, hne with
      | x :: rest, _ =>
        have hr : rest ≠ [] := by rintro rfl; simp at h2; omega
        obtain ⟨m, y, hy⟩ : ∃ m y, rest = m ++ [y] :=
          ⟨rest.dropLast, rest.getLast hr, (List.dropLast_concat_getLast hr).symm⟩
        subst hy
        simp only [List.length_cons, List.length_append, List.length_nil] at h2 h3
        have ht : tail = pre.length + (m.length + 1) := by omega
        subst ht
        subst h1
        have g1 : (pre ++ (x :: (m ++ [y])) ++ post)[pre.length]? = some x := by
          rw [List.append_assoc, List.getElem?_append_right (Nat.le_refl _)]; simp
        have g2 : (pre ++ (x :: (m ++ [y])) ++ post)[pre.length + (m.length + 1)]? = some y := by
          rw [List.append_assoc, List.getElem?_append_right (by omega)]; simp
        rw [g1, g2]
        dsimp only
        have g3 : ((pre ++ (x :: (m ++ [y])) ++ post).set pre.length y).set (pre.length + (m.length + 1)) x
            = (pre ++ [y]) ++ m ++ ([x] ++ post) := by
          rw [List.append_assoc, List.set_append_right _ _ (Nat.le_refl _), List.set_append_right _ _ (by omega)]
          simp
        rw [g3, reverseLoop_spec (by simp) (by simp; omega) (by omega)]
        simp
    · rw [if_neg h]
      have : mid.length ≤ 1 := by omega
      match mid, this with
      | [], _ => rfl
      | [x], _ => rfl

theorem Repr.reverse {s : Stack α} {l : List α} (h : Repr s l) : ∃ s', s.reverse = some s' ∧ Repr s' l.reverse := by
  unfold Stack.reverse
  have hl := h.length
  by_cases h2 : s.size < 2
  · rw [if_pos h2]
    refine ⟨s, rfl, ?_⟩
    match l, (show l.length ≤ 1 by omega) with
    | [], _ => exact h
    | [x], _ => exact h
  · rw [if_neg h2]
    have hd : s.mem = [] ++ l ++ s.mem.drop s.size := by
      rw [List.nil_append, ← h.elements, List.take_append_drop]
    have := reverseLoop_spec (n := s.size) (pre := []) (mid := l) (post := s.mem.drop s.size) (head := 0)
      (tail := s.size - 1) rfl (by simp; omega) (by omega)
    rw [← hd] at this
    rw [this]
    refine ⟨_, rfl, ⟨?_, ?_⟩⟩
    · simp [hl]
    · simp [← hl]

theorem Repr.step {bytes : Nat} (hb : 0 < bytes) {s : Stack α} {l l' : List α} {out : Option α} (h : Repr s l)
    (hs : s.size < 2 ^ 64) {fill : Nat → α} {o : StackOp α} (ho : o.apply l = some (l', out)) :
    ∃ s', s.step bytes (fill, o) = some (s', out) ∧ Repr s' l' := by
  cases o with
  | push e =>
    obtain ⟨rfl, rfl⟩ := Prod.mk.inj (Option.some.inj ho)
    obtain ⟨s', e1, e2⟩ := h.push (fill := fill) hb e
    exact ⟨s', by simp [Stack.step, e1], e2⟩
  | pop =>
    simp only [StackOp.apply, Option.map_eq_some_iff, Prod.mk.injEq] at ho
    obtain ⟨e, he, rfl, rfl⟩ := ho
    have h0 : s.size ≠ 0 := by
      rw [← h.length]; intro h0; rw [List.length_eq_zero_iff] at h0; subst h0; simp at he
    refine ⟨⟨s.mem, s.size - 1⟩, ?_, ⟨by have := h.size; dsimp only; omega, ?_⟩⟩
    · simp only [Stack.step, Stack.pop, if_neg h0, getLast?_of_repr h h0, he, Option.map_some]
    · dsimp only
      rw [List.dropLast_eq_take, h.length, ← h.elements, List.take_take]; congr 1; omega
  | top =>
    simp only [StackOp.apply, Option.map_eq_some_iff, Prod.mk.injEq] at ho
    obtain ⟨e, he, rfl, rfl⟩ := ho
    have h0 : s.size ≠ 0 := by
      rw [← h.length]; intro h0; rw [List.length_eq_zero_iff] at h0; subst h0; simp at he
    refine ⟨s, ?_, h⟩
    simp only [Stack.step, Stack.top, if_neg h0, getLast?_of_repr h h0, he, Option.map_some]
  | peek i =>
    simp only [StackOp.apply, Option.map_eq_some_iff, Prod.mk.injEq] at ho
    obtain ⟨e, he, rfl, rfl⟩ := ho
    have hi : i < s.size := by rw [← h.length]; exact (List.getElem?_eq_some_iff.1 he).1
    refine ⟨s, ?_, h⟩
    simp only [Stack.step, Stack.peek, if_pos hi, h.get hi, he, Option.map_some]
  | poke i e =>
    by_cases hi : i < l.length
    · simp only [StackOp.apply, if_pos hi, Option.some.injEq, Prod.mk.injEq] at ho
      obtain ⟨rfl, rfl⟩ := ho
      rw [h.length] at hi
      refine ⟨⟨s.mem.set i e, s.size⟩, ?_, ⟨by simpa using h.size, ?_⟩⟩
      · simp only [Stack.step, Stack.poke, if_pos hi, Option.map_some]
      · dsimp only; rw [List.take_set, h.elements]
    · simp only [StackOp.apply, if_neg hi] at ho; cases ho
  | clear =>
    obtain ⟨rfl, rfl⟩ := Prod.mk.inj (Option.some.inj ho)
    exact ⟨s.clear, rfl, ⟨Nat.zero_le _, by simp [Stack.clear]⟩⟩
  | resize n =>
    by_cases hn : n ≤ l.length
    · simp only [StackOp.apply, if_pos hn, Option.some.injEq, Prod.mk.injEq] at ho
      obtain ⟨rfl, rfl⟩ := ho
      rw [h.length] at hn
      refine ⟨⟨s.mem, n⟩, ?_, ⟨Nat.le_trans hn h.size, ?_⟩⟩
      · simp only [Stack.step, Stack.resize, if_pos hn, Option.map_some]
      · dsimp only; rw [← h.elements, List.take_take]; congr 1; omega
    · simp only [StackOp.apply, if_neg hn] at ho; cases ho
  | remove e =>
    by_cases he : e ∈ l
    · simp only [StackOp.apply, if_pos he, Option.some.injEq, Prod.mk.injEq] at ho
      obtain ⟨rfl, rfl⟩ := ho
      obtain ⟨s', e1, e2⟩ := h.remove he
      exact ⟨s', by simp [Stack.step, e1], e2⟩
    · simp only [StackOp.apply, if_neg he] at ho; cases ho
  | reverse =>
    obtain ⟨rfl, rfl⟩ := Prod.mk.inj (Option.some.inj ho)
    obtain ⟨s', e1, e2⟩ := h.reverse
    exact ⟨s', by simp [Stack.step, e1], e2⟩
  | shrink =>
    obtain ⟨rfl, rfl⟩ := Prod.mk.inj (Option.some.inj ho)
    exact ⟨_, rfl, h.shrink hb hs⟩

theorem apply_length {o : StackOp α} {l l' : List α} {out : Option α} (ho : o.apply l = some (l', out)) :
    l'.length ≤ l.length + 1 := by
  cases o <;> simp only [StackOp.apply, Option.map_eq_some_iff, Prod.mk.injEq, Option.some.injEq] at ho
  · obtain ⟨rfl, -⟩ := ho; simp
  · obtain ⟨e, -, rfl, -⟩ := ho; simp; omega
  · obtain ⟨e, -, rfl, -⟩ := ho; omega
  · obtain ⟨e, -, rfl, -⟩ := ho; omega
  · split at ho
    · obtain ⟨rfl, -⟩ := Prod.mk.inj (Option.some.inj ho); simp
    · cases ho
  · obtain ⟨rfl, -⟩ := ho; simp
  · split at ho
    · obtain ⟨rfl, -⟩ := Prod.mk.inj (Option.some.inj ho); simp only [List.length_take]; omega
    · cases ho
  · split at ho
    · obtain ⟨rfl, -⟩ := Prod.mk.inj (Option.some.inj ho)
      have := List.length_erase_le (a := ‹α›) (l := l); omega
    · cases ho
  · obtain ⟨rfl, -⟩ := ho; simp
  · obtain ⟨rfl, -⟩ := ho; omega

theorem Repr.run {bytes : Nat} (hb : 0 < bytes) : ∀ {ops : List ((Nat → α) × StackOp α)} {s : Stack α} {l l' : List α}
    {outs : List α}, Repr s l → s.size + ops.length ≤ 2 ^ 64 →
    runOps StackOp.apply (ops.map Prod.snd) l = some (l', outs) →
    ∃ s', runOps (Stack.step bytes) ops s = some (s', outs) ∧ Repr s' l'
  | [], s, l, l', outs, h, _, hr => by
    obtain ⟨rfl, rfl⟩ := Prod.mk.inj (Option.some.inj hr)
    exact ⟨s, rfl, h⟩
  | (fill, o) :: ops, s, l, l', outs, h, hn, hr => by
    simp only [List.map_cons, runOps] at hr
    simp only [List.length_cons] at hn
    cases ho : o.apply l with
    | none => rw [ho] at hr; cases hr
    | some r =>
      obtain ⟨l1, out⟩ := r
      rw [ho] at hr
      dsimp only at hr
      obtain ⟨s1, e1, h1⟩ := h.step hb (by omega) (fill := fill) ho
      cases ho2 : runOps StackOp.apply (ops.map Prod.snd) l1 with
      | none => rw [ho2] at hr; cases hr
      | some r =>
        obtain ⟨l2, outs2⟩ := r
        rw [ho2] at hr
        obtain ⟨rfl, rfl⟩ := Prod.mk.inj (Option.some.inj hr)
        have hl := apply_length ho
        rw [h.length, h1.length] at hl
        obtain ⟨s2, e2, h2⟩ := Repr.run hb h1 (by omega) ho2
        exact ⟨s2, by simp only [runOps, e1, e2], h2⟩

/-! ## Queues -/

/-- The queue represents the sequence. -/
structure FRepr (f : Fifo α) (l : List α) : Prop where
  le : f.first ≤ f.last
  last : f.last ≤ f.mem.length
  limit : f.first < f.limit ∨ f.mem.length = 0
  half : f.limit ≤ f.mem.length
  elements : (f.mem.drop f.first).take (f.last - f.first) = l

theorem FRepr.length {f : Fifo α} {l : List α} (h : FRepr f l) : l.length = f.last - f.first := by
  rw [← h.elements, List.length_take, List.length_drop]; have := h.last; omega

theorem FRepr.get {f : Fifo α} {l : List α} (h : FRepr f l) {i : Nat} (hi : f.first + i < f.last) :
    f.mem[f.first + i]? = l[i]? := by
  rw [← h.elements, List.getElem?_take_of_lt (by omega), List.getElem?_drop]

theorem FRepr.enlarge {f : Fifo α} {l : List α} (h : FRepr f l) (hfull : f.last = f.mem.length) {fill : Nat → α} :
    FRepr (f.enlarge fill) l ∧ (f.enlarge fill).last < (f.enlarge fill).mem.length := by
  unfold Fifo.enlarge
  have hlim := h.limit
  have hhalf := h.half
  have hle := h.le
  have hn : (if f.mem.length ≠ 0 then 2 * f.mem.length else 2) = 2 * f.mem.length ∧ f.mem.length ≠ 0 ∨
      (if f.mem.length ≠ 0 then 2 * f.mem.length else 2) = 2 ∧ f.mem.length = 0 := by
    by_cases h0 : f.mem.length = 0
    · exact .inr ⟨if_neg (by simpa using h0), h0⟩
    · exact .inl ⟨if_pos h0, h0⟩
  generalize (if f.mem.length ≠ 0 then 2 * f.mem.length else 2) = n at hn ⊢
  refine ⟨⟨hle, ?_, ?_, ?_, ?_⟩, ?_⟩
  · dsimp only; rw [realloc_length]; omega
  · dsimp only; left; omega
  · dsimp only; rw [realloc_length]; omega
  · dsimp only
    rw [← h.elements]
    have e : ∀ m : List α, f.last ≤ m.length →
        (m.drop f.first).take (f.last - f.first) = (m.take f.last).drop f.first := by
      intro m hm; rw [List.drop_take]
    rw [e _ (by rw [realloc_length]; omega), e _ h.last, realloc_take (by omega) h.last]
  · dsimp only; rw [realloc_length]; omega

theorem FRepr.enqueue {f : Fifo α} {l : List α} (h : FRepr f l) {fill : Nat → α} (e : α) :
    ∃ f', f.enqueue fill e = some f' ∧ FRepr f' (l ++ [e]) := by
  unfold Fifo.enqueue
  have key : ∀ t : Fifo α, FRepr t l → t.last < t.mem.length →
      ∃ f', (if t.last < t.mem.length then some { t with mem := t.mem.set t.last e, last := t.last + 1 } else none)
        = some f' ∧ FRepr f' (l ++ [e]) := by
    intro t ht hlt
    have hle := ht.le
    refine ⟨_, if_pos hlt, ⟨by dsimp only; omega, by rw [List.length_set]; exact hlt, ?_, by simpa using ht.half, ?_⟩⟩
    · dsimp only; rw [List.length_set]; exact ht.limit
    · dsimp only
      have : t.last + 1 - t.first = (t.last - t.first) + 1 := by omega
      rw [this, List.take_add_one, List.getElem?_drop, show t.first + (t.last - t.first) = t.last by omega,
        List.getElem?_set_self hlt, List.drop_set, if_neg (by omega), List.take_set_of_le (Nat.le_refl _), ht.elements]
      rfl
  dsimp only
  by_cases hf : f.last = f.mem.length
  · rw [if_pos hf]
    obtain ⟨h1, h2⟩ := h.enlarge hf (fill := fill)
    exact key _ h1 h2
  · rw [if_neg hf]
    exact key _ h (by have := h.last; omega)

theorem FRepr.step {f : Fifo α} {l l' : List α} {out : Option α} (h : FRepr f l) {fill : Nat → α} {o : FifoOp α}
    (ho : o.apply l = some (l', out)) : ∃ f', f.step (fill, o) = some (f', out) ∧ FRepr f' l' := by
  have hle := h.le
  have hlast := h.last
  have hlen := h.length
  have hlim := h.limit
  have hhalf := h.half
  cases o with
  | enqueue e =>
    obtain ⟨rfl, rfl⟩ := Prod.mk.inj (Option.some.inj ho)
    obtain ⟨s', e1, e2⟩ := h.enqueue (fill := fill) e
    exact ⟨s', by simp [Fifo.step, e1], e2⟩
  | dequeue =>
    cases l with
    | nil => simp [FifoOp.apply] at ho
    | cons x xs =>
      simp only [FifoOp.apply, List.head?_cons, Option.map_some, List.tail_cons, Option.some.injEq,
        Prod.mk.injEq] at ho
      obtain ⟨rfl, rfl⟩ := ho
      simp only [List.length_cons] at hlen
      have h0 : f.first ≠ f.last := by omega
      have hx : f.mem[f.first]? = some x := by
        have := h.get (i := 0) (by omega); simpa using this
      have hxs : (f.mem.drop (f.first + 1)).take (f.last - (f.first + 1)) = xs := by
        have := h.elements
        have hlt : f.first < f.mem.length := by omega
        rw [show f.last - f.first = (f.last - (f.first + 1)) + 1 by omega, List.drop_eq_getElem_cons hlt,
          List.take_succ_cons] at this
        exact (List.cons.inj this).2
      simp only [Fifo.step, Fifo.dequeue, if_neg h0, hx]
      by_cases hm : f.first + 1 = f.limit
      · rw [if_pos hm]
        unfold Fifo.move memmove
        simp only
        rw [if_pos (by omega)]
        refine ⟨_, rfl, ⟨by dsimp only; omega, ?_, ?_, ?_, ?_⟩⟩
        · simp only [List.length_append, List.length_take, List.length_drop]; omega
        · simp only [List.length_append, List.length_take, List.length_drop]; omega
        · simp only [List.length_append, List.length_take, List.length_drop]; omega
        · dsimp only
          rw [List.take_zero, List.nil_append, List.drop_zero, Nat.sub_zero,
            List.take_append_of_le_length (by rw [List.length_take, List.length_drop]; omega), List.take_take,
            Nat.min_self]
          exact hxs
      · rw [if_neg hm]
        exact ⟨_, rfl, ⟨by dsimp only; omega, hlast, by dsimp only; omega, hhalf, hxs⟩⟩
  | pop =>
    simp only [FifoOp.apply, Option.map_eq_some_iff, Prod.mk.injEq] at ho
    obtain ⟨e, he, rfl, rfl⟩ := ho
    have h0 : l.length ≠ 0 := by
      intro h0; rw [List.length_eq_zero_iff] at h0; subst h0; simp at he
    have hx : f.mem[f.last - 1]? = some e := by
      have := h.get (i := l.length - 1) (by omega)
      rw [← List.getLast?_eq_getElem?, he, show f.first + (l.length - 1) = f.last - 1 by omega] at this
      exact this
    refine ⟨{ f with last := f.last - 1 }, ?_, ⟨by dsimp only; omega, by dsimp only; omega, hlim, hhalf, ?_⟩⟩
    · simp only [Fifo.step, Fifo.pop, if_neg (show f.first ≠ f.last by omega), hx, Option.map_some]
    · dsimp only
      rw [List.dropLast_eq_take, hlen, ← h.elements, List.take_take]; congr 1; omega
  | clear =>
    obtain ⟨rfl, rfl⟩ := Prod.mk.inj (Option.some.inj ho)
    exact ⟨f.clear, rfl, ⟨Nat.le_refl _, Nat.zero_le _, by unfold Fifo.clear; dsimp only; omega, hhalf,
      by simp [Fifo.clear]⟩⟩

theorem FRepr.run : ∀ {ops : List ((Nat → α) × FifoOp α)} {f : Fifo α} {l l' : List α}
    {outs : List α}, FRepr f l → runOps FifoOp.apply (ops.map Prod.snd) l = some (l', outs) →
    ∃ f', runOps Fifo.step ops f = some (f', outs) ∧ FRepr f' l'
  | [], s, l, l', outs, h, hr => by
    obtain ⟨rfl, rfl⟩ := Prod.mk.inj (Option.some.inj hr)
    exact ⟨s, rfl, h⟩
  | (fill, o) :: ops, s, l, l', outs, h, hr => by
    simp only [List.map_cons, runOps] at hr
    cases ho : o.apply l with
    | none => rw [ho] at hr; cases hr
    | some r =>
      obtain ⟨l1, out⟩ := r
      rw [ho] at hr
      dsimp only at hr
      obtain ⟨s1, e1, h1⟩ := h.step (fill := fill) ho
      cases ho2 : runOps FifoOp.apply (ops.map Prod.snd) l1 with
      | none => rw [ho2] at hr; cases hr
      | some r =>
        obtain ⟨l2, outs2⟩ := r
        rw [ho2] at hr
        obtain ⟨rfl, rfl⟩ := Prod.mk.inj (Option.some.inj hr)
        obtain ⟨s2, e2, h2⟩ := FRepr.run h1 ho2
        exact ⟨s2, by simp only [runOps, e1, e2], h2⟩

end Verif.Proofs.Containers
