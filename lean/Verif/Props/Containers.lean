import Verif.Proofs.Containers.Vector
import Verif.Proofs.Containers.Sort

/-!
# Stacks, queues, watch lists and sorting (C28, C29, C30, C31)

The specifications are `Spec.StackOp` and `Spec.FifoOp` (operations on a sequence),
`Spec.ListsOp` (operations on a family of lists), `Spec.SortedBy` and `Spec.StablySorted`.

In all models reading or writing outside of the allocated memory and failing assertions give no
result (`none`, `undefined`), so that the theorems below also say that neither happens.  The
contents of newly allocated memory (`fill`) and the addresses of newly allocated blocks are
arbitrary.
-/

namespace Verif.Props

open Verif.Spec Verif.Model Verif.Model.Containers Verif.Proofs.Containers

/-! ## C28 -/

/-- C28: after any legal sequence of operations (fewer than `2^64`) on an initially empty stack of
elements of any size in bytes the elements of the stack and everything returned are those of the
sequence. -/
theorem C28_stack {α : Type} [DecidableEq α] {bytes : Nat} (hb : 0 < bytes) (ops : List ((Nat → α) × StackOp α))
    (hl : ops.length ≤ 2 ^ 64) {l : List α} {outs : List α}
    (h : runOps StackOp.apply (ops.map Prod.snd) [] = some (l, outs)) :
    ∃ s, runOps (Stack.step bytes) ops Stack.init = some (s, outs) ∧ s.elements = l := by
  have hi : Repr (Stack.init : Stack α) [] := ⟨Nat.le_refl _, rfl⟩
  obtain ⟨s, h1, h2⟩ := Repr.run hb hi (by simpa [Stack.init] using hl) h
  exact ⟨s, h1, h2.elements⟩

/-- C28: the same for the first-in-first-out queue. -/
theorem C28_fifo {α : Type} [DecidableEq α] (ops : List ((Nat → α) × FifoOp α)) {l : List α} {outs : List α}
    (h : runOps FifoOp.apply (ops.map Prod.snd) [] = some (l, outs)) :
    ∃ f, runOps Fifo.step ops Fifo.init = some (f, outs) ∧ f.elements = l := by
  have hi : FRepr (Fifo.init : Fifo α) [] := ⟨Nat.le_refl _, Nat.le_refl _, .inr rfl, Nat.le_refl _, rfl⟩
  obtain ⟨s, h1, h2⟩ := FRepr.run hi h
  exact ⟨s, h1, h2.elements⟩

/-- A stack of five elements from which one is removed, reversed, shrunken and popped. -/
def stackOps : List ((Nat → Nat) × StackOp Nat) :=
  [.push 1, .push 2, .push 3, .push 2, .push 5, .remove 2, .reverse, .shrink, .push 7, .peek 1, .poke 0 9, .pop, .pop,
    .top].map fun o => (fun i => 100 + i, o)

example : runOps StackOp.apply (stackOps.map Prod.snd) [] = some ([9, 2, 3], [2, 7, 1, 3]) := by decide

example : ∃ s, runOps (Stack.step 4) stackOps Stack.init = some (s, [2, 7, 1, 3]) ∧ s.elements = [9, 2, 3] :=
  C28_stack (by decide) stackOps (by decide) (by decide)

/-- A queue whose elements are moved to the front after it was enlarged. -/
def fifoOps : List ((Nat → Nat) × FifoOp Nat) :=
  [.enqueue 1, .enqueue 2, .enqueue 3, .dequeue, .dequeue, .enqueue 4, .enqueue 5, .pop, .enqueue 6, .dequeue,
    .enqueue 7].map fun o => (fun i => 100 + i, o)

example : ∃ f, runOps Fifo.step fifoOps Fifo.init = some (f, [1, 2, 5, 3]) ∧ f.elements = [4, 6, 7] :=
  C28_fifo fifoOps (by decide)

/-! ## C29 -/

/-- C29: after any legal sequence of pushing to, shortening and removing from `n` watch lists, and of
defragmenting their common memory, wherever the blocks returned by the allocator are, every list
has exactly the contents the specification says, unless the solver gave up (see
`C29_fatal`). -/
theorem C29_contents {n : Nat} {mem : Nat → Nat} (ops : List (Block × Block × ListsOp))
    (hb : ∀ o ∈ ops, Block.Valid o.1 ∧ Block.Valid o.2.1) {f : Nat → List Nat}
    (h : ListsOp.run n (ops.map fun o => o.2.2) (fun _ => []) = some f) :
    (Vectors.init mem).run n ops = .fatal ∨ ∃ s, (Vectors.init mem).run n ops = .ok s ∧ ∀ v, s.contents v = f v := by
  rcases VInv.run (VInv.init (n := n) (mem := mem)) (funext fun _ => rfl) hb h with h | ⟨s, h1, -, h2⟩
  · exact .inl h
  · exact .inr ⟨s, h1, fun v => by rw [h2]⟩

/-- C29: the counter of unused elements is exact: except for the first element of the common memory
every element belongs to exactly one list or is unused. -/
theorem C29_usable {n : Nat} {mem : Nat → Nat} (ops : List (Block × Block × ListsOp))
    (hb : ∀ o ∈ ops, Block.Valid o.1 ∧ Block.Valid o.2.1) {f : Nat → List Nat}
    (h : ListsOp.run n (ops.map fun o => o.2.2) (fun _ => []) = some f) {s : Vectors}
    (hs : (Vectors.init mem).run n ops = .ok s) (h0 : s.size ≠ 0) :
    s.usable + ((List.range n).map fun v => (f v).length).sum + 1 = s.size := by
  rcases VInv.run (VInv.init (n := n) (mem := mem)) (funext fun _ => rfl) hb h with h | ⟨s', h1, h2, h3⟩
  · rw [h] at hs; cases hs
  · rw [h1] at hs
    cases hs
    have := h2.exact h0
    rw [← h3]
    simp only [contents_length]
    exact this

/-- C29: the lists do not overlap: the elements of one list are stored between its begin and its end
inside of the common memory, and those of different lists are apart. -/
theorem C29_apart {n : Nat} {mem : Nat → Nat} (ops : List (Block × Block × ListsOp))
    (hb : ∀ o ∈ ops, Block.Valid o.1 ∧ Block.Valid o.2.1) {f : Nat → List Nat}
    (h : ListsOp.run n (ops.map fun o => o.2.2) (fun _ => []) = some f) {s : Vectors}
    (hs : (Vectors.init mem).run n ops = .ok s) :
    (∀ v, f v ≠ [] → s.base + 1 ≤ s.first v ∧ s.last v = s.first v + (f v).length ∧ s.last v ≤ s.base + s.size) ∧
    (∀ v w, v ≠ w → f v ≠ [] → f w ≠ [] → s.last v ≤ s.first w ∨ s.last w ≤ s.first v) := by
  rcases VInv.run (VInv.init (n := n) (mem := mem)) (funext fun _ => rfl) hb h with h | ⟨s', h1, h2, h3⟩
  · rw [h] at hs; cases hs
  · rw [h1] at hs
    cases hs
    have hl : ∀ v, f v ≠ [] → s.first v < s.last v := by
      intro v hv
      have := contents_length (s := s) (v := v)
      rw [h3] at this
      have := List.length_pos_iff.2 hv
      omega
    constructor
    · intro v hv
      have h4 := hl v hv
      have h5 := h2.ptr v
      have := contents_length (s := s) (v := v)
      rw [h3] at this
      omega
    · intro v w hvw hv hw
      exact h2.disj v w hvw (hl v hv) (hl w hw)

/-- C29: the solver gives up pushing to a list only if the common memory would need more than `2^48`
elements. -/
theorem C29_fatal {n : Nat} {mem : Nat → Nat} (ops : List (Block × Block × ListsOp))
    (hb : ∀ o ∈ ops, Block.Valid o.1 ∧ Block.Valid o.2.1) {f : Nat → List Nat}
    (h : ListsOp.run n (ops.map fun o => o.2.2) (fun _ => []) = some f) {s : Vectors}
    (hs : (Vectors.init mem).run n ops = .ok s) {b0 b : Block} (hb0 : Block.Valid b0) {v e : Nat}
    (hf : s.push b0 b v e = .fatal) : 2 ^ 48 < s.size + (2 * (f v).length + 1) := by
  rcases VInv.run (VInv.init (n := n) (mem := mem)) (funext fun _ => rfl) hb h with h | ⟨s', h1, h2, h3⟩
  · rw [h] at hs; cases hs
  · rw [h1] at hs
    cases hs
    have := h2.push_fatal hb0 hf
    rw [h3] at this
    exact this

/-- Blocks at address `4000`, and operations on three lists: two are enlarged in turn, one is
shortened and all are defragmented. -/
def listsOps : List (Block × Block × ListsOp) :=
  [.push 0 1, .push 1 2, .push 0 3, .push 2 4, .push 0 5, .push 1 6, .remove 0 3, .resize 2 0, .defrag, .push 2 9,
    .push 0 8].map fun o => (⟨4000, fun i => i⟩, ⟨8000, fun i => i⟩, o)

example : (match (Vectors.init fun _ => 0).run 3 listsOps with
    | .ok s => some (s.contents 0, s.contents 1, s.contents 2, s.size, s.usable)
    | _ => none) = some ([1, 5, 8], [2, 6], [9], 10, 3) := by decide +kernel

example : ∃ f, ListsOp.run 3 (listsOps.map fun o => o.2.2) (fun _ => []) = some f ∧
    (f 0, f 1, f 2) = ([1, 5, 8], [2, 6], [9]) := ⟨_, rfl, rfl⟩

example : ∀ o ∈ listsOps, Block.Valid o.1 ∧ Block.Valid o.2.1 := by
  intro o ho
  obtain ⟨x, -, rfl⟩ := List.mem_map.1 ho
  exact ⟨⟨(by decide : 1 ≤ 4000), (by decide : 4 * (4000 + 2 ^ 48) ≤ 2 ^ 64)⟩,
    ⟨(by decide : 1 ≤ 8000), (by decide : 4 * (8000 + 2 ^ 48) ≤ 2 ^ 64)⟩⟩

/-! ## C30 -/

/-- C30: for every strict weak order sorting an array terminates, accesses nothing outside of the
array and gives the sorted array. -/
theorem C30_sort {α : Type} {less : α → α → Bool} (hw : StrictWeak less) (a : List α) :
    ∃ a', Sort.sort less a = some a' ∧ SortedBy less a a' := Verif.Proofs.Sort.sort_spec hw a

/-- C30: the same for sorting a stack. -/
theorem C30_sortStack {α : Type} {less : α → α → Bool} (hw : StrictWeak less) (a : List α) :
    ∃ a', Sort.sortStack less a = some a' ∧ SortedBy less a a' := Verif.Proofs.Sort.sortStack_spec hw a

/-- Comparing pairs by their first components, as used for scores with ties. -/
theorem strictWeak_fst : StrictWeak (fun a b : Nat × Nat => decide (a.1 < b.1)) := by
  constructor <;> intros <;> simp_all <;> omega

example : Sort.sort (fun a b : Nat × Nat => decide (a.1 < b.1)) [(3, 1), (8, 2), (3, 3), (1, 5)] =
    some [(1, 5), (3, 1), (3, 3), (8, 2)] := by decide

example : ∃ a', Sort.sort (fun a b : Nat × Nat => decide (a.1 < b.1)) [(3, 1), (8, 2), (3, 3), (1, 5)] = some a' ∧
    SortedBy (fun a b : Nat × Nat => decide (a.1 < b.1)) [(3, 1), (8, 2), (3, 3), (1, 5)] a' := C30_sort strictWeak_fst _

/-! ## C31 -/

/-- C31: radix sorting terminates, stays inside of the two arrays and is stable: the result is a
permutation, its ranks increase and the elements with the same rank keep their order, whatever the
temporary memory and the uninitialised counters contain. -/
theorem C31_radix {α : Type} {rank : α → Nat} {bytes : Nat} (tmp : List α) (junk : Nat → Nat) (l : List α)
    (hr : ∀ x ∈ l, rank x < 2 ^ (8 * bytes)) (ht : tmp.length = l.length) :
    ∃ l', Radix.radixSort rank bytes tmp junk l = some l' ∧ StablySorted rank l l' :=
  Verif.Proofs.Radix.radixSort_spec hr ht

example : ∃ l', Radix.radixSort (fun x : Nat × Nat => x.1) 2 [(0, 0), (0, 0), (0, 0), (0, 0)] (fun _ => 7)
    [(300, 0), (5, 1), (300, 2), (44, 3)] = some l' ∧
    StablySorted (fun x : Nat × Nat => x.1) [(300, 0), (5, 1), (300, 2), (44, 3)] l' :=
  C31_radix _ _ _ (by decide) rfl

end Verif.Props
