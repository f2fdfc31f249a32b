import Verif.Proofs.Containers.Arena

/-!
# Clause references (C34)

The clause storage is related to a list of clauses with references (`Verif.Spec.ClauseStore`).
`W` is the number of words of four bytes in the unit in which references count: 4 or 2.
-/

namespace Verif.Props

open Verif.Spec Verif.Model.Containers.Arena Verif.Proofs.Containers.Arena

/-- `Stores W a l`: some legal sequence of operations leads to the storage `a`, and traversing the
storage after each of them gave the clauses used to decide whether the next one is legal; `l` are
those found last.  The contents of fresh memory (`fill`) and the glue (`rest`) are arbitrary. -/
inductive Stores (W : Nat) : Arena → List (Nat × Entry) → Prop
  | init (mem : Nat → Cell) : Stores W (Arena.init mem) []
  | step {a a' : Arena} {l l' : List (Nat × Entry)} {op : StoreOp} (fill : Nat → Cell) (rest : Nat) :
      Stores W a l → op.Legal a.size l → a.step W fill rest op = .ok a' → a'.traverse W = some l' → Stores W a' l'

theorem Stores.inv {W : Nat} (hW : 0 < W) {a : Arena} {l : List (Nat × Entry)} (h : Stores W a l) :
    ∃ cs, AInv W a cs ∧ l = refs W 0 cs := by
  induction h with
  | init mem => exact ⟨[], AInv.init mem, rfl⟩
  | step fill rest _ hl hs ht ih =>
    obtain ⟨cs, h1, rfl⟩ := ih
    rcases h1.step hW (fill := fill) (rest := rest) hl with ⟨g, _⟩ | ⟨b, cs', g1, g2, _⟩
    · rw [g] at hs; cases hs
    · rw [g1] at hs
      cases hs
      refine ⟨cs', g2, ?_⟩
      rw [traverse_eq hW g2.layout] at ht
      exact (Option.some.inj ht).symm

/-- Traversing the storage finds exactly the clauses put into it, in whatever way clauses were
added, shortened, marked as garbage and collected before: every legal operation succeeds,
traversal then gives the list the specification demands, unless a clause is added for which more
than 2^31 units of memory would be needed. -/
theorem C34_step {W : Nat} (hW : 0 < W) {a : Arena} {l : List (Nat × Entry)} (h : Stores W a l) (fill : Nat → Cell)
    (rest : Nat) {op : StoreOp} (hl : op.Legal a.size l) :
    (a.step W fill rest op = .fatal ∧
      ∃ r lits, op = .add r lits ∧ 2 ^ 31 * W < W * a.size + 3 + lits.length + (W - 1)) ∨
    ∃ a' l', a.step W fill rest op = .ok a' ∧ a'.traverse W = some l' ∧ op.Result a.size l l' ∧ Stores W a' l' := by
  obtain ⟨cs, h1, rfl⟩ := h.inv hW
  rcases h1.step hW (fill := fill) (rest := rest) hl with ⟨g, r, lits, g1, g2⟩ | ⟨b, cs', g1, g2, g3⟩
  · refine .inl ⟨g, r, lits, g1, ?_⟩
    unfold maxArena wards at g2
    have h2 := Nat.div_mul_le_self (3 + lits.length + (W - 1)) W
    have h3 : (2 ^ 31) * W < (a.size + (3 + lits.length + (W - 1)) / W) * W := Nat.mul_lt_mul_of_pos_right g2 hW
    rw [Nat.add_mul] at h3
    rw [Nat.mul_comm W a.size]
    omega
  · exact .inr ⟨b, _, g1, traverse_eq hW g2.layout, g3, h.step fill rest hl g1 (traverse_eq hW g2.layout)⟩

/-- The references of the clauses found are valid: each gives its clause. -/
theorem C34_dereference {W : Nat} (hW : 0 < W) {a : Arena} {l : List (Nat × Entry)} (h : Stores W a l)
    {r : Nat} {e : Entry} (hr : (r, e) ∈ l) : a.dereference W r = some e := by
  obtain ⟨cs, h1, rfl⟩ := h.inv hW
  exact h1.dereference hW hr

/-- Clauses do not overlap and lie in the used part of the memory: the words from the reference on
(three words of header and the literals) end before the next clause starts and before the end. -/
theorem C34_apart {W : Nat} (hW : 0 < W) {a : Arena} {l : List (Nat × Entry)} (h : Stores W a l) :
    l.Pairwise (fun x y => W * x.1 + 3 + x.2.lits.length ≤ W * y.1) ∧
    (∀ x ∈ l, W * x.1 + 3 + x.2.lits.length ≤ W * a.size) ∧ a.size ≤ a.capacity := by
  obtain ⟨cs, h1, rfl⟩ := h.inv hW
  exact ⟨refs_apart hW h1.layout ⟨0, by omega⟩, fun x hx => refs_inside hW h1.layout hx, h1.fits⟩

/-- The reference returned for a new clause gives that clause. -/
theorem C34_new {W : Nat} (hW : 0 < W) {a a' : Arena} {l : List (Nat × Entry)} (h : Stores W a l) (fill : Nat → Cell)
    (rest : Nat) {redundant : Bool} {lits : List Nat} {r : Nat}
    (hl : (StoreOp.add redundant lits).Legal a.size l) (hn : a.newClause W fill redundant rest lits = .ok (a', r)) :
    a'.traverse W = some (l ++ [(r, ⟨lits, redundant, false⟩)]) := by
  obtain ⟨cs, h1, rfl⟩ := h.inv hW
  rcases h1.newClause hW (fill := fill) (redundant := redundant) (rest := rest) hl.1 hl.2.2 with ⟨g, _⟩ | ⟨b, g1, g2⟩
  · rw [g] at hn; cases hn
  · rw [g1] at hn
    cases hn
    rw [traverse_eq hW g2.layout, refs_append h1.layout]
    show some (_ ++ [(W * a.size / W, _)]) = _
    rw [Nat.mul_div_cancel_left _ hW]
    rfl

/-- Garbage collection moves exactly those clauses to the watch lists which have two literals
left. -/
theorem C34_binaries {W : Nat} (hW : 0 < W) {a : Arena} {l : List (Nat × Entry)} (h : Stores W a l) (fill : Nat → Cell)
    {start : Nat} {fate : Nat → Fate} (hl : (StoreOp.collect start fate).Legal a.size l) :
    ∃ a' x y, SplitAt start a.size l x y ∧
      a.collect W fill fate start = some (a', y.filterMap fun z => z.2.binary fate) := by
  obtain ⟨cs, h1, rfl⟩ := h.inv hW
  obtain ⟨x, y, l1, l2⟩ := hl
  obtain ⟨a', cs', lc, g1, -, -, -⟩ := h1.collect hW (tmp := fill) l1 l2
  exact ⟨a', x, y, l1, g1⟩

/-! ## A concrete run

Four clauses; the second is shortened, the third is garbage, literal 4 is false, literal 20 true
and the redundant clause is moved behind the irredundant ones. -/

/-- Literals and operations of the example. -/
def arenaOps : List StoreOp :=
  [.add true [2, 4, 6, 8, 10], .add false [0, 3, 5, 7, 9, 11, 13], .add false [1, 2, 3], .rewrite 2 [3, 0, 7, 9],
   .garbage 5, .add false [12, 14, 4], .add false [12, 14, 20], .rewrite 0 [10, 8, 4, 6],
   .collect 0 fun l => if l = 4 then .drop else if l = 20 then .satisfied else .keep l]

/-- Run operations. -/
def runArena (a : Arena) : List StoreOp → Option Arena
  | [] => some a
  | op :: ops =>
    match a.step 4 (fun _ => .num 77) 1 op with
    | .ok a => runArena a ops
    | _ => none

example : ((runArena (Arena.init fun _ => .num 99) (arenaOps.take 4)).bind fun a => a.traverse 4) =
    some [(0, ⟨[2, 4, 6, 8, 10], true, false⟩), (2, ⟨[3, 0, 7, 9], false, false⟩), (5, ⟨[1, 2, 3], false, false⟩)] := by
  decide +kernel

example : ((runArena (Arena.init fun _ => .num 99) arenaOps).bind fun a => a.traverse 4) =
    some [(0, ⟨[3, 0, 7, 9], false, false⟩), (2, ⟨[10, 8, 6], true, false⟩)] := by decide +kernel

/-- Every operation on the way is legal. -/
example : (StoreOp.collect 0 fun l => if l = 4 then .drop else if l = 20 then .satisfied else .keep l).Legal 12
    [(0, ⟨[10, 8, 4, 6], true, false⟩), (2, ⟨[3, 0, 7, 9], false, false⟩), (5, ⟨[1, 2, 3], false, true⟩),
     (7, ⟨[12, 14, 4], false, false⟩), (9, ⟨[12, 14, 20], false, false⟩)] := by
  refine ⟨[], _, ⟨rfl, rfl⟩, ?_⟩
  intro x hx
  simp only [List.mem_cons, List.not_mem_nil, or_false] at hx
  rcases hx with rfl | rfl | rfl | rfl | rfl <;> intro h1 h2
  · exact ⟨by decide, by unfold Storable; decide⟩
  · exact ⟨by decide, by unfold Storable; decide⟩
  · cases h1
  · exact ⟨by decide, by unfold Storable; decide⟩
  · exact absurd (h2 20 (by simp)) (by decide)

/-- The hypotheses of the theorems are met after adding and shortening a clause. -/
example : ∃ a, Stores 4 a [(0, ⟨[6, 4, 8], false, false⟩)] := by
  rcases C34_step (W := 4) (by decide) (Stores.init fun _ => .num 99) (fun _ => .num 77) 1
      (op := .add false [2, 4, 6, 8, 10]) ⟨by decide, by decide, by unfold Storable; decide⟩ with
    ⟨_, _, _, h, h'⟩ | ⟨a, l, h1, h2, ⟨r, h3⟩, h4⟩
  · cases h
    exact absurd h' (by decide)
  · have hr : l = [(0, ⟨[2, 4, 6, 8, 10], false, false⟩)] := by
      have : (match (Arena.init fun _ => .num 99).step 4 (fun _ => .num 77) 1 (.add false [2, 4, 6, 8, 10]) with
        | .ok a => a.traverse 4
        | _ => none) = some [(0, ⟨[2, 4, 6, 8, 10], false, false⟩)] := by decide +kernel
      rw [h1] at this
      dsimp only at this
      rw [h2] at this
      exact Option.some.inj this
    subst hr
    rcases C34_step (W := 4) (by decide) h4 (fun _ => .num 77) 1 (op := .rewrite 0 [6, 4, 8])
        ⟨by unfold Storable; decide, by decide, _, List.mem_cons_self .., by decide⟩ with ⟨_, _, _, h, _⟩ | ⟨a', l', g1, g2, g3, g4⟩
    · cases h
    · exact ⟨a', by rw [show l' = _ from g3] at g4; exact g4⟩

end Verif.Props
