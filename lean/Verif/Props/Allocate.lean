import Verif.Proofs.Allocate

/-!
# C67: sizes of blocks and counting of memory

`Verif.Spec.Ledger` says what callers ask for and which blocks exist then; its numbers are
mathematical.  The model works with 64 bits.
-/

namespace Verif.Props

open Verif.Spec.Ledger
open Verif.Model.Allocate hiding malloc free nalloc calloc dealloc realloc nrealloc
open Verif.Proofs.Allocate

/-- The contract of the C library: a new block has an address of its own and all blocks together
fit in the address space. -/
def AllocContract (b : Blocks) (answer : Option Nat) (r : Request) : Prop :=
  ∀ q, answer = some q → need r < 2 ^ 64 → need r ≠ 0 → Sound (after b q r)

/-- Histories of calls: the state, the blocks callers have and the largest number of bytes there
have ever been.  Callers only give back or resize what they have. -/
inductive AllocRun : State → Blocks → Nat → Prop
  | init : AllocRun State.init [] 0
  | call {s s' : State} {b : Blocks} {peak q : Nat} {c : Call} {answer : Option Nat} :
    AllocRun s b peak → Legal b (request c) → Typed c → AllocContract b answer (request c) →
    c.run s answer = .ok q s' →
    AllocRun s' (after b q (request c)) (max peak (total (after b q (request c))))

theorem allocRun_agree {s : State} {b : Blocks} {peak : Nat} (h : AllocRun s b peak) :
    Agree s b peak ∧ Sound b := by
  induction h with
  | init => exact ⟨⟨rfl, rfl, rfl, Nat.le_refl _⟩, ⟨by simp, by simp, by simp, Nat.two_pow_pos 64⟩⟩
  | call _ hl ht ha hr ih =>
    have := run_fine ih.1 ih.2 hl ht ha
    rw [hr] at this
    exact ⟨this.1, this.2.1⟩

/-- **C67**: after every history the blocks of the C library are those callers have, the current
number of bytes is their sum, the maximum is the largest sum there has been, and the check at the
end reports a leak exactly if a block has not been given back, with the right number of bytes. -/
theorem C67_accounting {s : State} {b : Blocks} {peak : Nat} (h : AllocRun s b peak) :
    s.heap = b ∧ s.current = total b ∧ s.max = peak ∧
      (leaked s = none ↔ b = []) ∧ (b ≠ [] → leaked s = some (total b)) := by
  obtain ⟨ha, hs⟩ := allocRun_agree h
  have hz : total b = 0 ↔ b = [] := by
    cases b with
    | nil => simp [total]
    | cons x b =>
      have := hs.pos x (by simp)
      rw [total_cons]
      constructor
      · intro; omega
      · intro e; cases e
  refine ⟨ha.heap, ha.current, ha.max, ?_, fun hb => ?_⟩
  · unfold leaked; rw [ha.current]
    split
    · rename_i h1
      exact ⟨fun e => (nomatch e), fun e => absurd (hz.2 e) h1⟩
    · rename_i h1
      exact ⟨fun _ => hz.1 (Decidable.not_not.1 h1), fun _ => rfl⟩
  · unfold leaked; rw [ha.current, if_pos (fun e => hb (hz.1 e))]

/-- **C67**: after every history a call with all possible arguments never uses the C library in an
undefined way.  If it returns, the caller has a block of exactly the size asked for, as a
mathematical number, at the address returned. -/
theorem C67_block {s : State} {b : Blocks} {peak : Nat} (h : AllocRun s b peak) (c : Call)
    (answer : Option Nat) (hl : Legal b (request c)) (ht : Typed c)
    (ha : AllocContract b answer (request c)) :
    c.run s answer ≠ .undefined ∧
      ∀ q s', c.run s answer = .ok q s' → (∀ p n size, request c ≠ .release p n size) →
        Owns s'.heap q (need (request c)) ∧ s'.heap = after b q (request c) := by
  obtain ⟨hA, hs⟩ := allocRun_agree h
  have := run_fine hA hs hl ht ha
  refine ⟨fun e => by rw [e] at this; exact this, fun q s' e hr => ?_⟩
  rw [e] at this
  have e2 := this.1.heap
  exact ⟨by rw [e2]; exact this.2.2.1 hr, e2⟩

/-- **C67**: the program is stopped if the size does not fit in 64 bits, and otherwise only if the C
library was asked for memory and had none. -/
theorem C67_stops {s : State} {b : Blocks} {peak : Nat} (h : AllocRun s b peak) (c : Call)
    (answer : Option Nat) (hl : Legal b (request c)) (ht : Typed c)
    (ha : AllocContract b answer (request c)) :
    (2 ^ 64 ≤ need (request c) → c.run s answer = .fatal) ∧
      (c.run s answer = .fatal → 2 ^ 64 ≤ need (request c) ∨
        (answer = none ∧ need (request c) ≠ 0)) := by
  obtain ⟨hA, hs⟩ := allocRun_agree h
  have := run_fine hA hs hl ht ha
  constructor
  · intro hn
    revert this
    generalize c.run s answer = r
    intro this
    cases r with
    | ok q s' => have := this.2.2.2; omega
    | fatal => rfl
    | undefined => exact this.elim
  · intro e
    rw [e] at this
    exact this

/-- **C67**: if the C library has no memory a call only returns if none was needed. -/
theorem C67_no_memory {s s' : State} {b : Blocks} {peak q : Nat} (h : AllocRun s b peak) (c : Call)
    (hl : Legal b (request c)) (ht : Typed c) (hr : c.run s none = .ok q s') :
    need (request c) = 0 ∨
      ∃ p o n size, request c = .resize p o n size ∧ o * size = n * size := by
  have hre : ∀ p o n, Model.Allocate.realloc s none p o n = .ok q s' → n = 0 ∨ o = n := by
    intro p o n e
    unfold Model.Allocate.realloc at e
    split at e
    · rename_i h1; exact .inr h1
    · split at e
      · rename_i h1; exact .inl h1
      · simp only [] at e
        split at e <;> cases e
  cases c with
  | malloc bytes =>
    simp only [Call.run, Model.Allocate.malloc] at hr
    split at hr
    · rename_i h1; subst h1; exact .inl rfl
    · cases hr
  | free p bytes => exact .inl rfl
  | nalloc n size =>
    simp only [Call.run, Model.Allocate.nalloc] at hr
    split at hr
    · rename_i h1; left; show n * size = 0; rcases h1 with rfl | rfl <;> simp
    · split at hr <;> cases hr
  | calloc n size =>
    simp only [Call.run, Model.Allocate.calloc] at hr
    split at hr
    · rename_i h1; left; show n * size = 0; rcases h1 with rfl | rfl <;> simp
    · split at hr <;> cases hr
  | dealloc p n size => exact .inl rfl
  | realloc p old new =>
    rcases hre _ _ _ hr with rfl | rfl
    · left; show 0 * 1 = 0; rfl
    · exact .inr ⟨p, _, _, 1, rfl, rfl⟩
  | nrealloc p o n size =>
    obtain ⟨hA, hs⟩ := allocRun_agree h
    have := run_fine (answer := none) hA hs hl ht (by intro q e; cases e)
    rw [hr] at this
    have hn : n * size < 2 ^ 64 := this.2.2.2
    have ho : o * size < 2 ^ 64 := owns_lt hs hl.2
    simp only [Call.run, Model.Allocate.nrealloc] at hr
    rw [if_neg hl.1] at hr
    split at hr
    · cases hr
    · rw [Nat.mod_eq_of_lt hn, Nat.mod_eq_of_lt ho] at hr
      rcases hre _ _ _ hr with e | e
      · exact .inl e
      · exact .inr ⟨p, o, n, size, rfl, e⟩

/-- A history: an array of 3 elements of 8 bytes, then resized to 5 elements, then given back. -/
theorem allocRun_example : ∃ s, AllocRun s [(4096, 40)] 40 ∧ AllocRun (match Model.Allocate.dealloc s
    4096 5 8 with | .ok _ s => s | _ => s) [] 40 := by
  have h1 : AllocRun ⟨[(4096, 24)], 24, 24⟩ [(4096, 24)] 24 := by
    have := AllocRun.call (c := .nalloc 3 8) (answer := some 4096) (q := 4096)
      (s' := ⟨[(4096, 24)], 24, 24⟩) AllocRun.init trivial ⟨by decide, by decide⟩
      (by intro q hq _ _; cases hq; exact ⟨by decide, by decide, by decide, by decide⟩)
      (by decide +kernel)
    exact this
  have h2 : AllocRun ⟨[(4096, 40)], 40, 40⟩ [(4096, 40)] 40 := by
    have := AllocRun.call (c := .nrealloc 4096 3 5 8) (answer := some 4096) (q := 4096)
      (s' := ⟨[(4096, 40)], 40, 40⟩) h1 ⟨by decide, by decide⟩
      ⟨by decide, by decide, by decide⟩
      (by intro q hq _ _; cases hq; exact ⟨by decide, by decide, by decide, by decide⟩)
      (by decide +kernel)
    exact this
  refine ⟨_, h2, ?_⟩
  have := AllocRun.call (c := .dealloc 4096 5 8) (answer := none) (q := 0)
    (s' := ⟨[], 0, 40⟩) h2 (show Owns _ _ _ by decide) ⟨by decide, by decide⟩
    (by intro q hq; cases hq) (by decide +kernel)
  exact this

example : leaked ⟨[(4096, 40)], 40, 40⟩ = some 40 := by decide

/-- The product of the numbers is `2^66`, which would be `0` with 64 bits. -/
example : (Call.nalloc (2 ^ 33) (2 ^ 33)).run State.init (some 4096) = .fatal := by decide +kernel

end Verif.Props
