/-!
# Memory of a program as a ledger

Blocks of memory are identified by their address, which is not zero.  Sizes are mathematical
numbers: nothing wraps around here.
-/

namespace Verif.Spec.Ledger

/-- Live blocks: address and number of bytes. -/
abbrev Blocks := List (Nat × Nat)

/-- Number of bytes of all live blocks. -/
def total (b : Blocks) : Nat := (b.map (·.2)).sum

/-- Without the block at an address. -/
def without (b : Blocks) (p : Nat) : Blocks := b.filter fun x => x.1 ≠ p

/-- What a caller asks for. -/
inductive Request where
  /-- an array of `n` elements of `size` bytes -/
  | allocate (n size : Nat)
  /-- give back an array -/
  | release (p n size : Nat)
  /-- change the number of elements of an array from `o` to `n` -/
  | resize (p o n size : Nat)

/-- The caller has this array: an array without bytes has address zero. -/
def Owns (b : Blocks) (p bytes : Nat) : Prop := if bytes = 0 then p = 0 else (p, bytes) ∈ b

instance (b : Blocks) (p bytes : Nat) : Decidable (Owns b p bytes) := by
  unfold Owns; infer_instance

/-- Requests have to be about arrays the caller has. -/
def Legal (b : Blocks) : Request → Prop
  | .allocate _ _ => True
  | .release p n size => Owns b p (n * size)
  | .resize p o _ size => size ≠ 0 ∧ Owns b p (o * size)

/-- The blocks after a request which gave the address `q`. -/
def after (b : Blocks) (q : Nat) : Request → Blocks
  | .allocate n size => if n * size = 0 then b else (q, n * size) :: b
  | .release p n size => if n * size = 0 then b else without b p
  | .resize p o n size =>
    if o * size = n * size then b
    else if n * size = 0 then without b p
    else (q, n * size) :: without b p

/-- Number of bytes needed. -/
def need : Request → Nat
  | .allocate n size => n * size
  | .release _ _ _ => 0
  | .resize _ _ n size => n * size

/-- Blocks have different addresses which are not zero, they are not empty, and fit in the address
space. -/
structure Sound (b : Blocks) : Prop where
  nodup : (b.map (·.1)).Nodup
  nonzero : ∀ x ∈ b, x.1 ≠ 0
  pos : ∀ x ∈ b, 0 < x.2
  size : total b < 2 ^ 64

end Verif.Spec.Ledger
