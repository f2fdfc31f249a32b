/-!
# What sorting means

Independent of any algorithm.
-/

namespace Verif.Spec

/-- `less` is a strict weak order: nothing is less than itself, it is transitive, and being
incomparable is transitive (an element between two comparable ones is comparable to one of
them). -/
structure StrictWeak {α : Type} (less : α → α → Bool) : Prop where
  irrefl : ∀ a, less a a = false
  trans : ∀ a b c, less a b = true → less b c = true → less a c = true
  between : ∀ a b c, less a c = true → less a b = true ∨ less b c = true

/-- `after` is `before` sorted by `less`: a permutation in which no later element is less
than an earlier one. -/
structure SortedBy {α : Type} (less : α → α → Bool) (before after : List α) : Prop where
  perm : after.Perm before
  ordered : after.Pairwise fun a b => less b a = false

/-- `after` is `before` stably sorted by increasing rank: a permutation with increasing ranks
in which the elements of each rank keep their order. -/
structure StablySorted {α : Type} (rank : α → Nat) (before after : List α) : Prop where
  perm : after.Perm before
  ordered : after.Pairwise fun a b => rank a ≤ rank b
  stable : ∀ k, after.filter (fun x => rank x == k) = before.filter (fun x => rank x == k)

end Verif.Spec
