/-!
# Sorting
-/

namespace Pomelo.Spec

variable {α : Type}

/-- What the documentation of `sort_by` asks of a comparison of the elements of `l`: a total order (equal elements may differ) -/
structure TotalOrder (cmp : α → α → Ordering) (l : List α) : Prop where
  swap : ∀ a ∈ l, ∀ b ∈ l, cmp a b = (cmp b a).swap
  trans : ∀ a ∈ l, ∀ b ∈ l, ∀ c ∈ l, cmp a b ≠ .gt → cmp b c ≠ .gt → cmp a c ≠ .gt

/-- Neither is less than the other. -/
def tied (cmp : α → α → Ordering) (a b : α) : Bool := cmp a b != .lt && cmp b a != .lt

/-- `out` is the list `l` in increasing order, what is tied in the order of `l`. -/
structure StableSort (cmp : α → α → Ordering) (l out : List α) : Prop where
  perm : out.Perm l
  sorted : out.Pairwise fun a b => cmp b a ≠ .lt
  stable : ∀ x, out.filter (tied cmp x) = l.filter (tied cmp x)

end Pomelo.Spec
