/-! # Sorting: specification -/

namespace Umka.Sort.Spec

/-- `cmp` compares according to some total preorder: a negative or zero answer means "not after". -/
structure TotalPreorder {α : Type} (cmp : α → α → Int) : Prop where
  total : ∀ x y, cmp x y > 0 → cmp y x ≤ 0
  trans : ∀ x y z, cmp x y ≤ 0 → cmp y z ≤ 0 → cmp x z ≤ 0

/-- No item comes after a later item. -/
def Sorted {α : Type} (cmp : α → α → Int) (l : List α) : Prop :=
  l.Pairwise (fun x y => cmp x y ≤ 0)

end Umka.Sort.Spec
