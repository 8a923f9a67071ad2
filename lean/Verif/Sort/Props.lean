import Verif.Sort.Lemmas

/-! # Sorting: properties C05, C06, C07 -/

namespace Umka.Sort

variable {α : Type}

/-- **C05 (safety).** For every comparison function, consistent or not, and every array, sorting
never touches a position outside the array; and whenever it finishes, the result is a permutation of
the original array. -/
theorem C05_sort_safe_permutation (cmp : α → α → Int) (fuel : Nat) (a : Array α) :
    sort cmp fuel a ≠ .error .oob ∧ ∀ b, sort cmp fuel a = .ok b → b.Perm a := by
  unfold sort
  split
  · rcases qsortEx_safe cmp fuel a 0 a.size (Nat.le_refl _) with h | ⟨b, h, hs⟩
    · rw [h]; exact ⟨by simp, by simp⟩
    · rw [h]
      refine ⟨by simp, ?_⟩
      intro b' hb
      cases hb
      exact hs.perm
  · refine ⟨by simp, ?_⟩
    intro b hb
    cases hb
    exact .refl _

/-- **C05 (termination).** If no item comes after itself, sorting finishes: a number of rounds (loop
iterations per partition, and depth of recursion) larger than the length of the array suffices. -/
theorem C05_sort_terminates (cmp : α → α → Int) (hrefl : ∀ x, cmp x x ≤ 0) (a : Array α)
    (fuel : Nat) (hf : a.size < fuel) : ∃ b, sort cmp fuel a = .ok b ∧ b.Perm a := by
  unfold sort
  split
  · obtain ⟨b, h, hs, _⟩ := qsortEx_spec hrefl fuel a 0 a.size (Nat.le_refl _) (by omega)
    exact ⟨b, h, hs.perm⟩
  · exact ⟨a, rfl, .refl _⟩

/-- **C05 (correctness).** For a comparison that follows a total preorder, sorting finishes with a
sorted permutation of the array. -/
theorem C05_sort_sorts (cmp : α → α → Int) (h : Spec.TotalPreorder cmp) (a : Array α) (fuel : Nat)
    (hf : a.size < fuel) :
    ∃ b, sort cmp fuel a = .ok b ∧ b.Perm a ∧ Spec.Sorted cmp b.toList := by
  have hrefl : ∀ x, cmp x x ≤ 0 := by
    intro x
    have := h.total x x
    omega
  unfold sort
  split
  · obtain ⟨b, hb, hs, hso⟩ := qsortEx_spec hrefl fuel a 0 a.size (Nat.le_refl _) (by omega)
    refine ⟨b, hb, hs.perm, ?_⟩
    rw [Spec.Sorted, List.pairwise_iff_getElem]
    intro i j hi hj hij
    simp only [Array.length_toList] at hi hj
    exact hso h i j _ _ (Nat.zero_le _) hij (by rw [← hs.size]; exact hj)
      (by simp [hi]) (by simp [hj])
  · refine ⟨a, rfl, .refl _, ?_⟩
    have : a = #[] := by apply Array.eq_empty_of_size_eq_zero; omega
    subst this
    exact List.Pairwise.nil

/-- The comparison "equal items are out of order, all others in order". -/
def badCompare (x y : Nat) : Int := if x = y then 1 else -1

/-- **C05 (termination needs reflexivity).** With a comparison function that puts equal items after
each other, the partition loop swaps the ends of a two-item array forever, whatever the number of
rounds. -/
theorem C05_sort_terminates_violated (fuel : Nat) :
    sort badCompare fuel #[1, 2] = .error .fuel := by
  have hloop : ∀ n, partLoop badCompare 0 1 n #[1, 2] 0 1 = .error .fuel ∧
      partLoop badCompare 0 1 n #[2, 1] 0 1 = .error .fuel := by
    intro n
    induction n with
    | zero => exact ⟨rfl, rfl⟩
    | succ n ih =>
      constructor
      · simp only [partLoop]
        simpa [scanUp, scanDown, badCompare, swapAt, Array.swap] using ih.2
      · simp only [partLoop]
        simpa [scanUp, scanDown, badCompare, swapAt, Array.swap] using ih.1
  cases fuel with
  | zero => rfl
  | succ n => simp [sort, qsortEx, partition, hloop]

/-- **C06, negative part.** The 64-bit value of the user's comparison function is truncated to 32
bits: a comparison that follows a total preorder, but answers with 2^32 instead of 1, leaves an
unsorted array. -/
theorem C06_comparator_truncated_violated :
    ∃ (f : Int → Int → Int), Spec.TotalPreorder f ∧ (∀ x y, -2 ^ 63 ≤ f x y ∧ f x y < 2 ^ 63) ∧
      ∃ (a b : Array Int), sort (userCompare f) 10 a = .ok b ∧ ¬ Spec.Sorted f b.toList := by
  refine ⟨fun x y => if x < y then -2 ^ 32 else if x = y then 0 else 2 ^ 32, ?_, ?_,
    #[1, 2], #[2, 1], ?_, ?_⟩
  · constructor
    · intro x y; grind
    · intro x y z; grind
  · intro x y; dsimp only; grind
  · simp [sort, qsortEx, partition, partLoop, scanUp, scanDown, swapAt, userCompare, Int.bmod,
      Array.swap]
  · simp [Spec.Sorted]

/-- **C06, partial.** For a comparison function whose answers fit in 32 bits the user's function is
followed exactly.  Missing for the full property: answers outside the 32-bit range, for which the
property is false (see `C06_comparator_truncated_violated`). -/
theorem C06_comparator_honoured_partial (f : α → α → Int) (h : Spec.TotalPreorder f)
    (hr : ∀ x y, -2 ^ 31 ≤ f x y ∧ f x y < 2 ^ 31) (a : Array α) (fuel : Nat) (hf : a.size < fuel) :
    ∃ b, sort (userCompare f) fuel a = .ok b ∧ b.Perm a ∧ Spec.Sorted f b.toList := by
  have e : userCompare f = f := by
    funext x y
    have := hr x y
    rw [userCompare, Int.bmod_eq_of_le (by omega) (by omega)]
  rw [e]
  exact C05_sort_sorts f h a fuel hf

/-- **C07.** `sort(a, ascending)`: for items compared by a total preorder, the result is a
permutation of the array, ascending or descending as asked. -/
theorem C07_sort_fast (diff : α → α → Int) (ht : Spec.TotalPreorder diff)
    (hsym : ∀ x y, diff x y < 0 ↔ diff y x > 0)
    (a : Array α) (fuel : Nat) (hf : a.size < fuel) (ascending : Bool) :
    ∃ b, sort (fastCompare diff ascending) fuel a = .ok b ∧ b.Perm a ∧
      b.toList.Pairwise (fun x y => if ascending then diff x y ≤ 0 else diff x y ≥ 0) := by
  have hp : Spec.TotalPreorder (fastCompare diff ascending) := by
    cases ascending
    · have key : ∀ x y, fastCompare diff false x y ≤ 0 ↔ diff y x ≤ 0 := by
        intro x y
        have h1 := hsym x y
        have h2 := hsym y x
        simp only [fastCompare]
        grind
      constructor
      · intro x y h
        rw [key]
        have := key x y
        apply ht.total
        omega
      · intro x y z h1 h2
        rw [key] at *
        exact ht.trans _ _ _ h2 h1
    · have key : ∀ x y, fastCompare diff true x y ≤ 0 ↔ diff x y ≤ 0 := by
        intro x y
        simp only [fastCompare]
        grind
      constructor
      · intro x y h
        rw [key]
        have := key x y
        apply ht.total
        omega
      · intro x y z h1 h2
        rw [key] at *
        exact ht.trans _ _ _ h1 h2
  obtain ⟨b, h1, h2, h3⟩ := C05_sort_sorts _ hp a fuel hf
  refine ⟨b, h1, h2, h3.imp ?_⟩
  intro x y h
  have h1 := hsym x y
  have h2 := hsym y x
  cases ascending <;> simp only [fastCompare] at h ⊢ <;> grind

/-! ### Non-vacuity -/

theorem int_preorder : Spec.TotalPreorder (fun x y : Int => x - y) where
  total := by intro x y; omega
  trans := by intro x y z; omega

example : ∃ b, sort (fun x y : Int => x - y) 6 #[3, 1, 2, 3, 0] = .ok b ∧
    b = #[0, 1, 2, 3, 3] ∧ Spec.Sorted (fun x y : Int => x - y) b.toList := by
  refine ⟨#[0, 1, 2, 3, 3], ?_, rfl, by simp [Spec.Sorted]⟩
  simp [sort, qsortEx, partition, partLoop, scanUp, scanDown, swapAt, Array.swap]

example : ∀ x y : Bool, -2 ^ 31 ≤ (x.toNat - y.toNat : Int) ∧ (x.toNat - y.toNat : Int) < 2 ^ 31 := by
  decide

example : sort (fastCompare (fun x y : Int => x - y) false) 4 #[1, 3, 2] = .ok #[3, 2, 1] := by
  simp [sort, qsortEx, partition, partLoop, scanUp, scanDown, swapAt, Array.swap, fastCompare]

end Umka.Sort
