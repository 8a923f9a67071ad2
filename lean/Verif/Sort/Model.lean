/-!
# Sorting: model

Models `qsortSwap`, `qsortPartition`, `qsortEx` (umka_vm.c:845-893) and the comparison wrappers
(umka_vm.c:2728-2815).

Pointers `first`, `last`, `i`, `j` become array positions (the code steps by `itemSize` bytes and
only ever adds multiples of `itemSize` to `first`).  Every access is checked: touching a position
outside the array is the distinct outcome `oob`.  The loops are run with fuel; running out of it is
the outcome `fuel`.  The comparison function is a pure function of the two items: a comparison
function with side effects on the array being sorted is not modelled.
-/

namespace Umka.Sort

/-- Abnormal outcomes: access outside the array, or the step budget is exhausted. -/
inductive Fault where
  | oob
  | fuel
  deriving DecidableEq, Repr

abbrev Res (α : Type) := Except Fault α

/-- `qsortSwap` (umka_vm.c:849-854). -/
def swapAt {α : Type} (a : Array α) (i j : Nat) : Res (Array α) :=
  if h : i < a.size ∧ j < a.size then .ok (a.swap i j h.1 h.2) else .error .oob

/-- `while (compare(i, pivot, context) <= 0 && i < last) i += itemSize;` (umka_vm.c:866-867). -/
def scanUp {α : Type} (cmp : α → α → Int) (a : Array α) (pivot last i : Nat) : Res Nat :=
  match a[i]?, a[pivot]? with
  | some x, some p =>
    if cmp x p ≤ 0 ∧ i < last then scanUp cmp a pivot last (i + 1) else .ok i
  | _, _ => .error .oob
termination_by last - i
decreasing_by omega

/-- `while (compare(j, pivot, context) > 0 && j > first) j -= itemSize;` (umka_vm.c:869-870). -/
def scanDown {α : Type} (cmp : α → α → Int) (a : Array α) (pivot first j : Nat) : Res Nat :=
  match a[j]?, a[pivot]? with
  | some x, some p =>
    if cmp x p > 0 ∧ j > first then scanDown cmp a pivot first (j - 1) else .ok j
  | _, _ => .error .oob
termination_by j
decreasing_by omega

/-- The loop `while (i < j) {...}` of `qsortPartition` (umka_vm.c:864-874), `pivot = first`. -/
def partLoop {α : Type} (cmp : α → α → Int) (first last : Nat) :
    Nat → Array α → Nat → Nat → Res (Array α × Nat)
  | 0, _, _, _ => .error .fuel
  | fuel + 1, a, i, j =>
    if i < j then
      match scanUp cmp a first last i with
      | .error e => .error e
      | .ok i' =>
        match scanDown cmp a first first j with
        | .error e => .error e
        | .ok j' =>
          if i' < j' then
            match swapAt a i' j' with
            | .error e => .error e
            | .ok a' => partLoop cmp first last fuel a' i' j'
          else partLoop cmp first last fuel a i' j'
    else .ok (a, j)

/-- `qsortPartition` (umka_vm.c:857-879). -/
def partition {α : Type} (cmp : α → α → Int) (fuel : Nat) (a : Array α) (first last : Nat) :
    Res (Array α × Nat) :=
  match partLoop cmp first last fuel a first last with
  | .error e => .error e
  | .ok (a', j) =>
    match swapAt a' first j with
    | .error e => .error e
    | .ok a'' => .ok (a'', j)

/-- `qsortEx` (umka_vm.c:882-891).  The code takes the position of the last item; the model takes
`stop = last + 1`, since `partition - itemSize` (umka_vm.c:889) may lie before the array.
`first >= last` is `first + 1 ≥ stop`. -/
def qsortEx {α : Type} (cmp : α → α → Int) : Nat → Array α → Nat → Nat → Res (Array α)
  | 0, _, _, _ => .error .fuel
  | fuel + 1, a, first, stop =>
    if first + 1 ≥ stop then .ok a
    else
      match partition cmp (fuel + 1) a first (stop - 1) with
      | .error e => .error e
      | .ok (a1, p) =>
        match qsortEx cmp fuel a1 first p with
        | .error e => .error e
        | .ok a2 => qsortEx cmp fuel a2 (p + 1) stop

/-- `doBuiltinSort` (umka_vm.c:2761-2786) and `doBuiltinSortFast` (umka_vm.c:2816-2837): nothing is
done for an empty array. -/
def sort {α : Type} (cmp : α → α → Int) (fuel : Nat) (a : Array α) : Res (Array α) :=
  if a.size > 0 then qsortEx cmp fuel a 0 a.size else .ok a

/-- The return statement of `qsortCompare` (umka_vm.c:2757): the 64-bit `intVal` of the result
register is converted to the C return type `int` (32 bits; implementation-defined, wraps on all
supported platforms). -/
def userCompare {α : Type} (f : α → α → Int) (x y : α) : Int := (f x y).bmod (2 ^ 32)

/-- `qsortFastCompare` (umka_vm.c:2797-2813), with `diff` standing for `doCompare`. -/
def fastCompare {α : Type} (diff : α → α → Int) (ascending : Bool) (x y : α) : Int :=
  let sign := if ascending then 1 else -1
  if diff x y = 0 then 0 else if diff x y > 0 then sign else -sign

end Umka.Sort
