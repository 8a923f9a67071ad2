import Verif.Compare.Lemmas

/-! # Comparison: property C15 -/

namespace Umka.Compare.Props

open Umka.Compare Umka.Compare.Spec

/-- **C15, partial.** For every comparable type, and all values that are finite trees of finite reals,
numbers in -2^62 .. 2^62 - 1 (`uint` unrestricted), pointers below 2^63, strings, arrays, dynamic arrays
and structures: each comparison operator terminates and holds exactly if the lexicographic order of the
two trees says so.  Missing: signed 64-bit integers whose difference overflows, infinite reals and NaN,
and cyclic values, where the property is false (the `_violated` theorems below). -/
theorem C15_lexicographic_partial (env : Env) (m : Mem) (n type : Nat) (lhs rhs : Slot) (v w : Value)
    (hl : decode env m n type lhs = some v) (hr : decode env m n type rhs = some w) (op : Op) :
    compareOp env m n op type lhs rhs = some (holds op (cmp v w)) := by
  obtain ⟨d, hd, hs⟩ := doCompare_agree env m n type lhs rhs v w hl hr
  unfold compareOp
  rw [hd]
  simp only [Option.some.injEq]
  rw [← hs]
  have key : sign d = .lt ∧ d < 0 ∨ sign d = .eq ∧ d = 0 ∨ sign d = .gt ∧ d > 0 := by
    unfold sign; grind
  rcases key with ⟨h, h'⟩ | ⟨h, h'⟩ | ⟨h, h'⟩ <;> rw [h] <;> cases op <;>
    rw [Bool.eq_iff_iff] <;>
    simp only [Op.test, holds, beq_iff_eq, bne_iff_ne, ne_eq, decide_eq_true_eq, reduceCtorEq,
      not_false_eq_true, not_true_eq_false, iff_true, iff_false] <;> omega

/-- **C15, the exact range of integers.** Two integers are compared rightly by every operator exactly if their difference fits in 64 bits; if it does not, the
behaviour is undefined. -/
theorem C15_int_range (env : Env) (m : Mem) (n type : Nat) (a b : Int) (he : env type = .int) (op : Op) :
    compareOp env m (n + 1) op type (.int a) (.int b) =
      if -9223372036854775808 ≤ a - b ∧ a - b ≤ 9223372036854775807 then some (holds op (cmp (.int a) (.int b))) else none := by
  have hc : doCompare env m (n + 1) type (.int a) (.int b) = intDiff a b := by rw [doCompare]; exact he
  unfold compareOp
  rw [hc]
  unfold intDiff
  by_cases h : -9223372036854775808 ≤ a - b ∧ a - b ≤ 9223372036854775807
  · rw [if_pos h, if_pos (by omega)]
    simp only [cmp, cmpInt]
    congr 1
    rcases Int.lt_trichotomy a b with q | q | q <;> cases op <;> simp [Op.test, holds] <;> grind
  · rw [if_neg h, if_neg (by omega)]

example (m : Mem) : compareOp (fun _ => .int) m 1 .less 0 (.int (-9223372036854775808)) (.int 0) = some true := by
  rw [C15_int_range _ _ _ _ _ _ rfl]; rfl

/-- **C15, total order.** The lexicographic order of value trees is a total order: equal only for equal
trees, antisymmetric, total, and transitive. -/
theorem C15_total_order (a b c : Value) :
    (cmp a b = .eq ↔ a = b) ∧ (cmp a b = .gt ↔ cmp b a = .lt) ∧
    (cmp a b = .lt ∨ a = b ∨ cmp b a = .lt) ∧
    (cmp a b = .lt → cmp b c = .lt → cmp a c = .lt) := by
  have he := cmp_eq a b
  have hs := cmp_swap a b
  refine ⟨he, ?_, ?_, cmp_trans a b c⟩
  · rw [hs]; cases cmp a b <;> simp [Ordering.swap]
  · rw [hs, ← he]; cases cmp a b <;> simp [Ordering.swap]

/-- **C15, prefix.** In particular a dynamic array that is a proper prefix of another comes before it,
and the first differing item decides. -/
theorem C15_first_difference (p s t : List Value) (x y : Value) :
    cmp (.seq p) (.seq (p ++ x :: s)) = .lt ∧
    (cmp x y = .lt → cmp (.seq (p ++ x :: s)) (.seq (p ++ y :: t)) = .lt) := by
  have refl : ∀ z, cmp z z = .eq := fun z => (cmp_eq z z).2 rfl
  constructor
  · induction p with
    | nil => simp [cmp, cmpList]
    | cons z p ih =>
      simp only [cmp, List.cons_append, cmpList, refl] at ih ⊢
      exact ih
  · intro h
    induction p with
    | nil => simp [cmp, cmpList, h]
    | cons z p ih =>
      simp only [cmp, List.cons_append, cmpList, refl] at ih ⊢
      exact ih

/-! ### A concrete case: `struct {name: str; xs: []int}` -/

/-- type 0 is the structure, 1 is `str`, 2 is `[]int`, 3 is `int` -/
def sampleEnv : Env
  | 0 => .struct [(0, 1), (8, 2)]
  | 1 => .str
  | 2 => .dynarray 3 8
  | _ => .int

/-- Two structures at 100 and 200: `{"ab", [1, 2]}` and `{"ab", [1, 3]}`. -/
def sampleMem : Mem where
  load
    | .str, 100 => .ptr 1000
    | .str, 200 => .ptr 2000
    | .int, 308 => .int 2
    | .int, 408 => .int 3
    | .int, _ => .int 1
    | _, _ => .ptr 0
  dyn
    | 108 => (300, 2)
    | 208 => (400, 2)
    | _ => (0, 0)
  str _ := [97, 98]

example : decode sampleEnv sampleMem 3 0 (.ptr 100) =
      some (.seq [.str [97, 98], .seq [.int 1, .int 2]]) ∧
    decode sampleEnv sampleMem 3 0 (.ptr 200) = some (.seq [.str [97, 98], .seq [.int 1, .int 3]]) ∧
    cmp (.seq [.str [97, 98], .seq [.int 1, .int 2]]) (.seq [.str [97, 98], .seq [.int 1, .int 3]]) = .lt := by
  refine ⟨?_, ?_, ?_⟩
  · simp [decode, decodeList, sampleEnv, sampleMem, derefItem, List.range_succ]
  · simp [decode, decodeList, sampleEnv, sampleMem, derefItem, List.range_succ]
  · simp [cmp, cmpList, cmpBytes, cmpInt]

/-! ### Where the property is false -/

/-- An array of one `int`: type 0 is `[1]int`, type 1 is `int`. -/
def intArrayEnv : Env
  | 0 => .array 1 1 8
  | _ => .int

/-- **C15, negative part 1.** `[1]int{-2^63} < [1]int{1}` computes `-2^63 - 1`, which overflows: undefined
behaviour. -/
theorem C15_int_overflow_violated :
    ∃ m : Mem, m.load .int 8 = .int (-2 ^ 63) ∧ m.load .int 16 = .int 1 ∧
      ∀ fuel, doCompare intArrayEnv m (fuel + 2) 0 (.ptr 8) (.ptr 16) = .ub := by
  refine ⟨⟨fun _ a => if a = 8 then .int (-2 ^ 63) else .int 1, fun _ => (0, 0), fun _ => []⟩, rfl, rfl, ?_⟩
  intro fuel
  simp [doCompare, intArrayEnv, arrayItems, compareItems, derefItem, intDiff]

/-- An array of one `real`. -/
def realArrayEnv : Env
  | 0 => .array 1 1 8
  | _ => .real

/-- **C15, negative part 2.** An array holding an infinite real is not equal to itself, but less than
itself: the difference of two equal infinities is not a number. -/
theorem C15_infinity_violated :
    ∃ m : Mem, m.load .real 8 = .real .posInf ∧
      ∀ fuel, compareOp realArrayEnv m (fuel + 2) .eqeq 0 (.ptr 8) (.ptr 8) = some false ∧
        compareOp realArrayEnv m (fuel + 2) .less 0 (.ptr 8) (.ptr 8) = some true := by
  refine ⟨⟨fun _ _ => .real .posInf, fun _ => (0, 0), fun _ => []⟩, rfl, ?_⟩
  intro fuel
  constructor <;>
    simp [compareOp, doCompare, realArrayEnv, arrayItems, compareItems, derefItem, realDiff, Op.test]

/-- `type Tree = struct {children: []Tree}`: type 0 is `[]Tree`, type 1 is `Tree`. -/
def treeEnv : Env
  | 0 => .dynarray 1 16
  | _ => .struct [(0, 0)]

/-- The variable `a` at address 8 and the field `a[0].children` at address 100 both refer to the array
at address 100, of length 1: the effect of `a = make([]Tree, 1); a[0].children = a`. -/
def cyclicMem : Mem where
  load _ _ := .ptr 0
  dyn _ := (100, 1)
  str _ := []

/-- **C15, negative part 3.** Comparing such an array with itself never returns: the recursion exceeds
every bound. -/
theorem C15_cyclic_violated (fuel : Nat) :
    doCompare treeEnv cyclicMem fuel 0 (.ptr 8) (.ptr 8) = .fuel := by
  have h : ∀ n a b, doCompare treeEnv cyclicMem n 0 (.ptr a) (.ptr b) = .fuel ∧
      doCompare treeEnv cyclicMem n 1 (.ptr a) (.ptr b) = .fuel := by
    intro n
    induction n with
    | zero => intro a b; exact ⟨rfl, rfl⟩
    | succ n ih =>
      intro a b
      constructor
      · have hd : ∀ x, cyclicMem.dyn x = (100, 1) := fun _ => rfl
        simp only [doCompare, treeEnv, hd]
        rw [compareDyn]
        simp only [ge_iff_le, Nat.le_zero_eq, Nat.one_ne_zero, and_self, if_false, dite_false]
        simp only [derefItem]
        rw [(ih _ _).2]
      · simp only [doCompare, treeEnv]
        simp only [compareItems]
        simp only [derefItem]
        rw [(ih _ _).1]
  exact (h fuel 8 8).1

end Umka.Compare.Props
