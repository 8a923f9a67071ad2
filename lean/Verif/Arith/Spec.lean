import Verif.Arith.Model

/-! # Integer arithmetic: specification

What the language says about integers, in terms of mathematical integers only.  From the model only
the type of kinds, `Kind`, is used. -/

namespace Umka.Arith.Spec

/-- Smallest value of a type. -/
def lo : Kind → Int
  | .int8 => -2 ^ 7
  | .int16 => -2 ^ 15
  | .int32 => -2 ^ 31
  | .int => -2 ^ 63
  | _ => 0

/-- Largest value of a type. -/
def hi : Kind → Int
  | .int8 => 2 ^ 7 - 1
  | .int16 => 2 ^ 15 - 1
  | .int32 => 2 ^ 31 - 1
  | .int => 2 ^ 63 - 1
  | .uint8 => 2 ^ 8 - 1
  | .uint16 => 2 ^ 16 - 1
  | .uint32 => 2 ^ 32 - 1
  | .uint => 2 ^ 64 - 1
  | .bool => 1
  | .char => 2 ^ 8 - 1

/-- `v` is a value of the type `k`. -/
def InRange (k : Kind) (v : Int) : Prop := lo k ≤ v ∧ v ≤ hi k

instance (k : Kind) (v : Int) : Decidable (InRange k v) := inferInstanceAs (Decidable (_ ∧ _))

/-- The number that an expression of type `k` held in a 64-bit word denotes: unsigned for `uint`,
signed otherwise (intermediate results of narrow types are computed with 64 bits). -/
def value (k : Kind) (w : BitVec 64) : Int := if k = .uint then w.toNat else w.toInt

/-- Number of bytes a variable occupies. -/
def size : Kind → Nat
  | .int8 | .uint8 | .bool | .char => 1
  | .int16 | .uint16 => 2
  | .int32 | .uint32 => 4
  | .int | .uint => 8

/-- `q` and `r` are quotient and remainder of `x` by `y`, rounding towards zero. -/
def IsDivMod (x y q r : Int) : Prop :=
  x = q * y + r ∧ r.natAbs < y.natAbs ∧ (r = 0 ∨ (r < 0 ↔ x < 0))

/-- The integer types proper (arithmetic operators apply to these). -/
def IsInteger : Kind → Prop
  | .bool | .char => False
  | _ => True

instance (k : Kind) : Decidable (IsInteger k) := by
  cases k <;> simp only [IsInteger] <;> infer_instance

/-- The six relations on integers. -/
inductive Rel
  | eq | ne | gt | lt | ge | le

def Rel.holds : Rel → Int → Int → Bool
  | .eq, x, y => x = y
  | .ne, x, y => x ≠ y
  | .gt, x, y => x > y
  | .lt, x, y => x < y
  | .ge, x, y => x ≥ y
  | .le, x, y => x ≤ y

/-- How the relations are written. -/
def Rel.op : Rel → BinOp
  | .eq => .eqeq
  | .ne => .noteq
  | .gt => .greater
  | .lt => .less
  | .ge => .greatereq
  | .le => .lesseq

end Umka.Arith.Spec
