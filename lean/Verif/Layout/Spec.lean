/-! # Layout of structures, parameters and frames: specification -/

namespace Umka.Layout.Spec

/-- A part of memory: where it begins, how long it is, and its alignment. -/
structure Part where
  offset : Int
  size : Int
  alignment : Int
  deriving DecidableEq, Repr

/-- Two parts have no byte in common. -/
def Disjoint (a b : Part) : Prop :=
  ∀ x : Int, ¬(a.offset ≤ x ∧ x < a.offset + a.size ∧ b.offset ≤ x ∧ x < b.offset + b.size)

def Aligned (a : Part) : Prop := a.offset % a.alignment = 0

def Within (a : Part) (lo hi : Int) : Prop := lo ≤ a.offset ∧ a.offset + a.size ≤ hi

/-- The fields do not overlap, they are aligned, they lie inside the structure, and the size and the
alignment of the structure are such that the fields stay aligned in every item of an array of such
structures. -/
structure SoundStruct (fields : List Part) (size alignment : Int) : Prop where
  disjoint : fields.Pairwise Disjoint
  aligned : ∀ f ∈ fields, Aligned f
  within : ∀ f ∈ fields, Within f 0 size
  multiple : size % alignment = 0
  divides : ∀ f ∈ fields, alignment % f.alignment = 0

/-- Slots of a value: 8 bytes each. -/
def slots (size : Nat) : Nat := (size + 7) / 8

/-- Slots after parameter `i`, where it begins: the last parameter comes first. -/
def slotsAfter (sizes : List Nat) (i : Nat) : Nat := ((sizes.drop (i + 1)).map slots).sum

end Umka.Layout.Spec
