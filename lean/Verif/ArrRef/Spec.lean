import Verif.ArrRef.Model
/-! # Reference counts of dynamic arrays: specification -/

namespace Umka.ArrRef.Spec

/-- The references held by variables. -/
def held (s : State) : List Nat := s.arrs.filterMap id ++ s.vals.flatten

/-- The references held by the items of an array that is not free. -/
def inside (c : Chunk) : List Nat := if 0 < c.rc then c.items.flatten else []

/-- All references that can be used. -/
def references (s : State) : List Nat := held s ++ s.heap.flatMap inside

/-- The reference count of a chunk; 0 if there is no such chunk. -/
def count (h : Heap) (k : Nat) : Nat := ((h[k]?).map (·.rc)).getD 0

/-- Every chunk is counted exactly as often as it is referred to. -/
def Exact (s : State) : Prop := ∀ k, count s.heap k = (references s).count k

/-- The errors that a program can make. -/
def Mistake (e : Err) : Prop := e = .index ∨ e = .null ∨ e = .noVar

/-- The items of the array in a variable. -/
def contents (s : State) (a : Nat) : Option (List Item) :=
  match s.arrs[a]? with
  | none => none
  | some none => some []
  | some (some k) => (s.heap[k]?).map (·.items)

def source (s : State) : Src → Option Item
  | .var v => s.vals[v]?
  | .item b j _ => (contents s b).bind (·[j]?)

/-- The array that the language reference promises as the result; nothing for other operations. -/
def result (s : State) : Op → Option (List Item)
  | .make n => some (List.replicate n [])
  | .literal vs => vs.mapM (s.vals[·]?)
  | .copy a => contents s a
  | .append a src => (contents s a).bind fun l => (source s src).map fun x => l ++ [x]
  | .appendAll a b => (contents s a).bind fun l => (contents s b).map fun m => l ++ m
  | .insert a i src => (contents s a).bind fun l => (source s src).map fun x => l.insertIdx i x
  | .delete a i => (contents s a).map fun l => l.eraseIdx i
  | .slice a i j => (contents s a).map fun l => (l.take j).drop i
  | _ => none

/-- The operations that have an array as their result. -/
def Builtin : Op → Prop
  | .make _ | .literal _ | .copy _ | .append .. | .appendAll .. | .insert .. | .delete .. | .slice .. => True
  | _ => False

/-- The item to be inserted is given by its place in the same chunk, after the place where it goes. -/
def Overlap (s : State) : Op → Prop
  | .insert a i (.item b j true) => s.arrs[a]? = s.arrs[b]? ∧ i < j
  | _ => False

/-- No array contains itself, directly or not: there are ranks that increase from arrays to the arrays in their items. -/
def Acyclic (h : Heap) : Prop :=
  ∃ rank : Nat → Nat, ∀ (j k : Nat) (c : Chunk), h[j]? = some c → k ∈ c.items.flatten → rank j < rank k

end Umka.ArrRef.Spec
