import Verif.Compare.Model

/-! # Comparison: specification

A value is a finite tree; trees are compared lexicographically.  `decode` reads the tree that a slot
denotes: it follows the type, and uses of the model only the memory accessors. -/

namespace Umka.Compare.Spec

/-- The value of an expression of a comparable type. -/
inductive Value
  | int (v : Int)
  | real (v : Int)                -- finite reals only
  | str (bytes : List Nat)
  | seq (items : List Value)      -- array, structure or dynamic array

/-- Lexicographic order of lists of numbers. -/
def cmpBytes : List Nat → List Nat → Ordering
  | [], [] => .eq
  | [], _ :: _ => .lt
  | _ :: _, [] => .gt
  | a :: as, b :: bs => if a < b then .lt else if b < a then .gt else cmpBytes as bs

/-- Order of integers. -/
def cmpInt (a b : Int) : Ordering := if a < b then .lt else if b < a then .gt else .eq

mutual
/-- Numbers by size, strings and sequences lexicographically.  (Values of one type always have the same
constructor; for definiteness different constructors are ordered as listed.) -/
def cmp : Value → Value → Ordering
  | .int a, .int b => cmpInt a b
  | .real a, .real b => cmpInt a b
  | .str a, .str b => cmpBytes a b
  | .seq a, .seq b => cmpList a b
  | .int _, _ => .lt
  | _, .int _ => .gt
  | .real _, _ => .lt
  | _, .real _ => .gt
  | .str _, .seq _ => .lt
  | .seq _, .str _ => .gt

/-- The first difference decides; a proper prefix comes first. -/
def cmpList : List Value → List Value → Ordering
  | [], [] => .eq
  | [], _ :: _ => .lt
  | _ :: _, [] => .gt
  | a :: as, b :: bs =>
    match cmp a b with
    | .eq => cmpList as bs
    | o => o
end

/-- Read all items, if all can be read. -/
def decodeList {α : Type} (f : α → Option Value) : List α → Option (List Value)
  | [] => some []
  | a :: as =>
    match f a, decodeList f as with
    | some v, some vs => some (v :: vs)
    | _, _ => none

/-- The tree that an expression denotes, if it is at most `depth` deep.  Every number has to be small
enough for the differences to fit in 64 bits, reals have to be finite. -/
def decode (env : Env) (m : Mem) : Nat → Nat → Slot → Option Value
  | 0, _, _ => none
  | depth + 1, type, slot =>
    match env type, slot with
    | .int, .int v => if -2 ^ 62 ≤ v ∧ v < 2 ^ 62 then some (.int v) else none
    | .uint, .uint v => some (.int v)
    | .real, .real (.fin v) => some (.real v)
    | .ptr, .ptr v => if v < 2 ^ 63 then some (.int v) else none
    | .weakptr, .weak v => if v < 2 ^ 63 then some (.int v) else none
    | .str, .ptr p => some (.str (m.str p))
    | .array n base size, .ptr p =>
      (decodeList (fun i => decode env m depth base (derefItem m (env base) (p + i * size)))
        (List.range n)).map .seq
    | .struct fields, .ptr p =>
      (decodeList (fun f : Nat × Nat => decode env m depth f.2 (derefItem m (env f.2) (p + f.1)))
        fields).map .seq
    | .dynarray base size, .ptr p =>
      (decodeList (fun i => decode env m depth base (derefItem m (env base) ((m.dyn p).1 + i * size)))
        (List.range (m.dyn p).2)).map .seq
    | _, _ => none

/-- The sign of a number. -/
def sign (d : Int) : Ordering := if d < 0 then .lt else if d > 0 then .gt else .eq

/-- What the operators mean. -/
def holds : Op → Ordering → Bool
  | .eqeq, o => o == .eq
  | .noteq, o => o != .eq
  | .greater, o => o == .gt
  | .less, o => o == .lt
  | .greatereq, o => o != .lt
  | .lesseq, o => o != .gt

end Umka.Compare.Spec
