import Verif.Enum.Model
import Verif.Arith.Spec

/-!
# Enum: specification

`doc/lang.md:190`: "If the integer value of an enumeration constant is omitted, the value is obtained by incrementing the previous
constant's value by 1. For the first constant, 0 is assumed. If an enumeration type has no enumeration constant with the value 0, this
constant is declared implicitly: `zero = 0`."
-/

namespace Umka.Enum

open Umka.Arith (Kind Slot)
open Umka.Arith.Spec (InRange value lo hi)

/-- The number that an expression denotes. -/
def Expr.number (e : Expr) : Int :=
  match e.type with
  | .integer k => value k e.val
  | _ => e.val.toInt

/-- The numbers of the items, if the number before the first one is `prev`. -/
def numbers : Int → List Item → List Int
  | _, [] => []
  | prev, item :: items =>
    let v := match item.expr with
      | none => prev + 1
      | some e => e.number
    v :: numbers v items

/-- What makes an enumeration type legal. -/
def Legal (k : Kind) (items : List Item) : Prop :=
  (∀ item ∈ items, ∀ e, item.expr = some e → ∃ k, e.type = .integer k) ∧
  (∀ v ∈ numbers (-1) items, InRange k v) ∧
  (items.map (·.name)).Nodup ∧ (numbers (-1) items).Nodup ∧
  (0 ∉ numbers (-1) items → zeroName ∉ items.map (·.name))

/-- The constants of a legal enumeration type. -/
def constants (items : List Item) : List (Name × Int) :=
  (items.map (·.name)).zip (numbers (-1) items) ++ if 0 ∈ numbers (-1) items then [] else [(zeroName, 0)]

/-- The type and number of a constant, from those of the previous one in the declaration; `none`: not legal. -/
def constNumber (prev : Option (CType × Int)) (item : Item) : Option (CType × Int) :=
  match item.expr with
  | some e => if e.type = .other then none else some (e.type, e.number)
  | none =>
    match prev with
    | some (.integer k, v) => if InRange k (v + 1) then some (.integer k, v + 1) else none
    | _ => none

/-- The constants of a declaration; `none`: not legal. -/
def constNumbers : Option (CType × Int) → List Item → Option (List (Name × CType × Int))
  | _, [] => some []
  | prev, item :: items =>
    match constNumber prev item with
    | none => none
    | some (t, v) => (constNumbers (some (t, v)) items).map ((item.name, t, v) :: ·)

end Umka.Enum
