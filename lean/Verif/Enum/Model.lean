import Verif.Arith.Model

/-!
# Enum: model

Enumeration types and constant declarations (`umka_decl.c`, `umka_types.c`).

An expression is given by its type and value (constant folding is the subject of `Verif/Arith`).  Names are numbers; `zeroName` is `zero`.
Syntax errors and the checks of the names of constants against other declarations (`Verif/Scope`) are left out.
-/

namespace Umka.Enum

open Umka.Arith (Kind Slot typeOverflow)

abbrev Name := Nat

/-- The name `zero`. -/
def zeroName : Name := 0

inductive Err
  | overflow (k : Kind)
  | duplicateName (n : Name)
  | duplicateValue (v : Int)
  | incompatible
  | expectedEq
  | badConstType
  deriving DecidableEq, Repr

/-- Outcome: a result, an error reported to the user, or undefined behaviour of the C program. -/
inductive Res (α : Type)
  | ok (a : α)
  | err (e : Err)
  | ub
  deriving DecidableEq, Repr

/-- The type of a constant expression, as far as it matters: an integer type; an enumeration; a character or Boolean; a real, string or
closure; anything else. -/
inductive CType
  | integer (k : Kind)
  | enumeration (k : Kind)
  | ordinal (k : Kind)
  | valid
  | other
  deriving DecidableEq, Repr

/-- `typeInteger`, `umka_types.h:248-251`. -/
def CType.isInteger : CType → Bool
  | .integer _ => true
  | _ => false

structure Expr where
  type : CType
  val : Slot
  deriving DecidableEq, Repr

/-- An item of an enumeration or of a constant declaration. -/
structure Item where
  name : Name
  expr : Option Expr
  deriving DecidableEq, Repr

/-- `constant->intVal++`, `umka_decl.c:320`, `umka_decl.c:599`: signed overflow is undefined. -/
def incr (c : Slot) : Res Slot := if c.toInt = 2 ^ 63 - 1 then .ub else .ok (c + 1)

/-! ## Enumerations -/

/-- `typeFindEnumConst`, `umka_types.c:735-744`. -/
def find (cs : List (Name × Slot)) (n : Name) : Option (Name × Slot) := cs.find? (fun c => c.1 == n)

/-- `typeFindEnumConstByVal`, `umka_types.c:756-765`. -/
def findByVal (cs : List (Name × Slot)) (v : Slot) : Option (Name × Slot) := cs.find? (fun c => c.2 == v)

/-- `typeAddEnumConst`, `umka_types.c:768-792`. -/
def addConst (cs : List (Name × Slot)) (n : Name) (v : Slot) : Res (List (Name × Slot)) :=
  if (find cs n).isSome then .err (.duplicateName n)
  else if (findByVal cs v).isSome then .err (.duplicateValue v.toInt)
  else .ok (cs ++ [(n, v)])

/-- The value of an item, `umka_decl.c:319-327`. -/
def itemValue (item : Item) (c : Slot) : Res Slot :=
  match item.expr with
  | none => incr c
  | some e => if e.type.isInteger then .ok e.val else .err .incompatible

/-- `parseEnumItem`, `umka_decl.c:311-333`. -/
def parseEnumItem (k : Kind) (cs : List (Name × Slot)) (c : Slot) (item : Item) : Res (List (Name × Slot) × Slot) :=
  match itemValue item c with
  | .err e => .err e
  | .ub => .ub
  | .ok v =>
    if typeOverflow k v then .err (.overflow k)
    else
      match addConst cs item.name v with
      | .err e => .err e
      | .ub => .ub
      | .ok cs => .ok (cs, v)

/-- The loop of `parseEnumType`, `umka_decl.c:356-360`. -/
def parseEnumItems (k : Kind) : List Item → List (Name × Slot) → Slot → Res (List (Name × Slot))
  | [], cs, _ => .ok cs
  | item :: items, cs, c =>
    match parseEnumItem k cs c item with
    | .err e => .err e
    | .ub => .ub
    | .ok (cs, c) => parseEnumItems k items cs c

/-- `parseEnumType`, `umka_decl.c:337-368`. -/
def parseEnumType (k : Kind) (items : List Item) : Res (List (Name × Slot)) :=
  match parseEnumItems k items [] (-1) with
  | .err e => .err e
  | .ub => .ub
  | .ok cs => if (findByVal cs 0).isSome then .ok cs else addConst cs zeroName 0

/-! ## Constant declarations -/

/-- The condition `umka_decl.c:606`. -/
def CType.allowed : CType → Bool
  | .other => false
  | _ => true

/-- `parseConstDeclItem`, `umka_decl.c:588-611`. -/
def parseConstDeclItem (type : Option CType) (c : Slot) (item : Item) : Res (CType × Slot) :=
  match type, item.expr with
  | some (.integer k), none =>
    match incr c with
    | .err e => .err e
    | .ub => .ub
    | .ok v => if typeOverflow k v then .err (.overflow k) else .ok (.integer k, v)
  | _, none => .err .expectedEq
  | _, some e => if e.type.allowed then .ok (e.type, e.val) else .err .badConstType

/-- The loop of `parseConstDecl`, `umka_decl.c:625-629`: the type and the value of the previous constant are kept. -/
def parseConstItems : List Item → Option CType → Slot → Res (List (Name × CType × Slot))
  | [], _, _ => .ok []
  | item :: items, type, c =>
    match parseConstDeclItem type c item with
    | .err e => .err e
    | .ub => .ub
    | .ok (t, v) =>
      match parseConstItems items (some t) v with
      | .err e => .err e
      | .ub => .ub
      | .ok cs => .ok ((item.name, t, v) :: cs)

/-- `parseConstDecl`, `umka_decl.c:615-633`; `c0`: the uninitialised variable `constant`. -/
def parseConstDecl (c0 : Slot) (items : List Item) : Res (List (Name × CType × Slot)) := parseConstItems items none c0

end Umka.Enum
