/-!
# TypeQuery: model

What the host can ask about types: `umkaGetBaseType`, `umkaGetFieldType`, `umkaGetMapKeyType` and
`umkaGetMapItemType` (`umka_api.c:329-334, 354-379`), on types as the compiler makes them
(`typeAdd`, `typeAddPtrTo`, `typeSetBase`, `typeFindField`, `typeAddField`, `umka_types.c:114-133,
174-187, 649-662, 674-733`, `umka_types.h:421-429`; `parsePtrType`, `parseArrayType`, `parseMapType`, `parseStructType`,
`umka_decl.c:250-305, 371-436`).

Types are numbers: the places where they are stored.  Sizes (area Layout), lengths of arrays and whether map keys can be
compared (area Types) are left out; so are types declared ahead (area TypeDecl).
-/

namespace Umka.TypeQuery

/-- Kinds of types, `umka_types.h:12-41`; `simple` stands for all kinds without `base` and fields. -/
inductive Kind where
  | void | simple | ptr | weakptr | array | dynarray | map | struct | interface | closure | forward
  deriving DecidableEq, Repr

/-- `Type`, `umka_types.h:152-174`: what matters here. -/
structure Rec where
  kind : Kind
  base : Option Nat := none
  fields : List (String × Nat) := []
  deriving DecidableEq, Repr

abbrev Store := List Rec

inductive Fault where
  | duplicateField | forwardField | voidField | voidItem
  /-- a pointer to nowhere is used -/
  | ub
  deriving DecidableEq, Repr

abbrev Res (α : Type) := Except Fault α

/-- `void` and `int`, `typeInitPredeclared`, `umka_types.c:50-66`. -/
def start : Store := [⟨.void, none, []⟩, ⟨.simple, none, []⟩]
def voidType : Nat := 0
def intType : Nat := 1

def deref (s : Store) (t : Nat) : Res Rec :=
  match s[t]? with
  | some r => .ok r
  | none => .error .ub

/-- `typeAdd`, `umka_types.c:114-133`. -/
def typeAdd (s : Store) (k : Kind) : Store × Nat := (s ++ [⟨k, none, []⟩], s.length)

/-- `typeSetBase`, `umka_types.h:421-429`. -/
def typeSetBase (s : Store) (t base : Nat) : Res Store := do
  let r ← deref s t
  if r.kind = .ptr ∨ r.kind = .weakptr ∨ r.kind = .array ∨ r.kind = .dynarray ∨ r.kind = .map then
    return s.set t { r with base := some base }
  else return s

/-- `typeAddPtrTo`, `typeAddWeakPtrTo`, `umka_types.c:174-187`. -/
def typeAddPtrTo (s : Store) (weak : Bool) (base : Nat) : Res (Store × Nat) := do
  let (s, t) := typeAdd s (if weak then .weakptr else .ptr)
  return (← typeSetBase s t base, t)

/-- `typeFindField`, `umka_types.c:649-662`. -/
def typeFindField (r : Rec) (name : String) : Option (String × Nat) :=
  if r.kind = .struct ∨ r.kind = .interface ∨ r.kind = .closure then r.fields.find? fun f => f.1 == name
  else none

/-- `typeAddField`, `umka_types.c:674-733`. -/
def typeAddField (s : Store) (t fieldType : Nat) (name : String) : Res Store := do
  let r ← deref s t
  if (typeFindField r name).isSome then .error .duplicateField
  else do
    let f ← deref s fieldType
    if f.kind = .forward then .error .forwardField
    else if f.kind = .void then .error .voidField
    else return s.set t { r with fields := r.fields ++ [(name, fieldType)] }

/-- The loop of `parseStructType`, `umka_decl.c:417-432`. -/
def addFields (s : Store) (t : Nat) : List (String × Nat) → Res Store
  | [] => .ok s
  | (name, ty) :: fs => do addFields (← typeAddField s t ty name) t fs

/-- The types that can be written, with the types they are made of; `simple`, `interface` and `closure` types
are included for comparison only (their own fields are in other areas). -/
inductive Decl where
  | ptr (weak : Bool) (base : Nat)
  | array (base : Nat)
  | dynarray (base : Nat)
  | map (key item : Nat)
  | struct (fields : List (String × Nat))
  | simple
  | interface
  | closure
  deriving DecidableEq, Repr

/-- `parsePtrType`, `parseArrayType`, `parseMapType`, `parseStructType`, `umka_decl.c:250-305, 371-436`. -/
def declare (s : Store) : Decl → Res (Store × Nat)
  | .ptr weak base => typeAddPtrTo s weak base
  | .array base => do
    if (← deref s base).kind = .void then .error .voidItem
    else do
      let (s, t) := typeAdd s .array
      return (← typeSetBase s t base, t)
  | .dynarray base => do
    if (← deref s base).kind = .void then .error .voidItem
    else do
      let (s, t) := typeAdd s .dynarray
      return (← typeSetBase s t base, t)
  | .map key item => do
    let (s, t) := typeAdd s .map
    let (s, ptrKey) ← typeAddPtrTo s false key
    if (← deref s item).kind = .void then .error .voidItem
    else do
      let (s, ptrItem) ← typeAddPtrTo s false item
      let (s, node) := typeAdd s .struct
      let (s, ptrNode) ← typeAddPtrTo s false node
      let s ← typeAddField s node intType "#len"
      let s ← typeAddField s node intType "#priority"
      let s ← typeAddField s node ptrKey "#key"
      let s ← typeAddField s node ptrItem "#data"
      let s ← typeAddField s node ptrNode "#left"
      let s ← typeAddField s node ptrNode "#right"
      return (← typeSetBase s t node, t)
  | .struct fields => do
    let (s, t) := typeAdd s .struct
    return (← addFields s t fields, t)
  | .simple => .ok (typeAdd s .simple)
  | .interface => .ok (typeAdd s .interface)
  | .closure => .ok (typeAdd s .closure)

/-- The types of a program, one after another: which type has which declaration. -/
def declareAll (s : Store) : List Decl → Res (Store × List (Nat × Decl))
  | [] => .ok (s, [])
  | d :: ds => do
    let (s, t) ← declare s d
    let (s, l) ← declareAll s ds
    return (s, (t, d) :: l)

/-! ## Queries -/

/-- `umkaGetBaseType`, `umka_api.c:329-334`; `none` is `NULL`. -/
def getBaseType (s : Store) (t : Nat) : Res (Option Nat) := do
  let r ← deref s t
  if r.kind = .ptr ∨ r.kind = .weakptr ∨ r.kind = .array ∨ r.kind = .dynarray then return r.base
  else return none

/-- `umkaGetFieldType`, `umka_api.c:354-363`. -/
def getFieldType (s : Store) (t : Nat) (name : String) : Res (Option Nat) := do
  let r ← deref s t
  if r.kind = .struct then
    match typeFindField r name with
    | some f => return some f.2
    | none => return none
  else return none

/-- `mapType->base->field[i]->type->base`: `typeMapKey`, `typeMapItem`, `umka_types.h:479-488`. -/
def nodeFieldBase (s : Store) (t i : Nat) : Res (Option Nat) := do
  match (← deref s t).base with
  | none => .error .ub
  | some node =>
    match (← deref s node).fields[i]? with
    | none => .error .ub
    | some f => return (← deref s f.2).base

/-- `umkaGetMapKeyType`, `umka_api.c:366-371`; `MAP_NODE_FIELD_KEY`, `umka_common.h:29`. -/
def getMapKeyType (s : Store) (t : Nat) : Res (Option Nat) := do
  if (← deref s t).kind = .map then nodeFieldBase s t 2 else return none

/-- `umkaGetMapItemType`, `umka_api.c:374-379`; `MAP_NODE_FIELD_DATA`, `umka_common.h:30`. -/
def getMapItemType (s : Store) (t : Nat) : Res (Option Nat) := do
  if (← deref s t).kind = .map then nodeFieldBase s t 3 else return none

end Umka.TypeQuery
