/-!
# Types: model

The comparison of types (`umka_types.c:319-520`).  The types of a program form a graph: a node per `Type` structure, with
pointers between them; recursive types are cycles of this graph.  A node is denoted by its number (its address).

Simplifications.  The default values of parameters are numbers; `dflt` says which of them are equal
(`typeDefaultParamEqual`, `umka_types.c:355-365`).  The recursion is given a bound on its depth, and the result is `none`
if the bound is reached; that some bound is never reached is one of the theorems.
-/

namespace Umka.Types

/-- `TypeKind`, `umka_types.h:12-41`. -/
inductive Kind
  | none | forward | void | null | int8 | int16 | int32 | int | uint8 | uint16 | uint32 | uint | bool | char | real32 | real
  | ptr | weakptr | array | dynarray | str | map | struct | interface | closure | fiber | fn
  deriving DecidableEq, Repr

/-- `Field`, `umka_types.h:114-119`; the offset does not matter here (C30). -/
structure Field (n : Nat) where
  name : String
  type : Fin n
  deriving DecidableEq

/-- `Param`, `umka_types.h:129-134`. -/
structure Param (n : Nat) where
  type : Fin n
  default : Nat
  deriving DecidableEq

/-- `Signature`, `umka_types.h:137-144`. -/
structure Sig (n : Nat) where
  params : List (Param n)
  numDefault : Nat
  isMethod : Bool
  isInterfaceMethod : Bool
  result : Fin n
  deriving DecidableEq

/-- `Type`, `umka_types.h:150-172`.  `base`, `fields` and `sig` are the parts of a union; which of them is in use depends on
`kind`. -/
structure Node (n : Nat) where
  kind : Kind
  block : Nat
  numItems : Nat
  isEnum : Bool
  typeIdent : Option Nat
  base : Fin n
  fields : List (Field n)
  sig : Sig n
  deriving DecidableEq

/-- The types of a program. -/
structure Graph where
  n : Nat
  node : Fin n → Node n
  dflt : Nat → Nat → Bool

/-- `typeKindIntegerOrEnum`, `umka_types.h:240-245`. -/
def Kind.integerOrEnum : Kind → Bool
  | .int8 | .int16 | .int32 | .int | .uint8 | .uint16 | .uint32 | .uint => true
  | _ => false

/-- `typeInteger`, `umka_types.h:248-251`. -/
def Node.integer {n : Nat} (t : Node n) : Bool := t.kind.integerOrEnum && !t.isEnum

/-- `typeEnum`, `umka_types.h:254-257`. -/
def Node.enum {n : Nat} (t : Node n) : Bool := t.kind.integerOrEnum && t.isEnum

/-- `typeOrdinal`, `umka_types.h:260-269`. -/
def Node.ordinal {n : Nat} (t : Node n) : Bool := t.kind.integerOrEnum || t.kind == .char || t.kind == .bool

/-- `typeReal`, `umka_types.h:272-281`. -/
def Node.real {n : Nat} (t : Node n) : Bool := t.kind == .real32 || t.kind == .real

/-- `typeMapKey`, `umka_types.h:479-482`: the type that the third field of the node structure (`MAP_NODE_FIELD_KEY`) points
to. -/
def mapKey (g : Graph) (m : Fin g.n) : Fin g.n :=
  match (g.node (g.node m).base).fields[2]? with
  | some f => (g.node f.type).base
  | none => (g.node m).base

/-- `a && b` of C, for calls that may reach the bound. -/
def both (a b : Option Bool) : Option Bool :=
  match a with
  | none => none
  | some false => some false
  | some true => b

/-- The loop over the fields, `umka_types.c:430-440`; the numbers of fields have been compared before. -/
def equivFields {n : Nat} (eq : Fin n → Fin n → Option Bool) : List (Field n) → List (Field n) → Option Bool
  | f :: fs, f' :: fs' =>
    if f.name ≠ f'.name then some false
    else both (eq f.type f'.type) (equivFields eq fs fs')
  | _, _ => some true

/-- The loop over the parameters, `umka_types.c:462-477`.  `i`: the number of the first parameter in the lists. -/
def equivParams {n : Nat} (eq : Fin n → Fin n → Option Bool) (dflt : Nat → Nat → Bool) (skipFirst : Bool)
    (firstDefault : Int) : Nat → List (Param n) → List (Param n) → Option Bool
  | i, p :: ps, p' :: ps' =>
    if i = 0 ∧ skipFirst = true then equivParams eq dflt skipFirst firstDefault (i + 1) ps ps'
    else both (eq p.type p'.type)
      (if (i : Int) ≥ firstDefault ∧ dflt p.default p'.default = false then some false
       else equivParams eq dflt skipFirst firstDefault (i + 1) ps ps')
  | _, _, _ => some true

/-- The part of `typeEquivalentRecursive` that looks at the structure of the types, `umka_types.c:388-486`.  `eq`: the recursive
call. -/
def look (g : Graph) (eq : Fin g.n → Fin g.n → Option Bool) (l r : Fin g.n) : Option Bool :=
  let L := g.node l
  let R := g.node r
  if L.kind ≠ R.kind then some false
  else if L.kind = .ptr ∨ L.kind = .weakptr then eq L.base R.base
  else if L.kind = .array then
    if L.numItems ≠ R.numItems then some false else eq L.base R.base
  else if L.kind = .dynarray then eq L.base R.base
  else if L.kind = .str then some true
  else if L.enum || R.enum then some false
  else if L.kind = .map then both (eq (mapKey g l) (mapKey g r)) (eq L.base R.base)
  else if L.kind = .struct ∨ L.kind = .interface ∨ L.kind = .closure then
    if L.fields.length ≠ R.fields.length then some false else equivFields eq L.fields R.fields
  else if L.kind = .fn then
    if L.sig.params.length ≠ R.sig.params.length then some false
    else if L.sig.numDefault ≠ R.sig.numDefault then some false
    else if L.sig.isMethod ≠ R.sig.isMethod then some false
    else both (equivParams eq g.dflt L.sig.isInterfaceMethod (L.sig.params.length - L.sig.numDefault : Int) 0
        L.sig.params R.sig.params)
      (eq L.sig.result R.sig.result)
  else some true

/-- `typeEquivalentRecursive`, `umka_types.c:368-487`.  `visited`: the pairs being compared. -/
def equivRec (g : Graph) : Nat → List (Fin g.n × Fin g.n) → Fin g.n → Fin g.n → Option Bool
  | 0, _, _, _ => none
  | depth + 1, visited, l, r =>
    if visited.contains (l, r) then some true
    else if l = r then some true
    else
      match (g.node l).typeIdent, (g.node r).typeIdent with
      | some a, some b => some (a == b && (g.node l).block == (g.node r).block)
      | _, _ => look g (equivRec g depth ((l, r) :: visited)) l r

/-- `typeEquivalent`, `umka_types.c:490-493`, with a bound on the depth of recursion. -/
def equivalent (g : Graph) (depth : Nat) (l r : Fin g.n) : Option Bool := equivRec g depth [] l r

/-- `typeCompatible`, `umka_types.c:506-518`. -/
def compatible (g : Graph) (depth : Nat) (l r : Fin g.n) : Option Bool :=
  match equivalent g depth l r with
  | none => none
  | some true => some true
  | some false =>
    some (((g.node l).integer && (g.node r).integer) || ((g.node l).real && (g.node r).real))

/-- The loop over the fields, `umka_types.c:338-342`. -/
def comparableFields {n : Nat} (cmp : Fin n → Option Bool) : List (Field n) → Option Bool
  | [] => some true
  | f :: fs => both (cmp f.type) (comparableFields cmp fs)

/-- `typeComparableRecursive`, `umka_types.c:319-346`. -/
def comparableRec (g : Graph) : Nat → List (Fin g.n) → Fin g.n → Option Bool
  | 0, _, _ => none
  | depth + 1, visited, t =>
    if visited.contains t then some true
    else
      let T := g.node t
      let cmp := comparableRec g depth (t :: visited)
      if T.ordinal || T.real || T.kind == .ptr || T.kind == .weakptr || T.kind == .str then some true
      else if T.kind = .array ∨ T.kind = .dynarray then cmp T.base
      else if T.kind = .struct then comparableFields cmp T.fields
      else some false

/-- `typeComparable`, `umka_types.c:349-352`. -/
def comparable (g : Graph) (depth : Nat) (t : Fin g.n) : Option Bool := comparableRec g depth [] t

end Umka.Types
