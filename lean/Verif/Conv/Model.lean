import Verif.Iface.Model
/-!
# Type conversions: model

Which conversions the compiler accepts, implicitly (`doImplicitTypeConvEx`, `umka_expr.c:571-689`), by a cast (`doExplicitTypeConv`,
`umka_expr.c:692-747`, `parseTypeCast`, 1977-1994) and for the operands of a binary operator (`doApplyOperator`, 772-797), which code it
generates for them, and the effect of this code on values.

Types are the nodes of the graph of `Verif/Types`; methods are looked up as in `Verif/Iface`.

Simplifications.  The code for a conversion is a tree of the basic conversions; only the loops over the items of a dynamic array and over an
expression list are executed here, the basic conversions being parameters (they are the subject of `Verif/Str`, `Arith`, `DynArr`, `Iface`,
`RefCnt`).  Reference counts are left out.  The values of constants are left out, except that it is modelled which conversions are refused in
constant expressions.  The error for a constant that is out of range (`typeConvOverflow`) is left out.  The recursion is given a bound, and
`endless` is the result if the bound is reached; in the program nothing stops it.
-/

namespace Umka.Conv

open Umka.Types (Graph Kind Node Field)
open Umka.Iface (Env)

/-- What the compiler knows.  `exprList`: `isExprList` (`umka_types.h:158`).  `sameAs`: the type of which a declared type is a copy
(`typeDeepCopy`, `umka_types.c:187-196`).  `ptrTo`: the result of `typeAddPtrTo` (`umka_types.c:174-184`). -/
structure World where
  e : Env
  exprList : Fin e.g.n → Bool
  sameAs : Fin e.g.n → Fin e.g.n
  ptrTo : Fin e.g.n → Fin e.g.n

abbrev World.T (w : World) : Type := Fin w.e.g.n

def World.node (w : World) (t : w.T) : Node w.e.g.n := w.e.g.node t

def World.kind (w : World) (t : w.T) : Kind := (w.e.g.node t).kind

def World.base (w : World) (t : w.T) : w.T := (w.e.g.node t).base

/-- `typeKindSigned`, `umka_types.h:294-297`. -/
def signed : Kind → Bool
  | .int8 | .int16 | .int32 | .int => true
  | _ => false

/-- `typeExprListStruct`, `umka_types.h:310-313`. -/
def World.exprListStruct (w : World) (t : w.T) : Bool :=
  w.kind t == .struct && w.exprList t && decide (0 < (w.node t).fields.length)

/-- The fields that `typeHasPtr` looks at, `umka_types.c:311-314`. -/
def hasPtrFields {n : Nat} (f : Fin n → Option Bool) : List (Field n) → Option Bool
  | [] => some false
  | x :: xs =>
    match f x.type with
    | none => none
    | some true => some true
    | some false => hasPtrFields f xs

/-- `typeHasPtr` with `alsoWeakPtr` set, `umka_types.c:298-317`.  `none`: the bound on the depth is reached. -/
def World.hasPtr (w : World) : Nat → w.T → Option Bool
  | 0, _ => none
  | depth + 1, t =>
    match w.kind t with
    | .ptr | .str | .map | .dynarray | .interface | .closure | .fiber | .weakptr => some true
    | .array => if (w.node t).numItems = 0 then some false else w.hasPtr depth (w.base t)
    | .struct => hasPtrFields (w.hasPtr depth) (w.node t).fields
    | _ => some false

/-- `typeImplicitlyConvertibleBaseTypes`, `umka_types.h:361-364`. -/
def World.implicitBase (w : World) (left right : w.T) : Bool := w.kind left == .void || w.kind right == .null

/-- `typeExplicitlyConvertibleBaseTypes`, `umka_types.h:367-370`; the depth of a type is less than the number of types. -/
def World.explicitBase (w : World) (left right : w.T) : Bool :=
  decide (w.e.size left ≤ w.e.size right) && w.hasPtr w.e.g.n left == some false && w.hasPtr w.e.g.n right == some false

/-- The code that a conversion generates.  `left`: it acts on the left operand of an operator, which is below the top of the stack. -/
inductive Code (n : Nat)
  | skip
  | assertRange (dest src : Kind)
  | makeReal (src : Kind) (left : Bool)
  | makeStr (src : Fin n) (left : Bool)
  | makeFromStr (dest : Fin n)
  | makeArr (dest : Fin n) (left : Bool)
  | makeFromArr (dest : Fin n) (len : Nat)
  | ptrToInterface (dest src : Fin n)
  | interfaceToInterface (dest src : Fin n)
  | valueToInterface (dest src : Fin n)
  | assertType (dest : Fin n)
  | assertTypeDeref (dest : Fin n)
  | weaken
  | strengthen (left : Bool)
  | makeClosure (dest : Fin n)
  /-- the loop over the items of a dynamic array -/
  | items (item : Code n)
  /-- one conversion for each item of an expression list -/
  | fields (items : List (Code n))

/-- The result of a conversion: code and the type of the converted value; or a compile-time error; or the compiler does not stop within the
bound. -/
inductive Out (α : Type)
  | ok (a : α) | error | endless
  deriving DecidableEq

def Out.bind {α β : Type} : Out α → (α → Out β) → Out β
  | .ok a, f => f a
  | .error, _ => .error
  | .endless, _ => .endless

abbrev Conv (w : World) : Type := Out (Code w.e.g.n × w.T)

/-- `umka->error.handler(...)` if this is a constant expression, otherwise the given result. -/
def World.noConst (w : World) (const : Bool) (r : Conv w) : Conv w := if const then .error else r

/-- The checks of `doPtrToInterfaceConv` (`umka_expr.c:354-415`); the code is in `Verif/Iface`.  `any(null)` is allowed in a constant: `any` is
recognised by having no methods and no name (`typeEquivalent(dest, anyType)`, `predecl.anyType` being equivalent to every interface without
methods), `null` by its base type. -/
def World.ptrToInterface (w : World) (const : Bool) (dest src : w.T) : Conv w :=
  if const then
    if (w.node dest).fields.length = 2 && w.kind (w.base src) == .null then .ok (.ptrToInterface dest src, dest) else .error
  else
    if ((w.node dest).fields.drop 2).all fun f => (Iface.methodEntry w.e src f).isSome then .ok (.ptrToInterface dest src, dest) else .error

/-- The check of one method in `doInterfaceToInterfaceConv` (`umka_expr.c:443-455`). -/
def World.declares (w : World) (src : w.T) (f : Field w.e.g.n) : Bool :=
  match Iface.findField f.name 0 (w.node src).fields with
  | none => false
  | some q => w.e.compat f.type q.2.type

/-- The checks of `doInterfaceToInterfaceConv` (`umka_expr.c:418-467`). -/
def World.interfaceToInterface (w : World) (const : Bool) (dest src : w.T) : Conv w :=
  w.noConst const <|
    if ((w.node dest).fields.drop 2).all (w.declares src) then .ok (.interfaceToInterface dest src, dest) else .error

/-- `doValueToInterfaceConv` (`umka_expr.c:470-479`). -/
def World.valueToInterface (w : World) (const : Bool) (dest src : w.T) : Conv w :=
  w.noConst const <| (w.ptrToInterface const dest (w.ptrTo src)).bind fun _ => .ok (.valueToInterface dest src, dest)

/-- `doAssertImplicitTypeConv` (`umka_expr.c:686-690`); `imp`: `doImplicitTypeConv`. -/
def World.assertImplicit (w : World) (imp : w.T → w.T → Conv w) (dest src : w.T) : Conv w :=
  (imp dest src).bind fun r => if w.e.compat dest r.2 then .ok r else .error

/-- The loop of `doExprListToExprListConv` (`umka_expr.c:548-561`). -/
def World.convFields (w : World) (imp : w.T → w.T → Conv w) :
    List (Field w.e.g.n) → List (Field w.e.g.n) → Out (List (Code w.e.g.n))
  | d :: ds, s :: ss =>
    (w.assertImplicit imp d.type s.type).bind fun r => (w.convFields imp ds ss).bind fun cs => .ok (r.1 :: cs)
  | _, _ => .ok []

/-- `doImplicitTypeConvEx` (`umka_expr.c:571-677`).  `lhs`, `rhs`: the expression is the left or the right operand of a binary operator. -/
def World.implicitEx (w : World) (const : Bool) : Nat → (lhs rhs : Bool) → (dest src : w.T) → Conv w
  | 0, _, _, _, _ => .endless
  | depth + 1, lhs, rhs, dest, src =>
    let operand := lhs || rhs
    -- Signed to 64-bit unsigned integer or vice versa
    if !operand && ((w.kind dest == .uint && signed (w.kind src)) || (signed (w.kind dest) && w.kind src == .uint)) then
      .ok (.assertRange (w.kind dest) (w.kind src), dest)
    -- Integer to real
    else if (w.node dest).real && (w.node src).integer then .ok (.makeReal (w.kind src) lhs, dest)
    -- Character to string
    else if w.kind dest == .str && w.kind src == .char then .ok (.makeStr src lhs, dest)
    -- Dynamic array to string
    else if w.kind dest == .str && w.kind src == .dynarray && w.kind (w.base src) == .char then
      w.noConst const <| .ok (.makeStr src lhs, dest)
    -- String to dynamic array
    else if !operand && w.kind dest == .dynarray && w.kind (w.base dest) == .char && w.kind src == .str then .ok (.makeFromStr dest, dest)
    -- Dynamic array to array
    else if w.kind dest == .array && w.kind src == .dynarray && w.e.equiv (w.base dest) (w.base src) then
      w.noConst const <| .ok (.makeArr dest lhs, dest)
    -- Array to dynamic array
    else if !operand && w.kind dest == .dynarray && w.kind src == .array && w.e.equiv (w.base dest) (w.base src) then
      .ok (.makeFromArr dest (w.node src).numItems, dest)
    -- Concrete to interface or interface to interface
    else if w.kind dest == .interface then
      if w.kind src == .interface then
        if !w.e.equiv dest src then w.interfaceToInterface const dest src else .ok (.skip, src)
      else if w.kind src == .ptr then
        if w.kind (w.base src) == .ptr then .error else w.ptrToInterface const dest src
      else if w.kind src != .void && !w.exprList src then w.valueToInterface const dest src
      else .ok (.skip, src)
    -- Pointer to pointer
    else if w.kind dest == .ptr && w.kind src == .ptr && w.implicitBase (w.base dest) (w.base src) then .ok (.skip, dest)
    -- Pointer to weak pointer
    else if !operand && w.kind dest == .weakptr && w.kind src == .ptr &&
        (w.e.equiv (w.base dest) (w.base src) || w.kind (w.base src) == .null) then
      w.noConst const <| .ok (.weaken, dest)
    -- Weak pointer to pointer
    else if w.kind dest == .ptr && w.kind src == .weakptr && (w.e.equiv (w.base dest) (w.base src) || w.kind (w.base dest) == .null) then
      w.noConst const <| .ok (.strengthen lhs, dest)
    -- Function to closure
    else if w.kind dest == .closure && w.kind src == .fn &&
        (match (w.node dest).fields with | f :: _ => w.e.equiv f.type src | [] => false) then
      w.noConst const <| .ok (.makeClosure dest, dest)
    -- Expression list to expression list
    else if !operand && w.exprListStruct dest && w.exprListStruct src && !w.e.equiv dest src &&
        (w.node dest).fields.length == (w.node src).fields.length then
      w.noConst const <|
        (w.convFields (w.implicitEx const depth false false) (w.node dest).fields (w.node src).fields).bind fun cs => .ok (.fields cs, dest)
    else .ok (.skip, src)

/-- `doExplicitTypeConv` (`umka_expr.c:693-747`) with `doDynArrayToDynArrayConv` (262-352). -/
def World.explicit (w : World) (const : Bool) : Nat → (dest src : w.T) → Conv w
  | 0, _, _ => .endless
  | depth + 1, dest, src =>
    (w.implicitEx const (depth + 1) false false dest src).bind fun (c, src) =>
      -- Type to same type (up to the type identifier)
      if w.sameAs dest == w.sameAs src then .ok (c, dest)
      -- Ordinal to ordinal or real to real
      else if ((w.node src).ordinal && (w.node dest).ordinal) || ((w.node src).real && (w.node dest).real) then
        .ok (.assertRange (w.kind dest) (w.kind src), dest)
      -- Pointer to pointer
      else if w.kind dest == .ptr && w.kind src == .ptr && w.explicitBase (w.base dest) (w.base src) then .ok (.skip, dest)
      -- Interface to concrete (type assertion)
      else if w.kind src == .interface && w.kind dest != .interface then
        w.noConst const <| if w.kind dest == .ptr then .ok (.assertType dest, dest) else .ok (.assertTypeDeref dest, dest)
      -- Dynamic array to string
      else if w.kind src == .dynarray && w.kind (w.base src) == .uint8 && w.kind dest == .str then
        w.noConst const <| .ok (.makeStr src false, dest)
      -- String to dynamic array
      else if w.kind src == .str && w.kind dest == .dynarray && w.kind (w.base dest) == .uint8 then .ok (.makeFromStr dest, dest)
      -- Dynamic array to dynamic array of another base type (covariant arrays)
      else if w.kind src == .dynarray && w.kind dest == .dynarray then
        w.noConst const <|
          (w.explicit const depth (w.base dest) (w.base src)).bind fun r =>
            if w.e.equiv (w.base dest) r.2 then .ok (.items r.1, dest) else .error
      else .ok (c, src)

/-- `dest(src)`: `parseTypeCast` (`umka_expr.c:1977-1994`). -/
def World.cast (w : World) (const : Bool) (depth : Nat) (dest src : w.T) : Conv w :=
  (w.explicit const depth dest src).bind fun r => if w.e.equiv dest r.2 then .ok (r.1, dest) else .error

/-- An expression of type `src` where `dest` is expected, as in an assignment: `doAssertImplicitTypeConv` (`umka_expr.c:686-690`). -/
def World.give (w : World) (const : Bool) (depth : Nat) (dest src : w.T) : Conv w :=
  w.assertImplicit (w.implicitEx const depth false false) dest src

/-- Binary operators.  The comparison operators have the same rules, as have the others in each group. -/
inductive Op
  | plus | arith | bits | logic | compare
  deriving DecidableEq

/-- `typeValidOperator` (`umka_types.c:575-613`) for binary operators. -/
def World.validOperator (w : World) (t : w.T) : Op → Bool
  | .plus => (w.node t).integer || (w.node t).real || w.kind t == .str
  | .arith => (w.node t).integer || (w.node t).real
  | .bits => (w.node t).integer
  | .logic => w.kind t == .bool
  | .compare => Types.comparable w.e.g (w.e.g.n + 1) t == some true

/-- `doApplyOperator` (`umka_expr.c:772-797`): the conversion of the right and of the left operand, and the type the operator is applied to.
`convertLhs` is not set for `op=`, where the left operand is a variable. -/
def World.operator (w : World) (const : Bool) (depth : Nat) (convertLhs : Bool) (op : Op) (l r : w.T) :
    Out (Code w.e.g.n × Code w.e.g.n × w.T) :=
  (w.implicitEx const depth false true l r).bind fun (cr, r) =>
    (if convertLhs then w.implicitEx const depth true false r l else .ok (.skip, l)).bind fun (cl, l) =>
      if w.e.compat l r && w.validOperator l op then .ok (cl, cr, l) else .error

/-! ## Values -/

/-- Values.  `B`: the values that are not dynamic arrays or expression lists. -/
inductive Val (B : Type)
  | basic (b : B)
  | array (items : List (Val B))
  | list (items : List (Val B))

/-- A result, a run-time error, or something that does not happen in a typed program. -/
inductive Res (α E : Type)
  | ok (a : α) | err (e : E) | stuck

def Res.bind {α β E : Type} : Res α E → (α → Res β E) → Res β E
  | .ok a, f => f a
  | .err e, _ => .err e
  | .stuck, _ => .stuck

/-- The loop of `doDynArrayToDynArrayConv` (`umka_expr.c:291-343`).  `count`: the index plus one; `dest`: the array that is filled;
`genGetDynArrayPtr` stops the program if there is no item with this index. -/
def itemsLoop {B E : Type} (conv : Val B → Res (Val B) E) (src : List (Val B)) : (count : Nat) → (dest : List (Val B)) → Res (List (Val B)) E
  | 0, dest => .ok dest
  | i + 1, dest =>
    match src[i]? with
    | none => .stuck
    | some v => (conv v).bind fun x => if i < dest.length then itemsLoop conv src i (dest.set i x) else .stuck

mutual
/-- Execution of the code for a conversion.  `prim`: the basic conversions.  `zero`: the content of the new array (`BUILTIN_MAKE`), or list
(`doZeroVar`), before items are assigned. -/
def exec {n : Nat} {B E : Type} (prim : Code n → Val B → Res (Val B) E) (zero : Val B) : Code n → Val B → Res (Val B) E
  | .skip, v => .ok v
  | .items c, v =>
    match v with
    | .array xs => (itemsLoop (exec prim zero c) xs xs.length (List.replicate xs.length zero)).bind fun ys => .ok (.array ys)
    | _ => .stuck
  | .fields cs, v =>
    match v with
    | .list xs => (execFields prim zero cs xs 0 (List.replicate cs.length zero)).bind fun ys => .ok (.list ys)
    | _ => .stuck
  | c, v => prim c v

/-- The assignments to the fields of the destination list in `doExprListToExprListConv` (`umka_expr.c:548-561`). -/
def execFields {n : Nat} {B E : Type} (prim : Code n → Val B → Res (Val B) E) (zero : Val B) :
    List (Code n) → List (Val B) → Nat → List (Val B) → Res (List (Val B)) E
  | [], _, _, dest => .ok dest
  | c :: cs, src, i, dest =>
    match src[i]? with
    | none => .stuck
    | some v => (exec prim zero c v).bind fun x => execFields prim zero cs src (i + 1) (dest.set i x)
end

end Umka.Conv
