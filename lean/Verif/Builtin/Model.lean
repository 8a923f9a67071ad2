/-!
# Calls of built-in functions: model

`parseBuiltinCall` and the functions it calls, `umka_expr.c:925-1702`, except the input and output functions (areas Printf and Scanf), with the effect on the stack of
the instructions they generate (`umka_vm.c:2212-3087, 3895-3980`).

Simplifications.  Arguments are given by their types; they have been parsed.  A call is refused or not, without the message.  Implicit conversions
(`doAssertImplicitTypeConv`, area Conv), equivalence and comparability of types (area Types) are parameters; a conversion does not change the number of slots.
-/

namespace Umka.Builtin

inductive Ty
  | void | null | bool | char | int | real | str | file | fiber
  /-- other types without structure: integers, enumerations -/
  | plain (n : Nat)
  | iface (n : Nat)
  | fn (n : Nat)
  | closure (n : Nat)
  /-- the type of functions without parameters and result: the base of `fiber` -/
  | thunk
  /-- the type of functions `fn (a, b: ^T): int`, `umka_expr.c:1240-1254` -/
  | comparer (t : Ty)
  | struct (n : Nat)
  | ptr (t : Ty)
  | weak (t : Ty)
  | array (len : Nat) (t : Ty)
  | dyn (t : Ty)
  | map (k t : Ty)
  deriving DecidableEq, Repr

structure Env where
  /-- `doAssertImplicitTypeConv` accepts: destination, source -/
  conv : Ty → Ty → Bool
  /-- `typeCompatible` -/
  compat : Ty → Ty → Bool
  /-- `typeEquivalent` -/
  equiv : Ty → Ty → Bool
  /-- `typeComparable` -/
  comparable : Ty → Bool
  /-- the fields of structures -/
  field : Nat → String → Option Ty

/-- `typeStructured`, `umka_types.h`. -/
def structured : Ty → Bool
  | .array _ _ | .dyn _ | .map _ _ | .struct _ | .iface _ | .closure _ | .thunk | .comparer _ => true
  | _ => false

inductive Fun
  | round | trunc | ceil | floor | abs | fabs | sqrt | sin | cos | atan | atan2 | exp | log
  | new | make | copy | append | insert | delete | slice | sort | len | cap | sizeof | sizeofself | selfptr | selfhasptr | selftypeeq | typeptr | valid
  | validkey | keys | resume | memusage | leaksan | exit
  deriving DecidableEq, Repr

inductive Arg
  /-- an expression, constant or not -/
  | expr (t : Ty) (const : Bool)
  /-- a type, by its unqualified name or not -/
  | type (t : Ty) (name : Bool)
  | name (s : String)
  deriving DecidableEq, Repr

/-- Generated code. -/
inductive Gen
  /-- the code of an argument -/
  | value (t : Ty)
  /-- a constant, a pointer to a global or local variable -/
  | push
  | pop
  | dup
  /-- `genRefCntAssign`, `genSwapAssign` -/
  | assign
  | call (f : Fun) (t : Ty)
  | sortFast
  deriving DecidableEq, Repr

/-- Slots taken from the stack and put on the stack by a built-in function, `umka_vm.c:2212-3087, 3895-3980`.  `exit` reads two slots and does not
return. -/
def callEffect : Fun → Ty → Nat × Nat
  | .atan2, _ => (2, 1)
  | .new, _ => (0, 1)
  | .make, .dyn _ => (2, 1)
  | .make, _ => (1, 1)
  | .copy, .str => (1, 1)
  | .copy, _ => (2, 1)
  | .append, _ => (4, 1)
  | .insert, _ => (4, 1)
  | .delete, _ => (3, 1)
  | .slice, _ => (4, 1)
  | .sort, _ => (3, 0)
  | .selftypeeq, _ => (2, 1)
  | .validkey, _ => (2, 1)
  | .keys, _ => (2, 1)
  | .resume, _ => (1, 0)
  | .memusage, _ => (0, 1)
  | .leaksan, _ => (1, 0)
  | .exit, _ => (2, 0)
  | _, _ => (1, 1)

def Gen.effect : Gen → Nat × Nat
  | .value .void => (0, 0)
  | .value _ => (0, 1)
  | .push => (0, 1)
  | .pop => (1, 0)
  | .dup => (1, 2)
  | .assign => (2, 0)
  | .call f t => callEffect f t
  | .sortFast => (3, 0)

/-- The code of an argument; none for a constant in a constant expression: `parseExpr(umka, type, constant)`. -/
def value (const : Bool) (t : Ty) : List Gen := if const then [] else [.value t]

/-- `parseBuiltinMathCall`, `umka_expr.c:925-958`. -/
def mathCall (E : Env) (const : Bool) (f : Fun) (args : List Arg) : Option (Ty × List Gen) :=
  let argType := if f = .abs then Ty.int else .real
  let result := if f = .round ∨ f = .trunc ∨ f = .ceil ∨ f = .floor ∨ f = .abs then Ty.int else .real
  let call := if const then [] else [Gen.call f argType]
  match args with
  | [.expr t c] =>
    if f ≠ .atan2 ∧ (const → c) ∧ E.conv argType t then some (result, value const t ++ call) else none
  | [.expr t c, .expr u d] =>
    if f = .atan2 ∧ (const → c ∧ d) ∧ E.conv argType t ∧ E.conv .real u then some (result, value const t ++ value const u ++ call) else none
  | _ => none

/-- `parseBuiltinNewCall`, `umka_expr.c:962-987`. -/
def newCall (E : Env) (args : List Arg) : Option (Ty × List Gen) :=
  match args with
  | [.type t _] => if t ≠ .void ∧ t ≠ .null then some (.ptr t, [.call .new t]) else none
  | [.type t _, .expr u _] =>
    if t ≠ .void ∧ t ≠ .null ∧ E.conv t u then some (.ptr t, [.call .new t, .dup, .value u, .assign]) else none
  | _ => none

/-- `parseBuiltinMakeCall`, `umka_expr.c:993-1033`. -/
def makeCall (E : Env) (args : List Arg) : Option (Ty × List Gen) :=
  match args with
  | [.type (.dyn b) _, .expr u _] => if E.compat .int u then some (.dyn b, [.value u, .push, .call .make (.dyn b)]) else none
  | [.type (.map k b) _] => some (.map k b, [.push, .call .make (.map k b)])
  | [.type .fiber _, .expr u _] => if E.conv .thunk u then some (.fiber, [.value u, .call .make .fiber]) else none
  | _ => none

/-- `parseBuiltinCopyCall`, `umka_expr.c:1039-1056`. -/
def copyCall (args : List Arg) : Option (Ty × List Gen) :=
  match args with
  | [.expr t _] =>
    match t with
    | .str | .dyn _ | .map _ _ => some (t, .value t :: (if structured t then [.push] else []) ++ [.call .copy t])
    | _ => none
  | _ => none

/-- The item of `append` and `insert` as a pointer, `umka_expr.c:1090-1099, 1134-1143`. -/
def itemCode (base : Ty) : List Gen := if structured base then [] else [.push, .assign, .push]

/-- `parseBuiltinAppendCall`, `umka_expr.c:1060-1108`. -/
def appendCall (E : Env) (args : List Arg) : Option (Ty × List Gen) :=
  match args with
  | [.expr (.dyn b) _, .expr u _] =>
    let whole := E.equiv (.dyn b) u || (match u with | .array _ c => E.equiv b c | _ => false)
    if whole then some (.dyn b, [.value (.dyn b), .value u, .push, .push, .call .append (.dyn b)])
    else if E.conv b u then some (.dyn b, [.value (.dyn b), .value u] ++ itemCode b ++ [.push, .push, .call .append (.dyn b)])
    else none
  | _ => none

/-- `parseBuiltinInsertCall`, `umka_expr.c:1112-1151`. -/
def insertCall (E : Env) (args : List Arg) : Option (Ty × List Gen) :=
  match args with
  | [.expr (.dyn b) _, .expr i _, .expr u _] =>
    if E.conv .int i ∧ E.conv b u then
      some (.dyn b, [.value (.dyn b), .value i, .value u] ++ itemCode b ++ [.push, .call .insert (.dyn b)])
    else none
  | _ => none

/-- `parseBuiltinDeleteCall`, `umka_expr.c:1156-1180`. -/
def deleteCall (E : Env) (args : List Arg) : Option (Ty × List Gen) :=
  match args with
  | [.expr (.dyn b) _, .expr i _] => if E.conv .int i then some (.dyn b, [.value (.dyn b), .value i, .push, .call .delete (.dyn b)]) else none
  | [.expr (.map k b) _, .expr i _] => if E.conv k i then some (.map k b, [.value (.map k b), .value i, .push, .call .delete (.map k b)]) else none
  | _ => none

/-- `parseBuiltinSliceCall`, `umka_expr.c:1184-1222`. -/
def sliceCall (E : Env) (args : List Arg) : Option (Ty × List Gen) :=
  let ok (t : Ty) : Bool := match t with | .dyn _ | .str => true | _ => false
  match args with
  | [.expr t _, .expr i _] => if ok t ∧ E.conv .int i then some (t, [.value t, .value i, .push, .push, .call .slice t]) else none
  | [.expr t _, .expr i _, .expr j _] =>
    if ok t ∧ E.conv .int i ∧ E.conv .int j then some (t, [.value t, .value i, .value j, .push, .call .slice t]) else none
  | _ => none

/-- `parseBuiltinSortCall`, `umka_expr.c:1227-1297`. -/
def sortCall (E : Env) (args : List Arg) : Option (Ty × List Gen) :=
  match args with
  | [.expr (.dyn b) _, .expr u _] =>
    if E.equiv u .bool then
      if E.comparable b then some (.void, [.value (.dyn b), .value u, .push, .sortFast]) else none
    else if E.conv (.comparer b) u then some (.void, [.value (.dyn b), .value u, .push, .call .sort b])
    else none
  | [.expr (.dyn (.struct n)) _, .expr u _, .name s] =>
    if E.equiv u .bool then
      match E.field n s with
      | some t => if E.comparable t then some (.void, [.value (.dyn (.struct n)), .value u, .push, .sortFast]) else none
      | none => none
    else none
  | _ => none

/-- `parseBuiltinLenCall`, `umka_expr.c:1301-1350`. -/
def lenCall (const : Bool) (args : List Arg) : Option (Ty × List Gen) :=
  match args with
  | [.expr t c] =>
    if const = true ∧ c = false then none
    else match t with
      | .array _ _ => some (.int, value const t ++ if const then [] else [.pop, .push])
      | .dyn _ | .map _ _ => if const then none else some (.int, [.value t, .call .len t])
      | .str => some (.int, value const t ++ if const then [] else [.call .len t])
      | _ => none
  | _ => none

/-- `parseBuiltinCapCall`, `umka_expr.c:1354-1385`. -/
def capCall (const : Bool) (args : List Arg) : Option (Ty × List Gen) :=
  match args with
  | [.expr t c] =>
    if const = true ∧ c = false then none
    else match t with
      | .dyn _ => if const then none else some (.int, [.value t, .call .cap t])
      | .str => some (.int, value const t ++ if const then [] else [.call .cap t])
      | _ => none
  | _ => none

/-- `parseBuiltinSizeOfCall`, `umka_expr.c:1389-1427`. -/
def sizeofCall (const : Bool) (args : List Arg) : Option (Ty × List Gen) :=
  match args with
  | [.type _ true] => some (.int, if const then [] else [.push])
  | [.expr t c] =>
    if const = true ∧ c = false then none
    else some (.int, value const t ++ (if t ≠ .void then [.pop] else []) ++ if const then [] else [.push])
  | _ => none

def isIface : Ty → Bool
  | .iface _ => true
  | _ => false

/-- `parseBuiltinSizeOfSelfCall`, `parseBuiltinSelfPtrCall`, `parseBuiltinSelfHasPtrCall`, `umka_expr.c:1430-1469`. -/
def selfCall (f : Fun) (result : Ty) (args : List Arg) : Option (Ty × List Gen) :=
  match args with
  | [.expr t _] => if isIface t then some (result, [.value t, .call f t]) else none
  | _ => none

/-- `parseBuiltinSelfTypeEqCall`, `umka_expr.c:1472-1491`. -/
def selfTypeEqCall (args : List Arg) : Option (Ty × List Gen) :=
  match args with
  | [.expr t _, .expr u _] => if isIface t ∧ isIface u then some (.bool, [.value t, .value u, .call .selftypeeq t]) else none
  | _ => none

/-- `parseBuiltinTypePtrCall`, `umka_expr.c:1495-1506`. -/
def typePtrCall (const : Bool) (args : List Arg) : Option (Ty × List Gen) :=
  match args with
  | [.type t _] => if t ≠ .void ∧ t ≠ .null then some (.ptr .void, if const then [] else [.push]) else none
  | _ => none

/-- `parseBuiltinValidCall`, `umka_expr.c:1509-1520`. -/
def validCall (args : List Arg) : Option (Ty × List Gen) :=
  match args with
  | [.expr t _] =>
    match t with
    | .dyn _ | .map _ _ | .iface _ | .fn _ | .closure _ | .thunk | .comparer _ | .fiber => some (.bool, [.value t, .call .valid t])
    | _ => none
  | _ => none

/-- `parseBuiltinValidKeyCall`, `umka_expr.c:1524-1543`. -/
def validKeyCall (E : Env) (args : List Arg) : Option (Ty × List Gen) :=
  match args with
  | [.expr (.map k b) _, .expr u _] => if E.conv k u then some (.bool, [.value (.map k b), .value u, .call .validkey (.map k b)]) else none
  | _ => none

/-- `parseBuiltinKeysCall`, `umka_expr.c:1547-1566`. -/
def keysCall (args : List Arg) : Option (Ty × List Gen) :=
  match args with
  | [.expr (.map k b) _] => some (.dyn k, [.value (.map k b), .push, .call .keys (.dyn k)])
  | _ => none

/-- `parseBuiltinResumeCall`, `umka_expr.c:1570-1589`. -/
def resumeCall (E : Env) (args : List Arg) : Option (Ty × List Gen) :=
  match args with
  | [] => some (.void, [.push, .call .resume .void])
  | [.expr t _] => if E.conv .fiber t then some (.void, [.value t, .call .resume .void]) else none
  | _ => none

/-- `parseBuiltinMemUsageCall`, `parseBuiltinLeakSanCall`, `parseBuiltinExitCall`, `umka_expr.c:1593-1642`. -/
def miscCall (E : Env) (f : Fun) (args : List Arg) : Option (Ty × List Gen) :=
  match f, args with
  | .memusage, [] => some (.int, [.call .memusage .int])
  | .leaksan, [.expr t _] => if E.conv .int t then some (.void, [.value t, .call .leaksan .void]) else none
  | .exit, [.expr t _] => if E.conv .int t then some (.void, [.value t, .push, .call .exit .void]) else none
  | .exit, [.expr t _, .expr u _] => if E.conv .int t ∧ E.conv .str u then some (.void, [.value t, .value u, .call .exit .void]) else none
  | _, _ => none

/-- `parseBuiltinCall`, `umka_expr.c:1646-1713`: the type of the result and the code; `const`: in a constant expression. -/
def call (E : Env) (const : Bool) (f : Fun) (args : List Arg) : Option (Ty × List Gen) :=
  match f with
  | .round | .trunc | .ceil | .floor | .abs | .fabs | .sqrt | .sin | .cos | .atan | .atan2 | .exp | .log => mathCall E const f args
  | .len => lenCall const args
  | .cap => capCall const args
  | .sizeof => sizeofCall const args
  | .typeptr => typePtrCall const args
  | f =>
    if const then none
    else match f with
      | .new => newCall E args
      | .make => makeCall E args
      | .copy => copyCall args
      | .append => appendCall E args
      | .insert => insertCall E args
      | .delete => deleteCall E args
      | .slice => sliceCall E args
      | .sort => sortCall E args
      | .sizeofself => selfCall .sizeofself .int args
      | .selfptr => selfCall .selfptr (.ptr .void) args
      | .selfhasptr => selfCall .selfhasptr .bool args
      | .selftypeeq => selfTypeEqCall args
      | .valid => validCall args
      | .validkey => validKeyCall E args
      | .keys => keysCall args
      | .resume => resumeCall E args
      | f => miscCall E f args

end Umka.Builtin
