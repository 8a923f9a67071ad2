/-!
# Calls, composite literals and closures: model

The code that `parseActualParamsAndCall`, `parseVariadicParamList`, `parseArrayOrStructLiteral`, `parseDynArrayLiteral` and
`parseClosureLiteral` (`/repo/src/umka_expr.c:1715-1913`, `1995-2345`) and `parseFnBlock` (`/repo/src/umka_stmt.c:1300-1330`) generate, the checks
they make, and the instructions this code consists of.

Memory is a function from addresses to words.  A scalar takes one word, a structured value several.  On the stack a structured value is represented
by a pointer to it, except when it is a parameter: then its words themselves are on the stack.  Expressions and called functions are opaque and may
change memory.

Simplifications: words instead of bytes (sizes, alignment and narrow types are in `Verif/Layout` and `Verif/Arith`); no reference counts
(`Verif/RefCnt`, `Verif/Release`); a dynamic array consists of two words, the address of its data and its length (`Verif/DynArr`); local addresses
grow upwards; types of expressions are abstract, and the text of expressions does not depend on the types expected.
-/

namespace Umka.Call

/-- What matters about a type here. -/
inductive Ty
  | scalar
  | struct (size : Nat)
  deriving DecidableEq, Repr

def Ty.size : Ty → Nat
  | .scalar => 1
  | .struct k => k

/-- Memory, the first address of the heap that is not in use, and the registers `REG_SELF` and `REG_RESULT` (`umka_vm.h:12-20`). -/
structure World where
  mem : Nat → Int
  brk : Nat
  self : Int
  result : Int

/-- Code of an expression: it pushes one slot, or fails. -/
abbrev Code := World → Option (World × Int)

/-- Code of an implicit conversion. -/
abbrev Conv := World → Int → Option (World × Int)

/-- A function: it gets the slots of its parameters and leaves a result, or fails. -/
abbrev Callee := World → List Int → Option (World × Int)

inductive Instr
  | user (f : Code)
  | conv (c : Conv)
  | push (v : Int)
  | pushZeros (k : Nat)
  | pushSelf
  | popSelf
  | pushResult
  | pushUpvalue
  | passParam (k : Nat)
  | pushLocal (a : Nat)
  | zero (a n : Nat)
  | dup
  | pop
  | getField (off : Nat)
  | deref (ty : Ty)
  | assign (ty : Ty)
  | swapAssign (ty : Ty)
  | toDynArray (res n size : Nat)
  | toAny (res : Nat) (id : Int) (size : Nat)
  | fromAny (id : Int)
  | call (entry : Int) (slots : Nat)
  | callIndirect (slots : Nat)

structure M where
  w : World
  stack : List Int

/-- The words from `p` on. -/
def readWords (mem : Nat → Int) (p k : Nat) : List Int := (List.range k).map fun j => mem (p + j)

/-- `doAssignImpl` (`umka_vm.c:1018-1066`): store a scalar, or copy what the pointer points to. -/
def store (mem : Nat → Int) (p : Nat) (ty : Ty) (v : Int) : Nat → Int :=
  match ty with
  | .scalar => fun a => if a = p then v else mem a
  | .struct k => fun a => if p ≤ a ∧ a < p + k then mem (v.toNat + (a - p)) else mem a

/-- `doDerefImpl` (`umka_vm.c:977-1016`): load a scalar; a structured value stays a pointer. -/
def deref (mem : Nat → Int) (ty : Ty) (p : Int) : Int :=
  match ty with
  | .scalar => mem p.toNat
  | .struct _ => p

/-- `memcpy` of `n` words from `src` to `dst`. -/
def copy (mem : Nat → Int) (dst src n : Nat) : Nat → Int :=
  fun a => if dst ≤ a ∧ a < dst + n then mem (src + (a - dst)) else mem a

/-- Enter a function, and return from it (`doCall`, `doCallIndirect`, `doReturn`, `umka_vm.c:3833-3858`, `3984-4002`): it sees its parameters, which are removed
when it returns. -/
def enter (callees : Int → Callee) (m : M) (entry : Int) (slots : Nat) : Option M :=
  if m.stack.length < slots then none
  else (callees entry m.w (m.stack.take slots)).map fun q => ⟨{ q.1 with result := q.2 }, m.stack.drop slots⟩

/-- `doPush*`, `doPopReg` (`umka_vm.c:3050-3175`), `doPushUpvalue` (`umka_vm.c:3150-3158`: a closure is its entry point followed by its upvalues),
`doZero`, `doDup`, `doPop`, `doGetFieldPtr`, `doDeref` (`umka_vm.c:977-1016`), `doAssign` and its reference-counted variants
(`umka_vm.c:3206-3318`), `doAssignParam` (`umka_vm.c:3227-3243`: the words of the structure replace the pointer to it),
`doBuiltinMakeFromArr` (`umka_vm.c:2256-2275`: copy the items to the heap), `doEscapeToHeap` with `doPtrToInterfaceConv` (`umka_expr.c:119-129`, `470-479`:
copy the value to the heap and make an interface of the pointer), `doAssertType` (`umka_vm.c:3724-3731`), calls.  The null checks are omitted: the pointers
are those of variables. -/
def step (callees : Int → Callee) (m : M) : Instr → Option M
  | .user f => (f m.w).map fun q => ⟨q.1, q.2 :: m.stack⟩
  | .conv c => match m.stack with | v :: st => (c m.w v).map fun q => ⟨q.1, q.2 :: st⟩ | _ => none
  | .push v => some ⟨m.w, v :: m.stack⟩
  | .pushZeros k => some ⟨m.w, List.replicate k 0 ++ m.stack⟩
  | .pushSelf => some ⟨m.w, m.w.self :: m.stack⟩
  | .popSelf => match m.stack with | v :: st => some ⟨{ m.w with self := v }, st⟩ | _ => none
  | .pushResult => some ⟨m.w, m.w.result :: m.stack⟩
  | .pushUpvalue => match m.stack with | p :: st => some ⟨m.w, (p + 1) :: m.w.mem p.toNat :: st⟩ | _ => none
  | .passParam k => match m.stack with | p :: st => some ⟨m.w, readWords m.w.mem p.toNat k ++ st⟩ | _ => none
  | .pushLocal a => some ⟨m.w, (a : Int) :: m.stack⟩
  | .zero a n => some ⟨{ m.w with mem := fun b => if a ≤ b ∧ b < a + n then 0 else m.w.mem b }, m.stack⟩
  | .dup => match m.stack with | v :: st => some ⟨m.w, v :: v :: st⟩ | _ => none
  | .pop => match m.stack with | _ :: st => some ⟨m.w, st⟩ | _ => none
  | .getField off => match m.stack with | p :: st => some ⟨m.w, (p + off) :: st⟩ | _ => none
  | .deref ty =>
    match m.stack with
    | p :: st => some ⟨m.w, deref m.w.mem ty p :: st⟩
    | _ => none
  | .assign ty => match m.stack with | v :: p :: st => some ⟨{ m.w with mem := store m.w.mem p.toNat ty v }, st⟩ | _ => none
  | .swapAssign ty => match m.stack with | p :: v :: st => some ⟨{ m.w with mem := store m.w.mem p.toNat ty v }, st⟩ | _ => none
  | .toDynArray res n size =>
    match m.stack with
    | p :: st =>
      let mem := copy m.w.mem m.w.brk p.toNat (n * size)
      let mem := store mem res .scalar m.w.brk
      let mem := store mem (res + 1) .scalar n
      some ⟨{ m.w with mem := mem, brk := m.w.brk + n * size }, (res : Int) :: st⟩
    | _ => none
  | .toAny res id size =>
    match m.stack with
    | p :: st =>
      let mem := copy m.w.mem m.w.brk p.toNat size
      let mem := store mem res .scalar m.w.brk
      let mem := store mem (res + 1) .scalar id
      some ⟨{ m.w with mem := mem, brk := m.w.brk + size }, (res : Int) :: st⟩
    | _ => none
  | .fromAny id =>
    match m.stack with
    | p :: st => if m.w.mem (p.toNat + 1) = id then some ⟨m.w, m.w.mem p.toNat :: st⟩ else none
    | _ => none
  | .call entry slots => enter callees m entry slots
  | .callIndirect slots =>
    match m.stack[slots]? with
    | some entry => if entry = 0 then none else enter callees m entry slots
    | none => none

def run (callees : Int → Callee) : List Instr → M → Option M
  | [], m => some m
  | i :: is, m => (step callees m i).bind (run callees is)

/-! ## Signatures -/

inductive Err
  | dupParam | tooManyParams | variadicNotLast | commonDefault | variadicDefault | notComparable | defaultsNotLast | oneVariadic
  | tooManyActual | tooFewActual | incompatible | notDefined
  | tooManyItems | tooFewItems | unknownField | dupField | hiddenField | syntax | dupCaptured
  deriving DecidableEq, Repr

/-- Types of expressions: their shape; the implicit conversion of a value of the second type to the first (`doImplicitTypeConv` with
`typeAssertCompatibleParam`, or `doAssertImplicitTypeConv`; `none` if it is an error); whether a value of the second type can be passed as the whole
list of items of the first (`typeCompatible`, `umka_expr.c:1732`); the address of an empty dynamic array in the constant storage. -/
structure Env (τ : Type) where
  shape : τ → Ty
  conv : τ → τ → Option Conv
  spread : τ → τ → Bool
  empty : Int

/-- Type of a parameter: `#upvalues` of type `any`; the receiver, a pointer; `#result`, a pointer; `T`; `..T`. -/
inductive PTy (τ : Type)
  | upvalues
  | receiver
  | result
  | plain (t : τ)
  | variadic (item : τ)
  deriving DecidableEq, Repr

def PTy.shape {τ : Type} (env : Env τ) : PTy τ → Ty
  | .upvalues => .struct 2
  | .receiver => .scalar
  | .result => .scalar
  | .plain t => env.shape t
  | .variadic _ => .struct 2

/-- `Param` (`umka_types.h:133-138`). -/
structure Param (τ : Type) where
  name : String
  ty : PTy τ
  default : Int
  deriving DecidableEq, Repr

/-- `Signature` (`umka_types.h:141-149`); `result` is `none` for `void`. -/
structure Sig (τ : Type) where
  params : List (Param τ)
  numDefault : Nat
  isMethod : Bool
  result : Option Ty
  deriving DecidableEq, Repr

/-- One `typedParamList ["=" expr]` of a signature: names, type (`variadic` says `..T`), whether the type is comparable or `any`, value. -/
structure Group (τ : Type) where
  names : List String
  ty : τ
  variadic : Bool
  comparable : Bool
  default : Option Int

variable {τ : Type}

/-- `typeAddParam` (`umka_types.c:805-823`), with `MAX_PARAMS` 16. -/
def addParam (ps : List (Param τ)) (p : Param τ) : Except Err (List (Param τ)) :=
  if ps.any (·.name == p.name) then throw .dupParam
  else if ps.length ≥ 16 then throw .tooManyParams
  else .ok (ps ++ [p])

def addParams (ty : PTy τ) (d : Int) : List String → List (Param τ) → Except Err (List (Param τ))
  | [], ps => .ok ps
  | n :: ns, ps => do
    let ps ← addParam ps ⟨n, ty, d⟩
    addParams ty d ns ps

def Group.pty (g : Group τ) : PTy τ := if g.variadic then .variadic g.ty else .plain g.ty

/-- The checks on the default value of one group (`umka_decl.c:163-191`); the new number of defaults. -/
def checkDefault (g : Group τ) (numDefault : Nat) : Except Err Nat :=
  match g.default with
  | some _ =>
    if g.names.length ≠ 1 then throw .commonDefault
    else if g.variadic then throw .variadicDefault
    else if !g.comparable then throw .notComparable
    else .ok (numDefault + 1)
  | none => if numDefault ≠ 0 then throw .defaultsNotLast else .ok numDefault

/-- The loop of `parseSignature` (`umka_decl.c:149-205`) with `parseTypedParamList` (`umka_decl.c:83-106`). -/
def parseGroups : List (Group τ) → (variadicFound : Bool) → Nat → List (Param τ) → Except Err (List (Param τ) × Nat)
  | [], _, d, ps => .ok (ps, d)
  | g :: gs, variadicFound, d, ps => do
    if variadicFound then throw .variadicNotLast
    if g.variadic ∧ g.names.length ≠ 1 then throw .oneVariadic
    let d ← checkDefault g d
    let ps ← addParams g.pty (g.default.getD 0) g.names ps
    parseGroups gs g.variadic d ps

def structured : Option Ty → Bool
  | some (.struct _) => true
  | _ => false

/-- The hidden first parameter: the receiver of a method (`parseRcvSignature`, `umka_decl.c:109-133`), or `#upvalues` (`umka_decl.c:139-141`). -/
def firstParam : Option String → Param τ
  | some n => ⟨n, .receiver, 0⟩
  | none => ⟨"#upvalues", .upvalues, 0⟩

/-- The hidden pointer to a structured result (`umka_decl.c:244-246`). -/
def addResult (result : Option Ty) (ps : List (Param τ)) : Except Err (List (Param τ)) :=
  if structured result then addParam ps ⟨"#result", .result, 0⟩ else .ok ps

/-- `parseSignature` (`umka_decl.c:137-247`); `rcv` is the name of the receiver of a method. -/
def parseSignature (rcv : Option String) (groups : List (Group τ)) (result : Option Ty) : Except Err (Sig τ) := do
  let q ← parseGroups groups false 0 [firstParam rcv]
  let ps ← addResult result q.1
  return ⟨ps, q.2, rcv.isSome, result⟩

/-- `typeParamSizeUpTo` (`umka_types.c:826-833`), in slots: the parameters before number `i`. -/
def sizeBefore (env : Env τ) (sig : Sig τ) (i : Nat) : Nat := ((sig.params.take i).map fun p => (p.ty.shape env).size).sum

def sizeTotal (env : Env τ) (sig : Sig τ) : Nat := sizeBefore env sig sig.params.length

/-- `typeParamOffset` (`umka_types.c:842-847`): where the function finds parameter `i` among its slots. -/
def paramOffset (env : Env τ) (sig : Sig τ) (i : Nat) : Nat := sizeTotal env sig - sizeBefore env sig (i + 1)

/-! ## Calls -/

/-- An actual parameter, or an item of a literal. -/
structure Arg (τ : Type) where
  code : Code
  ty : τ

/-- `doPassParam` (`umka_expr.c:109-116`); a scalar is already where it has to be. -/
def genPass : Ty → List Instr
  | .scalar => []
  | .struct k => [.passParam k]

/-- An expression and its conversion. -/
def genArg (env : Env τ) (formal : τ) (a : Arg τ) : Except Err (List Instr) :=
  match env.conv formal a.ty with
  | some c => .ok [.user a.code, .conv c]
  | none => throw .incompatible

def genItems (env : Env τ) (item : τ) : List (Arg τ) → Except Err (List Instr)
  | [] => .ok []
  | a :: as => do
    let c ← genArg env item a
    let cs ← genItems env item as
    return c ++ cs

/-- The stores into the static array, from the last item to the first (`umka_expr.c:1750-1754`, `2166-2170`). -/
def genStores (tmp : Nat) (ty : Ty) : Nat → List Instr
  | 0 => []
  | i + 1 => .pushLocal (tmp + i * ty.size) :: .swapAssign ty :: genStores tmp ty i

/-- The items as a static array at `top`, then a dynamic array (`umka_expr.c:1744-1760`, `2160-2176`, `249-268`). -/
def genList (env : Env τ) (top : Nat) (item : τ) (as : List (Arg τ)) : Except Err (List Instr × Nat) := do
  let code ← genItems env item as
  let ty := env.shape item
  let n := as.length
  return (code ++ (genStores top ty n ++ [.pushLocal top, .toDynArray (top + n * ty.size) n ty.size]), top + n * ty.size + 2)

/-- `#result` counts as a parameter after the explicit ones. -/
def post (sig : Sig τ) : Nat := if structured sig.result then 1 else 0

/-- The type of parameter `i`. -/
def ptyAt (sig : Sig τ) (i : Nat) : Option (PTy τ) := (sig.params[i]?).map (·.ty)

/-- The loop over the actual parameters (`umka_expr.c:1820-1853`) with `parseVariadicParamList`: `i` is the number of the parameter. -/
def genArgs (env : Env τ) (sig : Sig τ) : List (Arg τ) → (i top : Nat) → Except Err (List Instr × Nat × Nat)
  | [], i, top => .ok ([], i, top)
  | a :: as, i, top =>
    if i + post sig > sig.params.length - 1 then .error .tooManyActual
    else
      match ptyAt sig i with
      | some (.variadic item) =>
        if env.spread item a.ty then do
          let (code, i, top) ← genArgs env sig as (i + 1) top
          return (.user a.code :: (genPass (.struct 2) ++ code), i, top)
        else do
          let (code, top) ← genList env top item (a :: as)
          return (code ++ genPass (.struct 2), i + 1, top)
      | some (.plain t) => do
        let c ← genArg env t a
        let (code, i, top) ← genArgs env sig as (i + 1) top
        return (c ++ (genPass (env.shape t) ++ code), i, top)
      | _ => .error .incompatible

/-- How many parameters may be missing (`umka_expr.c:1859-1864`). -/
def mayMiss (sig : Sig τ) : Nat :=
  if sig.numDefault > 0 then sig.numDefault
  else
    match sig.params.getLast? with
    | some ⟨_, .variadic _, _⟩ => 1
    | _ => 0

/-- `while (i + numPostHiddenParams < numParams)` (`umka_expr.c:1872-1885`); `n` is the number of iterations. -/
def genDefaults (env : Env τ) (sig : Sig τ) : (n i : Nat) → List Instr
  | 0, _ => []
  | n + 1, i =>
    match sig.params[i]? with
    | some p => .push (if sig.numDefault > 0 then p.default else env.empty) :: (genPass (p.ty.shape env) ++ genDefaults env sig n (i + 1))
    | none => []

/-- What is called: a function, a variable that holds a function, a closure, a method of a receiver. -/
inductive Target
  | fn (entry : Int)
  | value (f : Code)
  | closure (f : Code)
  | method (rcv : Code) (entry : Int)

/-- What is called, and the hidden first parameter (`umka_expr.c:1777-1814`; the entry point of a direct call is not pushed). -/
def genTarget : Target → List Instr
  | .fn _ => [.pushZeros 2]
  | .value f => [.user f, .pushZeros 2]
  | .closure f => .user f :: .pushUpvalue :: genPass (.struct 2)
  | .method rcv _ => [.user rcv, .popSelf, .pushSelf]

/-- The hidden pointer to a zeroed variable for a structured result (`umka_expr.c:1888-1896`). -/
def genResult (sig : Sig τ) (top : Nat) : List Instr × Nat :=
  match sig.result with
  | some (.struct k) => ([.zero top k, .pushLocal top], top + k)
  | _ => ([], top)

/-- The call itself (`umka_expr.c:1898-1908`). -/
def genInvoke (slots : Nat) : Target → Except Err (List Instr)
  | .fn e => if e = 0 then throw .notDefined else .ok [.call e slots]
  | .method _ e => if e = 0 then throw .notDefined else .ok [.call e slots]
  | .value _ => .ok [.callIndirect slots, .pop]
  | .closure _ => .ok [.callIndirect slots, .pop]

/-- The rest of a call, with the code `code` for the actual parameters: the next parameter is number `i`. -/
def genRest (env : Env τ) (sig : Sig τ) (target : Target) (code : List Instr) (i top : Nat) : Except Err (List Instr × Nat) :=
  if i + post sig < sig.params.length - mayMiss sig then .error .tooFewActual
  else do
    let inv ← genInvoke (sizeTotal env sig) target
    return (genTarget target ++ (code ++ (genDefaults env sig (sig.params.length - (i + post sig)) i ++
      ((genResult sig top).1 ++ (inv ++ if sig.result.isSome then [.pushResult] else [])))), (genResult sig top).2)

/-- `parseCallSelector` with `parseActualParamsAndCall` (`umka_expr.c:1770-1913`, `2637-2663`); `top` is the first free local address. -/
def genCall (env : Env τ) (top : Nat) (sig : Sig τ) (target : Target) (args : List (Arg τ)) : Except Err (List Instr × Nat) := do
  let q ← genArgs env sig args 1 top
  genRest env sig target q.1 q.2.1 q.2.2

/-! ## Composite literals -/

structure Field (τ : Type) where
  name : String
  ty : τ

/-- Type of an array or structure. -/
inductive LitTy (τ : Type)
  | array (n : Nat) (item : τ)
  | struct (fields : List (Field τ))

/-- `typeAddField` (`umka_types.c:674-730`): fields follow one another. -/
def fieldOffset (env : Env τ) (fs : List (Field τ)) (i : Nat) : Nat := ((fs.take i).map fun f => (env.shape f.ty).size).sum

def LitTy.size (env : Env τ) : LitTy τ → Nat
  | .array n item => n * (env.shape item).size
  | .struct fs => fieldOffset env fs fs.length

def LitTy.numItems : LitTy τ → Nat
  | .array n _ => n
  | .struct fs => fs.length

/-- `typeFindField` (`umka_types.c:649-662`), the index of the field. -/
def findField (name : String) : List (Field τ) → Option Nat
  | [] => none
  | f :: fs => if f.name = name then some 0 else (findField name fs).map (· + 1)

/-- `identIsHidden` (`umka_ident.h:82-85`). -/
def isHidden (name : String) : Bool := name.startsWith "#"

/-- An item of a literal: `[ident ":"] expr`. -/
structure Item (τ : Type) where
  name : Option String
  arg : Arg τ

/-- Which item or field the next expression is for: offset, type and, with names, its index (`umka_expr.c:2041-2073`). -/
def place (env : Env τ) (lit : LitTy τ) (named : Bool) (done : List Nat) (numItems : Nat) (name : Option String) : Except Err (Nat × τ × Nat) :=
  if named then
    match lit, name with
    | .struct fs, some n =>
      match findField n fs with
      | none => throw .unknownField
      | some i =>
        if done.contains i then throw .dupField
        else
          match fs[i]? with
          | some f => .ok (fieldOffset env fs i, f.ty, i)
          | none => throw .unknownField
    | _, _ => throw .syntax
  else if numItems + 1 > lit.numItems then throw .tooManyItems
  else if name.isSome then throw .syntax
  else
    match lit with
    | .array _ item => .ok (numItems * (env.shape item).size, item, numItems)
    | .struct fs =>
      match fs[numItems]? with
      | some f => if isHidden f.name then throw .hiddenField else .ok (fieldOffset env fs numItems, f.ty, numItems)
      | none => throw .tooManyItems

/-- The loop of `parseArrayOrStructLiteral` (`umka_expr.c:2041-2098`): the address of the item, the expression, the store. -/
def genLitItems (env : Env τ) (lit : LitTy τ) (named : Bool) (tmp : Nat) :
    List (Item τ) → (done : List Nat) → (numItems : Nat) → Except Err (List Instr)
  | [], _, _ => .ok []
  | it :: its, done, n => do
    let q ← place env lit named done n it.name
    let c ← genArg env q.2.1 it.arg
    let cs ← genLitItems env lit named tmp its (q.2.2 :: done) (n + 1)
    return .pushLocal (tmp + q.1) :: (c ++ (.assign (env.shape q.2.1) :: cs))

/-- Whether the items have names: `{}` or a first item with a name, for structures only (`umka_expr.c:2005-2015`). -/
def isNamed : LitTy τ → List (Item τ) → Bool
  | .struct _, [] => true
  | .struct _, it :: _ => it.name.isSome
  | .array _ _, _ => false

/-- `parseArrayOrStructLiteral` (`umka_expr.c:1998-2112`) outside constant expressions. -/
def genLiteral (env : Env τ) (tmp : Nat) (lit : LitTy τ) (items : List (Item τ)) : Except Err (List Instr × Nat) := do
  let code ← genLitItems env lit (isNamed lit items) tmp items [] 0
  if !isNamed lit items && items.length < lit.numItems then .error .tooFewItems
  else .ok (.zero tmp (lit.size env) :: (code ++ [.pushLocal tmp]), tmp + lit.size env)

/-- `parseDynArrayLiteral` (`umka_expr.c:2115-2195`) outside constant expressions. -/
def genDynLiteral (env : Env τ) (top : Nat) (item : τ) (items : List (Arg τ)) : Except Err (List Instr × Nat) :=
  if items.length > 0 then genList env top item items
  else .ok ([.zero top 2, .pushLocal top], top + 2)

/-! ## Closures -/

/-- A captured variable: name, type, address. -/
structure Capture (τ : Type) where
  name : String
  ty : τ
  addr : Nat

def captureOffset (env : Env τ) (cs : List (Capture τ)) (i : Nat) : Nat := ((cs.take i).map fun c => (env.shape c.ty).size).sum

def captureSize (env : Env τ) (cs : List (Capture τ)) : Nat := captureOffset env cs cs.length

/-- `typeAddField` refuses two fields with the same name (`umka_types.c:688-689`). -/
def checkCaptures : List (Capture τ) → List String → Except Err Unit
  | [], _ => .ok ()
  | c :: cs, seen => if seen.contains c.name then throw .dupCaptured else checkCaptures cs (c.name :: seen)

/-- Assignments of the captured variables to the fields of the upvalues structure (`umka_expr.c:2296-2308`), fields from number `i` on. -/
def genCaptures (env : Env τ) (all : List (Capture τ)) (ups : Nat) : List (Capture τ) → (i : Nat) → List Instr
  | [], _ => []
  | c :: cs, i =>
    .pushLocal ups :: .getField (captureOffset env all i) :: .pushLocal c.addr :: .deref (env.shape c.ty) :: .assign (env.shape c.ty) ::
      genCaptures env all ups cs (i + 1)

/-- `parseClosureLiteral` (`umka_expr.c:2253-2345`) outside constant expressions: `entry` is the entry point of its function, `id` stands for the type
of the upvalues structure.  `captures` is `none` without `|...|`.  The body, which is jumped over, is left out. -/
def genClosure (env : Env τ) (top : Nat) (entry id : Int) (captures : Option (List (Capture τ))) : Except Err (List Instr × Nat) :=
  match captures with
  | none => .ok ([.zero top 3, .pushLocal top, .getField 0, .push entry, .assign .scalar, .pushLocal top], top + 3)
  | some cs => do
    checkCaptures cs []
    let ups := top + 3
    let any := ups + captureSize env cs
    return (.zero top 3 :: .zero ups (captureSize env cs) ::
      (genCaptures env cs ups cs 0 ++
        [.pushLocal top, .getField 1, .pushLocal ups, .deref (.struct (captureSize env cs)), .toAny any id (captureSize env cs), .assign (.struct 2),
         .pushLocal top, .getField 0, .push entry, .assign .scalar, .pushLocal top]), any + 2)

/-- The copies of the captured variables in the function (`umka_stmt.c:1311-1325`), from number `i` on: variable `i` is at `vars i`. -/
def genUpvalues (env : Env τ) (all : List (Capture τ)) (vars : Nat → Nat) : List (Capture τ) → (i : Nat) → List Instr
  | [], _ => []
  | c :: cs, i =>
    .dup :: .getField (captureOffset env all i) :: .deref (env.shape c.ty) :: .zero (vars i) (env.shape c.ty).size :: .pushLocal (vars i) ::
      .swapAssign (env.shape c.ty) :: genUpvalues env all vars cs (i + 1)

/-- The beginning of the function of a closure (`parseFnBlock`, `umka_stmt.c:1300-1328`); `param` is the address of its parameter `#upvalues`. -/
def genProlog (env : Env τ) (id : Int) (cs : List (Capture τ)) (vars : Nat → Nat) (param : Nat) : List Instr :=
  [.pushLocal param, .deref (.struct 2), .fromAny id] ++ (genUpvalues env cs vars cs 0 ++ [.pop])

end Umka.Call
