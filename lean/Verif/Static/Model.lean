/-!
# Static storage: model

Global variables, constants, default values of parameters and the empty lists of variadic parameters live in blocks that the compiler allocates
(`/repo/src/umka_common.c:48-145`) and fills while it parses (`/repo/src/umka_expr.c:1995-2200`, `3171-3257`, `/repo/src/umka_stmt.c:192-400`,
`/repo/src/umka_decl.c:160-200`, `588-712`).  The program then works with the same blocks.

Simplifications: every scalar takes one word, so that there is no padding (sizes and alignment are in `Verif/Layout`); integers are mathematical integers with the
ranges of their types (`Verif/Arith`); reals, booleans, enumerations, pointers, interfaces, maps, closures and fibers are omitted; a type refers to its components
directly, so that recursive types are omitted; hidden fields and the limits on sizes are omitted; the parser gets syntax trees (`Verif/Expr`), and the type of an
expression without an expected type is given.
-/

namespace Umka.Static

/-- Integer types (`umka_types.h:14-26`). -/
inductive IntKind
  | int8 | int16 | int32 | int | uint8 | uint16 | uint32 | uint
  deriving DecidableEq, Repr

/-- The limits in `typeConvOverflow` (`umka_types.h:379-413`). -/
def IntKind.min : IntKind → Int
  | .int8 => -128
  | .int16 => -32768
  | .int32 => -2147483648
  | .int => -9223372036854775808
  | _ => 0

def IntKind.max : IntKind → Int
  | .int8 => 127
  | .int16 => 32767
  | .int32 => 2147483647
  | .int => 9223372036854775807
  | .uint8 => 255
  | .uint16 => 65535
  | .uint32 => 4294967295
  | .uint => 18446744073709551615

mutual

/-- Types. -/
inductive Ty
  | int (k : IntKind)
  | char
  | str
  | array (n : Nat) (base : Ty)
  | dyn (base : Ty)
  | struct (fs : Fields)

inductive Fields
  | nil
  | cons (name : String) (ty : Ty) (rest : Fields)

end

/-- A word of memory: a number, or a pointer to a word of a block.  The null pointer is the number zero. -/
inductive Word
  | int (v : Int)
  | ptr (block off : Nat)
  deriving DecidableEq, Repr

/-- What a block is used for. -/
inductive Use
  | plain | text | items
  deriving DecidableEq, Repr

/-- A block with the length and the capacity that are stored in front of the data of strings and dynamic arrays
(`StrDimensions`, `DynArrayDimensions`, `umka_common.h:100-125`). -/
structure Block where
  use : Use
  len : Nat
  cap : Nat
  words : List Word
  deriving DecidableEq, Repr

mutual

/-- `typeSize` (`umka_types.c:200-240`) in words.  A dynamic array consists of its type, the size of its items and a pointer to its data
(`DynArray`, `umka_common.h:110-118`). -/
def Ty.size : Ty → Nat
  | .int _ => 1
  | .char => 1
  | .str => 1
  | .array n base => n * base.size
  | .dyn _ => 3
  | .struct fs => fs.size

def Fields.size : Fields → Nat
  | .nil => 0
  | .cons _ ty rest => ty.size + rest.size

end

/-- `typeStructured` (`umka_types.h:228-236`). -/
def Ty.structured : Ty → Bool
  | .array _ _ | .dyn _ | .struct _ => true
  | _ => false

def Fields.count : Fields → Nat
  | .nil => 0
  | .cons _ _ rest => rest.count + 1

/-- Constant expressions.  `num`, `chr` and `str` are literals, or expressions that only have numbers, characters and strings in them: their values are
in `Verif/Expr`.  `const` is a declared constant, `comp` and `named` are composite literals. -/
inductive Expr
  | num (v : Int)
  | chr (c : Fin 256)
  | str (s : List (Fin 256))
  | const (i : Nat)
  | comp (items : List Expr)
  | named (items : List (String × Expr))

/-- The messages of the compiler. -/
inductive Err
  | overflow | incompatible | tooManyElements | tooFewElements | unknownField | duplicateField | unknownIdent | count | badConst
  deriving DecidableEq, Repr

/-- The type of a constant: ordinals and strings (`umka_decl.c:609-611`). -/
inductive CTy
  | int (k : IntKind) | char | str
  deriving DecidableEq, Repr

def CTy.ty : CTy → Ty
  | .int k => .int k
  | .char => .char
  | .str => .str

/-- The declared constants, which do not change while an expression is parsed. -/
abbrev Consts := List (CTy × Word)

abbrev Mem := List Block

/-- `storageAdd` (`umka_common.c:66-88`): a new block of zeros. -/
def storageAdd (mem : Mem) (size : Nat) : Mem × Nat := (mem ++ [⟨.plain, 0, 0, List.replicate size (.int 0)⟩], mem.length)

/-- `storageAddStr` (`umka_common.c:91-102`) together with the copying of the characters by its callers (`umka_lexer.c:872-874`, `umka_expr.c:163-172`).
The terminating zero is the last word. -/
def storageAddStr (mem : Mem) (s : List Nat) : Mem × Word :=
  (mem ++ [⟨.text, s.length, s.length + 1, s.map (fun c => .int c) ++ [.int 0]⟩], .ptr mem.length 0)

/-- `storageAddDynArray` (`umka_common.c:105-127`): the array itself, and its data.  The first word of the array stands for its type. -/
def storageAddDynArray (mem : Mem) (base : Ty) (len : Nat) : Mem × Nat :=
  let cap := 2 * (len + 1)
  (mem ++ [⟨.plain, 0, 0, [.int 1, .int base.size, .ptr (mem.length + 1) 0]⟩, ⟨.items, len, cap, List.replicate (cap * base.size) (.int 0)⟩], mem.length)

/-- The words from `off` on. -/
def slice (ws : List Word) (off n : Nat) : List Word := (ws.drop off).take n

/-- Replace the words from `off` on. -/
def splice (ws : List Word) (off : Nat) (new : List Word) : List Word := ws.take off ++ new ++ ws.drop (off + new.length)

/-- Store words in a block. -/
def poke (mem : Mem) (b off : Nat) (new : List Word) : Mem := mem.modify b fun blk => { blk with words := splice blk.words off new }

/-- The words a pointer points to. -/
def peek (mem : Mem) (b off n : Nat) : List Word :=
  match mem[b]? with
  | some blk => slice blk.words off n
  | none => []

/-- `typeOverflow` (`umka_types.h:415-418`) for the types here. -/
def overflow : Ty → Word → Bool
  | .int k, .int v => decide (v < k.min ∨ v > k.max)
  | .char, .int v => decide (v < 0 ∨ v > 255)
  | _, _ => false

/-- `constAssign` (`umka_const.c:70-116`). -/
def constAssign (mem : Mem) (b off : Nat) (ty : Ty) (w : Word) : Except Err Mem :=
  if overflow ty w then .error .overflow
  else if ty.structured then
    match w with
    | .ptr b' off' => .ok (poke mem b off (peek mem b' off' ty.size))
    | .int _ => .ok mem
  else .ok (poke mem b off [w])

/-- `doOrdinalToOrdinalOrRealToRealConv` for constants (`umka_expr.c:132-143`). -/
def convInt (k : IntKind) (v : Int) : Except Err Word :=
  if v < k.min ∨ v > k.max then .error .overflow else .ok (.int v)

/-- `doCharToStrConv` for constants (`umka_expr.c:158-173`). -/
def charToStr (mem : Mem) (c : Nat) : Mem × Word := storageAddStr mem (if c = 0 then [] else [c])

/-- `doStrToDynArrayConv` for constants (`umka_expr.c:208-216`): copy the characters to a new array of characters. -/
def strToChars (mem : Mem) (w : Word) : Mem × Word :=
  match w with
  | .ptr b _ =>
    let len := match mem[b]? with | some blk => blk.len | none => 0
    let (mem', a) := storageAddDynArray mem .char len
    (poke mem' (a + 1) 0 (peek mem b 0 len), .ptr a 0)
  | .int _ => (mem, w)

/-- A declared constant where a value of some type is expected (`umka_expr.c:1923-1938`, then `doAssertImplicitTypeConv`, `umka_expr.c:686-690`). -/
def useConst (consts : Consts) (ty : Ty) (i : Nat) (mem : Mem) : Except Err (Mem × Word) :=
  match consts[i]? with
  | none => .error .unknownIdent
  | some (c, w) =>
    match ty, c, w with
    | .int k, .int _, .int v => (convInt k v).map fun w => (mem, w)
    | .char, .char, _ => .ok (mem, w)
    | .str, .str, _ => .ok (mem, w)
    | .str, .char, .int v => .ok (charToStr mem v.toNat)
    | .dyn .char, .str, _ => .ok (strToChars mem w)
    | _, _, _ => .error .incompatible

/-- The loop over the items of an array literal (`umka_expr.c:2039-2095`); `ev` parses one item. -/
def fillItems (ev : Expr → Mem → Except Err (Mem × Word)) (base : Ty) (b : Nat) : (room off : Nat) → List Expr → Mem → Except Err Mem
  | _, _, [], mem => .ok mem
  | 0, _, _ :: _, _ => .error .tooManyElements
  | room + 1, off, e :: es, mem => do
    let (mem, w) ← ev e mem
    let mem ← constAssign mem b off base w
    fillItems ev base b room (off + base.size) es mem

/-- The loop over the named fields of a structure literal (`umka_expr.c:2039-2095`); `one` parses the value of a field and stores it. -/
def fillNamed (one : String → Expr → Mem → Except Err Mem) : (seen : List String) → List (String × Expr) → Mem → Except Err Mem
  | _, [], mem => .ok mem
  | seen, (f, e) :: es, mem => do
    if f ∈ seen then throw .duplicateField
    let mem ← one f e mem
    fillNamed one (f :: seen) es mem

/-- The loop over the items of a dynamic array literal (`umka_expr.c:2124-2142`): the items are collected. -/
def collect (ev : Expr → Mem → Except Err (Mem × Word)) : List Expr → Mem → Except Err (Mem × List Word)
  | [], mem => .ok (mem, [])
  | e :: es, mem => do
    let (mem, w) ← ev e mem
    let (mem, ws) ← collect ev es mem
    return (mem, w :: ws)

/-- Fill an array or a structure with constants, from the last one to the first one: the items of a dynamic array literal (`umka_expr.c:2158-2160`) and the
expressions of a list (`umka_expr.c:3240-3247`).  Each entry has a type, an offset and a constant. -/
def assignList (b : Nat) : List (Ty × Nat × Word) → Mem → Except Err Mem
  | [], mem => .ok mem
  | (ty, off, w) :: rest, mem => do
    let mem ← assignList b rest mem
    constAssign mem b off ty w

/-- The end of `parseDynArrayLiteral` (`umka_expr.c:2149-2192`) with `doArrayToDynArrayConv` (`umka_expr.c:249-256`). -/
def makeDynArray (base : Ty) (ws : List Word) (mem : Mem) : Except Err (Mem × Word) :=
  if ws.length > 0 then do
    let (mem, b) := storageAdd mem (ws.length * base.size)
    let mem ← assignList b (ws.zipIdx.map fun x => (base, x.2 * base.size, x.1)) mem
    let (mem, a) := storageAddDynArray mem base ws.length
    return (poke mem (a + 1) 0 (peek mem b 0 (ws.length * base.size)), .ptr a 0)
  else
    let (mem, a) := storageAddDynArray mem base 0
    .ok (mem, .ptr a 0)

mutual

/-- `parseExpr` for constants, where a value of the type `ty` is expected, followed by `doAssertImplicitTypeConv`
(`umka_expr.c:2764-2912`, `1921-1945`, `2382-2394`, `686-690`): a word, which is a pointer if the type is structured. -/
def eval (consts : Consts) : (ty : Ty) → Expr → Mem → Except Err (Mem × Word)
  | .int k, .num v, mem => (convInt k v).map fun w => (mem, w)
  | .char, .chr c, mem => .ok (mem, .int c.val)
  | .str, .str s, mem => .ok (storageAddStr mem (s.map Fin.val))
  | .str, .chr c, mem => .ok (charToStr mem c.val)
  | .dyn .char, .str s, mem => .ok (strToChars (storageAddStr mem (s.map Fin.val)).1 (storageAddStr mem (s.map Fin.val)).2)
  | ty, .const i, mem => useConst consts ty i mem
  | .array n base, .comp items, mem => do
    let (mem, b) := storageAdd mem (n * base.size)
    let mem ← fillItems (eval consts base) base b n 0 items mem
    if items.length < n then throw .tooFewElements
    return (mem, .ptr b 0)
  | .dyn base, .comp items, mem => do
    let (mem, ws) ← collect (eval consts base) items mem
    makeDynArray base ws mem
  | .struct fs, .comp items, mem => do
    let (mem, b) := storageAdd mem fs.size
    if items = [] then return (mem, .ptr b 0)
    let mem ← evalFields consts fs b 0 items mem
    return (mem, .ptr b 0)
  | .struct fs, .named items, mem => do
    let (mem, b) := storageAdd mem fs.size
    let mem ← fillNamed (fun f e mem => evalField consts fs b 0 f e mem) [] items mem
    return (mem, .ptr b 0)
  | _, _, _ => .error .incompatible

/-- The loop over the items of a structure literal without names (`umka_expr.c:2039-2095`). -/
def evalFields (consts : Consts) : (fs : Fields) → (b off : Nat) → List Expr → Mem → Except Err Mem
  | .nil, _, _, [], mem => .ok mem
  | .nil, _, _, _ :: _, _ => .error .tooManyElements
  | .cons _ _ _, _, _, [], _ => .error .tooFewElements
  | .cons _ ty rest, b, off, e :: es, mem => do
    let (mem, w) ← eval consts ty e mem
    let mem ← constAssign mem b off ty w
    evalFields consts rest b (off + ty.size) es mem

/-- One named field (`umka_expr.c:2045-2082`): find it (`typeAssertFindField`, `umka_types.c:561-571`), parse its value and store it. -/
def evalField (consts : Consts) : (fs : Fields) → (b off : Nat) → String → Expr → Mem → Except Err Mem
  | .nil, _, _, _, _, _ => .error .unknownField
  | .cons name ty rest, b, off, f, e, mem =>
    if f = name then do
      let (mem, w) ← eval consts ty e mem
      constAssign mem b off ty w
    else evalField consts rest b (off + ty.size) f e mem

end

/-- What the compiler has declared: the global variables with the blocks they are in, the constants, and the values of parameters that are not given in calls. -/
structure State where
  mem : Mem
  globals : List (Ty × Nat)
  consts : Consts
  defaults : List (Ty × Word)

def init : State := ⟨[], [], [], []⟩

/-- Declarations in the module scope. -/
inductive Decl
  /-- `var x, y, ...: T` -/
  | vars (ty : Ty) (n : Nat)
  /-- `var x: T = e` -/
  | var (ty : Ty) (e : Expr)
  /-- `var x, y, ...: T = e, f, ...` -/
  | varList (ty : Ty) (n : Nat) (es : List Expr)
  /-- `x := e` where `e` has the type `T` -/
  | short (ty : Ty) (e : Expr)
  /-- `x, y, ... := e, f, ...` -/
  | shortList (es : List (Ty × Expr))
  /-- `const x = e` -/
  | const (ty : CTy) (e : Expr)
  /-- `fn f(..., x: T = e)` -/
  | default (ty : Ty) (e : Expr)
  /-- A call `f(...)` without arguments for the parameter `..T` -/
  | emptyList (base : Ty)

/-- `identAllocVar` for a global variable (`umka_ident.c:230-246`) and `doZeroVar` (`umka_stmt.c:52-61`): `n` variables. -/
def allocVars (ty : Ty) : (n : Nat) → Mem → Mem × List (Ty × Nat)
  | 0, mem => (mem, [])
  | n + 1, mem =>
    let (mem, b) := storageAdd mem ty.size
    let (mem, vs) := allocVars ty n mem
    (mem, (ty, b) :: vs)

/-- The expressions of a list (`umka_expr.c:3171-3225`): each is converted to the type expected. -/
def evalList (consts : Consts) : List (Ty × Expr) → Mem → Except Err (Mem × List Word)
  | [], mem => .ok (mem, [])
  | (ty, e) :: es, mem => do
    let (mem, w) ← eval consts ty e mem
    let (mem, ws) ← evalList consts es mem
    return (mem, w :: ws)

/-- The offsets of the fields of the structure that an expression list is (`typeAddField`, `umka_types.c:655-700`). -/
def offsets : List Ty → Nat → List Nat
  | [], _ => []
  | ty :: tys, off => off :: offsets tys (off + ty.size)

/-- `constDeref` (`umka_const.c:25-67`) of a field of the list. -/
def constDeref (mem : Mem) (ty : Ty) (b off : Nat) : Word :=
  if ty.structured then .ptr b off else ((peek mem b off 1)[0]?).getD (.int 0)

/-- The loop over the variables of a list: read a field and assign it.  `parseListAssignmentStmt` starts with the last variable (`umka_stmt.c:245-258`). -/
def spread (b : Nat) : List ((Ty × Nat) × Nat) → Mem → Except Err Mem
  | [], mem => .ok mem
  | ((ty, v), off) :: rest, mem => do
    let mem ← spread b rest mem
    constAssign mem v 0 ty (constDeref mem ty b off)

/-- The same loop in `parseListDeclAssignmentStmt`, which starts with the first variable and allocates it there (`umka_stmt.c:349-379`). -/
def spreadNew (b : Nat) : List (Ty × Nat) → Mem → Except Err (Mem × List (Ty × Nat))
  | [], mem => .ok (mem, [])
  | (ty, off) :: rest, mem => do
    let (mem, v) := storageAdd mem ty.size
    let mem ← constAssign mem v 0 ty (constDeref mem ty b off)
    let (mem, vs) ← spreadNew b rest mem
    return (mem, (ty, v) :: vs)

/-- The structure that an expression list is: its block. -/
def makeList (tys : List Ty) (ws : List Word) (mem : Mem) : Except Err (Mem × Nat) := do
  let (mem, b) := storageAdd mem (tys.map Ty.size).sum
  let mem ← assignList b (tys.zip ((offsets tys 0).zip ws)) mem
  return (mem, b)

/-- A declaration: `parseVarDeclItem` (`umka_decl.c:648-700`), `parseSingleAssignmentStmt`, `parseListAssignmentStmt`, `parseSingleDeclAssignmentStmt`,
`parseListDeclAssignmentStmt` (`umka_stmt.c:192-400`), `parseConstDeclItem` (`umka_decl.c:588-616`), `parseSignature` (`umka_decl.c:163-185`) and the end of
`parseActualParamsAndCall` (`umka_expr.c:1874-1890`). -/
def declare (st : State) : Decl → Except Err State
  | .vars ty n =>
    let (mem, vs) := allocVars ty n st.mem
    .ok { st with mem := mem, globals := st.globals ++ vs }
  | .var ty e => do
    let (mem, v) := storageAdd st.mem ty.size
    let (mem, w) ← eval st.consts ty e mem
    let mem ← constAssign mem v 0 ty w
    return { st with mem := mem, globals := st.globals ++ [(ty, v)] }
  | .varList ty n es => do
    let (mem, vs) := allocVars ty n st.mem
    let (mem, ws) ← evalList st.consts (es.map fun e => (ty, e)) mem
    let (mem, b) ← makeList (es.map fun _ => ty) ws mem
    if es.length ≠ n then throw .count
    let mem ← spread b (vs.zip (offsets (es.map fun _ => ty) 0)) mem
    return { st with mem := mem, globals := st.globals ++ vs }
  | .short ty e => do
    let (mem, w) ← eval st.consts ty e st.mem
    let (mem, v) := storageAdd mem ty.size
    let mem ← constAssign mem v 0 ty w
    return { st with mem := mem, globals := st.globals ++ [(ty, v)] }
  | .shortList es => do
    let (mem, ws) ← evalList st.consts es st.mem
    let (mem, b) ← makeList (es.map Prod.fst) ws mem
    let (mem, vs) ← spreadNew b ((es.map Prod.fst).zip (offsets (es.map Prod.fst) 0)) mem
    return { st with mem := mem, globals := st.globals ++ vs }
  | .const ty e => do
    let (mem, w) ← eval st.consts ty.ty e st.mem
    return { st with mem := mem, consts := st.consts ++ [(ty, w)] }
  | .default ty e => do
    let (mem, w) ← eval st.consts ty e st.mem
    return { st with mem := mem, defaults := st.defaults ++ [(ty, w)] }
  | .emptyList base =>
    let (mem, a) := storageAddDynArray st.mem base 0
    .ok { st with mem := mem, defaults := st.defaults ++ [(.dyn base, .ptr a 0)] }

def compile : List Decl → State → Except Err State
  | [], st => .ok st
  | d :: ds, st => do
    let st ← declare st d
    compile ds st

end Umka.Static
