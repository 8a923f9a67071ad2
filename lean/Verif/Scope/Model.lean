/-!
# Identifiers and blocks: model

The list of identifiers (`umka_ident.c`) and the stack of blocks (`umka_common.c:517-562`) of the compiler.

Simplifications.  Types occur only as far as they decide about names: the receiver types of methods and the signatures
of functions are numbers, with an arbitrary compatibility relation.  An identifier is denoted by a number (`id`)
instead of its address.  Warnings (unused and shadowed identifiers) are left out, and so are the errors for variables of
type void or of an unresolved type, which do not depend on names.
-/

namespace Umka.Scope

/-- What matters of the kind and the type of an identifier (`IdentKind`, `umka_ident.h`). -/
inductive What
  /-- a type declared in advance (`TYPE_FORWARD`) -/
  | forward
  | type
  /-- a function without a body so far (`prototypeOffset >= 0`), with its signature -/
  | proto (sig : Nat)
  /-- a function -/
  | fn (sig : Nat)
  | var
  /-- an imported module -/
  | module
  | other
  deriving DecidableEq, Repr

/-- The name of an identifier: written in the source or chosen by the compiler (`"#result"`), or the generated name of a
temporary variable (`"#temp5"`, `identTempName`, `umka_ident.c:15-18`), which no source text contains. -/
inductive Name
  | plain (s : String)
  | temp (n : Nat)
  deriving DecidableEq, Repr

/-- `Ident`, `umka_ident.h:19-37`.  `id` stands for the address of the structure, `tag` for the place of the declaration
(`debug`), `rcv` is the receiver type of a method. -/
structure Ident where
  id : Nat
  tag : Nat
  name : Name
  what : What
  rcv : Option Nat
  module : Nat
  block : Nat
  exported : Bool
  deriving DecidableEq, Repr

/-- `BlockStackSlot`, `umka_common.h`.  `succ` is not a field of it, but the variable `ternaryResultSuccessor` of the
call of `parseExpr` that entered the block (`umka_expr.c:3107`): the first identifier at that time. -/
structure Block where
  num : Nat
  fn : Bool
  succ : Option Nat

/-- The compiler: identifiers (the last first), blocks (the innermost first), `blocks->numBlocks`, `blocks->module`,
the pairs of modules of which the first imports the second (`importAlias`), and the numbers of identifiers and
temporary variables. -/
structure Env where
  idents : List Ident
  blocks : List Block
  numBlocks : Nat
  module : Nat
  imports : List (Nat × Nat)
  nextId : Nat
  temps : Nat

/-- What is being looked up: `module::name`, a method of a receiver type, or the name of a module. -/
structure Query where
  module : Nat
  name : Name
  rcv : Option Nat
  isModule : Bool

inductive Err
  | duplicate
  | exportedLocal
  | tooDeep
  deriving DecidableEq, Repr

/-- `MAX_BLOCK_NESTING`, `umka_common.h`. -/
def maxNesting : Nat := 100

/-- The compatibility of receiver types (`typeCompatibleRcv`) and of signatures (`typeCompatible`). -/
structure Compat where
  rcv : Nat → Nat → Bool
  sig : Nat → Nat → Bool

/-- The condition under which `identFindEx` (`umka_ident.c:67-97`) returns an identifier. -/
def Ident.matches (C : Compat) (cur : Nat) (imports : List (Nat × Nat)) (q : Query) (i : Ident) : Bool :=
  ((i.what == .module) == q.isModule) && i.name == q.name &&
  ((i.module == 0 && cur == q.module) ||
   (i.module == q.module && (cur == q.module || (i.exported && (q.rcv.isSome || imports.contains (cur, i.module)))))) &&
  match q.rcv, i.rcv with
  | none, none => true
  | some r, some r' => C.rcv r' r
  | _, _ => false

/-- `identFindEx`, `umka_ident.c:67-97`. -/
def find (C : Compat) (E : Env) (q : Query) : Option Ident :=
  E.idents.find? (·.matches C E.module E.imports q)

/-- `blocksCurrent`, `umka_common.c:562`. -/
def Env.cur (E : Env) : Nat := (E.blocks.head?.map (·.num)).getD 0

/-- `blocksEnterFn`, `umka_common.c:528-539`. -/
def enter (E : Env) (fn : Bool) : Except Err Env :=
  if E.blocks.length ≥ maxNesting then .error .tooDeep
  else .ok { E with blocks := ⟨E.numBlocks, fn, E.idents.head?.map (·.id)⟩ :: E.blocks, numBlocks := E.numBlocks + 1 }

/-- `identFree`, `umka_ident.c:31-45`. -/
def identFree (idents : List Ident) (block : Nat) : List Ident := idents.dropWhile (·.block == block)

/-- The end of a block: `identFree`, then `blocksLeave` (`umka_stmt.c:1267-1268` and elsewhere). -/
def leave (E : Env) : Env := { E with idents := identFree E.idents E.cur, blocks := E.blocks.tail }

/-- A declaration. -/
structure Decl where
  tag : Nat
  name : Name
  what : What
  rcv : Option Nat
  exported : Bool
  deriving DecidableEq

/-- `identTryResolveForwardType` and `identTryResolveFnPrototype`, `umka_ident.c:147-188`: the declaration completes an
existing identifier.  A function stays a prototype until its body (`umka_stmt.c:1292-1296`), if there is one. -/
def resolve (C : Compat) (e : Ident) (d : Decl) : Option Ident :=
  match e.what, d.what with
  | .forward, .type => some { e with what := .type, exported := d.exported }
  | .proto s, .fn s' => if e.exported = d.exported ∧ C.sig s s' then some { e with what := .fn s' } else none
  | .proto s, .proto s' => if e.exported = d.exported ∧ C.sig s s' then some { e with what := .proto s' } else none
  | _, _ => none

/-- `identAdd`, `umka_ident.c:191-252`. -/
def declare (C : Compat) (E : Env) (d : Decl) : Except Err Env :=
  let add : Except Err Env :=
    if d.exported ∧ E.blocks.length ≠ 1 then .error .exportedLocal
    else .ok { E with
      idents := ⟨E.nextId, d.tag, d.name, d.what, d.rcv, E.module, E.cur, d.exported⟩ :: E.idents, nextId := E.nextId + 1 }
  match find C E ⟨E.module, d.name, d.rcv, d.what == .module⟩ with
  | none => add
  | some e =>
    if e.block = E.cur then
      match resolve C e d with
      | some e' => .ok { E with idents := E.idents.map fun i => if i.id = e.id then e' else i }
      | none => .error .duplicate
    else add

/-- `identMoveBefore`, `umka_ident.c:48-64`: the first identifier is moved before the one with number `next`. -/
def insertBefore (moved : Ident) (next : Option Nat) : List Ident → List Ident
  | [] => if next = none then [moved] else []
  | i :: is => if some i.id = next then moved :: i :: is else i :: insertBefore moved next is

def moveBefore (idents : List Ident) (next : Option Nat) : List Ident :=
  match idents with
  | [] => []
  | moved :: rest => if rest.any (fun i => some i.id == next) || next.isNone then insertBefore moved next rest else idents

/-- `identAllocTempVar`, `umka_ident.c:352-368`. -/
def addTemp (C : Compat) (E : Env) : Except Err Env :=
  declare C { E with temps := E.temps + 1 } ⟨0, .temp E.temps, .var, none, false⟩

/-- The variable for the result of a conditional expression is declared in the enclosing block
(`umka_expr.c:3119-3122`). -/
def addTempOutside (C : Compat) (E : Env) : Except Err Env :=
  match E.blocks with
  | [] => .ok E
  | b :: bs => do
    let E' ← addTemp C { E with blocks := bs }
    return { E' with idents := moveBefore E'.idents b.succ, blocks := b :: bs }

/-- `identIsOuterLocalVar`, `umka_ident.c:129-144`, for a variable. -/
def outerLoop (block : Nat) : List Block → Bool → Bool
  | [], _ => false
  | b :: bs, found => if b.num = block ∧ found then true else outerLoop block bs (found || b.fn)

def isOuterLocal (E : Env) (i : Ident) : Bool :=
  if i.what ≠ .var ∨ i.block = 0 then false else outerLoop i.block E.blocks false

/-! ## Operations of the parser on names -/

inductive Op
  | enter (fn : Bool)
  | leave
  | declare (d : Decl)
  | temp
  | tempOutside
  /-- a name is used -/
  | lookup (q : Query)
  /-- the compiler goes on with another module (`umka_decl.c:848-866`, `905`) -/
  | switchModule (m : Nat)
  /-- a module is imported (`umka_decl.c:870-873`) -/
  | imported (m : Nat)

/-- What is observed. -/
inductive Out
  | unit
  /-- the declaration found, what it declares, and whether it is a local variable of an enclosing function -/
  | found (i : Option (Nat × What × Bool))
  deriving DecidableEq, Repr

def step (C : Compat) (E : Env) : Op → Except Err (Env × Out)
  | .enter fn => do return (← enter E fn, .unit)
  | .leave => .ok (if E.blocks.length ≤ 1 then E else leave E, .unit)
  | .declare d => do return (← declare C E d, .unit)
  | .temp => do return (← addTemp C E, .unit)
  | .tempOutside => do return (← if E.blocks.length ≤ 1 then .ok E else addTempOutside C E, .unit)
  | .lookup q => .ok (E, .found ((find C E q).map fun i => (i.tag, i.what, isOuterLocal E i)))
  | .switchModule m => .ok (if E.blocks.length ≤ 1 then { E with module := m } else E, .unit)
  | .imported m => .ok (if E.blocks.length ≤ 1 then { E with imports := (E.module, m) :: E.imports } else E, .unit)

def run (C : Compat) : Env → List Op → Except Err (Env × List Out)
  | E, [] => .ok (E, [])
  | E, op :: ops => do
    let (E, o) ← step C E op
    let (E, os) ← run C E ops
    return (E, o :: os)

/-- `identInit`, `blocksInit`: the outermost block. -/
def init : Env := ⟨[], [⟨0, false, none⟩], 1, 0, [], 0, 0⟩

end Umka.Scope
