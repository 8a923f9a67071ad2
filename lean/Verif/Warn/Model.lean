import Verif.Scope.Model
/-!
# Warnings: model

The warnings of the compiler about identifiers that are not used and about shadowed identifiers (`umka_ident.c:191-217, 236, 392-399`), on top of
the model of identifiers and blocks (area Scope).

Simplifications.  Those of the area Scope; a warning is the kind of the warning and the place of the declaration.  The warnings of a compilation
that ends with an error are not modelled.
-/

namespace Umka.Warn

open Umka.Scope (Compat Env Ident Decl Name What Query)

/-- A warning: `"Module %s is not used"` or `"Identifier %s is not used"`, `"Shadowed identifier %s"`, with the place it is reported at (`debug`). -/
inductive Warning
  | unused (isModule : Bool) (tag : Nat)
  | shadowed (tag : Nat)
  deriving DecidableEq, Repr

/-- The compiler: names and blocks, the identifiers with the mark `isUsed`, and the warnings so far. -/
structure State where
  env : Env
  used : List Nat
  warns : List Warning

/-- `identIsHidden`, `umka_ident.h:82-85`. -/
def isHidden : Name → Bool
  | .plain s => s.toList.head? == some '#'
  | .temp _ => true

/-- `identIsPlaceholder`, `umka_ident.h:87-90`. -/
def isPlaceholder : Name → Bool
  | .plain s => s.toList == ['_']
  | .temp _ => false

/-- `identIsMain`, `umka_ident.c:402-410`; `mainSig` tells the signature without parameters and result. -/
def isMain (mainSig : Nat → Bool) (name : Name) (rcv : Option Nat) : What → Bool
  | .fn s => rcv.isNone && mainSig s && name == .plain "main"
  | .proto s => rcv.isNone && mainSig s && name == .plain "main"
  | _ => false

/-- `isUsed` of a new identifier (`umka_ident.c:241`). -/
def usedAtOnce (mainSig : Nat → Bool) (module : Nat) (d : Decl) : Bool :=
  d.exported || module == 0 || isHidden d.name || isPlaceholder d.name || isMain mainSig d.name d.rcv d.what

/-- The warning about a shadowed identifier in `identAdd` (`umka_ident.c:198-216`). -/
def shadowWarning (C : Compat) (E : Env) (d : Decl) : List Warning :=
  match Scope.find C E ⟨E.module, d.name, d.rcv, d.what == .module⟩ with
  | some e =>
    if e.block ≠ E.cur ∧ ¬ isHidden d.name ∧ ¬ isPlaceholder d.name ∧ e.block ≠ 0 ∧ ¬ Scope.isOuterLocal E e then [.shadowed d.tag] else []
  | none => []

/-- `identAdd`, `umka_ident.c:191-252`, with the warning and the mark; then `identSetUsed` if `told`. -/
def declare (C : Compat) (mainSig : Nat → Bool) (s : State) (d : Decl) (told : Bool) : Except Scope.Err State := do
  let E ← Scope.declare C s.env d
  return { env := E
           used := if E.nextId ≠ s.env.nextId ∧ (told ∨ usedAtOnce mainSig s.env.module d) then s.env.nextId :: s.used else s.used
           warns := s.warns ++ shadowWarning C s.env d }

/-- `identWarnIfUnused`, `umka_ident.c:392-399`.  The names of temporary variables tell `isTemporary`. -/
def warnIfUnused (s : State) (i : Ident) : State :=
  match i.name with
  | .temp _ => s
  | .plain _ =>
    if s.used.contains i.id then s
    else { s with warns := s.warns ++ [.unused (i.what == .module) i.tag], used := i.id :: s.used }

/-- The end of a block: `identFree`, `umka_ident.c:31-45`, and `blocksLeave`. -/
def leave (s : State) : State :=
  { (s.env.idents.takeWhile (·.block == s.env.cur)).foldl warnIfUnused s with env := Scope.leave s.env }

/-- The end of a module: the warnings of `doResolveExtern`, `umka_stmt.c:64-132`. -/
def endModule (s : State) : State := (s.env.idents.filter (·.module == s.env.module)).foldl warnIfUnused s

/-- A use of a name (`identAssertFind` and other calls of `identFindEx` with `markAsUsed`, `umka_ident.c:87-88`; also the calls followed by
`identSetUsed`: `umka_stmt.c:360`, `umka_expr.c:1405`). -/
def markUsed (C : Compat) (s : State) (q : Query) : State :=
  match Scope.find C s.env q with
  | some i => { s with used := i.id :: s.used }
  | none => s

/-- What the parser does with names. -/
inductive Op
  | scope (op : Scope.Op)
  /-- a declaration marked as used at once: a parameter (`umka_ident.c:375`), the index or key of a loop (`umka_stmt.c:962, 970`), the variable of a
  type switch (`umka_stmt.c:616`), a type declared ahead (`umka_decl.c:28`) -/
  | declareUsed (d : Decl)
  | endModule

def step (C : Compat) (mainSig : Nat → Bool) (s : State) : Op → Except Scope.Err (State × Scope.Out)
  | .scope (.declare d) => do return (← declare C mainSig s d false, .unit)
  | .declareUsed d => do return (← declare C mainSig s d true, .unit)
  | .scope .leave => .ok (if s.env.blocks.length ≤ 1 then s else leave s, .unit)
  | .scope (.lookup q) => do
    let (_, o) ← Scope.step C s.env (.lookup q)
    return (markUsed C s q, o)
  | .scope op => do
    let (E, o) ← Scope.step C s.env op
    return ({ s with env := E }, o)
  | .endModule => .ok (endModule s, .unit)

def run (C : Compat) (mainSig : Nat → Bool) : State → List Op → Except Scope.Err (State × List Scope.Out)
  | s, [] => .ok (s, [])
  | s, op :: ops => do
    let (s, o) ← step C mainSig s op
    let (s, os) ← run C mainSig s ops
    return (s, o :: os)

def init : State := ⟨Scope.init, [], []⟩

end Umka.Warn
