import Verif.Scope.Model
/-!
# Identifiers and blocks: specification

A program text is a nest of scopes.  A name means the declaration of the innermost scope that has a visible declaration
of it.  Nothing here mentions the compiler's list of identifiers, block numbers or temporary variables.
-/

namespace Umka.Scope.Spec

/-- A declaration, made at place `tag`, in module `module`. -/
structure Entry where
  tag : Nat
  name : Name
  what : What
  rcv : Option Nat
  module : Nat
  exported : Bool

/-- A scope: its declarations, the last first, and whether it is the body of a function. -/
structure Scope where
  fn : Bool
  entries : List Entry

/-- The nest of scopes, the innermost first. -/
structure State where
  scopes : List Scope
  module : Nat
  imports : List (Nat × Nat)

/-- From module `cur`, may one refer to the entry as a name of module `q.module`?  Predeclared names (module 0) may be
used as names of one's own module; names of one's own module may be used; names of another module may be used if they
are exported, and the module has been imported or they are methods. -/
def Visible (cur : Nat) (imports : List (Nat × Nat)) (q : Query) (e : Entry) : Prop :=
  (e.module = 0 ∧ q.module = cur) ∨
  (e.module = q.module ∧ q.module = cur) ∨
  (e.module = q.module ∧ e.exported = true ∧ (q.rcv ≠ none ∨ (cur, e.module) ∈ imports))

/-- Does the entry declare what is asked for?  Modules are asked for as modules only; methods are asked for by a
receiver type. -/
def Answers (C : Compat) (q : Query) (e : Entry) : Prop :=
  e.name = q.name ∧ (e.what = .module ↔ q.isModule = true) ∧
  match q.rcv, e.rcv with
  | none, none => True
  | some r, some r' => C.rcv r' r = true
  | _, _ => False

instance (cur imports q e) : Decidable (Visible cur imports q e) := by unfold Visible; infer_instance
instance (C q e) : Decidable (Answers C q e) := by
  unfold Answers
  cases q.rcv <;> cases e.rcv <;> infer_instance

/-- Does the name asked for by `q` mean `e`, if there is nothing before `e`? -/
def denotes (C : Compat) (S : State) (q : Query) (e : Entry) : Bool :=
  decide (Answers C q e ∧ Visible S.module S.imports q e)

/-- The meaning of a name: the last visible declaration of the innermost scope that has one.  The flag says whether it
is a local variable of a function that encloses the current function. -/
def meaningIn (C : Compat) (S : State) (q : Query) : List Scope → Bool → Option (Entry × Bool)
  | [], _ => none
  | s :: outer, crossed =>
    match s.entries.find? (denotes C S q) with
    | some e => some (e, crossed && e.what == .var && !outer.isEmpty)
    | none => meaningIn C S q outer (crossed || s.fn)

def meaning (C : Compat) (S : State) (q : Query) : Option (Entry × Bool) := meaningIn C S q S.scopes false

/-- A type declared in advance is completed by a type declaration; a function declared in advance is completed by a
declaration with the same signature and the same export mark. -/
def complete (C : Compat) (e : Entry) (d : Decl) : Option Entry :=
  match e.what, d.what with
  | .forward, .type => some { e with what := .type, exported := d.exported }
  | .proto s, .fn s' => if C.sig s s' ∧ d.exported = e.exported then some { e with what := .fn s' } else none
  | .proto s, .proto s' => if C.sig s s' ∧ d.exported = e.exported then some { e with what := .proto s' } else none
  | _, _ => none

/-- The first entry that satisfies `p` is replaced. -/
def replaceFirst (p : Entry → Bool) (e' : Entry) : List Entry → List Entry
  | [] => []
  | e :: es => if p e then e' :: es else e :: replaceFirst p e' es

/-- A declaration: it is an error if the innermost scope has a visible declaration of that name already (unless it
completes that); only the outermost scope can export. -/
def declare (C : Compat) (S : State) (d : Decl) : Except Err State :=
  match S.scopes with
  | [] => .ok S
  | s :: outer =>
    let own := denotes C S ⟨S.module, d.name, d.rcv, d.what == .module⟩
    match s.entries.find? own with
    | some e =>
      match complete C e d with
      | some e' => .ok { S with scopes := { s with entries := replaceFirst own e' s.entries } :: outer }
      | none => .error .duplicate
    | none =>
      if d.exported ∧ outer ≠ [] then .error .exportedLocal
      else .ok { S with
        scopes := { s with entries := ⟨d.tag, d.name, d.what, d.rcv, S.module, d.exported⟩ :: s.entries } :: outer }

def step (C : Compat) (S : State) : Op → Except Err (State × Out)
  | .enter fn =>
    if S.scopes.length ≥ maxNesting then .error .tooDeep
    else .ok ({ S with scopes := ⟨fn, []⟩ :: S.scopes }, .unit)
  | .leave => .ok (if S.scopes.length ≤ 1 then S else { S with scopes := S.scopes.tail }, .unit)
  | .declare d => do return (← declare C S d, .unit)
  | .temp => .ok (S, .unit)
  | .tempOutside => .ok (S, .unit)
  | .lookup q => .ok (S, .found ((meaning C S q).map fun (e, outer) => (e.tag, e.what, outer)))
  | .switchModule m => .ok (if S.scopes.length ≤ 1 then { S with module := m } else S, .unit)
  | .imported m => .ok (if S.scopes.length ≤ 1 then { S with imports := (S.module, m) :: S.imports } else S, .unit)

def run (C : Compat) : State → List Op → Except Err (State × List Out)
  | S, [] => .ok (S, [])
  | S, op :: ops => do
    let (S, o) ← step C S op
    let (S, os) ← run C S ops
    return (S, o :: os)

def init : State := ⟨[⟨false, []⟩], 0, []⟩

end Umka.Scope.Spec

namespace Umka.Scope

/-- The source uses no generated names. -/
def Op.plain : Op → Prop
  | .declare d => ∃ s, d.name = .plain s
  | .lookup q => ∃ s, q.name = .plain s
  | _ => True

/-- Within the operations every `leave` has its `enter` (`depth`: how many are open). -/
def balanced : List Op → Nat → Bool
  | [], depth => depth == 0
  | .enter _ :: ops, depth => balanced ops (depth + 1)
  | .leave :: ops, depth => depth != 0 && balanced ops (depth - 1)
  | _ :: ops, depth => balanced ops depth

end Umka.Scope
