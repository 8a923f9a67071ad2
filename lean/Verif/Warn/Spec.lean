import Verif.Warn.Model
import Verif.Scope.Spec
/-!
# Warnings: specification

What the text declares and refers to, and which of it deserves a warning.
-/

namespace Umka.Warn.Spec

open Umka.Scope (Compat Decl Name What Query)

/-- Where in the text: the module, and how many blocks enclose the place. -/
def advance : Nat × Nat → Op → Nat × Nat
  | (m, depth), .scope (.enter _) => (m, depth + 1)
  | (m, depth), .scope .leave => (m, if depth ≤ 1 then depth else depth - 1)
  | (m, depth), .scope (.switchModule m') => (if depth ≤ 1 then m' else m, depth)
  | p, _ => p

def position (ops : List Op) : Nat × Nat := ops.foldl advance (0, 1)

/-- A declaration of the text, with its module; `told` if it is a parameter, an index or a key of a loop, the variable of a type switch, or
a type declared ahead. -/
structure Made where
  decl : Decl
  module : Nat
  told : Bool
  deriving DecidableEq

/-- The declarations of the text. -/
def madeFrom : Nat × Nat → List Op → List Made
  | _, [] => []
  | p, .scope (.declare d) :: ops => ⟨d, p.1, false⟩ :: madeFrom p ops
  | p, .declareUsed d :: ops => ⟨d, p.1, true⟩ :: madeFrom p ops
  | p, op :: ops => madeFrom (advance p op) ops

def made (ops : List Op) : List Made := madeFrom (0, 1) ops

/-- The modules that have ended. -/
def endedFrom : Nat × Nat → List Op → List Nat
  | _, [] => []
  | p, .endModule :: ops => p.1 :: endedFrom p ops
  | p, op :: ops => endedFrom (advance p op) ops

def ended (ops : List Op) : List Nat := endedFrom (0, 1) ops

/-- Declarations that nobody needs to use: exported and predeclared ones, those of parameters and loops, those with the name `_` or a name
that starts with `#`, and `main`. -/
def Exempt (mainSig : Nat → Bool) (m : Made) : Prop :=
  m.told = true ∨ m.decl.exported = true ∨ m.module = 0 ∨ m.decl.name = .plain "_" ∨ (∃ s, m.decl.name = .plain s ∧ ∃ t, s.toList = '#' :: t) ∨
  (m.decl.name = .plain "main" ∧ m.decl.rcv = none ∧ ∃ s, mainSig s = true ∧ (m.decl.what = .fn s ∨ m.decl.what = .proto s))

/-- Some use of a name has meant the declaration at this place. -/
def Referred (outs : List Scope.Out) (tag : Nat) : Prop := ∃ w outer, Scope.Out.found (some (tag, w, outer)) ∈ outs

/-- The declaration can only be a new one: no other declaration of the name is a type or a function declared ahead, that it might complete. -/
def New (ops : List Op) (m : Made) : Prop :=
  (m.decl.what = .var ∨ m.decl.what = .module ∨ m.decl.what = .other ∨ m.decl.what = .forward) ∨
  ∀ m' ∈ made ops, m'.decl.tag ≠ m.decl.tag → m'.decl.name = m.decl.name → m'.decl.what ≠ .forward ∧ ∀ s, m'.decl.what ≠ .proto s

/-- The places reported as unused. -/
def reported (ws : List Warning) : List Nat := ws.filterMap fun w => match w with
  | .unused _ tag => some tag
  | .shadowed _ => none

/-- The operations of the area Scope. -/
def names (ops : List Op) : List Scope.Op := ops.filterMap fun op => match op with
  | .scope op => some op
  | .declareUsed d => some (.declare d)
  | .endModule => none

/-- A name declared here would hide a local one of the same function: in the innermost of the enclosing scopes that has a declaration of it, which is
not the outermost scope; a variable of an enclosing function, which cannot be used here anyway, does not count. -/
def hidesIn (C : Compat) (S : Scope.Spec.State) (q : Query) : List Scope.Spec.Scope → Bool → Bool
  | [], _ => false
  | s :: outer, crossed =>
    if outer = [] then false
    else match s.entries.find? (Scope.Spec.denotes C S q) with
      | some e => !(crossed && e.what == .var)
      | none => hidesIn C S q outer (crossed || s.fn)

/-- A declaration hides a local one; `_` and names that start with `#` do not count. -/
def Hides (C : Compat) (S : Scope.Spec.State) (d : Decl) : Prop :=
  match S.scopes with
  | [] => False
  | s :: outer =>
    let q : Query := ⟨S.module, d.name, d.rcv, d.what == .module⟩
    d.name ≠ .plain "_" ∧ (∀ s, d.name = .plain s → s.toList.head? ≠ some '#') ∧ s.entries.find? (Scope.Spec.denotes C S q) = none ∧
      hidesIn C S q outer s.fn = true

end Umka.Warn.Spec
