import Verif.GetFunc.Model
import Verif.Scope.Spec
/-!
# Looking up a function for the host: specification

What the program declares is given by the nest of scopes (`Scope.Spec`) after all its declarations.
-/

namespace Umka.GetFunc.Spec

open Scope

/-- A declaration at the top level of some module. -/
def Global (S : Scope.Spec.State) (e : Scope.Spec.Entry) : Prop := ∃ s ∈ S.scopes, e ∈ s.entries

/-- It declares a function, with or without a body. -/
def IsFn (e : Scope.Spec.Entry) : Prop := (∃ sig, e.what = .fn sig) ∨ ∃ sig, e.what = .proto sig

/-- The module of a function that the host asks for: the main module or that of the path, which may be relative to the folder of the main module. -/
def Names (H : Host) : Option (List Char) → Nat → Prop
  | none, m => m = 1
  | some p, m => ∃ path, Paths.regularize p H.folder pathSize = some path ∧ H.paths[m]? = some path

/-- Entry `e` declares the function `name` of module `m`; it is no method. -/
structure Declares (S : Scope.Spec.State) (e : Scope.Spec.Entry) (m : Nat) (name : String) : Prop where
  «global» : Global S e
  module : e.module = m
  name : e.name = .plain name
  fn : IsFn e
  noMethod : e.rcv = none

/-- A program compiled successfully: `ops` are the declarations, uses of names and blocks in the order of the compilation, `S` the resulting declarations. -/
structure Compiled (C : Compat) (ops : List Op) (S : Scope.Spec.State) (H : Host) : Prop where
  plain : ∀ op ∈ ops, op.plain
  /-- accepted by the compiler, with all blocks left again, back in the main module -/
  run : ∃ o, Scope.run C Scope.init ops = .ok (H.env, o)
  left : H.env.blocks.length = 1
  main : H.env.module = 1
  /-- the same history, as the language defines it -/
  spec : ∃ o, Scope.Spec.run C Scope.Spec.init ops = .ok (S, o)
  /-- nothing is predeclared any more after the beginning -/
  universe' : ∀ op ∈ ops, op ≠ .switchModule 0
  /-- predeclared names are types, constants, variables and built-in functions, which are no functions of Umka -/
  predeclared : ∀ e, Global S e → e.module = 0 → ¬ IsFn e
  /-- modules have different paths (`moduleAdd`, `umka_common.c:301-303`) -/
  paths : H.paths.Nodup

end Umka.GetFunc.Spec
