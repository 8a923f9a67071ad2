import Verif.Scope.Model
import Verif.Paths.Model
/-!
# Looking up a function for the host: model

`umkaGetFunc` after a successful compilation, on top of the models of names (`Scope`) and of module paths (`Paths`).

Simplifications.  The function is denoted by the place of its declaration (`tag`), from which the entry offset of its context follows.  In C the generated name of a
temporary variable is a string that the host may pass, too; here it is no `Name.plain`.  What would be found is a variable, so the answer is the same.
-/

namespace Umka.GetFunc

open Scope

/-- What the lookup uses: the identifiers, the folder of the main module, and the paths of the modules, of which the first is the universe and the second the
main module (`Umka`, `umka_compiler.h`; `moduleAdd`, `umka_common.c:287-331`). -/
structure Host where
  env : Env
  folder : List Char
  paths : List (List Char)

/-- What the host gets. -/
inductive Answer
  /-- `true`, and the context of the function declared there -/
  | found (tag : Nat)
  /-- `false` -/
  | none
  /-- the error handler jumps to a function that has returned (`compileError`, `umka_api.c:35-46`) -/
  | undefined
  deriving DecidableEq, Repr

/-- `DEFAULT_STR_LEN + 1`. -/
def pathSize : Nat := 256

/-- `moduleFind`, `umka_common.c:266-272`.  `none`: -1. -/
def moduleFind (paths : List (List Char)) (path : List Char) : Option Nat :=
  paths.findIdx? (· == path)

/-- The kinds of identifiers accepted: constants of a function type, `umka_compiler.c:338`.  Functions without a body are external. -/
def isFn : What → Bool
  | .fn _ => true
  | .proto _ => true
  | _ => false

/-- `compilerGetFunc` from `identFind` on, `umka_compiler.c:337-342`. -/
def getFuncIn (C : Compat) (E : Env) (module : Nat) (name : String) : Answer :=
  match find C E ⟨module, .plain name, none, false⟩ with
  | none => .none
  | some i => if isFn i.what then .found i.tag else .none

/-- `umkaGetFunc`, `compilerGetFunc`, `umka_compiler.c:328-343`.  With the module number -1 no identifier is found. -/
def getFunc (C : Compat) (H : Host) (module : Option (List Char)) (name : String) : Answer :=
  match module with
  | none => getFuncIn C H.env 1 name
  | some p =>
    match Paths.regularize p H.folder pathSize with
    | none => .undefined
    | some path =>
      match moduleFind H.paths path with
      | none => .none
      | some m => getFuncIn C H.env m name

end Umka.GetFunc
