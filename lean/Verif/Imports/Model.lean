/-!
# Imports: model

How the modules of a program are found and compiled (`umka_decl.c:798-917`, `umka_common.c:266-341`).

Simplifications.  Paths are the normalised paths of C40, and the names of modules are computed from them; both are numbers here.
Errors in the spelling of paths and names (`umka_common.c:295-299`) and in the text of modules are left out: a module is the list of
its imports.
-/

namespace Umka.Imports

abbrev Path := Nat
abbrev Name := Nat

/-- `MAX_MODULES`, `umka_common.h`. -/
def maxModules : Nat := 1024

/-- An import: the alias, which is the name of the module if none is given (`umka_decl.c:833-842`), and the path. -/
structure Item where
  alias : Name
  path : Path
  deriving DecidableEq

/-- The files (or source strings) that exist, with their imports, and the names of modules. -/
structure Files where
  file : Path → Option (List Item)
  name : Path → Name

/-- `Module`, `umka_common.h`; the path `none` is `#universe`.  `aliases`: the entries of `importAlias` that are not null, with their
indices. -/
structure Mod where
  path : Option Path
  compiled : Bool
  aliases : List (Nat × Name)
  deriving DecidableEq

/-- `modules`, `blocks.module`, and the paths of the modules in the order in which their declarations are compiled. -/
structure St where
  mods : List Mod
  current : Nat
  order : List Path
  deriving DecidableEq

inductive Err
  | tooMany
  | duplicateModule
  | duplicateImport
  | cyclic
  | missing
  /-- an index that is not an index of a module: undefined behaviour in C -/
  | undefined
  | fuel
  deriving DecidableEq, Repr

/-- `moduleFind`, `umka_common.c:266-272`. -/
def moduleFind (mods : List Mod) (path : Path) : Option Nat := mods.findIdx? (fun m => m.path == some path)

/-- `moduleAdd`, `umka_common.c:287-341`. -/
def moduleAdd (g : Files) (s : St) (path : Path) : Except Err (Nat × St) :=
  if s.mods.length ≥ maxModules then .error .tooMany
  else
    match moduleFind s.mods path with
    | some _ => .error .duplicateModule
    | none => .ok (s.mods.length, { s with mods := s.mods ++ [⟨some path, false, [(s.mods.length, g.name path)]⟩] })

/-- The module of an import: one that is there, or a new one which is compiled now, `umka_decl.c:847-866`. -/
def getModule (g : Files) (parse : Path → St → Except Err (Nat × St)) (path : Path) (s : St) : Except Err (Nat × St) :=
  match moduleFind s.mods path with
  | some i => .ok (i, s)
  | none =>
    match g.file path with
    | none => .error .missing
    | some _ =>
      match parse path s with
      | .error e => .error e
      | .ok (i, s') => .ok (i, { s' with current := s.current })

/-- The rest of `parseImportItem`, `umka_decl.c:868-877`. -/
def addAlias (alias : Name) (i : Nat) (s : St) : Except Err St :=
  match s.mods[i]?, s.mods[s.current]? with
  | some m, some cur =>
    if !m.compiled then .error .cyclic
    else if cur.aliases.any (fun a => a.1 == i) then .error .duplicateImport
    else .ok { s with mods := s.mods.set s.current { cur with aliases := cur.aliases ++ [(i, alias)] } }
  | _, _ => .error .undefined

/-- `parseImportItem`, `umka_decl.c:798-880`. -/
def importItem (g : Files) (parse : Path → St → Except Err (Nat × St)) (it : Item) (s : St) : Except Err St :=
  match s.mods[s.current]? with
  | none => .error .undefined
  | some cur =>
    if cur.aliases.any (fun a => a.2 == it.alias) then .error .duplicateImport
    else
      match getModule g parse it.path s with
      | .error e => .error e
      | .ok (i, s) => addAlias it.alias i s

/-- `parseImport`, `umka_decl.c:883-899`. -/
def importItems (g : Files) (parse : Path → St → Except Err (Nat × St)) : List Item → St → Except Err St
  | [], s => .ok s
  | it :: its, s =>
    match importItem g parse it s with
    | .error e => .error e
    | .ok s => importItems g parse its s

/-- The end of `parseModule`, `umka_decl.c:911-915`: the declarations are compiled and the module is marked. -/
def finish (s : St) (path : Path) : Except Err (Nat × St) :=
  match s.mods[s.current]? with
  | none => .error .undefined
  | some cur => .ok (s.current, { s with mods := s.mods.set s.current { cur with compiled := true }, order := s.order ++ [path] })

/-- `parseModule`, `umka_decl.c:902-917`.  The first argument bounds the recursion; see `C43_terminates`. -/
def parseModule (g : Files) : Nat → Path → St → Except Err (Nat × St)
  | 0, _, _ => .error .fuel
  | n + 1, path, s =>
    match moduleAdd g s path with
    | .error e => .error e
    | .ok (i, s) =>
      match importItems g (parseModule g n) ((g.file path).getD []) { s with current := i } with
      | .error e => .error e
      | .ok s => finish s path

/-- `umkaInit`, `umkaCompile`: the file of the main module is opened (`umka_compiler.c:195-235`); module 0 is the universe. -/
def compile (g : Files) (n : Nat) (root : Path) : Except Err St :=
  match g.file root with
  | none => .error .missing
  | some _ => (parseModule g n root ⟨[⟨none, true, []⟩], 0, []⟩).map (·.2)

end Umka.Imports
