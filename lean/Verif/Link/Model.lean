/-!
# Link: model

Prototypes, function bodies and external functions: which code a call reaches (`umka_decl.c:727-765`, `umka_decl.c:902-940`,
`umka_stmt.c:64-130`, `umka_stmt.c:1275-1300`, `umka_stmt.c:1384-1390`, `umka_common.c:570-612`, `umka_compiler.c:149-172`,
`umka_compiler.c:316-324`), and the file system switch.

Simplifications.  A program is a list of modules in the order in which they are compiled (C43); a module is a list of
prototypes and functions with their calls.  Everything else in a function body is left out: it does not contain entry points
of functions.  Whether a later declaration of a function fits the prototype (type and export mark,
`umka_ident.c:172-188`) is assumed; if not, the compiler reports a duplicate identifier (C37).  Methods are functions with
the receiver type as a part of their identity but not of their external name.
-/

namespace Umka.Link

/-- The C functions that the program can call: a function of the runtime library (`umka_runtime.c`), its replacement in the
sandbox, a function of the host, a function of an implementation library. -/
inductive Entry
  | rtl (name : List Char)
  | stub (name : List Char)
  | host (n : Nat)
  | lib (n : Nat)
  deriving DecidableEq, Repr

/-- `External`, `umka_common.h`; `entry`: `none` is the null pointer. -/
structure External where
  name : List Char
  entry : Option Entry
  resolveInTrusted : Bool
  resolved : Bool
  deriving DecidableEq

/-- `DEFAULT_STR_LEN`, `umka_common.h`. -/
def defaultStrLen : Nat := 255

/-- `externalFind`, `umka_common.c:576-583`. -/
def externalFind (externals : List External) (name : List Char) : Option External :=
  externals.find? (·.name == name)

/-- `externalAdd`, `umka_common.c:586-602`. -/
def externalAdd (externals : List External) (name : List Char) (entry : Option Entry) (resolveInTrusted : Bool) :
    List External :=
  ⟨name.take defaultStrLen, entry, resolveInTrusted, false⟩ :: externals

/-- `compilerAddClosure`, `umka_compiler.c:316-324`, called by `umkaAddFunc` and `umkaAddClosure`. -/
def addFunc (externals : List External) (name : List Char) (entry : Option Entry) : List External × Bool :=
  match externalFind externals name with
  | some _ => (externals, false)
  | none => (externalAdd externals name entry false, true)

/-- A sequence of calls of `umkaAddFunc` by the host, `umka_api.c` and `umka_compiler.c:316-324`, with the results. -/
def addFuncs (externals : List External) : List (List Char × Option Nat) → List External × List Bool
  | [] => (externals, [])
  | h :: hs =>
    let r := addFunc externals h.1 (h.2.map .host)
    let q := addFuncs r.1 hs
    (q.1, r.2 :: q.2)

/-- The functions of `compilerDeclareExternalFuncs`, `umka_compiler.c:149-172`, with a mark for those that have a replacement in
the sandbox. -/
def runtimeFuncs : List (List Char × Bool) :=
  [("rtlmemcpy".toList, false), ("rtlstdin".toList, false), ("rtlstdout".toList, false), ("rtlstderr".toList, false),
   ("rtlfopen".toList, true), ("rtlfclose".toList, true), ("rtlfread".toList, true), ("rtlfwrite".toList, true),
   ("rtlfseek".toList, true), ("rtlftell".toList, true), ("rtlremove".toList, true), ("rtlfeof".toList, true),
   ("rtlfflush".toList, false), ("rtltime".toList, false), ("rtlclock".toList, false), ("rtllocaltime".toList, false),
   ("rtlgmtime".toList, false), ("rtlmktime".toList, false), ("rtlgetenv".toList, true), ("rtlsystem".toList, true),
   ("rtltrace".toList, false)]

/-- `compilerDeclareExternalFuncs`, `umka_compiler.c:149-172`. -/
def declareExternals (fileSystemEnabled : Bool) : List External :=
  runtimeFuncs.foldl (fun externals f =>
    externalAdd externals f.1 (some (if f.2 && !fileSystemEnabled then .stub f.1 else .rtl f.1)) true) []

/-- The result of a function of the runtime library: an integer or a pointer. -/
inductive Val
  | int (n : Int)
  | ptr (p : Option Nat)
  deriving DecidableEq, Repr

/-- The replacements in the sandbox, `umka_runtime.c:100-103`, `:120-123`, `:141-144`, `:162-165`, `:187-190`, `:205-208`,
`:218-221`, `:236-239`, `:314-317`, `:327-330`. -/
def stubResult (name : List Char) : Val :=
  if name = "rtlfopen".toList ∨ name = "rtlgetenv".toList then .ptr none
  else if name = "rtlfread".toList ∨ name = "rtlfwrite".toList then .int 0
  else .int (-1)

/-- Calling an external function in a state `w` of the outside world.  What the functions other than the replacements do is not
modelled: they are parameters. -/
def callEntry {World : Type} (other : Entry → World → Val × World) (e : Entry) (w : World) : Val × World :=
  match e with
  | .stub name => (stubResult name, w)
  | e => other e w

/-! ## Linking -/

/-- A function: module, receiver type of a method, name. -/
structure Fn where
  module : Nat
  rcv : Option Nat
  name : List Char
  deriving DecidableEq, Repr

/-- A declaration of a module: a prototype, or a function with the functions it calls. -/
inductive Item
  | proto (rcv : Option Nat) (name : List Char)
  | fn (rcv : Option Nat) (name : List Char) (calls : List Fn)
  deriving DecidableEq

/-- A module: `lex.hasSourceString`, `lex.trusted`, its implementation library and its declarations. -/
structure Module where
  hasSourceString : Bool
  trusted : Bool
  lib : List Char → Option Nat
  items : List Item

/-- The instructions, as far as they matter here. -/
inductive Instr
  | nop
  | goto (dest : Nat)
  /-- the first instruction of a function (`OP_ENTER_FRAME`); the function it belongs to is added for reference -/
  | enter (f : Fn)
  | call (entry : Nat)
  | callExtern (e : Entry)
  | ret
  | halt
  deriving DecidableEq, Repr

/-- An identifier of a function: `offset`, `prototypeOffset` (`none`: -1). -/
structure Ident where
  fn : Fn
  offset : Nat
  proto : Option Nat
  deriving DecidableEq

/-- The compiler: code, identifiers (the last one first), external functions. -/
structure St where
  code : List Instr
  idents : List Ident
  externals : List External
  deriving DecidableEq

inductive Err
  | duplicate
  | unknown
  | alreadyResolved
  | cannotResolve
  | unresolved
  deriving DecidableEq, Repr

/-- Changes the identifier of a function. -/
def update (idents : List Ident) (f : Fn) (g : Ident → Ident) : List Ident :=
  idents.map (fun i => if i.fn = f then g i else i)

def find (idents : List Ident) (f : Fn) : Option Ident := idents.find? (·.fn == f)

/-- `identAddConst`, `umka_ident.c:255-260` with `umka_ident.c:191-252`, for a function: a new identifier, or the one of a
prototype; its offset is the current position in the code. -/
def addFnIdent (s : St) (f : Fn) : Except Err St :=
  match find s.idents f with
  | none => .ok { s with idents := ⟨f, s.code.length, none⟩ :: s.idents }
  | some i =>
    if i.proto.isSome then .ok { s with idents := update s.idents f (fun i => { i with offset := s.code.length }) }
    else .error .duplicate

/-- `parseFnPrototype`, `umka_stmt.c:1384-1388`. -/
def fnPrototype (s : St) (f : Fn) : St :=
  { s with idents := update s.idents f (fun i => { i with proto := some i.offset }), code := s.code ++ [.nop] }

/-- `genEntryPoint`, `umka_gen.c:1128-1131`. -/
def entryPoint (code : List Instr) (start : Nat) : List Instr := code.set start (.goto code.length)

/-- The calls in a function body: `genCall` with the offset of the identifier. -/
def compileCalls (s : St) : List Fn → Except Err St
  | [] => .ok s
  | f :: fs =>
    match find s.idents f with
    | none => .error .unknown
    | some i => compileCalls { s with code := s.code ++ [.call i.offset] } fs

/-- `parseFnBlock`, `umka_stmt.c:1292-1300` and the rest of the function. -/
def fnBlock (s : St) (f : Fn) (calls : List Fn) : Except Err St :=
  let s :=
    match (find s.idents f).bind (·.proto) with
    | some p => { s with code := entryPoint s.code p, idents := update s.idents f (fun i => { i with proto := none }) }
    | none => s
  match compileCalls { s with code := s.code ++ [.enter f] } calls with
  | .error e => .error e
  | .ok s => .ok { s with code := s.code ++ [.ret] }

/-- `parseFnDecl`, `umka_decl.c:727-765`. -/
def fnDecl (m : Nat) (s : St) : Item → Except Err St
  | .proto rcv name =>
    match addFnIdent s ⟨m, rcv, name⟩ with
    | .error e => .error e
    | .ok s => .ok (fnPrototype s ⟨m, rcv, name⟩)
  | .fn rcv name calls =>
    match addFnIdent s ⟨m, rcv, name⟩ with
    | .error e => .error e
    | .ok s => fnBlock s ⟨m, rcv, name⟩ calls

/-- `parseDecls`, `umka_decl.c:786-795`. -/
def decls (m : Nat) : St → List Item → Except Err St
  | s, [] => .ok s
  | s, i :: is =>
    match fnDecl m s i with
    | .error e => .error e
    | .ok s => decls m s is

/-- `external->resolved = true` for the first one with the name. -/
def markResolved : List External → List Char → List External
  | [], _ => []
  | e :: es, name => if e.name = name then { e with resolved := true } :: es else e :: markResolved es name

/-- The choice of the C function for a prototype in `doResolveExtern`, `umka_stmt.c:72-95`. -/
def chooseExtern (M : Module) (externals : List External) (name : List Char) : Except Err (Entry × List External) :=
  match externalFind externals name with
  | some e =>
    if e.resolved then .error .alreadyResolved
    else if !M.hasSourceString || (e.resolveInTrusted && !M.trusted) then .error .cannotResolve
    else
      match e.entry with
      | none => .error .unresolved
      | some fn => .ok (fn, markResolved externals name)
  | none =>
    match M.lib name with
    | none => .error .unresolved
    | some n => .ok (.lib n, externals)

/-- The loop of `doResolveExtern`, `umka_stmt.c:64-130`.  The identifiers of prototypes keep their `prototypeOffset`; nothing
looks at it later, since the module is finished. -/
def resolveExtern (m : Nat) (M : Module) : St → List Ident → Except Err St
  | s, [] => .ok s
  | s, i :: is =>
    if i.fn.module = m then
      match i.proto with
      | none => resolveExtern m M s is
      | some p =>
        match chooseExtern M s.externals i.fn.name with
        | .error e => .error e
        | .ok (fn, externals) =>
          resolveExtern m M { s with externals := externals, code := entryPoint s.code p ++ [.enter i.fn, .callExtern fn, .ret] } is
    else resolveExtern m M s is

/-- `parseModule`, `umka_decl.c:902-917`, without the imports. -/
def parseModule (m : Nat) (M : Module) (s : St) : Except Err St :=
  match decls m s M.items with
  | .error e => .error e
  | .ok s => resolveExtern m M s s.idents

/-- The modules of a program, one after the other; module 0 is the universe. -/
def modules : Nat → List Module → St → Except Err St
  | _, [], s => .ok s
  | m, M :: Ms, s =>
    match parseModule m M s with
    | .error e => .error e
    | .ok s => modules (m + 1) Ms s

/-- `parseProgram`, `umka_decl.c:920-940`: the first instruction is a jump to the cleanup code at the end. -/
def program (Ms : List Module) (externals : List External) : Except Err St :=
  match modules 1 Ms ⟨[.nop], [], externals⟩ with
  | .error e => .error e
  | .ok s => .ok { s with code := entryPoint s.code 0 ++ [.halt] }

/-! ## The file system switch of fibers -/

/-- The stream of `printf`, `fprintf` and `sprintf` (and of the `scanf` functions). -/
inductive Stream
  | console
  | string
  | file
  | nowhere
  deriving DecidableEq, Repr

/-- The choice of the stream in `doBuiltinPrintf`, `umka_vm.c:1955-1976`, and `doBuiltinScanf`, `umka_vm.c:2112-2135`.
`umkaFile`: the file argument is not null and open. -/
def stream (fileSystemEnabled isConsole isString umkaFile : Bool) : Stream :=
  if isString then .string
  else if isConsole then .console
  else if fileSystemEnabled then if umkaFile then .file else .nowhere
  else .nowhere

/-- An action of a running program: create a fiber (`doAllocFiber`, `umka_vm.c:1625-1637`, which copies the whole fiber), or
print or scan. -/
inductive Act
  | spawn (parent : Nat)
  | io (fiber : Nat) (isConsole isString umkaFile : Bool)
  deriving DecidableEq

/-- The flags `fileSystemEnabled` of the fibers; the first one is the main fiber (`vmInit`, `umka_vm.c:903`).  The result of an
action of an existing fiber is the stream used. -/
def act (flags : List Bool) : Act → List Bool × Option Stream
  | .spawn parent =>
    match flags[parent]? with
    | none => (flags, none)
    | some f => (flags ++ [f], none)
  | .io fiber c s u =>
    match flags[fiber]? with
    | none => (flags, none)
    | some f => (flags, some (stream f c s u))

def acts : List Bool → List Act → List Stream
  | _, [] => []
  | flags, a :: as => (act flags a).2.toList ++ acts (act flags a).1 as

end Umka.Link
