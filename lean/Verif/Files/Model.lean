/-!
# Files: model

The functions of the standard library that work with files and with the bytes of variables: `fopen`, `fclose`, `fseek`, `ftell`,
`remove`, `feof`, `fflush`, `fread`, `freadall`, `fwrite`, `stdin`, `stdout`, `stderr`, `tobytes`, `frombytes`, written in Umka
(`umka_runtime_src.h`) on top of `rtlfopen`, `rtlfread` and so on (`umka_runtime.c`), with the file system enabled
(without it, see the area Paths).

What the C library does is modelled after the C standard (ISO C 7.21) and POSIX:

* A file is a list of bytes.  What is written is in the file at once: the buffers of the C library are not modelled, nor are the
  conversions of line ends in text mode (there are none on POSIX systems).  `fclose` and `fflush` never fail.
* The file system can refuse names (`Sys.denied`) and the growth of files (`Sys.room`).
* What the C standard leaves undefined is the outcome `ub`: a null file name, a stream that has been closed, a read right after a write
  and a write right after a read.

The descriptions of errors (`Err`) are reduced to their codes.  File handles are the numbers of the structures `File`
(`umka_common.h:65-68`), `none` is `null`.
-/

namespace Umka.Files

/-- A byte. -/
abbrev Byte := Fin 256

/-- A file name. -/
abbrev Name := List Char

/-- What the system allows: names that cannot be opened or removed, the largest size of a file, and whether a file opened for
appending starts with the position at its end (implementation-defined, ISO C 7.21.3). -/
structure Sys where
  denied : Name → Bool
  room : Nat
  appendAtEnd : Bool

/-- The last operation on a stream (ISO C 7.21.5.3, 7). -/
inductive Last
  | none | read | write
  deriving DecidableEq, Repr

/-- `FILE`. -/
structure Stream where
  file : Nat
  pos : Nat
  eof : Bool
  last : Last
  canRead : Bool
  canWrite : Bool
  append : Bool
  deriving DecidableEq, Repr

/-- The state of the file system, the C library and the program's variables. -/
structure World where
  /-- The files by name. -/
  dir : Name → Option Nat
  /-- The contents of the files. -/
  file : Nat → List Byte
  /-- The number of the next file. -/
  files : Nat
  /-- The open streams. -/
  stream : Nat → Option Stream
  /-- The number of the next stream. -/
  streams : Nat
  /-- `File.stream`. -/
  obj : Nat → Option Nat
  /-- The number of the next structure `File`. -/
  objs : Nat
  /-- The bytes of the program's variables; for variables of the types `[]int8`, `[]uint8` and `[]char`, the items. -/
  var : Nat → List Byte
  /-- The number of the next variable. -/
  vars : Nat

/-- The outcome of a function: a result, undefined behaviour, or a run-time error. -/
inductive Res (α : Type)
  | ok (a : α) (w : World)
  | ub
  | panic

/-- One function after another. -/
def Res.bind {α β : Type} (r : Res α) (k : α → World → Res β) : Res β :=
  match r with
  | .ok a w => k a w
  | .ub => .ub
  | .panic => .panic

/-- Replace the value of a function at one place. -/
def set {α : Type} (f : Nat → α) (i : Nat) (a : α) : Nat → α := fun j => if j = i then a else f j

/-! ## The C library -/

/-- A new stream on a file (ISO C 7.21.5.3). -/
def newStream (S : Sys) (w : World) (i : Nat) (mode : List Char) : Res (Option Nat) :=
  let append := mode.head? == some 'a'
  let st : Stream :=
    { file := i
      pos := if append && S.appendAtEnd then (w.file i).length else 0
      eof := false
      last := .none
      canRead := mode.head? == some 'r' || mode.contains '+'
      canWrite := mode.head? != some 'r' || mode.contains '+'
      append := append }
  .ok (some w.streams) { w with stream := set w.stream w.streams (some st), streams := w.streams + 1 }

/-- `fopen` (ISO C 7.21.5.3).  A null name and a mode that starts with none of `r`, `w`, `a` are undefined. -/
def cfopen (S : Sys) (name : Option Name) (mode : List Char) (w : World) : Res (Option Nat) :=
  match name with
  | none => .ub
  | some n =>
    if mode.head? ≠ some 'r' ∧ mode.head? ≠ some 'w' ∧ mode.head? ≠ some 'a' then .ub else
    if S.denied n then .ok none w else
    match w.dir n with
    | some i =>
      newStream S (if mode.head? = some 'w' then { w with file := set w.file i [] } else w) i mode
    | none =>
      if mode.head? = some 'r' then .ok none w else
      newStream S { w with
        dir := fun m => if m = n then some w.files else w.dir m
        file := set w.file w.files []
        files := w.files + 1 } w.files mode

/-- `fclose` (ISO C 7.21.5.1). -/
def cfclose (s : Nat) (w : World) : Res Int :=
  match w.stream s with
  | none => .ub
  | some _ => .ok 0 { w with stream := set w.stream s none }

/-- `fread` of `n` items of size 1 (ISO C 7.21.8.1): the bytes read.  The end-of-file indicator is set if there were fewer than `n`. -/
def cfread (s n : Nat) (w : World) : Res (List Byte) :=
  match w.stream s with
  | none => .ub
  | some st =>
    if !st.canRead then .ok [] w else
    if st.last = .write then .ub else
    let bytes := ((w.file st.file).drop st.pos).take n
    .ok bytes { w with
      stream := set w.stream s (some { st with
        pos := st.pos + bytes.length, eof := st.eof || decide (bytes.length < n), last := .read }) }

/-- Put bytes into a file at a position; a gap is filled with zeros (POSIX `fseek`). -/
def overwrite (old : List Byte) (pos : Nat) (bytes : List Byte) : List Byte :=
  old.take pos ++ List.replicate (pos - old.length) 0 ++ bytes ++ old.drop (pos + bytes.length)

/-- `fwrite` of items of size 1 (ISO C 7.21.8.2): the number of bytes written. -/
def cfwrite (S : Sys) (s : Nat) (bytes : List Byte) (w : World) : Res Nat :=
  match w.stream s with
  | none => .ub
  | some st =>
    if !st.canWrite then .ok 0 w else
    if st.last = .read ∧ st.eof = false then .ub else
    let pos := if st.append then (w.file st.file).length else st.pos
    let done := bytes.take (S.room - pos)
    .ok done.length { w with
      file := if done = [] then w.file else set w.file st.file (overwrite (w.file st.file) pos done)
      stream := set w.stream s (some { st with pos := pos + done.length, last := .write }) }

/-- The origins of `fseek`. -/
inductive Origin
  | begin | cur | «end»
  deriving DecidableEq, Repr

/-- `fseek` (ISO C 7.21.9.2). -/
def cfseek (s : Nat) (offset : Int) (origin : Origin) (w : World) : Res Int :=
  match w.stream s with
  | none => .ub
  | some st =>
    let base : Int := match origin with
      | .begin => 0
      | .cur => st.pos
      | .end => (w.file st.file).length
    if base + offset < 0 then .ok (-1) w else
    .ok 0 { w with stream := set w.stream s (some { st with pos := (base + offset).toNat, eof := false, last := .none }) }

/-- `ftell` (ISO C 7.21.9.4). -/
def cftell (s : Nat) (w : World) : Res Int :=
  match w.stream s with
  | none => .ub
  | some st => .ok st.pos w

/-- `feof` (ISO C 7.21.10.2). -/
def cfeof (s : Nat) (w : World) : Res Int :=
  match w.stream s with
  | none => .ub
  | some st => .ok (if st.eof then 1 else 0) w

/-- `fflush` (ISO C 7.21.5.2, POSIX). -/
def cfflush (s : Nat) (w : World) : Res Int :=
  match w.stream s with
  | none => .ub
  | some st => .ok 0 { w with stream := set w.stream s (some { st with last := if st.last = .write then .none else st.last }) }

/-- `remove` (ISO C 7.21.4.1).  Streams on the file stay as they are (POSIX `unlink`). -/
def cremove (S : Sys) (name : Option Name) (w : World) : Res Int :=
  match name with
  | none => .ub
  | some n =>
    if S.denied n then .ok (-1) w else
    match w.dir n with
    | none => .ok (-1) w
    | some _ => .ok 0 { w with dir := fun m => if m = n then none else w.dir m }

/-! ## `umka_runtime.c` -/

/-- A value of the type `File`. -/
abbrev File := Option Nat

/-- A conversion of an `int64_t` to an `int`. -/
def toInt (x : Int) : Int := (x + 2 ^ 31) % 2 ^ 32 - 2 ^ 31

/-- `rtlstdin`, `rtlstdout`, `rtlstderr` (`umka_runtime.c:62-83`): the static structures are the first three, and so are the
streams. -/
def rtlstd (k : Fin 3) (w : World) : Res File := .ok (some k) { w with obj := set w.obj k (some k) }

/-- `rtlfopen` (`umka_runtime.c:86-99`). -/
def rtlfopen (S : Sys) (name : Option Name) (mode : List Char) (w : World) : Res File :=
  (cfopen S name mode w).bind fun stream w =>
    match stream with
    | none => .ok none w
    | some s => .ok (some w.objs) { w with obj := set w.obj w.objs (some s), objs := w.objs + 1 }

/-- `if (file && file->stream) res = ...` (`umka_runtime.c:113, 135, 159, 184, 203, 236, 251`). -/
def withStream {α : Type} (f : File) (dflt : α) (call : Nat → World → Res α) (w : World) : Res α :=
  match f with
  | none => .ok dflt w
  | some o =>
    match w.obj o with
    | none => .ok dflt w
    | some s => call s w

/-- `rtlfclose` (`umka_runtime.c:108-119`). -/
def rtlfclose (f : File) (w : World) : Res Int :=
  withStream f (-1) (fun s w => (cfclose s w).bind fun r w =>
    .ok r (match f with
      | some o => { w with obj := set w.obj o none }
      | none => w)) w

/-- `rtlOnFreeFile` (`umka_runtime.c:11-19`), called when the last reference to a structure `File` is gone. -/
def rtlOnFreeFile (o : Nat) (w : World) : Res Unit :=
  withStream (some o) () (fun s w => (cfclose s w).bind fun _ w => .ok () { w with obj := set w.obj o none }) w

/-- `rtlfread` (`umka_runtime.c:128-140`) of `n` bytes, as the bytes read. -/
def rtlfread (n : Nat) (f : File) (w : World) : Res (List Byte) := withStream f [] (fun s w => cfread s n w) w

/-- `rtlfwrite` (`umka_runtime.c:149-161`). -/
def rtlfwrite (S : Sys) (bytes : List Byte) (f : File) (w : World) : Res Nat := withStream f 0 (fun s w => cfwrite S s bytes w) w

/-- `rtlfseek` (`umka_runtime.c:170-187`). -/
def rtlfseek (f : File) (offset : Int) (origin : Origin) (w : World) : Res Int :=
  let offset := toInt offset
  withStream f (-1) (fun s w => cfseek s offset origin w) w

/-- `rtlftell` (`umka_runtime.c:196-205`). -/
def rtlftell (f : File) (w : World) : Res Int := withStream f (-1) cftell w

/-- `rtlremove` (`umka_runtime.c:214-218`). -/
def rtlremove (S : Sys) (name : Option Name) (w : World) : Res Int := cremove S name w

/-- `rtlfeof` (`umka_runtime.c:227-236`). -/
def rtlfeof (f : File) (w : World) : Res Int := withStream f (-1) cfeof w

/-- `rtlfflush` (`umka_runtime.c:245-254`). -/
def rtlfflush (f : File) (w : World) : Res Int := withStream f (-1) cfflush w

/-! ## `std.um` -/

/-- `StdErr` (`umka_runtime_src.h:30-37`). -/
inductive StdErr
  | ok | assert | buffer | ptr | nullf | eof
  deriving DecidableEq, Repr

/-- `fopenModes` (`umka_runtime_src.h:141-146`). -/
def fopenModes : List (List Char) :=
  ["r", "w", "a", "rb", "wb", "ab", "r+", "w+", "a+", "r+b", "rb+", "w+b", "wb+", "a+b", "ab+"].map String.toList

/-- `fopen` (`umka_runtime_src.h:150-158`). -/
def fopen (S : Sys) (name : Option Name) (mode : List Char) (w : World) : Res (File × StdErr) :=
  if fopenModes.contains mode then
    (rtlfopen S name mode w).bind fun f w => .ok (f, if f ≠ none then .ok else .nullf) w
  else .ok (none, .nullf) w

/-- `fclose` (`umka_runtime_src.h:162-167`). -/
def fclose (f : File) (w : World) : Res StdErr :=
  if f = none then .ok .nullf w else (rtlfclose f w).bind fun r w => .ok (if r = 0 then .ok else .eof) w

/-- `fseek` (`umka_runtime_src.h:171-176`). -/
def fseek (f : File) (offset : Int) (origin : Origin) (w : World) : Res StdErr :=
  if f = none then .ok .nullf w else (rtlfseek f offset origin w).bind fun r w => .ok (if r = 0 then .ok else .eof) w

/-- `ftell` (`umka_runtime_src.h:180-186`). -/
def ftell (f : File) (w : World) : Res (Int × StdErr) :=
  if f = none then .ok (0, .nullf) w else (rtlftell f w).bind fun pos w => .ok (pos, if pos ≥ 0 then .ok else .eof) w

/-- `remove` (`umka_runtime_src.h:190-192`). -/
def remove (S : Sys) (name : Option Name) (w : World) : Res StdErr :=
  (rtlremove S name w).bind fun r w => .ok (if r = 0 then .ok else .eof) w

/-- `feof` (`umka_runtime_src.h:196-201`). -/
def feof (f : File) (w : World) : Res Bool :=
  if f = none then .ok true w else (rtlfeof f w).bind fun r w => .ok (r != 0) w

/-- `fflush` (`umka_runtime_src.h:205-210`). -/
def fflush (f : File) (w : World) : Res StdErr :=
  if f = none then .ok .nullf w else (rtlfflush f w).bind fun r w => .ok (if r = 0 then .ok else .eof) w

/-- What an `any` holds: a pointer to a byte array (`[]int8`, `[]uint8`, `[]char`), to another variable without pointers, or to a
variable with pointers. -/
inductive Kind
  | bytes | plain | hasPtr
  deriving DecidableEq, Repr

/-- A value of the type `any` that is not `null`: `selfType`, and `self`, which can be a null pointer. -/
structure Buf where
  kind : Kind
  self : Option Nat
  deriving DecidableEq, Repr

/-- The length and the pointer computed by `freadwrite` (`umka_runtime_src.h:219-230`). -/
def bufData (buf : Option Buf) (w : World) : Except (Option StdErr) (Nat × Option Nat) :=
  match buf with
  | none => .ok (0, none)
  | some ⟨.bytes, none⟩ => .error none
  | some ⟨.bytes, some v⟩ => .ok ((w.var v).length, if (w.var v).length > 0 then some v else none)
  | some ⟨.hasPtr, _⟩ => .error (some .ptr)
  | some ⟨.plain, none⟩ => .ok (1, none)
  | some ⟨.plain, some v⟩ => .ok ((w.var v).length, some v)

/-- `freadwrite` (`umka_runtime_src.h:215-237`).  The size of the variable a null pointer would point to does not matter; it
is 1 here. -/
def freadwrite (S : Sys) (f : File) (buf : Option Buf) (reading : Bool) (w : World) : Res (Nat × StdErr) :=
  if f = none then .ok (0, .nullf) w else
  match bufData buf w with
  | .error none => .panic
  | .error (some e) => .ok (0, e) w
  | .ok (length, data) =>
    if length = 0 then .ok (0, .ok) w else
    match data with
    | none => .ok (0, .ok) w
    | some v =>
      if reading then
        (rtlfread length f w).bind fun bytes w =>
          .ok (bytes.length, if bytes.length = length then .ok else .eof)
            { w with var := set w.var v (bytes ++ (w.var v).drop bytes.length) }
      else
        (rtlfwrite S (w.var v) f w).bind fun size w => .ok (size, if size = length then .ok else .eof) w

/-- `fread` (`umka_runtime_src.h:239-241`). -/
def fread (S : Sys) (f : File) (buf : Option Buf) (w : World) : Res (Nat × StdErr) := freadwrite S f buf true w

/-- `fwrite` (`umka_runtime_src.h:267-269`). -/
def fwrite (S : Sys) (f : File) (buf : Option Buf) (w : World) : Res (Nat × StdErr) := freadwrite S f buf false w

/-- `freadall` (`umka_runtime_src.h:243-265`).  `data` is a new variable. -/
def freadall (S : Sys) (f : File) (w : World) : Res (List Byte × StdErr) :=
  (fseek f 0 .end w).bind fun err w =>
    if err ≠ .ok then .ok ([], err) w else
    (ftell f w).bind fun r w =>
      if r.2 ≠ .ok then .ok ([], r.2) w else
      if r.1 > 0x7FFFFF00 then .ok ([], .eof) w else
      (fseek f 0 .begin w).bind fun err w =>
        if err ≠ .ok then .ok ([], err) w else
        let data := w.vars
        (fread S f (some ⟨.bytes, some data⟩)
            { w with var := set w.var data (List.replicate r.1.toNat 0), vars := w.vars + 1 }).bind fun r w =>
          .ok (w.var data, r.2) w

/-- `tobytes` (`umka_runtime_src.h:91-98`).  `&bytes[0]` of an empty array is a run-time error (`umka_vm.c:3649-3656`).  For byte arrays
`sizeofself` is the size of the structure `DynArray`, whose bytes are not modelled: `raw`. -/
def tobytes (raw : Nat → List Byte) (buf : Option Buf) (w : World) : Res (List Byte) :=
  match buf with
  | none => .ok [] w
  | some ⟨_, none⟩ => .ok [] w
  | some ⟨.bytes, some v⟩ => .ok (raw v) w
  | some ⟨_, some v⟩ => if (w.var v).length = 0 then .panic else .ok (w.var v) w

/-- `frombytes` (`umka_runtime_src.h:100-109`).  The size of the structure `DynArray` is that of `raw`. -/
def frombytes (raw : Nat → List Byte) (buf : Option Buf) (bytes : List Byte) (w : World) : Res StdErr :=
  match buf with
  | none => .ok .buffer w
  | some ⟨_, none⟩ => .ok .buffer w
  | some ⟨kind, some v⟩ =>
    if (if kind = .bytes then raw v else w.var v).length ≠ bytes.length then .ok .buffer w else
    if kind ≠ .plain then .ok .ptr w else
    if bytes.length = 0 then .panic else
    .ok .ok { w with var := set w.var v bytes }

end Umka.Files
