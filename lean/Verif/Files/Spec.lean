import Verif.Files.Model
/-!
# Files: specification

The words of the properties: open files, what writing does to the contents of a file, sequences of operations of a program.
-/

namespace Umka.Files.Spec

/-- The handle `f` is open; `st` is the state of its stream. -/
def Open (w : World) (f : File) (st : Stream) : Prop :=
  ∃ o s, f = some o ∧ w.obj o = some s ∧ w.stream s = some st

/-- The handle `f` has been closed. -/
def Closed (w : World) (f : File) : Prop := ∃ o, f = some o ∧ w.obj o = none

/-- `new` is `old` with `bytes` put at `pos`: zeros fill a gap. -/
def Put (old : List Byte) (pos : Nat) (bytes new : List Byte) : Prop :=
  (new.length = max old.length (pos + bytes.length)) ∧
  ∀ i, i < new.length → new[i]? = if pos ≤ i ∧ i < pos + bytes.length then bytes[i - pos]? else some (old[i]?.getD 0)

/-- A variable that can be written to a file or read from it: it is of one of the byte array types, or has no pointers. -/
def Plain (buf : Buf) (v : Nat) : Prop := buf.self = some v ∧ buf.kind ≠ .hasPtr

/-- Nothing but the stream of one handle and the contents of one file differs. -/
def SameBut (f : File) (file : Option Nat) (w w' : World) : Prop :=
  w'.dir = w.dir ∧ w'.files = w.files ∧ w'.obj = w.obj ∧ w'.objs = w.objs ∧ w'.streams = w.streams ∧
  (∀ i, some i ≠ file → w'.file i = w.file i) ∧
  ∀ s, (∀ o, f = some o → w.obj o ≠ some s) → w'.stream s = w.stream s

/-- The position an origin of `fseek` stands for. -/
def originPos (w : World) (st : Stream) : Origin → Int
  | .begin => 0
  | .cur => st.pos
  | .end => (w.file st.file).length

/-! ### Programs -/

/-- Write pieces of data one by one: `v = piece; fwrite(f, &v)`. -/
def writePieces (S : Sys) (f : File) (v : Nat) : List (List Byte) → World → Res (List (Nat × StdErr))
  | [], w => .ok [] w
  | b :: bs, w =>
    (fwrite S f (some ⟨.bytes, some v⟩) { w with var := set w.var v b }).bind fun r w =>
      (writePieces S f v bs w).bind fun rs w => .ok (r :: rs) w

/-- Read pieces of given sizes one by one: `v = make([]char, n); m, err = fread(f, &v)`: the bytes read. -/
def readPieces (S : Sys) (f : File) (v : Nat) : List Nat → World → Res (List (List Byte × StdErr))
  | [], w => .ok [] w
  | n :: ns, w =>
    (fread S f (some ⟨.bytes, some v⟩) { w with var := set w.var v (List.replicate n 0) }).bind fun r w =>
      let piece := ((w.var v).take r.1, r.2)
      (readPieces S f v ns w).bind fun rs w => .ok (piece :: rs) w

/-- `f, _ = fopen(name, mode1)`; write the pieces; `fclose(f)`; `f, _ = fopen(name, mode2)`; `return freadall(f)`. -/
def writeThenRead (S : Sys) (name : Name) (mode1 mode2 : List Char) (v : Nat) (bs : List (List Byte)) (w : World) : Res (List Byte × StdErr) :=
  (fopen S (some name) mode1 w).bind fun r w =>
    (writePieces S r.1 v bs w).bind fun _ w =>
      (fclose r.1 w).bind fun _ w =>
        (fopen S (some name) mode2 w).bind fun r w => freadall S r.1 w

/-! ### Histories -/

/-- What a program does with files. -/
inductive Op
  | fopen (name : Option Name) (mode : List Char)
  | fclose (f : File)
  | fseek (f : File) (offset : Int) (origin : Origin)
  | ftell (f : File)
  | remove (name : Option Name)
  | feof (f : File)
  | fflush (f : File)
  | fread (f : File) (buf : Option Buf)
  | fwrite (f : File) (buf : Option Buf)
  | freadall (f : File)
  /-- `stdin()`, `stdout()`, `stderr()`. -/
  | std (k : Fin 3)
  /-- The last reference to a structure `File` is gone. -/
  | free (o : Nat)
  /-- The program changes one of its variables. -/
  | assign (v : Nat) (bytes : List Byte)

/-- Do one of these.  `live` are the structures `File` the program has references to. -/
def exec (S : Sys) (live : List Nat) : Op → World → Res (List Nat)
  | .fopen name mode, w => (Files.fopen S name mode w).bind fun r w => .ok (r.1.toList ++ live) w
  | .fclose f, w => (Files.fclose f w).bind fun _ w => .ok live w
  | .fseek f offset origin, w => (Files.fseek f offset origin w).bind fun _ w => .ok live w
  | .ftell f, w => (Files.ftell f w).bind fun _ w => .ok live w
  | .remove name, w => (Files.remove S name w).bind fun _ w => .ok live w
  | .feof f, w => (Files.feof f w).bind fun _ w => .ok live w
  | .fflush f, w => (Files.fflush f w).bind fun _ w => .ok live w
  | .fread f buf, w => (Files.fread S f buf w).bind fun _ w => .ok live w
  | .fwrite f buf, w => (Files.fwrite S f buf w).bind fun _ w => .ok live w
  | .freadall f, w => (Files.freadall S f w).bind fun _ w => .ok live w
  | .std k, w => (rtlstd k w).bind fun f w => .ok (f.toList ++ live) w
  | .free o, w => (rtlOnFreeFile o w).bind fun _ w => .ok (live.filter (· != o)) w
  | .assign v bytes, w => .ok live { w with var := set w.var v bytes }

/-- The handle an operation uses. -/
def Op.handle : Op → File
  | .fclose f | .fseek f _ _ | .ftell f | .feof f | .fflush f | .fread f _ | .fwrite f _ | .freadall f => f
  | _ => none

/-- The program has the handle it uses; a structure is freed only if it had references, and never if it is static; the standard
streams are not closed. -/
def Legal (live : List Nat) (op : Op) : Prop :=
  (∀ o, op.handle = some o → o ∈ live) ∧
  (∀ o, op = .free o → o ∈ live ∧ 3 ≤ o) ∧
  (∀ f, op = .fclose f → ∀ o, f = some o → 3 ≤ o)

/-- The states before a program starts: the three standard streams are open, no file has been opened by the program. -/
structure Start (w : World) : Prop where
  dir : ∀ n i, w.dir n = some i → i < w.files
  streams : w.streams = 3
  std : ∀ s, s < 3 → ∃ st, w.stream s = some st
  others : ∀ s, 3 ≤ s → w.stream s = none
  onFiles : ∀ s st, w.stream s = some st → st.file < w.files
  obj : ∀ o, w.obj o = none
  objs : w.objs = 3

/-- The states a program can reach, and the structures it has references to. -/
inductive Reach (S : Sys) : World → List Nat → Prop
  | start {w} : Start w → Reach S w []
  | step {w live op w' live'} : Reach S w live → Legal live op → exec S live op w = .ok live' w' → Reach S w' live'

/-- The modes of C: reading, writing or appending, then nothing, `b`, `+`, or both in either order. -/
def ModeOfC (mode : List Char) : Prop :=
  ∃ c rest, mode = c :: rest ∧ (c = 'r' ∨ c = 'w' ∨ c = 'a') ∧
    (rest = [] ∨ rest = ['b'] ∨ rest = ['+'] ∨ rest = ['b', '+'] ∨ rest = ['+', 'b'])

/-- An operation that is undefined in C: a null file name, a read right after a write, a write right after a read that has not reached
the end of the file. -/
def Undefined (w : World) : Op → Prop
  | .fopen name mode => name = none ∧ ModeOfC mode
  | .remove name => name = none
  | .fread f _ => ∃ st, Open w f st ∧ st.last = .write
  | .fwrite f _ => ∃ st, Open w f st ∧ st.last = .read ∧ st.eof = false
  | _ => False

end Umka.Files.Spec
