/-!
# Strings: vocabulary and specification

Strings are lists of bytes.  As the language manual says (lang.md:236-240, 1229), a string variable
refers to a string object; assignment copies the reference; `a += b` appends to the object itself
if `len(a) + len(b) < cap(a)` and otherwise makes a new one, as every other operation does.
-/

namespace Umka.Str

/-- The value of a string variable: null, the empty string that owns no storage, or a reference. -/
inductive Ref where
  | null
  | empty
  | blk (r : Nat)
  deriving DecidableEq, Repr

inductive Err where
  | index
  | memory
  | literal
  deriving DecidableEq, Repr

/-- Operations of a program on its string variables. -/
inductive Op where
  | lit (dst : Nat) (bytes : List Nat)
  | assign (dst src : Nat)
  | plus (dst a b : Nat)
  | plusEq (a b : Nat)
  | slice (dst src : Nat) (start : Int) (stop : Option Int)
  | copy (dst src : Nat)
  | len (src : Nat)
  | cap (src : Nat)
  | get (src : Nat) (i : Int)
  | toChars (src : Nat)
  | fromChars (dst : Nat) (l : Option (List Nat))
  | fromChar (dst : Nat) (ch : Nat)
  deriving Repr

inductive Out where
  | unit
  | num (n : Nat)
  | byte (x : Nat)
  | bytes (l : List Nat)
  deriving DecidableEq, Repr

deriving instance DecidableEq for Except

namespace Spec

structure Obj where
  bytes : List Nat
  cap : Nat
  deriving DecidableEq, Repr

structure SState where
  objs : List Obj
  vars : Nat → Ref

def SState.bytes (s : SState) : Ref → List Nat
  | .blk r => match s.objs[r]? with
    | some o => o.bytes
    | none => []
  | _ => []

def SState.cap (s : SState) : Ref → Nat
  | .null => 0
  | .empty => 1
  | .blk r => match s.objs[r]? with
    | some o => o.cap
    | none => 0

def SState.setVar (s : SState) (v : Nat) (a : Ref) : SState :=
  { s with vars := fun w => if w = v then a else s.vars w }

/-- A null string behaves as the empty string. -/
def nz : Ref → Ref
  | .null => .empty
  | a => a

/-- Makes a new string object.  `alloc n` decides on the capacity for `n` bytes, or fails. -/
def SState.fresh (alloc : Nat → Except Err Nat) (s : SState) (dst : Nat) (l : List Nat) :
    Except Err SState :=
  match alloc l.length with
  | .ok cap => .ok (SState.setVar ⟨s.objs ++ [⟨l, cap⟩], s.vars⟩ dst (.blk s.objs.length))
  | .error e => .error e

/-- Replaces the bytes of an object: every reference to it sees the change. -/
def SState.mutate (s : SState) (a : Ref) (l : List Nat) : SState :=
  match a with
  | .blk r => match s.objs[r]? with
    | some o => ⟨s.objs.set r ⟨l, o.cap⟩, s.vars⟩
    | none => s
  | _ => s

/-- Where a slice stops: at the end if no index is given, counted from the end if it is negative. -/
def stopAt (len : Nat) : Option Int → Int
  | none => len
  | some e => if e < 0 then e + len else e

/-- The longest literal that can be written. -/
def maxLiteral : Nat := 2147483646

def sstep (alloc : Nat → Except Err Nat) (s : SState) : Op → Except Err (SState × Out)
  | .lit dst l =>
    if 0 ∈ l ∨ l.length > maxLiteral then .error .literal
    else .ok (SState.setVar ⟨s.objs ++ [⟨l, l.length + 1⟩], s.vars⟩ dst (.blk s.objs.length), .unit)
  | .assign dst src => .ok (s.setVar dst (s.vars src), .unit)
  | .plus dst a b => do
    return (← s.fresh alloc dst (s.bytes (s.vars a) ++ s.bytes (s.vars b)), .unit)
  | .plusEq a b =>
    let l := s.bytes (s.vars a)
    let r := s.bytes (s.vars b)
    let x := nz (s.vars a)
    if l.length + r.length < s.cap x then .ok ((s.mutate x (l ++ r)).setVar a x, .unit)
    else do return (← s.fresh alloc a (l ++ r), .unit)
  | .slice dst src start stop =>
    let l := s.bytes (s.vars src)
    let e := stopAt l.length stop
    if start < 0 ∨ e < start ∨ e > l.length then .error .index
    else do return (← s.fresh alloc dst ((l.take e.toNat).drop start.toNat), .unit)
  | .copy dst src =>
    if s.vars src = .null then .ok (s.setVar dst .null, .unit)
    else do return (← s.fresh alloc dst (s.bytes (s.vars src)), .unit)
  | .len src => .ok (s, .num (s.bytes (s.vars src)).length)
  | .cap src => .ok (s, .num (s.cap (s.vars src)))
  | .get src i =>
    if 0 ≤ i then
      match (s.bytes (s.vars src))[i.toNat]? with
      | some x => .ok (s, .byte x)
      | none => .error .index
    else .error .index
  | .toChars src => .ok (s, .bytes (s.bytes (s.vars src)))
  | .fromChars dst none => .ok (s.setVar dst .empty, .unit)
  -- the string ends at the first zero byte
  | .fromChars dst (some l) => do return (← s.fresh alloc dst (l.takeWhile (· ≠ 0)), .unit)
  | .fromChar dst ch =>
    if ch = 0 then .ok (s.setVar dst .empty, .unit)
    else do return (← s.fresh alloc dst [ch], .unit)

def srun (alloc : Nat → Except Err Nat) :
    SState → List Op → Except Err (SState × List Out)
  | s, [] => .ok (s, [])
  | s, op :: ops => do
    let (s, o) ← sstep alloc s op
    let (s, os) ← srun alloc s ops
    return (s, o :: os)

def sinit : SState := ⟨[], fun _ => .null⟩

/-- The cases in which the implementation departs from this specification: a concatenation of
2147483648 bytes or more (for `+=`, 2147483647 or more), and an explicit end index of -2147483648 in
`slice`. -/
def Irregular (s : SState) : Op → Prop
  | .plus _ a b => (s.bytes (s.vars a)).length + (s.bytes (s.vars b)).length ≥ 2147483648
  | .plusEq a b => (s.bytes (s.vars a)).length + (s.bytes (s.vars b)).length ≥ 2147483647
  | .slice _ _ _ stop => stop = some (-2147483648)
  | _ => False

/-- No operation of the sequence meets such a case. -/
def RegularRun (alloc : Nat → Except Err Nat) : SState → List Op → Prop
  | _, [] => True
  | s, op :: ops => ¬Irregular s op ∧
      ∀ s' o, sstep alloc s op = .ok (s', o) → RegularRun alloc s' ops

end Spec
end Umka.Str
