import Verif.RefCnt.Model

/-!
# Reference counting: specification

What a reference is, which memory holds references, and what the counts should be.  Nothing here mentions
the work list.
-/

namespace Umka.RefCnt

/-! ## References -/

/-- What is found at a place in memory that holds a counted pointer. -/
inductive Kind
  | ptr (base : Nat)
  | str
  | dynarray (item : Nat)
  | map (node : Nat)
  | interface
  | fiber
  | stack
  deriving DecidableEq

/-- The words of memory that matter, for a place at `a`: the pointer itself (for a dynamic array, its `data`
field; for a map, its `root` field), and the type of the value of an interface. -/
def Kind.words (a : Nat) : Kind → List Nat
  | .ptr _ | .str | .fiber | .stack => [a]
  | .dynarray _ => [a + 16]
  | .map _ => [a + 8]
  | .interface => [a, a + 8]

mutual
/-- The places within a value of a type that hold counted pointers, by their offsets. -/
def Ty.slots : Ty → List (Nat × Kind)
  | .plain => []
  | .ptr b => [(0, .ptr b)]
  | .str => [(0, .str)]
  | .array n size t => (List.range n).flatMap fun i => t.slots.map fun s => (i * size + s.1, s.2)
  | .dynarray b => [(0, .dynarray b)]
  | .map node => [(0, .map node)]
  | .struct fs => fs.slots
  | .interface => [(0, .interface)]
  | .fiber => [(0, .fiber)]
def Fields.slots : Fields → List (Nat × Kind)
  | .nil => []
  | .cons off _ t fs => (t.slots.map fun s => (off + s.1, s.2)) ++ fs.slots
end

/-- The kind of a reference. -/
inductive RefKind
  | ptr (base : Nat)
  | str
  | items (item : Nat)
  | fiber
  | stack
  | other
  deriving DecidableEq

structure Ref where
  p : Nat
  kind : RefKind
  deriving DecidableEq

/-- The value of an interface is a pointer (values that are not pointers are copied to the heap). -/
def Ty.refKind : Ty → RefKind
  | .ptr b => .ptr b
  | _ => .other

/-- The reference that a place in memory holds. -/
def refOf (T : Types) (mem : Nat → Nat) (a : Nat) : Kind → Ref
  | .ptr b => ⟨mem a, .ptr b⟩
  | .str => ⟨mem a, .str⟩
  | .dynarray b => ⟨mem (a + 16), .items b⟩
  | .map node => ⟨mem (a + 8), .ptr node⟩
  | .interface => ⟨mem a, (T.ty (mem (a + 8))).refKind⟩
  | .fiber => ⟨mem a, .fiber⟩
  | .stack => ⟨mem a, .stack⟩

/-- The references held by a value of type `t` at `a`. -/
def refsAt (T : Types) (mem : Nat → Nat) (a : Nat) (t : Ty) : List Ref :=
  t.slots.map fun s => refOf T mem (a + s.1) s.2

/-- The references held by a value in a slot of the stack. -/
def valRefs (T : Types) (mem : Nat → Nat) (p : Nat) : Ty → List Ref
  | .ptr b => [⟨p, .ptr b⟩]
  | .str => [⟨p, .str⟩]
  | .fiber => [⟨p, .fiber⟩]
  | t => refsAt T mem p t

/-- The references held by an object. -/
def chunkRefs (T : Types) (mem : Nat → Nat) (c : Chunk) : List Ref :=
  match c.alloc with
  | .value t => refsAt T mem c.addr (T.ty t)
  | .items t => (List.range (mem c.addr)).flatMap fun i => refsAt T mem (c.addr + 16 + i * T.size t) (T.ty t)
  | .raw | .stack => []
  | .fiber => [refOf T mem (c.addr + 16) .stack]

/-- The references held by variables, and the one by which the main fiber holds its stack (chunk 0). -/
def varRefs (T : Types) (h : Heap) (vars : List Var) : List Ref :=
  ⟨(h.chunk 0).addr, .stack⟩ :: vars.flatMap fun v => refsAt T h.mem v.addr v.ty

/-- The live object that a pointer points to, or into. -/
def Heap.owner (h : Heap) (p : Nat) : Option Nat :=
  (List.range h.num).find? fun i => decide (0 < h.rc i) && h.owns i p

/-- How many of the references refer to an object. -/
def cnt (ow : Nat → Option Nat) (c : Nat) (rs : List Ref) : Nat := rs.countP fun r => ow r.p == some c

def sumTo (n : Nat) (f : Nat → Nat) : Nat := ((List.range n).map f).sum

/-- The number of references to an object: those held by variables and those held by live objects. -/
def total (T : Types) (s : State) (c : Nat) : Nat :=
  cnt s.heap.owner c (varRefs T s.heap s.vars) +
    sumTo s.heap.num fun d =>
      if 0 < s.heap.rc d then cnt s.heap.owner c (chunkRefs T s.heap.mem (s.heap.chunk d)) else 0

/-- Objects that can be reached from variables. -/
inductive Reach (ow : Nat → Option Nat) (roots : List Ref) (content : Nat → List Ref) : Nat → Prop
  | root {r : Ref} {c : Nat} : r ∈ roots → ow r.p = some c → Reach ow roots content c
  | step {d : Nat} {r : Ref} {c : Nat} :
      Reach ow roots content d → r ∈ content d → ow r.p = some c → Reach ow roots content c

def State.Reach (T : Types) (s : State) : Nat → Prop :=
  RefCnt.Reach s.heap.owner (varRefs T s.heap s.vars) fun d => chunkRefs T s.heap.mem (s.heap.chunk d)

/-! ## Well-typed memory -/

/-- Objects whose type is found in the chunk when the last pointer to them is removed. -/
def Ty.composite : Ty → Bool
  | .array _ _ _ | .map _ | .struct _ | .interface => true
  | _ => false

/-- References that the type system lets exist, for a pointer that points into a chunk.  A pointer into an
object of a simple type is a pointer to it, with its type, unless nothing in it is counted; pointers into
composite objects and arrays are arbitrary; a pointer into untyped memory does not lead to counted
pointers.  (Pointers of type `^void` to simple objects that hold counted pointers are therefore not covered:
see `C20_void_pointer_violated`.) -/
def Compat (T : Types) (c : Chunk) (r : Ref) : Prop :=
  match r.kind, c.alloc with
  | .ptr b, .value t =>
    (T.ty t).composite = true ∨ (b = t ∧ r.p = c.addr) ∨
      ((T.ty t).collected = false ∧ (T.ty b).collected = false)
  | .ptr _, .items _ => True
  | .ptr b, .raw => (T.ty b).collected = false
  | .ptr _, .stack => True
  | .str, .raw => True
  | .items b, .items t => b = t ∧ r.p = c.addr + 16
  | .fiber, .fiber => r.p = c.addr
  | .stack, .raw => True
  | .stack, .stack => True
  | _, _ => False

/-- The value of an interface is a pointer, and a fiber has a stack.  A reference is null, points outside of the heap, or into a live object of a matching kind.  `A` are the
addresses of the heap. -/
def Fits (T : Types) (A : Nat → Prop) (h : Heap) (r : Ref) : Prop :=
  (r.kind = .other → r.p = 0) ∧ (r.kind = .stack → h.owner r.p ≠ none) ∧
  match h.owner r.p with
  | none => ¬ A r.p
  | some c => Compat T (h.chunk c) r

mutual
/-- The layout of a type: the parts of a value do not overlap and lie within its size (`umka_types.c:190-240`,
`674-720`; proved for the layout algorithm in `Verif.Layout`). -/
def Ty.WF : Ty → Nat → Prop
  | .plain, _ => True
  | .ptr _, size | .str, size | .fiber, size => 8 ≤ size
  | .array n sz t, size => t.WF sz ∧ n * sz ≤ size
  | .dynarray _, size => 24 ≤ size
  | .map _, size | .interface, size => 16 ≤ size
  | .struct fs, size => fs.WF 0 size
def Fields.WF : Fields → Nat → Nat → Prop
  | .nil, _, _ => True
  | .cons off sz t fs, lo, size => lo ≤ off ∧ t.WF sz ∧ off + sz ≤ size ∧ fs.WF (off + sz) size
end

def Types.WF (T : Types) : Prop := ∀ t, (T.ty t).WF (T.size t)

/-- How much memory the object in a chunk takes. -/
def Chunk.Roomy (T : Types) (mem : Nat → Nat) (c : Chunk) : Prop :=
  match c.alloc with
  | .value t => T.size t ≤ c.size
  | .items t => 16 + mem c.addr * T.size t ≤ c.size
  | .fiber => fiberSize ≤ c.size
  | .raw | .stack => True

/-- Two regions of memory, the first with the byte after it, do not overlap. -/
def Apart (a n b m : Nat) : Prop := a + n ≤ b ∨ b + m ≤ a

/-- Memory is laid out properly: live objects do not overlap, they lie in the heap; variables do not overlap
each other, and they may lie on the stack of a fiber, but not in other objects. -/
structure Tidy (T : Types) (A : Nat → Prop) (s : State) : Prop where
  main : 0 < s.heap.num ∧ 0 < s.heap.rc 0 ∧ (s.heap.chunk 0).alloc = .stack
  mainOnly : ∀ i, i < s.heap.num → (s.heap.chunk i).alloc = .stack → i = 0
  heap : ∀ i, i < s.heap.num → ∀ p, s.heap.owns i p → A p
  apart : ∀ i j, i < s.heap.num → j < s.heap.num → i ≠ j → 0 < s.heap.rc i → 0 < s.heap.rc j →
    Apart (s.heap.chunk i).addr ((s.heap.chunk i).size + 1) (s.heap.chunk j).addr ((s.heap.chunk j).size + 1)
  roomy : ∀ i, i < s.heap.num → 0 < s.heap.rc i → (s.heap.chunk i).Roomy T s.heap.mem
  vars : s.vars.Pairwise fun v w => Apart v.addr v.size w.addr w.size
  varTypes : ∀ v ∈ s.vars, v.ty.WF v.size
  varsApart : ∀ v ∈ s.vars, ∀ i, i < s.heap.num → 0 < s.heap.rc i →
    (s.heap.chunk i).alloc = .raw ∨ (s.heap.chunk i).alloc = .stack ∨
    Apart v.addr v.size (s.heap.chunk i).addr ((s.heap.chunk i).size + 1)
  null : ¬ A 0

/-- All references are well-typed, and none of them dangles. -/
structure Typed (T : Types) (A : Nat → Prop) (s : State) : Prop where
  vars : ∀ r ∈ varRefs T s.heap s.vars, Fits T A s.heap r
  objects : ∀ d, d < s.heap.num → 0 < s.heap.rc d →
    ∀ r ∈ chunkRefs T s.heap.mem (s.heap.chunk d), Fits T A s.heap r

/-- **Counts are exact**: the reference count of every live object is the number of references to it. -/
def Exact (T : Types) (s : State) : Prop := ∀ c, c < s.heap.num → 0 < s.heap.rc c → s.heap.rc c = total T s c

/-! ## Operations that a program can perform -/

inductive Fields.Has : Fields → Nat → Nat → Ty → Prop
  | here {off sz : Nat} {t : Ty} {fs : Fields} : Has (.cons off sz t fs) off sz t
  | there {off sz off' sz' : Nat} {t t' : Ty} {fs : Fields} :
      Has fs off sz t → Has (.cons off' sz' t' fs) off sz t

/-- Parts of a value: at offset `o` in a value of type `t`, there is a value of type `u`. -/
inductive Sub : Ty → Nat → Nat → Ty → Nat → Prop
  | here {t : Ty} {sz : Nat} : Sub t sz 0 t sz
  | item {n sz size i o su : Nat} {t u : Ty} :
      i < n → Sub t sz o u su → Sub (.array n sz t) size (i * sz + o) u su
  | field {fs : Fields} {off sz size o su : Nat} {t u : Ty} :
      fs.Has off sz t → Sub t sz o u su → Sub (.struct fs) size (off + o) u su

/-- Locations: variables, objects, and their parts.  The first argument is the object. -/
inductive Loc (T : Types) (s : State) : Option Nat → Nat → Ty → Nat → Prop
  | var {v : Var} {o sz : Nat} {t : Ty} : v ∈ s.vars → Sub v.ty v.size o t sz → Loc T s none (v.addr + o) t sz
  | value {i n o sz : Nat} {t : Ty} :
      i < s.heap.num → 0 < s.heap.rc i → (s.heap.chunk i).alloc = .value n →
      Sub (T.ty n) (T.size n) o t sz → Loc T s (some i) ((s.heap.chunk i).addr + o) t sz
  | item {i n j o sz : Nat} {t : Ty} :
      i < s.heap.num → 0 < s.heap.rc i → (s.heap.chunk i).alloc = .items n → j < s.heap.mem (s.heap.chunk i).addr →
      Sub (T.ty n) (T.size n) o t sz → Loc T s (some i) ((s.heap.chunk i).addr + 16 + j * T.size n + o) t sz

/-- A location that can be assigned to: it belongs to a variable, or to an object that is in use. -/
def Assignable (T : Types) (s : State) (lhs : Nat) (t : Ty) (size : Nat) : Prop :=
  ∃ i, Loc T s i lhs t size ∧ ∀ c, i = some c → s.Reach T c

/-- Free memory on the heap, for a chunk of `size` bytes. -/
def Free (A : Nat → Prop) (s : State) (addr size : Nat) : Prop :=
  (∀ p, addr ≤ p → p ≤ addr + size → A p) ∧
  (∀ i, i < s.heap.num → 0 < s.heap.rc i →
    Apart addr (size + 1) (s.heap.chunk i).addr ((s.heap.chunk i).size + 1)) ∧
  ∀ v ∈ s.vars, Apart addr (size + 1) v.addr v.size

/-- The operations of well-typed programs, with allocators that return free memory (`Verif.Heap`). -/
def Op.Valid (T : Types) (A : Nat → Prop) (s : State) : Op → Prop
  | .declare v =>
    v.ty.WF v.size ∧ (∀ w ∈ s.vars, Apart v.addr v.size w.addr w.size) ∧
    ∀ i, i < s.heap.num → 0 < s.heap.rc i →
      (s.heap.chunk i).alloc = .raw ∨ (s.heap.chunk i).alloc = .stack ∨
      Apart v.addr v.size (s.heap.chunk i).addr ((s.heap.chunk i).size + 1)
  | .release k => k < s.vars.length
  | .alloc r addr size lhs =>
    Free A s addr size ∧ (∃ sz, Assignable T s lhs r.ty sz) ∧
    match r with
    | .value t => T.size t ≤ size
    | .items t len => 16 + len * T.size t ≤ size
    | .str => 16 ≤ size
  | .fiber addr stackAddr stackSize lhs =>
    Free A s stackAddr stackSize ∧ Free A s addr fiberSize ∧
    Apart addr (fiberSize + 1) stackAddr (stackSize + 1) ∧ ∃ sz, Assignable T s lhs .fiber sz
  | .finish i => i < s.heap.num ∧ 0 < s.heap.rc i ∧ (s.heap.chunk i).alloc = .fiber
  | .write lhs _ => ∃ i size, Loc T s i lhs .plain size ∧ 0 < size
  | .assign lhs rhs t size =>
    Assignable T s lhs t size ∧ ∀ r ∈ valRefs T s.heap.mem rhs t, Fits T A s.heap r

/-- A run of valid operations, with enough iterations for each. -/
inductive Run (T : Types) (A : Nat → Prop) : State → List Op → State → Prop
  | nil {s : State} : Run T A s [] s
  | cons {s s' s'' : State} {op : Op} {ops : List Op} {n : Nat} :
      op.Valid T A s → exec T n s op = some (.ok s') → Run T A s' ops s'' → Run T A s (op :: ops) s''

/-- The start of a program. -/
structure Start (A : Nat → Prop) (stack : Chunk) : Prop where
  heap : ∀ p, stack.addr ≤ p → p ≤ stack.addr + stack.size → A p
  null : ¬ A 0

end Umka.RefCnt
