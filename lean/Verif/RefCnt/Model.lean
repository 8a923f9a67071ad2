/-!
# Reference counting: model

`doRefCntImpl` (`umka_vm.c:1218-1400`) with its work list, `doRefCntAssign` (`3288-3317`), the release of
variables (`3259-3285`) and allocation.

Simplifications.  Memory is a map from addresses to words; a word is found at its first address (all
counted pointers are aligned words, so words do not overlap).  Pages are not modelled: a block of the heap
is a chunk with its own reference count, found by `pageFind`; that the pages implement this is the subject
of `Verif.Heap`.  Reference counts do not overflow.  Deallocators (`onFree`) and the check for escaping
pointers to local variables are not modelled here (see `Verif.Heap`, `Verif.Frame`).  Weak pointers are
`plain`: they are not counted.  Closures are structures with one counted field, the interface with the
captured variables (`umka_vm.c:1356-1360` treats them alike).
-/

namespace Umka.RefCnt

/-! ## Types -/

mutual
/-- Types (`umka_types.h:16-50`), as far as reference counting distinguishes them.  The base type of a
pointer, the item type of a dynamic array and the node type of a map are given by their names, so that
types can be recursive.  `plain`: everything that contains no counted pointers. -/
inductive Ty
  | plain
  | ptr (base : Nat)
  | str
  | array (n size : Nat) (item : Ty)
  | dynarray (item : Nat)
  | map (node : Nat)
  | struct (fields : Fields)
  | interface
  | fiber
/-- Fields with their offsets and sizes. -/
inductive Fields
  | nil
  | cons (off size : Nat) (t : Ty) (fs : Fields)
end

/-- Named types and their sizes. -/
structure Types where
  ty : Nat → Ty
  size : Nat → Nat

mutual
/-- `type->isGarbageCollected`, `umka_types.c:190-240`. -/
def Ty.collected : Ty → Bool
  | .plain => false
  | .array _ _ t => t.collected
  | .struct fs => fs.collected
  | _ => true
def Fields.collected : Fields → Bool
  | .nil => false
  | .cons _ _ t fs => t.collected || fs.collected
end

/-- Types whose values are a single pointer that is held in the slot itself; values of other counted types
are held by address. -/
def Ty.direct : Ty → Bool
  | .ptr _ | .str | .fiber => true
  | _ => false

/-! ## The heap -/

/-- What a chunk was allocated for. -/
inductive Alloc
  /-- `new(T)`, a map node, its key or item (`umka_vm.c:1474`, `1536`, `2217`, `3688`) -/
  | value (t : Nat)
  /-- the items of a dynamic array (`umka_vm.c:1454`) -/
  | items (t : Nat)
  /-- a string (`umka_vm.c:1415`), the stack of a child fiber (`1636`) or untyped data (`4335`) -/
  | raw
  /-- a fiber (`umka_vm.c:1633`) -/
  | fiber
  /-- the stack of the main fiber (`umka_vm.c:907`) -/
  | stack
  deriving DecidableEq

structure Chunk where
  addr : Nat
  size : Nat
  alloc : Alloc

/-- The chunks allocated so far, their reference counts (`HeapChunk`, `umka_vm.h:167-176`), and memory. -/
structure Heap where
  num : Nat
  chunk : Nat → Chunk
  rc : Nat → Nat
  mem : Nat → Nat

inductive Err
  | dangling | wrongRefCnt | busyFiber | noFiberStack
  deriving DecidableEq, Repr

/-- Does the pointer point into the chunk?  One byte past the data is included (`umka_vm.c:708`). -/
def Heap.owns (h : Heap) (i p : Nat) : Bool :=
  decide ((h.chunk i).addr ≤ p) && decide (p ≤ (h.chunk i).addr + (h.chunk i).size)

/-- `chunk->type`: dynamic arrays are marked at the chunk of the items, not at the header
(`umka_vm.c:2216`). -/
def Chunk.type (T : Types) (c : Chunk) : Option Ty :=
  match c.alloc with
  | .value t => match T.ty t with | .dynarray _ => none | x => some x
  | .items b => some (.dynarray b)
  | .raw | .fiber | .stack => none

/-- `pageFind`, `pageContainsPtr`, `umka_vm.c:627-661`: the live chunk that contains a pointer; a pointer to
a dead chunk is an error. -/
def Heap.find (h : Heap) (p : Nat) : Except Err (Option Nat) :=
  match (List.range h.num).find? (fun i => decide (0 < h.rc i) && h.owns i p) with
  | some i => .ok (some i)
  | none => if (List.range h.num).any (fun i => h.owns i p) then .error .dangling else .ok none

inductive Tok
  | inc | dec
  deriving DecidableEq, Repr

def set (f : Nat → Nat) (i v : Nat) : Nat → Nat := fun j => if j = i then v else f j

/-- `chunkRefCnt`, `umka_vm.c:747-783`. -/
def chunkRefCnt (tok : Tok) (h : Heap) (i : Nat) : Except Err Heap :=
  if h.rc i = 0 then .error .wrongRefCnt
  else
    match tok with
    | .inc => .ok { h with rc := set h.rc i (h.rc i + 1) }
    | .dec => .ok { h with rc := set h.rc i (h.rc i - 1) }

/-! ## The work list -/

/-- `RefCntCandidate`, `umka_vm.h:140-152`: a value, or a chunk that only waits for its last reference to be
removed. -/
inductive Cand
  | val (p : Nat) (t : Ty)
  | deferred (i : Nat)

/-- The value at an address, as it is held in a slot. -/
def load (mem : Nat → Nat) (p : Nat) (t : Ty) : Nat := if t.direct then mem p else p

/-- `doAddPtrBaseRefCntCandidate`, `umka_vm.c:1170-1180`. -/
def baseCand (T : Types) (mem : Nat → Nat) (p b : Nat) : List Cand :=
  if (T.ty b).collected then [.val (load mem p (T.ty b)) (T.ty b)] else []

/-- `doAddArrayItemsRefCntCandidates`, `umka_vm.c:1182-1199`; the last item is on top. -/
def itemCands (mem : Nat → Nat) (p : Nat) (t : Ty) (size n : Nat) : List Cand :=
  if t.collected then (List.range n).reverse.map fun i => .val (load mem (p + i * size) t) t else []

/-- `doAddStructFieldsRefCntCandidates`, `umka_vm.c:1202-1215`; in the order of the fields. -/
def fieldCands (mem : Nat → Nat) (p : Nat) : Fields → List Cand
  | .nil => []
  | .cons off _ t fs =>
    (if t.collected then [.val (load mem (p + off) t) t] else []) ++ fieldCands mem p fs

/-- The children of a chunk that loses its last reference, a pointer `p` of type `^b`:
`umka_vm.c:1264-1293`. -/
def children (T : Types) (h : Heap) (i p b : Nat) : List Cand :=
  match (h.chunk i).type T with
  | some (.array n size t) => [.val (h.chunk i).addr (.array n size t)]
  | some (.map node) => [.val (h.chunk i).addr (.map node)]
  | some (.struct fs) => [.val (h.chunk i).addr (.struct fs)]
  | some .interface => [.val (h.chunk i).addr .interface]
  | some (.dynarray b) =>
    itemCands h.mem ((h.chunk i).addr + 16) (T.ty b) (T.size b) (h.mem (h.chunk i).addr)
  | _ => baseCand T h.mem p b

/-- One iteration of the loop, `umka_vm.c:1229-1399`: the new heap and what is pushed, top first. -/
def step (T : Types) (tok : Tok) (h : Heap) : Cand → Except Err (Heap × List Cand)
  | .deferred i => do let h ← chunkRefCnt tok h i; return (h, [])                        -- 1235
  | .val p t =>
    match t with
    | .plain => .ok (h, [])
    | .ptr b => do                                                                       -- 1244
      match ← h.find p with
      | none => return (h, [])
      | some i =>
        match tok with
        | .inc => let h ← chunkRefCnt .inc h i; return (h, [])
        | .dec =>
          if h.rc i > 1 then let h ← chunkRefCnt .dec h i; return (h, [])
          else return (h, children T h i p b ++ [.deferred i])
    | .str => do                                                                         -- 1299
      match ← h.find p with
      | none => return (h, [])
      | some i => let h ← chunkRefCnt tok h i; return (h, [])
    | .array n size t => .ok (h, itemCands h.mem p t size n)                             -- 1311
    | .dynarray b => do                                                                  -- 1317
      let data := h.mem (p + 16)
      match ← h.find data with
      | none => return (h, [])
      | some i =>
        match tok with
        | .inc => let h ← chunkRefCnt .inc h i; return (h, [])
        | .dec =>
          if h.rc i > 1 then let h ← chunkRefCnt .dec h i; return (h, [])
          else return (h, itemCands h.mem data (T.ty b) (T.size b) (h.mem (data - 16)) ++ [.deferred i])
    | .map node => .ok (h, [.val (h.mem (p + 8)) (.ptr node)])                           -- 1342
    | .struct fs => .ok (h, (fieldCands h.mem p fs).reverse)                             -- 1349, 1363
    | .interface =>                                                                      -- 1355
      if h.mem p = 0 then .ok (h, []) else .ok (h, [.val (h.mem p) (T.ty (h.mem (p + 8)))])
    | .fiber => do                                                                       -- 1369
      match ← h.find p with
      | none => return (h, [])
      | some i =>
        match tok with
        | .inc => let h ← chunkRefCnt .inc h i; return (h, [])
        | .dec =>
          if h.rc i > 1 then let h ← chunkRefCnt .dec h i; return (h, [])
          else if h.mem (p + 112) ≠ 0 then throw .busyFiber
          else
            match ← h.find (h.mem (p + 16)) with
            | none => throw .noFiberStack
            | some j =>
              let h ← chunkRefCnt .dec h j
              let h ← chunkRefCnt .dec h i
              return (h, [])

/-- The loop; `n` bounds the number of iterations. -/
def loop (T : Types) (tok : Tok) : Nat → Heap → List Cand → Option (Except Err Heap)
  | 0, _, _ => none
  | _ + 1, h, [] => some (.ok h)
  | n + 1, h, c :: cs =>
    match step T tok h c with
    | .error e => some (.error e)
    | .ok (h, new) => loop T tok n h (new ++ cs)

/-- `doRefCntImpl`, `umka_vm.c:1218-1400`. -/
def refCnt (T : Types) (tok : Tok) (n : Nat) (h : Heap) (p : Nat) (t : Ty) : Option (Except Err Heap) :=
  loop T tok n h [.val p t]

/-! ## Operations on variables and objects -/

/-- `doAssignImpl`, `umka_vm.c:1018-1066`. -/
def store (mem : Nat → Nat) (lhs rhs : Nat) (t : Ty) (size : Nat) : Nat → Nat :=
  if t.direct then set mem lhs rhs
  else fun a => if lhs ≤ a ∧ a < lhs + size then mem (rhs + (a - lhs)) else mem a

def zero (mem : Nat → Nat) (a size : Nat) : Nat → Nat :=
  fun b => if a ≤ b ∧ b < a + size then 0 else mem b

structure Var where
  addr : Nat
  ty : Ty
  size : Nat

/-- The heap, and the variables in scope: globals, and the locals, parameters and hidden variables of all
frames. -/
structure State where
  heap : Heap
  vars : List Var

/-- What is allocated, with the number of items of an array. -/
inductive Request
  | value (t : Nat)
  | items (t len : Nat)
  | str
  deriving DecidableEq

inductive Op
  /-- a variable comes into scope, filled with zeros -/
  | declare (v : Var)
  /-- a variable leaves its scope: `OP_REF_CNT_LOCAL` with `--` (`umka_vm.c:3273-3285`) -/
  | release (k : Nat)
  /-- `new`, `make`, map nodes and string operations: a chunk of `size` bytes is allocated at `addr`, and the result is
  moved to `lhs` (`OP_REF_CNT_ASSIGN` with `--`, or a plain assignment to a hidden variable, which is null) -/
  | alloc (r : Request) (addr size : Nat) (lhs : Nat)
  /-- `make` for a fiber (`doAllocFiber`, `umka_vm.c:1627-1656`): the fiber and its stack are allocated, and
  the fiber is moved to `lhs` -/
  | fiber (addr stackAddr stackSize : Nat) (lhs : Nat)
  /-- the function of a fiber returns: the fiber is no longer alive (`umka_vm.c:3989-3994`) -/
  | finish (i : Nat)
  /-- assignment of a word that is not counted -/
  | write (lhs v : Nat)
  /-- assignment: `OP_REF_CNT_ASSIGN` (`umka_vm.c:3288-3317`) -/
  | assign (lhs rhs : Nat) (t : Ty) (size : Nat)

def Request.toAlloc : Request → Alloc
  | .value t => .value t
  | .items t _ => .items t
  | .str => .raw

/-- The type of the location that receives the result. -/
def Request.ty : Request → Ty
  | .value t => .ptr t
  | .items t _ => .dynarray t
  | .str => .str

/-- `chunkAlloc`, `umka_vm.c:705-744`. -/
def chunkAlloc (h : Heap) (c : Chunk) : Heap :=
  { num := h.num + 1
    chunk := fun i => if i = h.num then c else h.chunk i
    rc := set h.rc h.num 1
    mem := zero h.mem c.addr (c.size + 1) }

/-- Allocation and the initialization of the dimensions of arrays (`umka_vm.c:1437-1459`). -/
def allocNew (h : Heap) (r : Request) (addr size : Nat) : Heap :=
  let h := chunkAlloc h ⟨addr, size, r.toAlloc⟩
  match r with
  | .items _ len => { h with mem := set h.mem addr len }
  | _ => h

/-- `sizeof(Fiber)`, `umka_vm.h:179-192`. -/
def fiberSize : Nat := 128

/-- `umka_vm.c:1633-1637`: the child is a copy of its parent, which is alive, with its own stack. -/
def allocFiber (h : Heap) (addr stackAddr stackSize : Nat) : Heap :=
  let h := chunkAlloc h ⟨stackAddr, stackSize, .raw⟩
  let h := chunkAlloc h ⟨addr, fiberSize, .fiber⟩
  { h with mem := set (set h.mem (addr + 112) 1) (addr + 16) stackAddr }

/-- Storing the result of an allocation: a pointer, or the `data` field of a dynamic array. -/
def storeNew (mem : Nat → Nat) (r : Request) (addr lhs : Nat) : Nat → Nat :=
  match r with
  | .value _ => set mem lhs addr
  | .items _ _ => set mem (lhs + 16) (addr + 16)
  | .str => set mem lhs (addr + 16)

def thenOk (x : Option (Except Err Heap)) (f : Heap → Option (Except Err State)) :
    Option (Except Err State) :=
  match x with
  | none => none
  | some (.error e) => some (.error e)
  | some (.ok h) => f h

/-- One operation; `n` bounds the number of iterations of each work list. -/
def exec (T : Types) (n : Nat) (s : State) : Op → Option (Except Err State)
  | .declare v => some (.ok ⟨{ s.heap with mem := zero s.heap.mem v.addr v.size }, v :: s.vars⟩)
  | .release k =>
    match s.vars[k]? with
    | none => some (.ok s)
    | some v =>
      thenOk (refCnt T .dec n s.heap (load s.heap.mem v.addr v.ty) v.ty) fun h =>
        some (.ok ⟨h, s.vars.eraseIdx k⟩)
  | .alloc r addr size lhs =>
    let h := allocNew s.heap r addr size
    thenOk (refCnt T .dec n h (load h.mem lhs r.ty) r.ty) fun h =>
      some (.ok ⟨{ h with mem := storeNew h.mem r addr lhs }, s.vars⟩)
  | .fiber addr stackAddr stackSize lhs =>
    let h := allocFiber s.heap addr stackAddr stackSize
    thenOk (refCnt T .dec n h (load h.mem lhs .fiber) .fiber) fun h =>
      some (.ok ⟨{ h with mem := set h.mem lhs addr }, s.vars⟩)
  | .finish i => some (.ok ⟨{ s.heap with mem := set s.heap.mem ((s.heap.chunk i).addr + 112) 0 }, s.vars⟩)
  | .write lhs v => some (.ok ⟨{ s.heap with mem := set s.heap.mem lhs v }, s.vars⟩)
  | .assign lhs rhs t size =>
    thenOk (refCnt T .inc n s.heap rhs t) fun h =>
      thenOk (refCnt T .dec n h (load h.mem lhs t) t) fun h =>
        some (.ok ⟨{ h with mem := store h.mem lhs rhs t size }, s.vars⟩)

/-- The start: only the stack of the main fiber is allocated (`vmInit`, `umka_vm.c:896-925`). -/
def init (stack : Chunk) (mem : Nat → Nat) : State :=
  ⟨⟨1, fun _ => { stack with alloc := .stack }, fun _ => 1, mem⟩, []⟩

end Umka.RefCnt
