/-!
# Heap pages, chunks, reference counts and weak pointers: model

Models umka_vm.c:391-792 (`pageInit` ... `chunkRefCnt`), `doWeakenPtr`/`doStrengthenPtr`
(umka_vm.c:3752-3806) and `doBuiltinMemUsage` (umka_vm.c:3067-3072).

* An address is a natural number.  `malloc` is the environment: its answer comes with the operation,
  and `Valid` (Spec.lean) says what is assumed about it.
* The three singly/doubly linked page lists are lists; `prev` pointers are implicit.
* Chunk headers (`HeapChunk`, umka_vm.h:167-176) are kept in a function from chunk address to
  header, and all other heap bytes in a function from address to byte.  Both start arbitrary:
  memory delivered by `malloc` contains garbage, and a recycled page contains its old headers.
* C `int` counters are unbounded integers: overflow of a 32-bit reference count is not modelled.
* Custom deallocators are not executed; that one is called is recorded in `freed`.
* `stackUpdateFrameRefCnt` (called at umka_vm.c:768) only touches stack frames and is not modelled
  here.
-/

namespace Umka.Heap

/-- `MEM_MIN_HEAP_CHUNK` (umka_vm.h:26). -/
def minChunk : Nat := 64
/-- `MEM_MIN_HEAP_PAGE` (umka_vm.h:27). -/
def minPage : Nat := 1024 * 1024
/-- `MEM_MAX_BLACKLISTED` (umka_vm.h:28). -/
def maxBlacklisted : Nat := 16 * 1024 * 1024
/-- `sizeof(HeapChunk)` (umka_vm.h:167-176): two `int`, three 8-byte fields, a padded `bool`. -/
def chunkHeader : Nat := 40
/-- `INT_MAX`. -/
def intMax : Nat := 2 ^ 31 - 1

/-- `align` (umka_common.h:274-277). -/
def alignUp (n a : Nat) : Nat := (n + (a - 1)) / a * a

/-- The chunk size for a block (umka_vm.c:708). -/
def chunkSizeFor (size : Nat) : Nat := alignUp (chunkHeader + alignUp (size + 1) 8) minChunk

/-- `HeapChunk` (umka_vm.h:167-176).  `type` and `ip` are omitted; `serial` is a ghost: the number of
the allocation that created the chunk. -/
structure Chunk where
  refCnt : Int
  size : Nat
  onFree : Bool
  isStack : Bool
  serial : Nat
  deriving DecidableEq, Repr

/-- `HeapPage` (umka_vm.h:143-151).  `addr` is the address of `data`; `cap` is a ghost: the number
of data bytes obtained from `malloc`. -/
structure Page where
  id : Nat
  refCnt : Int
  numChunks : Nat
  numOcc : Nat
  numOnFree : Nat
  chunkSize : Nat
  addr : Nat
  cap : Nat
  deriving DecidableEq, Repr

/-- `numChunks * chunkSize`; also `end - data` (umka_vm.c:575). -/
def Page.size (p : Page) : Nat := p.numChunks * p.chunkSize

/-- Address of the `i`th chunk of a page (umka_vm.c:724). -/
def Page.chunkAddr (p : Page) (i : Nat) : Nat := p.addr + i * p.chunkSize

/-- `ptr >= page->data && ptr < page->end` (umka_vm.c:630). -/
def Page.has (p : Page) (ptr : Nat) : Bool := p.addr ≤ ptr ∧ ptr < p.addr + p.size

/-- `HeapPages` (umka_vm.h:154-164) with the memory it manages.  `lastAccessed` is the id of the
page.  `allocs` and `freed` are ghosts: the number of allocations so far, and the allocations whose
custom deallocator has been called. -/
structure Heap where
  first : List Page
  recycled : List Page
  blacklisted : List Page
  lastAccessed : Option Nat
  lowest : Option Nat
  highest : Option Nat
  freeId : Nat
  totalSize : Int
  blacklistedSize : Int
  hdr : Nat → Chunk
  mem : Nat → Nat
  allocs : Nat
  freed : List Nat

/-- Run-time errors of the heap. -/
inductive Err where
  | badSize
  | dangling
  | wrongCount
  | weakLocal
  deriving DecidableEq, Repr

/-- `pageInit` (umka_vm.c:391-401). -/
def init (hdr : Nat → Chunk) (mem : Nat → Nat) : Heap :=
  { first := [], recycled := [], blacklisted := [], lastAccessed := none, lowest := none,
    highest := none, freeId := 1, totalSize := 0, blacklistedSize := 0, hdr := hdr, mem := mem,
    allocs := 0, freed := [] }

/-- Replace the page with the same id in the list of live pages (an update through a pointer). -/
def Heap.setPage (h : Heap) (p : Page) : Heap :=
  { h with first := h.first.map fun q => if q.id = p.id then p else q }

/-- `pageFindRecycled` (umka_vm.c:454-471): the page found, the remaining recycled pages, and the new
`totalSize`. -/
def findRecycled (size : Nat) : List Page → Int → Option Page × List Page × Int
  | [], total => (none, [], total)
  | p :: ps, total =>
    if p.size ≥ size then (some p, ps, total) else findRecycled size ps (total - p.size)

/-- `pageMayBeReferencedByTemporaries` (umka_vm.c:474-504), given the values of all the stack slots
it scans. -/
def referencedBy (temps : List Nat) (p : Page) : Bool := temps.any p.has

/-- `pageMoveBlacklistedToRecycled` (umka_vm.c:507-532).  Pages are pushed one by one onto the
recycled list, so they end up there in reverse order. -/
def moveBlacklisted (temps : List Nat) (h : Heap) : Heap :=
  if h.blacklistedSize < maxBlacklisted then h
  else
    let moved := h.blacklisted.filter fun p => !referencedBy temps p
    { h with
      blacklisted := h.blacklisted.filter fun p => referencedBy temps p
      recycled := moved.reverse ++ h.recycled
      blacklistedSize := h.blacklistedSize - (moved.map fun p => (p.size : Int)).sum }

/-- `pageAdd` (umka_vm.c:551-593).  `addr` is what `malloc` would answer.  Running out of memory is
not modelled. -/
def pageAdd (h : Heap) (numChunks chunkSize addr : Nat) : Heap × Page :=
  let size := numChunks * chunkSize
  let (found, rest, total) := findRecycled size h.recycled h.totalSize
  let (a, cap, total) := match found with
    | some p => (p.addr, p.cap, total)
    | none => (addr, size, total + size)
  let p : Page :=
    { id := h.freeId, refCnt := 0, numChunks := numChunks, numOcc := 0, numOnFree := 0,
      chunkSize := chunkSize, addr := a, cap := cap }
  ({ h with
      first := p :: h.first
      recycled := rest
      totalSize := total
      freeId := h.freeId + 1
      lowest := match h.lowest with
        | none => some a
        | some l => some (if l > a then a else l)
      highest := match h.highest with
        | none => some (a + size)
        | some u => some (if u < a + size then a + size else u)
      lastAccessed := some p.id }, p)

/-- `pageRemove` (umka_vm.c:596-618) with `pageMoveToRecycled` (447-451) and
`pageMoveToBlacklisted` (535-548). -/
def pageRemove (temps : List Nat) (h : Heap) (p : Page) (blacklist : Bool) : Heap :=
  let first := h.first.filter fun q => q.id ≠ p.id
  let h := { h with
    first := first
    lastAccessed := if h.lastAccessed = some p.id then first.head?.map Page.id else h.lastAccessed }
  if blacklist then
    let h := moveBlacklisted temps h
    { h with blacklisted := p :: h.blacklisted, blacklistedSize := h.blacklistedSize + p.size }
  else { h with recycled := p :: h.recycled }

/-- `pageGetChunk` (umka_vm.c:621-625): the address of the chunk containing `ptr`. -/
def pageGetChunk (p : Page) (ptr : Nat) : Nat := ptr - (ptr - p.addr) % p.chunkSize

/-- `pageContainsPtr` (umka_vm.c:628-638). -/
def containsPtr (h : Heap) (p : Page) (ptr : Nat) : Except Err Bool :=
  if p.has ptr then
    if (h.hdr (pageGetChunk p ptr)).refCnt ≤ 0 then .error .dangling else .ok true
  else .ok false

/-- The loop of `pageFind` over all pages but the last accessed one (umka_vm.c:652-659). -/
def findLoop (h : Heap) (ptr : Nat) : List Page → Except Err (Option Page)
  | [] => .ok none
  | p :: ps =>
    if h.lastAccessed = some p.id then findLoop h ptr ps
    else match containsPtr h p ptr with
      | .error e => .error e
      | .ok true => .ok (some p)
      | .ok false => findLoop h ptr ps

/-- The page `lastAccessed` points to. -/
def Heap.lastPage (h : Heap) : Option Page :=
  match h.lastAccessed with
  | none => none
  | some i => h.first.find? fun p => p.id = i

/-- The early exits of `pageFind` (umka_vm.c:643-647). -/
def Heap.outside (h : Heap) (ptr : Nat) : Bool :=
  (match h.lowest with | some l => decide (ptr < l) | none => false) ||
  (match h.highest with | some u => decide (ptr ≥ u) | none => false)

/-- The check of the last accessed page in `pageFind` (umka_vm.c:649). -/
def findLast (h : Heap) (ptr : Nat) : Except Err (Option Page) :=
  match h.lastPage with
  | none => .ok none
  | some p => match containsPtr h p ptr with
    | .error e => .error e
    | .ok true => .ok (some p)
    | .ok false => .ok none

/-- `pageFind` (umka_vm.c:641-662). -/
def pageFind (h : Heap) (ptr : Nat) : Except Err (Option Page × Heap) :=
  if h.outside ptr then .ok (none, h)
  else match findLast h ptr with
    | .error e => .error e
    | .ok (some p) => .ok (some p, h)
    | .ok none =>
      match findLoop h ptr h.first with
      | .error e => .error e
      | .ok none => .ok (none, h)
      | .ok (some p) => .ok (some p, { h with lastAccessed := some p.id })

/-- The loop of `pageFindForAlloc` (umka_vm.c:670-686): an exact fit at once, else the best fit. -/
def findForAlloc (cs : Nat) : List Page → Option Page → Option Page
  | [], best => best
  | p :: ps, best =>
    if p.numOcc < p.numChunks then
      if p.chunkSize = cs then some p
      else if p.chunkSize > cs ∧ p.chunkSize < (match best with | some b => b.chunkSize | none => intMax)
        then findForAlloc cs ps (some p)
        else findForAlloc cs ps best
    else findForAlloc cs ps best

/-- The number of chunks in a new page (umka_vm.c:716-718). -/
def chunksPerPage (cs : Nat) : Nat := if minPage / cs = 0 then 1 else minPage / cs

/-- The number of bytes in a new page (umka_vm.c:553). -/
def pageBytes (cs : Nat) : Nat := chunksPerPage cs * cs

/-- The page for a new chunk (umka_vm.c:713-721). -/
def selectPage (h : Heap) (cs addr : Nat) : Heap × Page :=
  match findForAlloc cs h.first none with
  | some p => ({ h with lastAccessed := some p.id }, p)
  | none => pageAdd h (chunksPerPage cs) cs addr

/-- Set up the next free chunk of a page (umka_vm.c:723-738). -/
def takeChunk (h : Heap) (p : Page) (size : Nat) (onFree isStack : Bool) : Heap :=
  let c := p.chunkAddr p.numOcc
  let chunk : Chunk :=
    { refCnt := 1, size := size, onFree := onFree, isStack := isStack, serial := h.allocs }
  let h := { h with
    mem := fun a => if c ≤ a ∧ a < c + p.chunkSize then 0 else h.mem a
    hdr := fun a => if a = c then chunk else h.hdr a
    allocs := h.allocs + 1 }
  h.setPage { p with
    numOcc := p.numOcc + 1
    numOnFree := if onFree then p.numOnFree + 1 else p.numOnFree
    refCnt := p.refCnt + 1 }

/-- `chunkAlloc` (umka_vm.c:705-744): the address of the new block and the new heap. -/
def chunkAlloc (h : Heap) (size : Int) (onFree isStack : Bool) (addr : Nat) : Except Err (Nat × Heap) :=
  if size < 0 ∨ chunkSizeFor size.toNat > intMax then .error .badSize
  else
    let (h, p) := selectPage h (chunkSizeFor size.toNat) addr
    .ok (p.chunkAddr p.numOcc + chunkHeader, takeChunk h p size.toNat onFree isStack)

/-- Add `delta` to the counts of a chunk and its page, calling the deallocator of a dying chunk
(umka_vm.c:754-761): the new heap, without the update of the page, and the updated page. -/
def addRefs (h : Heap) (p : Page) (c : Nat) (delta : Int) : Heap × Page :=
  let chunk := h.hdr c
  let dying := chunk.onFree && chunk.refCnt == 1 && delta == -1
  ({ h with
      freed := if dying then chunk.serial :: h.freed else h.freed
      hdr := fun a => if a = c then { chunk with refCnt := chunk.refCnt + delta } else h.hdr a },
   { p with
      numOnFree := if dying then p.numOnFree - 1 else p.numOnFree
      refCnt := p.refCnt + delta })

/-- `chunkRefCnt` (umka_vm.c:747-783); all callers pass `delta` = 1 or -1. -/
def chunkRefCnt (temps : List Nat) (h : Heap) (p : Page) (ptr : Nat) (delta : Int) :
    Except Err Heap :=
  let c := pageGetChunk p ptr
  if (h.hdr c).refCnt ≤ 0 ∨ p.refCnt < (h.hdr c).refCnt then .error .wrongCount
  else
    let (h, p) := addRefs h p c delta
    if p.refCnt = 0 then .ok (pageRemove temps h p (referencedBy temps p))
    else .ok (h.setPage p)

/-- A reference count update through a pointer, as done for `TYPE_STR` in `doRefCntImpl`
(umka_vm.c:1299-1309) and for the other kinds of pointers once their contents are dealt with: find the
page, do nothing if there is none. -/
def refCnt (temps : List Nat) (h : Heap) (ptr : Nat) (delta : Int) : Except Err Heap :=
  match pageFind h ptr with
  | .error e => .error e
  | .ok (none, h) => .ok h
  | .ok (some p, h) => chunkRefCnt temps h p ptr delta

/-- `doWeakenPtr` (umka_vm.c:3752-3775).  The words `1 << 63`, `id << 32` and the offset are added
rather than OR-ed; for ids and offsets below 2^31 this is the same. -/
def weaken (h : Heap) (ptr : Nat) : Except Err (Nat × Heap) :=
  match pageFind h ptr with
  | .error e => .error e
  | .ok (none, h) => .ok (ptr, h)
  | .ok (some p, h) =>
    if (h.hdr (pageGetChunk p ptr)).isStack then .error .weakLocal
    else .ok (2 ^ 63 + p.id * 2 ^ 32 + (ptr - p.addr), h)

/-- `doStrengthenPtr` (umka_vm.c:3778-3806) with `pageFindById` (694-702); 0 is the null pointer. -/
def strengthen (h : Heap) (w : Nat) : Except Err Nat :=
  if w / 2 ^ 63 % 2 = 1 then
    match h.first.find? fun p => p.id = w / 2 ^ 32 % 2 ^ 31 with
    | none => .ok 0
    | some p =>
      let ptr := p.addr + w % 2 ^ 31
      let chunk := h.hdr (pageGetChunk p ptr)
      if chunk.isStack then .error .weakLocal
      else if chunk.refCnt = 0 then .ok 0 else .ok ptr
  else .ok w

/-- The deallocator calls of `pageFree` at the end (umka_vm.c:404-428): for each page still in use,
for each occupied chunk while the page has chunks with deallocators. -/
def freePage (hdr : Nat → Chunk) (p : Page) (i n : Nat) : List Nat :=
  if i < p.numOcc ∧ n > 0 then
    let c := hdr (p.chunkAddr i)
    if c.refCnt = 0 ∨ !c.onFree then freePage hdr p (i + 1) n
    else c.serial :: freePage hdr p (i + 1) (n - 1)
  else []
termination_by p.numOcc - i

/-- All deallocator calls of `pageFree` (umka_vm.c:404-428). -/
def freeAll (h : Heap) : List Nat := h.first.flatMap fun p => freePage h.hdr p 0 p.numOnFree

/-- Heap operations of a running program.  `addr` is the answer of `malloc`, should it be called;
`temps` are the values of the stack slots scanned before recycling a page. -/
inductive Op where
  | alloc (size : Int) (onFree isStack : Bool) (addr : Nat)
  | incref (ptr : Nat)
  | decref (ptr : Nat) (temps : List Nat)
  | write (ptr val : Nat)
  | weaken (ptr : Nat)
  | strengthen (w : Nat)
  | memUsage
  deriving Repr

/-- Answers. -/
inductive Out where
  | unit
  | addr (a : Nat)
  | num (n : Int)
  | error (e : Err)
  deriving DecidableEq, Repr

/-- One operation.  A run-time error leaves the heap as it was. -/
def step (h : Heap) : Op → Out × Heap
  | .alloc size onFree isStack addr => match chunkAlloc h size onFree isStack addr with
    | .error e => (.error e, h)
    | .ok (a, h') => (.addr a, h')
  | .incref ptr => match refCnt [] h ptr 1 with
    | .error e => (.error e, h)
    | .ok h' => (.unit, h')
  | .decref ptr temps => match refCnt temps h ptr (-1) with
    | .error e => (.error e, h)
    | .ok h' => (.unit, h')
  | .write ptr val => (.unit, { h with mem := fun a => if a = ptr then val else h.mem a })
  | .weaken ptr => match weaken h ptr with
    | .error e => (.error e, h)
    | .ok (w, h') => (.addr w, h')
  | .strengthen w => match strengthen h w with
    | .error e => (.error e, h)
    | .ok a => (.addr a, h)
  | .memUsage => (.num h.totalSize, h)

end Umka.Heap
