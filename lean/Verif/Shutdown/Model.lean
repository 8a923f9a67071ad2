/-!
# Shutting down the heap: model

`umkaFree` on what is left in the heap: `pageFree` and `pageLeakSan` (`umka_vm.c:340-444`) with deallocators that may call `umkaDecRef`
(`vmDecRef`, `umka_vm.c:4345-4348`; `pageFind`, `pageRemove`, `chunkRefCnt`, `umka_vm.c:447-451, 595-660, 744-780`).

Simplifications.  A pointer is a page and the number of a block in it.  Blocks hold no references that the interpreter knows of (data allocated by the host has no
type).  A page without references is recycled, never blacklisted.  The range check that starts `pageFind` is left out: the pointers are in range.  A leak location stands
for a type, a file, a function and a line; the text of the messages is left out.
-/

namespace Umka.Shutdown

abbrev Ptr := Nat × Nat

structure Block where
  refCnt : Nat
  loc : Nat
  /-- the deallocator, given by the pointers that it releases -/
  onFree : Option (List Ptr)
  deriving DecidableEq, Repr

structure Page where
  blocks : List Block
  refCnt : Nat
  numOnFree : Nat
  prev : Option Nat
  next : Option Nat
  deriving DecidableEq, Repr

inductive Line
  | page (p refs : Nat)
  | loc (l : Nat)
  deriving DecidableEq, Repr

structure Heap where
  page : Nat → Page
  first : Option Nat
  recycled : Option Nat
  blacklisted : Option Nat
  lastAccessed : Option Nat
  leakSanLevel : Int
  /-- `terminatedNormally` -/
  normal : Bool
  /-- pages given back with `free` -/
  freed : List Nat
  /-- deallocators called -/
  calls : List Ptr
  /-- messages -/
  log : List Line

inductive Fail
  /-- undefined behaviour: use of a page after `free` -/
  | ub
  | error
  /-- the fuel is too low -/
  | fuel
  deriving DecidableEq, Repr

def Heap.setPage (h : Heap) (p : Nat) (f : Page → Page) : Heap := { h with page := fun q => if q = p then f (h.page q) else h.page q }

/-- Read a page. -/
def Heap.read (h : Heap) (p : Nat) : Except Fail Page := if p ∈ h.freed then .error .ub else .ok (h.page p)

/-- Write to a page. -/
def Heap.write (h : Heap) (p : Nat) (f : Page → Page) : Except Fail Heap := if p ∈ h.freed then .error .ub else .ok (h.setPage p f)

/-- `free`. -/
def Heap.free (h : Heap) (p : Nat) : Except Fail Heap := if p ∈ h.freed then .error .ub else .ok { h with freed := p :: h.freed }

/-- `pageContainsPtr`, `umka_vm.c:631-642`. -/
def contains (h : Heap) (p : Nat) (ptr : Ptr) : Except Fail Bool := do
  let pg ← h.read p
  if p = ptr.1 then
    match pg.blocks[ptr.2]? with
    | some b => if b.refCnt = 0 then .error .error else .ok true
    | none => .error .error
  else .ok false

/-- The loop of `pageFind`, `umka_vm.c:656-663`. -/
def findFrom (h : Heap) (ptr : Ptr) : Nat → Option Nat → Except Fail (Option Nat)
  | 0, _ => .error .fuel
  | _ + 1, none => .ok none
  | n + 1, some p => do
    let pg ← h.read p
    if h.lastAccessed = some p then findFrom h ptr n pg.next
    else
      let c ← contains h p ptr
      if c then .ok (some p) else findFrom h ptr n pg.next

/-- `pageFind`, `umka_vm.c:645-666`. -/
def pageFind (h : Heap) (n : Nat) (ptr : Ptr) : Except Fail (Option Nat) :=
  match h.lastAccessed with
  | none => findFrom h ptr n h.first
  | some p => do
    let c ← contains h p ptr
    if c then .ok (some p) else findFrom h ptr n h.first

/-- `pageRemove` with `pageMoveToRecycled`, `umka_vm.c:447-451, 595-619`. -/
def pageRemove (h : Heap) (p : Nat) : Except Fail Heap := do
  let pg ← h.read p
  let h := if h.first = some p then { h with first := pg.next } else h
  let h ← (match pg.prev with
    | some q => h.write q fun x => { x with next := pg.next }
    | none => .ok h)
  let h ← (match pg.next with
    | some q => h.write q fun x => { x with prev := pg.prev }
    | none => .ok h)
  let h := if h.lastAccessed = some p then { h with lastAccessed := h.first } else h
  let h ← h.write p fun x => { x with next := h.recycled }
  .ok { h with recycled := some p }

/-- `umkaDecRef` on a pointer: `vmDecRef`, `doRefCntImpl`, `chunkRefCnt` (`umka_vm.c:744-780, 4345-4348`); `n` bounds the nesting of deallocators. -/
def decRef : Nat → Heap → Ptr → Except Fail Heap
  | 0, _, _ => .error .fuel
  | n + 1, h, ptr => do
    match ← pageFind h n ptr with
    | none => .ok h
    | some p =>
      let h := { h with lastAccessed := some p }
      let pg ← h.read p
      match pg.blocks[ptr.2]? with
      | none => .error .error
      | some b =>
        if b.refCnt = 0 ∨ pg.refCnt < b.refCnt then .error .error
        else
          let h ← (match b.onFree with
            | some acts =>
              if b.refCnt = 1 then do
                let h ← acts.foldlM (decRef n) { h with calls := h.calls ++ [ptr] }
                h.write p fun x => { x with numOnFree := x.numOnFree - 1 }
              else .ok h
            | none => .ok h)
          let h ← h.write p fun x =>
            { x with refCnt := x.refCnt - 1, blocks := x.blocks.set ptr.2 { b with refCnt := b.refCnt - 1 } }
          let pg ← h.read p
          if pg.refCnt = 0 then pageRemove h p else .ok h

/-- The locations reported for a page: each once, `umka_vm.c:355-385`; `seen` is the list of locations already reported. -/
def leakLocs : List Block → List Nat → List Nat
  | [], _ => []
  | b :: bs, seen =>
    if b.refCnt = 0 then leakLocs bs seen
    else if b.loc ∈ seen then leakLocs bs seen
    else b.loc :: leakLocs bs (b.loc :: seen)

/-- `pageLeakSan`, `umka_vm.c:340-388`. -/
def pageLeakSan (h : Heap) (p : Nat) (pg : Page) : Heap :=
  if h.leakSanLevel > 0 ∧ h.normal then
    { h with log := h.log ++ .page p pg.refCnt :: (if h.leakSanLevel > 1 then (leakLocs pg.blocks []).map .loc else []) }
  else h

/-- The calls of deallocators for a page, `umka_vm.c:414-423`; `m` blocks are left, `i` is the next one. -/
def dealloc (n p : Nat) : Nat → Nat → Heap → Except Fail Heap
  | 0, _, h => .ok h
  | m + 1, i, h => do
    let pg ← h.read p
    if pg.numOnFree = 0 then .ok h
    else match pg.blocks[i]? with
      | none => .ok h
      | some b =>
        match b.onFree with
        | none => dealloc n p m (i + 1) h
        | some acts =>
          if b.refCnt = 0 then dealloc n p m (i + 1) h
          else do
            let h ← acts.foldlM (decRef n) { h with calls := h.calls ++ [(p, i)] }
            let h ← h.write p fun x => { x with numOnFree := x.numOnFree - 1 }
            dealloc n p m (i + 1) h

/-- The first loop of `pageFree`, `umka_vm.c:406-427`. -/
def freeUsed (k : Nat) : Nat → Option Nat → Heap → Except Fail Heap
  | 0, _, _ => .error .fuel
  | _ + 1, none, h => .ok h
  | n + 1, some p, h => do
    let pg ← h.read p
    let h ← dealloc k p pg.blocks.length 0 (pageLeakSan h p pg)
    let h ← h.free p
    freeUsed k n pg.next h

/-- The other loops of `pageFree`, `umka_vm.c:429-443`. -/
def freeUnused : Nat → Option Nat → Heap → Except Fail Heap
  | 0, _, _ => .error .fuel
  | _ + 1, none, h => .ok h
  | n + 1, some p, h => do
    let pg ← h.read p
    let h ← h.free p
    freeUnused n pg.next h

/-- `pageFree`, `umka_vm.c:404-444`. -/
def pageFree (n : Nat) (h : Heap) : Except Fail Heap := do
  let h ← freeUsed n n h.first h
  let h ← freeUnused n h.recycled h
  freeUnused n h.blacklisted h

end Umka.Shutdown
