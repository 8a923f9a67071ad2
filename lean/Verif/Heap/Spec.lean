import Verif.Heap.Model

/-!
# Heap: specification

An ideal heap is a set of live blocks, each with an address, a size and a reference count, named by
the number of the allocation that created it.  Pages, chunks and headers do not occur here, except
in `Valid`, which says what is assumed about the environment: `malloc` and the pointers the program
uses.
-/

namespace Umka.Heap.Spec

open Umka.Heap (Op Out Err)

/-- A live block.  It occupies the bytes from `addr` to `addr + size` inclusive: there is one extra
byte, so that a pointer just past the data still belongs to the block. -/
structure Block where
  addr : Nat
  size : Nat
  count : Int
  onFree : Bool
  isStack : Bool
  deriving DecidableEq, Repr

/-- The pointer belongs to the block. -/
def Block.owns (b : Block) (ptr : Nat) : Prop := b.addr ≤ ptr ∧ ptr ≤ b.addr + b.size

/-- The ideal heap: live blocks, number of allocations, contents of memory, weak pointers handed out
(which block they refer to, and the original pointer), and deallocator calls. -/
structure State where
  live : Nat → Option Block
  next : Nat
  mem : Nat → Nat
  weak : Nat → Option (Nat × Nat)
  freed : List Nat

/-- Nothing allocated. -/
def init (mem : Nat → Nat) : State := ⟨fun _ => none, 0, mem, fun _ => none, []⟩

/-- `ptr` belongs to the live block number `n`. -/
def State.Owns (s : State) (n : Nat) (b : Block) (ptr : Nat) : Prop := s.live n = some b ∧ b.owns ptr

/-- The function `f` with the value at `n` replaced. -/
def upd {α : Type} (f : Nat → α) (n : Nat) (v : α) : Nat → α := fun m => if m = n then v else f m

/-- The contents of the live blocks of `s` are the same in memory `mem'`. -/
def State.KeepsBlocks (s : State) (mem' : Nat → Nat) : Prop :=
  ∀ n b a, s.Owns n b a → mem' a = s.mem a

/-- What an operation may answer and how it may change the ideal heap. -/
def Step (s : State) (op : Op) (o : Out) (s' : State) : Prop :=
  match op with
  | .alloc size onFree isStack _ =>
    -- refused
    ((size < 0 ∨ size > 2 ^ 31 - 112) ∧ o = .error .badSize ∧ s' = s) ∨
    -- a new zero-filled block, away from all live blocks, which keep their contents
    (0 ≤ size ∧ size < 2 ^ 31 ∧ ∃ a, o = .addr a ∧ a % 8 = 0 ∧ a ≠ 0 ∧ a + size.toNat < 2 ^ 63 ∧
      (∀ n b, s.live n = some b → a + size.toNat < b.addr ∨ b.addr + b.size < a) ∧
      s'.live = upd s.live s.next (some ⟨a, size.toNat, 1, onFree, isStack⟩) ∧
      s'.next = s.next + 1 ∧
      (∀ k, k ≤ size.toNat → s'.mem (a + k) = 0) ∧
      s.KeepsBlocks s'.mem ∧ s'.weak = s.weak ∧ s'.freed = s.freed)
  | .incref ptr =>
    (∃ n b, s.Owns n b ptr ∧ o = .unit ∧
      s' = { s with live := upd s.live n (some { b with count := b.count + 1 }) }) ∨
    ((¬ ∃ n b, s.Owns n b ptr) ∧ (o = .unit ∨ o = .error .dangling) ∧ s' = s)
  | .decref ptr _ =>
    (∃ n b, s.Owns n b ptr ∧ o = .unit ∧
      -- the block disappears exactly when its last reference does; its deallocator is called then
      if b.count = 1 then
        s' = { s with live := upd s.live n none, freed := if b.onFree then n :: s.freed else s.freed }
      else s' = { s with live := upd s.live n (some { b with count := b.count - 1 }) }) ∨
    ((¬ ∃ n b, s.Owns n b ptr) ∧ (o = .unit ∨ o = .error .dangling) ∧ s' = s)
  | .write ptr val => o = .unit ∧ s' = { s with mem := upd s.mem ptr val }
  | .weaken ptr =>
    (∃ n b, s.Owns n b ptr ∧
      if b.isStack then o = .error .weakLocal ∧ s' = s
      else ∃ w, o = .addr w ∧ 2 ^ 63 ≤ w ∧ w < 2 ^ 64 ∧
        -- a weak pointer is never ambiguous
        (s.weak w = none ∨ s.weak w = some (n, ptr)) ∧
        s' = { s with weak := upd s.weak w (some (n, ptr)) }) ∨
    ((¬ ∃ n b, s.Owns n b ptr) ∧ (o = .addr ptr ∨ o = .error .dangling) ∧ s' = s)
  | .strengthen w =>
    s' = s ∧
    (∀ n ptr, s.weak w = some (n, ptr) →
      o = .addr (if (s.live n).isSome then ptr else 0)) ∧
    (w < 2 ^ 63 → o = .addr w)
  | .memUsage => s' = s

/-- An ideal heap starting in `s` may answer `os` to the history `ops` and end in `t`. -/
def Reach : State → List Op → List Out → State → Prop
  | s, [], [], t => s = t
  | s, op :: ops, o :: os, t => ∃ s', Step s op o s' ∧ Reach s' ops os t
  | _, _, _, _ => False

/-- No two live blocks share a byte. -/
def State.Disjoint (s : State) : Prop :=
  ∀ n m b c, s.live n = some b → s.live m = some c → n ≠ m → ∀ a, ¬ (b.owns a ∧ c.owns a)

/-- How an operation changes the number of references to the block of `size` bytes at `a`. -/
def delta (a size : Nat) : Op → Int
  | .incref p => if a ≤ p ∧ p ≤ a + size then 1 else 0
  | .decref p _ => if a ≤ p ∧ p ≤ a + size then -1 else 0
  | _ => 0

/-- A block at `a` with `c` references never loses its last one. -/
def Alive (a size : Nat) : Int → List Op → Prop
  | _, [] => True
  | c, op :: ops => 0 < c + delta a size op ∧ Alive a size (c + delta a size op) ops

/-- A block at `a` with `c` references loses its last one. -/
def Dies (a size : Nat) : Int → List Op → Prop
  | _, [] => False
  | c, op :: ops => c + delta a size op = 0 ∨
    (0 < c + delta a size op ∧ Dies a size (c + delta a size op) ops)

/-- The deallocator flags of the successful allocations of a history, in order. -/
def flags : List Op → List Out → List Bool
  | .alloc _ f _ _ :: ops, .addr _ :: os => f :: flags ops os
  | _ :: ops, _ :: os => flags ops os
  | _, _ => []

/-- `[a, a + n)` is unused memory: what `malloc` delivers never overlaps pages in use, is aligned,
not null, and in the lower half of the address space. -/
def MallocOk (h : Heap) (a n : Nat) : Prop :=
  a % 8 = 0 ∧ 0 < a ∧ a + n < 2 ^ 63 ∧
  ∀ p ∈ h.first ++ h.blacklisted, a + n ≤ p.addr ∨ p.addr + p.cap ≤ a

/-- A pointer the program may use: it belongs to a live block, or to a dead block of a page still in
use, or to no page in use. -/
def PtrOk (h : Heap) (ptr : Nat) : Prop :=
  ∀ p ∈ h.first, p.has ptr → ∃ i, i < p.numOcc ∧
    (((h.hdr (p.chunkAddr i)).refCnt > 0 ∧ p.chunkAddr i + chunkHeader ≤ ptr ∧
      ptr ≤ p.chunkAddr i + chunkHeader + (h.hdr (p.chunkAddr i)).size) ∨
     ((h.hdr (p.chunkAddr i)).refCnt ≤ 0 ∧ p.chunkAddr i ≤ ptr ∧ ptr < p.chunkAddr (i + 1)))

/-- What is assumed about the environment in each operation: `malloc` delivers unused memory, should
it be called; pointers are never into memory that has not been handed out; and there are fewer than
2^31 - 2 allocations. -/
def Valid (h : Heap) : Op → Prop
  | .alloc size _ _ a => h.allocs + 2 < 2 ^ 31 ∧ MallocOk h a (pageBytes (chunkSizeFor size.toNat))
  | .incref ptr => PtrOk h ptr
  | .decref ptr _ => PtrOk h ptr
  | .weaken ptr => PtrOk h ptr
  | _ => True

/-- The assumptions hold throughout a history. -/
def ValidRun : Heap → List Op → Prop
  | _, [] => True
  | h, op :: ops => Valid h op ∧ ValidRun (step h op).2 ops

end Umka.Heap.Spec
