import Verif.Shutdown.Model
/-! # Shutting down the heap: specification -/

namespace Umka.Shutdown.Spec

/-- The pages of a linked list. -/
inductive Chain (page : Nat → Page) : Option Nat → List Nat → Prop
  | nil : Chain page none []
  | cons (p : Nat) (ps : List Nat) : Chain page (page p).next ps → Chain page (some p) (p :: ps)

/-- A block that is still referenced. -/
def Live (pg : Page) (i : Nat) (b : Block) : Prop := pg.blocks[i]? = some b ∧ b.refCnt ≠ 0

/-- The heap as the program has left it: three separate lists of pages; every page in use counts its references and its live blocks with deallocators
(`C17_page_count_is_sum`, `C55_deallocator_exactly_once` in the area Heap). -/
structure Sound (h : Heap) (us rs bs : List Nat) : Prop where
  used : Chain h.page h.first us
  recycled : Chain h.page h.recycled rs
  blacklisted : Chain h.page h.blacklisted bs
  apart : (us ++ rs ++ bs).Nodup
  freed : h.freed = []
  calls : h.calls = []
  log : h.log = []
  refs : ∀ p ∈ us, (h.page p).refCnt = ((h.page p).blocks.map Block.refCnt).sum
  numOnFree : ∀ p ∈ us, (h.page p).numOnFree = ((h.page p).blocks.filter fun b => b.refCnt ≠ 0 ∧ b.onFree.isSome).length

/-- Deallocators do not use the heap. -/
def Quiet (h : Heap) : Prop := ∀ p, ∀ b ∈ (h.page p).blocks, b.onFree = none ∨ b.onFree = some []

/-- The messages for a page: its number of references and, at level 2 and above, every location with live blocks once. -/
def PageReport (h : Heap) (p : Nat) (lines : List Line) : Prop :=
  ∃ locs : List Nat, lines = .page p ((h.page p).blocks.map Block.refCnt).sum :: locs.map .loc ∧ locs.Nodup ∧
    ∀ l, l ∈ locs ↔ h.leakSanLevel > 1 ∧ ∃ i b, Live (h.page p) i b ∧ b.loc = l

/-- The messages for a list of pages. -/
inductive Report (h : Heap) : List Nat → List Line → Prop
  | nil : Report h [] []
  | cons (p : Nat) (ps : List Nat) (ls rest : List Line) : PageReport h p ls → Report h ps rest → Report h (p :: ps) (ls ++ rest)

end Umka.Shutdown.Spec
