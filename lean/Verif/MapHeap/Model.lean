import Verif.Map.Model

/-!
# Maps in memory: model

The map operations again, now on a memory with addresses: nodes are chunks of the heap, a map variable holds the address of the dummy root,
trees are linked by pointers, and several maps share the memory.  The order of the stores is that of `/repo/src/umka_vm.c`.

Simplifications: the key and the item of a node, which the program keeps in two chunks of their own that only the node points to, are stored
in the node; reference counts are in `Verif/RefCnt` and `Verif/Release`, so maps that are no longer used stay allocated here, while a
node deleted from a map is freed.  Which free address an allocation gets is up to the parameter `alloc`.  Loops carry a bound `fuel` on the
number of iterations; `none` is a loop or recursion that has not ended by then, or a null pointer dereferenced.
-/

namespace Umka.MapHeap

open Umka.Map (Op Out)

/-- `MapNode` (`umka_common.h:53-59`).  `key` and `val` are `none` for null pointers. -/
structure Node (K V : Type) where
  left : Option Nat
  right : Option Nat
  key : Option K
  prio : Int
  val : Option V
  len : Int
  deriving DecidableEq, Repr

/-- The allocated nodes. -/
abbrev Heap (K V : Type) := Nat → Option (Node K V)

/-- A pointer to a pointer to a node (`MapNode **`): the field `root` of the map, or a field of a node. -/
inductive Slot
  | root
  | left (a : Nat)
  | right (a : Nat)
  deriving DecidableEq, Repr

/-- The memory that an operation on one map works on: the heap and the field `root` of the map variable. -/
structure Mem (K V : Type) where
  heap : Heap K V
  root : Option Nat

variable {K V : Type}

def Heap.put (h : Heap K V) (a : Nat) (n : Option (Node K V)) : Heap K V := fun x => if x = a then n else h x

/-- `*slot`; `none` is a read through a dangling pointer. -/
def Mem.read (m : Mem K V) : Slot → Option (Option Nat)
  | .root => some m.root
  | .left a => (m.heap a).map (·.left)
  | .right a => (m.heap a).map (·.right)

/-- `*slot = p` -/
def Mem.write (m : Mem K V) (s : Slot) (p : Option Nat) : Option (Mem K V) :=
  match s with
  | .root => some { m with root := p }
  | .left a => (m.heap a).map fun n => { m with heap := m.heap.put a (some { n with left := p }) }
  | .right a => (m.heap a).map fun n => { m with heap := m.heap.put a (some { n with right := p }) }

/-- Changing the node at `a`. -/
def Mem.modify (m : Mem K V) (a : Nat) (f : Node K V → Node K V) : Option (Mem K V) :=
  (m.heap a).map fun n => { m with heap := m.heap.put a (some (f n)) }

/-- A chunk for a node, filled with zeros (`chunkAlloc`, `umka_vm.c:705-744`). -/
def zeroNode : Node K V := ⟨none, none, none, 0, none, 0⟩

/-- `doRebalanceMapNodes`, `umka_vm.c:1479-1496`. -/
def rebalance (m : Mem K V) (parent : Slot) (child : Nat) : Option (Mem K V) := do
  let p ← (← m.read parent)
  let pn ← m.heap p
  let cn ← m.heap child
  if some child = pn.right then
    let m ← m.write (.right p) cn.left
    let m ← m.write (.left child) (some p)
    m.write parent (some child)
  else if some child = pn.left then
    let m ← m.write (.left p) cn.right
    let m ← m.write (.right child) (some p)
    m.write parent (some child)
  else some m

/-- `keyDiff`, `umka_vm.c:1507-1515`: a node without a key is the dummy root. -/
def keyDiff (cmp : K → K → Int) (key : K) : Option K → Int
  | none => 1
  | some k => cmp key k

/-- The loop of `doGetMapNode`, `umka_vm.c:1506-1531`: the memory and the slot with which it is left. -/
def search (cmp : K → K → Int) (key : K) : Nat → Mem K V → Slot → Option (Mem K V × Slot)
  | 0, _, _ => none
  | fuel + 1, m, s => do
    match ← m.read s with
    | none => some (m, s)
    | some a =>
      let n ← m.heap a
      let diff := keyDiff cmp key n.key
      if diff = 0 then some (m, s)
      else
        let child := if diff > 0 then n.right else n.left
        let slot := if diff > 0 then Slot.right a else .left a
        match child with
        | none => search cmp key fuel m slot
        | some c =>
          let cn ← m.heap c
          if n.prio > 0 ∧ cn.prio > n.prio then
            search cmp key fuel (← rebalance m s c) s
          else search cmp key fuel m slot

/-- `doGetMapPtr`, `umka_vm.c:3667-3704`, and the store of `v` through the item pointer if `store = some v`; the item before the store. -/
def mapPtr (alloc : Heap K V → Nat) (cmp : K → K → Int) (zero : V) (fuel : Nat) (m : Mem K V) (k : K) (prio : Int) (store : Option V) :
    Option (Mem K V × V) := do
  -- doAllocMap, umka_vm.c:1471-1476
  let m := match m.root with
    | none => let a := alloc m.heap; { heap := m.heap.put a (some zeroNode), root := some a }
    | some _ => m
  let (m, s) ← search cmp k fuel m .root
  -- createMissingNodes, umka_vm.c:1533-1537
  let (m, a) ← match ← m.read s with
    | some a => some (m, a)
    | none => do
      let a := alloc m.heap
      let m ← ({ m with heap := m.heap.put a (some zeroNode) } : Mem K V).write s (some a)
      some (m, a)
  let n ← m.heap a
  let m ← match n.val with
    | some _ => some m
    | none => do
      let m ← m.modify a fun n => { n with prio := prio, key := some k, val := some zero }
      m.modify (← m.root) fun n => { n with len := n.len + 1 }
  let old ← (← m.heap a).val
  let m ← match store with
    | none => some m
    | some v => m.modify a fun n => { n with val := some v }
  some (m, old)

/-- The loop that looks for the successor, `umka_vm.c:2604-2606`: `while ((*s)->left) s = &(*s)->left;` -/
def leftmost : Nat → Mem K V → Slot → Option Slot
  | 0, _, _ => none
  | fuel + 1, m, s => do
    let a ← (← m.read s)
    let n ← m.heap a
    match n.left with
    | none => some s
    | some _ => leftmost fuel m (.left a)

/-- The part of `doBuiltinDeleteMap` on a node that was found, `umka_vm.c:2595-2625`. -/
def unlink (fuel : Nat) (m : Mem K V) (s : Slot) (a : Nat) : Option (Mem K V × Out K V) := do
  let n ← m.heap a
  let m ← match n.left, n.right with
    | some l, none => m.write s (some l)
    | none, some r => m.write s (some r)
    | some _, some _ => do
      let t ← leftmost fuel m (.right a)
      let b ← (← m.read t)
      let bn ← m.heap b
      let m ← m.write t bn.right
      let n ← m.heap a
      let m ← m.write (.left b) n.left
      let m ← m.write (.right b) n.right
      m.write s (some b)
    | none, none => m.write s none
  let m ← m.write (.left a) none
  let m ← m.write (.right a) none
  let m : Mem K V := { m with heap := m.heap.put a none }           -- doRefCntImpl frees the node
  let r ← m.root
  let m ← m.modify r fun n => { n with len := n.len - 1 }
  let rn ← m.heap r
  some (m, if rn.len < 0 then .error "Map length is negative" else .unit)

/-- `doGetMapKeysRecursively`, `umka_vm.c:1596-1615`; `fuel` bounds the depth. -/
def keysOf : Nat → Heap K V → Nat → Option (List K)
  | 0, _, _ => none
  | fuel + 1, h, a => do
    let n ← h a
    let ls ← match n.left with | none => some [] | some l => keysOf fuel h l
    let ks := match n.key with | none => [] | some k => [k]
    let rs ← match n.right with | none => some [] | some r => keysOf fuel h r
    some (ls ++ ks ++ rs)

/-- One operation on one map, with the functions of `Map.step` (`Verif/Map/Model.lean`), in memory. -/
def step (alloc : Heap K V → Nat) (cmp : K → K → Int) (zero : V) (fuel : Nat) (m : Mem K V) : Op K V → Option (Mem K V × Out K V)
  | .make => let a := alloc m.heap; some (⟨m.heap.put a (some zeroNode), some a⟩, .unit)
  | .set k v prio => do let (m, _) ← mapPtr alloc cmp zero fuel m k prio (some v); some (m, .unit)
  | .get k prio => do let (m, v) ← mapPtr alloc cmp zero fuel m k prio none; some (m, .val v)
  | .del k =>
    match m.root with
    | none => some (m, .error "Map is null")
    | some _ => do
      let (m, s) ← search cmp k fuel m .root
      match ← m.read s with
      | none => some (m, .unit)
      | some a => unlink fuel m s a
  | .validKey k =>
    match m.root with
    | none => some (m, .bool false)
    | some _ => do
      let (m, s) ← search cmp k fuel m .root
      some (m, .bool (← m.read s).isSome)
  | .hostGet k =>
    match m.root with
    | none => some (m, .optVal none)
    | some _ => do
      let (m, s) ← search cmp k fuel m .root
      match ← m.read s with
      | none => some (m, .optVal none)
      | some a => do some (m, .optVal (← m.heap a).val)
  | .len =>
    match m.root with
    | none => some (m, .int 0)
    | some r => do some (m, .int (← m.heap r).len)
  | .keys =>
    match m.root with
    | none => some (m, .list [])
    | some r => do
      let ks ← keysOf fuel m.heap r
      some (m, if (ks.length : Int) = (← m.heap r).len then .list ks else .error "Wrong number of map keys")

/-- `doCopyMapNode`, `umka_vm.c:1543-1593`; `fuel` bounds the depth of the recursion. -/
def copyNode (alloc : Heap K V → Nat) : Nat → Heap K V → Option Nat → Option (Heap K V × Option Nat)
  | 0, _, _ => none
  | _ + 1, h, none => some (h, none)
  | fuel + 1, h, some a => do
    let n ← h a
    let b := alloc h
    let h := h.put b (some { (zeroNode : Node K V) with len := n.len, prio := n.prio, key := n.key, val := n.val })
    let h ← match n.left with
      | none => some h
      | some _ => do
        let (h, l) ← copyNode alloc fuel h n.left
        let bn ← h b
        some (h.put b (some { bn with left := l }))
    let h ← match n.right with
      | none => some h
      | some _ => do
        let (h, r) ← copyNode alloc fuel h n.right
        let bn ← h b
        some (h.put b (some { bn with right := r }))
    some (h, some b)

/-- A program with map variables: the heap and the field `root` of each variable. -/
structure World (K V : Type) where
  heap : Heap K V
  vars : Nat → Option Nat

/-- What a program does with its maps: an operation on a variable, `y = copy(x)`, `y = x`. -/
inductive Cmd (K V : Type)
  | on (x : Nat) (op : Op K V)
  | copy (y x : Nat)
  | assign (y x : Nat)

def setVar (vars : Nat → Option Nat) (y : Nat) (p : Option Nat) : Nat → Option Nat := fun x => if x = y then p else vars x

/-- One command.  `copy`: `doBuiltinCopyMap`, `umka_vm.c:2405-2422`, and the assignment of the result. -/
def exec (alloc : Heap K V → Nat) (cmp : K → K → Int) (zero : V) (fuel : Nat) (w : World K V) : Cmd K V → Option (World K V × Out K V)
  | .on x op => do
    let (m, o) ← step alloc cmp zero fuel ⟨w.heap, w.vars x⟩ op
    some (⟨m.heap, setVar w.vars x m.root⟩, o)
  | .copy y x =>
    match w.vars x with
    | none => some (⟨w.heap, setVar w.vars y none⟩, .unit)
    | some r => do
      let (h, p) ← copyNode alloc fuel w.heap (some r)
      some (⟨h, setVar w.vars y p⟩, .unit)
  | .assign y x => some (⟨w.heap, setVar w.vars y (w.vars x)⟩, .unit)

def run (alloc : Heap K V → Nat) (cmp : K → K → Int) (zero : V) (fuel : Nat) : World K V → List (Cmd K V) → Option (World K V × List (Out K V))
  | w, [] => some (w, [])
  | w, c :: cs => do
    let (w, o) ← exec alloc cmp zero fuel w c
    let (w, os) ← run alloc cmp zero fuel w cs
    some (w, o :: os)

end Umka.MapHeap
