/-!
# Reference counts of dynamic arrays: model

The built-in functions that make dynamic arrays and change them in place, as far as reference counts go: `make`, array literals, `copy`, `append`, `insert`,
`delete`, `slice` (`umka_vm.c:2224-2289`, `2380-2402`, `2438-2578`, `2644-2720`), with assignments of arrays and items.

Simplifications.  All counted references are references to dynamic arrays; an item is the list of the references in it, so that items may be arrays, or structures or
static arrays of arrays; items have no addresses but their places in arrays.  A chunk of the heap is freed before its items are released, not after (the order of
`doRefCntImpl` is the subject of area RefCnt).  The size of an array is not limited.  The result of a built-in function goes to a hidden variable, which is null
before; null arrays and the static empty array (`umka_vm.c:1462-1469`) are not distinguished.
-/

namespace Umka.ArrRef

abbrev Item := List Nat

/-- The chunk of a dynamic array: its reference count, the items below its length, and its capacity. -/
structure Chunk where
  rc : Nat
  items : List Item
  cap : Nat
  deriving DecidableEq, Repr

/-- All chunks so far; those with the count 0 are free. -/
abbrev Heap := List Chunk

inductive Err
  /-- errors of the program -/
  | index | null | noVar
  /-- a free chunk is used: "Dangling pointer" or "Wrong chunk reference count" -/
  | dangling
  /-- the release of a value does not end -/
  | endless
  deriving DecidableEq, Repr

/-- `doRefCntImpl` with `++` on a value with these references, `umka_vm.c:1218-1400`. -/
def inc (h : Heap) : List Nat → Except Err Heap
  | [] => .ok h
  | k :: ks =>
    match h[k]? with
    | none => .error .dangling
    | some c => if c.rc = 0 then .error .dangling else inc (h.modify k fun c => { c with rc := c.rc + 1 }) ks

/-- `doRefCntImpl` with `--`: the work list.  A chunk that loses its last reference gives up those of its items. -/
def dec : Nat → Heap → List Nat → Except Err Heap
  | _, h, [] => .ok h
  | 0, _, _ :: _ => .error .endless
  | n + 1, h, k :: ks =>
    match h[k]? with
    | none => .error .dangling
    | some c =>
      if c.rc = 0 then .error .dangling
      else if c.rc > 1 then dec n (h.modify k fun c => { c with rc := c.rc - 1 }) ks
      else dec n (h.modify k fun c => { c with rc := c.rc - 1 }) (c.items.flatten ++ ks)

/-- More iterations than there can be: each one removes a reference. -/
def bound (h : Heap) : Nat := (h.map (·.rc)).sum

def release (h : Heap) (ks : List Nat) : Except Err Heap := dec (bound h) h ks

/-- The heap, the variables that are dynamic arrays, hidden ones included, and the variables that are items. -/
structure State where
  heap : Heap
  arrs : List (Option Nat)
  vals : List Item
  deriving DecidableEq, Repr

/-- Items and capacity of an array; those of the static empty array if it is null. -/
def look (h : Heap) : Option Nat → Except Err (List Item × Nat)
  | none => .ok ([], 0)
  | some k =>
    match h[k]? with
    | none => .error .dangling
    | some c => if c.rc = 0 then .error .dangling else .ok (c.items, c.cap)

def arr (s : State) (a : Nat) : Except Err (Option Nat) :=
  match s.arrs[a]? with
  | none => .error .noVar
  | some r => .ok r

def val (s : State) (v : Nat) : Except Err Item :=
  match s.vals[v]? with
  | none => .error .noVar
  | some x => .ok x

/-- The result in a new hidden variable. -/
def State.push (s : State) (h : Heap) (r : Option Nat) : State := { s with heap := h, arrs := s.arrs ++ [r] }

/-- `doAllocDynArray` (`umka_vm.c:1437-1459`), copying of the items, and their counts "as if they have been assigned one by one". -/
def fresh (s : State) (items : List Item) : Except Err State := do
  let h ← inc (s.heap ++ [⟨1, items, 2 * (items.length + 1)⟩]) items.flatten
  return s.push h (some s.heap.length)

def setItems (h : Heap) (k : Nat) (items : List Item) : Heap := h.modify k fun c => { c with items := items }

/-- `doBuiltinAppend`, `umka_vm.c:2438-2499`. -/
def append (s : State) (a : Nat) (new : List Item) : Except Err State := do
  let r ← arr s a
  let c ← look s.heap r
  if c.1.length + new.length ≤ c.2 then
    match r with
    | none => return s.push s.heap none
    | some k =>
      let h ← inc s.heap [k]
      let h ← inc (setItems h k (c.1 ++ new)) new.flatten
      return s.push h (some k)
  else fresh s (c.1 ++ new)

/-- The item to be inserted or appended: a variable, or an item of an array, by its address if it is structured. -/
inductive Src
  | var (v : Nat)
  | item (b j : Nat) (byAddr : Bool)
  deriving DecidableEq, Repr

def Src.read (s : State) : Src → Except Err Item
  | .var v => val s v
  | .item b j _ => do
    let r ← arr s b
    let c ← look s.heap r
    match c.1[j]? with
    | none => throw .index
    | some x => return x

/-- The item that is found at the address of the source after the items from `i` on have been moved up in place. -/
def Src.moved (s : State) (k i : Nat) (old : List Item) (x : Item) : Src → Item
  | .item b j true => if s.arrs[b]? = some (some k) ∧ i < j then (old[j - 1]?).getD x else x
  | _ => x

/-- `doBuiltinInsert`, `umka_vm.c:2502-2549`. -/
def insert (s : State) (a i : Nat) (src : Src) : Except Err State := do
  let r ← arr s a
  let c ← look s.heap r
  let x ← src.read s
  if c.1.length < i then throw .index
  if c.1.length + 1 ≤ c.2 then
    match r with
    | none => throw .null
    | some k =>
      let h ← inc s.heap [k]
      let x := src.moved s k i c.1 x
      let h ← inc (setItems h k (c.1.take i ++ x :: c.1.drop i)) x
      return s.push h (some k)
  else fresh s (c.1.take i ++ x :: c.1.drop i)

/-- `doBuiltinDeleteDynArray`, `umka_vm.c:2552-2577`: the item is released before the others are moved. -/
def delete (s : State) (a i : Nat) : Except Err State := do
  let r ← arr s a
  match r with
  | none => throw .null
  | some k =>
    let c ← look s.heap r
    match c.1[i]? with
    | none => throw .index
    | some x =>
      let h ← inc s.heap [k]
      let h ← release h x
      return s.push (setItems h k (c.1.eraseIdx i)) (some k)

/-- `doBuiltinSlice`, `umka_vm.c:2644-2720`, after the adjustment of the end index. -/
def slice (s : State) (a i j : Nat) : Except Err State := do
  let r ← arr s a
  let c ← look s.heap r
  if j < i ∨ c.1.length < j then throw .index
  fresh s ((c.1.drop i).take (j - i))

/-- `doBuiltinCopyDynArray`, `umka_vm.c:2380-2402`. -/
def copy (s : State) (a : Nat) : Except Err State := do
  let r ← arr s a
  match r with
  | none => return s.push s.heap none
  | some _ =>
    let c ← look s.heap r
    fresh s c.1

/-- An assignment between variables of arrays: `OP_REF_CNT_ASSIGN`, `umka_vm.c:3288-3317`. -/
def assign (s : State) (d a : Nat) : Except Err State := do
  let r ← arr s a
  let old ← arr s d
  let h ← inc s.heap r.toList
  let h ← release h old.toList
  return { s with heap := h, arrs := s.arrs.set d r }

/-- A variable leaves its scope; here it stays, as null. -/
def clear (s : State) (d : Nat) : Except Err State := do
  let old ← arr s d
  let h ← release s.heap old.toList
  return { s with heap := h, arrs := s.arrs.set d none }

/-- An assignment of an item to a variable. -/
def setVal (s : State) (v : Nat) (x : Item) : Except Err State := do
  let old ← val s v
  let h ← inc s.heap x
  let h ← release h old
  return { s with heap := h, vals := s.vals.set v x }

/-- `v = a[i]`. -/
def get (s : State) (v a i : Nat) : Except Err State := do
  let x ← (Src.item a i true).read s
  setVal s v x

/-- `a[i] = v`. -/
def put (s : State) (a i v : Nat) : Except Err State := do
  let r ← arr s a
  let c ← look s.heap r
  let x ← val s v
  match r, c.1[i]? with
  | some k, some old =>
    let h ← inc s.heap x
    let h ← release h old
    return { s with heap := setItems h k (c.1.set i x) }
  | _, _ => throw .index

/-- The references in variables of arrays. -/
def refs (s : State) : List Nat → Except Err Item
  | [] => .ok []
  | a :: as => do
    let r ← arr s a
    let x ← refs s as
    return r.toList ++ x

def items (s : State) : List Nat → Except Err (List Item)
  | [] => .ok []
  | v :: vs => do
    let x ← val s v
    let xs ← items s vs
    return x :: xs

inductive Op
  | declare
  | declareItem
  /-- `make([]T, len)` -/
  | make (len : Nat)
  /-- an array literal, or the conversion of a static array: `doBuiltinMakeFromArr`, `umka_vm.c:2255-2272` -/
  | literal (vs : List Nat)
  | copy (a : Nat)
  | append (a : Nat) (src : Src)
  | appendAll (a b : Nat)
  | insert (a i : Nat) (src : Src)
  | delete (a i : Nat)
  | slice (a i j : Nat)
  | assign (d a : Nat)
  | clear (d : Nat)
  | get (v a i : Nat)
  | put (a i v : Nat)
  /-- an item made of arrays -/
  | pack (v : Nat) (as : List Nat)
  /-- the `n`-th array in an item -/
  | unpack (v n : Nat)
  deriving DecidableEq, Repr

def exec (s : State) : Op → Except Err State
  | .declare => .ok { s with arrs := s.arrs ++ [none] }
  | .declareItem => .ok { s with vals := s.vals ++ [[]] }
  | .make len => fresh s (List.replicate len [])
  | .literal vs => do let xs ← items s vs; fresh s xs
  | .copy a => copy s a
  | .append a src => do let x ← src.read s; append s a [x]
  | .appendAll a b => do
    let r ← arr s b
    let c ← look s.heap r
    append s a c.1
  | .insert a i src => insert s a i src
  | .delete a i => delete s a i
  | .slice a i j => slice s a i j
  | .assign d a => assign s d a
  | .clear d => clear s d
  | .get v a i => get s v a i
  | .put a i v => put s a i v
  | .pack v as => do let x ← refs s as; setVal s v x
  | .unpack v n => do
    let x ← val s v
    match x[n]? with
    | none => return s.push s.heap none
    | some k => let h ← inc s.heap [k]; return s.push h (some k)

def run (s : State) : List Op → Except Err State
  | [] => .ok s
  | o :: os => do let s ← exec s o; run s os

def init : State := ⟨[], [], []⟩

end Umka.ArrRef
