/-!
# Maps: model

Models the treap behind `map[K]T` (`/repo/src/umka_vm.c`).  Keys are abstract values compared by a
parameter `cmp` standing for `doCompare` on the key type (umka_vm.c:1069-1166, modelled on its own
in `Verif/Compare`).  Item values are abstract; `zero` stands for a zero-filled item.

Simplifications: nodes are immutable tree values here, without addresses; reference counting of keys and items is in `Verif/RefCnt`.
-/

namespace Umka.Map

/-- `MapNode` (umka_common.h:53-59) apart from the dummy root: `left`, `key`, `priority`, `data`,
`right`.  A null child pointer is `nil`.  The field `len` is used in the dummy root only. -/
inductive Tree (K V : Type) where
  | nil
  | node (left : Tree K V) (key : K) (prio : Int) (val : V) (right : Tree K V)
  deriving DecidableEq, Repr

/-- The dummy root allocated by `doAllocMap` (umka_vm.c:1471-1476): its key is NULL, its priority is
0, it holds the map length.  `doGetMapNode` always takes `keyDiff = 1` at a node with a NULL key
(umka_vm.c:1508), so everything hangs off the right child, and the dummy root's left child
is never set. -/
structure Root (K V : Type) where
  len : Int
  right : Tree K V
  deriving DecidableEq, Repr

/-- `Map` (umka_common.h): `none` is the null root pointer of an uninitialised map. -/
abbrev MapVal (K V : Type) := Option (Root K V)

/-- One step on the way down from the dummy root: the slot `&(*node)->left` or `&(*node)->right`
(umka_vm.c:1519-1521), remembering the rest of that node. -/
inductive Frame (K V : Type) where
  | inLeft (key : K) (prio : Int) (val : V) (right : Tree K V)
  | inRight (left : Tree K V) (key : K) (prio : Int) (val : V)
  deriving DecidableEq, Repr

/-- Writing `t` through the slot pointer: the whole tree after `*node = t`. -/
def plug {K V : Type} : List (Frame K V) → Tree K V → Tree K V
  | [], t => t
  | .inLeft k p v r :: path, t => plug path (.node t k p v r)
  | .inRight l k p v :: path, t => plug path (.node l k p v t)

/-- Number of nodes. -/
def Tree.size {K V : Type} : Tree K V → Nat
  | .nil => 0
  | .node l _ _ _ r => l.size + 1 + r.size

/-- Number of nodes with priority above `p`; used only for the termination of `getNode`. -/
def Tree.above {K V : Type} (p : Int) : Tree K V → Nat
  | .nil => 0
  | .node l _ q _ r => l.above p + (if q > p then 1 else 0) + r.above p

/-- The priority stored in the root of a subtree. -/
def Tree.rootPrio {K V : Type} : Tree K V → Int
  | .nil => 0
  | .node _ _ p _ _ => p

theorem Tree.above_mono {K V : Type} {p q : Int} (h : p ≤ q) (t : Tree K V) :
    t.above q ≤ t.above p := by
  induction t with
  | nil => simp [Tree.above]
  | node l k pr v r ihl ihr =>
    simp only [Tree.above]
    split <;> split <;> omega

theorem Tree.above_rotLeft {K V : Type} {p rp : Int} (h : rp > p) {l rl rr : Tree K V} {k rk : K}
    {v rv : V} : Tree.above rp (.node (.node l k p v rl) rk rp rv rr) <
      Tree.above p (.node l k p v (.node rl rk rp rv rr)) := by
  have h1 := Tree.above_mono (K := K) (V := V) (Int.le_of_lt h)
  have := h1 l; have := h1 rl; have := h1 rr
  simp only [Tree.above]
  rw [if_neg (by omega), if_neg (by omega), if_neg (by omega), if_pos h]; omega

theorem Tree.above_rotRight {K V : Type} {p lp : Int} (h : lp > p) {ll lr r : Tree K V} {k lk : K}
    {v lv : V} : Tree.above lp (.node ll lk lp lv (.node lr k p v r)) <
      Tree.above p (.node (.node ll lk lp lv lr) k p v r) := by
  have h1 := Tree.above_mono (K := K) (V := V) (Int.le_of_lt h)
  have := h1 ll; have := h1 lr; have := h1 r
  simp only [Tree.above]
  rw [if_neg (by omega), if_neg (by omega), if_pos h, if_neg (by omega)]; omega

/-- The loop of `doGetMapNode` (umka_vm.c:1506-1531), started with `node = &root->right` after the
first iteration at the dummy root (key NULL, priority 0: descend right without rotation).
Returns the slot reached: the path to it and the subtree in it.  At each node: compare; on equality
stop; otherwise, if the child in that direction has a higher priority than the node (and the node's
priority is positive), rotate (`doRebalanceMapNodes`, umka_vm.c:1479-1496) and stay at the slot,
else descend. -/
def getNode {K V : Type} (cmp : K → K → Int) (key : K) :
    List (Frame K V) → Tree K V → List (Frame K V) × Tree K V
  | path, .nil => (path, .nil)
  | path, .node l k p v r =>
    if cmp key k > 0 then
      match r with
      | .nil => (.inRight l k p v :: path, .nil)
      | .node rl rk rp rv rr =>
        if p > 0 ∧ rp > p then
          getNode cmp key path (.node (.node l k p v rl) rk rp rv rr)
        else
          getNode cmp key (.inRight l k p v :: path) (.node rl rk rp rv rr)
    else if cmp key k < 0 then
      match l with
      | .nil => (.inLeft k p v r :: path, .nil)
      | .node ll lk lp lv lr =>
        if p > 0 ∧ lp > p then
          getNode cmp key path (.node ll lk lp lv (.node lr k p v r))
        else
          getNode cmp key (.inLeft k p v r :: path) (.node ll lk lp lv lr)
    else
      (path, .node l k p v r)
termination_by _ t => (t.size, t.above t.rootPrio)
decreasing_by
  · rename_i h
    exact Prod.Lex.right' _ (by simp only [Tree.size]; omega) (Tree.above_rotLeft h.2)
  · exact Prod.Lex.left _ _ (by simp only [Tree.size]; omega)
  · rename_i h
    exact Prod.Lex.right' _ (by simp only [Tree.size]; omega) (Tree.above_rotRight h.2)
  · exact Prod.Lex.left _ _ (by simp only [Tree.size]; omega)

/-- One iteration of the `while (*node)` loop of `doGetMapNode` (umka_vm.c:1506-1531), literally.
`.inl` is the next loop state, `.inr` the slot with which the loop is left. -/
def loopBody {K V : Type} (cmp : K → K → Int) (key : K) :
    List (Frame K V) × Tree K V → (List (Frame K V) × Tree K V) ⊕ (List (Frame K V) × Tree K V)
  | (path, .nil) => .inr (path, .nil)
  | (path, .node l k p v r) =>
    if cmp key k > 0 then
      match r with
      | .nil => .inl (.inRight l k p v :: path, .nil)
      | .node rl rk rp rv rr =>
        if p > 0 ∧ rp > p then .inl (path, .node (.node l k p v rl) rk rp rv rr)
        else .inl (.inRight l k p v :: path, .node rl rk rp rv rr)
    else if cmp key k < 0 then
      match l with
      | .nil => .inl (.inLeft k p v r :: path, .nil)
      | .node ll lk lp lv lr =>
        if p > 0 ∧ lp > p then .inl (path, .node ll lk lp lv (.node lr k p v r))
        else .inl (.inLeft k p v r :: path, .node ll lk lp lv lr)
    else .inr (path, .node l k p v r)

/-- The loop run for at most `fuel` iterations; `none` if it has not ended by then. -/
def loop {K V : Type} (cmp : K → K → Int) (key : K) :
    Nat → List (Frame K V) × Tree K V → Option (List (Frame K V) × Tree K V)
  | 0, _ => none
  | fuel + 1, s =>
    match loopBody cmp key s with
    | .inl s' => loop cmp key fuel s'
    | .inr s' => some s'

/-- Unlinks the in-order successor: the leftmost node of a non-empty right subtree
(umka_vm.c:2604-2609).  Returns its key, priority and item and the remaining subtree. -/
def unlinkMin {K V : Type} : Tree K V → Option ((K × Int × V) × Tree K V)
  | .nil => none
  | .node l k p v r =>
    match unlinkMin l with
    | none => some ((k, p, v), r)
    | some (s, l') => some (s, .node l' k p v r)

/-- What `doBuiltinDeleteMap` writes into the slot that held the deleted node
(umka_vm.c:2596-2617). -/
def removeRoot {K V : Type} : Tree K V → Tree K V
  | .nil => .nil
  | .node l _ _ _ r =>
    match l, r with
    | .nil, .nil => .nil
    | l, .nil => l
    | .nil, r => r
    | l, r =>
      match unlinkMin r with
      | none => l
      | some ((sk, sp, sv), r') => .node l sk sp sv r'

/-- `doGetMapKeysRecursively` (umka_vm.c:1596-1615): in-order traversal. -/
def Tree.keys {K V : Type} : Tree K V → List K
  | .nil => []
  | .node l k _ _ r => l.keys ++ [k] ++ r.keys

/-- Map operations visible to a program.  `prio` is the value `rand() + 1` drawn if the access
creates a node (umka_vm.c:3688). -/
inductive Op (K V : Type) where
  | make                              -- m = make(map[K]V)
  | set (k : K) (v : V) (prio : Int)  -- m[k] = v
  | get (k : K) (prio : Int)          -- x = m[k]
  | del (k : K)                       -- delete(m, k)
  | validKey (k : K)                  -- validkey(m, k)
  | hostGet (k : K)                   -- umkaGetMapItem(m, k)
  | len                               -- len(m)
  | keys                              -- keys(m)

/-- Observable results. `error` carries the run-time error message. -/
inductive Out (K V : Type) where
  | unit
  | val (v : V)
  | optVal (v : Option V)
  | bool (b : Bool)
  | int (n : Int)
  | list (ks : List K)
  | error (msg : String)
  deriving DecidableEq, Repr

/-- `doGetMapPtr` (umka_vm.c:3667-3704) followed by a store of `v` through the item pointer if
`store = some v`.  A null map is allocated first; a missing node is created in the slot with the
given priority and a zero item, and the length incremented.  Returns the item before the store. -/
def mapPtr {K V : Type} (cmp : K → K → Int) (zero : V) (m : MapVal K V) (k : K) (prio : Int)
    (store : Option V) : MapVal K V × V :=
  let root := m.getD { len := 0, right := .nil }
  match getNode cmp k [] root.right with
  | (path, .nil) =>
    (some { len := root.len + 1, right := plug path (.node .nil k prio (store.getD zero) .nil) }, zero)
  | (path, .node l k' p v r) =>
    (some { root with right := plug path (.node l k' p (store.getD v) r) }, v)

/-- One map operation.  `del`: `doBuiltinDeleteMap` (umka_vm.c:2581-2630); `validKey`:
`doBuiltinValidKey` (umka_vm.c:3007-3024); `hostGet`: `vmGetMapNodeData` (umka_vm.c:4351-4358); `len`:
`doBuiltinLen` (umka_vm.c:2840-2873); `keys`: `doBuiltinKeys`, `doGetMapKeys`
(umka_vm.c:1618-1624, 3028-3050).  Lookups rebalance the tree, so they also return a new state. -/
def step {K V : Type} (cmp : K → K → Int) (zero : V) (m : MapVal K V) :
    Op K V → MapVal K V × Out K V
  | .make => (some { len := 0, right := .nil }, .unit)
  | .set k v prio => ((mapPtr cmp zero m k prio (some v)).1, .unit)
  | .get k prio => let r := mapPtr cmp zero m k prio none; (r.1, .val r.2)
  | .del k =>
    match m with
    | none => (none, .error "Map is null")
    | some root =>
      match getNode cmp k [] root.right with
      | (path, .nil) => (some { root with right := plug path .nil }, .unit)
      | (path, t) =>
        let root' : Root K V := { len := root.len - 1, right := plug path (removeRoot t) }
        (some root', if root.len - 1 < 0 then .error "Map length is negative" else .unit)
  | .validKey k =>
    match m with
    | none => (none, .bool false)
    | some root =>
      match getNode cmp k [] root.right with
      | (path, .nil) => (some { root with right := plug path .nil }, .bool false)
      | (path, t) => (some { root with right := plug path t }, .bool true)
  | .hostGet k =>
    match m with
    | none => (none, .optVal none)
    | some root =>
      match getNode cmp k [] root.right with
      | (path, .nil) => (some { root with right := plug path .nil }, .optVal none)
      | (path, .node l k' p v r) =>
        (some { root with right := plug path (.node l k' p v r) }, .optVal (some v))
  | .len => (m, .int (match m with | none => 0 | some root => root.len))
  | .keys =>
    match m with
    | none => (none, .list [])
    | some root =>
      let ks := root.right.keys
      (m, if (ks.length : Int) = root.len then .list ks else .error "Wrong number of map keys")

/-- A whole history, starting from some map value; the outputs in order. -/
def run {K V : Type} (cmp : K → K → Int) (zero : V) : MapVal K V → List (Op K V) → List (Out K V)
  | _, [] => []
  | m, op :: ops => let r := step cmp zero m op; r.2 :: run cmp zero r.1 ops

end Umka.Map
