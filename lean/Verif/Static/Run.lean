import Verif.Static.Model
/-!
# Static storage: running programs

What a program can do with its variables, with the parameters that got default values, and with empty variadic lists.  The program works with the blocks that the
compiler filled (`genPushGlobalPtr`, `/repo/src/umka_gen.c`), and allocates more.

Simplifications: the heap and the stack are blocks that are never freed or reused (`Verif/Heap`, `Verif/RefCnt`, `Verif/Frame`); an operation gets its operands from
places and puts its result in a place (`Verif/Expr`); memory that does not have the contents its type asks for stops the program.
-/

namespace Umka.Static

deriving instance DecidableEq for Ty, Fields

/-- Memory and the places the program has access to: the type, the block and the offset of each. -/
structure Machine where
  mem : Mem
  places : List (Ty × Nat × Nat)

/-- The program starts with its global variables. -/
def start (st : State) : Machine := ⟨st.mem, st.globals.map fun g => (g.1, g.2, 0)⟩

/-- Operations; `x`, `y` and `z` are numbers of places. -/
inductive Op
  /-- A call without an argument for a parameter that has the default value `i` -/
  | call (i : Nat)
  /-- `var y: T` -/
  | new (ty : Ty)
  /-- `x[k]`, or the field number `k` of `x` -/
  | select (x k : Nat)
  /-- `y = x` -/
  | copy (x y : Nat)
  /-- `y = v` -/
  | num (y : Nat) (v : Int)
  /-- `y = sprintf(...)` and other strings made at run time -/
  | text (y : Nat) (s : List Nat)
  /-- `y += x` for strings -/
  | concat (y x : Nat)
  /-- `y = append(x, z)` -/
  | append (x z y : Nat)
  /-- `y = delete(x, k)` -/
  | delete (x k y : Nat)

/-- The type and the offset of the field number `k` (`doGetFieldPtr`). -/
def Fields.place : Fields → (k off : Nat) → Option (Ty × Nat)
  | .nil, _, _ => none
  | .cons _ ty _, 0, off => some (ty, off)
  | .cons _ ty rest, k + 1, off => rest.place k (off + ty.size)

/-- `getDims`: the data of a dynamic array (`umka_common.h:150-160`). -/
def dataOf (mem : Mem) (b off : Nat) : Option (Option (Nat × Block)) :=
  match peek mem b off 3 with
  | [_, _, .ptr d 0] => match mem[d]? with
    | some blk => if blk.use = .items then some (some (d, blk)) else none
    | none => none
  | [_, _, .int 0] => some none
  | _ => none

/-- `getStrDims`: the block of a string (`umka_common.h:140-150`); the null pointer is the empty string (`doGetEmptyStr`, `umka_vm.c:1424-1436`). -/
def strOf (mem : Mem) (b off : Nat) : Option (Option (Nat × Block)) :=
  match peek mem b off 1 with
  | [.ptr d 0] => match mem[d]? with
    | some blk => if blk.use = .text then some (some (d, blk)) else none
    | none => none
  | [.int 0] => some none
  | _ => none

/-- `doAllocStr` and the bytes of the string (`umka_vm.c:1406-1421`). -/
def allocStr (mem : Mem) (s : List Word) : Mem × Nat :=
  (mem ++ [⟨.text, s.length, 2 * (s.length + 1), s ++ List.replicate (s.length + 2) (.int 0)⟩], mem.length)

/-- `doAllocDynArray` and the items (`umka_vm.c:1440-1459`). -/
def allocItems (mem : Mem) (len size : Nat) (ws : List Word) : Mem × Nat :=
  (mem ++ [⟨.items, len, 2 * (len + 1), ws ++ List.replicate ((len + 2) * size) (.int 0)⟩], mem.length)

/-- An array header. -/
def header (size d : Nat) : List Word := [.int 1, .int size, .ptr d 0]

/-- `getStrDims(buf)->len = lhsLen + rhsLen` and the bytes, or `getDims(result)->len = newLen` and the items, in place. -/
def extend (mem : Mem) (d : Nat) (blk : Block) (len off : Nat) (ws : List Word) : Mem :=
  mem.set d { blk with len := len, words := splice blk.words off ws }

def strLen : Option (Nat × Block) → Nat
  | some (_, blk) => blk.len
  | none => 0

def strWords : Option (Nat × Block) → List Word
  | some (_, blk) => blk.words.take blk.len
  | none => []

/-- `doBinary` with `TOK_PLUSEQ` (`umka_vm.c:3441-3467`) and the assignment: the string `l` at a place, and `n` bytes `ws`. -/
def concatTo (m : Machine) (b off : Nat) (l : Option (Nat × Block)) (n : Nat) (ws : List Word) : Machine :=
  match l with
  | some (d, blk) =>
    if blk.len + n + 1 ≤ blk.cap then { m with mem := extend m.mem d blk (blk.len + n) blk.len (ws ++ [.int 0]) }
    else
      let (mem, e) := allocStr m.mem (blk.words.take blk.len ++ ws)
      { m with mem := poke mem b off [.ptr e 0] }
  | none =>
    if n = 0 then m
    else
      let (mem, e) := allocStr m.mem ws
      { m with mem := poke mem b off [.ptr e 0] }

/-- One operation; `none` if the program stops with an error. -/
def step (defaults : List (Ty × Word)) (m : Machine) : Op → Option Machine
  /- `doPushConst` (`umka_expr.c:15-29`), `doPassParam` (`umka_expr.c:109-116`) and `doAssignParam` (`umka_vm.c:3227-3250`): the parameter is a copy -/
  | .call i => match defaults[i]? with
    | some (ty, w) =>
      let ws := match ty.structured, w with
        | true, .ptr b off => peek m.mem b off ty.size
        | _, w => [w]
      some ⟨m.mem ++ [⟨.plain, 0, 0, ws⟩], m.places ++ [(ty, m.mem.length, 0)]⟩
    | none => none
  | .new ty => some ⟨(storageAdd m.mem ty.size).1, m.places ++ [(ty, m.mem.length, 0)]⟩
  /- `doGetArrayPtr`, `doGetDynArrayPtr`, `doGetFieldPtr` (`umka_vm.c:3611-3730`) -/
  | .select x k => match m.places[x]? with
    | some (.array n base, b, off) => if k < n then some { m with places := m.places ++ [(base, b, off + k * base.size)] } else none
    | some (.struct fs, b, off) => (fs.place k off).map fun p => { m with places := m.places ++ [(p.1, b, p.2)] }
    | some (.dyn base, b, off) => match dataOf m.mem b off with
      | some (some (d, blk)) => if k < blk.len then some { m with places := m.places ++ [(base, d, k * base.size)] } else none
      | _ => none
    | _ => none
  /- `doAssign` (`umka_vm.c:3206-3225`) -/
  | .copy x y => match m.places[x]?, m.places[y]? with
    | some (ty, b, off), some (ty', b', off') => if ty = ty' then some { m with mem := poke m.mem b' off' (peek m.mem b off ty.size) } else none
    | _, _ => none
  | .num y v => match m.places[y]? with
    | some (.int k, b, off) => if k.min ≤ v ∧ v ≤ k.max then some { m with mem := poke m.mem b off [.int v] } else none
    | some (.char, b, off) => if 0 ≤ v ∧ v ≤ 255 then some { m with mem := poke m.mem b off [.int v] } else none
    | _ => none
  | .text y s => match m.places[y]? with
    | some (.str, b, off) =>
      let (mem, d) := allocStr m.mem (s.map fun (c : Nat) => .int c)
      some { m with mem := poke mem b off [.ptr d 0] }
    | _ => none
  | .concat y x => match m.places[y]?, m.places[x]? with
    | some (.str, b, off), some (.str, b', off') => match strOf m.mem b off, strOf m.mem b' off' with
      | some l, some r => some (concatTo m b off l (strLen r) (strWords r))
      | _, _ => none
    | _, _ => none
  /- `doBuiltinAppend` (`umka_vm.c:2439-2500`) -/
  | .append x z y => match m.places[x]?, m.places[z]?, m.places[y]? with
    | some (.dyn base, b, off), some (item, b₁, off₁), some (.dyn base', b', off') =>
      if item = base ∧ base' = base then
        let ws := peek m.mem b₁ off₁ base.size
        match dataOf m.mem b off with
        | some (some (d, blk)) =>
          if blk.len + 1 ≤ blk.cap then
            some { m with mem := poke (extend m.mem d blk (blk.len + 1) (blk.len * base.size) ws) b' off' (header base.size d) }
          else
            let (mem, e) := allocItems m.mem (blk.len + 1) base.size (blk.words.take (blk.len * base.size) ++ ws)
            some { m with mem := poke mem b' off' (header base.size e) }
        | some none =>
          let (mem, e) := allocItems m.mem 1 base.size ws
          some { m with mem := poke mem b' off' (header base.size e) }
        | none => none
      else none
    | _, _, _ => none
  /- `doBuiltinDeleteDynArray` (`umka_vm.c:2553-2580`) -/
  | .delete x k y => match m.places[x]?, m.places[y]? with
    | some (.dyn base, b, off), some (.dyn base', b', off') =>
      if base' = base then
        match dataOf m.mem b off with
        | some (some (d, blk)) =>
          if k < blk.len then
            let rest := slice blk.words ((k + 1) * base.size) ((blk.len - k - 1) * base.size)
            some { m with mem := poke (extend m.mem d blk (blk.len - 1) (k * base.size) rest) b' off' (header base.size d) }
          else none
        | _ => none
      else none
    | _, _ => none

def run (defaults : List (Ty × Word)) : List Op → Machine → Option Machine
  | [], m => some m
  | o :: os, m => (step defaults m o).bind (run defaults os)

end Umka.Static
