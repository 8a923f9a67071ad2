import Verif.Static.Model
/-!
# Static storage: specification

The values of types, how they are found in memory, and what declarations mean.  Nothing here mentions how the compiler fills memory.
-/

namespace Umka.Static.Spec
open Umka.Static

/-- Values: integers and characters, strings, and the items of arrays, dynamic arrays and structures. -/
inductive Val
  | num (v : Int)
  | text (s : List Nat)
  | list (vs : List Val)

mutual

/-- The value that consists of zeros. -/
def zero : Ty → Val
  | .int _ => .num 0
  | .char => .num 0
  | .str => .text []
  | .array n base => .list (List.replicate n (zero base))
  | .dyn _ => .list []
  | .struct fs => .list (zeroFields fs)

def zeroFields : Fields → List Val
  | .nil => []
  | .cons _ ty rest => zero ty :: zeroFields rest

end

/-! ## Values in memory -/

/-- A character in a string. -/
def charOf : Word → Option Nat
  | .int v => if 0 ≤ v then some v.toNat else none
  | .ptr _ _ => none

mutual

/-- The value of a variable of the type `ty` that consists of the words `ws`.  Strings and dynamic arrays point to their data. -/
def read (mem : Mem) : (ty : Ty) → (ws : List Word) → Option Val
  | .int _, ws => match ws with
    | [.int v] => some (.num v)
    | _ => none
  | .char, ws => match ws with
    | [.int v] => some (.num v)
    | _ => none
  | .str, ws => match ws with
    | [.int 0] => some (.text [])
    | [.ptr b 0] => match mem[b]? with
      | some blk => if blk.use = .text then ((blk.words.take blk.len).mapM charOf).map .text else none
      | none => none
    | _ => none
  | .array n base, ws => ((List.range n).mapM fun i => read mem base (slice ws (i * base.size) base.size)).map .list
  | .dyn base, ws => match ws with
    | [_, _, .int 0] => some (.list [])
    | [_, .int size, .ptr b 0] => match mem[b]? with
      | some blk =>
        if blk.use = .items ∧ size = base.size then
          ((List.range blk.len).mapM fun i => read mem base (slice blk.words (i * base.size) base.size)).map .list
        else none
      | none => none
    | _ => none
  | .struct fs, ws => (readFields mem fs ws 0).map .list

/-- The values of fields that start at `off`. -/
def readFields (mem : Mem) : (fs : Fields) → (ws : List Word) → (off : Nat) → Option (List Val)
  | .nil, _, _ => some []
  | .cons _ ty rest, ws, off => do
    let v ← read mem ty (slice ws off ty.size)
    let vs ← readFields mem rest ws (off + ty.size)
    return v :: vs

end

/-- The words of a constant: a structured one is a pointer to its words. -/
def wordsOf (mem : Mem) (ty : Ty) (w : Word) : List Word :=
  if ty.structured then
    match w with
    | .ptr b off => peek mem b off ty.size
    | .int _ => []
  else [w]

/-- The value of a global variable. -/
def valueOf (mem : Mem) (g : Ty × Nat) : Option Val := read mem g.1 (peek mem g.2 0 g.1.size)

/-- The value of a constant. -/
def constOf (mem : Mem) (c : Ty × Word) : Option Val := read mem c.1 (wordsOf mem c.1 c.2)

/-! ## The meaning of expressions and declarations -/

mutual

/-- The names of the fields of a structure differ. -/
def WF : Ty → Prop
  | .array _ base => WF base
  | .dyn base => WF base
  | .struct fs => WFFields fs
  | _ => True

def WFFields : Fields → Prop
  | .nil => True
  | .cons name ty rest => name ∉ names rest ∧ WF ty ∧ WFFields rest

def names : Fields → List String
  | .nil => []
  | .cons name _ rest => name :: names rest

end

/-- An integer where an integer type is expected. -/
def asInt (k : IntKind) (v : Int) : Option Val := if k.min ≤ v ∧ v ≤ k.max then some (.num v) else none

/-- A character as a string. -/
def asText (c : Nat) : Val := .text (if c = 0 then [] else [c])

/-- A constant where a value of some type is expected. -/
def denoteConst (ty : Ty) (c : CTy) (v : Val) : Option Val :=
  match ty, c, v with
  | .int k, .int _, .num v => asInt k v
  | .char, .char, v => some v
  | .str, .str, v => some v
  | .str, .char, .num v => some (asText v.toNat)
  | .dyn .char, .str, .text s => some (.list (s.map fun (c : Nat) => .num c))
  | _, _, _ => none

mutual

/-- The value of an expression where a value of the type `ty` is expected; `none` if it is refused. -/
def denote (consts : List (CTy × Val)) : (ty : Ty) → Expr → Option Val
  | ty, .const i => match consts[i]? with
    | some (c, v) => denoteConst ty c v
    | none => none
  | .int k, .num v => asInt k v
  | .char, .chr c => some (.num c.val)
  | .str, .str s => some (.text (s.map Fin.val))
  | .str, .chr c => some (asText c.val)
  | .dyn .char, .str s => some (.list (s.map fun c => .num c.val))
  | .array n base, .comp items => if items.length = n then (items.mapM fun e => denote consts base e).map .list else none
  | .dyn base, .comp items => (items.mapM fun e => denote consts base e).map .list
  | .struct fs, .comp items => if items = [] then some (.list (zeroFields fs)) else (denoteFields consts fs items).map .list
  | .struct fs, .named items =>
    if (items.map Prod.fst).Nodup ∧ ∀ f ∈ items.map Prod.fst, f ∈ names fs then (denoteNamed consts fs items).map .list else none
  | _, _ => none

/-- As many items as fields. -/
def denoteFields (consts : List (CTy × Val)) : Fields → List Expr → Option (List Val)
  | .nil, [] => some []
  | .cons _ ty rest, e :: es => do
    let v ← denote consts ty e
    let vs ← denoteFields consts rest es
    return v :: vs
  | _, _ => none

/-- Fields that are not mentioned are zero. -/
def denoteNamed (consts : List (CTy × Val)) : Fields → List (String × Expr) → Option (List Val)
  | .nil, _ => some []
  | .cons name ty rest, items => do
    let v ← match items.lookup name with
      | some e => denote consts ty e
      | none => some (zero ty)
    let vs ← denoteNamed consts rest items
    return v :: vs

end

/-- What has been declared: types and values. -/
structure Decls where
  globals : List (Ty × Val)
  consts : List (CTy × Val)
  defaults : List (Ty × Val)

/-- The types in a declaration. -/
def Decl.types : Decl → List Ty
  | .vars ty _ => [ty]
  | .var ty _ => [ty]
  | .varList ty _ _ => [ty]
  | .short ty _ => [ty]
  | .shortList es => es.map Prod.fst
  | .const _ _ => []
  | .default ty _ => [ty]
  | .emptyList base => [base]

/-- The meaning of a declaration; `none` if it is refused. -/
def meaning (s : Decls) : Decl → Option Decls
  | .vars ty n => some { s with globals := s.globals ++ List.replicate n (ty, zero ty) }
  | .var ty e => (denote s.consts ty e).map fun v => { s with globals := s.globals ++ [(ty, v)] }
  | .varList ty n es =>
    if es.length = n then (es.mapM fun e => denote s.consts ty e).map fun vs => { s with globals := s.globals ++ vs.map fun v => (ty, v) } else none
  | .short ty e => (denote s.consts ty e).map fun v => { s with globals := s.globals ++ [(ty, v)] }
  | .shortList es => (es.mapM fun x => (denote s.consts x.1 x.2).map fun v => (x.1, v)).map fun vs => { s with globals := s.globals ++ vs }
  | .const ty e => (denote s.consts ty.ty e).map fun v => { s with consts := s.consts ++ [(ty, v)] }
  | .default ty e => (denote s.consts ty e).map fun v => { s with defaults := s.defaults ++ [(ty, v)] }
  | .emptyList base => some { s with defaults := s.defaults ++ [(.dyn base, .list [])] }

def program : List Decl → Decls → Option Decls
  | [], s => some s
  | d :: ds, s => (meaning s d).bind (program ds)

/-- Memory holds the declared values. -/
structure Holds (st : State) (s : Decls) : Prop where
  globals : st.globals.map (fun g => (g.1, valueOf st.mem g)) = s.globals.map fun g => (g.1, some g.2)
  consts : st.consts.map (fun c => (c.1, constOf st.mem (c.1.ty, c.2))) = s.consts.map fun c => (c.1, some c.2)
  defaults : st.defaults.map (fun c => (c.1, constOf st.mem c)) = s.defaults.map fun c => (c.1, some c.2)

/-! ## Running -/

mutual

/-- Values of the type do not refer to data that can be changed. -/
def Fixed : Ty → Prop
  | .array _ base => Fixed base
  | .dyn _ => False
  | .struct fs => FixedFields fs
  | _ => True

def FixedFields : Fields → Prop
  | .nil => True
  | .cons _ ty rest => Fixed ty ∧ FixedFields rest

end

mutual

/-- The blocks with the items of the dynamic arrays in a value, and in their items. -/
def arrays (mem : Mem) : Ty → List Word → List Nat
  | .array n base, ws => (List.range n).flatMap fun i => arrays mem base (slice ws (i * base.size) base.size)
  | .dyn base, [_, _, .ptr b 0] => b :: match mem[b]? with
    | some blk => (List.range blk.len).flatMap fun i => arrays mem base (slice blk.words (i * base.size) base.size)
    | none => []
  | .struct fs, ws => arraysFields mem fs ws 0
  | _, _ => []

def arraysFields (mem : Mem) : Fields → List Word → Nat → List Nat
  | .nil, _, _ => []
  | .cons _ ty rest, ws, off => arrays mem ty (slice ws off ty.size) ++ arraysFields mem rest ws (off + ty.size)

end

/-- The blocks of a variable: its own and those of its dynamic arrays. -/
def blocks (mem : Mem) (g : Ty × Nat) : List Nat := g.2 :: arrays mem g.1 (peek mem g.2 0 g.1.size)

end Umka.Static.Spec
