import Verif.Desig.Model

/-!
# Designators and assignments: specification

A designator denotes a place (a variable, an item, a field: an address and a type) or a value.  Selectors are applied from left to right, each to what
the selectors before it denote.
-/

namespace Umka.Desig.Spec

variable {σ : Type}

/-! ## Types -/

/-- What a designator is, statically. -/
inductive Cat
  | place (t : Ty)
  | value (t : Ty)

def Cat.ty : Cat → Ty
  | .place t => t
  | .value t => t

/-- Variables are places.  Results of calls, casts and literals of structured types are places, too (temporary ones); constants and results of
built-in functions are values. -/
def baseCat : Base σ → Cat
  | .var _ t => .place t
  | .value .const _ t => .value t
  | .value .builtin _ t => .value t
  | .value _ _ t => if t.structured then .place t else .value t

/-- A pointer that can be dereferenced. -/
def pointee : Ty → Option Ty
  | .ptr .void | .ptr .null | .weak .void | .weak .null => none
  | .ptr b => some b
  | .weak b => some b
  | _ => none

/-- Items and fields are selected from a collection or structure, or from a pointer to one. -/
def through : Ty → Ty
  | .ptr b => b
  | .weak b => b
  | t => t

/-- The item of a collection. -/
def itemCat : Ty → Option Cat
  | .array _ t => some (.place t)
  | .dynArray t => some (.place t)
  | .map _ t => some (.place t)
  | .str => some (.value (.scalar .char))
  | _ => none

def fieldCat (x : Nat) : Ty → Option Cat
  | .struct fs => (fs.find x).map fun q => .place q.2
  | _ => none

def selCat (c : Cat) : Sel σ → Option Cat
  | .deref => (pointee c.ty).map .place
  | .index _ => itemCat (through c.ty)
  | .field x => fieldCat x (through c.ty)

def selsCat (c : Cat) : List (Sel σ) → Option Cat
  | [] => some c
  | s :: ss => (selCat c s).bind fun c => selsCat c ss

/-- The category and the type of a designator, if it has one. -/
def cat (d : Designator σ) : Option Cat := selsCat (baseCat d.base) d.sels

/-- The two cases where the compiler treats a pointer that is not stored in a variable differently from one that is: items and fields of a weak pointer,
or of a pointer to a pointer. -/
def odd : Cat → Sel σ → Bool
  | .value (.weak _), .index _ => true
  | .value (.weak _), .field _ => true
  | .value (.ptr (.ptr _)), .index _ => true
  | .value (.ptr (.ptr _)), .field _ => true
  | .value (.ptr (.weak _)), .index _ => true
  | .value (.ptr (.weak _)), .field _ => true
  | _, _ => false

def selsEven (c : Cat) : List (Sel σ) → Prop
  | [] => True
  | s :: ss => odd c s = false ∧ ∀ c', selCat c s = some c' → selsEven c' ss

/-- No selector of the designator is one of these cases. -/
def Even (d : Designator σ) : Prop := selsEven (baseCat d.base) d.sels

/-! ## Evaluation -/

/-- What a designator denotes at run time. -/
inductive Den
  | place (p : Int) (t : Ty)
  | value (v : Int) (t : Ty)

def Den.cat : Den → Cat
  | .place _ t => .place t
  | .value _ t => .value t

/-- The address or the value. -/
def Den.slot : Den → Int
  | .place p _ => p
  | .value v _ => v

def baseDen : Base σ → World σ → Res (World σ × Den)
  | .var a t, w => .ok (w, .place a t)
  | .value .const c t, w => (c w).map fun q => (q.1, .value q.2 t)
  | .value .builtin c t, w => (c w).map fun q => (q.1, .value q.2 t)
  | .value _ c t, w => (c w).map fun q => (q.1, if t.structured then .place q.2 t else .value q.2 t)

/-- The value stored at a place. -/
def load (w : World σ) (p : Int) : Res Int := if p = 0 then .error .nullPtr else .ok (w.mem p)

/-- The place a pointer points to.  A weak pointer is null if its target no longer exists. -/
def follow (ops : Ops σ) (w : World σ) : Den → Res Den
  | .place p (.ptr b) => (load w p).map fun v => .place v b
  | .place p (.weak b) => (load w p).bind fun v => (ops.strengthen w v).map fun v => .place v b
  | .value v (.ptr b) => .ok (.place v b)
  | .value v (.weak b) => (ops.strengthen w v).map fun v => .place v b
  | d => .ok d

/-- A string is taken out of its place before the index is evaluated. -/
def fetch (w : World σ) : Den → Res Den
  | .place p .str => (load w p).map fun v => .value v .str
  | d => .ok d

/-- Item `i` of a collection.  (The size of the items of a dynamic array is recorded in it; nothing is said if it is not that of its type.) -/
def item (ops : Ops σ) (w : World σ) (i : Int) : Ty → Int → Res (World σ × Den)
  | .array n t, p =>
    if p = 0 then .error .nullArray
    else if 0 ≤ i ∧ i < n then .ok (w, .place (p + t.size * i) t)
    else .error (.range i (n - 1))
  | .dynArray t, p =>
    if p = 0 then .error .nullDynArray
    else if w.mem (p + 2) = 0 then .error .nullDynArray
    else if w.mem (p + 1) ≠ t.size then .crash
    else if 0 ≤ i ∧ i < w.mem (w.mem (p + 2) - 2) then .ok (w, .place (w.mem (p + 2) + t.size * i) t)
    else .error (.range i (w.mem (w.mem (p + 2) - 2) - 1))
  | .map k t, p => if p = 0 then .error .nullMap else (ops.mapItem k t w p i).map fun q => (q.1, .place q.2 t)
  | .str, s =>
    let n := if s = 0 then 0 else w.mem (s - 2)
    if 0 ≤ i ∧ i < n then (load w (s + i)).map fun v => (w, .value v (.scalar .char)) else .error (.range i (n - 1))
  | _, _ => .crash

def field (x : Nat) : Ty → Int → Res Den
  | .struct fs, p =>
    if p = 0 then .error .nullStruct
    else match fs.find x with
      | some q => .ok (.place (p + q.1) q.2)
      | none => .crash
  | _, _ => .crash

def selDen (ops : Ops σ) (w : World σ) (d : Den) : Sel σ → Res (World σ × Den)
  | .deref => (follow ops w d).map fun d => (w, d)
  | .index e =>
    (follow ops w d).bind fun d => (fetch w d).bind fun d => (e w).bind fun q => item ops q.1 q.2 d.cat.ty d.slot
  | .field x => (follow ops w d).bind fun d => (field x d.cat.ty d.slot).map fun d => (w, d)

def selsDen (ops : Ops σ) (w : World σ) (d : Den) : List (Sel σ) → Res (World σ × Den)
  | [] => .ok (w, d)
  | s :: ss => (selDen ops w d s).bind fun q => selsDen ops q.1 q.2 ss

/-- What a designator denotes. -/
def den (ops : Ops σ) (d : Designator σ) (w : World σ) : Res (World σ × Den) :=
  (baseDen d.base w).bind fun q => selsDen ops q.1 q.2 d.sels

/-- The value of a designator in an expression: what is stored at the place; structured values are represented by their address. -/
def valueOf (w : World σ) : Den → Res Int
  | .place p t => if p = 0 then .error .nullPtr else .ok (if t.structured then p else w.mem p)
  | .value v _ => .ok v

/-- The words of a value of type `t` that the slot `v` stands for. -/
def word (w : World σ) (t : Ty) (v : Int) (i : Nat) : Int := if t.structured then w.mem (v + i) else v

/-- Types that variables can have. -/
def storable : Ty → Bool
  | .void | .null => false
  | _ => true

/-- `w'` is `w` with the value `v` of type `t` at address `p`. -/
structure Stored (w w' : World σ) (p : Int) (t : Ty) (v : Int) : Prop where
  value : ∀ i : Nat, i < t.size → w'.mem (p + i) = word w t v i
  frame : ∀ a, ¬ (p ≤ a ∧ a < p + t.size) → w'.mem a = w.mem a
  rest : w'.rest = w.rest

/-- The last selector is `^`. -/
def endsWithDeref (d : Designator σ) : Bool :=
  match d.sels.getLast? with
  | some .deref => true
  | _ => false

/-- The statement has something to assign to: a place, and not just the call of a function or a composite literal. -/
def Assignable (d : Designator σ) : Prop :=
  (∃ t, cat d = some (.place t)) ∧ (d.sels ≠ [] ∨ match d.base with | .value .call .. | .value .literal .. => False | _ => True)

/-- The expression `d op e`, with a designator `d` of type `t`. -/
def operation (ops : Ops σ) (d : Designator σ) (t : Ty) (op : Nat) (e : Code σ) : Code σ := fun w =>
  (den ops d w).bind fun q => (valueOf q.1 q.2).bind fun l => (e q.1).bind fun r => ops.binary op t r.1 l r.2

/-! ## Paths inside a variable -/

/-- A path of fields and constant indices. -/
inductive Step
  | field (x : Nat)
  | item (i : Nat)
  deriving DecidableEq

def Step.sel : Step → Sel σ
  | .field x => .field x
  | .item i => .index fun w => .ok (w, i)

/-- The variable at `a` of type `t`, and the fields and items on the path. -/
def path (a : Int) (t : Ty) (ps : List Step) : Designator σ := ⟨.var a t, ps.map Step.sel⟩

/-- Two paths that part: after a common beginning, they go on with different fields or items. -/
def Part : List Step → List Step → Prop
  | s :: ss, s' :: ss' => s ≠ s' ∨ Part ss ss'
  | _, _ => False

/-- Fixed paths: only fields of structures and items of arrays that exist. -/
def Fixed : Ty → List Step → Prop
  | _, [] => True
  | .struct fs, .field x :: ss => ∃ q, fs.find x = some q ∧ Fixed q.2 ss
  | .array n t, .item i :: ss => i < n ∧ Fixed t ss
  | _, _ => False

end Umka.Desig.Spec
