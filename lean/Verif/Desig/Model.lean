/-!
# Designators and assignments: model

What `parseDesignator` and `parseSelectors` (`/repo/src/umka_expr.c:2415-2717`) accept and generate, how `parseFactor` reads a designator or takes its
address (`umka_expr.c:2764-2905`), and the statements `d = e`, `d op= e`, `d++` (`/repo/src/umka_stmt.c:195-217`, `289-312`, `420-480`), with the
instructions they consist of.

Memory is a function from addresses to words; address 0 is null.  A scalar takes one word.  On the stack a structured value is represented by its
address.  Everything else that programs can change is an arbitrary type `σ`.

Simplifications: words instead of bytes (`Verif/Layout` has sizes and alignment); no reference counts (`Verif/RefCnt`); methods, members of
interfaces and call selectors are not selectors here: whatever comes before and including the last call of a designator is opaque code (`Verif/Call`,
`Verif/Iface`); the types of index expressions and right sides are not checked (`Verif/Types`, `Verif/Expr`); `doCheckStr` always succeeds.
-/

namespace Umka.Desig

/-- Kinds of scalars (`/repo/src/umka_types.h:14-46`). -/
inductive Kind
  | int8 | int16 | int32 | int | uint8 | uint16 | uint32 | uint | bool | char | real32 | real
  deriving DecidableEq, Repr

/-- `typeInteger` (`umka_types.h:237-251`). -/
def Kind.isInteger : Kind → Bool
  | .int8 | .int16 | .int32 | .int | .uint8 | .uint16 | .uint32 | .uint => true
  | _ => false

mutual
/-- Types.  `other n` is an interface or a closure: structured, but without items and fields. -/
inductive Ty
  | scalar (kind : Kind)
  | str
  | void
  | null
  | ptr (base : Ty)
  | weak (base : Ty)
  | array (len : Nat) (item : Ty)
  | dynArray (item : Ty)
  | map (key item : Ty)
  | struct (fields : Fields)
  | other (size : Nat)

/-- Fields of a structure.  Names are numbers. -/
inductive Fields
  | nil
  | cons (name : Nat) (type : Ty) (rest : Fields)
end

/-- `typeStructured` (`umka_types.h:300-304`). -/
def Ty.structured : Ty → Bool
  | .array .. | .dynArray _ | .map .. | .struct _ | .other _ => true
  | _ => false

mutual
/-- `typeSize` (`umka_types.c`), in words: `DynArray` has three words and `Map` two (`umka_vm.h`). -/
def Ty.size : Ty → Nat
  | .scalar _ | .str | .void | .null | .ptr _ | .weak _ => 1
  | .array n t => n * t.size
  | .dynArray _ => 3
  | .map .. => 2
  | .struct fs => fs.size
  | .other n => n

def Fields.size : Fields → Nat
  | .nil => 0
  | .cons _ t r => t.size + r.size
end

/-- `typeFindField` (`umka_types.c`): the offset and the type of a field. -/
def Fields.find : Fields → Nat → Option (Nat × Ty)
  | .nil, _ => none
  | .cons n t r, x => if n = x then some (0, t) else (r.find x).map fun q => (t.size + q.1, q.2)

/-- Errors at run time. -/
inductive Err
  | nullPtr
  | nullArray
  | nullDynArray
  | nullMap
  | nullStruct
  | range (index last : Int)
  | overflow
  | illegalType
  | user (n : Nat)
  deriving DecidableEq, Repr

/-- How an execution ends: with a result, with an error message, or with undefined behaviour. -/
inductive Res (α : Type)
  | ok (a : α)
  | error (e : Err)
  | crash

def Res.bind {α β : Type} (r : Res α) (f : α → Res β) : Res β :=
  match r with
  | .ok a => f a
  | .error e => .error e
  | .crash => .crash

def Res.map {α β : Type} (f : α → β) (r : Res α) : Res β := r.bind fun a => .ok (f a)

structure World (σ : Type) where
  mem : Int → Int
  rest : σ

/-- Code of the program that pushes one slot. -/
abbrev Code (σ : Type) := World σ → Res (World σ × Int)

/-- What is modelled elsewhere: `doStrengthenPtr` (`umka_vm.c:3778-3805`; `Verif/Heap`), `doGetMapPtr` for a map that is not null
(`umka_vm.c:3667-3705`; `Verif/Map`, `Verif/MapHeap`), `typeOverflow`, binary operators, the value that `++`/`--` store (`Verif/Arith`). -/
structure Ops (σ : Type) where
  strengthen : World σ → Int → Res Int
  mapItem : Ty → Ty → World σ → Int → Int → Res (World σ × Int)
  fits : Kind → Int → Bool
  binary : Nat → Ty → World σ → Int → Int → Res (World σ × Int)
  incDec : Bool → Kind → Int → Int

inductive Instr (σ : Type)
  | pushAddr (a : Int)
  | user (c : Code σ)
  | deref (t : Ty)
  | strengthen
  | getArray (size : Nat) (len : Int)
  | getDyn
  | getMap (key item : Ty)
  | getField (off : Nat)
  | dup
  | binary (op : Nat) (t : Ty)
  | incDec (inc : Bool) (k : Kind)
  | assign (t : Ty)

structure M (σ : Type) where
  w : World σ
  stack : List Int

/-- `doDerefImpl` (`umka_vm.c:977-1016`). -/
def derefSlot {σ : Type} (w : World σ) (t : Ty) (p : Int) : Res Int :=
  if p = 0 then .error .nullPtr
  else match t with
    | .scalar _ | .str | .ptr _ | .weak _ => .ok (w.mem p)
    | .array .. | .dynArray _ | .map .. | .struct _ | .other _ => .ok p
    | .void | .null => .error .illegalType

/-- One word is stored. -/
def poke {σ : Type} (w : World σ) (p v : Int) : World σ := { w with mem := fun a => if a = p then v else w.mem a }

/-- `memcpy`. -/
def copy {σ : Type} (w : World σ) (p q : Int) (n : Nat) : World σ :=
  { w with mem := fun a => if p ≤ a ∧ a < p + n then w.mem (q + (a - p)) else w.mem a }

/-- `doAssignImpl` (`umka_vm.c:1018-1066`). -/
def assignSlot {σ : Type} (ops : Ops σ) (w : World σ) (t : Ty) (p v : Int) : Res (World σ) :=
  if p = 0 then .error .nullPtr
  else match t with
    | .scalar k => if ops.fits k v then .ok (poke w p v) else .error .overflow
    | .str | .ptr _ | .weak _ => .ok (poke w p v)
    | .array .. | .dynArray _ | .map .. | .struct _ | .other _ => if v = 0 then .error .nullPtr else .ok (copy w p v t.size)
    | .void | .null => .error .illegalType

/-- `doGetArrayPtr` (`umka_vm.c:3611-3641`): a negative length means a string, whose length is stored two words before its first character
(`getStrDims`); the null string is the empty string. -/
def getArraySlot {σ : Type} (w : World σ) (size : Nat) (len i p : Int) : Res Int :=
  if len ≥ 0 then
    if p = 0 then .error .nullArray
    else if i < 0 ∨ i > len - 1 then .error (.range i (len - 1))
    else .ok (p + size * i)
  else
    let n := if p = 0 then 0 else w.mem (p - 2)
    if i < 0 ∨ i > n - 1 then .error (.range i (n - 1)) else .ok (p + size * i)

/-- `doGetDynArrayPtr` (`umka_vm.c:3644-3664`).  A dynamic array consists of its type, the size of an item, and the pointer to the items; the number
of items is stored two words before the first item (`getDims`). -/
def getDynSlot {σ : Type} (w : World σ) (i p : Int) : Res Int :=
  if p = 0 ∨ w.mem (p + 2) = 0 then .error .nullDynArray
  else if i < 0 ∨ i > w.mem (w.mem (p + 2) - 2) - 1 then .error (.range i (w.mem (w.mem (p + 2) - 2) - 1))
  else .ok (w.mem (p + 2) + w.mem (p + 1) * i)

/-- One instruction; a stack underflow is undefined behaviour.  `doUnary` (`umka_vm.c:3320-3400`) increments what the pointer points to without
checking the pointer; `doGetMapPtr` and `doGetFieldPtr` (`umka_vm.c:3667-3722`) check it. -/
def step {σ : Type} (ops : Ops σ) (m : M σ) : Instr σ → Res (M σ)
  | .pushAddr a => .ok ⟨m.w, a :: m.stack⟩
  | .user c => (c m.w).map fun q => ⟨q.1, q.2 :: m.stack⟩
  | .deref t => match m.stack with | p :: st => (derefSlot m.w t p).map fun v => ⟨m.w, v :: st⟩ | _ => .crash
  | .strengthen => match m.stack with | p :: st => (ops.strengthen m.w p).map fun v => ⟨m.w, v :: st⟩ | _ => .crash
  | .getArray size len => match m.stack with | i :: p :: st => (getArraySlot m.w size len i p).map fun v => ⟨m.w, v :: st⟩ | _ => .crash
  | .getDyn => match m.stack with | i :: p :: st => (getDynSlot m.w i p).map fun v => ⟨m.w, v :: st⟩ | _ => .crash
  | .getMap k t =>
    match m.stack with
    | i :: p :: st => if p = 0 then .error .nullMap else (ops.mapItem k t m.w p i).map fun q => ⟨q.1, q.2 :: st⟩
    | _ => .crash
  | .getField off => match m.stack with | p :: st => if p = 0 then .error .nullStruct else .ok ⟨m.w, (p + off) :: st⟩ | _ => .crash
  | .dup => match m.stack with | v :: st => .ok ⟨m.w, v :: v :: st⟩ | _ => .crash
  | .binary op t => match m.stack with | r :: l :: st => (ops.binary op t m.w l r).map fun q => ⟨q.1, q.2 :: st⟩ | _ => .crash
  | .incDec inc k =>
    match m.stack with
    | p :: st => if p = 0 then .crash else .ok ⟨poke m.w p (ops.incDec inc k (m.w.mem p)), st⟩
    | _ => .crash
  | .assign t => match m.stack with | v :: p :: st => (assignSlot ops m.w t p v).map fun w => ⟨w, st⟩ | _ => .crash

def run {σ : Type} (ops : Ops σ) : List (Instr σ) → M σ → Res (M σ)
  | [], m => .ok m
  | i :: is, m => (step ops m i).bind (run ops is)

/-! ## Compilation -/

/-- What a designator without selectors can be: a variable, or opaque code for a constant, a type cast, a composite literal, the call of a built-in
function, or anything that ends with a call. -/
inductive Form
  | const | cast | literal | builtin | call
  deriving DecidableEq, Repr

inductive Base (σ : Type)
  | var (a : Int) (t : Ty)
  | value (form : Form) (c : Code σ) (t : Ty)

inductive Sel (σ : Type)
  | deref
  | index (e : Code σ)
  | field (name : Nat)

/-- The designator `base` followed by selectors. -/
structure Designator (σ : Type) where
  base : Base σ
  sels : List (Sel σ)

/-- The parameters `type`, `isVar`, `isCall`, `isCompLit` of the parser's functions. -/
structure D where
  ty : Ty
  isVar : Bool
  isCall : Bool
  isLit : Bool

/-- Errors of the compiler. -/
inductive CErr
  | typedPointer
  | indexable
  | addressable
  | noMember
  | noField
  | notAssignable
  | incompatible
  | address
  deriving DecidableEq, Repr

/-- `typeStructured(type) ? type : typeAddPtrTo(type)` (`umka_expr.c:1946-1949`, `2556-2559`, `2622-2625`). -/
def locTy (t : Ty) : Ty := if t.structured then t else .ptr t

/-- `parsePrimary` (`umka_expr.c:1921-1973`), `parseTypeCastOrCompositeLiteralOrEnumConst` (`umka_expr.c:2383-2416`), and the result of
`parseCallSelector` (`umka_expr.c:2635-2663`). -/
def genBase {σ : Type} : Base σ → List (Instr σ) × D
  | .var a t => ([.pushAddr a], ⟨locTy t, true, false, false⟩)
  | .value .const c t => ([.user c], ⟨t, false, false, false⟩)
  | .value .builtin c t => ([.user c], ⟨t, false, true, false⟩)
  | .value .cast c t => ([.user c], ⟨t, t.structured, false, false⟩)
  | .value .literal c t => ([.user c], ⟨t, t.structured, false, true⟩)
  | .value .call c t => ([.user c], ⟨t, t.structured, true, false⟩)

/-- `doTryImplicitDeref` (`umka_expr.c:93-106`). -/
def genImplicit {σ : Type} : Ty → List (Instr σ) × Ty
  | .ptr (.ptr b) => ([.deref (.ptr b)], .ptr b)
  | .ptr (.weak b) => ([.deref (.weak b), .strengthen], .ptr b)
  | t => ([], t)

/-- The second half of `parseDerefSelector` (`umka_expr.c:2431-2445`): the pointer is on the stack. -/
def genPointer {σ : Type} (pre : List (Instr σ)) : Ty → Except CErr (List (Instr σ) × D)
  | .ptr .void | .ptr .null | .weak .void | .weak .null => .error .typedPointer
  | .ptr b => .ok (pre, ⟨.ptr b, true, false, false⟩)
  | .weak b => .ok (pre ++ [.strengthen], ⟨.ptr b, true, false, false⟩)
  | _ => .error .typedPointer

/-- `parseDerefSelector` (`umka_expr.c:2420-2445`). -/
def genDerefSel {σ : Type} (d : D) : Except CErr (List (Instr σ) × D) :=
  if d.isVar then
    match d.ty with
    | .ptr b => genPointer [.deref b] b
    | _ => .error .typedPointer
  else genPointer [] d.ty

/-- `parseIndexSelector` from the index on (`umka_expr.c:2510-2566`): the collection is on the stack. -/
def genItem {σ : Type} (pre : List (Instr σ)) (e : Code σ) : Ty → Except CErr (List (Instr σ) × D)
  | .array n t => .ok (pre ++ [.user e, .getArray t.size n], ⟨locTy t, true, false, false⟩)
  | .dynArray t => .ok (pre ++ [.user e, .getDyn], ⟨locTy t, true, false, false⟩)
  | .map k t => .ok (pre ++ [.user e, .getMap k t], ⟨locTy t, true, false, false⟩)
  | .str => .ok (pre ++ [.user e, .getArray 1 (-1), .deref (.scalar .char)], ⟨.scalar .char, false, false, false⟩)
  | _ => .error .indexable

/-- The explicit dereferencing of strings and the removal of the pointer type (`umka_expr.c:2489-2496`). -/
def genCollection {σ : Type} (pre : List (Instr σ)) : Ty → List (Instr σ) × Ty
  | .ptr .str => (pre ++ [.deref .str], .str)
  | .ptr (.array n t) => (pre, .array n t)
  | .ptr (.dynArray t) => (pre, .dynArray t)
  | .ptr (.map k t) => (pre, .map k t)
  | t => (pre, t)

/-- `parseIndexSelector` (`umka_expr.c:2484-2566`). -/
def genIndexSel {σ : Type} (d : D) (e : Code σ) : Except CErr (List (Instr σ) × D) :=
  let p := genImplicit d.ty
  let q := genCollection p.1 p.2
  genItem q.1 e q.2

/-- `parseFieldSelector` for fields (`umka_expr.c:2569-2632`). -/
def genFieldOf {σ : Type} (pre : List (Instr σ)) (x : Nat) : Ty → Except CErr (List (Instr σ) × D)
  | .struct fs =>
    match fs.find x with
    | some q => .ok (pre ++ [.getField q.1], ⟨locTy q.2, true, false, false⟩)
    | none => .error .noField
  | _ => .error .noMember

def genFieldSel {σ : Type} (d : D) (x : Nat) : Except CErr (List (Instr σ) × D) :=
  let p : List (Instr σ) × Ty := genImplicit d.ty
  match p.2 with
  | .ptr t => genFieldOf p.1 x t
  | t => if t.structured then genFieldOf p.1 x t else .error .addressable

/-- `parseSelectors` (`umka_expr.c:2667-2687`). -/
def genSel {σ : Type} (d : D) : Sel σ → Except CErr (List (Instr σ) × D)
  | .deref => genDerefSel d
  | .index e => genIndexSel d e
  | .field x => genFieldSel d x

def genSels {σ : Type} : List (Instr σ) → D → List (Sel σ) → Except CErr (List (Instr σ) × D)
  | pre, d, [] => .ok (pre, d)
  | pre, d, s :: ss =>
    match genSel d s with
    | .ok q => genSels (pre ++ q.1) q.2 ss
    | .error e => .error e

/-- `parseDesignator` (`umka_expr.c:2691-2717`). -/
def genDesignator {σ : Type} (d : Designator σ) : Except CErr (List (Instr σ) × D) :=
  genSels (genBase d.base).1 (genBase d.base).2 d.sels

/-- A designator in an expression (`umka_expr.c:2780-2793`). -/
def genRead {σ : Type} (d : Designator σ) : Except CErr (List (Instr σ) × Ty) :=
  match genDesignator d with
  | .error e => .error e
  | .ok q =>
    if q.2.isVar then
      match q.2.ty with
      | .ptr b => .ok (q.1 ++ [.deref b], b)
      | t => .ok (q.1, t)
    else .ok (q.1, q.2.ty)

/-- `&d` (`umka_expr.c:2862-2888`).  The address of a composite literal is that of a copy on the heap, which is not modelled. -/
def genAddress {σ : Type} (d : Designator σ) : Except CErr (List (Instr σ) × Ty) :=
  match genDesignator d with
  | .error e => .error e
  | .ok q => if q.2.isVar then .ok (q.1, if q.2.ty.structured then .ptr q.2.ty else q.2.ty) else .error .address

/-- The type of the variable on the left (`umka_stmt.c:198-203`, `291-296`, `423-428`). -/
def leftTy : Ty → Except CErr Ty
  | .ptr .void => .error .notAssignable
  | .ptr t => .ok t
  | t => if t.structured then .ok t else .error .notAssignable

/-- `d = e` (`umka_stmt.c:195-217`, `455-465`). -/
def genAssign {σ : Type} (d : Designator σ) (e : Code σ) : Except CErr (List (Instr σ)) :=
  match genDesignator d with
  | .error e => .error e
  | .ok q =>
    if !q.2.isVar || q.2.isCall || q.2.isLit then .error .notAssignable
    else match leftTy q.2.ty with
      | .error e => .error e
      | .ok t => .ok (q.1 ++ [.user e, .assign t])

/-- `d op= e` (`umka_stmt.c:289-312`, `455-467`).  `typeAssertValidOperator` is not modelled. -/
def genShort {σ : Type} (d : Designator σ) (op : Nat) (e : Code σ) : Except CErr (List (Instr σ)) :=
  match genDesignator d with
  | .error e => .error e
  | .ok q =>
    if !q.2.isVar || q.2.isCall || q.2.isLit then .error .notAssignable
    else match leftTy q.2.ty with
      | .error e => .error e
      | .ok t => .ok (q.1 ++ [.dup, .deref t, .user e, .binary op t, .assign t])

/-- `d++`, `d--` (`umka_stmt.c:420-433`, `469-473`). -/
def genIncDec {σ : Type} (d : Designator σ) (inc : Bool) : Except CErr (List (Instr σ)) :=
  match genDesignator d with
  | .error e => .error e
  | .ok q =>
    match leftTy q.2.ty with
    | .error e => .error e
    | .ok (.scalar k) => if k.isInteger then .ok (q.1 ++ [.incDec inc k]) else .error .incompatible
    | .ok _ => .error .incompatible

end Umka.Desig
