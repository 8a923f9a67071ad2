/-!
# List assignments: model

The code that `parseExprList` (`/repo/src/umka_expr.c:3164-3260`), `parseListAssignmentStmt` and `parseListDeclAssignmentStmt`
(`/repo/src/umka_stmt.c:220-275`, `334-400`) generate, and the instructions it consists of.

Memory is a function from addresses to words.  A scalar takes one word, a structured value (structure, array, dynamic array, map, interface)
takes several.  On the stack a structured value is represented by a pointer to it.  Designators, expressions and calls are opaque code that may
change memory and registers.

Simplifications: words instead of bytes (sizes and alignment are in `Verif/Layout`); no reference counts (`Verif/RefCnt`, `Verif/Release`);
implicit conversions when the list is stored are only those of scalars.
-/

namespace Umka.ListAsg

/-- Type of an item of the list. -/
inductive Ty
  | scalar
  | struct (size : Nat)
  deriving DecidableEq, Repr

def Ty.size : Ty → Nat
  | .scalar => 1
  | .struct k => k

/-- Memory, and the register `REG_EXPR_LIST` (`umka_vm.h:16`). -/
structure World where
  mem : Nat → Int
  reg : Int

/-- Code of the program that pushes one slot, or fails. -/
abbrev Code := World → Option (World × Int)

inductive Instr
  | user (f : Code)
  | dup
  | popReg
  | pushReg
  | getField (off : Nat)
  | deref (ty : Ty)
  | conv (f : Int → Option Int)
  | assign (ty : Ty)
  | swapAssign (ty : Ty)
  | pop
  | pushLocal (a : Nat)
  | zero (a n : Nat)

structure M where
  w : World
  stack : List Int

/-- `doAssignImpl` (`umka_vm.c:1018-1066`): store a scalar, or copy what the pointer points to. -/
def store (mem : Nat → Int) (p : Nat) (ty : Ty) (v : Int) : Nat → Int :=
  match ty with
  | .scalar => fun a => if a = p then v else mem a
  | .struct k => fun a => if p ≤ a ∧ a < p + k then mem (v.toNat + (a - p)) else mem a

/-- `genDup`, `genPopReg`, `genPushReg`, `doGetFieldPtr` (`umka_vm.c:3708-3722`), `doDerefImpl` (`umka_vm.c:977-1016`: a structured value is
represented by its address), `doAssign`/`doSwapAssign` with their reference-counted variants (`umka_vm.c:3206-3318`), `genPop`, `genPushLocalPtr`,
`doZeroVar`.  The null checks are omitted: the pointers are those of variables. -/
def step (m : M) : Instr → Option M
  | .user f => (f m.w).map fun q => ⟨q.1, q.2 :: m.stack⟩
  | .dup => match m.stack with | v :: st => some ⟨m.w, v :: v :: st⟩ | _ => none
  | .popReg => match m.stack with | v :: st => some ⟨{ m.w with reg := v }, st⟩ | _ => none
  | .pushReg => some ⟨m.w, m.w.reg :: m.stack⟩
  | .getField off => match m.stack with | p :: st => some ⟨m.w, (p + off) :: st⟩ | _ => none
  | .deref ty =>
    match m.stack with
    | p :: st => some ⟨m.w, (match ty with | .scalar => m.w.mem p.toNat | .struct _ => p) :: st⟩
    | _ => none
  | .conv f => match m.stack with | v :: st => (f v).map fun v => ⟨m.w, v :: st⟩ | _ => none
  | .assign ty => match m.stack with | v :: p :: st => some ⟨{ m.w with mem := store m.w.mem p.toNat ty v }, st⟩ | _ => none
  | .swapAssign ty => match m.stack with | p :: v :: st => some ⟨{ m.w with mem := store m.w.mem p.toNat ty v }, st⟩ | _ => none
  | .pop => match m.stack with | _ :: st => some ⟨m.w, st⟩ | _ => none
  | .pushLocal a => some ⟨m.w, (a : Int) :: m.stack⟩
  | .zero a n => some ⟨{ m.w with mem := fun b => if a ≤ b ∧ b < a + n then 0 else m.w.mem b }, m.stack⟩

def run : List Instr → M → Option M
  | [], m => some m
  | i :: is, m => (step m i).bind (run is)

/-- The size of the structure of the list, and the offset of each field: fields follow one another. -/
def listSize (tys : List Ty) : Nat := (tys.map Ty.size).sum

def offset (tys : List Ty) (i : Nat) : Nat := listSize (tys.take i)

/-- The stores into the structure of the list, from the last field to the first (`umka_expr.c:3241-3254`). -/
def genFields (tmp : Nat) (tys : List Ty) : Nat → List Instr
  | 0 => []
  | i + 1 => .pushLocal (tmp + offset tys i) :: .swapAssign (tys[i]?.getD .scalar) :: genFields tmp tys i

/-- `parseExprList`: the expressions in order, then a zeroed temporary structure, its fields from the last to the first, and its address. -/
def genExprList (tmp : Nat) (es : List (Code × Ty)) : List Instr :=
  es.map (fun e => .user e.1) ++ [.zero tmp (listSize (es.map (·.2)))] ++ genFields tmp (es.map (·.2)) es.length ++ [.pushLocal tmp]

/-- The right side of the assignment: a list of expressions, or one call that returns an expression list with the given types. -/
inductive Right
  | exprs (tmp : Nat) (es : List (Code × Ty))
  | call (f : Code) (tys : List Ty)

def Right.tys : Right → List Ty
  | .exprs _ es => es.map (·.2)
  | .call _ tys => tys

def genRight : Right → List Instr
  | .exprs tmp es => genExprList tmp es
  | .call f _ => [.user f]

/-- The value of field `i` of the list whose address is on the stack: `genGetFieldPtr`, `genDeref`, `doAssertImplicitTypeConv`
(`umka_stmt.c:263-266`, `374-379`). -/
def genLoad (tys : List Ty) (convs : Nat → Int → Option Int) (i : Nat) : List Instr :=
  let ty := tys[i]?.getD .scalar
  [.getField (offset tys i), .deref ty] ++ (match ty with | .scalar => [.conv (convs i)] | .struct _ => [])

/-- One variable of the left side (`umka_stmt.c:261-269`). -/
def genStore (tys : List Ty) (convs : Nat → Int → Option Int) (i : Nat) : List Instr :=
  [.dup, .popReg] ++ (genLoad tys convs i ++ [.assign (tys[i]?.getD .scalar), .pushReg])

/-- The loop `for (int i = type->numItems - 1; i >= 0; i--)` (`umka_stmt.c:246-271`). -/
def genStores (tys : List Ty) (convs : Nat → Int → Option Int) : Nat → List Instr
  | 0 => []
  | i + 1 => genStore tys convs i ++ genStores tys convs i

/-- `x1, ..., xn = e1, ..., en`: the pointers to the designators, the list, the stores (`umka_stmt.c:220-275`). -/
def genAssignment (ds : List Code) (r : Right) (convs : Nat → Int → Option Int) : List Instr :=
  ds.map .user ++ genRight r ++ genStores r.tys convs ds.length ++ [.pop]

/-- One variable of a short declaration (`umka_stmt.c:373-391`): an identifier, new or declared again. -/
def genDecl (tys : List Ty) (convs : Nat → Int → Option Int) (vars : Nat → Nat) (i : Nat) : List Instr :=
  [.dup] ++ (genLoad tys convs i ++ [.pushLocal (vars i), .swapAssign (tys[i]?.getD .scalar)])

/-- `x1, ..., xn := e1, ..., en` (`umka_stmt.c:334-400`): from the first variable to the last. -/
def genDecls (tys : List Ty) (convs : Nat → Int → Option Int) (vars : Nat → Nat) (n : Nat) : List Instr :=
  (List.range n).flatMap (genDecl tys convs vars)

def genDeclaration (n : Nat) (vars : Nat → Nat) (r : Right) (convs : Nat → Int → Option Int) : List Instr :=
  genRight r ++ genDecls r.tys convs vars n ++ [.pop]

end Umka.ListAsg
