import Verif.Control.Model
import Verif.Map.Model

/-!
# for...in: model

What `parseForInHeader` and `parseForStmt` (`/repo/src/umka_stmt.c:871-1128`) generate, as a statement of `Verif/Control`: straight-line code
that sets up hidden variables, then a loop with a condition, code that fetches the next item, the body, and `++` after each iteration.
`Verif/Control` (C21) relates these statements to instructions and jumps.

The names of the hidden variables start with `#`, so that no program can mention them: the body works on the rest of the state and is lifted.
For arrays and strings the index variable is not hidden: it is the variable of the program itself.

Simplifications: arrays and maps are found under references; strings are values.  Reference counts are in `Verif/Release`.  The index is not
bounded (it overflows only if the body assigns it).
-/

namespace Umka.ForIn

open Umka.Control.Spec (Stmt Cases TypeCases Expr Res Out)

/-- What the program has in memory apart from the variables of the loop: arrays (dynamic or static) and maps, by reference, and `rest`. -/
structure User (K T ρ : Type) where
  arrays : Nat → List T
  maps : Nat → Umka.Map.MapVal K T
  rest : ρ

/-- The item variable: a copy of the item or a pointer to it. -/
inductive Item (K T : Type)
  | value (t : T)
  | inArray (r : Nat) (i : Int)
  | inMap (r : Nat) (k : K)
  deriving DecidableEq, Repr

/-- What the body can see: memory, the index or key variable, the item variable. -/
structure View (α K T ρ : Type) where
  user : User K T ρ
  key : α
  item : Option (Item K T)

/-- The form of the item variable: `for i in`, `for i, x in`, `for i, x^ in`. -/
inductive Form
  | none | byValue | byPtr
  deriving DecidableEq, Repr

/-! ## The body does not see hidden variables -/

section Lift
variable {σ η : Type}

def liftAct (f : σ → Option σ) : σ × η → Option (σ × η) := fun s => (f s.1).map (·, s.2)
def liftEval (f : σ → Option (σ × Int)) : σ × η → Option ((σ × η) × Int) := fun s => (f s.1).map fun q => ((q.1, s.2), q.2)

def liftExpr : Expr σ → Expr (σ × η)
  | .atom f => .atom (liftEval f)
  | .unary f e => .unary (fun s v => liftEval (f · v) s) (liftExpr e)
  | .binary f a b => .binary (fun s v w => liftEval (f · v w) s) (liftExpr a) (liftExpr b)
  | .and a b => .and (liftExpr a) (liftExpr b)
  | .or a b => .or (liftExpr a) (liftExpr b)

mutual
/-- A statement of the program among hidden variables. -/
def lift : Stmt σ → Stmt (σ × η)
  | .act f => .act (liftAct f)
  | .use e f => .use (liftExpr e) (fun s v => liftAct (f · v) s)
  | .skip => .skip
  | .seq a b => .seq (lift a) (lift b)
  | .ifThen c a => .ifThen (liftExpr c) (lift a)
  | .ifElse c a b => .ifElse (liftExpr c) (lift a) (lift b)
  | .switch e cs d => .switch (liftExpr e) (liftCases cs) (lift d)
  | .typeSwitch e cs d => .typeSwitch (liftExpr e) (liftTypeCases cs) (lift d)
  | .loop c body post => .loop (liftExpr c) (lift body) (post.map liftAct)
  | .forPost c p f body => .forPost (liftExpr c) (liftExpr p) (fun s v => liftAct (f · v) s) (lift body)
  | .brk => .brk
  | .cont => .cont
  | .ret => .ret
def liftCases : Cases σ → Cases (σ × η)
  | .nil => .nil
  | .cons ks body rest => .cons ks (lift body) (liftCases rest)
def liftTypeCases : TypeCases σ → TypeCases (σ × η)
  | .nil => .nil
  | .cons conv bind body rest => .cons (fun s v => conv s.1 v) (fun s v => liftAct (bind · v) s) (lift body) (liftTypeCases rest)
end

end Lift

/-! ## Arrays and strings -/

variable {K T ρ : Type}

/-- The value of the collection expression. -/
inductive Coll (T : Type)
  /-- a pointer to a static array of so many items (`umka_stmt.c:918-919`, `937-938`) -/
  | array (r : Nat) (numItems : Nat)
  /-- a dynamic array -/
  | dyn (r : Nat)
  | str (s : List T)

/-- Hidden variables `#len` and `#collection` (`umka_stmt.c:926`, `940`). -/
structure Hidden (T : Type) where
  len : Int
  coll : Coll T

/-- `len()` of the collection: the constant of the type for static arrays (`umka_stmt.c:918-924`), `doBuiltinLen` (`umka_vm.c:2840-2873`). -/
def collLen (u : User K T ρ) : Coll T → Int
  | .array _ n => n
  | .dyn r => (u.arrays r).length
  | .str s => s.length

/-- The item pointer: `doGetArrayPtr`, `doGetDynArrayPtr` (`umka_vm.c:3611-3664`), with their range checks (for strings the bound is `INT_MAX`,
`umka_stmt.c:1053`), and the dereference of `umka_stmt.c:1058-1060`. -/
def fetch (u : User K T ρ) (form : Form) (c : Coll T) (i : Int) : Option (Option (Item K T)) :=
  let at' (r : Nat) (len : Int) : Option (Option (Item K T)) :=
    if i < 0 ∨ i > len - 1 then .none
    else match form with
      | .byPtr => some (some (.inArray r i))
      | _ => ((u.arrays r)[i.toNat]?).map fun t => some (.value t)
  match form with
  | .none => some .none
  | form =>
    match c with
    | .array r n => at' r n
    | .dyn r => at' r (u.arrays r).length
    | .str s =>
      if i < 0 ∨ i > 2147483647 - 1 then .none
      else match form with
        | .byPtr => .none                                 -- rejected by the compiler, umka_stmt.c:914-915
        | _ => (s[i.toNat]?).map fun t => some (.value t)

abbrev SeqState (K T ρ : Type) := View Int K T ρ × Hidden T

/-- The code before the condition (`umka_stmt.c:896-953`): evaluate the collection, `#len = len(...)`, `#collection = ...`, index 0. -/
def seqHeader (e : User K T ρ → Option (User K T ρ × Coll T)) (s : SeqState K T ρ) : Option (SeqState K T ρ) := do
  let (u, c) ← e s.1.user
  let h : Hidden T := { len := collLen u c, coll := c }
  some (⟨u, 0, .none⟩, h)

/-- The condition `index < #len` (`umka_stmt.c:1005-1010`). -/
def seqCond (s : SeqState K T ρ) : Option (SeqState K T ρ × Int) := some (s, if s.1.key < s.2.len then 1 else 0)

/-- The assignment of the item variable (`umka_stmt.c:1029-1065`). -/
def seqFetch (form : Form) (s : SeqState K T ρ) : Option (SeqState K T ρ) := do
  let it ← fetch s.1.user form s.2.coll s.1.key
  some (⟨s.1.user, s.1.key, it⟩, s.2)

/-- `index++` (`umka_stmt.c:1108-1112`). -/
def seqNext (s : SeqState K T ρ) : Option (SeqState K T ρ) := some (⟨s.1.user, s.1.key + 1, s.1.item⟩, s.2)

/-- `for i, x in e { body }` for arrays, dynamic arrays and strings. -/
def forSeq (e : User K T ρ → Option (User K T ρ × Coll T)) (form : Form) (body : Stmt (View Int K T ρ)) : Stmt (SeqState K T ρ) :=
  .seq (.act (seqHeader e)) (.loop (.atom seqCond) (.seq (.act (seqFetch form)) (lift body)) (some seqNext))

/-! ## Maps -/

/-- Hidden variables `#len`, `#collection`, `#index` and `#keys` (`umka_stmt.c:926-985`). -/
structure MapHidden (K : Type) where
  len : Int
  coll : Nat
  index : Int
  keys : List K

abbrev MapState (K T ρ : Type) := View (Option K) K T ρ × MapHidden K

/-- The code before the condition for maps (`umka_stmt.c:896-985`), with `doBuiltinLen` and `doBuiltinKeys` (`umka_vm.c:2840-2873`,
`3028-3050`).  The key variable is zeroed: `none`. -/
def mapHeader (cmp : K → K → Int) (zero : T) (e : User K T ρ → Option (User K T ρ × Nat)) (s : MapState K T ρ) : Option (MapState K T ρ) := do
  let (u, r) ← e s.1.user
  let len ← match (Umka.Map.step cmp zero (u.maps r) .len).2 with | .int n => some n | _ => .none
  let ks ← match (Umka.Map.step cmp zero (u.maps r) .keys).2 with | .list ks => some ks | _ => .none
  some (⟨u, .none, .none⟩, ⟨len, r, 0, ks⟩)

/-- The condition `#index < #len`. -/
def mapCond (s : MapState K T ρ) : Option (MapState K T ρ × Int) := some (s, if s.2.index < s.2.len then 1 else 0)

/-- `key = #keys[#index]` (`umka_stmt.c:1014-1026`), then the item by `doGetMapPtr` (`umka_vm.c:3667-3704`), which creates a missing item.  `rand`
gives the priority of a new node. -/
def mapFetch (cmp : K → K → Int) (zero : T) (rand : User K T ρ → Int) (form : Form) (s : MapState K T ρ) : Option (MapState K T ρ) :=
  if s.2.index < 0 ∨ s.2.index > s.2.keys.length - 1 then .none
  else do
    let k ← s.2.keys[s.2.index.toNat]?
    match form with
    | .none => some (⟨s.1.user, some k, .none⟩, s.2)
    | form =>
      let u := s.1.user
      let (m, t) := Umka.Map.mapPtr cmp zero (u.maps s.2.coll) k (rand u) .none
      let u : User K T ρ := { u with maps := fun r => if r = s.2.coll then m else u.maps r }
      some (⟨u, some k, some (match form with | .byPtr => .inMap s.2.coll k | _ => .value t)⟩, s.2)

/-- `#index++` -/
def mapNext (s : MapState K T ρ) : Option (MapState K T ρ) := some (s.1, { s.2 with index := s.2.index + 1 })

/-- `for k, x in e { body }` for maps. -/
def forMap (cmp : K → K → Int) (zero : T) (rand : User K T ρ → Int) (e : User K T ρ → Option (User K T ρ × Nat)) (form : Form)
    (body : Stmt (View (Option K) K T ρ)) : Stmt (MapState K T ρ) :=
  .seq (.act (mapHeader cmp zero e)) (.loop (.atom mapCond) (.seq (.act (mapFetch cmp zero rand form)) (lift body)) (some mapNext))

end Umka.ForIn
