import Verif.Call.Model

/-!
# Calls, composite literals and closures: specification

No stack, no instructions, no offsets of parameters.
-/

namespace Umka.Call.Spec

variable {τ : Type}

/-- The words of a value: of a scalar itself, of a structured value those it refers to. -/
def words (mem : Nat → Int) (ty : Ty) (v : Int) : List Int :=
  match ty with
  | .scalar => [v]
  | .struct k => readWords mem v.toNat k

/-- Memory after the words `ws` have been stored at `p`. -/
def write (mem : Nat → Int) (p : Nat) (ws : List Int) : Nat → Int :=
  fun a => if p ≤ a ∧ a < p + ws.length then ws[a - p]?.getD 0 else mem a

/-! ## Calls -/

/-- A parameter as the programmer has declared it. -/
structure Formal (τ : Type) where
  ty : τ
  variadic : Bool
  default : Option Int

/-- The declared parameters of a signature, in order. -/
def formals (gs : List (Group τ)) : List (Formal τ) := gs.flatMap fun g => g.names.map fun _ => ⟨g.ty, g.variadic, g.default⟩

/-- Where a parameter gets its value from: an argument; a dynamic array passed as the whole of a variadic list; the items of a variadic list; a
constant. -/
inductive Source (τ : Type)
  | arg (t : τ) (a : Arg τ)
  | whole (a : Arg τ)
  | items (item : τ) (as : List (Arg τ))
  | const (ty : Ty) (v : Int)

/-- The value of a parameter without argument: its default value, no items for `..T`. -/
def missing (env : Env τ) (f : Formal τ) : Option (Source τ) :=
  match f.default with
  | some v => some (.const (env.shape f.ty) v)
  | none => if f.variadic then some (.const (.struct 2) env.empty) else none

/-- The arguments are for the parameters in order, all the remaining ones for a parameter `..T`; `none` if there are too many or too few. -/
def sources (env : Env τ) : List (Formal τ) → List (Arg τ) → Option (List (Source τ))
  | [], [] => some []
  | [], _ :: _ => none
  | f :: fs, [] => do
    let s ← missing env f
    let ss ← sources env fs []
    some (s :: ss)
  | f :: fs, a :: as =>
    if f.variadic then
      if env.spread f.ty a.ty then (sources env fs as).map (.whole a :: ·)
      else (sources env fs []).map (.items f.ty (a :: as) :: ·)
    else (sources env fs as).map (.arg f.ty a :: ·)

/-- The types of the arguments fit. -/
def Typed (env : Env τ) : Source τ → Prop
  | .arg t a => env.conv t a.ty ≠ none
  | .whole _ => True
  | .items t as => ∀ a ∈ as, env.conv t a.ty ≠ none
  | .const _ _ => True

/-- What is called has been defined. -/
def Defined : Target → Prop
  | .fn e => e ≠ 0
  | .method _ e => e ≠ 0
  | _ => True

/-- Evaluate an expression and convert its value. -/
def evalArg (env : Env τ) (t : τ) (a : Arg τ) (w : World) : Option (World × Int) := do
  let (w, v) ← a.code w
  let c ← env.conv t a.ty
  c w v

/-- Evaluate expressions one after another. -/
def evalItems (env : Env τ) (t : τ) : List (Arg τ) → World → Option (World × List Int)
  | [], w => some (w, [])
  | a :: as, w => do
    let (w, v) ← evalArg env t a w
    let (w, vs) ← evalItems env t as w
    some (w, v :: vs)

/-- A new dynamic array. -/
def newArray (w : World) (n : Nat) (contents : List Int) : World × List Int :=
  ({ w with mem := write w.mem w.brk contents, brk := w.brk + contents.length }, [(w.brk : Int), (n : Int)])

/-- The words of the items after the last one has been evaluated. -/
def contents (env : Env τ) (t : τ) (w : World) (vs : List Int) : List Int := vs.flatMap fun v => words w.mem (env.shape t) v

/-- The words a parameter gets. -/
def evalSource (env : Env τ) (w : World) : Source τ → Option (World × List Int)
  | .arg t a => (evalArg env t a w).map fun q => (q.1, words q.1.mem (env.shape t) q.2)
  | .whole a => (a.code w).map fun q => (q.1, words q.1.mem (.struct 2) q.2)
  | .items t as => (evalItems env t as w).map fun q => newArray q.1 q.2.length (contents env t q.1 q.2)
  | .const ty v => some (w, words w.mem ty v)

/-- The words of all parameters, each taken when its argument has been evaluated. -/
def evalSources (env : Env τ) : List (Source τ) → World → Option (World × List (List Int))
  | [], w => some (w, [])
  | s :: ss, w => do
    let (w, ws) ← evalSource env w s
    let (w, wss) ← evalSources env ss w
    some (w, ws :: wss)

/-- The function that is called, and the words of what comes with it: nothing, the captured variables, the receiver. -/
def evalTarget (w : World) : Target → Option (World × Int × List Int)
  | .fn e => some (w, e, [0, 0])
  | .value f => (f w).map fun q => (q.1, q.2, [0, 0])
  | .closure f => (f w).map fun q => (q.1, q.1.mem q.2.toNat, readWords q.1.mem (q.2 + 1).toNat 2)
  | .method rcv e => (rcv w).map fun q => ({ q.1 with self := q.2 }, e, [q.2])

/-- The function is determined first, then the arguments are evaluated from left to right. -/
def evalCall (env : Env τ) (target : Target) (ss : List (Source τ)) (w : World) : Option (World × Int × List (List Int)) := do
  let (w, e, hidden) ← evalTarget w target
  let (w, wss) ← evalSources env ss w
  some (w, e, hidden :: wss)

/-- The slots of a function from its parameter `i` on. -/
def paramAt (env : Env τ) (sig : Sig τ) (slots : List Int) (i : Nat) : List Int :=
  (slots.drop (paramOffset env sig i)).take (((sig.params[i]?).map fun p => (p.ty.shape env).size).getD 0)

/-- Two worlds differ at most in the memory from `lo` to `hi`. -/
def SameOutside (lo hi : Nat) (w w' : World) : Prop :=
  w'.brk = w.brk ∧ w'.self = w.self ∧ w'.result = w.result ∧ ∀ a, ¬ (lo ≤ a ∧ a < hi) → w'.mem a = w.mem a

def isMethod : Target → Bool
  | .method _ _ => true
  | _ => false

/-- The heap only grows. -/
def Grows (f : Code) : Prop := ∀ w w' v, f w = some (w', v) → w.brk ≤ w'.brk

/-- The expression only makes the heap grow, and what it gives is not in the memory from `lo` to `hi`. -/
def ArgOk (env : Env τ) (lo hi : Nat) (a : Arg τ) : Prop :=
  ∀ t w w' v, evalArg env t a w = some (w', v) → w.brk ≤ w'.brk ∧ ∀ k, env.shape t = .struct k → v.toNat + k ≤ lo ∨ hi ≤ v.toNat

def TargetOk : Target → Prop
  | .fn _ => True
  | .value f => Grows f
  | .closure f => Grows f
  | .method f _ => Grows f

/-! ## Composite literals -/

/-- The type of item or field `i`. -/
def fieldTy : LitTy τ → Nat → Option τ
  | .array n item, i => if i < n then some item else none
  | .struct fs, i => (fs[i]?).map (·.ty)

def fieldName : LitTy τ → Nat → Option String
  | .array _ _, _ => none
  | .struct fs, i => (fs[i]?).map (·.name)

/-- `ps` says which item or field each of the expressions is for: for fields the one with its name, no field twice; without names the first, the second
and so on, and all of them. -/
def Placed (lit : LitTy τ) (items : List (Item τ)) (ps : List (Nat × τ × Arg τ)) : Prop :=
  ps.map (fun p => p.2.2) = items.map (fun it => it.arg) ∧ (∀ p ∈ ps, fieldTy lit p.1 = some p.2.1) ∧
  (((∃ fs, lit = .struct fs) ∧ (ps.map fun p => p.1).Nodup ∧ items.map (fun it => it.name) = ps.map (fun p => fieldName lit p.1)) ∨
    ((∀ it ∈ items, it.name = none) ∧ ps.map (fun p => p.1) = List.range lit.numItems ∧
      ∀ i n, fieldName lit i = some n → isHidden n = false))

/-- Evaluate expressions one after another, and take the words of each as soon as it has been evaluated. -/
def evalEach (env : Env τ) : List (Nat × τ × Arg τ) → World → Option (World × List (Nat × List Int))
  | [], w => some (w, [])
  | p :: ps, w => do
    let (w, v) ← evalArg env p.2.1 p.2.2 w
    let ws := words w.mem (env.shape p.2.1) v
    let (w, vs) ← evalEach env ps w
    some (w, (p.1, ws) :: vs)

/-- The words of item or field `i`: those evaluated for it, otherwise zeros. -/
def fieldWords (env : Env τ) (lit : LitTy τ) (vs : List (Nat × List Int)) (i : Nat) : List Int :=
  match vs.find? (fun q => q.1 == i) with
  | some q => q.2
  | none => List.replicate (((fieldTy lit i).map fun t => (env.shape t).size).getD 0) 0

/-- The expression neither reads nor changes the memory from `lo` to `hi`, and what it gives is not there. -/
def Blind (env : Env τ) (lo hi : Nat) (a : Arg τ) : Prop :=
  ∀ t w w', SameOutside lo hi w w' →
    (evalArg env t a w = none → evalArg env t a w' = none) ∧
    ∀ u v, evalArg env t a w = some (u, v) → (∀ k, env.shape t = .struct k → v.toNat + k ≤ lo ∨ hi ≤ v.toNat) ∧
      ∃ u', evalArg env t a w' = some (u', v) ∧ SameOutside lo hi u u' ∧ ∀ x, lo ≤ x → x < hi → u'.mem x = w'.mem x

/-- What an item refers to is still the same when all the items have been evaluated. -/
def Undisturbed (env : Env τ) (t : τ) : List (Arg τ) → World → Prop
  | [], _ => True
  | a :: as, w => ∀ w1 v, evalArg env t a w = some (w1, v) →
    Undisturbed env t as w1 ∧ ∀ w2 vs, evalItems env t as w1 = some (w2, vs) → words w2.mem (env.shape t) v = words w1.mem (env.shape t) v

/-! ## Closures -/

/-- The words of the captured variables. -/
def captured (env : Env τ) (mem : Nat → Int) (cs : List (Capture τ)) : List Int :=
  cs.flatMap fun c => readWords mem c.addr (env.shape c.ty).size

end Umka.Call.Spec
