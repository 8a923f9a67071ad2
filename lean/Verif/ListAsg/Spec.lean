import Verif.ListAsg.Model

/-!
# List assignments: specification

No stack, no temporary structure, no register.
-/

namespace Umka.ListAsg.Spec

/-- Run code fragments one after another and collect what they give. -/
def evalAll : List Code → World → Option (World × List Int)
  | [], w => some (w, [])
  | f :: fs, w => do
    let (w, v) ← f w
    let (w, vs) ← evalAll fs w
    some (w, v :: vs)

/-- The words from `p` on. -/
def readWords (mem : Nat → Int) (p : Nat) (k : Nat) : List Int := (List.range k).map fun j => mem (p + j)

/-- The words of a value: of a scalar itself, of a structured value those it refers to. -/
def words (mem : Nat → Int) (ty : Ty) (v : Int) : List Int :=
  match ty with
  | .scalar => [v]
  | .struct k => readWords mem v.toNat k

/-- Memory after the words `ws` have been stored at `p`. -/
def write (mem : Nat → Int) (p : Nat) (ws : List Int) : Nat → Int :=
  fun a => if p ≤ a ∧ a < p + ws.length then ws[a - p]?.getD 0 else mem a

/-- The words of each field of the right side, in the memory that the evaluation of the right side has left. -/
def rightWords : Right → World → Option (World × List (List Int))
  | .exprs _ es, w => do
    let (w, vs) ← evalAll (es.map (·.1)) w
    some (w, List.zipWith (fun e v => words w.mem e.2 v) es vs)
  | .call f tys, w => do
    let (w, p) ← f w
    some (w, (List.range tys.length).map fun i => readWords w.mem (p.toNat + offset tys i) (tys[i]?.getD .scalar).size)

/-- The values of the expressions at the moment each of them is evaluated. -/
def valuesInOrder : List (Code × Ty) → World → Option (List (List Int))
  | [], _ => some []
  | (f, ty) :: es, w => do
    let (w, v) ← f w
    let rest ← valuesInOrder es w
    some (words w.mem ty v :: rest)

/-- Conversion of item `i`. -/
def convert (tys : List Ty) (convs : Nat → Int → Option Int) (i : Nat) (ws : List Int) : Option (List Int) :=
  match tys[i]?.getD .scalar, ws with
  | .scalar, [v] => (convs i v).map ([·])
  | _, ws => some ws

/-- All values `val` are given before anything is stored; then they are stored at `addr`, from the last to the first. -/
def storeAll (addr : Nat → Nat) (val : Nat → List Int) : Nat → (Nat → Int) → Nat → Int
  | 0, mem => mem
  | k + 1, mem => storeAll addr val k (write mem (addr k) (val k))

/-- The same from the first to the last. -/
def storeUp (addr : Nat → Nat) (val : Nat → List Int) (n : Nat) (mem : Nat → Int) : Nat → Int :=
  (List.range n).foldl (fun mem i => write mem (addr i) (val i)) mem

/-- The addresses an item occupies. -/
def Area (p k a : Nat) : Prop := p ≤ a ∧ a < p + k

/-- Two areas have no address in common. -/
def Apart (p k q l : Nat) : Prop := ∀ a, ¬ (Area p k a ∧ Area q l a)

/-- The source of a structured value is outside the structure of the list. -/
def SourceOk (tmp size : Nat) (ty : Ty) (v : Int) : Prop :=
  match ty with
  | .scalar => True
  | .struct k => Apart v.toNat k tmp size

/-- The address of the list. -/
def address (r : Right) (w1 : World) : Nat :=
  match r with
  | .exprs tmp _ => tmp
  | .call f _ => match f w1 with | some (_, p) => p.toNat | none => 0

/-- The sources of structured values are outside the temporary structure; a call returns an address. -/
def RightOk (r : Right) (w1 : World) : Prop :=
  match r with
  | .exprs tmp es => ∀ w2 vs, evalAll (es.map (·.1)) w1 = some (w2, vs) → ∀ (i : Nat) (e : Code × Ty) (v : Int), es[i]? = some e → vs[i]? = some v →
      SourceOk tmp (listSize (es.map (·.2))) e.2 v
  | .call f _ => ∀ w2 p, f w1 = some (w2, p) → 0 ≤ p

end Umka.ListAsg.Spec
