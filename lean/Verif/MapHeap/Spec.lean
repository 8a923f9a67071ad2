import Verif.MapHeap.Model
import Verif.Map.Spec

/-!
# Maps in memory: specification

Variables refer to map objects; a map object is an ideal finite map.  `y = x` makes both variables refer to the same object, `y = copy(x)`
makes a new object with the same items.  There are no nodes and no addresses here.
-/

namespace Umka.MapHeap.Spec

open Umka.Map (Op Out)

/-- Which object each variable refers to (`none`: a null map), and the items of the objects that exist. -/
structure World (K V : Type) where
  var : Nat → Option Nat
  obj : Nat → Option (K → Option V)

/-- The map that a variable with the value `r` stands for. -/
def World.state {K V : Type} (w : World K V) (r : Option Nat) : Umka.Map.Spec.State K V :=
  match r with
  | none => ⟨false, fun _ => none⟩
  | some i => ⟨true, (w.obj i).getD fun _ => none⟩

/-- Nothing but the variable `x` and the object `i` has changed; `x` refers to `i`, which has the items `m`. -/
def Sets {K V : Type} (w : World K V) (x i : Nat) (m : K → Option V) (w' : World K V) : Prop :=
  w'.var x = some i ∧ (∀ z, z ≠ x → w'.var z = w.var z) ∧ w'.obj i = some m ∧ ∀ j, j ≠ i → w'.obj j = w.obj j

/-- What a command may answer and leave behind. -/
def Step {K V : Type} (cmp : K → K → Int) (zero : V) (w : World K V) (c : Cmd K V) (o : Out K V) (w' : World K V) : Prop :=
  match c with
  | .on x op => ∃ s', Umka.Map.Spec.Step cmp zero (w.state (w.var x)) op o s' ∧
      match op, w.var x with
      -- `make` and the first access to a null map create an object; any other operation works on the object of the variable
      | .make, _ => ∃ i, w.obj i = none ∧ Sets w x i s'.item w'
      | _, some i => Sets w x i s'.item w'
      | _, none => if s'.init then ∃ i, w.obj i = none ∧ Sets w x i s'.item w' else w' = w
  | .copy y x => o = .unit ∧
      match w.var x with
      | none => w'.var y = none ∧ (∀ z, z ≠ y → w'.var z = w.var z) ∧ w'.obj = w.obj
      | some i => ∃ j m, w.obj i = some m ∧ w.obj j = none ∧ Sets w y j m w'
  | .assign y x => o = .unit ∧ w'.var y = w.var x ∧ (∀ z, z ≠ y → w'.var z = w.var z) ∧ w'.obj = w.obj

/-- The outputs `os` are possible for the history `cs`, which ends in `w'`. -/
def Run {K V : Type} (cmp : K → K → Int) (zero : V) : World K V → List (Cmd K V) → List (Out K V) → World K V → Prop
  | w, [], [], w' => w' = w
  | w, c :: cs, o :: os, w' => ∃ w1, Step cmp zero w c o w1 ∧ Run cmp zero w1 cs os w'
  | _, _, _, _ => False

/-- At the start all variables are null. -/
def start {K V : Type} : World K V := ⟨fun _ => none, fun _ => none⟩

end Umka.MapHeap.Spec
