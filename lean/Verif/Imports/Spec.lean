import Verif.Imports.Model

/-!
# Imports: specification
-/

namespace Umka.Imports

/-- Module `p` imports module `q`. -/
def Imports (g : Files) (p q : Path) : Prop := ∃ items, g.file p = some items ∧ ∃ a, ⟨a, q⟩ ∈ items

/-- `q` is `p` or a module that `p` imports, directly or not. -/
inductive Reach (g : Files) (p : Path) : Path → Prop
  | refl : Reach g p p
  | step {q r : Path} : Reach g p q → Imports g q r → Reach g p r

/-- There is an import cycle among the modules of the program. -/
def Cycle (g : Files) (root : Path) : Prop := ∃ p q, Reach g root p ∧ Imports g p q ∧ Reach g q p

/-- The imports of a module are proper: no two with the same alias, none with the name of the module itself as alias, and no module
imported twice. -/
def Proper (g : Files) (p : Path) (items : List Item) : Prop :=
  (g.name p :: items.map (·.alias)).Nodup ∧ (items.map (·.path)).Nodup

/-- Why a program does not compile (as far as imports are concerned). -/
def Reason (g : Files) (root : Path) : Err → Prop
  | .cyclic => Cycle g root
  | .duplicateImport => ∃ p items, Reach g root p ∧ g.file p = some items ∧ ¬ Proper g p items
  | .missing => ∃ p, Reach g root p ∧ g.file p = none
  | .tooMany => ∃ L : List Path, L.Nodup ∧ L.length = 1024 ∧ ∀ p ∈ L, Reach g root p
  | .duplicateModule | .undefined | .fuel => False

/-- The order of compilation: the dependencies first. -/
def DepsFirst (g : Files) (order : List Path) : Prop :=
  ∀ l₁ p l₂, order = l₁ ++ p :: l₂ → ∀ q, Imports g p q → q ∈ l₁

end Umka.Imports
