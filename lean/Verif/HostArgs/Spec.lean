import Verif.HostArgs.Model
/-!
# HostArgs: specification

The documentation of the API (`doc/api.md:236-285, 487-508, 556-566`).
-/

namespace Umka.HostArgs.Spec
open Umka.HostArgs

/-- Item `i` of a list, counted from 0; nothing if there is no such item. -/
def item {α : Type} (l : List α) (i : Int) : Option α := if i < 0 then none else l[i.toNat]?

/-- 8-byte slots for `size` bytes. -/
def slots (size : Nat) : Nat := (size + 7) / 8

/-- Slots of some parameters. -/
def slotsOf {T : Type} (ps : List (T × Nat)) : Nat := (ps.map fun p => slots p.2).sum

/-- The callback does not look at its parameter any more. -/
def NoLook : Acts → Prop
  | .done => True
  | .look _ => False
  | .drop _ _ rest => NoLook rest

/-- Each callback looks at its parameter only before it drops anything. -/
def LooksFirst : Acts → Prop
  | .done => True
  | .look rest => LooksFirst rest
  | .drop _ body rest => LooksFirst body ∧ NoLook rest ∧ LooksFirst rest

end Umka.HostArgs.Spec
