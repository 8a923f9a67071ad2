import Verif.Iface.Spec
import Verif.Conv.Spec
import Verif.Self.Model
/-!
# Queries about variables: specification

Values and pointers reach interfaces by chains of conversions and variables: `Iface.uses` of `Verif/Iface/Spec.lean`.  Two types are equivalent as
`Types.Equivalent` says.  A type contains pointers as `Conv.Contains` says.
-/

namespace Umka.Self

open Umka.Types (Kind)
open Umka.Arith (Slot Mem)
open Umka.Conv (World)

/-- Values are finite: a type does not contain itself other than through pointers (C78). -/
def Finite (w : World) : Prop :=
  ∃ rank : w.T → Nat, ∀ t, rank t < w.e.g.n ∧ (w.kind t = .array → rank (w.base t) < rank t) ∧
    (w.kind t = .struct → ∀ f ∈ (w.node t).fields, rank f.type < rank t)

/-- `selfhasptr` as documented (`doc/lang.md:834`): the type is a pointer, string, dynamic array, interface or fiber, or has one of these types as its
item type or field type.  (Pointers include weak ones.) -/
inductive Documented (w : World) : w.T → Prop
  | self {t} : w.kind t ∈ [.ptr, .weakptr, .str, .dynarray, .interface, .fiber] → Documented w t
  | item {t} : w.kind t = .array → Documented w (w.base t) → Documented w t
  | field {t f} : w.kind t = .struct → f ∈ (w.node t).fields → Documented w f.type → Documented w t

/-- The variable of `size` bytes at the address `p` has not been assigned to: it is filled with zeros. -/
def Untouched (m : Mem) (p size : Nat) : Prop := ∀ b, p ≤ b → b < p + size → m b = 0

/-- The variable behind the interface at the address `p`: its address `a` and its type `t`, as the four queries tell, and whether the
interface is valid. -/
structure Tells (w : World) (alive : Slot → Bool) (m : Mem) (p : Nat) (a : Slot) (t : w.T) : Prop where
  size : sizeofself w m (BitVec.ofNat 64 p) = .ok (w.e.size t)
  ptr : selfptr m (BitVec.ofNat 64 p) = .ok a
  hasPtr : ∃ b, selfhasptr w m (BitVec.ofNat 64 p) = .ok b ∧ (b = true ↔ Conv.Contains w t)
  valid : ∃ b, valid alive m .interface (BitVec.ofNat 64 p) = .ok b ∧ (b = true ↔ a ≠ 0)

end Umka.Self
