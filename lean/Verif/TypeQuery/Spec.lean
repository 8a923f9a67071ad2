import Verif.TypeQuery.Model
/-!
# TypeQuery: specification

The documentation of the API (`doc/api.md:510-555`), by the declaration of a type.
-/

namespace Umka.TypeQuery.Spec
open Umka.TypeQuery

/-- What a pointer points to, or the type of the items of an array or dynamic array. -/
def base : Decl → Option Nat
  | .ptr _ b => some b
  | .array b => some b
  | .dynarray b => some b
  | _ => none

/-- The key type of a map. -/
def key : Decl → Option Nat
  | .map k _ => some k
  | _ => none

/-- The item type of a map. -/
def item : Decl → Option Nat
  | .map _ v => some v
  | _ => none

/-- The structure has a field `name` of type `t`. -/
def HasField (name : String) (t : Nat) : Decl → Prop
  | .struct fs => (name, t) ∈ fs
  | _ => False

end Umka.TypeQuery.Spec
