import Verif.HostStr.Model
/-!
# HostStr: specification
-/

namespace Umka.HostStr.Spec
open Umka.Str

/-- The memory begins with the C string `l`. -/
def IsCString (l mem : List Nat) : Prop := 0 ∉ l ∧ ∃ rest, mem = l ++ 0 :: rest

/-- What C code finds behind a string pointer begins with the C string `l`. -/
def Reads (s : State) (a : Ref) (l : List Nat) : Prop := ∃ b, deref s a = .ok b ∧ IsCString l b.cells

end Umka.HostStr.Spec
