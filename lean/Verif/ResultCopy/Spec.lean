import Verif.ResultCopy.Model
/-!
# Copies of function results: specification
-/

namespace Umka.ResultCopy.Spec
open Umka.Peephole (Instr Item)

/-- A request that generates nothing: a declaration of a variable, the beginning of a block, counting references of a type
without any. -/
def Silent : Req → Prop
  | .var .. | .enter _ => True
  | .code (.op (.refCnt _ t)) => t.collected = false
  | _ => False

/-- The last thing that was generated is the copy of a result of type `t`, requested after `pre`. -/
def Pending (reqs pre : List Req) (t : RType) (mid : List Req) : Prop :=
  reqs = pre ++ .result t :: mid ∧ ∀ r ∈ mid, Silent r

/-- A value is used by what is requested first after a copy, apart from requests that generate nothing: the copied result is
handed over. -/
def Handed (post : List Req) : Prop :=
  ∃ mid r rest, post = mid ++ r :: rest ∧ (∀ x ∈ mid, Silent x) ∧ ((∃ t, r = .pass t) ∨ ∃ t valid, r = .assign t valid)

/-- A request that generates something, whatever the state. -/
def generates : Req → Bool
  | .code (.op (.refCnt _ t)) => t.collected
  | .code (.label ..) => false
  | .code _ | .result _ | .assign .. => true
  | _ => false

/-- The order in which the parser makes requests.  A value is passed or assigned after an expression was parsed, so that
something was generated after the last block was left (`left`): at least the fixup of a jump after `?:`, or the instructions
for an operator after `&&` and `||`.  A label that does not inform the optimizer follows a jump (`jmp`). -/
def Proper : List Req → (left jmp : Bool) → Prop
  | [], _, _ => True
  | .leave :: rs, _, _ | .unwind _ :: rs, _, _ => Proper rs true false
  | .pass _ :: rs, left, _ | .assign .. :: rs, left, _ => left = false ∧ Proper rs false false
  | .code (.label _ upd) :: rs, left, jmp => (upd = true ∨ jmp = true) ∧ Proper rs left jmp
  | .code (.jump ..) :: rs, _, _ => Proper rs false true
  | r :: rs, left, _ => Proper rs (left && !generates r) false

/-- The number of bytes of a value of a kind: `typeSize`; structured values have the given size. -/
def width (size : Nat) : Peephole.Kind → Nat
  | .ord .int8 | .ord .uint8 | .ord .bool | .ord .char => 1
  | .ord .int16 | .ord .uint16 => 2
  | .ord .int32 | .ord .uint32 | .real32 => 4
  | .structured => size
  | .none => 0
  | _ => 8

end Umka.ResultCopy.Spec
