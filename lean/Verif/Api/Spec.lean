import Verif.Api.Model

/-!
# Api: specification

Classes of programs and the states of an interpreter before and after the first failure.
-/

namespace Umka.Api

/-- The program's external functions do not call `umkaRun` (they may call `umkaCall`). -/
def NoRun : Act → Prop
  | .done | .error _ | .exit _ => True
  | .spawn _ k | .resume _ k | .yield _ k | .finish _ k => NoRun k
  | .host isRun _ a k => isRun = false ∧ NoRun a ∧ NoRun k

/-- The program has no fibers. -/
def NoFibers : Act → Prop
  | .done | .error _ | .exit _ => True
  | .spawn _ _ | .resume _ _ | .yield _ _ | .finish _ _ => False
  | .host _ _ a k => NoFibers a ∧ NoFibers k

/-- The program's external functions do not call the API. -/
def NoHost : Act → Prop
  | .done | .error _ | .exit _ => True
  | .spawn _ k | .resume _ k | .yield _ k | .finish _ k => NoHost k
  | .host _ _ _ _ => False

/-- No run-time errors (but maybe `exit`). -/
def NoError : Act → Prop
  | .done | .exit _ => True
  | .error _ => False
  | .spawn _ k | .resume _ k | .yield _ k | .finish _ k => NoError k
  | .host _ _ a k => NoError a ∧ NoError k

/-- A property of all the scripts of a history. -/
def All (P : Act → Prop) (ops : List Op) : Prop := ∀ op ∈ ops, ∀ a, op = .run a ∨ (∃ d, op = .call d a) → P a

/-- Nothing has failed: no error, no exit; the interpreter is alive and has nothing to report. -/
def Healthy (s : St) : Prop := s.faults = [] ∧ umkaAlive s = true ∧ s.code = 0

/-- There was exactly one failure, with this code; the interpreter is dead and reports it. -/
def Failed (s : St) (code : Int) : Prop := s.faults = [code] ∧ umkaAlive s = false ∧ s.code = code

end Umka.Api
