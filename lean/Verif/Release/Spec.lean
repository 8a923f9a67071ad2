import Verif.Release.Model
/-!
# When variables are released: specification

What the generated code does, as a relation between the code and the sequences of stores and releases it can perform, and
what is expected of such a sequence.
-/

namespace Umka.Release

/-- What is observed: a variable receives a reference, a variable's reference is dropped. -/
inductive Ev
  | own (x : Nat)
  | drop (x : Nat)
  deriving DecidableEq

/-- How the execution of a piece of code ends.  `stop`: the program is terminated within it (by an error or `exit`). -/
inductive Out
  | normal
  | brk
  | cont
  | ret
  | stop
  deriving DecidableEq

/-- The executions of a piece of code.  Every condition may come out either way; a loop may be executed any number of
times; the program may be terminated at any point. -/
inductive Run : Code → List Ev → Out → Prop
  | stop {c} : Run c [] .stop
  | nop : Run .nop [] .normal
  | seq {a b t u o} : Run a t .normal → Run b u o → Run (.seq a b) (t ++ u) o
  | seqExit {a b t o} : Run a t o → o ≠ .normal → Run (.seq a b) t o
  | own {x} : Run (.own x) [.own x] .normal
  | drop {x} : Run (.drop x) [.drop x] .normal
  | left {a b t o} : Run a t o → Run (.choose a b) t o
  | right {a b t o} : Run b t o → Run (.choose a b) t o
  | brk : Run .brk [] .brk
  | cont : Run .cont [] .cont
  | ret : Run .ret [] .ret
  /-- the condition is false -/
  | loopEnd {c b p t} : Run c t .normal → Run (.loop c b p) t .normal
  | loopCondExit {c b p t o} : Run c t o → o ≠ .normal → Run (.loop c b p) t o
  | loopBrk {c b p t u} : Run c t .normal → Run b u .brk → Run (.loop c b p) (t ++ u) .normal
  | loopBodyExit {c b p t u o} : Run c t .normal → Run b u o → o = .ret ∨ o = .stop → Run (.loop c b p) (t ++ u) o
  | loopNext {c b p t u v w o o'} : Run c t .normal → Run b u o → o = .normal ∨ o = .cont → Run p v .normal →
      Run (.loop c b p) w o' → Run (.loop c b p) (t ++ u ++ v ++ w) o'
  | loopPostExit {c b p t u v o o'} : Run c t .normal → Run b u o → o = .normal ∨ o = .cont → Run p v o' →
      o' ≠ .normal → Run (.loop c b p) (t ++ u ++ v) o'
  | fn {b tl t u o o'} : Run b t o → o ≠ .stop → Run tl u o' → Run (.fn b tl) (t ++ u) o'
  | fnStop {b tl t} : Run b t .stop → Run (.fn b tl) t .stop
  | closure {c} : Run (.closure c) [] .normal

/-- The variables that hold a reference after the events, if each reference is stored in a variable that holds none (or
the old one would never be dropped) and each reference dropped is one that is held. -/
def replay : List Ev → (Nat → Bool) → Option (Nat → Bool)
  | [], held => some held
  | .own x :: es, held => if held x then none else replay es (fun y => if y = x then true else held y)
  | .drop x :: es, held => if held x then replay es (fun y => if y = x then false else held y) else none

/-- No variable holds a reference. -/
def nothing : Nat → Bool := fun _ => false

/-- Every reference that a variable of the function receives, in any execution, is dropped exactly once: while the function
is executed none is dropped twice or overwritten, and when it returns all have been dropped. -/
def ReleasesAll (f : Code) : Prop :=
  ∀ events out, Run f events out → ∃ held, replay events nothing = some held ∧ (out ≠ .stop → held = nothing)

/-- The nested functions of a piece of code. -/
def Code.closures : Code → List Code
  | .seq a b => a.closures ++ b.closures
  | .choose a b => a.closures ++ b.closures
  | .loop a b c => a.closures ++ b.closures ++ c.closures
  | .fn a b => a.closures ++ b.closures
  | .closure c => c :: c.closures
  | _ => []

/-- Is the item a global variable whose type contains references? -/
def Item.counted : Item → Bool
  | .global g => g
  | .fn .. => false

end Umka.Release
