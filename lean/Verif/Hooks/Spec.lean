import Verif.Hooks.Model
/-!
# Debug hooks: specification

Executions with the hooks called so far, and what well nested reports are.
-/

namespace Umka.Hooks

open Umka.Frame
open Umka.Trace (Call nextCalls)

/-- Executions of programs that meet the conditions of `Frame`, with the calls in progress of each fiber and the hooks called so far, first to last. -/
inductive Logged (p : Program) : VM → List Ptr → (Nat → List Call) → List Ev → Prop
  | start {size : Nat} {entry : Int} {params : List Int} {vm : VM} :
      Frame.start size entry params = .ok vm → Entry p entry params.length → Logged p vm [] (fun _ => [.outside]) []
  | step {vm vm' : VM} {P : List Ptr} {h : Nat → List Call} {log : List Ev} :
      Logged p vm P h log → Valid p vm P → Frame.step p vm = .ok vm' →
      Logged p vm' (pointers p vm P) (nextCalls p vm h) (log ++ hook p vm)

/-- The reports from one fiber. -/
def of (k : Nat) (log : List Ev) : List Ev := log.filter fun e => e.fiber == k

/-- What someone keeps who follows the reports: the functions that have been called and have not returned, innermost first.  `none`: a return is reported
that is not the return of the innermost of them. -/
def follow {κ : Type} [DecidableEq κ] (fn : Int → κ) : Option (List κ) → Ev → Option (List κ)
  | some o, ⟨_, true, ip⟩ => some (fn ip :: o)
  | some (a :: o), ⟨_, false, ip⟩ => if fn ip = a then some o else none
  | _, _ => none

def pending {κ : Type} [DecidableEq κ] (fn : Int → κ) (log : List Ev) : Option (List κ) := log.foldl (follow fn) (some [])

/-- `fn` tells what function an instruction belongs to: control stays in a function, from the instruction that sets up the frame to the one that removes it. -/
structure Functions {p : Program} (c : Compiled p) {κ : Type} (fn : Int → κ) : Prop where
  enter : ∀ {ip l}, p.code ip = .enter l → fn (ip + 1) = fn ip
  next : ∀ {ip n}, c.body ip n →
    match p.code ip with
    | .data .. | .block .. | .callIndirect _ | .ref .. | .spawn .. | .resume _ | .ext .. | .call _ => fn (ip + 1) = fn ip
    | .jump t => ∀ vm, fn (t vm) = fn ip
    | .leave | .enter _ | .ret _ | .halt => True

end Umka.Hooks
