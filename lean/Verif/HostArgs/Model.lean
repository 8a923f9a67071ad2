import Verif.Layout.Model
/-!
# HostArgs: model

What a function of the host, called by an Umka program, can ask about its arguments:
`umkaGetParam`, `umkaGetUpvalue`, `umkaGetResult`, `umkaGetParamType` and `umkaGetResultType`
(`umka_api.c:286-308, 337-351`).  All of them read one block of memory, which the compiler fills in
(`typeMakeStackFrameLayout`, `umka_types.c:847-874`) and which three records share one after another
(`umka_common.h:172-223`); where the second and the third begin depends on a number stored in the
first.  A function that is called when a chunk is freed gets a block made by the virtual machine
(`doGetOnFreeParams`, `umka_vm.c:182-212`).

The memory is a list of 64-bit words (`sizeof(void *) == 8`).  The arithmetic of slot numbers is that of
`Verif.Layout.Model`.  Access outside of the block, or to a word that was not written or is of another kind,
is `ub`.
-/

namespace Umka.HostArgs
open Umka.Layout (Res Fault makeParamLayout)

/-- What is used of types: `any`, pointer types (`typeAddPtrTo`) and `typeStructured`
(`umka_types.h:300-304`). -/
structure Types (T : Type) where
  any : T
  ptrTo : T → T
  structured : T → Bool

/-- A function as it is declared: the types and sizes of its parameters, and the type of its result. -/
structure Decl (T : Type) where
  params : List (T × Nat)
  result : T

/-- A word of memory; `none` is a null pointer to a type. -/
inductive Word (T : Type) where
  | undef
  | int (i : Int)
  | type (t : Option T)
  deriving DecidableEq, Repr

abbrev Mem (T : Type) := List (Word T)

variable {T : Type}

/-- Assignment to a word. -/
def write (m : Mem T) (k : Nat) (w : Word T) : Res (Mem T) :=
  if k < m.length then .ok (m.set k w) else .error .ub

/-- A loop that assigns to words one after another, `umka_types.c:860-861, 866-867`. -/
def writeAll (m : Mem T) (k : Nat) : List (Word T) → Res (Mem T)
  | [] => .ok m
  | w :: ws => do writeAll (← write m k w) (k + 1) ws

def readInt (m : Mem T) (k : Nat) : Res Int :=
  match m[k]? with
  | some (.int i) => .ok i
  | _ => .error .ub

def readType (m : Mem T) (k : Nat) : Res (Option T) :=
  match m[k]? with
  | some (.type t) => .ok t
  | _ => .error .ub

/-- Address of `resultType`: `getParamTypes`, `umka_common.h:211-215`. -/
def typesAt (m : Mem T) : Res Nat := do
  let n ← readInt m 0
  return 3 + n.toNat

/-- Address of `localVarSlots`: `getLocalVarLayout`, `umka_common.h:218-223`. -/
def localAt (m : Mem T) : Res Nat := do
  let n ← readInt m 0
  return (← typesAt m) + 1 + n.toNat

/-- `STACK_FRAME_LAYOUT_SIZE`, `umka_common.h:197-202`, in words. -/
def blockSize (n : Nat) : Nat := 3 + n + (1 + n) + 1

/-- The parameters that the compiler adds, `parseSignature`, `umka_decl.c:138-142, 239-240`: captured
variables come first, the pointer to a structured result comes last.  Methods (which have the receiver in the
first place) and results of types declared later are left out. -/
def allParams (U : Types T) (d : Decl T) : List (T × Nat) :=
  [(U.any, 16)] ++ d.params ++ (if U.structured d.result then [(U.ptrTo d.result, 8)] else [])

/-- `typeMakeStackFrameLayout`, `umka_types.c:847-874`. -/
def make (U : Types T) (d : Decl T) (localVarSlots : Int) : Res (Mem T) := do
  let ps := allParams U d
  let pl ← makeParamLayout (ps.map Prod.snd) (U.structured d.result)
  let m := List.replicate (blockSize ps.length) .undef
  let m ← write m 0 (.int pl.numParams)
  let m ← write m 1 (.int pl.numResultParams)
  let m ← write m 2 (.int pl.numParamSlots)
  let m ← writeAll m 3 (pl.firstSlotIndex.map .int)
  let m ← write m (← typesAt m) (.type (some d.result))
  let m ← writeAll m ((← typesAt m) + 1) (ps.map fun p => .type (some p.1))
  write m (← localAt m) (.int localVarSlots)

/-! ## Queries -/

/-- `umkaGetParam`, `umka_api.c:286-292`: the number of the slot, or `NULL`. -/
def getParam (m : Mem T) (index : Int) : Res (Option Int) := do
  let n ← readInt m 0
  let r ← readInt m 1
  if index < 0 ∨ index ≥ n - r - 1 then return none
  else return some (← readInt m (3 + (index + 1).toNat))

/-- `umkaGetUpvalue`, `umka_api.c:295-299`: the number of the slot. -/
def getUpvalue (m : Mem T) : Res Int := readInt m 3

/-- `umkaGetResult`, `umka_api.c:302-308`: what is in the slot of the result then; `params` are the slots of
the parameters, `result` is what was there before. -/
def getResult {V : Type} (m : Mem T) (params : Int → V) (result : V) : Res V := do
  let r ← readInt m 1
  if r = 1 then
    let n ← readInt m 0
    return params (← readInt m (3 + (n - 1).toNat))
  else return result

/-- `umkaGetParamType`, `umka_api.c:337-344`. -/
def getParamType (m : Mem T) (index : Int) : Res (Option T) := do
  let n ← readInt m 0
  let r ← readInt m 1
  if index < 0 ∨ index ≥ n - r - 1 then return none
  else readType m ((← typesAt m) + 1 + (index + 1).toNat)

/-- `umkaGetResultType`, `umka_api.c:347-351`. -/
def getResultType (m : Mem T) : Res (Option T) := do readType m (← typesAt m)

/-- The number of slots of local variables, as `doEnterFrame` reads it, `umka_vm.c:4004-4033`. -/
def getLocalVarSlots (m : Mem T) : Res Int := do readInt m (← localAt m)

/-! ## Calls when a chunk is freed -/

/-- The block of memory made by `doGetOnFreeParams`, `umka_vm.c:184-202`. -/
def onFreeBlock : Res (Mem T) := do
  let m := List.replicate (blockSize 2) .undef
  let m ← write m 0 (.int 2)
  let m ← write m 2 (.int 1)
  let m ← write m 1 (.int 0)
  let m ← write m 3 (.int 0)
  let m ← write m 4 (.int 0)
  let m ← write m (← typesAt m) (.type none)
  let m ← write m ((← typesAt m) + 1) (.type none)
  let m ← write m ((← typesAt m) + 2) (.type none)
  write m (← localAt m) (.int 0)

/-- What a callback does: it looks at its parameter (`umkaGetParam(params, 0)->ptrVal`), or drops the last
reference (`umkaDecRef`) to the chunk `q`, which has a callback of its own.  Chunks are numbers. -/
inductive Acts where
  | done
  | look (rest : Acts)
  | drop (q : Nat) (body rest : Acts)
  deriving DecidableEq, Repr

/-- `params[0].ptrVal` as the callback finds it; `s` is what is in the only slot, `umka_vm.c:204-208`. -/
def lookAt (s : Nat) : Res (Option Nat) := do
  match ← getParam (T := Nat) (← onFreeBlock) 0 with
  | some i => if i = 0 then return some s else .error .ub
  | none => return none

/-- The callback of the chunk `self`.  `s` is the slot; it is `static`, `umka_vm.c:203`: each call assigns its
chunk to it, `umka_vm.c:208, 753-757`.  The answer has the slot and what was seen, with who saw it. -/
def callback (self : Nat) : Acts → Nat → Nat × List (Nat × Res (Option Nat))
  | .done, s => (s, [])
  | .look rest, s =>
    let r := callback self rest s
    (r.1, (self, lookAt s) :: r.2)
  | .drop q body rest, _ =>
    let r := callback q body q
    let r' := callback self rest r.1
    (r'.1, r.2 ++ r'.2)

/-- A chunk is freed, `chunkRefCnt`, `umka_vm.c:753-757`: what its callback, and the callbacks called meanwhile,
have seen. -/
def onFree (p : Nat) (acts : Acts) : List (Nat × Res (Option Nat)) := (callback p acts p).2

end Umka.HostArgs
