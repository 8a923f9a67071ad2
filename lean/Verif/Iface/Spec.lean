import Verif.Types.Spec
import Verif.Arith.Spec
import Verif.Iface.Model
/-!
# Interfaces: specification

What a program can do with interfaces: an expression of some type is converted to an interface, the result to another interface, and so on,
some of the interfaces being stored in variables on the way.
-/

namespace Umka.Iface

open Umka.Types (Graph Kind Node Field Equivalent WellFormed)
open Umka.Arith (Slot Mem)

/-- One use of an interface. -/
inductive Use (n : Nat)
  /-- `dest(i)`, or `i` given where `dest` is expected; the result is an area of the stack -/
  | convert (dest : Fin n) (area : Nat)
  /-- `var x: dest = i` followed by a use of `x`, which is the variable at the address `var` -/
  | store (dest : Fin n) (area var : Nat)

/-- The code for a list of uses, and the type of the result (`genSwapAssign` of an interface copies `dest->size` bytes). -/
def uses (e : Env) (src srcPtr : Fin e.g.n) : List (Use e.g.n) → Option (List (Instr e.g.n) × Fin e.g.n)
  | [] => some ([], src)
  | .convert dest area :: us => do
    let q ← toIface e dest src srcPtr area
    let q' ← uses e q.2 srcPtr us
    return (q.1 ++ q'.1, q'.2)
  | .store dest area var :: us => do
    let q ← toIface e dest src srcPtr area
    let q' ← uses e dest srcPtr us
    return (q.1 ++ ([.push (BitVec.ofNat 64 var), .swapAssign .interface (8 * (e.g.node dest).fields.length), .push (BitVec.ofNat 64 var)] ++ q'.1), q'.2)

/-- The parts of memory that the results of conversions and the variables take: address and size. -/
def regions (e : Env) : List (Use e.g.n) → List (Nat × Nat)
  | [] => []
  | .convert dest area :: us => (area, 8 * (e.g.node dest).fields.length) :: regions e us
  | .store dest area var :: us =>
    (area, 8 * (e.g.node dest).fields.length) :: (var, 8 * (e.g.node dest).fields.length) :: regions e us

def Disjoint (r s : Nat × Nat) : Prop := r.1 + r.2 ≤ s.1 ∨ s.1 + s.2 ≤ r.1

/-- A part of memory that exists. -/
def Valid (r : Nat × Nat) : Prop := 0 < r.1 ∧ r.1 + r.2 < 2 ^ 64

instance (r s : Nat × Nat) : Decidable (Disjoint r s) := inferInstanceAs (Decidable (_ ∨ _))

instance (r : Nat × Nat) : Decidable (Valid r) := inferInstanceAs (Decidable (_ ∧ _))

/-- `a` belongs to the part `r` of memory. -/
def In (r : Nat × Nat) (a : Nat) : Prop := r.1 ≤ a ∧ a < r.1 + r.2

/-- The variables and areas are different parts of memory, none of which overlaps the next block on the heap. -/
structure Fits (e : Env) (us : List (Use e.g.n)) (block : Nat × Nat) : Prop where
  valid : ∀ r ∈ regions e us, Valid r
  pairwise : (regions e us).Pairwise Disjoint
  block : ∀ r ∈ regions e us, Disjoint r block
  interfaces : ∀ u ∈ us, match u with | .convert d _ => e.kind d = .interface | .store d _ _ => e.kind d = .interface

/-- `p` is a type `^t` written without a name; this is what `typeAddPtrTo` makes (`umka_types.c:174-184`). -/
def IsPtrTo (g : Graph) (p t : Fin g.n) : Prop :=
  (g.node p).kind = .ptr ∧ (g.node p).base = t ∧ (g.node p).typeIdent = none

/-- What the compiler guarantees about types: see `Verif/Types` and `Verif/Layout`; an interface starts with two hidden fields
(`umka_decl.c:447-449`, `umka_types.c:72-75`), and its fields have different names (`umka_types.c:688`). -/
structure Env.Ok (e : Env) : Prop where
  count : e.g.n + 1 < 2 ^ 64
  types : WellFormed e.g
  hidden : ∀ t, e.kind t = .interface → ∃ rest, (e.g.node t).fields.map (·.name) = "#self" :: "#selftype" :: rest
  names : ∀ t, e.kind t = .interface → ((e.g.node t).fields.map (·.name)).Nodup
  ordinal : ∀ t o, ordinal (e.kind t) = some o → e.size t = Arith.Spec.size o
  real32 : ∀ t, e.kind t = .real32 → e.size t = 4
  word : ∀ t, e.kind t ∈ [.real, .ptr, .weakptr, .str, .fiber, .fn] → e.size t = 8

/-- The value that a slot stands for: itself, or the bytes it points to. -/
def value (k : Kind) (size : Nat) (m : Mem) (v : Slot) : Slot ⊕ List (BitVec 8) :=
  if structured k then .inr ((List.range size).map fun i => m (v.toNat + i)) else .inl v

/-- `v` can be the value of an expression of kind `k`.  For `real32`: it is not more precise than the type. -/
def IsValue (fp : FP) (k : Kind) (v : Slot) : Prop :=
  (k = .real32 → fp.widen (fp.narrow v) = v) ∧ (structured k = true → v ≠ 0)

/-- Kinds of types that expressions have, except pointers and interfaces. -/
def Plain (k : Kind) : Prop :=
  k ∈ [.int8, .int16, .int32, .int, .uint8, .uint16, .uint32, .uint, .bool, .char, .real32, .real, .weakptr, .array, .dynarray, .str, .map,
    .struct, .closure, .fiber, .fn]

instance (k : Kind) : Decidable (Plain k) := inferInstanceAs (Decidable (_ ∈ _))

/-- `m` is a method called `name` declared for the type `t`, which has a name.  It is visible in the module that is compiled: unless it is
declared in this module (0: in every module), it is exported. -/
def Declared (e : Env) (name : String) (t : Fin e.g.n) (m : Method e.g.n) : Prop :=
  m ∈ e.methods ∧ m.name = name ∧ e.kind m.rcv = .ptr ∧
  (e.g.node (e.g.node m.rcv).base).typeIdent = (e.g.node t).typeIdent ∧
  ∃ id, (e.g.node t).typeIdent = some id ∧ (m.module = 0 ∨ m.module = e.typeModule id) ∧
    (m.module = 0 ∨ m.module = e.module ∨ m.exported = true)

/-- Values of the one type are accepted where the other type is expected: the types are equivalent, or both are integers, or both are real. -/
def Compatible (g : Graph) (l r : Fin g.n) : Prop :=
  Equivalent g l r ∨ ((g.node l).integer = true ∧ (g.node r).integer = true) ∨ ((g.node l).real = true ∧ (g.node r).real = true)

/-- The types are linked by a chain of compatible types (compatibility is not transitive, see C39). -/
inductive Agrees (g : Graph) : Fin g.n → Fin g.n → Prop
  | one {a b : Fin g.n} : Compatible g a b → Agrees g a b
  | cons {a b c : Fin g.n} : Compatible g a b → Agrees g b c → Agrees g a c

/-- The method `name` of the interface type `t` has a signature that agrees with that of `m`. -/
def Signature (e : Env) (t : Fin e.g.n) (name : String) (m : Method e.g.n) : Prop :=
  ∃ f ∈ (e.g.node t).fields, f.name = name ∧ Agrees e.g f.type m.type

end Umka.Iface
