import Verif.Map.Model

/-!
# Maps: specification

A map is an ideal finite map `K → Option V`, or uninitialised.  Only the operation and result
types are shared with the model; trees, priorities and lengths do not occur here.
-/

namespace Umka.Map.Spec

open Umka.Map (Op Out)

/-- Ideal map: has it been initialised, and which item does each key have. -/
structure State (K V : Type) where
  init : Bool
  item : K → Option V

/-- `cmp` is a three-way comparison: `cmp a b` is negative, zero or positive according to a total
order on `K`. -/
structure Lawful {K : Type} (cmp : K → K → Int) : Prop where
  eq_iff : ∀ a b, cmp a b = 0 ↔ a = b
  swap : ∀ a b, cmp a b < 0 ↔ cmp b a > 0
  trans : ∀ a b c, cmp a b < 0 → cmp b c < 0 → cmp a c < 0

/-- `ks` enumerates the keys of `m` in strictly ascending order. -/
def Enumerates {K V : Type} (cmp : K → K → Int) (m : K → Option V) (ks : List K) : Prop :=
  ks.Pairwise (fun a b => cmp a b < 0) ∧ ∀ k, k ∈ ks ↔ (m k).isSome

/-- `m'` is `m` with `k` bound to `v`. -/
def Binds {K V : Type} (m : K → Option V) (k : K) (v : V) (m' : K → Option V) : Prop :=
  m' k = some v ∧ ∀ k', k' ≠ k → m' k' = m k'

/-- `m'` is `m` without `k`. -/
def Unbinds {K V : Type} (m : K → Option V) (k : K) (m' : K → Option V) : Prop :=
  m' k = none ∧ ∀ k', k' ≠ k → m' k' = m k'

/-- What each operation may answer and leave behind.  Reading a missing key binds it to zero
(lang.md, "Index selector"); deleting from an uninitialised map is a run-time error. -/
def Step {K V : Type} (cmp : K → K → Int) (zero : V) (s : State K V) (op : Op K V) (o : Out K V)
    (s' : State K V) : Prop :=
  match op with
  | .make => o = .unit ∧ s'.init = true ∧ ∀ k, s'.item k = none
  | .set k v _ => o = .unit ∧ s'.init = true ∧ Binds s.item k v s'.item
  | .get k _ => o = .val ((s.item k).getD zero) ∧ s'.init = true ∧
      Binds s.item k ((s.item k).getD zero) s'.item
  | .del k =>
      if s.init then o = .unit ∧ s'.init = true ∧ Unbinds s.item k s'.item
      else o = .error "Map is null" ∧ s' = s
  | .validKey k => o = .bool (s.item k).isSome ∧ s' = s
  | .hostGet k => o = .optVal (s.item k) ∧ s' = s
  | .len => (∃ ks, Enumerates cmp s.item ks ∧ o = .int ks.length) ∧ s' = s
  | .keys => (∃ ks, Enumerates cmp s.item ks ∧ o = .list ks) ∧ s' = s

/-- The outputs `os` are possible for the history `ops` of an ideal map starting in `s`. -/
def Run {K V : Type} (cmp : K → K → Int) (zero : V) : State K V → List (Op K V) → List (Out K V) → Prop
  | _, [], [] => True
  | s, op :: ops, o :: os => ∃ s', Step cmp zero s op o s' ∧ Run cmp zero s' ops os
  | _, _, _ => False

end Umka.Map.Spec
