import Verif.ForIn.Model
import Verif.Map.Spec

/-!
# for...in: specification

The body is run once for each key of a list, in the order of the list.  There is no counter and no condition here.
-/

namespace Umka.ForIn.Spec

open Umka.Control.Spec (Res)

/-- For each key of the list: `bind` assigns the key and the item, then the body runs.  `break` ends the loop, `return` ends the function. -/
def visit {α τ ν : Type} (bind : τ → α → Option ν) (body : ν → Res ν) (mem : ν → τ) : List α → τ → Res τ
  | [], t => .done .normal t
  | k :: ks, t =>
    match bind t k with
    | none => .error
    | some v =>
      match body v with
      | .done .normal v => visit bind body mem ks (mem v)
      | .done .cont v => visit bind body mem ks (mem v)
      | .done .brk v => .done .normal (mem v)
      | .done .ret v => .done .ret (mem v)
      | .error => .error
      | .timeout => .timeout

/-- What is left in memory after a statement. -/
def onMem {ν τ : Type} (mem : ν → τ) : Res ν → Res τ
  | .done o v => .done o (mem v)
  | .error => .error
  | .timeout => .timeout

/-- The items of a collection at some time. -/
def items {K T ρ : Type} (u : User K T ρ) : Coll T → List T
  | .array r _ => u.arrays r
  | .dyn r => u.arrays r
  | .str s => s

/-- The length of a collection at some time: that of the type for static arrays. -/
def length {K T ρ : Type} (u : User K T ρ) : Coll T → Nat
  | .array _ n => n
  | .dyn r => (u.arrays r).length
  | .str s => s.length

/-- Index `i`, and item number `i` as it is now, or a pointer to it; an error if there is no such item any more. -/
def seqBind {K T ρ : Type} (form : Form) (c : Coll T) (u : User K T ρ) (i : Nat) : Option (View Int K T ρ) :=
  match form, c with
  | .none, _ => some ⟨u, i, none⟩
  | .byValue, c => if i < length u c then ((items u c)[i]?).map fun t => ⟨u, i, some (.value t)⟩ else none
  | .byPtr, .str _ => none
  | .byPtr, .array r n => if i < n then some ⟨u, i, some (.inArray r i)⟩ else none
  | .byPtr, .dyn r => if i < (u.arrays r).length then some ⟨u, i, some (.inArray r i)⟩ else none

/-- `for i, x in e`: the collection is evaluated once, and the body runs for 0, 1, ..., n - 1, where n is the length at that time. -/
def forSeq {K T ρ : Type} (e : User K T ρ → Option (User K T ρ × Coll T)) (form : Form) (body : View Int K T ρ → Res (View Int K T ρ))
    (u : User K T ρ) : Res (User K T ρ) :=
  match e u with
  | none => .error
  | some (u, c) => visit (seqBind form c) body (·.user) (List.range (length u c)) u

/-- Replace the map `r`. -/
def setMap {K T ρ : Type} (u : User K T ρ) (r : Nat) (m : Umka.Map.MapVal K T) : User K T ρ :=
  { u with maps := fun r' => if r' = r then m else u.maps r' }

/-- Key and item.  The item is what `m[k]` (see C01) gives now, or a pointer to it; `m[k]` creates a missing item. -/
def mapBind {K T ρ : Type} (cmp : K → K → Int) (zero : T) (rand : User K T ρ → Int) (form : Form) (r : Nat) (u : User K T ρ) (k : K) :
    Option (View (Option K) K T ρ) :=
  let get := Umka.Map.step cmp zero (u.maps r) (.get k (rand u))
  match form with
  | .none => some ⟨u, some k, none⟩
  | .byPtr => some ⟨setMap u r get.1, some k, some (.inMap r k)⟩
  | .byValue =>
    match get.2 with
    | .val t => some ⟨setMap u r get.1, some k, some (.value t)⟩
    | _ => none

open Classical in
/-- What a statement does, with as many iterations as it needs; `timeout` if it runs forever. -/
noncomputable def meaning {σ : Type} (p : Control.Spec.Stmt σ) (s : σ) : Res σ :=
  if h : ∃ n, Control.Spec.exec n p s ≠ .timeout then Control.Spec.exec h.choose p s else .timeout

/-- The body does not assign the index variable, unless it leaves the loop. -/
def KeepsIndex {K T ρ : Type} (body : Control.Spec.Stmt (View Int K T ρ)) : Prop :=
  ∀ v o v', Control.Spec.Ends body v o v' → o = .normal ∨ o = .cont → v'.key = v.key

/-- Strings of the collection have fewer than 2147483648 characters. -/
def NotHuge {T : Type} : Coll T → Prop
  | .str s => s.length ≤ 2147483647
  | _ => True

end Umka.ForIn.Spec
