import Verif.Types.Lemmas
/-!
# Types: properties

C39: equivalence of types.  C60: comparable types.
-/

namespace Umka.Types.Props

/-- **C39.**  The check terminates for all types, however recursive: with a bound of `n * n + 1` on the depth of recursion,
where `n` is the number of types in the program, it always has a result.  The result is `true` exactly for equivalent
types. -/
theorem C39_decides (g : Graph) (depth : Nat) (hd : g.n * g.n < depth) (l r : Fin g.n) :
    (equivalent g depth l r = some true ↔ Equivalent g l r) ∧
    (equivalent g depth l r = some false ↔ ¬ Equivalent g l r) := by
  have hs : (equivalent g depth l r).isSome = true := equivRec_some (List.nodup_nil) (by simpa using hd)
  have h1 : equivalent g depth l r = some true → Equivalent g l r := equivRec_sound
  have h2 : Equivalent g l r → equivalent g depth l r ≠ some false := fun ⟨_, hR, h⟩ => equivRec_not_false hR h
  cases h : equivalent g depth l r with
  | none => rw [h] at hs; cases hs
  | some b =>
    cases b
    · exact ⟨⟨fun h => (by cases h), fun he => absurd h (h2 he)⟩, ⟨fun _ he => absurd h (h2 he), fun _ => rfl⟩⟩
    · exact ⟨⟨fun _ => h1 h, fun _ => rfl⟩, ⟨fun h => (by cases h), fun hn => absurd (h1 h) hn⟩⟩

/-- **C39.**  Every type is equivalent to itself. -/
theorem C39_reflexive (g : Graph) (depth : Nat) (hd : g.n * g.n < depth) (t : Fin g.n) :
    equivalent g depth t t = some true := (C39_decides g depth hd t t).1.mpr (equivalent_refl g t)

/-- **C39.**  The result of the check does not depend on the order of the types. -/
theorem C39_symmetric {g : Graph} (w : WellFormed g) (depth : Nat) (hd : g.n * g.n < depth) {l r : Fin g.n}
    (hl : Proper g l) (hr : Proper g r) : equivalent g depth l r = equivalent g depth r l := by
  have h1 := C39_decides g depth hd l r
  have h2 := C39_decides g depth hd r l
  by_cases h : Equivalent g l r
  · rw [h1.1.mpr h, h2.1.mpr (equivalent_symm w hl hr h)]
  · rw [h1.2.mpr h, h2.2.mpr fun h' => h (equivalent_symm w hr hl h')]

/-- **C39**, transitivity, partial: if no declared type occurs in one of the two outer types.  In general it is false
(`C39_transitive_violated`). -/
theorem C39_transitive_partial {g : Graph} (w : WellFormed g) (depth : Nat) (hd : g.n * g.n < depth) {a b c : Fin g.n}
    (ha : Proper g a) (hb : Proper g b) (hc : Proper g c)
    (hn : (∀ t, Occurs g t a → ¬ Named g t) ∨ (∀ t, Occurs g t c → ¬ Named g t))
    (h1 : equivalent g depth a b = some true) (h2 : equivalent g depth b c = some true) :
    equivalent g depth a c = some true :=
  (C39_decides g depth hd a c).1.mpr
    (equivalent_trans w ha hb hc hn ((C39_decides g depth hd a b).1.mp h1) ((C39_decides g depth hd b c).1.mp h2))

/-- **C60.**  The comparison operators are accepted for a type exactly if all parts of its values that a comparison has to
look at are numbers, characters, booleans, pointers, strings, arrays or structures; the check terminates for all types. -/
theorem C60_comparable (g : Graph) (depth : Nat) (hd : g.n < depth) (t : Fin g.n) :
    (comparable g depth t = some true ↔ ∀ s, Part g s t → BasicOrArrayOrStruct g s) ∧
    (comparable g depth t = some false ↔ ¬ ∀ s, Part g s t → BasicOrArrayOrStruct g s) := by
  have hs : (comparable g depth t).isSome = true := comparableRec_some (List.nodup_nil) (by simpa using hd)
  have h1 : comparable g depth t = some true → ∀ s, Part g s t → BasicOrArrayOrStruct g s := fun h s hp =>
    compApprox_parts hp fun k => comparableRec_approx (fun v hv => by cases hv) h
  have h2 : (∀ s, Part g s t → BasicOrArrayOrStruct g s) → comparable g depth t ≠ some false := comparableRec_not_false
  cases h : comparable g depth t with
  | none => rw [h] at hs; cases hs
  | some b =>
    cases b
    · exact ⟨⟨fun h => (by cases h), fun he => absurd h (h2 he)⟩, ⟨fun _ he => absurd h (h2 he), fun _ => rfl⟩⟩
    · exact ⟨⟨fun _ => h1 h, fun _ => rfl⟩, ⟨fun h => (by cases h), fun hn => absurd (h1 h) hn⟩⟩

/-! ## Examples -/

def noSig {n : Nat} [NeZero n] : Sig n := ⟨[], 0, false, false, 0⟩
def mk {n : Nat} [NeZero n] (kind : Kind) (ident : Option Nat) (base : Fin n) (fields : List (Field n)) : Node n :=
  ⟨kind, 0, fields.length, false, ident, base, fields, noSig⟩

/-- `type (A = struct {next: ^A}; B = struct {next: ^B})`, and the anonymous types `struct {next: ^A}` (0: `A`, 1: `^A`,
2: `B`, 3: `^B`, 4: `struct {next: ^A}`, 5: its copy, 6: `^` of 5 …).  Node 6 and 7 make an anonymous recursive type:
6: `struct {next: ^6}`, 7: `^6`. -/
def lists : Graph where
  n := 8
  node := fun i => match i with
    | 0 => mk .struct (some 10) 0 [⟨"next", 1⟩]
    | 1 => mk .ptr none 0 []
    | 2 => mk .struct (some 11) 0 [⟨"next", 3⟩]
    | 3 => mk .ptr none 2 []
    | 4 => mk .struct none 0 [⟨"next", 1⟩]
    | 5 => mk .int none 0 []
    | 6 => mk .struct none 0 [⟨"next", 7⟩]
    | 7 => mk .ptr none 6 []
  dflt := fun a b => a == b

instance {k : Nat} : OfNat (Fin lists.n) k := inferInstanceAs (OfNat (Fin 8) k)

/-- Named recursive types are different; the anonymous ones are equivalent to both of them. -/
example : equivalent lists 65 0 2 = some false ∧ equivalent lists 65 0 4 = some true ∧
    equivalent lists 65 0 6 = some true ∧ equivalent lists 65 6 2 = some true ∧
    equivalent lists 65 4 6 = some true ∧ equivalent lists 65 5 7 = some false := by decide +kernel

theorem lists_wf : WellFormed lists where
  dflt_refl := fun a => by simp [lists]
  dflt_symm := fun a b h => by simp [lists] at h ⊢; exact h.symm
  dflt_trans := fun a b c h1 h2 => by simp [lists] at h1 h2 ⊢; exact h1.trans h2
  names := by unfold Named SameName; decide +kernel
  methods := by decide +kernel
  noMethods := by decide +kernel

example : Proper lists 0 ∧ Proper lists 6 := by constructor <;> (unfold Proper; decide +kernel)

/-- **C39**, transitivity, false in general: with `type (A = struct {next: ^A}; B = struct {next: ^B})`, `A` is equivalent to a
structure type without a name, which is equivalent to `B`, but `A` is not equivalent to `B`. -/
theorem C39_transitive_violated : ∃ (g : Graph) (a b c : Fin g.n), WellFormed g ∧ Proper g a ∧ Proper g b ∧ Proper g c ∧
    Equivalent g a b ∧ Equivalent g b c ∧ ¬ Equivalent g a c := by
  refine ⟨lists, 0, 6, 2, lists_wf, ?_, ?_, ?_, ?_, ?_, ?_⟩
  · unfold Proper; decide +kernel
  · unfold Proper; decide +kernel
  · unfold Proper; decide +kernel
  · exact (C39_decides lists 65 (by decide) 0 6).1.mp (by decide +kernel)
  · exact (C39_decides lists 65 (by decide) 6 2).1.mp (by decide +kernel)
  · exact (C39_decides lists 65 (by decide) 0 2).2.mp (by decide +kernel)

/-- A type without names, in the sense of `C39_transitive_partial`: the recursive type 6. -/
example : ∀ t, Occurs lists t 6 → ¬ Named lists t := by
  intro t h
  have key : ∀ s, Occurs lists t s → s = 6 ∨ s = 7 → t = 6 ∨ t = 7 := by
    intro s h
    induction h with
    | refl => exact id
    | step hc _ ih =>
      rintro (rfl | rfl)
      · apply ih
        have : children lists 6 = [7] := by decide +kernel
        rw [this] at hc; right; simpa using hc
      · apply ih
        have : children lists 7 = [6] := by decide +kernel
        rw [this] at hc; left; simpa using hc
  rcases key 6 h (Or.inl rfl) with rfl | rfl <;> (unfold Named; decide +kernel)

/-- `[]T` for `type T = struct {a: []T; b: int}` can be compared; with an additional field of type `map[int]int` it cannot. -/
def rec1 (bad : Bool) : Graph where
  n := 4
  node := fun i => match i with
    | 0 => mk .struct (some 10) 0 ([⟨"a", 1⟩, ⟨"b", 2⟩] ++ if bad then [⟨"c", 3⟩] else [])
    | 1 => mk .dynarray none 0 []
    | 2 => mk .int none 0 []
    | 3 => mk .map none 0 []
  dflt := fun a b => a == b

instance {b : Bool} {k : Nat} : OfNat (Fin (rec1 b).n) k := inferInstanceAs (OfNat (Fin 4) k)

example : comparable (rec1 false) 5 1 = some true ∧ comparable (rec1 true) 5 1 = some false := by decide +kernel

end Umka.Types.Props
