import Verif.Enum.Lemmas

/-!
# Enum: property C46
-/

namespace Umka.Enum.Props

open Umka.Arith (Kind Slot)
open Umka.Arith.Spec (InRange)

/-- **C46, enumerations** (partial: no explicit value of `2 ^ 63` or more; in enumerations based on `int` or `uint` no value of `2 ^ 63` or
more at all, and none below zero in those based on `uint` — see the violations below).  A legal enumeration type has exactly the constants
of the specification: omitted values continue the numbering, all values fit the base type, names and values are unique, and `zero` is added
if there is no constant zero.  Everything else is rejected with an error message. -/
theorem C46_enum_partial (k : Kind) (items : List Item) (hp : Plain k (-1) items) :
    (Legal k items → ∃ cs, parseEnumType k items = .ok cs ∧ cs.map (fun c => (c.1, c.2.toInt)) = constants items) ∧
    (¬ Legal k items → ∃ e, parseEnumType k items = .err e) := by
  have hm : ((-1 : Slot)).toInt = -1 := by decide
  obtain ⟨h1, h2⟩ := parseEnumItems_spec k items [] (-1) (by rw [hm]; exact hp) (.inl hm)
  rw [hm] at h1 h2
  rw [parseEnumType]
  have hlen : ∀ (p : Int) (is : List Item), (numbers p is).length = is.length := by
    intro p is
    induction is generalizing p with
    | nil => rfl
    | cons i is ih => rw [numbers, List.length_cons, List.length_cons, ih]
  by_cases hg : GoodFrom k [] (-1) items
  · obtain ⟨l, e1, e2, e3⟩ := h1 hg
    rw [List.nil_append] at e1
    rw [e1]
    dsimp only
    have hzip : l.map (fun c => (c.1, c.2.toInt)) = (items.map (·.name)).zip (numbers (-1) items) := by
      rw [← e2, ← e3, List.zip_map']
    have hz : (findByVal l 0).isSome = true ↔ 0 ∈ numbers (-1) items := by
      rw [findByVal_isSome, e3]; rfl
    have hfd : (find l zeroName).isSome = true ↔ zeroName ∈ items.map (·.name) := by
      rw [find_isSome, e2]
    obtain ⟨g1, g2, g3, g4⟩ := hg
    have g3' : (items.map (·.name)).Nodup := by simpa using g3
    have g4' : (numbers (-1) items).Nodup := by simpa using g4
    constructor
    · intro ⟨l1, l2, l3, l4, l5⟩
      by_cases h0 : (findByVal l 0).isSome = true
      · rw [if_pos h0]
        exact ⟨l, rfl, by rw [hzip, constants, if_pos (hz.mp h0), List.append_nil]⟩
      · have h0' := fun h => h0 (hz.mpr h)
        have hzn := fun h => l5 h0' (hfd.mp h)
        rw [if_neg h0, addConst, if_neg hzn, if_neg h0]
        exact ⟨_, rfl, by rw [List.map_append, hzip, constants, if_neg h0']; rfl⟩
    · intro hl
      by_cases h0 : (findByVal l 0).isSome = true
      · exact absurd ⟨g1, g2, g3', g4', fun h => absurd (hz.mp h0) h⟩ hl
      · rw [if_neg h0, addConst]
        by_cases hn : (find l zeroName).isSome = true
        · rw [if_pos hn]; exact ⟨_, rfl⟩
        · exact absurd ⟨g1, g2, g3', g4', fun _ h => hn (hfd.mpr h)⟩ hl
  · constructor
    · intro ⟨l1, l2, l3, l4, l5⟩
      exact absurd ⟨l1, l2, by simpa using l3, by simpa using l4⟩ hg
    · intro _
      obtain ⟨e, he⟩ := h2 hg (by simp) (by simp)
      rw [he]
      exact ⟨e, rfl⟩

/-- The value that the name of a constant stands for is the one it was declared with. -/
theorem C46_find (k : Kind) (items : List Item) (hp : Plain k (-1) items) (hl : Legal k items) :
    ∃ cs, parseEnumType k items = .ok cs ∧ ∀ n v, (n, v) ∈ constants items → ∃ s, find cs n = some (n, s) ∧ s.toInt = v := by
  obtain ⟨cs, h1, h2⟩ := (C46_enum_partial k items hp).1 hl
  refine ⟨cs, h1, ?_⟩
  intro n v hm
  have hnd : (cs.map (·.1)).Nodup := by
    have e : cs.map (·.1) = (constants items).map (·.1) := by rw [← h2, List.map_map]; rfl
    have hlen : (items.map (·.name)).length = (numbers (-1) items).length := by
      have : ∀ (p : Int) (is : List Item), (numbers p is).length = is.length := by
        intro p is
        induction is generalizing p with
        | nil => rfl
        | cons i is ih => rw [numbers, List.length_cons, List.length_cons, ih]
      rw [this, List.length_map]
    rw [e, constants, List.map_append, List.map_fst_zip (by omega)]
    split
    · simpa using hl.2.2.1
    · rename_i h0
      rw [List.nodup_append]
      refine ⟨hl.2.2.1, by simp, ?_⟩
      intro a ha b hb e
      simp at hb
      subst hb; subst e
      exact hl.2.2.2.2 h0 ha
  rw [← h2] at hm
  obtain ⟨⟨n', s⟩, hc, he⟩ := List.mem_map.mp hm
  simp only [Prod.mk.injEq] at he
  obtain ⟨rfl, rfl⟩ := he
  refine ⟨s, ?_, rfl⟩
  rw [find]
  clear hm h1 h2
  induction cs with
  | nil => cases hc
  | cons c cs ih =>
    rw [List.find?_cons]
    rw [List.map_cons, List.nodup_cons] at hnd
    rcases List.mem_cons.mp hc with e | hc
    · rw [← e]; simp
    · have : c.1 ≠ n' := fun e => hnd.1 (List.mem_map.mpr ⟨_, hc, e.symm⟩)
      rw [show (c.1 == n') = false from beq_eq_false_iff_ne.mpr this]
      exact ih hnd.2 hc

/-- `enum (uint8) {draw = 74; select; edit = 8; erase}`: 74, 75, 8, 9, and `zero`. -/
def sample : List Item := [⟨1, some ⟨.integer .int, 74⟩⟩, ⟨2, none⟩, ⟨3, some ⟨.integer .int, 8⟩⟩, ⟨4, none⟩]

example : Plain .uint8 (-1) sample ∧ Legal .uint8 sample := by
  refine ⟨⟨?_, by simp, by simp⟩, ?_, ?_, by decide, by decide, by decide⟩
  · intro i hi e he
    simp only [sample, List.mem_cons, List.not_mem_nil, or_false] at hi
    rcases hi with rfl | rfl | rfl | rfl <;> first | (cases he; done) | (cases he; decide)
  · intro i hi e he
    simp only [sample, List.mem_cons, List.not_mem_nil, or_false] at hi
    rcases hi with rfl | rfl | rfl | rfl <;> first | (cases he; done) | (cases he; exact ⟨_, rfl⟩)
  · decide
example : parseEnumType .uint8 sample = .ok [(1, 74), (2, 75), (3, 8), (4, 9), (0, 0)] := by decide
/-- `enum (uint8) {a = 255; b}` -/
example : parseEnumType .uint8 [⟨1, some ⟨.integer .int, 255⟩⟩, ⟨2, none⟩] = .err (.overflow .uint8) := by decide
/-- `enum {a; b = 0}` and `enum {zero = 1}` -/
example : parseEnumType .int [⟨1, none⟩, ⟨2, some ⟨.integer .int, 0⟩⟩] = .err (.duplicateValue 0) ∧
    parseEnumType .int [⟨0, some ⟨.integer .int, 1⟩⟩] = .err (.duplicateName 0) := by decide

/-- **C46 is false**: a negative value of an enumeration based on `uint`, and an unsigned value beyond `2 ^ 63` of one based on `int8`, are
not rejected: they become another number. -/
theorem C46_range_violated :
    ¬ Legal .uint [⟨1, some ⟨.integer .int, -1⟩⟩] ∧
    parseEnumType .uint [⟨1, some ⟨.integer .int, -1⟩⟩] = .ok [(1, 0xFFFFFFFFFFFFFFFF), (0, 0)] ∧
    ¬ Legal .int8 [⟨1, some ⟨.integer .uint, 0xFFFFFFFFFFFFFFFF⟩⟩] ∧
    parseEnumType .int8 [⟨1, some ⟨.integer .uint, 0xFFFFFFFFFFFFFFFF⟩⟩] = .ok [(1, -1), (0, 0)] := by
  refine ⟨fun h => absurd h.2.1 (by decide), by decide, fun h => absurd h.2.1 (by decide), by decide⟩

/-- **C46 is false**: after the largest `uint` the numbering starts again with 0, after the largest `int` it is undefined. -/
theorem C46_wrap_violated :
    ¬ Legal .uint [⟨1, some ⟨.integer .uint, 0xFFFFFFFFFFFFFFFF⟩⟩, ⟨2, none⟩] ∧
    parseEnumType .uint [⟨1, some ⟨.integer .uint, 0xFFFFFFFFFFFFFFFF⟩⟩, ⟨2, none⟩] = .ok [(1, 0xFFFFFFFFFFFFFFFF), (2, 0)] ∧
    parseEnumType .int [⟨1, some ⟨.integer .int, 0x7FFFFFFFFFFFFFFF⟩⟩, ⟨2, none⟩] = .ub := by
  refine ⟨fun h => absurd h.2.1 (by decide), by decide, by decide⟩

/-- **C46, constants** (partial: integer values are so far below `2 ^ 63` that the numbering does not reach it).  A constant without a value
has the type of the previous constant of the declaration, which must be an integer type, and the next number, which must fit the type.
Everything else is rejected. -/
theorem C46_const_partial (c0 : Slot) (items : List Item)
    (hp : ∀ item ∈ items, ∀ e k, item.expr = some e → e.type = .integer k → InRange k e.number ∧ e.number + items.length < 2 ^ 63) :
    match constNumbers none items with
    | some l => ∃ cs, parseConstDecl c0 items = .ok cs ∧ cs.map (fun x => (x.1, x.2.1, x.2.2.toInt)) = l
    | none => ∃ e, parseConstDecl c0 items = .err e :=
  parseConstItems_spec items none c0 hp (by intro t v h; cases h)

/-- `const (a = 5; b; c = uint8(255); d)`: `d` overflows; without it, `b` is 6.  `const (a = 'x'; b)` needs a value for `b`. -/
example : constNumbers none [⟨1, some ⟨.integer .int, 5⟩⟩, ⟨2, none⟩, ⟨3, some ⟨.integer .uint8, 255⟩⟩, ⟨4, none⟩] = none ∧
    parseConstDecl 77 [⟨1, some ⟨.integer .int, 5⟩⟩, ⟨2, none⟩, ⟨3, some ⟨.integer .uint8, 255⟩⟩, ⟨4, none⟩] = .err (.overflow .uint8) ∧
    constNumbers none [⟨1, some ⟨.integer .int, 5⟩⟩, ⟨2, none⟩] = some [(1, .integer .int, 5), (2, .integer .int, 6)] ∧
    parseConstDecl 77 [⟨1, some ⟨.ordinal .char, 5⟩⟩, ⟨2, none⟩] = .err .expectedEq ∧
    parseConstDecl 77 [⟨1, none⟩] = .err .expectedEq := by decide

end Umka.Enum.Props
