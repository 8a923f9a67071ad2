import Verif.Spell.Lemmas
/-! # Spelling of types in messages: C98 -/

namespace Umka.Spell.Props

open Spec

/-- C98: unless the spelling of a pointer or of a dynamic array in it is too long for the buffer, the spelling of a type in a message is the type as one would
write it, cut at 255 characters. -/
theorem C98_cut_partial (t : T) (h : Fits 10 t) : typeSpelling t = some ((full 10 t).take 255) := (spelling_gives 10 t).1 h

/-- C98: a spelling of up to 255 characters is shown as it is. -/
theorem C98_short (t : T) (h : (full 10 t).length ≤ 255) : typeSpelling t = some (full 10 t) := by
  rw [C98_cut_partial t (short_fits 10 t (by omega)), List.take_of_length_le h]

/-- C98: otherwise memory after a buffer is overwritten; these are exactly the cases. -/
theorem C98_overflow (t : T) : typeSpelling t = none ↔ ¬ Fits 10 t := by
  refine ⟨fun h hf => ?_, (spelling_gives 10 t).2⟩
  rw [C98_cut_partial t hf] at h
  exact nomatch h

/-- C98 in particular: what is shown never exceeds the buffer. -/
theorem C98_bounded (t : T) (s : Text) (h : typeSpelling t = some s) : s.length ≤ 255 ∧ s <+: full 10 t := by
  have hf : Fits 10 t := Classical.byContradiction fun hn => by rw [(C98_overflow t).mpr hn] at h; exact nomatch h
  rw [C98_cut_partial t hf] at h
  rw [← Option.some.inj h, List.length_take]
  exact ⟨by omega, List.take_prefix _ _⟩

/-- A type with a name of 255 characters, which is what an identifier can have. -/
def long : T := .named (List.replicate 255 'a')

/-- C98 fails: the spelling of a pointer to a type with the longest name overwrites the byte after the buffer, and that of a weak pointer to it six bytes. -/
theorem C98_overflow_violated : typeSpelling (.pre .ptr long) = none ∧ typeSpelling (.pre .weak long) = none ∧ typeSpelling long = some (List.replicate 255 'a') := by
  refine ⟨(C98_overflow _).mpr fun h => ?_, (C98_overflow _).mpr fun h => ?_, C98_short long ?_⟩
  · rw [Fits] at h
    exact absurd h.1 (by decide +kernel)
  · rw [Fits] at h
    exact absurd h.1 (by decide +kernel)
  · decide +kernel

/-! ## Concrete cases -/

/-- `fn (^T) (x: []int, m: map[str][3]real): { ^void bool }`. -/
def sample : T :=
  .fn true (.pre .ptr (.named "T".toList)) [.pre .dynArray (.other "int".toList), .map (.other "str".toList) (.array 3 (.other "real".toList))]
    false (.list [.pre .ptr (.other "void".toList), .other "bool".toList]) true

example : full 10 sample = "fn (^T) ([]int, map[str][3]real): { ^void bool } |...|".toList := by decide +kernel

example : typeSpelling sample = some "fn (^T) ([]int, map[str][3]real): { ^void bool } |...|".toList := by decide +kernel

example : Fits 10 sample := short_fits 10 sample (by decide +kernel)

/-- Twelve pointers. -/
def deep : Nat → T
  | 0 => .other "int".toList
  | n + 1 => .pre .ptr (deep n)

example : typeSpelling (deep 12) = some "^^^^^^^^^^^...".toList := by decide +kernel

example : typeSpelling (deep 10) = some "^^^^^^^^^^int".toList := by decide +kernel

/-- A map whose spelling is cut. -/
example : Fits 10 (.map long long) := by simp only [Fits, long]; exact ⟨trivial, fun _ => trivial⟩

example : typeSpelling (.map long long) = some ("map[".toList ++ List.replicate 251 'a') := by decide +kernel

example : typeSpelling (.enum "int32".toList) = some "enum(int32)".toList := by decide +kernel

end Umka.Spell.Props
