import Verif.Asm.Lemmas
/-!
# The listing: properties

C96: the listing of a program shows every instruction.
-/

namespace Umka.Asm.Props

open Spec

/-! ## Texts without end-of-string bytes -/

theorem clean_append {a b : Text} (ha : Clean a) (hb : Clean b) : Clean (a ++ b) := by
  unfold Clean
  rw [List.mem_append]
  rintro (h | h)
  · exact ha h
  · exact hb h

theorem clean_cons {c : Char} {a : Text} (hc : c ≠ nul) (ha : Clean a) : Clean (c :: a) := by
  unfold Clean
  rw [List.mem_cons]
  rintro (h | h)
  · exact hc h.symm
  · exact ha h

theorem clean_flatten {l : List Text} (h : ∀ t ∈ l, Clean t) : Clean l.flatten := by
  intro hm
  obtain ⟨t, ht, hn⟩ := List.mem_flatten.mp hm
  exact h t ht hn

theorem clean_nat (n : Nat) : Clean (toString n).toList := by
  intro h
  have h' : nul ∈ Nat.toDigits 10 n := by
    have e : (toString n).toList = Nat.toDigits 10 n := by
      show (Nat.repr n).toList = _
      simp [Nat.repr]
    rw [e] at h
    exact h
  have := Nat.isDigit_of_mem_toDigits (by decide) (by decide) h'
  revert this
  decide

theorem clean_decimal (n : Int) : Clean (decimal n) := by
  unfold decimal
  cases n with
  | ofNat k => exact clean_nat k
  | negSucc k =>
    have : (toString (Int.negSucc k)).toList = '-' :: (toString (k + 1)).toList := by
      show ("-" ++ Nat.repr (k + 1)).toList = _
      simp
    rw [this]
    exact clean_cons (by decide) (clean_nat _)

theorem clean_pad {c : Char} {w : Nat} {t : Text} (hc : c ≠ nul) (ht : Clean t) : Clean (pad c w t) := by
  refine clean_append (fun h => ?_) ht
  exact hc (List.eq_of_mem_replicate h).symm

theorem clean_fn {N : Names} {code : List Instr} {debug : List Debug} (h : CleanNames N code debug) (k : Int) : Clean (fnAt debug k) := by
  unfold fnAt
  split
  · rename_i d hd
    exact (h.debug d (List.mem_of_getElem? hd)).2
  · exact List.not_mem_nil

theorem clean_place {N : Names} {code : List Instr} {debug : List Debug} (h : CleanNames N code debug) (p : Nat) : Clean (place N p) := by
  unfold place
  split
  · rename_i t ht
    exact h.global p t ht
  · exact h.ptr p

theorem clean_words {N : Names} {code : List Instr} {debug : List Debug} (h : CleanNames N code debug) {i : Instr} (hi : i ∈ code) :
    ∀ w ∈ words N debug i, Clean w := by
  intro w hw
  obtain ⟨h1, h2, h3⟩ := h.code i hi
  unfold words at hw
  rw [List.mem_append, List.mem_append, List.mem_append] at hw
  rcases hw with ((hw | hw) | hw) | hw
  · exact h1 w (Option.mem_toList.mp hw)
  · exact h2 w (Option.mem_toList.mp hw)
  · split at hw
    · obtain ⟨⟨k, t⟩, hk, rfl⟩ := Option.map_eq_some_iff.mp (Option.mem_toList.mp hw)
      exact h3 k t hk
    · exact absurd hw (List.not_mem_nil)
  · have hd := clean_decimal
    repeat' split at hw
    all_goals simp only [List.mem_cons, List.not_mem_nil, or_false] at hw
    all_goals first
      | exact hw ▸ hd _
      | exact hw ▸ clean_place h _
      | exact hw ▸ h.real _
      | exact hw ▸ h.reg _
      | exact hw ▸ h.ptr _
      | exact hw ▸ h.builtin _
      | skip
    · rcases hw with rfl | rfl
      · exact clean_fn h _
      · exact clean_cons (by decide) (clean_append (hd _) (by unfold Clean; decide))
    · rcases hw with rfl | rfl <;> exact hd _

theorem clean_listing {N : Names} {code : List Instr} {debug : List Debug} (h : CleanNames N code debug) : Clean (listing N code debug) := by
  refine clean_flatten fun t ht => ?_
  obtain ⟨ip, _, rfl⟩ := List.mem_map.mp ht
  split
  · rename_i i d hi hd
    have hi := List.mem_of_getElem? hi
    have hd := h.debug d (List.mem_of_getElem? hd)
    generalize (if ip = 0 then none else debug[ip - 1]?) = prev
    refine clean_append (clean_append (clean_append ?_ ?_) ?_) ?_
    · split
      · exact clean_append (clean_append (by unfold Clean; decide) hd.1) (by unfold Clean; decide)
      · exact List.not_mem_nil
    · split
      · exact clean_append (clean_append (by unfold Clean; decide) hd.2) (by unfold Clean; decide)
      · exact List.not_mem_nil
    · refine clean_append (clean_append (clean_append (clean_append (clean_pad (by decide) (clean_decimal _))
        (clean_cons (by decide) (clean_pad (by decide) (clean_decimal _)))) (clean_cons (by decide) (clean_pad (by decide) (h.opcode _)))) ?_) (by unfold Clean; decide)
      refine clean_flatten fun t ht => ?_
      obtain ⟨w, hw, rfl⟩ := List.mem_map.mp ht
      exact clean_cons (by decide) (clean_words h hi w hw)
    · split
      · unfold Clean; decide
      · exact List.not_mem_nil
  · exact List.not_mem_nil

/-! ## The properties -/

/-- The listing ends with the end of a line. -/
theorem listing_getLast (N : Names) {capacity : Nat} {code : List Instr} {debug : List Debug} (h : Program capacity code debug) :
    (listing N code debug).getLast? = some '\n' := by
  obtain ⟨front, last, rfl, _, _⟩ := h.last
  have hd := h.debug
  rw [List.length_append] at hd
  have hl : (front ++ [last])[front.length]? = some last := by simp
  have hlt : front.length < debug.length := by rw [hd]; exact Nat.lt_succ_self _
  unfold listing
  rw [List.length_append, List.length_singleton, List.range_succ, List.map_append, List.flatten_append, List.getLast?_append]
  rw [List.map_singleton, hl, List.getElem?_eq_getElem hlt]
  dsimp only
  rw [List.flatten_singleton, section', List.getLast?_append]
  split
  · rfl
  · rw [Spec.line, List.getLast?_append, List.getLast?_append]; rfl

/-- **C96, except for the last end of line**: the listing of a program shows all its modules, functions and instructions, in order; the call has no undefined
behaviour, whatever the length of the listing.  Missing: the end of the last line, see `C96_last_violated`. -/
theorem C96_listing_partial {N : Names} {capacity : Nat} {code : List Instr} {debug : List Debug} (h : Program capacity code debug) (hc : CleanNames N code debug) :
    asm N capacity code debug = some (listing N code debug).dropLast :=
  asm_eq N h (fun e => by have := listing_getLast N h; rw [e] at this; exact nomatch this) (clean_listing hc)

/-- **C96**: what is lost is exactly the end of the last line: nothing of any instruction. -/
theorem C96_lost {N : Names} {capacity : Nat} {code : List Instr} {debug : List Debug} (h : Program capacity code debug) (hc : CleanNames N code debug) :
    ∃ t, asm N capacity code debug = some t ∧ t ++ ['\n'] = listing N code debug := by
  refine ⟨_, C96_listing_partial h hc, ?_⟩
  obtain ⟨hne, he⟩ := List.getLast?_eq_some_iff.mp (listing_getLast N h)
  rw [he, List.dropLast_concat]

/-- **C96 is violated**: no program has its whole listing shown: the end of the last line is always missing. -/
theorem C96_last_violated {N : Names} {capacity : Nat} {code : List Instr} {debug : List Debug} (h : Program capacity code debug) (hc : CleanNames N code debug) :
    asm N capacity code debug ≠ some (listing N code debug) := by
  obtain ⟨t, h1, h2⟩ := C96_lost h hc
  rw [h1, ← h2]
  intro e
  have := congrArg List.length (Option.some.inj e)
  simp at this

/-! ## Example -/

/-- Spellings for the example. -/
def names : Names where
  opcode
    | .push => "PUSH".toList
    | .goto => "GOTO".toList
    | .enterFrame => "ENTER_FRAME".toList
    | .return => "RETURN".toList
    | .call => "CALL".toList
    | .halt => "HALT".toList
    | _ => "NOP".toList
  reg _ := "RESULT".toList
  builtin _ := "printf".toList
  global p := if p = 7 then some "counter".toList else none
  real _ := "0.5".toList
  ptr _ := "0x10".toList

def exampleCode : List Instr :=
  [⟨.goto, none, none, none, 4, 0, 0, 0, 0⟩, ⟨.enterFrame, none, none, none, 0, 0, 0, 0, 16⟩, ⟨.push, none, none, some (.ptr, "^".toList), 0, 0, 0, 0, 7⟩,
   ⟨.return, none, none, none, 1, 0, 0, 0, 0⟩, ⟨.call, none, none, none, 1, 0, 0, 0, 0⟩, ⟨.halt, none, none, none, 0, 0, 0, 0, 0⟩]

def exampleDebug : List Debug :=
  [⟨"main.um".toList, "<unknown>".toList, 1⟩, ⟨"main.um".toList, "main".toList, 2⟩, ⟨"main.um".toList, "main".toList, 3⟩,
   ⟨"main.um".toList, "main".toList, 4⟩, ⟨"<unknown>".toList, "<unknown>".toList, 1⟩, ⟨"<unknown>".toList, "<unknown>".toList, 1⟩]

theorem example_program : Program 100 exampleCode exampleDebug where
  last := ⟨exampleCode.dropLast, exampleCode.getLast (by decide), rfl, by decide, by decide⟩
  debug := rfl
  jumps := by decide
  room := by decide

theorem example_clean : CleanNames names exampleCode exampleDebug where
  opcode := by unfold Clean; intro o; cases o <;> decide
  reg := by unfold Clean; intro k; show nul ∉ "RESULT".toList; decide
  builtin := by unfold Clean; intro k; show nul ∉ "printf".toList; decide
  global := by
    unfold Clean
    intro p t h
    have h' : (if p = 7 then some "counter".toList else none) = some t := h
    split at h'
    · cases h'; decide
    · exact nomatch h'
  real := by unfold Clean; intro k; show nul ∉ "0.5".toList; decide
  ptr := by unfold Clean; intro k; show nul ∉ "0x10".toList; decide
  debug := by unfold Clean; decide
  code := by
    unfold Clean
    intro i hi
    simp only [exampleCode, List.mem_cons, List.not_mem_nil, or_false] at hi
    rcases hi with rfl | rfl | rfl | rfl | rfl | rfl <;> refine ⟨fun t h => (nomatch h), fun t h => (nomatch h), fun k t h => ?_⟩ <;> cases h
    decide

/-- What the user sees of the example. -/
def exampleText : Text := "
Module: main.um

000000000      1                         GOTO 4


Function: main

000000001      2                  ENTER_FRAME 0x10
000000002      3                         PUSH ^ counter
000000003      4                       RETURN 1


Module: <unknown>

000000004      1                         CALL main (1)
000000005      1                         HALT".toList

example : listing names exampleCode exampleDebug = exampleText ++ ['\n'] := by decide +kernel

example : asm names 100 exampleCode exampleDebug = some exampleText := by decide +kernel

example : asm names 100 exampleCode exampleDebug = some (listing names exampleCode exampleDebug).dropLast :=
  C96_listing_partial example_program example_clean

example : asm names 100 exampleCode exampleDebug ≠ some (listing names exampleCode exampleDebug) :=
  C96_last_violated example_program example_clean

end Umka.Asm.Props
