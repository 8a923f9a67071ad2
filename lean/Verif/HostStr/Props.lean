import Verif.HostStr.Spec
import Verif.Str.Props
/-!
# HostStr: properties (C108)
-/

namespace Umka.HostStr.Props
open Umka.Str Umka.HostStr.Spec

theorem takeWhile_cstring {l mem : List Nat} (h : IsCString l mem) : mem.takeWhile (· ≠ 0) = l ∧ 0 ∈ mem := by
  obtain ⟨h0, rest, rfl⟩ := h
  refine ⟨?_, by simp⟩
  induction l with
  | nil => simp
  | cons x l ih =>
    simp only [List.mem_cons, not_or] at h0
    have hx : x ≠ 0 := fun e => h0.1 e.symm
    rw [List.cons_append, List.takeWhile_cons_of_pos (by simpa using hx), ih h0.2]

theorem charsLen_eq {l : List Nat} (h : 0 ∉ l) : charsLen l = l.length := by
  induction l with
  | nil => rfl
  | cons x l ih =>
    simp only [List.mem_cons, not_or] at h
    rw [charsLen, if_neg (fun e => h.1 e.symm), ih h.2]
    rfl

/-- Making a string from host memory, when the allocation is decided. -/
theorem makeStr_eq {l mem : List Nat} (h : IsCString l mem) (s : State) :
    makeStr s (some mem) = match allocCap (l.length : Nat) with
      | .error e => .error (.err e)
      | .ok cap => .ok (push s ⟨l.length, cap, l ++ 0 :: List.replicate (cap - l.length) 0⟩, .blk s.blocks.length) := by
  obtain ⟨ht, h0⟩ := takeWhile_cstring h
  unfold makeStr
  dsimp only
  rw [if_pos h0, ht, allocStr_eq]
  cases ha : allocCap (l.length : Nat) with
  | error e => rfl
  | ok cap =>
    have hge := (allocCap_ge ha).1
    simp only [Int.toNat_natCast] at hge
    dsimp only
    rw [bind_ok]
    dsimp only
    have e : cap - l.length + 0 = cap + 1 - (l.length + 1) := by omega
    rw [writeBytes_push s ⟨l.length, cap, List.replicate (cap + 1) 0⟩ 0 (l ++ [0]) (by simp; omega), bind_ok]
    simp only [List.take_zero, List.nil_append, Nat.zero_add, List.length_append, List.length_cons, List.length_nil,
      List.drop_replicate, List.append_assoc, List.cons_append, Nat.add_sub_add_right]
    rfl

/-- Each C string of up to 2147482623 bytes becomes a new string with these bytes and this length; all strings made before stay as they
are, and so do the variables. -/
theorem C108_make (s : State) (l mem : List Nat) (h : IsCString l mem) (hn : l.length ≤ 2147482623) :
    ∃ s' r, makeStr s (some mem) = .ok (s', .blk r) ∧ getStrLen s' (.blk r) = .ok l.length ∧ Reads s' (.blk r) l ∧
      (∀ b, deref s (.blk r) ≠ .ok b) ∧ s'.vars = s.vars ∧ ∀ a b, deref s a = .ok b → deref s' a = .ok b := by
  obtain ⟨cap, hc, _⟩ := Str.Props.C10_allocation l.length hn
  have hc : allocCap (l.length : Nat) = .ok cap := hc
  have hm := makeStr_eq h s
  rw [hc] at hm
  refine ⟨_, _, hm, ?_, ⟨_, deref_new _ _, h.1, _, rfl⟩, ?_, rfl, ?_⟩
  · unfold getStrLen getLen
    rw [if_neg (by simp), deref_new, bind_ok]
    rfl
  · intro b e
    simp [deref] at e
  · intro a b e
    cases a with
    | null => exact e
    | empty => exact e
    | blk r =>
      simp only [deref] at e ⊢
      split at e
      · rename_i b' hb
        have := (List.getElem?_eq_some_iff.mp hb).1
        simp only [push, List.getElem?_append_left this, hb]
        exact e
      · exact nomatch e

/-- A longer string is at worst refused: nothing undefined happens. -/
theorem C108_safe (s : State) (l mem : List Nat) (h : IsCString l mem) : makeStr s (some mem) ≠ .error .ub := by
  rw [makeStr_eq h s]
  cases allocCap (l.length : Nat) <;> intro e <;> exact nomatch e

/-- A null pointer becomes a null string, which has no bytes. -/
theorem C108_null (s : State) : makeStr s none = .ok (s, .null) ∧ getStrLen s .null = .ok 0 := ⟨rfl, rfl⟩

/-- A string made by the host is the same as one that the program makes of these characters: all that is proved about histories of string
operations (C10) holds of it. -/
theorem C108_as_program (s : State) (l mem : List Nat) (h : IsCString l mem) :
    makeStr s (some mem) = Str.makeStr s (some l) := by
  rw [makeStr_eq h s]
  unfold Str.makeStr
  dsimp only
  rw [charsLen_eq h.1, allocStr_eq, List.take_length]
  cases ha : allocCap (l.length : Nat) with
  | error e => rfl
  | ok cap =>
    have hge := (allocCap_ge ha).1
    simp only [Int.toNat_natCast] at hge
    dsimp only
    rw [bind_ok]
    dsimp only
    rw [writeBytes_push s ⟨l.length, cap, List.replicate (cap + 1) 0⟩ 0 l (by simp; omega), bind_ok]
    simp only [List.take_zero, List.nil_append, Nat.zero_add, List.drop_replicate]
    rw [show cap + 1 - l.length = cap - l.length + 1 by omega, List.replicate_succ]
    rfl

/-- `"Hi"` in host memory, with something behind it. -/
example : IsCString [72, 105] [72, 105, 0, 33] := ⟨by decide, [33], rfl⟩

example : (makeStr init (some [72, 105, 0, 33])).toOption.map (fun r => (r.1.blocks, r.2)) =
    some ([⟨2, 6, [72, 105, 0, 0, 0, 0, 0]⟩], .blk 0) := by decide +kernel

end Umka.HostStr.Props
