import Verif.HostArr.Model
import Verif.DynArr.Props
/-!
# HostArr: properties (C109)
-/

namespace Umka.HostArr.Props
open Umka.DynArr

variable {α : Type}

theorem fill_eq (s : State α) (v : Nat) (xs : List α) : ∀ (pre rest : List α) (n cap : Nat),
    xs.length ≤ rest.length →
    fill ((push s ⟨n, cap, pre ++ rest⟩).setVar v (.blk s.blocks.length)) v pre.length xs =
      .ok ((push s ⟨n, cap, pre ++ xs ++ rest.drop xs.length⟩).setVar v (.blk s.blocks.length)) := by
  induction xs with
  | nil => intro pre rest n cap _; simp [fill]
  | cons x xs ih =>
    intro pre rest n cap h
    cases rest with
    | nil => simp at h
    | cons y rest =>
      have hw : writeCells ((push s ⟨n, cap, pre ++ y :: rest⟩).setVar v (.blk s.blocks.length))
          (((push s ⟨n, cap, pre ++ y :: rest⟩).setVar v (.blk s.blocks.length)).vars v) pre.length [x] =
          .ok ((push s ⟨n, cap, (pre ++ [x]) ++ rest⟩).setVar v (.blk s.blocks.length)) := by
        simp [writeCells, push, State.setVar, List.set_append_right]
      rw [fill, hw]
      have := ih (pre ++ [x]) rest n cap (by simpa using h)
      simpa using this

theorem makeArr_some (c : Cfg) (zero : α) (s : State α) (v : Nat) (n : Int) {cap : Nat}
    (h : allocCap c n = .ok cap) :
    makeArr c zero s (some v) n =
      .ok ((push s ⟨n.toNat, cap, List.replicate cap zero⟩).setVar v (.blk s.blocks.length)) := by
  simp only [makeArr, alloc_eq, h]

/-- **C109, contents.** The host makes an array for as many items as it has, at a variable `v` of a
program, and stores the items one by one.  If the items take at most 2147482623 bytes, nothing goes
wrong: the length that the host reads is the number of the items, the program reads each item at its
index and an index error at every other, every other variable is what it was, and every array that
existed keeps its length, its capacity and its items. -/
theorem C109_contents (c : Cfg) (zero : α) (s : State α) (v : Nat) (xs : List α)
    (hlen : (xs.length : Int) ≤ 2147483647)
    (hsize : (xs.length : Int) * c.itemSize ≤ 2147482623) :
    ∃ s1 s2, makeArr c zero s (some v) xs.length = .ok s1 ∧ fill s1 v 0 xs = .ok s2 ∧
      arrLen s2 v = .ok xs.length ∧
      (∀ i : Int, step c zero s2 (.get v i) =
        if h : 0 ≤ i ∧ i.toNat < xs.length then .ok (s2, .item (xs[i.toNat]'h.2))
        else .error (.err .index)) ∧
      (∀ w, w ≠ v → s2.vars w = s.vars w) ∧
      s2.vars v = .blk s.blocks.length ∧
      (∀ r : Nat, r < s.blocks.length → s2.blocks[r]? = s.blocks[r]?) := by
  obtain ⟨cap, hcap⟩ := (Umka.DynArr.Props.C08_lengths c xs.length).2.1 (by omega) hlen hsize
  have hge := (Umka.DynArr.Props.C08_lengths c xs.length).2.2 cap hcap
  have hge' : xs.length ≤ cap := by simpa using hge
  have hf := fill_eq s v xs [] (List.replicate cap zero) xs.length cap (by simpa using hge')
  refine ⟨_, _, makeArr_some c zero s v xs.length hcap, hf, ?_, ?_, ?_, ?_, ?_⟩
  · simp [arrLen, getLen, push, State.setVar]
  · intro i
    by_cases h : 0 ≤ i ∧ i.toNat < xs.length
    · rw [dif_pos h]
      have hi : ¬(i < 0 ∨ i > (xs.length : Int) - 1) := by omega
      have hb : i.toNat + 1 ≤ xs.length + (cap - xs.length) := by omega
      simp [step, elemPtr, getLen, readCell, readCells, push, State.setVar, hi, hb,
        List.drop_append_of_le_length (Nat.le_of_lt h.2), bind, Except.bind, pure, Except.pure]
      have e : List.take 1 (List.drop i.toNat xs ++ List.replicate (cap - xs.length) zero) =
          [xs[i.toNat]'h.2] := by
        rw [List.drop_eq_getElem_cons h.2]
        rfl
      rw [e]
    · rw [dif_neg h]
      have hi : (i < 0 ∨ i > (xs.length : Int) - 1) := by omega
      simp [step, elemPtr, getLen, push, State.setVar, hi, bind, Except.bind]
  · intro w hw; simp [State.setVar, push, hw]
  · simp [State.setVar]
  · intro r hr
    simp [State.setVar, push, List.getElem?_append_left hr]

-- the host stores 7, 8, 9 into a fresh array
example : (do let s ← makeArr ⟨8, false⟩ 0 init (some 0) 3
              let s ← fill s 0 0 [7, 8, 9]
              let r ← step ⟨8, false⟩ 0 s (.get 0 2)
              return r.2) = (.ok (.item 9) : Res (Out Nat)) := by decide +kernel

/-- **C109, as the program's own.** What the host gets is, for every requested length, what the
program's own `make` gives: the same state, or the same error. -/
theorem C109_as_program (c : Cfg) (zero : α) (s : State α) (v : Nat) (n : Int) :
    (makeArr c zero s (some v) n).map (fun s => (s, Out.unit)) = step c zero s (.make v n) := by
  simp only [makeArr, step]
  cases alloc c zero s n <;> rfl

/-- **C109, refusals.** A length is refused as illegal exactly if it is negative or above
2147483647; a null pointer to the variable changes nothing; a variable that was never set has length
0 for the host. -/
theorem C109_refused (c : Cfg) (zero : α) (s : State α) (v : Nat) (n : Int) :
    (makeArr c zero s (some v) n = .error (.err .length) ↔ n < 0 ∨ n > 2147483647) ∧
    makeArr c zero s none n = .ok s ∧
    (s.vars v = .null → arrLen s v = .ok 0) := by
  refine ⟨?_, rfl, fun h => by rw [arrLen, if_pos h]⟩
  rw [← (Umka.DynArr.Props.C08_lengths c n).1]
  simp only [makeArr, alloc_eq]
  cases allocCap c n with
  | ok cap => simp
  | error e => simp

example : makeArr ⟨8, false⟩ 0 init (some 0) (-1) = (.error (.err .length) : Res (State Nat)) := rfl
example : arrLen (init : State Nat) 0 = .ok 0 := rfl

end Umka.HostArr.Props
