import Verif.ArrRef.Ops
import Verif.ArrRef.Contents
/-! # Reference counts of dynamic arrays: properties (C101) -/

namespace Umka.ArrRef.Props

open Spec

/-- After any operations on dynamic arrays, each of them is counted as often as variables and items of arrays refer to it. -/
theorem C101_exact (os : List Op) (s : State) (r : run init os = .ok s) : Exact s := by
  have g := run_good os init_inv
  rw [r] at g
  exact (exact_iff s).2 g

/-- Operations on dynamic arrays never use a chunk that has been freed, and releases of values end: all errors are those of the program. -/
theorem C101_safe (os : List Op) (e : Err) (r : run init os = .error e) : Mistake e := by
  have g := run_good os init_inv
  rw [r] at g
  exact g

/-- A chunk is freed exactly when nothing refers to it. -/
theorem C101_freed (os : List Op) (s : State) (r : run init os = .ok s) (k : Nat) : count s.heap k = 0 ↔ k ∉ references s := by
  rw [C101_exact os s r k, List.count_eq_zero]

/-- When no variables refer to arrays any more, and no array contains itself, all chunks are free. -/
theorem C101_no_leak (os : List Op) (s : State) (r : run init os = .ok s) (v : held s = []) (a : Acyclic s.heap) :
    ∀ c ∈ s.heap, c.rc = 0 := by
  obtain ⟨rank, ra⟩ := a
  have key : ∀ (n k : Nat), rank k ≤ n → count s.heap k = 0 := by
    intro n
    induction n using Nat.strongRecOn with
    | ind n ih =>
      intro k le
      rw [C101_freed os s r k]
      intro m
      unfold references at m
      rw [v, List.nil_append, List.mem_flatMap] at m
      obtain ⟨c, mc, mk⟩ := m
      obtain ⟨j, ej⟩ := List.mem_iff_getElem?.1 mc
      unfold inside at mk
      split at mk
      · rename_i p
        have lt := ra j k c ej mk
        have z := ih (rank j) (by omega) j (Nat.le_refl _)
        rw [count_some ej] at z
        omega
      · simp at mk
  intro c mc
  obtain ⟨j, ej⟩ := List.mem_iff_getElem?.1 mc
  have := key _ j (Nat.le_refl _)
  rwa [count_some ej] at this

/-- The result of every built-in function is the array that the language reference promises, unless an item is inserted that is given by its place in the same
chunk, after the place where it goes: see `C101_insert_violated`. -/
theorem C101_result_partial (s s' : State) (o : Op) (b : Builtin o) (v : ¬ Overlap s o) (r : exec s o = .ok s') :
    (contents s' s.arrs.length).isSome ∧ contents s' s.arrs.length = result s o := exec_result b v r

/-- Two arrays in an array `x` with room for more; `y` is a variable for items. -/
def demo : List Op :=
  [.make 0, .make 3, .declareItem, .declareItem, .pack 0 [0], .pack 1 [1], .literal [0, 1, 1]]

/-- `insert(x, 0, x[1])` inserts `x[0]` if there is room and items are structured; the counts stay exact. -/
theorem C101_insert_violated : ∃ s s', run init demo = .ok s ∧ exec s (.insert 2 0 (.item 2 1 true)) = .ok s' ∧
    contents s' s.arrs.length ≠ result s (.insert 2 0 (.item 2 1 true)) ∧ Exact s' := by
  refine ⟨_, _, rfl, rfl, by decide, ?_⟩
  exact C101_exact (demo ++ [.insert 2 0 (.item 2 1 true)]) _ rfl

/-- An array that contains itself stays when no variable refers to it. -/
theorem C101_cycle_violated : ∃ os s, run init os = .ok s ∧ held s = [] ∧ ∃ c ∈ s.heap, 0 < c.rc :=
  ⟨[.make 1, .declareItem, .pack 0 [0], .put 0 0 0, .declareItem, .pack 0 [], .clear 0], _, rfl, rfl, _, List.mem_cons_self .., by decide⟩

/-! ## Cases -/

/-- The counts of the demonstration. -/
example : (run init demo).map (fun s => s.heap.map (·.rc)) = .ok [3, 4, 1] := by rfl

/-- Deletion in place, of an item that is the last to refer to an array; two variables share the chunk. -/
def demo2 : List Op := demo ++ [.clear 0, .pack 0 [], .delete 2 0, .append 2 (.item 3 0 false), .insert 3 1 (.var 1), .slice 3 1 3, .copy 4, .appendAll 3 3]

example : (run init demo2).map (fun s => (s.heap.map (·.rc), s.heap.map (·.items.length))) = .ok ([0, 16, 5, 1, 1], [0, 3, 8, 2, 4]) := by rfl

/-- Everything is released at the end. -/
example : (run init (demo2 ++ [.pack 0 [], .pack 1 [], .clear 1, .clear 2, .clear 3, .clear 4, .clear 5, .clear 6, .clear 7, .clear 8])).map
    (fun s => (held s, s.heap.map (·.rc))) = .ok ([], [0, 0, 0, 0, 0]) := by rfl

/-- Errors. -/
example : (run init [.make 2, .delete 0 2]).map (fun _ => ()) = .error .index ∧ (run init [.declare, .delete 0 0]).map (fun _ => ()) = .error .null := ⟨rfl, rfl⟩

end Umka.ArrRef.Props
