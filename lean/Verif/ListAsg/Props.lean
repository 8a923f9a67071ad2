import Verif.ListAsg.Lemmas

/-!
# List assignments: property theorems (C49)
-/

namespace Umka.ListAsg.Props
open Spec

/-- Where the variables on the left are, and how much they take. -/
def varArea (ps : List Int) (tys : List Ty) (i a : Nat) : Prop := Area (ps[i]?.getD 0).toNat (tys[i]?.getD .scalar).size a

/-- The variables on the left lie outside the list of values.  (The list is an anonymous local variable.) -/
def LeftOk (ps : List Int) (r : Right) (L : Nat) : Prop :=
  ∀ i, i < r.tys.length → Apart (ps[i]?.getD 0).toNat (r.tys[i]?.getD .scalar).size L (listSize r.tys)

/-- **C49**: `x1, ..., xn = e1, ..., en` (or `= f()`) evaluates the designators and then the right side, and only then stores: every item that is
stored is the value that the right side had when its evaluation was complete, before the first store, however the designators overlap.  Nothing
else changes outside the temporary list, and the stack is as before. -/
theorem C49_list_assignment (ds : List Code) (r : Right) (convs : Nat → Int → Option Int) (w w1 w2 : World) (st ps : List Int)
    (wss : List (List Int)) (vss : Nat → List Int) (hn : ds.length = r.tys.length)
    (hd : evalAll ds w = some (w1, ps)) (hr : rightWords r w1 = some (w2, wss))
    (hc : ∀ i, i < r.tys.length → convert r.tys convs i (wss[i]?.getD []) = some (vss i))
    (hok : RightOk r w1) (hl : LeftOk ps r (address r w1)) :
    ∃ m, run (genAssignment ds r convs) ⟨w, st⟩ = some m ∧ m.stack = st ∧
      ∀ a, ¬ Area (address r w1) (listSize r.tys) a →
        m.w.mem a = storeAll (fun i => (ps[i]?.getD 0).toNat) vss ds.length w2.mem a := by
  obtain ⟨w', h1, hL⟩ := right_run r w1 w2 wss (ps.reverse ++ st) hr hok
  have hps : ps.length = ds.length := evalAll_length hd
  obtain ⟨w3, h2, h3⟩ := stores_run r.tys convs ps (address r w1) (fun i => wss[i]?.getD []) vss (by omega) hc hl ds.length w' st w2.mem (by omega)
    ⟨hL.field, hL.len⟩ hL.out
  rw [show ps.take ds.length = ps by rw [← hps, List.take_length]] at h2
  refine ⟨⟨w3, st⟩, ?_, rfl, h3⟩
  simp only [genAssignment, run_append, run_users, hd, Option.map_some, Option.bind_some, h1, h2, run, step]

/-- **C49**: if the variables on the left do not overlap, each of them has its value afterwards, and nothing else has changed. -/
theorem C49_each_variable (ds : List Code) (r : Right) (convs : Nat → Int → Option Int) (w w1 w2 : World) (st ps : List Int)
    (wss : List (List Int)) (vss : Nat → List Int) (hn : ds.length = r.tys.length)
    (hd : evalAll ds w = some (w1, ps)) (hr : rightWords r w1 = some (w2, wss))
    (hc : ∀ i, i < r.tys.length → convert r.tys convs i (wss[i]?.getD []) = some (vss i))
    (hok : RightOk r w1) (hl : LeftOk ps r (address r w1))
    (hdisj : ∀ i j, i < r.tys.length → j < r.tys.length → i ≠ j → ∀ a, ¬ (varArea ps r.tys i a ∧ varArea ps r.tys j a)) :
    ∃ m, run (genAssignment ds r convs) ⟨w, st⟩ = some m ∧ m.stack = st ∧
      (∀ i, i < r.tys.length → readWords m.w.mem (ps[i]?.getD 0).toNat (r.tys[i]?.getD .scalar).size = vss i) ∧
      ∀ a, ¬ Area (address r w1) (listSize r.tys) a → (∀ i, i < r.tys.length → ¬ varArea ps r.tys i a) → m.w.mem a = w2.mem a := by
  obtain ⟨m, h1, h2, h3⟩ := C49_list_assignment ds r convs w w1 w2 st ps wss vss hn hd hr hc hok hl
  obtain ⟨w', _, hL⟩ := right_run r w1 w2 wss st hr hok
  have hlen : ∀ i, i < r.tys.length → (vss i).length = (r.tys[i]?.getD .scalar).size := fun i hi => by
    rw [convert_length (hc i hi), hL.len i hi]
  refine ⟨m, h1, h2, ?_, ?_⟩
  · intro i hi
    have key := storeAll_at (fun i => (ps[i]?.getD 0).toNat) vss ds.length w2.mem (by
      intro i j hi hj hij
      rw [hlen i (by omega), hlen j (by omega)]
      exact hdisj i j (by omega) (by omega) hij) i (by omega)
    rw [hlen i hi] at key
    rw [← key]
    apply List.map_congr_left
    intro j hj
    rw [List.mem_range] at hj
    exact h3 _ fun ha => hl i hi _ ⟨⟨by omega, by omega⟩, ha⟩
  · intro a ha hv
    rw [h3 a ha]
    exact storeAll_other _ _ _ _ _ fun i hi => by
      rw [hlen i (by omega)]
      exact hv i (by omega)

/-- **C49**: the program stops if a designator, the right side or a conversion fails. -/
theorem C49_errors (ds : List Code) (r : Right) (convs : Nat → Int → Option Int) (w : World) (st : List Int) (hn : ds.length = r.tys.length) :
    (evalAll ds w = none → run (genAssignment ds r convs) ⟨w, st⟩ = none) ∧
    (∀ w1 ps, evalAll ds w = some (w1, ps) → rightWords r w1 = none → run (genAssignment ds r convs) ⟨w, st⟩ = none) ∧
    ∀ w1 ps w2 wss, evalAll ds w = some (w1, ps) → rightWords r w1 = some (w2, wss) → RightOk r w1 → LeftOk ps r (address r w1) →
      (∃ i, i < r.tys.length ∧ convert r.tys convs i (wss[i]?.getD []) = none) → run (genAssignment ds r convs) ⟨w, st⟩ = none := by
  refine ⟨fun h => ?_, fun w1 ps h1 h2 => ?_, fun w1 ps w2 wss h1 h2 h3 h4 h5 => ?_⟩
  · simp [genAssignment, run_append, run_users, h]
  · simp [genAssignment, run_append, run_users, h1, right_fails r w1 _ h2]
  · obtain ⟨w', e1, hL⟩ := right_run r w1 w2 wss (ps.reverse ++ st) h2 h3
    have hps : ps.length = ds.length := evalAll_length h1
    have key := stores_fail r.tys convs ps (address r w1) (fun i => wss[i]?.getD []) (by omega) h4 ds.length w' st (by omega)
      ⟨hL.field, hL.len⟩ (by rw [hn]; exact h5)
    rw [show ps.take ds.length = ps by rw [← hps, List.take_length]] at key
    simp only [genAssignment, run_append, run_users, h1, Option.map_some, Option.bind_some, e1, key]
    rfl

/-- **C49** for short declarations: `x1, ..., xn := e1, ..., en`, with variables declared again among them, stores what the right side was
before the first store, from the first variable to the last. -/
theorem C49_declaration (n : Nat) (vars : Nat → Nat) (r : Right) (convs : Nat → Int → Option Int) (w1 w2 : World) (st : List Int)
    (wss : List (List Int)) (vss : Nat → List Int) (hn : n = r.tys.length) (hr : rightWords r w1 = some (w2, wss))
    (hc : ∀ i, i < r.tys.length → convert r.tys convs i (wss[i]?.getD []) = some (vss i))
    (hok : RightOk r w1)
    (hl : ∀ i, i < r.tys.length → Apart (vars i) (r.tys[i]?.getD .scalar).size (address r w1) (listSize r.tys)) :
    ∃ m, run (genDeclaration n vars r convs) ⟨w1, st⟩ = some m ∧ m.stack = st ∧
      ∀ a, ¬ Area (address r w1) (listSize r.tys) a → m.w.mem a = storeUp vars vss n w2.mem a := by
  obtain ⟨w', h1, hL⟩ := right_run r w1 w2 wss st hr hok
  obtain ⟨w3, h2, h3⟩ := decls_run r.tys convs vars (address r w1) (fun i => wss[i]?.getD []) vss hc hl st (List.range n) w' w2.mem
    (fun i hi => by rw [List.mem_range] at hi; omega) ⟨hL.field, hL.len⟩ hL.out
  refine ⟨⟨w3, st⟩, ?_, rfl, h3⟩
  simp only [genDeclaration, genDecls, run_append, Option.bind_some, h1, h2, run, step]

theorem evalAll_words (es : List (Code × Ty)) (w w' : World) (vs : List Int) (he : evalAll (es.map (·.1)) w = some (w', vs))
    (h : (∀ e ∈ es, e.2 = .scalar) ∨ ∀ e ∈ es, ∀ w w' v, e.1 w = some (w', v) → w'.mem = w.mem) :
    valuesInOrder es w = some (List.zipWith (fun e v => words w'.mem e.2 v) es vs) ∧
    ((∀ e ∈ es, ∀ w w' v, e.1 w = some (w', v) → w'.mem = w.mem) → w'.mem = w.mem) := by
  induction es generalizing w vs with
  | nil =>
    simp only [List.map_nil, evalAll, Option.some.injEq, Prod.mk.injEq] at he
    obtain ⟨rfl, rfl⟩ := he
    exact ⟨rfl, fun _ => rfl⟩
  | cons e es ih =>
    obtain ⟨f, ty⟩ := e
    simp only [List.map_cons, evalAll, Option.bind_eq_bind] at he
    cases hf : f w with
    | none => rw [hf] at he; cases he
    | some q =>
      obtain ⟨w1, v⟩ := q
      rw [hf] at he
      simp only [Option.bind_some] at he
      cases hr : evalAll (es.map (·.1)) w1 with
      | none => rw [hr] at he; cases he
      | some q =>
        rw [hr] at he
        simp only [Option.bind_some, Option.some.injEq, Prod.mk.injEq] at he
        obtain ⟨rfl, rfl⟩ := he
        have ih' := ih w1 q.2 hr (h.imp (fun h e he => h e (List.mem_cons_of_mem _ he)) (fun h e he => h e (List.mem_cons_of_mem _ he)))
        constructor
        · simp only [valuesInOrder, hf, Option.bind_eq_bind, Option.bind_some, ih'.1, List.zipWith_cons_cons, Option.some.injEq,
            List.cons.injEq, and_true]
          rcases h with h | h
          · rw [show ty = .scalar from h _ (List.mem_cons_self ..)]; rfl
          · rw [ih'.2 fun e he => h e (List.mem_cons_of_mem _ he)]
        · intro h
          rw [ih'.2 fun e he => h e (List.mem_cons_of_mem _ he)]
          exact h (f, ty) (List.mem_cons_self ..) _ _ _ hf

/-- **C49**, stronger reading: each expression has the value it had when it was evaluated, if all expressions are scalars or none of them
changes memory.  Missing: a structure in the list and an expression with side effects after it (refuted below). -/
theorem C49_values_in_order_partial (tmp : Nat) (es : List (Code × Ty)) (w w' : World) (wss : List (List Int))
    (hr : rightWords (.exprs tmp es) w = some (w', wss))
    (h : (∀ e ∈ es, e.2 = .scalar) ∨ ∀ e ∈ es, ∀ w w' v, e.1 w = some (w', v) → w'.mem = w.mem) :
    valuesInOrder es w = some wss := by
  simp only [rightWords, Option.bind_eq_bind] at hr
  cases he : evalAll (es.map (·.1)) w with
  | none => rw [he] at hr; cases hr
  | some q =>
    rw [he] at hr
    simp only [Option.bind_some, Option.some.injEq, Prod.mk.injEq] at hr
    obtain ⟨rfl, rfl⟩ := hr
    exact (evalAll_words es w q.1 q.2 he h).1

/-! ### Examples -/

/-- Variables at fixed addresses. -/
def var (a : Nat) : Code := fun w => some (w, a)
def load (a : Nat) : Code := fun w => some (w, w.mem a)

/-- `x = 1, y = 2` at 0 and 1, structures of two words at 10 and 20. -/
def w0 : World :=
  ⟨fun a => if a = 0 then 1 else if a = 1 then 2 else if a = 10 then 5 else if a = 11 then 6 else if a = 20 then 7 else if a = 21 then 8 else 0, 0⟩

/-- `x, s, y, t = y, t, x, s` -/
def swap : List Instr :=
  genAssignment [var 0, var 10, var 1, var 20]
    (.exprs 100 [(load 1, .scalar), (var 20, .struct 2), (load 0, .scalar), (var 10, .struct 2)]) (fun _ v => some v)

example : (run swap ⟨w0, [77]⟩).map (fun m => ([0, 1, 10, 11, 20, 21].map m.w.mem, m.stack)) = some ([2, 1, 7, 8, 5, 6], [77]) := by
  decide +kernel

/-- The hypotheses of `C49_each_variable` are met. -/
example : ∃ ps w1 w2 wss, evalAll [var 0, var 10, var 1, var 20] w0 = some (w1, ps) ∧
    rightWords (.exprs 100 [(load 1, .scalar), (var 20, .struct 2), (load 0, .scalar), (var 10, .struct 2)]) w1 = some (w2, wss) ∧
    ps = [0, 10, 1, 20] ∧ wss = [[2], [7, 8], [1], [5, 6]] := ⟨_, _, _, _, rfl, rfl, rfl, rfl⟩

/-- `a[i], i = i, 5`: overlapping and dependent designators; the element was chosen before `i` changed.  (`i` is at 0.) -/
example : (run (genAssignment [fun w => some (w, 50 + w.mem 0), var 0] (.exprs 100 [(load 0, .scalar), (fun w => some (w, 5), .scalar)])
    (fun _ v => some v)) ⟨w0, []⟩).map (fun m => [0, 50, 51, 55].map m.w.mem) = some [5, 0, 1, 0] := by
  decide +kernel

/-- `x, y := y, x` with both declared before (and a new variable): a swap as well. -/
example : (run (genDeclaration 3 (fun i => [0, 1, 2].getD i 0) (.exprs 100 [(load 1, .scalar), (load 0, .scalar), (load 0, .scalar)])
    (fun _ v => some v)) ⟨w0, []⟩).map (fun m => [0, 1, 2].map m.w.mem) = some [2, 1, 1] := by
  decide +kernel

/-- A call that changes the structure at 10 and returns 0. -/
def change : Code := fun w => some ({ w with mem := fun a => if a = 10 then 99 else w.mem a }, 0)

/-- **C49**, stronger reading ("each expression has the value it had when it was evaluated"): refuted.  A structured expression is only copied
after all expressions have been evaluated, so that `t, y = s, f()` stores what `f()` has made of `s`; with a scalar in place of `s` the old
value is stored. -/
theorem C49_structure_copied_late_violated :
    valuesInOrder [(var 10, .struct 2), (change, .scalar)] w0 = some [[5, 6], [0]] ∧
    (run (genAssignment [var 20, var 1] (.exprs 100 [(var 10, .struct 2), (change, .scalar)]) (fun _ v => some v)) ⟨w0, []⟩).map
      (fun m => [20, 21, 1].map m.w.mem) = some [99, 6, 0] ∧
    (run (genAssignment [var 20, var 1] (.exprs 100 [(load 10, .scalar), (change, .scalar)]) (fun _ v => some v)) ⟨w0, []⟩).map
      (fun m => [20, 1].map m.w.mem) = some [5, 0] := by
  decide +kernel

end Umka.ListAsg.Props
