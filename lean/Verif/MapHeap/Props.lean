import Verif.MapHeap.World
import Verif.MapHeap.Trees

/-!
# Maps in memory: theorems

C04 (copies of maps), and C01 once more for maps that share the memory.
-/

namespace Umka.MapHeap.Props

open Umka.Map (Op Out)

variable {K V : Type}

/-- **C04, maps are objects.**  Take any program that works with any number of map variables: operations on them, copies and assignments, in
any order, with any lawful comparison of keys, any priorities and any allocator that returns free addresses.  No operation goes through a
null or dangling pointer, every loop and recursion ends, and all results are those of a world in which maps are objects: an assignment
shares the object, a copy makes a new object with the same items, and every operation works on the object of its variable only. -/
theorem C04_maps_are_objects {alloc : Heap K V → Nat} (ha : FreshAlloc alloc) {cmp : K → K → Int} (hc : Umka.Map.Spec.Lawful cmp) (zero : V)
    (cs : List (Cmd K V)) :
    ∃ N w' os s', (∀ fuel, N ≤ fuel → run alloc cmp zero fuel ⟨fun _ => none, fun _ => none⟩ cs = some (w', os)) ∧
      Spec.Run cmp zero Spec.start cs os s' := by
  obtain ⟨N, w', os, s', _, e1, e2, _⟩ := run_ok ha hc zero cs (inv_start cmp)
  exact ⟨N, w', os, s', e1, e2⟩

/-! ## Two variables, after a copy -/

theorem run_append {cmp : K → K → Int} {zero : V} : ∀ (cs ds : List (Cmd K V)) {w w' : Spec.World K V} {os : List (Out K V)},
    Spec.Run cmp zero w (cs ++ ds) os w' → ∃ os1 os2 w1, os = os1 ++ os2 ∧ os1.length = cs.length ∧ Spec.Run cmp zero w cs os1 w1 ∧
      Spec.Run cmp zero w1 ds os2 w'
  | [], ds, w, w', os, h => ⟨[], os, w, rfl, rfl, rfl, h⟩
  | c :: cs, ds, w, w', [], h => by simp [Spec.Run] at h
  | c :: cs, ds, w, w', o :: os, ⟨w1, h1, h2⟩ => by
    obtain ⟨os1, os2, w2, e1, e2, e3, e4⟩ := run_append cs ds h2
    exact ⟨o :: os1, os2, w2, by rw [e1]; rfl, by simp [e2], ⟨w1, h1, e3⟩, e4⟩

/-- The objects of the variables exist. -/
def Exist (w : Spec.World K V) : Prop := ∀ x i, w.var x = some i → w.obj i ≠ none

theorem sets_exist {w w' : Spec.World K V} {x i : Nat} {m : K → Option V} (hw : Exist w) (h : Spec.Sets w x i m w') : Exist w' := by
  obtain ⟨h1, h2, h3, h4⟩ := h
  intro z j hz
  by_cases hji : j = i
  · subst hji; rw [h3]; simp
  · rw [h4 j hji]
    by_cases hzx : z = x
    · subst hzx; rw [h1] at hz; exact absurd (Option.some.inj hz).symm hji
    · rw [h2 z hzx] at hz; exact hw z j hz

theorem step_exist {cmp : K → K → Int} {zero : V} {w w' : Spec.World K V} {c : Cmd K V} {o : Out K V} (hw : Exist w)
    (h : Spec.Step cmp zero w c o w') : Exist w' := by
  cases c with
  | on x op =>
    obtain ⟨s', _, h⟩ := h
    cases hv : w.var x with
    | none =>
      rw [hv] at h
      cases op <;> simp only at h <;> first
        | (obtain ⟨i, _, h⟩ := h; exact sets_exist hw h)
        | (by_cases hi : s'.init = true
           · rw [if_pos hi] at h; obtain ⟨i, _, h⟩ := h; exact sets_exist hw h
           · rw [if_neg hi] at h; subst h; exact hw)
    | some i =>
      rw [hv] at h
      cases op <;> simp only at h <;> first
        | (obtain ⟨i, _, h⟩ := h; exact sets_exist hw h)
        | exact sets_exist hw h
  | copy y x =>
    obtain ⟨_, h⟩ := h
    cases hv : w.var x with
    | none =>
      rw [hv] at h
      obtain ⟨h1, h2, h3⟩ := h
      intro z i hz
      rw [h3]
      by_cases hzy : z = y
      · subst hzy; rw [h1] at hz; simp at hz
      · rw [h2 z hzy] at hz; exact hw z i hz
    | some i =>
      rw [hv] at h
      obtain ⟨j, m, _, _, h⟩ := h
      exact sets_exist hw h
  | assign y x =>
    obtain ⟨_, h1, h2, h3⟩ := h
    intro z i hz
    rw [h3]
    by_cases hzy : z = y
    · subst hzy; rw [h1] at hz; exact hw x i hz
    · rw [h2 z hzy] at hz; exact hw z i hz

theorem run_exist {cmp : K → K → Int} {zero : V} : ∀ (cs : List (Cmd K V)) {w w' : Spec.World K V} {os : List (Out K V)},
    Exist w → Spec.Run cmp zero w cs os w' → Exist w'
  | [], _, _, [], hw, h => by rw [show _ = _ from h]; exact hw
  | [], _, _, _ :: _, _, h => by simp [Spec.Run] at h
  | _ :: _, _, _, [], _, h => by simp [Spec.Run] at h
  | _ :: cs, _, _, _ :: _, hw, ⟨_, h1, h2⟩ => run_exist cs (step_exist hw h1) h2

/-- Operations on `x` leave the map of another variable alone, unless they share an object. -/
theorem step_apart {cmp : K → K → Int} {zero : V} {w w' : Spec.World K V} {x y : Nat} (hxy : x ≠ y) {op : Op K V} {o : Out K V} (hw : Exist w)
    (hd : w.var x = none ∨ w.var x ≠ w.var y) (h : Spec.Step cmp zero w (.on x op) o w') :
    Umka.Map.Spec.Step cmp zero (w.state (w.var x)) op o (w'.state (w'.var x)) ∧ w'.state (w'.var y) = w.state (w.var y) ∧
      (w'.var x = none ∨ w'.var x ≠ w'.var y) := by
  obtain ⟨s', hs, h⟩ := h
  -- when the variable gets the object `i`
  have fin : ∀ i, Spec.Sets w x i s'.item w' → w.var y ≠ some i → s'.init = true →
      Umka.Map.Spec.Step cmp zero (w.state (w.var x)) op o (w'.state (w'.var x)) ∧ w'.state (w'.var y) = w.state (w.var y) ∧
      (w'.var x = none ∨ w'.var x ≠ w'.var y) := by
    intro i ⟨h1, h2, h3, h4⟩ hy hi
    have hvy := h2 y (Ne.symm hxy)
    refine ⟨?_, ?_, .inr ?_⟩
    · have : w'.state (w'.var x) = s' := by
        rw [h1]
        show (⟨true, (w'.obj i).getD _⟩ : Umka.Map.Spec.State K V) = s'
        rw [h3]
        cases s'; simp_all
      rw [this]; exact hs
    · rw [hvy]
      cases hj : w.var y with
      | none => rfl
      | some j =>
        show (⟨true, (w'.obj j).getD _⟩ : Umka.Map.Spec.State K V) = ⟨true, (w.obj j).getD _⟩
        rw [h4 j (fun e => hy (by rw [hj, e]))]
    · rw [h1, hvy]; exact fun e => hy e.symm
  have fresh : ∀ i, w.obj i = none → w.var y ≠ some i := fun i hi e => hw y i e hi
  have hinit : ∀ i, w.var x = some i → s'.init = true := by
    intro i hi
    rw [hi] at hs
    cases op with
    | make => exact hs.2.1
    | set k v p => exact hs.2.1
    | get k p => exact hs.2.1
    | del k =>
      unfold Umka.Map.Spec.Step at hs
      dsimp only at hs
      rw [if_pos (show (w.state (some i)).init = true from rfl)] at hs
      exact hs.2.1
    | validKey k => rw [hs.2]; rfl
    | hostGet k => rw [hs.2]; rfl
    | len => rw [hs.2]; rfl
    | keys => rw [hs.2]; rfl
  cases hv : w.var x with
  | none =>
    rw [hv] at h
    have hnull : s'.init = false → w' = w → Umka.Map.Spec.Step cmp zero (w.state none) op o (w'.state (w'.var x)) ∧
        w'.state (w'.var y) = w.state (w.var y) ∧ (w'.var x = none ∨ w'.var x ≠ w'.var y) := by
      intro hi hww
      subst hww
      rw [hv] at hs ⊢
      refine ⟨?_, rfl, .inl rfl⟩
      have : s' = w'.state none := by
        cases op with
        | make => rw [hs.2.1] at hi; simp at hi
        | set k v p => rw [hs.2.1] at hi; simp at hi
        | get k p => rw [hs.2.1] at hi; simp at hi
        | del k =>
          unfold Umka.Map.Spec.Step at hs
          dsimp only at hs
          rw [if_neg (show ¬ (w'.state none).init = true by simp [Spec.World.state])] at hs
          exact hs.2
        | validKey k => exact hs.2
        | hostGet k => exact hs.2
        | len => exact hs.2
        | keys => exact hs.2
      rw [this] at hs; exact hs
    rw [hv] at fin
    by_cases hop : op = .make
    · subst hop
      obtain ⟨i, hi, h⟩ := h
      exact fin i h (fresh i hi) hs.2.1
    · by_cases hi : s'.init = true
      · have h : ∃ i, w.obj i = none ∧ Spec.Sets w x i s'.item w' := by
          cases op <;> first | exact absurd rfl hop | (simp only [hi, if_true] at h; exact h)
        obtain ⟨i, hi2, h⟩ := h
        exact fin i h (fresh i hi2) hi
      · have h : w' = w := by
          cases op <;> first | exact absurd rfl hop | (simp only at h; rw [if_neg hi] at h; exact h)
        exact hnull (by simpa using hi) h
  | some i =>
    rw [hv] at h fin hd
    have hy : w.var y ≠ some i := by
      rcases hd with hd | hd
      · simp at hd
      · exact fun e => hd e.symm
    by_cases hop : op = .make
    · subst hop
      obtain ⟨j, hj, h⟩ := h
      exact fin j h (fresh j hj) (hinit i hv)
    · have h : Spec.Sets w x i s'.item w' := by
        cases op <;> first | exact absurd rfl hop | exact h
      exact fin i h hy (hinit i hv)

/-- The operations on one of two variables: `b` tells which. -/
def opsOf (b : Bool) (ops : List (Bool × Op K V)) : List (Op K V) := (ops.filter (·.1 = b)).map (·.2)

/-- Their results. -/
def outsOf (b : Bool) (ops : List (Bool × Op K V)) (outs : List (Out K V)) : List (Out K V) :=
  ((ops.zip outs).filter (·.1.1 = b)).map (·.2)

theorem run_apart {cmp : K → K → Int} {zero : V} {x y : Nat} (hxy : x ≠ y) : ∀ (ops : List (Bool × Op K V)) {w w' : Spec.World K V}
    {outs : List (Out K V)}, Exist w → (w.var x = none ∧ w.var y = none ∨ w.var x ≠ w.var y) →
    Spec.Run cmp zero w (ops.map fun q => .on (if q.1 then y else x) q.2) outs w' →
    outs.length = ops.length ∧ Umka.Map.Spec.Run cmp zero (w.state (w.var x)) (opsOf false ops) (outsOf false ops outs) ∧
      Umka.Map.Spec.Run cmp zero (w.state (w.var y)) (opsOf true ops) (outsOf true ops outs)
  | [], w, w', [], _, _, _ => ⟨rfl, trivial, trivial⟩
  | [], w, w', _ :: _, _, _, h => by simp [Spec.Run] at h
  | q :: ops, w, w', [], _, _, h => by simp [Spec.Run] at h
  | (false, op) :: ops, w, w', o :: outs, hw, hd, ⟨w1, h1, h2⟩ => by
    have h1 : Spec.Step cmp zero w (.on x op) o w1 := h1
    have hd1 : w.var x = none ∨ w.var x ≠ w.var y := by exact hd.imp (·.1) id
    obtain ⟨a1, a2, a3⟩ := step_apart hxy hw hd1 h1
    have hd' : w1.var x = none ∧ w1.var y = none ∨ w1.var x ≠ w1.var y := by
      rcases a3 with a3 | a3
      · by_cases hy : w1.var y = none
        · exact .inl ⟨a3, hy⟩
        · exact .inr (by rw [a3]; exact fun e => hy e.symm)
      · exact .inr a3
    obtain ⟨b1, b2, b3⟩ := run_apart hxy ops (step_exist hw h1) hd' h2
    refine ⟨by simp [b1], ?_, ?_⟩
    · exact ⟨_, a1, b2⟩
    · rw [a2] at b3; exact b3
  | (true, op) :: ops, w, w', o :: outs, hw, hd, ⟨w1, h1, h2⟩ => by
    have h1 : Spec.Step cmp zero w (.on y op) o w1 := h1
    have hd1 : w.var y = none ∨ w.var y ≠ w.var x := by exact hd.imp (·.2) Ne.symm
    obtain ⟨a1, a2, a3⟩ := step_apart (Ne.symm hxy) hw hd1 h1
    have hd' : w1.var x = none ∧ w1.var y = none ∨ w1.var x ≠ w1.var y := by
      rcases a3 with a3 | a3
      · by_cases hx : w1.var x = none
        · exact .inl ⟨hx, a3⟩
        · exact .inr (by rw [a3]; exact hx)
      · exact .inr (Ne.symm a3)
    obtain ⟨b1, b2, b3⟩ := run_apart hxy ops (step_exist hw h1) hd' h2
    refine ⟨by simp [b1], ?_, ?_⟩
    · rw [a2] at b2; exact b2
    · exact ⟨_, a1, b3⟩

/-- **C04.**  After any history `cs`, copy the map of `x` into `y` and go on with any operations on `x` and on `y`, interleaved in any way.
The results on `x` are those of an ideal map that starts with the items `x` had, and the results on `y` are those of an ideal map that
starts with the same items: the copy is equal, and neither sees what is done to the other. -/
theorem C04_copy_equal_and_independent {alloc : Heap K V → Nat} (ha : FreshAlloc alloc) {cmp : K → K → Int}
    (hc : Umka.Map.Spec.Lawful cmp) (zero : V) (cs : List (Cmd K V)) {x y : Nat} (hxy : x ≠ y) (ops : List (Bool × Op K V)) :
    ∃ N w' os outs s, os.length = cs.length ∧ outs.length = ops.length ∧
      (∀ fuel, N ≤ fuel → run alloc cmp zero fuel ⟨fun _ => none, fun _ => none⟩
        (cs ++ .copy y x :: ops.map fun q => .on (if q.1 then y else x) q.2) = some (w', os ++ .unit :: outs)) ∧
      Spec.Run cmp zero Spec.start cs os s ∧
      Umka.Map.Spec.Run cmp zero (s.state (s.var x)) (opsOf false ops) (outsOf false ops outs) ∧
      Umka.Map.Spec.Run cmp zero (s.state (s.var x)) (opsOf true ops) (outsOf true ops outs) := by
  obtain ⟨N, w', os, s', e1, e2⟩ := C04_maps_are_objects ha hc zero (cs ++ .copy y x :: ops.map fun q => .on (if q.1 then y else x) q.2)
  obtain ⟨os1, os2, s1, rfl, f2, f3, f4⟩ := run_append _ _ e2
  cases os2 with
  | nil => simp [Spec.Run] at f4
  | cons o outs =>
    obtain ⟨s2, g1, g2⟩ := f4
    have hex : Exist s1 := run_exist cs (by intro z i h; simp [Spec.start] at h) f3
    have hex2 := step_exist hex g1
    obtain ⟨ho, g1⟩ := g1
    subst ho
    -- the two variables after the copy
    have hstate : s2.state (s2.var x) = s1.state (s1.var x) ∧ s2.state (s2.var y) = s1.state (s1.var x) ∧
        (s2.var x = none ∧ s2.var y = none ∨ s2.var x ≠ s2.var y) := by
      cases hv : s1.var x with
      | none =>
        rw [hv] at g1
        obtain ⟨h1, h2, h3⟩ := g1
        have := h2 x hxy
        rw [hv] at this
        exact ⟨by rw [this]; rfl, by rw [h1]; rfl, .inl ⟨this, h1⟩⟩
      | some i =>
        rw [hv] at g1
        obtain ⟨j, m, h0, h0', h1, h2, h3, h4⟩ := g1
        have hvx := h2 x hxy
        rw [hv] at hvx
        have hij : i ≠ j := fun e => by rw [e, h0'] at h0; simp at h0
        refine ⟨?_, ?_, .inr ?_⟩
        · rw [hvx]
          show (⟨true, (s2.obj i).getD _⟩ : Umka.Map.Spec.State K V) = ⟨true, (s1.obj i).getD _⟩
          rw [h4 i hij]
        · rw [h1]
          show (⟨true, (s2.obj j).getD _⟩ : Umka.Map.Spec.State K V) = ⟨true, (s1.obj i).getD _⟩
          rw [h3, h0]
        · rw [hvx, h1]; exact fun e => hij (Option.some.inj e)
    obtain ⟨k1, k2, k3⟩ := run_apart hxy ops hex2 hstate.2.2 g2
    rw [hstate.1] at k2
    rw [hstate.2.1] at k3
    exact ⟨N, w', os1, outs, s1, f2, k1, e1, f3, k2, k3⟩

/-! ## Any comparison -/

theorem run_two {alloc : Heap K V → Nat} (ha : FreshAlloc alloc) (cmp : K → K → Int) (zero : V) {x y : Nat} (hxy : x ≠ y) :
    ∀ (ops : List (Bool × Op K V)) {w : World K V} {obj : Nat → Option (Int × AT K V)}, Trees w obj → NoAlias w x y →
    ∃ N w' outs, (∀ fuel, N ≤ fuel → run alloc cmp zero fuel w (ops.map fun q => .on (if q.1 then y else x) q.2) = some (w', outs)) ∧
      outs.length = ops.length ∧
      outsOf false ops outs = Umka.Map.run cmp zero (val obj (w.vars x)) (opsOf false ops) ∧
      outsOf true ops outs = Umka.Map.run cmp zero (val obj (w.vars y)) (opsOf true ops)
  | [], w, obj, I, _ => ⟨0, w, [], fun _ _ => rfl, rfl, rfl, rfl⟩
  | (false, op) :: ops, w, obj, I, hn => by
    obtain ⟨N, w1, obj1, e1, I1, e2, e3⟩ := on_trees ha cmp zero x op I
    obtain ⟨e4, e5⟩ := e3 y (Ne.symm hxy) hn
    obtain ⟨N2, w2, outs, f1, f2, f3, f4⟩ := run_two ha cmp zero hxy ops I1 e5
    refine ⟨max N N2, w2, (Umka.Map.step cmp zero (val obj (w.vars x)) op).2 :: outs, ?_, by simp [f2], ?_, ?_⟩
    · intro fuel hfu
      have e1 := e1 fuel (by omega)
      have f1 := f1 fuel (by omega)
      simp only [List.map_cons, run, Bool.false_eq_true, if_false, e1, f1, Option.bind_eq_bind, Option.bind_some]
    · rw [e2] at f3; exact congrArg (List.cons _) f3
    · rw [e4] at f4; exact f4
  | (true, op) :: ops, w, obj, I, hn => by
    have hn' : NoAlias w y x := fun a h1 h2 => hn a h2 h1
    obtain ⟨N, w1, obj1, e1, I1, e2, e3⟩ := on_trees ha cmp zero y op I
    obtain ⟨e4, e5⟩ := e3 x hxy hn'
    obtain ⟨N2, w2, outs, f1, f2, f3, f4⟩ := run_two ha cmp zero hxy ops I1 (fun a h1 h2 => e5 a h2 h1)
    refine ⟨max N N2, w2, (Umka.Map.step cmp zero (val obj (w.vars y)) op).2 :: outs, ?_, by simp [f2], ?_, ?_⟩
    · intro fuel hfu
      have e1 := e1 fuel (by omega)
      have f1 := f1 fuel (by omega)
      simp only [List.map_cons, run, if_true, e1, f1, Option.bind_eq_bind, Option.bind_some]
    · rw [e4] at f3; exact f3
    · rw [e2] at f4; exact congrArg (List.cons _) f4

/-- **C04, for keys of any type.**  The same with any comparison of keys, also one that is not an order (`C01_int_keys_violated`, NaN keys).
After the copy, the results on `x` are those it would have given without the copy and without the operations on `y`; the results on `y` are
those that `x` would have given if the operations on `y` had been done to it instead. -/
theorem C04_copy_independent_any_comparison {alloc : Heap K V → Nat} (ha : FreshAlloc alloc) (cmp : K → K → Int) (zero : V)
    (cs : List (Cmd K V)) {x y : Nat} (hxy : x ≠ y) (ops : List (Bool × Op K V)) :
    ∃ N w wx wy os outs, os.length = cs.length ∧ outs.length = ops.length ∧ ∀ fuel, N ≤ fuel →
      run alloc cmp zero fuel ⟨fun _ => none, fun _ => none⟩ (cs ++ .copy y x :: ops.map fun q => .on (if q.1 then y else x) q.2) =
        some (w, os ++ .unit :: outs) ∧
      run alloc cmp zero fuel ⟨fun _ => none, fun _ => none⟩ (cs ++ (opsOf false ops).map (.on x)) = some (wx, os ++ outsOf false ops outs) ∧
      run alloc cmp zero fuel ⟨fun _ => none, fun _ => none⟩ (cs ++ (opsOf true ops).map (.on x)) = some (wy, os ++ outsOf true ops outs) := by
  obtain ⟨N1, w1, os, obj1, a1, a2, I1⟩ := run_trees ha cmp zero cs trees_start
  obtain ⟨N2, w2, obj2, b1, I2, b2, b3, b4⟩ := copy_trees ha cmp zero y x I1
  obtain ⟨N3, w3, outs, c1, c2, c3, c4⟩ := run_two ha cmp zero hxy ops I2 (b4 x hxy)
  obtain ⟨N4, wx, d1⟩ := run_one ha cmp zero x (opsOf false ops) I1
  obtain ⟨N5, wy, d2⟩ := run_one ha cmp zero x (opsOf true ops) I1
  refine ⟨max N1 (max N2 (max N3 (max N4 N5))), w3, wx, wy, os, outs, a2, c2, ?_⟩
  intro fuel hfu
  have a1 := a1 fuel (by omega)
  have b1 := b1 fuel (by omega)
  have c1 := c1 fuel (by omega)
  have d1 := d1 fuel (by omega)
  have d2 := d2 fuel (by omega)
  refine ⟨?_, ?_, ?_⟩
  · rw [run_app _ _ a1]
    simp only [run, b1, c1, Option.bind_eq_bind, Option.bind_some, Option.map_some]
  · rw [run_app _ _ a1, d1, c3, b3 x hxy]; rfl
  · rw [run_app _ _ a1, d2, c4, b2]; rfl

/-! ## The hypotheses are met -/

/-- There is an allocator. -/
example : ∃ alloc : Heap Int Int → Nat, FreshAlloc alloc := by
  classical
  refine ⟨fun h => if hf : Fin h then hf.choose else 0, ?_⟩
  intro h hf
  simp only [dif_pos hf]
  exact hf.choose_spec _ (Nat.le_refl _)

example : Umka.Map.Spec.Lawful (fun a b : Int => a - b) :=
  ⟨fun a b => by omega, fun a b => by omega, fun a b c => by omega⟩

/-- The first of 64 addresses that is free. -/
def probe (h : Heap Int Int) : Nat := ((List.range 64).find? fun a => (h a).isNone).getD 64


/-- A program: `y` becomes a copy of `x` and `z` an alias; items are then changed and deleted in all three. -/
example : (run probe (fun a b : Int => a - b) 0 40 ⟨fun _ => none, fun _ => none⟩
    [.on 0 (.set 5 50 3), .on 0 (.set 2 20 9), .on 0 (.set 8 80 1), .copy 1 0, .assign 2 0, .on 0 (.del 5), .on 1 (.set 9 90 2), .on 2 (.set 2 21 1),
     .on 0 .keys, .on 1 .keys, .on 2 .len, .on 1 .len, .on 0 (.get 2 7), .on 1 (.get 2 7), .on 1 (.validKey 5)]).map (·.2) =
    some [.unit, .unit, .unit, .unit, .unit, .unit, .unit, .unit, .list [2, 8], .list [2, 5, 8, 9], .int 2, .int 4, .val 21, .val 20, .bool true] := by
  decide +kernel

end Umka.MapHeap.Props
