import Verif.Map.Lemmas

/-!
# Maps: property theorems (C01, C02, C03)
-/

namespace Umka.Map

variable {K V : Type}

/-- **C01.** For every lawful key comparison, every zero item, every history of map operations -
with any priorities whatsoever drawn for new nodes - the outputs are those of an ideal finite map. -/
theorem C01_map_refines_finite_map {cmp : K → K → Int} (hc : Spec.Lawful cmp) (zero : V)
    (ops : List (Op K V)) :
    Spec.Run cmp zero ⟨false, fun _ => none⟩ ops (run cmp zero none ops) :=
  run_sim hc zero ops none _ ⟨rfl, fun _ => rfl⟩

/-- State after a history. -/
def exec (cmp : K → K → Int) (zero : V) : MapVal K V → List (Op K V) → MapVal K V
  | m, [] => m
  | m, op :: ops => exec cmp zero (step cmp zero m op).1 ops

theorem exec_sim {cmp : K → K → Int} (hc : Spec.Lawful cmp) (zero : V) (ops : List (Op K V))
    (m : MapVal K V) (s : Spec.State K V) (hs : Sim cmp m s) :
    ∃ s', Sim cmp (exec cmp zero m ops) s' := by
  induction ops generalizing m s with
  | nil => exact ⟨s, hs⟩
  | cons op ops ih =>
    obtain ⟨s', _, h2⟩ := step_sim hc zero m s hs op
    exact ih _ _ h2

/-- **C02.** After every history, `keys(m)` lists strictly ascending keys (hence each at most once),
exactly those for which `validkey` answers true, and as many as `len(m)` says.  In particular the
"Wrong number of map keys" error is unreachable. -/
theorem C02_keys_ascending_complete {cmp : K → K → Int} (hc : Spec.Lawful cmp) (zero : V)
    (ops : List (Op K V)) :
    let m := exec cmp zero none ops
    ∃ ks, (step cmp zero m .keys).2 = .list ks ∧
      ks.Pairwise (fun a b => cmp a b < 0) ∧
      (step cmp zero m .len).2 = .int ks.length ∧
      ∀ k, k ∈ ks ↔ (step cmp zero m (.validKey k)).2 = .bool true := by
  obtain ⟨s, hs⟩ := exec_sim (V := V) hc zero ops none ⟨false, fun _ => none⟩ ⟨rfl, fun _ => rfl⟩
  intro m
  obtain ⟨_, ⟨⟨ks, he, hk⟩, _⟩, _⟩ := step_sim hc zero m s hs .keys
  obtain ⟨_, ⟨⟨ks2, he2, hl⟩, _⟩, _⟩ := step_sim hc zero m s hs .len
  refine ⟨ks, hk, he.1, ?_, ?_⟩
  · -- two strictly ascending enumerations of the same keys have the same length
    have nd : ∀ {l : List K}, l.Pairwise (fun a b => cmp a b < 0) → l.Nodup := by
      intro l h
      refine h.imp ?_
      intro a b hab e
      subst e
      have := (hc.eq_iff a a).2 rfl
      omega
    have hp : ks2.Perm ks := by
      rw [List.perm_ext_iff_of_nodup (nd he2.1) (nd he.1)]
      intro k; rw [he2.2, he.2]
    rw [hl, hp.length_eq]
  · intro k
    obtain ⟨_, ⟨hv, _⟩, _⟩ := step_sim hc zero m s hs (.validKey k)
    rw [hv, he.2]
    simp

/-- **C03.** The search loop ends within `(n + 1)²` iterations, `n` being the number of nodes, for
every tree, every key, every priorities and every comparison function, even an unlawful one; the
slot it ends with is the one `getNode` computes. -/
theorem C03_lookup_terminates (cmp : K → K → Int) (key : K) (path : List (Frame K V)) (t : Tree K V) :
    loop cmp key ((t.size + 1) * (t.size + 1)) (path, t) = some (getNode cmp key path t) := by
  have above_le : ∀ (p : Int) (t : Tree K V), t.above p ≤ t.size := by
    intro p t
    induction t with
    | nil => simp [Tree.above]
    | node l k q v r ihl ihr => simp only [Tree.above, Tree.size]; split <;> omega
  have above_lt : ∀ (t : Tree K V), t ≠ .nil → t.above t.rootPrio < t.size := by
    intro t ht
    cases t with
    | nil => exact absurd rfl ht
    | node l k q v r =>
      have := above_le q l; have := above_le q r
      show Tree.above q _ < _
      simp only [Tree.above, Tree.size]
      rw [if_neg (by omega)]
      omega
  -- more fuel does not hurt
  have key_lemma : ∀ fuel, t.size * t.size + t.above t.rootPrio + 1 ≤ fuel →
      loop cmp key fuel (path, t) = some (getNode cmp key path t) := by
    fun_induction getNode cmp key path t with
    | case1 path =>
      intro fuel hf
      cases fuel with
      | zero => omega
      | succ n => simp [loop, loopBody]
    | case2 path l k p v hgt =>
      intro fuel hf
      have : 0 < (Tree.node l k p v .nil).size * (Tree.node l k p v .nil).size := by
        simp only [Tree.size]; exact Nat.mul_pos (by omega) (by omega)
      match fuel, hf with
      | n + 2, _ => simp [loop, loopBody, hgt]
      | 1, hf => omega
      | 0, hf => omega
    | case3 path l k p v hgt rl rk rp rv rr hrot ih =>
      intro fuel hf
      cases fuel with
      | zero => omega
      | succ n =>
        simp only [loop, loopBody, hgt, hrot, if_true, and_self]
        apply ih
        have := Tree.above_rotLeft (l := l) (rl := rl) (rr := rr) (k := k) (rk := rk) (v := v)
          (rv := rv) hrot.2
        have e : (Tree.node (Tree.node l k p v rl) rk rp rv rr).size =
            (Tree.node l k p v (Tree.node rl rk rp rv rr)).size := by simp only [Tree.size]; omega
        rw [e]
        simp only [Tree.rootPrio] at hf ⊢
        omega
    | case4 path l k p v hgt rl rk rp rv rr hrot ih =>
      intro fuel hf
      cases fuel with
      | zero => omega
      | succ n =>
        simp only [loop, loopBody, hgt, hrot, if_true, if_false]
        apply ih
        have h1 := above_lt (.node rl rk rp rv rr) (by simp)
        have h2 : (Tree.node rl rk rp rv rr).size + 1 ≤
            (Tree.node l k p v (Tree.node rl rk rp rv rr)).size := by
          simp only [Tree.size]; omega
        have h3 := Nat.mul_le_mul h2 h2
        simp only [Nat.add_mul, Nat.mul_add] at h3
        omega
    | case5 path k p v r hgt hlt =>
      intro fuel hf
      have : 0 < (Tree.node .nil k p v r).size * (Tree.node .nil k p v r).size := by
        simp only [Tree.size]; exact Nat.mul_pos (by omega) (by omega)
      match fuel, hf with
      | n + 2, _ => simp [loop, loopBody, hgt, hlt]
      | 1, hf => omega
      | 0, hf => omega
    | case6 path k p v r hgt hlt ll lk lp lv lr hrot ih =>
      intro fuel hf
      cases fuel with
      | zero => omega
      | succ n =>
        simp only [loop, loopBody, hgt, hlt, hrot, if_true, if_false, and_self]
        apply ih
        have := Tree.above_rotRight (ll := ll) (lr := lr) (r := r) (k := k) (lk := lk) (v := v)
          (lv := lv) hrot.2
        have e : (Tree.node ll lk lp lv (Tree.node lr k p v r)).size =
            (Tree.node (Tree.node ll lk lp lv lr) k p v r).size := by simp only [Tree.size]; omega
        rw [e]
        simp only [Tree.rootPrio] at hf ⊢
        omega
    | case7 path k p v r hgt hlt ll lk lp lv lr hrot ih =>
      intro fuel hf
      cases fuel with
      | zero => omega
      | succ n =>
        simp only [loop, loopBody, hgt, hlt, hrot, if_true, if_false]
        apply ih
        have h1 := above_lt (.node ll lk lp lv lr) (by simp)
        have h2 : (Tree.node ll lk lp lv lr).size + 1 ≤
            (Tree.node (Tree.node ll lk lp lv lr) k p v r).size := by
          simp only [Tree.size]; omega
        have h3 := Nat.mul_le_mul h2 h2
        simp only [Nat.add_mul, Nat.mul_add] at h3
        omega
    | case8 path l k p v r hgt hlt =>
      intro fuel hf
      cases fuel with
      | zero => omega
      | succ n => simp [loop, loopBody, hgt, hlt]
  apply key_lemma
  have := above_le t.rootPrio t
  simp only [Nat.add_mul, Nat.mul_add]
  omega

/-! ### Non-vacuity -/

/-- Comparison of unbounded integers is lawful. -/
theorem lawful_int : Spec.Lawful (fun a b : Int => a - b) where
  eq_iff := by intro a b; omega
  swap := by intro a b; omega
  trans := by intro a b c; omega

example : run (fun a b : Int => a - b) (0 : Int) none
    [.set 5 50 1, .set 3 30 7, .get 3 9, .get 4 2, .del 5, .validKey 5, .validKey 3, .len, .keys] =
    [.unit, .unit, .val 30, .val 0, .unit, .bool false, .bool true, .int 2, .list [3, 4]] := by
  simp [run, step, mapPtr, getNode, plug, removeRoot, Tree.keys]

example : loop (fun a b : Int => a - b) 9 9
    ([], (.node (.node .nil 1 5 () .nil) 2 1 () (.node .nil 3 2 () .nil) : Tree Int Unit)) =
    some ([.inRight (.node (.node .nil 1 5 () .nil) 2 1 () .nil) 3 2 ()], .nil) := by
  decide

/-! ### The comparison actually used for `int` keys

`doCompare` computes `lhs.intVal - rhs.intVal` in 64 bits (umka_vm.c:1079).  Overflow is undefined
in C; on two's complement hardware the difference wraps. -/

/-- 64-bit wrapped difference. -/
def wrappedDiff (a b : Int) : Int := (a - b).bmod (2 ^ 64)

/-- **C01, negative part.** With `int` keys further apart than 2^63 the wrapped comparison is not
an order, and a map loses an item: after storing three keys and reading one, `validkey` denies a key
that has been stored and never deleted. -/
theorem C01_int_keys_violated :
    ∃ ops : List (Op Int Int),
      (∀ op ∈ ops, ∀ k v p, op = .set k v p → -2 ^ 63 ≤ k ∧ k < 2 ^ 63) ∧
      ¬ Spec.Run wrappedDiff 0 ⟨false, fun _ => none⟩ ops (run wrappedDiff 0 none ops) := by
  refine ⟨[.set 0 1 1, .set (-6148914691236517206) 2 1, .set 6148914691236517205 3 2,
    .get 6148914691236517205 1, .validKey (-6148914691236517206)], ?_, ?_⟩
  · intro op h k v p e
    subst e
    simp only [List.mem_cons, Op.set.injEq, List.not_mem_nil, reduceCtorEq, or_false] at h
    omega
  · have hrun : run wrappedDiff (0 : Int) none [.set 0 1 1, .set (-6148914691236517206) 2 1,
        .set 6148914691236517205 3 2, .get 6148914691236517205 1,
        .validKey (-6148914691236517206)] = [.unit, .unit, .unit, .val 3, .bool false] := by
      simp [run, step, mapPtr, getNode, plug, wrappedDiff, Int.bmod]
    rw [hrun]
    intro h
    simp only [Spec.Run, Spec.Step, Spec.Binds] at h
    obtain ⟨s1, ⟨_, _, h1, h1'⟩, s2, ⟨_, _, h2, h2'⟩, s3, ⟨_, _, h3, h3'⟩, s4, ⟨_, _, h4, h4'⟩, s5,
      ⟨h5, _⟩, _⟩ := h
    have e4 := h4' (-6148914691236517206) (by omega)
    have e3 := h3' (-6148914691236517206) (by omega)
    rw [e4, e3, h2] at h5
    simp at h5

end Umka.Map
