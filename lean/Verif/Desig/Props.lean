import Verif.Desig.Refuse

/-!
# Designators and assignments: property theorems (C73-C76)
-/

namespace Umka.Desig.Props
open Spec

variable {σ : Type}

/-! ## C73: designators -/

/-- **C73**: every well-formed designator is compiled, and its code computes the address or the value that the designator denotes (selectors from left
to right), or fails with the error of the first selector that fails.  (Not for the cases excluded by `Even`, see the two violations below.) -/
theorem C73_denotes_partial (d : Designator σ) (c : Cat) (h : cat d = some c) (hev : Even d) :
    ∃ code D, genDesignator d = .ok (code, D) ∧ ∀ (ops : Ops σ) (w : World σ) (st : List Int), den ops d w ≠ .crash →
      run ops code ⟨w, st⟩ = (den ops d w).map (fun q => ⟨q.1, q.2.slot :: st⟩) ∧ ∀ q, den ops d w = .ok q → q.2.cat = c := by
  obtain ⟨code, D, h1, _, _, _, h5⟩ := designator_ok d c h hev
  exact ⟨code, D, h1, h5⟩

theorem lastDeref_eq : ∀ (ss : List (Sel σ)) (v : Bool), ss ≠ [] → lastDeref v ss = (match ss.getLast? with | some .deref => true | _ => false)
  | [], _, h => absurd rfl h
  | [s], v, _ => by cases s <;> rfl
  | s :: s' :: ss, v, _ => by
    rw [lastDeref, lastDeref_eq (s' :: ss) _ (fun h => nomatch h), List.getLast?_cons_cons]

theorem lastDeref_ends (d : Designator σ) : lastDeref false d.sels = endsWithDeref d := by
  rw [endsWithDeref]
  cases hs : d.sels with
  | nil => rfl
  | cons s ss => exact lastDeref_eq (s :: ss) false (fun h => nomatch h)

/-- **C73**: in an expression, a designator has the type of the place or value, and the value that is stored at the place.  A null place gives an error.
(A structured place that is not reached by `^` is never null: it is part of a variable.) -/
theorem C73_read (d : Designator σ) (c : Cat) (h : cat d = some c) (hev : Even d) (hst : storable c.ty = true) :
    ∃ code, genRead d = .ok (code, c.ty) ∧ ∀ (ops : Ops σ) (w : World σ) (st : List Int), den ops d w ≠ .crash →
      (∀ w' t, den ops d w = .ok (w', .place 0 t) → t.structured = true → endsWithDeref d = true) →
      run ops code ⟨w, st⟩ = (den ops d w).bind fun q => (valueOf q.1 q.2).map fun v => ⟨q.1, v :: st⟩ := by
  obtain ⟨code, D, h1, h2, _, _, h5⟩ := designator_ok d c h hev
  rw [lastDeref_ends] at h2
  cases c with
  | value t =>
    refine ⟨code, ?_, ?_⟩
    · rw [genRead, h1]
      simp only [h2.isVar, h2.ty, isPlace, Bool.false_eq_true, if_false, repTy, Cat.ty]
    · intro ops w st hc _
      obtain ⟨h6, h7⟩ := h5 ops w st hc
      rw [h6]
      cases hd : den ops d w with
      | error e => rfl
      | crash => rfl
      | ok q =>
        have := h7 q hd
        obtain ⟨w', dn⟩ := q
        cases dn with
        | place p t' => cases this
        | value v t' => rfl
  | place t =>
    by_cases hs : (t.structured && !(endsWithDeref d)) = true
    · refine ⟨code, ?_, ?_⟩
      · rw [genRead, h1]
        have hty : D.ty = t := by rw [h2.ty, repTy, if_pos hs]
        simp only [h2.isVar, isPlace, if_true, hty]
        cases t <;> first | rfl | cases hs
      · intro ops w st hc h0
        obtain ⟨h6, h7⟩ := h5 ops w st hc
        rw [h6]
        cases hd : den ops d w with
        | error e => rfl
        | crash => rfl
        | ok q =>
          have hcat := h7 q hd
          obtain ⟨w', dn⟩ := q
          cases dn with
          | value v t' => cases hcat
          | place p t' =>
            cases hcat
            rw [Bool.and_eq_true, Bool.not_eq_true'] at hs
            have hp : p ≠ 0 := by
              intro hp
              subst hp
              have := h0 w' t hd hs.1
              rw [hs.2] at this
              cases this
            simp only [Res.map_ok, Res.bind_ok, valueOf, hp, if_false, hs.1, if_true, Den.slot]
    · have hty : D.ty = .ptr t := by rw [h2.ty, repTy, if_neg hs]
      refine ⟨code ++ [.deref t], ?_, ?_⟩
      · rw [genRead, h1]
        simp only [h2.isVar, isPlace, if_true, hty, Cat.ty]
      · intro ops w st hc _
        obtain ⟨h6, h7⟩ := h5 ops w st hc
        rw [run_append, h6]
        cases hd : den ops d w with
        | error e => rfl
        | crash => rfl
        | ok q =>
          have hcat := h7 q hd
          obtain ⟨w', dn⟩ := q
          cases dn with
          | value v t' => cases hcat
          | place p t' =>
            cases hcat
            simp only [Res.map_ok, Res.bind_ok, run_one, step, derefSlot, valueOf, Den.slot]
            by_cases hp : p = 0
            · simp only [hp, if_true, Res.map_error]
            · simp only [hp, if_false]
              cases t <;> first | rfl | cases hst

/-- **C73**: `&d` is the address of the place, of the pointer type; values that are not places have no address. -/
theorem C73_address (d : Designator σ) (c : Cat) (h : cat d = some c) (hev : Even d) :
    (∀ t, c = .place t → ∃ code, genAddress d = .ok (code, .ptr t) ∧ ∀ (ops : Ops σ) (w : World σ) (st : List Int), den ops d w ≠ .crash →
      run ops code ⟨w, st⟩ = (den ops d w).map fun q => ⟨q.1, q.2.slot :: st⟩) ∧
    (∀ t, c = .value t → genAddress d = .error .address) := by
  obtain ⟨code, D, h1, h2, _, _, h5⟩ := designator_ok d c h hev
  refine ⟨?_, ?_⟩
  · intro t ht
    subst ht
    refine ⟨code, ?_, fun ops w st hc => (h5 ops w st hc).1⟩
    rw [genAddress, h1]
    simp only [h2.isVar, isPlace, if_true]
    congr 2
    rw [h2.ty, repTy]
    cases hs : t.structured && !(lastDeref false d.sels) with
    | false => rfl
    | true =>
      rw [Bool.and_eq_true] at hs
      simp only [if_true, hs.1]
  · intro t ht
    subst ht
    rw [genAddress, h1]
    simp only [h2.isVar, isPlace, Bool.false_eq_true, if_false]

/-- **C73**: designators that are not well-formed are refused. -/
theorem C73_refused_partial (d : Designator σ) (h : cat d = none) (hev : Even d) : ∃ e, genDesignator d = .error e :=
  designator_refused d h hev

/-- A structure type with one integer field. -/
def tyS : Ty := .struct (.cons 7 (.scalar .int) .nil)

/-- A call that returns 0 and changes nothing. -/
def call0 : Code Unit := fun w => .ok (w, 0)

/-- **C73** is false for pointers that are not stored in variables: `f().x` is refused if `f` returns a weak pointer to a structure, although `w.x` is
accepted for a variable `w` of that type; and it is accepted if `f` returns a pointer to a pointer to a structure, although `p.x` is refused for a
variable `p` of that type. -/
theorem C73_pointer_results_violated :
    (cat (⟨.value .call call0 (.weak tyS), [.field 7]⟩ : Designator Unit) = some (.place (.scalar .int)) ∧
      (∃ e, genDesignator (⟨.value .call call0 (.weak tyS), [.field 7]⟩ : Designator Unit) = .error e) ∧
      (∃ q, genDesignator (⟨.var 100 (.weak tyS), [.field 7]⟩ : Designator Unit) = .ok q)) ∧
    (cat (⟨.value .call call0 (.ptr (.ptr tyS)), [.field 7]⟩ : Designator Unit) = none ∧
      (∃ q, genDesignator (⟨.value .call call0 (.ptr (.ptr tyS)), [.field 7]⟩ : Designator Unit) = .ok q) ∧
      (∃ e, genDesignator (⟨.var 100 (.ptr (.ptr tyS)), [.field 7]⟩ : Designator Unit) = .error e)) :=
  ⟨⟨rfl, ⟨_, rfl⟩, ⟨_, rfl⟩⟩, ⟨rfl, ⟨_, rfl⟩, ⟨_, rfl⟩⟩⟩

/-! ## C74: assignments -/

theorem leftTy_rep (t : Ty) (v : Bool) (h : storable t = true) : leftTy (repTy (.place t) v) = .ok t := by
  cases t <;> cases v <;> first | rfl | cases h

theorem flags (d : Designator σ) (D : D) (c : Cat) (v : Bool) (h2 : Rep D c v)
    (h3 : d.sels = [] → D = (genBase d.base).2) (h4 : d.sels ≠ [] → D.isCall = false ∧ D.isLit = false) (hc : cat d = some c) :
    (!D.isVar || D.isCall || D.isLit) = false ↔ Assignable d := by
  rw [Assignable, hc]
  have hv := h2.isVar
  by_cases hs : d.sels = []
  · have hD := h3 hs
    rw [cat, hs] at hc
    cases hc
    cases hb : d.base with
    | var a t =>
      rw [hb] at hD hv
      rw [hD]
      simp [genBase, baseCat]
    | value f cd t =>
      rw [hb] at hD hv
      rw [hD]
      cases f <;> simp [genBase, baseCat, hs]
      cases t.structured <;> simp
  · obtain ⟨k1, k2⟩ := h4 hs
    rw [k1, k2, hv]
    cases c with
    | place t => simp [isPlace, hs]
    | value t => simp [isPlace]

theorem assign_gen (d : Designator σ) (e : Code σ) (t : Ty) (h : cat d = some (.place t)) (hev : Even d) (ha : Assignable d) (hst : storable t = true) :
    ∃ code, genAssign d e = .ok (code ++ [.user e, .assign t]) ∧ ∀ (ops : Ops σ) (w : World σ) (st : List Int), den ops d w ≠ .crash →
      run ops code ⟨w, st⟩ = (den ops d w).map (fun q => ⟨q.1, q.2.slot :: st⟩) := by
  obtain ⟨code, D, h1, h2, h3, h4, h5⟩ := designator_ok d _ h hev
  refine ⟨code, ?_, fun ops w st hc => (h5 ops w st hc).1⟩
  rw [genAssign, h1]
  simp only [(flags d D _ _ h2 h3 h4 h).mpr ha, h2.ty, leftTy_rep t _ hst, Bool.false_eq_true, if_false]

theorem assign_stored (ops : Ops σ) (w : World σ) (t : Ty) (p v : Int) (hst : storable t = true) (hp : p ≠ 0)
    (hfit : ∀ k, t = .scalar k → ops.fits k v = true) (hv : t.structured = true → v ≠ 0) :
    ∃ w', assignSlot ops w t p v = .ok w' ∧ Stored w w' p t v := by
  have hpoke : t.structured = false → t.size = 1 → Stored w (poke w p v) p t v := by
    intro h1 h2
    refine ⟨?_, ?_, rfl⟩
    · intro i hi
      have : i = 0 := by omega
      subst this
      simp [poke, word, h1]
    · intro a ha
      simp only [poke]
      rw [if_neg (by omega)]
  have hcopy : t.structured = true → Stored w (copy w p v t.size) p t v := by
    intro h1
    refine ⟨?_, ?_, rfl⟩
    · intro i hi
      simp only [copy, word, h1, if_true]
      rw [if_pos (by omega)]
      congr 1
      omega
    · intro a ha
      simp only [copy]
      rw [if_neg ha]
  cases t
  case scalar k => exact ⟨_, by simp only [assignSlot, hp, if_false, hfit k rfl, if_true], hpoke rfl rfl⟩
  case str => exact ⟨_, by simp only [assignSlot, hp, if_false], hpoke rfl rfl⟩
  case ptr b => exact ⟨_, by simp only [assignSlot, hp, if_false], hpoke rfl rfl⟩
  case weak b => exact ⟨_, by simp only [assignSlot, hp, if_false], hpoke rfl rfl⟩
  case void => cases hst
  case null => cases hst
  all_goals exact ⟨_, by simp only [assignSlot, hp, hv rfl, if_false], hcopy rfl⟩

/-- **C74**: `d = e` evaluates the designator, then the expression, and stores the value at the designated place: afterwards the place contains the value,
and nothing else has changed. -/
theorem C74_assignment (d : Designator σ) (e : Code σ) (t : Ty) (h : cat d = some (.place t)) (hev : Even d) (ha : Assignable d)
    (hst : storable t = true) :
    ∃ code, genAssign d e = .ok code ∧ ∀ (ops : Ops σ) (w w1 w2 : World σ) (p v : Int) (st : List Int), den ops d w = .ok (w1, .place p t) →
      e w1 = .ok (w2, v) → p ≠ 0 → (∀ k, t = .scalar k → ops.fits k v = true) → (t.structured = true → v ≠ 0) →
      ∃ w3, run ops code ⟨w, st⟩ = .ok ⟨w3, st⟩ ∧ Stored w2 w3 p t v := by
  obtain ⟨code, h1, h2⟩ := assign_gen d e t h hev ha hst
  refine ⟨_, h1, ?_⟩
  intro ops w w1 w2 p v st hd he hp hfit hv
  obtain ⟨w3, h3, h4⟩ := assign_stored ops w2 t p v hst hp hfit hv
  refine ⟨w3, ?_, h4⟩
  rw [run_append, h2 ops w st (by rw [hd]; exact fun h => nomatch h), hd]
  simp only [Res.map_ok, Res.bind_ok, run, step, he, Den.slot, h3]

/-- **C74**: the errors of an assignment: those of the designator, those of the expression, a null place, a value that does not fit. -/
theorem C74_errors (d : Designator σ) (e : Code σ) (t : Ty) (h : cat d = some (.place t)) (hev : Even d) (ha : Assignable d)
    (hst : storable t = true) :
    ∃ code, genAssign d e = .ok code ∧ ∀ (ops : Ops σ) (w : World σ) (st : List Int),
      (∀ er, den ops d w = .error er → run ops code ⟨w, st⟩ = .error er) ∧
      (∀ w1 p er, den ops d w = .ok (w1, .place p t) → e w1 = .error er → run ops code ⟨w, st⟩ = .error er) ∧
      (∀ w1 w2 v, den ops d w = .ok (w1, .place 0 t) → e w1 = .ok (w2, v) → run ops code ⟨w, st⟩ = .error .nullPtr) ∧
      (∀ w1 w2 p v k, den ops d w = .ok (w1, .place p t) → e w1 = .ok (w2, v) → p ≠ 0 → t = .scalar k → ops.fits k v = false →
        run ops code ⟨w, st⟩ = .error .overflow) := by
  obtain ⟨code, h1, h2⟩ := assign_gen d e t h hev ha hst
  refine ⟨_, h1, ?_⟩
  intro ops w st
  refine ⟨?_, ?_, ?_, ?_⟩
  · intro er hd
    rw [run_append, h2 ops w st (by rw [hd]; exact fun h => nomatch h), hd]
    rfl
  · intro w1 p er hd he
    rw [run_append, h2 ops w st (by rw [hd]; exact fun h => nomatch h), hd]
    simp only [Res.map_ok, Res.bind_ok, run, step, he, Res.map_error, Res.bind_error]
  · intro w1 w2 v hd he
    rw [run_append, h2 ops w st (by rw [hd]; exact fun h => nomatch h), hd]
    simp only [Res.map_ok, Res.bind_ok, run, step, he, Den.slot, assignSlot, if_true, Res.map_error, Res.bind_error]
  · intro w1 w2 p v k hd he hp ht hf
    subst ht
    rw [run_append, h2 ops w st (by rw [hd]; exact fun h => nomatch h), hd]
    simp only [Res.map_ok, Res.bind_ok, run, step, he, Den.slot, assignSlot, hp, if_false, hf, Bool.false_eq_true, Res.map_error, Res.bind_error]

/-- **C74**: a variable, field or item of an array that has been assigned has the assigned value when it is read, whatever the path to it; all
other variables, and all fields and items that are not on the path or behind it, have the value they had after the evaluation of the expression. -/
theorem C74_fields_and_items (a : Int) (T t : Ty) (ss : List Step) (e : Code σ) (ha : 0 < a) (hf : Fixed T ss)
    (ht : cat (path (σ := σ) a T ss) = some (.place t)) (hst : storable t = true) :
    ∃ code, genAssign (path a T ss) e = .ok code ∧ ∀ (ops : Ops σ) (w w2 : World σ) (v : Int) (st : List Int), e w = .ok (w2, v) →
      (∀ k, t = .scalar k → ops.fits k v = true) → (t.structured = true → v ≠ 0) →
      ∃ w3, run ops code ⟨w, st⟩ = .ok ⟨w3, st⟩ ∧
        -- the path itself
        (∃ p, den ops (path a T ss) w3 = .ok (w3, .place p t) ∧ ∀ i : Nat, i < t.size → w3.mem (p + i) = word w2 t v i) ∧
        -- other paths in the same variable
        (∀ ss' t', Fixed T ss' → Part ss ss' → cat (path (σ := σ) a T ss') = some (.place t') →
          ∃ p', den ops (path a T ss') w3 = .ok (w3, .place p' t') ∧ ∀ i : Nat, i < t'.size → w3.mem (p' + i) = w2.mem (p' + i)) ∧
        -- other variables
        (∀ b, ¬ (a ≤ b ∧ b < a + T.size) → w3.mem b = w2.mem b) := by
  have hcat : cat (path (σ := σ) a T ss) = some (.place (target T ss).2) := path_cat ss T hf
  rw [hcat] at ht
  cases ht
  obtain ⟨code, h1, h2⟩ := C74_assignment (path a T ss) e _ hcat (path_even ss T hf)
    ⟨⟨_, hcat⟩, .inr trivial⟩ hst
  refine ⟨code, h1, ?_⟩
  intro ops w w2 v st he hfit hv
  have hden : ∀ w : World σ, den ops (path a T ss) w = .ok (w, .place (a + (target T ss).1) (target T ss).2) := fun w => path_den ops w ss T a ha hf
  obtain ⟨w3, h3, h4⟩ := h2 ops w w w2 _ v st (hden w) he (by omega) hfit hv
  refine ⟨w3, h3, ⟨_, hden w3, h4.value⟩, ?_, ?_⟩
  · intro ss' t' hf' hp hc'
    have hcat' : cat (path (σ := σ) a T ss') = some (.place (target T ss').2) := path_cat ss' T hf'
    rw [hcat'] at hc'
    cases hc'
    refine ⟨_, path_den ops w3 ss' T a ha hf', ?_⟩
    intro i hi
    apply h4.frame
    have := target_apart ss ss' T hf hf' hp
    omega
  · intro b hb
    apply h4.frame
    have := target_in ss T hf
    omega

/-! ## C75: short assignments, increments -/

theorem short_gen (d : Designator σ) (op : Nat) (e : Code σ) (t : Ty) (h : cat d = some (.place t)) (hev : Even d) (ha : Assignable d)
    (hst : storable t = true) :
    ∃ code, genShort d op e = .ok (code ++ [.dup, .deref t, .user e, .binary op t, .assign t]) ∧
      (∀ e', genAssign d e' = .ok (code ++ [.user e', .assign t])) ∧ ∀ (ops : Ops σ) (w : World σ) (st : List Int), den ops d w ≠ .crash →
      run ops code ⟨w, st⟩ = (den ops d w).map (fun q => ⟨q.1, q.2.slot :: st⟩) := by
  obtain ⟨code, D, h1, h2, h3, h4, h5⟩ := designator_ok d _ h hev
  refine ⟨code, ?_, ?_, fun ops w st hc => (h5 ops w st hc).1⟩
  · rw [genShort, h1]
    simp only [(flags d D _ _ h2 h3 h4 h).mpr ha, h2.ty, leftTy_rep t _ hst, Bool.false_eq_true, if_false]
  · intro e'
    rw [genAssign, h1]
    simp only [(flags d D _ _ h2 h3 h4 h).mpr ha, h2.ty, leftTy_rep t _ hst, Bool.false_eq_true, if_false]

/-- **C75**: `d op= e` evaluates the designator once, takes the value stored there, evaluates the expression, and stores the result of the operator at
the place that the designator denoted. -/
theorem C75_short_assignment (d : Designator σ) (op : Nat) (e : Code σ) (t : Ty) (h : cat d = some (.place t)) (hev : Even d) (ha : Assignable d)
    (hst : storable t = true) :
    ∃ code, genShort d op e = .ok code ∧ ∀ (ops : Ops σ) (w w1 w2 w3 : World σ) (p l r v : Int) (st : List Int), den ops d w = .ok (w1, .place p t) →
      valueOf w1 (.place p t) = .ok l → e w1 = .ok (w2, r) → ops.binary op t w2 l r = .ok (w3, v) →
      (∀ k, t = .scalar k → ops.fits k v = true) → (t.structured = true → v ≠ 0) →
      ∃ w4, run ops code ⟨w, st⟩ = .ok ⟨w4, st⟩ ∧ Stored w3 w4 p t v := by
  obtain ⟨code, h1, _, h2⟩ := short_gen d op e t h hev ha hst
  refine ⟨_, h1, ?_⟩
  intro ops w w1 w2 w3 p l r v st hd hl he hb hfit hv
  have hp : p ≠ 0 := by
    intro hp
    subst hp
    cases hl
  obtain ⟨w4, h3, h4⟩ := assign_stored ops w3 t p v hst hp hfit hv
  refine ⟨w4, ?_, h4⟩
  have hl' : derefSlot w1 t p = .ok l := by
    simp only [valueOf, hp, if_false] at hl
    simp only [derefSlot, hp, if_false]
    cases t <;> first | exact hl | cases hst
  rw [run_append, h2 ops w st (by rw [hd]; exact fun h => nomatch h), hd]
  simp only [Res.map_ok, Res.bind_ok, run, step, Den.slot, hl', he, hb, h3]

/-- **C75**: if the evaluation of the designator has no side effects, `d op= e` does the same as `d = d op e`, in all cases, errors included. -/
theorem C75_equivalent (ops : Ops σ) (d : Designator σ) (op : Nat) (e : Code σ) (t : Ty) (h : cat d = some (.place t)) (hev : Even d) (ha : Assignable d)
    (hst : storable t = true) :
    ∃ short full, genShort d op e = .ok short ∧ genAssign d (operation ops d t op e) = .ok full ∧
      ∀ (w : World σ) (st : List Int) (p : Int), den ops d w = .ok (w, .place p t) → run ops short ⟨w, st⟩ = run ops full ⟨w, st⟩ := by
  obtain ⟨code, h1, h2, h3⟩ := short_gen d op e t h hev ha hst
  refine ⟨_, _, h1, h2 (operation ops d t op e), ?_⟩
  intro w st p hd
  rw [run_append, run_append, h3 ops w st (by rw [hd]; exact fun h => nomatch h), hd]
  simp only [Res.map_ok, Res.bind_ok, run, step, Den.slot, operation, hd, valueOf, derefSlot]
  by_cases hp : p = 0
  · simp only [hp, if_true, Res.map_error, Res.bind_error]
  · have hl : derefSlot w t p = .ok (if t.structured = true then p else w.mem p) := by
      simp only [derefSlot, hp, if_false]
      cases t <;> first | rfl | cases hst
    simp only [derefSlot, hp, if_false] at hl
    simp only [hp, if_false, hl, Res.map_ok, Res.bind_ok]
    cases e w with
    | error er => rfl
    | crash => rfl
    | ok r =>
      simp only [Res.map_ok, Res.bind_ok]

/-- **C75**: `d++` and `d--` evaluate the designator once and replace what is stored there; nothing else changes.  (Partial: the place must not be
null, see the violation below.) -/
theorem C75_increment_partial (d : Designator σ) (inc : Bool) (k : Kind) (hk : k.isInteger = true) (h : cat d = some (.place (.scalar k)))
    (hev : Even d) :
    ∃ code, genIncDec d inc = .ok code ∧ ∀ (ops : Ops σ) (w w1 : World σ) (p : Int) (st : List Int), den ops d w = .ok (w1, .place p (.scalar k)) →
      p ≠ 0 → ∃ w2, run ops code ⟨w, st⟩ = .ok ⟨w2, st⟩ ∧ Stored w1 w2 p (.scalar k) (ops.incDec inc k (w1.mem p)) := by
  obtain ⟨code, D, h1, h2, _, _, h5⟩ := designator_ok d _ h hev
  refine ⟨code ++ [.incDec inc k], ?_, ?_⟩
  · rw [genIncDec, h1]
    simp only [h2.ty, leftTy_rep (.scalar k) _ rfl, hk, if_true]
  · intro ops w w1 p st hd hp
    refine ⟨poke w1 p (ops.incDec inc k (w1.mem p)), ?_, ?_⟩
    · rw [run_append, (h5 ops w st (by rw [hd]; exact fun h => nomatch h)).1, hd]
      simp only [Res.map_ok, Res.bind_ok, run_one, step, Den.slot, hp, if_false]
    · refine ⟨?_, ?_, rfl⟩
      · intro i hi
        have : i = 0 := by simp only [Ty.size] at hi; omega
        subst this
        simp [poke, word, Ty.structured]
      · intro b hb
        simp only [poke]
        rw [if_neg (by simp only [Ty.size] at hb; omega)]

/-- Operations that are good enough for the examples: 64-bit values, `+`. -/
def opsEx : Ops Unit where
  strengthen := fun _ v => .ok v
  mapItem := fun _ _ w p i => .ok (w, p + i)
  fits := fun _ _ => true
  binary := fun _ _ w l r => .ok (w, l + r)
  incDec := fun inc _ v => if inc then v + 1 else v - 1

/-- `p^` for a variable `p` of type `^int` at address 100. -/
def dP : Designator Unit := ⟨.var 100 (.ptr (.scalar .int)), [.deref]⟩

/-- **C75** is false for null pointers: `p^ += 1` gives the error message "Pointer is null", but `p^++` writes through the null pointer. -/
theorem C75_null_increment_violated (w : World Unit) (h : w.mem 100 = 0) :
    (∃ code, genShort dP 0 (fun w => .ok (w, 1)) = .ok code ∧ run opsEx code ⟨w, []⟩ = .error .nullPtr) ∧
    (∃ code, genIncDec dP true = .ok code ∧ run opsEx code ⟨w, []⟩ = .crash) := by
  refine ⟨⟨_, rfl, ?_⟩, ⟨_, rfl, ?_⟩⟩
  · show run opsEx [.pushAddr 100, .deref (.ptr (.scalar .int)), .dup, .deref (.scalar .int), .user _, .binary 0 (.scalar .int), .assign (.scalar .int)] _ = _
    simp [run, step, derefSlot, h]
  · show run opsEx [.pushAddr 100, .deref (.ptr (.scalar .int)), .incDec true .int] _ = _
    simp [run, step, derefSlot, h]

/-! ## C76: what can be assigned -/

/-- **C76**: exactly the assignable designators are accepted on the left of `=` and of `op=`: places (variables, items, fields, what pointers point
to), but not constants, values, characters of strings, nor bare calls and composite literals. -/
theorem C76_accepted (d : Designator σ) (e : Code σ) (op : Nat) (hev : Even d) (hst : ∀ c, cat d = some c → storable c.ty = true) :
    ((∃ code, genAssign d e = .ok code) ↔ Assignable d) ∧ ((∃ code, genShort d op e = .ok code) ↔ Assignable d) := by
  cases hc : cat d with
  | none =>
    obtain ⟨er, he⟩ := designator_refused d hc hev
    have hn : ¬ Assignable d := by
      intro h
      obtain ⟨⟨t, ht⟩, _⟩ := h
      rw [hc] at ht
      cases ht
    refine ⟨⟨fun h => ?_, fun h => absurd h hn⟩, ⟨fun h => ?_, fun h => absurd h hn⟩⟩
    · obtain ⟨code, h⟩ := h
      rw [genAssign, he] at h
      cases h
    · obtain ⟨code, h⟩ := h
      rw [genShort, he] at h
      cases h
  | some c =>
    obtain ⟨code, D, h1, h2, h3, h4, _⟩ := designator_ok d c hc hev
    have hfl := flags d D c _ h2 h3 h4 hc
    refine ⟨⟨fun h => ?_, fun h => ?_⟩, ⟨fun h => ?_, fun h => ?_⟩⟩
    · apply hfl.mp
      obtain ⟨cd, h⟩ := h
      rw [genAssign, h1] at h
      cases hb : (!D.isVar || D.isCall || D.isLit) with
      | false => rfl
      | true => simp only [hb, if_true] at h; cases h
    · obtain ⟨t, ht⟩ := h.1
      rw [hc] at ht
      cases ht
      obtain ⟨cd, h5, _⟩ := assign_gen d e t hc hev h (hst _ hc)
      exact ⟨_, h5⟩
    · apply hfl.mp
      obtain ⟨cd, h⟩ := h
      rw [genShort, h1] at h
      cases hb : (!D.isVar || D.isCall || D.isLit) with
      | false => rfl
      | true => simp only [hb, if_true] at h; cases h
    · obtain ⟨t, ht⟩ := h.1
      rw [hc] at ht
      cases ht
      obtain ⟨cd, h5, _⟩ := short_gen d op e t hc hev h (hst _ hc)
      exact ⟨_, h5⟩

/-- **C76**: `d++` and `d--` are accepted for places exactly if they are integers. -/
theorem C76_increment_partial (d : Designator σ) (inc : Bool) (t : Ty) (h : cat d = some (.place t)) (hev : Even d) (hst : storable t = true) :
    (∃ code, genIncDec d inc = .ok code) ↔ ∃ k : Kind, t = .scalar k ∧ k.isInteger = true := by
  obtain ⟨code, D, h1, h2, h3⟩ := designator_ok d _ h hev
  clear h3
  rw [genIncDec, h1]
  simp only [h2.ty, leftTy_rep t _ hst]
  clear h2 h
  cases t
  case scalar k =>
    cases hk : k.isInteger with
    | true => exact ⟨fun _ => ⟨k, rfl, hk⟩, fun _ => ⟨_, if_pos hk⟩⟩
    | false =>
      refine ⟨fun h => ?_, fun h => ?_⟩
      · obtain ⟨cd, h⟩ := h
        simp only [hk, Bool.false_eq_true, if_false] at h
        cases h
      · obtain ⟨k', h6, h7⟩ := h
        cases h6
        rw [hk] at h7
        cases h7
  all_goals exact ⟨(fun h => by obtain ⟨cd, h⟩ := h; cases h), (fun h => by obtain ⟨k', h6, _⟩ := h; cases h6)⟩

/-- `f()` for a function that returns a pointer to an integer. -/
def dCall : Designator Unit := ⟨.value .call (fun w => .ok (w, 200)) (.ptr (.scalar .int)), []⟩

/-- **C76** is false for `++`: `f()++` is accepted for a function that returns a pointer, and increments what the pointer points to, although `f()` is a
value and `f() = 1` and `f() += 1` are refused. -/
theorem C76_increment_call_violated :
    ¬ Assignable dCall ∧ (∀ e, genAssign dCall e = .error .notAssignable) ∧ (∀ op e, genShort dCall op e = .error .notAssignable) ∧
    ∃ code, genIncDec dCall true = .ok code ∧ ∀ w : World Unit, ∃ w', run opsEx code ⟨w, []⟩ = .ok ⟨w', []⟩ ∧ w'.mem 200 = w.mem 200 + 1 := by
  refine ⟨fun h => ?_, fun e => rfl, fun op e => rfl, ⟨_, rfl, fun _ => ⟨_, rfl, rfl⟩⟩⟩
  obtain ⟨⟨t, ht⟩, _⟩ := h
  cases ht

/-- `f().x` for a function that returns a structure. -/
def dTemp : Designator Unit := ⟨.value .call (fun w => .ok (w, 300)) tyS, [.field 7]⟩

/-- **C76** is false for parts of results: `f().x = 5` is accepted for a function that returns a structure, and changes only the temporary copy of the
result. -/
theorem C76_temporary_violated :
    ∃ code, genAssign dTemp (fun w => .ok (w, 5)) = .ok code ∧ ∀ w : World Unit, ∃ w', run opsEx code ⟨w, []⟩ = .ok ⟨w', []⟩ ∧
      w'.mem 300 = 5 ∧ ∀ b, b ≠ 300 → w'.mem b = w.mem b :=
  ⟨_, rfl, fun _ => ⟨_, rfl, rfl, fun _ hb => if_neg hb⟩⟩

/-! ## The hypotheses are met -/

/-- `struct {x: int; a: [3]^struct {y: int}; d: []int; m: map[int]int; s: str}`. -/
def tyEx : Ty :=
  .struct (.cons 0 (.scalar .int) (.cons 1 (.array 3 (.ptr tyS)) (.cons 2 (.dynArray (.scalar .int)) (.cons 3 (.map (.scalar .int) (.scalar .int))
    (.cons 4 .str .nil)))))

def two : Code Unit := fun w => .ok (w, 2)

/-- `v.a[2].y`: a field of a structure, an item of an array, a field of what a pointer points to. -/
def dEx : Designator Unit := ⟨.var 1000 tyEx, [.field 1, .index two, .field 7]⟩

/-- A memory in which the pointer `v.a[2]` is 500. -/
def wEx : World Unit := ⟨fun a => if a = 1003 then 500 else 0, ()⟩

example : cat dEx = some (.place (.scalar .int)) ∧ den opsEx dEx wEx = .ok (wEx, .place 500 (.scalar .int)) ∧
    den opsEx dEx ⟨fun _ => 0, ()⟩ = .error .nullStruct := ⟨rfl, rfl, rfl⟩

example : Even dEx := by
  refine ⟨rfl, fun c h => ?_⟩
  cases h
  refine ⟨rfl, fun c h => ?_⟩
  cases h
  refine ⟨rfl, fun c h => ?_⟩
  cases h
  exact trivial

example : Assignable dEx := ⟨⟨_, rfl⟩, .inl fun h => nomatch h⟩

example : den opsEx (⟨.var 1000 tyEx, [.field 2, .index two]⟩ : Designator Unit)
    ⟨fun a => if a = 1005 then 1 else if a = 1006 then 600 else if a = 598 then 5 else 0, ()⟩ =
    .ok (⟨fun a => if a = 1005 then 1 else if a = 1006 then 600 else if a = 598 then 5 else 0, ()⟩, .place 602 (.scalar .int)) := rfl

example : den opsEx (⟨.var 1000 tyEx, [.field 2, .index two]⟩ : Designator Unit)
    ⟨fun a => if a = 1005 then 1 else if a = 1006 then 600 else if a = 598 then 2 else 0, ()⟩ = .error (.range 2 1) := rfl

example : Fixed tyEx [.field 1, .item 2] ∧ Fixed tyEx [.field 1, .item 0] ∧ Fixed tyEx [.field 0] ∧ Part [.field 1, .item 2] [.field 1, .item 0] ∧
    Part [.field 1, .item 2] [.field 0] :=
  ⟨⟨_, rfl, by decide, trivial⟩, ⟨_, rfl, by decide, trivial⟩, ⟨_, rfl, trivial⟩, .inr (.inl (by decide)), .inl (by decide)⟩

/-- A designator that is refused: `v.x[2]`, an item of an integer. -/
example : cat (⟨.var 1000 tyEx, [.field 0, .index two]⟩ : Designator Unit) = none ∧
    Even (⟨.var 1000 tyEx, [.field 0, .index two]⟩ : Designator Unit) := by
  refine ⟨rfl, rfl, fun c h => ?_⟩
  cases h
  exact ⟨rfl, fun c h => nomatch h⟩

/-- Characters of strings are values: `v.s[2] = e` is refused. -/
example : ¬ Assignable (⟨.var 1000 tyEx, [.field 4, .index two]⟩ : Designator Unit) := by
  intro h
  obtain ⟨⟨t, ht⟩, _⟩ := h
  cases ht

end Umka.Desig.Props
