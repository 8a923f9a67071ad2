import Verif.Str.Lemmas
/-! # Strings: the model agrees with the specification -/

namespace Umka.Str
open Spec

/-- Strings hold no zero bytes. -/
theorem bytes_nonzero {s : State} (h : Wf s) {a : Ref} (ha : WfA s a) : 0 ∉ (abs s).bytes a := by
  by_cases hn : a = .null
  · subst hn; simp [SState.bytes]
  · obtain ⟨b, _, hw, hby, _⟩ := deref_ok h ha hn
    rw [← hby]; exact hw.nonzero

theorem fresh_err {s : SState} {dst : Nat} {l : List Nat} {e : Err}
    (h : allocN l.length = .error e) : s.fresh allocN dst l = .error e := by
  unfold SState.fresh; rw [h]

/-- Allocate, fill from the start, perhaps rewrite the terminator. -/
theorem fill_agree {s : State} (h : Wf s) (l : List Nat) (hz : 0 ∉ l) (dst : Nat)
    (k : State → Ref → Res (State × Ref))
    (hk : ∀ cap, allocN l.length = .ok cap → ∃ rest, (l ++ 0 :: rest).length = cap + 1 ∧
      k (push s ⟨l.length, cap, List.replicate (cap + 1) 0⟩) (.blk s.blocks.length) =
        .ok (push s ⟨l.length, cap, l ++ 0 :: rest⟩, .blk s.blocks.length)) :
    AgreeA dst (do
        let (s, res) ← allocStr s (l.length : Int)
        k s res)
      ((abs s).fresh allocN dst l) := by
  rw [allocStr_eq]
  cases hal : allocCap (l.length : Int) with
  | error e => exact fresh_err hal
  | ok cap =>
    dsimp only
    rw [bind_ok]
    dsimp only
    obtain ⟨rest, h1, h2⟩ := hk cap hal
    rw [h2]
    exact agree_fresh h dst l rest hz hal h1

theorem fill_cells (l : List Nat) (cap : Nat) (h : l.length ≤ cap) :
    (List.replicate (cap + 1) 0).take 0 ++ l ++ (List.replicate (cap + 1) 0).drop (0 + l.length) =
      l ++ 0 :: List.replicate (cap - l.length) 0 := by
  rw [List.take_zero, List.nil_append, List.drop_replicate, ← List.replicate_succ]
  congr 2; omega

theorem literal_agree {s : State} (h : Wf s) (l : List Nat) (dst : Nat) :
    AgreeA dst (literal s l)
      (if 0 ∈ l ∨ l.length > maxLiteral then .error .literal
       else .ok (SState.setVar ⟨(abs s).objs ++ [⟨l, l.length + 1⟩], (abs s).vars⟩ dst
        (.blk (abs s).objs.length))) := by
  unfold literal maxLiteral
  by_cases hx : 0 ∈ l ∨ l.length > 2147483646
  · rw [if_pos hx, if_pos hx]; rfl
  · rw [if_neg hx, if_neg hx]
    have hw : WfB ⟨l.length, l.length + 1, l ++ [0]⟩ :=
      wfB_of (rest := []) (fun h => hx (Or.inl h)) (by simp) (by omega)
    refine ⟨h.push hw, ?_, ?_⟩
    · intro r hr; injection hr with hr; subst hr; simp
    · have := abs_push s ⟨l.length, l.length + 1, l ++ [0]⟩ dst
      unfold push at this
      rw [this]
      simp only [absB]
      rw [List.take_left' rfl]

theorem concat_agree (eq : Bool) {s : State} (h : Wf s) {a b : Ref} (ha : WfA s a) (hb : WfA s b)
    (h1 : ((abs s).bytes a).length + ((abs s).bytes b).length ≤ 2147483647)
    (h2 : eq = true → ((abs s).bytes a).length + ((abs s).bytes b).length < 2147483647)
    (dst : Nat) :
    AgreeA dst (concat eq s a b)
      (if eq = true ∧ ((abs s).bytes a).length + ((abs s).bytes b).length < (abs s).cap (nz a) then
        .ok (((abs s).mutate (nz a) ((abs s).bytes a ++ (abs s).bytes b)).setVar dst (nz a))
       else (abs s).fresh allocN dst ((abs s).bytes a ++ (abs s).bytes b)) := by
  have hza := bytes_nonzero h ha
  have hzb := bytes_nonzero h hb
  unfold concat
  dsimp only
  rw [nonNull_eq, nonNull_eq, getLen_ok h ha.nz (nz_ne a), bind_ok, getLen_ok h hb.nz (nz_ne b),
    bind_ok, getCap_ok h ha.nz (nz_ne a), bind_ok, bytes_nz, bytes_nz]
  rw [if_neg (by unfold intMax; omega), if_neg (by unfold intMax; intro hh; have := h2 hh.1; omega)]
  by_cases hin : eq = true ∧
      ((abs s).bytes a).length + ((abs s).bytes b).length < (abs s).cap (nz a)
  · rw [if_pos hin]
    have e : (eq && decide ((abs s).cap (nz a) ≥
        ((abs s).bytes a).length + ((abs s).bytes b).length + 1)) = true := by
      rw [Bool.and_eq_true, decide_eq_true_eq]; exact ⟨hin.1, by omega⟩
    rw [if_pos e, bind_ok]
    dsimp only
    have hrd := readBytes_term h hb.nz (nz_ne b)
    rw [bytes_nz] at hrd
    rw [hrd, bind_ok]
    obtain ⟨bl, hbl, hw, hby, hcap, hblk, hemp⟩ := deref_ok h ha.nz (nz_ne a)
    rw [bytes_nz] at hby
    have hcc := hw.cap
    have hll := hw.len
    rw [hby] at hll
    unfold writeBytes
    rw [hbl, bind_ok, if_pos (by simp; omega)]
    cases hna : nz a with
    | null => exact absurd hna (nz_ne a)
    | empty =>
      have hbe := hemp hna
      have hcap1 : (abs s).cap (nz a) = 1 := by rw [hna]; rfl
      rw [hcap1] at hin
      have ha0 : (abs s).bytes a = [] := List.eq_nil_of_length_eq_zero (by omega)
      have hb0 : (abs s).bytes b = [] := List.eq_nil_of_length_eq_zero (by omega)
      rw [ha0, hb0, hbe]
      simp only [store, setLen, emptyBlock, deref, List.length_nil, List.take_zero,
        List.nil_append, List.length_singleton, Nat.zero_add, List.drop_one, List.tail_cons,
        List.append_nil, if_true, bind_ok, pure_eq, SState.mutate]
      exact ⟨h, fun r hr => by simp at hr, rfl⟩
    | blk r =>
      have hr := hblk r hna
      have hrl := ha.nz r hna
      simp only [store]
      rw [if_pos hrl, bind_ok]
      unfold setLen
      simp only [deref]
      rw [List.getElem?_set_self hrl]
      dsimp only
      rw [bind_ok]
      simp only [store]
      rw [if_pos (by simpa using hrl), bind_ok, pure_eq, List.set_set]
      have hcells : bl.cells.take ((abs s).bytes a).length ++ ((abs s).bytes b ++ [0]) ++
          bl.cells.drop (((abs s).bytes a).length + ((abs s).bytes b ++ [0]).length) =
          ((abs s).bytes a ++ (abs s).bytes b) ++ 0 ::
            bl.cells.drop (((abs s).bytes a).length + ((abs s).bytes b ++ [0]).length) := by
        rw [hll, hby]; simp
      rw [hcells, ← List.length_append]
      have hlen2 : bl.cap ≤ (((abs s).bytes a ++ (abs s).bytes b) ++ 0 ::
          bl.cells.drop (((abs s).bytes a).length + ((abs s).bytes b ++ [0]).length)).length := by
        rw [← hcells]
        simp only [List.length_append, List.length_take, List.length_drop, List.length_singleton]
        omega
      have := set_agree h hr ((abs s).bytes a ++ (abs s).bytes b) _
        (by rw [List.mem_append]; exact fun hh => hh.elim hza hzb) hlen2
        (by rw [List.length_append]; have := h2 hin.1; omega)
      refine ⟨this.1, ?_, ?_⟩
      · intro k hk; injection hk with hk; subst hk; simpa using hrl
      · rw [abs_setVar, this.2]
  · rw [if_neg hin]
    have e : ¬(eq && decide ((abs s).cap (nz a) ≥
        ((abs s).bytes a).length + ((abs s).bytes b).length + 1)) = true := by
      rw [Bool.and_eq_true, decide_eq_true_eq]; intro hh; exact hin ⟨hh.1, by omega⟩
    rw [if_neg e]
    have key := fill_agree h ((abs s).bytes a ++ (abs s).bytes b)
      (by rw [List.mem_append]; exact fun hh => hh.elim hza hzb) dst
      (fun s' buf => do
        let xs ← readBytes s' (nz a) 0 ((abs s).bytes a).length
        let s' ← writeBytes s' buf 0 xs
        let xs ← readBytes s' (nz b) 0 (((abs s).bytes b).length + 1)
        let s' ← writeBytes s' buf ((abs s).bytes a).length xs
        let s' ← setLen s' buf (((abs s).bytes a).length + ((abs s).bytes b).length)
        return (s', buf)) ?_
    · refine Eq.mp (congrArg (fun m => AgreeA dst m _) ?_) key
      rw [List.length_append]
      have ec : (((((abs s).bytes a).length + ((abs s).bytes b).length : Nat)) : Int) =
        (((abs s).bytes a).length : Int) + (((abs s).bytes b).length : Int) := by omega
      rw [ec]
      cases allocStr s ((((abs s).bytes a).length : Int) + (((abs s).bytes b).length : Int)) with
      | error f => rfl
      | ok r =>
        simp only [bind_ok]
        cases readBytes r.1 (nz a) 0 ((abs s).bytes a).length with
        | error f => rfl
        | ok xs =>
          simp only [bind_ok]
          cases writeBytes r.1 r.2 0 xs <;> rfl
    · intro cap hal
      have hge := (allocCap_ge hal).1
      rw [List.length_append] at hge
      simp only [Int.toNat_natCast] at hge
      have hra := readBytes_ok h ha.nz (nz_ne a) 0 ((abs s).bytes a).length
        (by rw [bytes_nz]; omega)
      rw [bytes_nz, List.drop_zero, List.take_length] at hra
      have hrd := readBytes_term h hb.nz (nz_ne b)
      rw [bytes_nz] at hrd
      rw [readBytes_push ha.nz, hra, bind_ok, writeBytes_push _ _ _ _ (by simp; omega), bind_ok,
        readBytes_push hb.nz, hrd, bind_ok, writeBytes_push _ _ _ _ (by simp; omega), bind_ok,
        setLen_push, bind_ok, pure_eq]
      dsimp only
      rw [fill_cells _ _ (by omega)]
      refine ⟨List.replicate (cap - (((abs s).bytes a).length + ((abs s).bytes b).length)) 0, ?_, ?_⟩
      · simp; omega
      · simp only [List.length_append]
        refine congrArg (fun c => Except.ok (push s
          ⟨((abs s).bytes a).length + ((abs s).bytes b).length, cap, c⟩,
          Ref.blk s.blocks.length)) ?_
        rw [List.take_left' rfl, List.length_singleton,
          List.drop_append, List.drop_eq_nil_of_le (by omega), List.nil_append]
        have : ((abs s).bytes a).length + (((abs s).bytes b).length + 1) -
            ((abs s).bytes a).length = ((abs s).bytes b).length + 1 := by omega
        rw [this, List.drop_succ_cons, List.drop_replicate]
        simp only [List.append_assoc, List.singleton_append]
        congr 4
        omega

theorem slice_agree {s : State} (h : Wf s) {a : Ref} (ha : WfA s a) (start : Int)
    (stop : Option Int) (hstop : stop ≠ some (-2147483648)) (dst : Nat) :
    AgreeA dst (slice s a start (endArg stop))
      (let l := (abs s).bytes a
       let e := stopAt l.length stop
       if start < 0 ∨ e < start ∨ e > l.length then .error .index
       else (abs s).fresh allocN dst ((l.take e.toNat).drop start.toNat)) := by
  have hz := bytes_nonzero h ha
  unfold slice
  dsimp only
  rw [nonNull_eq, getLen_ok h ha.nz (nz_ne a), bind_ok, bytes_nz]
  generalize hl : (abs s).bytes a = l at *
  have hend : (if (if endArg stop = intMin then (l.length : Int) else endArg stop) < 0 then
      (if endArg stop = intMin then (l.length : Int) else endArg stop) + l.length
      else (if endArg stop = intMin then (l.length : Int) else endArg stop)) =
      stopAt l.length stop := by
    cases stop with
    | none => simp [endArg, stopAt]; omega
    | some e =>
      have : ¬e = intMin := fun he => hstop (by rw [he]; rfl)
      simp [endArg, stopAt, this]
  rw [hend]
  generalize stopAt l.length stop = e at *
  by_cases h1 : start < 0
  · rw [if_pos h1, if_pos (Or.inl h1)]; rfl
  rw [if_neg h1]
  by_cases h2 : e < start ∨ e > l.length
  · rw [if_pos h2, if_pos (Or.inr h2)]; rfl
  rw [if_neg h2, if_neg (by omega)]
  have hlen : ((l.take e.toNat).drop start.toNat).length = (e - start).toNat := by
    simp; omega
  have hz' : 0 ∉ (l.take e.toNat).drop start.toNat := fun hh =>
    hz (List.mem_of_mem_take (List.mem_of_mem_drop hh))
  have key := fill_agree h ((l.take e.toNat).drop start.toNat) hz' dst
    (fun s' substr => do
      let xs ← readBytes s' (nz a) start.toNat (e - start).toNat
      let s' ← writeBytes s' substr 0 xs
      let s' ← writeBytes s' substr (e - start).toNat [0]
      return (s', substr)) ?_
  · rw [hlen] at key
    have ec : (((e - start).toNat : Nat) : Int) = e - start := by omega
    rw [ec] at key
    exact key
  · intro cap hal
    have hge := (allocCap_ge hal).1
    simp only [Int.toNat_natCast] at hge
    have hrd := readBytes_ok h ha.nz (nz_ne a) start.toNat (e - start).toNat
      (by rw [bytes_nz, hl]; omega)
    rw [bytes_nz, hl, show (l.drop start.toNat).take (e - start).toNat =
      (l.take e.toNat).drop start.toNat by rw [List.drop_take]; congr 1; omega] at hrd
    generalize (l.take e.toNat).drop start.toNat = m at *
    rw [readBytes_push ha.nz, hrd, bind_ok, writeBytes_push _ _ _ _ (by simp; omega), bind_ok,
      writeBytes_push _ _ _ _ (by simp; omega), bind_ok, pure_eq]
    dsimp only
    rw [fill_cells _ _ hge]
    refine ⟨List.replicate (cap - m.length) 0, by simp; omega, ?_⟩
    congr 4
    rw [← hlen, List.take_left' rfl]
    simp

theorem cString_ok {b : Block} (h : WfB b) : cString b = .ok (b.cells.take b.len ++ [0]) := by
  obtain ⟨rest, hr⟩ := h.shape
  have hz := h.nonzero
  generalize b.cells.take b.len = l at *
  unfold cString
  rw [hr, if_pos (by simp)]
  congr 2
  have : ∀ l' : List Nat, 0 ∉ l' → (l' ++ 0 :: rest).takeWhile (· ≠ 0) = l' := by
    intro l' h'
    induction l' with
    | nil => simp
    | cons x l' ih =>
      simp only [List.mem_cons, not_or] at h'
      have hx : x ≠ 0 := fun hh => h'.1 hh.symm
      simp only [List.cons_append, List.takeWhile_cons]
      rw [if_pos (by simpa using hx), ih h'.2]
  exact this l hz

theorem copy_agree {s : State} (h : Wf s) {a : Ref} (ha : WfA s a) (dst : Nat) :
    AgreeA dst (copy s a)
      (if a = .null then .ok ((abs s).setVar dst .null)
       else (abs s).fresh allocN dst ((abs s).bytes a)) := by
  unfold copy
  by_cases hn : a = .null
  · rw [if_pos hn, if_pos hn]
    exact ⟨h, fun r hr => by simp at hr, rfl⟩
  rw [if_neg hn, if_neg hn, getLen_ok h ha hn, bind_ok]
  apply fill_agree h ((abs s).bytes a) (bytes_nonzero h ha) dst
    (fun s' res => do
      let xs ← cString (← deref s' a)
      let s' ← writeBytes s' res 0 xs
      return (s', res))
  intro cap hal
  have hge := (allocCap_ge hal).1
  simp only [Int.toNat_natCast] at hge
  obtain ⟨b, hb, hw, hby, _⟩ := deref_ok h ha hn
  rw [deref_push ha, hb, bind_ok, cString_ok hw, bind_ok, hby,
    writeBytes_push _ _ _ _ (by simp; omega), bind_ok, pure_eq]
  refine ⟨List.replicate (cap - ((abs s).bytes a).length) 0, by simp; omega, ?_⟩
  congr 4
  simp

theorem index_agree {s : State} (h : Wf s) {a : Ref} (ha : WfA s a) (i : Int) :
    match index s a i with
    | .ok x => 0 ≤ i ∧ ((abs s).bytes a)[i.toNat]? = some x
    | .error (.err e) => e = .index ∧ ¬(0 ≤ i ∧ i < ((abs s).bytes a).length)
    | .error .ub => False := by
  unfold index
  dsimp only
  rw [nonNull_eq, getLen_ok h ha.nz (nz_ne a), bind_ok, bytes_nz]
  by_cases hx : i < 0 ∨ i > ((((abs s).bytes a).length : Nat) : Int) - 1
  · rw [if_pos hx]; exact ⟨rfl, by omega⟩
  · rw [if_neg hx]
    have hlt : i.toNat < ((abs s).bytes a).length := by omega
    rw [readBytes_ok h ha.nz (nz_ne a) _ _ (by rw [bytes_nz]; omega), bind_ok, bytes_nz,
      List.drop_eq_getElem_cons hlt]
    exact ⟨by omega, List.getElem?_eq_getElem hlt⟩

theorem charsLen_eq (l : List Nat) : l.take (charsLen l) = l.takeWhile (· ≠ 0) ∧
    (l.takeWhile (· ≠ 0)).length = charsLen l := by
  induction l with
  | nil => simp [charsLen]
  | cons x l ih =>
    simp only [charsLen, List.takeWhile_cons]
    by_cases hx : x = 0
    · subst hx; simp
    · rw [if_neg hx, if_pos (by simpa using hx), List.take_succ_cons, ih.1, List.length_cons, ih.2]
      exact ⟨rfl, rfl⟩

theorem takeWhile_nonzero (l : List Nat) : 0 ∉ l.takeWhile (· ≠ 0) := by
  intro h
  induction l with
  | nil => simp at h
  | cons x l ih =>
    simp only [List.takeWhile_cons] at h
    by_cases hx : x = 0
    · subst hx; simp at h
    · rw [if_pos (by simpa using hx)] at h
      rcases List.mem_cons.1 h with h | h
      · exact hx h.symm
      · exact ih h

theorem makeStr_agree {s : State} (h : Wf s) (l : List Nat) (dst : Nat) :
    AgreeA dst (makeStr s (some l)) ((abs s).fresh allocN dst (l.takeWhile (· ≠ 0))) := by
  unfold makeStr
  dsimp only
  obtain ⟨h1, h2⟩ := charsLen_eq l
  rw [h1, ← h2]
  apply fill_agree h (l.takeWhile (· ≠ 0)) (takeWhile_nonzero l) dst
    (fun s' dest => do
      let s' ← writeBytes s' dest 0 (l.takeWhile (· ≠ 0))
      return (s', dest))
  intro cap hal
  have hge := (allocCap_ge hal).1
  simp only [Int.toNat_natCast] at hge
  generalize l.takeWhile (· ≠ 0) = m at *
  rw [writeBytes_push _ _ _ _ (by simp; omega), bind_ok, pure_eq]
  exact ⟨List.replicate (cap - m.length) 0, by simp; omega, by rw [fill_cells _ _ hge]⟩

theorem makeStrChar_agree {s : State} (h : Wf s) (ch : Nat) (dst : Nat) :
    AgreeA dst (makeStrChar s ch)
      (if ch = 0 then .ok ((abs s).setVar dst .empty) else (abs s).fresh allocN dst [ch]) := by
  unfold makeStrChar
  by_cases hc : ch = 0
  · rw [if_neg (by simpa using hc), if_pos hc]
    exact ⟨h, fun r hr => by simp at hr, rfl⟩
  · rw [if_pos hc, if_neg hc]
    apply fill_agree h [ch] (by simpa using fun hh => hc hh.symm) dst
      (fun s' dest => do
        let s' ← writeBytes s' dest 0 [ch]
        let s' ← writeBytes s' dest 1 [0]
        return (s', dest))
    intro cap hal
    have hge := (allocCap_ge hal).1
    simp only [Int.toNat_natCast] at hge
    simp only [List.length_singleton] at hge
    rw [writeBytes_push _ _ _ _ (by simp), bind_ok, writeBytes_push _ _ _ _ (by simp; omega),
      bind_ok, pure_eq]
    dsimp only
    rw [fill_cells _ _ (by simpa using hge)]
    refine ⟨List.replicate (cap - 1) 0, by simp; omega, ?_⟩
    simp

theorem Agree.of_A {dst : Nat} {m : Res (State × Ref)} {p : Except Err SState}
    (h : AgreeA dst m p) :
    Agree (do let (s, res) ← m; return (s.setVar dst res, .unit))
      (do return (← p, .unit)) := by
  cases m with
  | ok r =>
    obtain ⟨s, a⟩ := r
    obtain ⟨h1, h2, h3⟩ := h
    subst h3
    exact ⟨h1.setVar h2, rfl⟩
  | error f =>
    cases f with
    | ub => exact h
    | err e =>
      have h : p = .error e := h
      subst h
      rfl

theorem step_agree {s : State} (h : Wf s) (op : Op) (hreg : ¬Irregular (abs s) op) :
    Agree (step s op) (sstep allocN (abs s) op) := by
  have hv : ∀ v, (abs s).vars v = s.vars v := fun _ => rfl
  cases op with
  | lit dst l =>
    have := Agree.of_A (literal_agree h l dst)
    simp only [step, sstep]
    by_cases hx : 0 ∈ l ∨ l.length > maxLiteral
    · rw [if_pos hx] at this ⊢; exact this
    · rw [if_neg hx] at this ⊢; exact this
  | assign dst src => exact ⟨h.setVar (h.vars src), rfl⟩
  | plus dst a b =>
    simp only [Irregular, hv] at hreg
    have := Agree.of_A (concat_agree false h (h.vars a) (h.vars b) (by omega)
      (fun hh => by simp at hh) dst)
    rw [if_neg (by simp)] at this
    exact this
  | plusEq a b =>
    simp only [Irregular, hv] at hreg
    have := Agree.of_A (concat_agree true h (h.vars a) (h.vars b) (by omega)
      (fun _ => by omega) a)
    simp only [step, sstep, hv]
    by_cases hx : ((abs s).bytes (s.vars a)).length + ((abs s).bytes (s.vars b)).length <
        (abs s).cap (nz (s.vars a))
    · rw [if_pos ⟨rfl, hx⟩] at this
      rw [if_pos hx]; exact this
    · rw [if_neg (by simpa using hx)] at this
      rw [if_neg hx]; exact this
  | slice dst src start stop =>
    have := Agree.of_A (slice_agree h (h.vars src) start stop hreg dst)
    simp only [step, sstep, hv]
    dsimp only at this
    by_cases hx : start < 0 ∨ stopAt ((abs s).bytes (s.vars src)).length stop < start ∨
        stopAt ((abs s).bytes (s.vars src)).length stop >
          (((abs s).bytes (s.vars src)).length : Nat)
    · rw [if_pos hx] at this ⊢; exact this
    · rw [if_neg hx] at this ⊢; exact this
  | copy dst src =>
    have := Agree.of_A (copy_agree h (h.vars src) dst)
    simp only [step, sstep, hv]
    by_cases hx : s.vars src = .null
    · rw [if_pos hx] at this ⊢; exact this
    · rw [if_neg hx] at this ⊢; exact this
  | len src =>
    simp only [step, sstep, hv]
    by_cases hx : s.vars src = .null
    · rw [if_pos hx, hx]; exact ⟨h, rfl⟩
    · rw [if_neg hx, getLen_ok h (h.vars src) hx]; exact ⟨h, rfl⟩
  | cap src =>
    simp only [step, sstep, hv]
    by_cases hx : s.vars src = .null
    · rw [if_pos hx, hx]; exact ⟨h, rfl⟩
    · rw [if_neg hx, getCap_ok h (h.vars src) hx]; exact ⟨h, rfl⟩
  | get src i =>
    have hE := index_agree h (h.vars src) i
    simp only [step, sstep, hv]
    cases hp : index s (s.vars src) i with
    | error f =>
      rw [hp] at hE
      cases f with
      | ub => exact hE
      | err e =>
        obtain ⟨rfl, hx⟩ := hE
        by_cases h0 : 0 ≤ i
        · rw [if_pos h0, List.getElem?_eq_none (by omega)]; rfl
        · rw [if_neg h0]; rfl
    | ok x =>
      rw [hp] at hE
      rw [if_pos hE.1, hE.2]
      exact ⟨h, rfl⟩
  | toChars src =>
    simp only [step, sstep, hv, makeFromStr]
    rw [nonNull_eq, getLen_ok h (h.vars src).nz (nz_ne _), bind_ok,
      readBytes_ok h (h.vars src).nz (nz_ne _) _ _ (by omega), bind_ok, List.drop_zero,
      List.take_length, bytes_nz]
    exact ⟨h, rfl⟩
  | fromChars dst l =>
    cases l with
    | none => exact ⟨h.setVar (fun r hr => by simp at hr), rfl⟩
    | some l => exact Agree.of_A (makeStr_agree h l dst)
  | fromChar dst ch =>
    have := Agree.of_A (makeStrChar_agree h ch dst)
    simp only [step, sstep]
    by_cases hx : ch = 0
    · rw [if_pos hx] at this ⊢; exact this
    · rw [if_neg hx] at this ⊢; exact this

theorem wf_init : Wf init :=
  ⟨fun r b hr => by simp [init] at hr, fun v r hr => by simp [init] at hr⟩

theorem run_agree {s : State} (h : Wf s) (ops : List Op) (hreg : RegularRun allocN (abs s) ops) :
    match run s ops with
    | .ok (s', outs) => Wf s' ∧ srun allocN (abs s) ops = .ok (abs s', outs)
    | .error (.err e) => srun allocN (abs s) ops = .error e
    | .error .ub => False := by
  induction ops generalizing s with
  | nil => exact ⟨h, rfl⟩
  | cons op ops ih =>
    obtain ⟨h1, h2⟩ := hreg
    have hs := step_agree h op h1
    simp only [run, srun]
    cases hst : step s op with
    | error f =>
      rw [hst] at hs
      cases f with
      | ub => exact hs
      | err e =>
        have hs : sstep allocN (abs s) op = .error e := hs
        rw [hs]; rfl
    | ok r =>
      obtain ⟨s', o⟩ := r
      rw [hst] at hs
      obtain ⟨hw, hs⟩ := hs
      have hi := ih hw (h2 _ _ hs)
      rw [hs, bind_ok, bind_ok]
      dsimp only
      cases hr : run s' ops with
      | error f =>
        rw [hr] at hi
        cases f with
        | ub => exact hi
        | err e => dsimp only at hi; rw [hi]; rfl
      | ok r =>
        obtain ⟨s'', os⟩ := r
        rw [hr] at hi
        dsimp only at hi
        rw [hi.2]
        exact ⟨hi.1, rfl⟩

end Umka.Str
