import Verif.DynArr.Lemmas
/-! # Dynamic arrays: the model agrees with the specification -/

namespace Umka.DynArr
open Spec

variable {α : Type}

theorem readItem_set {s : State α} {r : Nat} (hr : r < s.blocks.length) {it : Item α} {x : α}
    (hi : ItemOk s it [x]) (i n : Nat) (tail : List α) (b : Block α)
    (hbl : s.blocks[r] = b) (hi1 : i + 1 ≤ b.cells.length)
    (hst : ∀ j, it = .cell (.blk r) j → j ≤ i) (hna : ∀ a, it ≠ .arr a) :
    readItem (⟨s.blocks.set r ⟨n, b.cap, b.cells.take (i + 1) ++ tail ++
      b.cells.drop (i + 1 + tail.length)⟩, s.vars⟩ : State α) 1 it = .ok [x] := by
  have h := hi.read
  cases it with
  | val y => exact h
  | arr a => exact absurd rfl (hna a)
  | cell a j =>
    simp only [readItem] at h ⊢
    cases a with
    | null => exact h
    | empty => exact h
    | blk r' =>
      by_cases hrr : r' = r
      · subst hrr
        have hj := hst j rfl
        simp only [readCells, List.getElem?_eq_getElem hr] at h
        rw [hbl] at h
        simp only [readCells]
        rw [List.getElem?_set_self hr]
        dsimp only
        by_cases hin : j + 1 ≤ b.cells.length
        · rw [if_pos hin] at h
          rw [if_pos (by
            simp only [List.length_append, List.length_take, List.length_drop]; omega)]
          rw [← h]
          congr 1
          rw [List.append_assoc, List.drop_append_of_le_length (by simp; omega),
            List.take_append_of_le_length (by simp; omega), List.drop_take, List.take_take,
            Nat.min_eq_left (by omega)]
        · rw [if_neg hin] at h; cases h
      · simp only [readCells] at h ⊢
        rw [List.getElem?_set_ne (by omega)]
        exact h

theorem readItem_shift {s : State α} {r : Nat} (hr : r < s.blocks.length) (i j n : Nat) (y : α)
    (tail : List α) (b : Block α) (hi1 : i + 1 ≤ b.cells.length)
    (hij : i < j) (hy : tail[j - (i + 1)]? = some y) :
    readItem (⟨s.blocks.set r ⟨n, b.cap, b.cells.take (i + 1) ++ tail ++
      b.cells.drop (i + 1 + tail.length)⟩, s.vars⟩ : State α) 1 (.cell (.blk r) j) = .ok [y] := by
  have hlt : j - (i + 1) < tail.length := by
    rcases Nat.lt_or_ge (j - (i + 1)) tail.length with h | h
    · exact h
    · rw [List.getElem?_eq_none h] at hy; cases hy
  simp only [readItem, readCells]
  rw [List.getElem?_set_self hr]
  dsimp only
  rw [if_pos (by simp only [List.length_append, List.length_take, List.length_drop]; omega)]
  congr 1
  have e : (b.cells.take (i + 1)).length = i + 1 := by simp; omega
  rw [List.append_assoc, List.drop_append, e, List.drop_eq_nil_of_le (by omega), List.nil_append,
    List.drop_append_of_le_length (by omega), List.drop_eq_getElem_cons hlt]
  rw [List.getElem?_eq_getElem hlt] at hy
  injection hy with hy
  simp [hy]

theorem insertTo_agree (c : Cfg) (zero : α) {s : State α} (h : Wf s) {a : Arr} (ha : WfA s a)
    (hn : a ≠ .null) {it : Item α} {x y : α} (hi : ItemOk s it [x]) (index : Int)
    (hst : ∀ (r : Nat) (hr : r < s.blocks.length), a = .blk r →
      0 ≤ index → index ≤ ((abs s).items a).length →
      ((abs s).items a).length + 1 ≤ (abs s).cap a →
      readItem (⟨s.blocks.set r ⟨s.blocks[r].len, s.blocks[r].cap,
        s.blocks[r].cells.take (index.toNat + 1) ++ ((abs s).items a).drop index.toNat ++
        s.blocks[r].cells.drop (index.toNat + 1 +
          (((abs s).items a).drop index.toNat).length)⟩, s.vars⟩ : State α) 1 it = .ok [y])
    (hxy : ¬((abs s).items a).length + 1 ≤ (abs s).cap a → y = x)
    (dst : Nat) :
    AgreeA dst (insertTo c zero s a index it)
      (if index < 0 ∨ index > ((abs s).items a).length then .error .index
       else (abs s).update (allocCap c) dst a (((abs s).items a).take index.toNat ++ [y] ++
        ((abs s).items a).drop index.toNat)) := by
  unfold insertTo
  rw [getLen_ok h ha hn, bind_ok]
  by_cases hx : index < 0 ∨ index > ((abs s).items a).length
  · rw [if_pos hx, if_pos hx]; rfl
  rw [if_neg hx, if_neg hx]
  dsimp only
  generalize hk : index.toNat = k at *
  have hkl : k ≤ ((abs s).items a).length := by omega
  rw [getCap_ok ha hn, bind_ok]
  unfold SState.update
  have hll : (((abs s).items a).take k ++ [y] ++ ((abs s).items a).drop k).length =
      ((abs s).items a).length + 1 := by simp; omega
  simp only [hll]
  by_cases hc : ((abs s).items a).length + 1 ≤ (abs s).cap a
  · rw [if_pos hc, if_pos hc]
    cases a with
    | null => exact absurd rfl hn
    | empty => simp [SState.cap] at hc
    | blk r =>
      have hr := ha r rfl
      have hb := h.blocks r _ (List.getElem?_eq_getElem hr)
      have h1 := hb.1
      have h2 := hb.2
      rw [cap_blk hr] at hc
      rw [readCells_ok h ha hn _ _ (by omega), bind_ok]
      have hl : ((abs s).items (.blk r)).length = s.blocks[r].len := by
        rw [items_blk hr, List.length_take]; omega
      have htl : (((abs s).items (.blk r)).drop k).take (((abs s).items (.blk r)).length - k) =
          ((abs s).items (.blk r)).drop k := by
        apply List.take_of_length_le; simp
      have htll : (((abs s).items (.blk r)).drop k).length = s.blocks[r].len - k := by
        simp [hl]
      rw [htl]
      rw [writeCells_blk hr _ _ (by rw [htll]; omega), bind_ok,
        hst r hr rfl (by omega) (by omega) (by rw [cap_blk hr]; omega), bind_ok]
      rw [writeCells_set hr _ _ _ (by
        simp only [List.length_append, List.length_take, List.length_drop, List.length_singleton,
          htll]; omega), bind_ok, setLen_set hr, bind_ok, pure_eq]
      dsimp only
      have hcells : (List.take k (List.take (k + 1) s.blocks[r].cells ++
            ((abs s).items (.blk r)).drop k ++
            s.blocks[r].cells.drop (k + 1 + (((abs s).items (.blk r)).drop k).length)) ++ [y] ++
          List.drop (k + [y].length) (List.take (k + 1) s.blocks[r].cells ++
            ((abs s).items (.blk r)).drop k ++
            s.blocks[r].cells.drop (k + 1 + (((abs s).items (.blk r)).drop k).length))) =
          (((abs s).items (.blk r)).take k ++ [y] ++ ((abs s).items (.blk r)).drop k) ++
            s.blocks[r].cells.drop (k + 1 + (((abs s).items (.blk r)).drop k).length) := by
        simp only [List.length_singleton, List.append_assoc]
        congr 1
        · rw [List.take_append_of_le_length (by simp; omega), List.take_take,
            Nat.min_eq_left (by omega), items_blk hr, List.take_take, Nat.min_eq_left (by omega)]
        · congr 1
          rw [List.drop_left' (by simp; omega)]
      rw [hcells]
      have := set_agree h hr (s.blocks[r].len + 1)
        ((((abs s).items (.blk r)).take k ++ [y] ++ ((abs s).items (.blk r)).drop k) ++
            s.blocks[r].cells.drop (k + 1 + (((abs s).items (.blk r)).drop k).length)) _ (by omega)
        (by rw [List.length_append, hll, hl, List.length_drop, htll]; omega)
        (List.take_left' (by rw [hll, hl]))
      refine ⟨?_, ?_, ?_⟩
      · rw [hl]; exact this.1
      · intro k' hk'; injection hk' with hk'; subst hk'; simpa using hr
      · rw [abs_setVar, hl, this.2]
  · have hxy := hxy hc
    subst hxy
    rw [if_neg hc, if_neg hc, alloc_eq]
    have hcast : ((((abs s).items a).length : Nat) : Int) + 1 =
      (((((abs s).items a).length + 1 : Nat)) : Int) := by omega
    rw [hcast]
    cases hal : allocCap c (((abs s).items a).length + 1 : Nat) with
    | error e =>
      simp only [AgreeA, bind_error, SState.fresh]
      rw [hll, hal]
    | ok cap =>
      have hge := (allocCap_ge hal).2
      have hal' : allocCap c ((((abs s).items a).take k ++ [y] ++
          ((abs s).items a).drop k).length : Nat) = .ok cap := by rw [hll]; exact hal
      dsimp only
      rw [bind_ok]
      dsimp only
      have htl : (((abs s).items a).drop k).take (((abs s).items a).length - k) =
          ((abs s).items a).drop k := by
        apply List.take_of_length_le; simp
      have hr1 := hi.read
      simp only [List.length_singleton] at hr1
      rw [readCells_push ha, readCells_ok h ha hn _ _ (by omega), bind_ok, List.drop_zero,
        writeCells_push _ _ _ _ (by simp; omega), bind_ok,
        readCells_push ha, readCells_ok h ha hn _ _ (by omega), bind_ok, htl,
        writeCells_push _ _ _ _ (by simp; omega), bind_ok,
        readItem_push hi.refs, hr1, bind_ok,
        writeCells_push _ _ _ _ (by simp; omega), bind_ok, pure_eq]
      simp only [AgreeA, Int.toNat_natCast]
      generalize hl : (abs s).items a = l at *
      have := agree_fresh (c := c) h dst _ (cap := cap) hal'
        (List.take k
              (List.take (k + 1)
                    (List.take 0 (List.replicate cap zero) ++ List.take k l ++
                      List.drop (0 + (List.take k l).length) (List.replicate cap zero)) ++
                  List.drop k l ++
                List.drop (k + 1 + (List.drop k l).length)
                  (List.take 0 (List.replicate cap zero) ++ List.take k l ++
                    List.drop (0 + (List.take k l).length) (List.replicate cap zero))) ++
            [y] ++
          List.drop (k + [y].length)
            (List.take (k + 1)
                  (List.take 0 (List.replicate cap zero) ++ List.take k l ++
                    List.drop (0 + (List.take k l).length) (List.replicate cap zero)) ++
                List.drop k l ++
              List.drop (k + 1 + (List.drop k l).length)
                (List.take 0 (List.replicate cap zero) ++ List.take k l ++
                  List.drop (0 + (List.take k l).length) (List.replicate cap zero))))
        (by simp; omega)
        (by
          simp only [List.take_zero, List.nil_append, List.length_singleton]
          have e0 : (List.take k l ++ List.drop (0 + (List.take k l).length)
              (List.replicate cap zero)).length = cap := by simp; omega
          have e1 : (List.take k l ++ List.drop (0 + (List.take k l).length)
              (List.replicate cap zero)).take k = List.take k l := by
            apply List.take_left'; simp; omega
          generalize (List.take k l ++ List.drop (0 + (List.take k l).length)
              (List.replicate cap zero)) = c0 at e0 e1
          have e2 : (List.drop (k + 1) (List.take (k + 1) c0 ++ List.drop k l ++
              List.drop (k + 1 + (List.drop k l).length) c0)) =
              List.drop k l ++ List.drop (k + 1 + (List.drop k l).length) c0 := by
            rw [List.append_assoc]
            apply List.drop_left'; simp; simp at hge; omega
          rw [e2, List.append_assoc (List.take (k + 1) c0), List.take_append_of_le_length (i := k)
            (by simp; simp at hge; omega), List.take_take, Nat.min_eq_left (by omega), e1,
            ← List.append_assoc]
          apply List.take_left' rfl)
      rw [hll] at this
      exact this

theorem delete_agree {s : State α} (h : Wf s) {a : Arr} (ha : WfA s a) (index : Int) (dst : Nat) :
    AgreeA dst (delete s a index)
      (if a = .null then .error .null
       else if index < 0 ∨ index ≥ ((abs s).items a).length then .error .index
       else .ok (((abs s).mutate a (((abs s).items a).eraseIdx index.toNat)).setVar dst a)) := by
  unfold delete
  by_cases hn : a = .null
  · rw [if_pos hn, if_pos hn]; rfl
  rw [if_neg hn, if_neg hn, getLen_ok h ha hn, bind_ok]
  by_cases hx : index < 0 ∨ index > ((((abs s).items a).length : Nat) : Int) - 1
  · rw [if_pos hx, if_pos (by omega)]; rfl
  rw [if_neg hx, if_neg (by omega)]
  dsimp only
  generalize hk : index.toNat = k at *
  have hkl : k < ((abs s).items a).length := by omega
  cases a with
  | null => exact absurd rfl hn
  | empty => simp [SState.items] at hkl
  | blk r =>
    have hr := ha r rfl
    have hb := h.blocks r _ (List.getElem?_eq_getElem hr)
    have h1 := hb.1
    have h2 := hb.2
    rw [readCells_ok h ha hn _ _ (by omega), bind_ok]
    have hl : ((abs s).items (.blk r)).length = s.blocks[r].len := by
      rw [items_blk hr, List.length_take]; omega
    have htl : (((abs s).items (.blk r)).drop (k + 1)).take
        (((abs s).items (.blk r)).length - k - 1) = ((abs s).items (.blk r)).drop (k + 1) := by
      apply List.take_of_length_le; simp; omega
    have htll : (((abs s).items (.blk r)).drop (k + 1)).length = s.blocks[r].len - (k + 1) := by
      simp [hl]
    rw [htl, writeCells_blk hr _ _ (by rw [htll]; omega), bind_ok, setLen_set hr, bind_ok, pure_eq]
    dsimp only
    have := set_agree h hr (s.blocks[r].len - 1)
      (List.take k s.blocks[r].cells ++ List.drop (k + 1) ((abs s).items (.blk r)) ++
        List.drop (k + (List.drop (k + 1) ((abs s).items (.blk r))).length) s.blocks[r].cells)
      (((abs s).items (.blk r)).eraseIdx k) (by omega)
      (by simp only [List.length_append, List.length_drop, List.length_take, hl]; omega)
      (by
        have e : List.take k s.blocks[r].cells = ((abs s).items (.blk r)).take k := by
          rw [items_blk hr, List.take_take, Nat.min_eq_left (by omega)]
        rw [List.eraseIdx_eq_take_drop_succ, e]
        apply List.take_left'
        simp only [List.length_append, List.length_take, List.length_drop, hl]; omega)
    refine ⟨?_, ?_, ?_⟩
    · rw [hl]; exact this.1
    · intro k' hk'; injection hk' with hk'; subst hk'; simpa using hr
    · rw [abs_setVar, hl, this.2]

/-- Allocate and fill with `l`. -/
theorem fill_agree (c : Cfg) (zero : α) {s : State α} (h : Wf s) (l : List α) (dst : Nat)
    {n : Int} (hnl : n = l.length) (f : State α → Arr → Res (List α))
    (hf : ∀ b : Block α, b.len = l.length →
      f (push s b) (.blk s.blocks.length) = .ok l) :
    AgreeA dst (do
        let (s, res) ← alloc c zero s n
        let xs ← f s res
        let s ← writeCells s res 0 xs
        return (s, res))
      ((abs s).fresh (allocCap c) dst l) := by
  subst hnl
  rw [alloc_eq]
  cases hal : allocCap c (l.length : Nat) with
  | error e =>
    simp only [AgreeA, bind_error, SState.fresh, hal]
  | ok cap =>
    have hge := (allocCap_ge hal).2
    dsimp only
    rw [bind_ok]
    dsimp only
    rw [hf _ (by simp), bind_ok, writeCells_push _ _ _ _ (by simp; omega), bind_ok, pure_eq]
    simp only [AgreeA, Int.toNat_natCast]
    exact agree_fresh h dst l hal _ (by simp; omega)
      (by
        rw [List.take_zero, List.nil_append]
        exact List.take_left' rfl)

theorem copy_agree (c : Cfg) (zero : α) {s : State α} (h : Wf s) {a : Arr} (ha : WfA s a)
    (dst : Nat) :
    AgreeA dst (copy c zero s a)
      (if a = .null then .ok ((abs s).setVar dst .null)
       else (abs s).fresh (allocCap c) dst ((abs s).items a)) := by
  unfold copy
  by_cases hn : a = .null
  · rw [if_pos hn, if_pos hn]
    exact ⟨h, fun r hr => by simp at hr, rfl⟩
  rw [if_neg hn, if_neg hn, getLen_ok h ha hn, bind_ok]
  apply fill_agree c zero h ((abs s).items a) dst rfl
    (fun s' _ => readCells s' a 0 ((abs s).items a).length)
  intro b _
  rw [readCells_push ha, readCells_ok h ha hn _ _ (by omega), List.drop_zero, List.take_length]

theorem makeFromArr_agree (c : Cfg) (zero : α) {s : State α} (h : Wf s) (l : List α) (dst : Nat) :
    AgreeA dst (makeFromArr c zero s l) ((abs s).fresh (allocCap c) dst l) := by
  exact fill_agree c zero h l dst rfl (fun _ _ => .ok l) (fun _ _ => rfl)

theorem make_agree (c : Cfg) (zero : α) {s : State α} (h : Wf s) (n : Int) (dst : Nat) :
    AgreeA dst (alloc c zero s n)
      (if n < 0 then .error .length
       else (abs s).fresh (allocCap c) dst (List.replicate n.toNat zero)) := by
  by_cases hn : n < 0
  · rw [if_pos hn, alloc_eq]
    have : allocCap c n = .error .length := by
      unfold allocCap; rw [if_pos (Or.inl hn)]
    rw [this]; rfl
  · rw [if_neg hn, alloc_eq]
    have e : ((List.replicate n.toNat zero).length : Int) = n := by simp; omega
    cases hal : allocCap c n with
    | error e' =>
      simp only [AgreeA, SState.fresh]
      rw [e, hal]
    | ok cap =>
      have hge := (allocCap_ge hal).2
      have := agree_fresh (c := c) h dst (List.replicate n.toNat zero) (cap := cap)
        (by rw [e]; exact hal) (List.replicate cap zero) (by simp)
        (by simp [List.take_replicate, Nat.min_eq_left hge])
      simp only [List.length_replicate] at this
      exact this

theorem slice_agree (c : Cfg) (zero : α) {s : State α} (h : Wf s) (src : Nat) (start : Int)
    (stop : Option Int) (dst : Nat) :
    AgreeA dst (slice c zero s src start (endArg stop))
      (let t := (abs s).touch src
       let l := t.items (t.vars src)
       let e := stopAt l.length (if stop = some (-2147483648) then none else stop)
       if start < 0 ∨ e < start ∨ e > l.length then .error .index
       else t.fresh (allocCap c) dst ((l.take e.toNat).drop start.toNat)) := by
  unfold slice
  dsimp only
  rw [← abs_touch]
  generalize hs' : (if stop = some (-2147483648) then none else stop) = stop'
  have h' := h.touch src
  have hn := touch_ne_null s src
  generalize touch s src = t at *
  have ha := h'.vars src
  rw [getLen_ok h' ha hn, bind_ok]
  change AgreeA dst _ (if start < 0 ∨ stopAt ((abs t).items (t.vars src)).length stop' < start ∨
      stopAt ((abs t).items (t.vars src)).length stop' > ((abs t).items (t.vars src)).length then _
    else (abs t).fresh (allocCap c) dst ((((abs t).items (t.vars src)).take
      (stopAt ((abs t).items (t.vars src)).length stop').toNat).drop start.toNat))
  generalize hL : (abs t).items (t.vars src) = l at *
  have hend : (if (if endArg stop = intMin then (l.length : Int) else endArg stop) < 0 then
      (if endArg stop = intMin then (l.length : Int) else endArg stop) + l.length
      else (if endArg stop = intMin then (l.length : Int) else endArg stop)) =
      stopAt l.length stop' := by
    subst hs'
    cases stop with
    | none => simp [endArg, stopAt]; omega
    | some e =>
      by_cases he : e = intMin
      · subst he; simp [endArg, stopAt, intMin]; omega
      · have he' : ¬e = -2147483648 := he
        simp [endArg, stopAt, he, he']
  rw [hend]
  generalize stopAt l.length stop' = e at *
  by_cases h1 : start < 0
  · rw [if_pos h1, if_pos (Or.inl h1)]; rfl
  rw [if_neg h1]
  by_cases h2 : e < start ∨ e > l.length
  · rw [if_pos h2, if_pos (Or.inr h2)]; rfl
  rw [if_neg h2, if_neg (by omega)]
  have hlen : ((l.take e.toNat).drop start.toNat).length = e.toNat - start.toNat := by
    simp; omega
  have key := fill_agree c zero h' ((l.take e.toNat).drop start.toNat) dst (n := e - start)
    (by rw [hlen]; omega)
    (fun s' res => do
      let n ← getLen s' res
      readCells s' (t.vars src) start.toNat n) ?_
  · refine Eq.mp (congrArg (fun m => AgreeA dst m _) ?_) key
    cases alloc c zero t (e - start) with
    | error f => rfl
    | ok r =>
      simp only [bind_ok]
      cases getLen r.1 r.2 <;> rfl
  intro b hb
  rw [getLen_new, bind_ok, readCells_push ha, hb, hlen,
    readCells_ok h' ha hn _ _ (by rw [hL]; omega), hL]
  congr 1
  rw [List.drop_take]

theorem readCells_congr {s t : State α} (h : s.blocks = t.blocks) (a : Arr) (i n : Nat) :
    readCells s a i n = readCells t a i n := by
  cases a <;> simp only [readCells, h]

theorem ItemOk.congr {s t : State α} (h : s.blocks = t.blocks) {it : Item α} {x : α}
    (hi : ItemOk s it [x]) (hna : ∀ a, it ≠ .arr a) : ItemOk t it [x] := by
  refine ⟨?_, ?_, ?_⟩
  · have := hi.len
    cases it with
    | val _ => exact this
    | cell _ _ => exact this
    | arr a => exact absurd rfl (hna a)
  · have := hi.read
    cases it with
    | val _ => exact this
    | cell a i => simp only [readItem] at this ⊢; rw [← readCells_congr h]; exact this
    | arr a => exact absurd rfl (hna a)
  · intro a ha r hr
    rw [← h]; exact hi.refs a ha r hr

/-- Element access agrees with the specification. -/
theorem elem_agree {s : State α} (h : Wf s) (v : Nat) (j : Int) :
    match elemPtr s (s.vars v) j with
    | .ok k => s.vars v ≠ .null ∧ 0 ≤ j ∧ k = j.toNat ∧ k < ((abs s).items (s.vars v)).length ∧
      ∃ x, (abs s).elem v j = .ok x ∧ readCells s (s.vars v) k 1 = .ok [x] ∧
        readCell s (s.vars v) k = .ok x
    | .error (.err e) => (abs s).elem v j = .error e
    | .error .ub => False := by
  have ha := h.vars v
  unfold elemPtr SState.elem
  by_cases hn : s.vars v = .null
  · rw [if_pos hn]
    dsimp only
    rw [if_pos (show (abs s).vars v = .null from hn)]
  · rw [if_neg hn, getLen_ok h ha hn]
    dsimp only
    rw [if_neg (show ¬(abs s).vars v = .null from hn)]
    have hv : (abs s).vars v = s.vars v := rfl
    rw [hv]
    by_cases hx : j < 0 ∨ j > ((((abs s).items (s.vars v)).length : Nat) : Int) - 1
    · rw [if_pos hx]
      dsimp only
      unfold at?
      by_cases h0 : 0 ≤ j
      · rw [if_pos h0, List.getElem?_eq_none (by omega)]
      · rw [if_neg h0]
    · rw [if_neg hx]
      dsimp only
      have hk : j.toNat < ((abs s).items (s.vars v)).length := by omega
      have e1 : readCells s (s.vars v) j.toNat 1 =
          .ok [((abs s).items (s.vars v))[j.toNat]] := by
        rw [readCells_ok h ha hn _ _ (by omega)]
        congr 1
        rw [List.drop_eq_getElem_cons hk]
        rfl
      refine ⟨hn, by omega, rfl, hk, ((abs s).items (s.vars v))[j.toNat], ?_, e1, ?_⟩
      · unfold at?
        rw [if_pos (by omega), List.getElem?_eq_getElem hk]
      · unfold readCell
        rw [e1]

/-- Evaluating an item argument agrees with the specification. -/
theorem evalItem_agree (c : Cfg) {s : State α} (h : Wf s) (item : Src α) :
    match evalItem c s item with
    | .ok it => (∀ a, it ≠ .arr a) ∧
      (∀ a k, it = .cell a k → c.structured = true ∧
        ∃ v j, item = .elem v j ∧ a = s.vars v ∧ 0 ≤ j ∧ k = j.toNat) ∧
      ∃ x, (abs s).src item = .ok x ∧ ItemOk s it [x]
    | .error (.err e) => (abs s).src item = .error e
    | .error .ub => False := by
  cases item with
  | val x =>
    refine ⟨fun a ha => by simp at ha, fun a k ha => by simp at ha, x, rfl, rfl, rfl, ?_⟩
    intro a ha
    rcases ha with ha | ⟨_, ha⟩ <;> simp at ha
  | elem v j =>
    have hE := elem_agree h v j
    simp only [evalItem, SState.src]
    cases hp : elemPtr s (s.vars v) j with
    | error f =>
      rw [hp] at hE
      cases f with
      | ub => exact hE
      | err e => exact hE
    | ok k =>
      rw [hp] at hE
      obtain ⟨hn, h0, hk, hlt, x, hx1, hx2, hx3⟩ := hE
      dsimp only
      by_cases hs : c.structured = true
      · rw [if_pos hs]
        refine ⟨fun a ha => by simp at ha, ?_, x, hx1, rfl, hx2, ?_⟩
        · intro a k' ha
          injection ha with ha1 ha2
          exact ⟨hs, v, j, rfl, ha1.symm, h0, by rw [← ha2, hk]⟩
        · intro a ha
          rcases ha with ha | ⟨_, ha⟩
          · simp at ha
          · injection ha with ha1 _; rw [← ha1]; exact h.vars v
      · rw [if_neg hs, hx3]
        refine ⟨fun a ha => by simp at ha, fun a k ha => by simp at ha, x, hx1, rfl, rfl, ?_⟩
        intro a ha
        rcases ha with ha | ⟨_, ha⟩ <;> simp at ha

theorem Agree.of_A {dst : Nat} {m : Res (State α × Arr)} {p : Except Err (SState α)}
    (h : AgreeA dst m p) :
    Agree (do let (s, res) ← m; return (s.setVar dst res, .unit))
      (do return (← p, .unit)) := by
  cases m with
  | ok r =>
    obtain ⟨s, a⟩ := r
    obtain ⟨h1, h2, h3⟩ := h
    subst h3
    exact ⟨h1.setVar h2, rfl⟩
  | error f =>
    cases f with
    | ub => exact h
    | err e =>
      have h : p = .error e := h
      subst h
      rfl

theorem touch_vars_other {s : State α} {v : Nat} (h : s.vars v ≠ .null) : touch s v = s := by
  unfold touch; rw [if_neg h]

/-- One step agrees with the specification of the operation that is really performed. -/
theorem step_agree (c : Cfg) (zero : α) {s : State α} (h : Wf s) (op : Op α) :
    Agree (step c zero s op) (sstep zero (allocCap c) (abs s) (actual c.structured (abs s) op)) := by
  cases op with
  | make dst n =>
    have := Agree.of_A (make_agree c zero h n dst)
    simp only [step, sstep, actual]
    by_cases hn : n < 0
    · rw [if_pos hn] at this ⊢; exact this
    · rw [if_neg hn] at this ⊢; exact this
  | fromStatic dst l => exact Agree.of_A (makeFromArr_agree c zero h l dst)
  | toStatic src n =>
    have ha := h.vars src
    have hv : (abs s).vars src = s.vars src := rfl
    simp only [step, sstep, actual, makeArr, hv]
    by_cases hn : s.vars src = .null
    · rw [if_pos hn, hn]
      simp only [SState.items, List.length_nil, Nat.not_lt_zero, if_false, List.nil_append,
        Nat.sub_zero]
      exact ⟨h, rfl⟩
    · rw [if_neg hn, getLen_ok h ha hn, bind_ok]
      by_cases hx : n < ((abs s).items (s.vars src)).length
      · rw [if_pos hx, if_pos hx]; rfl
      · rw [if_neg hx, if_neg hx, readCells_ok h ha hn _ _ (by omega), bind_ok, pure_eq, bind_ok,
          List.drop_zero, List.take_length, List.drop_replicate]
        exact ⟨h, rfl⟩
  | assign dst src => exact ⟨h.setVar (h.vars src), rfl⟩
  | copy dst src =>
    have := Agree.of_A (copy_agree c zero h (h.vars src) dst)
    simp only [step, sstep, actual]
    have hv : (abs s).vars src = s.vars src := rfl
    rw [hv]
    by_cases hn : s.vars src = .null
    · rw [if_pos hn] at this ⊢; exact this
    · rw [if_neg hn] at this ⊢; exact this
  | append dst src item =>
    have hE := evalItem_agree c h item
    simp only [step, sstep, actual, append]
    cases hp : evalItem c s item with
    | error f =>
      rw [hp] at hE
      cases f with
      | ub => exact hE
      | err e => dsimp only at hE; rw [hE]; rfl
    | ok it =>
      rw [hp] at hE
      obtain ⟨hna, _, x, hx, hi⟩ := hE
      rw [hx, bind_ok, bind_ok]
      have := Agree.of_A (appendTo_agree c zero (h.touch src) ((h.touch src).vars src)
        (touch_ne_null s src) (hi.congr (touch_blocks s src).symm hna) dst)
      rw [← abs_touch]
      exact this
  | appendAll dst src rhs =>
    simp only [step, sstep, actual, appendAll]
    have h2 := (h.touch src).touch rhs
    have hn1 : (touch (touch s src) rhs).vars src ≠ .null := by
      have := touch_ne_null s src
      unfold touch at this ⊢
      by_cases hr : (if s.vars src = .null then s.setVar src .empty else s).vars rhs = .null
      · rw [if_pos hr]
        simp only [State.setVar] at this ⊢
        split
        · simp
        · exact this
      · rw [if_neg hr]; exact this
    have hn2 := touch_ne_null (touch s src) rhs
    have hi : ItemOk (touch (touch s src) rhs) (.arr ((touch (touch s src) rhs).vars rhs))
        ((abs (touch (touch s src) rhs)).items ((touch (touch s src) rhs).vars rhs)) := by
      refine ⟨getLen_ok h2 (h2.vars rhs) hn2, ?_, ?_⟩
      · simp only [readItem]
        rw [readCells_ok h2 (h2.vars rhs) hn2 _ _ (by omega), List.drop_zero, List.take_length]
      · intro a ha
        rcases ha with ha | ⟨_, ha⟩
        · injection ha with ha; rw [← ha]; exact h2.vars rhs
        · simp at ha
    have := Agree.of_A (appendTo_agree c zero h2 (h2.vars src) hn1 hi dst)
    rw [← abs_touch, ← abs_touch]
    exact this
  | insert dst src i item =>
    have hE := evalItem_agree c h item
    simp only [step, insert]
    cases hp : evalItem c s item with
    | error f =>
      rw [hp] at hE
      cases f with
      | ub => exact hE
      | err e =>
        dsimp only at hE
        cases item with
        | val x => simp [SState.src] at hE
        | elem v j =>
          simp only [actual]
          by_cases hS : InsertsShifted c.structured (abs s) src i v j
          · rw [if_pos hS]
            obtain ⟨_, h2, h3, h4, h5, h6⟩ := hS
            exfalso
            simp only [SState.src, SState.elem] at hE
            by_cases hnl : (abs s).vars v = .null
            · rw [h2] at hnl
              rw [hnl] at h5
              simp [SState.items] at h5
              omega
            · rw [if_neg hnl, h2] at hE
              unfold at? at hE
              rw [if_pos (by omega), List.getElem?_eq_getElem (by omega)] at hE
              cases hE
          · rw [if_neg hS]
            simp only [sstep]
            rw [hE]; rfl
    | ok it =>
      rw [hp] at hE
      obtain ⟨hna, hcell, x, hx, hi⟩ := hE
      rw [bind_ok]
      have hit := hi.congr (touch_blocks s src).symm hna
      have hvars : ((abs s).touch src).vars src = (touch s src).vars src := by rw [← abs_touch]; rfl
      -- the value that is really inserted
      have hval : ∃ y, (∃ item', actual c.structured (abs s) (.insert dst src i item) =
            .insert dst src i item' ∧ (abs s).src item' = .ok y) ∧
          (∀ (r : Nat) (hr : r < (touch s src).blocks.length), (touch s src).vars src = .blk r →
            0 ≤ i → i ≤ ((abs (touch s src)).items ((touch s src).vars src)).length →
            ((abs (touch s src)).items ((touch s src).vars src)).length + 1 ≤
              (abs (touch s src)).cap ((touch s src).vars src) →
            readItem (⟨(touch s src).blocks.set r ⟨(touch s src).blocks[r].len,
              (touch s src).blocks[r].cap,
              (touch s src).blocks[r].cells.take (i.toNat + 1) ++
                ((abs (touch s src)).items ((touch s src).vars src)).drop i.toNat ++
              (touch s src).blocks[r].cells.drop (i.toNat + 1 +
                (((abs (touch s src)).items ((touch s src).vars src)).drop i.toNat).length)⟩,
              (touch s src).vars⟩ : State α) 1 it = .ok [y]) ∧
          (¬((abs (touch s src)).items ((touch s src).vars src)).length + 1 ≤
              (abs (touch s src)).cap ((touch s src).vars src) → y = x) := by
        have hcl : ∀ (r : Nat) (hr : r < (touch s src).blocks.length),
            (touch s src).vars src = .blk r →
            i ≤ ((abs (touch s src)).items ((touch s src).vars src)).length →
            ((abs (touch s src)).items ((touch s src).vars src)).length + 1 ≤
              (abs (touch s src)).cap ((touch s src).vars src) →
            i.toNat + 1 ≤ (touch s src).blocks[r].cells.length := by
          intro r hr hav hi1 hfit
          have hb := (h.touch src).blocks r _ (List.getElem?_eq_getElem hr)
          have := hb.2
          rw [hav, cap_blk hr] at hfit
          rw [hav] at hi1
          omega
        by_cases hS : ∃ v j, item = .elem v j ∧ InsertsShifted c.structured (abs s) src i v j
        · obtain ⟨v, j, rfl, hS⟩ := hS
          have hS' := hS
          obtain ⟨h1, h2, h3, h4, h5, h6⟩ := hS'
          have hnn : s.vars src ≠ .null := by
            intro hnull
            have hnull' : (abs s).vars src = .null := hnull
            rw [hnull'] at h5; simp [SState.items] at h5; omega
          have htouch := touch_vars_other hnn
          have hvv : s.vars v = s.vars src := h2
          have hitc : it = .cell (s.vars src) j.toNat := by
            simp only [evalItem] at hp
            cases hq : elemPtr s (s.vars v) j with
            | error f => rw [hq] at hp; cases hp
            | ok k =>
              rw [hq] at hp
              dsimp only at hp
              rw [if_pos h1] at hp
              injection hp with hp
              rw [← hp, hvv]
              have := elem_agree h v j
              rw [hq] at this
              rw [this.2.2.1]
          have hy : ∃ y, ((abs s).items (s.vars src))[(j - 1).toNat]? = some y :=
            ⟨_, List.getElem?_eq_getElem (by
              have : (j : Int) < ((abs s).items (s.vars src)).length := h5
              omega)⟩
          obtain ⟨y, hy⟩ := hy
          refine ⟨y, ⟨.elem v (j - 1), by simp only [actual]; rw [if_pos hS], ?_⟩, ?_, ?_⟩
          · have hvnn : ¬(abs s).vars v = .null := by rw [h2]; exact hnn
            simp only [SState.src, SState.elem]
            rw [if_neg hvnn, h2]
            unfold at?
            rw [if_pos (by omega)]
            have e : (abs s).items ((abs s).vars src) = (abs s).items (s.vars src) := rfl
            rw [e, hy]
          · intro r hr hav hi0 hi1 hfit
            have hcl' := hcl r hr hav hi1 hfit
            rw [hitc]
            have hav' : s.vars src = .blk r := by rw [← htouch]; exact hav
            rw [hav']
            refine readItem_shift hr i.toNat j.toNat _ y _ (touch s src).blocks[r] hcl' (by omega) ?_
            rw [List.getElem?_drop, hav]
            rw [show i.toNat + (j.toNat - (i.toNat + 1)) = (j - 1).toNat by omega]
            rw [htouch, ← hav']
            exact hy
          · intro hfit
            exfalso
            apply hfit
            rw [htouch]
            exact h6
        · refine ⟨x, ⟨item, ?_, hx⟩, ?_, fun _ => rfl⟩
          · cases item with
            | val x => rfl
            | elem v j =>
              simp only [actual]
              rw [if_neg (fun hh => hS ⟨v, j, rfl, hh⟩)]
          · intro r hr hav hi0 hi1 hfit
            have hcl' := hcl r hr hav hi1 hfit
            refine readItem_set hr hit i.toNat _ _ _ rfl hcl' ?_ hna
            intro k hk
            obtain ⟨hst, v, j, rfl, hav2, h0, hkj⟩ := hcell _ k hk
            rcases Nat.lt_or_ge i.toNat k with hlt | hge
            · exfalso
              have hnn : s.vars src ≠ .null := by
                intro hnull
                unfold touch at hav
                rw [if_pos hnull] at hav
                simp [State.setVar] at hav
              have htouch := touch_vars_other hnn
              have hav' : s.vars src = .blk r := by rw [← htouch]; exact hav
              apply hS
              refine ⟨v, j, rfl, hst, ?_, hi0, by omega, ?_, ?_⟩
              · change s.vars v = s.vars src
                rw [hav', hav2]
              · simp only [SState.src, SState.elem] at hx
                have hvnn : ¬(abs s).vars v = .null := by
                  change ¬s.vars v = .null
                  rw [← hav2]; simp
                rw [if_neg hvnn] at hx
                unfold at? at hx
                rw [if_pos h0] at hx
                rcases Nat.lt_or_ge j.toNat ((abs s).items ((abs s).vars v)).length with hl | hl
                · have e : (abs s).vars v = (abs s).vars src := by
                    change s.vars v = s.vars src
                    rw [hav', hav2]
                  rw [← e]; omega
                · rw [List.getElem?_eq_none hl] at hx; cases hx
              · rw [htouch] at hfit; exact hfit
            · exact hge
      obtain ⟨y, ⟨item', ha1, ha2⟩, hv1, hv2⟩ := hval
      rw [ha1]
      simp only [sstep]
      rw [ha2, bind_ok]
      have hpre := insertTo_agree c zero (h.touch src) ((h.touch src).vars src)
        (touch_ne_null s src) hit i hv1 hv2 dst
      have := Agree.of_A hpre
      rw [abs_touch] at this
      rw [hvars]
      by_cases hb : i < 0 ∨ i > ((((abs s).touch src).items ((touch s src).vars src)).length : Nat)
      · rw [if_pos hb] at this ⊢; exact this
      · rw [if_neg hb] at this ⊢; exact this
  | delete dst src i =>
    have := Agree.of_A (delete_agree h (h.vars src) i dst)
    simp only [step, sstep, actual]
    have hv : (abs s).vars src = s.vars src := rfl
    rw [hv]
    by_cases hn : s.vars src = .null
    · rw [if_pos hn] at this ⊢; exact this
    · rw [if_neg hn] at this ⊢
      by_cases hx : i < 0 ∨ i ≥ (((abs s).items (s.vars src)).length : Nat)
      · rw [if_pos hx] at this ⊢; exact this
      · rw [if_neg hx] at this ⊢; exact this
  | slice dst src start stop =>
    have := Agree.of_A (slice_agree c zero h src start stop dst)
    have ha : actual c.structured (abs s) (.slice dst src start stop) =
        .slice dst src start (if stop = some (-2147483648) then none else stop) := by
      simp only [actual]; split <;> rfl
    rw [ha]
    generalize (if stop = some (-2147483648) then none else stop) = stop' at *
    simp only [step, sstep]
    dsimp only at this
    by_cases hx : start < 0 ∨ stopAt (((abs s).touch src).items
        (((abs s).touch src).vars src)).length stop' < start ∨
        stopAt (((abs s).touch src).items (((abs s).touch src).vars src)).length stop' >
          ((((abs s).touch src).items (((abs s).touch src).vars src)).length : Nat)
    · rw [if_pos hx] at this ⊢; exact this
    · rw [if_neg hx] at this ⊢; exact this
  | get src i =>
    have hE := elem_agree h src i
    simp only [step, sstep, actual]
    cases hp : elemPtr s (s.vars src) i with
    | error f =>
      rw [hp] at hE
      cases f with
      | ub => exact hE
      | err e => dsimp only at hE; rw [hE]; rfl
    | ok k =>
      rw [hp] at hE
      obtain ⟨_, _, _, _, x, hx1, _, hx3⟩ := hE
      rw [hx1, bind_ok, hx3, bind_ok]
      exact ⟨h, rfl⟩
  | set dst i x =>
    have hE := elem_agree h dst i
    simp only [step, sstep, actual]
    cases hp : elemPtr s (s.vars dst) i with
    | error f =>
      rw [hp] at hE
      cases f with
      | ub => exact hE
      | err e => dsimp only at hE; rw [hE]; rfl
    | ok k =>
      rw [hp] at hE
      obtain ⟨hn, h0, hk, hlt, y, hy, _, _⟩ := hE
      rw [hy, bind_ok, bind_ok]
      have hv : (abs s).vars dst = s.vars dst := rfl
      rw [hv]
      have ha := h.vars dst
      generalize s.vars dst = a at *
      subst hk
      cases a with
      | null => exact absurd rfl hn
      | empty => simp [SState.items] at hlt
      | blk r =>
        have hr := ha r rfl
        have hb := h.blocks r _ (List.getElem?_eq_getElem hr)
        have h1 := hb.1
        have h2 := hb.2
        have hl : ((abs s).items (.blk r)).length = s.blocks[r].len := by
          rw [items_blk hr, List.length_take]; omega
        rw [writeCells_blk hr _ _ (by simp; omega), bind_ok]
        have := set_agree h hr s.blocks[r].len
          (List.take i.toNat s.blocks[r].cells ++ [x] ++
            List.drop (i.toNat + [x].length) s.blocks[r].cells)
          (((abs s).items (.blk r)).set i.toNat x) h1
          (by simp only [List.length_append, List.length_take, List.length_drop,
                List.length_singleton]; omega)
          (by
            rw [items_blk hr, ← List.take_set]
            congr 1
            rw [List.set_eq_take_append_cons_drop, if_pos (by omega)]
            simp)
        exact ⟨this.1, by rw [this.2]; rfl⟩
  | len src =>
    simp only [step, sstep, actual]
    have hv : (abs s).vars src = s.vars src := rfl
    rw [hv]
    by_cases hn : s.vars src = .null
    · rw [if_pos hn, hn]; exact ⟨h, rfl⟩
    · rw [if_neg hn, getLen_ok h (h.vars src) hn]; exact ⟨h, rfl⟩
  | cap src =>
    simp only [step, sstep, actual]
    have hv : (abs s).vars src = s.vars src := rfl
    rw [hv]
    by_cases hn : s.vars src = .null
    · rw [if_pos hn, hn]; exact ⟨h, rfl⟩
    · rw [if_neg hn, getCap_ok (h.vars src) hn]; exact ⟨h, rfl⟩

theorem wf_init : Wf (init : State α) :=
  ⟨fun r b hr => by simp [init] at hr, fun v r hr => by simp [init] at hr⟩

theorem run_agree (c : Cfg) (zero : α) {s : State α} (h : Wf s) (ops : List (Op α)) :
    match run c zero s ops with
    | .ok (s', outs) =>
      Wf s' ∧ srunActual zero (allocCap c) c.structured (abs s) ops = .ok (abs s', outs)
    | .error (.err e) => srunActual zero (allocCap c) c.structured (abs s) ops = .error e
    | .error .ub => False := by
  induction ops generalizing s with
  | nil => exact ⟨h, rfl⟩
  | cons op ops ih =>
    have hs := step_agree c zero h op
    simp only [run, srunActual]
    cases hst : step c zero s op with
    | error f =>
      rw [hst] at hs
      cases f with
      | ub => exact hs
      | err e =>
        have hs : sstep zero (allocCap c) (abs s) (actual c.structured (abs s) op) = .error e := hs
        rw [hs]; rfl
    | ok r =>
      obtain ⟨s', o⟩ := r
      rw [hst] at hs
      obtain ⟨hw, hs⟩ := hs
      have hi := ih hw
      rw [hs, bind_ok, bind_ok]
      dsimp only
      cases hr : run c zero s' ops with
      | error f =>
        rw [hr] at hi
        cases f with
        | ub => exact hi
        | err e => dsimp only at hi; rw [hi]; rfl
      | ok r =>
        obtain ⟨s'', os⟩ := r
        rw [hr] at hi
        dsimp only at hi
        rw [hi.2]
        exact ⟨hi.1, rfl⟩

theorem regular_run (zero : α) (alloc : Int → Except Err Nat) (structured : Bool) (s : SState α)
    (ops : List (Op α)) (h : RegularRun zero alloc structured s ops) :
    srunActual zero alloc structured s ops = srun zero alloc s ops := by
  induction ops generalizing s with
  | nil => rfl
  | cons op ops ih =>
    obtain ⟨h1, h2⟩ := h
    have ha : actual structured s op = op := by
      cases op with
      | insert dst src i item =>
        cases item with
        | val x => rfl
        | elem v j => simp only [actual]; rw [if_neg h1]
      | slice dst src start stop => simp only [actual]; rw [if_neg h1]
      | _ => rfl
    simp only [srunActual, srun]
    rw [ha]
    cases hs : sstep zero alloc s op with
    | error e => rfl
    | ok r =>
      obtain ⟨s', o⟩ := r
      rw [bind_ok, bind_ok]
      dsimp only
      rw [ih s' (h2 s' o hs)]

end Umka.DynArr
