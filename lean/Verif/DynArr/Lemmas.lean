import Verif.DynArr.Model
/-! # Dynamic arrays: lemmas -/

namespace Umka.DynArr
open Spec

variable {α : Type}

/-- Well-formed block. -/
def WfB (b : Block α) : Prop := b.len ≤ b.cap ∧ b.cells.length = b.cap

/-- Reference to an existing block, or none. -/
def WfA (s : State α) (a : Arr) : Prop := ∀ r, a = .blk r → r < s.blocks.length

structure Wf (s : State α) : Prop where
  blocks : ∀ (r : Nat) (b : Block α), s.blocks[r]? = some b → WfB b
  vars : ∀ v, WfA s (s.vars v)

def absB (b : Block α) : Obj α := ⟨b.cells.take b.len, b.cap⟩

/-- The specification state that a model state stands for. -/
def abs (s : State α) : SState α := ⟨s.blocks.map absB, s.vars⟩

theorem abs_setVar (s : State α) (v : Nat) (a : Arr) : abs (s.setVar v a) = (abs s).setVar v a := rfl

theorem abs_touch (s : State α) (v : Nat) : abs (touch s v) = (abs s).touch v := by
  unfold touch SState.touch
  by_cases h : s.vars v = .null
  · rw [if_pos h, if_pos (show (abs s).vars v = .null from h)]; rfl
  · rw [if_neg h, if_neg (show ¬(abs s).vars v = .null from h)]

theorem touch_blocks (s : State α) (v : Nat) : (touch s v).blocks = s.blocks := by
  unfold touch; split <;> rfl

theorem touch_ne_null (s : State α) (v : Nat) : (touch s v).vars v ≠ .null := by
  unfold touch
  by_cases h : s.vars v = .null
  · rw [if_pos h]; simp [State.setVar]
  · rw [if_neg h]; exact h

theorem Wf.setVar {s : State α} (h : Wf s) {v : Nat} {a : Arr} (ha : WfA s a) :
    Wf (s.setVar v a) := by
  refine ⟨h.blocks, ?_⟩
  intro w r hr
  simp only [State.setVar] at hr ⊢
  by_cases hw : w = v
  · rw [if_pos hw] at hr; exact ha r hr
  · rw [if_neg hw] at hr; exact h.vars w r hr

theorem Wf.touch {s : State α} (h : Wf s) (v : Nat) : Wf (touch s v) := by
  unfold DynArr.touch
  split
  · exact h.setVar (fun r hr => by simp at hr)
  · exact h

theorem getLen_ok {s : State α} (h : Wf s) {a : Arr} (ha : WfA s a) (hn : a ≠ .null) :
    getLen s a = .ok ((abs s).items a).length := by
  cases a with
  | null => exact absurd rfl hn
  | empty => rfl
  | blk r =>
    have hr := ha r rfl
    have e : s.blocks[r]? = some s.blocks[r] := List.getElem?_eq_getElem hr
    have hb := h.blocks r _ e
    simp only [getLen, SState.items, abs, List.getElem?_map, e, Option.map_some, absB]
    rw [List.length_take, hb.2, Nat.min_eq_left hb.1]

theorem getCap_ok {s : State α} {a : Arr} (ha : WfA s a) (hn : a ≠ .null) :
    getCap s a = .ok ((abs s).cap a) := by
  cases a with
  | null => exact absurd rfl hn
  | empty => rfl
  | blk r =>
    have hr := ha r rfl
    have e : s.blocks[r]? = some s.blocks[r] := List.getElem?_eq_getElem hr
    simp only [getCap, SState.cap, abs, List.getElem?_map, e, Option.map_some, absB]

theorem len_le_cap {s : State α} (h : Wf s) (a : Arr) :
    ((abs s).items a).length ≤ (abs s).cap a := by
  cases a with
  | null => exact Nat.le_refl _
  | empty => exact Nat.le_refl _
  | blk r =>
    by_cases hr : r < s.blocks.length
    · have e : s.blocks[r]? = some s.blocks[r] := List.getElem?_eq_getElem hr
      have hb := h.blocks r _ e
      simp only [SState.items, SState.cap, abs, List.getElem?_map, e, Option.map_some, absB]
      rw [List.length_take]; exact Nat.le_trans (Nat.min_le_left _ _) hb.1
    · have e : s.blocks[r]? = none := List.getElem?_eq_none (by omega)
      simp [SState.items, abs, List.getElem?_map, e]

theorem readCells_ok {s : State α} (h : Wf s) {a : Arr} (ha : WfA s a) (hn : a ≠ .null) (i n : Nat)
    (hin : i + n ≤ ((abs s).items a).length) :
    readCells s a i n = .ok ((((abs s).items a).drop i).take n) := by
  cases a with
  | null => exact absurd rfl hn
  | empty =>
    simp only [SState.items, List.length_nil] at hin ⊢
    have : i = 0 ∧ n = 0 := by omega
    simp [readCells, this]
  | blk r =>
    have hr := ha r rfl
    have e : s.blocks[r]? = some s.blocks[r] := List.getElem?_eq_getElem hr
    have hb := h.blocks r _ e
    simp only [SState.items, abs, List.getElem?_map, e, Option.map_some, absB,
      List.length_take, hb.2, Nat.min_eq_left hb.1] at hin
    simp only [readCells, SState.items, abs, List.getElem?_map, e, Option.map_some, absB]
    rw [if_pos (by have := hb.1; have := hb.2; omega), List.drop_take, List.take_take,
      Nat.min_eq_left (by omega)]

/-- The state with one more block. -/
def push (s : State α) (b : Block α) : State α := ⟨s.blocks ++ [b], s.vars⟩

theorem readCells_push {s : State α} {a : Arr} (ha : WfA s a) (b : Block α) (i n : Nat) :
    readCells (push s b) a i n = readCells s a i n := by
  cases a with
  | null => rfl
  | empty => rfl
  | blk r =>
    have hr := ha r rfl
    simp only [readCells, push, List.getElem?_append_left hr]

theorem getLen_push {s : State α} {a : Arr} (ha : WfA s a) (b : Block α) :
    getLen (push s b) a = getLen s a := by
  cases a with
  | null => rfl
  | empty => rfl
  | blk r =>
    have hr := ha r rfl
    simp only [getLen, push, List.getElem?_append_left hr]

theorem readItem_push {s : State α} {it : Item α}
    (ha : ∀ a, (it = .arr a ∨ ∃ i, it = .cell a i) → WfA s a) (b : Block α) (n : Nat) :
    readItem (push s b) n it = readItem s n it := by
  cases it with
  | val x => rfl
  | cell a i => exact readCells_push (ha a (Or.inr ⟨i, rfl⟩)) b i 1
  | arr a => exact readCells_push (ha a (Or.inl rfl)) b 0 n

theorem writeCells_push (s : State α) (b : Block α) (i : Nat) (xs : List α)
    (h : i + xs.length ≤ b.cells.length) :
    writeCells (push s b) (.blk s.blocks.length) i xs = .ok (push s
      ⟨b.len, b.cap, b.cells.take i ++ xs ++ b.cells.drop (i + xs.length)⟩) := by
  have e : (push s b).blocks[s.blocks.length]? = some b := by simp [push]
  simp only [writeCells, e]
  rw [if_pos h]
  simp [push, List.set_append_right]

theorem getLen_new (s : State α) (b : Block α) :
    getLen (push s b) (.blk s.blocks.length) = .ok b.len := by
  have e : (push s b).blocks[s.blocks.length]? = some b := by simp [push]
  simp only [getLen, e]

theorem capacityFor_ge (z : Nat) (len : Int) : len ≤ capacityFor z len := by
  unfold capacityFor
  dsimp only
  split <;> omega

theorem allocCap_ge {c : Cfg} {n : Int} {cap : Nat} (h : allocCap c n = .ok cap) :
    0 ≤ n ∧ n.toNat ≤ cap := by
  unfold allocCap at h
  by_cases h1 : n < 0 ∨ n > intMax
  · rw [if_pos h1] at h; cases h
  · rw [if_neg h1] at h
    dsimp only at h
    have := capacityFor_ge c.itemSize n
    split at h
    · injection h with h; omega
    · cases h

theorem alloc_eq (c : Cfg) (zero : α) (s : State α) (n : Int) :
    alloc c zero s n = match allocCap c n with
      | .error e => .error (.err e)
      | .ok cap => .ok (push s ⟨n.toNat, cap, List.replicate cap zero⟩, .blk s.blocks.length) := rfl

/-- What it means for a model result to agree with a specification result. -/
def Agree (m : Res (State α × Out α)) (p : Except Err (SState α × Out α)) : Prop :=
  match m with
  | .ok (s, o) => Wf s ∧ p = .ok (abs s, o)
  | .error (.err e) => p = .error e
  | .error .ub => False

/-- The same for builtins that return an array. -/
def AgreeA (dst : Nat) (m : Res (State α × Arr)) (p : Except Err (SState α)) : Prop :=
  match m with
  | .ok (s, a) => Wf s ∧ WfA s a ∧ p = .ok (abs (s.setVar dst a))
  | .error (.err e) => p = .error e
  | .error .ub => False

theorem Wf.push {s : State α} (h : Wf s) {b : Block α} (hb : WfB b) : Wf (push s b) := by
  refine ⟨?_, ?_⟩
  · intro r b' hr
    simp only [DynArr.push, List.getElem?_append] at hr
    split at hr
    · exact h.blocks r b' hr
    · have : b' = b := by
        rcases hk : r - s.blocks.length with _ | k
        · rw [hk] at hr; simpa using hr.symm
        · rw [hk] at hr; simp at hr
      rw [this]; exact hb
  · intro v r hr
    have := h.vars v r hr
    simp only [DynArr.push, List.length_append, List.length_singleton]
    omega

theorem abs_push (s : State α) (b : Block α) (v : Nat) :
    abs ((push s b).setVar v (.blk s.blocks.length)) =
      SState.setVar ⟨(abs s).objs ++ [absB b], (abs s).vars⟩ v (.blk (abs s).objs.length) := by
  simp [abs, push, State.setVar, SState.setVar]

/-- A fresh block that ends up holding `l` agrees with a fresh object. -/
theorem agree_fresh {c : Cfg} {s : State α} (h : Wf s) (dst : Nat) (l : List α)
    {cap : Nat} (hc : allocCap c l.length = .ok cap) (cells : List α) (hlen : cells.length = cap)
    (hl : cells.take l.length = l) :
    Wf (push s ⟨l.length, cap, cells⟩) ∧ WfA (push s ⟨l.length, cap, cells⟩) (.blk s.blocks.length) ∧
    (abs s).fresh (allocCap c) dst l =
      .ok (abs ((push s ⟨l.length, cap, cells⟩).setVar dst (.blk s.blocks.length))) := by
  have hge := (allocCap_ge hc).2
  refine ⟨h.push ⟨by simpa using hge, hlen⟩, ?_, ?_⟩
  · intro r hr; injection hr with hr; subst hr; simp [push]
  · unfold SState.fresh
    rw [hc]
    dsimp only
    rw [abs_push]
    simp only [absB, hl]

theorem set_agree {s : State α} (h : Wf s) {r : Nat} (hr : r < s.blocks.length) (n : Nat)
    (cells l : List α) (hn : n ≤ s.blocks[r].cap) (hlen : cells.length = s.blocks[r].cap)
    (hl : cells.take n = l) :
    Wf ⟨s.blocks.set r ⟨n, s.blocks[r].cap, cells⟩, s.vars⟩ ∧
    abs ⟨s.blocks.set r ⟨n, s.blocks[r].cap, cells⟩, s.vars⟩ = (abs s).mutate (.blk r) l := by
  refine ⟨⟨?_, ?_⟩, ?_⟩
  · intro k b hk
    rw [List.getElem?_set] at hk
    split at hk
    · injection hk with hk; subst hk; exact ⟨hn, hlen⟩
    · exact h.blocks k b hk
  · intro v k hk
    have := h.vars v k hk
    simpa using this
  · have e : s.blocks[r]? = some s.blocks[r] := List.getElem?_eq_getElem hr
    simp only [abs, SState.mutate, List.getElem?_map, e, Option.map_some, List.map_set, absB, hl]

/-- An item argument that denotes the items `xs` in state `s`. -/
structure ItemOk (s : State α) (it : Item α) (xs : List α) : Prop where
  len : itemLen s it = .ok xs.length
  read : readItem s xs.length it = .ok xs
  refs : ∀ a, (it = .arr a ∨ ∃ i, it = .cell a i) → WfA s a

theorem items_blk {s : State α} {r : Nat} (hr : r < s.blocks.length) :
    (abs s).items (.blk r) = s.blocks[r].cells.take s.blocks[r].len := by
  simp only [abs, SState.items, List.getElem?_map, List.getElem?_eq_getElem hr, Option.map_some,
    absB]

theorem cap_blk {s : State α} {r : Nat} (hr : r < s.blocks.length) :
    (abs s).cap (.blk r) = s.blocks[r].cap := by
  simp only [abs, SState.cap, List.getElem?_map, List.getElem?_eq_getElem hr, Option.map_some,
    absB]

theorem writeCells_blk {s : State α} {r : Nat} (hr : r < s.blocks.length) (i : Nat) (xs : List α)
    (h : i + xs.length ≤ s.blocks[r].cells.length) :
    writeCells s (.blk r) i xs = .ok ⟨s.blocks.set r ⟨s.blocks[r].len, s.blocks[r].cap,
      s.blocks[r].cells.take i ++ xs ++ s.blocks[r].cells.drop (i + xs.length)⟩, s.vars⟩ := by
  simp only [writeCells, List.getElem?_eq_getElem hr]
  rw [if_pos h]

theorem setLen_set {s : State α} {r : Nat} (hr : r < s.blocks.length) (b : Block α) (n : Nat) :
    setLen (⟨s.blocks.set r b, s.vars⟩ : State α) (.blk r) n =
      .ok ⟨s.blocks.set r ⟨n, b.cap, b.cells⟩, s.vars⟩ := by
  have e : (s.blocks.set r b)[r]? = some b := by simp [hr]
  simp only [setLen, e, List.set_set]

theorem writeCells_set {s : State α} {r : Nat} (hr : r < s.blocks.length) (b : Block α) (i : Nat)
    (xs : List α) (h : i + xs.length ≤ b.cells.length) :
    writeCells (⟨s.blocks.set r b, s.vars⟩ : State α) (.blk r) i xs =
      .ok ⟨s.blocks.set r ⟨b.len, b.cap,
        b.cells.take i ++ xs ++ b.cells.drop (i + xs.length)⟩, s.vars⟩ := by
  have e : (s.blocks.set r b)[r]? = some b := by simp [hr]
  simp only [writeCells, e, List.set_set]
  rw [if_pos h]

theorem bind_ok {ε β γ : Type} (x : β) (f : β → Except ε γ) :
    ((Except.ok x : Except ε β) >>= f) = f x := rfl

theorem bind_error {ε β γ : Type} (e : ε) (f : β → Except ε γ) :
    ((Except.error e : Except ε β) >>= f) = .error e := rfl

theorem pure_eq {ε β : Type} (x : β) : (pure x : Except ε β) = .ok x := rfl

theorem appendTo_agree (c : Cfg) (zero : α) {s : State α} (h : Wf s) {a : Arr} (ha : WfA s a)
    (hn : a ≠ .null) {it : Item α} {xs : List α} (hi : ItemOk s it xs) (dst : Nat) :
    AgreeA dst (appendTo c zero s a it)
      ((abs s).update (allocCap c) dst a ((abs s).items a ++ xs)) := by
  have hlc := len_le_cap h a
  have hcells : ∀ r, a = .blk r → ∃ hr : r < s.blocks.length,
      s.blocks[r].cells.length = s.blocks[r].cap ∧ s.blocks[r].len ≤ s.blocks[r].cap := by
    intro r e
    have hr := ha r e
    have hb := h.blocks r _ (List.getElem?_eq_getElem hr)
    exact ⟨hr, hb.2, hb.1⟩
  unfold appendTo SState.update
  rw [hi.len, bind_ok, getLen_ok h ha hn, bind_ok, getCap_ok ha hn, bind_ok]
  dsimp only
  simp only [List.length_append]
  by_cases hc : ((abs s).items a).length + xs.length ≤ (abs s).cap a
  · rw [if_pos hc, if_pos hc, hi.read, bind_ok]
    cases a with
    | null => exact absurd rfl hn
    | empty =>
      simp only [SState.items, SState.cap, List.length_nil, Nat.zero_add] at hc ⊢
      have hx : xs = [] := List.eq_nil_of_length_eq_zero (by omega)
      subst hx
      simp only [writeCells, setLen, AgreeA, List.length_nil, and_self, if_true, bind_ok, pure_eq,
        SState.mutate]
      exact ⟨h, fun r hr => by simp at hr, rfl⟩
    | blk r =>
      obtain ⟨hr, h1, h2⟩ := hcells r rfl
      rw [cap_blk hr] at hc
      have hl : ((abs s).items (.blk r)).length = s.blocks[r].len := by
        rw [items_blk hr, List.length_take]; omega
      rw [hl] at hc ⊢
      rw [writeCells_blk hr _ _ (by omega), bind_ok, setLen_set hr, bind_ok, pure_eq]
      have := set_agree h hr (s.blocks[r].len + xs.length)
        (s.blocks[r].cells.take s.blocks[r].len ++ xs ++
          s.blocks[r].cells.drop (s.blocks[r].len + xs.length))
        ((abs s).items (.blk r) ++ xs) hc
        (by simp only [List.length_append, List.length_take, List.length_drop]; omega)
        (by
          rw [items_blk hr]
          apply List.take_left'
          simp only [List.length_append, List.length_take]; omega)
      refine ⟨this.1, ?_, ?_⟩
      · intro k hk; injection hk with hk; subst hk; simpa using hr
      · rw [abs_setVar, this.2]
  · rw [if_neg hc, if_neg hc, alloc_eq]
    cases hal : allocCap c (((abs s).items a).length + xs.length : Nat) with
    | error e =>
      simp only [AgreeA, bind_error, SState.fresh]
      rw [List.length_append, hal]
    | ok cap =>
      have hal' : allocCap c (((abs s).items a ++ xs).length : Nat) = .ok cap := by
        rw [List.length_append]; exact hal
      have hge := (allocCap_ge hal).2
      dsimp only
      rw [bind_ok]
      dsimp only
      rw [readCells_push ha, readCells_ok h ha hn _ _ (by omega), bind_ok, List.drop_zero,
        List.take_length, writeCells_push _ _ _ _ (by simp; omega), bind_ok,
        readItem_push hi.refs, hi.read, bind_ok,
        writeCells_push _ _ _ _ (by simp; omega), bind_ok, pure_eq]
      simp only [AgreeA, Int.toNat_natCast]
      have := agree_fresh (c := c) h dst ((abs s).items a ++ xs) (cap := cap) hal'
        (List.take ((abs s).items a).length
          (List.take 0 (List.replicate cap zero) ++ (abs s).items a ++
            List.drop (0 + ((abs s).items a).length) (List.replicate cap zero)) ++ xs ++
          List.drop (((abs s).items a).length + xs.length)
            (List.take 0 (List.replicate cap zero) ++ (abs s).items a ++
              List.drop (0 + ((abs s).items a).length) (List.replicate cap zero)))
        (by simp; omega)
        (by
          rw [List.take_zero, List.nil_append, List.take_left]
          apply List.take_left' rfl)
      rw [List.length_append] at this
      exact this

end Umka.DynArr
