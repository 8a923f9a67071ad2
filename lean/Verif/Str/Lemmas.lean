import Verif.Str.Model
/-! # Strings: lemmas -/

namespace Umka.Str
open Spec

/-- Well-formed buffer: `len` nonzero bytes, a zero, and the rest. -/
structure WfB (b : Block) : Prop where
  shape : ∃ rest, b.cells = b.cells.take b.len ++ 0 :: rest
  len : (b.cells.take b.len).length = b.len
  nonzero : 0 ∉ b.cells.take b.len
  cap : b.cap ≤ b.cells.length
  max : b.len ≤ 2147483646

def WfA (s : State) (a : Ref) : Prop := ∀ r, a = .blk r → r < s.blocks.length

structure Wf (s : State) : Prop where
  blocks : ∀ (r : Nat) (b : Block), s.blocks[r]? = some b → WfB b
  vars : ∀ v, WfA s (s.vars v)

def absB (b : Block) : Obj := ⟨b.cells.take b.len, b.cap⟩

def abs (s : State) : SState := ⟨s.blocks.map absB, s.vars⟩

theorem nonNull_eq (a : Ref) : nonNull a = nz a := by cases a <;> rfl

theorem nz_ne (a : Ref) : nz a ≠ .null := by cases a <;> simp [nz]

theorem bytes_nz (s : SState) (a : Ref) : s.bytes (nz a) = s.bytes a := by cases a <;> rfl

theorem WfA.nz {s : State} {a : Ref} (h : WfA s a) : WfA s (nz a) := by
  intro r hr; cases a <;> simp [Spec.nz] at hr; exact h r (by rw [hr])

theorem abs_setVar (s : State) (v : Nat) (a : Ref) : abs (s.setVar v a) = (abs s).setVar v a := rfl

theorem Wf.setVar {s : State} (h : Wf s) {v : Nat} {a : Ref} (ha : WfA s a) :
    Wf (s.setVar v a) := by
  refine ⟨h.blocks, ?_⟩
  intro w r hr
  simp only [State.setVar] at hr ⊢
  by_cases hw : w = v
  · rw [if_pos hw] at hr; exact ha r hr
  · rw [if_neg hw] at hr; exact h.vars w r hr

theorem wfB_empty : WfB emptyBlock :=
  ⟨⟨[], rfl⟩, rfl, by simp [emptyBlock], by simp [emptyBlock], by simp [emptyBlock]⟩

/-- Following a non-null reference. -/
theorem deref_ok {s : State} (h : Wf s) {a : Ref} (ha : WfA s a) (hn : a ≠ .null) :
    ∃ b, deref s a = .ok b ∧ WfB b ∧ b.cells.take b.len = (abs s).bytes a ∧
      b.cap = (abs s).cap a ∧ (∀ r, a = .blk r → s.blocks[r]? = some b) ∧
      (a = .empty → b = emptyBlock) := by
  cases a with
  | null => exact absurd rfl hn
  | empty =>
    exact ⟨emptyBlock, rfl, wfB_empty, rfl, rfl, fun r hr => by simp at hr, fun _ => rfl⟩
  | blk r =>
    have hr := ha r rfl
    have e : s.blocks[r]? = some s.blocks[r] := List.getElem?_eq_getElem hr
    refine ⟨s.blocks[r], by simp only [deref, e], h.blocks r _ e, ?_, ?_, ?_, fun hh => by simp at hh⟩
    · simp only [abs, SState.bytes, List.getElem?_map, e, Option.map_some, absB]
    · simp only [abs, SState.cap, List.getElem?_map, e, Option.map_some, absB]
    · intro r' hr'; injection hr' with hr'; rw [← hr', e]

theorem bind_ok {ε β γ : Type} (x : β) (f : β → Except ε γ) :
    ((Except.ok x : Except ε β) >>= f) = f x := rfl

theorem bind_error {ε β γ : Type} (e : ε) (f : β → Except ε γ) :
    ((Except.error e : Except ε β) >>= f) = .error e := rfl

theorem pure_eq {ε β : Type} (x : β) : (pure x : Except ε β) = .ok x := rfl

theorem getLen_ok {s : State} (h : Wf s) {a : Ref} (ha : WfA s a) (hn : a ≠ .null) :
    getLen s a = .ok ((abs s).bytes a).length := by
  obtain ⟨b, hb, hw, hby, _⟩ := deref_ok h ha hn
  unfold getLen
  rw [hb, bind_ok, pure_eq, ← hby, hw.len]

theorem getCap_ok {s : State} (h : Wf s) {a : Ref} (ha : WfA s a) (hn : a ≠ .null) :
    getCap s a = .ok ((abs s).cap a) := by
  obtain ⟨b, hb, hw, hby, hc, _⟩ := deref_ok h ha hn
  unfold getCap
  rw [hb, bind_ok, pure_eq, hc]

/-- The bytes of a well-formed buffer with its terminator. -/
theorem WfB.cells_eq {b : Block} (h : WfB b) :
    ∃ rest, b.cells = b.cells.take b.len ++ 0 :: rest := h.shape

theorem WfB.len_lt {b : Block} (h : WfB b) : b.len + 1 ≤ b.cells.length := by
  obtain ⟨rest, hr⟩ := h.shape
  have := congrArg List.length hr
  rw [List.length_append, h.len, List.length_cons] at this
  omega

theorem WfB.terminated {b : Block} (h : WfB b) :
    b.cells.take (b.len + 1) = b.cells.take b.len ++ [0] := by
  obtain ⟨rest, hr⟩ := h.shape
  have hl := h.len
  generalize b.cells.take b.len = l at *
  rw [hr, List.take_append, hl]
  rw [List.take_of_length_le (by omega)]
  simp

theorem readBytes_ok {s : State} (h : Wf s) {a : Ref} (ha : WfA s a) (hn : a ≠ .null) (i n : Nat)
    (hin : i + n ≤ ((abs s).bytes a).length) :
    readBytes s a i n = .ok ((((abs s).bytes a).drop i).take n) := by
  obtain ⟨b, hb, hw, hby, _⟩ := deref_ok h ha hn
  unfold readBytes
  rw [← hby, hw.len] at hin
  have := hw.len_lt
  rw [hb, bind_ok, if_pos (by omega), ← hby, List.drop_take, List.take_take,
    Nat.min_eq_left (by omega)]

theorem readBytes_term {s : State} (h : Wf s) {a : Ref} (ha : WfA s a) (hn : a ≠ .null) :
    readBytes s a 0 (((abs s).bytes a).length + 1) = .ok ((abs s).bytes a ++ [0]) := by
  obtain ⟨b, hb, hw, hby, _⟩ := deref_ok h ha hn
  unfold readBytes
  rw [← hby, hw.len]
  have := hw.len_lt
  rw [hb, bind_ok, if_pos (by omega), List.drop_zero, hw.terminated]

/-- The state with one more block. -/
def push (s : State) (b : Block) : State := ⟨s.blocks ++ [b], s.vars⟩

theorem deref_push {s : State} {a : Ref} (ha : WfA s a) (b : Block) :
    deref (push s b) a = deref s a := by
  cases a with
  | null => rfl
  | empty => rfl
  | blk r => simp only [deref, push, List.getElem?_append_left (ha r rfl)]

theorem readBytes_push {s : State} {a : Ref} (ha : WfA s a) (b : Block) (i n : Nat) :
    readBytes (push s b) a i n = readBytes s a i n := by
  unfold readBytes; rw [deref_push ha]

theorem deref_new (s : State) (b : Block) : deref (push s b) (.blk s.blocks.length) = .ok b := by
  have e : (push s b).blocks[s.blocks.length]? = some b := by simp [push]
  simp only [deref, e]

theorem store_new (s : State) (b b' : Block) :
    store (push s b) (.blk s.blocks.length) b' = .ok (push s b') := by
  have e : s.blocks.length < (push s b).blocks.length := by simp [push]
  simp only [store]
  rw [if_pos e]
  simp [push, List.set_append_right]

theorem writeBytes_push (s : State) (b : Block) (i : Nat) (xs : List Nat)
    (h : i + xs.length ≤ b.cells.length) :
    writeBytes (push s b) (.blk s.blocks.length) i xs = .ok (push s
      ⟨b.len, b.cap, b.cells.take i ++ xs ++ b.cells.drop (i + xs.length)⟩) := by
  unfold writeBytes
  rw [deref_new, bind_ok, if_pos h, store_new]

theorem setLen_push (s : State) (b : Block) (n : Nat) :
    setLen (push s b) (.blk s.blocks.length) n = .ok (push s ⟨n, b.cap, b.cells⟩) := by
  unfold setLen
  rw [deref_new, bind_ok, store_new]

theorem capacityFor_ge (len : Int) : len ≤ capacityFor len := by
  unfold capacityFor
  dsimp only
  split <;> omega

theorem allocCap_ge {n : Int} {cap : Nat} (h : allocCap n = .ok cap) :
    n.toNat ≤ cap ∧ n.toNat ≤ 2147483646 := by
  unfold allocCap at h
  dsimp only at h
  have := capacityFor_ge n
  generalize capacityFor n = z at *
  by_cases hc : chunkFits (16 + z) = true
  · rw [if_pos hc] at h
    injection h with h
    unfold chunkFits align intMax at hc
    rw [decide_eq_true_eq] at hc
    omega
  · rw [if_neg hc] at h; cases h

theorem allocStr_eq (s : State) (n : Nat) :
    allocStr s n = match allocCap n with
      | .error e => .error (.err e)
      | .ok cap => .ok (push s ⟨n, cap, List.replicate (cap + 1) 0⟩, .blk s.blocks.length) := by
  unfold allocStr
  cases hal : allocCap n with
  | error e => rfl
  | ok cap =>
    have hge := (allocCap_ge hal).1
    simp only [Int.toNat_natCast] at hge
    have e : (.blk ((s.blocks ++ [(⟨(n : Int).toNat, cap, List.replicate (cap + 1) 0⟩ : Block)]).length
        - 1) : Ref) = .blk s.blocks.length := by simp
    dsimp only
    rw [e]
    have := writeBytes_push s ⟨(n : Int).toNat, cap, List.replicate (cap + 1) 0⟩ (n : Int).toNat [0]
      (by simp; omega)
    unfold push at this ⊢
    rw [this, bind_ok, pure_eq]
    congr 5
    rw [Int.toNat_natCast]
    dsimp only
    rw [List.take_replicate, List.drop_replicate, Nat.min_eq_left (by omega),
      show ([0] : List Nat) = List.replicate 1 0 from rfl, List.replicate_append_replicate,
      List.replicate_append_replicate]
    congr 1
    simp; omega

theorem Wf.push {s : State} (h : Wf s) {b : Block} (hb : WfB b) : Wf (push s b) := by
  refine ⟨?_, ?_⟩
  · intro r b' hr
    simp only [Str.push, List.getElem?_append] at hr
    split at hr
    · exact h.blocks r b' hr
    · have : b' = b := by
        rcases hk : r - s.blocks.length with _ | k
        · rw [hk] at hr; simpa using hr.symm
        · rw [hk] at hr; simp at hr
      rw [this]; exact hb
  · intro v r hr
    have := h.vars v r hr
    simp only [Str.push, List.length_append, List.length_singleton]
    omega

theorem abs_push (s : State) (b : Block) (v : Nat) :
    abs ((push s b).setVar v (.blk s.blocks.length)) =
      SState.setVar ⟨(abs s).objs ++ [absB b], (abs s).vars⟩ v (.blk (abs s).objs.length) := by
  simp [abs, push, State.setVar, SState.setVar]

/-- What it means for a model result to agree with a specification result. -/
def Agree (m : Res (State × Out)) (p : Except Err (SState × Out)) : Prop :=
  match m with
  | .ok (s, o) => Wf s ∧ p = .ok (abs s, o)
  | .error (.err e) => p = .error e
  | .error .ub => False

def AgreeA (dst : Nat) (m : Res (State × Ref)) (p : Except Err SState) : Prop :=
  match m with
  | .ok (s, a) => Wf s ∧ WfA s a ∧ p = .ok (abs (s.setVar dst a))
  | .error (.err e) => p = .error e
  | .error .ub => False

theorem wfB_of {l rest : List Nat} {cap : Nat} (hz : 0 ∉ l) (hcap : cap ≤ (l ++ 0 :: rest).length)
    (hm : l.length ≤ 2147483646) : WfB ⟨l.length, cap, l ++ 0 :: rest⟩ := by
  have e : (l ++ 0 :: rest).take l.length = l := List.take_left' rfl
  refine ⟨⟨rest, ?_⟩, ?_, ?_, hcap, hm⟩
  · rw [e]
  · rw [e]
  · rw [e]; exact hz

/-- A fresh buffer holding `l` agrees with a fresh object. -/
theorem agree_fresh {s : State} (h : Wf s) (dst : Nat) (l rest : List Nat) (hz : 0 ∉ l)
    {cap : Nat} (hc : allocCap l.length = .ok cap) (hlen : (l ++ 0 :: rest).length = cap + 1) :
    Wf (push s ⟨l.length, cap, l ++ 0 :: rest⟩) ∧
    WfA (push s ⟨l.length, cap, l ++ 0 :: rest⟩) (.blk s.blocks.length) ∧
    (abs s).fresh allocN dst l =
      .ok (abs ((push s ⟨l.length, cap, l ++ 0 :: rest⟩).setVar dst (.blk s.blocks.length))) := by
  have hge := allocCap_ge hc
  simp only [Int.toNat_natCast] at hge
  refine ⟨h.push (wfB_of hz (by omega) hge.2), ?_, ?_⟩
  · intro r hr; injection hr with hr; subst hr; simp [push]
  · unfold SState.fresh allocN
    rw [hc]
    dsimp only
    rw [abs_push]
    simp only [absB]
    rw [List.take_left' rfl]

theorem set_agree {s : State} (h : Wf s) {r : Nat} {b : Block} (hr : s.blocks[r]? = some b)
    (l rest : List Nat) (hz : 0 ∉ l) (hcap : b.cap ≤ (l ++ 0 :: rest).length)
    (hm : l.length ≤ 2147483646) :
    Wf ⟨s.blocks.set r ⟨l.length, b.cap, l ++ 0 :: rest⟩, s.vars⟩ ∧
    abs ⟨s.blocks.set r ⟨l.length, b.cap, l ++ 0 :: rest⟩, s.vars⟩ = (abs s).mutate (.blk r) l := by
  have hlt : r < s.blocks.length := by
    rcases Nat.lt_or_ge r s.blocks.length with h' | h'
    · exact h'
    · rw [List.getElem?_eq_none h'] at hr; cases hr
  refine ⟨⟨?_, ?_⟩, ?_⟩
  · intro k b' hk
    rw [List.getElem?_set] at hk
    split at hk
    · injection hk with hk; subst hk; exact wfB_of hz hcap hm
    · exact h.blocks k b' hk
  · intro v k hk
    have := h.vars v k hk
    simpa using this
  · simp only [abs, SState.mutate, List.getElem?_map, hr, Option.map_some, List.map_set, absB]
    rw [List.take_left' rfl]

end Umka.Str
