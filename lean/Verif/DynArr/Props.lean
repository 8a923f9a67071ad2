import Verif.DynArr.Sim
/-! # Dynamic arrays: properties C08, C09 and the dynamic array part of C24 -/

namespace Umka.DynArr.Props
open Umka.DynArr Umka.DynArr.Spec

variable {α : Type}

/-! ## Observations on states -/

/-- The list held by variable `v`: the first `len` cells of its storage. -/
def contents (s : State α) (v : Nat) : List α :=
  match s.vars v with
  | .blk r => match s.blocks[r]? with
    | some b => b.cells.take b.len
    | none => []
  | _ => []

/-- `cap(v)`. -/
def capacity (s : State α) (v : Nat) : Nat :=
  match s.vars v with
  | .blk r => match s.blocks[r]? with
    | some b => b.cap
    | none => 0
  | _ => 0

/-- A state that some program reaches. -/
def Reachable (c : Cfg) (zero : α) (s : State α) : Prop :=
  ∃ ops outs, run c zero init ops = .ok (s, outs)

theorem contents_eq (s : State α) (v : Nat) : contents s v = (abs s).items (s.vars v) := by
  unfold contents SState.items
  cases s.vars v with
  | null => rfl
  | empty => rfl
  | blk r => simp only [abs, List.getElem?_map]; cases s.blocks[r]? <;> rfl

theorem capacity_eq (s : State α) (v : Nat) : capacity s v = (abs s).cap (s.vars v) := by
  unfold capacity SState.cap
  cases s.vars v with
  | null => rfl
  | empty => rfl
  | blk r => simp only [abs, List.getElem?_map]; cases s.blocks[r]? <;> rfl

theorem Reachable.wf {c : Cfg} {zero : α} {s : State α} (h : Reachable c zero s) : Wf s := by
  obtain ⟨ops, outs, hr⟩ := h
  have := run_agree c zero wf_init ops
  rw [hr] at this
  exact this.1

/-! ## C08: dynamic array operations are list operations -/

/-- **C08.** Every program that avoids the two exceptional cases observes exactly what the list
specification says: the same outputs, or the same run-time error; and the implementation never
leaves the bounds of its storage.  (The exceptional cases are in `RegularRun`.) -/
theorem C08_list_operations_partial (c : Cfg) (zero : α) (ops : List (Op α))
    (hreg : RegularRun zero (allocCap c) c.structured sinit ops) :
    (run c zero init ops).map (·.2) =
      ((srun zero (allocCap c) sinit ops).map (·.2)).mapError Fault.err := by
  have h := run_agree c zero wf_init ops
  have hi : abs (init : State α) = sinit := rfl
  rw [hi, regular_run _ _ _ _ _ hreg] at h
  cases hr : run c zero init ops with
  | ok r => rw [hr] at h; obtain ⟨s, o⟩ := r; rw [h.2]; rfl
  | error f =>
    rw [hr] at h
    cases f with
    | ub => exact h.elim
    | err e => dsimp only at h; rw [h]; rfl

/-- **C08, exact behaviour.** Every program whatsoever observes what the list specification says of
the operations that are really performed (`actual`), and never leaves the bounds of its storage. -/
theorem C08_exact_behaviour (c : Cfg) (zero : α) (ops : List (Op α)) :
    (run c zero init ops).map (·.2) =
      ((srunActual zero (allocCap c) c.structured sinit ops).map (·.2)).mapError Fault.err := by
  have h := run_agree c zero wf_init ops
  have hi : abs (init : State α) = sinit := rfl
  rw [hi] at h
  cases hr : run c zero init ops with
  | ok r => rw [hr] at h; obtain ⟨s, o⟩ := r; rw [h.2]; rfl
  | error f =>
    rw [hr] at h
    cases f with
    | ub => exact h.elim
    | err e => dsimp only at h; rw [h]; rfl

/-- A program with a shared array, in-place and copying operations. -/
def demo : List (Op Nat) :=
  [.make 0 2, .set 0 0 7, .assign 1 0, .append 0 0 (.val 8), .append 0 0 (.elem 1 0), .get 1 3,
   .slice 2 0 1 (some (-1)), .insert 2 2 1 (.val 5), .delete 0 0 0, .len 1, .get 2 1, .get 0 3]

-- a non-trivial case: the program is regular and the outputs are as computed by hand
example : RegularRun 0 (allocCap ⟨8, false⟩) false sinit demo := by
  simp [demo, RegularRun]
example : (run ⟨8, false⟩ 0 init (demo.take 11)).map (·.2) =
    .ok [.unit, .unit, .unit, .unit, .unit, .item 7, .unit, .unit, .unit, .num 3, .item 5] := by
  decide +kernel
example : (run ⟨8, false⟩ 0 init demo).map (·.2) = .error (.err .index) := by decide +kernel

/-- **C08 is false** of `insert(a, i, a[j])` with structured items, `j > i` and spare capacity:
here `a = {0, 7, 8}` and `insert(a, 0, a[2])` puts 7 in front instead of 8. -/
theorem C08_insert_alias_violated :
    ∃ (c : Cfg) (ops : List (Op Nat)),
      (run c 0 init ops).map (·.2) ≠
        ((srun 0 (allocCap c) sinit ops).map (·.2)).mapError Fault.err :=
  ⟨⟨16, true⟩, [.make 0 3, .set 0 1 7, .set 0 2 8, .insert 0 0 0 (.elem 0 2), .get 0 0],
    by decide +kernel⟩

/-- **C08 is false** of `slice(a, 0, -2147483648)`: it should be out of range, but it returns the
whole array. -/
theorem C08_slice_min_violated :
    ∃ (c : Cfg) (ops : List (Op Nat)),
      (run c 0 init ops).map (·.2) ≠
        ((srun 0 (allocCap c) sinit ops).map (·.2)).mapError Fault.err :=
  ⟨⟨8, false⟩, [.make 0 3, .slice 1 0 0 (some (-2147483648))], by decide +kernel⟩

/-- **C08, lengths.** A new array of `n` items is refused as illegal exactly if `n` is negative or
above 2147483647; it is granted whenever the items take at most 2147482623 bytes; and the capacity
that comes with it is at least `n`. -/
theorem C08_lengths (c : Cfg) (n : Int) :
    (allocCap c n = .error .length ↔ n < 0 ∨ n > 2147483647) ∧
    (0 ≤ n → n ≤ 2147483647 → n * c.itemSize ≤ 2147482623 → ∃ cap, allocCap c n = .ok cap) ∧
    (∀ cap, allocCap c n = .ok cap → n.toNat ≤ cap) := by
  refine ⟨?_, ?_, fun cap h => (allocCap_ge h).2⟩
  · unfold allocCap intMax
    by_cases h : n < 0 ∨ n > 2147483647
    · rw [if_pos h]; simp [h]
    · rw [if_neg h]
      dsimp only
      constructor
      · intro hx; split at hx <;> cases hx
      · intro hx; exact absurd hx h
  · intro h0 h1 h2
    have hsize : capacityFor c.itemSize n * c.itemSize ≤ 2147482623 := by
      unfold capacityFor intMax
      dsimp only
      by_cases hc : 2 * (n + 1) * (c.itemSize : Int) > 2147483647 - 1024
      · rw [if_pos hc]
        by_cases hl : (2147483647 - 1024) / (c.itemSize : Int) < n
        · rw [if_pos hl]; exact h2
        · rw [if_neg hl]
          have := Int.ediv_mul_le (2147483647 - 1024) (b := (c.itemSize : Int)) (by
            intro hz; rw [hz] at hc; omega)
          omega
      · rw [if_neg hc]
        split
        · omega
        · omega
    unfold allocCap intMax
    rw [if_neg (by omega)]
    dsimp only
    have hfit : chunkFits (16 + capacityFor c.itemSize n * c.itemSize) = true := by
      generalize capacityFor c.itemSize n * c.itemSize = z at hsize
      unfold chunkFits align intMax
      rw [decide_eq_true_eq]
      omega
    rw [hfit]
    exact ⟨_, rfl⟩

example : allocCap ⟨8, false⟩ 100 = .ok 202 := by decide +kernel
example : allocCap ⟨8, false⟩ (-1) = .error .length := by decide +kernel
example : allocCap ⟨8, false⟩ 268435327 = .ok 268435327 := by decide +kernel
example : allocCap ⟨8, false⟩ 2000000000 = .error .memory := by decide +kernel

/-! ## C09: in-place alteration -/

/-- **C09, invariant.** `len(a) <= cap(a)` in every reachable state. -/
theorem C09_len_le_cap (c : Cfg) (zero : α) (s : State α) (h : Reachable c zero s) (v : Nat) :
    (contents s v).length ≤ capacity s v := by
  rw [contents_eq, capacity_eq]
  exact len_le_cap h.wf _

/-- `dst = append(src, ...)` or `dst = insert(src, ...)`. -/
def Grows (dst src : Nat) : Op α → Prop
  | .append d s _ => d = dst ∧ s = src
  | .appendAll d s _ => d = dst ∧ s = src
  | .insert d s _ _ => d = dst ∧ s = src
  | _ => False

theorem items_setVar (s : SState α) (v : Nat) (a b : Arr) :
    (s.setVar v a).items b = s.items b := rfl

theorem touch_items (s : SState α) (v : Nat) (b : Arr) : (s.touch v).items b = s.items b := by
  unfold SState.touch; split <;> rfl

theorem touch_cap (s : SState α) (v : Nat) (b : Arr) : (s.touch v).cap b = s.cap b := by
  unfold SState.touch; split <;> rfl

theorem touch_vars (s : SState α) (v w : Nat) :
    (s.touch v).vars w = s.vars w ∨ (s.vars w = .null ∧ (s.touch v).vars w = .empty) := by
  unfold SState.touch
  by_cases h : s.vars v = .null
  · rw [if_pos h]
    simp only [SState.setVar]
    by_cases hw : w = v
    · rw [if_pos hw, hw]; exact Or.inr ⟨h, rfl⟩
    · rw [if_neg hw]; exact Or.inl rfl
  · rw [if_neg h]; exact Or.inl rfl

/-- The state in which an appending or inserting operation does its work: some null variables have
become empty ones. -/
def Touched (s t : SState α) : Prop :=
  t.objs = s.objs ∧ ∀ w, t.vars w = s.vars w ∨ (s.vars w = .null ∧ t.vars w = .empty)

theorem Touched.refl (s : SState α) : Touched s s := ⟨rfl, fun _ => Or.inl rfl⟩

theorem Touched.touch {s t : SState α} (h : Touched s t) (v : Nat) : Touched s (t.touch v) := by
  refine ⟨?_, ?_⟩
  · rw [← h.1]; unfold SState.touch; split <;> rfl
  · intro w
    rcases touch_vars t v w with h1 | ⟨h1, h2⟩
    · rw [h1]; exact h.2 w
    · rcases h.2 w with h3 | ⟨h3, h4⟩
      · exact Or.inr ⟨by rw [← h3, h1], h2⟩
      · rw [h4] at h1; cases h1

theorem Touched.items {s t : SState α} (h : Touched s t) (a : Arr) : t.items a = s.items a := by
  unfold SState.items; rw [h.1]

theorem Touched.cap {s t : SState α} (h : Touched s t) (a : Arr) : t.cap a = s.cap a := by
  unfold SState.cap; rw [h.1]

theorem Touched.itemsVar {s t : SState α} (h : Touched s t) (w : Nat) :
    t.items (t.vars w) = s.items (s.vars w) := by
  rw [h.items]
  rcases h.2 w with h1 | ⟨h1, h2⟩
  · rw [h1]
  · rw [h1, h2]; rfl

theorem Touched.capVar {s t : SState α} (h : Touched s t) (w : Nat) :
    t.cap (t.vars w) = s.cap (s.vars w) := by
  rw [h.cap]
  rcases h.2 w with h1 | ⟨h1, h2⟩
  · rw [h1]
  · rw [h1, h2]; rfl

/-- Every growing operation is an update of the list of `src`. -/
theorem grows_update {zero : α} {alloc : Int → Except Err Nat} {st : Bool} {s s' : SState α}
    {op : Op α} {o : Out α} {dst src : Nat} (hg : Grows dst src op)
    (h : sstep zero alloc s (actual st s op) = .ok (s', o)) :
    ∃ t l, Touched s t ∧ t.vars src ≠ .null ∧ t.update alloc dst (t.vars src) l = .ok s' := by
  have hnn : ∀ t : SState α, (t.touch src).vars src ≠ .null := by
    intro t
    unfold SState.touch
    by_cases hx : t.vars src = .null
    · rw [if_pos hx]; simp [SState.setVar]
    · rw [if_neg hx]; exact hx
  have fin : ∀ (p : Except Err (SState α)),
      (do return (← p, (.unit : Out α))) = (.ok (s', o) : Except Err (SState α × Out α)) →
      p = .ok s' := by
    intro p hp
    cases p with
    | error e => cases hp
    | ok x => rw [bind_ok, pure_eq] at hp; injection hp with hp; injection hp with h1 h2; rw [h1]
  have insCase : ∀ i item, sstep zero alloc s (.insert dst src i item) = .ok (s', o) →
      ∃ t l, Touched s t ∧ t.vars src ≠ .null ∧ t.update alloc dst (t.vars src) l = .ok s' := by
    intro i item h
    simp only [sstep] at h
    cases hx : s.src item with
    | error e => rw [hx] at h; cases h
    | ok x =>
      rw [hx, bind_ok] at h
      split at h
      · cases h
      · exact ⟨s.touch src, _, (Touched.refl s).touch src, hnn s, fin _ h⟩
  cases op with
  | append d sr item =>
    obtain ⟨rfl, rfl⟩ := hg
    simp only [actual, sstep] at h
    cases hx : s.src item with
    | error e => rw [hx] at h; cases h
    | ok x =>
      rw [hx, bind_ok] at h
      exact ⟨s.touch sr, _, (Touched.refl s).touch sr, hnn s, fin _ h⟩
  | appendAll d sr rhs =>
    obtain ⟨rfl, rfl⟩ := hg
    simp only [actual, sstep] at h
    refine ⟨(s.touch sr).touch rhs, _, ((Touched.refl s).touch sr).touch rhs, ?_, fin _ h⟩
    rcases touch_vars (s.touch sr) rhs sr with h1 | ⟨_, h2⟩
    · rw [h1]; exact hnn s
    · rw [h2]; simp
  | insert d sr i item =>
    obtain ⟨rfl, rfl⟩ := hg
    cases item with
    | val x => exact insCase i _ h
    | elem v j =>
      simp only [actual] at h
      split at h
      · exact insCase i _ h
      · exact insCase i _ h
  | _ => exact absurd hg (by simp [Grows])

theorem step_spec {c : Cfg} {zero : α} {s s' : State α} {op : Op α} {o : Out α}
    (hw : Wf s) (h : step c zero s op = .ok (s', o)) :
    Wf s' ∧ sstep zero (allocCap c) (abs s) (actual c.structured (abs s) op) = .ok (abs s', o) := by
  have := step_agree c zero hw op
  rw [h] at this
  exact this

/-- **C09, the storage suffices.** If the resulting list fits the capacity of `src`, then the
operation reuses the storage of `src`: the result is the same reference, every variable that
referred to that storage now sees the new list, and no other variable is affected. -/
theorem C09_in_place (c : Cfg) (zero : α) (s s' : State α) (h : Reachable c zero s) (op : Op α)
    (dst src : Nat) (o : Out α) (hg : Grows dst src op) (hs : step c zero s op = .ok (s', o))
    (hfit : (contents s' dst).length ≤ capacity s src) (hn : s.vars src ≠ .null) :
    s'.vars dst = s.vars src ∧
    (∀ w, s.vars w = s.vars src → contents s' w = contents s' dst) ∧
    (∀ w, w ≠ dst → s.vars w ≠ s.vars src → contents s' w = contents s w) := by
  obtain ⟨hw', hsp⟩ := step_spec h.wf hs
  obtain ⟨t, l, ht, htn, hu⟩ := grows_update hg hsp
  have hsv : t.vars src = s.vars src := by
    rcases ht.2 src with h1 | ⟨h1, _⟩
    · exact h1
    · exact absurd h1 hn
  rw [capacity_eq] at hfit
  rw [contents_eq] at hfit
  have hcap : t.cap (t.vars src) = (abs s).cap (s.vars src) := by
    have := ht.capVar src
    exact this
  -- the list fits, so the update is in place
  unfold SState.update at hu
  by_cases hl : l.length ≤ t.cap (t.vars src)
  · rw [if_pos hl] at hu
    injection hu with hu
    have hvars : ∀ w, s'.vars w = if w = dst then t.vars src else t.vars w := by
      intro w
      have e : (abs s').vars w = s'.vars w := rfl
      rw [← e, ← hu]
      simp only [SState.setVar]
      split
      · rfl
      · cases t.vars src with
        | null => rfl
        | empty => rfl
        | blk r => simp only [SState.mutate]; cases t.objs[r]? <;> rfl
    have hit : ∀ a, (abs s').items a = (t.mutate (t.vars src) l).items a := by
      intro a; rw [← hu]; rfl
    have hsame : (abs s').items (t.vars src) = l := by
      rw [hit]
      rw [hsv] at hl ⊢
      cases hr : s.vars src with
      | null => exact absurd hr hn
      | empty =>
        rw [hr] at hl
        simp only [SState.cap] at hl
        simp only [SState.items]
        exact (List.eq_nil_of_length_eq_zero (by omega)).symm
      | blk r =>
        have hlt := h.wf.vars src r hr
        have hlt' : r < t.objs.length := by rw [ht.1]; simpa [abs] using hlt
        simp only [SState.mutate, List.getElem?_eq_getElem hlt', SState.items,
          List.getElem?_set_self hlt']
    have hoth : ∀ a, a ≠ t.vars src → (abs s').items a = t.items a := by
      intro a ha
      rw [hit]
      cases hr : t.vars src with
      | null => rfl
      | empty => rfl
      | blk r =>
        simp only [SState.mutate]
        cases hob : t.objs[r]? with
        | none => rfl
        | some ob =>
          cases a with
          | null => rfl
          | empty => rfl
          | blk k =>
            have hk : r ≠ k := by
              intro e; apply ha; rw [hr, e]
            simp only [SState.items, List.getElem?_set_ne hk]
    refine ⟨?_, ?_, ?_⟩
    · rw [hvars, if_pos rfl, hsv]
    · intro w hw
      rw [contents_eq, contents_eq, hvars dst, if_pos rfl, hvars w]
      by_cases hwd : w = dst
      · rw [if_pos hwd]
      · rw [if_neg hwd]
        rcases ht.2 w with h1 | ⟨h1, _⟩
        · rw [h1, show (abs s).vars w = s.vars w from rfl, hw, ← hsv]
        · have h1 : s.vars w = .null := h1
          rw [h1] at hw; exact absurd hw.symm hn
    · intro w hwd hws
      rw [contents_eq, contents_eq, hvars w, if_neg hwd]
      by_cases hne : t.vars w = t.vars src
      · -- then both are the empty array
        rcases ht.2 w with h1 | ⟨h1, h2⟩
        · exact absurd (by rw [← hsv, ← hne, h1]; rfl) hws
        · have h1 : s.vars w = .null := h1
          rw [hne, hsame, h1]
          rw [h2] at hne
          rw [← hne] at hl
          simp only [SState.cap] at hl
          exact List.eq_nil_of_length_eq_zero (by omega)
      · rw [hoth _ hne]
        exact ht.itemsVar w
  · exfalso
    rw [if_neg hl] at hu
    unfold SState.fresh at hu
    cases hal : allocCap c l.length with
    | error e => rw [hal] at hu; cases hu
    | ok cap =>
      rw [hal] at hu
      injection hu with hu
      have e : (abs s').items (s'.vars dst) = l := by
        have e1 : s'.vars dst = (abs s').vars dst := rfl
        rw [e1, ← hu]
        simp [SState.setVar, SState.items]
      rw [e] at hfit
      rw [hcap] at hl
      exact hl hfit

/-- **C09, the storage does not suffice.** If the resulting list exceeds the capacity of `src`, then
`dst` gets storage that no other variable refers to, and every other variable keeps its list. -/
theorem C09_fresh (c : Cfg) (zero : α) (s s' : State α) (h : Reachable c zero s) (op : Op α)
    (dst src : Nat) (o : Out α) (hg : Grows dst src op) (hs : step c zero s op = .ok (s', o))
    (hfit : ¬(contents s' dst).length ≤ capacity s src) :
    (∀ w, w ≠ dst → s'.vars w ≠ s'.vars dst) ∧
    (∀ w, w ≠ dst → contents s' w = contents s w) := by
  obtain ⟨hw', hsp⟩ := step_spec h.wf hs
  obtain ⟨t, l, ht, htn, hu⟩ := grows_update hg hsp
  have hcap : t.cap (t.vars src) = capacity s src := by
    rw [capacity_eq]; exact ht.capVar src
  unfold SState.update at hu
  by_cases hl : l.length ≤ t.cap (t.vars src)
  · exfalso
    rw [if_pos hl] at hu
    injection hu with hu
    apply hfit
    have := C09_len_le_cap c zero
    -- the list is `l`, or the reference is dangling and the list is empty
    have e : (contents s' dst).length ≤ l.length := by
      rw [contents_eq]
      have e1 : s'.vars dst = (abs s').vars dst := rfl
      rw [e1, ← hu]
      simp only [SState.setVar, if_true]
      cases hr : t.vars src with
      | null => simp [SState.items]
      | empty => simp [SState.items]
      | blk r =>
        simp only [SState.mutate]
        rcases Nat.lt_or_ge r t.objs.length with hlt | hge
        · simp only [List.getElem?_eq_getElem hlt, SState.items, List.getElem?_set_self hlt]
          exact Nat.le_refl _
        · simp [List.getElem?_eq_none hge, SState.items]
    omega
  · rw [if_neg hl] at hu
    unfold SState.fresh at hu
    cases hal : allocCap c l.length with
    | error e => rw [hal] at hu; cases hu
    | ok cap =>
      rw [hal] at hu
      injection hu with hu
      have hvars : ∀ w, s'.vars w = if w = dst then .blk t.objs.length else t.vars w := by
        intro w
        have e1 : s'.vars w = (abs s').vars w := rfl
        rw [e1, ← hu]; rfl
      have hol : t.objs.length = s.blocks.length := by rw [ht.1]; simp [abs]
      have hlt : ∀ w r, t.vars w = .blk r → r < t.objs.length := by
        intro w r hr
        rcases ht.2 w with h1 | ⟨_, h2⟩
        · rw [h1] at hr; rw [hol]; exact h.wf.vars w r hr
        · rw [h2] at hr; cases hr
      refine ⟨?_, ?_⟩
      · intro w hw he
        rw [hvars w, hvars dst, if_neg hw, if_pos rfl] at he
        exact absurd (hlt w _ he) (by omega)
      · intro w hw
        rw [contents_eq, contents_eq, hvars w, if_neg hw]
        have := ht.itemsVar w
        rw [show (abs s).items (s.vars w) = (abs s).items ((abs s).vars w) from rfl, ← this, ← hu,
          items_setVar]
        cases hr : t.vars w with
        | null => rfl
        | empty => rfl
        | blk r =>
          have := hlt w r hr
          simp only [SState.items, List.getElem?_append_left this]

/-- **C09, copies.** `copy` and `slice` never share storage, and change no other variable. -/
theorem C09_copies (c : Cfg) (zero : α) (s s' : State α) (h : Reachable c zero s) (op : Op α)
    (dst : Nat) (o : Out α)
    (hop : (∃ src, op = .copy dst src) ∨ ∃ src a b, op = .slice dst src a b)
    (hs : step c zero s op = .ok (s', o)) :
    (∀ w, w ≠ dst → s'.vars dst ≠ .null → s'.vars w ≠ s'.vars dst) ∧
    (∀ w, w ≠ dst → contents s' w = contents s w) := by
  obtain ⟨hw', hsp⟩ := step_spec h.wf hs
  have fin : ∀ (p : Except Err (SState α)),
      (do return (← p, (.unit : Out α))) = (.ok (abs s', o) : Except Err (SState α × Out α)) →
      p = .ok (abs s') := by
    intro p hp
    cases p with
    | error e => cases hp
    | ok x => rw [bind_ok, pure_eq] at hp; injection hp with hp; injection hp with h1 h2; rw [h1]
  have main : ∀ (t : SState α) (l : List α), Touched (abs s) t →
      t.fresh (allocCap c) dst l = .ok (abs s') →
      (∀ w, w ≠ dst → s'.vars w ≠ s'.vars dst) ∧
      (∀ w, w ≠ dst → contents s' w = contents s w) := by
    intro t l ht hu
    unfold SState.fresh at hu
    cases hal : allocCap c l.length with
    | error e => rw [hal] at hu; cases hu
    | ok cap =>
      rw [hal] at hu
      injection hu with hu
      have hvars : ∀ w, s'.vars w = if w = dst then .blk t.objs.length else t.vars w := by
        intro w
        have e1 : s'.vars w = (abs s').vars w := rfl
        rw [e1, ← hu]; rfl
      have hol : t.objs.length = s.blocks.length := by rw [ht.1]; simp [abs]
      have hlt : ∀ w r, t.vars w = .blk r → r < t.objs.length := by
        intro w r hr
        rcases ht.2 w with h1 | ⟨_, h2⟩
        · rw [h1] at hr; rw [hol]; exact h.wf.vars w r hr
        · rw [h2] at hr; cases hr
      refine ⟨?_, ?_⟩
      · intro w hw he
        rw [hvars w, hvars dst, if_neg hw, if_pos rfl] at he
        exact absurd (hlt w _ he) (by omega)
      · intro w hw
        rw [contents_eq, contents_eq, hvars w, if_neg hw]
        have := ht.itemsVar w
        rw [show (abs s).items (s.vars w) = (abs s).items ((abs s).vars w) from rfl, ← this, ← hu,
          items_setVar]
        cases hr : t.vars w with
        | null => rfl
        | empty => rfl
        | blk r =>
          have := hlt w r hr
          simp only [SState.items, List.getElem?_append_left this]
  rcases hop with ⟨src, rfl⟩ | ⟨src, a, b, rfl⟩
  · simp only [actual, sstep] at hsp
    split at hsp
    · injection hsp with hsp
      injection hsp with h1 h2
      have hvars : ∀ w, s'.vars w = if w = dst then .null else s.vars w := by
        intro w
        have e1 : s'.vars w = (abs s').vars w := rfl
        rw [e1, ← h1]; rfl
      refine ⟨?_, ?_⟩
      · intro w _ hd
        rw [hvars dst, if_pos rfl] at hd
        exact absurd rfl hd
      · intro w hw
        rw [contents_eq, contents_eq, hvars w, if_neg hw, ← h1]; rfl
    · have := main _ _ (Touched.refl _) (fin _ hsp)
      exact ⟨fun w hw _ => this.1 w hw, this.2⟩
  · have ha : actual c.structured (abs s) (.slice dst src a b) =
        .slice dst src a (if b = some (-2147483648) then none else b) := by
      simp only [actual]; split <;> rfl
    rw [ha] at hsp
    generalize (if b = some (-2147483648) then none else b) = b' at hsp
    simp only [sstep] at hsp
    split at hsp
    · cases hsp
    · have := main _ _ ((Touched.refl _).touch src) (fin _ hsp)
      exact ⟨fun w hw _ => this.1 w hw, this.2⟩

/-- Reachability of a state described by its program. -/
theorem reachable_of_run {c : Cfg} {zero : α} {ops : List (Op α)}
    (h : ((run c zero init ops).toOption).isSome) :
    ∃ s, Reachable c zero s ∧ (run c zero init ops).map (·.1) = .ok s := by
  cases hr : run c zero init ops with
  | error e => rw [hr] at h; cases h
  | ok r => exact ⟨r.1, ⟨ops, r.2, hr⟩, rfl⟩

-- both situations arise: `make(2)` has capacity 6, so four appends fit and the fifth does not; the
-- alias (variable 1) follows the first four
example : (run ⟨8, false⟩ 0 init
    [.make 0 2, .assign 1 0, .append 0 0 (.val 1), .append 0 0 (.val 2), .append 0 0 (.val 3),
     .append 0 0 (.val 4), .len 1, .cap 1, .append 0 0 (.val 5), .len 1, .len 0, .cap 0]).map (·.2) =
    .ok [.unit, .unit, .unit, .unit, .unit, .unit, .num 6, .num 6, .unit, .num 6, .num 7, .num 16] :=
  by decide +kernel
example : ∃ s, Reachable ⟨8, false⟩ 0 s ∧ (run ⟨8, false⟩ 0 init [.make 0 2, .assign 1 0]).map (·.1)
    = .ok s := reachable_of_run (by decide +kernel)
example : Grows 0 1 (.append 0 1 (.val 5) : Op Nat) := ⟨rfl, rfl⟩

/-! ## C24: indexing dynamic arrays -/

/-- **C24 (dynamic arrays).** In every reachable state `a[i]` denotes element `i` if
`0 <= i < len(a)`, both for reading and for writing; otherwise it is a run-time error. -/
theorem C24_dynarray_index (c : Cfg) (zero : α) (s : State α) (h : Reachable c zero s) (v : Nat)
    (i : Int) (x : α) :
    (∀ hi : 0 ≤ i ∧ i < (contents s v).length,
      step c zero s (.get v i) = .ok (s, .item ((contents s v)[i.toNat]'(by omega))) ∧
      ∃ s', step c zero s (.set v i x) = .ok (s', .unit) ∧
        contents s' v = (contents s v).set i.toNat x) ∧
    (¬(0 ≤ i ∧ i < (contents s v).length) →
      ∃ e, step c zero s (.get v i) = .error (.err e) ∧
        step c zero s (.set v i x) = .error (.err e)) := by
  have hE := elem_agree h.wf v i
  have hS := step_agree c zero h.wf (.set v i x)
  constructor
  · intro hi
    have hi' := hi
    rw [contents_eq] at hi'
    cases hp : elemPtr s (s.vars v) i with
    | error f =>
      exfalso
      rw [hp] at hE
      cases f with
      | ub => exact hE
      | err e =>
        dsimp only at hE
        unfold SState.elem at hE
        by_cases hn : (abs s).vars v = .null
        · have hn' : s.vars v = .null := hn
          rw [hn'] at hi'
          simp [SState.items] at hi'
          omega
        · rw [if_neg hn] at hE
          unfold at? at hE
          rw [if_pos hi'.1] at hE
          have e1 : (abs s).items ((abs s).vars v) = (abs s).items (s.vars v) := rfl
          rw [e1, List.getElem?_eq_getElem (by omega)] at hE
          cases hE
    | ok k =>
      rw [hp] at hE
      obtain ⟨hn, h0, hk, hlt, y, hy, hrc, hrc'⟩ := hE
      constructor
      · simp only [step]
        rw [hp, bind_ok, hrc', bind_ok, pure_eq]
        have : y = (contents s v)[i.toNat]'(by omega) := by
          unfold SState.elem at hy
          rw [if_neg (show ¬(abs s).vars v = .null from hn)] at hy
          unfold at? at hy
          rw [if_pos h0] at hy
          have e1 : (abs s).items ((abs s).vars v) = contents s v := by rw [contents_eq]; rfl
          rw [e1, List.getElem?_eq_getElem (by omega)] at hy
          injection hy with hy
          exact hy.symm
        rw [this]
      · cases hst : step c zero s (.set v i x) with
        | error f =>
          exfalso
          rw [hst] at hS
          cases f with
          | ub => exact hS
          | err e =>
            have hS : sstep zero (allocCap c) (abs s) (.set v i x) = .error e := hS
            simp only [sstep] at hS
            rw [hy, bind_ok] at hS
            cases hS
        | ok r =>
          obtain ⟨s', o⟩ := r
          rw [hst] at hS
          obtain ⟨hw, hS⟩ := hS
          simp only [actual, sstep] at hS
          rw [hy, bind_ok, pure_eq] at hS
          injection hS with hS
          injection hS with h1 h2
          refine ⟨s', by rw [← h2], ?_⟩
          have hv : s'.vars v = s.vars v := by
            have e1 : s'.vars v = (abs s').vars v := rfl
            rw [e1, ← h1]
            cases (abs s).vars v with
            | null => rfl
            | empty => rfl
            | blk r => simp only [SState.mutate]; cases (abs s).objs[r]? <;> rfl
          rw [contents_eq, contents_eq, hv, ← h1]
          have ha := h.wf.vars v
          have e1 : (abs s).vars v = s.vars v := rfl
          rw [e1]
          cases hr : s.vars v with
          | null => exact absurd hr hn
          | empty => rw [hr] at hlt; simp [SState.items] at hlt
          | blk r =>
            have hrl := ha r hr
            have hrl' : r < (abs s).objs.length := by simpa [abs] using hrl
            simp only [SState.mutate, List.getElem?_eq_getElem hrl', SState.items,
              List.getElem?_set_self hrl']
  · intro hi
    cases hp : elemPtr s (s.vars v) i with
    | error f =>
      rw [hp] at hE
      cases f with
      | ub => exact hE.elim
      | err e =>
        refine ⟨e, ?_, ?_⟩
        · simp only [step]; rw [hp]; rfl
        · simp only [step]; rw [hp]; rfl
    | ok k =>
      exfalso
      rw [hp] at hE
      obtain ⟨hn, h0, hk, hlt, _⟩ := hE
      apply hi
      rw [contents_eq]
      omega

example : (run ⟨8, false⟩ 0 init [.make 0 2, .set 0 1 4, .get 0 1]).map (·.2) =
    .ok [.unit, .unit, .item 4] := by decide +kernel
example : (run ⟨8, false⟩ 0 init [.make 0 2, .get 0 4294967296]).map (·.2) =
    .error (.err .index) := by decide +kernel

end Umka.DynArr.Props
