import Verif.Str.Sim
/-! # Strings: property C10 and the string part of C24 -/

namespace Umka.Str.Props
open Umka.Str Umka.Str.Spec

/-! ## Observations on states -/

/-- The bytes of string variable `v`: the first `len` cells of its buffer. -/
def contents (s : State) (v : Nat) : List Nat :=
  match s.vars v with
  | .blk r => match s.blocks[r]? with
    | some b => b.cells.take b.len
    | none => []
  | _ => []

/-- `cap(v)`. -/
def capacity (s : State) (v : Nat) : Nat :=
  match s.vars v with
  | .blk r => match s.blocks[r]? with
    | some b => b.cap
    | none => 0
  | .empty => 1
  | .null => 0

/-- A state reached by a program that never concatenates 2147483647 bytes or more. -/
def Reachable (s : State) : Prop :=
  ∃ ops outs, RegularRun allocN sinit ops ∧ run init ops = .ok (s, outs)

theorem contents_eq (s : State) (v : Nat) : contents s v = (abs s).bytes (s.vars v) := by
  unfold contents SState.bytes
  cases s.vars v with
  | null => rfl
  | empty => rfl
  | blk r => simp only [abs, List.getElem?_map]; cases s.blocks[r]? <;> rfl

theorem capacity_eq (s : State) (v : Nat) : capacity s v = (abs s).cap (s.vars v) := by
  unfold capacity SState.cap
  cases s.vars v with
  | null => rfl
  | empty => rfl
  | blk r => simp only [abs, List.getElem?_map]; cases s.blocks[r]? <;> rfl

theorem Reachable.wf {s : State} (h : Reachable s) : Wf s := by
  obtain ⟨ops, outs, hreg, hr⟩ := h
  have := run_agree wf_init ops hreg
  rw [hr] at this
  exact this.1

/-! ## C10: strings are byte lists -/

/-- **C10.** Every program that avoids the exceptional cases (concatenations beyond the range of
`int`, and the end index -2147483648 in `slice`) observes exactly what the byte list specification
says: the same outputs or the same run-time error; and the implementation never reads or writes
outside its buffers. -/
theorem C10_strings_partial (ops : List Op) (hreg : RegularRun allocN sinit ops) :
    (run init ops).map (·.2) = ((srun allocN sinit ops).map (·.2)).mapError Fault.err := by
  have h := run_agree wf_init ops hreg
  have hi : abs init = sinit := rfl
  rw [hi] at h
  cases hr : run init ops with
  | ok r => rw [hr] at h; obtain ⟨s, o⟩ := r; rw [h.2]; rfl
  | error f =>
    rw [hr] at h
    cases f with
    | ub => exact h.elim
    | err e => dsimp only at h; rw [h]; rfl

/-- A program with sharing, in-place and copying `+=`, slices and conversions. -/
def demo : List Op :=
  [.lit 0 [104, 105], .plus 1 0 0, .assign 2 1, .plusEq 1 0, .toChars 2, .len 2, .cap 2,
   .slice 3 2 1 (some (-1)), .toChars 3, .copy 4 3, .plusEq 4 4, .toChars 4, .toChars 3,
   .fromChars 5 (some [65, 66, 0, 67]), .toChars 5, .get 5 1, .fromChar 6 0, .len 6, .get 5 2]

example : (run init (demo.take 18)).map (·.2) =
    .ok [.unit, .unit, .unit, .unit, .bytes [104, 105, 104, 105, 104, 105], .num 6, .num 10, .unit,
      .bytes [105, 104, 105, 104], .unit, .unit, .bytes [105, 104, 105, 104, 105, 104, 105, 104],
      .bytes [105, 104, 105, 104], .unit, .bytes [65, 66], .byte 66, .unit, .num 0] := by
  decide +kernel
example : (run init demo).map (·.2) = .error (.err .index) := by decide +kernel
-- a regular program
example : RegularRun allocN sinit [.lit 0 [104, 105], .plus 1 0 0, .plusEq 1 0, .len 1] := by
  refine ⟨by simp [Irregular], ?_⟩
  intro s o h
  have h : (Except.ok (SState.setVar ⟨[⟨[104, 105], 3⟩], fun _ => .null⟩ 0 (.blk 0), .unit) :
    Except Err (SState × Out)) = .ok (s, o) := h
  injection h with h; injection h with h _; subst h
  refine ⟨by simp [Irregular, SState.setVar, SState.bytes], ?_⟩
  intro s o h
  have h : (Except.ok (SState.setVar ⟨[⟨[104, 105], 3⟩, ⟨[104, 105, 104, 105], 10⟩], _⟩ 1 (.blk 1),
    .unit) : Except Err (SState × Out)) = .ok (s, o) := h
  injection h with h; injection h with h _; subst h
  refine ⟨by simp [Irregular, SState.setVar, SState.bytes], fun s o _ => ⟨by simp [Irregular], ?_⟩⟩
  intros; trivial

/-- **C10, no interior zeros.** -/
theorem C10_no_interior_nul (s : State) (h : Reachable s) (v : Nat) : 0 ∉ contents s v := by
  rw [contents_eq]
  exact bytes_nonzero h.wf (h.wf.vars v)

/-- Which new strings can be had: a string of `n` bytes is granted whenever `n ≤ 2147482623`, with
room for the terminator below that bound. -/
theorem C10_allocation (n : Nat) (hn : n ≤ 2147482623) :
    ∃ cap, allocN n = .ok cap ∧ n ≤ cap ∧ (n < 2147482623 → n + 1 ≤ cap) := by
  unfold allocN allocCap
  dsimp only
  have hb : capacityFor n ≤ 2147482623 ∧ (n : Int) ≤ capacityFor n ∧
      (n < 2147482623 → (n : Int) + 1 ≤ capacityFor n) := by
    unfold capacityFor intMax
    dsimp only
    split <;> split <;> omega
  generalize capacityFor (n : Int) = z at *
  have hfit : chunkFits (16 + z) = true := by
    unfold chunkFits align intMax
    rw [decide_eq_true_eq]
    omega
  rw [hfit]
  exact ⟨_, rfl, by omega, by omega⟩

theorem allocN_room {n cap : Nat} (h : allocN n = .ok cap) : n + 1 ≤ cap ∨ n ≥ 2147482623 := by
  by_cases hn : n < 2147482623
  · obtain ⟨c, hc, _, h2⟩ := C10_allocation n (by omega)
    rw [hc] at h
    injection h with h
    exact Or.inl (h ▸ h2 hn)
  · exact Or.inr (by omega)

/-- Every object has room for its terminator, unless it is huge. -/
def Room (s : SState) : Prop :=
  ∀ o ∈ s.objs, o.bytes.length + 1 ≤ o.cap ∨ o.bytes.length ≥ 2147482623

theorem fresh_room {s s' : SState} {dst : Nat} {l : List Nat} (h : Room s)
    (hs : s.fresh allocN dst l = .ok s') : Room s' := by
  unfold SState.fresh at hs
  cases ha : allocN l.length with
  | error e => rw [ha] at hs; cases hs
  | ok cap =>
    rw [ha] at hs
    injection hs with hs
    subst hs
    intro o ho
    rcases List.mem_append.1 ho with ho | ho
    · exact h o ho
    · rw [List.mem_singleton.1 ho]; exact allocN_room ha

theorem mutate_room {s : SState} {a : Ref} {l : List Nat} (h : Room s)
    (hl : l.length < s.cap a) : Room (s.mutate a l) := by
  cases a with
  | null => exact h
  | empty => exact h
  | blk r =>
    simp only [SState.mutate]
    cases hr : s.objs[r]? with
    | none => exact h
    | some ob =>
      intro o ho
      rcases List.mem_or_eq_of_mem_set ho with ho | ho
      · exact h o ho
      · subst ho
        simp only [SState.cap, hr] at hl
        exact Or.inl hl

theorem sstep_room {s s' : SState} {op : Op} {o : Out} (h : Room s)
    (hs : sstep allocN s op = .ok (s', o)) : Room s' := by
  have fin : ∀ p : Except Err SState, (∀ t, p = .ok t → Room t) →
      (do return (← p, Out.unit)) = (.ok (s', o) : Except Err (SState × Out)) → Room s' := by
    intro p hp he
    cases p with
    | error e => cases he
    | ok t =>
      rw [bind_ok, pure_eq] at he
      injection he with he; injection he with he _
      rw [← he]; exact hp t rfl
  have same : ∀ v a (x : Out), (.ok (s.setVar v a, x) : Except Err (SState × Out)) = .ok (s', o) →
      Room s' := by
    intro v a x he
    injection he with he; injection he with he _
    rw [← he]; exact h
  have keep : ∀ x : Out, (.ok (s, x) : Except Err (SState × Out)) = .ok (s', o) → Room s' := by
    intro x he
    injection he with he; injection he with he _
    rw [← he]; exact h
  cases op with
  | lit dst l =>
    simp only [sstep] at hs
    split at hs
    · cases hs
    · injection hs with hs; injection hs with hs _
      subst hs
      intro o ho
      rcases List.mem_append.1 ho with ho | ho
      · exact h o ho
      · rw [List.mem_singleton.1 ho]; exact Or.inl (Nat.le_refl _)
  | assign dst src => exact same _ _ _ hs
  | plus dst a b => exact fin _ (fun t ht => fresh_room h ht) hs
  | plusEq a b =>
    simp only [sstep] at hs
    split at hs
    · next hlt =>
      injection hs with hs; injection hs with hs _
      subst hs
      exact mutate_room h (by simpa using hlt)
    · exact fin _ (fun t ht => fresh_room h ht) hs
  | slice dst src start stop =>
    simp only [sstep] at hs
    split at hs
    · cases hs
    · exact fin _ (fun t ht => fresh_room h ht) hs
  | copy dst src =>
    simp only [sstep] at hs
    split at hs
    · exact same _ _ _ hs
    · exact fin _ (fun t ht => fresh_room h ht) hs
  | len src => exact keep _ hs
  | cap src => exact keep _ hs
  | get src i =>
    simp only [sstep] at hs
    split at hs
    · split at hs
      · exact keep _ hs
      · cases hs
    · cases hs
  | toChars src => exact keep _ hs
  | fromChars dst l =>
    cases l with
    | none => exact same _ _ _ hs
    | some l => exact fin _ (fun t ht => fresh_room h ht) hs
  | fromChar dst ch =>
    simp only [sstep] at hs
    split at hs
    · exact same _ _ _ hs
    · exact fin _ (fun t ht => fresh_room h ht) hs

theorem srun_room {s s' : SState} {ops : List Op} {os : List Out} (h : Room s)
    (hs : srun allocN s ops = .ok (s', os)) : Room s' := by
  induction ops generalizing s os with
  | nil => simp only [srun] at hs; injection hs with hs; injection hs with hs _; rw [← hs]; exact h
  | cons op ops ih =>
    simp only [srun] at hs
    cases h1 : sstep allocN s op with
    | error e => rw [h1] at hs; cases hs
    | ok r =>
      obtain ⟨t, o⟩ := r
      rw [h1, bind_ok] at hs
      dsimp only at hs
      cases h2 : srun allocN t ops with
      | error e => rw [h2] at hs; cases hs
      | ok r =>
        obtain ⟨t', os'⟩ := r
        rw [h2, bind_ok, pure_eq] at hs
        injection hs with hs; injection hs with hs _
        dsimp only at hs
        subst hs
        exact ih (sstep_room h h1) h2

/-- **C10, room for the terminator.** `len(s) + 1 <= cap(s)` for every non-null string shorter than
2147482623 bytes.  (For longer ones it fails, see `C10_capacity_violated`.) -/
theorem C10_capacity_partial (s : State) (h : Reachable s) (v : Nat) (hn : s.vars v ≠ .null)
    (hlen : (contents s v).length < 2147482623) :
    (contents s v).length + 1 ≤ capacity s v := by
  have hw := h.wf
  obtain ⟨ops, outs, hreg, hr⟩ := h
  have ha := run_agree wf_init ops hreg
  rw [hr] at ha
  have hroom : Room (abs s) := srun_room (s := sinit) (by intro o ho; cases ho) ha.2
  rw [contents_eq] at hlen ⊢
  rw [capacity_eq]
  cases hv : s.vars v with
  | null => exact absurd hv hn
  | empty => simp [SState.bytes, SState.cap]
  | blk r =>
    rw [hv] at hlen
    have hlt : r < (abs s).objs.length := by
      have := hw.vars v r hv
      simpa [abs] using this
    simp only [SState.bytes, SState.cap, List.getElem?_eq_getElem hlt] at hlen ⊢
    rcases hroom _ (List.getElem_mem hlt) with h1 | h1
    · exact h1
    · omega

example : ∃ s, Reachable s ∧ s.vars 0 ≠ .null ∧ contents s 0 = [104, 105] := by
  refine ⟨(State.setVar ⟨[⟨2, 3, [104, 105, 0]⟩], fun _ => .null⟩ 0 (.blk 0)),
    ⟨[.lit 0 [104, 105]], [.unit], ⟨by simp [Irregular], fun _ _ _ => trivial⟩, rfl⟩, ?_, rfl⟩
  simp [State.setVar]

/-! ## Where C10 fails -/

theorem ones (n : Nat) : ∃ L : List Nat, L.takeWhile (· ≠ 0) = L ∧ L.length = n := by
  induction n with
  | zero => exact ⟨[], rfl, rfl⟩
  | succ n ih =>
    obtain ⟨L, h1, h2⟩ := ih
    refine ⟨1 :: L, ?_, by rw [List.length_cons, h2]⟩
    rw [List.takeWhile_cons, if_pos (by decide), h1]

/-- A string of 2147482623 bytes gets a capacity equal to its length: the terminator is written to
the byte after the reported capacity. -/
theorem C10_capacity_violated :
    ∃ s, Reachable s ∧ s.vars 0 ≠ .null ∧ capacity s 0 = (contents s 0).length := by
  obtain ⟨L, htw, hlen⟩ : ∃ L : List Nat, L.takeWhile (· ≠ 0) = L ∧ L.length = 2147482623 :=
    ones 2147482623
  have hal : allocN 2147482623 = .ok 2147482623 := by
    unfold allocN allocCap
    dsimp only
    have e : capacityFor ((2147482623 : Nat) : Int) = 2147482623 := by
      unfold capacityFor intMax; dsimp only; omega
    rw [e]
    have : chunkFits (16 + 2147482623) = true := by
      unfold chunkFits align intMax
      rw [decide_eq_true_eq]
      omega
    rw [this]; rfl
  have hreg : RegularRun allocN sinit [.fromChars 0 (some L)] :=
    ⟨by simp [Irregular], fun _ _ _ => trivial⟩
  have hag := run_agree wf_init [.fromChars 0 (some L)] hreg
  have hsp : srun allocN sinit [.fromChars 0 (some L)] =
      .ok (SState.setVar ⟨[⟨L, 2147482623⟩], fun _ => .null⟩ 0 (.blk 0), [.unit]) := by
    simp only [srun, sstep, SState.fresh, htw, hlen, hal]
    rfl
  rw [show abs init = sinit from rfl, hsp] at hag
  cases hr : run init [.fromChars 0 (some L)] with
  | error f =>
    rw [hr] at hag
    cases f with
    | ub => exact hag.elim
    | err e => cases hag
  | ok r =>
    obtain ⟨s, os⟩ := r
    rw [hr] at hag
    obtain ⟨_, hag⟩ := hag
    injection hag with hag; injection hag with hag _
    have hv : s.vars 0 = .blk 0 := by
      have := congrArg SState.vars hag
      have := congrFun this 0
      exact this.symm
    refine ⟨s, ⟨_, os, hreg, hr⟩, by rw [hv]; simp, ?_⟩
    rw [contents_eq, capacity_eq, hv, ← hag]
    simp only [SState.setVar, SState.bytes, SState.cap, List.getElem?_cons_zero]
    exact hlen.symm

/-- `slice(s, 0, -2147483648)` should be out of range, but it returns the whole string. -/
theorem C10_slice_min_violated :
    ∃ ops : List Op, (run init ops).map (·.2) ≠
      ((srun allocN sinit ops).map (·.2)).mapError Fault.err :=
  ⟨[.lit 0 [104, 105], .slice 1 0 0 (some (-2147483648))], by decide +kernel⟩

/-- Doubling a string whose length leaves room for it. -/
theorem double_ok {s : State} (h : Wf s)
    (hl : ((abs s).bytes (s.vars 0)).length ≤ 536870912) :
    ∃ s', step s (.plus 0 0 0) = .ok (s', .unit) ∧ Wf s' ∧ s'.vars 0 ≠ .null ∧
      ((abs s').bytes (s'.vars 0)).length = 2 * ((abs s).bytes (s.vars 0)).length := by
  have hs := step_agree h (.plus 0 0 0) (by
    simp only [Irregular]
    rw [show (abs s).vars 0 = s.vars 0 from rfl]
    omega)
  have hv : (abs s).vars 0 = s.vars 0 := rfl
  simp only [sstep, hv] at hs
  generalize hL : (abs s).bytes (s.vars 0) = L at *
  have hlen : (L ++ L).length = 2 * L.length := by rw [List.length_append]; omega
  obtain ⟨cap, hc, _⟩ := C10_allocation (L ++ L).length (by omega)
  simp only [SState.fresh, hc, bind_ok, pure_eq] at hs
  cases hr : step s (.plus 0 0 0) with
  | error f =>
    rw [hr] at hs
    cases f with
    | ub => exact hs.elim
    | err e => cases hs
  | ok r =>
    obtain ⟨s', o⟩ := r
    rw [hr] at hs
    obtain ⟨hw, hs⟩ := hs
    injection hs with hs
    injection hs with hs ho
    have hv' : s'.vars 0 = .blk (abs s).objs.length := by
      have := congrFun (congrArg SState.vars hs) 0
      exact this.symm
    refine ⟨s', by rw [← ho], hw, by rw [hv']; simp, ?_⟩
    rw [hv', ← hs]
    simp [SState.setVar, SState.bytes]
    omega

/-- After `k ≤ 30` doublings. -/
theorem doublings {s : State} (k : Nat) (hk : k ≤ 30) (h : Wf s) (hn : s.vars 0 ≠ .null)
    (hl : ((abs s).bytes (s.vars 0)).length * 2 ^ k ≤ 1073741824) :
    ∃ s' outs, run s (List.replicate k (.plus 0 0 0)) = .ok (s', outs) ∧ Wf s' ∧
      s'.vars 0 ≠ .null ∧
      ((abs s').bytes (s'.vars 0)).length = ((abs s).bytes (s.vars 0)).length * 2 ^ k := by
  induction k generalizing s with
  | zero => exact ⟨s, [], rfl, h, hn, by omega⟩
  | succ k ih =>
    have hp : 2 ^ (k + 1) = 2 ^ k * 2 := Nat.pow_succ ..
    have h1 : 1 ≤ 2 ^ k := Nat.one_le_two_pow
    have hl2 : ((abs s).bytes (s.vars 0)).length ≤ 536870912 := by
      rw [hp] at hl
      generalize ((abs s).bytes (s.vars 0)).length = n at *
      have : n * (1 * 2) ≤ n * (2 ^ k * 2) := Nat.mul_le_mul_left _ (by omega)
      omega
    obtain ⟨t, ht, hwt, hnt, hlt⟩ := double_ok h hl2
    have e : ((abs t).bytes (t.vars 0)).length * 2 ^ k =
        ((abs s).bytes (s.vars 0)).length * 2 ^ (k + 1) := by
      rw [hlt, hp, Nat.mul_comm 2, Nat.mul_assoc, Nat.mul_comm 2]
    obtain ⟨s', outs, hr, hw, hns, hls⟩ := ih (by omega) hwt hnt (by rw [e]; exact hl)
    refine ⟨s', .unit :: outs, ?_, hw, hns, by rw [hls, e]⟩
    simp only [List.replicate_succ, run]
    rw [ht, bind_ok]
    dsimp only
    rw [hr]
    rfl

theorem run_append (s : State) (xs ys : List Op) :
    run s (xs ++ ys) = (do
      let (s, os) ← run s xs
      let (s, ps) ← run s ys
      return (s, os ++ ps)) := by
  induction xs generalizing s with
  | nil =>
    simp only [List.nil_append, run, bind_ok]
    cases run s ys <;> rfl
  | cons x xs ih =>
    simp only [List.cons_append, run]
    cases step s x with
    | error e => rfl
    | ok r =>
      simp only [bind_ok]
      rw [ih]
      cases run r.1 xs with
      | error e => rfl
      | ok q =>
        simp only [bind_ok, pure_eq]
        cases run q.1 ys <;> rfl

/-- **C10 is false** of long strings: double a one-byte string thirty times, then use `+=` (or `+`)
once more.  The sum of the lengths overflows `int`, which is undefined behaviour; the specification
asks for a string of 2147483648 bytes or a memory error. -/
theorem C10_overflow_violated (op : Op) (hop : op = .plusEq 0 0 ∨ op = .plus 0 0 0) :
    run init (.lit 0 [97] :: List.replicate 30 (.plus 0 0 0) ++ [op]) = .error .ub := by
  let s0 : State := State.setVar ⟨[⟨1, 2, [97, 0]⟩], fun _ => .null⟩ 0 (.blk 0)
  have hstep : step init (.lit 0 [97]) = .ok (s0, .unit) := rfl
  have hw0 : Wf s0 := by
    have := step_agree wf_init (.lit 0 [97]) (by simp [Irregular])
    rw [hstep] at this
    exact this.1
  have hb0 : (abs s0).bytes (s0.vars 0) = [97] := rfl
  obtain ⟨s, outs, hr, hw, hn, hl⟩ := doublings 30 (Nat.le_refl _) hw0
    (by show Ref.blk 0 ≠ Ref.null; simp) (by rw [hb0]; decide)
  rw [hb0] at hl
  have hl : ((abs s).bytes (s.vars 0)).length = 1073741824 := by
    rw [hl]; decide
  have hz : nonNull (s.vars 0) = s.vars 0 := by
    cases hv : s.vars 0 with
    | null => exact absurd hv hn
    | _ => rfl
  have hconc : ∀ eq, concat eq s (s.vars 0) (s.vars 0) = .error .ub := by
    intro eq
    unfold concat
    dsimp only
    rw [hz, getLen_ok hw (hw.vars 0) hn, bind_ok, bind_ok, getCap_ok hw (hw.vars 0) hn, bind_ok,
      hl, if_pos (by unfold intMax; omega)]
  rw [run_append]
  simp only [run]
  rw [hstep, bind_ok]
  dsimp only
  rw [hr, bind_ok, pure_eq, bind_ok]
  dsimp only
  have : step s op = .error .ub := by
    rcases hop with rfl | rfl
    · simp only [step]; rw [hconc]; rfl
    · simp only [step]; rw [hconc]; rfl
  rw [this]
  rfl

/-! ## C24: string indexing -/

/-- **C24, strings.** In every reachable state and for every index, `v[i]` is byte `i` if
`0 <= i < len(v)`, and an index error otherwise; never undefined behaviour. -/
theorem C24_string_index (s : State) (h : Reachable s) (v : Nat) (i : Int) :
    step s (.get v i) =
      if 0 ≤ i ∧ i < (contents s v).length then .ok (s, .byte ((contents s v).getD i.toNat 0))
      else .error (.err .index) := by
  have := index_agree h.wf (h.wf.vars v) i
  rw [← contents_eq] at this
  simp only [step]
  cases hp : index s (s.vars v) i with
  | error f =>
    rw [hp] at this
    cases f with
    | ub => exact this.elim
    | err e =>
      obtain ⟨rfl, hx⟩ := this
      rw [if_neg hx]; rfl
  | ok x =>
    rw [hp] at this
    have hlt : i.toNat < (contents s v).length := by
      rcases Nat.lt_or_ge i.toNat (contents s v).length with hh | hh
      · exact hh
      · rw [List.getElem?_eq_none hh] at this; cases this.2
    rw [if_pos ⟨this.1, by omega⟩, bind_ok, List.getD_eq_getElem?_getD, this.2]
    rfl

end Umka.Str.Props
