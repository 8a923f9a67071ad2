import Verif.RefCnt.Ops

/-!
# Reference counting: properties
-/

namespace Umka.RefCnt.Props
open Umka.RefCnt

deriving instance DecidableEq for Except

/-! ## C20 -/

theorem init_inv {T : Types} {A : Nat → Prop} {stack : Chunk} (hs : Start A stack) (mem : Nat → Nat) :
    InvP T A (init stack mem) [] := by
  have htidy : Tidy T A (init stack mem) := by
    refine ⟨by simp [init], ?_, ?_, ?_, ?_, by simp [init], by simp [init], by simp [init], hs.null⟩
    · intro i hi _; simp [init] at hi; exact hi
    · intro i hi p hp
      simp only [Heap.owns, init, Bool.and_eq_true] at hp
      exact hs.heap p (of_decide_eq_true hp.1) (of_decide_eq_true hp.2)
    · intro i j hi hj hij; simp [init] at hi hj; omega
    · intro i hi _; simp [init, Chunk.Roomy]
  have ho := htidy.main_owner
  refine ⟨htidy, ⟨?_, ?_⟩, ?_, by simp⟩
  · intro r hr
    have hr : r = ⟨stack.addr, .stack⟩ := by simpa [varRefs, init] using hr
    subst hr
    have ho : (init stack mem).heap.owner stack.addr = some 0 := ho
    refine ⟨by simp, fun _ => by simp only [ho]; simp, ?_⟩
    simp only [ho]
    simp [Compat, init]
  · intro d hd _ r hr
    simp [chunkRefs, init] at hr
  · intro c hc _
    have hc : c = 0 := by simp [init] at hc; exact hc
    subst hc
    have ho : (init stack mem).heap.owner stack.addr = some 0 := ho
    have hv : varRefs T (init stack mem).heap (init stack mem).vars = [⟨stack.addr, .stack⟩] := by
      simp [varRefs, init]
    simp only [total, hv, cnt_cons, ho, cnt_nil]
    simp [sumTo, init, chunkRefs]

theorem run_inv {T : Types} {A : Nat → Prop} (hW : T.WF) {s s' : State} {ops : List Op} (hr : Run T A s ops s')
    (hI : InvP T A s []) : InvP T A s' [] := by
  induction hr with
  | nil => exact hI
  | @cons s s' s'' op ops n hv he _ ih =>
    apply ih
    obtain ⟨m, hm⟩ := safe_op hW hI hv
    have det : ∀ {r r'}, exec T n s op = some r → exec T m s op = some r' → r = r' := exec_det
    rcases hm with hm | ⟨s1, hm, hI1⟩
    · have := det he hm; simp at this
    · have := det he hm; simp only [Except.ok.injEq] at this; subst this; exact hI1
where
  exec_det {T : Types} {s : State} {op : Op} {n m : Nat} {r r' : Except Err State}
      (h1 : exec T n s op = some r) (h2 : exec T m s op = some r') : r = r' := by
    have refCnt_det : ∀ {tok h p t} {x y : Except Err Heap}, refCnt T tok n h p t = some x → refCnt T tok m h p t = some y → x = y := by
      intro tok h p t x y hx hy
      rcases Nat.le_total n m with h | h
      · have := refCnt_le hx h; rw [hy] at this; exact (Option.some.inj this).symm
      · have := refCnt_le hy h; rw [hx] at this; exact Option.some.inj this
    have then_det : ∀ {tok h p t} {f g : Heap → Option (Except Err State)} {r r' : Except Err State},
        (∀ h r r', f h = some r → g h = some r' → r = r') →
        thenOk (refCnt T tok n h p t) f = some r → thenOk (refCnt T tok m h p t) g = some r' → r = r' := by
      intro tok h p t f g r r' hfg h1 h2
      cases hx : refCnt T tok n h p t with
      | none => simp [hx, thenOk] at h1
      | some x =>
        cases hy : refCnt T tok m h p t with
        | none => simp [hy, thenOk] at h2
        | some y =>
          have := refCnt_det hx hy; subst this
          rw [hx] at h1; rw [hy] at h2
          cases x with
          | error e => simp only [thenOk] at h1 h2; rw [h1] at h2; exact Option.some.inj h2
          | ok h' => exact hfg h' _ _ h1 h2
    have same : ∀ {f : Heap → Option (Except Err State)}, ∀ h r r', f h = some r → f h = some r' → r = r' := by
      intro f h r r' h1 h2; rw [h1] at h2; exact Option.some.inj h2
    cases op with
    | declare v => simp only [exec] at h1 h2; rw [h1] at h2; exact Option.some.inj h2
    | finish i => simp only [exec] at h1 h2; rw [h1] at h2; exact Option.some.inj h2
    | write a v => simp only [exec] at h1 h2; rw [h1] at h2; exact Option.some.inj h2
    | release k =>
      simp only [exec] at h1 h2
      cases hk : s.vars[k]? with
      | none => simp only [hk] at h1 h2; rw [h1] at h2; exact Option.some.inj h2
      | some v => simp only [hk] at h1 h2; exact then_det same h1 h2
    | alloc r a sz l => simp only [exec] at h1 h2; exact then_det same h1 h2
    | fiber a b c l => simp only [exec] at h1 h2; exact then_det same h1 h2
    | assign l r t sz =>
      simp only [exec] at h1 h2
      exact then_det (fun h r r' a b => then_det same a b) h1 h2

/-- **C20.**  After any sequence of operations of a program — variables entering and leaving scope, allocation of
values, arrays, strings and fibers, assignment between variables and parts of objects of any type — the reference
count of every object is the number of references to it from variables and from live objects, and no variable and
no live object holds a dangling reference.

Partial: operations are those of `Op`, and valid in the sense of `Op.Valid`; in particular a location that is
assigned to must belong to an object that is still in use (`C20_stale_target_violated`), and pointers of type
`^void` are restricted (`C20_void_pointer_violated`). -/
theorem C20_counts_exact_partial {T : Types} (hW : T.WF) {A : Nat → Prop} {stack : Chunk} (hs : Start A stack)
    {mem : Nat → Nat} {ops : List Op} {s : State} (hr : Run T A (init stack mem) ops s) :
    Exact T s ∧ Typed T A s := by
  have := run_inv hW hr (init_inv hs mem)
  exact ⟨fun c hc h => by simpa using this.exact c hc h, this.typed⟩

/-- **C20.**  Every valid operation ends, and the only error is that a fiber is destroyed that is still running:
there are no dangling pointers and no wrong reference counts. -/
theorem C20_no_errors_partial {T : Types} (hW : T.WF) {A : Nat → Prop} {stack : Chunk} (hs : Start A stack)
    {mem : Nat → Nat} {ops : List Op} {s : State} (hr : Run T A (init stack mem) ops s) {op : Op}
    (hv : op.Valid T A s) :
    ∃ n, exec T n s op = some (.error .busyFiber) ∨ ∃ s', exec T n s op = some (.ok s') := by
  obtain ⟨n, h | ⟨s', h, -⟩⟩ := safe_op hW (run_inv hW hr (init_inv hs mem)) hv
  · exact ⟨n, .inl h⟩
  · exact ⟨n, .inr ⟨s', h⟩⟩

/-- **C20.**  What is reachable from variables is alive. -/
theorem C20_reachable_alive_partial {T : Types} (hW : T.WF) {A : Nat → Prop} {stack : Chunk} (hs : Start A stack)
    {mem : Nat → Nat} {ops : List Op} {s : State} (hr : Run T A (init stack mem) ops s) {r : Ref}
    (h : r ∈ varRefs T s.heap s.vars ∨ ∃ d, s.Reach T d ∧ r ∈ chunkRefs T s.heap.mem (s.heap.chunk d)) :
    (¬ A r.p) ∨ ∃ c, c < s.heap.num ∧ 0 < s.heap.rc c ∧ s.heap.owns c r.p := by
  have hI := run_inv hW hr (init_inv hs mem)
  have hf : Fits T A s.heap r := by
    rcases h with h | ⟨d, hd, h⟩
    · exact hI.typed.vars r h
    · obtain ⟨h1, h2⟩ := reach_live hd
      exact hI.typed.objects d h1 h2 r h
  have := hf.2.2
  cases ho : s.heap.owner r.p with
  | none => rw [ho] at this; exact .inl this
  | some c => exact .inr ⟨c, owner_some ho⟩

/-- One live object refers to another. -/
def Points (T : Types) (s : State) (d c : Nat) : Prop :=
  d < s.heap.num ∧ 0 < s.heap.rc d ∧ ∃ r ∈ chunkRefs T s.heap.mem (s.heap.chunk d), s.heap.owner r.p = some c

/-- **C20.**  Without cycles, memory does not leak: when the objects can be ordered so that references lead
forward, every live object is reachable from variables. -/
theorem C20_no_leaks_partial {T : Types} (hW : T.WF) {A : Nat → Prop} {stack : Chunk} (hs : Start A stack)
    {mem : Nat → Nat} {ops : List Op} {s : State} (hr : Run T A (init stack mem) ops s)
    {rank : Nat → Nat} (hrank : ∀ d c, Points T s d c → rank d < rank c) {c : Nat}
    (hc : c < s.heap.num) (hl : 0 < s.heap.rc c) : s.Reach T c := by
  have hI := run_inv hW hr (init_inv hs mem)
  have key : ∀ k c, rank c = k → c < s.heap.num → 0 < s.heap.rc c → s.Reach T c := by
    intro k
    induction k using Nat.strongRecOn with
    | _ k ih =>
      intro c hk hc hl
      have he := hI.exact c hc hl
      rw [cnt_nil, Nat.add_zero] at he
      simp only [total] at he
      by_cases hv : 0 < cnt s.heap.owner c (varRefs T s.heap s.vars)
      · obtain ⟨r, hr, ho⟩ := exists_of_cnt hv
        exact .root hr ho
      · have hp : 0 < sumTo s.heap.num fun d =>
            if 0 < s.heap.rc d then cnt s.heap.owner c (chunkRefs T s.heap.mem (s.heap.chunk d)) else 0 := by omega
        obtain ⟨d, hd, hpos⟩ := sumTo_pos hp
        by_cases hrd : 0 < s.heap.rc d
        · rw [if_pos hrd] at hpos
          obtain ⟨r, hr, ho⟩ := exists_of_cnt hpos
          have := hrank d c ⟨hd, hrd, r, hr, ho⟩
          exact .step (ih (rank d) (by omega) d rfl hd hrd) hr ho
        · rw [if_neg hrd] at hpos; omega
  exact key _ c rfl hc hl

/-! ## A sample program -/

/-- Executes operations without checking that they are valid. -/
def runOps (T : Types) (n : Nat) : State → List Op → Option (Except Err State)
  | s, [] => some (.ok s)
  | s, op :: ops =>
    match exec T n s op with
    | some (.ok s) => runOps T n s ops
    | r => r

/-- `type Node = struct {next: ^Node; name: str; items: []^Node}` (0), `^Node` (1), `[]^Node` (2), `str` (3),
and types that are not counted (4 and above; `int`, `void`). -/
def T : Types where
  ty
    | 0 => .struct (.cons 0 8 (.ptr 0) (.cons 8 8 .str (.cons 16 24 (.dynarray 1) .nil)))
    | 1 => .ptr 0
    | 2 => .dynarray 1
    | 3 => .str
    | _ => .plain
  size
    | 0 => 40
    | 2 => 24
    | _ => 8

theorem T_wf : T.WF
  | 0 => by simp [T, Ty.WF, Fields.WF]
  | 1 => by simp [T, Ty.WF]
  | 2 => by simp [T, Ty.WF]
  | 3 => by simp [T, Ty.WF]
  | n + 4 => by simp [T, Ty.WF]

def A (p : Nat) : Prop := 1000 ≤ p

def stack : Chunk := ⟨1000, 500, .stack⟩

theorem start : Start A stack := ⟨fun p h _ => h, by simp [A]⟩

/-- `a, b: ^Node`, on the stack. -/
def varA : Var := ⟨1100, .ptr 0, 8⟩
def varB : Var := ⟨1108, .ptr 0, 8⟩

def sample : List Op :=
  [.declare varA, .declare varB,                      -- var a, b: ^Node
   .alloc (.value 0) 2000 40 1100,                    -- a = new(Node)
   .alloc .str 2100 20 2008,                          -- a.name = "..."
   .alloc (.items 1 2) 2200 32 2016,                  -- a.items = make([]^Node, 2)
   .alloc (.value 0) 2300 40 1108,                    -- b = new(Node)
   .assign 2224 2300 (.ptr 0) 8,                      -- a.items[1] = b
   .assign 2300 2000 (.ptr 0) 8,                      -- b.next = a      (a cycle)
   .assign 2300 0 (.ptr 0) 8,                         -- b.next = null
   .release 0, .release 0]                            -- b, then a leave their scope

/-- The state after the first `k` operations. -/
def st (k : Nat) : State :=
  match runOps T 30 (init stack fun _ => 0) (sample.take k) with
  | some (.ok s) => s
  | _ => init stack fun _ => 0

instance (a n b m : Nat) : Decidable (Apart a n b m) := by unfold Apart; infer_instance

theorem fits_some {h : Heap} {r : Ref} {c : Nat} (ho : h.owner r.p = some c) (hk : r.kind ≠ .other)
    (hc : Compat T (h.chunk c) r) : Fits T A h r := by
  refine ⟨fun h => absurd h hk, fun _ => by rw [ho]; simp, ?_⟩
  rw [ho]; exact hc

theorem fits_null {h : Heap} {b : Nat} (ho : h.owner 0 = none) : Fits T A h ⟨0, .ptr b⟩ := by
  refine ⟨by simp, by simp, ?_⟩
  show match h.owner 0 with | none => _ | some c => _
  rw [ho]; simp [A]

theorem free_of {s : State} {a n : Nat} (h1 : 1000 ≤ a)
    (h2 : ∀ i, i < s.heap.num → 0 < s.heap.rc i → Apart a (n + 1) (s.heap.chunk i).addr ((s.heap.chunk i).size + 1))
    (h3 : ∀ v ∈ s.vars, Apart a (n + 1) v.addr v.size) : Free A s a n :=
  ⟨fun _ hp _ => Nat.le_trans h1 hp, h2, h3⟩

theorem valid_0 : Op.Valid T A (st 0) (.declare varA) :=
  ⟨by simp [varA, Ty.WF], by decide +kernel, by decide +kernel⟩

theorem valid_1 : Op.Valid T A (st 1) (.declare varB) :=
  ⟨by simp [varB, Ty.WF], by decide +kernel, by decide +kernel⟩

theorem valid_2 : Op.Valid T A (st 2) (.alloc (.value 0) 2000 40 1100) :=
  ⟨free_of (by decide) (by decide +kernel) (by decide +kernel),
    ⟨8, none, .var (v := varA) (o := 0) (by simp [st, sample, runOps, exec]) .here, by simp⟩, by simp [T]⟩

theorem reach_1 {k : Nat} (h1 : (⟨2000, .ptr 0⟩ : Ref) ∈ varRefs T (st k).heap (st k).vars)
    (h2 : (st k).heap.owner 2000 = some 1) : (st k).Reach T 1 := .root h1 h2

theorem valid_3 : Op.Valid T A (st 3) (.alloc .str 2100 20 2008) :=
  ⟨free_of (by decide) (by decide +kernel) (by decide +kernel),
    ⟨8, some 1, .value (s := st 3) (i := 1) (n := 0) (o := 8 + 0) (by decide +kernel) (by decide +kernel) (by decide +kernel)
      (.field (.there .here) .here), by
        intro c hc; cases hc; exact reach_1 (by decide +kernel) (by decide +kernel)⟩, by decide⟩

theorem valid_4 : Op.Valid T A (st 4) (.alloc (.items 1 2) 2200 32 2016) :=
  ⟨free_of (by decide) (by decide +kernel) (by decide +kernel),
    ⟨24, some 1, .value (s := st 4) (i := 1) (n := 0) (o := 16 + 0) (by decide +kernel) (by decide +kernel) (by decide +kernel)
      (.field (.there (.there .here)) .here), by
        intro c hc; cases hc; exact reach_1 (by decide +kernel) (by decide +kernel)⟩, by decide⟩

theorem valid_5 : Op.Valid T A (st 5) (.alloc (.value 0) 2300 40 1108) :=
  ⟨free_of (by decide) (by decide +kernel) (by decide +kernel),
    ⟨8, none, .var (v := varB) (o := 0) (show varB ∈ (st 5).vars by rw [show (st 5).vars = [varB, varA] from rfl]; simp) .here, by simp⟩, by simp [T]⟩

theorem valid_6 : Op.Valid T A (st 6) (.assign 2224 2300 (.ptr 0) 8) :=
  ⟨⟨some 3, .item (i := 3) (n := 1) (j := 1) (o := 0) (by decide +kernel) (by decide +kernel) (by decide +kernel) (by decide +kernel)
      .here, by
        intro c hc; cases hc
        exact .step (d := 1) (r := ⟨2216, .items 1⟩) (reach_1 (by decide +kernel) (by decide +kernel))
          (by decide +kernel) (by decide +kernel)⟩, by
    intro r hr
    simp only [valRefs, List.mem_singleton] at hr
    subst hr
    exact fits_some (c := 4) (by decide +kernel) (by simp) (.inl rfl)⟩

theorem reach_4 {k : Nat} (h1 : (⟨2300, .ptr 0⟩ : Ref) ∈ varRefs T (st k).heap (st k).vars)
    (h2 : (st k).heap.owner 2300 = some 4) : (st k).Reach T 4 := .root h1 h2

theorem valid_7 : Op.Valid T A (st 7) (.assign 2300 2000 (.ptr 0) 8) :=
  ⟨⟨some 4, .value (i := 4) (n := 0) (o := 0 + 0) (by decide +kernel) (by decide +kernel) (by decide +kernel)
      (.field .here .here), by
        intro c hc; cases hc; exact reach_4 (by decide +kernel) (by decide +kernel)⟩, by
    intro r hr
    simp only [valRefs, List.mem_singleton] at hr
    subst hr
    exact fits_some (c := 1) (by decide +kernel) (by simp) (.inl rfl)⟩

theorem valid_8 : Op.Valid T A (st 8) (.assign 2300 0 (.ptr 0) 8) :=
  ⟨⟨some 4, .value (i := 4) (n := 0) (o := 0 + 0) (by decide +kernel) (by decide +kernel) (by decide +kernel)
      (.field .here .here), by
        intro c hc; cases hc; exact reach_4 (by decide +kernel) (by decide +kernel)⟩, by
    intro r hr
    simp only [valRefs, List.mem_singleton] at hr
    subst hr
    exact fits_null (by decide +kernel)⟩

theorem valid_9 : Op.Valid T A (st 9) (.release 0) := show 0 < (st 9).vars.length by decide +kernel

theorem valid_10 : Op.Valid T A (st 10) (.release 0) := show 0 < (st 10).vars.length by decide +kernel

theorem run_of {n : Nat} : ∀ {ops : List Op} {s s' : State}, runOps T n s ops = some (.ok s') →
    (∀ k op, ops[k]? = some op → ∀ sk, runOps T n s (ops.take k) = some (.ok sk) → op.Valid T A sk) → Run T A s ops s'
  | [], s, s', h, _ => by simp only [runOps, Option.some.injEq, Except.ok.injEq] at h; subst h; exact .nil
  | op :: ops, s, s', h, hv => by
    simp only [runOps] at h
    cases he : exec T n s op with
    | none => simp [he] at h
    | some r =>
      cases r with
      | error e => simp [he] at h
      | ok s1 =>
        simp only [he] at h
        refine .cons (hv 0 op rfl s rfl) he (run_of h fun k op' ho sk hk => hv (k + 1) op' ho sk ?_)
        simp only [List.take_succ_cons, runOps, he]; exact hk

theorem st_eq {k : Nat} {s : State} (h : runOps T 30 (init stack fun _ => 0) (sample.take k) = some (.ok s)) : st k = s := by
  simp only [st, h]

theorem st_run : ∀ k, k ≤ 11 → runOps T 30 (init stack fun _ => 0) (sample.take k) = some (.ok (st k))
  | 0, _ | 1, _ | 2, _ | 3, _ | 4, _ | 5, _ | 6, _ | 7, _ | 8, _ | 9, _ | 10, _ | 11, _ => rfl
  | n + 12, h => by omega

/-- The sample program is a run: two nodes, a string and an array, with a cycle that is removed again. -/
theorem sample_run {n : Nat} (hn : n ≤ 11) : Run T A (init stack fun _ => 0) (sample.take n) (st n) := by
  refine run_of (st_run n hn) ?_
  intro k op ho sk hk
  have hkn : k < n := by
    have := (List.getElem?_eq_some_iff.mp ho).1
    simp only [List.length_take] at this; omega
  rw [List.take_take, Nat.min_eq_left (Nat.le_of_lt hkn)] at hk
  rw [List.getElem?_take_of_lt hkn] at ho
  have := st_eq hk; subst this
  match k, ho with
  | 0, ho => cases ho; exact valid_0
  | 1, ho => cases ho; exact valid_1
  | 2, ho => cases ho; exact valid_2
  | 3, ho => cases ho; exact valid_3
  | 4, ho => cases ho; exact valid_4
  | 5, ho => cases ho; exact valid_5
  | 6, ho => cases ho; exact valid_6
  | 7, ho => cases ho; exact valid_7
  | 8, ho => cases ho; exact valid_8
  | 9, ho => cases ho; exact valid_9
  | 10, ho => cases ho; exact valid_10
  | k + 11, ho => simp [sample] at ho

/-- The counts while it runs: the second node is first held by `b` and by the array, and `a` by the cycle; when
both variables are gone, so are all objects. -/
example : [7, 8, 9, 10, 11].map (fun k => (List.range 5).map (st k).heap.rc) =
    [[1, 1, 1, 1, 2], [1, 2, 1, 1, 2], [1, 1, 1, 1, 2], [1, 1, 1, 1, 1], [1, 0, 0, 0, 0]] := by decide +kernel

example : Exact T (st 8) ∧ Typed T A (st 8) := C20_counts_exact_partial T_wf start (sample_run (by decide))

example : ∃ n, exec T n (st 8) (.assign 2300 0 (.ptr 0) 8) = some (.error .busyFiber) ∨
    ∃ s', exec T n (st 8) (.assign 2300 0 (.ptr 0) 8) = some (.ok s') :=
  C20_no_errors_partial T_wf start (sample_run (by decide)) valid_8

/-- `a.items[1]`, reached through the array. -/
example : (¬ A 2300) ∨ ∃ c, c < (st 10).heap.num ∧ 0 < (st 10).heap.rc c ∧ (st 10).heap.owns c 2300 :=
  C20_reachable_alive_partial T_wf start (sample_run (n := 10) (by decide)) (r := ⟨2300, .ptr 0⟩) <| .inr
    ⟨3, .step (d := 1) (r := ⟨2216, .items 1⟩) (reach_1 (by decide +kernel) (by decide +kernel))
      (by decide +kernel) (by decide +kernel), by decide +kernel⟩

/-- Without the cycle, the objects are ordered: `a`, its string and its array, `b`. -/
theorem sample_rank (d c : Nat) (h : Points T (st 9) d c) :
    (fun i => [0, 1, 2, 2, 3].getD i 0) d < (fun i => [0, 1, 2, 2, 3].getD i 0) c := by
  obtain ⟨hd, hl, r, hr, ho⟩ := h
  have key : ∀ d < (st 9).heap.num, 0 < (st 9).heap.rc d → ∀ r ∈ chunkRefs T (st 9).heap.mem ((st 9).heap.chunk d),
      ((st 9).heap.owner r.p).all fun c => decide ([0, 1, 2, 2, 3].getD d 0 < [0, 1, 2, 2, 3].getD c 0) := by
    decide +kernel
  have := key d hd hl r hr
  rw [ho] at this
  simpa using this

example : (st 9).Reach T 4 :=
  C20_no_leaks_partial T_wf start (sample_run (n := 9) (by decide)) sample_rank (by decide +kernel) (by decide +kernel)

/-! ## Where the counts go wrong -/

/-- **C20.**  Memory leaks through `^void`.  `p := new(str); p^ = "..."; q := ^void(p)`: when `p` leaves its scope
first, the last reference to the string's holder is of type `^void`, whose base is not counted, so that the
string is not released together with its holder (`umka_vm.c:1283-1289`). -/
def voidOps : List Op :=
  [.declare ⟨1100, .ptr 3, 8⟩, .declare ⟨1108, .ptr 4, 8⟩,  -- var p: ^str; var q: ^void
   .alloc (.value 3) 2000 8 1100,                           -- p = new(str)
   .alloc .str 2100 20 2000,                                -- p^ = "..."
   .assign 1108 2000 (.ptr 4) 8,                            -- q = p
   .release 1, .release 0]

theorem C20_void_pointer_violated :
    ∃ s, runOps T 30 (init stack fun _ => 0) voidOps = some (.ok s) ∧ s.vars.length = 0 ∧ s.heap.rc 1 = 0 ∧
      s.heap.rc 2 = 1 ∧ total T s 2 = 0 := by
  refine ⟨_, rfl, ?_⟩
  decide +kernel

/-- **C20.**  The target of an assignment is computed before the right-hand side (`umka_stmt.c:193-216`), and it is
not counted as a reference.  `p.next = f()`, where `f` sets `p` to `null`: the object is destroyed, and its old
`next` is released with it; then the assignment releases the old `next` again, which here is still held by `q`,
so that `q` is left dangling. -/
def staleOps : List Op :=
  [.declare varA, .declare varB,                       -- var p, q: ^Node
   .alloc (.value 0) 2000 40 1100,                     -- p = new(Node)
   .alloc (.value 0) 2100 40 1108,                     -- q = new(Node)
   .assign 2000 2100 (.ptr 0) 8,                       -- p.next = q
   .assign 1100 0 (.ptr 0) 8,                          -- in f: p = null; return null
   .assign 2000 0 (.ptr 0) 8]                          -- the assignment, to &p.next as it was

theorem C20_stale_target_violated :
    ∃ s, runOps T 30 (init stack fun _ => 0) staleOps = some (.ok s) ∧ s.heap.mem 1108 = 2100 ∧
      s.heap.owns 2 2100 ∧ s.heap.rc 2 = 0 ∧ s.heap.find 2100 = .error .dangling := by
  refine ⟨_, rfl, ?_⟩
  decide +kernel

/-- **C20.**  Cycles leak: the sample program without `b.next = null`. -/
theorem C20_cycle_leaks :
    ∃ s, runOps T 30 (init stack fun _ => 0) (sample.take 8 ++ [.release 0, .release 0]) = some (.ok s) ∧
      s.vars.length = 0 ∧ (List.range 5).map s.heap.rc = [1, 1, 1, 1, 1] := by
  refine ⟨_, rfl, ?_⟩
  decide +kernel

end Umka.RefCnt.Props
