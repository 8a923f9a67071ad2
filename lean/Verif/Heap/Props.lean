import Verif.Heap.Trace

/-!
# Heap: properties

`Spec.ValidRun` collects what is assumed of the environment: `malloc` answers unused memory and the
program uses pointers into memory it was given (live or already released).
-/

namespace Umka.Heap.Props

open Umka.Heap.Spec (Block State upd Step Reach Alive Dies delta flags ValidRun)

instance (h : Heap) (op : Op) : Decidable (Spec.Valid h op) := by
  cases op <;> unfold Spec.Valid <;> (try unfold Spec.MallocOk) <;> (try unfold Spec.PtrOk) <;>
    infer_instance

instance decValid : (h : Heap) → (ops : List Op) → Decidable (ValidRun h ops)
  | _, [] => isTrue trivial
  | h, op :: ops => @instDecidableAnd _ _ inferInstance (decValid (step h op).2 ops)

/-- A history for the examples: two blocks, references, a weak pointer, the death of the first block,
and a use of the weak pointer. -/
def sample : List Op :=
  [.alloc 100 true false 4096, .incref 4140, .alloc 2000 false false 2000000, .write 4136 7,
   .weaken 4140, .decref 4136 [], .decref 4140 [], .strengthen (2 ^ 63 + 2 ^ 32 + 44), .memUsage]

def start : Heap := init (fun _ => ⟨0, 0, false, false, 0⟩) (fun _ => 255)

example : ValidRun start sample := by decide +kernel

/-- The answers to the sample history. -/
example : outs start sample =
    [.addr 4136, .unit, .addr 2000040, .unit, .addr (2 ^ 63 + 2 ^ 32 + 44), .unit, .unit, .addr 0,
     .num 2097088] := by decide +kernel

/-! ## C16 -/

/-- C16: whatever a program does with the heap, it gets the answers of an ideal heap, in which
allocation gives an aligned zero-filled block that shares no byte with any live block and leaves the
contents of live blocks alone (`Spec.Step`).  The memory the program sees at the end is that of the
ideal heap, and no two live blocks overlap. -/
theorem C16_heap_refines_ideal (hdr : Nat → Chunk) (mem : Nat → Nat) (ops : List Op)
    (hv : ValidRun (init hdr mem) ops) :
    ∃ t, Reach (Spec.init mem) ops (outs (init hdr mem) ops) t ∧
      (final (init hdr mem) ops).mem = t.mem ∧ t.Disjoint := by
  obtain ⟨t, h1, h2⟩ := run_sim (init_sim hdr mem) ops hv
  exact ⟨t, h1, h2.mem.symm, ((WF.init mem).reach h1).disj⟩

/-- C16 in terms of answers alone: a block handed out at `a` is disjoint from every block handed out
later, as long as it is referenced, and its bytes stay zero unless the program writes to them. -/
theorem C16_live_block_untouched (hdr : Nat → Chunk) (mem : Nat → Nat) (pre ops : List Op) (size : Int)
    (f st : Bool) (ad a : Nat)
    (hv : ValidRun (init hdr mem) (pre ++ .alloc size f st ad :: ops))
    (ha : (step (final (init hdr mem) pre) (.alloc size f st ad)).1 = .addr a)
    (hal : Alive a size.toNat 1 ops) :
    (∀ k, k ≤ size.toNat → (∀ v, Op.write (a + k) v ∉ ops) →
      (final (init hdr mem) (pre ++ .alloc size f st ad :: ops)).mem (a + k) = 0) ∧
    (∀ (i : Nat) (sz : Int) (f' st' : Bool) (ad' a' : Nat), ops[i]? = some (.alloc sz f' st' ad') →
      (outs (step (final (init hdr mem) pre) (.alloc size f st ad)).2 ops)[i]? = some (.addr a') →
      a' + sz.toNat < a ∨ a + size.toNat < a') := by
  obtain ⟨hv1, hv2, hv3⟩ := validRun_append hv
  obtain ⟨s, h1, h2⟩ := run_sim (init_sim hdr mem) pre hv1
  obtain ⟨s1, h3, h4⟩ := step_sim h2 (.alloc size f st ad) hv2
  obtain ⟨t, h5, h6⟩ := run_sim h4 ops hv3
  have hw := (WF.init mem).reach h1
  have hw1 := hw.step h3
  rw [ha] at h3
  rcases h3 with ⟨_, h, _⟩ | ⟨_, _, a', e, _, _, _, _, hlive, _, hz, _⟩
  · cases h
  · cases e
    have hb : s1.live s.next = some ⟨a, size.toNat, 1, f, st⟩ := by rw [hlive]; simp [upd]
    obtain ⟨_, g2, g3⟩ := alive_reach hw1 hb hal h5
    refine ⟨?_, g3⟩
    intro k hk hnw
    rw [final_append, final, ← h6.mem, g2 (a + k) ⟨Nat.le_add_right _ _, Nat.add_le_add_left hk _⟩ hnw]
    exact hz k hk

example : ValidRun start ([] ++ .alloc 100 true false 4096 :: sample.tail) ∧
    (step (final start []) (.alloc 100 true false 4096)).1 = .addr 4136 ∧
    Alive 4136 100 1 (sample.tail.take 5) := by
  refine ⟨by decide +kernel, by decide +kernel, ?_⟩
  simp [sample, Alive, delta]

/-! ## C17 -/

/-- C17: after any history, the reference count of every page is the sum of the counts of its blocks,
and it is positive: a page is released exactly when its last block dies. -/
theorem C17_page_count_is_sum (hdr : Nat → Chunk) (mem : Nat → Nat) (ops : List Op)
    (hv : ValidRun (init hdr mem) ops) :
    ∀ p ∈ (final (init hdr mem) ops).first,
      0 < p.refCnt ∧
      p.refCnt = ((List.range p.numOcc).map fun i =>
        ((final (init hdr mem) ops).hdr (p.chunkAddr i)).refCnt).sum := by
  obtain ⟨t, _, h2⟩ := run_sim (init_sim hdr mem) ops hv
  intro p hp
  refine ⟨h2.pos p hp, ?_⟩
  rw [h2.inv.cnt p hp]
  generalize p.numOcc = n
  induction n with
  | zero => rfl
  | succ n ih => rw [List.range_succ, List.map_append, List.sum_append, ← ih]; simp [sumTo]; rfl

/-- C17: a block lives exactly as long as it has references.  A block is handed out with one reference;
if later every prefix of the history leaves it at least one, pointers to it keep being accepted
as references to it; once the last one is dropped, its memory belongs to no live block of that number
any more.  Stated on the ideal heap that the real one refines. -/
theorem C17_block_lives_while_referenced (hdr : Nat → Chunk) (mem : Nat → Nat) (pre ops : List Op)
    (size : Int) (f st : Bool) (ad a : Nat)
    (hv : ValidRun (init hdr mem) (pre ++ .alloc size f st ad :: ops))
    (ha : (step (final (init hdr mem) pre) (.alloc size f st ad)).1 = .addr a) :
    ∃ (n : Nat) (t : State), Reach (Spec.init mem) (pre ++ .alloc size f st ad :: ops)
        (outs (init hdr mem) (pre ++ .alloc size f st ad :: ops)) t ∧
      (Alive a size.toNat 1 ops →
        t.live n = some ⟨a, size.toNat, 1 + (ops.map (delta a size.toNat)).sum, f, st⟩) ∧
      (Dies a size.toNat 1 ops → t.live n = none) := by
  obtain ⟨hv1, hv2, hv3⟩ := validRun_append hv
  obtain ⟨s, h1, h2⟩ := run_sim (init_sim hdr mem) pre hv1
  obtain ⟨s1, h3, h4⟩ := step_sim h2 (.alloc size f st ad) hv2
  obtain ⟨t, h5, h6⟩ := run_sim h4 ops hv3
  have hw := (WF.init mem).reach h1
  have hw1 := hw.step h3
  refine ⟨s.next, t, ?_, ?_⟩
  · rw [outs_append]
    have : ∀ (s0 : State) (xs ys : List Op) (os us : List Out), Reach s0 xs os s →
        Reach s ys us t → Reach s0 (xs ++ ys) (os ++ us) t := by
      intro s0 xs
      induction xs generalizing s0 with
      | nil =>
        intro ys os us h h'
        cases os with
        | nil => have h : s0 = s := h; subst h; exact h'
        | cons _ _ => exact h.elim
      | cons x xs ih =>
        intro ys os us h h'
        cases os with
        | nil => exact h.elim
        | cons o os =>
          obtain ⟨s', g1, g2⟩ := h
          exact ⟨s', g1, ih s' ys os us g2 h'⟩
    exact this _ _ _ _ _ h1 ⟨s1, h3, h5⟩
  · rw [ha] at h3
    rcases h3 with ⟨_, h, _⟩ | ⟨_, _, a', e, _, _, _, _, hlive, _, hz, _⟩
    · cases h
    · cases e
      have hb : s1.live s.next = some ⟨a, size.toNat, 1, f, st⟩ := by rw [hlive]; simp [upd]
      exact ⟨fun hal => alive_count hw1 hb hal h5, fun hd => dies_reach hw1 hb hd h5⟩

example : Alive 4136 100 1 (sample.tail.take 5) := by simp [sample, Alive, delta]
example : Dies 4136 100 1 sample.tail := by simp [sample, Dies, delta]

/-- C17, use after release: in every reachable state, using a pointer into a page in use whose block
is dead is reported as an error. -/
theorem C17_dangling_detected (hdr : Nat → Chunk) (mem : Nat → Nat) (ops : List Op)
    (hv : ValidRun (init hdr mem) ops) (p : Page) (hp : p ∈ (final (init hdr mem) ops).first) (ptr : Nat)
    (hin : p.addr ≤ ptr ∧ ptr < p.addr + p.numChunks * p.chunkSize)
    (hdead : ((final (init hdr mem) ops).hdr (pageGetChunk p ptr)).refCnt ≤ 0) (temps : List Nat) :
    (step (final (init hdr mem) ops) (.incref ptr)).1 = .error .dangling ∧
    (step (final (init hdr mem) ops) (.decref ptr temps)).1 = .error .dangling ∧
    (step (final (init hdr mem) ops) (.weaken ptr)).1 = .error .dangling := by
  obtain ⟨t, _, h2⟩ := run_sim (init_sim hdr mem) ops hv
  have hhas : p.has ptr = true := (Page.has_iff p ptr).2 hin
  have := pageFind_some h2.inv hp hhas
  rw [if_pos hdead] at this
  simp only [step, refCnt, weaken, this, and_self]

/-- Such a state: two blocks in a page, the first one released. -/
example : ∃ p ∈ (final start [.alloc 100 false false 4096, .alloc 100 false false 0, .decref 4136 []]).first,
    p.addr ≤ 4136 ∧ 4136 < p.addr + p.numChunks * p.chunkSize ∧
    ((final start [.alloc 100 false false 4096, .alloc 100 false false 0,
      .decref 4136 []]).hdr (pageGetChunk p 4136)).refCnt ≤ 0 := by
  decide +kernel

/-! ## C18 -/

/-- C18: a weak pointer made from a pointer to a block gives that pointer back as long as the block
has references, and null ever after its last reference is dropped, however the memory is reused. -/
theorem C18_weak_pointer (hdr : Nat → Chunk) (mem : Nat → Nat) (pre ops1 ops2 : List Op)
    (size : Int) (f st : Bool) (ad a ptr w : Nat) (o : Out)
    (hv : ValidRun (init hdr mem)
      (pre ++ .alloc size f st ad :: (ops1 ++ .weaken ptr :: (ops2 ++ [.strengthen w]))))
    (h1 : step (final (init hdr mem) pre) (.alloc size f st ad) = (.addr a, h1'))
    (hptr : a ≤ ptr ∧ ptr ≤ a + size.toNat)
    (hlive : Alive a size.toNat 1 ops1)
    (h2 : step (final h1' ops1) (.weaken ptr) = (.addr w, h2'))
    (h3 : (step (final h2' ops2) (.strengthen w)).1 = o) :
    (Alive a size.toNat 1 (ops1 ++ ops2) → o = .addr ptr) ∧
    (Dies a size.toNat 1 (ops1 ++ ops2) → o = .addr 0) := by
  obtain ⟨hv1, hva, hv2⟩ := validRun_append hv
  rw [h1] at hv2
  obtain ⟨hv3, hv4, hv5⟩ := validRun_append hv2
  rw [h2] at hv5
  obtain ⟨hv6, hv7, _⟩ := validRun_append hv5
  obtain ⟨s, r1, m1⟩ := run_sim (init_sim hdr mem) pre hv1
  obtain ⟨s1, r2, m2⟩ := step_sim m1 (.alloc size f st ad) hva
  rw [h1] at r2 m2
  obtain ⟨s2, r3, m3⟩ := run_sim m2 ops1 hv3
  obtain ⟨s3, r4, m4⟩ := step_sim m3 (.weaken ptr) hv4
  rw [h2] at r4 m4
  obtain ⟨s4, r5, m5⟩ := run_sim m4 ops2 hv6
  obtain ⟨s5, r6, m6⟩ := step_sim m5 (.strengthen w) hv7
  rw [h3] at r6
  have hw := (WF.init mem).reach r1
  have hw1 := hw.step r2
  have hw2 := hw1.reach r3
  have hw3 := hw2.step r4
  rcases r2 with ⟨_, h, _⟩ | ⟨_, _, a', e, _, _, _, _, hl, _, hz, _⟩
  · cases h
  cases e
  have hb : s1.live s.next = some ⟨a, size.toNat, 1, f, st⟩ := by rw [hl]; simp [upd]
  have hb2 := alive_count hw1 hb hlive r3
  generalize hc : (⟨a, size.toNat, 1, f, st⟩ : Block).count +
    (ops1.map (delta a size.toNat)).sum = c at hb2
  have hb3 : s3.live s.next = some ⟨a, size.toNat, c, f, st⟩ ∧ s3.weak w = some (s.next, ptr) := by
    rcases r4 with ⟨n, b, ho, h⟩ | ⟨hno, _⟩
    · obtain ⟨e1, e2⟩ := hw2.unique ho ⟨hb2, hptr⟩
      subst e1
      split at h
      · cases h.1
      · obtain ⟨w', e, _, _, _, rfl⟩ := h
        cases e
        exact ⟨hb2, by simp [upd]⟩
    · exact absurd ⟨_, _, hb2, hptr⟩ hno
  have hw5 := weak_reach hb3.2 r5
  have ho := r6.2.1 _ _ hw5
  have hc' : c = 1 + (ops1.map (delta a size.toNat)).sum := hc.symm
  have hsplit : ∀ c0 xs ys, Alive a size.toNat c0 xs → Dies a size.toNat c0 (xs ++ ys) →
      Dies a size.toNat (c0 + (xs.map (delta a size.toNat)).sum) ys := by
    intro c0 xs
    induction xs generalizing c0 with
    | nil => intro ys _ h; simpa using h
    | cons x xs ih =>
      rintro ys ⟨g1, g2⟩ (g | ⟨_, g⟩)
      · omega
      · have := ih _ ys g2 g
        simpa [Int.add_assoc] using this
  constructor
  · intro hall
    have := (alive_append hall).2
    rw [← hc'] at this
    have := alive_count hw3 hb3.1 this r5
    rw [ho, this]
    rfl
  · intro hd
    have := hsplit 1 ops1 ops2 hlive hd
    rw [← hc'] at this
    have := dies_reach hw3 hb3.1 this r5
    rw [ho, this]
    rfl

/-- The sample history is of this form, with a block that dies. -/
example : ValidRun start ([] ++ .alloc 100 true false 4096 ::
      ([.incref 4140] ++ .weaken 4140 :: ([.decref 4136 [], .decref 4140 []] ++
        [.strengthen (2 ^ 63 + 2 ^ 32 + 44)]))) ∧
    (step start (.alloc 100 true false 4096)).1 = .addr 4136 ∧
    (step (final start [.alloc 100 true false 4096, .incref 4140]) (.weaken 4140)).1 =
      .addr (2 ^ 63 + 2 ^ 32 + 44) ∧
    Dies 4136 100 1 [.incref 4140, .decref 4136 [], .decref 4140 []] := by
  refine ⟨by decide +kernel, by decide +kernel, by decide +kernel, ?_⟩
  simp [Dies, delta]

/-! ## C19 -/

/-- The bytes the heap holds: the sizes of all pages obtained from `malloc` and not given back. -/
def held (h : Heap) : Int := ((h.first ++ h.recycled ++ h.blacklisted).map fun p => (p.cap : Int)).sum

/-- A history after which `memusage()` answers more than the heap holds: a large page is released,
reused for a smaller one, released again and at last given back to `malloc`, when only the smaller
size is subtracted. -/
def driftOps : List Op :=
  [.alloc 4000000 false false 4096, .decref 4136 [], .alloc 100 false false 8, .decref 4136 [],
   .alloc 8000000 false false 8192, .memUsage]

/-- C19 does not hold: after this history `memusage()` answers 2951552 bytes too much. -/
theorem C19_memusage_violated : ValidRun start driftOps ∧
    (outs start driftOps).getLast? = some (.num (held (final start driftOps) + 2951552)) := by
  decide +kernel

/-- C19, what does hold: `memusage()` never answers less than the heap holds.  Missing: equality, which
fails (`C19_memusage_violated`). -/
theorem C19_memusage_partial (hdr : Nat → Chunk) (mem : Nat → Nat) (ops : List Op)
    (hv : ValidRun (init hdr mem) ops) (n : Int)
    (hn : (step (final (init hdr mem) ops) .memUsage).1 = .num n) :
    held (final (init hdr mem) ops) ≤ n := by
  obtain ⟨t, _, h2⟩ := run_sim (init_sim hdr mem) ops hv
  cases hn
  have := h2.inv.total
  unfold held
  have e : ∀ l : List Page, (l.map fun p => (p.cap : Int)).sum = (l.map fun p => (p.cap : Int)).sum :=
    fun _ => rfl
  simp only [Heap.all, List.map_append, List.sum_append] at this ⊢
  omega

/-! ## C55 -/

/-- C55: the deallocator of every block that was allocated with one is called exactly once: when the
block dies, or when the heap is freed at the end.  The numbers in the call log are those of the
successful allocations, in order. -/
theorem C55_deallocator_exactly_once (hdr : Nat → Chunk) (mem : Nat → Nat) (ops : List Op)
    (hv : ValidRun (init hdr mem) ops) :
    ((final (init hdr mem) ops).freed ++ freeAll (final (init hdr mem) ops)).Nodup ∧
    ∀ n, n ∈ (final (init hdr mem) ops).freed ++ freeAll (final (init hdr mem) ops) ↔
      (flags ops (outs (init hdr mem) ops))[n]? = some true := by
  obtain ⟨t, h1, h2⟩ := run_sim (init_sim hdr mem) ops hv
  have hf := FreedOk.reach (WF.init mem) (FreedOk.init mem) h1
  rw [List.nil_append] at hf
  constructor
  · rw [List.nodup_append]
    refine ⟨by rw [← h2.freed]; exact hf.nodup, freeAll_nodup h2.inv, ?_⟩
    rintro x hx y hy rfl
    rw [← h2.freed] at hx
    obtain ⟨b, hb, _⟩ := (freeAll_mem h2 x).1 hy
    rw [hf.gone x hx] at hb
    cases hb
  · intro n
    rw [List.mem_append, freeAll_mem h2, ← h2.freed, hf.iff]

example : flags (sample.take 3) (outs start (sample.take 3)) = [true, false] := by decide +kernel
example : (final start sample).freed = [0] := by decide +kernel

/-! ## C56 -/

/-- C56: an operation puts a page up for reuse only if no stack slot it looked at points into it. -/
theorem C56_recycled_not_referenced (h : Heap) (ptr : Nat) (temps : List Nat) (p : Page)
    (hp : p ∈ (step h (.decref ptr temps)).2.recycled) (hnew : p ∉ h.recycled) :
    ∀ a ∈ temps, ¬ (p.addr ≤ a ∧ a < p.addr + p.numChunks * p.chunkSize) := by
  have hmv : ∀ h1 : Heap, p ∈ (moveBlacklisted temps h1).recycled → p ∉ h1.recycled →
      referencedBy temps p = false := by
    intro h1 hp hnew
    unfold moveBlacklisted at hp
    split at hp
    · exact absurd hp hnew
    · simp only [List.mem_append, List.mem_reverse, List.mem_filter] at hp
      rcases hp with h | h
      · simpa using h.2
      · exact absurd h hnew
  have hrm : ∀ (h1 : Heap) q, h1.recycled = h.recycled →
      p ∈ (pageRemove temps h1 q (referencedBy temps q)).recycled → referencedBy temps p = false := by
    intro h1 q he hp
    unfold pageRemove at hp
    dsimp only at hp
    cases hq : referencedBy temps q
    · rw [hq] at hp
      simp only [Bool.false_eq_true, if_false, List.mem_cons] at hp
      rcases hp with rfl | hp
      · exact hq
      · rw [he] at hp; exact absurd hp hnew
    · rw [hq] at hp
      simp only [if_true] at hp
      exact hmv _ hp (by simpa [he] using hnew)
  have hpf : ∀ h1 q, pageFind h ptr = .ok (q, h1) → h1.recycled = h.recycled := by
    intro h1 q e
    unfold pageFind at e
    split at e
    · cases e; rfl
    · split at e
      · cases e
      · cases e; rfl
      · split at e
        · cases e
        · cases e; rfl
        · cases e; rfl
  have key : referencedBy temps p = false := by
    simp only [step, refCnt] at hp
    cases e : pageFind h ptr with
    | error er => rw [e] at hp; exact absurd hp hnew
    | ok r =>
      obtain ⟨q, h1⟩ := r
      have he := hpf h1 q e
      rw [e] at hp
      cases q with
      | none => exact absurd (he ▸ hp) hnew
      | some q =>
        simp only [chunkRefCnt] at hp
        by_cases hc : (h1.hdr (pageGetChunk q ptr)).refCnt ≤ 0 ∨
            q.refCnt < (h1.hdr (pageGetChunk q ptr)).refCnt
        · rw [if_pos hc] at hp; exact absurd hp hnew
        · rw [if_neg hc] at hp
          by_cases hz : (addRefs h1 q (pageGetChunk q ptr) (-1)).2.refCnt = 0
          · rw [if_pos hz] at hp
            exact hrm _ _ (by exact he) hp
          · rw [if_neg hz] at hp
            exact absurd (he ▸ hp) hnew
  intro a ha hin
  unfold referencedBy at key
  rw [List.any_eq_false] at key
  exact key a ha ((Page.has_iff p a).2 hin)

/-- A page goes to the recycled list when nothing refers to it, and does not when a slot does. -/
example : (final start [.alloc 100 false false 4096, .decref 4136 []]).recycled.length = 1 ∧
    (final start [.alloc 100 false false 4096, .decref 4136 [4200]]).recycled = [] := by
  decide +kernel

end Umka.Heap.Props
