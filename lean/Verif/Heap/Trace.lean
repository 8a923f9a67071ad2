import Verif.Heap.Sim

/-! # Heap: what the ideal heap guarantees over a history -/

namespace Umka.Heap

open Spec (Block State upd Step Reach Alive Dies delta flags)

/-- All answers of a history. -/
def outs : Heap → List Op → List Out
  | _, [] => []
  | h, op :: ops => (step h op).1 :: outs (step h op).2 ops

/-- The heap after a history. -/
def final : Heap → List Op → Heap
  | h, [] => h
  | h, op :: ops => final (step h op).2 ops

theorem outs_append (h : Heap) (xs ys : List Op) :
    outs h (xs ++ ys) = outs h xs ++ outs (final h xs) ys := by
  induction xs generalizing h with
  | nil => rfl
  | cons x xs ih => simp [outs, final, ih]

theorem final_append (h : Heap) (xs ys : List Op) : final h (xs ++ ys) = final (final h xs) ys := by
  induction xs generalizing h with
  | nil => rfl
  | cons x xs ih => simp [final, ih]

theorem validRun_append {h : Heap} {xs ys : List Op} (hv : Spec.ValidRun h (xs ++ ys)) :
    Spec.ValidRun h xs ∧ Spec.ValidRun (final h xs) ys := by
  induction xs generalizing h with
  | nil => exact ⟨trivial, hv⟩
  | cons x xs ih =>
    obtain ⟨h1, h2⟩ := hv
    obtain ⟨h3, h4⟩ := ih h2
    exact ⟨⟨h1, h3⟩, h4⟩

theorem run_sim {h : Heap} {s : State} (hs : Sim h s) (ops : List Op) (hv : Spec.ValidRun h ops) :
    ∃ t, Reach s ops (outs h ops) t ∧ Sim (final h ops) t := by
  induction ops generalizing h s with
  | nil => exact ⟨s, rfl, hs⟩
  | cons op ops ih =>
    obtain ⟨s', h1, h2⟩ := step_sim hs op hv.1
    obtain ⟨t, h3, h4⟩ := ih h2 hv.2
    exact ⟨t, ⟨s', h1, h3⟩, h4⟩

/-- Well-formed ideal heaps. -/
structure WF (s : State) : Prop where
  disj : s.Disjoint
  lt : ∀ n b, s.live n = some b → n < s.next ∧ 0 < b.count
  weak : ∀ w n p, s.weak w = some (n, p) → n < s.next

theorem WF.init (mem : Nat → Nat) : WF (Spec.init mem) := by
  constructor
  · intro n m b c h; simp [Spec.init] at h
  · intro n b h; simp [Spec.init] at h
  · intro n b c h; simp [Spec.init] at h

theorem WF.unique {s : State} (hs : WF s) {n m : Nat} {b c : Block} {a : Nat} (h1 : s.Owns n b a)
    (h2 : s.Owns m c a) : n = m ∧ b = c := by
  by_cases e : n = m
  · subst e
    refine ⟨rfl, ?_⟩
    have := h1.1.symm.trans h2.1
    exact Option.some.inj this
  · exact absurd ⟨h1.2, h2.2⟩ (hs.disj n m b c h1.1 h2.1 e a)

/-- Changing the count of a block. -/
theorem WF.setCount {s : State} (hs : WF s) {n : Nat} {b : Block} (hb : s.live n = some b) (d : Int)
    (hd : 0 < d) : WF { s with live := upd s.live n (some { b with count := d }) } := by
  refine ⟨?_, ?_, hs.weak⟩
  · intro k m x y hx hy hne a
    have key : ∀ j z, upd s.live n (some { b with count := d }) j = some z →
        ∃ z', s.live j = some z' ∧ (z'.owns a ↔ z.owns a) := by
      intro j z hz
      unfold upd at hz
      split at hz
      · rename_i e; subst e; cases hz; exact ⟨b, hb, Iff.rfl⟩
      · exact ⟨z, hz, Iff.rfl⟩
    obtain ⟨x', hx', ex⟩ := key k x hx
    obtain ⟨y', hy', ey⟩ := key m y hy
    rw [← ex, ← ey]
    exact hs.disj k m x' y' hx' hy' hne a
  · intro k x hx
    dsimp only [upd] at hx
    split at hx
    · rename_i e; subst e; cases hx; exact ⟨(hs.lt k b hb).1, hd⟩
    · exact hs.lt k x hx

theorem WF.remove {s : State} (hs : WF s) (n : Nat) (fr : List Nat) :
    WF { s with live := upd s.live n none, freed := fr } := by
  refine ⟨?_, ?_, hs.weak⟩
  · intro k m x y hx hy hne a
    dsimp only [upd] at hx hy
    split at hx
    · cases hx
    split at hy
    · cases hy
    exact hs.disj k m x y hx hy hne a
  · intro k x hx
    dsimp only [upd] at hx
    split at hx
    · cases hx
    exact hs.lt k x hx

theorem WF.step {s t : State} {op : Op} {o : Out} (hs : WF s) (h : Step s op o t) : WF t := by
  cases op with
  | alloc size onFree isStack addr =>
    rcases h with ⟨_, _, rfl⟩ | ⟨h0, _, a, _, _, _, _, hdis, hlive, hnext, _, _, hweak, _⟩
    · exact hs
    · refine ⟨?_, ?_, ?_⟩
      · intro n m b c hb hc hne x hx
        rw [hlive] at hb hc
        unfold upd at hb hc
        unfold Block.owns at hx
        split at hb <;> split at hc
        · omega
        · cases hb
          have := hdis m c hc
          dsimp only at hx
          omega
        · cases hc
          have := hdis n b hb
          dsimp only at hx
          omega
        · exact hs.disj n m b c hb hc hne x hx
      · intro n b hb
        rw [hlive] at hb
        unfold upd at hb
        split at hb
        · cases hb; exact ⟨by omega, by simp⟩
        · have := hs.lt n b hb
          exact ⟨by omega, this.2⟩
      · intro w n p hw
        rw [hweak] at hw
        have := hs.weak w n p hw
        omega
  | incref ptr =>
    rcases h with ⟨n, b, ho, _, rfl⟩ | ⟨_, _, rfl⟩
    · have := (hs.lt n b ho.1).2
      exact hs.setCount ho.1 _ (by omega)
    · exact hs
  | decref ptr temps =>
    rcases h with ⟨n, b, ho, _, h⟩ | ⟨_, _, rfl⟩
    · have := (hs.lt n b ho.1).2
      split at h
      · subst h; exact hs.remove n _
      · subst h; exact hs.setCount ho.1 _ (by omega)
    · exact hs
  | write a v => obtain ⟨_, rfl⟩ := h; exact ⟨hs.disj, hs.lt, hs.weak⟩
  | weaken ptr =>
    rcases h with ⟨n, b, ho, h⟩ | ⟨_, _, rfl⟩
    · split at h
      · obtain ⟨_, rfl⟩ := h; exact hs
      · obtain ⟨w, _, _, _, _, rfl⟩ := h
        refine ⟨hs.disj, hs.lt, ?_⟩
        intro v m p hv
        dsimp only [upd] at hv
        split at hv
        · cases hv; exact (hs.lt n b ho.1).1
        · exact hs.weak v m p hv
    · exact hs
  | strengthen w => obtain ⟨rfl, _⟩ := h; exact hs
  | memUsage => have h : t = s := h; subst h; exact hs

theorem WF.reach {s t : State} {ops : List Op} {os : List Out} (hs : WF s) (h : Reach s ops os t) :
    WF t := by
  induction ops generalizing s os with
  | nil => cases os with
    | nil => have h : s = t := h; subst h; exact hs
    | cons _ _ => exact h.elim
  | cons op ops ih => cases os with
    | nil => exact h.elim
    | cons o os =>
      obtain ⟨s', h1, h2⟩ := h
      exact ih (hs.step h1) h2

/-- How one step changes a live block. -/
theorem block_step {s t : State} {op : Op} {o : Out} {n : Nat} {b : Block} (hs : WF s)
    (hb : s.live n = some b) (h : Step s op o t) :
    0 ≤ b.count + delta b.addr b.size op ∧
    t.live n = if b.count + delta b.addr b.size op = 0 then none
      else some { b with count := b.count + delta b.addr b.size op } := by
  have hc := (hs.lt n b hb).2
  have hn := (hs.lt n b hb).1
  have hd0 : delta b.addr b.size op = 0 → t.live n = some b →
      0 ≤ b.count + delta b.addr b.size op ∧
      t.live n = if b.count + delta b.addr b.size op = 0 then none
        else some { b with count := b.count + delta b.addr b.size op } := by
    intro hd hl
    rw [hd, hl, if_neg (by omega)]
    exact ⟨by omega, by simp⟩
  -- the pointer belongs to another block or to none
  have hother : ∀ m c ptr, s.Owns m c ptr → m ≠ n → ¬ b.owns ptr := by
    intro m c ptr ho hne hob
    exact hne (hs.unique ho ⟨hb, hob⟩).1
  cases op with
  | alloc size onFree isStack addr =>
    apply hd0 rfl
    rcases h with ⟨_, _, rfl⟩ | ⟨_, _, a, _, _, _, _, _, hlive, _⟩
    · exact hb
    · rw [hlive, upd, if_neg (by omega), hb]
  | incref ptr =>
    rcases h with ⟨m, c, ho, _, rfl⟩ | ⟨hno, _, rfl⟩
    · by_cases e : m = n
      · subst e
        have e := Option.some.inj (ho.1.symm.trans hb)
        subst e
        have hd : delta c.addr c.size (.incref ptr) = 1 := if_pos ho.2
        rw [hd, if_neg (by omega)]
        exact ⟨by omega, by simp [upd]⟩
      · apply hd0
        · exact if_neg (hother m c ptr ho e)
        · simp [upd, Ne.symm e, hb]
    · apply hd0
      · exact if_neg fun hob => hno ⟨n, b, hb, hob⟩
      · exact hb
  | decref ptr temps =>
    rcases h with ⟨m, c, ho, _, h⟩ | ⟨hno, _, rfl⟩
    · by_cases e : m = n
      · subst e
        have e := Option.some.inj (ho.1.symm.trans hb)
        subst e
        have hd : delta c.addr c.size (.decref ptr temps) = -1 := if_pos ho.2
        rw [hd]
        refine ⟨by omega, ?_⟩
        split at h
        · rename_i h1
          subst h
          simp [upd, h1]
        · rename_i h1
          subst h
          rw [if_neg (by omega)]
          simp [upd, Int.sub_eq_add_neg]
      · apply hd0
        · exact if_neg (hother m c ptr ho e)
        · split at h <;> subst h <;> simp [upd, Ne.symm e, hb]
    · apply hd0
      · exact if_neg fun hob => hno ⟨n, b, hb, hob⟩
      · exact hb
  | write a v => obtain ⟨_, rfl⟩ := h; exact hd0 rfl hb
  | weaken ptr =>
    apply hd0 rfl
    rcases h with ⟨m, c, ho, h⟩ | ⟨_, _, rfl⟩
    · split at h
      · obtain ⟨_, rfl⟩ := h; exact hb
      · obtain ⟨w, _, _, _, _, rfl⟩ := h; exact hb
    · exact hb
  | strengthen w => obtain ⟨rfl, _⟩ := h; exact hd0 rfl hb
  | memUsage => have h : t = s := h; subst h; exact hd0 rfl hb

/-- Once gone, a block never comes back. -/
theorem dead_step {s t : State} {op : Op} {o : Out} {n : Nat} (hn : n < s.next)
    (hd : s.live n = none) (h : Step s op o t) : n < t.next ∧ t.live n = none := by
  cases op with
  | alloc size onFree isStack addr =>
    rcases h with ⟨_, _, rfl⟩ | ⟨_, _, a, _, _, _, _, _, hlive, hnext, _⟩
    · exact ⟨hn, hd⟩
    · exact ⟨by omega, by rw [hlive, upd, if_neg (by omega), hd]⟩
  | incref ptr =>
    rcases h with ⟨m, c, ho, _, rfl⟩ | ⟨hno, _, rfl⟩
    · refine ⟨hn, ?_⟩
      have : n ≠ m := by rintro rfl; rw [ho.1] at hd; cases hd
      simp [upd, this, hd]
    · exact ⟨hn, hd⟩
  | decref ptr temps =>
    rcases h with ⟨m, c, ho, _, h⟩ | ⟨hno, _, rfl⟩
    · have : n ≠ m := by rintro rfl; rw [ho.1] at hd; cases hd
      split at h <;> subst h <;> exact ⟨hn, by simp [upd, this, hd]⟩
    · exact ⟨hn, hd⟩
  | write a v => obtain ⟨_, rfl⟩ := h; exact ⟨hn, hd⟩
  | weaken ptr =>
    rcases h with ⟨m, c, ho, h⟩ | ⟨_, _, rfl⟩
    · split at h
      · obtain ⟨_, rfl⟩ := h; exact ⟨hn, hd⟩
      · obtain ⟨w, _, _, _, _, rfl⟩ := h; exact ⟨hn, hd⟩
    · exact ⟨hn, hd⟩
  | strengthen w => obtain ⟨rfl, _⟩ := h; exact ⟨hn, hd⟩
  | memUsage => have h : t = s := h; subst h; exact ⟨hn, hd⟩

theorem dead_reach {s t : State} {ops : List Op} {os : List Out} {n : Nat} (hn : n < s.next)
    (hd : s.live n = none) (h : Reach s ops os t) : t.live n = none := by
  induction ops generalizing s os with
  | nil => cases os with
    | nil => have h : s = t := h; subst h; exact hd
    | cons _ _ => exact h.elim
  | cons op ops ih => cases os with
    | nil => exact h.elim
    | cons o os =>
      obtain ⟨s', h1, h2⟩ := h
      obtain ⟨h3, h4⟩ := dead_step hn hd h1
      exact ih h3 h4 h2

/-- A byte of a live block changes only when written to. -/
theorem mem_step {s t : State} {op : Op} {o : Out} {n : Nat} {b : Block} {x : Nat}
    (hb : s.Owns n b x) (h : Step s op o t) (hw : ∀ v, op ≠ .write x v) : t.mem x = s.mem x := by
  cases op with
  | alloc size onFree isStack addr =>
    rcases h with ⟨_, _, rfl⟩ | ⟨_, _, a, _, _, _, _, _, _, _, _, hk, _⟩
    · rfl
    · exact hk n b x hb
  | incref ptr => rcases h with ⟨m, c, ho, _, rfl⟩ | ⟨hno, _, rfl⟩ <;> rfl
  | decref ptr temps =>
    rcases h with ⟨m, c, ho, _, h⟩ | ⟨hno, _, rfl⟩
    · split at h <;> subst h <;> rfl
    · rfl
  | write a v =>
    obtain ⟨_, rfl⟩ := h
    simp only [upd]
    rw [if_neg]
    rintro rfl
    exact hw v rfl
  | weaken ptr =>
    rcases h with ⟨m, c, ho, h⟩ | ⟨_, _, rfl⟩
    · split at h
      · obtain ⟨_, rfl⟩ := h; rfl
      · obtain ⟨w, _, _, _, _, rfl⟩ := h; rfl
    · rfl
  | strengthen w => obtain ⟨rfl, _⟩ := h; rfl
  | memUsage => have h : t = s := h; subst h; rfl

/-- A surviving block: it is live at the end, no allocation overlapped it, and its bytes changed only
by being written to. -/
theorem alive_reach {s t : State} {ops : List Op} {os : List Out} {n : Nat} {b : Block} (hs : WF s)
    (hb : s.live n = some b) (ha : Alive b.addr b.size b.count ops) (h : Reach s ops os t) :
    (∃ c, t.live n = some { b with count := c }) ∧
    (∀ x, b.owns x → (∀ v, Op.write x v ∉ ops) → t.mem x = s.mem x) ∧
    (∀ (i : Nat) (sz : Int) f st ad a, ops[i]? = some (Op.alloc sz f st ad) → os[i]? = some (Out.addr a) →
      a + sz.toNat < b.addr ∨ b.addr + b.size < a) := by
  induction ops generalizing s os b with
  | nil => cases os with
    | nil => have h : s = t := h; subst h; exact ⟨⟨b.count, hb⟩, fun _ _ _ => rfl, by simp⟩
    | cons _ _ => exact h.elim
  | cons op ops ih => cases os with
    | nil => exact h.elim
    | cons o os =>
      obtain ⟨s', h1, h2⟩ := h
      obtain ⟨hpos, halive⟩ := ha
      have hb' := (block_step hs hb h1).2
      rw [if_neg (by omega)] at hb'
      obtain ⟨⟨c, i1⟩, i2, i3⟩ := ih (hs.step h1) hb' halive h2
      refine ⟨⟨c, i1⟩, ?_, ?_⟩
      · intro x hx hw
        rw [i2 x hx fun v hv => hw v (by simp [hv])]
        exact mem_step ⟨hb, hx⟩ h1 fun v e => hw v (by simp [e])
      · intro i sz f st ad a e1 e2
        cases i with
        | succ i => exact i3 i sz f st ad a (by simpa using e1) (by simpa using e2)
        | zero =>
          simp only [List.getElem?_cons_zero, Option.some.injEq] at e1 e2
          subst e1 e2
          rcases h1 with ⟨_, h, _⟩ | ⟨_, _, a', h, _, _, _, hdis, _⟩
          · cases h
          · cases h
            exact hdis n b hb

theorem dies_reach {s t : State} {ops : List Op} {os : List Out} {n : Nat} {b : Block} (hs : WF s)
    (hb : s.live n = some b) (hd : Dies b.addr b.size b.count ops) (h : Reach s ops os t) :
    t.live n = none := by
  induction ops generalizing s os b with
  | nil => exact hd.elim
  | cons op ops ih => cases os with
    | nil => exact h.elim
    | cons o os =>
      obtain ⟨s', h1, h2⟩ := h
      have hb' := (block_step hs hb h1).2
      rcases hd with h0 | ⟨hp, hd⟩
      · rw [if_pos h0] at hb'
        have hn : n < s'.next := by
          have := (hs.lt n b hb).1
          have : s.next ≤ s'.next := by
            cases op with
            | alloc size onFree isStack addr =>
              rcases h1 with ⟨_, _, rfl⟩ | ⟨_, _, a, _, _, _, _, _, hlive, hnext, _⟩ <;> omega
            | incref ptr => rcases h1 with ⟨m, c, ho, _, rfl⟩ | ⟨hno, _, rfl⟩ <;> exact Nat.le_refl _
            | decref ptr temps =>
              rcases h1 with ⟨m, c, ho, _, h⟩ | ⟨hno, _, rfl⟩
              · split at h <;> subst h <;> exact Nat.le_refl _
              · exact Nat.le_refl _
            | _ => simp only [delta] at h0; have := (hs.lt n b hb).2; omega
          omega
        exact dead_reach hn hb' h2
      · rw [if_neg (by omega)] at hb'
        exact ih (hs.step h1) hb' hd h2

theorem weak_step {s t : State} {op : Op} {o : Out} {w : Nat} {np : Nat × Nat}
    (hw : s.weak w = some np) (h : Step s op o t) : t.weak w = some np := by
  cases op with
  | alloc size onFree isStack addr =>
    rcases h with ⟨_, _, rfl⟩ | ⟨_, _, a, _, _, _, _, _, _, _, _, _, hweak, _⟩
    · exact hw
    · rw [hweak]; exact hw
  | incref ptr => rcases h with ⟨m, c, ho, _, rfl⟩ | ⟨hno, _, rfl⟩ <;> exact hw
  | decref ptr temps =>
    rcases h with ⟨m, c, ho, _, h⟩ | ⟨hno, _, rfl⟩
    · split at h <;> subst h <;> exact hw
    · exact hw
  | write a v => obtain ⟨_, rfl⟩ := h; exact hw
  | weaken ptr =>
    rcases h with ⟨m, c, ho, h⟩ | ⟨_, _, rfl⟩
    · split at h
      · obtain ⟨_, rfl⟩ := h; exact hw
      · obtain ⟨w', _, _, _, hold, rfl⟩ := h
        simp only [upd]
        split
        · rename_i e
          subst e
          rcases hold with h | h
          · rw [hw] at h; cases h
          · rw [← h, hw]
        · exact hw
    · exact hw
  | strengthen w => obtain ⟨rfl, _⟩ := h; exact hw
  | memUsage => have h : t = s := h; subst h; exact hw

theorem weak_reach {s t : State} {ops : List Op} {os : List Out} {w : Nat} {np : Nat × Nat}
    (hw : s.weak w = some np) (h : Reach s ops os t) : t.weak w = some np := by
  induction ops generalizing s os with
  | nil => cases os with
    | nil => have h : s = t := h; subst h; exact hw
    | cons _ _ => exact h.elim
  | cons op ops ih => cases os with
    | nil => exact h.elim
    | cons o os =>
      obtain ⟨s', h1, h2⟩ := h
      exact ih (weak_step hw h1) h2

theorem alive_append {a size : Nat} {c : Int} {xs ys : List Op} (h : Alive a size c (xs ++ ys)) :
    Alive a size c xs ∧ Alive a size (c + (xs.map (delta a size)).sum) ys := by
  induction xs generalizing c with
  | nil => exact ⟨trivial, by simpa using h⟩
  | cons x xs ih =>
    obtain ⟨h1, h2⟩ := h
    obtain ⟨h3, h4⟩ := ih h2
    exact ⟨⟨h1, h3⟩, by simpa [Int.add_assoc] using h4⟩

/-- The number of references of a surviving block. -/
theorem alive_count {s t : State} {ops : List Op} {os : List Out} {n : Nat} {b : Block} (hs : WF s)
    (hb : s.live n = some b) (ha : Alive b.addr b.size b.count ops) (h : Reach s ops os t) :
    t.live n = some { b with count := b.count + (ops.map (delta b.addr b.size)).sum } := by
  induction ops generalizing s os b with
  | nil => cases os with
    | nil => have h : s = t := h; subst h; simpa using hb
    | cons _ _ => exact h.elim
  | cons op ops ih => cases os with
    | nil => exact h.elim
    | cons o os =>
      obtain ⟨s', h1, h2⟩ := h
      obtain ⟨hpos, halive⟩ := ha
      have hb' := (block_step hs hb h1).2
      rw [if_neg (by omega)] at hb'
      have := ih (hs.step h1) hb' halive h2
      simpa [Int.add_assoc] using this

/-! ### Deallocators -/

/-- The deallocator calls made so far are right; `fl` are the flags of all blocks so far. -/
structure FreedOk (s : State) (fl : List Bool) : Prop where
  len : fl.length = s.next
  live : ∀ n b, s.live n = some b → fl[n]? = some b.onFree
  iff : ∀ n, fl[n]? = some true ↔ n ∈ s.freed ∨ ∃ b, s.live n = some b ∧ b.onFree = true
  gone : ∀ n, n ∈ s.freed → s.live n = none
  nodup : s.freed.Nodup

theorem FreedOk.setCount {s : State} {fl : List Bool} (hf : FreedOk s fl) {n : Nat} {b : Block}
    (hb : s.live n = some b) (d : Int) :
    FreedOk { s with live := upd s.live n (some { b with count := d }) } fl := by
  refine ⟨hf.len, ?_, ?_, ?_, hf.nodup⟩
  · intro k c hc
    dsimp only [upd] at hc
    split at hc
    · rename_i e; subst e; cases hc; exact hf.live k b hb
    · exact hf.live k c hc
  · intro k
    rw [hf.iff]
    dsimp only [upd]
    constructor
    · rintro (h | ⟨c, h1, h2⟩)
      · exact .inl h
      · right
        split
        · rename_i e; subst e
          cases hb.symm.trans h1
          exact ⟨_, rfl, h2⟩
        · exact ⟨c, h1, h2⟩
    · rintro (h | ⟨c, h1, h2⟩)
      · exact .inl h
      · right
        split at h1
        · rename_i e; subst e; cases h1; exact ⟨b, hb, h2⟩
        · exact ⟨c, h1, h2⟩
  · intro k hk
    have := hf.gone k hk
    have hne : k ≠ n := by rintro rfl; rw [hb] at this; cases this
    simp [upd, hne, this]

theorem FreedOk.step {s t : State} {fl : List Bool} {op : Op} {o : Out} (hs : WF s) (hf : FreedOk s fl)
    (h : Step s op o t) : FreedOk t (fl ++ flags [op] [o]) := by
  have hsame : flags [op] [o] = [] → FreedOk t fl → FreedOk t (fl ++ flags [op] [o]) := by
    intro h1 h2; rw [h1, List.append_nil]; exact h2
  cases op with
  | alloc size onFree isStack addr =>
    rcases h with ⟨_, rfl, rfl⟩ | ⟨_, _, a, rfl, _, _, _, _, hlive, hnext, _, _, _, hfreed⟩
    · exact hsame rfl hf
    · have hfl : flags [.alloc size onFree isStack addr] [.addr a] = [onFree] := rfl
      rw [hfl]
      have hget : ∀ n, n ≠ s.next → (fl ++ [onFree])[n]? = fl[n]? := by
        intro n hn
        by_cases h : n < fl.length
        · rw [List.getElem?_append_left h]
        · have := hf.len
          rw [List.getElem?_eq_none (by simp; omega), List.getElem?_eq_none (by omega)]
      have hnew : (fl ++ [onFree])[s.next]? = some onFree := by
        rw [← hf.len]; simp
      have hnone : s.live s.next = none := by
        cases e : s.live s.next with
        | none => rfl
        | some b => have := (hs.lt _ b e).1; omega
      have hnf : s.next ∉ s.freed := by
        intro hm
        have := (hf.iff s.next).2 (.inl hm)
        rw [List.getElem?_eq_none (by rw [hf.len]; omega)] at this
        cases this
      refine ⟨by simp [hf.len, hnext], ?_, ?_, ?_, by rw [hfreed]; exact hf.nodup⟩
      · intro n b hb
        rw [hlive] at hb
        unfold upd at hb
        split at hb
        · rename_i e; subst e; cases hb; exact hnew
        · rename_i e; rw [hget n e]; exact hf.live n b hb
      · intro n
        rw [hfreed, hlive]
        unfold upd
        by_cases e : n = s.next
        · subst e
          rw [hnew]
          simp [hnf]
        · rw [hget n e, hf.iff]
          simp [e]
      · intro n hn
        rw [hfreed] at hn
        rw [hlive]
        unfold upd
        rw [if_neg (by rintro rfl; exact hnf hn)]
        exact hf.gone n hn
  | incref ptr =>
    apply hsame rfl
    rcases h with ⟨n, b, ho, _, rfl⟩ | ⟨_, _, rfl⟩
    · exact hf.setCount ho.1 _
    · exact hf
  | decref ptr temps =>
    apply hsame rfl
    rcases h with ⟨n, b, ho, _, h⟩ | ⟨_, _, rfl⟩
    · split at h
      · subst h
        have hnf : n ∉ s.freed := by
          intro hm
          have := hf.gone n hm
          rw [ho.1] at this
          cases this
        refine ⟨hf.len, ?_, ?_, ?_, ?_⟩
        · intro k c hc
          dsimp only [upd] at hc
          split at hc
          · cases hc
          · exact hf.live k c hc
        · intro k
          rw [hf.iff]
          dsimp only [upd]
          by_cases e : k = n
          · subst e
            rw [if_pos rfl]
            cases hb : b.onFree
            · simp [hnf, ho.1, hb]
            · simp [ho.1, hb]
          · rw [if_neg e]
            split <;> simp [e]
        · intro k hk
          dsimp only [upd]
          split
          · rfl
          · rename_i e
            apply hf.gone
            dsimp only at hk
            split at hk
            · simpa [e] using hk
            · exact hk
        · dsimp only
          split
          · exact List.nodup_cons.2 ⟨hnf, hf.nodup⟩
          · exact hf.nodup
      · subst h; exact hf.setCount ho.1 _
    · exact hf
  | write a v => apply hsame rfl; obtain ⟨_, rfl⟩ := h; exact ⟨hf.len, hf.live, hf.iff, hf.gone, hf.nodup⟩
  | weaken ptr =>
    apply hsame rfl
    rcases h with ⟨n, b, ho, h⟩ | ⟨_, _, rfl⟩
    · split at h
      · obtain ⟨_, rfl⟩ := h; exact hf
      · obtain ⟨w, _, _, _, _, rfl⟩ := h
        exact ⟨hf.len, hf.live, hf.iff, hf.gone, hf.nodup⟩
    · exact hf
  | strengthen w => apply hsame rfl; obtain ⟨rfl, _⟩ := h; exact hf
  | memUsage => apply hsame rfl; have h : t = s := h; subst h; exact hf

theorem flags_cons (op : Op) (o : Out) (ops : List Op) (os : List Out) :
    flags (op :: ops) (o :: os) = flags [op] [o] ++ flags ops os := by
  cases op <;> cases o <;> simp [flags]

theorem FreedOk.reach {s t : State} {fl : List Bool} {ops : List Op} {os : List Out} (hs : WF s)
    (hf : FreedOk s fl) (h : Reach s ops os t) : FreedOk t (fl ++ flags ops os) := by
  induction ops generalizing s os fl with
  | nil => cases os with
    | nil => have h : s = t := h; subst h; simpa [flags] using hf
    | cons _ _ => exact h.elim
  | cons op ops ih => cases os with
    | nil => exact h.elim
    | cons o os =>
      obtain ⟨s', h1, h2⟩ := h
      rw [flags_cons, ← List.append_assoc]
      exact ih (hs.step h1) (hf.step hs h1) h2

theorem FreedOk.init (mem : Nat → Nat) : FreedOk (Spec.init mem) [] := by
  constructor <;> simp [Spec.init]

/-- The deallocator calls at the end of one page. -/
theorem freePage_eq (h : Heap) (p : Page) (i n : Nat) (hi : i ≤ p.numOcc)
    (hnn : ∀ j, j < p.numOcc → 0 ≤ h.refs p j)
    (hn : (n : Int) = sumTo (h.pend p) p.numOcc - sumTo (h.pend p) i) :
    freePage h.hdr p i n = ((List.range' i (p.numOcc - i)).filter fun j =>
      decide (h.pend p j = 1)).map fun j => (h.chunk p j).serial := by
  have hp0 : ∀ j, 0 ≤ h.pend p j := by intro j; unfold Heap.pend; split <;> omega
  -- sums are monotone
  have hmono : ∀ j k, j ≤ k → sumTo (h.pend p) j ≤ sumTo (h.pend p) k := by
    intro j k hjk
    induction hjk with
    | refl => omega
    | step _ ih => have := hp0 ‹_›; simp only [sumTo]; omega
  generalize hm : p.numOcc - i = m
  induction m generalizing i n with
  | zero =>
    rw [freePage, if_neg (by omega)]
    rfl
  | succ m ih =>
    have hs1 : sumTo (h.pend p) (i + 1) = sumTo (h.pend p) i + h.pend p i := rfl
    have hm1 := hmono (i + 1) p.numOcc (by omega)
    rw [List.range'_succ, freePage]
    by_cases hcond : i < p.numOcc ∧ n > 0
    · rw [if_pos hcond]
      have hr : h.refs p i = (h.hdr (p.chunkAddr i)).refCnt := rfl
      have hnni := hnn i hcond.1
      have hpe : h.pend p i = if (h.hdr (p.chunkAddr i)).onFree = true ∧
        0 < (h.hdr (p.chunkAddr i)).refCnt then 1 else 0 := rfl
      dsimp only
      by_cases hdead : (h.hdr (p.chunkAddr i)).refCnt = 0 ∨ !(h.hdr (p.chunkAddr i)).onFree
      · have h0 : h.pend p i = 0 := by
          rw [hpe, if_neg]
          rintro ⟨g1, g2⟩
          rcases hdead with g | g
          · omega
          · rw [g1] at g; simp at g
        rw [if_pos hdead, List.filter_cons_of_neg (by simp [h0])]
        exact ih (i + 1) n (by omega) (by omega) (by omega)
      · have h1 : h.pend p i = 1 := by
          rw [hpe, if_pos]
          simp only [not_or] at hdead
          refine ⟨by simpa using hdead.2, by omega⟩
        rw [if_neg hdead, List.filter_cons_of_pos (by simp [h1]), List.map_cons]
        congr 1
        exact ih (i + 1) (n - 1) (by omega) (by omega) (by omega)
    · rw [if_neg hcond]
      symm
      rw [List.map_eq_nil_iff, List.filter_eq_nil_iff]
      intro j hj hpj
      simp only [decide_eq_true_eq] at hpj
      have hj' : i ≤ j ∧ j < p.numOcc := by
        simp only [List.mem_cons, List.mem_range'_1] at hj
        omega
      have g1 := hmono i j hj'.1
      have g2 := hmono (j + 1) p.numOcc (by omega)
      have g3 : sumTo (h.pend p) (j + 1) = sumTo (h.pend p) j + h.pend p j := rfl
      omega

theorem freePage_all {h : Heap} (hi : Inv h) {p : Page} (hp : p ∈ h.first) :
    freePage h.hdr p 0 p.numOnFree = ((List.range' 0 p.numOcc).filter fun j =>
      decide (h.pend p j = 1)).map fun j => (h.chunk p j).serial := by
  have := freePage_eq h p 0 p.numOnFree (by omega) (hi.nonneg p hp)
    (by rw [hi.pend p hp]; simp [sumTo])
  simpa using this

theorem mem_freePage {h : Heap} (hi : Inv h) {p : Page} (hp : p ∈ h.first) (n : Nat) :
    n ∈ freePage h.hdr p 0 p.numOnFree ↔ ∃ i, i < p.numOcc ∧ (h.chunk p i).serial = n ∧
      (h.chunk p i).onFree = true ∧ 0 < (h.chunk p i).refCnt := by
  rw [freePage_all hi hp]
  simp only [List.mem_map, List.mem_filter, List.mem_range'_1, decide_eq_true_eq]
  constructor
  · rintro ⟨j, ⟨h1, h2⟩, h3⟩
    unfold Heap.pend at h2
    split at h2
    · rename_i h4; exact ⟨j, by omega, h3, h4⟩
    · cases h2
  · rintro ⟨j, h1, h2, h3⟩
    exact ⟨j, ⟨by omega, by unfold Heap.pend; rw [if_pos h3]⟩, h2⟩

theorem freeAll_mem {h : Heap} {s : State} (hs : Sim h s) (n : Nat) :
    n ∈ freeAll h ↔ ∃ b, s.live n = some b ∧ b.onFree = true := by
  unfold freeAll
  simp only [List.mem_flatMap]
  constructor
  · rintro ⟨p, hp, hn⟩
    obtain ⟨i, h1, h2, h3, h4⟩ := (mem_freePage hs.inv hp n).1 hn
    exact ⟨_, (hs.live n _).2 ⟨p, hp, i, h1, h2, h4, rfl⟩, h3⟩
  · rintro ⟨b, hb, hf⟩
    obtain ⟨p, hp, i, h1, h2, h3, rfl⟩ := (hs.live n b).1 hb
    exact ⟨p, hp, (mem_freePage hs.inv hp n).2 ⟨i, h1, h2, hf, h3⟩⟩

theorem freeAll_nodup {h : Heap} (hi : Inv h) : (freeAll h).Nodup := by
  unfold freeAll List.Nodup
  rw [List.pairwise_flatMap]
  constructor
  · intro p hp
    rw [freePage_all hi hp, List.pairwise_map]
    have hr : (List.range' 0 p.numOcc).Pairwise (· ≠ ·) := List.nodup_range'
    have := hr.filter (fun j => decide (h.pend p j = 1))
    refine List.Pairwise.imp_of_mem ?_ this
    intro a b ha hb hne e
    simp only [List.mem_filter, List.mem_range'_1] at ha hb
    exact hne (hi.inj p hp p hp a (by omega) b (by omega) e).2
  · have hids := hi.ids
    refine List.Pairwise.imp_of_mem ?_ hids
    intro p q hp hq hne x hx y hy e
    subst e
    obtain ⟨i, h1, h2, _⟩ := (mem_freePage hi hp x).1 hx
    obtain ⟨j, h3, h4, _⟩ := (mem_freePage hi hq x).1 hy
    exact hne (by rw [(hi.inj p hp q hq i h1 j h3 (h2.trans h4.symm)).1])

end Umka.Heap
