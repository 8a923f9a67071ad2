import Verif.Heap.Inv

/-! # Heap: simulation of the ideal heap -/

namespace Umka.Heap

open Spec (Block State upd)

/-- The `i`th chunk of page `p` is the live block `b` with number `n`. -/
def IsBlock (h : Heap) (p : Page) (i n : Nat) (b : Block) : Prop :=
  (h.chunk p i).serial = n ∧ 0 < (h.chunk p i).refCnt ∧
  b = ⟨p.chunkAddr i + chunkHeader, (h.chunk p i).size, (h.chunk p i).refCnt, (h.chunk p i).onFree,
    (h.chunk p i).isStack⟩

/-- A weak pointer `w` refers to block `n` at `ptr`. -/
def WeakOk (h : Heap) (live : Nat → Option Block) (w n ptr : Nat) : Prop :=
  n < h.allocs ∧ ∃ id off, w = 2 ^ 63 + id * 2 ^ 32 + off ∧ id < h.freeId ∧ off < 2 ^ 31 ∧
    (∀ p ∈ h.first, p.id = id → ∃ i, i < p.numOcc ∧ (h.chunk p i).serial = n ∧
      (h.chunk p i).isStack = false ∧ p.chunkAddr i + chunkHeader ≤ ptr ∧
      ptr ≤ p.chunkAddr i + chunkHeader + (h.chunk p i).size ∧ ptr = p.addr + off) ∧
    ((∀ p ∈ h.first, p.id ≠ id) → live n = none)

/-- The simulation relation, without the counts of pages. -/
structure Sim0 (h : Heap) (s : State) : Prop where
  inv : Inv h
  next : s.next = h.allocs
  mem : s.mem = h.mem
  freed : s.freed = h.freed
  live : ∀ n b, s.live n = some b ↔ ∃ p ∈ h.first, ∃ i, i < p.numOcc ∧ IsBlock h p i n b
  weak : ∀ w n ptr, s.weak w = some (n, ptr) → WeakOk h s.live w n ptr

/-- The simulation relation. -/
structure Sim (h : Heap) (s : State) : Prop extends Sim0 h s where
  pos : Pos h
  fid : h.freeId ≤ h.allocs + 1
  few : h.allocs + 1 < 2 ^ 31

theorem Sim0.live_none {h : Heap} {s : State} (hs : Sim0 h s) {n : Nat} (hn : h.allocs ≤ n) :
    s.live n = none := by
  cases e : s.live n with
  | none => rfl
  | some b =>
    obtain ⟨p, hp, i, hi, h1, _⟩ := (hs.live n b).1 e
    have := hs.inv.serial p hp i hi
    omega

theorem block_geom {h : Heap} (hi : Inv h) {p : Page} (hp : p ∈ h.first) {i n : Nat} {b : Block}
    (hlt : i < p.numOcc) (hb : IsBlock h p i n b) {a : Nat} (ha : b.owns a) :
    p.chunkAddr i ≤ a ∧ a < p.chunkAddr i + p.chunkSize ∧ p.has a = true := by
  have hf := hi.fit p hp i hlt
  have hocc := (hi.ok p (mem_all_of_first hp)).occ
  have := chunkAddr_lt (p := p) (i := i) (by omega)
  have := chunkAddr_ge p i
  obtain ⟨_, _, rfl⟩ := hb
  simp only [Block.owns] at ha
  rw [Page.has_iff]
  omega

/-- What is known about a pointer into a live block. -/
theorem Sim0.owns {h : Heap} {s : State} (hs : Sim0 h s) {n : Nat} {b : Block} {a : Nat}
    (ho : s.Owns n b a) : ∃ p ∈ h.first, ∃ i, i < p.numOcc ∧ IsBlock h p i n b ∧
      p.chunkAddr i ≤ a ∧ a < p.chunkAddr i + p.chunkSize ∧ p.has a = true ∧
      pageGetChunk p a = p.chunkAddr i := by
  obtain ⟨p, hp, i, hi, hb⟩ := (hs.live n b).1 ho.1
  obtain ⟨h1, h2, h3⟩ := block_geom hs.inv hp hi hb ho.2
  exact ⟨p, hp, i, hi, hb, h1, h2, h3, pageGetChunk_eq h1 h2⟩

/-- A permitted pointer that belongs to no live block is in no page in use, or in a dead chunk. -/
theorem Sim0.not_owns {h : Heap} {s : State} (hs : Sim0 h s) {a : Nat} (hok : Spec.PtrOk h a)
    (hno : ¬ ∃ n b, s.Owns n b a) :
    (∀ p ∈ h.first, p.has a = false) ∨
    ∃ p ∈ h.first, p.has a = true ∧ (h.hdr (pageGetChunk p a)).refCnt ≤ 0 := by
  by_cases hex : ∃ p ∈ h.first, p.has a = true
  · obtain ⟨p, hp, hpa⟩ := hex
    obtain ⟨i, hi, h1 | h1⟩ := hok p hp hpa
    · exfalso
      apply hno
      refine ⟨(h.chunk p i).serial, _, (hs.live _ _).2 ⟨p, hp, i, hi, rfl, h1.1, rfl⟩, ?_⟩
      exact ⟨h1.2.1, h1.2.2⟩
    · refine .inr ⟨p, hp, hpa, ?_⟩
      rw [pageGetChunk_eq h1.2.1 (by rw [← chunkAddr_succ]; exact h1.2.2)]
      exact h1.1
  · left
    intro p hp
    cases e : p.has a
    · rfl
    · exact absurd ⟨p, hp, e⟩ hex

theorem Sim0.setLast {h : Heap} {s : State} (hs : Sim0 h s) {p : Page} (hp : p ∈ h.first) :
    Sim0 { h with lastAccessed := some p.id } s :=
  ⟨hs.inv.setLast hp, hs.next, hs.mem, hs.freed, hs.live, hs.weak⟩

theorem Sim.setLast {h : Heap} {s : State} (hs : Sim h s) {p : Page} (hp : p ∈ h.first) :
    Sim { h with lastAccessed := some p.id } s :=
  ⟨hs.toSim0.setLast hp, hs.pos, hs.fid, hs.few⟩

/-! ### Allocation -/

theorem findForAlloc_spec {cs : Nat} {l : List Page} {best : Option Page} {p : Page}
    (h : findForAlloc cs l best = some p)
    (hb : ∀ q, best = some q → q.numOcc < q.numChunks ∧ cs ≤ q.chunkSize) :
    (best = some p ∨ p ∈ l) ∧ p.numOcc < p.numChunks ∧ cs ≤ p.chunkSize := by
  induction l generalizing best with
  | nil => simp only [findForAlloc] at h; exact ⟨.inl h, hb p h⟩
  | cons q qs ih =>
    have hskip : findForAlloc cs qs best = some p →
        (best = some p ∨ p ∈ q :: qs) ∧ p.numOcc < p.numChunks ∧ cs ≤ p.chunkSize := by
      intro h
      have := ih h hb
      exact ⟨this.1.imp_right (by simp +contextual), this.2⟩
    have htake : q.numOcc < q.numChunks → q.chunkSize > cs → findForAlloc cs qs (some q) = some p →
        (best = some p ∨ p ∈ q :: qs) ∧ p.numOcc < p.numChunks ∧ cs ≤ p.chunkSize := by
      intro h1 h2 h
      have := ih h (by intro r hr; cases hr; exact ⟨h1, by omega⟩)
      refine ⟨.inr ?_, this.2⟩
      rcases this.1 with h | h
      · cases h; simp
      · simp [h]
    unfold findForAlloc at h
    by_cases hocc : q.numOcc < q.numChunks
    · rw [if_pos hocc] at h
      by_cases e : q.chunkSize = cs
      · rw [if_pos e] at h
        cases h
        exact ⟨.inr (by simp), hocc, by omega⟩
      · rw [if_neg e] at h
        cases best <;> dsimp only at h
        all_goals
          split at h
          · rename_i hgt; exact htake hocc hgt.1 h
          · exact hskip h
    · rw [if_neg hocc] at h
      exact hskip h

theorem selectPage_spec {h : Heap} {s : State} {cs addr : Nat} (hs : Sim h s) (hcs : 64 ≤ cs)
    (hcs8 : cs % 8 = 0) (hmax : cs ≤ intMax) (hm : Spec.MallocOk h addr (pageBytes cs)) :
    ∃ h' p, selectPage h cs addr = (h', p) ∧ Sim0 h' s ∧ p ∈ h'.first ∧ p.numOcc < p.numChunks ∧
      cs ≤ p.chunkSize ∧ (∀ q ∈ h'.first, q ≠ p → 0 < q.refCnt) ∧ h'.allocs = h.allocs ∧
      h'.freeId ≤ h.allocs + 2 := by
  unfold selectPage
  cases hf : findForAlloc cs h.first none with
  | some p =>
    obtain ⟨h1, h2, h3⟩ := findForAlloc_spec hf (by simp)
    have hp : p ∈ h.first := by simpa using h1
    refine ⟨_, p, rfl, hs.toSim0.setLast hp, hp, h2, h3, fun q hq _ => hs.pos q hq, rfl, ?_⟩
    have := hs.fid
    show h.freeId ≤ _
    omega
  | none =>
    obtain ⟨h', p, e, hinv, hid, hocc, hpcs, hnum, _, hfirst, hhdr, hmem, hal, hfr⟩ :=
      pageAdd_spec hs.inv hcs hcs8 hmax hm
    have hfid : h'.freeId = h.freeId + 1 := by
      have : h' = (pageAdd h (chunksPerPage cs) cs addr).1 := by rw [e]
      rw [this]; rfl
    have hc : ∀ q i, h'.chunk q i = h.chunk q i := by intro q i; rw [Heap.chunk, hhdr]; rfl
    have hblk : ∀ q i n b, IsBlock h' q i n b ↔ IsBlock h q i n b := by
      intro q i n b; unfold IsBlock; rw [hc]
    refine ⟨h', p, e, ⟨hinv, by rw [hal]; exact hs.next, by rw [hmem]; exact hs.mem,
      by rw [hfr]; exact hs.freed, ?_, ?_⟩, by rw [hfirst]; simp, by omega, by omega, ?_, hal, ?_⟩
    · intro n b
      rw [hs.live]
      constructor
      · rintro ⟨q, hq, i, hi, hb⟩
        exact ⟨q, by rw [hfirst]; simp [hq], i, hi, (hblk _ _ _ _).2 hb⟩
      · rintro ⟨q, hq, i, hi, hb⟩
        rw [hfirst, List.mem_cons] at hq
        rcases hq with rfl | hq
        · omega
        · exact ⟨q, hq, i, hi, (hblk _ _ _ _).1 hb⟩
    · intro w n ptr hw
      obtain ⟨h1, id, off, h2, h3, h4, h5, h6⟩ := hs.weak w n ptr hw
      refine ⟨by omega, id, off, h2, by omega, h4, ?_, ?_⟩
      · intro q hq hqid
        rw [hfirst, List.mem_cons] at hq
        rcases hq with rfl | hq
        · omega
        · simp only [hc]; exact h5 q hq hqid
      · intro hno
        exact h6 fun q hq => hno q (by rw [hfirst]; simp [hq])
    · intro q hq hne
      rw [hfirst, List.mem_cons] at hq
      rcases hq with rfl | hq
      · exact absurd rfl hne
      · exact hs.pos q hq
    · have := hs.fid; omega

theorem takeChunk_sim {h : Heap} {s : State} {p : Page} {size : Nat} {onFree isStack : Bool}
    (hs : Sim0 h s) (hp : p ∈ h.first) (hocc : p.numOcc < p.numChunks)
    (hsize : chunkHeader + size + 1 ≤ p.chunkSize) (hpos : ∀ q ∈ h.first, q ≠ p → 0 < q.refCnt)
    (hfid : h.freeId ≤ h.allocs + 2) (hfew : h.allocs + 2 < 2 ^ 31) :
    Sim (takeChunk h p size onFree isStack)
      { s with
        live := upd s.live s.next
          (some ⟨p.chunkAddr p.numOcc + chunkHeader, size, 1, onFree, isStack⟩)
        next := s.next + 1
        mem := (takeChunk h p size onFree isStack).mem } := by
  have hi := hs.inv
  have hinv := takeChunk_inv (size := size) onFree isStack hi hp hocc hsize
  have u := takeChunk_upd (h := h) (p := p) size onFree isStack
  generalize hp' : ({ p with
      numOcc := p.numOcc + 1, numOnFree := if onFree then p.numOnFree + 1 else p.numOnFree,
      refCnt := p.refCnt + 1 } : Page) = p' at u
  have hocc' : p'.numOcc = p.numOcc + 1 := by rw [← hp']
  have hnew : (takeChunk h p size onFree isStack).chunk p' p.numOcc =
      { refCnt := 1, size := size, onFree := onFree, isStack := isStack, serial := h.allocs } := by
    rw [Heap.chunk, u.addr_eq]
    show (if p.chunkAddr p.numOcc = p.chunkAddr p.numOcc then _ else _) = _
    rw [if_pos rfl]
  have hold : ∀ j, j < p.numOcc →
      (takeChunk h p size onFree isStack).chunk p' j = h.chunk p j :=
    fun j hj => u.chunk_same hi hp hocc (by omega) (by omega)
  have hoth : ∀ q ∈ h.first, q ≠ p → ∀ j, j < q.numOcc →
      (takeChunk h p size onFree isStack).chunk q j = h.chunk q j :=
    fun q hq hne j hj => u.chunk_other hi hp hocc hq hne hj
  refine ⟨⟨hinv, ?_, rfl, hs.freed, ?_, ?_⟩, ?_, ?_, ?_⟩
  · show s.next + 1 = h.allocs + 1; rw [hs.next]
  · intro n b
    show upd s.live s.next _ n = some b ↔ _
    unfold upd
    by_cases hn : n = s.next
    · rw [if_pos hn]
      constructor
      · intro e
        refine ⟨p', (u.mem hi hp p').2 (.inl rfl), p.numOcc, by omega, ?_, ?_, ?_⟩
        · rw [hnew, hn, hs.next]
        · rw [hnew]; simp
        · rw [hnew, u.addr_eq]; simpa using e.symm
      · rintro ⟨q, hq, j, hj, h1, h2, h3⟩
        rcases (u.mem hi hp q).1 hq with rfl | ⟨hq, hne⟩
        · by_cases ej : j = p.numOcc
          · subst ej
            rw [h3, hnew, u.addr_eq]
          · rw [hold j (by omega)] at h1
            have := hi.serial p hp j (by omega)
            have := hs.next
            omega
        · rw [hoth q hq hne j hj] at h1
          have := hi.serial q hq j hj
          have := hs.next
          omega
    · rw [if_neg hn, hs.live]
      constructor
      · rintro ⟨q, hq, j, hj, hb⟩
        by_cases e : q = p
        · subst e
          refine ⟨p', (u.mem hi hp p').2 (.inl rfl), j, by omega, ?_⟩
          unfold IsBlock
          rw [hold j hj, u.addr_eq]
          exact hb
        · refine ⟨q, (u.mem hi hp q).2 (.inr ⟨hq, e⟩), j, hj, ?_⟩
          unfold IsBlock
          rw [hoth q hq e j hj]
          exact hb
      · rintro ⟨q, hq, j, hj, hb⟩
        rcases (u.mem hi hp q).1 hq with rfl | ⟨hq, hne⟩
        · by_cases ej : j = p.numOcc
          · subst ej
            have := hb.1
            rw [hnew] at this
            have h2 := hs.next
            simp only at this
            omega
          · refine ⟨p, hp, j, by omega, ?_⟩
            unfold IsBlock at hb
            rw [hold j (by omega), u.addr_eq] at hb
            exact hb
        · refine ⟨q, hq, j, hj, ?_⟩
          unfold IsBlock at hb
          rw [hoth q hq hne j hj] at hb
          exact hb
  · intro w n ptr hw
    obtain ⟨h1, id, off, h2, h3, h4, h5, h6⟩ := hs.weak w n ptr hw
    refine ⟨?_, id, off, h2, h3, h4, ?_, ?_⟩
    · show n < h.allocs + 1; omega
    · intro q hq hqid
      rcases (u.mem hi hp q).1 hq with rfl | ⟨hq, hne⟩
      · obtain ⟨i, g1, g2, g3, g4, g5, g6⟩ := h5 p hp (by rw [← u.id]; exact hqid)
        refine ⟨i, by omega, ?_⟩
        rw [hold i g1, u.addr_eq, u.addr]
        exact ⟨g2, g3, g4, g5, g6⟩
      · obtain ⟨i, g1, g2, g3, g4, g5, g6⟩ := h5 q hq hqid
        refine ⟨i, g1, ?_⟩
        rw [hoth q hq hne i g1]
        exact ⟨g2, g3, g4, g5, g6⟩
    · intro hno
      show upd s.live s.next _ n = none
      unfold upd
      rw [if_neg (by have := hs.next; omega)]
      apply h6
      intro q hq
      by_cases e : q = p
      · subst e; rw [← u.id]; exact hno p' ((u.mem hi hp p').2 (.inl rfl))
      · exact hno q ((u.mem hi hp q).2 (.inr ⟨hq, e⟩))
  · intro q hq
    rcases (u.mem hi hp q).1 hq with rfl | ⟨hq, hne⟩
    · have h0 : 0 ≤ p.refCnt := by rw [hi.cnt p hp]; exact sumTo_nonneg (hi.nonneg p hp)
      rw [← hp']; show 0 < p.refCnt + 1; omega
    · exact hpos q hq hne
  · show h.freeId ≤ h.allocs + 1 + 1; omega
  · show h.allocs + 1 + 1 < 2 ^ 31; omega

theorem alloc_sim {h : Heap} {s : State} (hs : Sim h s) (size : Int) (onFree isStack : Bool) (addr : Nat)
    (hv : Spec.Valid h (.alloc size onFree isStack addr)) :
    ∃ s', Spec.Step s (.alloc size onFree isStack addr) (step h (.alloc size onFree isStack addr)).1 s' ∧
      Sim (step h (.alloc size onFree isStack addr)).2 s' := by
  obtain ⟨hfew, hm⟩ := hv
  have hcsp := chunkSizeFor_spec size.toNat
  simp only [step]
  unfold chunkAlloc
  by_cases hbad : size < 0 ∨ chunkSizeFor size.toNat > intMax
  · rw [if_pos hbad]
    refine ⟨s, .inl ⟨?_, rfl, rfl⟩, hs⟩
    rcases hbad with h | h
    · exact .inl h
    · right
      simp only [intMax] at h
      omega
  · rw [if_neg hbad]
    have hmax : chunkSizeFor size.toNat ≤ intMax := by omega
    obtain ⟨h', p, e, hs0, hp, hocc, hcs, hpos, hal, hfid⟩ :=
      selectPage_spec hs hcsp.2.2.1 hcsp.2.2.2 hmax hm
    rw [e]
    simp only
    have hsize : chunkHeader + size.toNat + 1 ≤ p.chunkSize := by
      have : chunkHeader = 40 := rfl
      omega
    refine ⟨_, ?_, takeChunk_sim hs0 hp hocc hsize hpos (by omega) (by omega)⟩
    refine .inr ⟨by omega, ?_, p.chunkAddr p.numOcc + chunkHeader, rfl, ?_, ?_, ?_, ?_, rfl, rfl, ?_, ?_,
      rfl, rfl⟩
    · simp only [intMax] at hmax; omega
    · have hpk := hs0.inv.ok p (mem_all_of_first hp)
      have h1 := hpk.addr8
      have h2 := hpk.cs8
      have h3 : p.numOcc * p.chunkSize % 8 = 0 := by rw [Nat.mul_mod, h2]; simp
      simp only [Page.chunkAddr, chunkHeader]
      omega
    · simp only [chunkHeader]; omega
    · have hpk := hs0.inv.ok p (mem_all_of_first hp)
      have h1 := chunkAddr_lt hocc
      have h2 := hpk.size
      have h3 := hpk.addrmax
      omega
    · intro n b hb
      obtain ⟨q, hq, i, hi, hblk⟩ := (hs0.live n b).1 hb
      have hoq := (hs0.inv.ok q (mem_all_of_first hq)).occ
      apply Classical.byContradiction
      intro hcon
      have hfit := hs0.inv.fit q hq i hi
      have hbe := hblk.2.2
      have hba : b.addr = q.chunkAddr i + chunkHeader := by rw [hbe]
      have hbs : b.size = (h'.chunk q i).size := by rw [hbe]
      -- a common address
      have : ∃ a, p.chunkAddr p.numOcc ≤ a ∧ a < p.chunkAddr p.numOcc + p.chunkSize ∧
          q.chunkAddr i ≤ a ∧ a < q.chunkAddr i + q.chunkSize := by
        refine ⟨max (p.chunkAddr p.numOcc + chunkHeader) b.addr, ?_⟩
        omega
      obtain ⟨a, a1, a2, a3, a4⟩ := this
      have := hs0.inv.chunk_inj hp hq hocc (by omega) a1 a2 a3 a4
      obtain ⟨rfl, e2⟩ := this
      omega
    · intro k hk
      show (if p.chunkAddr p.numOcc ≤ _ ∧ _ < p.chunkAddr p.numOcc + p.chunkSize then 0 else _) = 0
      rw [if_pos (by omega)]
    · intro n b a ho
      show (if p.chunkAddr p.numOcc ≤ a ∧ a < p.chunkAddr p.numOcc + p.chunkSize then 0 else h'.mem a) = _
      obtain ⟨q, hq, i, hi, _, g1, g2, _⟩ := hs0.owns ho
      have hoq := (hs0.inv.ok q (mem_all_of_first hq)).occ
      rw [if_neg, hs0.mem]
      intro hcon
      have := hs0.inv.chunk_inj hp hq hocc (by omega) hcon.1 hcon.2 g1 g2
      obtain ⟨rfl, e2⟩ := this
      omega

/-! ### Counting -/

theorem pageRemove_setPage {h : Heap} {p : Page} (temps : List Nat) (b : Bool) :
    pageRemove temps (h.setPage p) p b = pageRemove temps h p b := by
  have : (h.setPage p).first.filter (fun q => decide (q.id ≠ p.id)) =
      h.first.filter (fun q => decide (q.id ≠ p.id)) := by
    show (h.first.map _).filter _ = _
    generalize h.first = l
    induction l with
    | nil => rfl
    | cons q qs ih =>
      rw [List.map_cons]
      by_cases e : q.id = p.id
      · rw [if_pos e, List.filter_cons_of_neg (by simp), List.filter_cons_of_neg (by simp [e]), ih]
      · rw [if_neg e, List.filter_cons_of_pos (by simpa using e), List.filter_cons_of_pos (by simpa using e), ih]
  unfold pageRemove
  rw [this]
  rfl

theorem pageRemove_fields (h : Heap) (p : Page) (temps : List Nat) (b : Bool) :
    (pageRemove temps h p b).first = h.first.filter (fun q => decide (q.id ≠ p.id)) ∧
    (pageRemove temps h p b).hdr = h.hdr ∧ (pageRemove temps h p b).mem = h.mem ∧
    (pageRemove temps h p b).allocs = h.allocs ∧ (pageRemove temps h p b).freed = h.freed ∧
    (pageRemove temps h p b).freeId = h.freeId := by
  unfold pageRemove moveBlacklisted
  cases b
  · exact ⟨rfl, rfl, rfl, rfl, rfl, rfl⟩
  · dsimp only
    rw [if_pos rfl]
    split <;> exact ⟨rfl, rfl, rfl, rfl, rfl, rfl⟩

/-- Removing a page without live blocks. -/
theorem pageRemove_sim {h : Heap} {s : State} {p : Page} (temps : List Nat) (b : Bool) (hs : Sim0 h s)
    (hp : p ∈ h.first) (h0 : p.refCnt = 0) (hpos : ∀ q ∈ h.first, q ≠ p → 0 < q.refCnt)
    (hfid : h.freeId ≤ h.allocs + 1) (hfew : h.allocs + 1 < 2 ^ 31) :
    Sim (pageRemove temps h p b) s := by
  obtain ⟨e1, e2, e3, e4, e5, e6⟩ := pageRemove_fields h p temps b
  have hi := hs.inv
  have hinv := pageRemove_inv temps hi hp b
  have hc : ∀ q i, (pageRemove temps h p b).chunk q i = h.chunk q i := by
    intro q i; rw [Heap.chunk, e2]; rfl
  have hmem : ∀ q, q ∈ (pageRemove temps h p b).first ↔ q ∈ h.first ∧ q ≠ p := by
    intro q
    rw [e1, List.mem_filter]
    constructor
    · rintro ⟨h1, h2⟩
      refine ⟨h1, ?_⟩
      rintro rfl
      simp at h2
    · rintro ⟨h1, h2⟩
      refine ⟨h1, ?_⟩
      simp only [decide_eq_true_eq]
      intro e
      exact h2 (hi.id_inj h1 hp e)
  have hdead : ∀ i, i < p.numOcc → (h.chunk p i).refCnt = 0 := by
    intro i hlt
    have h1 := le_sumTo (hi.nonneg p hp) hlt
    have h2 := hi.nonneg p hp i hlt
    rw [← hi.cnt p hp, h0] at h1
    have : h.refs p i = 0 := by omega
    exact this
  refine ⟨⟨hinv, by rw [e4]; exact hs.next, by rw [e3]; exact hs.mem, by rw [e5]; exact hs.freed, ?_, ?_⟩,
    ?_, by rw [e6, e4]; exact hfid, by rw [e4]; exact hfew⟩
  · intro n bb
    rw [hs.live]
    constructor
    · rintro ⟨q, hq, i, hlt, hb⟩
      have hne : q ≠ p := by
        rintro rfl
        have := hb.2.1
        rw [hdead i hlt] at this
        omega
      refine ⟨q, (hmem q).2 ⟨hq, hne⟩, i, hlt, ?_⟩
      unfold IsBlock
      rw [hc]
      exact hb
    · rintro ⟨q, hq, i, hlt, hb⟩
      unfold IsBlock at hb
      rw [hc] at hb
      exact ⟨q, ((hmem q).1 hq).1, i, hlt, hb⟩
  · intro w n ptr hw
    obtain ⟨h1, id, off, h2, h3, h4, h5, h6⟩ := hs.weak w n ptr hw
    refine ⟨by rw [e4]; exact h1, id, off, h2, by rw [e6]; exact h3, h4, ?_, ?_⟩
    · intro q hq hqid
      simp only [hc]
      exact h5 q ((hmem q).1 hq).1 hqid
    · intro hno
      by_cases hpid : p.id = id
      · obtain ⟨i, hlt, hser, _⟩ := h5 p hp hpid
        cases hl : s.live n with
        | none => rfl
        | some bb =>
          obtain ⟨q, hq, j, hjt, hb⟩ := (hs.live n bb).1 hl
          have := hi.inj p hp q hq i hlt j hjt (hser.trans hb.1.symm)
          obtain ⟨rfl, rfl⟩ := this
          have := hb.2.1
          rw [hdead i hlt] at this
          omega
      · apply h6
        intro q hq
        by_cases e : q = p
        · subst e; exact hpid
        · exact hno q ((hmem q).2 ⟨hq, e⟩)
  · intro q hq
    obtain ⟨h1, h2⟩ := (hmem q).1 hq
    exact hpos q h1 h2

/-- The ideal counterpart of changing a count. -/
def bump (s : State) (n : Nat) (b : Block) (d : Int) : State :=
  { s with
    live := upd s.live n (if b.count + d = 0 then none else some { b with count := b.count + d })
    freed := if b.onFree = true ∧ b.count = 1 ∧ d = -1 then n :: s.freed else s.freed }

theorem addRefs_sim {h : Heap} {s : State} {p : Page} {i n : Nat} {b : Block} {d : Int} (hs : Sim0 h s)
    (hp : p ∈ h.first) (hlt : i < p.numOcc) (hb : IsBlock h p i n b) (hd : d = 1 ∨ d = -1) :
    Sim0 ((addRefs h p (p.chunkAddr i) d).1.setPage (addRefs h p (p.chunkAddr i) d).2) (bump s n b d) := by
  have hi := hs.inv
  have hpos : 0 < h.refs p i := hb.2.1
  have hinv := addRefs_inv hi hp hlt hpos hd
  have u := addRefs_upd (h := h) (p := p) (i := i) d
  have hocc := (hi.ok p (mem_all_of_first hp)).occ
  have hnew : ((addRefs h p (p.chunkAddr i) d).1.setPage (addRefs h p (p.chunkAddr i) d).2).chunk
      (addRefs h p (p.chunkAddr i) d).2 i = { h.chunk p i with refCnt := h.refs p i + d } := by
    show (if p.chunkAddr i = p.chunkAddr i then _ else _) = _
    rw [if_pos rfl]; rfl
  have hfreed : ((addRefs h p (p.chunkAddr i) d).1.setPage (addRefs h p (p.chunkAddr i) d).2).freed =
      if (h.chunk p i).onFree = true ∧ (h.chunk p i).refCnt = 1 ∧ d = -1 then
        (h.chunk p i).serial :: h.freed else h.freed := by
    show (if (h.chunk p i).onFree && (h.chunk p i).refCnt == 1 && d == -1 then _ else _) = _
    simp only [Bool.and_eq_true, beq_iff_eq, and_assoc]
    rfl
  have hocc' : (addRefs h p (p.chunkAddr i) d).2.numOcc = p.numOcc := rfl
  have hal : ((addRefs h p (p.chunkAddr i) d).1.setPage (addRefs h p (p.chunkAddr i) d).2).allocs =
    h.allocs := rfl
  have hmm : ((addRefs h p (p.chunkAddr i) d).1.setPage (addRefs h p (p.chunkAddr i) d).2).mem =
    h.mem := rfl
  generalize (addRefs h p (p.chunkAddr i) d).1.setPage (addRefs h p (p.chunkAddr i) d).2 = h' at *
  generalize (addRefs h p (p.chunkAddr i) d).2 = p' at *
  have hold : ∀ j, j < p.numOcc → j ≠ i → h'.chunk p' j = h.chunk p j :=
    fun j hj hne => u.chunk_same hi hp (by omega) (by omega) hne
  have hoth : ∀ q ∈ h.first, q ≠ p → ∀ j, j < q.numOcc → h'.chunk q j = h.chunk q j :=
    fun q hq hne j hj => u.chunk_other hi hp (by omega) hq hne hj
  -- everything but the count is unchanged
  have hsame : ∀ j, j < p.numOcc → (h'.chunk p' j).serial = (h.chunk p j).serial ∧
      (h'.chunk p' j).isStack = (h.chunk p j).isStack ∧ (h'.chunk p' j).size = (h.chunk p j).size := by
    intro j hj
    by_cases e : j = i
    · subst e; rw [hnew]; exact ⟨rfl, rfl, rfl⟩
    · rw [hold j hj e]; exact ⟨rfl, rfl, rfl⟩
  refine ⟨hinv, by rw [hal]; exact hs.next, by rw [hmm]; exact hs.mem, ?_, ?_, ?_⟩
  · rw [hfreed]
    obtain ⟨rfl, _, rfl⟩ := hb
    show (if _ then _ else _) = _
    rw [hs.freed]
  · intro m bb
    show upd s.live n _ m = some bb ↔ _
    unfold upd
    by_cases hm : m = n
    · rw [if_pos hm]
      subst hm
      have hbc : b.count = h.refs p i := by rw [hb.2.2]; rfl
      constructor
      · intro e
        split at e
        · cases e
        · rename_i hne
          refine ⟨p', (u.mem hi hp p').2 (.inl rfl), i, by omega, ?_⟩
          unfold IsBlock
          rw [hnew, u.addr_eq]
          refine ⟨hb.1, ?_, ?_⟩
          · show 0 < h.refs p i + d; omega
          · rw [← Option.some.inj e, hb.2.2]; rfl
      · rintro ⟨q, hq, j, hj, hbb⟩
        rcases (u.mem hi hp q).1 hq with rfl | ⟨hq, hne⟩
        · by_cases ej : j = i
          · subst ej
            unfold IsBlock at hbb
            rw [hnew, u.addr_eq] at hbb
            have hp1 : 0 < h.refs p j + d := hbb.2.1
            rw [if_neg (by omega), hbb.2.2, hb.2.2]
            rfl
          · have h1 := hbb.1
            rw [hold j (by omega) ej] at h1
            have := hi.inj p hp p hp j (by omega) i hlt (h1.trans hb.1.symm)
            omega
        · have h1 := hbb.1
          rw [hoth q hq hne j hj] at h1
          have := hi.inj q hq p hp j hj i hlt (h1.trans hb.1.symm)
          exact absurd this.1 hne
    · rw [if_neg hm, hs.live]
      constructor
      · rintro ⟨q, hq, j, hj, hbb⟩
        by_cases e : q = p
        · subst e
          have ej : j ≠ i := by
            rintro rfl
            exact hm (hbb.1.symm.trans hb.1)
          refine ⟨p', (u.mem hi hp p').2 (.inl rfl), j, by omega, ?_⟩
          unfold IsBlock
          rw [hold j hj ej, u.addr_eq]
          exact hbb
        · refine ⟨q, (u.mem hi hp q).2 (.inr ⟨hq, e⟩), j, hj, ?_⟩
          unfold IsBlock
          rw [hoth q hq e j hj]
          exact hbb
      · rintro ⟨q, hq, j, hj, hbb⟩
        rcases (u.mem hi hp q).1 hq with rfl | ⟨hq, hne⟩
        · have ej : j ≠ i := by
            rintro rfl
            have := hbb.1
            rw [hnew] at this
            exact hm (this.symm.trans hb.1)
          refine ⟨p, hp, j, by omega, ?_⟩
          unfold IsBlock at hbb
          rw [hold j (by omega) ej, u.addr_eq] at hbb
          exact hbb
        · refine ⟨q, hq, j, hj, ?_⟩
          unfold IsBlock at hbb
          rw [hoth q hq hne j hj] at hbb
          exact hbb
  · intro w m ptr hw
    obtain ⟨h1, id, off, h2, h3, h4, h5, h6⟩ := hs.weak w m ptr hw
    refine ⟨by rw [hal]; exact h1, id, off, h2, by rw [u.freeId]; exact h3, h4, ?_, ?_⟩
    · intro q hq hqid
      rcases (u.mem hi hp q).1 hq with rfl | ⟨hq, hne⟩
      · obtain ⟨k, g1, g2, g3, g4, g5, g6⟩ := h5 p hp (by rw [← u.id]; exact hqid)
        refine ⟨k, by omega, ?_⟩
        obtain ⟨s1, s2, s3⟩ := hsame k g1
        rw [s1, s2, s3, u.addr_eq, u.addr]
        exact ⟨g2, g3, g4, g5, g6⟩
      · obtain ⟨k, g1, g2, g3, g4, g5, g6⟩ := h5 q hq hqid
        refine ⟨k, g1, ?_⟩
        rw [hoth q hq hne k g1]
        exact ⟨g2, g3, g4, g5, g6⟩
    · intro hno
      have hl := h6 (by
        intro q hq
        by_cases e : q = p
        · subst e; rw [← u.id]; exact hno p' ((u.mem hi hp p').2 (.inl rfl))
        · exact hno q ((u.mem hi hp q).2 (.inr ⟨hq, e⟩)))
      show upd s.live n _ m = none
      unfold upd
      split
      · rename_i e
        subst e
        have : s.live m = some b := (hs.live m b).2 ⟨p, hp, i, hlt, hb⟩
        rw [hl] at this
        cases this
      · exact hl

/-- A count update through a pointer into a live block. -/
theorem refCnt_sim {h : Heap} {s : State} {n : Nat} {b : Block} {a : Nat} {d : Int} (temps : List Nat)
    (hs : Sim h s) (ho : s.Owns n b a) (hd : d = 1 ∨ d = -1) :
    ∃ h', refCnt temps h a d = .ok h' ∧ Sim h' (bump s n b d) := by
  obtain ⟨p, hp, i, hlt, hb, _, _, hhas, hchunk⟩ := hs.toSim0.owns ho
  have hc : (h.hdr (p.chunkAddr i)).refCnt > 0 := hb.2.1
  unfold refCnt
  rw [pageFind_some hs.inv hp hhas, hchunk, if_neg (by omega)]
  simp only
  unfold chunkRefCnt
  have hcnt : (h.hdr (p.chunkAddr i)).refCnt ≤ p.refCnt := by
    rw [hs.inv.cnt p hp]; exact le_sumTo (hs.inv.nonneg p hp) hlt
  dsimp only
  rw [hchunk, if_neg (by omega)]
  have hs1 := hs.setLast hp
  have hsim := addRefs_sim hs1.toSim0 hp hlt hb hd
  have u := addRefs_upd (h := { h with lastAccessed := some p.id }) (p := p) (i := i) d
  have hp' := (u.mem hs1.inv hp _).2 (.inl rfl)
  have hposq : ∀ q ∈ ((addRefs { h with lastAccessed := some p.id } p (p.chunkAddr i) d).1.setPage
      (addRefs { h with lastAccessed := some p.id } p (p.chunkAddr i) d).2).first,
      q ≠ (addRefs { h with lastAccessed := some p.id } p (p.chunkAddr i) d).2 → 0 < q.refCnt := by
    intro q hq hne
    rcases (u.mem hs1.inv hp q).1 hq with rfl | ⟨h1, _⟩
    · exact absurd rfl hne
    · exact hs.pos q h1
  split
  · rename_i h0
    refine ⟨_, rfl, ?_⟩
    rw [← pageRemove_setPage]
    exact pageRemove_sim temps _ hsim hp' h0 hposq hs.fid hs.few
  · rename_i h0
    refine ⟨_, rfl, hsim, ?_, hs.fid, hs.few⟩
    intro q hq
    by_cases e : q = (addRefs { h with lastAccessed := some p.id } p (p.chunkAddr i) d).2
    · have h1 : 0 ≤ q.refCnt := by
        rw [hsim.inv.cnt q hq]; exact sumTo_nonneg (hsim.inv.nonneg q hq)
      have : q.refCnt ≠ 0 := by rw [e]; exact h0
      omega
    · exact hposq q hq e

/-- A count update through any other permitted pointer. -/
theorem refCnt_other {h : Heap} {s : State} {a : Nat} {d : Int} (temps : List Nat) (hs : Sim h s)
    (hok : Spec.PtrOk h a) (hno : ¬ ∃ n b, s.Owns n b a) :
    refCnt temps h a d = .ok h ∨ refCnt temps h a d = .error .dangling := by
  unfold refCnt
  rcases hs.toSim0.not_owns hok hno with h1 | ⟨p, hp, h1, h2⟩
  · rw [pageFind_none hs.inv h1]; exact .inl rfl
  · rw [pageFind_some hs.inv hp h1, if_pos h2]; exact .inr rfl

theorem incref_sim {h : Heap} {s : State} (hs : Sim h s) (a : Nat) (hv : Spec.Valid h (.incref a)) :
    ∃ s', Spec.Step s (.incref a) (step h (.incref a)).1 s' ∧ Sim (step h (.incref a)).2 s' := by
  simp only [step]
  by_cases hex : ∃ n b, s.Owns n b a
  · obtain ⟨n, b, ho⟩ := hex
    obtain ⟨h', e, hs'⟩ := refCnt_sim (d := 1) [] hs ho (.inl rfl)
    have hc : 0 < b.count := by
      obtain ⟨p, _, i, _, hb, _⟩ := hs.toSim0.owns ho
      rw [hb.2.2]; exact hb.2.1
    rw [e]
    refine ⟨_, .inl ⟨n, b, ho, rfl, ?_⟩, hs'⟩
    unfold bump
    rw [if_neg (by omega), if_neg (by omega)]
  · rcases refCnt_other (d := 1) [] hs hv hex with e | e <;> rw [e]
    · exact ⟨s, .inr ⟨hex, .inl rfl, rfl⟩, hs⟩
    · exact ⟨s, .inr ⟨hex, .inr rfl, rfl⟩, hs⟩

theorem decref_sim {h : Heap} {s : State} (hs : Sim h s) (a : Nat) (temps : List Nat)
    (hv : Spec.Valid h (.decref a temps)) :
    ∃ s', Spec.Step s (.decref a temps) (step h (.decref a temps)).1 s' ∧
      Sim (step h (.decref a temps)).2 s' := by
  simp only [step]
  by_cases hex : ∃ n b, s.Owns n b a
  · obtain ⟨n, b, ho⟩ := hex
    obtain ⟨h', e, hs'⟩ := refCnt_sim (d := -1) temps hs ho (.inr rfl)
    rw [e]
    refine ⟨_, .inl ⟨n, b, ho, rfl, ?_⟩, hs'⟩
    unfold bump
    by_cases h1 : b.count = 1
    · rw [if_pos h1]
      simp [h1]
    · rw [if_neg h1, if_neg (by omega)]
      simp [h1, Int.sub_eq_add_neg]
  · rcases refCnt_other (d := -1) temps hs hv hex with e | e <;> rw [e]
    · exact ⟨s, .inr ⟨hex, .inl rfl, rfl⟩, hs⟩
    · exact ⟨s, .inr ⟨hex, .inr rfl, rfl⟩, hs⟩

/-! ### Weak pointers -/

theorem weaken_sim {h : Heap} {s : State} (hs : Sim h s) (a : Nat) (hv : Spec.Valid h (.weaken a)) :
    ∃ s', Spec.Step s (.weaken a) (step h (.weaken a)).1 s' ∧ Sim (step h (.weaken a)).2 s' := by
  simp only [step]
  unfold weaken
  by_cases hex : ∃ n b, s.Owns n b a
  · obtain ⟨n, b, ho⟩ := hex
    obtain ⟨p, hp, i, hlt, hb, g1, g2, hhas, hchunk⟩ := hs.toSim0.owns ho
    have hc : (h.hdr (p.chunkAddr i)).refCnt > 0 := hb.2.1
    have hst : (h.hdr (p.chunkAddr i)).isStack = b.isStack := by rw [hb.2.2]; rfl
    have hocc := (hs.inv.ok p (mem_all_of_first hp)).occ
    rw [pageFind_some hs.inv hp hhas, hchunk, if_neg (by omega)]
    simp only
    rw [hchunk, hst]
    by_cases hstk : b.isStack = true
    · rw [if_pos hstk]
      refine ⟨s, .inl ⟨n, b, ho, ?_⟩, hs⟩
      rw [if_pos hstk]; exact ⟨rfl, rfl⟩
    · rw [if_neg hstk]
      simp only
      have hid := hs.inv.idlt p hp
      have hfid := hs.fid
      have hfew := hs.few
      have hsm := (hs.inv.ok p (mem_all_of_first hp)).small
      have hin := (Page.has_iff p a).1 hhas
      have hown := ho.2
      rw [hb.2.2] at hown
      -- the new weak pointer is correct
      have hwok : WeakOk h s.live (2 ^ 63 + p.id * 2 ^ 32 + (a - p.addr)) n a := by
        refine ⟨?_, p.id, a - p.addr, rfl, hid.2, by omega, ?_, ?_⟩
        · rw [← hb.1]; exact hs.inv.serial p hp i hlt
        · intro q hq e
          have := hs.inv.id_inj hq hp e
          subst this
          refine ⟨i, hlt, hb.1, ?_, hown.1, hown.2, by omega⟩
          have : (h.chunk q i).isStack = b.isStack := hst
          rw [this]
          simpa using hstk
        · intro hno; exact absurd rfl (hno p hp)
      refine ⟨{ s with weak := upd s.weak (2 ^ 63 + p.id * 2 ^ 32 + (a - p.addr)) (some (n, a)) },
        .inl ⟨n, b, ho, ?_⟩, ?_⟩
      · rw [if_neg hstk]
        refine ⟨_, rfl, by omega, by omega, ?_, rfl⟩
        cases hw : s.weak (2 ^ 63 + p.id * 2 ^ 32 + (a - p.addr)) with
        | none => exact .inl rfl
        | some np =>
          obtain ⟨m, ptr⟩ := np
          obtain ⟨w1, id, off, w2, w3, w4, w5, _⟩ := hs.weak _ _ _ hw
          have e1 : id = p.id := by omega
          have e2 : off = a - p.addr := by omega
          obtain ⟨k, k1, k2, _, k4, k5, k6⟩ := w5 p hp e1.symm
          have ea : ptr = a := by omega
          have hfit := hs.inv.fit p hp k k1
          have hk : k = i := by
            apply chunk_idx (p := p) (a := a) _ _ g1 g2
            · omega
            · omega
          subst hk
          right
          rw [ea, ← k2, hb.1]
      · have hs1 := hs.setLast hp
        refine ⟨⟨hs1.inv, hs1.next, hs1.mem, hs1.freed, hs1.live, ?_⟩, hs1.pos, hs1.fid, hs1.few⟩
        intro w m ptr hw
        dsimp only [upd] at hw
        split at hw
        · rename_i e
          cases hw
          subst e
          exact hwok
        · exact hs.weak w m ptr hw
  · rcases hs.toSim0.not_owns hv hex with h1 | ⟨p, hp, h1, h2⟩
    · rw [pageFind_none hs.inv h1]
      exact ⟨s, .inr ⟨hex, .inl rfl, rfl⟩, hs⟩
    · rw [pageFind_some hs.inv hp h1, if_pos h2]
      exact ⟨s, .inr ⟨hex, .inr rfl, rfl⟩, hs⟩

theorem strengthen_sim {h : Heap} {s : State} (hs : Sim h s) (w : Nat) :
    Spec.Step s (.strengthen w) (step h (.strengthen w)).1 s ∧ (step h (.strengthen w)).2 = h := by
  have hh : (step h (.strengthen w)).2 = h := by
    simp only [step]; split <;> rfl
  refine ⟨⟨rfl, ?_, ?_⟩, hh⟩
  · intro n ptr hw
    obtain ⟨h1, id, off, hweq, h3, h4, h5, h6⟩ := hs.weak w n ptr hw
    have hfid := hs.fid
    have hfew := hs.few
    have hge : w / 2 ^ 63 % 2 = 1 := by omega
    have e1 : w / 2 ^ 32 % 2 ^ 31 = id := by omega
    have e2 : w % 2 ^ 31 = off := by omega
    clear hweq
    simp only [step, strengthen]
    rw [if_pos hge, e1, e2]
    cases hf : h.first.find? (fun p => decide (p.id = id)) with
    | none =>
      rw [List.find?_eq_none] at hf
      have := h6 fun p hp => by simpa using hf p hp
      simp [this]
    | some p =>
      have hpid : p.id = id := by simpa using List.find?_some hf
      have hp := List.mem_of_find?_eq_some hf
      obtain ⟨i, hlt, g2, g3, g4, g5, g6⟩ := h5 p hp hpid
      have hfit := hs.inv.fit p hp i hlt
      simp only
      rw [← g6, pageGetChunk_eq (p := p) (i := i) (by omega) (by omega)]
      have g3' : (h.hdr (p.chunkAddr i)).isStack = false := g3
      rw [g3', if_neg (by simp)]
      have hnn : 0 ≤ h.refs p i := hs.inv.nonneg p hp i hlt
      by_cases h0 : (h.hdr (p.chunkAddr i)).refCnt = 0
      · rw [if_pos h0]
        have : s.live n = none := by
          cases hl : s.live n with
          | none => rfl
          | some bb =>
            obtain ⟨q, hq, j, hj, hb⟩ := (hs.live n bb).1 hl
            obtain ⟨rfl, rfl⟩ := hs.inv.inj p hp q hq i hlt j hj (g2.trans hb.1.symm)
            have := hb.2.1
            have e : h.chunk p i = h.hdr (p.chunkAddr i) := rfl
            rw [e] at this
            omega
        simp [this]
      · rw [if_neg h0]
        have e : h.refs p i = (h.hdr (p.chunkAddr i)).refCnt := rfl
        have : s.live n = some _ := (hs.live n _).2 ⟨p, hp, i, hlt, g2, by
          have e : h.chunk p i = h.hdr (p.chunkAddr i) := rfl
          rw [e]; omega, rfl⟩
        simp [this]
  · intro hw
    simp only [step, strengthen]
    rw [if_neg (by omega)]

/-! ### All operations -/

theorem step_sim {h : Heap} {s : State} (hs : Sim h s) (op : Op) (hv : Spec.Valid h op) :
    ∃ s', Spec.Step s op (step h op).1 s' ∧ Sim (step h op).2 s' := by
  cases op with
  | alloc size onFree isStack addr => exact alloc_sim hs size onFree isStack addr hv
  | incref a => exact incref_sim hs a hv
  | decref a temps => exact decref_sim hs a temps hv
  | write a v =>
    refine ⟨{ s with mem := upd s.mem a v }, ⟨rfl, rfl⟩, ?_⟩
    refine ⟨⟨hs.inv.reorg (.refl _) (.refl _) (.refl _) rfl rfl rfl rfl rfl hs.inv.last hs.inv.total
      hs.inv.black, hs.next, ?_, hs.freed, hs.live, hs.weak⟩, hs.pos, hs.fid, hs.few⟩
    show upd s.mem a v = _
    rw [hs.mem]
    rfl
  | weaken a => exact weaken_sim hs a hv
  | strengthen w =>
    obtain ⟨h1, h2⟩ := strengthen_sim hs w
    refine ⟨s, h1, ?_⟩
    rw [h2]
    exact hs
  | memUsage => exact ⟨s, rfl, hs⟩

theorem init_sim (hdr : Nat → Chunk) (mem : Nat → Nat) : Sim (init hdr mem) (Spec.init mem) := by
  refine ⟨⟨?_, rfl, rfl, rfl, ?_, ?_⟩, ?_, ?_, ?_⟩
  · constructor <;> simp [init, Heap.all]
  · intro n b; simp [Spec.init, init]
  · intro w n ptr h; simp [Spec.init] at h
  · intro p hp; simp [init] at hp
  · simp [init]
  · simp [init]

end Umka.Heap
