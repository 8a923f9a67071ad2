import Verif.Heap.Lemmas

/-! # Heap: every operation keeps the invariant -/

namespace Umka.Heap

/-- `h'` is `h` with one page in use, and the header of one of its chunks, updated. -/
structure Upd (h h' : Heap) (p p' : Page) (i : Nat) : Prop where
  first : h'.first = h.first.map fun q => if q.id = p'.id then p' else q
  black : h'.blacklisted = h.blacklisted
  recyc : h'.recycled = h.recycled
  freeId : h'.freeId = h.freeId
  low : h'.lowest = h.lowest
  high : h'.highest = h.highest
  total : h'.totalSize = h.totalSize
  bsize : h'.blacklistedSize = h.blacklistedSize
  last : h'.lastAccessed = h.lastAccessed
  allocs : h.allocs ≤ h'.allocs
  id : p'.id = p.id
  cs : p'.chunkSize = p.chunkSize
  num : p'.numChunks = p.numChunks
  addr : p'.addr = p.addr
  cap : p'.cap = p.cap
  hdr : ∀ a, a ≠ p.chunkAddr i → h'.hdr a = h.hdr a

theorem Upd.mem {h h' : Heap} {p p' : Page} {i : Nat} (hi : Inv h) (hp : p ∈ h.first)
    (u : Upd h h' p p' i) (q : Page) : q ∈ h'.first ↔ q = p' ∨ (q ∈ h.first ∧ q ≠ p) := by
  rw [u.first, List.mem_map]
  constructor
  · rintro ⟨r, hr, rfl⟩
    by_cases e : r.id = p'.id
    · rw [if_pos e]; exact .inl rfl
    · rw [if_neg e]
      refine .inr ⟨hr, ?_⟩
      rintro rfl
      exact e u.id.symm
  · rintro (rfl | ⟨hq, hne⟩)
    · exact ⟨p, hp, by rw [if_pos u.id.symm]⟩
    · refine ⟨q, hq, ?_⟩
      rw [if_neg]
      intro e
      exact hne (hi.id_inj hq hp (e.trans u.id))

theorem Upd.addr_eq {h h' : Heap} {p p' : Page} {i : Nat} (u : Upd h h' p p' i) (j : Nat) :
    p'.chunkAddr j = p.chunkAddr j := by
  unfold Page.chunkAddr; rw [u.addr, u.cs]

theorem Upd.size_eq {h h' : Heap} {p p' : Page} {i : Nat} (u : Upd h h' p p' i) :
    p'.size = p.size := by
  unfold Page.size; rw [u.num, u.cs]

theorem Upd.chunk_other {h h' : Heap} {p p' : Page} {i : Nat} (hi : Inv h) (hp : p ∈ h.first)
    (u : Upd h h' p p' i) (hlt : i < p.numChunks) {q : Page} (hq : q ∈ h.first) (hne : q ≠ p) {j : Nat}
    (hj : j < q.numOcc) : h'.chunk q j = h.chunk q j := by
  unfold Heap.chunk
  apply u.hdr
  have := (hi.ok q (mem_all_of_first hq)).occ
  exact hi.addr_ne hq hp (by omega) hlt (by intro h; exact hne h.1)

theorem Upd.chunk_same {h h' : Heap} {p p' : Page} {i : Nat} (hi : Inv h) (hp : p ∈ h.first)
    (u : Upd h h' p p' i) (hlt : i < p.numChunks) {j : Nat} (hj : j < p.numChunks) (hne : j ≠ i) :
    h'.chunk p' j = h.chunk p j := by
  unfold Heap.chunk
  rw [u.addr_eq]
  apply u.hdr
  exact hi.addr_ne hp hp hj hlt (by intro h; exact hne h.2)

theorem Upd.inv {h h' : Heap} {p p' : Page} {i : Nat} (hi : Inv h) (hp : p ∈ h.first)
    (u : Upd h h' p p' i) (hlt : i < p.numChunks) (hocc : p'.numOcc ≤ p.numChunks)
    (cnt : p'.refCnt = sumTo (h'.refs p') p'.numOcc)
    (nonneg : ∀ j, j < p'.numOcc → 0 ≤ h'.refs p' j)
    (pend : p'.numOnFree = sumTo (h'.pend p') p'.numOcc)
    (serial : ∀ j, j < p'.numOcc → (h'.chunk p' j).serial < h'.allocs)
    (fit : ∀ j, j < p'.numOcc → chunkHeader + (h'.chunk p' j).size + 1 ≤ p'.chunkSize)
    (inj1 : ∀ j, j < p'.numOcc → ∀ k, k < p'.numOcc →
      (h'.chunk p' j).serial = (h'.chunk p' k).serial → j = k)
    (inj2 : ∀ j, j < p'.numOcc → ∀ q ∈ h.first, q ≠ p → ∀ k, k < q.numOcc →
      (h'.chunk p' j).serial ≠ (h.chunk q k).serial) : Inv h' := by
  have hall : h'.all = (h.first.map fun q => if q.id = p'.id then p' else q) ++
      (h.blacklisted ++ h.recycled) := by rw [Heap.all, u.first, u.black, u.recyc]
  have hok' : PageOk p' := by
    have := hi.ok p (mem_all_of_first hp)
    exact ⟨by rw [u.num]; exact this.num, by rw [u.num]; exact hocc, by rw [u.cs]; exact this.cs,
      by rw [u.cs]; exact this.cs8, by rw [u.size_eq, u.cap]; exact this.size,
      by rw [u.size_eq]; exact this.small, by rw [u.addr]; exact this.addr8,
      by rw [u.addr]; exact this.addr0, by rw [u.addr, u.cap]; exact this.addrmax⟩
  -- the update does not change what disjointness is about
  have hproj : ∀ q ∈ h.first, ((if q.id = p'.id then p' else q).addr = q.addr ∧
      (if q.id = p'.id then p' else q).cap = q.cap ∧ (if q.id = p'.id then p' else q).id = q.id) := by
    intro q hq
    by_cases e : q.id = p'.id
    · have := hi.id_inj hq hp (e.trans u.id)
      subst this
      rw [if_pos e]
      exact ⟨u.addr, u.cap, u.id⟩
    · rw [if_neg e]; exact ⟨rfl, rfl, rfl⟩
  have other : ∀ q, q ∈ h.first → q ≠ p → ∀ j, j < q.numOcc → h'.chunk q j = h.chunk q j :=
    fun q hq hne j hj => u.chunk_other hi hp hlt hq hne hj
  constructor
  · intro q hq
    rw [hall, List.mem_append] at hq
    rcases hq with hq | hq
    · rw [← u.first] at hq
      rcases (u.mem hi hp q).1 hq with rfl | ⟨h1, _⟩
      · exact hok'
      · exact hi.ok q (mem_all_of_first h1)
    · exact hi.ok q (by rw [Heap.all]; exact List.mem_append_right _ hq)
  · rw [hall]
    have hd := hi.disj
    rw [Heap.all] at hd
    rw [List.pairwise_append] at hd ⊢
    refine ⟨?_, hd.2.1, ?_⟩
    · rw [List.pairwise_map]
      refine List.Pairwise.imp_of_mem ?_ hd.1
      intro a b ha hb hab
      have h1 := hproj a ha
      have h2 := hproj b hb
      unfold Disj at *
      rw [h1.1, h1.2.1, h2.1, h2.2.1]
      exact hab
    · intro a ha b hb
      rw [List.mem_map] at ha
      obtain ⟨c, hc, rfl⟩ := ha
      have h1 := hproj c hc
      have := hd.2.2 c hc b hb
      unfold Disj at *
      rw [h1.1, h1.2.1]
      exact this
  · rw [u.first, List.pairwise_map]
    refine List.Pairwise.imp_of_mem ?_ hi.ids
    intro a b ha hb hab
    rw [(hproj a ha).2.2, (hproj b hb).2.2]
    exact hab
  · intro q hq
    rw [u.freeId]
    rcases (u.mem hi hp q).1 hq with rfl | ⟨h1, _⟩
    · rw [u.id]; exact hi.idlt p hp
    · exact hi.idlt q h1
  · rw [u.freeId]; exact hi.freeId
  · intro q hq
    rcases (u.mem hi hp q).1 hq with rfl | ⟨h1, hne⟩
    · exact cnt
    · rw [hi.cnt q h1]
      apply sumTo_congr
      intro j hj
      rw [Heap.refs, Heap.refs, other q h1 hne j hj]
  · intro q hq j hj
    rcases (u.mem hi hp q).1 hq with rfl | ⟨h1, hne⟩
    · exact nonneg j hj
    · rw [Heap.refs, other q h1 hne j hj]; exact hi.nonneg q h1 j hj
  · intro q hq
    rcases (u.mem hi hp q).1 hq with rfl | ⟨h1, hne⟩
    · exact pend
    · rw [hi.pend q h1]
      apply sumTo_congr
      intro j hj
      rw [Heap.pend, Heap.pend, other q h1 hne j hj]
  · intro q hq
    rw [u.low]
    rcases (u.mem hi hp q).1 hq with rfl | ⟨h1, _⟩
    · rw [u.addr]; exact hi.low p hp
    · exact hi.low q h1
  · intro q hq
    rw [u.high]
    rcases (u.mem hi hp q).1 hq with rfl | ⟨h1, _⟩
    · rw [u.addr, u.size_eq]; exact hi.high p hp
    · exact hi.high q h1
  · intro k hk
    rw [u.last] at hk
    obtain ⟨q, hq, rfl⟩ := hi.last k hk
    by_cases e : q = p
    · subst e; exact ⟨p', (u.mem hi hp p').2 (.inl rfl), u.id⟩
    · exact ⟨q, (u.mem hi hp q).2 (.inr ⟨hq, e⟩), rfl⟩
  · intro q hq j hj
    rcases (u.mem hi hp q).1 hq with rfl | ⟨h1, hne⟩
    · exact serial j hj
    · rw [other q h1 hne j hj]
      have := hi.serial q h1 j hj
      have := u.allocs
      omega
  · intro q hq r hr j hj k hk e
    rcases (u.mem hi hp q).1 hq with rfl | ⟨h1, hne⟩ <;>
      rcases (u.mem hi hp r).1 hr with rfl | ⟨h2, hne2⟩
    · exact ⟨rfl, inj1 j hj k hk e⟩
    · rw [other r h2 hne2 k hk] at e
      exact absurd e (inj2 j hj r h2 hne2 k hk)
    · rw [other q h1 hne j hj] at e
      exact absurd e.symm (inj2 k hk q h1 hne j hj)
    · rw [other q h1 hne j hj, other r h2 hne2 k hk] at e
      exact hi.inj q h1 r h2 j hj k hk e
  · intro q hq j hj
    rcases (u.mem hi hp q).1 hq with rfl | ⟨h1, hne⟩
    · exact fit j hj
    · rw [other q h1 hne j hj]; exact hi.fit q h1 j hj
  · rw [u.total]
    have : (h'.all.map fun p => (p.cap : Int)) = h.all.map fun p => (p.cap : Int) := by
      rw [hall, Heap.all, List.map_append, List.map_append, List.map_map]
      rw [List.map_append (l₁ := h.first)]
      rw [List.map_append]
      congr 1
      apply List.map_congr_left
      intro q hq
      simp only [Function.comp, (hproj q hq).2.1]
    rw [this]
    exact hi.total
  · rw [u.bsize, u.black]; exact hi.black

/-! ### Taking a chunk -/

theorem takeChunk_upd {h : Heap} {p : Page} (size : Nat) (onFree isStack : Bool) :
    Upd h (takeChunk h p size onFree isStack) p
      { p with numOcc := p.numOcc + 1, numOnFree := if onFree then p.numOnFree + 1 else p.numOnFree,
               refCnt := p.refCnt + 1 } p.numOcc := by
  refine ⟨rfl, rfl, rfl, rfl, rfl, rfl, rfl, rfl, rfl, ?_, rfl, rfl, rfl, rfl, rfl, ?_⟩
  · show h.allocs ≤ h.allocs + 1; omega
  · intro a ha
    show (if a = p.chunkAddr p.numOcc then _ else h.hdr a) = h.hdr a
    rw [if_neg ha]

theorem takeChunk_inv {h : Heap} {p : Page} {size : Nat} (onFree isStack : Bool) (hi : Inv h)
    (hp : p ∈ h.first) (hocc : p.numOcc < p.numChunks) (hsize : chunkHeader + size + 1 ≤ p.chunkSize) :
    Inv (takeChunk h p size onFree isStack) := by
  have u := takeChunk_upd (h := h) (p := p) size onFree isStack
  have hnew : ∀ j, j = p.numOcc → (takeChunk h p size onFree isStack).chunk
      { p with numOcc := p.numOcc + 1, numOnFree := if onFree then p.numOnFree + 1 else p.numOnFree,
               refCnt := p.refCnt + 1 } j =
      { refCnt := 1, size := size, onFree := onFree, isStack := isStack, serial := h.allocs } := by
    rintro j rfl
    show (if p.chunkAddr p.numOcc = p.chunkAddr p.numOcc then _ else _) = _
    rw [if_pos rfl]
  have hold : ∀ j, j < p.numOcc → (takeChunk h p size onFree isStack).chunk
      { p with numOcc := p.numOcc + 1, numOnFree := if onFree then p.numOnFree + 1 else p.numOnFree,
               refCnt := p.refCnt + 1 } j = h.chunk p j :=
    fun j hj => u.chunk_same hi hp hocc (by omega) (by omega)
  refine u.inv hi hp hocc (by show p.numOcc + 1 ≤ _; omega) ?_ ?_ ?_ ?_ ?_ ?_ ?_
  · show p.refCnt + 1 = sumTo _ (p.numOcc + 1)
    have h1 := hi.cnt p hp
    rw [sumTo, sumTo_congr (g := h.refs p) (fun j hj => by rw [Heap.refs, Heap.refs, hold j hj]), ← h1,
      Heap.refs, hnew _ rfl]
  · intro j hj
    have hj : j < p.numOcc + 1 := hj
    rw [Heap.refs]
    by_cases e : j = p.numOcc
    · rw [hnew j e]; simp
    · rw [hold j (by omega)]; exact hi.nonneg p hp j (by omega)
  · show ((if onFree = true then p.numOnFree + 1 else p.numOnFree : Nat) : Int) =
      sumTo _ (p.numOcc + 1)
    rw [sumTo, Heap.pend, hnew _ rfl]
    have : sumTo ((takeChunk h p size onFree isStack).pend { p with
        numOcc := p.numOcc + 1, numOnFree := if onFree then p.numOnFree + 1 else p.numOnFree,
        refCnt := p.refCnt + 1 }) p.numOcc = p.numOnFree := by
      rw [hi.pend p hp]
      apply sumTo_congr
      intro j hj
      rw [Heap.pend, Heap.pend, hold j hj]
    rw [this]
    cases onFree <;> simp
  · intro j hj
    have hj : j < p.numOcc + 1 := hj
    show _ < h.allocs + 1
    by_cases e : j = p.numOcc
    · rw [hnew j e]; simp
    · rw [hold j (by omega)]
      have := hi.serial p hp j (by omega)
      omega
  · intro j hj
    have hj : j < p.numOcc + 1 := hj
    by_cases e : j = p.numOcc
    · rw [hnew j e]; exact hsize
    · rw [hold j (by omega)]; exact hi.fit p hp j (by omega)
  · intro j hj k hk e
    have hj : j < p.numOcc + 1 := hj
    have hk : k < p.numOcc + 1 := hk
    by_cases ej : j = p.numOcc <;> by_cases ek : k = p.numOcc
    · omega
    · rw [hnew j ej, hold k (by omega)] at e
      have := hi.serial p hp k (by omega)
      simp only at e; omega
    · rw [hnew k ek, hold j (by omega)] at e
      have := hi.serial p hp j (by omega)
      simp only at e; omega
    · rw [hold j (by omega), hold k (by omega)] at e
      exact (hi.inj p hp p hp j (by omega) k (by omega) e).2
  · intro j hj q hq hne k hk e
    have hj : j < p.numOcc + 1 := hj
    by_cases ej : j = p.numOcc
    · rw [hnew j ej] at e
      have := hi.serial q hq k hk
      simp only at e; omega
    · rw [hold j (by omega)] at e
      exact hne (hi.inj p hp q hq j (by omega) k hk e).1.symm

/-! ### Changing a count -/

theorem addRefs_upd {h : Heap} {p : Page} {i : Nat} (d : Int) :
    Upd h ((addRefs h p (p.chunkAddr i) d).1.setPage (addRefs h p (p.chunkAddr i) d).2) p
      (addRefs h p (p.chunkAddr i) d).2 i := by
  refine ⟨rfl, rfl, rfl, rfl, rfl, rfl, rfl, rfl, rfl, Nat.le_refl _, rfl, rfl, rfl, rfl, rfl, ?_⟩
  intro a ha
  show (if a = p.chunkAddr i then _ else h.hdr a) = h.hdr a
  rw [if_neg ha]

theorem addRefs_inv {h : Heap} {p : Page} {i : Nat} {d : Int} (hi : Inv h) (hp : p ∈ h.first)
    (hlt : i < p.numOcc) (hpos : 0 < h.refs p i) (hd : d = 1 ∨ d = -1) :
    Inv ((addRefs h p (p.chunkAddr i) d).1.setPage (addRefs h p (p.chunkAddr i) d).2) := by
  have u := addRefs_upd (h := h) (p := p) (i := i) d
  have hocc := (hi.ok p (mem_all_of_first hp)).occ
  have hnew : ((addRefs h p (p.chunkAddr i) d).1.setPage (addRefs h p (p.chunkAddr i) d).2).chunk
      (addRefs h p (p.chunkAddr i) d).2 i = { h.chunk p i with refCnt := h.refs p i + d } := by
    show (if p.chunkAddr i = p.chunkAddr i then _ else _) = _
    rw [if_pos rfl]; rfl
  have hold : ∀ j, j < p.numOcc → j ≠ i →
      ((addRefs h p (p.chunkAddr i) d).1.setPage (addRefs h p (p.chunkAddr i) d).2).chunk
      (addRefs h p (p.chunkAddr i) d).2 j = h.chunk p j :=
    fun j hj hne => u.chunk_same hi hp (by omega) (by omega) hne
  have hser : ∀ j, j < p.numOcc →
      (((addRefs h p (p.chunkAddr i) d).1.setPage (addRefs h p (p.chunkAddr i) d).2).chunk
      (addRefs h p (p.chunkAddr i) d).2 j).serial = (h.chunk p j).serial ∧
      (((addRefs h p (p.chunkAddr i) d).1.setPage (addRefs h p (p.chunkAddr i) d).2).chunk
      (addRefs h p (p.chunkAddr i) d).2 j).size = (h.chunk p j).size := by
    intro j hj
    by_cases e : j = i
    · subst e; rw [hnew]; exact ⟨rfl, rfl⟩
    · rw [hold j hj e]; exact ⟨rfl, rfl⟩
  refine u.inv hi hp (by omega) hocc ?_ ?_ ?_ ?_ ?_ ?_ ?_
  · show p.refCnt + d = sumTo _ p.numOcc
    rw [hi.cnt p hp]
    symm
    apply sumTo_update hlt
    · intro j hj hne
      rw [Heap.refs, Heap.refs, hold j hj hne]
    · rw [Heap.refs, hnew]
  · intro j hj
    have hj : j < p.numOcc := hj
    rw [Heap.refs]
    by_cases e : j = i
    · subst e; rw [hnew]; show 0 ≤ h.refs p j + d; omega
    · rw [hold j hj e]; exact hi.nonneg p hp j hj
  · show (((if (h.chunk p i).onFree && (h.chunk p i).refCnt == 1 && d == -1 then p.numOnFree - 1
      else p.numOnFree : Nat)) : Int) = sumTo _ p.numOcc
    have hpi : h.pend p i ≤ p.numOnFree := by
      rw [hi.pend p hp]
      apply le_sumTo _ hlt
      intro j _
      unfold Heap.pend
      split <;> omega
    have hrefs : h.refs p i = (h.chunk p i).refCnt := rfl
    have e : sumTo (((addRefs h p (p.chunkAddr i) d).1.setPage (addRefs h p (p.chunkAddr i) d).2).pend
        (addRefs h p (p.chunkAddr i) d).2) p.numOcc = sumTo (h.pend p) p.numOcc +
        (if (h.chunk p i).onFree = true ∧ 0 < (h.chunk p i).refCnt + d then 1 else 0) - h.pend p i := by
      rw [sumTo_update (f := h.pend p) (d := (if (h.chunk p i).onFree = true ∧
        0 < (h.chunk p i).refCnt + d then 1 else 0) - h.pend p i) hlt]
      · omega
      · intro j hj hne
        rw [Heap.pend, Heap.pend, hold j hj hne]
      · rw [Heap.pend, hnew]
        show (if (h.chunk p i).onFree = true ∧ 0 < (h.chunk p i).refCnt + d then (1 : Int) else 0) = _
        omega
    rw [e, ← hi.pend p hp]
    unfold Heap.pend at hpi ⊢
    cases hf : (h.chunk p i).onFree
    · simp
    · simp only [hf, true_and] at hpi ⊢
      have hp1 : 0 < (h.chunk p i).refCnt := by omega
      rw [if_pos hp1] at hpi ⊢
      rcases hd with rfl | rfl
      · have h2 : 0 < (h.chunk p i).refCnt + 1 := by omega
        rw [if_pos h2]
        simp
      · by_cases h1 : (h.chunk p i).refCnt = 1
        · simp [h1]; omega
        · have h2 : 0 < (h.chunk p i).refCnt + -1 := by omega
          rw [if_pos h2]
          simp [h1]
  · intro j hj
    have hj : j < p.numOcc := hj
    rw [(hser j hj).1]; exact hi.serial p hp j hj
  · intro j hj
    have hj : j < p.numOcc := hj
    rw [(hser j hj).2]; exact hi.fit p hp j hj
  · intro j hj k hk e
    have hj : j < p.numOcc := hj
    have hk : k < p.numOcc := hk
    rw [(hser j hj).1, (hser k hk).1] at e
    exact (hi.inj p hp p hp j hj k hk e).2
  · intro j hj q hq hne k hk e
    have hj : j < p.numOcc := hj
    rw [(hser j hj).1] at e
    exact hne (hi.inj p hp q hq j hj k hk e).1.symm

/-! ### Moving pages between lists -/

/-- The invariant survives a rearrangement of the page lists in which pages in use stay the same or
leave. -/
theorem Inv.reorg {h h' : Heap} {l : List Page} (hi : Inv h) (hperm : h'.all.Perm l)
    (hsub : l.Sublist h.all) (hfirst : h'.first.Sublist h.first) (hfree : h'.freeId = h.freeId)
    (halloc : h'.allocs = h.allocs) (hhdr : h'.hdr = h.hdr) (hlow : h'.lowest = h.lowest)
    (hhigh : h'.highest = h.highest)
    (hlast : ∀ i, h'.lastAccessed = some i → ∃ p ∈ h'.first, p.id = i)
    (htotal : (h'.all.map fun p => (p.cap : Int)).sum ≤ h'.totalSize)
    (hblack : h'.blacklistedSize = (h'.blacklisted.map fun p => (p.size : Int)).sum) : Inv h' := by
  have hc : ∀ p i, h'.chunk p i = h.chunk p i := by intro p i; rw [Heap.chunk, hhdr]; rfl
  have hr : ∀ p, h'.refs p = h.refs p := by intro p; funext i; rw [Heap.refs, hc]; rfl
  have hpd : ∀ p, h'.pend p = h.pend p := by intro p; funext i; rw [Heap.pend, hc]; rfl
  constructor
  · intro p hp
    exact hi.ok p (hsub.subset (hperm.subset hp))
  · exact (hperm.pairwise_iff (fun {x y} h => Disj.symm x y h)).2 (hi.disj.sublist hsub)
  · exact hi.ids.sublist hfirst
  · rw [hfree]; intro p hp; exact hi.idlt p (hfirst.subset hp)
  · rw [hfree]; exact hi.freeId
  · intro p hp; rw [hr]; exact hi.cnt p (hfirst.subset hp)
  · intro p hp; rw [hr]; exact hi.nonneg p (hfirst.subset hp)
  · intro p hp; rw [hpd]; exact hi.pend p (hfirst.subset hp)
  · intro p hp; rw [hlow]; exact hi.low p (hfirst.subset hp)
  · intro p hp; rw [hhigh]; exact hi.high p (hfirst.subset hp)
  · exact hlast
  · intro p hp i hlt; rw [hc, halloc]; exact hi.serial p (hfirst.subset hp) i hlt
  · intro p hp q hq i hlt j hjt; rw [hc, hc]
    exact hi.inj p (hfirst.subset hp) q (hfirst.subset hq) i hlt j hjt
  · intro p hp i hlt; rw [hc]; exact hi.fit p (hfirst.subset hp) i hlt
  · exact htotal
  · exact hblack

/-- Changing the cached page. -/
theorem Inv.setLast {h : Heap} (hi : Inv h) {p : Page} (hp : p ∈ h.first) :
    Inv { h with lastAccessed := some p.id } :=
  hi.reorg (l := h.all) (.refl _) (.refl _) (.refl _) rfl rfl rfl rfl rfl
    (by intro i e; cases e; exact ⟨p, hp, rfl⟩) hi.total hi.black

theorem sum_perm {l l' : List Int} (h : l.Perm l') : l.sum = l'.sum := by
  induction h with
  | nil => rfl
  | cons _ _ ih => simp [ih]
  | swap _ _ _ => simp; omega
  | trans _ _ h1 h2 => exact h1.trans h2

theorem moveBlacklisted_inv {h : Heap} (temps : List Nat) (hi : Inv h) :
    Inv (moveBlacklisted temps h) := by
  unfold moveBlacklisted
  split
  · exact hi
  · have hp : (List.filter (fun p => referencedBy temps p) h.blacklisted ++
        ((List.filter (fun p => !referencedBy temps p) h.blacklisted).reverse ++ h.recycled)).Perm
        (h.blacklisted ++ h.recycled) := by
      rw [← List.append_assoc]
      apply List.Perm.append_right
      exact ((List.reverse_perm _).append_left _).trans (List.filter_append_perm _ _)
    have hall : Heap.all { h with
        blacklisted := h.blacklisted.filter fun p => referencedBy temps p
        recycled := (h.blacklisted.filter fun p => !referencedBy temps p).reverse ++ h.recycled
        blacklistedSize := h.blacklistedSize -
          ((h.blacklisted.filter fun p => !referencedBy temps p).map fun p => (p.size : Int)).sum }
        |>.Perm h.all := by
      exact List.Perm.append_left _ hp
    refine hi.reorg hall (.refl _) (.refl _) rfl rfl rfl rfl rfl hi.last ?_ ?_
    · rw [sum_perm (hall.map _)]; exact hi.total
    · show h.blacklistedSize - _ = _
      rw [hi.black, ← sum_perm ((List.filter_append_perm (fun p => referencedBy temps p) _).map
        (fun p => (p.size : Int)))]
      rw [List.map_append, List.sum_append]
      dsimp only
      omega

theorem first_perm {h : Heap} (hi : Inv h) {p : Page} (hp : p ∈ h.first) :
    h.first.Perm (p :: h.first.filter fun q => q.id ≠ p.id) := by
  have h1 := (List.filter_append_perm (fun q : Page => decide (q.id = p.id)) h.first).symm
  have h2 : h.first.filter (fun q : Page => decide (q.id = p.id)) = [p] := by
    have hids := hi.ids
    have huniq : ∀ q ∈ h.first, q.id = p.id → q = p := fun q hq e => hi.id_inj hq hp e
    clear h1 hi
    generalize h.first = l at hp hids huniq
    induction l with
    | nil => simp at hp
    | cons q qs ih =>
      rw [List.pairwise_cons] at hids
      by_cases e : q.id = p.id
      · have := huniq q (by simp) e
        subst this
        rw [List.filter_cons_of_pos (by simp)]
        congr 1
        rw [List.filter_eq_nil_iff]
        intro a ha
        have := hids.1 a ha
        simpa using fun e => this e.symm
      · rw [List.filter_cons_of_neg (by simpa using e)]
        apply ih _ hids.2
        · intro r hr; exact huniq r (by simp [hr])
        · rcases List.mem_cons.1 hp with rfl | h
          · exact absurd rfl e
          · exact h
  rw [h2] at h1
  refine h1.trans ?_
  simp

theorem pageRemove_inv {h : Heap} (temps : List Nat) (hi : Inv h) {p : Page} (hp : p ∈ h.first)
    (b : Bool) : Inv (pageRemove temps h p b) := by
  have hf := first_perm hi hp
  -- out of use, and provisionally recycled
  have key : ∀ (bl rc : List Page) (bs : Int), (bl ++ rc).Perm (p :: (h.blacklisted ++ h.recycled)) →
      bs = (bl.map fun p => (p.size : Int)).sum →
      Inv { h with
        first := h.first.filter fun q => q.id ≠ p.id
        lastAccessed := if h.lastAccessed = some p.id then
          (h.first.filter fun q => q.id ≠ p.id).head?.map Page.id else h.lastAccessed
        blacklisted := bl, recycled := rc, blacklistedSize := bs } := by
    intro bl rc bs hperm hbs
    have hall : Heap.all { h with
        first := h.first.filter fun q => q.id ≠ p.id
        lastAccessed := if h.lastAccessed = some p.id then
          (h.first.filter fun q => q.id ≠ p.id).head?.map Page.id else h.lastAccessed
        blacklisted := bl, recycled := rc, blacklistedSize := bs } |>.Perm h.all := by
      show ((h.first.filter fun q => q.id ≠ p.id) ++ (bl ++ rc)).Perm
        (h.first ++ (h.blacklisted ++ h.recycled))
      refine (hperm.append_left _).trans ?_
      refine List.perm_middle.trans ?_
      exact (hf.append_right _).symm
    refine hi.reorg hall (.refl _) List.filter_sublist rfl rfl rfl rfl rfl ?_ ?_ hbs
    · intro i e
      dsimp only at e
      split at e
      · rw [Option.map_eq_some_iff] at e
        obtain ⟨q, hq, rfl⟩ := e
        exact ⟨q, List.mem_of_mem_head? hq, rfl⟩
      · rename_i hne
        obtain ⟨q, hq, rfl⟩ := hi.last i e
        refine ⟨q, ?_, rfl⟩
        simp only [List.mem_filter, hq, true_and, decide_eq_true_eq]
        intro e'
        rw [e, e'] at hne
        exact hne rfl
    · rw [sum_perm (hall.map _)]; exact hi.total
  unfold pageRemove
  cases b
  · simp only [Bool.false_eq_true, if_false]
    exact key h.blacklisted (p :: h.recycled) h.blacklistedSize List.perm_middle hi.black
  · simp only [if_true]
    unfold moveBlacklisted
    dsimp only
    split
    · apply key
      · exact .refl _
      · rw [hi.black]; simp; omega
    · apply key
      · rw [List.cons_append]
        apply List.Perm.cons
        rw [← List.append_assoc]
        apply List.Perm.append_right
        exact ((List.reverse_perm _).append_left _).trans (List.filter_append_perm _ _)
      · rw [hi.black, ← sum_perm ((List.filter_append_perm (fun p => referencedBy temps p) _).map
          (fun p => (p.size : Int)))]
        rw [List.map_append, List.sum_append]
        simp
        omega

/-! ### New pages -/

theorem findRecycled_spec (size : Nat) (l : List Page) (total : Int) :
    (∃ pre p rest, l = pre ++ p :: rest ∧ size ≤ p.size ∧
      findRecycled size l total = (some p, rest, total - (pre.map fun p => (p.size : Int)).sum)) ∨
    findRecycled size l total = (none, [], total - (l.map fun p => (p.size : Int)).sum) := by
  induction l generalizing total with
  | nil => exact .inr (by simp [findRecycled])
  | cons q qs ih =>
    rw [findRecycled]
    by_cases h : q.size ≥ size
    · rw [if_pos h]
      exact .inl ⟨[], q, qs, rfl, h, by simp⟩
    · rw [if_neg h]
      rcases ih (total - q.size) with ⟨pre, p, rest, rfl, h1, h2⟩ | h2
      · refine .inl ⟨q :: pre, p, rest, rfl, h1, ?_⟩
        rw [h2]
        simp only [List.map_cons, List.sum_cons]
        congr 2
        omega
      · refine .inr ?_
        rw [h2]
        simp only [List.map_cons, List.sum_cons]
        congr 2
        omega

theorem sum_size_le {l : List Page} (h : ∀ p ∈ l, PageOk p) :
    (l.map fun p => (p.size : Int)).sum ≤ (l.map fun p => (p.cap : Int)).sum := by
  induction l with
  | nil => simp
  | cons p ps ih =>
    have h1 := ih fun q hq => h q (by simp [hq])
    have h2 := (h p (by simp)).size
    simp only [List.map_cons, List.sum_cons]
    omega

theorem pageAdd_spec {h : Heap} {cs addr : Nat} (hi : Inv h) (hcs : 64 ≤ cs) (hcs8 : cs % 8 = 0)
    (hmax : cs ≤ intMax) (hm : Spec.MallocOk h addr (pageBytes cs)) :
    ∃ h' p, pageAdd h (chunksPerPage cs) cs addr = (h', p) ∧ Inv h' ∧ p.id = h.freeId ∧ p.numOcc = 0 ∧
      p.chunkSize = cs ∧ 0 < p.numChunks ∧ p.refCnt = 0 ∧ h'.first = p :: h.first ∧ h'.hdr = h.hdr ∧
      h'.mem = h.mem ∧ h'.allocs = h.allocs ∧ h'.freed = h.freed := by
  obtain ⟨hn0, hsz⟩ := chunksPerPage_spec (by omega) hmax
  -- the memory for the page, from either source
  have hsrc : ∃ (a cap : Nat) (rest : List Page) (total : Int),
      pageAdd h (chunksPerPage cs) cs addr =
      ({ h with
        first := { id := h.freeId, refCnt := 0, numChunks := chunksPerPage cs, numOcc := 0, numOnFree := 0,
                   chunkSize := cs, addr := a, cap := cap } :: h.first
        recycled := rest
        totalSize := total
        freeId := h.freeId + 1
        lowest := match h.lowest with
          | none => some a
          | some l => some (if l > a then a else l)
        highest := match h.highest with
          | none => some (a + pageBytes cs)
          | some u => some (if u < a + pageBytes cs then a + pageBytes cs else u)
        lastAccessed := some h.freeId },
       { id := h.freeId, refCnt := 0, numChunks := chunksPerPage cs, numOcc := 0, numOnFree := 0,
         chunkSize := cs, addr := a, cap := cap }) ∧
      pageBytes cs ≤ cap ∧ a % 8 = 0 ∧ 0 < a ∧ a + cap < 2 ^ 63 ∧
      rest.Sublist h.recycled ∧
      (∀ q ∈ h.first ++ (h.blacklisted ++ rest), a + cap ≤ q.addr ∨ q.addr + q.cap ≤ a) ∧
      (cap : Int) + ((h.first ++ (h.blacklisted ++ rest)).map fun p => (p.cap : Int)).sum ≤ total := by
    have htot := hi.total
    have hokr : ∀ p ∈ h.recycled, PageOk p := fun p hp => hi.ok p (by simp [Heap.all, hp])
    simp only [Heap.all, List.map_append, List.sum_append] at htot
    rcases findRecycled_spec (pageBytes cs) h.recycled h.totalSize with ⟨pre, p, rest, hl, h1, h2⟩ | h2
    · refine ⟨p.addr, p.cap, rest, h.totalSize - (pre.map fun p => (p.size : Int)).sum, ?_, ?_, ?_, ?_,
        ?_, ?_, ?_, ?_⟩
      · unfold pageAdd
        dsimp only
        rw [show chunksPerPage cs * cs = pageBytes cs from rfl, h2]
        try rfl
      · have := (hokr p (by simp [hl])).size; omega
      · exact (hokr p (by simp [hl])).addr8
      · exact (hokr p (by simp [hl])).addr0
      · exact (hokr p (by simp [hl])).addrmax
      · rw [hl]; exact (List.sublist_cons_self p rest).trans (List.sublist_append_right _ _)
      · intro q hq
        have hd := hi.disj
        rw [Heap.all, hl] at hd
        have hperm : (h.first ++ (h.blacklisted ++ (pre ++ p :: rest))).Perm
            (p :: (h.first ++ (h.blacklisted ++ (pre ++ rest)))) := by
          refine ((List.perm_middle.append_left _).append_left _).trans ?_
          refine (List.perm_middle.append_left _).trans ?_
          exact List.perm_middle
        have hd := (hperm.pairwise_iff (fun {x y} h => Disj.symm x y h)).1 hd
        rw [List.pairwise_cons] at hd
        apply hd.1
        simp only [List.mem_append] at hq ⊢
        rcases hq with h | h | h
        · exact .inl h
        · exact .inr (.inl h)
        · exact .inr (.inr (.inr h))
      · have hpre := sum_size_le (l := pre) fun q hq => hokr q (by simp [hl, hq])
        rw [hl] at htot
        simp only [List.map_append, List.sum_append, List.map_cons, List.sum_cons] at htot ⊢
        omega
    · refine ⟨addr, pageBytes cs, [], h.totalSize - (h.recycled.map fun p => (p.size : Int)).sum +
        (pageBytes cs : Nat), ?_, Nat.le_refl _, hm.1, hm.2.1, hm.2.2.1, by simp, ?_, ?_⟩
      · unfold pageAdd
        dsimp only
        rw [show chunksPerPage cs * cs = pageBytes cs from rfl, h2]
        try rfl
      · intro q hq
        have := hm.2.2.2 q (by simpa using hq)
        omega
      · have hpre := sum_size_le (l := h.recycled) hokr
        simp only [List.map_append, List.sum_append, List.map_nil, List.sum_nil] at htot ⊢
        omega
  obtain ⟨a, cap, rest, total, heq, hc1, ha8, ha0, hamax, hrest, hdisj, htotal⟩ := hsrc
  refine ⟨_, _, heq, ?_, rfl, rfl, rfl, hn0, rfl, rfl, rfl, rfl, rfl, rfl⟩
  constructor
  · intro q hq
    simp only [Heap.all, List.cons_append, List.mem_cons] at hq
    rcases hq with rfl | hq
    · exact ⟨hn0, Nat.zero_le _, hcs, hcs8, hc1, hsz, ha8, ha0, hamax⟩
    · apply hi.ok
      simp only [Heap.all, List.mem_append] at hq ⊢
      rcases hq with h | h | h
      · exact .inl h
      · exact .inr (.inl h)
      · exact .inr (.inr (hrest.subset h))
  · simp only [Heap.all, List.cons_append, List.pairwise_cons]
    refine ⟨fun q hq => hdisj q hq, ?_⟩
    exact List.Pairwise.sublist (List.Sublist.append_left (List.Sublist.append_left hrest _) _) hi.disj
  · simp only [List.pairwise_cons]
    refine ⟨fun q hq => ?_, hi.ids⟩
    have := (hi.idlt q hq).2
    omega
  · intro q hq
    show 0 < q.id ∧ q.id < h.freeId + 1
    rcases List.mem_cons.1 hq with rfl | hq
    · have := hi.freeId; simp only; omega
    · have := hi.idlt q hq; omega
  · show 0 < h.freeId + 1
    omega
  · intro q hq
    rcases List.mem_cons.1 hq with rfl | hq
    · rfl
    · exact hi.cnt q hq
  · intro q hq i hlt
    rcases List.mem_cons.1 hq with rfl | hq
    · simp at hlt
    · exact hi.nonneg q hq i hlt
  · intro q hq
    rcases List.mem_cons.1 hq with rfl | hq
    · rfl
    · exact hi.pend q hq
  · intro q hq
    rcases List.mem_cons.1 hq with rfl | hq
    · simp only
      cases h.lowest with
      | none => exact ⟨a, rfl, Nat.le_refl _⟩
      | some l => exact ⟨_, rfl, by split <;> omega⟩
    · obtain ⟨l, h1, h2⟩ := hi.low q hq
      simp only [h1]
      exact ⟨_, rfl, by split <;> omega⟩
  · intro q hq
    rcases List.mem_cons.1 hq with rfl | hq
    · show ∃ u, (match h.highest with
          | none => some (a + pageBytes cs)
          | some u => some (if u < a + pageBytes cs then a + pageBytes cs else u)) = some u ∧
          a + pageBytes cs ≤ u
      cases h.highest with
      | none => exact ⟨_, rfl, Nat.le_refl _⟩
      | some l => exact ⟨_, rfl, by split <;> omega⟩
    · obtain ⟨l, h1, h2⟩ := hi.high q hq
      simp only [h1]
      exact ⟨_, rfl, by split <;> omega⟩
  · intro i e
    cases e
    exact ⟨_, List.mem_cons_self .., rfl⟩
  · intro q hq i hlt
    rcases List.mem_cons.1 hq with rfl | hq
    · simp at hlt
    · exact hi.serial q hq i hlt
  · intro q hq r hr i hlt j hjt e
    rcases List.mem_cons.1 hq with rfl | hq
    · simp at hlt
    · rcases List.mem_cons.1 hr with rfl | hr
      · simp at hjt
      · exact hi.inj q hq r hr i hlt j hjt e
  · intro q hq i hlt
    rcases List.mem_cons.1 hq with rfl | hq
    · simp at hlt
    · exact hi.fit q hq i hlt
  · simpa only [Heap.all, List.cons_append, List.map_cons, List.sum_cons] using htotal
  · exact hi.black

end Umka.Heap
