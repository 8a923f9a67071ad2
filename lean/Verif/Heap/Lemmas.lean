import Verif.Heap.Spec

/-! # Heap: invariant and simulation lemmas -/

namespace Umka.Heap

/-! ### Sums -/

/-- `f 0 + ... + f (n - 1)`. -/
def sumTo (f : Nat → Int) : Nat → Int
  | 0 => 0
  | n + 1 => sumTo f n + f n

theorem sumTo_congr {f g : Nat → Int} {n : Nat} (h : ∀ i, i < n → f i = g i) :
    sumTo f n = sumTo g n := by
  induction n with
  | zero => rfl
  | succ n ih => rw [sumTo, sumTo, ih (fun i hi => h i (by omega)), h n (by omega)]

theorem sumTo_nonneg {f : Nat → Int} {n : Nat} (h : ∀ i, i < n → 0 ≤ f i) : 0 ≤ sumTo f n := by
  induction n with
  | zero => simp [sumTo]
  | succ n ih =>
    have h1 := ih (fun i hi => h i (by omega))
    have h2 := h n (by omega)
    rw [sumTo]; omega

theorem le_sumTo {f : Nat → Int} {n i : Nat} (h : ∀ i, i < n → 0 ≤ f i) (hi : i < n) :
    f i ≤ sumTo f n := by
  induction n with
  | zero => omega
  | succ n ih =>
    have h1 : 0 ≤ sumTo f n := sumTo_nonneg fun i hi => h i (by omega)
    have h2 := h n (by omega)
    rw [sumTo]
    by_cases hin : i = n
    · subst hin; omega
    · have := ih (fun i hi => h i (by omega)) (by omega); omega

theorem sumTo_update {f g : Nat → Int} {n i : Nat} {d : Int} (hi : i < n)
    (h : ∀ j, j < n → j ≠ i → g j = f j) (hd : g i = f i + d) : sumTo g n = sumTo f n + d := by
  induction n with
  | zero => omega
  | succ n ih =>
    rw [sumTo, sumTo]
    by_cases hin : i = n
    · subst hin
      rw [sumTo_congr (f := g) (g := f) (fun j hj => h j (by omega) (by omega)), hd]; omega
    · rw [ih (by omega) (fun j hj hji => h j (by omega) hji), h n (by omega) (by omega)]; omega

/-! ### Lists -/

theorem pairwise_mem {α : Type} {R : α → α → Prop} (hs : ∀ x y, R x y → R y x) {l : List α}
    (h : l.Pairwise R) {x y : α} (hx : x ∈ l) (hy : y ∈ l) : x = y ∨ R x y := by
  induction h with
  | nil => simp at hx
  | cons hr _ ih =>
    simp only [List.mem_cons] at hx hy
    rcases hx with rfl | hx <;> rcases hy with rfl | hy
    · exact .inl rfl
    · exact .inr (hr _ hy)
    · exact .inr (hs _ _ (hr _ hx))
    · exact ih hx hy

/-! ### Chunk sizes -/

theorem alignUp_spec (n a : Nat) (h : 0 < a) :
    n ≤ alignUp n a ∧ alignUp n a < n + a ∧ alignUp n a % a = 0 := by
  unfold alignUp
  refine ⟨?_, ?_, Nat.mul_mod_left _ _⟩
  · have := Nat.lt_div_mul_add (a := n + (a - 1)) h; omega
  · have := Nat.div_mul_le_self (n + (a - 1)) a; omega

theorem chunkSizeFor_spec (size : Nat) :
    size + 41 ≤ chunkSizeFor size ∧ chunkSizeFor size ≤ size + 111 ∧ 64 ≤ chunkSizeFor size ∧
    chunkSizeFor size % 8 = 0 := by
  unfold chunkSizeFor
  have h1 := alignUp_spec (size + 1) 8 (by omega)
  have h2 := alignUp_spec (chunkHeader + alignUp (size + 1) 8) minChunk (by decide)
  simp only [chunkHeader, minChunk] at *
  omega

theorem chunksPerPage_spec {cs : Nat} (h0 : 0 < cs) (h1 : cs ≤ intMax) :
    0 < chunksPerPage cs ∧ pageBytes cs < 2 ^ 31 := by
  unfold pageBytes chunksPerPage
  split
  · simp only [intMax] at h1; omega
  · have := Nat.div_mul_le_self minPage cs
    have h2 : minPage = 1048576 := rfl
    rename_i h3
    exact ⟨Nat.pos_of_ne_zero h3, by omega⟩

/-! ### Invariant -/

/-- The memory of two pages does not overlap. -/
def Disj (p q : Page) : Prop := p.addr + p.cap ≤ q.addr ∨ q.addr + q.cap ≤ p.addr

theorem Disj.symm (p q : Page) (h : Disj p q) : Disj q p := h.elim .inr .inl

/-- Sizes of a page make sense. -/
structure PageOk (p : Page) : Prop where
  num : 0 < p.numChunks
  occ : p.numOcc ≤ p.numChunks
  cs : 64 ≤ p.chunkSize
  cs8 : p.chunkSize % 8 = 0
  size : p.size ≤ p.cap
  small : p.size < 2 ^ 31
  addr8 : p.addr % 8 = 0
  addr0 : 0 < p.addr
  addrmax : p.addr + p.cap < 2 ^ 63

/-- All pages. -/
def Heap.all (h : Heap) : List Page := h.first ++ (h.blacklisted ++ h.recycled)

/-- Header of the `i`th chunk. -/
def Heap.chunk (h : Heap) (p : Page) (i : Nat) : Chunk := h.hdr (p.chunkAddr i)

/-- Reference count of the `i`th chunk. -/
def Heap.refs (h : Heap) (p : Page) (i : Nat) : Int := (h.chunk p i).refCnt

/-- Does the `i`th chunk await a deallocator call? -/
def Heap.pend (h : Heap) (p : Page) (i : Nat) : Int :=
  if (h.chunk p i).onFree = true ∧ 0 < (h.chunk p i).refCnt then 1 else 0

/-- The invariant of the heap. -/
structure Inv (h : Heap) : Prop where
  ok : ∀ p ∈ h.all, PageOk p
  disj : h.all.Pairwise Disj
  ids : h.first.Pairwise (fun p q => p.id ≠ q.id)
  idlt : ∀ p ∈ h.first, 0 < p.id ∧ p.id < h.freeId
  freeId : 0 < h.freeId
  cnt : ∀ p ∈ h.first, p.refCnt = sumTo (h.refs p) p.numOcc
  nonneg : ∀ p ∈ h.first, ∀ i, i < p.numOcc → 0 ≤ h.refs p i
  pend : ∀ p ∈ h.first, p.numOnFree = sumTo (h.pend p) p.numOcc
  low : ∀ p ∈ h.first, ∃ l, h.lowest = some l ∧ l ≤ p.addr
  high : ∀ p ∈ h.first, ∃ u, h.highest = some u ∧ p.addr + p.size ≤ u
  last : ∀ i, h.lastAccessed = some i → ∃ p ∈ h.first, p.id = i
  serial : ∀ p ∈ h.first, ∀ i, i < p.numOcc → (h.chunk p i).serial < h.allocs
  inj : ∀ p ∈ h.first, ∀ q ∈ h.first, ∀ i, i < p.numOcc → ∀ j, j < q.numOcc →
    (h.chunk p i).serial = (h.chunk q j).serial → p = q ∧ i = j
  fit : ∀ p ∈ h.first, ∀ i, i < p.numOcc → chunkHeader + (h.chunk p i).size + 1 ≤ p.chunkSize
  total : (h.all.map fun p => (p.cap : Int)).sum ≤ h.totalSize
  black : h.blacklistedSize = (h.blacklisted.map fun p => (p.size : Int)).sum

/-- Every page in use has a live block. -/
def Pos (h : Heap) : Prop := ∀ p ∈ h.first, 0 < p.refCnt

theorem mem_all_of_first {h : Heap} {p : Page} (hp : p ∈ h.first) : p ∈ h.all := by
  simp [Heap.all, hp]

theorem Inv.disjFirst {h : Heap} (hi : Inv h) : h.first.Pairwise Disj :=
  (List.pairwise_append.1 hi.disj).1

theorem Inv.id_inj {h : Heap} (hi : Inv h) {p q : Page} (hp : p ∈ h.first) (hq : q ∈ h.first)
    (e : p.id = q.id) : p = q := by
  rcases pairwise_mem (fun _ _ h => Ne.symm h) hi.ids hp hq with h | h
  · exact h
  · exact absurd e h

theorem Page.has_iff (p : Page) (a : Nat) : p.has a = true ↔ p.addr ≤ a ∧ a < p.addr + p.size := by
  simp [Page.has]

theorem Inv.has_inj {h : Heap} (hi : Inv h) {p q : Page} (hp : p ∈ h.first) (hq : q ∈ h.first)
    {a : Nat} (h1 : p.has a = true) (h2 : q.has a = true) : p = q := by
  rw [Page.has_iff] at h1 h2
  have := (hi.ok p (mem_all_of_first hp)).size
  have := (hi.ok q (mem_all_of_first hq)).size
  rcases pairwise_mem Disj.symm hi.disjFirst hp hq with h | h | h
  · exact h
  · omega
  · omega

theorem chunkAddr_lt {p : Page} {i : Nat} (hi : i < p.numChunks) :
    p.chunkAddr i + p.chunkSize ≤ p.addr + p.size := by
  unfold Page.chunkAddr Page.size
  have : (i + 1) * p.chunkSize ≤ p.numChunks * p.chunkSize := Nat.mul_le_mul_right _ hi
  rw [Nat.succ_mul] at this
  omega

theorem chunkAddr_ge (p : Page) (i : Nat) : p.addr ≤ p.chunkAddr i := Nat.le_add_right _ _

theorem chunkAddr_succ (p : Page) (i : Nat) : p.chunkAddr (i + 1) = p.chunkAddr i + p.chunkSize := by
  unfold Page.chunkAddr; rw [Nat.succ_mul]; omega

/-- Two chunks of one page do not overlap. -/
theorem chunk_idx {p : Page} {i j a : Nat} (h1 : p.chunkAddr i ≤ a) (h2 : a < p.chunkAddr i + p.chunkSize)
    (h3 : p.chunkAddr j ≤ a) (h4 : a < p.chunkAddr j + p.chunkSize) : i = j := by
  unfold Page.chunkAddr at *
  rcases Nat.lt_trichotomy i j with h | h | h
  · have : (i + 1) * p.chunkSize ≤ j * p.chunkSize := Nat.mul_le_mul_right _ h
    rw [Nat.succ_mul] at this; omega
  · exact h
  · have : (j + 1) * p.chunkSize ≤ i * p.chunkSize := Nat.mul_le_mul_right _ h
    rw [Nat.succ_mul] at this; omega

theorem pageGetChunk_eq {p : Page} {i a : Nat} (h1 : p.chunkAddr i ≤ a)
    (h2 : a < p.chunkAddr i + p.chunkSize) : pageGetChunk p a = p.chunkAddr i := by
  unfold pageGetChunk
  unfold Page.chunkAddr at *
  have : (a - p.addr) % p.chunkSize = a - p.addr - i * p.chunkSize := by
    have e : a - p.addr = (a - p.addr - i * p.chunkSize) + i * p.chunkSize := by omega
    rw [e, Nat.add_mul_mod_self_right, Nat.mod_eq_of_lt (by omega)]
    omega
  omega

/-- Two chunks of pages in use do not overlap. -/
theorem Inv.chunk_inj {h : Heap} (hi : Inv h) {p q : Page} (hp : p ∈ h.first) (hq : q ∈ h.first)
    {i j a : Nat} (hip : i < p.numChunks) (hjq : j < q.numChunks)
    (h1 : p.chunkAddr i ≤ a) (h2 : a < p.chunkAddr i + p.chunkSize)
    (h3 : q.chunkAddr j ≤ a) (h4 : a < q.chunkAddr j + q.chunkSize) : p = q ∧ i = j := by
  have hpq : p = q := by
    apply hi.has_inj hp hq (a := a)
    · rw [Page.has_iff]; have := chunkAddr_ge p i; have := chunkAddr_lt hip; omega
    · rw [Page.has_iff]; have := chunkAddr_ge q j; have := chunkAddr_lt hjq; omega
  subst hpq
  exact ⟨rfl, chunk_idx h1 h2 h3 h4⟩

theorem Inv.addr_ne {h : Heap} (hi : Inv h) {p q : Page} (hp : p ∈ h.first) (hq : q ∈ h.first)
    {i j : Nat} (hip : i < p.numChunks) (hjq : j < q.numChunks) (hne : ¬ (p = q ∧ i = j)) :
    p.chunkAddr i ≠ q.chunkAddr j := by
  intro e
  have h1 := (hi.ok p (mem_all_of_first hp)).cs
  have h2 := (hi.ok q (mem_all_of_first hq)).cs
  exact hne (hi.chunk_inj hp hq hip hjq (a := p.chunkAddr i) (Nat.le_refl _) (by omega) (by omega) (by omega))

/-! ### Looking up pages -/

theorem containsPtr_false {h : Heap} {p : Page} {a : Nat} (hh : p.has a = false) :
    containsPtr h p a = .ok false := by simp [containsPtr, hh]

theorem findLoop_none {h : Heap} {a : Nat} {l : List Page} (hh : ∀ p ∈ l, p.has a = false) :
    findLoop h a l = .ok none := by
  induction l with
  | nil => rfl
  | cons p ps ih =>
    have ih := ih fun q hq => hh q (List.mem_cons_of_mem _ hq)
    rw [findLoop, containsPtr_false (hh p (List.mem_cons_self ..)), ih]
    simp

theorem findLoop_some {h : Heap} {a : Nat} {l : List Page} {p : Page} (hp : p ∈ l)
    (hh : p.has a = true) (hu : ∀ q ∈ l, q.has a = true → q = p) (hl : h.lastAccessed ≠ some p.id) :
    findLoop h a l =
      if (h.hdr (pageGetChunk p a)).refCnt ≤ 0 then .error .dangling else .ok (some p) := by
  induction l with
  | nil => simp at hp
  | cons q ps ih =>
    rw [findLoop]
    by_cases hq : q.has a = true
    · have e := hu q (List.mem_cons_self ..) hq
      subst e
      rw [if_neg hl, containsPtr, if_pos hq]
      by_cases hc : (h.hdr (pageGetChunk q a)).refCnt ≤ 0
      · rw [if_pos hc, if_pos hc]
      · rw [if_neg hc, if_neg hc]
    · have hpq : p ∈ ps := by
        rcases List.mem_cons.1 hp with rfl | h
        · exact absurd hh hq
        · exact h
      have ih := ih hpq fun r hr => hu r (List.mem_cons_of_mem _ hr)
      rw [containsPtr_false (by simpa using hq), ih]
      simp

theorem Inv.lastPage {h : Heap} (hi : Inv h) :
    (h.lastAccessed = none ∧ h.lastPage = none) ∨
    ∃ p ∈ h.first, h.lastAccessed = some p.id ∧ h.lastPage = some p := by
  unfold Heap.lastPage
  cases hl : h.lastAccessed with
  | none => exact .inl ⟨rfl, rfl⟩
  | some i =>
    obtain ⟨p, hp, rfl⟩ := hi.last i hl
    refine .inr ⟨p, hp, rfl, ?_⟩
    simp only
    cases hf : h.first.find? (fun q => decide (q.id = p.id)) with
    | none =>
      rw [List.find?_eq_none] at hf
      simpa using hf p hp
    | some q =>
      have h1 := List.find?_some hf
      have h2 := List.mem_of_find?_eq_some hf
      rw [hi.id_inj h2 hp (by simpa using h1)]

/-- Looking up an address in no page in use. -/
theorem pageFind_none {h : Heap} (hi : Inv h) {a : Nat} (hh : ∀ p ∈ h.first, p.has a = false) :
    pageFind h a = .ok (none, h) := by
  have h1 : findLast h a = .ok none := by
    unfold findLast
    rcases hi.lastPage with ⟨_, h2⟩ | ⟨p, hp, _, h2⟩
    · rw [h2]
    · rw [h2]; simp only; rw [containsPtr_false (hh p hp)]
  unfold pageFind
  rw [h1, findLoop_none hh]
  simp

/-- Looking up an address in a page in use. -/
theorem pageFind_some {h : Heap} (hi : Inv h) {a : Nat} {p : Page} (hp : p ∈ h.first)
    (hh : p.has a = true) :
    pageFind h a = if (h.hdr (pageGetChunk p a)).refCnt ≤ 0 then .error .dangling
      else .ok (some p, { h with lastAccessed := some p.id }) := by
  have hb := (Page.has_iff p a).1 hh
  obtain ⟨l, hl, hl'⟩ := hi.low p hp
  obtain ⟨u, hu, hu'⟩ := hi.high p hp
  have huniq : ∀ q ∈ h.first, q.has a = true → q = p := fun q hq hqa => hi.has_inj hq hp hqa hh
  have hout : h.outside a = false := by
    unfold Heap.outside
    rw [hl, hu]
    simp
    omega
  have hloop : h.lastAccessed ≠ some p.id → findLast h a = .ok none →
      pageFind h a = if (h.hdr (pageGetChunk p a)).refCnt ≤ 0 then .error .dangling
      else .ok (some p, { h with lastAccessed := some p.id }) := by
    intro h1 h2
    unfold pageFind
    rw [hout, h2, findLoop_some hp hh huniq h1]
    by_cases hc : (h.hdr (pageGetChunk p a)).refCnt ≤ 0
    · rw [if_pos hc, if_pos hc]; rfl
    · rw [if_neg hc, if_neg hc]; rfl
  rcases hi.lastPage with ⟨h1, h2⟩ | ⟨q, hq, h1, h2⟩
  · exact hloop (by rw [h1]; simp) (by rw [findLast, h2])
  · by_cases hqa : q.has a = true
    · have e := huniq q hq hqa
      subst e
      unfold pageFind findLast
      rw [hout, h2]
      simp only [containsPtr, if_pos hqa]
      by_cases hc : (h.hdr (pageGetChunk q a)).refCnt ≤ 0
      · rw [if_pos hc, if_pos hc]; rfl
      · rw [if_neg hc, if_neg hc, ← h1]; rfl
    · apply hloop
      · rw [h1]
        intro e
        have e := hi.id_inj hq hp (by simpa using e)
        subst e
        exact hqa hh
      · rw [findLast, h2]
        simp only
        rw [containsPtr_false (by simpa using hqa)]

end Umka.Heap
