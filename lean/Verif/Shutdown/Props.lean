import Verif.Shutdown.Lemmas
/-! # Shutting down the heap: property C103 -/

namespace Umka.Shutdown.Props
open Umka.Shutdown Umka.Shutdown.Spec

theorem pageFree_ok (h : Heap) (us rs bs : List Nat) (hs : Sound h us rs bs) (hq : Quiet h) (n : Nat) (hn : (us ++ rs ++ bs).length < n) :
    ∃ h', pageFree n h = .ok h' ∧ h'.freed = bs.reverse ++ (rs.reverse ++ us.reverse) ∧ h'.log = us.flatMap (lines h) ∧
      h'.calls = us.flatMap fun p => dcalls p 0 (h.page p).blocks := by
  simp only [List.length_append] at hn
  have hd := hs.apart
  rw [List.nodup_append, List.nodup_append] at hd
  obtain ⟨⟨d1, d2, d3⟩, d4, d5⟩ := hd
  obtain ⟨h1, a1, a2, a3, a4, a5⟩ := freeUsed_ok n us n h.first h (by omega) hs.used d1 (by simp [hs.freed]) hq hs.numOnFree
  obtain ⟨h2, b1, b2, b3, b4, b5⟩ := freeUnused_ok rs n h1.recycled h1 (by omega) (by rw [a2.recycled]; exact Chain.congr a2.next hs.recycled) d2
    (by
      intro p hp hf
      rw [a3, hs.freed, List.append_nil, List.mem_reverse] at hf
      exact d3 p hf p hp rfl)
  obtain ⟨h3, c1, c2, c3, c4, c5⟩ := freeUnused_ok bs n h2.blacklisted h2 (by omega)
    (by rw [b2.blacklisted, a2.blacklisted]; exact Chain.congr (fun q => (b2.next q).trans (a2.next q)) hs.blacklisted) d4
    (by
      intro p hp hf
      rw [b3, a3, hs.freed, List.append_nil, List.mem_append, List.mem_reverse, List.mem_reverse] at hf
      exact d5 p (by simp [hf.symm]) p hp rfl)
  refine ⟨h3, ?_, ?_, ?_, ?_⟩
  · simp only [pageFree, a1, b1, c1, bind, Except.bind]
  · rw [c3, b3, a3, hs.freed, List.append_nil]
  · rw [c4, b4, a4, hs.log, List.nil_append]
  · rw [c5, b5, a5, hs.calls, List.nil_append]

/-- **C103.**  Shutting down gives every page back exactly once, whatever is left in the heap, and calls the deallocator of every block still referenced exactly once.
Missing: deallocators that release other data. -/
theorem C103_shutdown_partial (h : Heap) (us rs bs : List Nat) (hs : Sound h us rs bs) (hq : Quiet h) (n : Nat) (hn : (us ++ rs ++ bs).length < n) :
    ∃ h', pageFree n h = .ok h' ∧ h'.freed.Nodup ∧ (∀ p, p ∈ h'.freed ↔ p ∈ us ++ rs ++ bs) ∧ h'.calls.Nodup ∧
      ∀ p i, (p, i) ∈ h'.calls ↔ p ∈ us ∧ ∃ b, Live (h.page p) i b ∧ b.onFree ≠ none := by
  obtain ⟨h', e1, e2, e3, e4⟩ := pageFree_ok h us rs bs hs hq n hn
  have hr : h'.freed = (us ++ rs ++ bs).reverse := by rw [e2]; simp
  refine ⟨h', e1, ?_, ?_, ?_, ?_⟩
  · rw [hr]
    unfold List.Nodup
    rw [List.pairwise_reverse]
    exact hs.apart.imp fun hab => hab.symm
  · intro p; rw [hr, List.mem_reverse]
  · rw [e4]
    have hu : us.Nodup := by
      have := hs.apart
      rw [List.nodup_append, List.nodup_append] at this
      exact this.1.1
    clear e1 e2 e3 e4 hr hn hs
    induction us with
    | nil => simp
    | cons p ps ih =>
      rw [List.nodup_cons] at hu
      rw [List.flatMap_cons, List.nodup_append]
      refine ⟨dcalls_nodup _ _ _, ih hu.2, ?_⟩
      rintro ⟨q, i⟩ hx ⟨q', i'⟩ hy heq
      rw [mem_dcalls] at hx
      simp only [List.mem_flatMap] at hy
      obtain ⟨r, hr, hy⟩ := hy
      rw [mem_dcalls] at hy
      have : q = q' := congrArg Prod.fst heq
      exact hu.1 (by rw [← hx.1, this, hy.1]; exact hr)
  · intro p i
    rw [e4, List.mem_flatMap]
    constructor
    · rintro ⟨q, hq', hm⟩
      rw [mem_dcalls] at hm
      obtain ⟨rfl, d, b, hd, h1, h2, h3⟩ := hm
      rw [Nat.zero_add] at hd
      exact ⟨hq', b, ⟨hd ▸ h1, h2⟩, h3⟩
    · rintro ⟨hp, b, ⟨h1, h2⟩, h3⟩
      exact ⟨p, hp, (mem_dcalls _ _ _ _ _).mpr ⟨rfl, i, b, by omega, h1, h2, h3⟩⟩

theorem lines_report (h : Heap) (p : Nat) (hr : (h.page p).refCnt = ((h.page p).blocks.map Block.refCnt).sum) (hl : h.leakSanLevel > 0 ∧ h.normal = true) :
    PageReport h p (lines h p) := by
  unfold lines
  rw [if_pos hl]
  by_cases h1 : h.leakSanLevel > 1
  · rw [if_pos h1]
    refine ⟨leakLocs (h.page p).blocks [], by rw [hr], leakLocs_nodup _ _, ?_⟩
    intro l
    rw [leakLocs_mem]
    simp only [List.not_mem_nil, not_false_eq_true, true_and, h1]
    constructor
    · rintro ⟨b, hb, h2, h3⟩
      obtain ⟨i, hi⟩ := List.mem_iff_getElem?.mp hb
      exact ⟨i, b, ⟨hi, h2⟩, h3⟩
    · rintro ⟨i, b, ⟨hi, h2⟩, h3⟩
      exact ⟨b, List.mem_of_getElem? hi, h2, h3⟩
  · rw [if_neg h1]
    refine ⟨[], by rw [hr]; rfl, List.nodup_nil, ?_⟩
    intro l
    simp [h1]

/-- **C103.**  After a normal end, every page with memory still referenced is reported, with the number of references, and from level 2 on each place that has allocated such
memory exactly once per page; at level 0 and after a run-time error nothing is reported.  Missing: deallocators that release other data. -/
theorem C103_leaks_partial (h : Heap) (us rs bs : List Nat) (hs : Sound h us rs bs) (hq : Quiet h) (n : Nat) (hn : (us ++ rs ++ bs).length < n) :
    ∃ h', pageFree n h = .ok h' ∧ (h.leakSanLevel > 0 ∧ h.normal = true → Report h us h'.log) ∧
      (h.leakSanLevel ≤ 0 ∨ h.normal = false → h'.log = []) := by
  obtain ⟨h', e1, e2, e3, e4⟩ := pageFree_ok h us rs bs hs hq n hn
  refine ⟨h', e1, ?_, ?_⟩
  · intro hl
    rw [e3]
    have hr := hs.refs
    clear e1 e2 e3 e4 hn hs
    induction us with
    | nil => exact .nil
    | cons p ps ih =>
      rw [List.flatMap_cons]
      exact .cons p ps _ _ (lines_report h p (hr p (by simp)) hl) (ih fun q hq => hr q (by simp [hq]))
  · intro hl
    rw [e3]
    have : ∀ p, lines h p = [] := by
      intro p
      unfold lines
      rw [if_neg]
      rintro ⟨h1, h2⟩
      rcases hl with hl | hl
      · omega
      · rw [h2] at hl; cases hl
    simp [this]

/-- Two pages in use: on page 1 a block with a deallocator that releases `acts`, allocated at place 7, and two blocks from place 8; on page 2 a block with a deallocator that
releases `acts2`.  A recycled page 3. -/
def sample (acts acts2 : List Ptr) : Heap where
  page p :=
    if p = 1 then { blocks := [⟨1, 7, some acts⟩, ⟨0, 9, none⟩, ⟨2, 8, none⟩, ⟨1, 8, none⟩], refCnt := 4, numOnFree := 1, prev := none, next := some 2 }
    else if p = 2 then { blocks := [⟨1, 5, some acts2⟩], refCnt := 1, numOnFree := 1, prev := some 1, next := none }
    else { blocks := [], refCnt := 0, numOnFree := 0, prev := none, next := none }
  first := some 1
  recycled := some 3
  blacklisted := none
  lastAccessed := some 1
  leakSanLevel := 2
  normal := true
  freed := []
  calls := []
  log := []

theorem sample_sound (acts acts2 : List Ptr) : Sound (sample acts acts2) [1, 2] [3] [] where
  used := .cons _ _ (.cons _ _ .nil)
  recycled := .cons _ _ .nil
  blacklisted := .nil
  apart := by decide
  freed := rfl
  calls := rfl
  log := rfl
  refs := by intro p hp; simp at hp; rcases hp with rfl | rfl <;> rfl
  numOnFree := by intro p hp; simp at hp; rcases hp with rfl | rfl <;> rfl

/-- A case that meets the hypotheses. -/
example : Quiet (sample [] []) := by
  intro p b hb
  simp only [sample] at hb
  split at hb
  · simp at hb; rcases hb with rfl | rfl | rfl | rfl <;> simp
  · split at hb
    · simp at hb; subst hb; simp
    · simp at hb

example : (pageFree 5 (sample [] [])).map (fun h => (h.freed, h.calls, h.log)) =
    .ok ([3, 2, 1], [(1, 0), (2, 0)], [.page 1 4, .loc 7, .loc 8, .page 2 1, .loc 5]) := rfl

/-- **C103.**  A deallocator that releases the last reference to data on the next page makes this page be given back twice. -/
theorem C103_double_free_violated : ∃ (h : Heap) (us rs bs : List Nat), Sound h us rs bs ∧ ∀ n, 5 ≤ n → pageFree n h = .error .ub := by
  refine ⟨sample [(2, 0)] [], [1, 2], [3], [], sample_sound _ _, ?_⟩
  intro n hn
  obtain ⟨m, rfl⟩ : ∃ m, n = m + 5 := ⟨n - 5, by omega⟩
  rfl

/-- **C103.**  A deallocator that releases data on a page given back before uses this page again: the list of pages still starts with it. -/
theorem C103_use_after_free_violated : ∃ (h : Heap) (us rs bs : List Nat), Sound h us rs bs ∧ ∀ n, 5 ≤ n → pageFree n h = .error .ub := by
  refine ⟨sample [] [(1, 2)], [1, 2], [3], [], sample_sound _ _, ?_⟩
  intro n hn
  obtain ⟨m, rfl⟩ : ∃ m, n = m + 5 := ⟨n - 5, by omega⟩
  rfl

end Umka.Shutdown.Props
