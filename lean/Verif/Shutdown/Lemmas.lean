import Verif.Shutdown.Spec
/-! # Shutting down the heap: lemmas -/

namespace Umka.Shutdown
open Umka.Shutdown.Spec

/-- The deallocators called for the blocks of a page. -/
def dcalls (p : Nat) : Nat → List Block → List Ptr
  | _, [] => []
  | i, b :: bs => (if b.refCnt ≠ 0 ∧ b.onFree.isSome then [(p, i)] else []) ++ dcalls p (i + 1) bs

theorem dcalls_nil (p i : Nat) (bs : List Block) (h : bs.filter (fun b => b.refCnt ≠ 0 ∧ b.onFree.isSome) = []) : dcalls p i bs = [] := by
  induction bs generalizing i with
  | nil => rfl
  | cons b bs ih =>
    rw [List.filter_cons] at h
    split at h
    · cases h
    · rename_i hb
      simp only [decide_eq_true_eq] at hb
      simp only [dcalls, hb, if_false, List.nil_append]
      exact ih _ h

theorem mem_dcalls (p i : Nat) (bs : List Block) (q j : Nat) :
    (q, j) ∈ dcalls p i bs ↔ q = p ∧ ∃ d b, j = i + d ∧ bs[d]? = some b ∧ b.refCnt ≠ 0 ∧ b.onFree ≠ none := by
  induction bs generalizing i with
  | nil => simp [dcalls]
  | cons b bs ih =>
    simp only [dcalls, List.mem_append, ih]
    constructor
    · rintro (h | ⟨rfl, d, c, rfl, h1, h2⟩)
      · split at h
        · rename_i hb
          simp only [List.mem_singleton, Prod.mk.injEq] at h
          exact ⟨h.1, 0, b, by omega, rfl, hb.1, by intro e; rw [e] at hb; exact absurd hb.2 (by simp)⟩
        · cases h
      · exact ⟨rfl, d + 1, c, by omega, by simpa using h1, h2⟩
    · rintro ⟨rfl, d, c, rfl, h1, h2, h3⟩
      cases d with
      | zero =>
        simp only [List.getElem?_cons_zero, Option.some.injEq] at h1
        subst h1
        left
        rw [if_pos ⟨h2, by cases h : b.onFree <;> simp_all⟩]
        simp
      | succ d => exact .inr ⟨rfl, d, c, by omega, by simpa using h1, h2, h3⟩

theorem dcalls_nodup (p i : Nat) (bs : List Block) : (dcalls p i bs).Nodup := by
  induction bs generalizing i with
  | nil => simp [dcalls]
  | cons b bs ih =>
    simp only [dcalls]
    split
    · simp only [List.cons_append, List.nil_append, List.nodup_cons]
      refine ⟨?_, ih _⟩
      rw [mem_dcalls]
      rintro ⟨_, d, _, h, _⟩
      omega
    · simpa using ih _

/-- What stays when pages are freed. -/
structure Keep (h h' : Heap) : Prop where
  next : ∀ q, (h'.page q).next = (h.page q).next
  blocks : ∀ q, (h'.page q).blocks = (h.page q).blocks
  refCnt : ∀ q, (h'.page q).refCnt = (h.page q).refCnt
  recycled : h'.recycled = h.recycled
  blacklisted : h'.blacklisted = h.blacklisted
  level : h'.leakSanLevel = h.leakSanLevel
  normal : h'.normal = h.normal

theorem Keep.refl (h : Heap) : Keep h h := ⟨fun _ => rfl, fun _ => rfl, fun _ => rfl, rfl, rfl, rfl, rfl⟩

theorem Keep.trans {a b c : Heap} (h : Keep a b) (k : Keep b c) : Keep a c :=
  ⟨fun q => (k.next q).trans (h.next q), fun q => (k.blocks q).trans (h.blocks q), fun q => (k.refCnt q).trans (h.refCnt q),
    k.recycled.trans h.recycled, k.blacklisted.trans h.blacklisted, k.level.trans h.level, k.normal.trans h.normal⟩

theorem Keep.quiet {a b : Heap} (h : Keep a b) (q : Quiet a) : Quiet b := by
  intro p x hx
  rw [h.blocks] at hx
  exact q p x hx

theorem Chain.congr {f g : Nat → Page} (h : ∀ q, (g q).next = (f q).next) {o : Option Nat} {ps : List Nat} (c : Chain f o ps) : Chain g o ps := by
  induction c with
  | nil => exact .nil
  | cons p ps _ ih => exact .cons p ps (by rw [h]; exact ih)

theorem dealloc_ok (n p : Nat) (m : Nat) : ∀ (i : Nat) (h : Heap), p ∉ h.freed → Quiet h → i + m = (h.page p).blocks.length →
    (h.page p).numOnFree = (((h.page p).blocks.drop i).filter fun b => b.refCnt ≠ 0 ∧ b.onFree.isSome).length →
    ∃ h', dealloc n p m i h = .ok h' ∧ Keep h h' ∧ h'.freed = h.freed ∧ h'.log = h.log ∧ (∀ q, q ≠ p → (h'.page q).numOnFree = (h.page q).numOnFree) ∧
      h'.calls = h.calls ++ dcalls p i ((h.page p).blocks.drop i) := by
  induction m with
  | zero =>
    intro i h _ _ hl _
    refine ⟨h, rfl, Keep.refl h, rfl, rfl, fun _ _ => rfl, ?_⟩
    rw [List.drop_of_length_le (by omega)]
    simp [dcalls]
  | succ m ih =>
    intro i h hp hq hl hn
    have hi : i < (h.page p).blocks.length := by omega
    obtain ⟨b, hb⟩ : ∃ b, (h.page p).blocks[i]? = some b := ⟨_, List.getElem?_eq_getElem hi⟩
    have hd : (h.page p).blocks.drop i = b :: (h.page p).blocks.drop (i + 1) := by
      rw [List.drop_eq_getElem_cons hi]
      rw [List.getElem?_eq_getElem hi, Option.some.injEq] at hb
      rw [hb]
    have hr : h.read p = .ok (h.page p) := by rw [Heap.read, if_neg hp]
    simp only [dealloc, hr, bind, Except.bind]
    by_cases h0 : (h.page p).numOnFree = 0
    · rw [if_pos h0]
      refine ⟨h, rfl, Keep.refl h, rfl, rfl, fun _ _ => rfl, ?_⟩
      rw [dcalls_nil, List.append_nil]
      rw [h0] at hn
      exact List.length_eq_zero_iff.mp hn.symm
    · rw [if_neg h0]
      simp only [hb]
      rw [hd] at hn ⊢
      rw [List.filter_cons] at hn
      have hbm : b ∈ (h.page p).blocks := List.mem_of_getElem? hb
      rcases hq p b hbm with ho | ho
      · simp only [ho]
        have hneg : ¬ (b.refCnt ≠ 0 ∧ b.onFree.isSome = true) := by simp [ho]
        simp only [hneg, decide_false, Bool.false_eq_true, if_false] at hn
        simp only [dcalls, hneg, if_false, List.nil_append]
        exact ih (i + 1) h hp hq (by omega) hn
      · simp only [ho]
        by_cases hz : b.refCnt = 0
        · rw [if_pos hz]
          have hneg : ¬ (b.refCnt ≠ 0 ∧ b.onFree.isSome = true) := by simp [hz]
          simp only [hneg, decide_false, Bool.false_eq_true, if_false] at hn
          simp only [dcalls, hneg, if_false, List.nil_append]
          exact ih (i + 1) h hp hq (by omega) hn
        · rw [if_neg hz]
          have hpos : b.refCnt ≠ 0 ∧ b.onFree.isSome = true := ⟨hz, by simp [ho]⟩
          rw [if_pos (by simpa using hpos), List.length_cons] at hn
          simp only [List.foldlM_nil, pure, Except.pure, Heap.write, hp, if_false]
          generalize hh : Heap.setPage { h with calls := h.calls ++ [(p, i)] } p (fun x => { x with numOnFree := x.numOnFree - 1 }) = h1
          have hk : Keep h h1 := by
            subst hh
            refine ⟨?_, ?_, ?_, rfl, rfl, rfl, rfl⟩ <;> intro q <;> simp only [Heap.setPage] <;> split <;> rfl
          have hf : h1.freed = h.freed := by subst hh; rfl
          have hlog : h1.log = h.log := by subst hh; rfl
          have hcalls : h1.calls = h.calls ++ [(p, i)] := by subst hh; rfl
          have hnum : (h1.page p).numOnFree = (h.page p).numOnFree - 1 := by subst hh; simp [Heap.setPage]
          have hoth : ∀ q, q ≠ p → (h1.page q).numOnFree = (h.page q).numOnFree := by
            intro q hqp; subst hh; simp [Heap.setPage, hqp]
          obtain ⟨h', e1, e2, e3, e4, e5, e6⟩ := ih (i + 1) h1 (by rw [hf]; exact hp) (hk.quiet hq) (by rw [hk.blocks]; omega)
            (by rw [hnum, hk.blocks, hn]; simp)
          refine ⟨h', e1, hk.trans e2, e3.trans hf, e4.trans hlog, fun q hqp => (e5 q hqp).trans (hoth q hqp), ?_⟩
          rw [e6, hcalls, hk.blocks]
          rw [dcalls, if_pos hpos, List.append_assoc]

/-- The messages for a page. -/
def lines (h : Heap) (p : Nat) : List Line :=
  if h.leakSanLevel > 0 ∧ h.normal then
    .page p (h.page p).refCnt :: (if h.leakSanLevel > 1 then (leakLocs (h.page p).blocks []).map .loc else [])
  else []

theorem freeUsed_ok (k : Nat) (ps : List Nat) : ∀ (n : Nat) (cur : Option Nat) (h : Heap), ps.length < n → Chain h.page cur ps → ps.Nodup →
    (∀ p ∈ ps, p ∉ h.freed) → Quiet h →
    (∀ p ∈ ps, (h.page p).numOnFree = ((h.page p).blocks.filter fun b => b.refCnt ≠ 0 ∧ b.onFree.isSome).length) →
    ∃ h', freeUsed k n cur h = .ok h' ∧ Keep h h' ∧ h'.freed = ps.reverse ++ h.freed ∧ h'.log = h.log ++ ps.flatMap (lines h) ∧
      h'.calls = h.calls ++ ps.flatMap fun p => dcalls p 0 (h.page p).blocks := by
  induction ps with
  | nil =>
    intro n cur h hn hc _ _ _ _
    cases hc
    cases n with
    | zero => simp at hn
    | succ n => exact ⟨h, rfl, Keep.refl h, by simp, by simp, by simp⟩
  | cons p ps ih =>
    intro n cur h hn hc hd hf hq hnum
    cases n with
    | zero => simp at hn
    | succ n =>
      cases hc with
      | cons _ _ hc =>
        rw [List.nodup_cons] at hd
        have hp := hf p (by simp)
        have hr : h.read p = .ok (h.page p) := by rw [Heap.read, if_neg hp]
        simp only [freeUsed, hr, bind, Except.bind]
        generalize hh : pageLeakSan h p (h.page p) = h0
        have hk0 : Keep h h0 := by subst hh; unfold pageLeakSan; split <;> exact ⟨fun _ => rfl, fun _ => rfl, fun _ => rfl, rfl, rfl, rfl, rfl⟩
        have hf0 : h0.freed = h.freed := by subst hh; unfold pageLeakSan; split <;> rfl
        have hc0 : h0.calls = h.calls := by subst hh; unfold pageLeakSan; split <;> rfl
        have hn0 : ∀ q, (h0.page q).numOnFree = (h.page q).numOnFree := by subst hh; unfold pageLeakSan; split <;> exact fun _ => rfl
        have hl0 : h0.log = h.log ++ lines h p := by subst hh; unfold pageLeakSan lines; split <;> simp
        obtain ⟨h1, e1, e2, e3, e4, e5, e6⟩ := dealloc_ok k p (h.page p).blocks.length 0 h0 (by rw [hf0]; exact hp) (hk0.quiet hq)
          (by rw [hk0.blocks]; omega) (by rw [hn0, hk0.blocks]; simpa using hnum p (by simp))
        have hp1 : p ∉ h1.freed := by rw [e3, hf0]; exact hp
        simp only [e1, Heap.free, hp1, if_false]
        have hk := hk0.trans e2
        generalize hh2 : { h1 with freed := p :: h1.freed } = h2
        have hk2 : Keep h h2 := by subst hh2; exact ⟨hk.next, hk.blocks, hk.refCnt, hk.recycled, hk.blacklisted, hk.level, hk.normal⟩
        have hf2 : h2.freed = p :: h.freed := by subst hh2; simp [e3, hf0]
        have hlines : ∀ q, lines h2 q = lines h q := by
          intro q; simp only [lines, hk2.level, hk2.normal, hk2.refCnt, hk2.blocks]
        obtain ⟨h', a1, a2, a3, a4, a5⟩ := ih n (h.page p).next h2 (by simp at hn; omega) (Chain.congr hk2.next hc) hd.2
          (by
            intro q hqm hqf
            rw [hf2, List.mem_cons] at hqf
            rcases hqf with rfl | hqf
            · exact hd.1 hqm
            · exact hf q (by simp [hqm]) hqf)
          (hk2.quiet hq)
          (by
            intro q hqm
            have hqp : q ≠ p := fun e => hd.1 (e ▸ hqm)
            have : (h2.page q).numOnFree = (h.page q).numOnFree := by subst hh2; exact (e5 q hqp).trans (hn0 q)
            rw [this, hk2.blocks]
            exact hnum q (by simp [hqm]))
        refine ⟨h', a1, hk2.trans a2, ?_, ?_, ?_⟩
        · rw [a3, hf2]; simp
        · rw [a4]
          have : h2.log = h.log ++ lines h p := by subst hh2; exact e4.trans hl0
          rw [this, List.flatMap_cons, List.append_assoc, funext hlines]
        · rw [a5]
          have : h2.calls = h.calls ++ dcalls p 0 (h.page p).blocks := by subst hh2; simp [e6, hc0, hk0.blocks]
          simp only [this, List.flatMap_cons, List.append_assoc, hk2.blocks]

theorem freeUnused_ok (ps : List Nat) : ∀ (n : Nat) (cur : Option Nat) (h : Heap), ps.length < n → Chain h.page cur ps → ps.Nodup →
    (∀ p ∈ ps, p ∉ h.freed) →
    ∃ h', freeUnused n cur h = .ok h' ∧ Keep h h' ∧ h'.freed = ps.reverse ++ h.freed ∧ h'.log = h.log ∧ h'.calls = h.calls := by
  induction ps with
  | nil =>
    intro n cur h hn hc _ _
    cases hc
    cases n with
    | zero => simp at hn
    | succ n => exact ⟨h, rfl, Keep.refl h, by simp, rfl, rfl⟩
  | cons p ps ih =>
    intro n cur h hn hc hd hf
    cases n with
    | zero => simp at hn
    | succ n =>
      cases hc with
      | cons _ _ hc =>
        rw [List.nodup_cons] at hd
        have hp := hf p (by simp)
        have hr : h.read p = .ok (h.page p) := by rw [Heap.read, if_neg hp]
        simp only [freeUnused, hr, bind, Except.bind, Heap.free, hp, if_false]
        obtain ⟨h', a1, a2, a3, a4, a5⟩ := ih n (h.page p).next { h with freed := p :: h.freed } (by simp at hn; omega) hc hd.2
          (by
            intro q hqm hqf
            simp only [List.mem_cons] at hqf
            rcases hqf with rfl | hqf
            · exact hd.1 hqm
            · exact hf q (by simp [hqm]) hqf)
        exact ⟨h', a1, ⟨a2.next, a2.blocks, a2.refCnt, a2.recycled, a2.blacklisted, a2.level, a2.normal⟩, by rw [a3]; simp, a4, a5⟩

theorem leakLocs_mem (bs : List Block) (seen : List Nat) (l : Nat) :
    l ∈ leakLocs bs seen ↔ l ∉ seen ∧ ∃ b ∈ bs, b.refCnt ≠ 0 ∧ b.loc = l := by
  induction bs generalizing seen with
  | nil => simp [leakLocs]
  | cons b bs ih =>
    simp only [leakLocs]
    split
    · rename_i h0
      rw [ih]
      simp [h0]
    · rename_i h0
      split
      · rename_i hs
        rw [ih]
        constructor
        · rintro ⟨h1, c, hc, h2⟩; exact ⟨h1, c, by simp [hc], h2⟩
        · rintro ⟨h1, c, hc, h2, h3⟩
          rcases List.mem_cons.mp hc with rfl | hc
          · exact absurd (h3 ▸ hs) h1
          · exact ⟨h1, c, hc, h2, h3⟩
      · rename_i hs
        rw [List.mem_cons, ih]
        constructor
        · rintro (rfl | ⟨h1, c, hc, h2⟩)
          · exact ⟨hs, b, by simp, h0, rfl⟩
          · exact ⟨fun h => h1 (by simp [h]), c, by simp [hc], h2⟩
        · rintro ⟨h1, c, hc, h2, h3⟩
          by_cases hl : l = b.loc
          · exact .inl hl
          · right
            refine ⟨by simp [hl, h1], c, ?_, h2, h3⟩
            rcases List.mem_cons.mp hc with rfl | hc
            · exact absurd h3.symm hl
            · exact hc

theorem leakLocs_nodup (bs : List Block) (seen : List Nat) : (leakLocs bs seen).Nodup := by
  induction bs generalizing seen with
  | nil => simp [leakLocs]
  | cons b bs ih =>
    simp only [leakLocs]
    split
    · exact ih _
    · split
      · exact ih _
      · rw [List.nodup_cons]
        refine ⟨?_, ih _⟩
        rw [leakLocs_mem]
        simp

end Umka.Shutdown
