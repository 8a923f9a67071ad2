import Verif.Release.Spec
/-! # When variables are released: lists of identifiers, replaying events -/

namespace Umka.Release

/-! ## Sets of held variables -/

def plus (held : Nat → Bool) (xs : List Nat) : Nat → Bool := fun y => held y || xs.contains y
def minus (held : Nat → Bool) (xs : List Nat) : Nat → Bool := fun y => held y && !xs.contains y

theorem plus_nil (held) : plus held [] = held := by funext y; simp [plus]
theorem minus_nil (held) : minus held [] = held := by funext y; simp [minus]

theorem plus_plus (held xs ys) : plus (plus held xs) ys = plus held (ys ++ xs) := by
  funext y
  simp only [plus, List.contains_append]
  cases held y <;> cases xs.contains y <;> cases ys.contains y <;> rfl

theorem minus_plus {held : Nat → Bool} {xs : List Nat} (h : ∀ x ∈ xs, held x = false) : minus (plus held xs) xs = held := by
  funext y
  simp only [plus, minus]
  cases hy : xs.contains y
  · simp
  · have := h y (by simpa using hy)
    simp [this]

theorem minus_plus_append {held : Nat → Bool} {xs ys : List Nat} (h : ∀ x ∈ xs, held x = false) :
    minus (plus held xs) (xs ++ ys) = minus held ys := by
  funext y
  simp only [plus, minus, List.contains_append]
  cases hy : xs.contains y
  · simp
  · have := h y (by simpa using hy)
    simp [this]

theorem replay_append : ∀ (t u : List Ev) (held : Nat → Bool), replay (t ++ u) held = (replay t held).bind (replay u)
  | [], u, held => rfl
  | .own x :: t, u, held => by
    simp only [List.cons_append, replay]
    split
    · rfl
    · exact replay_append t u _
  | .drop x :: t, u, held => by
    simp only [List.cons_append, replay]
    split
    · exact replay_append t u _
    · rfl

theorem replay_own {x : Nat} {held : Nat → Bool} (h : held x = false) :
    replay [.own x] held = some (plus held [x]) := by
  rw [replay, if_neg (by simp [h]), replay]
  congr 1
  funext y
  by_cases hy : y = x <;> simp [plus, hy]

/-! ## Dropping several variables -/

theorem run_drops : ∀ {xs : List Nat} {t : List Ev} {o : Out}, Run (drops xs) t o →
    (o = .normal ∧ t = xs.map .drop) ∨ (o = .stop ∧ ∃ k, t = (xs.take k).map .drop)
  | [], t, o, h => by
    cases h with
    | stop => exact Or.inr ⟨rfl, 0, rfl⟩
    | nop => exact Or.inl ⟨rfl, rfl⟩
  | x :: xs, t, o, h => by
    have h : Run (.seq (.drop x) (drops xs)) t o := h
    cases h with
    | stop => exact Or.inr ⟨rfl, 0, rfl⟩
    | seq h1 h2 =>
      cases h1
      rcases run_drops h2 with ⟨rfl, rfl⟩ | ⟨rfl, k, rfl⟩
      · exact Or.inl ⟨rfl, rfl⟩
      · exact Or.inr ⟨rfl, k + 1, rfl⟩
    | seqExit h1 h2 =>
      cases h1 with
      | stop => exact Or.inr ⟨rfl, 0, rfl⟩
      | drop => exact absurd rfl h2

theorem replay_drops : ∀ {xs : List Nat} {held : Nat → Bool}, xs.Nodup → (∀ x ∈ xs, held x = true) →
    replay (xs.map .drop) held = some (minus held xs)
  | [], held, _, _ => by rw [minus_nil]; rfl
  | x :: xs, held, hn, h => by
    rw [List.map_cons, replay, if_pos (h x (by simp))]
    rw [List.nodup_cons] at hn
    rw [replay_drops hn.2]
    · congr 1
      funext y
      by_cases hy : y = x
      · subst hy; simp [minus]
      · simp [minus, hy]
    · intro y hy
      have : y ≠ x := fun e => hn.1 (e ▸ hy)
      simp [this, h y (by simp [hy])]

theorem drops_ok {xs : List Nat} {t : List Ev} {o : Out} (h : Run (drops xs) t o) (hn : xs.Nodup)
    {held : Nat → Bool} (hh : ∀ x ∈ xs, held x = true) :
    (o = .normal ∨ o = .stop) ∧ ∃ held', replay t held = some held' ∧ (o = .normal → held' = minus held xs) := by
  rcases run_drops h with ⟨rfl, rfl⟩ | ⟨rfl, k, rfl⟩
  · exact ⟨Or.inl rfl, _, replay_drops hn hh, fun _ => rfl⟩
  · refine ⟨Or.inr rfl, _, replay_drops (hn.sublist (List.take_sublist k xs)) (fun x hx => hh x (List.mem_of_mem_take hx)), ?_⟩
    intro h; cases h

/-! ## Lists of identifiers -/

/-- The variables that are dropped when all of these identifiers are. -/
def rel (is : List Id) : List Nat := (is.filter Id.released).map (·.var)

theorem rel_append (is js : List Id) : rel (is ++ js) = rel is ++ rel js := by simp [rel]

theorem mem_rel {is : List Id} {x : Nat} (h : x ∈ rel is) : ∃ i ∈ is, i.var = x := by
  simp only [rel, List.mem_map, List.mem_filter] at h
  obtain ⟨i, ⟨hi, _⟩, e⟩ := h
  exact ⟨i, hi, e⟩

theorem rel_nodup {is : List Id} (h : (is.map (·.var)).Nodup) : (rel is).Nodup :=
  h.sublist (List.Sublist.map _ List.filter_sublist)

/-- The list consists of the identifiers of the open blocks, the innermost first. -/
def Segs : List Nat → List Id → Prop
  | [], is => is = []
  | b :: bs, is => ∃ seg rest, is = seg ++ rest ∧ (∀ i ∈ seg, i.block = b) ∧ (∀ b' ∈ bs, b' < b) ∧ Segs bs rest

theorem segs_block : ∀ {bs is}, Segs bs is → ∀ i ∈ is, i.block ∈ bs
  | [], _, h, i, hi => by rw [h] at hi; cases hi
  | b :: bs, is, ⟨seg, rest, h1, h2, h3, h4⟩, i, hi => by
    subst h1
    rcases List.mem_append.mp hi with hi | hi
    · rw [h2 i hi]; simp
    · exact List.mem_cons_of_mem _ (segs_block h4 i hi)

theorem gcAt_found {b : Nat} : ∀ {seg rest : List Id}, (∀ i ∈ seg, i.block = b) → (∀ i ∈ rest, i.block ≠ b) →
    gcAt b (seg ++ rest) true = rel seg
  | [], [], _, _ => rfl
  | [], i :: is, _, h => by
    rw [List.nil_append, gcAt, if_neg (h i (by simp)), if_pos rfl]; rfl
  | i :: is, rest, h, h' => by
    rw [List.cons_append, gcAt, if_pos (h i (by simp)), gcAt_found (fun j hj => h j (by simp [hj])) h']
    unfold rel
    rw [List.filter_cons]
    split <;> simp

theorem gcAt_skip {b : Nat} : ∀ {seg rest : List Id}, (∀ i ∈ seg, i.block ≠ b) →
    gcAt b (seg ++ rest) false = gcAt b rest false
  | [], _, _ => rfl
  | i :: is, rest, h => by
    rw [List.cons_append, gcAt, if_neg (h i (by simp)), if_neg (by simp), gcAt_skip (fun j hj => h j (by simp [hj]))]

theorem gcAt_none {b : Nat} {is : List Id} (h : ∀ i ∈ is, i.block ≠ b) : gcAt b is false = [] := by
  have := gcAt_skip (rest := []) h
  rw [List.append_nil] at this
  rw [this]; rfl

theorem gcAt_seg {b : Nat} {seg rest : List Id} (h : ∀ i ∈ seg, i.block = b) (h' : ∀ i ∈ rest, i.block ≠ b) :
    gcAt b (seg ++ rest) false = rel seg := by
  cases seg with
  | nil => rw [List.nil_append, gcAt_none h']; rfl
  | cons i is =>
    rw [List.cons_append, gcAt, if_pos (h i (by simp)), gcAt_found (fun j hj => h j (by simp [hj])) h']
    unfold rel
    rw [List.filter_cons]
    split <;> simp

theorem free_seg {b : Nat} : ∀ {seg rest : List Id}, (∀ i ∈ seg, i.block = b) → (∀ i ∈ rest, i.block ≠ b) →
    identFree b (seg ++ rest) = rest
  | [], [], _, _ => rfl
  | [], i :: is, _, h => by
    have := h i (by simp)
    simp [identFree, this]
  | i :: is, rest, h, h' => by
    have ih := free_seg (seg := is) (rest := rest) (fun j hj => h j (by simp [hj])) h'
    unfold identFree at ih ⊢
    rw [List.cons_append, List.dropWhile_cons, if_pos (by simp [h i (by simp)])]
    exact ih

/-! ## The blocks above a block -/

/-- The identifiers of the blocks above `block`. -/
def above (E : Env) (block : Nat) : List Id :=
  E.idents.filter fun i => (E.blocks.dropLast.takeWhile (· ≠ block)).contains i.block

theorem flat_eq : ∀ {bs is}, Segs bs is → ∀ pre, pre <+: bs →
    pre.flatMap (fun b => gcAt b is false) = rel (is.filter fun i => pre.contains i.block)
  | [], is, h, pre, hp => by
    have := List.prefix_nil.mp hp
    subst this; rw [h]; rfl
  | b :: bs, is, ⟨seg, rest, h1, h2, h3, h4⟩, pre, hp => by
    subst h1
    cases pre with
    | nil => simp [rel]
    | cons c cs =>
      obtain ⟨rfl, hcs⟩ := List.cons_prefix_cons.mp hp
      have hrest : ∀ i ∈ rest, i.block ≠ c := fun i hi => by
        have := h3 _ (segs_block h4 i hi); omega
      have hseg : ∀ b' ∈ cs, ∀ i ∈ seg, i.block ≠ b' := fun b' hb' i hi => by
        have := h3 b' (hcs.subset hb'); rw [h2 i hi]; omega
      rw [List.flatMap_cons, gcAt_seg h2 hrest, List.filter_append, rel_append]
      have e1 : cs.flatMap (fun b => gcAt b (seg ++ rest) false) = cs.flatMap (fun b => gcAt b rest false) := by
        rw [List.flatMap_def, List.flatMap_def]
        congr 1
        apply List.map_congr_left
        intro b' hb'
        exact gcAt_skip (hseg b' hb')
      have e2 : seg.filter (fun i => (c :: cs).contains i.block) = seg := by
        rw [List.filter_eq_self]
        intro i hi
        rw [h2 i hi]; simp
      have e3 : rest.filter (fun i => (c :: cs).contains i.block) = rest.filter (fun i => cs.contains i.block) := by
        apply List.filter_congr
        intro i hi
        have := hrest i hi
        simp [this]
      rw [e1, e2, e3, flat_eq h4 cs hcs]

theorem gcDown_eq {E : Env} (h : Segs E.blocks E.idents) (block : Nat) : gcDown E block = rel (above E block) :=
  flat_eq h _ (List.IsPrefix.trans (List.takeWhile_prefix _) (List.dropLast_prefix _))

/-! ## The compiler's state -/

structure Good (E : Env) : Prop where
  segs : Segs E.blocks E.idents
  vars : ∀ i ∈ E.idents, i.var < E.nextVar
  nodup : (E.idents.map (·.var)).Nodup
  nums : ∀ b ∈ E.blocks, b < E.numBlocks
  ne : E.blocks ≠ []
  brk : ∀ b ∈ E.brk, b < E.numBlocks
  cont : ∀ b ∈ E.cont, b < E.numBlocks
  ret : E.ret < E.numBlocks

/-- What the compilation of an expression or a statement does to the compiler's state: it declares variables (`new`) in
the current block. -/
structure Ext (E E' : Env) (new : List Id) : Prop where
  idents : E'.idents = new ++ E.idents
  block : ∀ i ∈ new, i.block = E.cur
  fresh : ∀ i ∈ new, E.nextVar ≤ i.var
  next : E.nextVar ≤ E'.nextVar
  blocks : E'.blocks = E.blocks
  num : E.numBlocks ≤ E'.numBlocks
  brk : E'.brk = E.brk
  cont : E'.cont = E.cont
  ret : E'.ret = E.ret
  good : Good E'

theorem Ext.refl {E : Env} (h : Good E) : Ext E E [] :=
  ⟨rfl, by simp, by simp, Nat.le_refl _, rfl, Nat.le_refl _, rfl, rfl, rfl, h⟩

theorem Ext.trans {E E1 E2 : Env} {n1 n2 : List Id} (h1 : Ext E E1 n1) (h2 : Ext E1 E2 n2) : Ext E E2 (n2 ++ n1) where
  idents := by rw [h2.idents, h1.idents, List.append_assoc]
  block i hi := by
    rcases List.mem_append.mp hi with hi | hi
    · rw [h2.block i hi, Env.cur, Env.cur, h1.blocks]
    · exact h1.block i hi
  fresh i hi := by
    rcases List.mem_append.mp hi with hi | hi
    · have := h2.fresh i hi; have := h1.next; omega
    · exact h1.fresh i hi
  next := Nat.le_trans h1.next h2.next
  blocks := h2.blocks.trans h1.blocks
  num := Nat.le_trans h1.num h2.num
  brk := h2.brk.trans h1.brk
  cont := h2.cont.trans h1.cont
  ret := h2.ret.trans h1.ret
  good := h2.good

theorem Ext.rel_fresh {E E' : Env} {new : List Id} (h : Ext E E' new) : ∀ x ∈ rel new, E.nextVar ≤ x := by
  intro x hx
  obtain ⟨i, hi, rfl⟩ := mem_rel hx
  exact h.fresh i hi

theorem cur_cons {E : Env} {b : Nat} {bs : List Nat} (h : E.blocks = b :: bs) : E.cur = b := by
  simp [Env.cur, h]

theorem good_addId {E : Env} (h : Good E) (g t u : Bool) :
    Ext E (addId E g t u) [⟨E.nextVar, E.cur, g, t, u⟩] where
  idents := rfl
  block := by simp
  fresh := by simp
  next := Nat.le_succ _
  blocks := rfl
  num := Nat.le_refl _
  brk := rfl
  cont := rfl
  ret := rfl
  good := by
    refine ⟨?_, ?_, ?_, h.nums, h.ne, h.brk, h.cont, h.ret⟩
    · have hs := h.segs
      show Segs E.blocks (_ :: E.idents)
      cases hb : E.blocks with
      | nil => exact absurd hb h.ne
      | cons b bs =>
        rw [hb] at hs
        obtain ⟨seg, rest, h1, h2, h3, h4⟩ := hs
        refine ⟨⟨E.nextVar, E.cur, g, t, u⟩ :: seg, rest, by rw [h1]; rfl, ?_, h3, h4⟩
        intro i hi
        rcases List.mem_cons.mp hi with hi | hi
        · rw [hi]; exact cur_cons hb
        · exact h2 i hi
    · intro i hi
      show i.var < E.nextVar + 1
      rcases List.mem_cons.mp hi with hi | hi
      · rw [hi]; exact Nat.lt_succ_self _
      · have := h.vars i hi; omega
    · show (List.map _ (_ :: E.idents)).Nodup
      rw [List.map_cons, List.nodup_cons]
      refine ⟨?_, h.nodup⟩
      intro hc
      obtain ⟨j, hj, e⟩ := List.mem_map.mp hc
      have := h.vars j hj
      have e : j.var = E.nextVar := e
      omega

theorem good_enter {E : Env} (h : Good E) : Good (enter E) where
  segs := ⟨[], E.idents, rfl, by simp, h.nums, h.segs⟩
  vars := h.vars
  nodup := h.nodup
  nums b hb := by
    show b < E.numBlocks + 1
    rcases List.mem_cons.mp hb with hb | hb
    · omega
    · have := h.nums b hb; omega
  ne := by simp [enter]
  brk b hb := by have := h.brk b hb; show b < E.numBlocks + 1; omega
  cont b hb := by have := h.cont b hb; show b < E.numBlocks + 1; omega
  ret := by have := h.ret; show E.ret < E.numBlocks + 1; omega

theorem cur_enter (E : Env) : (enter E).cur = E.numBlocks := rfl

theorem notin_new {E : Env} (h : Good E) : ∀ i ∈ E.idents, i.block ≠ E.numBlocks := by
  intro i hi
  have := h.nums _ (segs_block h.segs i hi)
  omega

/-- Leaving a block that has been entered: the state is the same as before, but for the numbers used. -/
theorem leave_ext {E E' : Env} {new : List Id} (h : Good E) (hx : Ext (enter E) E' new) :
    gcAt E'.cur E'.idents false = rel new ∧ Ext E (leave E') [] := by
  have hcur : E'.cur = E.numBlocks := by rw [Env.cur, hx.blocks]; rfl
  have hnew : ∀ i ∈ new, i.block = E.numBlocks := fun i hi => hx.block i hi
  have hid : E'.idents = new ++ E.idents := hx.idents
  have hfree : identFree E'.cur E'.idents = E.idents := by
    rw [hcur, hid]; exact free_seg hnew (notin_new h)
  refine ⟨by rw [hcur, hid]; exact gcAt_seg hnew (notin_new h), ?_⟩
  have hn := hx.num
  have hn : E.numBlocks + 1 ≤ E'.numBlocks := hn
  have hv : E.nextVar ≤ E'.nextVar := hx.next
  refine ⟨hfree, by simp, by simp, hv, by show E'.blocks.tail = _; rw [hx.blocks]; rfl,
    by show E.numBlocks ≤ E'.numBlocks; omega, hx.brk, hx.cont, hx.ret, ?_⟩
  refine ⟨?_, ?_, ?_, ?_, ?_, ?_, ?_, ?_⟩
  · show Segs E'.blocks.tail (identFree _ _)
    rw [hfree, hx.blocks]; exact h.segs
  · intro i hi
    rw [leave, hfree] at hi
    have := h.vars i hi
    show i.var < E'.nextVar
    omega
  · show (List.map _ (identFree _ _)).Nodup
    rw [hfree]; exact h.nodup
  · intro b hb
    have hb : b ∈ E'.blocks.tail := hb
    rw [hx.blocks] at hb
    have := h.nums b hb
    show b < E'.numBlocks
    omega
  · show E'.blocks.tail ≠ []
    rw [hx.blocks]; exact h.ne
  · intro b hb
    have hb : b ∈ E'.brk := hb
    rw [hx.brk] at hb
    have := h.brk b hb
    show b < E'.numBlocks
    omega
  · intro b hb
    have hb : b ∈ E'.cont := hb
    rw [hx.cont] at hb
    have := h.cont b hb
    show b < E'.numBlocks
    omega
  · show E'.ret < E'.numBlocks
    rw [hx.ret]
    have := h.ret
    show E.ret < E'.numBlocks
    omega

theorem new_nodup {E E' : Env} {new : List Id} (h : Ext E E' new) : (rel new).Nodup := by
  have := h.good.nodup
  rw [h.idents, List.map_append] at this
  exact rel_nodup (List.nodup_append.mp this).1

end Umka.Release
