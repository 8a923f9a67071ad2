import Verif.RefCnt.Spec

/-!
# Reference counting: the work list removes references exactly
-/

namespace Umka.RefCnt

/-! ## Sums and counts -/

theorem sumTo_succ (n : Nat) (f : Nat → Nat) : sumTo (n + 1) f = sumTo n f + f n := by
  simp [sumTo, List.range_succ]

theorem sumTo_congr {n : Nat} {f g : Nat → Nat} (h : ∀ d, d < n → f d = g d) : sumTo n f = sumTo n g := by
  induction n with
  | zero => rfl
  | succ n ih => rw [sumTo_succ, sumTo_succ, ih fun d hd => h d (by omega), h n (by omega)]

theorem sumTo_update {n k : Nat} {f g : Nat → Nat} (hk : k < n) (h : ∀ d, d < n → d ≠ k → f d = g d) :
    sumTo n f + g k = sumTo n g + f k := by
  induction n with
  | zero => omega
  | succ n ih =>
    rw [sumTo_succ, sumTo_succ]
    by_cases hkn : k = n
    · subst hkn
      rw [sumTo_congr (f := f) (g := g) fun d hd => h d (by omega) (by omega)]; omega
    · have := ih (by omega) fun d hd hne => h d (by omega) hne
      have := h n (by omega) (by omega)
      omega

theorem sumTo_le {n k : Nat} {f : Nat → Nat} (hk : k < n) : f k ≤ sumTo n f := by
  induction n with
  | zero => omega
  | succ n ih =>
    rw [sumTo_succ]
    by_cases hkn : k = n
    · subst hkn; omega
    · have := ih (by omega); omega

theorem sumTo_pos {n : Nat} {f : Nat → Nat} (h : 0 < sumTo n f) : ∃ d, d < n ∧ 0 < f d := by
  induction n with
  | zero => simp [sumTo] at h
  | succ n ih =>
    rw [sumTo_succ] at h
    by_cases hf : 0 < f n
    · exact ⟨n, by omega, hf⟩
    · obtain ⟨d, hd, h'⟩ := ih (by omega); exact ⟨d, by omega, h'⟩

theorem cnt_append {ow : Nat → Option Nat} {c : Nat} {a b : List Ref} :
    cnt ow c (a ++ b) = cnt ow c a + cnt ow c b := List.countP_append

theorem cnt_cons {ow : Nat → Option Nat} {c : Nat} {r : Ref} {a : List Ref} :
    cnt ow c (r :: a) = cnt ow c a + if ow r.p = some c then 1 else 0 := by
  simp [cnt, List.countP_cons, beq_iff_eq]

@[simp] theorem cnt_nil {ow : Nat → Option Nat} {c : Nat} : cnt ow c [] = 0 := rfl

theorem cnt_pos {ow : Nat → Option Nat} {c : Nat} {r : Ref} {a : List Ref} (hr : r ∈ a) (h : ow r.p = some c) :
    0 < cnt ow c a := by
  simp only [cnt, List.countP_pos_iff]; exact ⟨r, hr, by simp [h]⟩

theorem exists_of_cnt {ow : Nat → Option Nat} {c : Nat} {a : List Ref} (h : 0 < cnt ow c a) :
    ∃ r ∈ a, ow r.p = some c := by
  simp only [cnt, List.countP_pos_iff] at h
  obtain ⟨r, hr, h'⟩ := h; exact ⟨r, hr, by simpa using h'⟩

theorem cnt_zero {ow : Nat → Option Nat} {c : Nat} {a : List Ref} (h : ∀ r ∈ a, ow r.p ≠ some c) : cnt ow c a = 0 := by
  simp only [cnt, List.countP_eq_zero]; intro r hr; simpa using h r hr

theorem cnt_congr {ow ow' : Nat → Option Nat} {c : Nat} {a : List Ref} (h : ∀ r ∈ a, ow r.p = some c ↔ ow' r.p = some c) :
    cnt ow c a = cnt ow' c a := by
  simp only [cnt]; apply List.countP_congr; intro r hr; simpa using h r hr

/-! ## Owners -/

theorem owner_some {h : Heap} {p i : Nat} (ho : h.owner p = some i) :
    i < h.num ∧ 0 < h.rc i ∧ h.owns i p = true := by
  have h1 := List.mem_of_find?_eq_some ho
  have h2 := List.find?_some ho
  simp only [Bool.and_eq_true, decide_eq_true_eq] at h2
  exact ⟨List.mem_range.mp h1, h2.1, h2.2⟩

theorem owner_none {h : Heap} {p : Nat} (ho : h.owner p = none) {i : Nat} (hi : i < h.num) (hr : 0 < h.rc i) :
    h.owns i p = false := by
  have := List.find?_eq_none.mp ho i (List.mem_range.mpr hi)
  simp only [Bool.and_eq_true, decide_eq_true_eq, not_and, Bool.not_eq_true] at this
  exact this hr

/-- Live objects do not overlap. -/
def Uniq (h : Heap) : Prop :=
  ∀ i j p, i < h.num → j < h.num → 0 < h.rc i → 0 < h.rc j → h.owns i p → h.owns j p → i = j

theorem owner_eq {h : Heap} (hu : Uniq h) {p i : Nat} (hi : i < h.num) (hr : 0 < h.rc i) (ho : h.owns i p) :
    h.owner p = some i := by
  cases hw : h.owner p with
  | none => rw [owner_none hw hi hr] at ho; simp at ho
  | some j =>
    obtain ⟨h1, h2, h3⟩ := owner_some hw
    rw [hu i j p hi h1 hr h2 ho h3]

/-! ## References of values -/

mutual
theorem slots_nil : (t : Ty) → t.collected = false → t.slots = []
  | .plain, _ => rfl
  | .array n size t, h => by
    simp only [Ty.collected] at h
    simp [Ty.slots, slots_nil t h]
  | .struct fs, h => by
    simp only [Ty.collected] at h
    simp [Ty.slots, fslots_nil fs h]
  | .ptr _, h => by simp [Ty.collected] at h
  | .str, h => by simp [Ty.collected] at h
  | .dynarray _, h => by simp [Ty.collected] at h
  | .map _, h => by simp [Ty.collected] at h
  | .interface, h => by simp [Ty.collected] at h
  | .fiber, h => by simp [Ty.collected] at h
theorem fslots_nil : (fs : Fields) → fs.collected = false → fs.slots = []
  | .nil, _ => rfl
  | .cons off sz t fs, h => by
    simp only [Fields.collected, Bool.or_eq_false_iff] at h
    simp [Fields.slots, slots_nil t h.1, fslots_nil fs h.2]
end

theorem refsAt_nil {T : Types} {mem : Nat → Nat} {a : Nat} {t : Ty} (h : t.collected = false) :
    refsAt T mem a t = [] := by simp [refsAt, slots_nil t h]

theorem valRefs_load {T : Types} {mem : Nat → Nat} {a : Nat} (t : Ty) :
    valRefs T mem (load mem a t) t = refsAt T mem a t := by
  cases t <;> simp [valRefs, load, Ty.direct, refsAt, Ty.slots, refOf]

/-! ## Pending references -/

/-- What the work list stands for: references to be removed, and objects that wait for their last reference to
be removed. -/
inductive G
  | ref (r : Ref)
  | wait (i : Nat)

def gcnt (ow : Nat → Option Nat) (c : Nat) (gs : List G) : Nat :=
  gs.countP fun | .ref r => ow r.p == some c | .wait i => i == c

def waits (gs : List G) : List Nat := gs.filterMap fun | .ref _ => none | .wait i => some i

theorem gcnt_cons_ref {ow : Nat → Option Nat} {c : Nat} {r : Ref} {gs : List G} :
    gcnt ow c (.ref r :: gs) = gcnt ow c gs + if ow r.p = some c then 1 else 0 := by
  simp [gcnt, List.countP_cons, beq_iff_eq]

theorem gcnt_cons_wait {ow : Nat → Option Nat} {c i : Nat} {gs : List G} :
    gcnt ow c (.wait i :: gs) = gcnt ow c gs + if i = c then 1 else 0 := by
  simp [gcnt, List.countP_cons, beq_iff_eq]

theorem gcnt_append {ow : Nat → Option Nat} {c : Nat} {a b : List G} :
    gcnt ow c (a ++ b) = gcnt ow c a + gcnt ow c b := List.countP_append

theorem gcnt_map {ow : Nat → Option Nat} {c : Nat} {rs : List Ref} : gcnt ow c (rs.map .ref) = cnt ow c rs := by
  simp only [gcnt, cnt, List.countP_map]; rfl

theorem gcnt_nil {ow : Nat → Option Nat} {c : Nat} : gcnt ow c [] = 0 := rfl

theorem waits_append {a b : List G} : waits (a ++ b) = waits a ++ waits b := List.filterMap_append

theorem waits_map {rs : List Ref} : waits (rs.map .ref) = [] := by
  induction rs with
  | nil => rfl
  | cons r rs ih => simp [waits]

theorem gcnt_wait_pos {ow : Nat → Option Nat} {i : Nat} {gs : List G} (h : i ∈ waits gs) : 0 < gcnt ow i gs := by
  simp only [waits, List.mem_filterMap] at h
  obtain ⟨g, hg, h⟩ := h
  cases g with
  | ref r => simp at h
  | wait j =>
    simp only [Option.some.injEq] at h; subst h
    simp only [gcnt, List.countP_pos_iff]; exact ⟨_, hg, by simp⟩

/-- The situation in which references are removed.  `ext` and `O` are the references that are meant to remain:
those of variables and those of objects.  `O` may differ from what is found in memory, for objects that can be
reached. -/
structure Base (T : Types) (A : Nat → Prop) (h0 : Heap) (ext : List Ref) (O : Nat → List Ref) : Prop where
  uniq : Uniq h0
  null : ¬ A 0
  area : ∀ i p, i < h0.num → h0.owns i p → A p
  fitsExt : ∀ r ∈ ext, Fits T A h0 r
  fitsO : ∀ d, d < h0.num → 0 < h0.rc d → ∀ r ∈ O d, Fits T A h0 r
  same : ∀ d, d < h0.num → 0 < h0.rc d → ¬ Reach h0.owner ext O d → O d = chunkRefs T h0.mem (h0.chunk d)
  stackRef : ∀ c, c < h0.num → (h0.chunk c).alloc = .stack → 0 < cnt h0.owner c ext

/-- Objects that are alive and not waiting. -/
def inner (h0 : Heap) (O : Nat → List Ref) (c : Nat) (h : Heap) (w : List Nat) : Nat :=
  sumTo h0.num fun d => if 0 < h.rc d ∧ d ∉ w then cnt h0.owner c (O d) else 0

structure LInv (T : Types) (A : Nat → Prop) (h0 : Heap) (ext : List Ref) (O : Nat → List Ref) (h : Heap)
    (gs : List G) : Prop where
  num : h.num = h0.num
  chunk : h.chunk = h0.chunk
  mem : h.mem = h0.mem
  sub : ∀ i, i < h0.num → 0 < h.rc i → 0 < h0.rc i
  bal : ∀ c, c < h0.num → 0 < h0.rc c →
    h.rc c = cnt h0.owner c ext + inner h0 O c h (waits gs) + gcnt h0.owner c gs
  nodup : (waits gs).Nodup
  wait : ∀ d ∈ waits gs, d < h0.num ∧ h.rc d = 1
  fits : ∀ r, .ref r ∈ gs → Fits T A h0 r

section
variable {T : Types} {A : Nat → Prop} {h0 : Heap} {ext : List Ref} {O : Nat → List Ref}

theorem LInv.perm {h : Heap} {gs gs' : List G} (hl : LInv T A h0 ext O h gs) (hp : gs.Perm gs') :
    LInv T A h0 ext O h gs' := by
  have hw : (waits gs).Perm (waits gs') := hp.filterMap _
  refine ⟨hl.num, hl.chunk, hl.mem, hl.sub, ?_, hw.nodup_iff.mp hl.nodup, ?_, ?_⟩
  · intro c hc h1
    rw [hl.bal c hc h1]
    congr 1
    · congr 1
      simp only [inner]
      apply sumTo_congr; intro d _
      simp only [hw.mem_iff]
    · simp only [gcnt]; exact hp.countP_eq _
  · intro d hd; exact hl.wait d (hw.mem_iff.mpr hd)
  · intro r hr; exact hl.fits r (hp.mem_iff.mpr hr)

theorem inner_pos {h : Heap} {w : List Nat} {c d : Nat} {r : Ref} (hd : d < h0.num) (h1 : 0 < h.rc d)
    (h2 : d ∉ w) (hr : r ∈ O d) (ho : h0.owner r.p = some c) : 0 < inner h0 O c h w := by
  have := sumTo_le (f := fun d => if 0 < h.rc d ∧ d ∉ w then cnt h0.owner c (O d) else 0) hd
  simp only [h1, h2, not_false_eq_true, and_self, if_true] at this
  have := cnt_pos hr ho
  simp only [inner]; omega

/-- What is reachable stays alive, and is not waiting. -/
theorem LInv.reach {h : Heap} {gs : List G} (hl : LInv T A h0 ext O h gs) {c : Nat}
    (hr : Reach h0.owner ext O c) : c < h0.num ∧ 0 < h.rc c ∧ c ∉ waits gs := by
  have fin : ∀ c, c < h0.num → 0 < h0.rc c → 0 < cnt h0.owner c ext + inner h0 O c h (waits gs) →
      c < h0.num ∧ 0 < h.rc c ∧ c ∉ waits gs := by
    intro c hc h1 h2
    have hb := hl.bal c hc h1
    refine ⟨hc, by omega, fun hw => ?_⟩
    have := (hl.wait c hw).2
    have := gcnt_wait_pos (ow := h0.owner) hw
    omega
  induction hr with
  | root hr ho =>
    obtain ⟨h1, h2, -⟩ := owner_some ho
    exact fin _ h1 h2 (by have := cnt_pos hr ho; omega)
  | step hd hr ho ih =>
    obtain ⟨h1, h2, -⟩ := owner_some ho
    obtain ⟨i1, i2, i3⟩ := ih
    exact fin _ h1 h2 (by have := inner_pos i1 i2 i3 hr ho; omega)

/-- A pending reference that is the last one leads to an object that is not reachable. -/
theorem LInv.last {h : Heap} {gs : List G} {r : Ref} {i : Nat} (hl : LInv T A h0 ext O h (.ref r :: gs))
    (ho : h0.owner r.p = some i) (hrc : h.rc i ≤ 1) :
    i < h0.num ∧ 0 < h0.rc i ∧ h.rc i = 1 ∧ ¬ Reach h0.owner ext O i ∧ i ∉ waits gs ∧ cnt h0.owner i ext = 0 ∧
      inner h0 O i h (waits gs) = 0 ∧ gcnt h0.owner i gs = 0 := by
  obtain ⟨h1, h2, -⟩ := owner_some ho
  have hb := hl.bal i h1 h2
  rw [gcnt_cons_ref, if_pos ho] at hb
  have hw : waits (.ref r :: gs) = waits gs := rfl
  rw [hw] at hb
  refine ⟨h1, h2, by omega, fun hr => ?_, fun hwi => ?_, by omega, by omega, by omega⟩
  · cases hr with
    | root hr' ho' => have := cnt_pos hr' ho'; omega
    | step hd hr' ho' =>
      obtain ⟨i1, i2, i3⟩ := hl.reach hd
      have := inner_pos i1 i2 i3 hr' ho'
      rw [hw] at this
      omega
  · have := gcnt_wait_pos (ow := h0.owner) hwi; omega

theorem inner_wait {h : Heap} {w : List Nat} {i c : Nat} (hi : i < h0.num) (h1 : 0 < h.rc i) (hw : i ∉ w) :
    inner h0 O c h w = inner h0 O c h (i :: w) + cnt h0.owner c (O i) := by
  have := sumTo_update (n := h0.num) (k := i)
    (f := fun d => if 0 < h.rc d ∧ d ∉ w then cnt h0.owner c (O d) else 0)
    (g := fun d => if 0 < h.rc d ∧ d ∉ i :: w then cnt h0.owner c (O d) else 0) hi
    (by intro d _ hne; simp only [List.mem_cons, not_or]; simp [hne])
  simp only [List.mem_cons, true_or, not_true_eq_false, and_false, if_false, h1, hw, not_false_eq_true, and_self,
    if_true] at this
  simp only [inner, List.mem_cons]; omega

/-- The last reference to an object: the object waits, and its references are to be removed. -/
theorem LInv.destroy (hB : Base T A h0 ext O) {h : Heap} {gs : List G} {r : Ref} {i : Nat}
    (hl : LInv T A h0 ext O h (.ref r :: gs)) (ho : h0.owner r.p = some i) (hrc : h.rc i ≤ 1) :
    LInv T A h0 ext O h ((chunkRefs T h0.mem (h0.chunk i)).map .ref ++ .wait i :: gs) := by
  obtain ⟨h1, h2, h3, h4, h5, -, -, -⟩ := hl.last ho hrc
  have hO := hB.same i h1 h2 h4
  have hw : waits ((chunkRefs T h0.mem (h0.chunk i)).map .ref ++ .wait i :: gs) = i :: waits gs := by
    rw [waits_append, waits_map]; rfl
  refine ⟨hl.num, hl.chunk, hl.mem, hl.sub, ?_, ?_, ?_, ?_⟩
  · intro c hc hc0
    rw [hl.bal c hc hc0, hw, gcnt_append, gcnt_map, gcnt_cons_wait, gcnt_cons_ref, ← hO]
    show _ + inner h0 O c h (waits gs) + _ = _
    rw [inner_wait (O := O) (c := c) h1 (by omega) h5]
    simp only [ho, Option.some.injEq]
    omega
  · rw [hw]; exact List.nodup_cons.mpr ⟨h5, hl.nodup⟩
  · rw [hw]; intro d hd
    rcases List.mem_cons.mp hd with rfl | hd
    · exact ⟨h1, h3⟩
    · exact hl.wait d hd
  · intro r' hr'
    rcases List.mem_append.mp hr' with hr' | hr'
    · simp only [List.mem_map, G.ref.injEq, exists_eq_right] at hr'
      rw [← hO] at hr'
      exact hB.fitsO i h1 h2 r' hr'
    · simp only [List.mem_cons, reduceCtorEq, false_or] at hr'
      exact hl.fits r' (List.mem_cons_of_mem _ hr')

theorem set_same {f : Nat → Nat} {i v : Nat} : set f i v i = v := by simp [set]
theorem set_other {f : Nat → Nat} {i v j : Nat} (h : j ≠ i) : set f i v j = f j := by simp [set, h]

/-- A reference that is not the last one is removed. -/
theorem LInv.decr {h : Heap} {gs : List G} {r : Ref} {i : Nat}
    (hl : LInv T A h0 ext O h (.ref r :: gs)) (ho : h0.owner r.p = some i) (hrc : 1 < h.rc i) :
    LInv T A h0 ext O { h with rc := set h.rc i (h.rc i - 1) } gs := by
  obtain ⟨h1, h2, -⟩ := owner_some ho
  have hpos : ∀ d, 0 < set h.rc i (h.rc i - 1) d ↔ 0 < h.rc d := by
    intro d; by_cases hd : d = i
    · subst hd; rw [set_same]; omega
    · rw [set_other hd]
  refine ⟨hl.num, hl.chunk, hl.mem, ?_, ?_, hl.nodup, ?_, ?_⟩
  · intro d hd; rw [hpos]; exact hl.sub d hd
  · intro c hc hc0
    have hb := hl.bal c hc hc0
    have hi : inner h0 O c { h with rc := set h.rc i (h.rc i - 1) } (waits gs) = inner h0 O c h (waits gs) := by
      simp only [inner, hpos]
    rw [hi]
    rw [gcnt_cons_ref] at hb
    have hw : waits (.ref r :: gs) = waits gs := rfl
    rw [hw] at hb
    simp only [ho, Option.some.injEq] at hb
    by_cases hci : c = i
    · subst hci; simp only [set_same]; rw [if_pos rfl] at hb; omega
    · simp only [set_other hci]; rw [if_neg (Ne.symm hci)] at hb; omega
  · intro d hd
    obtain ⟨w1, w2⟩ := hl.wait d hd
    refine ⟨w1, ?_⟩
    by_cases hdi : d = i
    · subst hdi; omega
    · simp only [set_other hdi]; exact w2
  · intro r' hr'; exact hl.fits r' (List.mem_cons_of_mem _ hr')

/-- The last reference to a waiting object is removed. -/
theorem LInv.free {h : Heap} {gs : List G} {i : Nat} (hl : LInv T A h0 ext O h (.wait i :: gs)) :
    h.rc i = 1 ∧ LInv T A h0 ext O { h with rc := set h.rc i (h.rc i - 1) } gs := by
  have hw : waits (.wait i :: gs) = i :: waits gs := rfl
  obtain ⟨h1, h2⟩ := hl.wait i (by rw [hw]; simp)
  have hnd := hl.nodup
  rw [hw, List.nodup_cons] at hnd
  refine ⟨h2, hl.num, hl.chunk, hl.mem, ?_, ?_, hnd.2, ?_, ?_⟩
  · intro d hd hp
    by_cases hdi : d = i
    · subst hdi; exact hl.sub _ h1 (by omega)
    · simp only [set_other hdi] at hp; exact hl.sub d hd hp
  · intro c hc hc0
    have hb := hl.bal c hc hc0
    rw [gcnt_cons_wait, hw] at hb
    have hi : inner h0 O c { h with rc := set h.rc i (h.rc i - 1) } (waits gs) = inner h0 O c h (i :: waits gs) := by
      simp only [inner]
      apply sumTo_congr; intro d _
      by_cases hdi : d = i
      · subst hdi; simp [set_same, h2]
      · simp only [set_other hdi, List.mem_cons, hdi, false_or]
    rw [hi]
    by_cases hci : c = i
    · subst hci; simp only [set_same]; rw [if_pos rfl] at hb; omega
    · simp only [set_other hci]; rw [if_neg (Ne.symm hci)] at hb; omega
  · intro d hd
    obtain ⟨w1, w2⟩ := hl.wait d (by rw [hw]; exact List.mem_cons_of_mem _ hd)
    refine ⟨w1, ?_⟩
    have hdi : d ≠ i := fun h => hnd.1 (h ▸ hd)
    simp only [set_other hdi]; exact w2
  · intro r' hr'; exact hl.fits r' (List.mem_cons_of_mem _ hr')

/-- A reference that does not lead to an object is dropped. -/
theorem LInv.skip {h : Heap} {gs : List G} {r : Ref} (hl : LInv T A h0 ext O h (.ref r :: gs))
    (ho : h0.owner r.p = none) : LInv T A h0 ext O h gs := by
  refine ⟨hl.num, hl.chunk, hl.mem, hl.sub, ?_, hl.nodup, hl.wait, fun r' hr' => hl.fits r' (List.mem_cons_of_mem _ hr')⟩
  intro c hc hc0
  have hb := hl.bal c hc hc0
  rw [gcnt_cons_ref] at hb
  simp only [ho, reduceCtorEq, if_false] at hb
  exact hb

/-- Pending references lead to live objects. -/
theorem LInv.find (hB : Base T A h0 ext O) {h : Heap} {gs : List G} {r : Ref}
    (hl : LInv T A h0 ext O h (.ref r :: gs)) :
    h.find r.p = .ok (h0.owner r.p) ∧ ∀ i, h0.owner r.p = some i → 0 < h.rc i := by
  have hlive : ∀ i, h0.owner r.p = some i → 0 < h.rc i := by
    intro i ho
    obtain ⟨h1, h2, -⟩ := owner_some ho
    have hb := hl.bal i h1 h2
    rw [gcnt_cons_ref, if_pos ho] at hb
    omega
  have howns : ∀ i p, h.owns i p = h0.owns i p := by intro i p; simp only [Heap.owns, hl.chunk]
  refine ⟨?_, hlive⟩
  cases ho : h0.owner r.p with
  | some i =>
    obtain ⟨h1, h2, h3⟩ := owner_some ho
    have hu : Uniq h := by
      intro a b p ha hb ra rb oa ob
      rw [hl.num] at ha hb
      rw [howns] at oa ob
      exact hB.uniq a b p ha hb (hl.sub a ha ra) (hl.sub b hb rb) oa ob
    have := owner_eq hu (p := r.p) (i := i) (by rw [hl.num]; exact h1) (hlive i ho) (by rw [howns]; exact h3)
    simp only [Heap.owner] at this
    simp only [Heap.find, this]
  | none =>
    have hf := (hl.fits r (by simp)).2.2
    rw [ho] at hf
    have hno : ∀ i, i < h0.num → h0.owns i r.p = false := by
      intro i hi
      cases hc : h0.owns i r.p with
      | false => rfl
      | true => exact absurd (hB.area i r.p hi hc) hf
    have h1 : (List.range h.num).find? (fun i => decide (0 < h.rc i) && h.owns i r.p) = none := by
      rw [List.find?_eq_none]
      intro i hi
      rw [List.mem_range, hl.num] at hi
      simp [howns, hno i hi]
    have h2 : (List.range h.num).any (fun i => h.owns i r.p) = false := by
      rw [List.any_eq_false]
      intro i hi
      rw [List.mem_range, hl.num] at hi
      simp [howns, hno i hi]
    simp only [Heap.find, h1, h2, Bool.false_eq_true, if_false]

end
end Umka.RefCnt
