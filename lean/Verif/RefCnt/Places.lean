import Verif.RefCnt.Loop

/-!
# Reference counting: places in memory
-/

namespace Umka.RefCnt

/-! ## Values depend only on their own memory -/

mutual
theorem slots_bounds : (t : Ty) → (size : Nat) → t.WF size → ∀ s ∈ t.slots, ∀ w ∈ s.2.words s.1, w < size
  | .plain, _, _ => by simp [Ty.slots]
  | .ptr _, size, h => by simp only [Ty.WF] at h; simp [Ty.slots, Kind.words]; omega
  | .str, size, h => by simp only [Ty.WF] at h; simp [Ty.slots, Kind.words]; omega
  | .fiber, size, h => by simp only [Ty.WF] at h; simp [Ty.slots, Kind.words]; omega
  | .dynarray _, size, h => by simp only [Ty.WF] at h; simp [Ty.slots, Kind.words]; omega
  | .map _, size, h => by simp only [Ty.WF] at h; simp [Ty.slots, Kind.words]; omega
  | .interface, size, h => by simp only [Ty.WF] at h; simp [Ty.slots, Kind.words]; omega
  | .array n sz t, size, h => by
    simp only [Ty.WF] at h
    intro s hs w hw
    simp only [Ty.slots, List.mem_flatMap, List.mem_range, List.mem_map] at hs
    obtain ⟨i, hi, s', hs', rfl⟩ := hs
    obtain ⟨w', hw', rfl⟩ := words_shift hw
    have := slots_bounds t sz h.1 s' hs' w' hw'
    have h2 : (i + 1) * sz ≤ n * sz := Nat.mul_le_mul_right _ hi
    rw [Nat.add_mul, Nat.one_mul] at h2
    omega
  | .struct fs, size, h => by
    simp only [Ty.WF] at h
    intro s hs w hw
    exact (fslots_bounds fs 0 size h s hs w hw).2
theorem fslots_bounds : (fs : Fields) → (lo size : Nat) → fs.WF lo size →
    ∀ s ∈ fs.slots, ∀ w ∈ s.2.words s.1, lo ≤ w ∧ w < size
  | .nil, _, _, _ => by simp [Fields.slots]
  | .cons off sz t fs, lo, size, h => by
    simp only [Fields.WF] at h
    intro s hs w hw
    simp only [Fields.slots, List.mem_append, List.mem_map] at hs
    rcases hs with ⟨s', hs', rfl⟩ | hs
    · obtain ⟨w', hw', rfl⟩ := words_shift hw
      have := slots_bounds t sz h.2.1 s' hs' w' hw'
      omega
    · have := fslots_bounds fs (off + sz) size h.2.2.2 s hs w hw
      omega
theorem words_shift {a o w : Nat} {k : Kind} (h : w ∈ k.words (a + o)) : ∃ w' ∈ k.words o, w = a + w' := by
  cases k <;> simp only [Kind.words, List.mem_cons, List.not_mem_nil, or_false] at h ⊢ <;>
    first
    | (subst h; exact ⟨_, rfl, by omega⟩)
    | (rcases h with rfl | rfl
       · exact ⟨_, .inl rfl, by omega⟩
       · exact ⟨_, .inr rfl, by omega⟩)
end

theorem refOf_congr {T : Types} {mem mem' : Nat → Nat} {a b o : Nat} {k : Kind}
    (h : ∀ w ∈ k.words o, mem' (b + w) = mem (a + w)) : refOf T mem' (b + o) k = refOf T mem (a + o) k := by
  cases k <;> simp only [Kind.words, List.mem_cons, List.not_mem_nil, or_false, forall_eq, forall_eq_or_imp] at h <;>
    simp only [refOf, Nat.add_assoc, h]

theorem refsAt_congr {T : Types} {mem mem' : Nat → Nat} {a b size : Nat} {t : Ty} (ht : t.WF size)
    (h : ∀ w, w < size → mem' (b + w) = mem (a + w)) : refsAt T mem' b t = refsAt T mem a t := by
  simp only [refsAt]
  apply List.map_congr_left
  intro s hs
  exact refOf_congr fun w hw => h w (slots_bounds t size ht s hs w hw)

/-- Nothing but the object's own memory matters for its references. -/
theorem chunkRefs_congr {T : Types} (hT : T.WF) {mem mem' : Nat → Nat} {c : Chunk} (hr : c.Roomy T mem)
    (h : ∀ w, c.addr ≤ w → w ≤ c.addr + c.size → mem' w = mem w) :
    chunkRefs T mem' c = chunkRefs T mem c ∧ c.Roomy T mem' := by
  simp only [chunkRefs, Chunk.Roomy] at *
  cases ha : c.alloc with
  | value t =>
    simp only [ha] at hr ⊢
    exact ⟨refsAt_congr (hT t) fun w hw => h _ (by omega) (by omega), hr⟩
  | items t =>
    simp only [ha] at hr ⊢
    have hl := h c.addr (Nat.le_refl _) (by omega)
    rw [hl]
    refine ⟨?_, hr⟩
    simp only [List.flatMap]
    congr 1
    apply List.map_congr_left
    intro i hi
    have hi := List.mem_range.mp hi
    refine refsAt_congr (hT t) fun w hw => h _ (by omega) ?_
    have h2 : (i + 1) * T.size t ≤ mem c.addr * T.size t := Nat.mul_le_mul_right _ hi
    rw [Nat.add_mul, Nat.one_mul] at h2
    omega
  | raw => simp
  | stack => simp
  | fiber =>
    simp only [ha, fiberSize] at hr ⊢
    exact ⟨by simp only [refOf, h _ (Nat.le_add_right _ 16) (by omega)], hr⟩

/-! ## Parts of values -/

theorem has_slots {off sz : Nat} {t : Ty} {fs : Fields} (h : fs.Has off sz t) : ∀ {lo size : Nat}, fs.WF lo size →
    t.WF sz ∧ lo ≤ off ∧ off + sz ≤ size ∧
    ∃ l1 l2, fs.slots = l1 ++ (t.slots.map fun s => (off + s.1, s.2)) ++ l2 ∧
      (∀ s ∈ l1 ++ l2, ∀ w ∈ s.2.words s.1, w < off ∨ off + sz ≤ w) := by
  induction h with
  | @here off sz t fs =>
    intro lo size hw
    simp only [Fields.WF] at hw
    refine ⟨hw.2.1, hw.1, hw.2.2.1, [], fs.slots, by simp [Fields.slots], ?_⟩
    intro s hs w hw'
    right
    exact (fslots_bounds fs _ _ hw.2.2.2 s (by simpa using hs) w hw').1
  | @there off sz off' sz' t t' fs hh ih =>
    intro lo size hw
    simp only [Fields.WF] at hw
    obtain ⟨i1, i2, i3, l1, l2, i4, i5⟩ := ih hw.2.2.2
    refine ⟨i1, by omega, i3, (t'.slots.map fun s => (off' + s.1, s.2)) ++ l1, l2, by simp [Fields.slots, i4], ?_⟩
    intro s hs w hw'
    simp only [List.append_assoc, List.mem_append] at hs
    rcases hs with hs | hs
    · simp only [List.mem_map] at hs
      obtain ⟨s', hs', rfl⟩ := hs
      obtain ⟨w', hw'', rfl⟩ := words_shift hw'
      have := slots_bounds t' sz' hw.2.1 s' hs' w' hw''
      left; omega
    · exact i5 s (List.mem_append.mpr hs) w hw'

theorem sub_slots {t u : Ty} {size o su : Nat} (h : Sub t size o u su) : t.WF size →
    u.WF su ∧ (o + su ≤ size) ∧
    ∃ l1 l2, t.slots = l1 ++ (u.slots.map fun s => (o + s.1, s.2)) ++ l2 ∧
      (∀ s ∈ l1 ++ l2, ∀ w ∈ s.2.words s.1, w < o ∨ o + su ≤ w) := by
  induction h with
  | here => intro hw; exact ⟨hw, by omega, [], [], by simp, by simp⟩
  | @item n sz size i o su t u hi hs ih =>
    intro hw
    simp only [Ty.WF] at hw
    obtain ⟨i1, i2, l1, l2, i3, i4⟩ := ih hw.1
    have hb : (i + 1) * sz ≤ n * sz := Nat.mul_le_mul_right _ hi
    rw [Nat.add_mul, Nat.one_mul] at hb
    let f := fun j => t.slots.map fun s => (j * sz + s.1, s.2)
    have hrange : List.range n = List.range i ++ i :: (List.range (n - i - 1)).map (· + (i + 1)) := by
      have h1 : n = i + (1 + (n - i - 1)) := by omega
      conv => lhs; rw [h1, List.range_add, List.range_add]
      simp [List.range_succ]
      intro a _; omega
    refine ⟨i1, by omega, (List.range i).flatMap f ++ l1.map (fun s => (i * sz + s.1, s.2)),
      l2.map (fun s => (i * sz + s.1, s.2)) ++ ((List.range (n - i - 1)).map (· + (i + 1))).flatMap f, ?_, ?_⟩
    · simp only [Ty.slots]
      rw [hrange]
      show List.flatMap f _ = _
      simp only [List.flatMap_append, List.flatMap_cons]
      have hf : f i = l1.map (fun s => (i * sz + s.1, s.2)) ++ (u.slots.map fun s => (i * sz + o + s.1, s.2)) ++
          l2.map (fun s => (i * sz + s.1, s.2)) := by
        show (t.slots.map fun s => (i * sz + s.1, s.2)) = _
        rw [i3]; simp [Nat.add_assoc]
      rw [hf]; simp only [List.append_assoc]
    · intro s hs' w hw'
      have other : ∀ j, j ≠ i → s ∈ f j → w < i * sz + o ∨ i * sz + o + su ≤ w := by
        intro j hj hsj
        simp only [f, List.mem_map] at hsj
        obtain ⟨s', hm', rfl⟩ := hsj
        obtain ⟨w', hw'', rfl⟩ := words_shift hw'
        have := slots_bounds t sz hw.1 s' hm' w' hw''
        by_cases hji : j < i
        · have h2 : (j + 1) * sz ≤ i * sz := Nat.mul_le_mul_right _ hji
          rw [Nat.add_mul, Nat.one_mul] at h2
          left; omega
        · have h2 : (i + 1) * sz ≤ j * sz := Nat.mul_le_mul_right _ (by omega)
          rw [Nat.add_mul, Nat.one_mul] at h2
          right; omega
      have own : ∀ s', s' ∈ l1 ++ l2 → s = (i * sz + s'.1, s'.2) → w < i * sz + o ∨ i * sz + o + su ≤ w := by
        rintro s' hm' rfl
        obtain ⟨w', hw'', rfl⟩ := words_shift hw'
        have := i4 s' hm' w' hw''
        omega
      simp only [List.mem_append, List.mem_flatMap, List.mem_map, List.mem_range] at hs'
      rcases hs' with (⟨j, hj, hsj⟩ | ⟨s', hs', he⟩) | (⟨s', hs', he⟩ | ⟨j, ⟨k, hk, rfl⟩, hsj⟩)
      · exact other j (by omega) hsj
      · exact own s' (List.mem_append.mpr (.inl hs')) he.symm
      · exact own s' (List.mem_append.mpr (.inr hs')) he.symm
      · exact other _ (by omega) hsj
  | @field fs off sz size o su t u hh hs ih =>
    intro hw
    simp only [Ty.WF] at hw
    obtain ⟨f1, f2, f3, m1, m2, f4, f5⟩ := has_slots hh hw
    obtain ⟨i1, i2, l1, l2, i3, i4⟩ := ih f1
    refine ⟨i1, by omega, m1 ++ l1.map (fun s => (off + s.1, s.2)), l2.map (fun s => (off + s.1, s.2)) ++ m2, ?_, ?_⟩
    · simp only [Ty.slots, f4, i3]; simp [Nat.add_assoc]
    · intro s hs' w hw'
      have own : ∀ s', s' ∈ l1 ++ l2 → s = (off + s'.1, s'.2) → w < off + o ∨ off + o + su ≤ w := by
        rintro s' hm' rfl
        obtain ⟨w', hw'', rfl⟩ := words_shift hw'
        have := i4 s' hm' w' hw''
        omega
      simp only [List.mem_append, List.mem_map] at hs'
      rcases hs' with (hs' | ⟨s', hs', he⟩) | (⟨s', hs', he⟩ | hs')
      · have := f5 s (List.mem_append.mpr (.inl hs')) w hw'; omega
      · exact own s' (List.mem_append.mpr (.inl hs')) he.symm
      · exact own s' (List.mem_append.mpr (.inr hs')) he.symm
      · have := f5 s (List.mem_append.mpr (.inr hs')) w hw'; omega

/-- Memory changes only in a region. -/
def Only (mem mem' : Nat → Nat) (a n : Nat) : Prop := ∀ w, w < a ∨ a + n ≤ w → mem' w = mem w

/-- Changing a part of a value changes only its references. -/
theorem sub_refs {T : Types} {mem : Nat → Nat} {t u : Ty} {a size o su : Nat} (h : Sub t size o u su) (hw : t.WF size) :
    ∃ R1 R2, ∀ mem', Only mem mem' (a + o) su → refsAt T mem' a t = R1 ++ refsAt T mem' (a + o) u ++ R2 := by
  obtain ⟨-, h2, l1, l2, h3, h4⟩ := sub_slots h hw
  refine ⟨l1.map fun s => refOf T mem (a + s.1) s.2, l2.map fun s => refOf T mem (a + s.1) s.2, ?_⟩
  intro mem' ho
  simp only [refsAt, h3, List.map_append, List.map_map]
  congr 1
  · congr 1
    · apply List.map_congr_left
      intro s hs
      exact refOf_congr fun w hw' => ho _ (by
        have := h4 s (List.mem_append.mpr (.inl hs)) w hw'; omega)
    · apply List.map_congr_left
      intro s _
      simp [Nat.add_assoc]
  · apply List.map_congr_left
    intro s hs
    exact refOf_congr fun w hw' => ho _ (by
      have := h4 s (List.mem_append.mpr (.inr hs)) w hw'; omega)

/-! ## Locations -/

/-- What assigning to a location changes. -/
structure Effect (T : Types) (s : State) (mem' : Nat → Nat) (root : Option Nat) (lhs : Nat) (t : Ty) : Prop where
  vars : root ≠ none → varRefs T { s.heap with mem := mem' } s.vars = varRefs T s.heap s.vars
  others : ∀ d, d < s.heap.num → 0 < s.heap.rc d → root ≠ some d →
    chunkRefs T mem' (s.heap.chunk d) = chunkRefs T s.heap.mem (s.heap.chunk d)
  roomy : ∀ d, d < s.heap.num → 0 < s.heap.rc d → (s.heap.chunk d).Roomy T mem'
  var : root = none → ∃ R1 R2, varRefs T s.heap s.vars = R1 ++ refsAt T s.heap.mem lhs t ++ R2 ∧
    varRefs T { s.heap with mem := mem' } s.vars = R1 ++ refsAt T mem' lhs t ++ R2
  object : ∀ i, root = some i → i < s.heap.num ∧ 0 < s.heap.rc i ∧ ∃ R1 R2,
    chunkRefs T s.heap.mem (s.heap.chunk i) = R1 ++ refsAt T s.heap.mem lhs t ++ R2 ∧
    chunkRefs T mem' (s.heap.chunk i) = R1 ++ refsAt T mem' lhs t ++ R2

theorem only_refl {mem : Nat → Nat} {a n : Nat} : Only mem mem a n := fun _ _ => rfl

theorem Only.congr {mem mem' : Nat → Nat} {a n b m : Nat} (h : Only mem mem' a n) (hr : Apart a n b m) :
    ∀ w, b ≤ w → w < b + m → mem' w = mem w := by
  intro w h1 h2
  apply h
  simp only [Apart] at hr; omega

theorem vars_congr {T : Types} {mem mem' : Nat → Nat} {vars : List Var} (ht : ∀ v ∈ vars, v.ty.WF v.size)
    (h : ∀ v ∈ vars, ∀ w, v.addr ≤ w → w < v.addr + v.size → mem' w = mem w) :
    (vars.flatMap fun v => refsAt T mem' v.addr v.ty) = vars.flatMap fun v => refsAt T mem v.addr v.ty := by
  simp only [List.flatMap]
  congr 1
  apply List.map_congr_left
  intro v hv
  exact refsAt_congr (ht v hv) fun w hw => h v hv _ (by omega) (by omega)

/-- Changing memory of an object affects no variable. -/
theorem varRefs_object {T : Types} {A : Nat → Prop} {s : State} (hs : Tidy T A s) {mem' : Nat → Nat} {i a n : Nat}
    (hi : i < s.heap.num) (hr : 0 < s.heap.rc i)
    (ha : (s.heap.chunk i).alloc ≠ .raw ∧ (s.heap.chunk i).alloc ≠ .stack) (ho : Only s.heap.mem mem' a n)
    (h1 : (s.heap.chunk i).addr ≤ a) (h2 : a + n ≤ (s.heap.chunk i).addr + (s.heap.chunk i).size + 1) :
    varRefs T { s.heap with mem := mem' } s.vars = varRefs T s.heap s.vars := by
  simp only [varRefs]
  congr 1
  apply vars_congr hs.varTypes
  intro v hv w hw1 hw2
  rcases hs.varsApart v hv i hi hr with h | h | h
  · exact absurd h ha.1
  · exact absurd h ha.2
  · apply ho; simp only [Apart] at h; omega

/-- Changing memory of an object affects no other object. -/
theorem chunkRefs_object {T : Types} (hT : T.WF) {A : Nat → Prop} {s : State} (hs : Tidy T A s) {mem' : Nat → Nat}
    {i a n d : Nat} (hi : i < s.heap.num) (hr : 0 < s.heap.rc i) (ho : Only s.heap.mem mem' a n)
    (h1 : (s.heap.chunk i).addr ≤ a) (h2 : a + n ≤ (s.heap.chunk i).addr + (s.heap.chunk i).size + 1)
    (hd : d < s.heap.num) (hrd : 0 < s.heap.rc d) (hne : d ≠ i) :
    chunkRefs T mem' (s.heap.chunk d) = chunkRefs T s.heap.mem (s.heap.chunk d) ∧ (s.heap.chunk d).Roomy T mem' := by
  apply chunkRefs_congr hT (hs.roomy d hd hrd)
  intro w hw1 hw2
  apply ho
  have := hs.apart d i hd hi hne hrd hr
  simp only [Apart] at this
  omega

theorem loc_effect {T : Types} (hT : T.WF) {A : Nat → Prop} {s : State} (hs : Tidy T A s) {root : Option Nat}
    {lhs sz : Nat} {t : Ty} (hl : Loc T s root lhs t sz) {mem' : Nat → Nat} (ho : Only s.heap.mem mem' lhs sz) :
    t.WF sz ∧ Effect T s mem' root lhs t := by
  cases hl with
  | @var v o sz t hv hsub =>
    have hw := hs.varTypes v hv
    obtain ⟨s1, s2, -⟩ := sub_slots hsub hw
    have hobj : ∀ d, d < s.heap.num → 0 < s.heap.rc d →
        chunkRefs T mem' (s.heap.chunk d) = chunkRefs T s.heap.mem (s.heap.chunk d) ∧ (s.heap.chunk d).Roomy T mem' := by
      intro d hd hr
      rcases hs.varsApart v hv d hd hr with h | h | h
      · simp [chunkRefs, Chunk.Roomy, h]
      · simp [chunkRefs, Chunk.Roomy, h]
      · apply chunkRefs_congr hT (hs.roomy d hd hr)
        intro w h1 h2
        apply ho; simp only [Apart] at h; omega
    refine ⟨s1, ⟨by simp, fun d hd hr _ => (hobj d hd hr).1, fun d hd hr => (hobj d hd hr).2, ?_, by simp⟩⟩
    intro _
    obtain ⟨V1, V2, hV⟩ := List.append_of_mem hv
    obtain ⟨R1, R2, hR⟩ := sub_refs (T := T) (mem := s.heap.mem) (a := v.addr) hsub hw
    have hp := hs.vars
    rw [hV, List.pairwise_append, List.pairwise_cons] at hp
    have c1 : (V1.flatMap fun v => refsAt T mem' v.addr v.ty) = V1.flatMap fun v => refsAt T s.heap.mem v.addr v.ty := by
      apply vars_congr
      · intro u hu; exact hs.varTypes u (by rw [hV]; simp [hu])
      · intro u hu w h1 h2
        have := hp.2.2 u hu v (by simp)
        apply ho; simp only [Apart] at this; omega
    have c2 : (V2.flatMap fun v => refsAt T mem' v.addr v.ty) = V2.flatMap fun v => refsAt T s.heap.mem v.addr v.ty := by
      apply vars_congr
      · intro u hu; exact hs.varTypes u (by rw [hV]; simp [hu])
      · intro u hu w h1 h2
        have := hp.2.1.1 u hu
        apply ho; simp only [Apart] at this; omega
    refine ⟨⟨(s.heap.chunk 0).addr, .stack⟩ :: ((V1.flatMap fun v => refsAt T s.heap.mem v.addr v.ty) ++ R1),
      R2 ++ V2.flatMap fun v => refsAt T s.heap.mem v.addr v.ty, ?_, ?_⟩
    · simp only [varRefs, hV, List.flatMap_append, List.flatMap_cons, hR _ only_refl]
      simp
    · simp only [varRefs, hV, List.flatMap_append, List.flatMap_cons, hR _ ho, c1, c2]
      simp
  | @value i n o sz t hi hr ha hsub =>
    have hw := hT n
    obtain ⟨s1, s2, -⟩ := sub_slots hsub hw
    have hroom := hs.roomy i hi hr
    simp only [Chunk.Roomy, ha] at hroom
    have b1 : (s.heap.chunk i).addr ≤ (s.heap.chunk i).addr + o := by omega
    have b2 : (s.heap.chunk i).addr + o + sz ≤ (s.heap.chunk i).addr + (s.heap.chunk i).size + 1 := by omega
    refine ⟨s1, ⟨fun _ => varRefs_object hs hi hr (by simp [ha]) ho b1 b2, ?_, ?_, by simp, ?_⟩⟩
    · intro d hd hrd hne
      exact (chunkRefs_object hT hs hi hr ho b1 b2 hd hrd (by simpa [eq_comm] using hne)).1
    · intro d hd hrd
      by_cases hdi : d = i
      · subst hdi; simp only [Chunk.Roomy, ha]; exact hroom
      · exact (chunkRefs_object hT hs hi hr ho b1 b2 hd hrd hdi).2
    · rintro j hj
      simp only [Option.some.injEq] at hj; subst hj
      obtain ⟨R1, R2, hR⟩ := sub_refs (T := T) (mem := s.heap.mem) (a := (s.heap.chunk i).addr) hsub hw
      refine ⟨hi, hr, R1, R2, ?_, ?_⟩
      · simp only [chunkRefs, ha]; exact hR _ only_refl
      · simp only [chunkRefs, ha]; exact hR _ ho
  | @item i n j o sz t hi hr ha hj hsub =>
    have hw := hT n
    obtain ⟨s1, s2, -⟩ := sub_slots hsub hw
    have hroom := hs.roomy i hi hr
    simp only [Chunk.Roomy, ha] at hroom
    have hb : (j + 1) * T.size n ≤ s.heap.mem (s.heap.chunk i).addr * T.size n := Nat.mul_le_mul_right _ hj
    rw [Nat.add_mul, Nat.one_mul] at hb
    have b1 : (s.heap.chunk i).addr ≤ (s.heap.chunk i).addr + 16 + j * T.size n + o := by omega
    have b2 : (s.heap.chunk i).addr + 16 + j * T.size n + o + sz ≤ (s.heap.chunk i).addr + (s.heap.chunk i).size + 1 := by
      omega
    have hlen : mem' (s.heap.chunk i).addr = s.heap.mem (s.heap.chunk i).addr := ho _ (by omega)
    refine ⟨s1, ⟨fun _ => varRefs_object hs hi hr (by simp [ha]) ho b1 b2, ?_, ?_, by simp, ?_⟩⟩
    · intro d hd hrd hne
      exact (chunkRefs_object hT hs hi hr ho b1 b2 hd hrd (by simpa [eq_comm] using hne)).1
    · intro d hd hrd
      by_cases hdi : d = i
      · subst hdi; simp only [Chunk.Roomy, ha, hlen]; exact hroom
      · exact (chunkRefs_object hT hs hi hr ho b1 b2 hd hrd hdi).2
    · rintro k hk
      simp only [Option.some.injEq] at hk; subst hk
      obtain ⟨R1, R2, hR⟩ := sub_refs (T := T) (mem := s.heap.mem)
        (a := (s.heap.chunk i).addr + 16 + j * T.size n) hsub hw
      have hrange : List.range (s.heap.mem (s.heap.chunk i).addr) =
          List.range j ++ j :: (List.range (s.heap.mem (s.heap.chunk i).addr - j - 1)).map (· + (j + 1)) := by
        have h1 : s.heap.mem (s.heap.chunk i).addr = j + (1 + (s.heap.mem (s.heap.chunk i).addr - j - 1)) := by omega
        conv => lhs; rw [h1, List.range_add, List.range_add]
        simp [List.range_succ]
        intro a _; omega
      let f := fun m k => refsAt T m ((s.heap.chunk i).addr + 16 + k * T.size n) (T.ty n)
      have hf : ∀ k, k ≠ j → f mem' k = f s.heap.mem k := by
        intro k hk
        refine refsAt_congr hw fun w hw' => ho _ ?_
        by_cases hkj : k < j
        · have h2 : (k + 1) * T.size n ≤ j * T.size n := Nat.mul_le_mul_right _ hkj
          rw [Nat.add_mul, Nat.one_mul] at h2
          left; omega
        · have h2 : (j + 1) * T.size n ≤ k * T.size n := Nat.mul_le_mul_right _ (by omega)
          rw [Nat.add_mul, Nat.one_mul] at h2
          right; omega
      have hfm : ∀ (l : List Nat), (∀ k ∈ l, k ≠ j) → l.flatMap (f mem') = l.flatMap (f s.heap.mem) := by
        intro l hl
        simp only [List.flatMap]
        congr 1
        exact List.map_congr_left fun k hk => hf k (hl k hk)
      refine ⟨hi, hr, (List.range j).flatMap (f s.heap.mem) ++ R1,
        R2 ++ ((List.range (s.heap.mem (s.heap.chunk i).addr - j - 1)).map (· + (j + 1))).flatMap (f s.heap.mem), ?_, ?_⟩
      · simp only [chunkRefs, ha]
        show List.flatMap (f s.heap.mem) _ = _
        rw [hrange, List.flatMap_append, List.flatMap_cons]
        have : f s.heap.mem j = _ := hR _ only_refl
        rw [this]; simp only [List.append_assoc]
      · simp only [chunkRefs, ha, hlen]
        show List.flatMap (f mem') _ = _
        rw [hrange, List.flatMap_append, List.flatMap_cons,
          hfm _ (by intro k hk; have := List.mem_range.mp hk; omega),
          hfm _ (by intro k hk; simp only [List.mem_map] at hk; obtain ⟨m, -, rfl⟩ := hk; omega)]
        have : f mem' j = _ := hR _ ho
        rw [this]; simp only [List.append_assoc]

end Umka.RefCnt
