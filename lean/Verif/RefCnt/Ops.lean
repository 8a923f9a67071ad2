import Verif.RefCnt.Places

/-!
# Reference counting: operations keep the counts exact
-/

namespace Umka.RefCnt

/-- The invariant, with references that are held by nobody yet. -/
structure InvP (T : Types) (A : Nat → Prop) (s : State) (pend : List Ref) : Prop where
  tidy : Tidy T A s
  typed : Typed T A s
  exact : ∀ c, c < s.heap.num → 0 < s.heap.rc c → s.heap.rc c = total T s c + cnt s.heap.owner c pend
  fits : ∀ r ∈ pend, Fits T A s.heap r

theorem Tidy.uniq {T : Types} {A : Nat → Prop} {s : State} (h : Tidy T A s) : Uniq s.heap := by
  intro i j p hi hj ri rj oi oj
  by_cases hij : i = j
  · exact hij
  · have := h.apart i j hi hj hij ri rj
    simp only [Heap.owns, Bool.and_eq_true, decide_eq_true_eq] at oi oj
    simp only [Apart] at this
    omega

theorem Tidy.main_owner {T : Types} {A : Nat → Prop} {s : State} (h : Tidy T A s) :
    s.heap.owner (s.heap.chunk 0).addr = some 0 :=
  owner_eq h.uniq h.main.1 h.main.2.1 (by simp [Heap.owns])

theorem owner_zero {T : Types} {A : Nat → Prop} {s : State} (h : Tidy T A s) : s.heap.owner 0 = none := by
  cases ho : s.heap.owner 0 with
  | none => rfl
  | some i =>
    obtain ⟨o1, -, o3⟩ := owner_some ho
    exact absurd (h.heap i o1 0 o3) h.null

theorem fits_zero {T : Types} {A : Nat → Prop} {s : State} (h : Tidy T A s) {r : Ref} (h0 : r.p = 0)
    (hk : r.kind ≠ .stack) : Fits T A s.heap r := by
  refine ⟨fun _ => h0, fun h => absurd h hk, ?_⟩
  rw [h0, owner_zero h]; exact h.null

/-! ## Reachability and changes to memory -/

theorem reach_live {h : Heap} {roots : List Ref} {O : Nat → List Ref} {c : Nat} (hr : Reach h.owner roots O c) :
    c < h.num ∧ 0 < h.rc c := by
  cases hr with
  | root _ ho => exact ⟨(owner_some ho).1, (owner_some ho).2.1⟩
  | step _ _ ho => exact ⟨(owner_some ho).1, (owner_some ho).2.1⟩

/-- An object that is reachable stays reachable when only its own references change. -/
theorem reach_other {h : Heap} {roots : List Ref} {O O' : Nat → List Ref} {i : Nat}
    (hO : ∀ d, d < h.num → 0 < h.rc d → d ≠ i → O' d = O d) {c : Nat} (hr : Reach h.owner roots O c) :
    Reach h.owner roots O' c ∨ Reach h.owner roots O' i := by
  induction hr with
  | root hr ho => exact .inl (.root hr ho)
  | @step d r c hd hr ho ih =>
    rcases ih with ih | ih
    · by_cases hdi : d = i
      · subst hdi; exact .inr ih
      · obtain ⟨l1, l2⟩ := reach_live hd
        refine .inl (.step ih ?_ ho)
        rw [hO d l1 l2 hdi]; exact hr
    · exact .inr ih

/-! ## Removing references -/

/-- When the work list is empty, the counts are exact. -/
theorem done_dec {T : Types} {A : Nat → Prop} {h0 h' : Heap} {m' : Nat → Nat} {vars : List Var}
    (hT : Tidy T A ⟨{ h0 with mem := m' }, vars⟩)
    (hB : Base T A h0 (varRefs T { h0 with mem := m' } vars) fun d => chunkRefs T m' (h0.chunk d))
    (hl : LInv T A h0 (varRefs T { h0 with mem := m' } vars) (fun d => chunkRefs T m' (h0.chunk d)) h' []) :
    InvP T A ⟨{ h' with mem := m' }, vars⟩ [] := by
  have howns : ∀ i p, h'.owns i p = h0.owns i p := by intro i p; simp only [Heap.owns, hl.chunk]
  have hu : Uniq h' := by
    intro a b p ha hb ra rb oa ob
    rw [hl.num] at ha hb
    rw [howns] at oa ob
    exact hB.uniq a b p ha hb (hl.sub a ha ra) (hl.sub b hb rb) oa ob
  have hbal : ∀ c, c < h0.num → 0 < h0.rc c → h'.rc c = cnt h0.owner c (varRefs T { h0 with mem := m' } vars) +
      sumTo h0.num fun d => if 0 < h'.rc d then cnt h0.owner c (chunkRefs T m' (h0.chunk d)) else 0 := by
    intro c hc h0c
    have := hl.bal c hc h0c
    simp only [gcnt_nil, inner, waits, List.filterMap_nil, List.not_mem_nil, not_false_eq_true, and_true,
      Nat.add_zero] at this
    exact this
  -- references that remain lead to objects that remain
  have hext : ∀ r ∈ varRefs T { h0 with mem := m' } vars, ∀ c, h0.owner r.p = some c → 0 < h'.rc c := by
    intro r hr c ho
    have := hbal c (owner_some ho).1 (owner_some ho).2.1
    have := cnt_pos hr ho
    omega
  have hobj : ∀ d, d < h0.num → 0 < h'.rc d → ∀ r ∈ chunkRefs T m' (h0.chunk d), ∀ c, h0.owner r.p = some c →
      0 < h'.rc c := by
    intro d hd hr' r hr c ho
    have h1 := hbal c (owner_some ho).1 (owner_some ho).2.1
    have h2 := sumTo_le (f := fun d => if 0 < h'.rc d then cnt h0.owner c (chunkRefs T m' (h0.chunk d)) else 0) hd
    simp only [hr', if_true] at h2
    have := cnt_pos hr ho
    omega
  have hown : ∀ r : Ref, (∀ c, h0.owner r.p = some c → 0 < h'.rc c) → h'.owner r.p = h0.owner r.p := by
    intro r h
    cases ho : h0.owner r.p with
    | some c =>
      obtain ⟨o1, o2, o3⟩ := owner_some ho
      exact owner_eq hu (by rw [hl.num]; exact o1) (h c ho) (by rw [howns]; exact o3)
    | none =>
      cases ho' : h'.owner r.p with
      | none => rfl
      | some c =>
        obtain ⟨o1, o2, o3⟩ := owner_some ho'
        rw [hl.num] at o1
        rw [howns, owner_none ho o1 (hl.sub c o1 o2)] at o3
        simp at o3
  have hfit : ∀ r : Ref, (∀ c, h0.owner r.p = some c → 0 < h'.rc c) → Fits T A h0 r →
      Fits T A { h' with mem := m' } r := by
    intro r h hf
    refine ⟨hf.1, ?_⟩
    have : Heap.owner { h' with mem := m' } r.p = h0.owner r.p := hown r h
    rw [this]
    show _ ∧ match h0.owner r.p with | none => ¬ A r.p | some c => Compat T (h'.chunk c) r
    rw [hl.chunk]; exact hf.2
  have hvr : varRefs T { h' with mem := m' } vars = varRefs T { h0 with mem := m' } vars := by
    simp only [varRefs, hl.chunk]
  have hmain : 0 < h'.rc 0 := by
    have := hT.main
    refine hext ⟨(h0.chunk 0).addr, .stack⟩ (by simp [varRefs]) 0 ?_
    exact hT.main_owner
  refine ⟨?_, ?_, ?_, by simp⟩
  · refine ⟨⟨by rw [hl.num]; exact hT.main.1, hmain, by rw [hl.chunk]; exact hT.main.2.2⟩, ?_, ?_, ?_, ?_, hT.vars,
      hT.varTypes, ?_, hT.null⟩
    · intro i hi; rw [hl.num] at hi; rw [hl.chunk]; exact hT.mainOnly i hi
    · intro i hi p hp
      rw [hl.num] at hi
      have : h0.owns i p := by rw [← howns]; exact hp
      exact hB.area i p hi this
    · intro i j hi hj hij ri rj
      rw [hl.num] at hi hj
      rw [hl.chunk]
      exact hT.apart i j hi hj hij (hl.sub i hi ri) (hl.sub j hj rj)
    · intro i hi ri
      rw [hl.num] at hi
      rw [hl.chunk]
      exact hT.roomy i hi (hl.sub i hi ri)
    · intro v hv i hi ri
      rw [hl.num] at hi
      rw [hl.chunk]
      exact hT.varsApart v hv i hi (hl.sub i hi ri)
  · refine ⟨?_, ?_⟩
    · intro r hr
      rw [hvr] at hr
      exact hfit r (hext r hr) (hB.fitsExt r hr)
    · intro d hd hrd r hr
      rw [hl.num] at hd
      rw [hl.chunk] at hr
      exact hfit r (hobj d hd hrd r hr) (hB.fitsO d hd (hl.sub d hd hrd) r hr)
  · intro c hc hrc
    rw [hl.num] at hc
    have hb := hbal c hc (hl.sub c hc hrc)
    simp only [cnt_nil, Nat.add_zero, total]
    rw [hvr, hl.num, hl.chunk]
    show h'.rc c = _
    rw [hb]
    congr 1
    · apply cnt_congr
      intro r hr
      have : Heap.owner { h' with mem := m' } r.p = h0.owner r.p := hown r (hext r hr)
      rw [hl.num, hl.chunk] at this
      rw [this]
    · apply sumTo_congr
      intro d hd
      by_cases hrd : 0 < h'.rc d
      · simp only [hrd, if_true]
        apply cnt_congr
        intro r hr
        have : Heap.owner { h' with mem := m' } r.p = h0.owner r.p := hown r (hobj d hd hrd r hr)
        rw [hl.num, hl.chunk] at this
        rw [this]
      · simp only [hrd, if_false]

/-- Removing the references of a value. -/
theorem run_dec {T : Types} {A : Nat → Prop} {h0 : Heap} {m' : Nat → Nat} {vars : List Var} {p : Nat} {t : Ty}
    (hT : Tidy T A ⟨{ h0 with mem := m' }, vars⟩)
    (hB : Base T A h0 (varRefs T { h0 with mem := m' } vars) fun d => chunkRefs T m' (h0.chunk d))
    (hf : ∀ r ∈ valRefs T h0.mem p t, Fits T A h0 r)
    (hbal : ∀ c, c < h0.num → 0 < h0.rc c → h0.rc c = cnt h0.owner c (varRefs T { h0 with mem := m' } vars) +
      (sumTo h0.num fun d => if 0 < h0.rc d then cnt h0.owner c (chunkRefs T m' (h0.chunk d)) else 0) +
      cnt h0.owner c (valRefs T h0.mem p t)) :
    ∃ n, refCnt T .dec n h0 p t = some (.error .busyFiber) ∨
      ∃ h', refCnt T .dec n h0 p t = some (.ok h') ∧ h'.mem = h0.mem ∧ InvP T A ⟨{ h' with mem := m' }, vars⟩ [] := by
  have hg : gsAll T h0.mem [.val p t] = (valRefs T h0.mem p t).map .ref := by simp [gsAll, gsOf]
  have hl : LInv T A h0 (varRefs T { h0 with mem := m' } vars) (fun d => chunkRefs T m' (h0.chunk d)) h0
      (gsAll T h0.mem [.val p t]) := by
    rw [hg]
    refine ⟨rfl, rfl, rfl, fun _ _ h => h, ?_, by rw [waits_map]; simp, by rw [waits_map]; simp, ?_⟩
    · intro c hc h0c
      rw [waits_map, gcnt_map]
      simp only [inner, List.not_mem_nil, not_false_eq_true, and_true]
      exact hbal c hc h0c
    · intro r hr
      simp only [List.mem_map, G.ref.injEq, exists_eq_right] at hr
      exact hf r hr
  obtain ⟨n, hn⟩ := loop_dec hB _ _ h0 [.val p t] hl (Nat.le_refl _) (Nat.le_refl _)
  refine ⟨n, ?_⟩
  rcases hn with hn | ⟨h', hn, hl'⟩
  · exact .inl hn
  · exact .inr ⟨h', hn, hl'.mem, done_dec hT hB hl'⟩

/-- Replacing the value of a location by one whose references are already counted. -/
theorem store_move {T : Types} (hW : T.WF) {A : Nat → Prop} {s : State} {pend : List Ref} (hI : InvP T A s pend)
    {lhs sz : Nat} {t : Ty} (ha : Assignable T s lhs t sz) {m' : Nat → Nat} (hm : Only s.heap.mem m' lhs sz)
    (hp : refsAt T m' lhs t = pend) :
    ∃ n, refCnt T .dec n s.heap (load s.heap.mem lhs t) t = some (.error .busyFiber) ∨
      ∃ h', refCnt T .dec n s.heap (load s.heap.mem lhs t) t = some (.ok h') ∧ h'.mem = s.heap.mem ∧
        InvP T A ⟨{ h' with mem := m' }, s.vars⟩ [] := by
  obtain ⟨root, hloc, hreach⟩ := ha
  obtain ⟨hwf, he⟩ := loc_effect hW hI.tidy hloc hm
  have hti := hI.tidy
  have hT : Tidy T A ⟨{ s.heap with mem := m' }, s.vars⟩ :=
    ⟨hti.main, hti.mainOnly, hti.heap, hti.apart, he.roomy, hti.vars, hti.varTypes, hti.varsApart, hti.null⟩
  -- the old and the new references
  have hold : (∀ r ∈ refsAt T s.heap.mem lhs t, Fits T A s.heap r) ∧
      (∀ r ∈ varRefs T { s.heap with mem := m' } s.vars, Fits T A s.heap r) ∧
      (∀ d, d < s.heap.num → 0 < s.heap.rc d → ∀ r ∈ chunkRefs T m' (s.heap.chunk d), Fits T A s.heap r) ∧
      ∀ c, cnt s.heap.owner c (varRefs T { s.heap with mem := m' } s.vars) +
          (sumTo s.heap.num fun d => if 0 < s.heap.rc d then cnt s.heap.owner c (chunkRefs T m' (s.heap.chunk d)) else 0) +
          cnt s.heap.owner c (refsAt T s.heap.mem lhs t) = total T s c + cnt s.heap.owner c pend := by
    cases root with
    | none =>
      obtain ⟨R1, R2, e1, e2⟩ := he.var rfl
      rw [hp] at e2
      have hv := hI.typed.vars
      rw [e1] at hv
      refine ⟨fun r hr => hv r (by simp [hr]), ?_, ?_, ?_⟩
      · intro r hr
        rw [e2] at hr
        simp only [List.append_assoc, List.mem_append] at hr
        rcases hr with hr | hr | hr
        · exact hv r (by simp [hr])
        · exact hI.fits r hr
        · exact hv r (by simp [hr])
      · intro d hd hr r hr'
        rw [he.others d hd hr (by simp)] at hr'
        exact hI.typed.objects d hd hr r hr'
      · intro c
        have : (sumTo s.heap.num fun d => if 0 < s.heap.rc d then cnt s.heap.owner c (chunkRefs T m' (s.heap.chunk d)) else 0) =
            sumTo s.heap.num fun d => if 0 < s.heap.rc d then cnt s.heap.owner c (chunkRefs T s.heap.mem (s.heap.chunk d)) else 0 := by
          apply sumTo_congr; intro d hd
          by_cases hr : 0 < s.heap.rc d
          · rw [if_pos hr, if_pos hr, he.others d hd hr (by simp)]
          · rw [if_neg hr, if_neg hr]
        rw [this]
        simp only [total, e1, e2, cnt_append]
        omega
    | some i =>
      obtain ⟨hi, hri, R1, R2, e1, e2⟩ := he.object i rfl
      rw [hp] at e2
      have hv := hI.typed.objects i hi hri
      rw [e1] at hv
      refine ⟨fun r hr => hv r (by simp [hr]), ?_, ?_, ?_⟩
      · intro r hr; rw [he.vars (by simp)] at hr; exact hI.typed.vars r hr
      · intro d hd hr r hr'
        by_cases hdi : d = i
        · subst hdi
          rw [e2] at hr'
          simp only [List.append_assoc, List.mem_append] at hr'
          rcases hr' with hr' | hr' | hr'
          · exact hv r (by simp [hr'])
          · exact hI.fits r hr'
          · exact hv r (by simp [hr'])
        · rw [he.others d hd hr (by simpa [eq_comm] using hdi)] at hr'
          exact hI.typed.objects d hd hr r hr'
      · intro c
        have := sumTo_update (n := s.heap.num) (k := i)
          (f := fun d => if 0 < s.heap.rc d then cnt s.heap.owner c (chunkRefs T m' (s.heap.chunk d)) else 0)
          (g := fun d => if 0 < s.heap.rc d then cnt s.heap.owner c (chunkRefs T s.heap.mem (s.heap.chunk d)) else 0)
          hi (by
            intro d hd hdi
            by_cases hr : 0 < s.heap.rc d
            · simp only [hr, if_true, he.others d hd hr (by simpa [eq_comm] using hdi)]
            · simp only [hr, if_false])
        simp only [hri, if_true, e1, e2, cnt_append] at this
        rw [he.vars (by simp)]
        simp only [total]
        omega
  obtain ⟨o1, o2, o3, o4⟩ := hold
  refine run_dec hT ⟨hti.uniq, hti.null, fun i p hi hp => hti.heap i hi p hp, o2, o3, ?_, ?_⟩ ?_ ?_
  · intro d hd hr hnr
    apply he.others d hd hr
    rintro rfl
    have h1 := hreach d rfl
    have h2 := reach_other (O' := fun d => chunkRefs T m' (s.heap.chunk d)) (i := d)
      (fun e he1 he2 hne => he.others e he1 he2 (by simpa [eq_comm] using hne)) h1
    rw [he.vars (by simp)] at hnr
    rcases h2 with h2 | h2 <;> exact hnr h2
  · intro c hc hs
    have := hti.mainOnly c hc hs; subst this
    exact cnt_pos (r := ⟨(s.heap.chunk 0).addr, .stack⟩) (by simp [varRefs]) hti.main_owner
  · rw [valRefs_load]; exact o1
  · intro c hc hr
    rw [valRefs_load, hI.exact c hc hr]
    exact (o4 c).symm

/-! ## Changes that do not concern references -/

/-- Memory changes, but no reference does. -/
theorem inv_mem {T : Types} {A : Nat → Prop} {s : State} {pend : List Ref} (hI : InvP T A s pend) {m' : Nat → Nat}
    (hv : varRefs T { s.heap with mem := m' } s.vars = varRefs T s.heap s.vars)
    (ho : ∀ d, d < s.heap.num → 0 < s.heap.rc d →
      chunkRefs T m' (s.heap.chunk d) = chunkRefs T s.heap.mem (s.heap.chunk d) ∧ (s.heap.chunk d).Roomy T m') :
    InvP T A ⟨{ s.heap with mem := m' }, s.vars⟩ pend := by
  have hti := hI.tidy
  refine ⟨⟨hti.main, hti.mainOnly, hti.heap, hti.apart, fun d hd hr => (ho d hd hr).2, hti.vars, hti.varTypes,
    hti.varsApart, hti.null⟩, ⟨?_, ?_⟩, ?_, hI.fits⟩
  · intro r hr
    have hr : r ∈ varRefs T { s.heap with mem := m' } s.vars := hr
    rw [hv] at hr; exact hI.typed.vars r hr
  · intro d hd hrd r hr
    have hr : r ∈ chunkRefs T m' (s.heap.chunk d) := hr
    rw [(ho d hd hrd).1] at hr; exact hI.typed.objects d hd hrd r hr
  · intro c hc hrc
    have h1 := hI.exact c hc hrc
    have h2 : total T ⟨{ s.heap with mem := m' }, s.vars⟩ c = total T s c := by
      simp only [total]
      congr 1
      · show cnt s.heap.owner c (varRefs T { s.heap with mem := m' } s.vars) = _
        rw [hv]
      · apply sumTo_congr; intro d hd
        by_cases hr : 0 < s.heap.rc d
        · simp only [hr, if_true, (ho d hd hr).1]; rfl
        · simp only [hr, if_false]
    rw [h2]; exact h1

/-! ## Adding references -/

theorem run_inc {T : Types} {A : Nat → Prop} {s : State} (hI : InvP T A s []) {p : Nat} {t : Ty}
    (hf : ∀ r ∈ valRefs T s.heap.mem p t, Fits T A s.heap r) :
    ∃ n h', refCnt T .inc n s.heap p t = some (.ok h') ∧ h'.mem = s.heap.mem ∧ h'.num = s.heap.num ∧
      h'.chunk = s.heap.chunk ∧ (∀ c, 0 < h'.rc c ↔ 0 < s.heap.rc c) ∧
      InvP T A ⟨h', s.vars⟩ (valRefs T s.heap.mem p t) := by
  have hti := hI.tidy
  have hi : IInv T A s.heap (valRefs T s.heap.mem p t) s.heap (crefs T s.heap.mem [.val p t]) := by
    rw [crefs_cons]
    simp only [crefs, gsAll, List.flatMap_nil, List.filterMap_nil, List.append_nil]
    exact ⟨rfl, rfl, rfl, fun _ => rfl, fun _ => Iff.rfl, hf⟩
  obtain ⟨n, h', hn, hl⟩ := loop_inc (fun i p hi hp => hti.heap i hi p hp) hti.null _ s.heap [.val p t]
    (by intro c hc; simp only [List.mem_singleton] at hc; exact ⟨_, _, hc⟩) hi (Nat.le_refl _)
  refine ⟨n, h', hn, hl.mem, hl.num, hl.chunk, hl.live, ?_⟩
  obtain ⟨num', chunk', rc', mem'⟩ := h'
  obtain ⟨h1, h2, h3, h4, h5, -⟩ := hl
  simp only at h1 h2 h3 h4 h5
  subst h1 h2 h3
  have hown : ∀ p, Heap.owner ⟨s.heap.num, s.heap.chunk, rc', s.heap.mem⟩ p = s.heap.owner p := by
    intro p; simp only [Heap.owner, Heap.owns, h5]
  have hfit : ∀ r, Fits T A s.heap r → Fits T A ⟨s.heap.num, s.heap.chunk, rc', s.heap.mem⟩ r := by
    intro r hr
    simp only [Fits, hown] at hr ⊢
    exact hr
  refine ⟨⟨⟨hti.main.1, (h5 0).mpr hti.main.2.1, hti.main.2.2⟩, hti.mainOnly, hti.heap, ?_, ?_, hti.vars, hti.varTypes,
    ?_, hti.null⟩, ⟨fun r hr => hfit r (hI.typed.vars r hr), ?_⟩, ?_, fun r hr => hfit r (hf r hr)⟩
  · intro i j hi hj hij ri rj
    exact hti.apart i j hi hj hij ((h5 i).mp ri) ((h5 j).mp rj)
  · intro i hi ri; exact hti.roomy i hi ((h5 i).mp ri)
  · intro v hv i hi ri; exact hti.varsApart v hv i hi ((h5 i).mp ri)
  · intro d hd hrd r hr; exact hfit r (hI.typed.objects d hd ((h5 d).mp hrd) r hr)
  · intro c hc hrc
    have e1 := hI.exact c hc ((h5 c).mp hrc)
    have e2 := h4 c
    simp only [cnt_nil, Nat.add_zero] at e1 e2
    have e3 : total T ⟨⟨s.heap.num, s.heap.chunk, rc', s.heap.mem⟩, s.vars⟩ c = total T s c := by
      have hown' : Heap.owner ⟨s.heap.num, s.heap.chunk, rc', s.heap.mem⟩ = s.heap.owner := funext hown
      simp only [total, hown', h5]
      rfl
    have hown' : Heap.owner ⟨s.heap.num, s.heap.chunk, rc', s.heap.mem⟩ = s.heap.owner := funext hown
    rw [e3]
    show rc' c = total T s c + cnt (Heap.owner ⟨s.heap.num, s.heap.chunk, rc', s.heap.mem⟩) c _
    rw [hown', e2, e1]

/-! ## Allocation -/

/-- The heap with one more chunk. -/
def addChunk (h : Heap) (c : Chunk) (m' : Nat → Nat) : Heap :=
  { num := h.num + 1, chunk := fun i => if i = h.num then c else h.chunk i, rc := set h.rc h.num 1, mem := m' }

theorem add_chunk {T : Types} (hW : T.WF) {A : Nat → Prop} {s : State} {contents pend : List Ref}
    (hI : InvP T A s (contents ++ pend)) {c : Chunk} {m' : Nat → Nat} {r : Ref} (hF : Free A s c.addr c.size)
    (hm : Only s.heap.mem m' c.addr (c.size + 1)) (hroom : c.Roomy T m') (hst : c.alloc ≠ .stack)
    (hcont : ∀ i, cnt s.heap.owner i (chunkRefs T m' c) = cnt s.heap.owner i contents)
    (hfits : ∀ r ∈ chunkRefs T m' c, Fits T A s.heap r)
    (hr1 : c.addr ≤ r.p) (hr2 : r.p ≤ c.addr + c.size) (hrk : r.kind ≠ .other) (hrc : Compat T c r) :
    InvP T A ⟨addChunk s.heap c m', s.vars⟩ (r :: pend) := by
  have hti := hI.tidy
  have hlt : ∀ {i}, i < s.heap.num → i ≠ s.heap.num := fun h => Nat.ne_of_lt h
  have hch : ∀ i, i < s.heap.num → (addChunk s.heap c m').chunk i = s.heap.chunk i := by
    intro i hi; simp [addChunk, hlt hi]
  have hchn : (addChunk s.heap c m').chunk s.heap.num = c := by simp [addChunk]
  have hrcs : ∀ i, i < s.heap.num → (addChunk s.heap c m').rc i = s.heap.rc i := by
    intro i hi; simp only [addChunk]; exact set_other (hlt hi)
  have hrcn : (addChunk s.heap c m').rc s.heap.num = 1 := set_same
  have hobj : ∀ d, d < s.heap.num → 0 < s.heap.rc d →
      chunkRefs T m' (s.heap.chunk d) = chunkRefs T s.heap.mem (s.heap.chunk d) ∧ (s.heap.chunk d).Roomy T m' := by
    intro d hd hr
    apply chunkRefs_congr hW (hti.roomy d hd hr)
    intro w h1 h2
    apply hm
    have := hF.2.1 d hd hr
    simp only [Apart] at this; omega
  have hvr : varRefs T (addChunk s.heap c m') s.vars = varRefs T s.heap s.vars := by
    simp only [varRefs]
    rw [hch 0 hti.main.1]
    congr 1
    apply vars_congr hti.varTypes
    intro v hv w h1 h2
    apply hm
    have := hF.2.2 v hv
    simp only [Apart] at this; omega
  have hT : Tidy T A ⟨addChunk s.heap c m', s.vars⟩ := by
    refine ⟨⟨by show 0 < s.heap.num + 1; omega, by
        rw [show (State.heap ⟨addChunk s.heap c m', s.vars⟩) = addChunk s.heap c m' from rfl, hrcs 0 hti.main.1]
        exact hti.main.2.1, by
        show ((addChunk s.heap c m').chunk 0).alloc = _
        rw [hch 0 hti.main.1]; exact hti.main.2.2⟩, ?_, ?_, ?_, ?_, hti.vars, hti.varTypes, ?_, hti.null⟩
    · intro i hi hs
      have hi : i < s.heap.num + 1 := hi
      have hs : ((addChunk s.heap c m').chunk i).alloc = .stack := hs
      by_cases hin : i = s.heap.num
      · subst hin; rw [hchn] at hs; exact absurd hs hst
      · rw [hch i (by omega)] at hs; exact hti.mainOnly i (by omega) hs
    · intro i hi p hp
      have hi : i < s.heap.num + 1 := hi
      have hp : (addChunk s.heap c m').owns i p := hp
      simp only [Heap.owns] at hp
      by_cases hin : i = s.heap.num
      · subst hin; rw [hchn] at hp
        simp only [Bool.and_eq_true, decide_eq_true_eq] at hp
        exact hF.1 p hp.1 hp.2
      · rw [hch i (by omega)] at hp; exact hti.heap i (by omega) p hp
    · intro i j hi hj hij ri rj
      have hi : i < s.heap.num + 1 := hi
      have hj : j < s.heap.num + 1 := hj
      have ri : 0 < (addChunk s.heap c m').rc i := ri
      have rj : 0 < (addChunk s.heap c m').rc j := rj
      show Apart ((addChunk s.heap c m').chunk i).addr (((addChunk s.heap c m').chunk i).size + 1)
        ((addChunk s.heap c m').chunk j).addr (((addChunk s.heap c m').chunk j).size + 1)
      by_cases hin : i = s.heap.num
      · subst hin
        rw [hrcs j (by omega)] at rj
        rw [hchn, hch j (by omega)]
        exact hF.2.1 j (by omega) rj
      · rw [hrcs i (by omega)] at ri
        by_cases hjn : j = s.heap.num
        · subst hjn
          rw [hchn, hch i (by omega)]
          have := hF.2.1 i (by omega) ri
          simp only [Apart] at this ⊢; omega
        · rw [hrcs j (by omega)] at rj
          rw [hch i (by omega), hch j (by omega)]
          exact hti.apart i j (by omega) (by omega) hij ri rj
    · intro i hi ri
      have hi : i < s.heap.num + 1 := hi
      have ri : 0 < (addChunk s.heap c m').rc i := ri
      show ((addChunk s.heap c m').chunk i).Roomy T m'
      by_cases hin : i = s.heap.num
      · subst hin; rw [hchn]; exact hroom
      · rw [hrcs i (by omega)] at ri
        rw [hch i (by omega)]; exact (hobj i (by omega) ri).2
    · intro v hv i hi ri
      have hi : i < s.heap.num + 1 := hi
      have ri : 0 < (addChunk s.heap c m').rc i := ri
      show ((addChunk s.heap c m').chunk i).alloc = .raw ∨ ((addChunk s.heap c m').chunk i).alloc = .stack ∨
        Apart v.addr v.size ((addChunk s.heap c m').chunk i).addr (((addChunk s.heap c m').chunk i).size + 1)
      by_cases hin : i = s.heap.num
      · subst hin; rw [hchn]
        have := hF.2.2 v hv
        right; right
        simp only [Apart] at this ⊢; omega
      · rw [hrcs i (by omega)] at ri
        rw [hch i (by omega)]; exact hti.varsApart v hv i (by omega) ri
  have hown : ∀ r, Fits T A s.heap r → (addChunk s.heap c m').owner r.p = s.heap.owner r.p := by
    intro r hr
    cases ho : s.heap.owner r.p with
    | some i =>
      obtain ⟨o1, o2, o3⟩ := owner_some ho
      refine owner_eq hT.uniq (i := i) ?_ ?_ ?_
      · show i < s.heap.num + 1; omega
      · show 0 < (addChunk s.heap c m').rc i
        rw [hrcs i o1]; exact o2
      · simp only [Heap.owns] at o3 ⊢
        show (decide (((addChunk s.heap c m').chunk i).addr ≤ r.p) && _) = true
        rw [hch i o1]; exact o3
    | none =>
      cases ho' : (addChunk s.heap c m').owner r.p with
      | none => rfl
      | some i =>
        exfalso
        obtain ⟨o1, -, o3⟩ := owner_some ho'
        have h1 := hT.heap i o1 r.p o3
        have h2 := hr.2.2
        rw [ho] at h2
        exact h2 h1
  have hnew : (addChunk s.heap c m').owner r.p = some s.heap.num := by
    refine owner_eq hT.uniq (i := s.heap.num) ?_ ?_ ?_
    · show s.heap.num < s.heap.num + 1; omega
    · show 0 < (addChunk s.heap c m').rc s.heap.num
      rw [hrcn]; omega
    · simp only [Heap.owns]
      rw [hchn]; simp [hr1, hr2]
  have hfit : ∀ r, Fits T A s.heap r → Fits T A (addChunk s.heap c m') r := by
    intro r hr
    have he := hown r hr
    have h2 := hr.2
    refine ⟨hr.1, ?_⟩
    rw [he]
    cases ho : s.heap.owner r.p with
    | none => rw [ho] at h2; exact h2
    | some i =>
      rw [ho] at h2
      refine ⟨h2.1, ?_⟩
      show Compat T ((addChunk s.heap c m').chunk i) r
      rw [hch i (owner_some ho).1]; exact h2.2
  have hcnt : ∀ (rs : List Ref), (∀ r ∈ rs, Fits T A s.heap r) → ∀ i,
      cnt (addChunk s.heap c m').owner i rs = cnt s.heap.owner i rs := by
    intro rs hrs i
    apply cnt_congr
    intro r hr
    rw [hown r (hrs r hr)]
  have hpf : ∀ r ∈ pend, Fits T A s.heap r := fun r hr => hI.fits r (List.mem_append.mpr (.inr hr))
  have htot : ∀ i, total T ⟨addChunk s.heap c m', s.vars⟩ i = total T s i + cnt s.heap.owner i contents := by
    intro i
    simp only [total]
    rw [show (addChunk s.heap c m').num = s.heap.num + 1 from rfl, sumTo_succ, hvr, hcnt _ hI.typed.vars]
    have e1 : (sumTo s.heap.num fun d => if 0 < (addChunk s.heap c m').rc d then
        cnt (addChunk s.heap c m').owner i (chunkRefs T (addChunk s.heap c m').mem ((addChunk s.heap c m').chunk d)) else 0) =
        sumTo s.heap.num fun d => if 0 < s.heap.rc d then cnt s.heap.owner i (chunkRefs T s.heap.mem (s.heap.chunk d)) else 0 := by
      apply sumTo_congr; intro d hd
      rw [hrcs d hd, hch d hd]
      by_cases hr : 0 < s.heap.rc d
      · rw [if_pos hr, if_pos hr]
        show cnt _ i (chunkRefs T m' (s.heap.chunk d)) = _
        rw [(hobj d hd hr).1, hcnt _ (hI.typed.objects d hd hr)]
      · rw [if_neg hr, if_neg hr]
    rw [e1, hrcn, hchn, if_pos (by omega)]
    show _ + (_ + cnt _ i (chunkRefs T m' c)) = _
    rw [hcnt _ hfits, hcont]
    omega
  refine ⟨hT, ⟨?_, ?_⟩, ?_, ?_⟩
  · intro r' hr'
    have hr' : r' ∈ varRefs T (addChunk s.heap c m') s.vars := hr'
    rw [hvr] at hr'; exact hfit r' (hI.typed.vars r' hr')
  · intro d hd hrd r' hr'
    have hd : d < s.heap.num + 1 := hd
    have hrd : 0 < (addChunk s.heap c m').rc d := hrd
    have hr' : r' ∈ chunkRefs T m' ((addChunk s.heap c m').chunk d) := hr'
    by_cases hdn : d = s.heap.num
    · subst hdn; rw [hchn] at hr'; exact hfit r' (hfits r' hr')
    · rw [hrcs d (by omega)] at hrd
      rw [hch d (by omega), (hobj d (by omega) hrd).1] at hr'
      exact hfit r' (hI.typed.objects d (by omega) hrd r' hr')
  · intro i hi hri
    have hi : i < s.heap.num + 1 := hi
    have hri : 0 < (addChunk s.heap c m').rc i := hri
    show (addChunk s.heap c m').rc i = total T ⟨addChunk s.heap c m', s.vars⟩ i +
      cnt (addChunk s.heap c m').owner i (r :: pend)
    rw [htot, cnt_cons, hnew, hcnt pend hpf]
    by_cases hin : i = s.heap.num
    · subst hin
      rw [hrcn, if_pos rfl]
      have z : ∀ rs : List Ref, cnt s.heap.owner s.heap.num rs = 0 := by
        intro rs; apply cnt_zero; intro r _ ho
        have := (owner_some ho).1; omega
      have zt : total T s s.heap.num = 0 := by
        simp only [total, z]
        have : (sumTo s.heap.num fun d => if 0 < s.heap.rc d then 0 else 0) = 0 := by
          rcases Nat.eq_zero_or_pos (sumTo s.heap.num fun d => if 0 < s.heap.rc d then 0 else 0) with h | h
          · exact h
          · obtain ⟨d, -, hd⟩ := sumTo_pos h; simp at hd
        omega
      rw [z, z, zt]
    · rw [hrcs i (by omega)] at hri ⊢
      have := hI.exact i (by omega) hri
      rw [cnt_append] at this
      rw [this, if_neg (by simp [Ne.symm hin])]
      omega
  · intro r' hr'
    rcases List.mem_cons.mp hr' with rfl | hr'
    · refine ⟨fun h => absurd h hrk, fun _ => ?_, ?_⟩
      · show (addChunk s.heap c m').owner r'.p ≠ none
        rw [hnew]; simp
      · show match (addChunk s.heap c m').owner r'.p with | none => _ | some c => _
        rw [hnew]
        show Compat T ((addChunk s.heap c m').chunk s.heap.num) r'
        rw [hchn]; exact hrc
    · exact hfit r' (hpf r' hr')

mutual
theorem slots_no_stack : (t : Ty) → ∀ s ∈ t.slots, s.2 ≠ .stack
  | .plain => by simp [Ty.slots]
  | .ptr _ => by simp [Ty.slots]
  | .str => by simp [Ty.slots]
  | .fiber => by simp [Ty.slots]
  | .dynarray _ => by simp [Ty.slots]
  | .map _ => by simp [Ty.slots]
  | .interface => by simp [Ty.slots]
  | .array n sz t => by
    intro s hs
    simp only [Ty.slots, List.mem_flatMap, List.mem_map] at hs
    obtain ⟨i, -, s', hs', rfl⟩ := hs
    exact slots_no_stack t s' hs'
  | .struct fs => by
    intro s hs
    exact fslots_no_stack fs s hs
theorem fslots_no_stack : (fs : Fields) → ∀ s ∈ fs.slots, s.2 ≠ .stack
  | .nil => by simp [Fields.slots]
  | .cons off sz t fs => by
    intro s hs
    simp only [Fields.slots, List.mem_append, List.mem_map] at hs
    rcases hs with ⟨s', hs', rfl⟩ | hs
    · exact slots_no_stack t s' hs'
    · exact fslots_no_stack fs s hs
end

/-- Zeroed memory holds null references. -/
theorem refsAt_zero {T : Types} {mem : Nat → Nat} {a size : Nat} {t : Ty} (ht : t.WF size)
    (hz : ∀ w, w < size → mem (a + w) = 0) : ∀ r ∈ refsAt T mem a t, r.p = 0 ∧ r.kind ≠ .stack := by
  intro r hr
  simp only [refsAt, List.mem_map] at hr
  obtain ⟨⟨o, k⟩, hs, rfl⟩ := hr
  have hb := slots_bounds t size ht _ hs
  have hk := slots_no_stack t _ hs
  cases k with
  | stack => exact absurd rfl hk
  | interface =>
    simp only [Kind.words, List.mem_cons, List.not_mem_nil, or_false, forall_eq_or_imp, forall_eq] at hb
    refine ⟨hz _ hb.1, ?_⟩
    simp only [refOf]
    cases T.ty (mem (a + o + 8)) <;> simp [Ty.refKind]
  | _ =>
    simp only [Kind.words, List.mem_cons, List.not_mem_nil, or_false, forall_eq] at hb
    simp only [refOf, Nat.add_assoc, hz _ hb]
    simp

/-! ## The operations -/

theorem loop_mono {T : Types} {tok : Tok} : ∀ {n : Nat} {h : Heap} {cs : List Cand} {r : Except Err Heap} (k : Nat),
    loop T tok n h cs = some r → loop T tok (n + k) h cs = some r
  | 0, _, _, _, _, h => by simp [loop] at h
  | n + 1, h, [], r, k, hl => by
    rw [Nat.add_right_comm]; simpa [loop] using hl
  | n + 1, h, c :: cs, r, k, hl => by
    rw [Nat.add_right_comm]
    simp only [loop] at hl ⊢
    cases hs : step T tok h c with
    | error e => rw [hs] at hl; simpa using hl
    | ok x =>
      rw [hs] at hl
      exact loop_mono k hl

theorem refCnt_le {T : Types} {tok : Tok} {n m : Nat} {h : Heap} {p : Nat} {t : Ty} {r : Except Err Heap}
    (hr : refCnt T tok n h p t = some r) (hm : n ≤ m) : refCnt T tok m h p t = some r := by
  have := loop_mono (m - n) hr
  rwa [Nat.add_sub_cancel' hm] at this

/-- What is promised of an operation. -/
def Safe (T : Types) (A : Nat → Prop) (s : State) (op : Op) : Prop :=
  ∃ n, exec T n s op = some (.error .busyFiber) ∨ ∃ s', exec T n s op = some (.ok s') ∧ InvP T A s' []

section
variable {T : Types} {A : Nat → Prop} {s : State}

theorem safe_write (hW : T.WF) (hI : InvP T A s []) {lhs v : Nat} (hv : Op.Valid T A s (.write lhs v)) :
    Safe T A s (.write lhs v) := by
  obtain ⟨root, size, hl, hs⟩ := hv
  have ho : Only s.heap.mem (set s.heap.mem lhs v) lhs size := by
    intro w hw; exact set_other (by omega)
  obtain ⟨-, he⟩ := loc_effect hW hI.tidy hl ho
  refine ⟨0, .inr ⟨_, rfl, inv_mem hI ?_ ?_⟩⟩
  · cases root with
    | none =>
      obtain ⟨R1, R2, e1, e2⟩ := he.var rfl
      rw [e1, e2]; simp [refsAt, Ty.slots]
    | some i => exact he.vars (by simp)
  · intro d hd hr
    refine ⟨?_, he.roomy d hd hr⟩
    by_cases hroot : root = some d
    · obtain ⟨-, -, R1, R2, e1, e2⟩ := he.object d hroot
      rw [e1, e2]; simp [refsAt, Ty.slots]
    · exact he.others d hd hr hroot

theorem safe_finish (hW : T.WF) (hI : InvP T A s []) {i : Nat} (hv : Op.Valid T A s (.finish i)) :
    Safe T A s (.finish i) := by
  obtain ⟨hi, hr, ha⟩ := hv
  have hroom := hI.tidy.roomy i hi hr
  simp only [Chunk.Roomy, ha, fiberSize] at hroom
  have ho : Only s.heap.mem (set s.heap.mem ((s.heap.chunk i).addr + 112) 0) ((s.heap.chunk i).addr + 112) 1 := by
    intro w hw; exact set_other (by omega)
  refine ⟨0, .inr ⟨_, rfl, inv_mem hI ?_ ?_⟩⟩
  · exact varRefs_object hI.tidy hi hr (by simp [ha]) ho (by omega) (by omega)
  · intro d hd hrd
    by_cases hdi : d = i
    · subst hdi
      simp only [chunkRefs, Chunk.Roomy, ha, refOf, fiberSize]
      refine ⟨?_, hroom⟩
      rw [set_other (by omega)]
    · exact chunkRefs_object hW hI.tidy hi hr ho (by omega) (by omega) hd hrd hdi

theorem safe_declare (hW : T.WF) (hI : InvP T A s []) {v : Var} (hv : Op.Valid T A s (.declare v)) :
    Safe T A s (.declare v) := by
  obtain ⟨hwf, hva, hca⟩ := hv
  have hti := hI.tidy
  have ho : Only s.heap.mem (zero s.heap.mem v.addr v.size) v.addr v.size := by
    intro w hw; simp only [zero]; rw [if_neg (by omega)]
  have hobj : ∀ d, d < s.heap.num → 0 < s.heap.rc d →
      chunkRefs T (zero s.heap.mem v.addr v.size) (s.heap.chunk d) = chunkRefs T s.heap.mem (s.heap.chunk d) ∧
        (s.heap.chunk d).Roomy T (zero s.heap.mem v.addr v.size) := by
    intro d hd hr
    rcases hca d hd hr with h | h | h
    · simp [chunkRefs, Chunk.Roomy, h]
    · simp [chunkRefs, Chunk.Roomy, h]
    · apply chunkRefs_congr hW (hti.roomy d hd hr)
      intro w h1 h2
      apply ho; simp only [Apart] at h; omega
  have hvr : varRefs T { s.heap with mem := zero s.heap.mem v.addr v.size } s.vars = varRefs T s.heap s.vars := by
    simp only [varRefs]
    congr 1
    apply vars_congr hti.varTypes
    intro u hu w h1 h2
    apply ho
    have := hva u hu
    simp only [Apart] at this; omega
  have hI' := inv_mem hI hvr hobj
  have hz : ∀ r ∈ refsAt T (zero s.heap.mem v.addr v.size) v.addr v.ty, r.p = 0 ∧ r.kind ≠ .stack :=
    refsAt_zero hwf fun w hw => by simp only [zero]; rw [if_pos (by omega)]
  have hti' := hI'.tidy
  refine ⟨0, .inr ⟨_, rfl, ⟨⟨hti'.main, hti'.mainOnly, hti'.heap, hti'.apart, hti'.roomy, ?_, ?_, ?_, hti'.null⟩, ⟨?_, hI'.typed.objects⟩, ?_, by simp⟩⟩⟩
  · exact List.pairwise_cons.mpr ⟨hva, hti'.vars⟩
  · intro u hu
    rcases List.mem_cons.mp hu with rfl | hu
    · exact hwf
    · exact hti'.varTypes u hu
  · intro u hu
    rcases List.mem_cons.mp hu with rfl | hu
    · exact hca
    · exact hti'.varsApart u hu
  · intro r hr
    simp only [varRefs, List.flatMap_cons, List.mem_cons, List.mem_append] at hr
    rcases hr with hr | hr | hr
    · exact hI'.typed.vars r (by simp only [varRefs, List.mem_cons]; exact .inl hr)
    · exact fits_zero hti' (hz r hr).1 (hz r hr).2
    · exact hI'.typed.vars r (by simp only [varRefs, List.mem_cons]; exact .inr hr)
  · intro c hc hrc
    have := hI'.exact c hc hrc
    have e : total T ⟨{ s.heap with mem := zero s.heap.mem v.addr v.size }, v :: s.vars⟩ c =
        total T ⟨{ s.heap with mem := zero s.heap.mem v.addr v.size }, s.vars⟩ c := by
      simp only [total, varRefs, List.flatMap_cons, cnt_cons, cnt_append]
      rw [cnt_zero (a := refsAt T (zero s.heap.mem v.addr v.size) v.addr v.ty)]
      · simp
      · intro r hr ho
        rw [(hz r hr).1] at ho
        have := owner_zero hti'
        simp only at this
        rw [this] at ho; simp at ho
    rw [e]; exact this

theorem safe_release (hI : InvP T A s []) {k : Nat} (hv : Op.Valid T A s (.release k)) :
    Safe T A s (.release k) := by
  have hk : k < s.vars.length := hv
  have hti := hI.tidy
  obtain ⟨v, hvk⟩ : ∃ v, s.vars[k]? = some v := ⟨s.vars[k], List.getElem?_eq_getElem hk⟩
  have hsplit : s.vars = s.vars.take k ++ v :: s.vars.drop (k + 1) := by
    have : v = s.vars[k] := by rw [List.getElem?_eq_getElem hk] at hvk; exact (Option.some.inj hvk).symm
    rw [this, ← List.drop_eq_getElem_cons hk, List.take_append_drop]
  have herase : s.vars.eraseIdx k = s.vars.take k ++ s.vars.drop (k + 1) := List.eraseIdx_eq_take_drop_succ ..
  have hsub : ∀ u ∈ s.vars.eraseIdx k, u ∈ s.vars := fun u hu => (List.eraseIdx_sublist s.vars k).subset hu
  have hT : Tidy T A ⟨{ s.heap with mem := s.heap.mem }, s.vars.eraseIdx k⟩ :=
    ⟨hti.main, hti.mainOnly, hti.heap, hti.apart, hti.roomy, hti.vars.sublist (List.eraseIdx_sublist s.vars k),
      fun u hu => hti.varTypes u (hsub u hu), fun u hu => hti.varsApart u (hsub u hu), hti.null⟩
  have hvsub : ∀ r ∈ varRefs T s.heap (s.vars.eraseIdx k), r ∈ varRefs T s.heap s.vars := by
    intro r hr
    simp only [varRefs, List.mem_cons, List.mem_flatMap] at hr ⊢
    rcases hr with hr | ⟨u, hu, hr⟩
    · exact .inl hr
    · exact .inr ⟨u, hsub u hu, hr⟩
  have hvmem : v ∈ s.vars := by rw [hsplit]; simp
  have hB : Base T A s.heap (varRefs T { s.heap with mem := s.heap.mem } (s.vars.eraseIdx k))
      fun d => chunkRefs T s.heap.mem (s.heap.chunk d) :=
    ⟨hti.uniq, hti.null, fun i p hi hp => hti.heap i hi p hp, fun r hr => hI.typed.vars r (hvsub r hr),
      hI.typed.objects, fun _ _ _ _ => rfl, by
        intro c hc hs
        have := hti.mainOnly c hc hs; subst this
        exact cnt_pos (r := ⟨(s.heap.chunk 0).addr, .stack⟩) (by simp [varRefs]) hti.main_owner⟩
  obtain ⟨n, hn⟩ := run_dec (p := load s.heap.mem v.addr v.ty) (t := v.ty) hT hB
    (by
      rw [valRefs_load]
      intro r hr
      apply hI.typed.vars
      simp only [varRefs, List.mem_cons, List.mem_flatMap]
      exact .inr ⟨v, hvmem, hr⟩)
    (by
      intro c hc hr
      rw [valRefs_load, hI.exact c hc hr]
      have : cnt s.heap.owner c (varRefs T s.heap s.vars) =
          cnt s.heap.owner c (varRefs T s.heap (s.vars.eraseIdx k)) + cnt s.heap.owner c (refsAt T s.heap.mem v.addr v.ty) := by
        simp only [varRefs, herase, cnt_cons]
        conv => lhs; rw [hsplit]
        simp only [List.flatMap_append, List.flatMap_cons, cnt_append]
        omega
      simp only [total, this, cnt_nil]
      show _ = cnt s.heap.owner c (varRefs T s.heap (s.vars.eraseIdx k)) + _ + _
      omega)
  refine ⟨n, ?_⟩
  rcases hn with hn | ⟨h', hn, hm, hI'⟩
  · left; simp only [exec, hvk, hn, thenOk]
  · right
    refine ⟨⟨h', s.vars.eraseIdx k⟩, by simp only [exec, hvk, hn, thenOk], ?_⟩
    have : ({ h' with mem := s.heap.mem } : Heap) = h' := by rw [← hm]
    rw [this] at hI'
    exact hI'

theorem safe_assign (hW : T.WF) (hI : InvP T A s []) {lhs rhs size : Nat} {t : Ty}
    (hv : Op.Valid T A s (.assign lhs rhs t size)) : Safe T A s (.assign lhs rhs t size) := by
  obtain ⟨⟨root, hloc, hreach⟩, hf⟩ := hv
  obtain ⟨n1, h1, hn1, e1, e2, e3, e4, hI1⟩ := run_inc hI hf
  have hwf : t.WF size := (loc_effect hW hI.tidy hloc only_refl).1
  have hown : h1.owner = s.heap.owner := by
    funext p; simp only [Heap.owner, Heap.owns, e2, e3, e4]
  have hloc' : Loc T ⟨h1, s.vars⟩ root lhs t size := by
    cases hloc with
    | var hv hs => exact .var hv hs
    | @value i n o _ _ hi hr ha hs =>
      have := Loc.value (T := T) (s := ⟨h1, s.vars⟩) (i := i) (n := n) (o := o) (by rw [e2]; exact hi) ((e4 i).mpr hr)
        (by rw [e3]; exact ha) hs
      rw [e3] at this; exact this
    | @item i n j o _ _ hi hr ha hj hs =>
      have := Loc.item (T := T) (s := ⟨h1, s.vars⟩) (i := i) (n := n) (j := j) (o := o) (by rw [e2]; exact hi) ((e4 i).mpr hr)
        (by rw [e3]; exact ha) (by rw [e1, e3]; exact hj) hs
      rw [e3] at this; exact this
  have hreach' : ∀ c, root = some c → State.Reach T ⟨h1, s.vars⟩ c := by
    intro c hc
    have := hreach c hc
    simp only [State.Reach, varRefs] at this ⊢
    rw [hown, e1, e3]; exact this
  have hm : Only h1.mem (store h1.mem lhs rhs t size) lhs size := by
    intro w hw
    simp only [store]
    split
    · refine set_other ?_
      cases t <;> simp_all [Ty.direct, Ty.WF] <;> omega
    · dsimp only; rw [if_neg (by omega)]
  have hp : refsAt T (store h1.mem lhs rhs t size) lhs t = valRefs T s.heap.mem rhs t := by
    by_cases hd : t.direct = true
    · simp only [store, hd, if_true]
      cases t <;> simp_all [Ty.direct] <;> simp [refsAt, Ty.slots, refOf, valRefs, set]
    · have hv : valRefs T s.heap.mem rhs t = refsAt T s.heap.mem rhs t := by
        cases t <;> simp_all [Ty.direct, valRefs]
      rw [hv, e1]
      simp only [store, hd]
      refine refsAt_congr hwf fun w hw => ?_
      simp only [Bool.false_eq_true, if_false]
      rw [if_pos (by omega)]
      congr 1; omega
  obtain ⟨n2, hn2⟩ := store_move hW hI1 ⟨root, hloc', hreach'⟩ hm hp
  refine ⟨n1 + n2, ?_⟩
  have r1 := refCnt_le hn1 (Nat.le_add_right n1 n2)
  rcases hn2 with hn2 | ⟨h2, hn2, m2, hI2⟩
  · left
    have r2 := refCnt_le hn2 (Nat.le_add_left n2 n1)
    simp only [exec, r1, thenOk]
    simp only [r2]
  · right
    have r2 := refCnt_le hn2 (Nat.le_add_left n2 n1)
    refine ⟨_, by simp only [exec, r1, thenOk]; simp only [r2]; rfl, ?_⟩
    rw [m2]; exact hI2

theorem loc_grow {s' : State} (h1 : ∀ i, i < s.heap.num → 0 < s.heap.rc i → i < s'.heap.num ∧ 0 < s'.heap.rc i ∧
      s'.heap.chunk i = s.heap.chunk i ∧ ∀ t, (s.heap.chunk i).alloc = .items t →
        s'.heap.mem (s.heap.chunk i).addr = s.heap.mem (s.heap.chunk i).addr)
    (h2 : s'.vars = s.vars) {root : Option Nat} {lhs sz : Nat} {t : Ty} (hl : Loc T s root lhs t sz) :
    Loc T s' root lhs t sz := by
  cases hl with
  | var hv hs => exact .var (by rw [h2]; exact hv) hs
  | @value i n o _ _ hi hr ha hs =>
    obtain ⟨a1, a2, a3, -⟩ := h1 i hi hr
    have := Loc.value (T := T) (s := s') (i := i) (n := n) (o := o) a1 a2 (by rw [a3]; exact ha) hs
    rw [a3] at this; exact this
  | @item i n j o _ _ hi hr ha hj hs =>
    obtain ⟨a1, a2, a3, a4⟩ := h1 i hi hr
    have := Loc.item (T := T) (s := s') (i := i) (n := n) (j := j) (o := o) a1 a2 (by rw [a3]; exact ha)
      (by rw [a3, a4 n ha]; exact hj) hs
    rw [a3] at this; exact this

theorem assignable_grow {c : Chunk} {m' : Nat → Nat} (hW : T.WF) (hI : InvP T A s pend) (hF : Free A s c.addr c.size)
    (hm : Only s.heap.mem m' c.addr (c.size + 1)) (hI' : InvP T A ⟨addChunk s.heap c m', s.vars⟩ pend')
    {lhs sz : Nat} {t : Ty} (ha : Assignable T s lhs t sz) :
    Assignable T ⟨addChunk s.heap c m', s.vars⟩ lhs t sz := by
  obtain ⟨root, hloc, hreach⟩ := ha
  have hti := hI.tidy
  have hch : ∀ i, i < s.heap.num → (addChunk s.heap c m').chunk i = s.heap.chunk i := by
    intro i hi; simp [addChunk, Nat.ne_of_lt hi]
  have hrcs : ∀ i, i < s.heap.num → (addChunk s.heap c m').rc i = s.heap.rc i := by
    intro i hi; simp only [addChunk]; exact set_other (Nat.ne_of_lt hi)
  have hobj : ∀ d, d < s.heap.num → 0 < s.heap.rc d → ∀ w, (s.heap.chunk d).addr ≤ w →
      w ≤ (s.heap.chunk d).addr + (s.heap.chunk d).size → m' w = s.heap.mem w := by
    intro d hd hr w h1 h2
    apply hm
    have := hF.2.1 d hd hr
    simp only [Apart] at this; omega
  have hown : ∀ p i, s.heap.owner p = some i → (addChunk s.heap c m').owner p = some i := by
    intro p i ho
    obtain ⟨o1, o2, o3⟩ := owner_some ho
    refine owner_eq hI'.tidy.uniq (i := i) ?_ ?_ ?_
    · show i < s.heap.num + 1; omega
    · show 0 < (addChunk s.heap c m').rc i
      rw [hrcs i o1]; exact o2
    · simp only [Heap.owns] at o3 ⊢
      show (decide (((addChunk s.heap c m').chunk i).addr ≤ p) && _) = true
      rw [hch i o1]; exact o3
  refine ⟨root, loc_grow (s := s) (s' := ⟨addChunk s.heap c m', s.vars⟩) ?_ rfl hloc, ?_⟩
  · intro i hi hr
    refine ⟨?_, ?_, hch i hi, ?_⟩
    · show i < s.heap.num + 1; omega
    · show 0 < (addChunk s.heap c m').rc i
      rw [hrcs i hi]; exact hr
    · intro t _; exact hobj i hi hr _ (Nat.le_refl _) (by omega)
  · intro d hd
    have h1 := hreach d hd
    have hvr : varRefs T (addChunk s.heap c m') s.vars = varRefs T s.heap s.vars := by
      simp only [varRefs]
      rw [hch 0 hti.main.1]
      congr 1
      apply vars_congr hti.varTypes
      intro v hv w h1 h2
      apply hm
      have := hF.2.2 v hv
      simp only [Apart] at this; omega
    clear hd hreach hloc
    induction h1 with
    | root hr ho =>
      refine .root ?_ (hown _ _ ho)
      show _ ∈ varRefs T (addChunk s.heap c m') s.vars
      rw [hvr]; exact hr
    | @step e r f he hr ho ih =>
      obtain ⟨l1, l2⟩ := reach_live he
      refine .step ih ?_ (hown _ _ ho)
      show r ∈ chunkRefs T m' ((addChunk s.heap c m').chunk e)
      rw [hch e l1, (chunkRefs_congr hW (hti.roomy e l1 l2) (hobj e l1 l2)).1]
      exact hr

theorem only_zero {mem : Nat → Nat} {a n : Nat} : Only mem (zero mem a n) a n := by
  intro w hw; simp only [zero]; rw [if_neg (by omega)]

theorem safe_alloc (hW : T.WF) (hI : InvP T A s []) {r : Request} {addr size lhs : Nat}
    (hv : Op.Valid T A s (.alloc r addr size lhs)) : Safe T A s (.alloc r addr size lhs) := by
  obtain ⟨hF, ⟨sz, ha⟩, hsz⟩ := hv
  -- the heap after the allocation
  obtain ⟨m1, hm1, hheap⟩ : ∃ m1, Only s.heap.mem m1 addr (size + 1) ∧
      allocNew s.heap r addr size = addChunk s.heap ⟨addr, size, r.toAlloc⟩ m1 := by
    cases r with
    | value t => exact ⟨_, only_zero, rfl⟩
    | str => exact ⟨_, only_zero, rfl⟩
    | items t len =>
      refine ⟨set (zero s.heap.mem addr (size + 1)) addr len, ?_, rfl⟩
      intro w hw
      rw [set_other (by omega)]; exact only_zero w hw
  have hnull : ∀ r' ∈ chunkRefs T m1 ⟨addr, size, r.toAlloc⟩, r'.p = 0 ∧ r'.kind ≠ .stack := by
    cases r with
    | value t =>
      have : m1 = zero s.heap.mem addr (size + 1) := congrArg Heap.mem hheap.symm
      simp only at hsz
      simp only [chunkRefs, Request.toAlloc, this]
      exact refsAt_zero (hW t) fun w hw => by simp only [zero]; rw [if_pos (by omega)]
    | str => intro r' hr'; simp [chunkRefs, Request.toAlloc] at hr'
    | items t len =>
      have : m1 = set (zero s.heap.mem addr (size + 1)) addr len := congrArg Heap.mem hheap.symm
      simp only at hsz
      intro r' hr'
      simp only [chunkRefs, Request.toAlloc, this, set_same, List.mem_flatMap, List.mem_range] at hr'
      obtain ⟨i, hi, hr'⟩ := hr'
      refine refsAt_zero (hW t) (fun w hw => ?_) r' hr'
      have h2 : (i + 1) * T.size t ≤ len * T.size t := Nat.mul_le_mul_right _ hi
      rw [Nat.add_mul, Nat.one_mul] at h2
      rw [set_other (by omega)]
      simp only [zero]; rw [if_pos (by omega)]
  have hroom : Chunk.Roomy T m1 ⟨addr, size, r.toAlloc⟩ := by
    cases r with
    | value t => exact hsz
    | str => simp [Chunk.Roomy, Request.toAlloc]
    | items t len =>
      have : m1 = set (zero s.heap.mem addr (size + 1)) addr len := congrArg Heap.mem hheap.symm
      simp only [Chunk.Roomy, Request.toAlloc, this, set_same]; exact hsz
  -- the new reference
  obtain ⟨nr, hnr1, hnr2, hnr3, hnr4, hnr5⟩ : ∃ nr : Ref, addr ≤ nr.p ∧ nr.p ≤ addr + size ∧ nr.kind ≠ .other ∧
      Compat T ⟨addr, size, r.toAlloc⟩ nr ∧ ∀ m, refsAt T (storeNew m r addr lhs) lhs r.ty = [nr] := by
    cases r with
    | value t =>
      refine ⟨⟨addr, .ptr t⟩, Nat.le_refl _, Nat.le_add_right .., by simp, by simp [Compat, Request.toAlloc], ?_⟩
      intro m; simp [refsAt, Request.ty, Ty.slots, refOf, storeNew, set]
    | str =>
      simp only at hsz
      refine ⟨⟨addr + 16, .str⟩, Nat.le_add_right .., by show addr + 16 ≤ addr + size; omega, by simp, by simp [Compat, Request.toAlloc], ?_⟩
      intro m; simp [refsAt, Request.ty, Ty.slots, refOf, storeNew, set]
    | items t len =>
      simp only at hsz
      refine ⟨⟨addr + 16, .items t⟩, Nat.le_add_right .., by show addr + 16 ≤ addr + size; omega, by simp, by simp [Compat, Request.toAlloc], ?_⟩
      intro m; simp [refsAt, Request.ty, Ty.slots, refOf, storeNew, set]
  have hI' : InvP T A ⟨addChunk s.heap ⟨addr, size, r.toAlloc⟩ m1, s.vars⟩ [nr] := by
    refine add_chunk hW (contents := []) (pend := []) hI hF hm1 hroom (by cases r <;> simp [Request.toAlloc]) ?_ ?_ hnr1 hnr2 hnr3 hnr4
    · intro i
      rw [cnt_nil]
      apply cnt_zero
      intro r' hr' ho
      rw [(hnull r' hr').1, owner_zero hI.tidy] at ho; simp at ho
    · intro r' hr'; exact fits_zero hI.tidy (hnull r' hr').1 (hnull r' hr').2
  have ha' := assignable_grow (c := ⟨addr, size, r.toAlloc⟩) hW hI hF hm1 hI' ha
  have hwf : r.ty.WF sz := by
    obtain ⟨root, hloc, -⟩ := ha
    exact (loc_effect hW hI.tidy hloc only_refl).1
  have hm : Only m1 (storeNew m1 r addr lhs) lhs sz := by
    intro w hw
    cases r <;> simp only [storeNew] <;> simp only [Request.ty, Ty.WF] at hwf <;> exact set_other (by omega)
  obtain ⟨n, hn⟩ := store_move hW hI' ha' hm (hnr5 m1)
  refine ⟨n, ?_⟩
  rcases hn with hn | ⟨h', hn, hm', hI2⟩
  · left
    simp only [exec, hheap]
    rw [hn]; rfl
  · right
    refine ⟨⟨{ h' with mem := storeNew h'.mem r addr lhs }, s.vars⟩, ?_, ?_⟩
    · simp only [exec, hheap]
      rw [hn]; rfl
    · rw [hm']; exact hI2

theorem safe_fiber (hW : T.WF) (hI : InvP T A s []) {addr sa ss lhs : Nat}
    (hv : Op.Valid T A s (.fiber addr sa ss lhs)) : Safe T A s (.fiber addr sa ss lhs) := by
  obtain ⟨hFs, hFa, hap, sz, ha⟩ := hv
  have hI1 : InvP T A ⟨addChunk s.heap ⟨sa, ss, .raw⟩ (zero s.heap.mem sa (ss + 1)), s.vars⟩ [⟨sa, .stack⟩] := by
    refine add_chunk hW (contents := []) (pend := []) hI hFs only_zero (by simp [Chunk.Roomy]) (by simp) ?_ ?_
      (Nat.le_refl _) (Nat.le_add_right ..) (by simp) (by simp [Compat])
    · intro i; simp [chunkRefs]
    · intro r hr; simp [chunkRefs] at hr
  have ha1 := assignable_grow (c := ⟨sa, ss, .raw⟩) hW hI hFs only_zero hI1 ha
  have hF1 : Free A ⟨addChunk s.heap ⟨sa, ss, .raw⟩ (zero s.heap.mem sa (ss + 1)), s.vars⟩ addr fiberSize := by
    refine ⟨hFa.1, ?_, hFa.2.2⟩
    intro i hi hr
    have hi : i < s.heap.num + 1 := hi
    have hr : 0 < (addChunk s.heap ⟨sa, ss, .raw⟩ (zero s.heap.mem sa (ss + 1))).rc i := hr
    show Apart addr (fiberSize + 1) ((addChunk s.heap ⟨sa, ss, .raw⟩ (zero s.heap.mem sa (ss + 1))).chunk i).addr
      (((addChunk s.heap ⟨sa, ss, .raw⟩ (zero s.heap.mem sa (ss + 1))).chunk i).size + 1)
    by_cases hin : i = s.heap.num
    · subst hin; simp only [addChunk, if_true]; exact hap
    · simp only [addChunk, hin, if_false]
      simp only [addChunk, set_other hin] at hr
      exact hFa.2.1 i (by omega) hr
  -- the fiber
  let s1 : State := ⟨addChunk s.heap ⟨sa, ss, .raw⟩ (zero s.heap.mem sa (ss + 1)), s.vars⟩
  let m2 := set (set (zero s1.heap.mem addr (fiberSize + 1)) (addr + 112) 1) (addr + 16) sa
  have hm2 : Only s1.heap.mem m2 addr (fiberSize + 1) := by
    intro w hw
    simp only [fiberSize] at hw
    show set (set _ _ _) _ _ w = _
    rw [set_other (by omega), set_other (by omega)]
    exact only_zero w (by simp only [fiberSize]; omega)
  have hcr : chunkRefs T m2 ⟨addr, fiberSize, .fiber⟩ = [⟨sa, .stack⟩] := by
    simp [chunkRefs, refOf, m2, set]
  have hI2 : InvP T A ⟨addChunk s1.heap ⟨addr, fiberSize, .fiber⟩ m2, s.vars⟩ [⟨addr, .fiber⟩] := by
    refine add_chunk hW (s := s1) (contents := [⟨sa, .stack⟩]) (pend := []) hI1 hF1 hm2 (Nat.le_refl _) (by simp) ?_ ?_
      (Nat.le_refl _) (Nat.le_add_right ..) (by simp) (by simp [Compat])
    · intro i; rw [hcr]
    · intro r hr; rw [hcr] at hr; exact hI1.fits r hr
  have ha2 := assignable_grow (s := s1) (c := ⟨addr, fiberSize, .fiber⟩) hW hI1 hF1 hm2 hI2 ha1
  have hwf : Ty.WF .fiber sz := by
    obtain ⟨root, hloc, -⟩ := ha
    exact (loc_effect hW hI.tidy hloc only_refl).1
  simp only [Ty.WF] at hwf
  have hm : Only m2 (set m2 lhs addr) lhs sz := by
    intro w hw; exact set_other (by omega)
  obtain ⟨n, hn⟩ := store_move hW hI2 ha2 hm (by simp [refsAt, Ty.slots, refOf, set])
  refine ⟨n, ?_⟩
  have hheap : allocFiber s.heap addr sa ss = addChunk s1.heap ⟨addr, fiberSize, .fiber⟩ m2 := rfl
  rcases hn with hn | ⟨h', hn, hm', hI3⟩
  · left
    simp only [exec, hheap]
    rw [hn]; rfl
  · right
    refine ⟨⟨{ h' with mem := set h'.mem lhs addr }, s.vars⟩, ?_, ?_⟩
    · simp only [exec, hheap]
      rw [hn]; rfl
    · rw [hm']; exact hI3

theorem safe_op (hW : T.WF) (hI : InvP T A s []) {op : Op} (hv : op.Valid T A s) : Safe T A s op := by
  cases op with
  | declare v => exact safe_declare hW hI hv
  | release k => exact safe_release hI hv
  | alloc r addr size lhs => exact safe_alloc hW hI hv
  | fiber addr sa ss lhs => exact safe_fiber hW hI hv
  | finish i => exact safe_finish hW hI hv
  | write lhs v => exact safe_write hW hI hv
  | assign lhs rhs t size => exact safe_assign hW hI hv
end

end Umka.RefCnt
