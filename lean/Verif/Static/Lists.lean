import Verif.Static.Eval
/-!
# Static storage: dynamic arrays and expression lists
-/

namespace Umka.Static
open Spec

variable {Q : Nat → Prop} {consts : Consts} {env : List (CTy × Val)}

/-- A constant in blocks of `P` and `Q`, other than the block `b` it is to be copied to. -/
structure Source (P Q : Nat → Prop) (mem : Mem) (b : Nat) (ty : Ty) (w : Word) (v : Val) : Prop where
  rep : Rep P Q mem ty (wordsOf mem ty w) v
  ptr : ty.structured = true → ∃ s o, w = .ptr s o ∧ s < mem.length ∧ s ≠ b

theorem Source.keep {P Q : Nat → Prop} {mem mem' : Mem} {b : Nat} {ty : Ty} {w : Word} {v : Val} (hp : ¬ P b) (hq : ¬ Q b)
    (h : Source P Q mem b ty w v) (hk : Keep (· = b) mem mem') : wordsOf mem' ty w = wordsOf mem ty w ∧ Source P Q mem' b ty w v := by
  have hw := wordsOf_keep hk h.ptr
  refine ⟨hw, ?_, fun hs => ?_⟩
  · rw [hw]
    exact h.rep.move (fun i hl hi => ⟨hi, hk.same i hl fun he => hp (he ▸ hi)⟩) fun i hl hi => ⟨hi, hk.same i hl fun he => hq (he ▸ hi)⟩
  · obtain ⟨s, o, h1, h2, h3⟩ := h.ptr hs
    exact ⟨s, o, h1, Nat.lt_of_lt_of_le h2 hk.length, h3⟩

theorem assignList_spec {P Q : Nat → Prop} {mem : Mem} {b : Nat} {blk : Block} (hp : ¬ P b) (hq : ¬ Q b) (hb : mem[b]? = some blk) :
    ∀ L : List (Ty × Nat × Word), (∀ x ∈ L, ∃ v, Source P Q mem b x.1 x.2.2 v) → (∀ x ∈ L, x.2.1 + x.1.size ≤ blk.words.length) →
    L.Pairwise (fun x y => x.2.1 + x.1.size ≤ y.2.1) →
    ∃ mem' ws', assignList b L mem = .ok mem' ∧ Keep (· = b) mem mem' ∧ mem'.length = mem.length ∧ mem'[b]? = some { blk with words := ws' } ∧
      ws'.length = blk.words.length ∧ ∀ x ∈ L, slice ws' x.2.1 x.1.size = wordsOf mem x.1 x.2.2
  | [], _, _, _ => ⟨mem, blk.words, rfl, .refl _ _, rfl, hb, rfl, fun _ h => by simp at h⟩
  | (ty, off, w) :: L, hs, hr, ho => by
    rw [List.pairwise_cons] at ho
    obtain ⟨mem₁, ws₁, h1, h2, h3, h4, h5, h6⟩ := assignList_spec hp hq hb L (fun x hx => hs x (List.mem_cons_of_mem _ hx))
      (fun x hx => hr x (List.mem_cons_of_mem _ hx)) ho.2
    obtain ⟨v, hsrc⟩ := hs _ List.mem_cons_self
    obtain ⟨hw, hsrc'⟩ := hsrc.keep hp hq h2
    have hl : (wordsOf mem₁ ty w).length = ty.size := hsrc'.rep.length
    have hroom : off + ty.size ≤ blk.words.length := hr _ List.mem_cons_self
    have hra : off + (wordsOf mem₁ ty w).length ≤ ws₁.length := by omega
    refine ⟨poke mem₁ b off (wordsOf mem₁ ty w), splice ws₁ off (wordsOf mem₁ ty w), ?_, h2.trans (.poke fun _ => rfl), by rw [poke_length, h3], poke_words h4,
      (splice_length hra).trans h5, fun x hx => ?_⟩
    · rw [assignList, h1]
      refine constAssign_ok b off hsrc'.rep fun h => ?_
      obtain ⟨s, o, h, _⟩ := hsrc'.ptr h
      exact ⟨s, o, h⟩
    · rcases List.mem_cons.mp hx with rfl | hx
      · show slice _ off ty.size = wordsOf mem ty w
        rw [← hl, slice_splice_same hra, hw]
      · rw [← h6 x hx]
        refine slice_congr fun j hj hj' => ?_
        have : off + ty.size ≤ x.2.1 := ho.1 x hx
        rw [splice_get (by omega), if_neg (by omega), if_neg (by omega)]

/-! ## Dynamic arrays -/

theorem mul_room {i n m : Nat} (h : i < n) : i * m + m ≤ n * m := by
  rw [← Nat.succ_mul]
  exact Nat.mul_le_mul_right _ h

theorem storageAdd_get (mem : Mem) (n : Nat) : (storageAdd mem n).1[mem.length]? = some ⟨.plain, 0, 0, List.replicate n (.int 0)⟩ := by
  simp [storageAdd]

theorem addDyn_get (mem : Mem) (base : Ty) (n : Nat) : (storageAddDynArray mem base n).1[mem.length]? =
    some ⟨.plain, 0, 0, [.int 1, .int base.size, .ptr (mem.length + 1) 0]⟩ := by
  simp [storageAddDynArray]

theorem addDyn_data (mem : Mem) (base : Ty) (n : Nat) : (storageAddDynArray mem base n).1[mem.length + 1]? =
    some ⟨.items, n, 2 * (n + 1), List.replicate (2 * (n + 1) * base.size) (.int 0)⟩ := by
  simp [storageAddDynArray]

theorem addDyn_length (mem : Mem) (base : Ty) (n : Nat) : (storageAddDynArray mem base n).1.length = mem.length + 2 := by
  simp [storageAddDynArray]

theorem getElem?_some {α : Type} {l : List α} {i : Nat} (h : i < l.length) : ∃ x, l[i]? = some x := ⟨l[i], List.getElem?_eq_getElem h⟩

/-- A new dynamic array with words that are copied to its data. -/
theorem dyn_rep {mem mem₁ : Mem} {base : Ty} {vs : List Val} {ws : List Word} (hk : Keep None' mem mem₁) (hl : ws.length = vs.length * base.size)
    (hr : ∀ (i : Nat) x, vs[i]? = some x → Rep (New mem) (Texts Q mem) mem₁ base (slice ws (i * base.size) base.size) x) (hq : ∀ i, Q i → i < mem.length) :
    Good Q mem (poke (storageAddDynArray mem₁ base vs.length).1 (mem₁.length + 1) 0 ws) (.dyn base) (.ptr mem₁.length 0) (.list vs) := by
  let mem₂ := (storageAddDynArray mem₁ base vs.length).1
  have hl₂ : mem₂.length = mem₁.length + 2 := addDyn_length ..
  have hk₂ : Keep None' mem₁ (poke mem₂ (mem₁.length + 1) 0 ws) := by
    refine ⟨by rw [poke_length, hl₂]; omega, fun i hi _ => ?_⟩
    rw [poke_get, if_neg (by omega)]
    exact List.getElem?_append_left hi
  have ha : (poke mem₂ (mem₁.length + 1) 0 ws)[mem₁.length]? = some ⟨.plain, 0, 0, [.int 1, .int base.size, .ptr (mem₁.length + 1) 0]⟩ := by
    rw [poke_get, if_neg (by omega)]
    exact addDyn_get ..
  refine ⟨hk.trans hk₂, ?_, fun _ => ⟨_, rfl, hk.length, by rw [poke_length, hl₂]; omega⟩, (fun h => (nomatch h)), fun _ b hb => by cases hb; exact ⟨_, ha, rfl⟩⟩
  have hroom : 0 + ws.length ≤ (List.replicate (2 * (vs.length + 1) * base.size) (Word.int 0)).length := by
    rw [List.length_replicate, hl, Nat.zero_add]
    exact Nat.mul_le_mul_right _ (by omega)
  refine ⟨vs, rfl, .inr ⟨mem₁.length + 1, ⟨.items, vs.length, 2 * (vs.length + 1), splice (List.replicate (2 * (vs.length + 1) * base.size) (.int 0)) 0 ws⟩,
    ?_, Nat.le_trans hk.length (Nat.le_succ _), ?_, rfl, rfl, rfl, ?_, fun i x hi => ?_⟩⟩
  · show (if Ty.structured (.dyn base) = true then peek _ mem₁.length 0 3 else _) = _
    have : Ty.structured (.dyn base) = true := rfl
    rw [if_pos this, peek_some ha]
    rfl
  · exact poke_words (addDyn_data ..)
  · show (splice _ _ _).length = _
    rw [splice_length hroom, List.length_replicate]
  · have hi' := mul_room (m := base.size) (getElem?_lt hi)
    have hsl : slice (splice (List.replicate (2 * (vs.length + 1) * base.size) (Word.int 0)) 0 ws) (i * base.size) base.size =
        slice ws (i * base.size) base.size := by
      refine slice_congr fun j hj hj' => ?_
      rw [splice_get (Nat.zero_le _), if_neg (by omega), if_pos (by omega), Nat.sub_zero]
    show Rep _ _ _ base (slice (splice _ _ _) _ _) x
    rw [hsl]
    exact (hr i x hi).move (fun j hl hj => ⟨hj, hk₂.same j hl fun h => h⟩) fun j hl hj => ⟨hj, hk₂.same j hl fun h => h⟩

theorem makeDynArray_spec {mem mem₁ : Mem} {base : Ty} {vs : List Val} {ws : List Word} (hk : Keep None' mem mem₁) (hl : ws.length = vs.length)
    (hr : ∀ (i : Nat) w x, ws[i]? = some w → vs[i]? = some x → Good Q mem mem₁ base w x) (hq : ∀ i, Q i → i < mem.length) :
    ∃ mem' w, makeDynArray base ws mem₁ = .ok (mem', w) ∧ Good Q mem mem' (.dyn base) w (.list vs) := by
  by_cases h0 : ws.length > 0
  · let mem₂ := (storageAdd mem₁ (ws.length * base.size)).1
    have hk₂ : Keep None' mem₁ mem₂ := .append _ _ _
    let P : Nat → Prop := fun i => mem.length ≤ i ∧ i < mem₁.length
    let T : Nat → Prop := fun i => Texts Q mem i ∧ i < mem₁.length
    have hsrc : ∀ x ∈ ws.zipIdx.map (fun x => (base, x.2 * base.size, x.1)), ∃ v, Source P T mem₂ mem₁.length x.1 x.2.2 v := by
      intro x hx
      obtain ⟨⟨w, i⟩, hi, rfl⟩ := List.mem_map.mp hx
      have hi := List.mem_zipIdx_iff_getElem?.mp hi
      obtain ⟨v, hv⟩ := getElem?_some (l := vs) (i := i) (hl ▸ getElem?_lt hi)
      have hg := hr i w v hi hv
      have hwk : wordsOf mem₂ base w = wordsOf mem₁ base w := wordsOf_keep hk₂ fun hs => by
        obtain ⟨s, h, _, h'⟩ := hg.ptr hs
        exact ⟨s, 0, h, h', fun h => h⟩
      refine ⟨v, ?_, fun hs => ?_⟩
      · show Rep _ _ _ base (wordsOf mem₂ base w) v
        rw [hwk]
        exact hg.rep.move (fun j hl hj => ⟨⟨hj, hl⟩, hk₂.same j hl fun h => h⟩) fun j hl hj => ⟨⟨hj, hl⟩, hk₂.same j hl fun h => h⟩
      · obtain ⟨s, h, _, h'⟩ := hg.ptr hs
        exact ⟨s, 0, h, Nat.lt_of_lt_of_le h' hk₂.length, Nat.ne_of_lt h'⟩
    obtain ⟨mem₃, ws₃, h1, h2, h3, h4, h5, h6⟩ := assignList_spec (P := P) (Q := T) (b := mem₁.length) (fun h => Nat.lt_irrefl _ h.2) (fun h => Nat.lt_irrefl _ h.2)
      (storageAdd_get mem₁ (ws.length * base.size)) _ hsrc
      (by
        intro x hx
        obtain ⟨⟨w, i⟩, hi, rfl⟩ := List.mem_map.mp hx
        have hi := List.mem_zipIdx_iff_getElem?.mp hi
        show i * base.size + base.size ≤ (List.replicate _ _).length
        rw [List.length_replicate]
        exact mul_room (getElem?_lt hi))
      (by
        rw [List.pairwise_map, List.pairwise_iff_getElem]
        intro i j hi hj hij
        simp only [List.getElem_zipIdx, Nat.zero_add]
        exact mul_room hij)
    have h5' : ws₃.length = vs.length * base.size := by rw [h5, List.length_replicate, hl]
    have hk₃ : Keep None' mem₁ mem₃ :=
      ⟨Nat.le_trans hk₂.length h2.length, fun i hi _ => by
        rw [h2.same i (Nat.lt_of_lt_of_le hi hk₂.length) (by omega), hk₂.same i hi fun h => h]⟩
    have hpeek : peek (storageAddDynArray mem₃ base ws.length).1 mem₁.length 0 (ws.length * base.size) = ws₃ := by
      have : (storageAddDynArray mem₃ base ws.length).1[mem₁.length]? = some ⟨.plain, 0, 0, ws₃⟩ := by
        rw [← h4]
        exact List.getElem?_append_left (getElem?_lt h4)
      rw [peek_some this]
      exact slice_all (by rw [h5', hl])
    refine ⟨_, _, ?_, dyn_rep (mem₁ := mem₃) (vs := vs) (ws := ws₃) (hk.trans hk₃) h5' (fun i x hi => ?_) hq⟩
    · rw [makeDynArray, if_pos h0]
      show (assignList mem₁.length _ mem₂).bind _ = _
      rw [h1]
      show Except.ok (poke (storageAddDynArray mem₃ base ws.length).1 (mem₃.length + 1) 0
        (peek (storageAddDynArray mem₃ base ws.length).1 mem₁.length 0 (ws.length * base.size)), Word.ptr mem₃.length 0) = _
      rw [hpeek, hl]
    · obtain ⟨w, hw⟩ := getElem?_some (l := ws) (i := i) (hl ▸ getElem?_lt hi)
      have hg := hr i w x hw hi
      have hmem : (base, i * base.size, w) ∈ ws.zipIdx.map (fun x => (base, x.2 * base.size, x.1)) :=
        List.mem_map.mpr ⟨(w, i), List.mem_zipIdx_iff_getElem?.mpr hw, rfl⟩
      have := h6 _ hmem
      simp only at this
      rw [this, wordsOf_keep hk₂ fun hs => by
        obtain ⟨s, h, _, h'⟩ := hg.ptr hs
        exact ⟨s, 0, h, h', fun h => h⟩]
      exact hg.rep.move (fun j hl hj => ⟨hj, hk₃.same j hl fun h => h⟩) fun j hl hj => ⟨hj, hk₃.same j hl fun h => h⟩
  · have hv : vs = [] := List.eq_nil_of_length_eq_zero (by omega)
    subst hv
    have hz : poke (storageAddDynArray mem₁ base 0).1 (mem₁.length + 1) 0 [] = (storageAddDynArray mem₁ base 0).1 := by
      refine List.ext_getElem? fun i => ?_
      rw [poke_get]
      split
      · cases (storageAddDynArray mem₁ base 0).1[i]? <;> simp [splice]
      · rfl
    have := dyn_rep (Q := Q) (vs := []) (ws := []) (base := base) hk (by simp) (fun i x hi => by simp at hi) hq
    rw [List.length_nil, hz] at this
    exact ⟨_, _, by rw [makeDynArray, if_neg h0]; rfl, this⟩

end Umka.Static
