import Verif.RefCnt.Lemmas

/-!
# Reference counting: the loop
-/

namespace Umka.RefCnt

/-- What an entry of the work list stands for. -/
def gsOf (T : Types) (mem : Nat → Nat) : Cand → List G
  | .val p t => (valRefs T mem p t).map .ref
  | .deferred i => [.wait i]

def gsAll (T : Types) (mem : Nat → Nat) (cs : List Cand) : List G := cs.flatMap (gsOf T mem)

theorem gsAll_cons {T : Types} {mem : Nat → Nat} {c : Cand} {cs : List Cand} :
    gsAll T mem (c :: cs) = gsOf T mem c ++ gsAll T mem cs := by simp [gsAll]

theorem gsAll_append {T : Types} {mem : Nat → Nat} {a b : List Cand} :
    gsAll T mem (a ++ b) = gsAll T mem a ++ gsAll T mem b := by simp [gsAll]

/-! ## Parts of values -/

theorem refsAt_array {T : Types} {mem : Nat → Nat} {a n size : Nat} {t : Ty} :
    refsAt T mem a (.array n size t) = (List.range n).flatMap fun i => refsAt T mem (a + i * size) t := by
  simp only [refsAt, Ty.slots, List.map_flatMap, List.map_map]
  congr 1; funext i; congr 1; funext s; simp [Nat.add_assoc]

theorem gsAll_items {T : Types} {mem : Nat → Nat} {p size n : Nat} {t : Ty} :
    (gsAll T mem (itemCands mem p t size n)).Perm
      (((List.range n).flatMap fun i => refsAt T mem (p + i * size) t).map .ref) := by
  simp only [itemCands]
  cases hc : t.collected with
  | false =>
    have : ((List.range n).flatMap fun i => refsAt T mem (p + i * size) t) = [] := by
      simp [refsAt_nil hc]
    rw [this]; simp [gsAll]
  | true =>
    simp only [if_true, gsAll, List.flatMap_map, List.map_flatMap, gsOf, valRefs_load]
    exact (List.reverse_perm _).flatMap_right _

theorem gsAll_fields {T : Types} {mem : Nat → Nat} {p : Nat} : (fs : Fields) →
    gsAll T mem (fieldCands mem p fs) = (fs.slots.map fun s => refOf T mem (p + s.1) s.2).map .ref
  | .nil => rfl
  | .cons off sz t fs => by
    have ih := gsAll_fields (T := T) (mem := mem) (p := p) fs
    simp only [fieldCands, gsAll_append, ih, Fields.slots, List.map_append]
    congr 1
    cases hc : t.collected with
    | false => simp [slots_nil t hc, gsAll]
    | true =>
      simp only [if_true, gsAll, List.flatMap_cons, List.flatMap_nil, List.append_nil, gsOf, valRefs_load, refsAt]
      simp [Nat.add_assoc]

theorem gsAll_fields_reverse {T : Types} {mem : Nat → Nat} {p : Nat} (fs : Fields) :
    (gsAll T mem (fieldCands mem p fs).reverse).Perm ((refsAt T mem p (.struct fs)).map .ref) := by
  have h : (gsAll T mem (fieldCands mem p fs).reverse).Perm (gsAll T mem (fieldCands mem p fs)) :=
    (List.reverse_perm _).flatMap_right _
  rw [gsAll_fields] at h
  exact h

/-! ## Termination -/

mutual
def Ty.wt : Ty → Nat
  | .plain | .ptr _ | .str | .dynarray _ | .fiber => 1
  | .map _ | .interface => 2
  | .array n _ t => 1 + n * t.wt
  | .struct fs => 1 + fs.wt
def Fields.wt : Fields → Nat
  | .nil => 0
  | .cons _ _ t fs => t.wt + fs.wt
end

def Cand.wt : Cand → Nat
  | .val _ t => t.wt
  | .deferred _ => 1

def wtAll (cs : List Cand) : Nat := (cs.map Cand.wt).sum

theorem wtAll_cons {c : Cand} {cs : List Cand} : wtAll (c :: cs) = c.wt + wtAll cs := by simp [wtAll]
theorem wtAll_append {a b : List Cand} : wtAll (a ++ b) = wtAll a + wtAll b := by simp [wtAll]
theorem wtAll_nil : wtAll [] = 0 := rfl

theorem sum_const {α : Type} {f : α → Nat} {k : Nat} : (l : List α) → (∀ x ∈ l, f x = k) → (l.map f).sum = l.length * k
  | [], _ => by simp
  | x :: l, h => by
    have ih := sum_const l fun y hy => h y (List.mem_cons_of_mem _ hy)
    simp only [List.map_cons, List.sum_cons, List.length_cons, ih, h x (by simp), Nat.add_mul, Nat.one_mul]
    omega

theorem wt_items {mem : Nat → Nat} {p size n : Nat} {t : Ty} : wtAll (itemCands mem p t size n) ≤ n * t.wt := by
  simp only [itemCands]
  split
  · simp only [wtAll, List.map_map]
    rw [sum_const (k := t.wt) _ (by intro x _; rfl)]; simp
  · simp [wtAll]

theorem wt_fields {mem : Nat → Nat} {p : Nat} : (fs : Fields) → wtAll (fieldCands mem p fs) ≤ fs.wt
  | .nil => by simp [fieldCands, wtAll]
  | .cons off sz t fs => by
    have ih := wt_fields (mem := mem) (p := p) fs
    simp only [fieldCands, wtAll_append, Fields.wt]
    have : wtAll (if t.collected = true then [Cand.val (load mem (p + off) t) t] else []) ≤ t.wt := by
      split <;> simp [wtAll, Cand.wt]
    omega

theorem wt_reverse {cs : List Cand} : wtAll cs.reverse = wtAll cs := by
  simp [wtAll, List.sum_reverse]

/-- The number of objects that are alive and not waiting. -/
def intact (n : Nat) (h : Heap) (w : List Nat) : Nat := sumTo n fun d => if 0 < h.rc d ∧ d ∉ w then 1 else 0

theorem intact_perm {n : Nat} {h : Heap} {w w' : List Nat} (hp : w.Perm w') : intact n h w = intact n h w' := by
  simp only [intact, hp.mem_iff]

theorem intact_wait {n : Nat} {h : Heap} {w : List Nat} {i : Nat} (hi : i < n) (h1 : 0 < h.rc i) (hw : i ∉ w) :
    intact n h w = intact n h (i :: w) + 1 := by
  have := sumTo_update (n := n) (k := i)
    (f := fun d => if 0 < h.rc d ∧ d ∉ w then 1 else 0)
    (g := fun d => if 0 < h.rc d ∧ d ∉ i :: w then 1 else 0) hi
    (by intro d _ hne; simp only [List.mem_cons, not_or]; simp [hne])
  simp only [List.mem_cons, true_or, not_true_eq_false, and_false, if_false, h1, hw, not_false_eq_true, and_self,
    if_true] at this
  simp only [intact, List.mem_cons]; omega

theorem intact_decr {n : Nat} {h : Heap} {w : List Nat} {i : Nat} (h1 : 1 < h.rc i) :
    intact n { h with rc := set h.rc i (h.rc i - 1) } w = intact n h w := by
  simp only [intact]; apply sumTo_congr; intro d _
  by_cases hd : d = i
  · subst hd; simp only [set_same]
    have : (0 < h.rc d - 1) ↔ (0 < h.rc d) := by omega
    simp only [this]
  · simp only [set_other hd]

theorem intact_free {n : Nat} {h : Heap} {w : List Nat} {i : Nat} (h1 : h.rc i = 1) :
    intact n { h with rc := set h.rc i (h.rc i - 1) } w = intact n h (i :: w) := by
  simp only [intact]; apply sumTo_congr; intro d _
  by_cases hd : d = i
  · subst hd; simp [set_same, h1]
  · simp only [set_other hd, List.mem_cons, hd, false_or]

/-! ## One iteration -/

theorem chunkRefCnt_dec {h : Heap} {i : Nat} (h1 : 0 < h.rc i) :
    chunkRefCnt .dec h i = .ok { h with rc := set h.rc i (h.rc i - 1) } := by
  simp only [chunkRefCnt]; rw [if_neg (by omega)]

theorem chunkRefCnt_inc {h : Heap} {i : Nat} (h1 : 0 < h.rc i) :
    chunkRefCnt .inc h i = .ok { h with rc := set h.rc i (h.rc i + 1) } := by
  simp only [chunkRefCnt]; rw [if_neg (by omega)]

theorem ok_bind {α β : Type} {a : α} {f : α → Except Err β} : (Except.ok a >>= f) = f a := rfl

section
variable {T : Types} {A : Nat → Prop} {h0 : Heap} {ext : List Ref} {O : Nat → List Ref}

/-- One iteration went well. -/
def Good (T : Types) (A : Nat → Prop) (h0 : Heap) (ext : List Ref) (O : Nat → List Ref) (h : Heap) (c : Cand)
    (gs : List G) (h' : Heap) (new : List Cand) : Prop :=
  LInv T A h0 ext O h' (gsAll T h0.mem new ++ gs) ∧
    (intact h0.num h' (waits (gsAll T h0.mem new ++ gs)) < intact h0.num h (waits (gsOf T h0.mem c ++ gs)) ∨
      (intact h0.num h' (waits (gsAll T h0.mem new ++ gs)) = intact h0.num h (waits (gsOf T h0.mem c ++ gs)) ∧
        wtAll new < c.wt))

/-- A structured value is replaced by its parts. -/
theorem good_expand {h : Heap} {c : Cand} {gs : List G} {new : List Cand}
    (hl : LInv T A h0 ext O h (gsOf T h0.mem c ++ gs)) (hp : (gsAll T h0.mem new).Perm (gsOf T h0.mem c))
    (hw : wtAll new < c.wt) : Good T A h0 ext O h c gs h new := by
  have hp' : (gsOf T h0.mem c ++ gs).Perm (gsAll T h0.mem new ++ gs) := hp.symm.append_right gs
  exact ⟨hl.perm hp', .inr ⟨(intact_perm (hp'.filterMap _)).symm, hw⟩⟩

theorem good_skip {h : Heap} {c : Cand} {gs : List G} {r : Ref} (hc : gsOf T h0.mem c = [.ref r])
    (hl : LInv T A h0 ext O h (.ref r :: gs)) (ho : h0.owner r.p = none) (hw : 0 < c.wt) :
    Good T A h0 ext O h c gs h [] := by
  refine ⟨hl.skip ho, .inr ⟨?_, by simpa [wtAll] using hw⟩⟩
  rw [hc]; rfl

theorem good_decr {h : Heap} {c : Cand} {gs : List G} {r : Ref} {i : Nat} (hc : gsOf T h0.mem c = [.ref r])
    (hl : LInv T A h0 ext O h (.ref r :: gs)) (ho : h0.owner r.p = some i) (h1 : 1 < h.rc i) (hw : 0 < c.wt) :
    Good T A h0 ext O h c gs { h with rc := set h.rc i (h.rc i - 1) } [] := by
  refine ⟨hl.decr ho h1, .inr ⟨?_, by simpa [wtAll] using hw⟩⟩
  rw [hc, intact_decr h1]; rfl

theorem good_destroy (hB : Base T A h0 ext O) {h : Heap} {c : Cand} {gs : List G} {r : Ref} {i : Nat}
    {new : List Cand} (hc : gsOf T h0.mem c = [.ref r])
    (hl : LInv T A h0 ext O h (.ref r :: gs)) (ho : h0.owner r.p = some i) (h1 : h.rc i ≤ 1)
    (hp : (gsAll T h0.mem new).Perm ((chunkRefs T h0.mem (h0.chunk i)).map .ref)) :
    Good T A h0 ext O h c gs h (new ++ [.deferred i]) := by
  obtain ⟨l1, l2, l3, l4, l5, -⟩ := hl.last ho h1
  have hp' : ((chunkRefs T h0.mem (h0.chunk i)).map G.ref ++ G.wait i :: gs).Perm
      (gsAll T h0.mem (new ++ [Cand.deferred i]) ++ gs) := by
    rw [gsAll_append, List.append_assoc]
    exact hp.symm.append_right _
  refine ⟨(hl.destroy hB ho h1).perm hp', .inl ?_⟩
  have hpw : (waits _).Perm (waits _) := hp'.filterMap _
  rw [← intact_perm hpw]
  have e : waits ((chunkRefs T h0.mem (h0.chunk i)).map .ref ++ .wait i :: gs) = i :: waits gs := by
    rw [waits_append, waits_map]; rfl
  show intact h0.num h (waits ((chunkRefs T h0.mem (h0.chunk i)).map .ref ++ .wait i :: gs)) < _
  rw [e, hc]
  show _ < intact h0.num h (waits gs)
  rw [intact_wait (h := h) l1 (by omega) l5]; omega

/-- An object without references is destroyed at once. -/
theorem good_free (hB : Base T A h0 ext O) {h : Heap} {c : Cand} {gs : List G} {r : Ref} {i : Nat}
    (hc : gsOf T h0.mem c = [.ref r])
    (hl : LInv T A h0 ext O h (.ref r :: gs)) (ho : h0.owner r.p = some i) (h1 : h.rc i ≤ 1)
    (he : chunkRefs T h0.mem (h0.chunk i) = []) :
    Good T A h0 ext O h c gs { h with rc := set h.rc i (h.rc i - 1) } [] := by
  obtain ⟨l1, l2, l3, l4, l5, -⟩ := hl.last ho h1
  have hd := hl.destroy hB ho h1
  rw [he] at hd
  obtain ⟨-, hf⟩ := hd.free
  refine ⟨hf, .inl ?_⟩
  rw [intact_free l3, hc]
  show intact h0.num h (i :: waits gs) < intact h0.num h (waits gs)
  rw [intact_wait (h := h) l1 (by omega) l5]; omega

theorem children_perm (hB : Base T A h0 ext O) {h : Heap} {gs : List G} {p b i : Nat}
    (hl : LInv T A h0 ext O h (.ref ⟨p, .ptr b⟩ :: gs)) (ho : h0.owner p = some i) (h1 : h.rc i ≤ 1) :
    (gsAll T h0.mem (children T h i p b)).Perm ((chunkRefs T h0.mem (h0.chunk i)).map .ref) := by
  have hf := (hl.fits ⟨p, .ptr b⟩ (by simp)).2.2
  simp only [ho] at hf
  obtain ⟨l1, -, -, -, -, l6, -⟩ := hl.last ho h1
  simp only [children, hl.chunk, hl.mem]
  simp only [Compat] at hf
  have hbase : ∀ p, (gsAll T h0.mem (baseCand T h0.mem p b)) = (refsAt T h0.mem p (T.ty b)).map .ref := by
    intro p
    simp only [baseCand]
    cases hc : (T.ty b).collected with
    | false => simp [refsAt_nil hc, gsAll]
    | true => simp [gsAll, gsOf, valRefs_load]
  cases ha : (h0.chunk i).alloc with
  | value t =>
    simp only [ha] at hf
    simp only [Chunk.type, chunkRefs, ha]
    cases ht : T.ty t with
    | array n sz u => simp [gsAll, gsOf, valRefs]
    | map n => simp [gsAll, gsOf, valRefs]
    | struct fs => simp [gsAll, gsOf, valRefs]
    | interface => simp [gsAll, gsOf, valRefs]
    | _ =>
      simp only [ht, Ty.composite, Bool.false_eq_true, false_or] at hf
      simp only
      rw [hbase]
      rcases hf with ⟨rfl, rfl⟩ | ⟨hc1, hc2⟩
      · rw [ht]
      · rw [refsAt_nil hc2, refsAt_nil hc1]
  | items t =>
    simp only [Chunk.type, chunkRefs, ha]
    exact gsAll_items
  | raw =>
    simp only [ha] at hf
    simp only [Chunk.type, chunkRefs, ha]
    rw [hbase, refsAt_nil hf]
  | fiber => simp only [ha] at hf
  | stack =>
    have := hB.stackRef i l1 ha
    omega

theorem step_good (hB : Base T A h0 ext O) {h : Heap} {c : Cand} {gs : List G}
    (hl : LInv T A h0 ext O h (gsOf T h0.mem c ++ gs)) :
    step T .dec h c = .error .busyFiber ∨
      ∃ h' new, step T .dec h c = .ok (h', new) ∧ Good T A h0 ext O h c gs h' new := by
  have hm := hl.mem
  cases c with
  | deferred i =>
    right
    have hl' : LInv T A h0 ext O h (.wait i :: gs) := hl
    obtain ⟨h1, h2⟩ := hl'.free
    refine ⟨_, [], by simp only [step, chunkRefCnt_dec (show 0 < h.rc i by omega), ok_bind]; rfl, h2, .inr ⟨?_, by simp [wtAll, Cand.wt]⟩⟩
    rw [intact_free h1]; rfl
  | val p t =>
    cases t with
    | plain =>
      exact .inr ⟨h, [], rfl, good_expand hl (List.Perm.refl _) (by simp [wtAll, Cand.wt, Ty.wt])⟩
    | ptr b =>
      right
      have hl' : LInv T A h0 ext O h (.ref ⟨p, .ptr b⟩ :: gs) := hl
      have hw : 0 < (Cand.val p (.ptr b)).wt := by simp [Cand.wt, Ty.wt]
      obtain ⟨hf, hlive⟩ := hl'.find hB
      cases ho : h0.owner p with
      | none =>
        exact ⟨h, [], by simp only [step, hf, ho, ok_bind]; rfl, good_skip rfl hl' ho hw⟩
      | some i =>
        by_cases h1 : 1 < h.rc i
        · refine ⟨_, [], ?_, good_decr rfl hl' ho h1 hw⟩
          simp only [step, hf, ho, ok_bind]
          rw [if_pos h1, chunkRefCnt_dec (by omega)]; rfl
        · refine ⟨h, _, ?_, good_destroy hB rfl hl' ho (by omega) (children_perm hB hl' ho (by omega))⟩
          simp only [step, hf, ho, ok_bind]
          rw [if_neg h1]; rfl
    | str =>
      right
      have hl' : LInv T A h0 ext O h (.ref ⟨p, .str⟩ :: gs) := hl
      have hw : 0 < (Cand.val p .str).wt := by simp [Cand.wt, Ty.wt]
      obtain ⟨hf, hlive⟩ := hl'.find hB
      cases ho : h0.owner p with
      | none =>
        exact ⟨h, [], by simp only [step, hf, ho, ok_bind]; rfl, good_skip rfl hl' ho hw⟩
      | some i =>
        have hr := hlive i ho
        refine ⟨{ h with rc := set h.rc i (h.rc i - 1) }, [], ?_, ?_⟩
        · simp only [step, hf, ho, ok_bind]
          rw [chunkRefCnt_dec hr]; rfl
        · by_cases h1 : 1 < h.rc i
          · exact good_decr rfl hl' ho h1 hw
          · refine good_free hB rfl hl' ho (by omega) ?_
            have hfit := (hl'.fits ⟨p, .str⟩ (by simp)).2.2
            simp only [ho, Compat] at hfit
            cases ha : (h0.chunk i).alloc with
            | raw => simp only [chunkRefs, ha]
            | _ => simp only [ha] at hfit
    | array n sz t =>
      right
      refine ⟨h, _, rfl, good_expand hl ?_ ?_⟩
      · rw [hm]
        show List.Perm _ ((refsAt T h0.mem p (.array n sz t)).map G.ref)
        rw [refsAt_array]; exact gsAll_items
      · have := wt_items (mem := h.mem) (p := p) (size := sz) (n := n) (t := t)
        simp only [Cand.wt, Ty.wt]; omega
    | dynarray b =>
      right
      have hl' : LInv T A h0 ext O h (.ref ⟨h0.mem (p + 16), .items b⟩ :: gs) := hl
      have hw : 0 < (Cand.val p (.dynarray b)).wt := by simp [Cand.wt, Ty.wt]
      obtain ⟨hf, hlive⟩ := hl'.find hB
      have hfd : h.find (h.mem (p + 16)) = .ok (h0.owner (h0.mem (p + 16))) := by rw [hm]; exact hf
      cases ho : h0.owner (h0.mem (p + 16)) with
      | none =>
        exact ⟨h, [], by simp only [step, hfd, ho, ok_bind]; rfl, good_skip rfl hl' ho hw⟩
      | some i =>
        by_cases h1 : 1 < h.rc i
        · refine ⟨{ h with rc := set h.rc i (h.rc i - 1) }, [], ?_, good_decr rfl hl' ho h1 hw⟩
          simp only [step, hfd, ho, ok_bind]
          rw [if_pos h1, chunkRefCnt_dec (by omega)]; rfl
        · refine ⟨h, _, ?_, good_destroy hB (new := itemCands h.mem (h.mem (p + 16)) (T.ty b) (T.size b)
            (h.mem (h.mem (p + 16) - 16))) rfl hl' ho (by omega) ?_⟩
          · simp only [step, hfd, ho, ok_bind]
            rw [if_neg h1]; rfl
          · have hfit := (hl'.fits _ (List.mem_cons_self ..)).2.2
            simp only [ho, Compat] at hfit
            rw [hm]
            cases ha : (h0.chunk i).alloc with
            | items t =>
              simp only [ha] at hfit
              obtain ⟨rfl, he⟩ := hfit
              simp only [chunkRefs, ha]
              rw [he, Nat.add_sub_cancel]
              exact gsAll_items
            | _ => simp only [ha] at hfit
    | map node =>
      right
      refine ⟨h, _, rfl, good_expand hl ?_ (by simp [wtAll, Cand.wt, Ty.wt])⟩
      rw [hm]
      simp [gsAll, gsOf, valRefs, refsAt, Ty.slots, refOf]
    | struct fs =>
      right
      refine ⟨h, _, rfl, good_expand hl ?_ ?_⟩
      · rw [hm]; exact gsAll_fields_reverse fs
      · have := wt_fields (mem := h.mem) (p := p) fs
        rw [wt_reverse]; simp only [Cand.wt, Ty.wt]; omega
    | interface =>
      right
      have hl' : LInv T A h0 ext O h (.ref ⟨h0.mem p, (T.ty (h0.mem (p + 8))).refKind⟩ :: gs) := hl
      by_cases h0' : h.mem p = 0
      · refine ⟨h, [], by simp only [step]; rw [if_pos h0'], good_skip rfl hl' ?_ (by simp [Cand.wt, Ty.wt])⟩
        show h0.owner (h0.mem p) = none
        rw [← hm, h0']
        cases ho : h0.owner 0 with
        | none => rfl
        | some i =>
          obtain ⟨o1, -, o3⟩ := owner_some ho
          exact absurd (hB.area i 0 o1 o3) hB.null
      · refine ⟨h, [.val (h.mem p) (T.ty (h.mem (p + 8)))], by simp only [step]; rw [if_neg h0'], ?_⟩
        have hk : (T.ty (h0.mem (p + 8))).refKind ≠ .other := fun hk =>
          h0' (by rw [hm]; exact (hl'.fits _ (List.mem_cons_self ..)).1 hk)
        refine good_expand hl ?_ ?_
        · rw [hm]
          cases ht : T.ty (h0.mem (p + 8)) with
          | ptr b => simp [gsAll, gsOf, valRefs, refsAt, Ty.slots, refOf, ht, Ty.refKind]
          | _ => simp [ht, Ty.refKind] at hk
        · rw [hm]
          cases ht : T.ty (h0.mem (p + 8)) with
          | ptr b => simp [wtAll, Cand.wt, Ty.wt]
          | _ => simp [ht, Ty.refKind] at hk
    | fiber =>
      have hl' : LInv T A h0 ext O h (.ref ⟨p, .fiber⟩ :: gs) := hl
      have hw : 0 < (Cand.val p .fiber).wt := by simp [Cand.wt, Ty.wt]
      obtain ⟨hf, hlive⟩ := hl'.find hB
      cases ho : h0.owner p with
      | none =>
        exact .inr ⟨h, [], by simp only [step, hf, ho, ok_bind]; rfl, good_skip rfl hl' ho hw⟩
      | some i =>
        by_cases h1 : 1 < h.rc i
        · refine .inr ⟨_, [], ?_, good_decr rfl hl' ho h1 hw⟩
          simp only [step, hf, ho, ok_bind]
          rw [if_pos h1, chunkRefCnt_dec (by omega)]; rfl
        · by_cases hb : h.mem (p + 112) ≠ 0
          · left
            simp only [step, hf, ho, ok_bind]
            rw [if_neg h1, if_pos hb]; rfl
          · right
            have hfit := (hl'.fits _ (List.mem_cons_self ..)).2.2
            simp only [ho, Compat] at hfit
            have ha : (h0.chunk i).alloc = .fiber ∧ p = (h0.chunk i).addr := by
              cases ha : (h0.chunk i).alloc with
              | fiber => simp only [ha] at hfit; exact ⟨rfl, hfit⟩
              | _ => simp only [ha] at hfit
            obtain ⟨l1, l2, l3, l4, l5, -⟩ := hl'.last ho (by omega)
            have hd := hl'.destroy hB ho (by omega)
            have hcr : chunkRefs T h0.mem (h0.chunk i) = [⟨h0.mem (p + 16), .stack⟩] := by
              simp only [chunkRefs, ha.1, refOf, ← ha.2]
            rw [hcr] at hd
            have hd' : LInv T A h0 ext O h (.ref ⟨h0.mem (p + 16), .stack⟩ :: (.wait i :: gs)) := hd
            obtain ⟨hf2, hlive2⟩ := hd'.find hB
            have hfit2 := hd'.fits _ (List.mem_cons_self ..)
            cases ho2 : h0.owner (h0.mem (p + 16)) with
            | none => exact absurd ho2 (hfit2.2.1 rfl)
            | some j =>
              have hr2 := hlive2 j ho2
              have hfit3 := hfit2.2.2
              simp only [ho2, Compat] at hfit3
              have haj : chunkRefs T h0.mem (h0.chunk j) = [] ∧ j ≠ i := by
                cases haj : (h0.chunk j).alloc with
                | raw => refine ⟨by simp only [chunkRefs, haj], ?_⟩; rintro rfl; rw [ha.1] at haj; simp at haj
                | stack => refine ⟨by simp only [chunkRefs, haj], ?_⟩; rintro rfl; rw [ha.1] at haj; simp at haj
                | _ => simp only [haj] at hfit3
              have hg : LInv T A h0 ext O { h with rc := set h.rc j (h.rc j - 1) } (.wait i :: gs) ∧
                  intact h0.num { h with rc := set h.rc j (h.rc j - 1) } (i :: waits gs) ≤
                    intact h0.num h (i :: waits gs) := by
                by_cases hj : 1 < h.rc j
                · exact ⟨hd'.decr ho2 hj, by rw [intact_decr hj]; exact Nat.le_refl _⟩
                · obtain ⟨m1, m2, m3, m4, m5, -⟩ := hd'.last ho2 (by omega)
                  have hd2 := hd'.destroy hB ho2 (by omega)
                  rw [haj.1] at hd2
                  refine ⟨hd2.free.2, ?_⟩
                  rw [intact_free m3]
                  have := intact_wait (h := h) (w := i :: waits gs) m1 hr2 m5
                  omega
              obtain ⟨hg1, hg2⟩ := hg
              obtain ⟨e1, e2⟩ := hg1.free
              refine ⟨_, [], ?_, e2, .inl ?_⟩
              · simp only [step, hf, ho, ok_bind]
                rw [if_neg h1, if_neg hb]
                have hfd : h.find (h.mem (p + 16)) = .ok (some j) := by rw [hm, ← ho2]; exact hf2
                simp only [hfd, ok_bind, chunkRefCnt_dec hr2]
                rw [chunkRefCnt_dec (by omega)]; rfl
              · rw [intact_free e1]
                show intact h0.num _ (i :: waits gs) < intact h0.num h (waits gs)
                have := intact_wait (h := h) l1 (by omega) l5
                omega

/-- The loop removes all pending references, or finds a fiber that is still alive. -/
theorem loop_dec (hB : Base T A h0 ext O) : ∀ (K W : Nat) (h : Heap) (cs : List Cand),
    LInv T A h0 ext O h (gsAll T h0.mem cs) → intact h0.num h (waits (gsAll T h0.mem cs)) ≤ K → wtAll cs ≤ W →
    ∃ n, loop T .dec n h cs = some (.error .busyFiber) ∨
      ∃ h', loop T .dec n h cs = some (.ok h') ∧ LInv T A h0 ext O h' [] := by
  intro K
  induction K using Nat.strongRecOn with
  | _ K ihK =>
    intro W
    induction W using Nat.strongRecOn with
    | _ W ihW =>
      intro h cs hl hK hW
      cases cs with
      | nil => exact ⟨1, .inr ⟨h, rfl, hl⟩⟩
      | cons c cs =>
        rw [gsAll_cons] at hl hK
        rw [wtAll_cons] at hW
        rcases step_good hB hl with he | ⟨h', new, hs, hl', hm⟩
        · exact ⟨1, .inl (by simp [loop, he])⟩
        · rw [← gsAll_append] at hl' hm
          have : ∃ n, loop T .dec n h' (new ++ cs) = some (.error .busyFiber) ∨
              ∃ h'', loop T .dec n h' (new ++ cs) = some (.ok h'') ∧ LInv T A h0 ext O h'' [] := by
            rcases hm with hm | ⟨hm, hw⟩
            · exact ihK _ (Nat.lt_of_lt_of_le hm hK) _ h' (new ++ cs) hl' (Nat.le_refl _) (Nat.le_refl _)
            · exact ihW (wtAll (new ++ cs)) (by rw [wtAll_append]; omega) h' (new ++ cs) hl' (by omega) (Nat.le_refl _)
          obtain ⟨n, hn⟩ := this
          refine ⟨n + 1, ?_⟩
          simp only [loop, hs]; exact hn
end

/-! ## Adding references -/

section
variable {T : Types} {A : Nat → Prop} {h0 : Heap}

structure IInv (T : Types) (A : Nat → Prop) (h0 : Heap) (tot : List Ref) (h : Heap) (gs : List Ref) : Prop where
  num : h.num = h0.num
  chunk : h.chunk = h0.chunk
  mem : h.mem = h0.mem
  bal : ∀ c, h.rc c + cnt h0.owner c gs = h0.rc c + cnt h0.owner c tot
  live : ∀ c, 0 < h.rc c ↔ 0 < h0.rc c
  fits : ∀ r ∈ gs, Fits T A h0 r

theorem IInv.find (area : ∀ i p, i < h0.num → h0.owns i p → A p) {tot : List Ref} {h : Heap} {r : Ref} {gs : List Ref}
    (hl : IInv T A h0 tot h (r :: gs)) : h.find r.p = .ok (h0.owner r.p) := by
  have howns : ∀ i p, h.owns i p = h0.owns i p := by intro i p; simp only [Heap.owns, hl.chunk]
  have he : h.owner r.p = h0.owner r.p := by simp only [Heap.owner, howns, hl.num, hl.live]
  have he' := he
  rw [Heap.owner] at he
  cases ho : h0.owner r.p with
  | some i => simp only [Heap.find, he, ho]
  | none =>
    have hf := (hl.fits r (by simp)).2.2
    rw [ho] at hf
    have h2 : (List.range h.num).any (fun i => h.owns i r.p) = false := by
      rw [List.any_eq_false]
      intro i hi
      rw [List.mem_range, hl.num] at hi
      rw [howns]
      intro hc; exact hf (area i r.p hi hc)
    simp only [Heap.find, he, ho, h2, Bool.false_eq_true, if_false]

theorem IInv.skip {tot : List Ref} {h : Heap} {r : Ref} {gs : List Ref}
    (hl : IInv T A h0 tot h (r :: gs)) (ho : h0.owner r.p = none) : IInv T A h0 tot h gs := by
  refine ⟨hl.num, hl.chunk, hl.mem, ?_, hl.live, fun r' hr' => hl.fits r' (List.mem_cons_of_mem _ hr')⟩
  intro c
  have := hl.bal c
  rw [cnt_cons] at this
  simpa [ho] using this

theorem IInv.incr {tot : List Ref} {h : Heap} {r : Ref} {gs : List Ref} {i : Nat}
    (hl : IInv T A h0 tot h (r :: gs)) (ho : h0.owner r.p = some i) :
    0 < h.rc i ∧ IInv T A h0 tot { h with rc := set h.rc i (h.rc i + 1) } gs := by
  have hi : 0 < h.rc i := (hl.live i).mpr (owner_some ho).2.1
  refine ⟨hi, hl.num, hl.chunk, hl.mem, ?_, ?_, fun r' hr' => hl.fits r' (List.mem_cons_of_mem _ hr')⟩
  · intro c
    have := hl.bal c
    rw [cnt_cons] at this
    simp only [ho, Option.some.injEq] at this
    by_cases hc : c = i
    · subst hc; simp only [set_same]; rw [if_pos rfl] at this; omega
    · simp only [set_other hc]; rw [if_neg (Ne.symm hc)] at this; omega
  · intro c
    by_cases hc : c = i
    · subst hc; simp only [set_same]; have := hl.live c; omega
    · simp only [set_other hc]; exact hl.live c

theorem IInv.perm {tot : List Ref} {h : Heap} {gs gs' : List Ref} (hl : IInv T A h0 tot h gs)
    (hp : gs.Perm gs') : IInv T A h0 tot h gs' := by
  refine ⟨hl.num, hl.chunk, hl.mem, fun c => ?_, hl.live, fun r hr => hl.fits r (hp.mem_iff.mpr hr)⟩
  rw [← hl.bal c]; congr 1; simp only [cnt]; exact (hp.countP_eq _).symm

/-- The references of the values in a work list; nothing waits while references are added. -/
def crefs (T : Types) (mem : Nat → Nat) (cs : List Cand) : List Ref :=
  (gsAll T mem cs).filterMap fun | .ref r => some r | .wait _ => none

theorem crefs_map {rs : List Ref} :
    (rs.map G.ref).filterMap (fun | .ref r => some r | .wait _ => none) = rs := by
  rw [List.filterMap_map]
  induction rs with
  | nil => rfl
  | cons r rs ih => simpa using ih

theorem crefs_cons {T : Types} {mem : Nat → Nat} {p : Nat} {t : Ty} {cs : List Cand} :
    crefs T mem (.val p t :: cs) = valRefs T mem p t ++ crefs T mem cs := by
  simp only [crefs, gsAll_cons, List.filterMap_append, gsOf]
  rw [crefs_map]

theorem crefs_append {T : Types} {mem : Nat → Nat} {a b : List Cand} :
    crefs T mem (a ++ b) = crefs T mem a ++ crefs T mem b := by
  simp [crefs, gsAll_append]

theorem crefs_perm {T : Types} {mem : Nat → Nat} {cs : List Cand} {rs : List Ref}
    (hp : (gsAll T mem cs).Perm (rs.map G.ref)) : (crefs T mem cs).Perm rs := by
  have := hp.filterMap (fun | .ref r => some r | .wait _ => none)
  rw [crefs_map] at this
  exact this

def Plain (cs : List Cand) : Prop := ∀ c ∈ cs, ∃ p t, c = .val p t

theorem plain_items {mem : Nat → Nat} {p size n : Nat} {t : Ty} : Plain (itemCands mem p t size n) := by
  intro c hc
  simp only [itemCands] at hc
  split at hc
  · simp only [List.mem_map] at hc
    obtain ⟨i, -, rfl⟩ := hc; exact ⟨_, _, rfl⟩
  · simp at hc

theorem plain_fields {mem : Nat → Nat} {p : Nat} : (fs : Fields) → Plain (fieldCands mem p fs)
  | .nil => by intro c hc; simp [fieldCands] at hc
  | .cons off sz t fs => by
    intro c hc
    simp only [fieldCands, List.mem_append] at hc
    rcases hc with hc | hc
    · split at hc
      · simp only [List.mem_singleton] at hc; exact ⟨_, _, hc⟩
      · simp at hc
    · exact plain_fields fs c hc

theorem step_inc (area : ∀ i p, i < h0.num → h0.owns i p → A p) (null : ¬ A 0) {tot : List Ref} {h : Heap}
    {p : Nat} {t : Ty} {gs : List Ref} (hl : IInv T A h0 tot h (valRefs T h0.mem p t ++ gs)) :
    ∃ h' new, step T .inc h (.val p t) = .ok (h', new) ∧ IInv T A h0 tot h' (crefs T h0.mem new ++ gs) ∧
      wtAll new < t.wt ∧ Plain new := by
  have hm := hl.mem
  have one : ∀ (r : Ref) (q : Nat), q = r.p → IInv T A h0 tot h (r :: gs) →
      ∃ h', IInv T A h0 tot h' gs ∧
        (h.find q = .ok none ∧ h' = h ∨
          ∃ i, h.find q = .ok (some i) ∧ chunkRefCnt .inc h i = .ok h') := by
    intro r q hq hl'
    subst hq
    have hf := hl'.find area
    cases ho : h0.owner r.p with
    | none => rw [ho] at hf; exact ⟨h, hl'.skip ho, .inl ⟨hf, rfl⟩⟩
    | some i =>
      rw [ho] at hf
      obtain ⟨h1, h2⟩ := hl'.incr ho
      exact ⟨_, h2, .inr ⟨i, hf, chunkRefCnt_inc h1⟩⟩
  have hnil : Plain [] := by intro c hc; simp at hc
  cases t with
  | plain => exact ⟨h, [], rfl, hl, by simp [wtAll, Ty.wt], hnil⟩
  | ptr b =>
    obtain ⟨h', hi, ⟨hf, rfl⟩ | ⟨i, hf, hr⟩⟩ := one ⟨p, .ptr b⟩ p rfl hl
    · exact ⟨h', [], by simp only [step, hf, ok_bind]; rfl, hi, by simp [wtAll, Ty.wt], hnil⟩
    · exact ⟨h', [], by simp only [step, hf, ok_bind, hr]; rfl, hi, by simp [wtAll, Ty.wt], hnil⟩
  | str =>
    obtain ⟨h', hi, ⟨hf, rfl⟩ | ⟨i, hf, hr⟩⟩ := one ⟨p, .str⟩ p rfl hl
    · exact ⟨h', [], by simp only [step, hf, ok_bind]; rfl, hi, by simp [wtAll, Ty.wt], hnil⟩
    · exact ⟨h', [], by simp only [step, hf, ok_bind, hr]; rfl, hi, by simp [wtAll, Ty.wt], hnil⟩
  | fiber =>
    obtain ⟨h', hi, ⟨hf, rfl⟩ | ⟨i, hf, hr⟩⟩ := one ⟨p, .fiber⟩ p rfl hl
    · exact ⟨h', [], by simp only [step, hf, ok_bind]; rfl, hi, by simp [wtAll, Ty.wt], hnil⟩
    · exact ⟨h', [], by simp only [step, hf, ok_bind, hr]; rfl, hi, by simp [wtAll, Ty.wt], hnil⟩
  | dynarray b =>
    obtain ⟨h', hi, ⟨hf, rfl⟩ | ⟨i, hf, hr⟩⟩ := one ⟨h0.mem (p + 16), .items b⟩ (h.mem (p + 16)) (by rw [hm]) hl
    · exact ⟨h', [], by simp only [step, hf, ok_bind]; rfl, hi, by simp [wtAll, Ty.wt], hnil⟩
    · exact ⟨h', [], by simp only [step, hf, ok_bind, hr]; rfl, hi, by simp [wtAll, Ty.wt], hnil⟩
  | array n sz t =>
    refine ⟨h, _, rfl, hl.perm ?_, ?_, plain_items⟩
    · refine List.Perm.append_right gs (List.Perm.symm ?_)
      rw [hm]
      refine crefs_perm ?_
      show List.Perm _ ((refsAt T h0.mem p (.array n sz t)).map G.ref)
      rw [refsAt_array]; exact gsAll_items
    · have := wt_items (mem := h.mem) (p := p) (size := sz) (n := n) (t := t)
      simp only [Ty.wt]; omega
  | map node =>
    refine ⟨h, _, rfl, ?_, by simp [wtAll, Cand.wt, Ty.wt], ?_⟩
    · rw [hm]
      simpa [crefs, gsAll, gsOf, valRefs, refsAt, Ty.slots, refOf] using hl
    · intro c hc; simp only [List.mem_singleton] at hc; exact ⟨_, _, hc⟩
  | struct fs =>
    refine ⟨h, _, rfl, hl.perm ?_, ?_, ?_⟩
    · refine List.Perm.append_right gs (List.Perm.symm ?_)
      rw [hm]
      exact crefs_perm (gsAll_fields_reverse fs)
    · have := wt_fields (mem := h.mem) (p := p) fs
      rw [wt_reverse]; simp only [Ty.wt]; omega
    · intro c hc; exact plain_fields fs c (List.mem_reverse.mp hc)
  | interface =>
    have hl' : IInv T A h0 tot h (⟨h0.mem p, (T.ty (h0.mem (p + 8))).refKind⟩ :: gs) := hl
    by_cases hz : h.mem p = 0
    · refine ⟨h, [], by simp only [step]; rw [if_pos hz], hl'.skip ?_, by simp [wtAll, Ty.wt], hnil⟩
      show h0.owner (h0.mem p) = none
      rw [← hm, hz]
      cases ho : h0.owner 0 with
      | none => rfl
      | some i =>
        obtain ⟨o1, -, o3⟩ := owner_some ho
        exact absurd (area i 0 o1 o3) null
    · have hk : (T.ty (h0.mem (p + 8))).refKind ≠ .other := fun hk =>
        hz (by rw [hm]; exact (hl'.fits _ (List.mem_cons_self ..)).1 hk)
      refine ⟨h, [.val (h.mem p) (T.ty (h.mem (p + 8)))], by simp only [step]; rw [if_neg hz], ?_, ?_, ?_⟩
      · rw [hm]
        cases ht : T.ty (h0.mem (p + 8)) with
        | ptr b => simpa [crefs, gsAll, gsOf, valRefs, refsAt, Ty.slots, refOf, ht, Ty.refKind] using hl
        | _ => simp [ht, Ty.refKind] at hk
      · rw [hm]
        cases ht : T.ty (h0.mem (p + 8)) with
        | ptr b => simp [wtAll, Cand.wt, Ty.wt]
        | _ => simp [ht, Ty.refKind] at hk
      · intro c hc; simp only [List.mem_singleton] at hc; exact ⟨_, _, hc⟩

theorem loop_inc (area : ∀ i p, i < h0.num → h0.owns i p → A p) (null : ¬ A 0) {tot : List Ref} :
    ∀ (W : Nat) (h : Heap) (cs : List Cand), Plain cs → IInv T A h0 tot h (crefs T h0.mem cs) → wtAll cs ≤ W →
    ∃ n h', loop T .inc n h cs = some (.ok h') ∧ IInv T A h0 tot h' [] := by
  intro W
  induction W using Nat.strongRecOn with
  | _ W ih =>
    intro h cs hp hl hW
    cases cs with
    | nil => exact ⟨1, h, rfl, hl⟩
    | cons c cs =>
      obtain ⟨p, t, rfl⟩ := hp c (by simp)
      rw [crefs_cons] at hl
      rw [wtAll_cons] at hW
      obtain ⟨h', new, hs, hl', hw, hpn⟩ := step_inc area null hl
      rw [← crefs_append] at hl'
      have hpl : Plain (new ++ cs) := by
        intro c hc
        rcases List.mem_append.mp hc with hc | hc
        · exact hpn c hc
        · exact hp c (List.mem_cons_of_mem _ hc)
      obtain ⟨n, h'', hn, hi⟩ := ih (wtAll (new ++ cs)) (by rw [wtAll_append]; simp only [Cand.wt] at hW; omega)
        h' (new ++ cs) hpl hl' (Nat.le_refl _)
      exact ⟨n + 1, h'', by simp only [loop, hs]; exact hn, hi⟩
end
end Umka.RefCnt
