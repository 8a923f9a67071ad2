import Verif.ArrRef.Spec
/-! # Reference counts of dynamic arrays: lemmas -/

namespace Umka.ArrRef

open Spec

def stored (h : Heap) : List Nat := h.flatMap inside

/-- The counts are exact for the references `R` from outside, but for those in `D`, which are still to be counted. -/
def Inv (h : Heap) (R D : List Nat) : Prop := ∀ x, count h x + D.count x = R.count x + (stored h).count x

/-- `h'` differs from `h` in counts only. -/
def Same (h h' : Heap) : Prop := ∀ k : Nat, (h'[k]?).map (fun c : Chunk => (c.items, c.cap)) = (h[k]?).map (fun c : Chunk => (c.items, c.cap))

theorem Same.refl (h : Heap) : Same h h := fun _ => rfl
theorem Same.trans {a b c : Heap} (p : Same a b) (q : Same b c) : Same a c := fun k => (q k).trans (p k)

theorem same_modify (h : Heap) (k : Nat) (f : Chunk → Nat) : Same h (h.modify k fun c => { c with rc := f c }) := by
  intro j
  rw [List.getElem?_modify]
  cases h[j]? with
  | none => rfl
  | some c => by_cases e : k = j <;> simp [e]

theorem count_some {h : Heap} {k : Nat} {c : Chunk} (e : h[k]? = some c) : count h k = c.rc := by simp [count, e]

theorem count_none {h : Heap} {k : Nat} (e : h[k]? = none) : count h k = 0 := by simp [count, e]

theorem count_pos {h : Heap} {k : Nat} (p : 0 < count h k) : ∃ c, h[k]? = some c ∧ 0 < c.rc := by
  cases e : h[k]? with
  | none => rw [count_none e] at p; omega
  | some c => exact ⟨c, rfl, by rw [count_some e] at p; exact p⟩

theorem count_modify {h : Heap} {k : Nat} {c : Chunk} (e : h[k]? = some c) (f : Chunk → Chunk) (j : Nat) :
    count (h.modify k f) j = if k = j then (f c).rc else count h j := by
  unfold count
  rw [List.getElem?_modify]
  by_cases q : k = j
  · subst q; simp [e]
  · simp [q]

theorem stored_cons (c : Chunk) (h : Heap) : stored (c :: h) = inside c ++ stored h := by simp [stored]

theorem stored_modify : ∀ {h : Heap} {k : Nat} {c : Chunk} (_ : h[k]? = some c) (f : Chunk → Chunk) (x : Nat),
    (stored (h.modify k f)).count x + (inside c).count x = (stored h).count x + (inside (f c)).count x
  | [], k, c, e, f, x => by simp at e
  | d :: h, 0, c, e, f, x => by
    simp at e; subst e
    rw [List.modify_zero_cons, stored_cons, stored_cons, List.count_append, List.count_append]; omega
  | d :: h, k + 1, c, e, f, x => by
    simp at e
    have := stored_modify e f x
    rw [List.modify_succ_cons, stored_cons, stored_cons, List.count_append, List.count_append]; omega

theorem inside_mem {h : Heap} {k x : Nat} {c : Chunk} (e : h[k]? = some c) (m : x ∈ inside c) : x ∈ stored h := by
  unfold stored
  exact List.mem_flatMap.2 ⟨c, List.mem_of_getElem? e, m⟩

theorem inside_rc (c : Chunk) (n : Nat) (p : 0 < c.rc) (q : 0 < n) : inside { c with rc := n } = inside c := by simp [inside, p, q]

/-- What is referred to, is alive. -/
theorem Inv.alive {h : Heap} {R D : List Nat} (I : Inv h R D) {x : Nat} (m : x ∈ R ∨ x ∈ stored h) (d : x ∉ D) : 0 < count h x := by
  have := I x
  rw [List.count_eq_zero_of_not_mem d] at this
  rcases m with m | m
  · have := List.count_pos_iff.2 m; omega
  · have := List.count_pos_iff.2 m; omega

theorem inc_ok : ∀ {h : Heap} {R D ks : List Nat} (_ : Inv h R (ks ++ D)) (_ : ∀ k ∈ ks, 0 < count h k),
    ∃ h', inc h ks = .ok h' ∧ Inv h' R D ∧ Same h h' ∧ ∀ k, count h k ≤ count h' k
  | h, R, D, [], I, _ => ⟨h, rfl, I, Same.refl h, fun _ => Nat.le_refl _⟩
  | h, R, D, k :: ks, I, a => by
    obtain ⟨c, e, p⟩ := count_pos (a k (by simp))
    have le : ∀ j, count h j ≤ count (h.modify k fun c => { c with rc := c.rc + 1 }) j := by
      intro j
      rw [count_modify e]
      by_cases q : k = j
      · subst q; simp [count_some e]
      · simp [q]
    have I' : Inv (h.modify k fun c => { c with rc := c.rc + 1 }) R (ks ++ D) := by
      intro x
      have i := I x
      have s := stored_modify e (fun c => { c with rc := c.rc + 1 }) x
      have ir := inside_rc c (c.rc + 1) p (by omega)
      simp only [ir] at s
      rw [count_modify e]
      rw [List.cons_append, List.count_cons] at i
      by_cases q : k = x
      · subst q; rw [count_some e] at i; simp at i ⊢; omega
      · simp [q] at i ⊢; omega
    obtain ⟨h', r, i, s, l⟩ := inc_ok I' (fun j m => Nat.lt_of_lt_of_le (a j (by simp [m])) (le j))
    refine ⟨h', ?_, i, (same_modify h k _).trans s, fun j => Nat.le_trans (le j) (l j)⟩
    rw [inc, e]
    simp only []
    rw [if_neg (by omega)]
    exact r

theorem bound_modify : ∀ {h : Heap} {k : Nat} {c : Chunk} (_ : h[k]? = some c) (_ : 0 < c.rc),
    bound (h.modify k fun c => { c with rc := c.rc - 1 }) + 1 = bound h
  | [], k, c, e, _ => by simp at e
  | d :: h, 0, c, e, p => by
    simp at e; subst e
    simp [bound]; omega
  | d :: h, k + 1, c, e, p => by
    simp at e
    have := bound_modify e p
    simp only [bound, List.modify_succ_cons, List.map_cons, List.sum_cons] at this ⊢; omega

theorem dec_ok : ∀ {n : Nat} {h : Heap} {R ks : List Nat} (_ : Inv h (ks ++ R) []) (_ : bound h ≤ n),
    ∃ h', dec n h ks = .ok h' ∧ Inv h' R [] ∧ Same h h'
  | n, h, R, [], I, _ => ⟨h, by cases n <;> rfl, I, Same.refl h⟩
  | n, h, R, k :: ks, I, b => by
    obtain ⟨c, e, p⟩ := count_pos (I.alive (x := k) (Or.inl (by simp)) (by simp))
    have bm := bound_modify e p
    cases n with
    | zero => omega
    | succ n =>
      have cm := count_modify e (fun c => { c with rc := c.rc - 1 })
      have sm := stored_modify e (fun c => { c with rc := c.rc - 1 })
      by_cases o : c.rc > 1
      · have I' : Inv (h.modify k fun c => { c with rc := c.rc - 1 }) (ks ++ R) [] := by
          intro x
          have i := I x
          have s := sm x
          have ir := inside_rc c (c.rc - 1) p (by omega)
          simp only [ir] at s
          rw [cm]
          rw [List.cons_append, List.count_cons] at i
          by_cases q : k = x
          · subst q; rw [count_some e] at i; simp at i ⊢; omega
          · simp [q] at i ⊢; omega
        obtain ⟨h', r, i, s⟩ := dec_ok (n := n) I' (by omega)
        refine ⟨h', ?_, i, (same_modify h k _).trans s⟩
        rw [dec, e]
        simp only []
        rw [if_neg (by omega), if_pos o]
        exact r
      · have I' : Inv (h.modify k fun c => { c with rc := c.rc - 1 }) ((c.items.flatten ++ ks) ++ R) [] := by
          intro x
          have i := I x
          have s := sm x
          have z : inside { c with rc := c.rc - 1 } = [] := by simp [inside]; omega
          have z' : inside c = c.items.flatten := by simp [inside, p]
          rw [z, z'] at s
          rw [cm]
          rw [List.cons_append, List.count_cons] at i
          rw [List.append_assoc, List.count_append]
          by_cases q : k = x
          · subst q; rw [count_some e] at i; simp only [List.count_nil] at *; simp at i ⊢; omega
          · simp only [List.count_nil] at *; simp [q] at i ⊢; omega
        obtain ⟨h', r, i, s⟩ := dec_ok (n := n) I' (by omega)
        refine ⟨h', ?_, i, (same_modify h k _).trans s⟩
        rw [dec, e]
        simp only []
        rw [if_neg (by omega), if_neg o]
        exact r

theorem release_ok {h : Heap} {R ks : List Nat} (I : Inv h (ks ++ R) []) : ∃ h', release h ks = .ok h' ∧ Inv h' R [] ∧ Same h h' :=
  dec_ok I (Nat.le_refl _)

/-! ## Items that are changed after the release of one of them -/

theorem dec_le : ∀ {n : Nat} {h h' : Heap} {ks : List Nat} (_ : dec n h ks = .ok h') (k : Nat), count h' k ≤ count h k
  | n, h, h', [], r, k => by
    have : h = h' := by cases n <;> (rw [dec] at r; cases r; rfl)
    rw [this]; exact Nat.le_refl _
  | 0, h, h', _ :: _, r, k => by rw [dec] at r; cases r
  | n + 1, h, h', j :: ks, r, k => by
    rw [dec] at r
    split at r
    · cases r
    · rename_i c e
      have le : count (h.modify j fun c => { c with rc := c.rc - 1 }) k ≤ count h k := by
        rw [count_modify e]
        by_cases q : j = k
        · subst q; simp [count_some e]
        · simp [q]
      split at r
      · cases r
      · split at r
        · exact Nat.le_trans (dec_le r k) le
        · exact Nat.le_trans (dec_le r k) le

theorem setItems_get (h : Heap) (k j : Nat) (its : List Item) :
    (setItems h k its)[j]? = if k = j then (h[j]?).map (fun c => { c with items := its }) else h[j]? := by
  unfold setItems
  rw [List.getElem?_modify]
  by_cases q : k = j <;> cases h[j]? <;> simp [q]

theorem setItems_count (h : Heap) (k j : Nat) (its : List Item) : count (setItems h k its) j = count h j := by
  unfold count
  rw [setItems_get]
  by_cases q : k = j <;> cases h[j]? <;> simp [q]

theorem setItems_modify (h : Heap) (k j : Nat) (its : List Item) (f : Nat → Nat) :
    (setItems h k its).modify j (fun c => { c with rc := f c.rc }) = setItems (h.modify j fun c => { c with rc := f c.rc }) k its := by
  apply List.ext_getElem?
  intro i
  rw [setItems_get, List.getElem?_modify, List.getElem?_modify, setItems_get]
  by_cases q : k = i <;> by_cases q' : j = i <;> cases h[i]? <;> simp [q, q']

theorem setItems_bound (h : Heap) (k : Nat) (its : List Item) : bound (setItems h k its) = bound h := by
  unfold bound setItems
  congr 1
  apply List.ext_getElem?
  intro i
  rw [List.getElem?_map, List.getElem?_map, List.getElem?_modify]
  by_cases q : k = i <;> cases h[i]? <;> simp [q]

theorem dec_setItems : ∀ {n : Nat} {h h' : Heap} {k : Nat} {its : List Item} {ks : List Nat} (_ : dec n (setItems h k its) ks = .ok h')
    (_ : 0 < count h' k), ∃ h'', dec n h ks = .ok h'' ∧ h' = setItems h'' k its
  | n, h, h', k, its, [], r, p => by
    refine ⟨h, by cases n <;> rfl, ?_⟩
    cases n <;> (rw [dec] at r; cases r; rfl)
  | 0, h, h', k, its, _ :: _, r, p => by rw [dec] at r; cases r
  | n + 1, h, h', k, its, j :: ks, r, p => by
    rw [dec] at r
    rw [dec]
    rw [setItems_get] at r
    cases e : h[j]? with
    | none =>
      rw [e] at r
      by_cases q : k = j <;> simp [q] at r
    | some c =>
      rw [e] at r
      simp only []
      have sm := setItems_modify h k j its (fun n => n - 1)
      by_cases q : k = j
      · rw [if_pos q] at r
        simp only [Option.map_some] at r
        split at r
        · cases r
        · rename_i z
          rw [if_neg z]
          split at r
          · rename_i o
            rw [if_pos o]
            rw [sm] at r
            exact dec_setItems r p
          · rename_i o
            exfalso
            have l := dec_le r k
            rw [sm, setItems_count, count_modify e, if_pos q.symm] at l
            simp only [] at l
            omega
      · rw [if_neg q] at r
        simp only [] at r
        split at r
        · cases r
        · rename_i z
          rw [if_neg z]
          split at r
          · rename_i o
            rw [if_pos o]
            rw [sm] at r
            exact dec_setItems r p
          · rename_i o
            rw [if_neg o]
            rw [sm] at r
            exact dec_setItems r p

theorem dec_same : ∀ {n : Nat} {h h' : Heap} {ks : List Nat}, dec n h ks = .ok h' → Same h h' := by
  intro n
  induction n with
  | zero =>
    intro h h' ks r
    cases ks with
    | nil => rw [dec] at r; cases r; exact Same.refl _
    | cons j ks => rw [dec] at r; cases r
  | succ n ih =>
    intro h h' ks r
    cases ks with
    | nil => rw [dec] at r; cases r; exact Same.refl _
    | cons j ks =>
      rw [dec] at r
      split at r
      · cases r
      · split at r
        · cases r
        · split at r
          · exact (same_modify h j _).trans (ih r)
          · exact (same_modify h j _).trans (ih r)

/-- An item is released while it is still in its array, which stays alive, and then the items are changed. -/
theorem release_setItems {h : Heap} {R ks : List Nat} {k : Nat} {its : List Item} (I : Inv (setItems h k its) (ks ++ R) []) (m : k ∈ R) :
    ∃ h', release h ks = .ok h' ∧ Inv (setItems h' k its) R [] ∧ Same h h' := by
  obtain ⟨h', r, i, _⟩ := release_ok I
  unfold release at r
  rw [setItems_bound] at r
  obtain ⟨h'', r', e⟩ := dec_setItems r (i.alive (Or.inl m) (by simp))
  refine ⟨h'', r', e ▸ i, ?_⟩
  exact dec_same r'

end Umka.ArrRef
