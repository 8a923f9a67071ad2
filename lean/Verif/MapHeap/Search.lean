import Verif.MapHeap.Model
import Verif.Map.Props

/-! # Maps in memory: trees in the heap and the search loop -/

namespace Umka.MapHeap

open Umka.Map (Op Out Tree Frame plug getNode loopBody loop)

variable {K V : Type}

/-- A tree whose nodes carry their addresses. -/
abbrev AT (K V : Type) := Tree K (Nat × V)

abbrev AF (K V : Type) := Frame K (Nat × V)

def ptr : AT K V → Option Nat
  | .nil => none
  | .node _ _ _ x _ => some x.1

def addrs : AT K V → List Nat
  | .nil => []
  | .node l _ _ x r => x.1 :: (addrs l ++ addrs r)

/-- The tree `t` is in the heap. -/
def Reps (h : Heap K V) : AT K V → Prop
  | .nil => True
  | .node l k p x r => h x.1 = some ⟨ptr l, ptr r, some k, p, some x.2, 0⟩ ∧ Reps h l ∧ Reps h r

def pa : List (AF K V) → List Nat
  | [] => []
  | .inLeft _ _ x r :: path => x.1 :: (addrs r ++ pa path)
  | .inRight l _ _ x :: path => x.1 :: (addrs l ++ pa path)

/-- The surroundings of a slot are in the heap; the slot holds `q`. -/
def PathReps (h : Heap K V) (ra : Nat) (len : Int) : List (AF K V) → Option Nat → Prop
  | [], q => h ra = some ⟨none, q, none, 0, none, len⟩
  | .inLeft k p x r :: path, q => h x.1 = some ⟨q, ptr r, some k, p, some x.2, 0⟩ ∧ Reps h r ∧ PathReps h ra len path (some x.1)
  | .inRight l k p x :: path, q => h x.1 = some ⟨ptr l, q, some k, p, some x.2, 0⟩ ∧ Reps h l ∧ PathReps h ra len path (some x.1)

def slotOf (ra : Nat) : List (AF K V) → Slot
  | [] => .right ra
  | .inLeft _ _ x _ :: _ => .left x.1
  | .inRight _ _ _ x :: _ => .right x.1

def owner (ra : Nat) : List (AF K V) → Nat
  | [] => ra
  | .inLeft _ _ x _ :: _ => x.1
  | .inRight _ _ _ x :: _ => x.1

theorem ptr_node (l : AT K V) (k : K) (p : Int) (x : Nat × V) (r : AT K V) : ptr (.node l k p x r) = some x.1 := rfl

theorem put_same (h : Heap K V) (a : Nat) (n : Option (Node K V)) : h.put a n a = n := by simp [Heap.put]
theorem put_ne (h : Heap K V) {a x : Nat} (n : Option (Node K V)) (hx : x ≠ a) : h.put a n x = h x := by simp [Heap.put, hx]

theorem reps_congr {h h' : Heap K V} : ∀ {t : AT K V}, (∀ x ∈ addrs t, h' x = h x) → Reps h t → Reps h' t
  | .nil, _, _ => trivial
  | .node l k p x r, he, ⟨h1, h2, h3⟩ => by
    refine ⟨?_, reps_congr (fun y hy => he y ?_) h2, reps_congr (fun y hy => he y ?_) h3⟩
    · rw [he _ (by simp [addrs]), h1]
    · simp [addrs, hy]
    · simp [addrs, hy]

theorem path_congr {h h' : Heap K V} {ra : Nat} {len : Int} : ∀ {path : List (AF K V)} {q}, h' ra = h ra → (∀ x ∈ pa path, h' x = h x) →
    PathReps h ra len path q → PathReps h' ra len path q
  | [], _, hr, _, h1 => by rw [PathReps, hr]; exact h1
  | .inLeft k p x r :: path, q, hr, he, ⟨h1, h2, h3⟩ => by
    refine ⟨?_, reps_congr (fun y hy => he y ?_) h2, path_congr hr (fun y hy => he y ?_) h3⟩
    · rw [he _ (by simp [pa]), h1]
    · simp [pa, hy]
    · simp [pa, hy]
  | .inRight l k p x :: path, q, hr, he, ⟨h1, h2, h3⟩ => by
    refine ⟨?_, reps_congr (fun y hy => he y ?_) h2, path_congr hr (fun y hy => he y ?_) h3⟩
    · rw [he _ (by simp [pa]), h1]
    · simp [pa, hy]
    · simp [pa, hy]

theorem reps_alloc {h : Heap K V} : ∀ {t : AT K V}, Reps h t → ∀ x ∈ addrs t, h x ≠ none
  | .nil, _, x, hx => by simp [addrs] at hx
  | .node l k p y r, ⟨h1, h2, h3⟩, x, hx => by
    simp only [addrs, List.mem_cons, List.mem_append] at hx
    rcases hx with rfl | hx | hx
    · rw [h1]; simp
    · exact reps_alloc h2 x hx
    · exact reps_alloc h3 x hx

theorem path_read {h : Heap K V} {ra : Nat} {len : Int} {path : List (AF K V)} {q root : Option Nat} (hp : PathReps h ra len path q) :
    (⟨h, root⟩ : Mem K V).read (slotOf ra path) = some q := by
  match path with
  | [] => simp only [PathReps] at hp; simp [slotOf, Mem.read, hp]
  | .inLeft k p x r :: path => obtain ⟨h1, _, _⟩ := hp; simp [slotOf, Mem.read, h1]
  | .inRight l k p x :: path => obtain ⟨h1, _, _⟩ := hp; simp [slotOf, Mem.read, h1]

/-- Writing through the slot of a path. -/
theorem path_write {h : Heap K V} {ra : Nat} {len : Int} {path : List (AF K V)} {q root : Option Nat} (hp : PathReps h ra len path q)
    (hn : (ra :: pa path).Nodup) (q' : Option Nat) :
    ∃ h', (⟨h, root⟩ : Mem K V).write (slotOf ra path) q' = some ⟨h', root⟩ ∧ PathReps h' ra len path q' ∧
      ∀ x, x ∉ ra :: pa path → h' x = h x := by
  match path with
  | [] =>
    simp only [PathReps] at hp
    refine ⟨h.put ra (some ⟨none, q', none, 0, none, len⟩), ?_, ?_, ?_⟩
    · simp [slotOf, Mem.write, hp]
    · simp [PathReps, put_same]
    · intro x hx
      exact put_ne _ _ (by simpa [pa] using hx)
  | .inLeft k p x r :: path =>
    obtain ⟨h1, h2, h3⟩ := hp
    simp only [pa, List.nodup_cons, List.mem_cons, List.mem_append, not_or] at hn
    refine ⟨h.put x.1 (some ⟨q', ptr r, some k, p, some x.2, 0⟩), ?_, ⟨put_same _ _ _, ?_, ?_⟩, ?_⟩
    · simp [slotOf, Mem.write, h1]
    · refine reps_congr (fun y hy => put_ne _ _ ?_) h2
      intro e; subst e; exact hn.2.1.1 hy
    · refine path_congr (put_ne _ _ hn.1.1) (fun y hy => put_ne _ _ ?_) h3
      intro e; subst e; exact hn.2.1.2 hy
    · intro y hy
      refine put_ne _ _ ?_
      intro e; subst e; simp [pa] at hy
  | .inRight l k p x :: path =>
    obtain ⟨h1, h2, h3⟩ := hp
    simp only [pa, List.nodup_cons, List.mem_cons, List.mem_append, not_or] at hn
    refine ⟨h.put x.1 (some ⟨ptr l, q', some k, p, some x.2, 0⟩), ?_, ⟨put_same _ _ _, ?_, ?_⟩, ?_⟩
    · simp [slotOf, Mem.write, h1]
    · refine reps_congr (fun y hy => put_ne _ _ ?_) h2
      intro e; subst e; exact hn.2.1.1 hy
    · refine path_congr (put_ne _ _ hn.1.1) (fun y hy => put_ne _ _ ?_) h3
      intro e; subst e; exact hn.2.1.2 hy
    · intro y hy
      refine put_ne _ _ ?_
      intro e; subst e; simp [pa] at hy

/-- The slot holding `t`, and everything around it. -/
structure At (h : Heap K V) (ra : Nat) (len : Int) (path : List (AF K V)) (t : AT K V) : Prop where
  around : PathReps h ra len path (ptr t)
  tree : Reps h t
  nodup : (ra :: (pa path ++ addrs t)).Nodup

theorem At.nodupPath {h : Heap K V} {ra : Nat} {len : Int} {path : List (AF K V)} {t : AT K V} (H : At h ra len path t) :
    (ra :: pa path).Nodup := by
  have := H.nodup
  simp only [List.nodup_cons, List.mem_append, not_or, List.nodup_append] at this ⊢
  exact ⟨this.1.1, this.2.1⟩

/-- Descending. -/
theorem At.right {h : Heap K V} {ra : Nat} {len : Int} {path : List (AF K V)} {l r : AT K V} {k : K} {p : Int} {x : Nat × V}
    (H : At h ra len path (.node l k p x r)) : At h ra len (.inRight l k p x :: path) r := by
  refine ⟨⟨H.tree.1, H.tree.2.1, H.around⟩, H.tree.2.2, ?_⟩
  refine (List.Perm.nodup_iff ?_).mp H.nodup
  rw [List.perm_iff_count]; intro a
  simp only [pa, addrs, List.count_cons, List.count_append]; omega

theorem At.left {h : Heap K V} {ra : Nat} {len : Int} {path : List (AF K V)} {l r : AT K V} {k : K} {p : Int} {x : Nat × V}
    (H : At h ra len path (.node l k p x r)) : At h ra len (.inLeft k p x r :: path) l := by
  refine ⟨⟨H.tree.1, H.tree.2.2, H.around⟩, H.tree.2.1, ?_⟩
  refine (List.Perm.nodup_iff ?_).mp H.nodup
  rw [List.perm_iff_count]; intro a
  simp only [pa, addrs, List.count_cons, List.count_append]; omega

/-- Putting another subtree into the slot. -/
theorem At.replace {h : Heap K V} {ra : Nat} {len : Int} {path : List (AF K V)} {t : AT K V} (H : At h ra len path t) (root : Option Nat)
    {h1 : Heap K V} (t' : AT K V) (hsame : ∀ x ∈ ra :: pa path, h1 x = h x) (ht : Reps h1 t') (hn : (ra :: (pa path ++ addrs t')).Nodup) :
    ∃ h', (⟨h1, root⟩ : Mem K V).write (slotOf ra path) (ptr t') = some ⟨h', root⟩ ∧ At h' ra len path t' ∧
      ∀ x, x ∉ ra :: pa path → h' x = h1 x := by
  have hp : PathReps h1 ra len path (ptr t) :=
    path_congr (hsame _ List.mem_cons_self) (fun x hx => hsame x (List.mem_cons_of_mem _ hx)) H.around
  obtain ⟨h', e1, e2, e3⟩ := path_write (root := root) hp H.nodupPath (ptr t')
  refine ⟨h', e1, ⟨e2, reps_congr (fun x hx => e3 x ?_) ht, hn⟩, e3⟩
  intro hx2
  simp only [List.nodup_cons, List.nodup_append, List.mem_append, not_or] at hn
  rcases List.mem_cons.mp hx2 with rfl | hx2
  · exact hn.1.2 hx
  · exact hn.2.2.2 x hx2 x hx rfl

/-- Rotation with the right child. -/
theorem rotate_right {h : Heap K V} {ra : Nat} {len : Int} {path : List (AF K V)} {l rl rr : AT K V} {k rk : K} {p rp : Int} {x rx : Nat × V}
    (root : Option Nat) (H : At h ra len path (.node l k p x (.node rl rk rp rx rr))) :
    ∃ h', rebalance ⟨h, root⟩ (slotOf ra path) rx.1 = some ⟨h', root⟩ ∧ At h' ra len path (.node (.node l k p x rl) rk rp rx rr) ∧
      ∀ y, y ∉ ra :: (pa path ++ addrs (.node l k p x (.node rl rk rp rx rr))) → h' y = h y := by
  obtain ⟨t1, t2, t3, t4, t5⟩ := H.tree
  have hn := H.nodup
  have hn' : (ra :: (pa path ++ addrs (.node (.node l k p x rl) rk rp rx rr))).Nodup := by
    refine (List.Perm.nodup_iff ?_).mp hn
    rw [List.perm_iff_count]; intro a
    simp only [addrs, List.count_cons, List.count_append]; omega
  simp only [addrs, List.nodup_cons, List.nodup_append, List.mem_cons, List.mem_append, not_or] at hn
  have hne : rx.1 ≠ x.1 := by intro e; grind
  let h1 := h.put x.1 (some ⟨ptr l, ptr rl, some k, p, some x.2, 0⟩)
  let h2 := h1.put rx.1 (some ⟨some x.1, ptr rr, some rk, rp, some rx.2, 0⟩)
  have e1 : (⟨h, root⟩ : Mem K V).write (.right x.1) (ptr rl) = some ⟨h1, root⟩ := by simp [Mem.write, t1, h1]
  have e2 : (⟨h1, root⟩ : Mem K V).write (.left rx.1) (some x.1) = some ⟨h2, root⟩ := by
    simp [Mem.write, h1, put_ne _ _ hne, t3, h2]
  have sub : ∀ y, y ≠ x.1 → y ≠ rx.1 → h2 y = h y := by
    intro y hy1 hy2
    simp only [h2, h1]; rw [put_ne _ _ hy2, put_ne _ _ hy1]
  have htree : Reps h2 (.node (.node l k p x rl) rk rp rx rr) := by
    refine ⟨put_same _ _ _, ⟨?_, ?_, ?_⟩, ?_⟩
    · simp only [h2, h1]; rw [put_ne _ _ (Ne.symm hne), put_same]
    · refine reps_congr (fun y hy => sub y ?_ ?_) t2
      · intro e; subst e; grind
      · intro e; subst e; grind
    · refine reps_congr (fun y hy => sub y ?_ ?_) t4
      · intro e; subst e; grind
      · intro e; subst e; grind
    · refine reps_congr (fun y hy => sub y ?_ ?_) t5
      · intro e; subst e; grind
      · intro e; subst e; grind
  obtain ⟨h', e3, e4, e5⟩ := H.replace root (h1 := h2) (.node (.node l k p x rl) rk rp rx rr) (by
    intro y hy
    refine sub y ?_ ?_
    · intro e; subst e
      rcases List.mem_cons.mp hy with rfl | hy <;> grind
    · intro e; subst e
      rcases List.mem_cons.mp hy with rfl | hy <;> grind) htree hn'
  refine ⟨h', ?_, e4, ?_⟩
  · unfold rebalance
    rw [path_read H.around]
    simp only [ptr_node, Option.bind_eq_bind, Option.bind_some, t1, t3, if_true, e1, e2]
    exact e3
  · intro y hy
    simp only [List.mem_cons, List.mem_append, not_or, addrs] at hy
    rw [e5 y (by simp [hy]), sub y (by simp [hy]) (by simp [hy])]

/-- Rotation with the left child. -/
theorem rotate_left {h : Heap K V} {ra : Nat} {len : Int} {path : List (AF K V)} {r ll lr : AT K V} {k lk : K} {p lp : Int} {x lx : Nat × V}
    (root : Option Nat) (H : At h ra len path (.node (.node ll lk lp lx lr) k p x r)) :
    ∃ h', rebalance ⟨h, root⟩ (slotOf ra path) lx.1 = some ⟨h', root⟩ ∧ At h' ra len path (.node ll lk lp lx (.node lr k p x r)) ∧
      ∀ y, y ∉ ra :: (pa path ++ addrs (.node (.node ll lk lp lx lr) k p x r)) → h' y = h y := by
  obtain ⟨t1, ⟨t3, t4, t5⟩, t2⟩ := H.tree
  have hn := H.nodup
  have hn' : (ra :: (pa path ++ addrs (.node ll lk lp lx (.node lr k p x r)))).Nodup := by
    refine (List.Perm.nodup_iff ?_).mp hn
    rw [List.perm_iff_count]; intro a
    simp only [addrs, List.count_cons, List.count_append]; omega
  simp only [addrs, List.nodup_cons, List.nodup_append, List.mem_cons, List.mem_append, not_or] at hn
  have hne : lx.1 ≠ x.1 := by intro e; grind
  have hnr : some lx.1 ≠ ptr r := by
    intro e
    cases r with
    | nil => simp [ptr] at e
    | node a b c d e' =>
      simp only [ptr, Option.some.injEq] at e
      have := hn.2.2.1.2.2.2 lx.1 (.inl rfl) lx.1 (by simp [addrs, e])
      exact this rfl
  let h1 := h.put x.1 (some ⟨ptr lr, ptr r, some k, p, some x.2, 0⟩)
  let h2 := h1.put lx.1 (some ⟨ptr ll, some x.1, some lk, lp, some lx.2, 0⟩)
  have e1 : (⟨h, root⟩ : Mem K V).write (.left x.1) (ptr lr) = some ⟨h1, root⟩ := by simp [Mem.write, t1, h1]
  have e2 : (⟨h1, root⟩ : Mem K V).write (.right lx.1) (some x.1) = some ⟨h2, root⟩ := by
    simp [Mem.write, h1, put_ne _ _ hne, t3, h2]
  have sub : ∀ y, y ≠ x.1 → y ≠ lx.1 → h2 y = h y := by
    intro y hy1 hy2
    simp only [h2, h1]; rw [put_ne _ _ hy2, put_ne _ _ hy1]
  have htree : Reps h2 (.node ll lk lp lx (.node lr k p x r)) := by
    refine ⟨put_same _ _ _, ?_, ⟨?_, ?_, ?_⟩⟩
    · refine reps_congr (fun y hy => sub y ?_ ?_) t4
      · intro e; subst e; grind
      · intro e; subst e; grind
    · simp only [h2, h1]; rw [put_ne _ _ (Ne.symm hne), put_same]
    · refine reps_congr (fun y hy => sub y ?_ ?_) t5
      · intro e; subst e; grind
      · intro e; subst e; grind
    · refine reps_congr (fun y hy => sub y ?_ ?_) t2
      · intro e; subst e; grind
      · intro e; subst e; grind
  obtain ⟨h', e3, e4, e5⟩ := H.replace root (h1 := h2) (.node ll lk lp lx (.node lr k p x r)) (by
    intro y hy
    refine sub y ?_ ?_
    · intro e; subst e
      rcases List.mem_cons.mp hy with rfl | hy <;> grind
    · intro e; subst e
      rcases List.mem_cons.mp hy with rfl | hy <;> grind) htree hn'
  refine ⟨h', ?_, e4, ?_⟩
  · unfold rebalance
    rw [path_read H.around]
    simp only [ptr_node, Option.bind_eq_bind, Option.bind_some, t1, t3, if_true, if_neg hnr, e1, e2]
    exact e3
  · intro y hy
    simp only [List.mem_cons, List.mem_append, not_or, addrs] at hy
    rw [e5 y (by simp [hy]), sub y (by simp [hy]) (by simp [hy])]

/-- The search loop in memory does the iterations of the loop on trees. -/
theorem search_loop (cmp : K → K → Int) (key : K) (ra : Nat) (len : Int) (root : Option Nat) : ∀ (fuel : Nat) (h : Heap K V)
    (path : List (AF K V)) (t : AT K V) (path' : List (AF K V)) (t' : AT K V), At h ra len path t →
    loop cmp key fuel (path, t) = some (path', t') →
    ∃ h', search cmp key fuel ⟨h, root⟩ (slotOf ra path) = some (⟨h', root⟩, slotOf ra path') ∧ At h' ra len path' t' ∧
      (ra :: (pa path' ++ addrs t')).Perm (ra :: (pa path ++ addrs t)) ∧ ∀ y, y ∉ ra :: (pa path ++ addrs t) → h' y = h y := by
  intro fuel
  induction fuel with
  | zero => intro h path t path' t' _ hl; simp [loop] at hl
  | succ fuel ih =>
    intro h path t path' t' H hl
    rw [loop] at hl
    rw [search, path_read H.around]
    simp only [Option.bind_eq_bind, Option.bind_some]
    cases t with
    | nil =>
      simp only [loopBody, Option.some.injEq, Prod.mk.injEq] at hl
      obtain ⟨rfl, rfl⟩ := hl
      exact ⟨h, rfl, H, .refl _, fun _ _ => rfl⟩
    | node l k p x r =>
      simp only [ptr_node]
      rw [show h x.1 = _ from H.tree.1]
      simp only [Option.bind_some]
      -- what remains after one iteration
      have desc : ∀ {path1 : List (AF K V)} {t1 : AT K V}, At h ra len path1 t1 →
          (ra :: (pa path1 ++ addrs t1)).Perm (ra :: (pa path ++ addrs (.node l k p x r))) →
          loop cmp key fuel (path1, t1) = some (path', t') →
          ∃ h', search cmp key fuel ⟨h, root⟩ (slotOf ra path1) = some (⟨h', root⟩, slotOf ra path') ∧ At h' ra len path' t' ∧
            (ra :: (pa path' ++ addrs t')).Perm (ra :: (pa path ++ addrs (.node l k p x r))) ∧
            ∀ y, y ∉ ra :: (pa path ++ addrs (.node l k p x r)) → h' y = h y := by
        intro path1 t1 H1 hperm hl1
        obtain ⟨h', e1, e2, e3, e4⟩ := ih h path1 t1 path' t' H1 hl1
        exact ⟨h', e1, e2, e3.trans hperm, fun y hy => e4 y (fun hy2 => hy (hperm.mem_iff.mp hy2))⟩
      have rot : ∀ {h1 : Heap K V} {t1 : AT K V}, At h1 ra len path t1 →
          (ra :: (pa path ++ addrs t1)).Perm (ra :: (pa path ++ addrs (.node l k p x r))) →
          (∀ y, y ∉ ra :: (pa path ++ addrs (.node l k p x r)) → h1 y = h y) →
          loop cmp key fuel (path, t1) = some (path', t') →
          ∃ h', search cmp key fuel ⟨h1, root⟩ (slotOf ra path) = some (⟨h', root⟩, slotOf ra path') ∧ At h' ra len path' t' ∧
            (ra :: (pa path' ++ addrs t')).Perm (ra :: (pa path ++ addrs (.node l k p x r))) ∧
            ∀ y, y ∉ ra :: (pa path ++ addrs (.node l k p x r)) → h' y = h y := by
        intro h1 t1 H1 hperm hsame hl1
        obtain ⟨h', e1, e2, e3, e4⟩ := ih h1 path t1 path' t' H1 hl1
        refine ⟨h', e1, e2, e3.trans hperm, fun y hy => ?_⟩
        rw [e4 y (fun hy2 => hy (hperm.mem_iff.mp hy2)), hsame y hy]
      have hkd : keyDiff cmp key (some k) = cmp key k := rfl
      by_cases h0 : keyDiff cmp key (some k) = 0
      · rw [if_pos h0]
        rw [hkd] at h0
        simp only [loopBody, h0] at hl
        simp only [Int.lt_irrefl, gt_iff_lt, if_false, Option.some.injEq, Prod.mk.injEq] at hl
        obtain ⟨rfl, rfl⟩ := hl
        exact ⟨h, rfl, H, .refl _, fun _ _ => rfl⟩
      · rw [if_neg h0]
        by_cases hgt : keyDiff cmp key (some k) > 0
        · simp only [if_pos hgt]
          rw [hkd] at hgt
          simp only [loopBody, if_pos hgt] at hl
          have permR : (ra :: (pa (Frame.inRight l k p x :: path) ++ addrs r)).Perm (ra :: (pa path ++ addrs (.node l k p x r))) := by
            rw [List.perm_iff_count]; intro a
            simp only [pa, addrs, List.count_cons, List.count_append]; omega
          cases r with
          | nil => exact desc H.right permR hl
          | node rl rk rp rx rr =>
            simp only [ptr_node]
            rw [show h rx.1 = _ from H.tree.2.2.1]
            simp only [Option.bind_some]
            by_cases hrot : p > 0 ∧ rp > p
            · rw [if_pos hrot]
              dsimp only at hl
              rw [if_pos hrot] at hl
              obtain ⟨h1, e1, e2, e3⟩ := rotate_right root H
              rw [e1]
              simp only [Option.bind_some]
              refine rot e2 ?_ e3 hl
              rw [List.perm_iff_count]; intro a
              simp only [addrs, List.count_cons, List.count_append]; omega
            · rw [if_neg hrot]
              dsimp only at hl
              rw [if_neg hrot] at hl
              exact desc H.right permR hl
        · have hlt : cmp key k < 0 := by omega
          simp only [if_neg hgt]
          rw [hkd] at hgt
          simp only [loopBody, if_neg hgt, if_pos hlt] at hl
          have permL : (ra :: (pa (Frame.inLeft k p x r :: path) ++ addrs l)).Perm (ra :: (pa path ++ addrs (.node l k p x r))) := by
            rw [List.perm_iff_count]; intro a
            simp only [pa, addrs, List.count_cons, List.count_append]; omega
          cases l with
          | nil => exact desc H.left permL hl
          | node ll lk lp lx lr =>
            simp only [ptr_node]
            rw [show h lx.1 = _ from H.tree.2.1.1]
            simp only [Option.bind_some]
            by_cases hrot : p > 0 ∧ lp > p
            · rw [if_pos hrot]
              dsimp only at hl
              rw [if_pos hrot] at hl
              obtain ⟨h1, e1, e2, e3⟩ := rotate_left root H
              rw [e1]
              simp only [Option.bind_some]
              refine rot e2 ?_ e3 hl
              rw [List.perm_iff_count]; intro a
              simp only [addrs, List.count_cons, List.count_append]; omega
            · rw [if_neg hrot]
              dsimp only at hl
              rw [if_neg hrot] at hl
              exact desc H.left permL hl

end Umka.MapHeap
