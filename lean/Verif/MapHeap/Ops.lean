import Verif.MapHeap.Search

/-! # Maps in memory: every operation does what it does on trees -/

namespace Umka.MapHeap

open Umka.Map (Op Out Tree Frame plug getNode loopBody loop unlinkMin removeRoot MapVal Root)

variable {K V : Type}

/-! ## Forgetting the addresses -/

def erase : AT K V → Tree K V
  | .nil => .nil
  | .node l k p x r => .node (erase l) k p x.2 (erase r)

def eraseF : AF K V → Frame K V
  | .inLeft k p x r => .inLeft k p x.2 (erase r)
  | .inRight l k p x => .inRight (erase l) k p x.2

theorem erase_plug (path : List (AF K V)) (t : AT K V) : erase (plug path t) = plug (path.map eraseF) (erase t) := by
  induction path generalizing t with
  | nil => rfl
  | cons f path ih => cases f <;> simp [plug, ih, eraseF, erase]

theorem erase_size (t : AT K V) : (erase t).size = t.size := by
  induction t with
  | nil => rfl
  | node l k p x r ihl ihr => simp [erase, Tree.size, ihl, ihr]

theorem erase_keys (t : AT K V) : (erase t).keys = t.keys := by
  induction t with
  | nil => rfl
  | node l k p x r ihl ihr => simp [erase, Tree.keys, ihl, ihr]

def eraseS : List (AF K V) × AT K V → List (Frame K V) × Tree K V := fun s => (s.1.map eraseF, erase s.2)

theorem erase_loopBody (cmp : K → K → Int) (key : K) (path : List (AF K V)) (t : AT K V) :
    loopBody cmp key (path.map eraseF, erase t) = (loopBody cmp key (path, t)).map eraseS eraseS := by
  cases t with
  | nil => rfl
  | node l k p x r =>
    simp only [erase, loopBody]
    by_cases h1 : cmp key k > 0
    · simp only [if_pos h1]
      cases r with
      | nil => rfl
      | node rl rk rp rx rr =>
        simp only [erase]
        by_cases h2 : p > 0 ∧ rp > p
        · simp only [if_pos h2]; rfl
        · simp only [if_neg h2]; rfl
    · simp only [if_neg h1]
      by_cases h2 : cmp key k < 0
      · simp only [if_pos h2]
        cases l with
        | nil => rfl
        | node ll lk lp lx lr =>
          simp only [erase]
          by_cases h3 : p > 0 ∧ lp > p
          · simp only [if_pos h3]; rfl
          · simp only [if_neg h3]; rfl
      · simp only [if_neg h2]; rfl

theorem erase_loop (cmp : K → K → Int) (key : K) : ∀ (fuel : Nat) (path : List (AF K V)) (t : AT K V),
    loop cmp key fuel (path.map eraseF, erase t) = (loop cmp key fuel (path, t)).map eraseS := by
  intro fuel
  induction fuel with
  | zero => intro path t; rfl
  | succ fuel ih =>
    intro path t
    rw [loop, loop, erase_loopBody]
    cases h : loopBody cmp key (path, t) with
    | inl s =>
      obtain ⟨path', t'⟩ := s
      exact ih path' t'
    | inr s => rfl

theorem erase_getNode (cmp : K → K → Int) (key : K) (path : List (AF K V)) (t : AT K V) :
    getNode cmp key (path.map eraseF) (erase t) = eraseS (getNode cmp key path t) := by
  have h1 := Umka.Map.C03_lookup_terminates cmp key path t
  have h2 := Umka.Map.C03_lookup_terminates cmp key (path.map eraseF) (erase t)
  rw [erase_loop, erase_size, h1] at h2
  exact (Option.some.inj h2).symm

theorem loop_mono (cmp : K → K → Int) (key : K) : ∀ (fuel fuel' : Nat) (s : List (Frame K V) × Tree K V) {s' : List (Frame K V) × Tree K V},
    loop cmp key fuel s = some s' → fuel ≤ fuel' → loop cmp key fuel' s = some s' := by
  intro fuel
  induction fuel with
  | zero => intro _ _ _ h _; simp [loop] at h
  | succ fuel ih =>
    intro fuel' s s' h hle
    obtain ⟨g, rfl⟩ : ∃ g, fuel' = g + 1 := ⟨fuel' - 1, by omega⟩
    rw [loop] at h ⊢
    cases hb : loopBody cmp key s with
    | inl s1 => rw [hb] at h; exact ih g s1 h (by omega)
    | inr s1 => rw [hb] at h; exact h

theorem addrs_plug (path : List (AF K V)) (t : AT K V) : (addrs (plug path t)).Perm (pa path ++ addrs t) := by
  induction path generalizing t with
  | nil => exact .refl _
  | cons f path ih =>
    cases f with
    | inLeft k p x r =>
      refine (ih _).trans ?_
      rw [List.perm_iff_count]; intro a
      simp only [pa, addrs, List.count_cons, List.count_append]; omega
    | inRight l k p x =>
      refine (ih _).trans ?_
      rw [List.perm_iff_count]; intro a
      simp only [pa, addrs, List.count_cons, List.count_append]; omega

theorem pa_append (F P : List (AF K V)) : pa (F ++ P) = pa F ++ pa P := by
  induction F with
  | nil => rfl
  | cons f F ih => cases f <;> simp [pa, ih]

theorem plug_append (F P : List (Frame K V)) (t : Tree K V) : plug (F ++ P) t = plug P (plug F t) := by
  induction F generalizing t with
  | nil => rfl
  | cons f F ih => cases f <;> simp [plug, ih]

/-- Leaving part of the path. -/
theorem At.plug {h : Heap K V} {ra : Nat} {len : Int} {P : List (AF K V)} : ∀ {F : List (AF K V)} {t : AT K V},
    At h ra len (F ++ P) t → At h ra len P (Umka.Map.plug F t) := by
  intro F
  induction F with
  | nil => intro t H; exact H
  | cons f F ih =>
    intro t H
    cases f with
    | inLeft k p x r =>
      obtain ⟨h1, h2, h3⟩ := H.around
      refine ih (t := .node t k p x r) ⟨h3, ⟨h1, H.tree, h2⟩, ?_⟩
      refine (List.Perm.nodup_iff ?_).mp H.nodup
      rw [List.perm_iff_count]; intro a
      simp only [List.cons_append, pa, addrs, List.count_cons, List.count_append]; omega
    | inRight l k p x =>
      obtain ⟨h1, h2, h3⟩ := H.around
      refine ih (t := .node l k p x t) ⟨h3, ⟨h1, h2, H.tree⟩, ?_⟩
      refine (List.Perm.nodup_iff ?_).mp H.nodup
      rw [List.perm_iff_count]; intro a
      simp only [List.cons_append, pa, addrs, List.count_cons, List.count_append]; omega

theorem At.close {h : Heap K V} {ra : Nat} {len : Int} {path : List (AF K V)} {t : AT K V} (H : At h ra len path t) :
    At h ra len [] (Umka.Map.plug path t) := At.plug (P := []) (by rw [List.append_nil]; exact H)

/-! ## Allocation and frames -/

/-- Only finitely many addresses are in use. -/
def Fin (h : Heap K V) : Prop := ∃ n, ∀ x, n ≤ x → h x = none

/-- The allocator returns an address that is not in use, as long as there is one. -/
def FreshAlloc (alloc : Heap K V → Nat) : Prop := ∀ h, Fin h → h (alloc h) = none

/-- An operation on the nodes `F` leaves the nodes `F'`: it uses free addresses only, and changes nothing else. -/
structure After (h h' : Heap K V) (F F' : List Nat) : Prop where
  same : ∀ x, x ∉ F → x ∉ F' → h' x = h x
  fresh : ∀ x ∈ F', x ∈ F ∨ h x = none

theorem bound_list (l : List Nat) : ∃ n, ∀ x ∈ l, x < n := by
  induction l with
  | nil => exact ⟨0, by simp⟩
  | cons a l ih =>
    obtain ⟨n, hn⟩ := ih
    refine ⟨max n (a + 1), ?_⟩
    intro x hx
    rcases List.mem_cons.mp hx with rfl | hx
    · omega
    · have := hn x hx; omega

theorem After.fin {h h' : Heap K V} {F F' : List Nat} (H : After h h' F F') (hf : Fin h) : Fin h' := by
  obtain ⟨n, hn⟩ := hf
  obtain ⟨n1, h1⟩ := bound_list F
  obtain ⟨n2, h2⟩ := bound_list F'
  refine ⟨max n (max n1 n2), fun x hx => ?_⟩
  rw [H.same x (fun hm => by have := h1 x hm; omega) (fun hm => by have := h2 x hm; omega), hn x (by omega)]

theorem After.trans {h h1 h2 : Heap K V} {F F1 F2 : List Nat} (H1 : After h h1 F F1) (H2 : After h1 h2 F1 F2)
    (hsub : ∀ x ∈ F1, x ∈ F2) : After h h2 F F2 := by
  constructor
  · intro x hx hx2
    have hx1 : x ∉ F1 := fun h => hx2 (hsub x h)
    rw [H2.same x hx1 hx2, H1.same x hx hx1]
  · intro x hx
    rcases H2.fresh x hx with h3 | h3
    · exact H1.fresh x h3
    · by_cases hxF : x ∈ F
      · exact .inl hxF
      · by_cases hx1 : x ∈ F1
        · exact H1.fresh x hx1
        · rw [H1.same x hxF hx1] at h3; exact .inr h3

/-! ## Searching a map -/

theorem search_ok (cmp : K → K → Int) (key : K) {h : Heap K V} {ra : Nat} {len : Int} {t : AT K V} (H : At h ra len [] t) :
    ∃ N path t' h', getNode cmp key [] t = (path, t') ∧ (∀ fuel, N ≤ fuel → search cmp key fuel ⟨h, some ra⟩ .root = some (⟨h', some ra⟩, slotOf ra path)) ∧
      At h' ra len path t' ∧ (pa path ++ addrs t').Perm (addrs t) ∧ ∀ y, y ∉ ra :: addrs t → h' y = h y := by
  obtain ⟨path, t', hg⟩ : ∃ path t', getNode cmp key [] t = (path, t') := ⟨_, _, rfl⟩
  have hl := Umka.Map.C03_lookup_terminates cmp key [] t
  rw [hg] at hl
  obtain ⟨h', e1, e2, e3, e4⟩ := search_loop cmp key ra len (some ra) _ h [] t path t' H hl
  refine ⟨(t.size + 1) * (t.size + 1) + 1, path, t', h', hg, ?_, e2, (List.perm_cons ra).mp e3, e4⟩
  intro fuel hf
  obtain ⟨fuel, rfl⟩ : ∃ g, fuel = g + 1 := ⟨fuel - 1, by omega⟩
  have hl2 := loop_mono cmp key _ fuel _ hl (by omega)
  obtain ⟨h2, f1, f2, f3, f4⟩ := search_loop cmp key ra len (some ra) _ h [] t path t' H hl2
  have hroot : h ra = some ⟨none, ptr t, none, 0, none, len⟩ := H.around
  have hq : h2 = h' := by
    -- more fuel, same result
    have mono : ∀ (f g : Nat) (m : Mem K V) (s : Slot) {r : Mem K V × Slot}, search cmp key f m s = some r → f ≤ g → search cmp key g m s = some r := by
      intro f
      induction f with
      | zero => intro _ _ _ _ h _; simp [search] at h
      | succ f ih =>
        intro g m s r h hle
        obtain ⟨g, rfl⟩ : ∃ g', g = g' + 1 := ⟨g - 1, by omega⟩
        rw [search] at h ⊢
        cases hr : m.read s with
        | none => rw [hr] at h; simp at h
        | some q =>
          rw [hr] at h
          simp only [Option.bind_eq_bind, Option.bind_some] at h ⊢
          cases q with
          | none => exact h
          | some a =>
            simp only at h ⊢
            cases hn : m.heap a with
            | none => rw [hn] at h; simp at h
            | some n =>
              rw [hn] at h
              simp only [Option.bind_some] at h ⊢
              generalize keyDiff cmp key n.key = diff at h ⊢
              by_cases h0 : diff = 0
              · rw [if_pos h0] at h ⊢; exact h
              · rw [if_neg h0] at h ⊢
                cases hc : (if diff > 0 then n.right else n.left) with
                | none => rw [hc] at h; exact ih g _ _ h (by omega)
                | some c =>
                  rw [hc] at h
                  simp only at h ⊢
                  cases hcn : m.heap c with
                  | none => rw [hcn] at h; simp at h
                  | some cn =>
                    rw [hcn] at h
                    simp only [Option.bind_some] at h ⊢
                    by_cases hp : n.prio > 0 ∧ cn.prio > n.prio
                    · rw [if_pos hp] at h ⊢
                      cases hb : rebalance m s c with
                      | none => rw [hb] at h; simp at h
                      | some m1 => rw [hb] at h; exact ih g _ _ h (by omega)
                    · rw [if_neg hp] at h ⊢
                      exact ih g _ _ h (by omega)
    have := mono _ fuel _ _ e1 (by omega)
    rw [f1] at this
    cases this; rfl
  subst hq
  rw [search]
  simp only [Mem.read, Option.bind_eq_bind, Option.bind_some, hroot, keyDiff]
  rw [if_neg (by decide)]
  simp only [Int.zero_lt_one, gt_iff_lt, if_true]
  have f1 : search cmp key fuel ⟨h, some ra⟩ (.right ra) = _ := f1
  cases hp : ptr t with
  | none => exact f1
  | some c =>
    cases t with
    | nil => cases hp
    | node l k p x r =>
      rw [ptr_node, Option.some.injEq] at hp
      subst hp
      simp only [show h x.1 = _ from H.tree.1, Option.bind_some, Int.lt_irrefl, false_and, if_false]
      exact f1

/-! ## The length in the dummy root -/

theorem path_root {h : Heap K V} {ra : Nat} {len : Int} : ∀ {path : List (AF K V)} {q : Option Nat}, PathReps h ra len path q →
    ∃ q', h ra = some ⟨none, q', none, 0, none, len⟩
  | [], q, h1 => ⟨q, h1⟩
  | .inLeft _ _ _ _ :: _, _, ⟨_, _, h3⟩ => path_root h3
  | .inRight _ _ _ _ :: _, _, ⟨_, _, h3⟩ => path_root h3

theorem path_len {h : Heap K V} {ra : Nat} {len : Int} (len' : Int) {q' : Option Nat} (hq : h ra = some ⟨none, q', none, 0, none, len⟩) :
    ∀ {path : List (AF K V)} {q : Option Nat}, PathReps h ra len path q → ra ∉ pa path →
    PathReps (h.put ra (some ⟨none, q', none, 0, none, len'⟩)) ra len' path q
  | [], q, h1, _ => by
    have h1 : h ra = _ := h1
    rw [hq] at h1; cases h1
    exact put_same _ _ _
  | .inLeft k p x r :: path, q, ⟨h1, h2, h3⟩, hn => by
    simp only [pa, List.mem_cons, List.mem_append, not_or] at hn
    refine ⟨?_, reps_congr (fun y hy => put_ne _ _ ?_) h2, path_len len' hq h3 hn.2.2⟩
    · rw [put_ne _ _ (fun e => hn.1 e.symm), h1]
    · intro e; subst e; exact hn.2.1 hy
  | .inRight l k p x :: path, q, ⟨h1, h2, h3⟩, hn => by
    simp only [pa, List.mem_cons, List.mem_append, not_or] at hn
    refine ⟨?_, reps_congr (fun y hy => put_ne _ _ ?_) h2, path_len len' hq h3 hn.2.2⟩
    · rw [put_ne _ _ (fun e => hn.1 e.symm), h1]
    · intro e; subst e; exact hn.2.1 hy

theorem path_alloc {h : Heap K V} {ra : Nat} {len : Int} : ∀ {path : List (AF K V)} {q : Option Nat}, PathReps h ra len path q →
    ∀ x ∈ ra :: pa path, h x ≠ none
  | [], q, h1, x, hx => by
    have h1 : h ra = _ := h1
    have : x = ra := by simpa [pa] using hx
    subst this; rw [h1]; simp
  | .inLeft k p y r :: path, q, ⟨h1, h2, h3⟩, x, hx => by
    simp only [pa, List.mem_cons, List.mem_append] at hx
    rcases hx with rfl | rfl | hx | hx
    · exact path_alloc h3 x List.mem_cons_self
    · rw [h1]; simp
    · exact reps_alloc h2 x hx
    · exact path_alloc h3 x (List.mem_cons_of_mem _ hx)
  | .inRight l k p y :: path, q, ⟨h1, h2, h3⟩, x, hx => by
    simp only [pa, List.mem_cons, List.mem_append] at hx
    rcases hx with rfl | rfl | hx | hx
    · exact path_alloc h3 x List.mem_cons_self
    · rw [h1]; simp
    · exact reps_alloc h2 x hx
    · exact path_alloc h3 x (List.mem_cons_of_mem _ hx)

theorem At.alloc {h : Heap K V} {ra : Nat} {len : Int} {path : List (AF K V)} {t : AT K V} (H : At h ra len path t) :
    ∀ x ∈ ra :: (pa path ++ addrs t), h x ≠ none := by
  intro x hx
  simp only [List.mem_cons, List.mem_append] at hx
  rcases hx with rfl | hx | hx
  · exact path_alloc H.around x List.mem_cons_self
  · exact path_alloc H.around x (List.mem_cons_of_mem _ hx)
  · exact reps_alloc H.tree x hx

/-- A new length. -/
theorem At.setLen {h : Heap K V} {ra : Nat} {len : Int} {path : List (AF K V)} {t : AT K V} (H : At h ra len path t) (root : Option Nat)
    (f : Int → Int) : ∃ h', (⟨h, root⟩ : Mem K V).modify ra (fun n => { n with len := f n.len }) = some ⟨h', root⟩ ∧
      At h' ra (f len) path t ∧ (∀ x, x ≠ ra → h' x = h x) ∧ ∃ q, h' ra = some ⟨none, q, none, 0, none, f len⟩ := by
  obtain ⟨q', hq⟩ := path_root H.around
  have hn := H.nodup
  simp only [List.nodup_cons, List.mem_append, not_or] at hn
  refine ⟨h.put ra (some ⟨none, q', none, 0, none, f len⟩), ?_, ⟨path_len _ hq H.around hn.1.1, ?_, H.nodup⟩, ?_, q', put_same _ _ _⟩
  · simp [Mem.modify, hq]
  · refine reps_congr (fun y hy => put_ne _ _ ?_) H.tree
    intro e; subst e; exact hn.1.2 hy
  · intro x hx; exact put_ne _ _ hx

/-- A new item in the node at the slot. -/
theorem At.setVal {h : Heap K V} {ra : Nat} {len : Int} {path : List (AF K V)} {l r : AT K V} {k : K} {p : Int} {x : Nat × V}
    (H : At h ra len path (.node l k p x r)) (root : Option Nat) (v : V) :
    ∃ h', (⟨h, root⟩ : Mem K V).modify x.1 (fun n => { n with val := some v }) = some ⟨h', root⟩ ∧
      At h' ra len path (.node l k p (x.1, v) r) ∧ ∀ y, y ≠ x.1 → h' y = h y := by
  obtain ⟨t1, t2, t3⟩ := H.tree
  have hn := H.nodup
  simp only [addrs, List.nodup_cons, List.nodup_append, List.mem_cons, List.mem_append, not_or] at hn
  refine ⟨h.put x.1 (some ⟨ptr l, ptr r, some k, p, some v, 0⟩), ?_, ⟨?_, ⟨put_same _ _ _, ?_, ?_⟩, H.nodup⟩, fun y hy => put_ne _ _ hy⟩
  · simp [Mem.modify, t1]
  · refine path_congr (put_ne _ _ ?_) (fun y hy => put_ne _ _ ?_) H.around
    · grind
    · intro e; subst e; grind
  · refine reps_congr (fun y hy => put_ne _ _ ?_) t2
    intro e; subst e; grind
  · refine reps_congr (fun y hy => put_ne _ _ ?_) t3
    intro e; subst e; grind

end Umka.MapHeap
