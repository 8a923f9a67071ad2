import Verif.ArrRef.Lemmas
/-! # Reference counts of dynamic arrays: the operations -/

namespace Umka.ArrRef

open Spec

def SInv (s : State) : Prop := Inv s.heap (held s) []

theorem exact_iff (s : State) : Exact s ↔ SInv s := by
  unfold Exact SInv Inv references stored
  constructor
  · intro e x; rw [e x, List.count_append]; simp
  · intro e x; have := e x; rw [List.count_append]; simpa using this

def Good : Except Err State → Prop
  | .ok s => SInv s
  | .error e => Mistake e

/-- All references in the list are to chunks that are alive. -/
def Alive (h : Heap) (ks : List Nat) : Prop := ∀ k ∈ ks, 0 < count h k

theorem good_bind {α : Type} (P : α → Prop) {r : Except Err α} {f : α → Except Err State}
    (p : (∃ e, r = .error e ∧ Mistake e) ∨ ∃ x, r = .ok x ∧ P x) (q : ∀ x, P x → Good (f x)) : Good (r >>= f) := by
  rcases p with ⟨e, rfl, m⟩ | ⟨x, rfl, m⟩
  · exact m
  · exact q x m

theorem good_ok {α : Type} {P : α → Prop} {r : Except Err α} {f : α → Except Err State}
    (p : ∃ x, r = .ok x ∧ P x) (q : ∀ x, P x → Good (f x)) : Good (r >>= f) := good_bind P (Or.inr p) q

theorem arr_ok (s : State) (a : Nat) : (∃ e, arr s a = .error e ∧ Mistake e) ∨ ∃ r, arr s a = .ok r ∧ s.arrs[a]? = some r := by
  unfold arr
  cases s.arrs[a]? with
  | none => exact Or.inl ⟨_, rfl, Or.inr (Or.inr rfl)⟩
  | some r => exact Or.inr ⟨r, rfl, rfl⟩

theorem val_ok (s : State) (v : Nat) : (∃ e, val s v = .error e ∧ Mistake e) ∨ ∃ x, val s v = .ok x ∧ s.vals[v]? = some x := by
  unfold val
  cases s.vals[v]? with
  | none => exact Or.inl ⟨_, rfl, Or.inr (Or.inr rfl)⟩
  | some r => exact Or.inr ⟨r, rfl, rfl⟩

theorem held_arr {s : State} {a k : Nat} (e : s.arrs[a]? = some (some k)) : k ∈ held s :=
  List.mem_append_left _ (List.mem_filterMap.2 ⟨some k, List.mem_of_getElem? e, rfl⟩)

theorem held_val {s : State} {v k : Nat} {x : Item} (e : s.vals[v]? = some x) (m : k ∈ x) : k ∈ held s :=
  List.mem_append_right _ (List.mem_flatten.2 ⟨x, List.mem_of_getElem? e, m⟩)

theorem alive_arr {s : State} (I : SInv s) {a : Nat} {r : Option Nat} (e : s.arrs[a]? = some r) : Alive s.heap r.toList := by
  intro k m
  cases r with
  | none => simp at m
  | some j =>
    simp at m; subst m
    exact Inv.alive I (Or.inl (held_arr e)) (by simp)

theorem alive_val {s : State} (I : SInv s) {v : Nat} {x : Item} (e : s.vals[v]? = some x) : Alive s.heap x :=
  fun _ m => Inv.alive I (Or.inl (held_val e m)) (by simp)

theorem look_ok {s : State} (I : SInv s) {a : Nat} {r : Option Nat} (e : s.arrs[a]? = some r) :
    ∃ c, look s.heap r = .ok c ∧ (Alive s.heap c.1.flatten ∧
      ∀ k, r = some k → ∃ d, s.heap[k]? = some d ∧ 0 < d.rc ∧ c = (d.items, d.cap)) ∧ (r = none → c = ([], 0)) := by
  cases r with
  | none => exact ⟨([], 0), rfl, ⟨by intro k m; simp at m, fun k q => (nomatch q)⟩, fun _ => rfl⟩
  | some k =>
    obtain ⟨d, ed, p⟩ := count_pos (alive_arr I e k (by simp))
    refine ⟨(d.items, d.cap), ?_, ⟨?_, ?_⟩, fun q => (nomatch q)⟩
    · unfold look
      simp only [ed]
      rw [if_neg (by omega)]
    · intro x m
      refine Inv.alive I (Or.inr (inside_mem ed ?_)) (by simp)
      unfold inside
      rw [if_pos p]
      exact m
    · intro j q
      cases q
      exact ⟨d, ed, p, rfl⟩

theorem count_toList (r : Option Nat) (x : Nat) : (r.toList).count x = ([r].filterMap id).count x := by cases r <;> rfl

theorem push_good {s : State} {h : Heap} {r : Option Nat} (I : Inv h (r.toList ++ held s) []) : Good (.ok (s.push h r)) := by
  intro x
  have := I x
  unfold held at this ⊢
  unfold State.push
  simp only [List.filterMap_append, List.count_append, ← count_toList] at this ⊢
  omega

theorem Inv.add {h : Heap} {R : List Nat} (I : Inv h R []) (ks : List Nat) : Inv h (ks ++ R) (ks ++ []) := by
  intro x
  have := I x
  simp only [List.count_append, List.count_nil] at this ⊢
  omega

theorem stored_append (h g : Heap) : stored (h ++ g) = stored h ++ stored g := by simp [stored]

theorem count_push (h : Heap) (c : Chunk) (x : Nat) : count (h ++ [c]) x = if x = h.length then c.rc else count h x := by
  unfold count
  rw [List.getElem?_append]
  by_cases q : x < h.length
  · rw [if_pos q, if_neg (by omega)]
  · rw [if_neg q]
    by_cases q' : x = h.length
    · subst q'; simp
    · rw [if_neg q', List.getElem?_eq_none (by simp; omega), List.getElem?_eq_none (by omega)]

theorem fresh_good {s : State} (I : SInv s) {items : List Item} (a : Alive s.heap items.flatten) : Good (fresh s items) := by
  unfold fresh
  have J : Inv (s.heap ++ [⟨1, items, 2 * (items.length + 1)⟩]) ([s.heap.length] ++ held s) (items.flatten ++ []) := by
    intro x
    have i := I x
    rw [stored_append, count_push, List.append_nil, List.count_append, List.count_append]
    have t : stored [⟨1, items, 2 * (items.length + 1)⟩] = items.flatten := by simp [stored, inside]
    rw [t]
    by_cases q : x = s.heap.length
    · subst q
      rw [if_pos rfl]
      have z : count s.heap s.heap.length = 0 := by simp [count]
      simp at i ⊢
      omega
    · rw [if_neg q]
      rw [List.count_singleton]
      have : (s.heap.length == x) = false := by simp; omega
      simp only [List.count_nil, this] at i ⊢
      simp
      omega
  refine good_ok (P := fun h => Inv h ([s.heap.length] ++ held s) []) ?_ ?_
  · obtain ⟨h, e, i, _⟩ := inc_ok J (by
      intro k m
      have := a k m
      rw [count_push]
      split <;> simp_all)
    exact ⟨h, e, i⟩
  · intro h i
    exact push_good (r := some _) i

theorem setItems_stored {h : Heap} {k : Nat} {c : Chunk} (e : h[k]? = some c) (p : 0 < c.rc) (its : List Item) (x : Nat) :
    (stored (setItems h k its)).count x + c.items.flatten.count x = (stored h).count x + its.flatten.count x := by
  have := stored_modify e (fun c => { c with items := its }) x
  have a : inside c = c.items.flatten := by simp [inside, p]
  have b : inside { c with items := its } = its.flatten := by simp [inside, p]
  simp only [a, b] at this
  exact this

/-- The chunk after other counts have changed. -/
theorem Same.get {h h' : Heap} (s : Same h h') {k : Nat} {c : Chunk} (e : h[k]? = some c) (p : 0 < count h' k) :
    ∃ c', h'[k]? = some c' ∧ 0 < c'.rc ∧ c'.items = c.items := by
  obtain ⟨c', e', p'⟩ := count_pos p
  have := s k
  rw [e, e'] at this
  simp at this
  exact ⟨c', e', p', this.1⟩

theorem grow_good {s : State} (I : SInv s) {k : Nat} {c : Chunk} (e : s.heap[k]? = some c) (p : 0 < c.rc) {its : List Item} {new : List Nat}
    (a : Alive s.heap new) (g : ∀ x, its.flatten.count x = c.items.flatten.count x + new.count x) :
    Good (do
      let h ← inc s.heap [k]
      let h ← inc (setItems h k its) new
      return s.push h (some k)) := by
  obtain ⟨h, eh, i, sm, le⟩ := inc_ok (Inv.add I [k]) (by intro j m; simp at m; subst m; rw [count_some e]; exact p)
  refine good_ok (P := fun h' => h = h') ⟨h, eh, rfl⟩ ?_
  rintro _ rfl
  have pk : 0 < count h k := by have := le k; rw [count_some e] at this; omega
  obtain ⟨c', e', p', ei⟩ := sm.get e pk
  have J : Inv (setItems h k its) ([k] ++ held s) (new ++ []) := by
    intro x
    have i := i x
    have t := setItems_stored e' p' its x
    have g := g x
    rw [ei] at t
    rw [setItems_count, List.append_nil]
    simp only [List.count_nil] at i
    omega
  obtain ⟨h', eh', i', _⟩ := inc_ok J (by
    intro j m
    rw [setItems_count]
    exact Nat.lt_of_lt_of_le (a j m) (le j))
  refine good_ok (P := fun h'' => h' = h'') ⟨h', eh', rfl⟩ ?_
  rintro _ rfl
  exact push_good (r := some k) i'

theorem append_good {s : State} (I : SInv s) (b : Nat) {new : List Item} (al : Alive s.heap new.flatten) : Good (append s b new) := by
  unfold append
  refine good_bind _ (arr_ok s b) ?_
  intro r e
  refine good_ok (look_ok I e) ?_
  rintro c ⟨⟨ac, hk⟩, hn⟩
  split
  · cases r with
    | none => exact push_good (r := none) I
    | some k =>
      obtain ⟨d, ed, pd, rfl⟩ := hk k rfl
      exact grow_good I ed pd al (by intro x; rw [List.flatten_append, List.count_append])
  · refine fresh_good I ?_
    intro k m
    rw [List.flatten_append, List.mem_append] at m
    rcases m with m | m
    · exact ac k m
    · exact al k m

theorem mem_flatten_get {l : List Item} {j x : Nat} {i : Item} (e : l[j]? = some i) (m : x ∈ i) : x ∈ l.flatten :=
  List.mem_flatten.2 ⟨i, List.mem_of_getElem? e, m⟩

theorem read_ok {s : State} (I : SInv s) (src : Src) : (∃ e, src.read s = .error e ∧ Mistake e) ∨ ∃ x, src.read s = .ok x ∧ Alive s.heap x := by
  cases src with
  | var v =>
    rcases val_ok s v with ⟨e, q, m⟩ | ⟨x, q, m⟩
    · exact Or.inl ⟨e, q, m⟩
    · exact Or.inr ⟨x, q, alive_val I m⟩
  | item b j f =>
    show (∃ e, (arr s b >>= _) = _ ∧ _) ∨ ∃ x, (arr s b >>= _) = _ ∧ _
    rcases arr_ok s b with ⟨e, q, m⟩ | ⟨r, q, m⟩
    · exact Or.inl ⟨e, by rw [q]; rfl, m⟩
    · obtain ⟨c, l, ⟨a, _⟩, _⟩ := look_ok I m
      rw [q]
      simp only [bind, Except.bind, l]
      cases e : c.1[j]? with
      | none => exact Or.inl ⟨.index, rfl, Or.inl rfl⟩
      | some x => exact Or.inr ⟨x, rfl, fun k m => a k (mem_flatten_get e m)⟩

theorem insert_count (l : List Item) (i : Nat) (x : Item) (y : Nat) :
    (l.take i ++ x :: l.drop i).flatten.count y = l.flatten.count y + x.count y := by
  have : l.flatten.count y = (l.take i).flatten.count y + (l.drop i).flatten.count y := by
    rw [← List.count_append, ← List.flatten_append, List.take_append_drop]
  rw [this, List.flatten_append, List.flatten_cons, List.count_append, List.count_append]
  omega

theorem alive_insert {h : Heap} {l : List Item} {x : Item} (a : Alive h l.flatten) (b : Alive h x) (i : Nat) :
    Alive h (l.take i ++ x :: l.drop i).flatten := by
  intro k m
  have := List.count_pos_iff.2 m
  rw [insert_count] at this
  rcases Nat.eq_zero_or_pos (x.count k) with z | z
  · exact a k (List.count_pos_iff.1 (by omega))
  · exact b k (List.count_pos_iff.1 z)

theorem insert_good {s : State} (I : SInv s) (b i : Nat) (src : Src) : Good (insert s b i src) := by
  unfold insert
  refine good_bind _ (arr_ok s b) ?_
  intro r e
  refine good_ok (look_ok I e) ?_
  rintro c ⟨⟨ac, hk⟩, hn⟩
  refine good_bind _ (read_ok I src) ?_
  intro x ax
  dsimp only
  split
  · exact Or.inl rfl
  split
  · cases r with
    | none => exact Or.inr (Or.inl rfl)
    | some k =>
      obtain ⟨d, ed, pd, rfl⟩ := hk k rfl
      have am : Alive s.heap (src.moved s k i d.items x) := by
        unfold Src.moved
        split
        · rename_i b j
          split
          · cases q : d.items[j - 1]? with
            | none => exact ax
            | some y => exact fun z m => ac z (mem_flatten_get q m)
          · exact ax
        · exact ax
      exact grow_good I ed pd am (insert_count _ _ _)
  · exact fresh_good I (alive_insert ac ax i)

theorem erase_count {l : List Item} {i : Nat} {x : Item} (e : l[i]? = some x) (y : Nat) :
    (l.eraseIdx i).flatten.count y + x.count y = l.flatten.count y := by
  induction l generalizing i with
  | nil => simp at e
  | cons a l ih =>
    cases i with
    | zero => simp at e; subst e; simp; omega
    | succ i =>
      simp at e
      have := ih e
      simp only [List.eraseIdx_cons_succ, List.flatten_cons, List.count_append]
      omega

theorem set_count {l : List Item} {i : Nat} {x : Item} (e : l[i]? = some x) (z : Item) (y : Nat) :
    (l.set i z).flatten.count y + x.count y = l.flatten.count y + z.count y := by
  induction l generalizing i with
  | nil => simp at e
  | cons a l ih =>
    cases i with
    | zero => simp at e; subst e; simp; omega
    | succ i =>
      simp at e
      have := ih e
      simp only [List.set_cons_succ, List.flatten_cons, List.count_append]
      omega

theorem delete_good {s : State} (I : SInv s) (b i : Nat) : Good (delete s b i) := by
  unfold delete
  refine good_bind _ (arr_ok s b) ?_
  intro r e
  cases r with
  | none => exact Or.inr (Or.inl rfl)
  | some k =>
    refine good_ok (look_ok I e) ?_
    rintro c ⟨⟨ac, hk⟩, hn⟩
    obtain ⟨d, ed, pd, rfl⟩ := hk k rfl
    simp only []
    cases ex : d.items[i]? with
    | none => exact Or.inl rfl
    | some x =>
      obtain ⟨h, eh, j, sm, le⟩ := inc_ok (Inv.add I [k]) (by intro j m; simp at m; subst m; rw [count_some ed]; exact pd)
      refine good_ok (P := fun h' => h = h') ⟨h, eh, rfl⟩ ?_
      rintro _ rfl
      have pk : 0 < count h k := by have := le k; rw [count_some ed] at this; omega
      obtain ⟨c', e', p', ei⟩ := sm.get ed pk
      have J : Inv (setItems h k (d.items.eraseIdx i)) (x ++ ([k] ++ held s)) [] := by
        intro y
        have i1 := j y
        have t := setItems_stored e' p' (d.items.eraseIdx i) y
        have g := erase_count ex y
        rw [ei] at t
        rw [setItems_count, List.count_append]
        simp only [List.count_nil] at i1 ⊢
        omega
      obtain ⟨h', eh', i', _⟩ := release_setItems J (by simp)
      refine good_ok (P := fun h'' => h' = h'') ⟨h', eh', rfl⟩ ?_
      rintro _ rfl
      exact push_good (r := some k) i'

theorem slice_good {s : State} (I : SInv s) (a i j : Nat) : Good (slice s a i j) := by
  unfold slice
  refine good_bind _ (arr_ok s a) ?_
  intro r e
  refine good_ok (look_ok I e) ?_
  rintro c ⟨⟨ac, hk⟩, hn⟩
  dsimp only
  split
  · exact Or.inl rfl
  refine fresh_good I ?_
  intro k m
  obtain ⟨x, mx, mk⟩ := List.mem_flatten.1 m
  exact ac k (List.mem_flatten.2 ⟨x, List.mem_of_mem_drop (List.mem_of_mem_take mx), mk⟩)

theorem copy_good {s : State} (I : SInv s) (a : Nat) : Good (copy s a) := by
  unfold copy
  refine good_bind _ (arr_ok s a) ?_
  intro r e
  cases r with
  | none => exact push_good (r := none) I
  | some k =>
    refine good_ok (look_ok I e) ?_
    rintro c ⟨⟨ac, _⟩, _⟩
    exact fresh_good I ac

theorem arrs_set_count {l : List (Option Nat)} {d : Nat} {o : Option Nat} (e : l[d]? = some o) (r : Option Nat) (y : Nat) :
    ((l.set d r).filterMap id).count y + o.toList.count y = (l.filterMap id).count y + r.toList.count y := by
  have c : ∀ (a : Option Nat) (l : List (Option Nat)), ((a :: l).filterMap id).count y = a.toList.count y + (l.filterMap id).count y := by
    intro a l
    cases a with
    | none => simp
    | some z => rw [← List.count_append]; rfl
  induction l generalizing d with
  | nil => simp at e
  | cons a l ih =>
    cases d with
    | zero => simp at e; subst e; rw [List.set_cons_zero, c, c]; omega
    | succ d =>
      simp at e
      have := ih e
      rw [List.set_cons_succ, c, c]
      omega

theorem replace_good {s : State} (I : SInv s) {new old : List Nat} (al : Alive s.heap new) {f : Heap → State}
    (hf : ∀ h, (f h).heap = h ∧ ∀ y, (held (f h)).count y + old.count y = (held s).count y + new.count y) :
    Good (do
      let h ← inc s.heap new
      let h ← release h old
      return f h) := by
  obtain ⟨h, eh, i, sm, le⟩ := inc_ok (Inv.add I new) al
  refine good_ok (P := fun h' => h = h') ⟨h, eh, rfl⟩ ?_
  rintro _ rfl
  have J : Inv h (old ++ held (f h)) [] := by
    intro y
    have a := i y
    have b := (hf h).2 y
    rw [List.count_append] at a ⊢
    omega
  obtain ⟨h', eh', i', _⟩ := release_ok J
  refine good_ok (P := fun h'' => h' = h'') ⟨h', eh', rfl⟩ ?_
  rintro _ rfl
  intro y
  have a := i' y
  have b := (hf h').2 y
  have c := (hf h).2 y
  rw [(hf h').1]
  omega

theorem assign_good {s : State} (I : SInv s) (d a : Nat) : Good (assign s d a) := by
  unfold assign
  refine good_bind _ (arr_ok s a) ?_
  intro r e
  refine good_bind _ (arr_ok s d) ?_
  intro o eo
  refine replace_good I (alive_arr I e) (f := fun h => { s with heap := h, arrs := s.arrs.set d r }) ?_
  intro h
  refine ⟨rfl, fun y => ?_⟩
  have := arrs_set_count eo r y
  unfold held
  rw [List.count_append, List.count_append]
  simp only []
  omega

theorem clear_good {s : State} (I : SInv s) (d : Nat) : Good (clear s d) := by
  unfold clear
  refine good_bind _ (arr_ok s d) ?_
  intro o eo
  have := replace_good I (new := []) (old := o.toList) (by intro k m; simp at m)
    (f := fun h => { s with heap := h, arrs := s.arrs.set d none }) (by
      intro h
      refine ⟨rfl, fun y => ?_⟩
      have := arrs_set_count eo none y
      unfold held
      rw [List.count_append, List.count_append]
      simp only [] at this ⊢
      simp at this ⊢
      omega)
  exact this

theorem setVal_good {s : State} (I : SInv s) (v : Nat) {x : Item} (al : Alive s.heap x) : Good (setVal s v x) := by
  unfold setVal
  refine good_bind _ (val_ok s v) ?_
  intro o eo
  refine replace_good I al (f := fun h => { s with heap := h, vals := s.vals.set v x }) ?_
  intro h
  refine ⟨rfl, fun y => ?_⟩
  have := set_count eo x y
  unfold held
  rw [List.count_append, List.count_append]
  simp only []
  omega

theorem put_good {s : State} (I : SInv s) (a i v : Nat) : Good (put s a i v) := by
  unfold put
  refine good_bind _ (arr_ok s a) ?_
  intro r e
  refine good_ok (look_ok I e) ?_
  rintro c ⟨⟨ac, hk⟩, hn⟩
  refine good_bind _ (val_ok s v) ?_
  intro x ex
  split
  · rename_i k old eo
    obtain ⟨d, ed, pd, rfl⟩ := hk _ rfl
    have mk : k ∈ held s := held_arr e
    obtain ⟨h, eh, j, sm, le⟩ := inc_ok (Inv.add I x) (alive_val I ex)
    refine good_ok (P := fun h' => h = h') ⟨h, eh, rfl⟩ ?_
    rintro _ rfl
    have pk : 0 < count h k := by have := le k; rw [count_some ed] at this; omega
    obtain ⟨c', e', p', ei⟩ := sm.get ed pk
    have J : Inv (setItems h k (d.items.set i x)) (old ++ held s) [] := by
      intro y
      have i1 := j y
      have t := setItems_stored e' p' (d.items.set i x) y
      have g := set_count (l := d.items) eo x y
      rw [ei] at t
      rw [setItems_count, List.count_append]
      rw [List.count_append] at i1
      simp only [List.count_nil] at i1 ⊢
      omega
    obtain ⟨h', eh', i', _⟩ := release_setItems J mk
    refine good_ok (P := fun h'' => h' = h'') ⟨h', eh', rfl⟩ ?_
    rintro _ rfl
    exact i'
  · exact Or.inl rfl

theorem refs_ok {s : State} (I : SInv s) : ∀ as : List Nat, (∃ e, refs s as = .error e ∧ Mistake e) ∨ ∃ x, refs s as = .ok x ∧ Alive s.heap x
  | [] => Or.inr ⟨[], rfl, by intro k m; simp at m⟩
  | a :: as => by
    unfold refs
    rcases arr_ok s a with ⟨e, q, m⟩ | ⟨r, q, m⟩
    · exact Or.inl ⟨e, by rw [q]; rfl, m⟩
    · rcases refs_ok I as with ⟨e, q', m'⟩ | ⟨x, q', m'⟩
      · exact Or.inl ⟨e, by rw [q, q']; rfl, m'⟩
      · refine Or.inr ⟨_, by rw [q, q']; rfl, ?_⟩
        intro k mk
        rcases List.mem_append.1 mk with mk | mk
        · exact alive_arr I m k mk
        · exact m' k mk

theorem items_ok {s : State} (I : SInv s) : ∀ vs : List Nat,
    (∃ e, items s vs = .error e ∧ Mistake e) ∨ ∃ x, items s vs = .ok x ∧ Alive s.heap x.flatten
  | [] => Or.inr ⟨[], rfl, by intro k m; simp at m⟩
  | a :: as => by
    unfold items
    rcases val_ok s a with ⟨e, q, m⟩ | ⟨r, q, m⟩
    · exact Or.inl ⟨e, by rw [q]; rfl, m⟩
    · rcases items_ok I as with ⟨e, q', m'⟩ | ⟨x, q', m'⟩
      · exact Or.inl ⟨e, by rw [q, q']; rfl, m'⟩
      · refine Or.inr ⟨_, by rw [q, q']; rfl, ?_⟩
        intro k mk
        rw [List.flatten_cons] at mk
        rcases List.mem_append.1 mk with mk | mk
        · exact alive_val I m k mk
        · exact m' k mk

theorem exec_good {s : State} (I : SInv s) (o : Op) : Good (exec s o) := by
  cases o with
  | declare =>
    exact push_good (r := none) I
  | declareItem =>
    intro x
    have := I x
    unfold held at this ⊢
    simpa using this
  | make len =>
    refine fresh_good I ?_
    intro k m
    obtain ⟨x, mx, mk⟩ := List.mem_flatten.1 m
    rw [List.eq_of_mem_replicate mx] at mk
    simp at mk
  | literal vs => exact good_bind _ (items_ok I vs) (fun x a => fresh_good I a)
  | copy a => exact copy_good I a
  | append a src =>
    refine good_bind _ (read_ok I src) (fun x ax => append_good I a ?_)
    simpa using ax
  | appendAll a b =>
    refine good_bind _ (arr_ok s b) ?_
    intro r e
    refine good_ok (look_ok I e) ?_
    rintro c ⟨⟨ac, _⟩, _⟩
    exact append_good I a ac
  | insert a i src => exact insert_good I a i src
  | delete a i => exact delete_good I a i
  | slice a i j => exact slice_good I a i j
  | assign d a => exact assign_good I d a
  | clear d => exact clear_good I d
  | get v a i => exact good_bind _ (read_ok I (.item a i true)) (fun x ax => setVal_good I v ax)
  | put a i v => exact put_good I a i v
  | pack v as => exact good_bind _ (refs_ok I as) (fun x ax => setVal_good I v ax)
  | unpack v n =>
    refine good_bind _ (val_ok s v) ?_
    intro x ex
    cases q : x[n]? with
    | none => exact push_good (r := none) I
    | some k =>
      have mk : k ∈ x := List.mem_of_getElem? q
      obtain ⟨h, eh, j, _⟩ := inc_ok (Inv.add I [k]) (by intro j m; simp at m; subst m; exact alive_val I ex _ mk)
      refine good_ok (P := fun h' => h = h') ⟨h, eh, rfl⟩ ?_
      rintro _ rfl
      exact push_good (r := some k) j

theorem run_good : ∀ (os : List Op) {s : State} (_ : SInv s), Good (run s os)
  | [], s, I => I
  | o :: os, s, I => by
    unfold run
    have g := exec_good I o
    cases e : exec s o with
    | error x => rw [e] at g; exact g
    | ok s' => rw [e] at g; exact run_good os g

theorem init_inv : SInv init := by intro x; simp [init, held, stored, count]

end Umka.ArrRef
