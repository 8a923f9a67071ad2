import Verif.Map.Spec

/-! # Maps: helper lemmas -/

namespace Umka.Map

variable {K V : Type}

/-- In-order contents of a subtree. -/
def Tree.toList : Tree K V → List (K × V)
  | .nil => []
  | .node l k _ v r => l.toList ++ (k, v) :: r.toList

/-- Contents to the left of a slot. -/
def leftOf : List (Frame K V) → List (K × V)
  | [] => []
  | .inLeft _ _ _ _ :: path => leftOf path
  | .inRight l k _ v :: path => leftOf path ++ (l.toList ++ [(k, v)])

/-- Contents to the right of a slot. -/
def rightOf : List (Frame K V) → List (K × V)
  | [] => []
  | .inLeft k _ v r :: path => (k, v) :: r.toList ++ rightOf path
  | .inRight _ _ _ _ :: path => rightOf path

theorem toList_plug (path : List (Frame K V)) (t : Tree K V) :
    (plug path t).toList = leftOf path ++ t.toList ++ rightOf path := by
  induction path generalizing t with
  | nil => simp [plug, leftOf, rightOf]
  | cons f path ih =>
    cases f <;> simp [plug, leftOf, rightOf, ih, Tree.toList]

theorem keys_eq (t : Tree K V) : t.keys = t.toList.map Prod.fst := by
  induction t with
  | nil => rfl
  | node l k p v r ihl ihr => simp [Tree.keys, Tree.toList, ihl, ihr]

/-- `cmp`-ascending contents. -/
def Asc (cmp : K → K → Int) (l : List (K × V)) : Prop :=
  l.Pairwise (fun a b => cmp a.1 b.1 < 0)

/-- The invariant of the search loop: the slot is the only place where `key` can be. -/
def SlotFor (cmp : K → K → Int) (key : K) (s : List (Frame K V) × Tree K V) : Prop :=
  (∀ e ∈ leftOf s.1, cmp e.1 key < 0) ∧ (∀ e ∈ rightOf s.1, cmp key e.1 < 0)

/-- Loop exit: the slot is empty or holds the node with the key. -/
def Found (key : K) : Tree K V → Prop
  | .nil => True
  | .node _ k _ _ _ => k = key

theorem getNode_spec {cmp : K → K → Int} (hc : Spec.Lawful cmp) (key : K)
    (path : List (Frame K V)) (t : Tree K V)
    (hs : SlotFor cmp key (path, t))
    (ha : Asc cmp (leftOf path ++ t.toList ++ rightOf path)) :
    let s := getNode cmp key path t
    leftOf s.1 ++ s.2.toList ++ rightOf s.1 = leftOf path ++ t.toList ++ rightOf path ∧
      SlotFor cmp key s ∧ Found key s.2 := by
  fun_induction getNode cmp key path t with
  | case1 path => exact ⟨rfl, hs, trivial⟩
  | case2 path l k p v hgt =>
    refine ⟨by simp [leftOf, rightOf, Tree.toList], ⟨?_, ?_⟩, trivial⟩
    · intro e he
      simp only [leftOf, List.mem_append, List.mem_singleton] at he
      have hk := (hc.swap k key).2 hgt
      rcases he with he | he | he
      · exact hs.1 e he
      · have : cmp e.1 k < 0 := by
          simp only [Asc, Tree.toList, List.pairwise_append, List.pairwise_cons, List.mem_append,
            List.mem_cons] at ha
          exact ha.1.2.1.2.2 _ he _ (Or.inl rfl)
        exact hc.trans _ _ _ this hk
      · subst he; exact hk
    · exact hs.2
  | case3 path l k p v hgt rl rk rp rv rr hrot ih =>
    have e : leftOf path ++ (Tree.node (Tree.node l k p v rl) rk rp rv rr).toList ++ rightOf path =
        leftOf path ++ (Tree.node l k p v (Tree.node rl rk rp rv rr)).toList ++ rightOf path := by
      simp [Tree.toList]
    have := ih hs (by rw [e]; exact ha)
    rw [e] at this
    exact this
  | case4 path l k p v hgt rl rk rp rv rr hrot ih =>
    have e : leftOf (.inRight l k p v :: path) ++ (Tree.node rl rk rp rv rr).toList ++
        rightOf (.inRight l k p v :: path) =
        leftOf path ++ (Tree.node l k p v (Tree.node rl rk rp rv rr)).toList ++ rightOf path := by
      simp [Tree.toList, leftOf, rightOf]
    rw [← e] at ha ⊢
    refine ih ⟨?_, hs.2⟩ ha
    intro e he
    simp only [leftOf, List.mem_append, List.mem_singleton] at he
    have hk := (hc.swap k key).2 hgt
    rcases he with he | he | he
    · exact hs.1 e he
    · have : cmp e.1 k < 0 := by
        simp only [Asc, leftOf, List.pairwise_append, List.mem_append, List.mem_singleton] at ha
        exact ha.1.1.2.1.2.2 _ he _ rfl
      exact hc.trans _ _ _ this hk
    · subst he; exact hk
  | case5 path k p v r hgt hlt =>
    refine ⟨by simp [leftOf, rightOf, Tree.toList], ⟨hs.1, ?_⟩, trivial⟩
    intro e he
    simp only [rightOf, List.mem_append, List.mem_cons, List.cons_append] at he
    rcases he with he | he | he
    · subst he; exact hlt
    · have : cmp k e.1 < 0 := by
        simp only [Asc, Tree.toList, List.nil_append, List.pairwise_append, List.pairwise_cons] at ha
        exact ha.1.2.1.1 _ he
      exact hc.trans _ _ _ hlt this
    · exact hs.2 e he
  | case6 path k p v r hgt hlt ll lk lp lv lr hrot ih =>
    have e : leftOf path ++ (Tree.node ll lk lp lv (Tree.node lr k p v r)).toList ++ rightOf path =
        leftOf path ++ (Tree.node (Tree.node ll lk lp lv lr) k p v r).toList ++ rightOf path := by
      simp [Tree.toList]
    have := ih hs (by rw [e]; exact ha)
    rw [e] at this
    exact this
  | case7 path k p v r hgt hlt ll lk lp lv lr hrot ih =>
    have e : leftOf (.inLeft k p v r :: path) ++ (Tree.node ll lk lp lv lr).toList ++
        rightOf (.inLeft k p v r :: path) =
        leftOf path ++ (Tree.node (Tree.node ll lk lp lv lr) k p v r).toList ++ rightOf path := by
      simp [Tree.toList, leftOf, rightOf]
    rw [← e] at ha ⊢
    refine ih ⟨hs.1, ?_⟩ ha
    intro e he
    simp only [rightOf, List.mem_append, List.mem_cons, List.cons_append] at he
    rcases he with he | he | he
    · subst he; exact hlt
    · have : cmp k e.1 < 0 := by
        simp only [Asc, rightOf, List.cons_append, List.pairwise_append, List.pairwise_cons] at ha
        exact ha.2.1.1 _ (List.mem_append_left _ he)
      exact hc.trans _ _ _ hlt this
    · exact hs.2 e he
  | case8 path l k p v r hgt hlt =>
    refine ⟨rfl, hs, ?_⟩
    have : cmp key k = 0 := by omega
    exact ((hc.eq_iff _ _).1 this).symm

theorem unlinkMin_spec (t : Tree K V) :
    match unlinkMin t with
    | none => t = .nil
    | some ((k, _, v), t') => t.toList = (k, v) :: t'.toList := by
  induction t with
  | nil => rfl
  | node l k p v r ihl _ =>
    simp only [unlinkMin]
    cases h : unlinkMin l with
    | none => rw [h] at ihl; simp only at ihl; subst ihl; simp [Tree.toList]
    | some x =>
      obtain ⟨⟨k', p', v'⟩, l'⟩ := x
      rw [h] at ihl
      simp only at ihl ⊢
      simp [Tree.toList, ihl]

theorem removeRoot_spec (l : Tree K V) (k : K) (p : Int) (v : V) (r : Tree K V) :
    (removeRoot (.node l k p v r)).toList = l.toList ++ r.toList := by
  cases l with
  | nil => cases r <;> simp [removeRoot, Tree.toList]
  | node ll lk lp lv lr =>
    cases r with
    | nil => simp [removeRoot, Tree.toList]
    | node rl rk rp rv rr =>
      simp only [removeRoot]
      have := unlinkMin_spec (.node rl rk rp rv rr)
      cases h : unlinkMin (Tree.node rl rk rp rv rr) with
      | none => rw [h] at this; simp at this
      | some x =>
        obtain ⟨⟨k', p', v'⟩, t'⟩ := x
        rw [h] at this
        simp only at this ⊢
        simp only [Tree.toList] at this ⊢
        rw [this]

/-- The tree `r` represents the ideal map `m`. -/
def Rep (l : List (K × V)) (m : K → Option V) : Prop :=
  ∀ k v, (k, v) ∈ l ↔ m k = some v

theorem asc_not_mem {cmp : K → K → Int} (hc : Spec.Lawful cmp) {l r : List (K × V)} {k : K}
    (hl : ∀ e ∈ l, cmp e.1 k < 0) (hr : ∀ e ∈ r, cmp k e.1 < 0) (v : V) :
    (k, v) ∉ l ∧ (k, v) ∉ r := by
  have h0 := (hc.eq_iff k k).2 rfl
  constructor
  · intro h; have := hl _ h; simp only at this; omega
  · intro h; have := hr _ h; simp only at this; omega

end Umka.Map

namespace Umka.Map

variable {K V : Type}

/-- Simulation between the model state and the ideal map. -/
def Sim (cmp : K → K → Int) : MapVal K V → Spec.State K V → Prop
  | none, s => s.init = false ∧ ∀ k, s.item k = none
  | some root, s => s.init = true ∧ Asc cmp root.right.toList ∧ Rep root.right.toList s.item ∧
      root.len = root.right.toList.length

theorem rep_enumerates {cmp : K → K → Int} {l : List (K × V)} {m : K → Option V}
    (ha : Asc cmp l) (hr : Rep l m) : Spec.Enumerates cmp m (l.map Prod.fst) := by
  refine ⟨?_, ?_⟩
  · simpa [Asc, List.pairwise_map] using ha
  · intro k
    rw [Option.isSome_iff_exists, List.mem_map]
    constructor
    · rintro ⟨⟨k', v⟩, h, rfl⟩; exact ⟨v, (hr k' v).1 h⟩
    · rintro ⟨v, h⟩; exact ⟨(k, v), (hr k v).2 h, rfl⟩

open Classical in
/-- The ideal map with `k` bound to `v`. -/
noncomputable def bind (m : K → Option V) (k : K) (v : V) : K → Option V :=
  fun k' => if k' = k then some v else m k'

open Classical in
/-- The ideal map without `k`. -/
noncomputable def unbind (m : K → Option V) (k : K) : K → Option V :=
  fun k' => if k' = k then none else m k'

theorem bind_binds (m : K → Option V) (k : K) (v : V) : Spec.Binds m k v (bind m k v) := by
  constructor
  · simp [bind]
  · intro k' h; simp [bind, h]

theorem unbind_unbinds (m : K → Option V) (k : K) : Spec.Unbinds m k (unbind m k) := by
  constructor
  · simp [unbind]
  · intro k' h; simp [unbind, h]

/-- Replacing whatever is at the slot by an entry for `k` binds `k`. -/
theorem rep_bind {cmp : K → K → Int} (hc : Spec.Lawful cmp) {l mid r : List (K × V)} {k : K} {v : V}
    {m : K → Option V} (hl : ∀ e ∈ l, cmp e.1 k < 0) (hr : ∀ e ∈ r, cmp k e.1 < 0)
    (hm : ∀ e ∈ mid, e.1 = k) (h : Rep (l ++ mid ++ r) m) :
    Rep (l ++ (k, v) :: r) (bind m k v) := by
  intro k' v'
  have hn := fun v => asc_not_mem hc hl hr v
  by_cases hk : k' = k
  · subst hk
    simp only [bind, if_true, List.mem_append, List.mem_cons, Prod.mk.injEq, true_and,
      Option.some.injEq]
    constructor
    · rintro (h1 | h1 | h1)
      · exact absurd h1 (hn _).1
      · exact h1.symm
      · exact absurd h1 (hn _).2
    · intro h1; exact Or.inr (Or.inl h1.symm)
  · simp only [bind, List.mem_append, List.mem_cons, Prod.mk.injEq, hk, false_and, if_false,
      false_or]
    rw [← h k' v']
    simp only [List.mem_append]
    constructor
    · rintro (h1 | h1)
      · exact Or.inl (Or.inl h1)
      · exact Or.inr h1
    · rintro ((h1 | h1) | h1)
      · exact Or.inl h1
      · exact absurd (hm _ h1) hk
      · exact Or.inr h1

/-- Removing whatever is at the slot unbinds `k`. -/
theorem rep_unbind {cmp : K → K → Int} (hc : Spec.Lawful cmp) {l mid r : List (K × V)} {k : K}
    {m : K → Option V} (hl : ∀ e ∈ l, cmp e.1 k < 0) (hr : ∀ e ∈ r, cmp k e.1 < 0)
    (hm : ∀ e ∈ mid, e.1 = k) (h : Rep (l ++ mid ++ r) m) :
    Rep (l ++ r) (unbind m k) := by
  intro k' v'
  have hn := fun v => asc_not_mem hc hl hr v
  by_cases hk : k' = k
  · subst hk
    simp only [unbind, if_true, List.mem_append, reduceCtorEq, iff_false, not_or]
    exact hn v'
  · simp only [unbind, if_neg hk, List.mem_append]
    rw [← h k' v']
    simp only [List.mem_append]
    constructor
    · rintro (h1 | h1)
      · exact Or.inl (Or.inl h1)
      · exact Or.inr h1
    · rintro ((h1 | h1) | h1)
      · exact Or.inl h1
      · exact absurd (hm _ h1) hk
      · exact Or.inr h1

theorem asc_insert {cmp : K → K → Int} {l mid r : List (K × V)} {k : K} {v : V} (hc : Spec.Lawful cmp)
    (hl : ∀ e ∈ l, cmp e.1 k < 0) (hr : ∀ e ∈ r, cmp k e.1 < 0)
    (ha : Asc cmp (l ++ mid ++ r)) : Asc cmp (l ++ (k, v) :: r) := by
  simp only [Asc, List.pairwise_append, List.pairwise_cons, List.mem_append, List.mem_cons] at ha ⊢
  refine ⟨ha.1.1, ⟨hr, ha.2.1⟩, ?_⟩
  rintro a h1 b (h2 | h2)
  · subst h2; exact hl a h1
  · exact hc.trans _ _ _ (hl a h1) (hr b h2)

theorem asc_remove {cmp : K → K → Int} {l mid r : List (K × V)}
    (ha : Asc cmp (l ++ mid ++ r)) : Asc cmp (l ++ r) := by
  simp only [Asc, List.pairwise_append, List.mem_append] at ha ⊢
  exact ⟨ha.1.1, ha.2.1, fun a h1 b h2 => ha.2.2 a (Or.inl h1) b h2⟩

/-- The children of the found node lie on either side of the key. -/
theorem slot_children {cmp : K → K → Int} {pl pr : List (K × V)} {l r : Tree K V} {k : K} {v : V}
    (hl : ∀ e ∈ pl, cmp e.1 k < 0) (hr : ∀ e ∈ pr, cmp k e.1 < 0)
    (ha : Asc cmp (pl ++ (l.toList ++ (k, v) :: r.toList) ++ pr)) :
    (∀ e ∈ pl ++ l.toList, cmp e.1 k < 0) ∧ (∀ e ∈ r.toList ++ pr, cmp k e.1 < 0) := by
  simp only [Asc, List.pairwise_append, List.pairwise_cons, List.mem_append, List.mem_cons] at ha
  constructor
  · intro e he
    rcases List.mem_append.1 he with h | h
    · exact hl e h
    · exact ha.1.2.1.2.2 e h _ (Or.inl rfl)
  · intro e he
    rcases List.mem_append.1 he with h | h
    · exact ha.1.2.1.2.1.1 e h
    · exact hr e h

/-- Everything the operations need to know about a search from the top. -/
theorem getNode_top {cmp : K → K → Int} (hc : Spec.Lawful cmp) (key : K) (t : Tree K V)
    (ha : Asc cmp t.toList) :
    ∃ path t', getNode cmp key [] t = (path, t') ∧
      leftOf path ++ t'.toList ++ rightOf path = t.toList ∧
      (∀ e ∈ leftOf path, cmp e.1 key < 0) ∧ (∀ e ∈ rightOf path, cmp key e.1 < 0) ∧
      Found key t' := by
  have h := getNode_spec hc key [] t ⟨by simp [leftOf], by simp [rightOf]⟩
    (by simpa [leftOf, rightOf] using ha)
  refine ⟨_, _, rfl, ?_, h.2.1.1, h.2.1.2, h.2.2⟩
  simpa [leftOf, rightOf] using h.1

theorem mapPtr_sim {cmp : K → K → Int} (hc : Spec.Lawful cmp) (zero : V) (m : MapVal K V)
    (s : Spec.State K V) (hs : Sim cmp m s) (k : K) (prio : Int) (store : Option V) :
    (mapPtr cmp zero m k prio store).2 = (s.item k).getD zero ∧
    Sim cmp (mapPtr cmp zero m k prio store).1
      ⟨true, bind s.item k (store.getD ((s.item k).getD zero))⟩ := by
  -- an uninitialised map behaves like a fresh empty one
  have hroot : Asc cmp (m.getD { len := 0, right := .nil }).right.toList ∧
      Rep (m.getD { len := 0, right := .nil }).right.toList s.item ∧
      (m.getD { len := 0, right := .nil }).len =
        (m.getD { len := 0, right := .nil }).right.toList.length := by
    cases m with
    | none =>
      refine ⟨by simp [Tree.toList, Asc], ?_, by simp [Tree.toList]⟩
      intro k v; simp [Tree.toList, hs.2 k]
    | some root => exact hs.2
  simp only [mapPtr]
  generalize m.getD { len := 0, right := .nil } = root at hroot
  obtain ⟨ha, hr, hn⟩ := hroot
  obtain ⟨path, t', hg, hcont, hl, hrr, hf⟩ := getNode_top hc k root.right ha
  rw [hg]
  rw [← hcont] at ha hr hn
  cases t' with
  | nil =>
    simp only [Tree.toList, List.append_nil] at ha hr hn
    have hnone : s.item k = none := by
      cases hv : s.item k with
      | none => rfl
      | some v =>
        have := (hr k v).2 hv
        have hn := asc_not_mem hc hl hrr v
        simp only [List.mem_append] at this
        rcases this with h | h
        · exact absurd h hn.1
        · exact absurd h hn.2
    refine ⟨by simp [hnone], rfl, ?_, ?_, ?_⟩
    · simp only [toList_plug, Tree.toList, List.nil_append, List.append_assoc, List.cons_append]
      exact asc_insert (mid := []) hc hl hrr (by simpa using ha)
    · simp only [toList_plug, Tree.toList, List.nil_append, List.append_assoc, List.cons_append, hnone,
        Option.getD_none]
      exact rep_bind (mid := []) hc hl hrr (by simp) (by simpa using hr)
    · simp only [toList_plug, Tree.toList, List.nil_append, List.append_assoc, List.cons_append,
        List.length_append, List.length_cons] at hn ⊢
      omega
  | node l k' p v r =>
    have hk : k' = k := hf
    subst hk
    simp only [Tree.toList] at ha hr hn
    obtain ⟨hl2, hr2⟩ := slot_children hl hrr ha
    have hsome : s.item k' = some v := (hr k' v).1 (by simp)
    refine ⟨by simp [hsome], rfl, ?_, ?_, ?_⟩
    · have := asc_insert (mid := [(k', v)]) (v := store.getD v) hc hl2 hr2 (by simpa using ha)
      simpa [toList_plug, Tree.toList] using this
    · have := rep_bind (mid := [(k', v)]) (v := store.getD v) hc hl2 hr2 (by simp) (by simpa using hr)
      simpa [toList_plug, Tree.toList, hsome] using this
    · simp only [toList_plug, Tree.toList, List.length_append, List.length_cons] at hn ⊢
      exact hn

theorem step_sim {cmp : K → K → Int} (hc : Spec.Lawful cmp) (zero : V) (m : MapVal K V)
    (s : Spec.State K V) (hs : Sim cmp m s) (op : Op K V) :
    ∃ s', Spec.Step cmp zero s op (step cmp zero m op).2 s' ∧ Sim cmp (step cmp zero m op).1 s' := by
  cases op with
  | make =>
    refine ⟨⟨true, fun _ => none⟩, ⟨rfl, rfl, fun _ => rfl⟩, rfl, by simp [Tree.toList, Asc], ?_,
      by simp [Tree.toList]⟩
    intro k v; simp [Tree.toList]
  | set k v prio =>
    have h := mapPtr_sim hc zero m s hs k prio (some v)
    exact ⟨_, ⟨rfl, rfl, bind_binds _ _ _⟩, h.2⟩
  | get k prio =>
    have h := mapPtr_sim hc zero m s hs k prio none
    refine ⟨_, ⟨?_, rfl, ?_⟩, h.2⟩
    · simp only [step, h.1]
    · exact bind_binds _ _ _
  | del k =>
    cases m with
    | none =>
      have h0 : s.init = false := hs.1
      refine ⟨s, ?_, hs⟩
      simp [Spec.Step, h0, step]
    | some root =>
      obtain ⟨hi, ha, hr, hn⟩ := hs
      obtain ⟨path, t', hg, hcont, hl, hrr, hf⟩ := getNode_top hc k root.right ha
      rw [← hcont] at ha hr hn
      simp only [step, hg]
      refine ⟨⟨true, unbind s.item k⟩, ?_, ?_⟩
      · simp only [Spec.Step, hi, if_true]
        refine ⟨?_, trivial, unbind_unbinds _ _⟩
        cases t' with
        | nil => rfl
        | node l k' p v r =>
          simp only
          rw [if_neg]
          simp only [Tree.toList, List.length_append, List.length_cons] at hn
          omega
      · cases t' with
        | nil =>
          simp only [Tree.toList, List.append_nil] at ha hr hn
          refine ⟨rfl, by simpa [toList_plug, Tree.toList] using ha, ?_,
            by simpa [toList_plug, Tree.toList] using hn⟩
          have := rep_unbind (mid := []) hc hl hrr (by simp) (by simpa using hr)
          simpa [toList_plug, Tree.toList] using this
        | node l k' p v r =>
          have hk : k' = k := hf
          subst hk
          simp only [Tree.toList] at ha hr hn
          obtain ⟨hl2, hr2⟩ := slot_children hl hrr ha
          refine ⟨rfl, ?_, ?_, ?_⟩
          · simp only [toList_plug, removeRoot_spec]
            have := asc_remove (mid := [(k', v)]) (l := leftOf path ++ l.toList)
              (r := r.toList ++ rightOf path) (by simpa using ha)
            simpa using this
          · simp only [toList_plug, removeRoot_spec]
            have := rep_unbind (mid := [(k', v)]) hc hl2 hr2 (by simp) (by simpa using hr)
            simpa using this
          · simp only [toList_plug, removeRoot_spec, List.length_append, List.length_cons] at hn ⊢
            omega
  | validKey k =>
    cases m with
    | none =>
      refine ⟨s, ?_, hs⟩
      simp [Spec.Step, step, hs.2 k]
    | some root =>
      obtain ⟨hi, ha, hr, hn⟩ := hs
      obtain ⟨path, t', hg, hcont, hl, hrr, hf⟩ := getNode_top hc k root.right ha
      have hc2 : (plug path t').toList = root.right.toList := by rw [toList_plug, hcont]
      simp only [step, hg]
      refine ⟨s, ?_, ?_⟩
      · simp only [Spec.Step, and_true]
        rw [← hcont] at hr
        cases t' with
        | nil =>
          have hnone : s.item k = none := by
            cases hv : s.item k with
            | none => rfl
            | some v =>
              have := (hr k v).2 hv
              have hn := asc_not_mem hc hl hrr v
              simp only [Tree.toList, List.append_nil, List.mem_append] at this
              rcases this with h | h
              · exact absurd h hn.1
              · exact absurd h hn.2
          simp [hnone]
        | node l k' p v r =>
          have hk : k' = k := hf
          subst hk
          have hsome : s.item k' = some v := (hr k' v).1 (by simp [Tree.toList])
          simp [hsome]
      · cases t' <;> exact ⟨hi, by rw [hc2]; exact ha, by rw [hc2]; exact hr, by rw [hc2]; exact hn⟩
  | hostGet k =>
    cases m with
    | none =>
      refine ⟨s, ?_, hs⟩
      simp [Spec.Step, step, hs.2 k]
    | some root =>
      obtain ⟨hi, ha, hr, hn⟩ := hs
      obtain ⟨path, t', hg, hcont, hl, hrr, hf⟩ := getNode_top hc k root.right ha
      have hc2 : (plug path t').toList = root.right.toList := by rw [toList_plug, hcont]
      simp only [step, hg]
      refine ⟨s, ?_, ?_⟩
      · simp only [Spec.Step, and_true]
        rw [← hcont] at hr
        cases t' with
        | nil =>
          have hnone : s.item k = none := by
            cases hv : s.item k with
            | none => rfl
            | some v =>
              have := (hr k v).2 hv
              have hn := asc_not_mem hc hl hrr v
              simp only [Tree.toList, List.append_nil, List.mem_append] at this
              rcases this with h | h
              · exact absurd h hn.1
              · exact absurd h hn.2
          simp [hnone]
        | node l k' p v r =>
          have hk : k' = k := hf
          subst hk
          have hsome : s.item k' = some v := (hr k' v).1 (by simp [Tree.toList])
          simp [hsome]
      · cases t' <;> exact ⟨hi, by rw [hc2]; exact ha, by rw [hc2]; exact hr, by rw [hc2]; exact hn⟩
  | len =>
    cases m with
    | none =>
      refine ⟨s, ⟨⟨[], ⟨List.Pairwise.nil, ?_⟩, rfl⟩, rfl⟩, hs⟩
      intro k; simp [hs.2 k]
    | some root =>
      obtain ⟨hi, ha, hr, hn⟩ := hs
      refine ⟨s, ⟨⟨_, rep_enumerates ha hr, ?_⟩, rfl⟩, hi, ha, hr, hn⟩
      simp [step, hn]
  | keys =>
    cases m with
    | none =>
      refine ⟨s, ⟨⟨[], ⟨List.Pairwise.nil, ?_⟩, rfl⟩, rfl⟩, hs⟩
      intro k; simp [hs.2 k]
    | some root =>
      obtain ⟨hi, ha, hr, hn⟩ := hs
      refine ⟨s, ⟨⟨_, rep_enumerates ha hr, ?_⟩, rfl⟩, hi, ha, hr, hn⟩
      simp [step, hn, keys_eq]

theorem run_sim {cmp : K → K → Int} (hc : Spec.Lawful cmp) (zero : V) (ops : List (Op K V))
    (m : MapVal K V) (s : Spec.State K V) (hs : Sim cmp m s) :
    Spec.Run cmp zero s ops (run cmp zero m ops) := by
  induction ops generalizing m s with
  | nil => simp [run, Spec.Run]
  | cons op ops ih =>
    obtain ⟨s', h1, h2⟩ := step_sim hc zero m s hs op
    exact ⟨s', h1, ih _ _ h2⟩

end Umka.Map
