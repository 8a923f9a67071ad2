import Verif.Imports.Spec

/-!
# Imports: lemmas
-/

namespace Umka.Imports

theorem Reach.trans {g : Files} {a b c : Path} (h : Reach g a b) (h' : Reach g b c) : Reach g a c := by
  induction h' with
  | refl => exact h
  | step _ h2 ih => exact ih.step h2

theorem moduleFind_some {mods : List Mod} {p : Path} {i : Nat} (h : moduleFind mods p = some i) :
    ∃ m, mods[i]? = some m ∧ m.path = some p := by
  rw [moduleFind, List.findIdx?_eq_some_iff_getElem] at h
  obtain ⟨h1, h2, _⟩ := h
  exact ⟨mods[i], List.getElem?_eq_getElem h1, by simpa using h2⟩

theorem moduleFind_none {mods : List Mod} {p : Path} (h : moduleFind mods p = none) : ∀ m ∈ mods, m.path ≠ some p := by
  rw [moduleFind, List.findIdx?_eq_none_iff] at h
  intro m hm
  simpa using h m hm

/-- The invariant between two steps. -/
structure Inv (g : Files) (root : Path) (s : St) : Prop where
  nodup : (s.mods.map (·.path)).Nodup
  reach : ∀ m ∈ s.mods, ∀ q, m.path = some q → Reach g root q
  order : ∀ q, q ∈ s.order ↔ ∃ m ∈ s.mods, m.path = some q ∧ m.compiled = true
  distinct : s.order.Nodup
  deps : DepsFirst g s.order
  size : s.mods.length ≤ maxModules
  proper : ∀ q ∈ s.order, ∃ items, g.file q = some items ∧ Proper g q items

theorem nodup_index {mods : List Mod} (h : (mods.map (·.path)).Nodup) {i j : Nat} {a b : Mod} (hi : mods[i]? = some a)
    (hj : mods[j]? = some b) (hp : a.path = b.path) : i = j := by
  have hi' := List.getElem?_eq_some_iff.mp hi
  have hj' := List.getElem?_eq_some_iff.mp hj
  obtain ⟨h1, h2⟩ := hi'
  obtain ⟨h3, h4⟩ := hj'
  have := (List.nodup_iff_pairwise_ne.mp h)
  rw [List.pairwise_iff_getElem] at this
  rcases Nat.lt_trichotomy i j with hl | hl | hl
  · have := this i j (by simpa using h1) (by simpa using h3) hl
    simp [h2, h4, hp] at this
  · exact hl
  · have := this j i (by simpa using h3) (by simpa using h1) hl
    simp [h2, h4, hp] at this

/-- What `parseModule` is required to do (used as an induction hypothesis). -/
def ParseOk (g : Files) (root : Path) (n : Nat) (parse : Path → St → Except Err (Nat × St)) : Prop :=
  ∀ (q : Path) (s : St), Inv g root s → Reach g root q → (∀ m ∈ s.mods, m.path ≠ some q) → g.file q ≠ none →
    (∀ m ∈ s.mods, m.compiled = false → ∀ r, m.path = some r → Reach g r q) → maxModules < s.mods.length + n →
    match parse q s with
    | .error e => Reason g root e
    | .ok (i, s') => Inv g root s' ∧ (∃ new, s'.mods = s.mods ++ new ∧ ∀ m ∈ new, m.compiled = true) ∧
        (∃ m, s'.mods[i]? = some m ∧ m.path = some q ∧ m.compiled = true) ∧ ∃ ord, s'.order = s.order ++ ord ++ [q]

/-- The state while the imports of the module `p` are processed; `done`: the imports that are finished; `B`, `O`: the modules and
the order before. -/
structure Cur (g : Files) (root p : Path) (B : List Mod) (O : List Path) (done : List Item) (s : St) : Prop where
  inv : Inv g root s
  current : s.current = B.length
  cur : ∃ al new, s.mods = B ++ ⟨some p, false, al⟩ :: new ∧ (∀ m ∈ new, m.compiled = true) ∧
    al.map (·.2) = g.name p :: done.map (·.alias) ∧
    al.map (fun a => (s.mods[a.1]?).bind (·.path)) = some p :: done.map (fun d => some d.path)
  open_ : ∀ m ∈ B, m.compiled = false → ∀ r, m.path = some r → Reach g r p
  order : ∃ ord, s.order = O ++ ord
  deps : ∀ d ∈ done, d.path ∈ s.order
  names : (g.name p :: done.map (·.alias)).Nodup
  paths : (done.map (·.path)).Nodup

theorem getModule_ok {g : Files} {root p : Path} {n : Nat} {parse : Path → St → Except Err (Nat × St)} {B : List Mod}
    {O : List Path} {done : List Item} {s : St} {q : Path} (hparse : ParseOk g root n parse) (h : Cur g root p B O done s)
    (hp : Reach g root p) (hq : Imports g p q) (hn : maxModules < s.mods.length + n) :
    match getModule g parse q s with
    | .error e => Reason g root e
    | .ok (i, s') => Cur g root p B O done s' ∧ s.mods.length ≤ s'.mods.length ∧
        ∃ m, s'.mods[i]? = some m ∧ m.path = some q ∧ (m.compiled = true ∨ Reach g q p) := by
  rw [getModule]
  cases hf : moduleFind s.mods q with
  | some i =>
    dsimp only
    obtain ⟨m, h1, h2⟩ := moduleFind_some hf
    refine ⟨h, Nat.le_refl _, m, h1, h2, ?_⟩
    cases hc : m.compiled with
    | true => exact Or.inl rfl
    | false =>
      right
      obtain ⟨al, new, e, hnew, _⟩ := h.cur
      have hm := List.mem_of_getElem? h1
      rw [e] at hm
      rcases List.mem_append.mp hm with hm | hm
      · exact h.open_ m hm hc q h2
      · rcases List.mem_cons.mp hm with hm | hm
        · rw [hm] at h2
          simp only [Option.some.injEq] at h2
          rw [h2]; exact .refl
        · rw [hnew m hm] at hc; cases hc
  | none =>
    have hnone := moduleFind_none hf
    dsimp only
    cases hg : g.file q with
    | none => exact ⟨q, hp.step hq, hg⟩
    | some items =>
      dsimp only
      obtain ⟨al, new, e, hnew, ha1, ha2⟩ := h.cur
      have := hparse q s h.inv (hp.step hq) hnone (by rw [hg]; simp) (by
        intro m hm hc r hr
        rw [e] at hm
        rcases List.mem_append.mp hm with hm | hm
        · exact (h.open_ m hm hc r hr).step hq
        · rcases List.mem_cons.mp hm with hm | hm
          · rw [hm] at hr
            simp only [Option.some.injEq] at hr
            rw [← hr]; exact Reach.refl.step hq
          · rw [hnew m hm] at hc; cases hc) hn
      cases hpq : parse q s with
      | error err => rw [hpq] at this; exact this
      | ok r =>
        obtain ⟨i, s'⟩ := r
        rw [hpq] at this
        dsimp only at this ⊢
        obtain ⟨a1, ⟨new', a2, a3⟩, ⟨m, a4, a5, a6⟩, ⟨ord, a7⟩⟩ := this
        refine ⟨⟨⟨a1.nodup, a1.reach, a1.order, a1.distinct, a1.deps, a1.size, a1.proper⟩, h.current, ⟨al, new ++ new', ?_, ?_, ha1, ?_⟩,
          h.open_, ?_, ?_, h.names, h.paths⟩, ?_, m, a4, a5, Or.inl a6⟩
        · dsimp only; rw [a2, e]; simp
        · intro m hm
          rcases List.mem_append.mp hm with hm | hm
          · exact hnew m hm
          · exact a3 m hm
        · dsimp only
          rw [← ha2]
          apply List.map_congr_left
          intro a ha
          have : (s.mods[a.1]?).bind (·.path) ∈ some p :: done.map (fun d => some d.path) := by
            rw [← ha2]; exact List.mem_map.mpr ⟨a, ha, rfl⟩
          have hl : a.1 < s.mods.length := by
            by_cases hl : a.1 < s.mods.length
            · exact hl
            · rw [List.getElem?_eq_none (by omega)] at this
              simp at this
          rw [a2, List.getElem?_append_left hl]
        · obtain ⟨o, ho⟩ := h.order
          exact ⟨o ++ ord ++ [q], by dsimp only; rw [a7, ho]; simp⟩
        · intro d hd
          dsimp only
          rw [a7]
          simp [h.deps d hd]
        · rw [a2, List.length_append]; omega

theorem importItem_ok {g : Files} {root p : Path} {n : Nat} {parse : Path → St → Except Err (Nat × St)} {B : List Mod}
    {O : List Path} {done rest : List Item} {it : Item} {s : St} (hparse : ParseOk g root n parse) (h : Cur g root p B O done s)
    (hp : Reach g root p) (hfile : g.file p = some (done ++ it :: rest)) (hn : maxModules < s.mods.length + n) :
    match importItem g parse it s with
    | .error e => Reason g root e
    | .ok s' => Cur g root p B O (done ++ [it]) s' ∧ s.mods.length ≤ s'.mods.length := by
  have himp : Imports g p it.path := ⟨_, hfile, it.alias, by simp⟩
  rw [importItem]
  obtain ⟨al, new, e, hnew, ha1, ha2⟩ := h.cur
  have hcur : s.mods[s.current]? = some ⟨some p, false, al⟩ := by
    rw [e, h.current, List.getElem?_append_right (Nat.le_refl _), Nat.sub_self]; rfl
  rw [hcur]
  dsimp only
  by_cases hal : al.any (fun a => a.2 == it.alias) = true
  · rw [if_pos hal]
    refine ⟨p, _, hp, hfile, ?_⟩
    rintro ⟨hnd, _⟩
    simp only [List.any_eq_true, beq_iff_eq] at hal
    obtain ⟨a, ha, ha'⟩ := hal
    have : it.alias ∈ g.name p :: done.map (·.alias) := by
      rw [← ha1, ← ha']; exact List.mem_map.mpr ⟨a, ha, rfl⟩
    rw [List.map_append, ← List.cons_append, List.nodup_append] at hnd
    exact hnd.2.2 _ this _ (by simp) rfl
  · rw [if_neg hal]
    have halias : it.alias ∉ g.name p :: done.map (·.alias) := by
      intro hm
      rw [← ha1] at hm
      obtain ⟨a, ha, ha'⟩ := List.mem_map.mp hm
      exact hal (List.any_eq_true.mpr ⟨a, ha, by simpa using ha'⟩)
    have hget := getModule_ok hparse h hp himp hn
    cases hgm : getModule g parse it.path s with
    | error err => rw [hgm] at hget; exact hget
    | ok r =>
      obtain ⟨i, s1⟩ := r
      rw [hgm] at hget
      dsimp only at hget ⊢
      obtain ⟨b, hlen, m, hm1, hm2, hm3⟩ := hget
      obtain ⟨al1, new1, e1, hnew1, hb1, hb2⟩ := b.cur
      have hcur1 : s1.mods[s1.current]? = some ⟨some p, false, al1⟩ := by
        rw [e1, b.current, List.getElem?_append_right (Nat.le_refl _), Nat.sub_self]; rfl
      rw [addAlias, hm1, hcur1]
      dsimp only
      cases hc : m.compiled with
      | false =>
        rw [if_pos (by rfl)]
        rcases hm3 with hm3 | hm3
        · rw [hc] at hm3; cases hm3
        · exact ⟨p, it.path, hp, himp, hm3⟩
      | true =>
        rw [if_neg (by simp)]
        by_cases hs : al1.any (fun a => a.1 == i) = true
        · rw [if_pos hs]
          simp only [List.any_eq_true, beq_iff_eq] at hs
          obtain ⟨a, ha, ha'⟩ := hs
          have : (s1.mods[a.1]?).bind (·.path) ∈ some p :: done.map (fun d => some d.path) := by
            rw [← hb2]; exact List.mem_map.mpr ⟨a, ha, rfl⟩
          rw [ha', hm1, Option.bind_some, hm2] at this
          rcases List.mem_cons.mp this with hx | hx
          · simp only [Option.some.injEq] at hx
            have : i = s1.current := nodup_index b.inv.nodup hm1 hcur1 (by rw [hm2, hx])
            rw [this, hcur1] at hm1
            simp only [Option.some.injEq] at hm1
            rw [← hm1] at hc
            cases hc
          · refine ⟨p, _, hp, hfile, ?_⟩
            rintro ⟨_, hnd⟩
            obtain ⟨d, hd, hd'⟩ := List.mem_map.mp hx
            simp only [Option.some.injEq] at hd'
            rw [List.map_append, List.nodup_append] at hnd
            exact hnd.2.2 d.path (List.mem_map.mpr ⟨d, hd, rfl⟩) it.path (by simp) hd'
        · rw [if_neg hs]
          dsimp only
          have hpath : it.path ∉ done.map (·.path) := by
            intro hx
            obtain ⟨d, hd, hd'⟩ := List.mem_map.mp hx
            have : some d.path ∈ al1.map (fun a => (s1.mods[a.1]?).bind (·.path)) := by
              rw [hb2]; exact List.mem_cons_of_mem _ (List.mem_map.mpr ⟨d, hd, rfl⟩)
            obtain ⟨a, ha, ha'⟩ := List.mem_map.mp this
            cases hx' : s1.mods[a.1]? with
            | none => rw [hx'] at ha'; cases ha'
            | some m' =>
              rw [hx', Option.bind_some, hd', ← hm2] at ha'
              have := nodup_index b.inv.nodup hx' hm1 ha'
              exact hs (List.any_eq_true.mpr ⟨a, ha, by simpa using this⟩)
          -- the new state
          have eset : s1.mods.set s1.current ⟨some p, false, al1 ++ [(i, it.alias)]⟩ =
              B ++ ⟨some p, false, al1 ++ [(i, it.alias)]⟩ :: new1 := by
            rw [e1, b.current, List.set_append_right _ _ (Nat.le_refl _), Nat.sub_self]; rfl
          rw [eset]
          have epath : (B ++ ⟨some p, false, al1 ++ [(i, it.alias)]⟩ :: new1).map (·.path) = s1.mods.map (·.path) := by
            rw [e1]; simp
          have hmem : ∀ q c, (∃ m ∈ B ++ ⟨some p, false, al1 ++ [(i, it.alias)]⟩ :: new1, m.path = some q ∧ m.compiled = c) ↔
              ∃ m ∈ s1.mods, m.path = some q ∧ m.compiled = c := by
            intro q c
            rw [e1]
            constructor <;>
            · rintro ⟨m, hm, hq, hc⟩
              rcases List.mem_append.mp hm with hm | hm
              · exact ⟨m, List.mem_append.mpr (Or.inl hm), hq, hc⟩
              · rcases List.mem_cons.mp hm with hm | hm
                · rw [hm] at hq hc
                  exact ⟨_, List.mem_append.mpr (Or.inr List.mem_cons_self), hq, hc⟩
                · exact ⟨m, List.mem_append.mpr (Or.inr (List.mem_cons_of_mem _ hm)), hq, hc⟩
          have eget : ∀ k : Nat, ((B ++ ⟨some p, false, al1 ++ [(i, it.alias)]⟩ :: new1)[k]?).bind (·.path) =
              (s1.mods[k]?).bind (·.path) := by
            intro k
            have := congrArg (fun l => l[k]?) epath
            simp only [List.getElem?_map] at this
            cases h1 : (B ++ ⟨some p, false, al1 ++ [(i, it.alias)]⟩ :: new1)[k]? <;> cases h2 : s1.mods[k]? <;>
              rw [h1, h2] at this <;> simp_all
          refine ⟨⟨⟨?_, ?_, ?_, b.inv.distinct, b.inv.deps, ?_, b.inv.proper⟩, b.current, ⟨_, new1, rfl, hnew1, ?_, ?_⟩, b.open_, b.order,
            ?_, ?_, ?_⟩, ?_⟩
          · dsimp only; rw [epath]; exact b.inv.nodup
          · intro m' hm' q hq
            obtain ⟨m2, h1, h2, _⟩ := (hmem q m'.compiled).mp ⟨m', hm', hq, rfl⟩
            exact b.inv.reach m2 h1 q h2
          · intro q
            rw [b.inv.order q]
            exact (hmem q true).symm
          · have := congrArg List.length epath
            have h2 := b.inv.size
            simp only [List.length_map] at this
            dsimp only
            omega
          · rw [List.map_append, hb1, List.map_append]; rfl
          · dsimp only
            rw [List.map_append, List.map_append, ← List.cons_append, ← hb2]
            congr 1
            · apply List.map_congr_left
              intro a _
              exact eget a.1
            · simp only [List.map_cons, List.map_nil]
              rw [eget, hm1, Option.bind_some, hm2]
          · intro d hd
            rcases List.mem_append.mp hd with hd | hd
            · exact b.deps d hd
            · rw [List.mem_singleton] at hd
              rw [hd]
              exact (b.inv.order it.path).mpr ⟨m, List.mem_of_getElem? hm1, hm2, hc⟩
          · rw [List.map_append, ← List.cons_append, List.nodup_append]
            refine ⟨h.names, by simp, ?_⟩
            intro a ha c hc' hac
            simp only [List.map_cons, List.map_nil, List.mem_singleton] at hc'
            rw [hac, hc'] at ha
            exact halias ha
          · rw [List.map_append, List.nodup_append]
            refine ⟨h.paths, by simp, ?_⟩
            intro a ha c hc' hac
            simp only [List.map_cons, List.map_nil, List.mem_singleton] at hc'
            rw [hac, hc'] at ha
            exact hpath ha
          · have := congrArg List.length epath
            simp only [List.length_map] at this
            omega

theorem importItems_ok {g : Files} {root p : Path} {n : Nat} {parse : Path → St → Except Err (Nat × St)} {B : List Mod}
    {O : List Path} (hparse : ParseOk g root n parse) (hp : Reach g root p) (rest : List Item) : ∀ (done : List Item) (s : St),
    Cur g root p B O done s → g.file p = some (done ++ rest) → maxModules < s.mods.length + n →
    match importItems g parse rest s with
    | .error e => Reason g root e
    | .ok s' => Cur g root p B O (done ++ rest) s' := by
  induction rest with
  | nil => intro done s h _ _; rw [importItems]; simpa using h
  | cons it rest ih =>
    intro done s h hfile hn
    rw [importItems]
    have := importItem_ok hparse h hp hfile hn
    cases hi : importItem g parse it s with
    | error e => rw [hi] at this; exact this
    | ok s1 =>
      rw [hi] at this
      dsimp only at this ⊢
      have := ih (done ++ [it]) s1 this.1 (by rw [hfile]; simp) (by have := this.2; omega)
      rw [List.append_assoc] at this
      exact this

theorem filterMap_paths {mods : List Mod} (h : (mods.map (·.path)).Nodup) :
    (mods.filterMap (·.path)).Nodup ∧ mods.length ≤ (mods.filterMap (·.path)).length + 1 := by
  induction mods with
  | nil => simp
  | cons m ms ih =>
    rw [List.map_cons, List.nodup_cons] at h
    obtain ⟨h1, h2⟩ := ih h.2
    cases hm : m.path with
    | some q =>
      rw [List.filterMap_cons_some hm, List.nodup_cons]
      refine ⟨⟨?_, h1⟩, by simp; omega⟩
      intro hx
      obtain ⟨m', hm', e⟩ := List.mem_filterMap.mp hx
      exact h.1 (List.mem_map.mpr ⟨m', hm', by rw [e, hm]⟩)
    | none =>
      rw [List.filterMap_cons_none hm]
      refine ⟨h1, ?_⟩
      have : ms.length = (ms.filterMap (·.path)).length := by
        rw [hm] at h
        clear ih h1 h2
        replace h := h.1
        induction ms with
        | nil => rfl
        | cons a as ih =>
          rw [List.map_cons, List.mem_cons, not_or] at h
          cases ha : a.path with
          | none => exact absurd ha.symm h.1
          | some x => rw [List.filterMap_cons_some ha, List.length_cons, List.length_cons, ← ih h.2]
      rw [List.length_cons, ← this]
      omega

theorem parse_ok (g : Files) (root : Path) (n : Nat) : ParseOk g root n (parseModule g n) := by
  induction n with
  | zero =>
    intro q s hinv _ _ _ _ hn
    have := hinv.size
    omega
  | succ n ih =>
    intro q s hinv hq hnew hfile hopen hn
    rw [parseModule, moduleAdd]
    by_cases hmax : s.mods.length ≥ maxModules
    · rw [if_pos hmax]
      obtain ⟨h1, h2⟩ := filterMap_paths hinv.nodup
      have h3 : (q :: s.mods.filterMap (·.path)).Nodup := by
        rw [List.nodup_cons]
        refine ⟨?_, h1⟩
        intro hx
        obtain ⟨m, hm, e⟩ := List.mem_filterMap.mp hx
        exact hnew m hm e
      refine ⟨(q :: s.mods.filterMap (·.path)).take 1024, h3.sublist (List.take_sublist _ _), ?_, ?_⟩
      · rw [List.length_take, List.length_cons]
        rw [maxModules] at hmax
        omega
      · intro p hp
        rcases List.mem_cons.mp (List.mem_of_mem_take hp) with e | hp
        · rw [e]; exact hq
        · obtain ⟨m, hm, e⟩ := List.mem_filterMap.mp hp
          exact hinv.reach m hm p e
    · rw [if_neg hmax]
      cases hf : moduleFind s.mods q with
      | some i =>
        obtain ⟨m, h1, h2⟩ := moduleFind_some hf
        exact absurd h2 (hnew m (List.mem_of_getElem? h1))
      | none =>
        dsimp only
        cases hg : g.file q with
        | none => exact absurd hg hfile
        | some items =>
          rw [Option.getD_some]
          have hcur : Cur g root q s.mods s.order []
              ⟨s.mods ++ [⟨some q, false, [(s.mods.length, g.name q)]⟩], s.mods.length, s.order⟩ := by
            refine ⟨⟨?_, ?_, ?_, hinv.distinct, hinv.deps, ?_, hinv.proper⟩, rfl, ⟨_, [], rfl, by simp, rfl, ?_⟩, hopen,
              ⟨[], by simp⟩, by simp, by simp, by simp⟩
            · dsimp only
              rw [List.map_append, List.nodup_append]
              refine ⟨hinv.nodup, by simp, ?_⟩
              intro a ha b hb hab
              obtain ⟨m, hm, e⟩ := List.mem_map.mp ha
              simp only [List.map_cons, List.map_nil, List.mem_singleton] at hb
              exact hnew m hm (by rw [e, hab, hb])
            · intro m hm r hr
              rcases List.mem_append.mp hm with hm | hm
              · exact hinv.reach m hm r hr
              · rw [List.mem_singleton] at hm
                rw [hm] at hr
                simp only [Option.some.injEq] at hr
                rw [← hr]; exact hq
            · intro r
              rw [hinv.order r]
              dsimp only
              constructor
              · rintro ⟨m, hm, h1, h2⟩; exact ⟨m, by simp [hm], h1, h2⟩
              · rintro ⟨m, hm, h1, h2⟩
                rcases List.mem_append.mp hm with hm | hm
                · exact ⟨m, hm, h1, h2⟩
                · rw [List.mem_singleton] at hm
                  rw [hm] at h2; cases h2
            · dsimp only
              rw [List.length_append, List.length_singleton]; omega
            · simp
          have hitems := importItems_ok ih hq items [] _ hcur hg (by
            dsimp only; rw [List.length_append, List.length_singleton]; omega)
          cases hi : importItems g (parseModule g n) items
              ⟨s.mods ++ [⟨some q, false, [(s.mods.length, g.name q)]⟩], s.mods.length, s.order⟩ with
          | error e => rw [hi] at hitems; exact hitems
          | ok s1 =>
            rw [hi] at hitems
            dsimp only at hitems ⊢
            rw [List.nil_append] at hitems
            obtain ⟨al, new, e1, hn1, ha1, ha2⟩ := hitems.cur
            have hc : s1.mods[s1.current]? = some ⟨some q, false, al⟩ := by
              rw [e1, hitems.current, List.getElem?_append_right (Nat.le_refl _), Nat.sub_self]; rfl
            rw [finish, hc]
            dsimp only
            have eset : s1.mods.set s1.current ⟨some q, true, al⟩ = s.mods ++ ⟨some q, true, al⟩ :: new := by
              rw [e1, hitems.current, List.set_append_right _ _ (Nat.le_refl _), Nat.sub_self]; rfl
            rw [eset]
            have epath : (s.mods ++ ⟨some q, true, al⟩ :: new).map (·.path) = s1.mods.map (·.path) := by rw [e1]; simp
            have hqo : q ∉ s1.order := by
              intro hx
              obtain ⟨m, hm, h1, h2⟩ := (hitems.inv.order q).mp hx
              obtain ⟨k, hk⟩ := List.getElem?_of_mem hm
              have := nodup_index hitems.inv.nodup hk hc (by rw [h1])
              rw [this, hc] at hk
              simp only [Option.some.injEq] at hk
              rw [← hk] at h2
              cases h2
            refine ⟨⟨?_, ?_, ?_, ?_, ?_, ?_, ?_⟩, ⟨⟨some q, true, al⟩ :: new, rfl, ?_⟩, ⟨⟨some q, true, al⟩, ?_, rfl, rfl⟩, ?_⟩
            · dsimp only; rw [epath]; exact hitems.inv.nodup
            · intro m hm r hr
              have : some r ∈ s1.mods.map (·.path) := by
                rw [← epath]; exact List.mem_map.mpr ⟨m, hm, hr⟩
              obtain ⟨m', hm', e'⟩ := List.mem_map.mp this
              exact hitems.inv.reach m' hm' r e'
            · intro r
              dsimp only
              rw [List.mem_append, List.mem_singleton, hitems.inv.order r, e1]
              constructor
              · rintro (⟨m, hm, h1, h2⟩ | e)
                · rcases List.mem_append.mp hm with hm | hm
                  · exact ⟨m, by simp [hm], h1, h2⟩
                  · rcases List.mem_cons.mp hm with hm | hm
                    · rw [hm] at h2; cases h2
                    · exact ⟨m, by simp [hm], h1, h2⟩
                · exact ⟨⟨some q, true, al⟩, by simp, by rw [e], rfl⟩
              · rintro ⟨m, hm, h1, h2⟩
                rcases List.mem_append.mp hm with hm | hm
                · exact Or.inl ⟨m, by simp [hm], h1, h2⟩
                · rcases List.mem_cons.mp hm with hm | hm
                  · rw [hm] at h1
                    simp only [Option.some.injEq] at h1
                    exact Or.inr h1.symm
                  · exact Or.inl ⟨m, by simp [hm], h1, h2⟩
            · dsimp only
              rw [List.nodup_append]
              refine ⟨hitems.inv.distinct, by simp, ?_⟩
              intro a ha b hb hab
              rw [List.mem_singleton] at hb
              exact hqo (by rw [← hb, ← hab]; exact ha)
            · intro l₁ p l₂ he r hr
              dsimp only at he
              rcases List.append_eq_append_iff.mp he with ⟨a, h1, h2⟩ | ⟨a, h1, h2⟩
              · cases a with
                | nil =>
                  simp only [List.nil_append, List.cons.injEq] at h2
                  obtain ⟨h2, _⟩ := h2
                  rw [List.append_nil] at h1
                  rw [h1]
                  obtain ⟨items', hi1, x, hi2⟩ := hr
                  rw [← h2, hg] at hi1
                  simp only [Option.some.injEq] at hi1
                  exact hitems.deps ⟨x, r⟩ (by rw [hi1]; exact hi2)
                | cons b bs => simp at h2
              · cases a with
                | nil =>
                  simp only [List.nil_append, List.cons.injEq] at h2
                  obtain ⟨h2, _⟩ := h2
                  rw [List.append_nil] at h1
                  rw [← h1]
                  obtain ⟨items', hi1, x, hi2⟩ := hr
                  rw [h2, hg] at hi1
                  simp only [Option.some.injEq] at hi1
                  exact hitems.deps ⟨x, r⟩ (by rw [hi1]; exact hi2)
                | cons b bs =>
                  rw [List.cons_append, List.cons.injEq] at h2
                  exact hitems.inv.deps l₁ p bs (by rw [h1, h2.1]) r hr
            · have := congrArg List.length epath
              have h2 := hitems.inv.size
              simp only [List.length_map] at this
              dsimp only
              omega
            · intro r hr
              rcases List.mem_append.mp hr with hr | hr
              · exact hitems.inv.proper r hr
              · rw [List.mem_singleton] at hr
                rw [hr]
                exact ⟨items, hg, hitems.names, hitems.paths⟩
            · intro m hm
              rcases List.mem_cons.mp hm with hm | hm
              · rw [hm]
              · exact hn1 m hm
            · rw [hitems.current, List.getElem?_append_right (Nat.le_refl _), Nat.sub_self]; rfl
            · obtain ⟨o, ho⟩ := hitems.order
              exact ⟨o, by rw [ho]⟩

end Umka.Imports
