import Verif.MapHeap.Ops

/-! # Maps in memory: operations and copies -/

namespace Umka.MapHeap

open Umka.Map (Op Out Tree Frame plug getNode loopBody loop unlinkMin removeRoot MapVal Root)

variable {K V : Type}

/-- The memory holds the map `mv` in the nodes `F`. -/
def Holds (m : Mem K V) (mv : MapVal K V) (F : List Nat) : Prop :=
  (m.root = none ∧ mv = none ∧ F = []) ∨
  ∃ ra len t, m.root = some ra ∧ mv = some ⟨len, erase t⟩ ∧ F = ra :: addrs t ∧ At m.heap ra len [] t

theorem nodup_of_perm_cons {a : Nat} {l l' : List Nat} (h : l.Perm l') (hn : (a :: l').Nodup) : (a :: l).Nodup :=
  (List.Perm.nodup_iff ((List.perm_cons a).mpr h)).mpr hn

/-! ## Reading and writing an item -/

/-- What is done in the slot that was found. -/
theorem slot_ok {alloc : Heap K V → Nat} (ha : FreshAlloc alloc) (zero : V) (k : K) (prio : Int) (store : Option V)
    {h : Heap K V} (hf : Fin h) {ra : Nat} {len : Int} {path : List (AF K V)} : ∀ {t : AT K V}, At h ra len path t →
    ∃ h' len' t' old,
      (do
        let m : Mem K V := ⟨h, some ra⟩
        let (m, a) ← match ← m.read (slotOf ra path) with
          | some a => some (m, a)
          | none => do
            let a := alloc m.heap
            let m ← ({ m with heap := m.heap.put a (some zeroNode) } : Mem K V).write (slotOf ra path) (some a)
            some (m, a)
        let n ← m.heap a
        let m ← match n.val with
          | some _ => some m
          | none => do
            let m ← m.modify a fun n => { n with prio := prio, key := some k, val := some zero }
            m.modify (← m.root) fun n => { n with len := n.len + 1 }
        let old ← (← m.heap a).val
        let m ← match store with
          | none => some m
          | some v => m.modify a fun n => { n with val := some v }
        some (m, old)) = some ((⟨h', some ra⟩ : Mem K V), old) ∧
      At h' ra len' path t' ∧ (∀ x, x ∉ ra :: (pa path ++ addrs t) → x ∉ addrs t' → h' x = h x) ∧
      (∀ x ∈ addrs t', x ∈ addrs t ∨ h x = none) ∧ (∀ x ∈ addrs t, x ∈ addrs t') ∧
      (match t with
        | .nil => len' = len + 1 ∧ old = zero ∧ erase t' = .node .nil k prio (store.getD zero) .nil
        | .node l k' p x r => len' = len ∧ old = x.2 ∧ erase t' = .node (erase l) k' p (store.getD x.2) (erase r)) := by
  intro t H
  cases t with
  | nil =>
    let b := alloc h
    have hb : h b = none := ha h hf
    have hbn : b ∉ ra :: pa path := fun hx => path_alloc H.around b hx hb
    -- the new chunk
    let h1 := h.put b (some zeroNode)
    have hp1 : PathReps h1 ra len path none := by
      refine path_congr (put_ne _ _ ?_) (fun x hx => put_ne _ _ ?_) H.around
      · intro e; exact hbn (by rw [← e]; exact List.mem_cons_self)
      · intro e; subst e; exact hbn (List.mem_cons_of_mem _ hx)
    obtain ⟨h2, e1, e2, e3⟩ := path_write (root := some ra) hp1 H.nodupPath (some b)
    have hb2 : h2 b = some zeroNode := by rw [e3 b hbn]; exact put_same _ _ _
    -- key, priority and item
    let h3 := h2.put b (some ⟨none, none, some k, prio, some zero, 0⟩)
    have A3 : At h3 ra len path (.node .nil k prio (b, zero) .nil) := by
      refine ⟨?_, ⟨put_same _ _ _, trivial, trivial⟩, ?_⟩
      · refine path_congr (put_ne _ _ ?_) (fun x hx => put_ne _ _ ?_) e2
        · intro e; exact hbn (by rw [← e]; exact List.mem_cons_self)
        · intro e; subst e; exact hbn (List.mem_cons_of_mem _ hx)
      · have := H.nodupPath
        refine (List.Perm.nodup_iff (l₁ := b :: (ra :: pa path)) ?_).mp (List.nodup_cons.mpr ⟨hbn, this⟩)
        rw [List.perm_iff_count]; intro a
        simp only [addrs, List.count_cons, List.count_append, List.count_nil]; omega
    obtain ⟨h4, f1, f2, f3, _⟩ := A3.setLen (some ra) (· + 1)
    have hbr : b ≠ ra := fun e => hbn (by rw [e]; exact List.mem_cons_self)
    have hb4 : h4 b = some ⟨none, none, some k, prio, some zero, 0⟩ := by rw [f3 b hbr]; exact put_same _ _ _
    have same4 : ∀ x, x ∉ ra :: pa path → x ≠ b → h4 x = h x := by
      intro x hx hxb
      rw [f3 x (fun e => hx (by rw [e]; exact List.mem_cons_self))]
      show (h2.put b _) x = _
      rw [put_ne _ _ hxb, e3 x hx]
      exact put_ne _ _ hxb
    have m1 : (⟨h2, some ra⟩ : Mem K V).modify b (fun n => { n with prio := prio, key := some k, val := some zero }) = some ⟨h3, some ra⟩ := by
      simp [Mem.modify, hb2, zeroNode, h3]
    have e1 : (⟨h.put (alloc h) (some zeroNode), some ra⟩ : Mem K V).write (slotOf ra path) (some (alloc h)) = some ⟨h2, some ra⟩ := e1
    cases store with
    | none =>
      refine ⟨h4, len + 1, _, zero, ?_, f2, ?_, ?_, ?_, rfl, rfl, rfl⟩
      · simp only [path_read H.around, ptr, Option.bind_eq_bind, Option.bind_some, e1]
        rw [show h2 (alloc h) = _ from hb2]
        simp only [zeroNode, Option.bind_some]
        rw [show (⟨h2, some ra⟩ : Mem K V).modify (alloc h) _ = _ from m1]
        simp only [Option.bind_some, f1]
        rw [show h4 (alloc h) = _ from hb4]
        rfl
      · intro x hx hx2
        refine same4 x ?_ ?_
        · intro hm; exact hx (by simp only [addrs, List.append_nil]; exact hm)
        · intro e; exact hx2 (by simp [addrs, e])
      · intro x hx
        have : x = b := by simpa [addrs] using hx
        subst this; exact .inr hb
      · intro x hx; simp [addrs] at hx
    | some v =>
      obtain ⟨h5, g1, g2, g3⟩ := f2.setVal (some ra) v
      refine ⟨h5, len + 1, _, zero, ?_, g2, ?_, ?_, ?_, rfl, rfl, rfl⟩
      · simp only [path_read H.around, ptr, Option.bind_eq_bind, Option.bind_some, e1]
        rw [show h2 (alloc h) = _ from hb2]
        simp only [zeroNode, Option.bind_some]
        rw [show (⟨h2, some ra⟩ : Mem K V).modify (alloc h) _ = _ from m1]
        simp only [Option.bind_some, f1]
        rw [show h4 (alloc h) = _ from hb4]
        simp only [Option.bind_some]
        rw [show (⟨h4, some ra⟩ : Mem K V).modify (alloc h) _ = _ from g1]
        rfl
      · intro x hx hx2
        have hxb : x ≠ b := fun e => hx2 (by simp [addrs, e])
        rw [g3 x hxb]
        refine same4 x ?_ hxb
        intro hm; exact hx (by simp only [addrs, List.append_nil]; exact hm)
      · intro x hx
        have : x = b := by simpa [addrs] using hx
        subst this; exact .inr hb
      · intro x hx; simp [addrs] at hx
  | node l k' p x r =>
    have hx := H.tree.1
    cases store with
    | none =>
      refine ⟨h, len, _, x.2, ?_, H, fun _ _ _ => rfl, fun y hy => .inl hy, fun y hy => hy, rfl, rfl, rfl⟩
      simp only [path_read H.around, ptr_node, Option.bind_eq_bind, Option.bind_some, hx]
    | some v =>
      obtain ⟨h5, g1, g2, g3⟩ := H.setVal (some ra) v
      refine ⟨h5, len, _, x.2, ?_, g2, ?_, fun y hy => .inl hy, fun y hy => hy, rfl, rfl, rfl⟩
      · simp only [path_read H.around, ptr_node, Option.bind_eq_bind, Option.bind_some, hx, g1]
      · intro y hy _
        refine g3 y ?_
        intro e; exact hy (by simp [addrs, e])

/-- `doGetMapPtr` on an allocated map. -/
theorem mapPtr_some {alloc : Heap K V → Nat} (ha : FreshAlloc alloc) (cmp : K → K → Int) (zero : V) (k : K) (prio : Int) (store : Option V)
    {h : Heap K V} (hf : Fin h) {ra : Nat} {len : Int} {t : AT K V} (H : At h ra len [] t) :
    ∃ N h' len' t', (∀ fuel, N ≤ fuel → mapPtr alloc cmp zero fuel ⟨h, some ra⟩ k prio store =
        some (⟨h', some ra⟩, (Umka.Map.mapPtr cmp zero (some ⟨len, erase t⟩) k prio store).2)) ∧
      At h' ra len' [] t' ∧ (Umka.Map.mapPtr cmp zero (some ⟨len, erase t⟩) k prio store).1 = some ⟨len', erase t'⟩ ∧
      After h h' (ra :: addrs t) (ra :: addrs t') ∧ (∀ x ∈ addrs t, x ∈ addrs t') := by
  obtain ⟨N, path, t1, h1, hg, hs, H1, hperm, hsame⟩ := search_ok cmp k H
  have hf1 : Fin h1 := by
    refine After.fin (F := ra :: addrs t) (F' := ra :: addrs t) ⟨fun x hx _ => hsame x hx, fun x hx => .inl hx⟩ hf
  obtain ⟨h', len', t', old, e1, e2, e3, e4, e4b, e5⟩ := slot_ok ha zero k prio store hf1 H1
  have hperm' := addrs_plug path t'
  have memF : ∀ x, x ∈ addrs t ↔ x ∈ pa path ∨ x ∈ addrs t1 := fun x => by rw [← hperm.mem_iff, List.mem_append]
  have hget : getNode cmp k [] (erase t) = (path.map eraseF, erase t1) := by
    have := erase_getNode cmp k [] t
    rw [hg] at this; exact this
  have hres : Umka.Map.mapPtr cmp zero (some ⟨len, erase t⟩) k prio store = (some ⟨len', erase (Umka.Map.plug path t')⟩, old) := by
    unfold Umka.Map.mapPtr
    simp only [Option.getD_some, hget]
    cases t1 with
    | nil =>
      obtain ⟨rfl, rfl, e6⟩ := e5
      simp only [erase]
      rw [erase_plug, e6]
    | node l k' p x r =>
      obtain ⟨rfl, rfl, e6⟩ := e5
      simp only [erase]
      rw [erase_plug, e6]
  refine ⟨N, h', len', Umka.Map.plug path t', ?_, e2.close, ?_, ⟨?_, ?_⟩, ?_⟩
  · intro fuel hfuel
    rw [hres]
    unfold mapPtr
    simp only [Option.bind_eq_bind]
    rw [hs fuel hfuel]
    simp only [Option.bind_eq_bind, Option.bind_some] at e1 ⊢
    exact e1
  · rw [hres]
  · intro x hx hx2
    simp only [List.mem_cons, not_or] at hx hx2
    rw [hperm'.mem_iff, List.mem_append, not_or] at hx2
    rw [e3 x ?_ hx2.2.2, hsame x (by simp [hx])]
    simp only [List.mem_cons, List.mem_append, not_or]
    have := hx.2
    rw [memF, not_or] at this
    exact ⟨hx.1, this⟩
  · intro x hx
    rcases List.mem_cons.mp hx with rfl | hx
    · exact .inl List.mem_cons_self
    · rw [hperm'.mem_iff, List.mem_append] at hx
      rcases hx with hx | hx
      · exact .inl (List.mem_cons_of_mem _ ((memF x).mpr (.inl hx)))
      · rcases e4 x hx with h5 | h5
        · exact .inl (List.mem_cons_of_mem _ ((memF x).mpr (.inr h5)))
        · by_cases hx3 : x ∈ ra :: addrs t
          · exact .inl hx3
          · rw [hsame x hx3] at h5; exact .inr h5
  · intro x hx
    rw [hperm'.mem_iff, List.mem_append]
    rcases (memF x).mp hx with h5 | h5
    · exact .inl h5
    · exact .inr (e4b x h5)

/-- A new map. -/
theorem new_map {alloc : Heap K V → Nat} (ha : FreshAlloc alloc) {h : Heap K V} (hf : Fin h) :
    At (h.put (alloc h) (some zeroNode)) (alloc h) 0 [] (.nil : AT K V) ∧ After h (h.put (alloc h) (some zeroNode)) [] [alloc h] := by
  refine ⟨⟨put_same _ _ _, trivial, by simp [pa, addrs]⟩, ⟨?_, ?_⟩⟩
  · intro x _ hx; exact put_ne _ _ (by simpa using hx)
  · intro x hx
    have : x = alloc h := by simpa using hx
    subst this; exact .inr (ha h hf)

/-! ## Deleting -/

theorem ptr_nil : ptr (.nil : AT K V) = none := rfl

theorem leftmost_ok {h : Heap K V} {ra : Nat} {len : Int} (root : Option Nat) : ∀ (r : AT K V) {P : List (AF K V)}, At h ra len P r → r ≠ .nil →
    ∃ F k p x s, (∀ fuel, r.size ≤ fuel → leftmost fuel (⟨h, root⟩ : Mem K V) (slotOf ra P) = some (slotOf ra (F ++ P))) ∧
      At h ra len (F ++ P) (.node .nil k p x s) ∧ unlinkMin r = some ((k, p, x), plug F s) := by
  intro r
  induction r with
  | nil => intro P _ hne; exact absurd rfl hne
  | node l k p x r ihl _ =>
    intro P H _
    cases hl : l with
    | nil =>
      subst hl
      refine ⟨[], k, p, x, r, ?_, H, rfl⟩
      intro fuel hf
      obtain ⟨fuel, rfl⟩ : ∃ g, fuel = g + 1 := ⟨fuel - 1, by simp [Tree.size] at hf; omega⟩
      rw [leftmost, path_read H.around]
      simp only [Option.bind_eq_bind, Option.bind_some, show h x.1 = _ from H.tree.1, ptr, List.nil_append]
    | node ll lk lp lx lr =>
      rw [← hl]
      obtain ⟨F, k1, p1, x1, s1, g1, g2, g3⟩ := ihl H.left (by rw [hl]; simp)
      refine ⟨F ++ [.inLeft k p x r], k1, p1, x1, s1, ?_, ?_, ?_⟩
      · intro fuel hf
        obtain ⟨fuel, rfl⟩ : ∃ g, fuel = g + 1 := ⟨fuel - 1, by simp [Tree.size] at hf; omega⟩
        have hfl : l.size ≤ fuel := by simp [Tree.size] at hf; omega
        rw [leftmost, path_read H.around]
        simp only [ptr_node, Option.bind_eq_bind, Option.bind_some, show h x.1 = _ from H.tree.1]
        have : ptr l = some lx.1 := by rw [hl]; rfl
        rw [this, List.append_assoc]
        exact g1 fuel hfl
      · rw [List.append_assoc]; exact g2
      · rw [unlinkMin, g3, plug_append]; rfl

theorem ptr_ne_none {t : AT K V} (h : t ≠ .nil) : ∃ a, ptr t = some a := by
  cases t with
  | nil => exact absurd rfl h
  | node l k p x r => exact ⟨x.1, rfl⟩

/-- The part of `doBuiltinDeleteMap` on the node that was found. -/
theorem unlink_ok {h : Heap K V} {ra : Nat} {len : Int} {path : List (AF K V)} {l r : AT K V} {k : K} {p : Int} {x : Nat × V}
    (H : At h ra len path (.node l k p x r)) :
    ∃ N h' t', (∀ fuel, N ≤ fuel → unlink fuel ⟨h, some ra⟩ (slotOf ra path) x.1 =
        some (⟨h', some ra⟩, if len - 1 < 0 then .error "Map length is negative" else .unit)) ∧
      At h' ra (len - 1) path t' ∧ erase t' = removeRoot (erase (.node l k p x r)) ∧
      (∀ y ∈ addrs t', y ∈ addrs (.node l k p x r)) ∧
      ∀ y, y ∉ ra :: (pa path ++ addrs (.node l k p x r)) → h' y = h y := by
  obtain ⟨t1, t2, t3⟩ := H.tree
  -- the end of the function
  have fin : ∀ {h1 : Heap K V} {t' : AT K V}, At h1 ra len path t' → h1 x.1 ≠ none → x.1 ∉ ra :: (pa path ++ addrs t') →
      ∃ h', (do
        let m ← (⟨h1, some ra⟩ : Mem K V).write (.left x.1) none
        let m ← m.write (.right x.1) none
        let m : Mem K V := { m with heap := m.heap.put x.1 none }
        let r ← m.root
        let m ← m.modify r fun n => { n with len := n.len - 1 }
        let rn ← m.heap r
        some (m, if rn.len < 0 then (.error "Map length is negative" : Out K V) else .unit)) =
          some ((⟨h', some ra⟩ : Mem K V), if len - 1 < 0 then .error "Map length is negative" else .unit) ∧
        At h' ra (len - 1) path t' ∧ ∀ y, y ≠ ra → y ≠ x.1 → h' y = h1 y := by
    intro h1 t' A hx hn
    obtain ⟨n, hx⟩ := Option.ne_none_iff_exists'.mp hx
    let h2 := h1.put x.1 (some { n with left := none })
    let h3 := h2.put x.1 (some { n with left := none, right := none })
    let h4 := h3.put x.1 none
    have e1 : (⟨h1, some ra⟩ : Mem K V).write (.left x.1) none = some ⟨h2, some ra⟩ := by simp [Mem.write, hx, h2]
    have e2 : (⟨h2, some ra⟩ : Mem K V).write (.right x.1) none = some ⟨h3, some ra⟩ := by
      simp [Mem.write, h2, put_same, h3]
    have same : ∀ y, y ≠ x.1 → h4 y = h1 y := by
      intro y hy
      simp only [h4, h3, h2]; rw [put_ne _ _ hy, put_ne _ _ hy, put_ne _ _ hy]
    simp only [List.mem_cons, List.mem_append, not_or] at hn
    have A4 : At h4 ra len path t' := by
      refine ⟨path_congr (same _ (Ne.symm hn.1)) (fun y hy => same y ?_) A.around, reps_congr (fun y hy => same y ?_) A.tree, A.nodup⟩
      · intro e; subst e; exact hn.2.1 hy
      · intro e; subst e; exact hn.2.2 hy
    obtain ⟨h5, f1, f2, f3, q, f4⟩ := A4.setLen (some ra) (· - 1)
    refine ⟨h5, ?_, f2, fun y hy hy2 => by rw [f3 y hy, same y hy2]⟩
    simp only [Option.bind_eq_bind, e1, Option.bind_some, e2]
    rw [show (⟨h3.put x.1 none, some ra⟩ : Mem K V).modify ra _ = _ from f1]
    simp only [Option.bind_some, f4]
  have hn := H.nodup
  have hx0 : h x.1 ≠ none := by rw [t1]; simp
  have hn1 := hn
  simp only [addrs, List.nodup_cons, List.nodup_append, List.mem_cons, List.mem_append, not_or] at hn1
  -- the subtree `t'` takes the place of the node
  have simple : ∀ (t' : AT K V), Reps h t' → (ra :: (pa path ++ addrs t')).Nodup → x.1 ∉ addrs t' →
      (∀ y ∈ addrs t', y ∈ addrs (.node l k p x r)) → erase t' = removeRoot (erase (.node l k p x r)) →
      (∀ fuel, unlink fuel ⟨h, some ra⟩ (slotOf ra path) x.1 = (do
        let m ← (⟨h, some ra⟩ : Mem K V).write (slotOf ra path) (ptr t')
        let m ← m.write (.left x.1) none
        let m ← m.write (.right x.1) none
        let m : Mem K V := { m with heap := m.heap.put x.1 none }
        let r ← m.root
        let m ← m.modify r fun n => { n with len := n.len - 1 }
        let rn ← m.heap r
        some (m, if rn.len < 0 then (.error "Map length is negative" : Out K V) else .unit))) →
      ∃ N h' t', (∀ fuel, N ≤ fuel → unlink fuel ⟨h, some ra⟩ (slotOf ra path) x.1 =
          some (⟨h', some ra⟩, if len - 1 < 0 then .error "Map length is negative" else .unit)) ∧
        At h' ra (len - 1) path t' ∧ erase t' = removeRoot (erase (.node l k p x r)) ∧
        (∀ y ∈ addrs t', y ∈ addrs (.node l k p x r)) ∧
        ∀ y, y ∉ ra :: (pa path ++ addrs (.node l k p x r)) → h' y = h y := by
    intro t' ht' hnd hxn hsub her hun
    obtain ⟨h1, e1, e2, e3⟩ := H.replace (some ra) (h1 := h) t' (fun _ _ => rfl) ht' hnd
    have hxp : x.1 ∉ ra :: pa path := by
      simp only [List.mem_cons, not_or]
      refine ⟨fun e => hn1.1.2.1 e.symm, fun hm => hn1.2.2.2 _ hm _ (.inl rfl) rfl⟩
    obtain ⟨h', f1, f2, f3⟩ := fin e2 (by rw [e3 _ hxp]; exact hx0) (by
      simp only [List.mem_cons, List.mem_append, not_or] at hxp ⊢
      exact ⟨hxp.1, hxp.2, hxn⟩)
    refine ⟨0, h', t', ?_, f2, her, hsub, ?_⟩
    · intro fuel _
      rw [hun fuel, e1]
      exact f1
    · intro y hy
      simp only [List.mem_cons, List.mem_append, not_or, addrs] at hy
      rw [f3 y hy.1 hy.2.2.1, e3 y (by simp [hy])]
  have nl : (ra :: (pa path ++ addrs l)).Nodup := by
    simp only [List.nodup_cons, List.nodup_append, List.mem_append, not_or]
    grind
  have nr : (ra :: (pa path ++ addrs r)).Nodup := by
    simp only [List.nodup_cons, List.nodup_append, List.mem_append, not_or]
    grind
  by_cases hl : l = .nil
  · by_cases hr : r = .nil
    · subst hl hr
      refine simple .nil trivial nl (by simp [addrs]) (by simp [addrs]) rfl ?_
      intro fuel
      unfold unlink
      simp only [t1, Option.bind_eq_bind, Option.bind_some, ptr_nil]
    · obtain ⟨a, hra⟩ := ptr_ne_none hr
      subst hl
      refine simple r t3 nr (by grind) (by intro y hy; simp [addrs, hy]) ?_ ?_
      · cases r with
        | nil => exact absurd rfl hr
        | node a b c d e => rfl
      · intro fuel
        unfold unlink
        simp only [t1, Option.bind_eq_bind, Option.bind_some, hra, ptr_nil]
  · obtain ⟨b0, hlb⟩ := ptr_ne_none hl
    by_cases hr : r = .nil
    · subst hr
      refine simple l t2 nl (by grind) (by intro y hy; simp [addrs, hy]) ?_ ?_
      · cases l with
        | nil => exact absurd rfl hl
        | node a b c d e => rfl
      · intro fuel
        unfold unlink
        simp only [t1, Option.bind_eq_bind, Option.bind_some, hlb, ptr_nil]
    · obtain ⟨a0, hra⟩ := ptr_ne_none hr
      obtain ⟨F, sk, sp, sx, ss, g1, g2, g3⟩ := leftmost_ok (some ra) r H.right hr
      -- the successor is unlinked
      have hn2 := g2.nodup
      have hns : (ra :: (pa (F ++ Frame.inRight l k p x :: path) ++ addrs ss)).Nodup := by
        simp only [addrs, List.nil_append] at hn2
        simp only [List.nodup_cons, List.nodup_append, List.mem_append, List.mem_cons, not_or] at hn2 ⊢
        grind
      obtain ⟨h1, e1, e2, e3⟩ := g2.replace (some ra) (h1 := h) ss (fun _ _ => rfl) g2.tree.2.2 hns
      have A1 : At h1 ra len (Frame.inRight l k p x :: path) (plug F ss) := At.plug e2
      obtain ⟨u1, u2, u3⟩ := A1.around
      have u4 := A1.tree
      have hsxp : sx.1 ∉ ra :: pa (F ++ Frame.inRight l k p x :: path) := by
        simp only [addrs, List.nil_append] at hn2
        simp only [List.nodup_cons, List.nodup_append, List.mem_append, List.mem_cons, not_or] at hn2 ⊢
        grind
      have hsx : h1 sx.1 = some ⟨none, ptr ss, some sk, sp, some sx.2, 0⟩ := by
        rw [e3 _ hsxp]; exact g2.tree.1
      -- where the addresses are
      have permR := addrs_plug F ss
      have hpa : pa (F ++ Frame.inRight l k p x :: path) = pa F ++ (x.1 :: (addrs l ++ pa path)) := by rw [pa_append]; rfl
      rw [hpa] at hn2 hsxp hns
      simp only [addrs, List.nil_append] at hn2
      have key : (ra :: sx.1 :: x.1 :: (pa path ++ (addrs l ++ (pa F ++ addrs ss)))).Nodup := by
        refine (List.Perm.nodup_iff ?_).mp hn2
        rw [List.perm_iff_count]; intro a
        simp only [List.count_cons, List.count_append]; omega
      have memR : ∀ y, y ∈ addrs (plug F ss) ↔ y ∈ pa F ∨ y ∈ addrs ss := fun y => by rw [permR.mem_iff, List.mem_append]
      have hsxr : sx.1 ∈ addrs r ∧ (∀ y ∈ addrs (plug F ss), y ∈ addrs r) := by
        -- in order, the successor is the first node of the right subtree
        have hp1 : ∀ (t : AT K V) {q}, unlinkMin t = some q → (addrs t).Perm (q.1.2.2.1 :: addrs q.2) := by
          intro t
          induction t with
          | nil => intro q h; simp [unlinkMin] at h
          | node a b c d e iha _ =>
            intro q h
            rw [unlinkMin] at h
            cases hu : unlinkMin a with
            | none =>
              rw [hu] at h
              simp only [Option.some.injEq] at h
              subst h
              have : a = .nil := by
                cases a with
                | nil => rfl
                | node a1 a2 a3 a4 a5 =>
                  rw [unlinkMin] at hu
                  cases hu2 : unlinkMin a1 <;> rw [hu2] at hu <;> simp at hu
              subst this
              simp [addrs]
            | some q1 =>
              obtain ⟨s1, l1⟩ := q1
              rw [hu] at h
              simp only [Option.some.injEq] at h
              subst h
              have := iha hu
              rw [List.perm_iff_count] at this ⊢
              intro z
              have := this z
              simp only [addrs, List.count_cons, List.count_append] at this ⊢
              omega
        have := hp1 r g3
        constructor
        · rw [this.mem_iff]; exact List.mem_cons_self
        · intro y hy; rw [this.mem_iff]; exact List.mem_cons_of_mem _ hy
      simp only [List.nodup_cons, List.mem_cons, List.mem_append, not_or, List.nodup_append] at key
      -- the successor gets the children of the node
      let h2 := h1.put sx.1 (some ⟨ptr l, ptr ss, some sk, sp, some sx.2, 0⟩)
      let h3 := h2.put sx.1 (some ⟨ptr l, ptr (plug F ss), some sk, sp, some sx.2, 0⟩)
      have w1 : (⟨h1, some ra⟩ : Mem K V).write (.left sx.1) (ptr l) = some ⟨h2, some ra⟩ := by simp [Mem.write, hsx, h2]
      have w2 : (⟨h2, some ra⟩ : Mem K V).write (.right sx.1) (ptr (plug F ss)) = some ⟨h3, some ra⟩ := by
        simp [Mem.write, h2, put_same, h3]
      have same3 : ∀ y, y ≠ sx.1 → h3 y = h1 y := by
        intro y hy; simp only [h3, h2]; rw [put_ne _ _ hy, put_ne _ _ hy]
      have hp3 : PathReps h3 ra len path (some x.1) := by
        refine path_congr (same3 _ (by grind)) (fun y hy => same3 y ?_) u3
        intro e; subst e; grind
      have ht3 : Reps h3 (.node l sk sp sx (plug F ss)) := by
        refine ⟨put_same _ _ _, reps_congr (fun y hy => same3 y ?_) u2, reps_congr (fun y hy => same3 y ?_) u4⟩
        · intro e; subst e; grind
        · intro e; subst e; rw [memR] at hy; grind
      have hn3 : (ra :: (pa path ++ addrs (.node l sk sp sx (plug F ss)))).Nodup := by
        refine (List.Perm.nodup_iff (l₁ := ra :: (pa path ++ (sx.1 :: (addrs l ++ (pa F ++ addrs ss))))) ?_).mp ?_
        · refine (List.perm_cons _).mpr (List.Perm.append_left _ ((List.perm_cons _).mpr (List.Perm.append_left _ permR.symm)))
        · simp only [List.nodup_cons, List.mem_cons, List.mem_append, not_or, List.nodup_append]
          grind
      obtain ⟨h4, w3, w4, w5⟩ : ∃ h', (⟨h3, some ra⟩ : Mem K V).write (slotOf ra path) (some sx.1) = some ⟨h', some ra⟩ ∧
          PathReps h' ra len path (some sx.1) ∧ ∀ y, y ∉ ra :: pa path → h' y = h3 y :=
        path_write (root := some ra) hp3 H.nodupPath (some sx.1)
      have A4 : At h4 ra len path (.node l sk sp sx (plug F ss)) := by
        refine ⟨w4, reps_congr (fun y hy => w5 y ?_) ht3, hn3⟩
        intro hy2
        simp only [List.nodup_cons, List.nodup_append, List.mem_append, not_or] at hn3
        rcases List.mem_cons.mp hy2 with rfl | hy2
        · exact hn3.1.2 hy
        · exact hn3.2.2.2 y hy2 y hy rfl
      have hxp : x.1 ∉ ra :: pa path := by
        simp only [List.mem_cons, not_or]
        exact ⟨fun e => hn1.1.2.1 e.symm, fun hm => hn1.2.2.2 _ hm _ (.inl rfl) rfl⟩
      have hx4 : h4 x.1 = some ⟨ptr l, ptr (plug F ss), some k, p, some x.2, 0⟩ := by
        rw [w5 _ hxp, same3 _ (by grind), u1]
      obtain ⟨h', f1, f2, f3⟩ := fin A4 (by rw [hx4]; simp) (by
        simp only [addrs, List.mem_cons, List.mem_append, not_or, memR] at hxp ⊢
        grind)
      refine ⟨r.size, h', _, ?_, f2, ?_, ?_, ?_⟩
      · intro fuel hfuel
        unfold unlink
        have g1' : leftmost fuel (⟨h, some ra⟩ : Mem K V) (.right x.1) = _ := g1 fuel hfuel
        have rd : (⟨h, some ra⟩ : Mem K V).read (slotOf ra (F ++ Frame.inRight l k p x :: path)) = some (some sx.1) := path_read g2.around
        simp only [t1, Option.bind_eq_bind, Option.bind_some, hlb, hra, g1', rd, g2.tree.1, e1, u1]
        rw [hlb] at w1
        rw [w1]
        simp only [Option.bind_some, w2, w3]
        exact f1
      · have hu : unlinkMin (erase r) = some ((sk, sp, sx.2), erase (plug F ss)) := by
          have : ∀ (t : AT K V), unlinkMin (erase t) = (unlinkMin t).map fun q => ((q.1.1, q.1.2.1, q.1.2.2.2), erase q.2) := by
            intro t
            induction t with
            | nil => rfl
            | node a b c d e iha _ =>
              simp only [erase, unlinkMin]
              rw [iha]
              cases unlinkMin a with
              | none => rfl
              | some q => rfl
          rw [this, g3]; rfl
        cases l with
        | nil => exact absurd rfl hl
        | node a b c d e =>
          cases r with
          | nil => exact absurd rfl hr
          | node a' b' c' d' e' =>
            simp only [erase] at hu
            simp only [erase, removeRoot, hu]
      · intro y hy
        simp only [addrs, List.mem_cons, List.mem_append] at hy ⊢
        rcases hy with rfl | hy | hy
        · exact .inr (.inr hsxr.1)
        · exact .inr (.inl hy)
        · exact .inr (.inr (hsxr.2 y hy))
      · intro y hy
        simp only [List.mem_cons, List.mem_append, not_or, addrs] at hy
        have hysx : y ≠ sx.1 := fun e => hy.2.2.2.2 (by rw [e]; exact hsxr.1)
        rw [f3 y hy.1 hy.2.2.1, w5 y (by simp [hy]), same3 y hysx]
        refine e3 y ?_
        rw [hpa]
        simp only [List.mem_cons, List.mem_append, not_or]
        refine ⟨hy.1, fun hm => hy.2.2.2.2 (hsxr.2 y ((memR y).mpr (.inl hm))), hy.2.2.1, hy.2.2.2.1, hy.2.1⟩

end Umka.MapHeap
