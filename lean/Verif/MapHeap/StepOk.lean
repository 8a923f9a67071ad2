import Verif.MapHeap.Step

/-! # Maps in memory: each operation, and copies -/

namespace Umka.MapHeap

open Umka.Map (Op Out Tree Frame plug getNode unlinkMin removeRoot MapVal Root)

variable {K V : Type}

theorem keysOf_ok {h : Heap K V} : ∀ (t : AT K V), Reps h t → ∀ fuel, t.size ≤ fuel → ∀ a, ptr t = some a → keysOf fuel h a = some t.keys
  | .nil, _, _, _, _, e => by simp [ptr] at e
  | .node l k p x r, ⟨h1, h2, h3⟩, fuel, hf, a, e => by
    have e : x.1 = a := by simpa [ptr] using e
    subst e
    obtain ⟨fuel, rfl⟩ : ∃ g, fuel = g + 1 := ⟨fuel - 1, by simp [Tree.size] at hf; omega⟩
    have hfl : l.size ≤ fuel := by simp [Tree.size] at hf; omega
    have hfr : r.size ≤ fuel := by simp [Tree.size] at hf; omega
    have hl : (match ptr l with | none => some [] | some l => keysOf fuel h l) = some l.keys := by
      cases l with
      | nil => rfl
      | node a b c d e => exact keysOf_ok _ h2 fuel hfl d.1 rfl
    have hr : (match ptr r with | none => some [] | some l => keysOf fuel h l) = some r.keys := by
      cases r with
      | nil => rfl
      | node a b c d e => exact keysOf_ok _ h3 fuel hfr d.1 rfl
    rw [keysOf]
    simp only [h1, Option.bind_eq_bind, Option.bind_some, Tree.keys]
    cases hpl : ptr l <;> cases hpr : ptr r <;> simp only [hpl, hpr] at hl hr ⊢ <;> simp [hl, hr] <;> simp_all

theorem holds_none {m : Mem K V} {F : List Nat} (H : Holds m none F) : m.root = none ∧ F = [] := by
  rcases H with ⟨a, _, b⟩ | ⟨_, _, _, _, h, _⟩
  · exact ⟨a, b⟩
  · simp at h

/-- Nodes on which an operation works. -/
def workset (op : Op K V) (F : List Nat) : List Nat := match op with | .make => [] | _ => F

/-- Every operation in memory does what the operation on trees does, and keeps to its own nodes and to free addresses. -/
theorem step_ok {alloc : Heap K V → Nat} (ha : FreshAlloc alloc) (cmp : K → K → Int) (zero : V) (op : Op K V) {m : Mem K V} {mv : MapVal K V}
    {F : List Nat} (hf : Fin m.heap) (H : Holds m mv F) :
    ∃ N m' F', (∀ fuel, N ≤ fuel → step alloc cmp zero fuel m op = some (m', (Umka.Map.step cmp zero mv op).2)) ∧
      Holds m' (Umka.Map.step cmp zero mv op).1 F' ∧ After m.heap m'.heap (workset op F) F' ∧
      (op ≠ .make → m.root ≠ none → m'.root = m.root) ∧ (op = .make → m'.heap (alloc m.heap) ≠ none ∧ m'.root = some (alloc m.heap)) ∧
      (m.root = none → m'.root ≠ none → m'.root = some (alloc m.heap)) := by
  obtain ⟨h, root⟩ := m
  have refl : ∀ (h : Heap K V) F, After h h F F := fun h F => ⟨fun _ _ _ => rfl, fun _ hx => .inl hx⟩
  -- reading or writing an item
  have hptr : ∀ k prio store, ∃ N m' F', (∀ fuel, N ≤ fuel → mapPtr alloc cmp zero fuel ⟨h, root⟩ k prio store =
        some (m', (Umka.Map.mapPtr cmp zero mv k prio store).2)) ∧
      Holds m' (Umka.Map.mapPtr cmp zero mv k prio store).1 F' ∧ After h m'.heap F F' ∧ (root ≠ none → m'.root = root) ∧
      (root = none → m'.root ≠ none → m'.root = some (alloc h)) := by
    intro k prio store
    rcases H with ⟨rfl, rfl, rfl⟩ | ⟨ra, len, t, rfl, rfl, rfl, A⟩
    · obtain ⟨A, af⟩ := new_map (V := V) ha hf
      obtain ⟨N, h', len', t', e1, e2, e3, e4, e5⟩ := mapPtr_some ha cmp zero k prio store (af.fin hf) A
      refine ⟨N, ⟨h', some (alloc h)⟩, alloc h :: addrs t', ?_, ?_, ?_, ?_, fun _ _ => rfl⟩
      · intro fuel hfu
        have := e1 fuel hfu
        unfold mapPtr at this ⊢
        exact this
      · exact .inr ⟨alloc h, len', t', rfl, e3, rfl, e2⟩
      · refine af.trans e4 ?_
        intro x hx
        have : x = alloc h := by simpa using hx
        subst this; exact List.mem_cons_self
      · intro hne; exact absurd rfl hne
    · obtain ⟨N, h', len', t', e1, e2, e3, e4, e5⟩ := mapPtr_some ha cmp zero k prio store hf A
      exact ⟨N, ⟨h', some ra⟩, ra :: addrs t', e1, .inr ⟨ra, len', t', rfl, e3, rfl, e2⟩, e4, fun _ => rfl, fun h => by simp at h⟩
  cases op with
  | make =>
    obtain ⟨A, af⟩ := new_map (V := V) ha hf
    refine ⟨0, ⟨h.put (alloc h) (some zeroNode), some (alloc h)⟩, [alloc h], fun _ _ => rfl, ?_, af, fun h => absurd rfl h, fun _ => ⟨?_, rfl⟩, fun _ _ => rfl⟩
    · exact .inr ⟨alloc h, 0, .nil, rfl, rfl, rfl, A⟩
    · show (h.put (alloc h) (some zeroNode)) (alloc h) ≠ none
      rw [put_same]; simp
  | set k v prio =>
    obtain ⟨N, m', F', e1, e2, e3, e4, e5⟩ := hptr k prio (some v)
    refine ⟨N, m', F', ?_, e2, e3, fun _ => e4, fun h => by simp at h, e5⟩
    intro fuel hfu
    simp only [step, e1 fuel hfu, Option.bind_eq_bind, Option.bind_some, Umka.Map.step]
  | get k prio =>
    obtain ⟨N, m', F', e1, e2, e3, e4, e5⟩ := hptr k prio none
    refine ⟨N, m', F', ?_, e2, e3, fun _ => e4, fun h => by simp at h, e5⟩
    intro fuel hfu
    simp only [step, e1 fuel hfu, Option.bind_eq_bind, Option.bind_some, Umka.Map.step]
  | del k =>
    rcases H with ⟨rfl, rfl, rfl⟩ | ⟨ra, len, t, rfl, rfl, rfl, A⟩
    · exact ⟨0, ⟨h, none⟩, [], fun _ _ => rfl, .inl ⟨rfl, rfl, rfl⟩, refl _ _, fun _ _ => rfl, fun h => by simp at h, fun _ h => absurd rfl h⟩
    · obtain ⟨N, path, t1, h1, hg, hs, H1, hperm, hsame⟩ := search_ok cmp k A
      have hget : getNode cmp k [] (erase t) = (path.map eraseF, erase t1) := by
        have := erase_getNode cmp k [] t
        rw [hg] at this; exact this
      cases t1 with
      | nil =>
        have hp := addrs_plug path (.nil : AT K V)
        refine ⟨N, ⟨h1, some ra⟩, ra :: addrs (plug path .nil), ?_, ?_, ⟨?_, ?_⟩, fun _ _ => rfl, fun h => by simp at h, fun h => by simp at h⟩
        · intro fuel hfu
          simp only [step, hs fuel hfu, Option.bind_eq_bind, Option.bind_some, path_read H1.around, ptr, Umka.Map.step, hget, erase]
        · refine .inr ⟨ra, len, _, rfl, ?_, rfl, H1.close⟩
          simp only [Umka.Map.step, hget, erase, erase_plug]
        · intro x hx _; exact hsame x hx
        · intro x hx
          refine .inl ?_
          rcases List.mem_cons.mp hx with rfl | hx
          · exact List.mem_cons_self
          · exact List.mem_cons_of_mem _ (hperm.mem_iff.mp (hp.mem_iff.mp hx))
      | node l k' p x r =>
        obtain ⟨N2, h', t', e1, e2, e3, e4, e5⟩ := unlink_ok H1
        have hp := addrs_plug path t'
        have hF : ∀ y, y ∈ ra :: (pa path ++ addrs (Tree.node l k' p x r)) ↔ y ∈ ra :: addrs t := by
          intro y; rw [List.mem_cons, List.mem_cons, hperm.mem_iff]
        refine ⟨max N N2, ⟨h', some ra⟩, ra :: addrs (plug path t'), ?_, ?_, ⟨?_, ?_⟩, fun _ _ => rfl, fun h => by simp at h, fun h => by simp at h⟩
        · intro fuel hfu
          simp only [step, hs fuel (by omega), Option.bind_eq_bind, Option.bind_some, path_read H1.around, ptr_node, Umka.Map.step, hget, erase]
          rw [e1 fuel (by omega)]
        · refine .inr ⟨ra, len - 1, _, rfl, ?_, rfl, e2.close⟩
          simp only [Umka.Map.step, hget, erase, erase_plug]
          rw [e3]; rfl
        · intro y hy _
          show h' y = h y
          rw [e5 y (fun hm => hy ((hF y).mp hm)), hsame y hy]
        · intro y hy
          refine .inl ((hF y).mp ?_)
          rcases List.mem_cons.mp hy with rfl | hy
          · exact List.mem_cons_self
          · rw [hp.mem_iff, List.mem_append] at hy
            rcases hy with hy | hy
            · exact List.mem_cons_of_mem _ (List.mem_append_left _ hy)
            · exact List.mem_cons_of_mem _ (List.mem_append_right _ (e4 y hy))
  | validKey k =>
    rcases H with ⟨rfl, rfl, rfl⟩ | ⟨ra, len, t, rfl, rfl, rfl, A⟩
    · exact ⟨0, ⟨h, none⟩, [], fun _ _ => rfl, .inl ⟨rfl, rfl, rfl⟩, refl _ _, fun _ _ => rfl, fun h => by simp at h, fun _ h => absurd rfl h⟩
    · obtain ⟨N, path, t1, h1, hg, hs, H1, hperm, hsame⟩ := search_ok cmp k A
      have hget : getNode cmp k [] (erase t) = (path.map eraseF, erase t1) := by
        have := erase_getNode cmp k [] t
        rw [hg] at this; exact this
      have hp := addrs_plug path t1
      refine ⟨N, ⟨h1, some ra⟩, ra :: addrs (plug path t1), ?_, ?_, ⟨?_, ?_⟩, fun _ _ => rfl, fun h => by simp at h, fun h => by simp at h⟩
      · intro fuel hfu
        simp only [step, hs fuel hfu, Option.bind_eq_bind, Option.bind_some, path_read H1.around, Umka.Map.step, hget]
        cases t1 <;> simp only [ptr, erase] <;> rfl
      · refine .inr ⟨ra, len, _, rfl, ?_, rfl, H1.close⟩
        simp only [Umka.Map.step, hget, erase_plug]
        cases t1 <;> rfl
      · intro x hx _; exact hsame x hx
      · intro x hx
        refine .inl ?_
        rcases List.mem_cons.mp hx with rfl | hx
        · exact List.mem_cons_self
        · exact List.mem_cons_of_mem _ (hperm.mem_iff.mp (hp.mem_iff.mp hx))
  | hostGet k =>
    rcases H with ⟨rfl, rfl, rfl⟩ | ⟨ra, len, t, rfl, rfl, rfl, A⟩
    · exact ⟨0, ⟨h, none⟩, [], fun _ _ => rfl, .inl ⟨rfl, rfl, rfl⟩, refl _ _, fun _ _ => rfl, fun h => by simp at h, fun _ h => absurd rfl h⟩
    · obtain ⟨N, path, t1, h1, hg, hs, H1, hperm, hsame⟩ := search_ok cmp k A
      have hget : getNode cmp k [] (erase t) = (path.map eraseF, erase t1) := by
        have := erase_getNode cmp k [] t
        rw [hg] at this; exact this
      have hp := addrs_plug path t1
      refine ⟨N, ⟨h1, some ra⟩, ra :: addrs (plug path t1), ?_, ?_, ⟨?_, ?_⟩, fun _ _ => rfl, fun h => by simp at h, fun h => by simp at h⟩
      · intro fuel hfu
        simp only [step, hs fuel hfu, Option.bind_eq_bind, Option.bind_some, path_read H1.around, Umka.Map.step, hget]
        cases t1 with
        | nil => rfl
        | node l k' p x r =>
          simp only [ptr_node, erase, H1.tree.1, Option.bind_some]
      · refine .inr ⟨ra, len, _, rfl, ?_, rfl, H1.close⟩
        simp only [Umka.Map.step, hget, erase_plug]
        cases t1 <;> rfl
      · intro x hx _; exact hsame x hx
      · intro x hx
        refine .inl ?_
        rcases List.mem_cons.mp hx with rfl | hx
        · exact List.mem_cons_self
        · exact List.mem_cons_of_mem _ (hperm.mem_iff.mp (hp.mem_iff.mp hx))
  | len =>
    rcases H with ⟨rfl, rfl, rfl⟩ | ⟨ra, len, t, rfl, rfl, rfl, A⟩
    · exact ⟨0, ⟨h, none⟩, [], fun _ _ => rfl, .inl ⟨rfl, rfl, rfl⟩, refl _ _, fun _ _ => rfl, fun h => by simp at h, fun _ h => absurd rfl h⟩
    · refine ⟨0, ⟨h, some ra⟩, _, ?_, .inr ⟨ra, len, t, rfl, rfl, rfl, A⟩, refl _ _, fun _ _ => rfl, fun h => by simp at h, fun h => by simp at h⟩
      intro fuel _
      have : h ra = some ⟨none, ptr t, none, 0, none, len⟩ := A.around
      simp only [step, this, Option.bind_eq_bind, Option.bind_some, Umka.Map.step]
  | keys =>
    rcases H with ⟨rfl, rfl, rfl⟩ | ⟨ra, len, t, rfl, rfl, rfl, A⟩
    · exact ⟨0, ⟨h, none⟩, [], fun _ _ => rfl, .inl ⟨rfl, rfl, rfl⟩, refl _ _, fun _ _ => rfl, fun h => by simp at h, fun _ h => absurd rfl h⟩
    · refine ⟨t.size + 1, ⟨h, some ra⟩, _, ?_, .inr ⟨ra, len, t, rfl, rfl, rfl, A⟩, refl _ _, fun _ _ => rfl, fun h => by simp at h, fun h => by simp at h⟩
      intro fuel hfu
      obtain ⟨fuel, rfl⟩ : ∃ g, fuel = g + 1 := ⟨fuel - 1, by omega⟩
      have hr : h ra = some ⟨none, ptr t, none, 0, none, len⟩ := A.around
      have hk : (match ptr t with | none => some [] | some l => keysOf fuel h l) = some t.keys := by
        cases t with
        | nil => rfl
        | node a b c d e => exact keysOf_ok _ A.tree fuel (by omega) d.1 rfl
      have hks : keysOf (fuel + 1) h ra = some t.keys := by
        rw [keysOf]
        simp only [hr, Option.bind_eq_bind, Option.bind_some]
        cases hp : ptr t <;> simp only [hp] at hk ⊢ <;> simp [hk] <;> simp_all
      simp only [step, hr, hks, Option.bind_eq_bind, Option.bind_some, Umka.Map.step, erase_keys]

/-! ## Copies -/

/-- A copy of a subtree. -/
theorem copy_tree {alloc : Heap K V → Nat} (ha : FreshAlloc alloc) : ∀ (t : AT K V) {h : Heap K V}, Fin h → Reps h t →
    ∃ h' t', (∀ fuel, t.size + 1 ≤ fuel → copyNode alloc fuel h (ptr t) = some (h', ptr t')) ∧
      erase t' = erase t ∧ Reps h' t' ∧ (addrs t').Nodup ∧ After h h' [] (addrs t') := by
  intro t
  induction t with
  | nil =>
    intro h _ _
    refine ⟨h, .nil, ?_, rfl, trivial, List.nodup_nil, ⟨fun _ _ _ => rfl, fun x hx => by simp [addrs] at hx⟩⟩
    intro fuel hf
    obtain ⟨fuel, rfl⟩ : ∃ g, fuel = g + 1 := ⟨fuel - 1, by omega⟩
    rfl
  | node l k p x r ihl ihr =>
    intro h hf ⟨h1, h2, h3⟩
    let b := alloc h
    have hb : h b = none := ha h hf
    let h0 := h.put b (some ⟨none, none, some k, p, some x.2, 0⟩)
    have keep0 : ∀ (t : AT K V), Reps h t → Reps h0 t := fun t ht => by
      refine reps_congr (fun y hy => put_ne _ _ ?_) ht
      intro e; exact reps_alloc ht y hy (by rw [e]; exact hb)
    have hf0 : Fin h0 := by
      refine After.fin (F := []) (F' := [b]) ⟨fun y _ hy => put_ne _ _ (by simpa using hy), ?_⟩ hf
      intro y hy
      have : y = b := by simpa using hy
      subst this; exact .inr hb
    obtain ⟨hl, l', e1, e2, e3, e4, e5⟩ := ihl hf0 (keep0 l h2)
    have hbl : b ∉ addrs l' := by
      intro hm
      rcases e5.fresh b hm with h5 | h5
      · simp at h5
      · rw [show h0 b = _ from put_same _ _ _] at h5; simp at h5
    have hlb : hl b = some ⟨none, none, some k, p, some x.2, 0⟩ := by
      rw [e5.same b (by simp) hbl]; exact put_same _ _ _
    let h1' := hl.put b (some ⟨ptr l', none, some k, p, some x.2, 0⟩)
    -- the left child has been stored
    have left_ok : ∀ fuel, l.size + 1 ≤ fuel → (match ptr l with
        | none => some h0
        | some _ => do
          let (h, l) ← copyNode alloc fuel h0 (ptr l)
          let bn ← h b
          some (h.put b (some { bn with left := l }))) = some h1' := by
      intro fuel hfu
      cases hl0 : l with
      | nil =>
        subst hl0
        have hl' : l' = .nil := by cases l' with | nil => rfl | node _ _ _ _ _ => simp [erase] at e2
        subst hl'
        have := e1 1 (by simp [Tree.size])
        simp only [ptr, copyNode, Option.some.injEq, Prod.mk.injEq] at this
        simp only [ptr, Option.some.injEq]
        show h0 = hl.put b _
        rw [← this.1]
        funext y
        by_cases hy : y = b
        · subst hy; rw [put_same]; exact put_same _ _ _
        · rw [put_ne _ _ hy]
      | node a1 a2 a3 a4 a5 =>
        rw [← hl0]
        have hp : ptr l = some a4.1 := by rw [hl0]; rfl
        rw [hp]
        simp only
        rw [← hp, e1 fuel hfu]
        simp only [Option.bind_eq_bind, Option.bind_some, hlb]
        rfl
    have hf1 : Fin h1' := by
      refine After.fin (F := [b]) (F' := [b]) ⟨fun y _ hy => put_ne _ _ (by simpa using hy), fun y hy => .inl hy⟩ (e5.fin hf0)
    have same1 : ∀ y, y ≠ b → y ∉ addrs l' → h1' y = h y := by
      intro y hy hy2
      show (hl.put b _) y = _
      rw [put_ne _ _ hy, e5.same y (by simp) hy2]
      exact put_ne _ _ hy
    have frl : ∀ y ∈ addrs l', h y = none := by
      intro y hy
      rcases e5.fresh y hy with h5 | h5
      · simp at h5
      · have hyb : y ≠ b := fun e => hbl (e ▸ hy)
        rw [show h0 y = h y from put_ne _ _ hyb] at h5; exact h5
    have hr1 : Reps h1' r := by
      refine reps_congr (fun y hy => same1 y ?_ ?_) h3
      · intro e; exact reps_alloc h3 y hy (by rw [e]; exact hb)
      · intro hm; exact reps_alloc h3 y hy (frl y hm)
    obtain ⟨hr, r', g1, g2, g3, g4, g5⟩ := ihr hf1 hr1
    have hb1 : h1' b = some ⟨ptr l', none, some k, p, some x.2, 0⟩ := put_same _ _ _
    have hbr : b ∉ addrs r' := by
      intro hm
      rcases g5.fresh b hm with h5 | h5
      · simp at h5
      · rw [hb1] at h5; simp at h5
    have hrb : hr b = some ⟨ptr l', none, some k, p, some x.2, 0⟩ := by rw [g5.same b (by simp) hbr]; exact hb1
    let h2' := hr.put b (some ⟨ptr l', ptr r', some k, p, some x.2, 0⟩)
    have right_ok : ∀ fuel, r.size + 1 ≤ fuel → (match ptr r with
        | none => some h1'
        | some _ => do
          let (h, l) ← copyNode alloc fuel h1' (ptr r)
          let bn ← h b
          some (h.put b (some { bn with right := l }))) = some h2' := by
      intro fuel hfu
      cases hl0 : r with
      | nil =>
        subst hl0
        have hl' : r' = .nil := by cases r' with | nil => rfl | node _ _ _ _ _ => simp [erase] at g2
        subst hl'
        have := g1 1 (by simp [Tree.size])
        simp only [ptr, copyNode, Option.some.injEq, Prod.mk.injEq] at this
        simp only [ptr, Option.some.injEq]
        show h1' = hr.put b _
        rw [← this.1]
        funext y
        by_cases hy : y = b
        · subst hy; rw [put_same]; exact put_same _ _ _
        · rw [put_ne _ _ hy]
      | node a1 a2 a3 a4 a5 =>
        rw [← hl0]
        have hp : ptr r = some a4.1 := by rw [hl0]; rfl
        rw [hp]
        simp only
        rw [← hp, g1 fuel hfu]
        simp only [Option.bind_eq_bind, Option.bind_some, hrb]
        rfl
    have frr : ∀ y ∈ addrs r', y ∉ addrs l' ∧ h y = none := by
      intro y hy
      rcases g5.fresh y hy with h5 | h5
      · simp at h5
      · have hyb : y ≠ b := fun e => hbr (e ▸ hy)
        have hyl : y ∉ addrs l' := by
          intro hm
          refine reps_alloc e3 y hm ?_
          rw [← show h1' y = hl y from put_ne _ _ hyb]; exact h5
        exact ⟨hyl, by rw [← same1 y hyb hyl]; exact h5⟩
    refine ⟨h2', .node l' k p (b, x.2) r', ?_, ?_, ⟨put_same _ _ _, ?_, ?_⟩, ?_, ⟨?_, ?_⟩⟩
    · intro fuel hfu
      obtain ⟨fuel, rfl⟩ : ∃ g, fuel = g + 1 := ⟨fuel - 1, by omega⟩
      simp only [Tree.size] at hfu
      have hL := left_ok fuel (by omega)
      have hR := right_ok fuel (by omega)
      rw [ptr_node, copyNode]
      simp only [h1, Option.bind_eq_bind, Option.bind_some, zeroNode]
      simp only [Option.bind_eq_bind] at hL hR
      rw [show h.put (alloc h) _ = h0 from rfl, show alloc h = b from rfl]
      have right : (match ptr r with
          | none => some (h1', some b)
          | some _ => (copyNode alloc fuel h1' (ptr r)).bind fun q => (q.1 b).bind fun bn =>
              some (q.1.put b (some { bn with right := q.2 }), some b)) = some (h2', some b) := by
        cases hpr : ptr r with
        | none => simp only [hpr, Option.some.injEq] at hR ⊢; rw [hR]
        | some c =>
          simp only
          rw [← hpr, g1 fuel (by omega)]
          simp only [Option.bind_some, hrb]
          rfl
      cases hpl : ptr l with
      | none =>
        simp only [hpl, Option.some.injEq] at hL ⊢
        rw [hL]
        exact right
      | some c =>
        simp only
        rw [← hpl, e1 fuel (by omega)]
        simp only [Option.bind_some, hlb]
        exact right
    · simp only [erase, e2, g2]
    · refine reps_congr (fun y hy => ?_) e3
      have hyb : y ≠ b := fun e => hbl (e ▸ hy)
      show (hr.put b _) y = _
      rw [put_ne _ _ hyb, g5.same y (by simp) (fun hm => (frr y hm).1 hy)]
      exact put_ne _ _ hyb
    · refine reps_congr (fun y hy => ?_) g3
      exact put_ne _ _ (fun e => hbr (e ▸ hy))
    · simp only [addrs, List.nodup_cons, List.mem_append, not_or, List.nodup_append]
      refine ⟨⟨hbl, hbr⟩, e4, g4, ?_⟩
      intro a ha c hc e
      subst e; exact (frr a hc).1 ha
    · intro y _ hy
      simp only [addrs, List.mem_cons, List.mem_append, not_or] at hy
      show (hr.put b _) y = _
      rw [put_ne _ _ hy.1, g5.same y (by simp) hy.2.2, same1 y hy.1 hy.2.1]
    · intro y hy
      simp only [addrs, List.mem_cons, List.mem_append] at hy
      rcases hy with rfl | hy | hy
      · exact .inr hb
      · exact .inr (frl y hy)
      · exact .inr (frr y hy).2

/-- A copy of a map: the same length and the same tree, in nodes that were not in use. -/
theorem copy_map {alloc : Heap K V → Nat} (ha : FreshAlloc alloc) {h : Heap K V} (hf : Fin h) {ra : Nat} {len : Int} {t : AT K V}
    (H : At h ra len [] t) :
    ∃ N h' rb t', (∀ fuel, N ≤ fuel → copyNode alloc fuel h (some ra) = some (h', some rb)) ∧ erase t' = erase t ∧
      At h' rb len [] t' ∧ After h h' [] (rb :: addrs t') := by
  let b := alloc h
  have hb : h b = none := ha h hf
  have hr : h ra = some ⟨none, ptr t, none, 0, none, len⟩ := H.around
  let h0 := h.put b (some (⟨none, none, none, 0, none, len⟩ : Node K V))
  have ht0 : Reps h0 t := by
    refine reps_congr (fun y hy => put_ne _ _ ?_) H.tree
    intro e; exact reps_alloc H.tree y hy (by rw [e]; exact hb)
  have hf0 : Fin h0 := by
    refine After.fin (F := []) (F' := [b]) ⟨fun y _ hy => put_ne _ _ (by simpa using hy), ?_⟩ hf
    intro y hy
    have : y = b := by simpa using hy
    subst this; exact .inr hb
  obtain ⟨h1, t', e1, e2, e3, e4, e5⟩ := copy_tree ha t hf0 ht0
  have hbt : b ∉ addrs t' := by
    intro hm
    rcases e5.fresh b hm with h5 | h5
    · simp at h5
    · rw [show h0 b = _ from put_same _ _ _] at h5; simp at h5
  have h1b : h1 b = some ⟨none, none, none, 0, none, len⟩ := by
    rw [e5.same b (by simp) hbt]; exact put_same _ _ _
  let h' := h1.put b (some (⟨none, ptr t', none, 0, none, len⟩ : Node K V))
  refine ⟨t.size + 2, h', b, t', ?_, e2, ⟨put_same _ _ _, ?_, ?_⟩, ⟨?_, ?_⟩⟩
  · intro fuel hfu
    obtain ⟨fuel, rfl⟩ : ∃ g, fuel = g + 1 := ⟨fuel - 1, by omega⟩
    rw [copyNode]
    simp only [hr, Option.bind_eq_bind, Option.bind_some, zeroNode]
    rw [show h.put (alloc h) _ = h0 from rfl, show alloc h = b from rfl]
    cases ht : t with
    | nil =>
      subst ht
      have hl' : t' = .nil := by cases t' with | nil => rfl | node _ _ _ _ _ => simp [erase] at e2
      subst hl'
      have := e1 1 (by simp [Tree.size])
      simp only [ptr, copyNode, Option.some.injEq, Prod.mk.injEq] at this
      simp only [ptr]
      show some (h0, some b) = some (h1.put b _, some b)
      rw [← this.1]
      congr 2
      funext y
      by_cases hy : y = b
      · subst hy; rw [put_same]; exact put_same _ _ _
      · rw [put_ne _ _ hy]
    | node a1 a2 a3 a4 a5 =>
      rw [← ht]
      have hp : ptr t = some a4.1 := by rw [ht]; rfl
      rw [hp]
      simp only
      rw [← hp, e1 fuel (by omega)]
      simp only [Option.bind_some, h1b]
      rfl
  · refine reps_congr (fun y hy => ?_) e3
    exact put_ne _ _ (fun e => hbt (e ▸ hy))
  · simp only [pa, List.nil_append, List.nodup_cons]
    exact ⟨hbt, e4⟩
  · intro y _ hy
    simp only [List.mem_cons, not_or] at hy
    show (h1.put b _) y = _
    rw [put_ne _ _ hy.1, e5.same y (by simp) hy.2]
    exact put_ne _ _ hy.1
  · intro y hy
    rcases List.mem_cons.mp hy with rfl | hy
    · exact .inr hb
    · have hyb : y ≠ b := fun e => hbt (e ▸ hy)
      rcases e5.fresh y hy with h5 | h5
      · simp at h5
      · rw [show h0 y = h y from put_ne _ _ hyb] at h5; exact .inr h5

end Umka.MapHeap
