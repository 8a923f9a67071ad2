import Verif.ArrRef.Lemmas
/-! # Reference counts of dynamic arrays: the results -/

namespace Umka.ArrRef

open Spec

theorem bind_ok {α β : Type} {r : Except Err α} {f : α → Except Err β} {y : β} (e : (r >>= f) = .ok y) : ∃ x, r = .ok x ∧ f x = .ok y := by
  cases r with
  | error x => cases e
  | ok x => exact ⟨x, rfl, e⟩

theorem inc_same : ∀ {ks : List Nat} {h h' : Heap}, inc h ks = .ok h' → Same h h'
  | [], h, h', e => by rw [inc] at e; cases e; exact Same.refl _
  | k :: ks, h, h', e => by
    rw [inc] at e
    split at e
    · cases e
    · split at e
      · cases e
      · exact (same_modify h k _).trans (inc_same e)

theorem Same.items {h h' : Heap} (s : Same h h') (k : Nat) : (h'[k]?).map (·.items) = (h[k]?).map (·.items) := by
  have := congrArg (Option.map Prod.fst) (s k)
  simpa [Option.map_map, Function.comp_def] using this

theorem arr_get {s : State} {a : Nat} {r : Option Nat} (e : arr s a = .ok r) : s.arrs[a]? = some r := by
  unfold arr at e
  split at e
  · cases e
  · rename_i q; cases e; exact q

theorem val_get {s : State} {a : Nat} {r : Item} (e : val s a = .ok r) : s.vals[a]? = some r := by
  unfold val at e
  split at e
  · cases e
  · rename_i q; cases e; exact q

theorem look_some {h : Heap} {k : Nat} {c : List Item × Nat} (e : look h (some k) = .ok c) : (h[k]?).map (·.items) = some c.1 := by
  unfold look at e
  simp only [] at e
  split at e
  · cases e
  · rename_i d q
    split at e
    · cases e
    · cases e; rw [q]; rfl

theorem look_contents {s : State} {a : Nat} {r : Option Nat} {c : List Item × Nat} (e : arr s a = .ok r) (l : look s.heap r = .ok c) :
    contents s a = some c.1 := by
  unfold contents
  rw [arr_get e]
  cases r with
  | none => cases l; rfl
  | some k => exact look_some l

theorem read_source {s : State} {src : Src} {x : Item} (e : src.read s = .ok x) : source s src = some x := by
  cases src with
  | var v => exact val_get e
  | item b j f =>
    obtain ⟨r, e1, e⟩ := bind_ok (show (arr s b >>= _) = _ from e)
    obtain ⟨c, e2, e⟩ := bind_ok e
    show (contents s b).bind (·[j]?) = _
    rw [look_contents e1 e2]
    split at e
    · cases e
    · rename_i q; cases e; exact q

theorem contents_push (s : State) (h : Heap) (k : Nat) : contents (s.push h (some k)) s.arrs.length = (h[k]?).map (·.items) := by
  simp [contents, State.push]

theorem contents_push_none (s : State) (h : Heap) : contents (s.push h none) s.arrs.length = some [] := by
  simp [contents, State.push]

theorem fresh_contents {s s' : State} {its : List Item} (e : fresh s its = .ok s') : contents s' s.arrs.length = some its := by
  unfold fresh at e
  obtain ⟨h, e1, e⟩ := bind_ok e
  cases e
  rw [contents_push, (inc_same e1).items]
  simp

theorem setItems_items {h : Heap} {k : Nat} {its old : List Item} (e : (h[k]?).map (·.items) = some old) :
    ((setItems h k its)[k]?).map (·.items) = some its := by
  rw [setItems_get, if_pos rfl]
  cases q : h[k]? with
  | none => rw [q] at e; cases e
  | some c => rfl

theorem grow_contents {s s' : State} {k : Nat} {its old : List Item} {new : List Nat} (l : (s.heap[k]?).map (·.items) = some old)
    (e : (do
      let h ← inc s.heap [k]
      let h ← inc (setItems h k its) new
      return s.push h (some k)) = Except.ok s') : contents s' s.arrs.length = some its := by
  obtain ⟨h, e1, e⟩ := bind_ok e
  obtain ⟨h', e2, e⟩ := bind_ok e
  cases e
  rw [contents_push, (inc_same e2).items]
  exact setItems_items (by rw [(inc_same e1).items]; exact l)

theorem append_contents {s s' : State} {a : Nat} {new : List Item} (e : append s a new = .ok s') :
    ∃ old, contents s a = some old ∧ contents s' s.arrs.length = some (old ++ new) := by
  unfold append at e
  obtain ⟨r, e1, e⟩ := bind_ok e
  obtain ⟨c, e2, e⟩ := bind_ok e
  refine ⟨c.1, look_contents e1 e2, ?_⟩
  split at e
  · rename_i le
    cases r with
    | none =>
      cases e; cases e2
      simp at le
      subst le
      exact contents_push_none _ _
    | some k => exact grow_contents (look_some e2) e
  · exact fresh_contents e

theorem insertIdx_eq {α : Type} (l : List α) (i : Nat) (x : α) (le : i ≤ l.length) : l.insertIdx i x = l.take i ++ x :: l.drop i := by
  induction l generalizing i with
  | nil => simp at le; subst le; rfl
  | cons a l ih =>
    cases i with
    | zero => rfl
    | succ i => simp at le; simp [List.insertIdx_succ_cons, ih i le]

theorem items_get {s : State} : ∀ {vs : List Nat} {xs : List Item}, items s vs = .ok xs → vs.mapM (s.vals[·]?) = some xs
  | [], xs, e => by unfold items at e; cases e; rfl
  | v :: vs, xs, e => by
    unfold items at e
    obtain ⟨x, e1, e⟩ := bind_ok e
    obtain ⟨ys, e2, e⟩ := bind_ok e
    cases e
    rw [List.mapM_cons, val_get e1, items_get e2]
    rfl

theorem exec_result {s s' : State} {o : Op} (b : Builtin o) (v : ¬ Overlap s o) (e : exec s o = .ok s') :
    (contents s' s.arrs.length).isSome ∧ contents s' s.arrs.length = result s o := by
  suffices ∃ l, contents s' s.arrs.length = some l ∧ result s o = some l by
    obtain ⟨l, p, q⟩ := this
    rw [p, q]; exact ⟨rfl, rfl⟩
  cases o with
  | declare => exact b.elim
  | declareItem => exact b.elim
  | assign _ _ => exact b.elim
  | clear _ => exact b.elim
  | get _ _ _ => exact b.elim
  | put _ _ _ => exact b.elim
  | pack _ _ => exact b.elim
  | unpack _ _ => exact b.elim
  | make n => exact ⟨_, fresh_contents e, rfl⟩
  | literal vs =>
    obtain ⟨xs, e1, e⟩ := bind_ok (show (items s vs >>= _) = _ from e)
    exact ⟨_, fresh_contents e, items_get e1⟩
  | copy a =>
    obtain ⟨r, e1, e⟩ := bind_ok (show (arr s a >>= _) = _ from e)
    cases r with
    | none => cases e; exact ⟨_, contents_push_none _ _, by simp [result, contents, arr_get e1]⟩
    | some k =>
      obtain ⟨c, e2, e⟩ := bind_ok e
      exact ⟨_, fresh_contents e, look_contents e1 e2⟩
  | append a src =>
    obtain ⟨x, e1, e⟩ := bind_ok (show (src.read s >>= _) = _ from e)
    obtain ⟨l, p, q⟩ := append_contents e
    exact ⟨_, q, by simp [result, p, read_source e1]⟩
  | appendAll a d =>
    obtain ⟨r, e1, e⟩ := bind_ok (show (arr s d >>= _) = _ from e)
    obtain ⟨c, e2, e⟩ := bind_ok e
    obtain ⟨l, p, q⟩ := append_contents e
    exact ⟨_, q, by simp [result, p, look_contents e1 e2]⟩
  | insert a i src =>
    obtain ⟨r, e1, e⟩ := bind_ok (show (arr s a >>= _) = _ from e)
    obtain ⟨c, e2, e⟩ := bind_ok e
    obtain ⟨x, e3, e⟩ := bind_ok e
    dsimp only at e
    split at e
    · cases e
    rename_i le
    have re : result s (.insert a i src) = some (c.1.take i ++ x :: c.1.drop i) := by
      simp [result, look_contents e1 e2, read_source e3, insertIdx_eq c.1 i x (by omega)]
    refine ⟨_, ?_, re⟩
    split at e
    · cases r with
      | none => cases e
      | some k =>
        have mv : src.moved s k i c.1 x = x := by
          unfold Src.moved
          split
          · rename_i b j
            rw [if_neg]
            intro q
            exact v ⟨by rw [arr_get e1, q.1], q.2⟩
          · rfl
        have := grow_contents (look_some e2) e
        rw [mv] at this
        exact this
    · exact fresh_contents e
  | delete a i =>
    obtain ⟨r, e1, e⟩ := bind_ok (show (arr s a >>= _) = _ from e)
    cases r with
    | none => cases e
    | some k =>
      obtain ⟨c, e2, e⟩ := bind_ok e
      split at e
      · cases e
      · obtain ⟨h, e3, e⟩ := bind_ok e
        obtain ⟨h', e4, e⟩ := bind_ok e
        cases e
        refine ⟨c.1.eraseIdx i, ?_, by simp [result, look_contents e1 e2]⟩
        rw [contents_push]
        exact setItems_items (by rw [(dec_same e4).items, (inc_same e3).items]; exact look_some e2)
  | slice a i j =>
    obtain ⟨r, e1, e⟩ := bind_ok (show (arr s a >>= _) = _ from e)
    obtain ⟨c, e2, e⟩ := bind_ok e
    dsimp only at e
    split at e
    · cases e
    · refine ⟨_, fresh_contents e, ?_⟩
      simp [result, look_contents e1 e2, List.drop_take]

end Umka.ArrRef
