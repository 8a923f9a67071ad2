import Verif.Trace.Spec

/-! # The generator changes only trailing instructions -/

namespace Umka.Trace
open Umka.Peephole (Instr R Env)

def Cell.isIns (c : Cell) : Bool := match c.op with | .ins _ => true | _ => false

/-- Trailing instructions `old` are replaced by `new`; locations are those of `old`, or the current one. -/
structure Peep (g g' : Gen) : Prop where
  debug : g'.debug = g.debug
  code : ∃ pre old new, g.code = pre ++ old ∧ g'.code = pre ++ new ∧ (∀ c ∈ old, c.isIns = true) ∧
    (∀ c ∈ new, c.isIns = true ∧ (c.debug = g.debug ∨ ∃ c' ∈ old, c.debug = c'.debug))

theorem Peep.refl (g : Gen) : Peep g g := ⟨rfl, g.code, [], [], by simp, by simp, by simp, by simp⟩

/-- Two decompositions of a list. -/
theorem append_cases {α : Type} {a b c d : List α} (h : a ++ b = c ++ d) :
    (∃ m, a = c ++ m ∧ d = m ++ b) ∨ (∃ m, c = a ++ m ∧ b = m ++ d) := by
  rcases List.append_eq_append_iff.mp h with ⟨m, h1, h2⟩ | ⟨m, h1, h2⟩
  · exact .inr ⟨m, h1, h2⟩
  · exact .inl ⟨m, h1, h2⟩

theorem Peep.trans {g g1 g2 : Gen} (h1 : Peep g g1) (h2 : Peep g1 g2) : Peep g g2 := by
  obtain ⟨d1, p1, o1, n1, e1, e1', i1, j1⟩ := h1
  obtain ⟨d2, p2, o2, n2, e2, e2', i2, j2⟩ := h2
  refine ⟨d2.trans d1, ?_⟩
  rw [e1'] at e2
  rw [d1] at j2
  rcases append_cases e2 with ⟨m, hp, ho⟩ | ⟨m, hp, hn⟩
  · -- the second step reaches below the first one
    refine ⟨p2, m ++ o1, n2, by rw [e1, hp]; simp, e2', ?_, ?_⟩
    · intro c hc
      rcases List.mem_append.mp hc with hc | hc
      · exact i2 c (by rw [ho]; simp [hc])
      · exact i1 c hc
    · intro c hc
      obtain ⟨k1, k2⟩ := j2 c hc
      refine ⟨k1, ?_⟩
      rcases k2 with k2 | ⟨c', hc', k2⟩
      · exact .inl k2
      · rw [ho] at hc'
        rcases List.mem_append.mp hc' with hc' | hc'
        · exact .inr ⟨c', by simp [hc'], k2⟩
        · rcases (j1 c' hc').2 with h | ⟨c'', h', h⟩
          · exact .inl (k2.trans h)
          · exact .inr ⟨c'', by simp [h'], k2.trans h⟩
  · refine ⟨p1, o1, m ++ n2, e1, by rw [e2', hp]; simp, i1, ?_⟩
    intro c hc
    rcases List.mem_append.mp hc with hc | hc
    · exact j1 c (by rw [hn]; simp [hc])
    · obtain ⟨k1, k2⟩ := j2 c hc
      refine ⟨k1, ?_⟩
      rcases k2 with k2 | ⟨c', hc', k2⟩
      · exact .inl k2
      · rcases (j1 c' (by rw [hn]; simp [hc'])).2 with h | ⟨c'', h', h⟩
        · exact .inl (k2.trans h)
        · exact .inr ⟨c'', h', k2.trans h⟩

theorem peep_add (g : Gen) (i : Instr) : Peep g (add g i) :=
  ⟨rfl, g.code, [], [⟨.ins i, g.debug⟩], by simp, rfl, by simp, by simp [Cell.isIns]⟩

theorem insOf_some {o : Option Cell} {i : Instr} (h : insOf o = some i) : ∃ d, o = some ⟨.ins i, d⟩ := by
  rcases o with _ | ⟨op, d⟩
  · cases h
  · cases op <;> simp [insOf] at h
    subst h; exact ⟨d, rfl⟩

theorem last_some {l : List Cell} {i : Instr} (h : insOf l.getLast? = some i) : ∃ d, l = l.dropLast ++ [⟨.ins i, d⟩] := by
  obtain ⟨d, h⟩ := insOf_some h
  refine ⟨d, ?_⟩
  obtain ⟨ne, hl⟩ := List.getLast?_eq_some_iff.mp h
  rw [hl]; simp

theorem prev_some {g : Gen} {i : Instr} (h : prev g = some i) : ∃ d, g.code = g.code.dropLast ++ [⟨.ins i, d⟩] := by
  unfold prev at h
  split at h
  · cases h
  · exact last_some h

theorem prev2_some {g : Gen} {i : Instr} (h : prev2 g = some i) :
    ∃ d, (remove g).code = (remove g).code.dropLast ++ [⟨.ins i, d⟩] := by
  unfold prev2 at h
  split at h
  · cases h
  · exact last_some h

theorem prev3_some {g : Gen} {i : Instr} (h : prev3 g = some i) :
    ∃ d, (remove (remove g)).code = (remove (remove g)).code.dropLast ++ [⟨.ins i, d⟩] := by
  unfold prev3 at h
  split at h
  · cases h
  · exact last_some h

def LastIns (g : Gen) : Prop := ∃ pre i d, g.code = pre ++ [⟨.ins i, d⟩]

theorem prev_last {g : Gen} {i : Instr} (h : prev g = some i) : LastIns g := by
  obtain ⟨d, h⟩ := prev_some h; exact ⟨_, _, _, h⟩

theorem prev2_last {g : Gen} {i : Instr} (h : prev2 g = some i) : LastIns (remove g) := by
  obtain ⟨d, h⟩ := prev2_some h; exact ⟨_, _, _, h⟩

theorem prev3_last {g : Gen} {i : Instr} (h : prev3 g = some i) : LastIns (remove (remove g)) := by
  obtain ⟨d, h⟩ := prev3_some h; exact ⟨_, _, _, h⟩

theorem peep_remove {g : Gen} (h : LastIns g) : Peep g (remove g) := by
  obtain ⟨pre, i, d, h⟩ := h
  exact ⟨rfl, pre, [⟨.ins i, d⟩], [], h, by simp [remove, h], by simp [Cell.isIns], by simp⟩

theorem peep_edit {g : Gen} (h : LastIns g) (j : Instr) : Peep g (edit g j) := by
  obtain ⟨pre, i, d, h⟩ := h
  have he : edit g j = { g with code := pre ++ [⟨.ins j, d⟩] } := by simp [edit, h]
  rw [he]
  exact ⟨rfl, pre, [⟨.ins i, d⟩], [⟨.ins j, d⟩], h, rfl, by simp [Cell.isIns], by simp [Cell.isIns]⟩

theorem peep_edit2 {g : Gen} (h : LastIns g) (h2 : LastIns (remove g)) (j : Instr) : Peep g (edit2 g j) := by
  obtain ⟨pre, i, d, h⟩ := h
  obtain ⟨pre2, i2, d2, h2⟩ := h2
  have hr : (remove g).code = pre := by simp [remove, h]
  rw [hr] at h2
  have he : edit2 g j = { g with code := pre2 ++ [⟨.ins j, d2⟩, ⟨.ins i, d⟩] } := by
    simp [edit2, h, edit, hr, h2]
  rw [he]
  refine ⟨rfl, pre2, [⟨.ins i2, d2⟩, ⟨.ins i, d⟩], [⟨.ins j, d2⟩, ⟨.ins i, d⟩], by simp [h, h2], rfl, by simp [Cell.isIns], ?_⟩
  simp [Cell.isIns]

theorem peep_getFieldPtr (g : Gen) (off : Int) : Peep g (genGetFieldPtr g off) := by
  unfold genGetFieldPtr
  split
  · rename_i h; exact peep_edit (prev_last h) _
  · rename_i h; exact peep_edit (prev_last h) _
  · exact peep_add _ _

theorem peep_deref (k : Peephole.Kind) : ∀ (n : Nat) (g : Gen), Peep g (genDeref g k n)
  | 0, g => peep_add _ _
  | n + 1, g => by
    rw [genDeref]
    split
    · rename_i h; exact (peep_remove (prev_last h)).trans (peep_add _ _)
    · rename_i h; exact (peep_remove (prev_last h)).trans (peep_add _ _)
    · rename_i h; exact peep_edit (prev_last h) _
    · rename_i h; exact peep_edit (prev_last h) _
    · rename_i h; exact peep_edit (prev_last h) _
    · rename_i h
      split
      · exact (peep_remove (prev_last h)).trans (peep_deref k n _)
      · exact peep_edit (prev_last h) _
    · exact peep_add _ _

theorem bind_ok {α β : Type} {r : R α} {f : α → R β} {b : β} (h : r.bind f = .ok b) : ∃ a, r = .ok a ∧ f a = .ok b := by
  cases r with
  | ok a => exact ⟨a, rfl, h⟩
  | err e => cases h
  | ub => cases h

theorem peep_gen {e : Env ω} {g g' : Gen} {i : Instr} (h : gen e g i = .ok g') : Peep g g' := by
  unfold gen at h
  split at h
  · cases h
    unfold genPushLocalPtr
    split
    · rename_i h1 h2
      split
      · exact (peep_remove (prev_last h1)).trans ((peep_remove (prev2_last h2)).trans (peep_add _ _))
      · exact peep_add _ _
    · exact peep_add _ _
  · cases h
    unfold genPushReg
    split
    · rename_i h1
      split
      · exact peep_remove (prev_last h1)
      · exact peep_add _ _
    · exact peep_add _ _
  · cases h
    unfold genPushZero
    split
    · rename_i h1; exact peep_edit (prev_last h1) _
    · exact peep_add _ _
  · split at h
    · cases h
      unfold genPop
      split
      · rename_i h1; exact peep_edit (prev_last h1) _
      · exact peep_add _ _
    · cases h; exact peep_add _ _
  · cases h
    unfold genPopReg
    split
    · rename_i h1
      split
      · exact peep_remove (prev_last h1)
      · exact peep_add _ _
    · exact peep_add _ _
  · cases h
    unfold genSwapAssign
    split
    · rename_i h1; exact (peep_remove (prev_last h1)).trans (peep_add _ _)
    · exact peep_add _ _
  · cases h
    unfold genRefCnt
    split
    · split
      · exact Peep.refl _
      · exact Peep.refl _
      · split
        · exact Peep.refl _
        · exact peep_add _ _
      · exact peep_add _ _
    · exact Peep.refl _
  · cases h; exact peep_deref _ _ _
  · cases h; exact peep_getFieldPtr _ _
  · unfold genGetArrayPtr at h
    split at h
    · rename_i h1
      split at h
      · dsimp only at h
        split at h
        · cases h
        · split at h
          · cases h; exact (peep_remove (prev_last h1)).trans (peep_getFieldPtr _ _)
          · cases h
      · cases h; exact peep_add _ _
    · cases h; exact peep_add _ _
  · unfold genUnary at h
    split at h
    · rename_i h1
      obtain ⟨v, -, h⟩ := bind_ok h
      cases h; exact peep_edit (prev_last h1) _
    · cases h; exact peep_add _ _
  · unfold genBinary at h
    split at h
    · rename_i h1 h2
      split at h
      · obtain ⟨v, -, h⟩ := bind_ok h
        cases h; exact (peep_remove (prev_last h1)).trans (peep_edit (prev2_last h2) _)
      · cases h; exact peep_add _ _
    · cases h; exact peep_add _ _
  · unfold genCallBuiltin at h
    split at h
    · rename_i h1
      split at h
      · split at h
        · rename_i h2
          obtain ⟨v, -, h⟩ := bind_ok h
          cases h; exact (peep_remove (prev_last h1)).trans (peep_edit (prev2_last h2) _)
        · cases h; exact peep_add _ _
      · obtain ⟨v, -, h⟩ := bind_ok h
        cases h; exact peep_edit (prev_last h1) _
      · split at h
        · rename_i h2
          obtain ⟨v, -, h⟩ := bind_ok h
          cases h; exact peep_edit2 (prev_last h1) (prev2_last h2) _
        · cases h; exact peep_add _ _
      · cases h; exact peep_add _ _
    · cases h; exact peep_add _ _
  · cases h; exact peep_add _ _

theorem peep_dropEntry (g : Gen) : Peep g (dropEntry g) := by
  unfold dropEntry
  split
  · rename_i h; exact peep_remove (prev_last h)
  · exact Peep.refl _

theorem peep_dropCopy (g : Gen) : Peep g (dropCopy g) := by
  unfold dropCopy
  split
  · rename_i h1 h2 h3
    exact (peep_remove (prev_last h1)).trans ((peep_remove (prev2_last h2)).trans (peep_remove (prev3_last h3)))
  · exact Peep.refl _

end Umka.Trace
