import Verif.Trace.Module

/-! # Instructions that can fail are where the source code has them -/

namespace Umka.Trace
open Umka.Peephole (Instr R Env)

theorem marks_append (a b : List Cell) : marks (a ++ b) = marks a ++ marks b := List.filterMap_append

theorem marks_one (o : Op) (d : Debug) : marks [⟨o, d⟩] = o.mark.toList.map (·, d) := by
  unfold marks; cases h : o.mark <;> simp [h]

def at_ (i : Instr) (d : Debug) : List (Mark × Debug) := (markOf i).toList.map (·, d)

def always : Mark × Debug → Bool := fun x => x.1.always

/-- `new`: what the compiler kept of `src`. -/
structure Kept (src new : List (Mark × Debug)) : Prop where
  sub : new.Sublist src
  all : new.filter always = src.filter always

theorem Kept.refl (l : List (Mark × Debug)) : Kept l l := ⟨List.Sublist.refl _, rfl⟩

theorem Kept.append {a b a' b' : List (Mark × Debug)} (h : Kept a a') (h' : Kept b b') : Kept (a ++ b) (a' ++ b') :=
  ⟨h.sub.append h'.sub, by rw [List.filter_append, List.filter_append, h.all, h'.all]⟩

def Quiet (g g' : Gen) : Prop := marks g'.code = marks g.code ∧ g'.debug = g.debug

theorem Quiet.trans {a b c : Gen} (h : Quiet a b) (h' : Quiet b c) : Quiet a c := ⟨h'.1.trans h.1, h'.2.trans h.2⟩

def Step (g g' : Gen) (src : List (Mark × Debug)) : Prop := ∃ new, marks g'.code = marks g.code ++ new ∧ Kept src new

theorem Step.quiet {g g' : Gen} (h : Quiet g g') {src : List (Mark × Debug)} (hs : src.filter always = []) : Step g g' src :=
  ⟨[], by simp [h.1], List.nil_sublist _, hs.symm⟩

theorem Step.pre {g g1 g' : Gen} (h : Quiet g g1) {src : List (Mark × Debug)} (hs : Step g1 g' src) : Step g g' src := by
  obtain ⟨new, h1, h2⟩ := hs
  exact ⟨new, by rw [h1, h.1], h2⟩

theorem marks_put (g : Gen) (o : Op) : marks (put g o).code = marks g.code ++ o.mark.toList.map (·, g.debug) := by
  rw [← marks_one]; exact marks_append _ _

theorem step_add (g : Gen) (i : Instr) : Step g (add g i) (at_ i g.debug) := ⟨_, marks_put g (.ins i), Kept.refl _⟩

theorem quiet_add (g : Gen) {i : Instr} (h : markOf i = none) : Quiet g (add g i) := ⟨by
  have := marks_put g (.ins i)
  simp only [Op.mark, h] at this
  show marks (put g (.ins i)).code = _
  simpa using this, rfl⟩

theorem quiet_last {g : Gen} {j : Instr} {d : Debug} (h : g.code = g.code.dropLast ++ [⟨.ins j, d⟩]) (hj : markOf j = none) : Quiet g (remove g) := by
  refine ⟨?_, rfl⟩
  have : marks g.code = marks (g.code.dropLast ++ [⟨.ins j, d⟩]) := congrArg marks h
  rw [this, marks_append, marks_one]
  simp [Op.mark, hj, remove]

theorem quiet_remove {g : Gen} {j : Instr} (h : prev g = some j) (hj : markOf j = none) : Quiet g (remove g) := by
  obtain ⟨d, h⟩ := prev_some h; exact quiet_last h hj

theorem quiet_remove2 {g : Gen} {j : Instr} (h : prev2 g = some j) (hj : markOf j = none) : Quiet (remove g) (remove (remove g)) := by
  obtain ⟨d, h⟩ := prev2_some h; exact quiet_last h hj

theorem quiet_remove3 {g : Gen} {j : Instr} (h : prev3 g = some j) (hj : markOf j = none) :
    Quiet (remove (remove g)) (remove (remove (remove g))) := by
  obtain ⟨d, h⟩ := prev3_some h; exact quiet_last h hj

theorem quiet_editLast {g : Gen} {j i : Instr} {d : Debug} (h : g.code = g.code.dropLast ++ [⟨.ins j, d⟩]) (hj : markOf j = markOf i) :
    Quiet g (edit g i) := by
  have hl : g.code.getLast? = some ⟨.ins j, d⟩ := by rw [h]; simp
  refine ⟨?_, by simp [edit, hl]⟩
  have : marks g.code = marks (g.code.dropLast ++ [⟨.ins j, d⟩]) := congrArg marks h
  rw [this, marks_append, marks_one]
  simp only [edit, hl, marks_append, marks_one, Op.mark, hj]

theorem quiet_edit {g : Gen} {j i : Instr} (h : prev g = some j) (hj : markOf j = markOf i) : Quiet g (edit g i) := by
  obtain ⟨d, h⟩ := prev_some h; exact quiet_editLast h hj

theorem quiet_edit_remove {g : Gen} {j i : Instr} (h : prev2 g = some j) (hj : markOf j = markOf i) : Quiet (remove g) (edit (remove g) i) := by
  obtain ⟨d, h⟩ := prev2_some h; exact quiet_editLast h hj

theorem quiet_edit2 {g : Gen} {j j2 i : Instr} (h : prev g = some j) (h2 : prev2 g = some j2) (hj : markOf j2 = markOf i) : Quiet g (edit2 g i) := by
  have q := quiet_edit_remove h2 hj
  obtain ⟨d, h⟩ := prev_some h
  have hl : g.code.getLast? = some ⟨.ins j, d⟩ := by rw [h]; simp
  refine ⟨?_, by simp [edit2, hl]⟩
  have : marks g.code = marks (g.code.dropLast ++ [⟨.ins j, d⟩]) := congrArg marks h
  rw [this, marks_append]
  simp only [edit2, hl, marks_append]
  rw [q.1]; rfl

theorem quiet_getFieldPtr (g : Gen) (off : Int) : Quiet g (genGetFieldPtr g off) := by
  unfold genGetFieldPtr
  split
  · rename_i h; exact quiet_edit h rfl
  · rename_i h; exact quiet_edit h rfl
  · exact quiet_add _ rfl

theorem step_deref (k : Peephole.Kind) : ∀ (n : Nat) (g : Gen), Step g (genDeref g k n) (at_ (.deref k) g.debug)
  | 0, g => step_add _ _
  | n + 1, g => by
    have hs : (at_ (.deref k) g.debug).filter always = [] := rfl
    rw [genDeref]
    split
    · rename_i h; exact .quiet ((quiet_remove h rfl).trans (quiet_add _ rfl)) hs
    · rename_i h; exact .quiet ((quiet_remove h rfl).trans (quiet_add _ rfl)) hs
    · rename_i h; exact .quiet (quiet_edit h (by rfl)) hs
    · rename_i h; exact .quiet (quiet_edit h (by rfl)) hs
    · rename_i h; exact .quiet (quiet_edit h (by rfl)) hs
    · rename_i h
      split
      · exact .pre (quiet_remove h rfl) (step_deref k n _)
      · exact .quiet (quiet_edit h (by rfl)) hs
    · exact step_add _ _

theorem step_gen {e : Env ω} {g g' : Gen} {i : Instr} (h : gen e g i = .ok g') : Step g g' (at_ i g.debug) := by
  unfold gen at h
  split at h
  · cases h
    unfold genPushLocalPtr
    split
    · rename_i h1 h2
      split
      · exact .quiet ((quiet_remove h1 rfl).trans ((quiet_remove2 h2 rfl).trans (quiet_add _ rfl))) rfl
      · exact step_add _ _
    · exact step_add _ _
  · cases h
    unfold genPushReg
    split
    · rename_i h1
      split
      · exact .quiet (quiet_remove h1 rfl) rfl
      · exact step_add _ _
    · exact step_add _ _
  · cases h
    unfold genPushZero
    split
    · rename_i h1; exact .quiet (quiet_edit h1 (by rfl)) rfl
    · exact step_add _ _
  · split at h
    · cases h
      unfold genPop
      split
      · rename_i h1; exact .quiet (quiet_edit h1 (by rfl)) rfl
      · exact .quiet (quiet_add _ rfl) rfl
    · cases h; exact step_add _ _
  · cases h
    unfold genPopReg
    split
    · rename_i h1
      split
      · exact .quiet (quiet_remove h1 rfl) rfl
      · exact step_add _ _
    · exact step_add _ _
  · cases h
    unfold genSwapAssign
    split
    · rename_i h1; exact .quiet ((quiet_remove h1 rfl).trans (quiet_add _ rfl)) rfl
    · exact step_add _ _
  · cases h
    unfold genRefCnt
    split
    · split
      · exact .quiet ⟨rfl, rfl⟩ rfl
      · exact .quiet ⟨rfl, rfl⟩ rfl
      · split
        · exact .quiet ⟨rfl, rfl⟩ rfl
        · exact step_add _ _
      · exact step_add _ _
    · exact .quiet ⟨rfl, rfl⟩ rfl
  · cases h; exact step_deref _ _ _
  · cases h; exact .quiet (quiet_getFieldPtr _ _) rfl
  · unfold genGetArrayPtr at h
    split at h
    · rename_i h1
      split at h
      · dsimp only at h
        split at h
        · cases h
        · split at h
          · cases h; exact .quiet ((quiet_remove h1 rfl).trans (quiet_getFieldPtr _ _)) rfl
          · cases h
      · cases h; exact step_add _ _
    · cases h; exact step_add _ _
  · unfold genUnary at h
    split at h
    · rename_i h1
      obtain ⟨v, -, h⟩ := bind_ok h
      cases h; exact .quiet (quiet_edit h1 (by rfl)) rfl
    · cases h; exact step_add _ _
  · unfold genBinary at h
    split at h
    · rename_i h1 h2
      split at h
      · obtain ⟨v, -, h⟩ := bind_ok h
        cases h; exact .quiet ((quiet_remove h1 rfl).trans (quiet_edit_remove h2 (by rfl))) rfl
      · cases h; exact step_add _ _
    · cases h; exact step_add _ _
  · unfold genCallBuiltin at h
    split at h
    · rename_i h1
      split at h
      · split at h
        · rename_i h2
          obtain ⟨v, -, h⟩ := bind_ok h
          cases h; exact .quiet ((quiet_remove h1 rfl).trans (quiet_edit_remove h2 (by rfl))) rfl
        · cases h; exact step_add _ _
      · obtain ⟨v, -, h⟩ := bind_ok h
        cases h; exact .quiet (quiet_edit h1 (by rfl)) rfl
      · split at h
        · rename_i h2
          obtain ⟨v, -, h⟩ := bind_ok h
          cases h; exact .quiet (quiet_edit2 h1 h2 (by rfl)) rfl
        · cases h; exact step_add _ _
      · cases h; exact step_add _ _
    · cases h; exact step_add _ _
  · cases h; exact step_add _ _

theorem quiet_dropEntry (g : Gen) : Quiet g (dropEntry g) := by
  unfold dropEntry
  split
  · rename_i h; exact quiet_remove h rfl
  · exact ⟨rfl, rfl⟩

theorem quiet_dropCopy (g : Gen) : Quiet g (dropCopy g) := by
  unfold dropCopy
  split
  · rename_i h1 h2 h3
    exact (quiet_remove h1 rfl).trans ((quiet_remove2 h2 rfl).trans (quiet_remove3 h3 rfl))
  · exact ⟨rfl, rfl⟩

/-! ## Stubs -/

/-- The optimizer does not change this cell, and it cannot fail. -/
def Hole (l : List Cell) (q : Nat) : Prop := ∃ c, l[q]? = some c ∧ c.isIns = false ∧ c.op.mark = none

def Holes (l l' : List Cell) : Prop := ∀ q, Hole l q → Hole l' q

theorem Holes.peep {g g' : Gen} (h : Peep g g') : Holes g.code g'.code := by
  obtain ⟨-, pre, old, new, e1, e2, ho, -⟩ := h
  intro q ⟨c, hc, hi, hm⟩
  rw [e1] at hc
  rw [e2]
  by_cases hq : q < pre.length
  · rw [List.getElem?_append_left hq] at hc
    exact ⟨c, by rw [List.getElem?_append_left hq]; exact hc, hi, hm⟩
  · rw [List.getElem?_append_right (by omega)] at hc
    rw [ho c (List.mem_of_getElem? hc)] at hi; cases hi

theorem Holes.put (g : Gen) (o : Op) : Holes g.code (Umka.Trace.put g o).code := by
  intro q ⟨c, hc, hh⟩
  exact ⟨c, by rw [show (Umka.Trace.put g o).code = g.code ++ [⟨o, g.debug⟩] from rfl, List.getElem?_append_left (lt_of_some hc)]; exact hc, hh⟩

theorem Holes.set {l : List Cell} {q : Nat} {c : Cell} (hi : c.isIns = false) (hm : c.op.mark = none) : Holes l (l.set q c) := by
  intro p ⟨x, hx, hh⟩
  by_cases e : q = p
  · subst e
    exact ⟨c, by rw [List.getElem?_set]; simp [lt_of_some hx], hi, hm⟩
  · exact ⟨x, by rw [List.getElem?_set_ne e]; exact hx, hh⟩

theorem marks_set {l : List Cell} {q : Nat} {c : Cell} (h : Hole l q) (hm : c.op.mark = none) : marks (l.set q c) = marks l := by
  obtain ⟨x, hx, -, hxm⟩ := h
  induction l generalizing q with
  | nil => rfl
  | cons a l ih =>
    cases q with
    | zero =>
      simp at hx; subst hx
      simp [marks, hm, hxm]
    | succ q =>
      have := ih (q := q) (by simpa using hx)
      simp only [marks] at this
      simp only [marks, List.set_cons_succ, List.filterMap_cons]
      rw [this]

theorem hole_stub (g : Gen) : Hole (put g .stub).code g.ip := ⟨⟨.stub, g.debug⟩, by simp [put, Gen.ip], rfl, rfl⟩

/-- What a piece of code adds. -/
structure Adds (s s' : St) (src : List (Mark × Debug)) : Prop where
  new : ∃ new, marks s'.gen.code = marks s.gen.code ++ new ∧ Kept src new
  holes : Holes s.gen.code s'.gen.code
  gotos : ∀ x l, s'.gotos x = some l → ∀ q ∈ l, Hole s'.gen.code q

theorem Adds.trans {s s1 s2 : St} {a b : List (Mark × Debug)} (h : Adds s s1 a) (h' : Adds s1 s2 b) : Adds s s2 (a ++ b) := by
  obtain ⟨n, e, k⟩ := h.new
  obtain ⟨n', e', k'⟩ := h'.new
  exact ⟨⟨n ++ n', by rw [e', e, List.append_assoc], k.append k'⟩, fun q hq => h'.holes q (h.holes q hq), h'.gotos⟩

theorem Adds.pre {s s1 s2 : St} {b : List (Mark × Debug)} (h : Adds s s1 []) (h' : Adds s1 s2 b) : Adds s s2 b := h.trans h'

/-- No change of the lists of stubs. -/
theorem Adds.flat {s : St} {g : Gen} {src : List (Mark × Debug)} (hs : Step s.gen g src) (hh : Holes s.gen.code g.code)
    (hg : ∀ x l, s.gotos x = some l → ∀ q ∈ l, Hole s.gen.code q) : Adds s { s with gen := g } src :=
  ⟨hs, hh, fun x l hl q hq => hh q (hg x l hl q hq)⟩

theorem epilog_marks : ∀ {qs : List Nat} {g : Gen}, (∀ q ∈ qs, Hole g.code q) →
    marks (gotosEpilog g qs).code = marks g.code ∧ Holes g.code (gotosEpilog g qs).code
  | [], _, _ => ⟨rfl, fun _ h => h⟩
  | q :: qs, g, h => by
    have hs : Holes g.code (goFromTo g q g.ip).code := Holes.set rfl rfl
    obtain ⟨h1, h2⟩ := epilog_marks (qs := qs) (g := goFromTo g q g.ip) (fun p hp => hs p (h p (by simp [hp])))
    rw [gotosEpilog]
    exact ⟨h1.trans (marks_set (h q (by simp)) rfl), fun p hp => h2 p (hs p hp)⟩

abbrev Stubs (s : St) : Prop := ∀ x l, s.gotos x = some l → ∀ q ∈ l, Hole s.gen.code q

/-- The body of a function, without the instructions of its frame. -/
theorem body_marks {e : Env ω} {body post : Code} {s0 s2 s3 : St} {d : Debug} (hd : s0.gen.debug = d)
    (hb : compile e body (begin s0) = .ok s2)
    (hp : compile e post { s2 with gen := gotosEpilog s2.gen ((s2.gotos .ret).getD []), gotos := fun _ => none } = .ok s3)
    (ihb : ∀ {s s' : St}, compile e body s = .ok s' → Stubs s → Adds s s' (body.marks s.gen.debug.file s.gen.debug.fn s.gen.debug.line) ∧
      s'.gen.debug = { s.gen.debug with line := body.last s.gen.debug.line })
    (ihp : ∀ {s s' : St}, compile e post s = .ok s' → Stubs s → Adds s s' (post.marks s.gen.debug.file s.gen.debug.fn s.gen.debug.line) ∧
      s'.gen.debug = { s.gen.debug with line := post.last s.gen.debug.line }) :
    (∃ new, marks s3.gen.code = marks s0.gen.code ++ new ∧ Kept (body.marks d.file d.fn d.line ++ post.marks d.file d.fn (body.last d.line)) new) ∧
    Holes (begin s0).gen.code s3.gen.code ∧ s3.gen.debug = { d with line := post.last (body.last d.line) } := by
  subst hd
  obtain ⟨a1, d1⟩ := ihb hb (by intro x l hl q hq; simp only [begin] at hl; split at hl <;> cases hl; cases hq)
  have hq : ∀ q ∈ (s2.gotos .ret).getD [], Hole s2.gen.code q := by
    intro q hq
    cases hg : s2.gotos .ret with
    | none => rw [hg] at hq; cases hq
    | some l => rw [hg] at hq; exact a1.gotos _ _ hg q hq
  obtain ⟨m2, h2⟩ := epilog_marks hq
  obtain ⟨a3, d3⟩ := ihp hp (by intro x l hl; cases hl)
  have hd2 : (gotosEpilog s2.gen ((s2.gotos .ret).getD [])).debug = { s0.gen.debug with line := body.last s0.gen.debug.line } := by
    rw [epilog_debug]; exact d1
  obtain ⟨n1, e1, k1⟩ := a1.new
  obtain ⟨n3, e3, k3⟩ := a3.new
  have e0 : marks (begin s0).gen.code = marks s0.gen.code := by
    have : marks (put (savePos s0.gen) .stub).code = marks s0.gen.code ++ [] := marks_put (savePos s0.gen) .stub
    rw [List.append_nil] at this; exact this
  refine ⟨⟨n1 ++ n3, ?_, ?_⟩, ?_, ?_⟩
  · rw [e3]
    show marks (gotosEpilog s2.gen ((s2.gotos .ret).getD [])).code ++ n3 = _
    rw [m2, e1, e0, List.append_assoc]
  · refine k1.append ?_
    have : (⟨s2.gen, s2.gotos, s2.protos, s2.table⟩ : St) = s2 := rfl
    change Kept (post.marks (gotosEpilog s2.gen ((s2.gotos .ret).getD [])).debug.file (gotosEpilog s2.gen ((s2.gotos .ret).getD [])).debug.fn
      (gotosEpilog s2.gen ((s2.gotos .ret).getD [])).debug.line) n3 at k3
    rw [hd2] at k3; exact k3
  · intro q hq; exact a3.holes q (h2 q (a1.holes q hq))
  · rw [d3]
    show ({ (gotosEpilog s2.gen ((s2.gotos .ret).getD [])).debug with line := post.last (gotosEpilog s2.gen ((s2.gotos .ret).getD [])).debug.line } : Debug) = _
    rw [hd2]

/-- The instructions of the frame cannot fail with these marks. -/
theorem finish_marks {s : St} {start : Nat} {prevFn : String} {fn : Nat → Fn} (h : Hole s.gen.code start) :
    marks (finish s start prevFn fn).gen.code = marks s.gen.code ∧ Holes s.gen.code (finish s start prevFn fn).gen.code := by
  have h1 : Holes s.gen.code (patch s.gen start .enter).code := Holes.set rfl rfl
  have m1 : marks (patch s.gen start .enter).code = marks s.gen.code := marks_set h rfl
  refine ⟨?_, fun q hq => Holes.put _ _ q (Holes.put _ _ q (h1 q hq))⟩
  show marks (put (put (patch s.gen start .enter) .leave) .ret).code = _
  rw [marks_put, marks_put, m1]
  simp [Op.mark]

theorem quiet_put {g : Gen} {o : Op} (h : o.mark = none) : marks (put g o).code = marks g.code := by
  rw [marks_put, h]; simp

theorem compile_marks (e : Env ω) : ∀ (k : Code) {s s' : St}, compile e k s = .ok s' → Stubs s →
    Adds s s' (k.marks s.gen.debug.file s.gen.debug.fn s.gen.debug.line) ∧
      s'.gen.debug = { s.gen.debug with line := k.last s.gen.debug.line } := by
  intro k
  induction k with
  | nil => intro s s' h hg; cases h; exact ⟨⟨⟨[], by simp, Kept.refl _⟩, fun _ h => h, hg⟩, rfl⟩
  | tok l k ih =>
    intro s s' h hg
    rw [compile] at h
    obtain ⟨a, d⟩ := ih (s := s.tok l) h hg
    exact ⟨⟨a.new, a.holes, a.gotos⟩, d⟩
  | op i k ih =>
    intro s s' h hg
    rw [compile] at h
    obtain ⟨g, h1, h⟩ := bind_ok h
    have p := peep_gen h1
    have a0 : Adds s { s with gen := g } _ := .flat (step_gen h1) (.peep p) hg
    obtain ⟨a, d⟩ := ih h a0.gotos
    have hd : g.debug = s.gen.debug := p.debug
    simp only [hd] at a d
    exact ⟨a0.trans a, d⟩
  | dropEntry k ih =>
    intro s s' h hg
    rw [compile] at h
    have q := quiet_dropEntry s.gen
    have a0 : Adds s { s with gen := dropEntry s.gen } [] := .flat (.quiet q rfl) (.peep (peep_dropEntry _)) hg
    obtain ⟨a, d⟩ := ih h a0.gotos
    simp only [q.2] at a d
    exact ⟨a0.pre a, d⟩
  | dropCopy k ih =>
    intro s s' h hg
    rw [compile] at h
    have q := quiet_dropCopy s.gen
    have a0 : Adds s { s with gen := dropCopy s.gen } [] := .flat (.quiet q rfl) (.peep (peep_dropCopy _)) hg
    obtain ⟨a, d⟩ := ih h a0.gotos
    simp only [q.2] at a d
    exact ⟨a0.pre a, d⟩
  | call k ih =>
    intro s s' h hg
    rw [compile] at h
    have a0 : Adds s { s with gen := put s.gen .call } [(.call, s.gen.debug)] :=
      .flat ⟨_, marks_put _ _, Kept.refl _⟩ (.put _ _) hg
    obtain ⟨a, d⟩ := ih h a0.gotos
    exact ⟨a0.trans a, d⟩
  | label k ih =>
    intro s s' h hg
    rw [compile] at h
    obtain ⟨a, d⟩ := ih (s := { s with gen := savePos s.gen }) h hg
    exact ⟨⟨a.new, a.holes, a.gotos⟩, d⟩
  | goto k ih =>
    intro s s' h hg
    rw [compile] at h
    have a0 : Adds s { s with gen := put (jumpTo s.gen s.gen.ip) .jump } [] :=
      .flat (.quiet ⟨quiet_put (g := jumpTo s.gen s.gen.ip) rfl, rfl⟩ rfl) (.put (jumpTo s.gen s.gen.ip) _) hg
    obtain ⟨a, d⟩ := ih h a0.gotos
    exact ⟨a0.pre a, d⟩
  | block save extra body k ihb ih =>
    intro s s' h hg
    rw [compile] at h
    obtain ⟨s2, hb, h⟩ := bind_ok h
    let g0 : Gen := if save then savePos s.gen else s.gen
    have hc0 : g0.code = s.gen.code := by simp only [g0]; split <;> rfl
    have hd0 : g0.debug = s.gen.debug := by simp only [g0]; split <;> rfl
    have a0 : Adds s { s with gen := put g0 .stub } [] :=
      .flat (.quiet (g' := put g0 .stub) ⟨by rw [quiet_put rfl, hc0], hd0⟩ rfl) (by rw [← hc0]; exact .put g0 _) hg
    obtain ⟨a1, d1⟩ := ihb hb a0.gotos
    have hq : Hole s2.gen.code s.gen.ip := a1.holes _ (by
      have := hole_stub g0
      rw [Gen.ip, hc0] at this; exact this)
    have hs : Holes s2.gen.code (goFromTo s2.gen s.gen.ip (s2.gen.ip + extra)).code := Holes.set rfl rfl
    have a2 : Adds s2 { s2 with gen := goFromTo s2.gen s.gen.ip (s2.gen.ip + extra) } [] :=
      .flat (.quiet (g' := goFromTo s2.gen s.gen.ip (s2.gen.ip + extra)) ⟨marks_set hq rfl, rfl⟩ rfl) hs a1.gotos
    obtain ⟨a3, d3⟩ := ih h a2.gotos
    have hd2 : (goFromTo s2.gen s.gen.ip (s2.gen.ip + extra)).debug = { s.gen.debug with line := body.last s.gen.debug.line } := by
      show s2.gen.debug = _
      rw [d1]
      show ({ g0.debug with line := body.last g0.debug.line } : Debug) = _
      rw [hd0]
    have a1' : Adds _ s2 (body.marks g0.debug.file g0.debug.fn g0.debug.line) := a1
    rw [hd0] at a1'
    simp only [hd2] at a3 d3
    exact ⟨(a0.pre a1').trans (a2.pre a3), d3⟩
  | scope x body k ihb ih =>
    intro s s' h hg
    rw [compile] at h
    obtain ⟨s2, hb, h⟩ := bind_ok h
    obtain ⟨a1, d1⟩ := ihb (s := { s with gotos := setGotos s.gotos x (some []) }) hb (by
      intro y l hl q hq
      simp only [setGotos] at hl
      split at hl
      · cases hl; cases hq
      · exact hg y l hl q hq)
    have hq : ∀ q ∈ (s2.gotos x).getD [], Hole s2.gen.code q := by
      intro q hq
      cases hx : s2.gotos x with
      | none => rw [hx] at hq; cases hq
      | some l => rw [hx] at hq; exact a1.gotos _ _ hx q hq
    obtain ⟨m2, h2⟩ := epilog_marks hq
    have a2 : Adds s { s2 with gen := gotosEpilog s2.gen ((s2.gotos x).getD []), gotos := setGotos s2.gotos x (s.gotos x) }
        (body.marks s.gen.debug.file s.gen.debug.fn s.gen.debug.line) := by
      obtain ⟨n1, e1, k1⟩ := a1.new
      refine ⟨⟨n1, m2.trans e1, k1⟩, fun q hq => h2 q (a1.holes q hq), ?_⟩
      intro y l hl q hq
      simp only [setGotos] at hl
      split at hl
      · exact h2 q (a1.holes q (hg x l hl q hq))
      · exact h2 q (a1.gotos y l hl q hq)
    obtain ⟨a3, d3⟩ := ih h a2.gotos
    have hd2 : (gotosEpilog s2.gen ((s2.gotos x).getD [])).debug = { s.gen.debug with line := body.last s.gen.debug.line } := by
      rw [epilog_debug]; exact d1
    simp only [hd2] at a3 d3
    exact ⟨a2.trans a3, d3⟩
  | exit x k ih =>
    intro s s' h hg
    rw [compile] at h
    split at h
    · cases h
    · rename_i l hx
      have a0 : Adds s { s with gen := put s.gen .stub, gotos := setGotos s.gotos x (some (l ++ [s.gen.ip])) } [] := by
        refine ⟨⟨[], by simp only [List.append_nil]; exact quiet_put rfl, Kept.refl _⟩, .put _ _, ?_⟩
        intro y l' hl q hq
        simp only [setGotos] at hl
        split at hl
        · cases hl
          rcases List.mem_append.mp hq with hq | hq
          · exact Holes.put _ _ q (hg x l hx q hq)
          · simp at hq; subst hq; exact hole_stub s.gen
        · exact Holes.put _ _ q (hg y l' hl q hq)
      obtain ⟨a, d⟩ := ih h a0.gotos
      exact ⟨a0.pre a, d⟩
  | lit first after body post k ihb ihp ih =>
    intro s s' h hg
    rw [compile] at h
    obtain ⟨s2, hb, h⟩ := bind_ok h
    obtain ⟨s3, hp, h⟩ := bind_ok h
    let s0 : St := { s with gen := put s.gen .stub }
    obtain ⟨⟨n, e1, k1⟩, hh, d1⟩ := body_marks (s0 := (s0.tok first).setFn "<unknown>") (d := ⟨s.gen.debug.file, "<unknown>", first⟩) rfl hb hp ihb ihp
    have hh' : Holes (put (savePos ((s0.tok first).setFn "<unknown>").gen) .stub).code s3.gen.code := hh
    have hstart : Hole s3.gen.code s0.gen.ip := hh' _ (hole_stub (savePos ((s0.tok first).setFn "<unknown>").gen))
    have hin : Holes s0.gen.code s3.gen.code := fun q hq => hh' q (Holes.put (savePos ((s0.tok first).setFn "<unknown>").gen) _ q hq)
    obtain ⟨m4, h4⟩ := finish_marks (s := { s3 with gotos := s0.gotos }) (prevFn := s0.gen.debug.fn)
      (fn := fun stop => { start := s0.gen.ip, stop, file := s.gen.debug.file, name := "<unknown>", lines := fnLines first body post, ext := false }) hstart
    let s5 : St := (finish { s3 with gotos := s0.gotos } s0.gen.ip s0.gen.debug.fn fun stop =>
          { start := s0.gen.ip, stop, file := s.gen.debug.file, name := "<unknown>", lines := fnLines first body post, ext := false }).tok after
    have hkeep : Holes s.gen.code s5.gen.code := fun q hq => h4 q (hin q (Holes.put _ _ q hq))
    have hq5 : Hole s5.gen.code s.gen.ip := h4 _ (hin _ (hole_stub s.gen))
    have hs6 : Holes s5.gen.code (goFromTo s5.gen s.gen.ip s5.gen.ip).code := Holes.set rfl rfl
    have a6 : Adds s { s5 with gen := goFromTo s5.gen s.gen.ip s5.gen.ip }
        (body.marks s.gen.debug.file "<unknown>" first ++ post.marks s.gen.debug.file "<unknown>" (body.last first)) := by
      refine ⟨⟨n, ?_, k1⟩, fun q hq => hs6 q (hkeep q hq), fun x l hl q hq => hs6 q (hkeep q (hg x l hl q hq))⟩
      rw [show marks (goFromTo s5.gen s.gen.ip s5.gen.ip).code = marks s5.gen.code from marks_set hq5 rfl]
      rw [show marks s5.gen.code = marks s3.gen.code from m4, e1]
      rw [show marks ((s0.tok first).setFn "<unknown>").gen.code = marks s.gen.code from quiet_put rfl]
    obtain ⟨a7, d7⟩ := ih h a6.gotos
    have hd5 : (goFromTo s5.gen s.gen.ip s5.gen.ip).debug = { s.gen.debug with line := after } := by
      show (⟨s3.gen.debug.file, s.gen.debug.fn, after⟩ : Debug) = _
      rw [d1]
    have a7' : Adds _ s' (k.marks s5.gen.debug.file s5.gen.debug.fn s5.gen.debug.line) := a7
    have hd5' : s5.gen.debug = { s.gen.debug with line := after } := hd5
    rw [hd5'] at a7'
    refine ⟨a6.trans a7', ?_⟩
    rw [d7]
    show ({ s5.gen.debug with line := k.last s5.gen.debug.line } : Debug) = _
    rw [hd5']; rfl

/-! ## Modules -/

structure Grown (s s' : St) (src : List (Mark × Debug)) : Prop where
  new : ∃ new, marks s'.gen.code = marks s.gen.code ++ new ∧ Kept src new
  holes : Holes s.gen.code s'.gen.code
  protos : ∀ p ∈ s'.protos, Hole s'.gen.code p.2
  file : s'.gen.debug.file = s.gen.debug.file

theorem Grown.trans {s s1 s2 : St} {a b : List (Mark × Debug)} (h : Grown s s1 a) (h' : Grown s1 s2 b) : Grown s s2 (a ++ b) := by
  obtain ⟨n, e, k⟩ := h.new
  obtain ⟨n', e', k'⟩ := h'.new
  exact ⟨⟨n ++ n', by rw [e', e, List.append_assoc], k.append k'⟩, fun q hq => h'.holes q (h.holes q hq), h'.protos, h'.file.trans h.file⟩

theorem Grown.pre {s s1 s2 : St} {b : List (Mark × Debug)} (h : Grown s s1 []) (h' : Grown s1 s2 b) : Grown s s2 b := h.trans h'

theorem marks_resolve {s : St} {name : String} {q : Nat} (h : Hole s.gen.code q) :
    marks (resolveFn s name q).gen.code = marks s.gen.code ∧ Holes s.gen.code (resolveFn s name q).gen.code ∧
      (resolveFn s name q).gen.debug = s.gen.debug := by
  let g0 : Gen := goFromTo s.gen q s.gen.ip
  have m0 : marks g0.code = marks s.gen.code := marks_set h rfl
  have h0 : Holes s.gen.code g0.code := Holes.set rfl rfl
  let g1 : Gen := put (savePos g0) .stub
  have m1 : marks g1.code = marks g0.code := quiet_put (g := savePos g0) rfl
  have h1 : Holes g0.code g1.code := .put (savePos g0) _
  have m2 : marks (add g1 (.other 0)).code = marks g1.code := quiet_put rfl
  have h2 : Holes g1.code (add g1 (.other 0)).code := .put g1 _
  obtain ⟨m3, h3⟩ := finish_marks (s := { s with gen := add g1 (.other 0) }) (start := g0.ip) (prevFn := s.gen.debug.fn)
    (fn := fun stop => { start := g0.ip, stop, file := s.gen.debug.file, name, lines := [s.gen.debug.line], ext := true })
    (h2 _ (hole_stub (savePos g0)))
  exact ⟨m3.trans (m2.trans (m1.trans m0)), fun p hp => h3 p (h2 p (h1 p (h0 p hp))), rfl⟩

theorem marks_resolveAll : ∀ (ps : List (String × Nat)) {s : St}, (∀ p ∈ ps, Hole s.gen.code p.2) →
    marks (resolveAll s ps).gen.code = marks s.gen.code ∧ Holes s.gen.code (resolveAll s ps).gen.code ∧
      (resolveAll s ps).gen.debug = s.gen.debug
  | [], _, _ => ⟨rfl, fun _ h => h, rfl⟩
  | (name, q) :: ps, s, h => by
    obtain ⟨m, hh, d⟩ := marks_resolve (name := name) (h (name, q) (by simp))
    obtain ⟨m', hh', d'⟩ := marks_resolveAll ps (s := resolveFn s name q) (fun p hp => hh _ (h p (by simp [hp])))
    exact ⟨m'.trans m, fun p hp => hh' p (hh p hp), d'.trans d⟩

theorem marks_entryPoint {s : St} (name : String) (h : ∀ p ∈ s.protos, Hole s.gen.code p.2) : Grown s (entryPoint s name) [] ∧
    (entryPoint s name).gen.debug = s.gen.debug := by
  unfold entryPoint
  split
  · rename_i q hq
    have hm : (name, q) ∈ s.protos := by
      have : ∀ (l : List (String × Nat)), l.lookup name = some q → (name, q) ∈ l := by
        intro l
        induction l with
        | nil => intro h; cases h
        | cons a l ih =>
          intro h
          obtain ⟨k, v⟩ := a
          rw [List.lookup_cons] at h
          split at h
          · rename_i he
            cases h
            have : name = k := by simpa using he
            subst this; simp
          · exact List.mem_cons_of_mem _ (ih h)
      exact this _ hq
    have hs : Holes s.gen.code (goFromTo s.gen q s.gen.ip).code := Holes.set rfl rfl
    refine ⟨⟨⟨[], by simp only [List.append_nil]; exact marks_set (h _ hm) rfl, Kept.refl _⟩, hs, ?_, rfl⟩, rfl⟩
    intro p hp
    exact hs _ (h p ((List.mem_filter.mp hp).1))
  · exact ⟨⟨⟨[], by simp, Kept.refl _⟩, fun _ h => h, h, rfl⟩, rfl⟩

theorem decls_marks (e : Env ω) : ∀ (k : Decls) {s s' : St}, compileDecls e k s = .ok s' → (∀ p ∈ s.protos, Hole s.gen.code p.2) →
    Grown s s' (k.marks s.gen.debug.file) := by
  intro k
  induction k with
  | nil => intro s s' h hp; cases h; exact ⟨⟨[], by simp, Kept.refl _⟩, fun _ h => h, hp, rfl⟩
  | tok l k ih =>
    intro s s' h hp
    rw [compileDecls] at h
    have g := ih (s := s.tok l) h hp
    exact ⟨g.new, g.holes, g.protos, g.file⟩
  | proto name k ih =>
    intro s s' h hp
    rw [compileDecls] at h
    have g0 : Grown s { s with gen := put s.gen .stub, protos := s.protos ++ [(name, s.gen.ip)] } [] := by
      refine ⟨⟨[], by simp only [List.append_nil]; exact quiet_put rfl, Kept.refl _⟩, .put _ _, ?_, rfl⟩
      intro p h'
      rcases List.mem_append.mp h' with h' | h'
      · exact Holes.put _ _ _ (hp p h')
      · simp at h'; subst h'; exact hole_stub s.gen
    exact g0.pre (ih h g0.protos)
  | fn name shown first after body post k ih =>
    intro s s' h hp
    rw [compileDecls] at h
    obtain ⟨s2, hb, h⟩ := bind_ok h
    obtain ⟨s3, hpost, h⟩ := bind_ok h
    obtain ⟨g1, d1⟩ := marks_entryPoint (s := (s.tok first).setFn shown) name hp
    obtain ⟨⟨n, e2, k2⟩, hh, d2⟩ := body_marks (s0 := entryPoint ((s.tok first).setFn shown) name) (d := ⟨s.gen.debug.file, shown, first⟩)
      d1 hb hpost (fun h => compile_marks e body h) (fun h => compile_marks e post h)
    generalize hs0 : entryPoint ((s.tok first).setFn shown) name = s0 at *
    have hh' : Holes (put (savePos s0.gen) .stub).code s3.gen.code := hh
    obtain ⟨m4, h4⟩ := finish_marks (s := { s3 with gotos := s0.gotos }) (start := s0.gen.ip) (prevFn := s.gen.debug.fn)
      (fn := fun stop => { start := s0.gen.ip, stop, file := s.gen.debug.file, name := shown, lines := fnLines first body post, ext := false })
      (hh' _ (hole_stub (savePos s0.gen)))
    have hprot : s3.protos = s0.protos := by
      obtain ⟨nn, nl, r, -, -⟩ := compile_rel e body hb (A := fun _ => True) trivial (fun _ _ => trivial)
      obtain ⟨nn', nl', r', -, -⟩ := compile_rel e post hpost (A := fun _ => True) trivial (fun _ _ => trivial)
      exact r'.protos.trans r.protos
    let s5 : St := (finish { s3 with gotos := s0.gotos } s0.gen.ip s.gen.debug.fn fun stop =>
      { start := s0.gen.ip, stop, file := s.gen.debug.file, name := shown, lines := fnLines first body post, ext := false }).tok after
    have hk : Holes s0.gen.code s5.gen.code := fun q hq => h4 q (hh' q (Holes.put (savePos s0.gen) _ q hq))
    have g5 : Grown s s5 (body.marks s.gen.debug.file shown first ++ post.marks s.gen.debug.file shown (body.last first)) := by
      obtain ⟨n1, e1, k1⟩ := g1.new
      have hn1 : n1 = [] := List.sublist_nil.mp k1.sub
      refine ⟨⟨n, ?_, k2⟩, fun q hq => hk q (g1.holes q hq), ?_, ?_⟩
      · show marks s5.gen.code = marks ((s.tok first).setFn shown).gen.code ++ n
        rw [show marks s5.gen.code = marks s3.gen.code from m4, e2, e1, hn1]; simp
      · intro p h'
        exact hk _ (g1.protos p (hprot ▸ h'))
      · show s3.gen.debug.file = _
        rw [d2]
    have g6 := ih (s := s5) h g5.protos
    rw [g5.file] at g6
    exact g5.trans g6
  | «import» file ds k ihd ih =>
    intro s s' h hp
    rw [compileDecls] at h
    obtain ⟨s2, hd, h⟩ := bind_ok h
    have g1 := ihd hd (by intro p h'; cases h')
    obtain ⟨m2, h2, -⟩ := marks_resolveAll s2.protos (s := s2) g1.protos
    let s3 : St := { endModule s2 with gen := { (endModule s2).gen with debug := s.gen.debug }, protos := s.protos }
    have g3 : Grown s s3 (ds.marks file) := by
      obtain ⟨n1, e1, k1⟩ := g1.new
      have hk : Holes s.gen.code s3.gen.code := fun q hq => h2 q (g1.holes q hq)
      exact ⟨⟨n1, m2.trans e1, k1⟩, hk, fun p h' => hk _ (hp p h'), rfl⟩
    exact g3.trans (ih (s := s3) h g3.protos)

theorem program_marks (e : Env ω) {file : String} {ds : Decls} {s : St} (h : compileProgram e file ds = .ok s) :
    Kept (ds.marks file) (marks s.gen.code) := by
  rw [compileProgram] at h
  dsimp only at h
  obtain ⟨s1, h1, h⟩ := bind_ok h
  have g1 := decls_marks e ds h1 (by intro p h'; cases h')
  obtain ⟨m2, h2, -⟩ := marks_resolveAll s1.protos (s := s1) g1.protos
  cases h
  obtain ⟨n, e1, k⟩ := g1.new
  have hz : Hole (endModule s1).gen.code 0 := h2 0 (g1.holes 0 ⟨_, rfl, rfl, rfl⟩)
  have e1' : marks s1.gen.code = n := e1
  show Kept (ds.marks file) (marks (put (add (goFromTo (endModule s1).gen 0 (endModule s1).gen.ip) (.other 1)) .halt).code)
  rw [quiet_put rfl, show marks (add (goFromTo (endModule s1).gen 0 (endModule s1).gen.ip) (.other 1)).code =
    marks (goFromTo (endModule s1).gen 0 (endModule s1).gen.ip).code from quiet_put rfl,
    show marks (goFromTo (endModule s1).gen 0 (endModule s1).gen.ip).code = marks (endModule s1).gen.code from marks_set hz rfl]
  rw [show marks (endModule s1).gen.code = marks s1.gen.code from m2, e1']
  exact k

end Umka.Trace
