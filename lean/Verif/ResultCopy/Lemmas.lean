import Verif.ResultCopy.Spec
import Verif.Peephole.Lemmas
/-! # Copies of function results: lemmas -/

namespace Umka.ResultCopy
open Umka.Peephole (Instr Item CItem Gen Env Ty Kind R Tok)
open Spec
variable {ω : Type}

/-! ## The generator never removes instructions before the last jump -/

/-- `lastJump` lies within the code. -/
def Fine (g : Gen) : Prop := g.lastJump ≤ g.rcode.length

theorem prev_ip {g : Gen} {i : Instr} (h : Peephole.prev g = some i) : g.lastJump + 1 ≤ g.rcode.length := by
  unfold Peephole.prev at h
  split at h
  · cases h
  · rename_i h'
    have : ¬ g.rcode.length < g.lastJump + 1 := h'
    omega

theorem prev2_ip {g : Gen} {i : Instr} (h : Peephole.prev2 g = some i) : g.lastJump + 2 ≤ g.rcode.length := by
  unfold Peephole.prev2 at h
  split at h
  · cases h
  · rename_i h'
    have : ¬ g.rcode.length < g.lastJump + 2 := h'
    omega

theorem fine_add {g : Gen} (h : Fine g) (i : Instr) : Fine (Peephole.add g i) := by
  simp only [Fine, Peephole.add, List.length_cons] at h ⊢
  omega

theorem fine_remove {g : Gen} (h : g.lastJump + 1 ≤ g.rcode.length) : Fine (Peephole.remove g) := by
  simp only [Fine, Peephole.remove, List.length_tail]
  omega

theorem fine_replace {g : Gen} (h : g.lastJump + 1 ≤ g.rcode.length) (i : Instr) : Fine (Peephole.replace g i) :=
  fine_add (fine_remove h) i

theorem fine_remove2 {g : Gen} (h : g.lastJump + 2 ≤ g.rcode.length) :
    (Peephole.remove g).lastJump + 1 ≤ (Peephole.remove g).rcode.length := by
  simp only [Peephole.remove, List.length_tail]
  omega

theorem fine_field {g : Gen} (h : Fine g) (off : Int) : Fine (Peephole.genGetFieldPtr g off) := by
  unfold Peephole.genGetFieldPtr
  split
  · rename_i h'; exact fine_replace (prev_ip h') _
  · rename_i h'; exact fine_replace (prev_ip h') _
  · exact fine_add h _

theorem fine_deref (k : Kind) : ∀ (n : Nat) {g : Gen}, Fine g → Fine (Peephole.genDeref g k n)
  | 0, _, h => fine_add h _
  | n + 1, g, h => by
    rw [Peephole.genDeref]
    split
    · rename_i h'; exact fine_add (fine_remove (prev_ip h')) _
    · rename_i h'; exact fine_add (fine_remove (prev_ip h')) _
    · rename_i h'; exact fine_replace (prev_ip h') _
    · rename_i h'; exact fine_replace (prev_ip h') _
    · rename_i h'; exact fine_replace (prev_ip h') _
    · rename_i h'
      split
      · exact fine_deref k n (fine_remove (prev_ip h'))
      · exact fine_replace (prev_ip h') _
    · exact fine_add h _

theorem bind_eq_ok {α β : Type} {x : R α} {f : α → R β} {b : β} (h : x.bind f = .ok b) :
    ∃ a, x = .ok a ∧ f a = .ok b := by
  cases x with
  | ok a => exact ⟨a, rfl, h⟩
  | err => cases h
  | ub => cases h

theorem fine_gen (e : Env ω) {g g' : Gen} (h : Fine g) (i : Instr) (hg : Peephole.gen e g i = .ok g') : Fine g' := by
  unfold Peephole.gen at hg
  split at hg
  · cases hg
    unfold Peephole.genPushLocalPtr
    split
    · rename_i h1 h2
      split
      · exact fine_add (fine_remove (fine_remove2 (prev2_ip h2))) _
      · exact fine_add h _
    · exact fine_add h _
  · cases hg
    unfold Peephole.genPushReg
    split
    · rename_i h1
      split
      · exact fine_remove (prev_ip h1)
      · exact fine_add h _
    · exact fine_add h _
  · cases hg
    unfold Peephole.genPushZero
    split
    · rename_i h1; exact fine_replace (prev_ip h1) _
    · exact fine_add h _
  · split at hg
    · cases hg
      unfold Peephole.genPop
      split
      · rename_i h1; exact fine_replace (prev_ip h1) _
      · exact fine_add h _
    · cases hg; exact fine_add h _
  · cases hg
    unfold Peephole.genPopReg
    split
    · rename_i h1
      split
      · exact fine_remove (prev_ip h1)
      · exact fine_add h _
    · exact fine_add h _
  · cases hg
    unfold Peephole.genSwapAssign
    split
    · rename_i h1; exact fine_replace (prev_ip h1) _
    · exact fine_add h _
  · cases hg
    unfold Peephole.genRefCnt
    split
    · split
      · exact h
      · exact h
      · split
        · exact h
        · exact fine_add h _
      · exact fine_add h _
    · exact h
  · cases hg; exact fine_deref _ _ h
  · cases hg; exact fine_field h _
  · unfold Peephole.genGetArrayPtr at hg
    split at hg
    · rename_i h1
      split at hg
      · simp only at hg
        split at hg
        · cases hg
        · split at hg
          · cases hg; exact fine_field (fine_remove (prev_ip h1)) _
          · cases hg
      · cases hg; exact fine_add h _
    · cases hg; exact fine_add h _
  · unfold Peephole.genUnary at hg
    split at hg
    · rename_i h1
      obtain ⟨v, _, hv⟩ := bind_eq_ok hg
      cases hv; exact fine_replace (prev_ip h1) _
    · cases hg; exact fine_add h _
  · unfold Peephole.genBinary at hg
    split at hg
    · rename_i h1 h2
      split at hg
      · obtain ⟨v, _, hv⟩ := bind_eq_ok hg
        cases hv; exact fine_replace (fine_remove2 (prev2_ip h2)) _
      · cases hg; exact fine_add h _
    · cases hg; exact fine_add h _
  · unfold Peephole.genCallBuiltin at hg
    split at hg
    · rename_i h1
      split at hg
      · split at hg
        · rename_i h2
          obtain ⟨v, _, hv⟩ := bind_eq_ok hg
          cases hv; exact fine_replace (fine_remove2 (prev2_ip h2)) _
        · cases hg; exact fine_add h _
      · obtain ⟨v, _, hv⟩ := bind_eq_ok hg
        cases hv; exact fine_replace (prev_ip h1) _
      · split at hg
        · rename_i h2
          obtain ⟨v, _, hv⟩ := bind_eq_ok hg
          cases hv; exact fine_add (fine_replace (fine_remove2 (prev2_ip h2)) _) _
        · cases hg; exact fine_add h _
      · cases hg; exact fine_add h _
    · cases hg; exact fine_add h _
  · cases hg; exact fine_add h _

theorem fine_update {g : Gen} (h : Fine g) : Fine (Peephole.updateLastJump g) := by
  simp only [Fine, Peephole.updateLastJump, Gen.ip] at h ⊢
  omega

theorem fine_item (e : Env ω) {g g' : Gen} (h : Fine g) (it : Item) (hg : Peephole.genItem e g it = .ok g') : Fine g' := by
  cases it with
  | op i => exact fine_gen e h i hg
  | label l upd =>
    cases hg
    show Fine (if upd = true then Peephole.updateLastJump g else g)
    split
    · exact fine_update h
    · exact h
  | jump c l upd =>
    cases hg
    have : Fine (if upd = true then Peephole.updateLastJump g else g) := by
      split
      · exact fine_update h
      · exact h
    simp only [Fine, List.length_cons] at this ⊢
    omega

/-! ## Outcomes -/

theorem Res.bind_ok {α β : Type} {x : Res α} {f : α → Res β} {b : β} (h : x.bind f = .ok b) :
    ∃ a, x = .ok a ∧ f a = .ok b := by
  cases x with
  | ok a => exact ⟨a, rfl, h⟩
  | err => cases h
  | ub => cases h

theorem ofR_ok {α : Type} {x : R α} {a : α} (h : ofR x = .ok a) : x = .ok a := by
  cases x with
  | ok => cases h; rfl
  | err => cases h
  | ub => cases h

theorem emit_ok {e : Env ω} {st st' : State} {it : Item} (h : emit e st it = .ok st') :
    ∃ g, Peephole.genItem e st.g it = .ok g ∧
      st' = { st with g := g, note := if ends it then none else st.note } := by
  obtain ⟨g, h1, h2⟩ := Res.bind_ok h
  cases h2
  exact ⟨g, ofR_ok h1, rfl⟩

theorem emit_silent (e : Env ω) (st : State) (tok : Tok) (t : Ty) (h : t.collected = false) :
    emit e st (.op (.refCnt tok t)) = .ok st := by
  have h1 : Peephole.genItem e st.g (.op (.refCnt tok t)) = .ok st.g := by
    show R.ok (Peephole.genRefCnt st.g tok t) = _
    unfold Peephole.genRefCnt
    rw [h]
    rfl
  unfold emit
  rw [h1]
  show Res.ok _ = _
  simp only [ends, h, Bool.false_eq_true, if_false]

/-! ## Invariants -/

/-- Identifiers were allocated; something like the global block is left. -/
structure Sane (st : State) : Prop where
  fine : Fine st.g
  ids : ∀ b ∈ st.blocks, ∀ i ∈ b.idents, i.id < st.nextId
  blocks : st.blocks ≠ []

theorem sane_init : Sane init := by
  refine ⟨Nat.le_refl _, ?_, by simp [init]⟩
  intro b hb i hi
  simp only [init, List.mem_singleton] at hb
  subst hb
  cases hi

theorem Sane.emit {e : Env ω} {st st' : State} {it : Item} (h : Sane st) (he : emit e st it = .ok st') : Sane st' := by
  obtain ⟨g, h1, rfl⟩ := emit_ok he
  exact ⟨fine_item e h.fine it h1, h.ids, h.blocks⟩

theorem Sane.emitAll {e : Env ω} : ∀ (its : List Item) {st st' : State}, Sane st →
    ResultCopy.emitAll e its st = .ok st' → Sane st'
  | [], _, _, h, he => by cases he; exact h
  | it :: its, st, st', h, he => by
    obtain ⟨st1, h1, h2⟩ := Res.bind_ok he
    exact (h.emit h1).emitAll its h2

theorem emitAll_blocks {e : Env ω} : ∀ (its : List Item) {st st' : State},
    ResultCopy.emitAll e its st = .ok st' → st'.blocks = st.blocks ∧ st'.nextId = st.nextId
  | [], _, _, he => by cases he; exact ⟨rfl, rfl⟩
  | it :: its, st, st', he => by
    obtain ⟨st1, h1, h2⟩ := Res.bind_ok he
    obtain ⟨g, _, rfl⟩ := emit_ok h1
    have := emitAll_blocks its h2
    exact this

/-- Blocks with the same identifiers, with larger frames perhaps. -/
theorem allocStack_idents (t : RType) : ∀ {bs bs' : List Block} {off : Int},
    allocStack t bs = .ok (bs', off) → bs'.map (·.idents) = bs.map (·.idents) ∧ off < 0
  | [], _, _, h => by cases h
  | b :: bs, bs', off, h => by
    unfold allocStack at h
    split at h
    · split at h
      · cases h
      · cases h
        exact ⟨rfl, by omega⟩
    · obtain ⟨⟨bs1, off1⟩, h1, h2⟩ := Res.bind_ok h
      cases h2
      obtain ⟨h3, h4⟩ := allocStack_idents t h1
      exact ⟨by simp [h3], h4⟩

/-- What allocating a variable does. -/
theorem allocVar_ok {st st' : State} {t : RType} {temp used : Bool} {off : Int}
    (h : allocVar st t temp used = .ok (st', off)) :
    st'.g = st.g ∧ st'.note = st.note ∧ st'.last = st.last ∧ st'.nextId = st.nextId + 1 ∧
    st'.blocks.map (·.idents) = ((⟨st.nextId, off, t.ty.collected, temp, used, t.ty⟩ :: (st.blocks.map (·.idents)).headD []) ::
      (st.blocks.map (·.idents)).tail) ∧ (1 < st.blocks.length → off < 0) := by
  obtain ⟨g, note, blocks, last, nextId⟩ := st
  unfold allocVar at h
  simp only at h
  cases hl : blocks.getLast? with
  | none => rw [hl] at h; cases h
  | some glob =>
    rw [hl] at h
    simp only at h
    have hbl : blocks = blocks.dropLast ++ [glob] := by
      rw [List.getLast?_eq_some_iff] at hl
      obtain ⟨ys, rfl⟩ := hl
      simp
    split at h
    · rename_i h0
      cases h
      have h0' : blocks.dropLast = [] := List.eq_nil_of_length_eq_zero h0
      rw [h0'] at hbl
      rw [hbl]
      refine ⟨rfl, rfl, rfl, rfl, rfl, ?_⟩
      intro h; simp at h
    · rename_i h0
      obtain ⟨⟨bs', off'⟩, h1, h2⟩ := Res.bind_ok h
      cases h2
      obtain ⟨h3, h4⟩ := allocStack_idents t h1
      cases bs' with
      | nil =>
        exfalso
        apply h0
        have := congrArg List.length h3
        simpa using this.symm
      | cons b bs' =>
        refine ⟨rfl, rfl, rfl, rfl, ?_, fun _ => h4⟩
        have h5 : blocks.map (·.idents) = b.idents :: (bs'.map (·.idents) ++ [glob.idents]) := by
          rw [hbl, List.map_append, ← h3]; rfl
        show (_ :: (bs' ++ [glob]).map _) = _
        rw [h5]
        simp

theorem findIdent_eq (id : Nat) (bs : List Block) :
    findIdent id bs = (bs.map (·.idents)).findSome? (fun is => is.find? fun i => i.id == id) := by
  unfold findIdent
  rw [List.findSome?_map]
  rfl

/-- `setUnused` on one block. -/
def mark (id : Nat) (b : Block) : Block :=
  { b with idents := b.idents.map fun i => if i.id == id then { i with used := false } else i }

theorem setUnused_eq (id : Nat) (bs : List Block) : setUnused id bs = bs.map (mark id) := rfl

theorem mark_fresh {id : Nat} {b : Block} (h : ∀ i ∈ b.idents, i.id < id) : mark id b = b := by
  obtain ⟨f, is⟩ := b
  unfold mark
  have : is.map (fun i => if i.id == id then { i with used := false } else i) = is.map (fun i => i) := by
    apply List.map_congr_left
    intro i hi
    have : i.id ≠ id := Nat.ne_of_lt (h i hi)
    simp [this]
  simp only [this, List.map_id']

theorem setUnused_fresh {id : Nat} {bs : List Block} (h : ∀ b ∈ bs, ∀ i ∈ b.idents, i.id < id) :
    setUnused id bs = bs := by
  rw [setUnused_eq]
  conv => rhs; rw [← List.map_id' bs]
  apply List.map_congr_left
  intro b hb
  exact mark_fresh (h b hb)

theorem allocStack_mark (t : RType) (id : Nat) : ∀ {bs bs' : List Block} {off : Int},
    allocStack t bs = .ok (bs', off) → allocStack t (bs.map (mark id)) = .ok (bs'.map (mark id), off)
  | [], _, _, h => by cases h
  | b :: bs, bs', off, h => by
    unfold allocStack at h
    rw [List.map_cons]
    unfold allocStack
    split at h
    · rename_i n hn
      have : (mark id b).frame = some n := hn
      rw [this]
      show (if _ then _ else _) = _
      split at h
      · cases h
      · rename_i h1
        rw [if_neg h1]
        cases h
        rfl
    · rename_i hn
      have : (mark id b).frame = none := hn
      rw [this]
      show (allocStack t (bs.map (mark id))).bind _ = _
      obtain ⟨⟨bs1, off1⟩, h1, h2⟩ := Res.bind_ok h
      cases h2
      rw [allocStack_mark t id h1]
      rfl

/-- The state with other code, with a variable marked as not used. -/
def back (id : Nat) (g : Gen) (l : Option Nat) (st : State) : State :=
  { st with g := g, note := none, last := l, blocks := setUnused id st.blocks }

theorem allocVar_back {st st' : State} {t : RType} {temp used : Bool} {off : Int} (id : Nat) (g : Gen) (l : Option Nat)
    (hid : st.nextId ≠ id) (h : allocVar st t temp used = .ok (st', off)) :
    allocVar (back id g l st) t temp used = .ok (back id g l st', off) := by
  obtain ⟨g0, note, blocks, last, nextId⟩ := st
  unfold allocVar at h ⊢
  have e1 : (back id g l ⟨g0, note, blocks, last, nextId⟩).blocks = blocks.map (mark id) := rfl
  rw [e1, ← List.map_dropLast, List.getLast?_map]
  simp only at h
  cases hl : blocks.getLast? with
  | none => rw [hl] at h; cases h
  | some glob =>
    rw [hl] at h
    simp only at h
    show (if (blocks.dropLast.map (mark id)).length = 0 then _ else _) = _
    rw [List.length_map]
    have hne : (nextId == id) = false := by
      have : nextId ≠ id := hid
      simp [this]
    split at h
    · rename_i h0
      rw [if_pos h0]
      cases h
      cases blocks with
      | nil => cases hl
      | cons b bs =>
        simp only [addIdent, back, setUnused_eq, List.map_cons, mark, hne, Bool.false_eq_true, if_false]
    · rename_i h0
      rw [if_neg h0]
      obtain ⟨⟨bs', off'⟩, h1, h2⟩ := Res.bind_ok h
      cases h2
      rw [allocStack_mark t id h1]
      cases bs' with
      | nil =>
        exfalso
        apply h0
        have := congrArg List.length (allocStack_idents t h1).1
        simpa using this.symm
      | cons b bs =>
        simp only [Res.bind, addIdent, back, setUnused_eq, List.map_cons, mark, List.cons_append, List.map_append, List.map_nil,
          hne, Bool.false_eq_true, if_false]

theorem allocStack_map_length (t : RType) {bs bs' : List Block} {off : Int} (h : allocStack t bs = .ok (bs', off)) :
    bs'.length = bs.length := by
  have := congrArg List.length (allocStack_idents t h).1
  simpa using this

/-- Allocating a variable that is used or not. -/
theorem allocVar_used {st st' : State} {t : RType} {temp : Bool} {off : Int} (hs : Sane st)
    (h : allocVar st t temp true = .ok (st', off)) :
    allocVar st t temp false = .ok ({ st' with blocks := setUnused st.nextId st'.blocks }, off) := by
  obtain ⟨g0, note, blocks, last, nextId⟩ := st
  have hf : blocks.map (mark nextId) = blocks := setUnused_fresh hs.ids
  unfold allocVar at h ⊢
  simp only at h ⊢
  cases hl : blocks.getLast? with
  | none => rw [hl] at h; cases h
  | some glob =>
    rw [hl] at h
    simp only at h ⊢
    split at h
    · rename_i h0
      rw [if_pos h0]
      cases h
      cases blocks with
      | nil => cases hl
      | cons b bs =>
        rw [List.map_cons] at hf
        injection hf with hf1 hf2
        have hf1' := congrArg Block.idents hf1
        simp only [mark] at hf1'
        simp only [addIdent, setUnused_eq, List.map_cons, mark, hf1', hf2, BEq.rfl, if_true]
    · rename_i h0
      rw [if_neg h0]
      obtain ⟨⟨bs', off'⟩, h1, h2⟩ := Res.bind_ok h
      cases h2
      have h3 := allocStack_mark t nextId h1
      have hd : blocks.dropLast.map (mark nextId) = blocks.dropLast := by rw [List.map_dropLast, hf]
      rw [hd, h1] at h3
      have h4 : bs' = bs'.map (mark nextId) := congrArg Prod.fst (Res.ok.inj h3)
      have hg : mark nextId glob = glob := by
        have := congrArg List.getLast? hf
        rw [List.getLast?_map, hl] at this
        exact Option.some.inj this
      rw [h1]
      cases bs' with
      | nil =>
        exfalso
        apply h0
        have := congrArg List.length (allocStack_idents t h1).1
        simpa using this.symm
      | cons b bs =>
        rw [List.map_cons] at h4
        injection h4 with hf1 hf2
        have hf1' := congrArg Block.idents hf1.symm
        simp only [mark] at hf1'
        simp only [Res.bind, addIdent, setUnused_eq, List.map_cons, List.cons_append, List.map_append, List.map_nil, hg, ← hf2]
        simp only [mark, List.map_cons, hf1', BEq.rfl, if_true]

/-! ## A pending copy -/

/-- The code of a copy. -/
def copied (g : Gen) (t : RType) (off : Int) : Gen :=
  { g with rcode := .ins (.swapAssign t.kind t.size) :: .ins (.pushLocalPtr off) :: .ins .dup :: g.rcode }

/-- The copy of a result in the variable `id` is the last thing that was generated. -/
structure Holds (id : Nat) (g : Gen) (t : RType) (st : State) : Prop where
  code : ∃ off, off ≠ 0 ∧ st.g = copied g t off ∧
    ∃ i, findIdent id st.blocks = some i ∧ i.offset = off
  note : st.note = some st.g.ip
  last : st.last = some id
  fresh : id < st.nextId
  fine : Fine g

theorem copyCode (e : Env ω) (g : Gen) (t : RType) (off : Int) :
    Peephole.gen e g .dup = .ok (Peephole.add g .dup) ∧
    Peephole.gen e (Peephole.add g .dup) (.pushLocalPtr off) =
      .ok (Peephole.add (Peephole.add g .dup) (.pushLocalPtr off)) ∧
    Peephole.gen e (Peephole.add (Peephole.add g .dup) (.pushLocalPtr off)) (.swapAssign t.kind t.size) =
      .ok (copied g t off) := by
  refine ⟨rfl, ?_, ?_⟩
  · show R.ok (Peephole.genPushLocalPtr _ _) = _
    unfold Peephole.genPushLocalPtr
    have : Peephole.prev (Peephole.add g .dup) = none ∨ Peephole.prev (Peephole.add g .dup) = some .dup := by
      unfold Peephole.prev
      split
      · exact .inl rfl
      · exact .inr rfl
    rcases this with h | h <;> rw [h]
  · show R.ok (Peephole.genSwapAssign _ _ _) = _
    unfold Peephole.genSwapAssign
    have : Peephole.prev (Peephole.add (Peephole.add g .dup) (.pushLocalPtr off)) = none ∨
        Peephole.prev (Peephole.add (Peephole.add g .dup) (.pushLocalPtr off)) = some (.pushLocalPtr off) := by
      unfold Peephole.prev
      split
      · exact .inl rfl
      · exact .inr rfl
    rcases this with h | h <;> rw [h] <;> rfl

theorem genCopyResult_eq (e : Env ω) (st : State) (t : RType) (off : Int) :
    genCopyResult e st t off =
      .ok { st with g := copied st.g t off, note := some (copied st.g t off).ip } := by
  obtain ⟨h1, h2, h3⟩ := copyCode e st.g t off
  unfold genCopyResult emit
  simp only [Peephole.genItem, h1, h2, h3, ofR, Res.bind, ends, if_true]

/-- A result is copied. -/
theorem copyResult_ok {e : Env ω} {ops : Ops} {st st' : State} {t : RType} (hs : Sane st)
    (h : copyResult e st t = .ok st') :
    Holds st.nextId st.g t st' ∧ Sane st' ∧
    run e ops [.var t true false, .reset] st = .ok (back st.nextId st.g st.last st') := by
  obtain ⟨⟨st1, off⟩, h1, h2⟩ := Res.bind_ok h
  obtain ⟨⟨st2, off2⟩, h3, h4⟩ := Res.bind_ok h1
  simp only at h4
  split at h4
  · cases h4
  · rename_i hl
    cases h4
    simp only [genCopyResult_eq, Res.ok.injEq] at h2
    subst h2
    obtain ⟨a1, a2, a3, a4, a5, a6⟩ := allocVar_ok h3
    have hu := allocVar_used hs h3
    have hoff : off < 0 := a6 (by omega)
    refine ⟨⟨⟨off, by omega, by rw [← a1], ?_⟩, rfl, rfl, ?_, hs.fine⟩, ⟨?_, ?_, ?_⟩, ?_⟩
    · refine ⟨⟨st.nextId, off, t.ty.collected, true, true, t.ty⟩, ?_, rfl⟩
      show findIdent _ st2.blocks = _
      rw [findIdent_eq, a5]
      simp
    · show _ < st2.nextId
      omega
    · have := hs.fine
      show _ ≤ _
      simp only [copied, a1, List.length_cons]
      unfold Fine at this
      omega
    · have hi : ∀ is ∈ st2.blocks.map (·.idents), ∀ i ∈ is, i.id < st2.nextId := by
        rw [a5, a4]
        have hold : ∀ is ∈ st.blocks.map (·.idents), ∀ i ∈ is, i.id < st.nextId + 1 := by
          intro is his i hi
          obtain ⟨b, hb, rfl⟩ := List.mem_map.1 his
          have := hs.ids b hb i hi
          omega
        intro is his i hi
        rcases List.mem_cons.1 his with rfl | his
        · rcases List.mem_cons.1 hi with rfl | hi
          · show st.nextId < _; omega
          · revert hi
            cases hb : st.blocks.map (·.idents) with
            | nil => intro hi; cases hi
            | cons x xs => intro hi; exact hold x (by rw [hb]; exact List.mem_cons_self) i hi
        · exact hold is (List.mem_of_mem_tail his) i hi
      intro b hb i hi'
      exact hi _ (List.mem_map_of_mem hb) i hi'
    · intro hn
      have : st2.blocks = [] := hn
      rw [this] at a5
      cases a5
    · show (Res.bind ((allocVar st t true false).bind _) _) = _
      rw [hu]
      show Res.ok _ = _
      simp only [back, a1, a3]

theorem Sane.var {st st' : State} {t : RType} {temp used : Bool} {off : Int} (hs : Sane st)
    (h : allocVar st t temp used = .ok (st', off)) : Sane st' := by
  obtain ⟨a1, a2, a3, a4, a5, a6⟩ := allocVar_ok h
  refine ⟨by rw [Fine, a1]; exact hs.fine, ?_, ?_⟩
  · have hi : ∀ is ∈ st'.blocks.map (·.idents), ∀ i ∈ is, i.id < st'.nextId := by
      rw [a5, a4]
      have hold : ∀ is ∈ st.blocks.map (·.idents), ∀ i ∈ is, i.id < st.nextId + 1 := by
        intro is his i hi
        obtain ⟨b, hb, rfl⟩ := List.mem_map.1 his
        have := hs.ids b hb i hi
        omega
      intro is his i hi
      rcases List.mem_cons.1 his with rfl | his
      · rcases List.mem_cons.1 hi with rfl | hi
        · show st.nextId < _; omega
        · revert hi
          cases hb : st.blocks.map (·.idents) with
          | nil => intro hi; cases hi
          | cons x xs => intro hi; exact hold x (by rw [hb]; exact List.mem_cons_self) i hi
      · exact hold is (List.mem_of_mem_tail his) i hi
    intro b hb i hi'
    exact hi _ (List.mem_map_of_mem hb) i hi'
  · intro hn
    rw [hn] at a5
    cases a5

/-- A request that generates nothing leaves a pending copy pending; and it would do the same without the copy. -/
theorem silent_step {e : Env ω} {ops : Ops} {r : Req} (hr : Silent r) {id : Nat} {g : Gen} {t : RType} {st st' : State}
    (l : Option Nat) (h : step e ops st r = .ok st') (hh : Holds id g t st) :
    Holds id g t st' ∧ step e ops (back id g l st) r = .ok (back id g l st') := by
  cases r with
  | var t' temp used =>
    obtain ⟨⟨st1, off⟩, h1, h2⟩ := Res.bind_ok h
    cases h2
    obtain ⟨a1, a2, a3, a4, a5, a6⟩ := allocVar_ok h1
    refine ⟨⟨?_, ?_, ?_, ?_, hh.fine⟩, ?_⟩
    · obtain ⟨o, ho, hg, i, hi, hio⟩ := hh.code
      refine ⟨o, ho, a1.trans hg, i, ?_, hio⟩
      rw [findIdent_eq] at hi ⊢
      rw [a5]
      have hne : (st.nextId == id) = false := by
        have := hh.fresh
        simp; omega
      cases hb : st.blocks.map (·.idents) with
      | nil => rw [hb] at hi; cases hi
      | cons x xs =>
        rw [hb] at hi
        simpa [List.findSome?_cons, List.find?_cons, hne] using hi
    · rw [a2, a1]; exact hh.note
    · rw [a3]; exact hh.last
    · rw [a4]; exact Nat.lt_succ_of_lt hh.fresh
    · show (allocVar (back id g l st) t' temp used).bind _ = _
      rw [allocVar_back id g l (Nat.ne_of_gt hh.fresh) h1]
      rfl
  | enter fn =>
    cases h
    refine ⟨⟨?_, hh.note, hh.last, hh.fresh, hh.fine⟩, rfl⟩
    obtain ⟨o, ho, hg, i, hi, hio⟩ := hh.code
    refine ⟨o, ho, hg, i, ?_, hio⟩
    rw [findIdent_eq] at hi ⊢
    exact hi
  | code it =>
    cases it with
    | op i =>
      cases i with
      | refCnt tok t' =>
        have h1 : emit e st (.op (.refCnt tok t')) = .ok st' := h
        rw [emit_silent e st tok t' hr] at h1
        cases h1
        exact ⟨hh, emit_silent e _ tok t' hr⟩
      | _ => exact hr.elim
    | _ => exact hr.elim
  | _ => exact hr.elim

theorem silent_run {e : Env ω} {ops : Ops} : ∀ (mid : List Req), (∀ r ∈ mid, Silent r) → ∀ {id : Nat} {g : Gen} {t : RType}
    {st st' : State} (l : Option Nat), run e ops mid st = .ok st' → Holds id g t st →
    Holds id g t st' ∧ run e ops mid (back id g l st) = .ok (back id g l st')
  | [], _, _, _, _, _, _, _, h, hh => by cases h; exact ⟨hh, rfl⟩
  | r :: mid, hm, id, g, t, st, st', l, h, hh => by
    obtain ⟨st1, h1, h2⟩ := Res.bind_ok h
    obtain ⟨h3, h4⟩ := silent_step (hm r List.mem_cons_self) l h1 hh
    obtain ⟨h5, h6⟩ := silent_run mid (fun r hr => hm r (List.mem_cons_of_mem _ hr)) l h2 h3
    refine ⟨h5, ?_⟩
    show (step e ops _ r).bind _ = _
    rw [h4]
    exact h6

theorem run_append (e : Env ω) (ops : Ops) : ∀ (xs ys : List Req) (st : State),
    run e ops (xs ++ ys) st = (run e ops xs st).bind (run e ops ys)
  | [], _, _ => rfl
  | x :: xs, ys, st => by
    show (step e ops st x).bind _ = ((step e ops st x).bind _).bind _
    cases step e ops st x with
    | ok st => exact run_append e ops xs ys st
    | err => rfl
    | ub => rfl

/-- A pending copy is removed. -/
theorem tryRemove_holds {id : Nat} {g : Gen} {t : RType} {st : State} (hh : Holds id g t st) :
    tryRemove st = .ok ({ back id g none st with last := st.last }, true) := by
  obtain ⟨off, ho, hg, i, hi, hio⟩ := hh.code
  have h1 : genTryRemove st = ({ st with g := g, note := none }, off) := by
    unfold genTryRemove
    rw [if_pos hh.note]
    have hf := hh.fine
    unfold Fine at hf
    have p : ∀ d, d ≤ 3 → prevInstr st.g d = st.g.rcode[d - 1]? := by
      intro d hd
      unfold prevInstr
      rw [if_neg]
      rw [hg]
      simp only [copied, Gen.ip, List.length_cons]
      omega
    rw [p 3 (by omega), p 2 (by omega), p 1 (by omega), hg]
    rfl
  unfold tryRemove
  rw [hh.last]
  simp only [h1]
  rw [if_neg ho, hi]
  simp only [hio, ne_eq, not_true_eq_false, if_false, hh.last]
  rfl

/-- Nothing is removed. -/
theorem tryRemove_idle {st : State} (h : st.note ≠ some st.g.ip ∨ st.g.ip < st.g.lastJump + 3) :
    tryRemove st = .ok (st, false) := by
  have h1 : genTryRemove st = (st, 0) := by
    unfold genTryRemove
    rcases h with h | h
    · rw [if_neg h]
    · split
      · have : prevInstr st.g 3 = none := by
          unfold prevInstr
          exact if_pos h
        rw [this]
      · rfl
  unfold tryRemove
  cases st.last with
  | none => rfl
  | some id => simp only [h1, if_true]

end Umka.ResultCopy
