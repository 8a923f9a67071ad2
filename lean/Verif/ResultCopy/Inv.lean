import Verif.ResultCopy.Lemmas
/-! # Copies of function results: invariant -/

namespace Umka.ResultCopy
open Umka.Peephole (Instr Item CItem Gen Env Ty Kind R Tok)
open Spec
variable {ω : Type}

/-- Nothing would be removed. -/
def Idle (st : State) : Prop := st.note = none ∨ st.g.ip < st.g.lastJump + 3

theorem Idle.tryRemove {st : State} (h : Idle st) : tryRemove st = .ok (st, false) := by
  apply tryRemove_idle
  rcases h with h | h
  · left; rw [h]; exact nofun
  · exact .inr h

/-- The state after the requests `reqs`. -/
structure Inv (e : Env ω) (ops : Ops) (reqs : List Req) (left jmp : Bool) (st : State) : Prop where
  ran : run e ops reqs init = .ok st
  sane : Sane st
  jump : jmp = true → st.note = none
  state : left = false →
    (∃ pre t mid st0, Pending reqs pre t mid ∧ run e ops pre init = .ok st0 ∧ Holds st0.nextId st0.g t st) ∨ Idle st

theorem run_snoc {e : Env ω} {ops : Ops} {reqs : List Req} {r : Req} {st st' : State}
    (h : run e ops reqs init = .ok st) (hr : step e ops st r = .ok st') : run e ops (reqs ++ [r]) init = .ok st' := by
  rw [run_append, h]
  show (step e ops st r).bind _ = _
  rw [hr]
  rfl

theorem pending_snoc {reqs pre mid : List Req} {t : RType} {r : Req} (h : Pending reqs pre t mid) (hr : Silent r) :
    Pending (reqs ++ [r]) pre t (mid ++ [r]) := by
  obtain ⟨rfl, h2⟩ := h
  refine ⟨by simp, ?_⟩
  intro x hx
  rcases List.mem_append.1 hx with hx | hx
  · exact h2 x hx
  · rw [List.mem_singleton] at hx
    exact hx ▸ hr

theorem Sane.remove {id : Nat} {g : Gen} {st : State} (h : Sane st) (hg : Fine g) (l l' : Option Nat) :
    Sane { back id g l st with last := l' } := by
  refine ⟨hg, ?_, ?_⟩
  · intro b hb i hi
    have hb' : b ∈ st.blocks.map (mark id) := hb
    obtain ⟨b0, hb0, rfl⟩ := List.mem_map.1 hb'
    have hi' : i ∈ b0.idents.map fun i => if i.id == id then { i with used := false } else i := hi
    obtain ⟨i0, hi0, rfl⟩ := List.mem_map.1 hi'
    have := h.ids b0 hb0 i0 hi0
    show (if i0.id == id then { i0 with used := false } else i0).id < st.nextId
    split
    · exact this
    · exact this
  · intro hn
    have : st.blocks.map (mark id) = [] := hn
    exact h.blocks (List.map_eq_nil_iff.1 this)

theorem Sane.same {st : State} (h : Sane st) (n : Option Nat) : Sane { st with note := n } := ⟨h.fine, h.ids, h.blocks⟩

/-- What happens when a value is passed or assigned. -/
theorem take_cases {e : Env ω} {ops : Ops} {reqs : List Req} {jmp : Bool} {st : State} (h : Inv e ops reqs false jmp st) :
    ∃ st' b, tryRemove st = .ok (st', b) ∧ Sane st' ∧ Idle st' := by
  rcases h.state rfl with ⟨pre, t, mid, st0, hp, h0, hh⟩ | hi
  · exact ⟨_, _, tryRemove_holds hh, h.sane.remove hh.fine _ _, .inl rfl⟩
  · exact ⟨_, _, hi.tryRemove, h.sane, hi⟩

theorem emit_idle {e : Env ω} {st st' : State} {i : Instr} (h : emit e st (.op i) = .ok st') (hs : Idle st) : Idle st' := by
  cases i with
  | refCnt tok t =>
    cases hc : t.collected with
    | false =>
      rw [emit_silent e st tok t hc] at h
      cases h
      exact hs
    | true =>
      obtain ⟨g, _, rfl⟩ := emit_ok h
      left
      simp only [ends, hc, if_true]
  | _ =>
    obtain ⟨g, _, rfl⟩ := emit_ok h
    exact .inl rfl

theorem emit_ends {e : Env ω} {st st' : State} {it : Item} (h : emit e st it = .ok st') (hs : ends it = true) :
    st'.note = none := by
  obtain ⟨g, _, rfl⟩ := emit_ok h
  simp only [hs, if_true]

theorem step_inv {e : Env ω} {ops : Ops} {reqs rs : List Req} {r : Req} {left jmp : Bool} {st st' : State}
    (h : Inv e ops reqs left jmp st) (hp : Proper (r :: rs) left jmp) (hr : step e ops st r = .ok st') :
    ∃ left' jmp', Proper rs left' jmp' ∧ Inv e ops (reqs ++ [r]) left' jmp' st' := by
  have hran := run_snoc h.ran hr
  cases r with
  | code it =>
    have hs : Sane st' := h.sane.emit hr
    cases it with
    | op i =>
      cases hg : generates (.code (.op i)) with
      | true =>
        have hp' : Proper rs (left && !generates (.code (.op i))) false := hp
        rw [hg] at hp'
        have : ends (.op i) = true := by
          cases i with
          | refCnt tok t => exact hg
          | _ => rfl
        exact ⟨_, _, hp', hran, hs, (nomatch ·), fun _ => .inr (.inl (emit_ends hr this))⟩
      | false =>
        have hp' : Proper rs (left && !generates (.code (.op i))) false := hp
        rw [hg] at hp'
        rw [show (left && !false) = left by cases left <;> rfl] at hp'
        refine ⟨_, _, hp', hran, hs, (nomatch ·), fun hl => ?_⟩
        cases i with
        | refCnt tok t =>
          have h1 : emit e st (.op (.refCnt tok t)) = .ok st' := hr
          rw [emit_silent e st tok t hg] at h1
          cases h1
          rcases h.state hl with ⟨pre, t', mid, st0, hpd, h0, hh⟩ | hi
          · exact .inl ⟨pre, t', _, st0, (pending_snoc hpd hg), h0, hh⟩
          · exact .inr hi
        | _ => exact (nomatch hg)
    | label l upd =>
      obtain ⟨hu, hp'⟩ := hp
      obtain ⟨g, hg, rfl⟩ := emit_ok hr
      cases hg
      refine ⟨left, jmp, hp', hran, hs, h.jump, fun hl => .inr ?_⟩
      rcases hu with rfl | hj
      · right
        show st.g.rcode.length < max st.g.lastJump st.g.rcode.length + 3
        omega
      · exact .inl (h.jump hj)
    | jump c l upd =>
      exact ⟨false, true, hp, hran, hs, fun _ => emit_ends hr rfl, fun _ => .inr (.inl (emit_ends hr rfl))⟩
  | reset =>
    cases hr
    exact ⟨_, _, hp, hran, h.sane.same none, (nomatch ·), fun _ => .inr (.inl rfl)⟩
  | var t temp used =>
    have hp' : Proper rs (left && true) false := hp
    rw [Bool.and_true] at hp'
    have hr' := hr
    obtain ⟨⟨st1, off⟩, h1, h2⟩ := Res.bind_ok hr
    cases h2
    refine ⟨_, _, hp', hran, h.sane.var h1, (nomatch ·), fun hl => ?_⟩
    rcases h.state hl with ⟨pre, t', mid, st0, hpd, h0, hh⟩ | hi
    · exact .inl ⟨pre, t', _, st0, (pending_snoc hpd trivial), h0, (silent_step (r := .var t temp used) trivial none hr' hh).1⟩
    · obtain ⟨a1, a2, _⟩ := allocVar_ok h1
      right
      unfold Idle
      rw [a1, a2]
      exact hi
  | result t =>
    obtain ⟨h1, h2, _⟩ := copyResult_ok (ops := ops) h.sane hr
    have hp' : Proper rs (left && false) false := hp
    rw [Bool.and_false] at hp'
    exact ⟨_, _, hp', hran, h2, (nomatch ·), fun _ => .inl ⟨reqs, t, [], st, ⟨rfl, nofun⟩, h.ran, h1⟩⟩
  | pass t =>
    obtain ⟨rfl, hp'⟩ := hp
    obtain ⟨st1, b, h1, h2, h3⟩ := take_cases h
    have hr' : (tryRemove st).bind _ = .ok st' := hr
    rw [h1] at hr'
    have hr'' : (if b = true then .ok st1 else emit e st1 (.op (.refCnt .inc t))) = Res.ok st' := hr'
    split at hr''
    · cases hr''
      exact ⟨_, _, hp', hran, h2, (nomatch ·), fun _ => .inr h3⟩
    · exact ⟨_, _, hp', hran, h2.emit hr'', (nomatch ·), fun _ => .inr (emit_idle hr'' h3)⟩
  | assign t valid =>
    obtain ⟨rfl, hp'⟩ := hp
    obtain ⟨st1, b, h1, h2, h3⟩ := take_cases h
    have hr' : (tryRemove st).bind _ = .ok st' := hr
    rw [h1] at hr'
    have hr'' : (if b = true then (if valid = true then genCountedAssign e st1 t (ops.leftRefCntAssign t.ty)
      else emit e st1 (.op (.assign t.kind t.size))) else genCountedAssign e st1 t (ops.refCntAssign t.ty)) = Res.ok st' := hr'
    unfold genCountedAssign at hr''
    split at hr''
    · split at hr''
      · exact ⟨_, _, hp', hran, h2.emit hr'', (nomatch ·), fun _ => .inr (emit_idle hr'' h3)⟩
      · exact ⟨_, _, hp', hran, h2.emit hr'', (nomatch ·), fun _ => .inr (emit_idle hr'' h3)⟩
    · exact ⟨_, _, hp', hran, h2.emit hr'', (nomatch ·), fun _ => .inr (emit_idle hr'' h3)⟩
  | enter fn =>
    have hp' : Proper rs (left && true) false := hp
    rw [Bool.and_true] at hp'
    have hr' := hr
    cases hr
    refine ⟨_, _, hp', hran, ⟨h.sane.fine, ?_, nofun⟩, (nomatch ·), fun hl => ?_⟩
    · intro b hb i hi
      rcases List.mem_cons.1 hb with rfl | hb
      · cases hi
      · exact h.sane.ids b hb i hi
    · rcases h.state hl with ⟨pre, t', mid, st0, hpd, h0, hh⟩ | hi
      · exact .inl ⟨pre, t', _, st0, (pending_snoc hpd trivial), h0, (silent_step (r := .enter fn) trivial none hr' hh).1⟩
      · exact .inr hi
  | leave =>
    refine ⟨true, false, hp, hran, ?_, (nomatch ·), (nomatch ·)⟩
    have hr' : leave e ops st = .ok st' := hr
    unfold leave at hr'
    split at hr'
    · rename_i b b' bs hb
      obtain ⟨st1, h1, h2⟩ := Res.bind_ok hr'
      cases h2
      have hs := h.sane.emitAll _ h1
      obtain ⟨h3, h4⟩ := emitAll_blocks _ h1
      refine ⟨hs.fine, ?_, nofun⟩
      intro x hx i hi
      apply hs.ids x _ i hi
      rw [h3, hb]
      exact List.mem_cons_of_mem _ hx
    · cases hr'
  | unwind n => exact ⟨true, false, hp, hran, h.sane.emitAll _ hr, (nomatch ·), (nomatch ·)⟩

theorem run_inv {e : Env ω} {ops : Ops} : ∀ (rs tail reqs : List Req) {left jmp : Bool} {st st' : State},
    Inv e ops reqs left jmp st → Proper (rs ++ tail) left jmp → run e ops rs st = .ok st' →
    ∃ left' jmp', Proper tail left' jmp' ∧ Inv e ops (reqs ++ rs) left' jmp' st'
  | [], _, reqs, left, jmp, _, _, h, hp, hr => by
    cases hr
    rw [List.append_nil]
    exact ⟨left, jmp, hp, h⟩
  | r :: rs, tail, reqs, _, _, _, _, h, hp, hr => by
    obtain ⟨st1, h1, h2⟩ := Res.bind_ok hr
    obtain ⟨l, j, h3, h4⟩ := step_inv h hp h1
    have := run_inv rs tail (reqs ++ [r]) h4 h3 h2
    rwa [List.append_assoc] at this

theorem inv_init (e : Env ω) (ops : Ops) : Inv e ops [] false false init :=
  ⟨rfl, sane_init, (nomatch ·), fun _ => .inr (.inl rfl)⟩

/-! ## Which variables are used -/

/-- The variable `id`, if it is there, is used or not. -/
def UsedIs (id : Nat) (v : Bool) (blocks : List Block) : Prop := ∀ b ∈ blocks, ∀ i ∈ b.idents, i.id = id → i.used = v

theorem usedIs_iff (id : Nat) (v : Bool) (bs : List Block) :
    UsedIs id v bs ↔ ∀ is ∈ bs.map (·.idents), ∀ i ∈ is, i.id = id → i.used = v := by
  constructor
  · intro h is his
    obtain ⟨b, hb, rfl⟩ := List.mem_map.1 his
    exact h b hb
  · intro h b hb
    exact h _ (List.mem_map_of_mem hb)

theorem UsedIs.var {id : Nat} {v : Bool} {st st' : State} {t : RType} {temp used : Bool} {off : Int}
    (hid : id < st.nextId) (hu : UsedIs id v st.blocks) (h : allocVar st t temp used = .ok (st', off)) :
    UsedIs id v st'.blocks := by
  obtain ⟨_, _, _, _, a5, _⟩ := allocVar_ok h
  rw [usedIs_iff] at hu ⊢
  rw [a5]
  intro is his i hi hii
  rcases List.mem_cons.1 his with rfl | his
  · rcases List.mem_cons.1 hi with rfl | hi
    · exact absurd hii (Nat.ne_of_gt hid)
    · revert hi
      cases hb : st.blocks.map (·.idents) with
      | nil => intro hi; cases hi
      | cons x xs => intro hi; exact hu x (by rw [hb]; exact List.mem_cons_self) i hi hii
  · exact hu is (List.mem_of_mem_tail his) i hi hii

theorem UsedIs.unused {id : Nat} {bs : List Block} (id' : Nat) (hu : UsedIs id false bs) :
    UsedIs id false (setUnused id' bs) := by
  intro b hb i hi hii
  obtain ⟨b0, hb0, rfl⟩ := List.mem_map.1 hb
  obtain ⟨i0, hi0, rfl⟩ := List.mem_map.1 hi
  revert hii
  split
  · intro _; rfl
  · exact hu b0 hb0 i0 hi0

theorem UsedIs.other {id id' : Nat} {v : Bool} {bs : List Block} (hne : id' ≠ id) (hu : UsedIs id v bs) :
    UsedIs id v (setUnused id' bs) := by
  intro b hb i hi hii
  obtain ⟨b0, hb0, rfl⟩ := List.mem_map.1 hb
  obtain ⟨i0, hi0, rfl⟩ := List.mem_map.1 hi
  revert hii
  split
  · rename_i h
    intro hii
    have h1 : i0.id = id' := by simpa using h
    have h2 : i0.id = id := hii
    exact absurd (h1.symm.trans h2) hne
  · exact hu b0 hb0 i0 hi0

/-- All requests but uses of values. -/
theorem UsedIs.step {e : Env ω} {ops : Ops} {id : Nat} {v : Bool} {st st' : State} {r : Req}
    (hid : id < st.nextId) (hu : UsedIs id v st.blocks) (h : step e ops st r = .ok st')
    (ht : ∀ st1 b, tryRemove st = .ok (st1, b) → ((∃ t, r = .pass t) ∨ ∃ t valid, r = .assign t valid) →
      UsedIs id v st1.blocks ∧ st.nextId ≤ st1.nextId) :
    UsedIs id v st'.blocks ∧ st.nextId ≤ st'.nextId := by
  have hem : ∀ {s s' : State} {it : Item}, emit e s it = .ok s' → s'.blocks = s.blocks ∧ s'.nextId = s.nextId := by
    intro s s' it h
    obtain ⟨g, _, rfl⟩ := emit_ok h
    exact ⟨rfl, rfl⟩
  cases r with
  | code it =>
    obtain ⟨h1, h2⟩ := hem h
    rw [h1, h2]
    exact ⟨hu, Nat.le_refl _⟩
  | reset => cases h; exact ⟨hu, Nat.le_refl _⟩
  | var t temp used =>
    obtain ⟨⟨st1, off⟩, h1, h2⟩ := Res.bind_ok h
    cases h2
    have := (allocVar_ok h1).2.2.2.1
    exact ⟨hu.var hid h1, by omega⟩
  | result t =>
    obtain ⟨⟨st1, off⟩, h1, h2⟩ := Res.bind_ok h
    obtain ⟨⟨st2, off2⟩, h3, h4⟩ := Res.bind_ok h1
    simp only at h4
    split at h4
    · cases h4
    · cases h4
      simp only [genCopyResult_eq, Res.ok.injEq] at h2
      subst h2
      have := (allocVar_ok h3).2.2.2.1
      have hv := hu.var hid h3
      exact ⟨hv, by show _ ≤ st2.nextId; omega⟩
  | pass t =>
    obtain ⟨⟨st1, b⟩, h1, h2⟩ := Res.bind_ok h
    obtain ⟨h3, h4⟩ := ht _ _ h1 (.inl ⟨_, rfl⟩)
    simp only at h2
    split at h2
    · cases h2; exact ⟨h3, h4⟩
    · obtain ⟨h5, h6⟩ := hem h2
      rw [h5, h6]
      exact ⟨h3, h4⟩
  | assign t valid =>
    obtain ⟨⟨st1, b⟩, h1, h2⟩ := Res.bind_ok h
    obtain ⟨h3, h4⟩ := ht _ _ h1 (.inr ⟨_, _, rfl⟩)
    have key : ∃ i, emit e st1 (.op i) = .ok st' := by
      simp only [genCountedAssign] at h2
      split at h2
      · split at h2
        · exact ⟨_, h2⟩
        · exact ⟨_, h2⟩
      · exact ⟨_, h2⟩
    obtain ⟨i, h2⟩ := key
    obtain ⟨h5, h6⟩ := hem h2
    rw [h5, h6]
    exact ⟨h3, h4⟩
  | enter fn =>
    cases h
    refine ⟨?_, Nat.le_refl _⟩
    intro b hb i hi hii
    rcases List.mem_cons.1 hb with rfl | hb
    · cases hi
    · exact hu b hb i hi hii
  | leave =>
    have h : leave e ops st = .ok st' := h
    unfold leave at h
    split at h
    · rename_i b b' bs hb
      obtain ⟨st1, h1, h2⟩ := Res.bind_ok h
      cases h2
      obtain ⟨h3, h4⟩ := emitAll_blocks _ h1
      refine ⟨?_, by show _ ≤ st1.nextId; omega⟩
      intro x hx i hi
      exact hu x (by rw [hb]; exact List.mem_cons_of_mem _ hx) i hi
    · cases h
  | unwind n =>
    obtain ⟨h3, h4⟩ := emitAll_blocks _ h
    rw [h3, h4]
    exact ⟨hu, Nat.le_refl _⟩

/-- What `tryRemove` does. -/
theorem tryRemove_ok {st st' : State} {b : Bool} (h : tryRemove st = .ok (st', b)) :
    st'.nextId = st.nextId ∧ (st'.blocks = st.blocks ∨ ∃ id, st.last = some id ∧ st'.blocks = setUnused id st.blocks) := by
  have hg : (genTryRemove st).1.nextId = st.nextId ∧ (genTryRemove st).1.blocks = st.blocks := by
    unfold genTryRemove
    split
    · split
      · exact ⟨rfl, rfl⟩
      · exact ⟨rfl, rfl⟩
    · exact ⟨rfl, rfl⟩
  unfold tryRemove at h
  split at h
  · cases h; exact ⟨rfl, .inl rfl⟩
  · rename_i id hl
    simp only at h
    split at h
    · cases h; exact ⟨hg.1, .inl hg.2⟩
    · split at h
      · cases h
      · split at h
        · cases h
        · cases h
          refine ⟨hg.1, .inr ⟨id, hl, ?_⟩⟩
          show setUnused id (genTryRemove st).1.blocks = _
          rw [hg.2]

/-- A variable that is not used stays so. -/
theorem unused_run {e : Env ω} {ops : Ops} {id : Nat} : ∀ (rs : List Req) {st st' : State},
    id < st.nextId → UsedIs id false st.blocks → run e ops rs st = .ok st' → UsedIs id false st'.blocks
  | [], _, _, _, hu, h => by cases h; exact hu
  | r :: rs, st, st', hid, hu, h => by
    obtain ⟨st1, h1, h2⟩ := Res.bind_ok h
    obtain ⟨h3, h4⟩ := hu.step hid h1 (by
      intro st2 b hb _
      obtain ⟨h5, h6⟩ := tryRemove_ok hb
      refine ⟨?_, by omega⟩
      rcases h6 with h6 | ⟨id', _, h6⟩
      · rw [h6]; exact hu
      · rw [h6]; exact hu.unused id')
    exact unused_run rs (by omega) h3 h2

/-- Identifiers are numbered one after the other. -/
theorem run_nextId {e : Env ω} {ops : Ops} : ∀ (rs : List Req) {st st' : State},
    run e ops rs st = .ok st' → st.nextId ≤ st'.nextId
  | [], _, _, h => by cases h; exact Nat.le_refl _
  | r :: rs, st, st', h => by
    obtain ⟨st1, h1, h2⟩ := Res.bind_ok h
    have h3 := run_nextId rs h2
    have h4 : st.nextId ≤ st1.nextId := by
      have hem : ∀ {s s' : State} {it : Item}, emit e s it = .ok s' → s'.nextId = s.nextId := by
        intro s s' it h
        obtain ⟨g, _, rfl⟩ := emit_ok h
        rfl
      cases r with
      | code it => exact Nat.le_of_eq (hem h1).symm
      | reset => cases h1; exact Nat.le_refl _
      | var t temp used =>
        obtain ⟨⟨st1, off⟩, h1, h2⟩ := Res.bind_ok h1
        cases h2
        have := (allocVar_ok h1).2.2.2.1
        omega
      | result t =>
        obtain ⟨⟨st1, off⟩, h1, h2⟩ := Res.bind_ok h1
        obtain ⟨⟨st2, off2⟩, h7, h4⟩ := Res.bind_ok h1
        simp only at h4
        split at h4
        · cases h4
        · cases h4
          simp only [genCopyResult_eq, Res.ok.injEq] at h2
          subst h2
          have := (allocVar_ok h7).2.2.2.1
          show _ ≤ st2.nextId
          omega
      | pass t =>
        obtain ⟨⟨st1, b⟩, h1, h2⟩ := Res.bind_ok h1
        have h5 := (tryRemove_ok h1).1
        simp only at h2
        split at h2
        · cases h2; omega
        · have := hem h2; omega
      | assign t valid =>
        obtain ⟨⟨st1, b⟩, h1, h2⟩ := Res.bind_ok h1
        have h5 := (tryRemove_ok h1).1
        simp only [genCountedAssign] at h2
        split at h2
        · split at h2
          · have := hem h2; omega
          · have := hem h2; omega
        · have := hem h2; omega
      | enter => cases h1; exact Nat.le_refl _
      | leave =>
        have h : leave e ops st = .ok st1 := h1
        unfold leave at h
        split at h
        · obtain ⟨st2, h7, h8⟩ := Res.bind_ok h
          cases h8
          have := (emitAll_blocks _ h7).2
          show _ ≤ st2.nextId
          omega
        · cases h
      | unwind n => exact Nat.le_of_eq (emitAll_blocks _ h1).2.symm
    omega

/-- A pending copy is the last one that was made. -/
theorem pending_last {reqs pre mid pre' mid' : List Req} {t t' : RType} (h : Pending reqs pre t mid)
    (h' : reqs = pre' ++ .result t' :: mid') (hm' : ¬ ∀ r ∈ mid', Silent r) :
    ∃ x, pre = pre' ++ .result t' :: x := by
  obtain ⟨rfl, hm⟩ := h
  rcases List.append_eq_append_iff.1 h' with ⟨as, h1, h2⟩ | ⟨as, h1, h2⟩
  · cases as with
    | nil =>
      simp only [List.nil_append, List.cons.injEq] at h2
      obtain ⟨_, rfl⟩ := h2
      exact absurd hm hm'
    | cons a as =>
      simp only [List.cons_append, List.cons.injEq] at h2
      obtain ⟨rfl, rfl⟩ := h2
      exact absurd (hm (.result t') (by simp)) id
  · cases as with
    | nil =>
      simp only [List.nil_append, List.cons.injEq] at h2
      obtain ⟨_, rfl⟩ := h2
      exact absurd hm hm'
    | cons a as =>
      simp only [List.cons_append, List.cons.injEq] at h2
      obtain ⟨rfl, rfl⟩ := h2
      exact ⟨as, h1⟩

/-- A copy that is not handed over is used. -/
theorem used_run {e : Env ω} {ops : Ops} {pre : List Req} {t : RType} {st0 : State} (h0 : run e ops pre init = .ok st0) :
    ∀ (rs post : List Req) {left jmp : Bool} {st st' : State},
    Inv e ops (pre ++ .result t :: post) left jmp st → Proper rs left jmp → st0.nextId < st.nextId →
    UsedIs st0.nextId true st.blocks → ¬ Handed (post ++ rs) → run e ops rs st = .ok st' → UsedIs st0.nextId true st'.blocks
  | [], _, _, _, _, _, _, _, _, hu, _, h => by cases h; exact hu
  | r :: rs, post, left, jmp, st, st', hi, hp, hid, hu, hn, h => by
    obtain ⟨st1, h1, h2⟩ := Res.bind_ok h
    obtain ⟨l, j, h3, h4⟩ := step_inv hi hp h1
    obtain ⟨h5, h6⟩ := hu.step hid h1 (by
      intro st2 b hb hr
      obtain ⟨h5, h6⟩ := tryRemove_ok hb
      refine ⟨?_, by omega⟩
      rcases h6 with h6 | ⟨id', h6, h7⟩
      · rw [h6]; exact hu
      · have hns : ¬ ∀ x ∈ post, Silent x := fun hs => hn ⟨post, r, rs, rfl, hs, hr⟩
        have hleft : left = false := by
          rcases hr with ⟨_, rfl⟩ | ⟨_, _, rfl⟩
          · exact hp.1
          · exact hp.1
        rcases hi.state hleft with ⟨pre', t', mid', st0', hpd, h0', hh⟩ | hidle
        · obtain ⟨x, rfl⟩ := pending_last hpd rfl hns
          rw [hh.last] at h6
          have h6 := Option.some.inj h6
          rw [run_append, h0] at h0'
          have h0'' : run e ops (.result t :: x) st0 = .ok st0' := h0'
          obtain ⟨stc, h8, h9⟩ := Res.bind_ok h0''
          have h10 := run_nextId x h9
          have h11 : st0.nextId < stc.nextId := by
            have hp0 : run e ops [.result t] st0 = .ok stc := by
              show (step e ops st0 _).bind _ = _
              rw [h8]; rfl
            obtain ⟨⟨sa, off⟩, b1, b2⟩ := Res.bind_ok h8
            obtain ⟨⟨sb, off2⟩, b3, b4⟩ := Res.bind_ok b1
            simp only at b4
            split at b4
            · cases b4
            · cases b4
              simp only [genCopyResult_eq, Res.ok.injEq] at b2
              subst b2
              have := (allocVar_ok b3).2.2.2.1
              show _ < sb.nextId
              omega
          rw [h7]
          exact hu.other (by omega)
        · rw [hidle.tryRemove] at hb
          cases hb
          exact hu)
    refine used_run (t := t) h0 rs (post ++ [r]) (left := l) (jmp := j) ?_ h3 (by omega) h5 ?_ h2
    · have : pre ++ Req.result t :: (post ++ [r]) = (pre ++ Req.result t :: post) ++ [r] := by simp
      rw [this]
      exact h4
    · rw [List.append_assoc]
      exact hn

end Umka.ResultCopy
