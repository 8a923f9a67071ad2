import Verif.ResultCopy.Inv
import Verif.Arith.Lemmas
import Verif.Peephole.Props
/-!
# Copies of function results: properties

C85: results of calls are handed over at most once, exactly when they are used at once, and without a trace.
-/

namespace Umka.ResultCopy.Props
open Umka.Peephole (Instr Item CItem Gen Env Ty Kind R Tok exec)
open Umka.ResultCopy Spec
variable {ω : Type}

/-- **C85, results that are handed over.** Take any sequence of requests of the parser after which a value is passed,
returned or assigned (`next`), so that the last thing that was generated is the copy of a result.  Then the compiler is left
as if the result had never been copied and its temporary variable had been declared as not used: the same code, jump
targets, blocks and variables.  A parameter's or a new variable's reference is not counted, and an assignment only drops
the reference of the old value. -/
theorem C85_handed_over (e : Env ω) (ops : Ops) (reqs pre mid : List Req) (t x : RType) (st : State)
    (hp : Proper (reqs ++ [.assign x true]) false false) (hr : run e ops reqs init = .ok st)
    (h : Pending reqs pre t mid) :
    ∃ st₁, run e ops (pre ++ [.var t true false, .reset] ++ mid) init = .ok st₁ ∧
      (∀ t', step e ops st (.pass t') = .ok { st₁ with last := st.last }) ∧
      (∀ t', step e ops st (.assign t' true) =
        emit e { st₁ with last := st.last }
          (.op (if t'.ty.collected then .other (ops.leftRefCntAssign t'.ty) else .assign t'.kind t'.size))) ∧
      (∀ t', step e ops st (.assign t' false) = emit e { st₁ with last := st.last } (.op (.assign t'.kind t'.size))) := by
  obtain ⟨rfl, hm⟩ := h
  rw [run_append] at hr
  obtain ⟨st0, h0, h1⟩ := Res.bind_ok hr
  obtain ⟨stc, h2, h3⟩ := Res.bind_ok h1
  have hp' : Proper (pre ++ (.result t :: mid ++ [.assign x true])) false false := by simpa using hp
  obtain ⟨_, _, _, hi⟩ := run_inv pre _ [] (inv_init e ops) hp' h0
  obtain ⟨h4, _, h5⟩ := copyResult_ok (ops := ops) hi.sane h2
  obtain ⟨h6, h7⟩ := silent_run mid hm st0.last h3 h4
  have hrm := tryRemove_holds h6
  have hlast : ({ back st0.nextId st0.g none st with last := st.last } : State) =
      { back st0.nextId st0.g st0.last st with last := st.last } := rfl
  rw [hlast] at hrm
  refine ⟨back st0.nextId st0.g st0.last st, ?_, fun t' => ?_, fun t' => ?_, fun t' => ?_⟩
  · rw [List.append_assoc, run_append, h0]
    show run e ops ([.var t true false, .reset] ++ mid) st0 = _
    rw [run_append, h5]
    exact h7
  · show (tryRemove st).bind _ = _
    rw [hrm]
    rfl
  · show (tryRemove st).bind _ = _
    rw [hrm]
    rfl
  · show (tryRemove st).bind _ = _
    rw [hrm]
    rfl

/-- **C85, results that are kept.** In all other cases - anything else was generated since, there is a label, or the result
was handed over already - nothing is removed, and references are counted. -/
theorem C85_kept (e : Env ω) (ops : Ops) (reqs : List Req) (x : RType) (st : State)
    (hp : Proper (reqs ++ [.assign x true]) false false) (hr : run e ops reqs init = .ok st)
    (h : ∀ pre t mid, ¬ Pending reqs pre t mid) :
    (∀ t', step e ops st (.pass t') = emit e st (.op (.refCnt .inc t'))) ∧
    (∀ t' valid, step e ops st (.assign t' valid) =
      emit e st (.op (if t'.ty.collected then .other (ops.refCntAssign t'.ty) else .assign t'.kind t'.size))) := by
  obtain ⟨left, jmp, ⟨hl, _⟩, hi⟩ := run_inv reqs [.assign x true] [] (inv_init e ops) hp hr
  rcases hi.state hl with ⟨pre, t, mid, st0, hpd, _⟩ | hidle
  · exact absurd hpd (h pre t mid)
  · have := hidle.tryRemove
    constructor
    · intro t'
      show (tryRemove st).bind _ = _
      rw [this]
      rfl
    · intro t' valid
      show (tryRemove st).bind _ = _
      rw [this]
      rfl

theorem emit_err {e : Env ω} {st : State} {it : Item} : emit e st it ≠ .err .resultCopy := by
  intro h
  unfold emit at h
  cases hg : Peephole.genItem e st.g it with
  | ok => rw [hg] at h; cases h
  | err => rw [hg] at h; cases h
  | ub => rw [hg] at h; cases h

theorem emitAll_err {e : Env ω} : ∀ (its : List Item) (st : State), emitAll e its st ≠ .err .resultCopy
  | [], _ => nofun
  | it :: its, st => by
    intro h
    unfold emitAll at h
    cases hg : emit e st it with
    | ok st' => rw [hg] at h; exact emitAll_err its st' h
    | err x =>
      rw [hg] at h
      cases h
      exact emit_err hg
    | ub => rw [hg] at h; cases h

theorem allocStack_err (t : RType) : ∀ (bs : List Block), allocStack t bs ≠ .err .resultCopy
  | [] => nofun
  | b :: bs => by
    intro h
    unfold allocStack at h
    split at h
    · split at h <;> cases h
    · cases hg : allocStack t bs with
      | ok st' => rw [hg] at h; cases h
      | err x =>
        rw [hg] at h
        cases h
        exact allocStack_err t bs hg
      | ub => rw [hg] at h; cases h

theorem allocVar_err {st : State} {t : RType} {temp used : Bool} : allocVar st t temp used ≠ .err .resultCopy := by
  intro h
  unfold allocVar at h
  cases hl : st.blocks.getLast? with
  | none => rw [hl] at h; cases h
  | some glob =>
    rw [hl] at h
    simp only at h
    split at h
    · cases h
    · cases hg : allocStack t st.blocks.dropLast with
      | ok st' => rw [hg] at h; cases h
      | err x =>
        rw [hg] at h
        cases h
        exact allocStack_err t _ hg
      | ub => rw [hg] at h; cases h

/-- **C85, no failure.** The compiler never reports "Result copy optimization failed". -/
theorem C85_no_failure (e : Env ω) (ops : Ops) (reqs : List Req) (hp : Proper reqs false false) :
    run e ops reqs init ≠ .err .resultCopy := by
  have key : ∀ (rs reqs : List Req) (left jmp : Bool) (st : State), Inv e ops reqs left jmp st → Proper rs left jmp →
      run e ops rs st ≠ .err .resultCopy := by
    intro rs
    induction rs with
    | nil => intros; exact nofun
    | cons r rs ih =>
      intro reqs left jmp st hi hp h
      have h' : (step e ops st r).bind (run e ops rs) = .err .resultCopy := h
      cases hs : step e ops st r with
      | ok st' =>
        rw [hs] at h'
        obtain ⟨l, j, h1, h2⟩ := step_inv hi hp hs
        exact ih _ l j st' h2 h1 h'
      | ub => rw [hs] at h'; cases h'
      | err x =>
        rw [hs] at h'
        cases h'
        have hs' := hs
        cases r with
        | code it => exact emit_err hs
        | reset => cases hs
        | enter => cases hs
        | var t temp used =>
          have hs : (allocVar st t temp used).bind _ = _ := hs
          cases hg : allocVar st t temp used with
          | ok => rw [hg] at hs; cases hs
          | err x => rw [hg] at hs; cases hs; exact allocVar_err hg
          | ub => rw [hg] at hs; cases hs
        | result t =>
          have hs : ((allocVar st t true true).bind _).bind _ = _ := hs
          cases hg : allocVar st t true true with
          | ok a =>
            rw [hg] at hs
            have hs : Res.bind (if st.blocks.length ≤ 1 then _ else _) _ = _ := hs
            split at hs
            · cases hs
            · have hs : genCopyResult e _ t _ = _ := hs
              rw [genCopyResult_eq] at hs
              cases hs
          | err x => rw [hg] at hs; cases hs; exact allocVar_err hg
          | ub => rw [hg] at hs; cases hs
        | pass t =>
          obtain ⟨rfl, _⟩ := hp
          obtain ⟨st1, b, h1, _⟩ := take_cases hi
          have hs : (tryRemove st).bind _ = _ := hs
          rw [h1] at hs
          have hs : (if b = true then .ok st1 else emit e st1 (.op (.refCnt .inc t))) = Res.err Err.resultCopy := hs
          split at hs
          · cases hs
          · exact emit_err hs
        | assign t valid =>
          obtain ⟨rfl, _⟩ := hp
          obtain ⟨st1, b, h1, _⟩ := take_cases hi
          have hs : (tryRemove st).bind _ = _ := hs
          rw [h1] at hs
          have hs : (if b = true then (if valid = true then genCountedAssign e st1 t (ops.leftRefCntAssign t.ty)
            else emit e st1 (.op (.assign t.kind t.size))) else genCountedAssign e st1 t (ops.refCntAssign t.ty)) =
            Res.err Err.resultCopy := hs
          unfold genCountedAssign at hs
          split at hs
          · split at hs
            · exact emit_err hs
            · exact emit_err hs
          · exact emit_err hs
        | leave =>
          have hs : leave e ops st = _ := hs
          unfold leave at hs
          split at hs
          · rename_i b b' bs hb
            cases hg : emitAll e (releases ops b) st with
            | ok => rw [hg] at hs; cases hs
            | err x => rw [hg] at hs; cases hs; exact emitAll_err _ _ hg
            | ub => rw [hg] at hs; cases hs
          · cases hs
        | unwind n => exact emitAll_err _ _ hs
  exact key reqs [] false false init (inv_init e ops) hp

/-- **C85, releases.** Consider the variable of the copy of a result, at any later time while it exists.  It is marked as not
used if, and only if, the first thing that happened after the copy was a use of the value. -/
theorem C85_used (e : Env ω) (ops : Ops) (pre post : List Req) (t : RType) (st0 st : State)
    (hp : Proper (pre ++ .result t :: post) false false) (h0 : run e ops pre init = .ok st0)
    (hr : run e ops (pre ++ .result t :: post) init = .ok st)
    (b : Block) (hb : b ∈ st.blocks) (i : Ident) (hi : i ∈ b.idents) (hid : i.id = st0.nextId) :
    i.used = false ↔ Handed post := by
  have hr' := hr
  rw [run_append, h0] at hr'
  have hr' : run e ops (.result t :: post) st0 = .ok st := hr'
  obtain ⟨stc, h1, h2⟩ := Res.bind_ok hr'
  obtain ⟨left, jmp, hp0, hi0⟩ := run_inv pre _ [] (inv_init e ops) hp h0
  obtain ⟨l, j, hp1, hi1⟩ := step_inv hi0 hp0 h1
  obtain ⟨c1, c2, c3⟩ := copyResult_ok (ops := ops) hi0.sane h1
  constructor
  · intro hu
    apply Classical.byContradiction
    intro hn
    have huse : UsedIs st0.nextId true stc.blocks := by
      obtain ⟨⟨sa, off⟩, b1, b2⟩ := Res.bind_ok h1
      obtain ⟨⟨sb, off2⟩, b3, b4⟩ := Res.bind_ok b1
      simp only at b4
      split at b4
      · cases b4
      · cases b4
        simp only [genCopyResult_eq, Res.ok.injEq] at b2
        subst b2
        have a5 := (allocVar_ok b3).2.2.2.2.1
        show UsedIs _ _ sb.blocks
        rw [usedIs_iff, a5]
        have hold : ∀ is ∈ st0.blocks.map (·.idents), ∀ i ∈ is, i.id ≠ st0.nextId := by
          intro is his i hi
          obtain ⟨b, hb, rfl⟩ := List.mem_map.1 his
          exact Nat.ne_of_lt (hi0.sane.ids b hb i hi)
        intro is his i hi hii
        rcases List.mem_cons.1 his with rfl | his
        · rcases List.mem_cons.1 hi with rfl | hi
          · rfl
          · revert hi
            cases hb : st0.blocks.map (·.idents) with
            | nil => intro hi; cases hi
            | cons x xs => intro hi; exact absurd hii (hold x (by rw [hb]; exact List.mem_cons_self) i hi)
        · exact absurd hii (hold is (List.mem_of_mem_tail his) i hi)
    have := used_run (t := t) h0 post [] hi1 hp1 c1.fresh huse (by simpa using hn) h2 b hb i hi hid
    rw [hu] at this
    cases this
  · rintro ⟨mid, r, rest, rfl, hm, hu⟩
    rw [run_append] at h2
    obtain ⟨st1, h3, h4⟩ := Res.bind_ok h2
    obtain ⟨h5, h6⟩ := Res.bind_ok h4
    obtain ⟨hh, _⟩ := silent_run mid hm none h3 c1
    have hrm := tryRemove_holds hh
    have hmark : UsedIs st0.nextId false (setUnused st0.nextId st1.blocks) := by
      intro b hb i hi hii
      obtain ⟨b0, hb0, rfl⟩ := List.mem_map.1 hb
      obtain ⟨i0, hi0, rfl⟩ := List.mem_map.1 hi
      revert hii
      split
      · intro _; rfl
      · rename_i hne
        intro hii
        exact absurd (by simpa using hii) hne
    have h7 : UsedIs st0.nextId false h5.blocks ∧ st0.nextId < h5.nextId := by
      have hfresh := hh.fresh
      obtain ⟨h6, _⟩ := h6
      rcases hu with ⟨t', rfl⟩ | ⟨t', valid, rfl⟩
      · have h6 : (tryRemove st1).bind _ = .ok h5 := h6
        rw [hrm] at h6
        cases h6
        exact ⟨hmark, hfresh⟩
      · have h6 : (tryRemove st1).bind _ = .ok h5 := h6
        rw [hrm] at h6
        have key : ∃ it, emit e { back st0.nextId st0.g none st1 with last := st1.last } it = .ok h5 := by
          simp only [Res.bind, genCountedAssign, if_true] at h6
          split at h6
          · exact ⟨_, h6⟩
          · exact ⟨_, h6⟩
        obtain ⟨it, h8⟩ := key
        obtain ⟨g, _, rfl⟩ := emit_ok h8
        exact ⟨hmark, hfresh⟩
    exact unused_run rest h7.2 h7.1 h6.2 b hb i hi hid

/-- **C85, the end of a block.** Each variable of the block that can hold a reference is dropped once, except temporary
variables that are not used. -/
theorem C85_leave (e : Env ω) (ops : Ops) (st st' : State) (b b' : Block) (bs : List Block)
    (hb : st.blocks = b :: b' :: bs) (h : step e ops st .leave = .ok st') :
    st'.blocks = b' :: bs ∧
    st'.g.rcode.reverse = st.g.rcode.reverse ++
      (b.idents.filter fun i => i.gc && !(i.temp && !i.used)).map fun i => .ins (.other (ops.refCntVar i)) := by
  have key : ∀ (is : List Ident) (s s' : State),
      emitAll e (is.map fun i => .op (.other (ops.refCntVar i))) s = .ok s' →
      s'.g.rcode.reverse = s.g.rcode.reverse ++ is.map fun i => .ins (.other (ops.refCntVar i)) := by
    intro is
    induction is with
    | nil => intro s s' h; cases h; simp
    | cons i is ih =>
      intro s s' h
      obtain ⟨s1, h1, h2⟩ := Res.bind_ok h
      obtain ⟨g, h3, rfl⟩ := emit_ok h1
      cases h3
      rw [ih _ _ h2]
      simp [Peephole.add]
  have h : leave e ops st = .ok st' := h
  unfold leave at h
  rw [hb] at h
  obtain ⟨st1, h1, h2⟩ := Res.bind_ok h
  cases h2
  refine ⟨rfl, ?_⟩
  rw [key _ _ _ h1]
  have : (fun i : Ident => i.gc && (!i.temp || i.used)) = fun i => i.gc && !(i.temp && !i.used) := by
    funext i
    cases i.temp <;> cases i.used <;> rfl
  rw [this]

/-- **C85, the copy.** The three instructions that are removed do nothing but write the temporary variable: if they are
executed, the operand stack, all registers, the heap, and all other memory are as before, and the variable has the value of
the result. -/
theorem C85_copy_effect (e : Env ω) (k : Kind) (size : Nat) (off : Int) (s s' : Peephole.St ω)
    (h : ((exec e .dup s).bind (exec e (.pushLocalPtr off))).bind (exec e (.swapAssign k size)) = .ok s') :
    (∃ m, s' = { s with core := { s.core with mem := m } }) ∧
    (∀ a : Nat, (a < s.core.base.toNat + off ∨ s.core.base.toNat + off + width size k ≤ a) →
      s'.core.mem a = s.core.mem a) ∧
    (k = .ptr ∨ k = .str ∨ k = .fiber →
      some (BitVec.ofNat 64 (Arith.readBytes s'.core.mem (s.core.base.toNat + off).toNat 8)) = s.core.stack.head?) ∧
    (k = .structured → ∀ p ∈ s.core.stack.head?, ∀ i < size,
      s'.core.mem ((s.core.base.toNat + off).toNat + i) = s.core.mem (p.toNat + i)) := by
  obtain ⟨⟨stack, mem, base, regs, world⟩, self⟩ := s
  cases stack with
  | nil => cases h
  | cons v st =>
    simp only [exec, Peephole.bind_ok, Peephole.St.withStack] at h
    cases hp : Peephole.addPtr base off with
    | err => rw [hp] at h; cases h
    | ub => rw [hp] at h; cases h
    | ok p =>
      obtain ⟨hp1, hp2⟩ := Peephole.addPtr_ok hp
      rw [hp] at h
      simp only [Peephole.bind_ok, exec] at h
      have hpn : (p.toNat : Int) = base.toNat + off := by omega
      have ht : (base.toNat + off).toNat = p.toNat := by omega
      cases ha : Peephole.assignImpl e k size world mem p v with
      | err => rw [ha] at h; cases h
      | ub => rw [ha] at h; cases h
      | ok m =>
        rw [ha] at h
        cases h
        refine ⟨⟨m, rfl⟩, ?_, ?_, ?_⟩
        · intro a hb
          show m a = mem a
          simp only at hb
          rw [← hpn] at hb
          have hb' : a < p.toNat ∨ p.toNat + width size k ≤ a := by omega
          clear hb
          unfold Peephole.assignImpl at ha
          split at ha
          · cases ha
          · cases k with
            | ord k =>
              simp only [Arith.doAssign] at ha
              split at ha
              · cases ha
              · split at ha
                · cases ha
                · cases k <;> (cases ha; exact Arith.write_frame _ _ _ _ _ hb')
            | real32 =>
              simp only at ha
              split at ha
              · cases ha
              · cases ha; exact Arith.write_frame _ _ _ _ _ hb'
            | real =>
              simp only at ha
              split at ha
              · cases ha
              · cases ha; exact Arith.write_frame _ _ _ _ _ hb'
            | str =>
              simp only at ha
              split at ha
              · cases ha; exact Arith.write_frame _ _ _ _ _ hb'
              · cases ha
            | structured =>
              simp only at ha
              split at ha
              · cases ha
              · cases ha
                unfold Peephole.copyBytes
                rw [if_neg]
                simp only [width] at hb'
                omega
            | none => cases ha
            | _ => cases ha; exact Arith.write_frame _ _ _ _ _ hb'
        · intro hk
          simp only [ht, List.head?_cons, Option.some.injEq]
          have hw : ∀ m', m' = Arith.writeBytes mem p.toNat 8 v.toNat →
              BitVec.ofNat 64 (Arith.readBytes m' p.toNat 8) = v := by
            intro m' hm
            rw [hm, Arith.read_write]
            apply Arith.ofNat_of_toNat
            have := v.isLt
            omega
          apply hw
          unfold Peephole.assignImpl at ha
          split at ha
          · cases ha
          · rcases hk with rfl | rfl | rfl
            · cases ha; rfl
            · simp only at ha
              split at ha
              · cases ha; rfl
              · cases ha
            · cases ha; rfl
        · rintro rfl q hq i hi
          simp only [List.head?_cons, Option.mem_def, Option.some.injEq] at hq
          subst hq
          show m _ = mem _
          rw [ht]
          unfold Peephole.assignImpl at ha
          split at ha
          · cases ha
          · simp only at ha
            split at ha
            · cases ha
            · cases ha
              unfold Peephole.copyBytes
              rw [if_pos ⟨by omega, by omega⟩]
              congr 1
              omega

/-! ### A sample -/

def str : RType := ⟨.str, .str, 8, 8⟩
def sampleOps : Ops := ⟨fun _ => 1, fun _ => 2, fun i => 100 + i.id⟩

/-- `fn g() { s = f() + "x"; …` where `s` is a global variable at address 64: the result of `f` is copied and kept,
the one of `+` is handed over. -/
def before : List Req :=
  [.enter true, .code (.op (.push .ptr 64)), .code (.op (.other 9)), .code (.op (.pushReg .result)), .result str,
   .code (.op (.push .ptr 32)), .code (.op (.binary .plus .str))]
def sample : List Req := before ++ [.result str]

/-- `…; h(f(), s) }`: the first argument is handed over; the block is left. -/
def after : List Req :=
  [.assign str true, .code (.op (.other 9)), .code (.op (.pushReg .result)), .result str, .pass .str,
   .code (.op (.pushGlobal .str 64)), .pass .str, .code (.op (.other 9)), .leave]

/-- The code for the whole function: one temporary variable, at offset -24, is dropped at the end. -/
def sampleCode : List CItem :=
  [.ins (.push .ptr 64), .ins (.other 9), .ins (.pushReg .result), .ins .dup, .ins (.pushLocalPtr (-24)),
   .ins (.swapAssign .str 8), .ins (.push .ptr 32), .ins (.binary .plus .str), .ins (.other 2), .ins (.other 9),
   .ins (.pushReg .result), .ins (.pushGlobal .str 64), .ins (.refCnt .inc .str), .ins (.other 9), .ins (.other 100)]

example : Proper (sample ++ [.assign str true]) false false ∧ Pending sample before str [] ∧
    Proper (sample ++ after) false false ∧
    ∃ st, run Peephole.Props.sampleEnv sampleOps sample init = .ok st := by
  refine ⟨?_, ⟨rfl, nofun⟩, ?_, _, rfl⟩
  · simp [sample, before, Proper, generates]
  · simp [sample, before, after, Proper, generates]

example : ∃ st, run Peephole.Props.sampleEnv sampleOps (sample ++ after) init = .ok st ∧ st.g.rcode.reverse = sampleCode :=
  ⟨_, rfl, rfl⟩

/-- After the `+` of the sample, the result of `f` is not pending any more. -/
example : Proper (before ++ [.assign str true]) false false ∧ (∀ pre t mid, ¬ Pending before pre t mid) ∧
    ∃ st, run Peephole.Props.sampleEnv sampleOps before init = .ok st := by
  refine ⟨?_, ?_, _, rfl⟩
  · simp [before, Proper, generates]
  · rintro pre t mid ⟨h1, h2⟩
    have hl := congrArg List.getLast? h1
    rw [List.getLast?_append, List.getLast?_cons] at hl
    cases hm : mid.getLast? with
    | none => rw [hm] at hl; simp [before] at hl
    | some r =>
      rw [hm] at hl
      simp only [before, Option.getD_some, Option.some_or, List.getLast?_cons_cons, List.getLast?_singleton] at hl
      have := h2 r (List.mem_of_getLast? hm)
      rw [← Option.some.inj hl] at this
      exact this

/-- In the sample, the variable of the first result is used, the one of the second is not; both exist before the last block
is left. -/
example : Proper (sample ++ after) false false ∧ (∃ st0, run Peephole.Props.sampleEnv sampleOps before init = .ok st0) ∧
    ∃ st b b' i j, run Peephole.Props.sampleEnv sampleOps (sample ++ after.dropLast) init = .ok st ∧ st.blocks = [b, b'] ∧
      i ∈ b.idents ∧ i.id = 0 ∧ i.used = true ∧ j ∈ b.idents ∧ j.id = 1 ∧ j.used = false := by
  refine ⟨?_, ⟨_, rfl⟩, _, _, _, ⟨0, -24, true, true, true, .str⟩, ⟨1, -32, true, true, false, .str⟩, rfl, rfl, ?_, rfl, rfl, ?_, rfl, rfl⟩
  · simp [sample, before, after, Proper, generates]
  · exact .tail _ (.tail _ (.head _))
  · exact .tail _ (.head _)

/-- A string at `2 ^ 41` is copied to the variable at offset -24 of a frame at 1000. -/
example : ∃ s', ((exec Peephole.Props.sampleEnv .dup ⟨⟨[2 ^ 41, 7], fun _ => 5, 1000, fun _ => 3, 0⟩, 1⟩).bind
    (exec Peephole.Props.sampleEnv (.pushLocalPtr (-24)))).bind (exec Peephole.Props.sampleEnv (.swapAssign .str 8)) = .ok s' :=
  ⟨_, rfl⟩

end Umka.ResultCopy.Props
