import Verif.Trace.Gen

/-! # Without locations, the generator is the one of `Verif/Peephole` -/

namespace Umka.Trace
open Umka.Peephole (Instr R Env Kind Reg Tok Ty BuiltinFn CItem)
open Umka.Arith (BinOp UnOp)

/-- Instructions that have no rules are the same to the optimizer. -/
def item (c : Cell) : CItem := match c.op with | .ins i => .ins i | _ => .jump none 0

/-- The code without locations. -/
def erase (g : Gen) : Peephole.Gen := ⟨(g.code.map item).reverse, g.lastJump, []⟩

def eraseR : R Gen → R Peephole.Gen
  | .ok g => .ok (erase g)
  | .err e => .err e
  | .ub => .ub

theorem erase_ip (g : Gen) : (erase g).ip = g.ip := by simp [erase, Peephole.Gen.ip, Gen.ip]

theorem erase_add (g : Gen) (i : Instr) : erase (add g i) = Peephole.add (erase g) i := by
  simp [erase, add, put, Peephole.add, item]

theorem erase_remove (g : Gen) : erase (remove g) = Peephole.remove (erase g) := by
  simp only [erase, remove, Peephole.remove, Peephole.Gen.mk.injEq, and_true]
  rw [List.map_dropLast]
  generalize g.code.map item = l
  cases List.eq_nil_or_concat l with
  | inl h => subst h; rfl
  | inr h => obtain ⟨l, a, rfl⟩ := h; simp

theorem prev_erase (g : Gen) : Peephole.prev (erase g) = prev g := by
  simp only [Peephole.prev, prev, erase_ip]
  show (if g.ip < g.lastJump + 1 then none else _) = _
  split
  · rfl
  · rcases List.eq_nil_or_concat g.code with h | ⟨l, a, h⟩
    · simp [erase, h, insOf]
    · obtain ⟨o, d⟩ := a
      cases o <;> simp [erase, h, insOf, item]

theorem prev2_erase (g : Gen) : Peephole.prev2 (erase g) = prev2 g := by
  simp only [Peephole.prev2, prev2, erase_ip]
  show (if g.ip < g.lastJump + 2 then none else _) = _
  split
  · rfl
  · rcases List.eq_nil_or_concat g.code with h | ⟨l, a, h⟩
    · simp [erase, h, insOf]
    · rcases List.eq_nil_or_concat l with h' | ⟨l', b, h'⟩
      · subst h'; simp [erase, h, insOf]
      · subst h'
        obtain ⟨o, d⟩ := b
        cases o <;> simp [erase, h, insOf, item]

theorem erase_edit {g : Gen} {j : Instr} (h : prev g = some j) (i : Instr) : erase (edit g i) = Peephole.replace (erase g) i := by
  rcases List.eq_nil_or_concat g.code with h' | ⟨l, a, h'⟩
  · simp [prev, h', insOf] at h
  · simp [edit, h', erase, Peephole.replace, Peephole.add, Peephole.remove, item]

theorem erase_edit1 {g : Gen} {j j' : Instr} (h : prev2 g = some j) (_h : prev g = some j') (i : Instr) :
    erase (edit (remove g) i) = Peephole.replace (Peephole.remove (erase g)) i := by
  rw [← erase_remove]
  rcases List.eq_nil_or_concat g.code.dropLast with h' | ⟨l, a, h'⟩
  · simp [prev2, h', insOf] at h
  · simp [edit, remove, h', erase, Peephole.replace, Peephole.add, Peephole.remove, item]

theorem erase_edit2 {g : Gen} {j : Instr} {k : Kind} {x : Arith.Slot} (h : prev2 g = some j) (h1 : prev g = some (.push k x)) (i : Instr) :
    erase (edit2 g i) = Peephole.add (Peephole.replace (Peephole.remove (erase g)) i) (.push k x) := by
  rcases List.eq_nil_or_concat g.code with h' | ⟨l, a, h'⟩
  · simp [prev, h', insOf] at h1
  · rw [← erase_edit1 h h1]
    have ha : item a = .ins (.push k x) := by
      simp only [prev] at h1
      split at h1
      · cases h1
      · rw [h'] at h1
        obtain ⟨o, d⟩ := a
        cases o <;> simp [insOf] at h1
        subst h1; rfl
    simp only [edit2, h', List.concat_eq_append, List.getLast?_append, List.getLast?_singleton, Option.some_or]
    have hl : (edit (remove g) i).lastJump = g.lastJump := by
      simp only [edit]; split <;> rfl
    simp [erase, Peephole.add, ha, hl]

theorem erase_deref (k : Kind) : ∀ (n : Nat) (g : Gen), erase (genDeref g k n) = Peephole.genDeref (erase g) k n
  | 0, g => by simp only [genDeref, Peephole.genDeref, erase_add]
  | n + 1, g => by
    rw [genDeref, Peephole.genDeref, prev_erase]
    cases h : prev g with
    | none => simp only [erase_add]
    | some i =>
      cases i with
      | push kk v => cases kk <;> simp only [erase_add, erase_remove]
      | getFieldPtr off =>
        simp only
        split
        · rw [erase_deref k n, erase_remove]
        · rw [erase_edit h]
      | _ => simp only [erase_add, erase_remove, erase_edit h]

theorem erase_field (g : Gen) (off : Int) : erase (genGetFieldPtr g off) = Peephole.genGetFieldPtr (erase g) off := by
  rw [genGetFieldPtr, Peephole.genGetFieldPtr, prev_erase]
  cases h : prev g with
  | none => simp only [erase_add]
  | some i => cases i <;> simp only [erase_add, erase_edit h]

/-- Locations do not affect the code: it is the one that `Verif/Peephole` proves correct. -/
theorem erase_gen (e : Env ω) (g : Gen) (i : Instr) : eraseR (gen e g i) = Peephole.gen e (erase g) i := by
  cases i with
  | pushLocalPtr off =>
    simp only [gen, Peephole.gen, eraseR, R.ok.injEq]
    rw [genPushLocalPtr, Peephole.genPushLocalPtr, prev_erase, prev2_erase]
    cases h : prev g with
    | none => simp only [erase_add]
    | some i =>
      cases h2 : prev2 g with
      | none => cases i <;> simp only [erase_add]
      | some j =>
        cases i with
        | zero size =>
          cases j with
          | pushLocalPtr off' => simp only; split <;> simp only [erase_add, erase_remove]
          | _ => simp only [erase_add]
        | _ => simp only [erase_add]
  | pushReg r =>
    simp only [gen, Peephole.gen, eraseR, R.ok.injEq]
    rw [genPushReg, Peephole.genPushReg, prev_erase]
    cases h : prev g with
    | none => simp only [erase_add]
    | some i =>
      cases i with
      | popReg r' => cases r' <;> simp only <;> (try split) <;> simp only [erase_add, erase_remove]
      | _ => simp only [erase_add]
  | pushZero n =>
    simp only [gen, Peephole.gen, eraseR, R.ok.injEq]
    rw [genPushZero, Peephole.genPushZero, prev_erase]
    cases h : prev g with
    | none => simp only [erase_add]
    | some i => cases i <;> simp only [erase_add, erase_edit h]
  | pop n =>
    simp only [gen, Peephole.gen]
    split
    · simp only [eraseR, R.ok.injEq]
      rw [genPop, Peephole.genPop, prev_erase]
      cases h : prev g with
      | none => simp only [erase_add]
      | some i => cases i <;> simp only [erase_add, erase_edit h]
    · simp only [eraseR, erase_add]
  | popReg r =>
    simp only [gen, Peephole.gen, eraseR, R.ok.injEq]
    rw [genPopReg, Peephole.genPopReg, prev_erase]
    cases h : prev g with
    | none => simp only [erase_add]
    | some i =>
      cases i with
      | pushReg r' => simp only; split <;> simp only [erase_add, erase_remove]
      | _ => simp only [erase_add]
  | swapAssign k size =>
    simp only [gen, Peephole.gen, eraseR, R.ok.injEq]
    rw [genSwapAssign, Peephole.genSwapAssign, prev_erase]
    cases h : prev g with
    | none => simp only [erase_add]
    | some i => cases i <;> simp only [erase_add, erase_remove, Peephole.replace]
  | refCnt tok t =>
    simp only [gen, Peephole.gen, eraseR, R.ok.injEq]
    rw [genRefCnt.eq_def, Peephole.genRefCnt.eq_def, prev_erase]
    split
    · cases h : prev g with
      | none => simp only [erase_add]
      | some i =>
        cases i with
        | push kk v => cases kk <;> cases t <;> simp only [erase_add]
        | pushLocalPtrZero o s => simp only; split <;> simp only [erase_add]
        | _ => simp only [erase_add]
    · rfl
  | deref k => simp only [gen, Peephole.gen, eraseR, erase_deref, erase_ip]
  | getFieldPtr off => simp only [gen, Peephole.gen, eraseR, erase_field]
  | getArrayPtr itemSize len =>
    simp only [gen, Peephole.gen]
    rw [genGetArrayPtr, Peephole.genGetArrayPtr, prev_erase]
    cases h : prev g with
    | none => simp only [erase_add, eraseR]
    | some i =>
      cases i with
      | push kk v =>
        cases kk with
        | ord o =>
          cases o with
          | int =>
            simp only
            split
            · split
              · rfl
              · split
                · simp only [eraseR, erase_field, erase_remove]
                · rfl
            · simp only [eraseR, erase_add]
          | _ => simp only [eraseR, erase_add]
        | _ => simp only [eraseR, erase_add]
      | _ => simp only [eraseR, erase_add]
  | unary op k =>
    simp only [gen, Peephole.gen]
    rw [genUnary, Peephole.genUnary, prev_erase]
    cases h : prev g with
    | none => simp only [erase_add, eraseR]
    | some i =>
      cases i with
      | push kk v =>
        simp only
        cases Peephole.constUnary e op k v <;> simp only [R.bind, eraseR, erase_edit h]
      | _ => simp only [eraseR, erase_add]
  | binary op k =>
    simp only [gen, Peephole.gen]
    rw [genBinary, Peephole.genBinary, prev_erase, prev2_erase]
    cases h : prev g with
    | none => simp only [erase_add, eraseR]
    | some i =>
      cases h2 : prev2 g with
      | none => cases i <;> simp only [eraseR, erase_add]
      | some j =>
        cases i with
        | push kk v =>
          cases j with
          | push kk' v' =>
            simp only
            split
            · cases Peephole.constBinary e op k v' v <;> simp only [R.bind, eraseR, erase_edit1 h2 h]
            · simp only [eraseR, erase_add]
          | _ => simp only [eraseR, erase_add]
        | _ => simp only [eraseR, erase_add]
  | callBuiltin f k =>
    simp only [gen, Peephole.gen]
    rw [genCallBuiltin, Peephole.genCallBuiltin, prev_erase, prev2_erase]
    cases h : prev g with
    | none => simp only [erase_add, eraseR]
    | some i =>
      cases i with
      | push k1 x =>
        cases f with
        | num f =>
          cases f
          case atan2 =>
            simp only
            cases h2 : prev2 g with
            | none => simp only [eraseR, erase_add]
            | some j =>
              cases j with
              | push k2 y =>
                simp only
                cases Peephole.lift (Arith.constCallBuiltin e.real .atan2 k2.arith (.r y) x) <;> simp only [R.bind, eraseR, erase_edit1 h2 h]
              | _ => simp only [eraseR, erase_add]
          all_goals
            simp only
            generalize Peephole.lift _ = r
            cases r <;> simp only [R.bind, eraseR, erase_edit h]
        | makeRealLeft =>
          simp only
          cases h2 : prev2 g with
          | none => simp only [eraseR, erase_add]
          | some j =>
            cases j with
            | push k2 y =>
              simp only
              cases Peephole.lift (Arith.constCallBuiltin e.real .makereal k2.arith (.i y) 0) <;> simp only [R.bind, eraseR, erase_edit2 h2 h]
            | _ => simp only [eraseR, erase_add]
        | other n => simp only [eraseR, erase_add]
      | _ => simp only [eraseR, erase_add]
  | _ => simp only [gen, Peephole.gen, eraseR, erase_add]

end Umka.Trace
