import Verif.Peephole.Spec
/-! # The peephole optimizer: each rule preserves the meaning of straight-line code -/

namespace Umka.Peephole
open Umka.Arith (Slot Mem readBytes writeBytes readSigned readUnsigned BinOp UnOp RealOps Num Builtin)
open Spec
variable {ω : Type}

@[simp] theorem bind_ok {α β : Type} (a : α) (f : α → R β) : (R.ok a).bind f = f a := rfl
@[simp] theorem bind_err {α β : Type} (x : Err) (f : α → R β) : (R.err x).bind f = .err x := rfl
@[simp] theorem bind_ub {α β : Type} (f : α → R β) : (R.ub : R α).bind f = .ub := rfl

theorem bind_assoc {α β γ : Type} (x : R α) (f : α → R β) (g : β → R γ) :
    (x.bind f).bind g = x.bind fun a => (f a).bind g := by
  cases x <;> rfl

/-- States that agree, with or without `REG_SELF`. -/
def Rel (b : Bool) (s s' : St ω) : Prop := s.core = s'.core ∧ (b = true → s.self = s'.self)

/-- `Spec.Same`, with or without `REG_SELF`. -/
def Sim (b : Bool) : R (St ω) → R (St ω) → Prop
  | .ub, _ => True
  | .ok s, .ok s' => Rel b s s'
  | .err x, .err y => cls x = cls y
  | _, _ => False

theorem Rel.refl (b : Bool) (s : St ω) : Rel b s s := ⟨rfl, fun _ => rfl⟩

theorem Rel.eq {s s' : St ω} (h : Rel true s s') : s = s' := by
  obtain ⟨h1, h2⟩ := h
  cases s; cases s'
  simp_all

theorem Rel.weaken {b c : Bool} {s s' : St ω} (h : Rel b s s') (hc : c = true → b = true) :
    Rel c s s' := ⟨h.1, fun x => h.2 (hc x)⟩

theorem Sim.refl (b : Bool) (x : R (St ω)) : Sim b x x := by
  cases x <;> simp [Sim, Rel.refl]

theorem Sim.weaken {b c : Bool} {x y : R (St ω)} (h : Sim b x y) (hc : c = true → b = true) :
    Sim c x y := by
  cases x <;> cases y <;> simp_all [Sim]
  exact h.weaken hc

theorem Sim.trans {b c : Bool} {x y z : R (St ω)} (h : Sim b x y) (h' : Sim c y z) :
    Sim (b && c) x z := by
  cases x <;> cases y <;> cases z <;> simp_all [Sim]
  · obtain ⟨h1, h2⟩ := h
    obtain ⟨h3, h4⟩ := h'
    refine ⟨h1.trans h3, fun hb => ?_⟩
    simp only [Bool.and_eq_true] at hb
    exact (h2 hb.1).trans (h4 hb.2)

theorem Sim.same {b : Bool} {x y : R (St ω)} (h : Sim b x y) : Same x y := by
  cases x <;> cases y <;> simp_all [Sim, Same]
  exact h.1

/-- Straight-line code. -/
def runSeq (e : Env ω) : List Instr → St ω → R (St ω)
  | [], s => .ok s
  | i :: is, s => (exec e i s).bind (runSeq e is)

theorem runSeq_append (e : Env ω) (xs ys : List Instr) (s : St ω) :
    runSeq e (xs ++ ys) s = (runSeq e xs s).bind (runSeq e ys) := by
  induction xs generalizing s with
  | nil => rfl
  | cons x xs ih =>
    simp only [List.cons_append, runSeq]
    rw [bind_assoc]
    congr 1
    funext t
    exact ih t

theorem Sim.bind {b c : Bool} {x y : R (St ω)} {f f' : St ω → R (St ω)} (h : Sim b x y)
    (hf : ∀ s s', Rel b s s' → Sim c (f s) (f' s')) : Sim c (x.bind f) (y.bind f') := by
  cases x <;> cases y <;> simp_all [Sim, R.bind]

/-- An instruction that does not touch `REG_SELF`. -/
def blind : Instr → Bool
  | .pushReg .self | .popReg .self => false
  | _ => true

theorem exec_blind (e : Env ω) (i : Instr) (hi : blind i = true) (c : Core ω) (a : Slot) :
    ∃ y : R (Core ω), ∀ a : Slot, exec e i ⟨c, a⟩ = y.bind fun c => .ok ⟨c, a⟩ := by
  refine ⟨(exec e i ⟨c, a⟩).bind fun s => .ok s.core, fun a' => ?_⟩
  obtain ⟨st, m, base, regs, w⟩ := c
  cases i
  case pushReg r =>
    cases r <;> simp_all [blind, exec, Core.getReg, St.withStack]
  case popReg r =>
    cases r <;> simp_all [blind, exec, setReg, St.withStack] <;> cases st <;> simp
  all_goals
    simp only [exec, St.withStack, St.withAll]
  all_goals first
    | rfl
    | (repeat' split) <;> simp only [bind_assoc, bind_ok, bind_err, bind_ub] <;> first | rfl | simp [bind_assoc]
    | simp only [bind_assoc, bind_ok]

theorem exec_mono (e : Env ω) (i : Instr) {b : Bool} {s s' : St ω} (h : Rel b s s') (hi : selfOk b i) :
    Sim (selfAfter b i) (exec e i s) (exec e i s') := by
  by_cases hb : blind i = true
  · obtain ⟨c, a⟩ := s
    obtain ⟨c', a'⟩ := s'
    obtain ⟨rfl, h2⟩ := h
    obtain ⟨y, hy⟩ := exec_blind e i hb c a
    rw [hy, hy]
    cases y with
    | ok c' =>
      refine ⟨rfl, fun hs => h2 ?_⟩
      unfold selfAfter at hs
      split at hs <;> simp_all [blind]
    | err => rfl
    | ub => trivial
  · unfold blind at hb
    split at hb
    · have hb : b = true := hi
      subst hb
      have := h.eq
      subst this
      exact Sim.weaken (Sim.refl true _) (fun _ => rfl)
    · obtain ⟨c, a⟩ := s
      obtain ⟨c', a'⟩ := s'
      obtain ⟨rfl, h2⟩ := h
      simp only [exec, setReg, if_true, St.withStack]
      split
      · exact ⟨rfl, fun _ => rfl⟩
      · trivial
    · exact absurd rfl hb

theorem runSeq_mono (e : Env ω) {xs ys : List Instr} {b : Bool} {i : Instr} {s s' : St ω}
    (h : Sim b (runSeq e xs s) (runSeq e ys s')) (hi : selfOk b i) :
    Sim (selfAfter b i) (runSeq e (xs ++ [i]) s) (runSeq e (ys ++ [i]) s') := by
  rw [runSeq_append, runSeq_append]
  refine h.bind fun t t' ht => ?_
  simp only [runSeq]
  have := exec_mono e i ht hi
  exact this.bind fun u u' hu => hu

/-- Replacing the last instructions. -/
theorem tail_sim (e : Env ω) {b : Bool} (p xs ys : List Instr)
    (h : ∀ t, Sim b (runSeq e xs t) (runSeq e ys t)) (t : St ω) :
    Sim b (runSeq e (p ++ xs) t) (runSeq e (p ++ ys) t) := by
  rw [runSeq_append, runSeq_append]
  exact (Sim.refl true _).bind fun s s' hs => by rw [hs.eq]; exact h s'

/-! ## The state of the generator -/

/-- The instructions since the last label or jump, last one first. -/
structure Open (g : Gen) (rc : List CItem) (rb : List Instr) : Prop where
  code : g.rcode = rb.map .ins ++ rc
  bar : rc.length ≤ g.lastJump ∨ rc.head?.all (fun x => match x with | .jump .. => true | _ => false) = true
  le : g.lastJump ≤ g.ip

theorem Open.add {g : Gen} {rc : List CItem} {rb : List Instr} (h : Open g rc rb) (i : Instr) :
    Open (add g i) rc (i :: rb) where
  code := by simp [Peephole.add, h.code]
  bar := h.bar
  le := by have := h.le; simp [Peephole.add, Gen.ip] at *; omega

theorem prev_some {g : Gen} {rc : List CItem} {rb : List Instr} {i : Instr} (h : Open g rc rb)
    (hp : prev g = some i) : ∃ rb', rb = i :: rb' ∧ Open (remove g) rc rb' := by
  unfold prev at hp
  split at hp
  · cases hp
  · rename_i hl
    have hc := h.code
    cases rb with
    | nil =>
      exfalso
      simp only [List.map_nil, List.nil_append] at hc
      rcases h.bar with hb | hb
      · rw [← hc] at hb
        simp [Gen.ip] at hl
        omega
      · rw [← hc] at hb
        split at hp
        · rename_i heq
          rw [heq] at hb
          simp at hb
        · cases hp
    | cons j rb' =>
      rw [hc] at hp
      simp only [List.map_cons, List.cons_append, Option.some.injEq] at hp
      subst hp
      refine ⟨rb', rfl, ?_, h.bar, ?_⟩
      · simp [remove, hc]
      · simp only [Gen.ip, remove, List.length_tail] at *
        omega

theorem prev2_some {g : Gen} {rc : List CItem} {rb : List Instr} {i j : Instr} (h : Open g rc rb)
    (hp : prev g = some i) (hp2 : prev2 g = some j) :
    ∃ rb', rb = i :: j :: rb' ∧ Open (remove g) rc (j :: rb') ∧ Open (remove (remove g)) rc rb' := by
  obtain ⟨rb1, rfl, h1⟩ := prev_some h hp
  have : prev (remove g) = some j := by
    unfold prev2 at hp2
    unfold prev
    split at hp2
    · cases hp2
    · rename_i hl
      have hc := h.code
      simp only [List.map_cons, List.cons_append] at hc
      have hl' : ¬ (remove g).ip < (remove g).lastJump + 1 := by
        simp only [Gen.ip, remove, List.length_tail] at *
        omega
      rw [if_neg hl']
      simp only [remove, hc, List.tail_cons] at hp2 ⊢
      generalize rb1.map CItem.ins ++ rc = l at hp2 ⊢
      cases l with
      | nil => simp at hp2
      | cons x l => cases x <;> simp_all
  obtain ⟨rb2, rfl, h2⟩ := prev_some h1 this
  exact ⟨rb2, rfl, h1, h2⟩

/-- What a call of a generator function for `i` has to do. -/
def Good (e : Env ω) (g : Gen) (rc : List CItem) (rb : List Instr) (i : Instr) (b : Bool) (g' : Gen) : Prop :=
  ∃ rb', Open g' rc rb' ∧ g'.lastJump = g.lastJump ∧ g'.labels = g.labels ∧
    ∀ t, Sim b (runSeq e (rb.reverse ++ [i]) t) (runSeq e rb'.reverse t)

theorem good_add (e : Env ω) {g : Gen} {rc : List CItem} {rb : List Instr} (h : Open g rc rb) (i : Instr)
    (b : Bool) : Good e g rc rb i b (add g i) :=
  ⟨_, h.add i, rfl, rfl, fun t => by rw [List.reverse_cons]; exact Sim.refl _ _⟩

/-- The last instruction `j` and the request `i` become `k`. -/
theorem good_replace (e : Env ω) {g : Gen} {rc : List CItem} {rb : List Instr} (h : Open g rc rb)
    {i j : Instr} (hp : prev g = some j) (k : Instr)
    (hs : ∀ t, Sim true (runSeq e [j, i] t) (runSeq e [k] t)) : Good e g rc rb i true (replace g k) := by
  obtain ⟨rb', rfl, h'⟩ := prev_some h hp
  refine ⟨k :: rb', h'.add k, rfl, rfl, ?_⟩
  have := tail_sim e rb'.reverse _ _ hs
  simpa using this

/-- The last instruction `j` and the request `i` cancel out. -/
theorem good_remove (e : Env ω) {g : Gen} {rc : List CItem} {rb : List Instr} (h : Open g rc rb)
    {i j : Instr} (hp : prev g = some j) {b : Bool}
    (hs : ∀ t, Sim b (runSeq e [j, i] t) (runSeq e [] t)) : Good e g rc rb i b (remove g) := by
  obtain ⟨rb', rfl, h'⟩ := prev_some h hp
  refine ⟨rb', h', rfl, rfl, ?_⟩
  have := tail_sim e rb'.reverse _ _ hs
  simpa using this

/-- The request `i` is superfluous. -/
theorem good_skip (e : Env ω) {g : Gen} {rc : List CItem} {rb : List Instr} (h : Open g rc rb)
    {i : Instr} (hs : ∀ t, Sim true (runSeq e (rb.reverse ++ [i]) t) (runSeq e rb.reverse t)) :
    Good e g rc rb i true g :=
  ⟨rb, h, rfl, rfl, hs⟩

/-- The last two instructions and the request become `k`. -/
theorem good_replace2 (e : Env ω) {g : Gen} {rc : List CItem} {rb : List Instr} (h : Open g rc rb)
    {i j l : Instr} (hp : prev g = some j) (hp2 : prev2 g = some l) (k : Instr)
    (hs : ∀ t, Sim true (runSeq e [l, j, i] t) (runSeq e [k] t)) :
    Good e g rc rb i true (add (remove (remove g)) k) := by
  obtain ⟨rb', rfl, _, h'⟩ := prev2_some h hp hp2
  refine ⟨k :: rb', h'.add k, rfl, rfl, ?_⟩
  have := tail_sim e rb'.reverse _ _ hs
  simpa using this

/-! ## The rules -/

theorem addPtr_ok {p q : Slot} {off : Int} (h : addPtr p off = .ok q) :
    q.toNat = p.toNat + off ∧ q ≠ 0 := by
  unfold addPtr at h
  split at h
  · rename_i hc
    cases h
    have : (BitVec.ofInt 64 (p.toNat + off)).toNat = p.toNat + off := by
      rw [BitVec.toNat_ofInt]
      omega
    refine ⟨this, fun h0 => ?_⟩
    rw [h0] at this
    simp at this
    omega
  · cases h

theorem addPtr_cases (p : Slot) (off : Int) :
    (∃ q, addPtr p off = .ok q ∧ q.toNat = p.toNat + off ∧ q ≠ 0) ∨ addPtr p off = .ub := by
  by_cases h : ∃ q, addPtr p off = .ok q
  · obtain ⟨q, h⟩ := h
    exact .inl ⟨q, h, addPtr_ok h⟩
  · right
    unfold addPtr at h ⊢
    split
    · rename_i hc
      rw [if_pos hc] at h
      exact absurd ⟨_, rfl⟩ h
    · rfl

/-- Adding two offsets one after the other. -/
theorem addPtr_add {p q : Slot} {a b : Int} (h : addPtr p a = .ok q) :
    addPtr q b = addPtr p (a + b) := by
  have := (addPtr_ok h).1
  unfold addPtr
  rw [this, Int.add_assoc]

theorem rule_pushLocalPtrZero (e : Env ω) (off : Int) (size : Nat) (t : St ω) :
    Sim true (runSeq e [.pushLocalPtr off, .zero size, .pushLocalPtr off] t)
      (runSeq e [.pushLocalPtrZero off size] t) := by
  simp only [runSeq, exec, St.withStack, St.withAll]
  rcases addPtr_cases t.core.base off with ⟨q, h, _⟩ | h
  · simp only [h, bind_ok]
    cases hz : zeroBytes t.core.mem q size with
    | ok m => simp only [bind_ok, h]; exact Sim.refl _ _
    | err => exact Sim.refl _ _
    | ub => trivial
  · rw [h]; trivial

theorem rule_pushSelf (e : Env ω) (t : St ω) :
    Sim false (runSeq e [.popReg .self, .pushReg .self] t) (runSeq e [] t) := by
  obtain ⟨⟨st, m, base, regs, w⟩, a⟩ := t
  simp only [runSeq, exec]
  cases st with
  | nil => trivial
  | cons v st =>
    simp only [bind_ok, setReg, if_true, Core.getReg, St.withStack]
    exact ⟨rfl, fun h => by cases h⟩

theorem rule_pushZero (e : Env ω) (m n : Nat) (t : St ω) :
    Sim true (runSeq e [.pushZero m, .pushZero n] t) (runSeq e [.pushZero (m + n)] t) := by
  simp only [runSeq, exec, bind_ok, St.withStack]
  rw [← List.append_assoc, List.replicate_append_replicate, Nat.add_comm]
  exact Sim.refl _ _

theorem rule_pop (e : Env ω) (n : Nat) (t : St ω) :
    Sim true (runSeq e [.pop n, .pop 1] t) (runSeq e [.pop (n + 1)] t) := by
  simp only [runSeq, exec]
  by_cases h : n ≤ t.core.stack.length
  · rw [if_pos h]
    simp only [bind_ok, St.withStack, List.length_drop, List.drop_drop]
    by_cases h1 : n + 1 ≤ t.core.stack.length
    · rw [if_pos h1, if_pos (by omega)]
      exact Sim.refl _ _
    · rw [if_neg (by omega)]
      trivial
  · rw [if_neg h]
    trivial

theorem rule_popReg (e : Env ω) (r : Reg) (t : St ω) :
    Sim true (runSeq e [.pushReg r, .popReg r] t) (runSeq e [] t) := by
  obtain ⟨⟨st, m, base, regs, w⟩, a⟩ := t
  simp only [runSeq, exec, bind_ok, St.withStack]
  by_cases hr : r = .self
  · subst hr
    simp only [setReg, Core.getReg, if_true]
    exact Sim.refl _ _
  · simp only [setReg, Core.getReg, if_neg hr]
    refine ⟨?_, fun _ => rfl⟩
    simp only [Core.mk.injEq, true_and, and_true]
    funext r'
    split
    · rename_i h; rw [h]
    · rfl

theorem rule_swapAssign (e : Env ω) (k : Kind) (size : Nat) (t : St ω) :
    Sim true (runSeq e [.swap, .swapAssign k size] t) (runSeq e [.assign k size] t) := by
  obtain ⟨⟨st, m, base, regs, w⟩, a⟩ := t
  simp only [runSeq, exec]
  cases st with
  | nil => trivial
  | cons v st =>
    cases st with
    | nil => trivial
    | cons v' st => simp only [bind_ok, St.withStack, St.withAll]; exact Sim.refl _ _

theorem countPtr_outside (e : Env ω) (tok : Tok) (t : Ty) (p : Slot) (w : ω) (m : Mem)
    (h : e.inHeap w p = false) : countPtr e tok t p w m = .ok (w, m) := by
  unfold countPtr
  rw [h]
  rfl

theorem readBytes_zero (m : Mem) : ∀ (n a : Nat), (∀ b, a ≤ b → b < a + n → m b = 0) →
    readBytes m a n = 0
  | 0, _, _ => rfl
  | n + 1, a, h => by
    rw [readBytes, readBytes_zero m n (a + 1) (fun b h1 h2 => h b (by omega) (by omega)),
      h a (by omega) (by omega)]
    rfl

theorem load64_zero (m : Mem) (p : Slot) (off : Nat) (hw : p.toNat + off < 2 ^ 64)
    (h : ∀ b, p.toNat + off ≤ b → b < p.toNat + off + 8 → m b = 0) :
    load64 m (p + BitVec.ofNat 64 off) = 0 := by
  have e : (p + BitVec.ofNat 64 off).toNat = p.toNat + off := by
    rw [BitVec.toNat_add, BitVec.toNat_ofNat]
    omega
  unfold load64
  rw [e, readBytes_zero m 8 _ h]
  rfl

theorem shift_ptr (p : Slot) (off : Nat) (hw : p.toNat + off < 2 ^ 64) :
    (p + BitVec.ofNat 64 off).toNat = p.toNat + off := by
  rw [BitVec.toNat_add, BitVec.toNat_ofNat]
  omega

theorem foldl_same {α : Type} (f : R α → Nat → R α) (x : R α) : ∀ (l : List Nat),
    (∀ i ∈ l, f x i = x) → l.foldl f x = x
  | [], _ => rfl
  | i :: l, h => by
    rw [List.foldl_cons, h i (by simp)]
    exact foldl_same f x l (fun j hj => h j (by simp [hj]))

mutual
/-- Reference counting does nothing for a value that has been zeroed. -/
theorem refCntAt_zero (e : Env ω) (tok : Tok) (w : ω) (m : Mem) :
    ∀ (t : Ty) (p : Slot), p.toNat + extent t ≤ 2 ^ 64 →
      (∀ b, p.toNat ≤ b → b < p.toNat + extent t → m b = 0) → refCntAt e tok t p w m = .ok (w, m)
  | .ptr, p, hw, h => by
    simp only [extent] at hw h
    have := load64_zero m p 0 (by omega) (by simpa using h)
    rw [show p + BitVec.ofNat 64 0 = p from BitVec.add_zero p] at this
    rw [refCntAt, this, countPtr_outside _ _ _ _ _ _ (e.inHeap_null w)]
  | .str, p, hw, h => by
    simp only [extent] at hw h
    have := load64_zero m p 0 (by omega) (by simpa using h)
    rw [show p + BitVec.ofNat 64 0 = p from BitVec.add_zero p] at this
    rw [refCntAt, this, e.strOk_null, countPtr_outside _ _ _ _ _ _ (e.inHeap_null w)]
    rfl
  | .fiber, p, hw, h => by
    simp only [extent] at hw h
    have := load64_zero m p 0 (by omega) (by simpa using h)
    rw [show p + BitVec.ofNat 64 0 = p from BitVec.add_zero p] at this
    rw [refCntAt, this, countPtr_outside _ _ _ _ _ _ (e.inHeap_null w)]
  | .interface, p, hw, h => by
    simp only [extent] at hw h
    have := load64_zero m p 0 (by omega) (by simpa using h)
    rw [show p + BitVec.ofNat 64 0 = p from BitVec.add_zero p] at this
    rw [refCntAt, this, if_pos rfl]
  | .dynarray, p, hw, h => by
    simp only [extent] at hw h
    have := load64_zero m p 16 (by omega) (fun b h1 h2 => h b (by omega) (by omega))
    rw [refCntAt, show (16 : Slot) = BitVec.ofNat 64 16 from rfl, this,
      countPtr_outside _ _ _ _ _ _ (e.inHeap_null w)]
  | .map, p, hw, h => by
    simp only [extent] at hw h
    have := load64_zero m p 8 (by omega) (fun b h1 h2 => h b (by omega) (by omega))
    rw [refCntAt, show (8 : Slot) = BitVec.ofNat 64 8 from rfl, this,
      countPtr_outside _ _ _ _ _ _ (e.inHeap_null w)]
  | .plain, p, hw, h => by rw [refCntAt]
  | .array n size t, p, hw, h => by
    simp only [extent] at hw h
    rw [refCntAt]
    split
    · rename_i hcol
      refine foldl_same _ _ _ fun i hi => ?_
      have hi : i < n := by simpa using hi
      have hle : size * i ≤ size * (n - 1) := Nat.mul_le_mul_left _ (by omega)
      rw [if_neg (by omega)] at hw h
      simp only [bind_ok]
      by_cases hx : extent t = 0
      · exact refCntAt_zero e tok w m t _ (by rw [hx]; omega) (fun b h1 h2 => by omega)
      · have hs := shift_ptr p (size * i) (by omega)
        exact refCntAt_zero e tok w m t _ (by rw [hs]; omega)
          (fun b h1 h2 => h b (by rw [hs] at h1; omega) (by rw [hs] at h2; omega))
    · rfl
  | .struct fs, p, hw, h => by
    rw [refCntAt]
    exact refCntFields_zero e tok w m fs p hw h
theorem refCntFields_zero (e : Env ω) (tok : Tok) (w : ω) (m : Mem) :
    ∀ (fs : Fields) (p : Slot), p.toNat + extentFields fs ≤ 2 ^ 64 →
      (∀ b, p.toNat ≤ b → b < p.toNat + extentFields fs → m b = 0) →
      refCntFields e tok fs p w m = .ok (w, m)
  | .nil, p, hw, h => by rw [refCntFields]
  | .cons off t fs, p, hw, h => by
    simp only [extentFields] at hw h
    rw [refCntFields, refCntFields_zero e tok w m fs p (by omega) (fun b h1 h2 => h b h1 (by omega))]
    simp only [bind_ok]
    split
    · by_cases hx : extent t = 0
      · exact refCntAt_zero e tok w m t _ (by rw [hx]; omega) (fun b h1 h2 => by omega)
      · have hs := shift_ptr p off (by omega)
        exact refCntAt_zero e tok w m t _ (by rw [hs]; omega)
          (fun b h1 h2 => h b (by rw [hs] at h1; omega) (by rw [hs] at h2; omega))
    · rfl
end

mutual
/-- Reference counting does nothing for types without pointers. -/
theorem refCntAt_plain (e : Env ω) (tok : Tok) (w : ω) (m : Mem) :
    ∀ (t : Ty) (p : Slot), t.collected = false → refCntAt e tok t p w m = .ok (w, m)
  | .ptr, _, h | .str, _, h | .fiber, _, h | .interface, _, h | .dynarray, _, h | .map, _, h => by
    simp [Ty.collected] at h
  | .plain, p, h => by rw [refCntAt]
  | .array n size t, p, h => by
    simp only [Ty.collected] at h
    rw [refCntAt, h]
    rfl
  | .struct fs, p, h => by
    simp only [Ty.collected] at h
    rw [refCntAt]
    exact refCntFields_plain e tok w m fs p h
theorem refCntFields_plain (e : Env ω) (tok : Tok) (w : ω) (m : Mem) :
    ∀ (fs : Fields) (p : Slot), fs.collected = false → refCntFields e tok fs p w m = .ok (w, m)
  | .nil, p, h => by rw [refCntFields]
  | .cons off t fs, p, h => by
    simp only [Fields.collected, Bool.or_eq_false_iff] at h
    rw [refCntFields, refCntFields_plain e tok w m fs p h.2, h.1]
    rfl
end

theorem refCntImpl_structured (e : Env ω) (tok : Tok) (t : Ty) (p : Slot) (w : ω) (m : Mem)
    (h : t.structured = true ∨ t.collected = false) : refCntImpl e tok t p w m = refCntAt e tok t p w m := by
  cases t <;> simp_all [Ty.structured, Ty.collected, refCntImpl]

theorem rule_refCnt_plain (e : Env ω) (tok : Tok) (t : Ty) (h : t.collected = false) (s : St ω) :
    Sim true (runSeq e [.refCnt tok t] s) (runSeq e [] s) := by
  obtain ⟨⟨st, m, base, regs, w⟩, a⟩ := s
  simp only [runSeq, exec]
  cases st with
  | nil => trivial
  | cons p st =>
    simp only [refCntImpl_structured e tok t p w m (.inr h), refCntAt_plain e tok w m t p h, bind_ok,
      St.withAll]
    exact Sim.refl _ _

theorem rule_refCnt_static (e : Env ω) (tok : Tok) (t : Ty) (ht : t = .ptr ∨ t = .str) (p : Slot)
    (h : ∀ w m, e.inHeap w p = false ∧ e.strOk w m p = true) (s : St ω) :
    Sim true (runSeq e [.push .ptr p, .refCnt tok t] s) (runSeq e [.push .ptr p] s) := by
  have hi := fun w m => countPtr_outside e tok t p w m (h w m).1
  have ho := fun w m => (h w m).2
  rcases ht with rfl | rfl
  · simp only [runSeq, exec, bind_ok, St.withStack, St.withAll, refCntImpl, hi]
    exact Sim.refl _ _
  · simp only [runSeq, exec, bind_ok, St.withStack, St.withAll, refCntImpl, hi, ho, if_true]
    exact Sim.refl _ _

theorem rule_refCnt_zeroed (e : Env ω) (tok : Tok) (t : Ty) (ht : t.structured = true) (off : Int)
    (size : Nat) (h : extent t ≤ size) (s : St ω) :
    Sim true (runSeq e [.pushLocalPtrZero off size, .refCnt tok t] s)
      (runSeq e [.pushLocalPtrZero off size] s) := by
  simp only [runSeq, exec]
  rcases addPtr_cases s.core.base off with ⟨q, hq, hq1, hq2⟩ | hq
  · rw [hq]
    simp only [bind_ok, zeroBytes]
    split
    · trivial
    · rename_i hz
      simp only [bind_ok, St.withAll]
      rw [refCntImpl_structured e tok t q _ _ (.inl ht), refCntAt_zero]
      · exact Sim.refl _ _
      · omega
      · intro b h1 h2
        exact if_pos ⟨h1, by omega⟩
  · rw [hq]
    trivial

theorem rule_pushGlobal (e : Env ω) (k k' : Kind) (p : Slot) (t : St ω) :
    Sim true (runSeq e [.push k' p, .deref k] t) (runSeq e [.pushGlobal k p] t) := by
  simp only [runSeq, exec, bind_ok, St.withStack]
  exact Sim.refl _ _

theorem rule_pushLocal (e : Env ω) (k : Kind) (off : Int) (t : St ω) :
    Sim true (runSeq e [.pushLocalPtr off, .deref k] t) (runSeq e [.pushLocal k off] t) := by
  simp only [runSeq, exec, St.withStack]
  rcases addPtr_cases t.core.base off with ⟨q, h, _⟩ | h <;> rw [h] <;> exact Sim.refl _ _

theorem rule_getArray (e : Env ω) (k : Kind) (itemSize : Nat) (len : Int) (t : St ω) :
    Sim true (runSeq e [.getArrayPtr itemSize len, .deref k] t) (runSeq e [.getArray itemSize len k] t) := by
  obtain ⟨⟨st, m, base, regs, w⟩, a⟩ := t
  simp only [runSeq, exec]
  rcases st with _ | ⟨v, _ | ⟨v', st⟩⟩
  · trivial
  · trivial
  · simp only [St.withStack]
    cases arrayPtr e itemSize len w m v' v <;> exact Sim.refl _ _

theorem rule_getDynArray (e : Env ω) (k : Kind) (t : St ω) :
    Sim true (runSeq e [.getDynArrayPtr, .deref k] t) (runSeq e [.getDynArray k] t) := by
  obtain ⟨⟨st, m, base, regs, w⟩, a⟩ := t
  simp only [runSeq, exec]
  rcases st with _ | ⟨v, _ | ⟨v', st⟩⟩
  · trivial
  · trivial
  · simp only [St.withStack]
    cases e.dynArrayPtr w m v' v <;> exact Sim.refl _ _

theorem rule_getMap (e : Env ω) (k : Kind) (mt : Nat) (t : St ω) :
    Sim true (runSeq e [.getMapPtr mt, .deref k] t) (runSeq e [.getMap mt k] t) := by
  obtain ⟨⟨st, m, base, regs, w⟩, a⟩ := t
  simp only [runSeq, exec]
  rcases st with _ | ⟨v, _ | ⟨v', st⟩⟩
  · trivial
  · trivial
  · simp only [St.withStack, St.withAll]
    cases e.mapPtr mt v' v w m <;> exact Sim.refl _ _

theorem rule_getField (e : Env ω) (k : Kind) (off : Int) (t : St ω) :
    Sim true (runSeq e [.getFieldPtr off, .deref k] t) (runSeq e [.getField off k] t) := by
  obtain ⟨⟨st, m, base, regs, w⟩, a⟩ := t
  simp only [runSeq, exec]
  rcases st with _ | ⟨v, st⟩
  · trivial
  · simp only [St.withStack]
    cases fieldPtr off v <;> exact Sim.refl _ _

/-- The only difference is the wording of the error for a null pointer. -/
theorem rule_field0 (e : Env ω) (k : Kind) (t : St ω) :
    Sim true (runSeq e [.getFieldPtr 0, .deref k] t) (runSeq e [.deref k] t) := by
  obtain ⟨⟨st, m, base, regs, w⟩, a⟩ := t
  simp only [runSeq, exec]
  rcases st with _ | ⟨p, st⟩
  · trivial
  · simp only [St.withStack, fieldPtr]
    by_cases hp : p = 0
    · rw [if_pos hp, hp]
      simp [derefImpl, Sim, cls]
    · rw [if_neg hp]
      have : addPtr p 0 = .ok p := by
        unfold addPtr
        have h0 : p.toNat ≠ 0 := fun h => hp (BitVec.eq_of_toNat_eq (by simpa using h))
        have := p.isLt
        rw [if_pos (by omega)]
        simp
      rw [this]
      exact Sim.refl _ _

theorem rule_localField (e : Env ω) (a b : Int) (t : St ω) :
    Sim true (runSeq e [.pushLocalPtr a, .getFieldPtr b] t) (runSeq e [.pushLocalPtr (a + b)] t) := by
  simp only [runSeq, exec, St.withStack]
  rcases addPtr_cases t.core.base a with ⟨q, h, _, hq⟩ | h
  · simp only [h, bind_ok, fieldPtr, if_neg hq, addPtr_add h]
    exact Sim.refl _ _
  · rw [h]; trivial

theorem rule_fieldField (e : Env ω) (a b : Int) (t : St ω) :
    Sim true (runSeq e [.getFieldPtr a, .getFieldPtr b] t) (runSeq e [.getFieldPtr (a + b)] t) := by
  obtain ⟨⟨st, m, base, regs, w⟩, x⟩ := t
  simp only [runSeq, exec]
  rcases st with _ | ⟨p, st⟩
  · trivial
  · simp only [St.withStack, fieldPtr]
    by_cases hp : p = 0
    · rw [if_pos hp, if_pos hp]
      exact Sim.refl _ _
    · rw [if_neg hp, if_neg hp]
      rcases addPtr_cases p a with ⟨q, h, _, hq⟩ | h
      · simp only [h, bind_ok, if_neg hq, addPtr_add h]
        exact Sim.refl _ _
      · rw [h]; trivial

theorem rule_constIndex (e : Env ω) (k : Kind) (v : Slot) (itemSize : Nat) (len : Int) (hl : 0 ≤ len)
    (h0 : 0 ≤ v.toInt) (h1 : v.toInt ≤ len - 1) (t : St ω) :
    Sim true (runSeq e [.push k v, .getArrayPtr itemSize len] t)
      (runSeq e [.getFieldPtr (itemSize * v.toInt)] t) := by
  obtain ⟨⟨st, m, base, regs, w⟩, a⟩ := t
  simp only [runSeq, exec, bind_ok, St.withStack]
  rcases st with _ | ⟨p, st⟩
  · trivial
  · simp only [arrayPtr, fieldPtr, if_pos hl]
    by_cases hp : p = 0
    · rw [if_pos hp, if_pos hp]
      simp [Sim, cls]
    · rw [if_neg hp, if_neg hp, if_neg (by omega)]
      exact Sim.refl _ _

theorem constUnary_eq (e : Env ω) (op : UnOp) (k : Kind) (v : Slot) :
    constUnary e op k v = doUnary e op k v := by
  unfold constUnary doUnary
  split
  · rfl
  · cases op <;> rfl

theorem constBinary_eq (e : Env ω) (op : BinOp) (k : Kind) (hk : k.foldable = true) (l r : Slot) (w : ω)
    (m : Mem) : doBinary e op k l r w m = (constBinary e op k l r).bind fun v => .ok (w, m, v) := by
  have hc : Arith.constBinary = Arith.doBinary := by
    funext op k l r
    unfold Arith.constBinary Arith.doBinary
    split
    · cases op <;> rfl
    · cases op <;> rfl
  cases k <;> simp [Kind.foldable] at hk <;> simp only [doBinary, constBinary, hc] <;>
    cases op <;> rfl

theorem constBuiltin_eq (e : Env ω) (f : Builtin) (hf : f ≠ .atan2) (k k' : Kind)
    (hk : f = .makereal → (k'.arith = .uint ↔ k.arith = .uint)) (x : Num Slot) :
    Arith.constCallBuiltin e.real f k'.arith x 0 = Arith.callBuiltin e.real f k.arith x 0 := by
  cases f <;> cases x <;> simp_all [Arith.constCallBuiltin, Arith.callBuiltin]

end Umka.Peephole
