import Verif.Peephole.Sim
/-!
# The peephole optimizer: properties

C22 (the optimizer preserves meaning) and the part of C24 about static arrays and constant indices.
-/

namespace Umka.Peephole.Props
open Umka.Arith (Slot Mem RealOps)
open Umka.Peephole Spec
variable {ω : Type}

/-- **C22.** Take any sequence of requests made by the parser, with labels and jumps, and the code that
the generator with the optimizer makes of it.  Executing the code and executing the requests one by one
terminate with the same effect on the stack, memory, heap and registers, or with the same error (up to
the wording for null pointers), from any state; and if one does not terminate, neither does the other.
Jumps go to any label, so the optimizer does not combine instructions across a jump target. -/
theorem C22_optimizer (e : Env ω) (its : List Item) (g : Gen) (hg : genAll e its initGen = .ok g)
    (hn : (labelsOf its).Nodup) (hp : Proper e its initGen false false) (s : St ω) :
    (∀ n x, run e its n its s = some x →
      x = .ub ∨ ∃ m y, runCode e g.rcode.reverse g.labels m g.rcode.reverse s = some y ∧ Same x y) ∧
    (∀ n y, runCode e g.rcode.reverse g.labels n g.rcode.reverse s = some y →
      ∃ m x, run e its m its s = some x ∧ Same x y) := by
  obtain ⟨self, jmp, hi⟩ := genAll_inv e its [] initGen g false false (inv_init e) (by simpa using hn) hp hg
  rw [List.nil_append] at hi
  obtain ⟨hm, hl, _⟩ := hi.close
  refine ⟨fun n x h => ?_, fun n y h => ?_⟩
  · rcases forward e hl n hm n (Nat.le_refl _) s s x (Rel.refl _ _) h with h | ⟨m, y, h1, h2⟩
    · exact .inl h
    · exact .inr ⟨m, y, h1, h2.same⟩
  · obtain ⟨m, x, h1, h2⟩ := backward e hl n hm n (Nat.le_refl _) s s y (Rel.refl _ _) h
    exact ⟨m, x, h1, h2.same⟩

/-- **C22, rejected programs.** If the optimizer reports an error at compile time (a constant index out of
range, division by a constant zero, and so on), then no execution of the unoptimized program gets past
that instruction.  The exception is `atan2` with exactly one zero argument
(`Umka.Arith.Props.C13_atan2_violated`). -/
theorem C22_compile_error (e : Env ω) (its : List Item) (i : Instr) (g : Gen)
    (hg : genAll e its initGen = .ok g) (hn : (labelsOf its).Nodup)
    (hp : Proper e (its ++ [.op i]) initGen false false)
    (ha : ∀ k k₁ k₂ x y, i = .callBuiltin (.num .atan2) k → prev g = some (.push k₁ x) →
      prev2 g = some (.push k₂ y) → e.real.isZero x = e.real.isZero y)
    (he : ∀ g', gen e g i ≠ .ok g') (n : Nat) (s y : St ω) :
    run e (its ++ [.op i]) n (its ++ [.op i]) s ≠ some (.ok y) := by
  have key : ∀ (its : List Item) (g₀ : Gen) (self jmp : Bool), Proper e (its ++ [.op i]) g₀ self jmp →
      genAll e its g₀ = .ok g → Proper e its g₀ self jmp ∧ Fits e g i := by
    intro its
    induction its with
    | nil =>
      intro g₀ self jmp hp hg
      cases hg
      exact ⟨trivial, hp.1⟩
    | cons it its ih =>
      intro g₀ self jmp hp hg
      obtain ⟨g1, h1, h2⟩ := bind_eq_ok hg
      cases it with
      | op j =>
        obtain ⟨a, b, c⟩ := hp
        obtain ⟨h3, h4⟩ := ih g1 _ _ (c g1 h1) h2
        refine ⟨⟨a, b, fun g' h' => ?_⟩, h4⟩
        have : g' = g1 := by
          have h1' : gen e g₀ j = .ok g1 := h1
          rw [h'] at h1'
          cases h1'
          rfl
        exact this ▸ h3
      | label l u =>
        obtain ⟨a, c⟩ := hp
        obtain ⟨h3, h4⟩ := ih g1 _ _ (c g1 h1) h2
        refine ⟨⟨a, fun g' h' => ?_⟩, h4⟩
        rw [h1] at h'
        cases h'
        exact h3
      | jump c l u =>
        obtain ⟨h3, h4⟩ := ih g1 _ _ (hp g1 h1) h2
        refine ⟨fun g' h' => ?_, h4⟩
        rw [h1] at h'
        cases h'
        exact h3
  obtain ⟨hp', hf⟩ := key its initGen false false hp hg
  obtain ⟨self, jmp, hi⟩ := genAll_inv e its [] initGen g false false (inv_init e) (by simpa using hn) hp' hg
  obtain ⟨its0, as, code0, rb, hits, ho, _, hb, _, _⟩ := hi
  rw [List.nil_append] at hits
  subst hits
  have hself : selfOk self i := by
    unfold selfOk
    split
    · exfalso
      exact he _ rfl
    · trivial
  have hseq : ∀ t, notOk (runSeq e (as ++ [i]) t) := by
    intro t z hz
    have h1 := runSeq_mono e (hb t t (Rel.refl _ _)) hself
    rw [hz] at h1
    have h2 := gen_notOk e ho hf ha he t
    cases hx : runSeq e (rb.reverse ++ [i]) t with
    | ok u => exact h2 u hx
    | err => rw [hx] at h1; exact h1
    | ub => rw [hx] at h1; exact h1
  have := run_notOk e (its := its0) hseq n its0 s y
  simpa using this

/-! ### A sample environment and program -/

/-- Floating-point numbers are not used by the samples. -/
def sampleReal : RealOps Slot where
  isZero x := x == 0
  ltZero x := decide (x.toInt < 0)
  leZero x := decide (x.toInt ≤ 0)
  ofInt x := BitVec.ofInt 64 x
  ofNat x := BitVec.ofNat 64 x
  round x := some x
  trunc x := some x
  ceil x := some x
  floor x := some x
  fabs x := x
  sqrt x := x
  sin x := x
  cos x := x
  atan x := x
  atan2 x _ := x
  exp x := x
  log x := x

/-- Addresses from `2 ^ 40` on belong to the heap. -/
def sampleEnv : Env Nat where
  real := sampleReal
  neg x := x
  add x y := x + y
  sub x y := x - y
  mul x y := x * y
  div x _ := x
  fmod x _ := x
  eq x y := x == y
  lt _ _ := false
  le _ _ := false
  widen n := BitVec.ofNat 64 n
  narrow x := x.toNat
  over32 _ := false
  over _ := false
  strOk _ _ _ := true
  strOk_null _ _ := rfl
  strLen _ _ _ := 0
  emptyStr := 8
  inHeap _ p := decide (2 ^ 40 ≤ p.toNat)
  inHeap_null _ := by decide
  count _ _ _ w m := .ok (w + 1, m)
  countSelf _ _ w m := .ok (w, m)
  dynArrayPtr _ _ _ _ := .err .indexRange
  mapPtr _ _ _ _ _ := .ub
  unaryOther _ _ _ := .ub
  binaryOther _ _ _ _ _ _ := .ub
  other _ c := .ok c
  builtinOther _ c := .ok c

/-- `x := 2 + 3; for x > 4 { x = a[1] }; return x` with `x` at offset 0 and `a` at offset 8 of the frame. -/
def sample : List Item :=
  [.op (.pushLocalPtr 0), .op (.push (.ord .int) 2), .op (.push (.ord .int) 3),
   .op (.binary .plus (.ord .int)), .op (.assign (.ord .int) 8),
   .label 0 true,
   .op (.pushLocalPtr 0), .op (.deref (.ord .int)), .op (.push (.ord .int) 4),
   .op (.binary .greater (.ord .int)),
   .jump (some false) 1 true,
   .op (.pushLocalPtr 8), .op (.push (.ord .int) 1), .op (.getArrayPtr 8 3), .op (.deref (.ord .int)),
   .op (.popReg .self), .op (.pushReg .self),
   .op (.pushLocalPtr 0), .op (.swap), .op (.pushZero 1), .op (.pushZero 1), .op (.pop 1), .op (.pop 1),
   .op (.assign (.ord .int) 8),
   .jump none 0 true,
   .label 1 true,
   .op (.pushLocalPtrZero 64 24), .op (.refCnt .inc .dynarray), .op (.pop 1),
   .op (.pushLocalPtr 0), .op (.deref (.ord .int)), .op (.popReg .result)]

/-- The code after optimization: 17 instructions instead of 29. -/
def sampleCode : List CItem :=
  [.ins (.pushLocalPtr 0), .ins (.push (.ord .int) 5), .ins (.assign (.ord .int) 8),
   .ins (.pushLocal (.ord .int) 0), .ins (.push (.ord .int) 4), .ins (.binary .greater (.ord .int)),
   .jump (some false) 1,
   .ins (.pushLocal (.ord .int) 16),
   .ins (.pushLocalPtr 0), .ins .swap, .ins (.pushZero 2), .ins (.pop 2), .ins (.assign (.ord .int) 8),
   .jump none 0,
   .ins (.pushLocalPtrZero 64 24), .ins (.pop 1),
   .ins (.pushLocal (.ord .int) 0), .ins (.popReg .result)]

theorem sample_gen : genAll sampleEnv sample initGen = .ok ⟨sampleCode.reverse, 14, [(1, 14), (0, 3)]⟩ := by
  rfl

theorem sample_labels : (labelsOf sample).Nodup := by decide

theorem proper_op {e : Env ω} {g g1 : Gen} {i : Instr} {its : List Item} {self jmp : Bool} (h1 : Fits e g i)
    (h2 : selfOk self i) (h3 : gen e g i = .ok g1) (h4 : Proper e its g1 (selfAfter self i) false) :
    Proper e (.op i :: its) g self jmp := ⟨h1, h2, fun g' h => by rw [h3] at h; cases h; exact h4⟩

theorem proper_label {e : Env ω} {g g1 : Gen} {l : Nat} {its : List Item} {self jmp : Bool}
    (h3 : genItem e g (.label l true) = .ok g1) (h4 : Proper e its g1 false jmp) :
    Proper e (.label l true :: its) g self jmp := ⟨.inl rfl, fun g' h => by rw [h3] at h; cases h; exact h4⟩

theorem proper_jump {e : Env ω} {g g1 : Gen} {l : Nat} {c : Option Bool} {u : Bool} {its : List Item}
    {self jmp : Bool} (h3 : genItem e g (.jump c l u) = .ok g1) (h4 : Proper e its g1 false true) :
    Proper e (.jump c l u :: its) g self jmp := fun g' h => by rw [h3] at h; cases h; exact h4

theorem sample_proper : Proper sampleEnv sample initGen false false := by
  have hidx : ∀ g, prev g = some (.push (.ord .int) 1) → Fits sampleEnv g (.getArrayPtr 8 3) := by
    intro g hg
    refine ⟨by decide, fun v hv => ?_⟩
    rw [hg] at hv
    cases hv
    decide
  have hcnt : ∀ g, prev g = some (.pushLocalPtrZero 64 24) → Fits sampleEnv g (.refCnt .inc .dynarray) := by
    intro g hg
    refine ⟨fun p hp => ?_, fun off size hv => ?_⟩
    · rw [hg] at hp
      cases hp
    · rw [hg] at hv
      cases hv
      decide
  unfold sample
  repeat' first
    | exact trivial
    | exact hidx _ rfl
    | exact hcnt _ rfl
    | exact (show selfOk true (.pushReg .self) from rfl)
    | refine proper_op ?_ ?_ rfl ?_
    | refine proper_label rfl ?_
    | refine proper_jump rfl ?_

example : genAll sampleEnv sample initGen = .ok ⟨sampleCode.reverse, 14, [(1, 14), (0, 3)]⟩ ∧
    (labelsOf sample).Nodup ∧ Proper sampleEnv sample initGen false false :=
  ⟨sample_gen, sample_labels, sample_proper⟩

/-- `1 / 0` is rejected at compile time: the hypotheses of `C22_compile_error` can be met. -/
example : let its := [Item.op (.push (.ord .int) 1), .op (.push (.ord .int) 0)]
    let i := Instr.binary .div (.ord .int)
    genAll sampleEnv its initGen = .ok ⟨[.ins (.push (.ord .int) 0), .ins (.push (.ord .int) 1)], 0, []⟩ ∧
    gen sampleEnv ⟨[.ins (.push (.ord .int) 0), .ins (.push (.ord .int) 1)], 0, []⟩ i =
      .err (.arith .divisionByZero) ∧
    Proper sampleEnv (its ++ [.op i]) initGen false false := by
  refine ⟨rfl, rfl, ?_⟩
  exact proper_op trivial trivial rfl (proper_op trivial trivial rfl
    ⟨trivial, trivial, fun g' h => by cases h⟩)

/-- **C22, the wording of errors, refuted.** `p.x` for a null pointer `p` and the first field `x` reports
"Array or structure is null" without the optimizer and "Pointer is null" with it; `a[0]` for a null
pointer `a` to an array reports "Array is null" without and "Array or structure is null" with it. -/
theorem C22_message_violated :
    let s : St Nat := ⟨⟨[0], fun _ => 0, 0, fun _ => 0, 0⟩, 0⟩
    let field := [Item.op (.getFieldPtr 0), .op (.deref (.ord .int))]
    let index := [Item.op (.push (.ord .int) 0), .op (.getArrayPtr 8 3)]
    (∃ g, genAll sampleEnv field initGen = .ok g ∧ run sampleEnv field 9 field s = some (.err .nullStruct) ∧
      runCode sampleEnv g.rcode.reverse g.labels 9 g.rcode.reverse s = some (.err .nullPointer)) ∧
    (∃ g, genAll sampleEnv index initGen = .ok g ∧ run sampleEnv index 9 index s = some (.err .nullArray) ∧
      runCode sampleEnv g.rcode.reverse g.labels 9 g.rcode.reverse s = some (.err .nullStruct)) := by
  refine ⟨⟨_, rfl, rfl, rfl⟩, ⟨_, rfl, rfl, rfl⟩⟩

/-! ## C24: indexing of static arrays -/

/-- **C24, arrays.** Indexing a static array of `len` items of `size` bytes at the address `a`, with any
64-bit index computed at run time: the address of item `i`, or an error, and nothing else happens.  The
array lies within the address space. -/
theorem C24_array_index (e : Env ω) (size : Nat) (len : Int) (a i : Slot) (st : List Slot) (m : Mem)
    (base : Slot) (regs : Reg → Slot) (w : ω) (self : Slot) (hl : 0 ≤ len) (ha : a ≠ 0)
    (hsp : a.toNat + size * len < 2 ^ 64) :
    exec e (.getArrayPtr size len) ⟨⟨i :: a :: st, m, base, regs, w⟩, self⟩ =
      if 0 ≤ i.toInt ∧ i.toInt < len then
        .ok ⟨⟨BitVec.ofInt 64 (a.toNat + size * i.toInt) :: st, m, base, regs, w⟩, self⟩
      else .err .indexRange := by
  have h0 : a.toNat ≠ 0 := fun h => ha (BitVec.eq_of_toNat_eq (by simpa using h))
  simp only [exec, arrayPtr, if_pos hl, if_neg ha]
  by_cases hi : 0 ≤ i.toInt ∧ i.toInt < len
  · rw [if_pos hi, if_neg (by omega)]
    have h1 : (0 : Int) ≤ size * i.toInt := Int.mul_nonneg (by omega) hi.1
    have h2 : (size : Int) * i.toInt ≤ size * len := Int.mul_le_mul_of_nonneg_left (by omega) (by omega)
    unfold addPtr
    generalize (size : Int) * i.toInt = x at *
    generalize (size : Int) * len = y at *
    rw [if_pos (by omega)]
    rfl
  · rw [if_neg hi, if_pos (by omega)]
    rfl

example : (1000 : Slot) ≠ 0 ∧ (1000 : Slot).toNat + (8 : Nat) * (3 : Int) < 2 ^ 64 := by decide

/-- **C24, constant index, partial.** Indexing a static array with a constant `i` that fits in 32 bits: the
compiler accepts it if and only if it is in range.  (If accepted, the address is right by `C22_optimizer`.)
Missing: constants beyond 32 bits, where the property is false (`C24_constant_index_violated`). -/
theorem C24_constant_index_partial (g : Gen) (size : Nat) (len : Int) (i : Slot)
    (hp : prev g = some (.push (.ord .int) i)) (hl : 0 ≤ len) (hs : size * len < 2 ^ 31)
    (h1 : -2 ^ 31 ≤ i.toInt) (h2 : i.toInt < 2 ^ 31) :
    genGetArrayPtr g size len = (if 0 ≤ i.toInt ∧ i.toInt < len then
      .ok (genGetFieldPtr (remove g) (size * i.toInt)) else .err .indexRange) := by
  unfold genGetArrayPtr
  rw [hp]
  dsimp only
  rw [if_pos hl, toInt32_eq h1 h2]
  by_cases hi : 0 ≤ i.toInt ∧ i.toInt < len
  · rw [if_neg (by omega), if_pos hi]
    have h2 : (size : Int) * i.toInt ≤ size * len := Int.mul_le_mul_of_nonneg_left (by omega) (by omega)
    rw [if_pos (by omega)]
  · rw [if_pos (by omega), if_neg hi]

example : prev ⟨[.ins (.push (.ord .int) 2)], 0, []⟩ = some (.push (.ord .int) 2) := rfl

/-- **C24, refuted for constants.** `a[4294967296]` with `a: [3]int` is accepted by the compiler and denotes
`a[0]`: the index is truncated to 32 bits.  At run time the same index is an error. -/
theorem C24_constant_index_violated :
    let its := [Item.op (.pushLocalPtr 16), .op (.push (.ord .int) 4294967296), .op (.getArrayPtr 8 3)]
    let s : St Nat := ⟨⟨[], fun _ => 0, 1000, fun _ => 0, 0⟩, 0⟩
    (∃ g, genAll sampleEnv its initGen = .ok g ∧ g.rcode = [.ins (.pushLocalPtr 16)]) ∧
    run sampleEnv its 9 its s = some (.err .indexRange) := by
  refine ⟨⟨_, rfl, rfl⟩, rfl⟩

end Umka.Peephole.Props
