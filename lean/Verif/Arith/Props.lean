import Verif.Arith.Lemmas

/-! # Integer arithmetic: properties C11, C12, C13, C14, C53, C57 -/

namespace Umka.Arith.Props

open Umka.Arith Umka.Arith.Spec

/-! ## C11 -/

/-- **C11.** `x = e`, for a variable `x` of any ordinal type other than `uint` and an expression `e` of
any ordinal type: if the value of `e` is a value of the type of `x`, the assignment succeeds, a later
read of `x` yields exactly that value and no byte outside `x` changes; otherwise it is reported as an
overflow of that type. -/
theorem C11_assignment_checked (dest src : Kind) (hd : dest ≠ .uint) (mem : Mem) (x : Nat) (hx : x ≠ 0)
    (e : Slot) :
    (InRange dest (value src e) →
      ∃ mem' w, assign dest src mem x e = .ok mem' ∧ doDeref dest mem' x = .ok w ∧
        value dest w = value src e ∧ ∀ b, b < x ∨ x + size dest ≤ b → mem' b = mem b) ∧
    (¬ InRange dest (value src e) → assign dest src mem x e = .err (.overflow dest)) := by
  have hc := toInt_cases e
  have hconv : implicitConv dest src false e = .ok e ∨
      (implicitConv dest src false e = .err (.overflow dest) ∧ ¬ InRange dest (value src e)) := by
    unfold implicitConv doAssertRange
    split
    · have := typeConvOverflow_iff dest src e (fun h => absurd h hd)
      by_cases ho : typeConvOverflow dest (some src) e = true
      · right
        rw [if_pos ho]
        exact ⟨rfl, this.1 ho⟩
      · left
        rw [if_neg ho]
    · exact .inl rfl
  have hval : implicitConv dest src false e = .ok e →
      (InRange dest (value src e) ↔ InRange dest e.toInt) ∧
      (InRange dest e.toInt → value dest e = value src e) := by
    intro h
    unfold implicitConv doAssertRange at h
    cases dest <;> cases src <;>
      simp [typeConvOverflow, kindSigned, InRange, lo, hi, value] at * <;> omega
  unfold assign
  rcases hconv with h | ⟨h, hn⟩
  · rw [h]
    simp only [Res.bind]
    have ⟨hv1, hv2⟩ := hval h
    have ho := typeOverflow_iff dest e hd
    constructor
    · intro hr
      have hr' := hv1.1 hr
      have : typeOverflow dest e = false := by
        cases hh : typeOverflow dest e
        · rfl
        · exact absurd hr' (ho.1 hh)
      obtain ⟨mem', h1, h2, h3⟩ := doAssign_ok dest mem x e hx this
      exact ⟨mem', e, h1, h2, hv2 hr', h3⟩
    · intro hr
      exact doAssign_err dest mem x e hx (ho.2 (fun hh => hr (hv1.2 hh)))
  · rw [h]
    exact ⟨fun hr => absurd hr hn, fun _ => rfl⟩

/-- Both cases of `C11_assignment_checked` occur: 200 is a `uint8` but not an `int8`. -/
example : InRange .uint8 (value .int 200) ∧ ¬ InRange .int8 (value .int 200) ∧
    ¬ InRange .int8 (value .uint (-1)) := by decide

/-- **C11, conversions.** `T(e)` for ordinal types yields exactly the value of `e` if that is a value
of `T`, and an overflow error otherwise.  A conversion to the type that the expression already has is
not checked: an intermediate result of a narrow type that is out of range stays as it is.  (A value of type `uint8` .. `uint32`, `bool` or `char` has to
be a proper value of that type if the target is `uint`.) -/
theorem C11_conversion_checked (dest src : Kind) (e : Slot)
    (h : dest = .uint → src ≠ .uint → lo src = 0 → InRange src (value src e)) :
    (InRange dest (value src e) → explicitConv dest src e = .ok e ∧ value dest e = value src e) ∧
    (¬ InRange dest (value src e) → dest ≠ src → explicitConv dest src e = .err (.overflow dest)) := by
  have hc := toInt_cases e
  cases dest <;> cases src <;>
    simp [explicitConv, implicitConv, doAssertRange, typeConvOverflow, kindSigned, InRange, lo, hi,
      value, Res.bind] at * <;> grind

example : InRange .char (value .int 65) ∧ ¬ InRange .char (value .int 256) := by decide

/-- **C11 does not extend to `uint` variables.** The difference of two `uint8` values is computed with
64 bits and stored into a `uint` variable without any check: `1 - 2` becomes 18446744073709551615. -/
theorem C11_uint_target_violated :
    ∃ a b : Slot, InRange .uint8 (value .uint8 a) ∧ InRange .uint8 (value .uint8 b) ∧
      ∃ d, applyOperator .minus .uint8 .uint8 a b = .ok d ∧ value .uint8 d = -1 ∧
        ∀ mem, ∃ mem', assign .uint .uint8 mem 8 d = .ok mem' ∧
          ∃ w, doDeref .uint mem' 8 = .ok w ∧ value .uint w = 18446744073709551615 := by
  refine ⟨1, 2, by decide, by decide, BitVec.ofInt 64 (-1), by decide, by decide, ?_⟩
  intro mem
  obtain ⟨mem', h1, h2, _⟩ := doAssign_ok .uint mem 8 (BitVec.ofInt 64 (-1)) (by decide) (by decide)
  exact ⟨mem', h1, _, h2, by decide⟩

/-! ## C12 -/

/-- **C12.** Division and remainder of two operands of the same integer type.  They are an error
exactly if the divisor is zero or, for the signed types, the quotient is the unrepresentable `2^63`;
otherwise both succeed, with the quotient rounded towards zero and the matching remainder.  The host
program is never exposed to undefined behaviour. -/
theorem C12_division (k : Kind) (x y : Slot) :
    (value k y = 0 → doBinary .div k x y = .err .divisionByZero ∧ doBinary .mod k x y = .err .divisionByZero) ∧
    (k ≠ .uint → value k x = -2 ^ 63 → value k y = -1 →
      doBinary .div k x y = .err (.overflow .int) ∧ doBinary .mod k x y = .err (.overflow .int)) ∧
    (value k y ≠ 0 → (k = .uint ∨ ¬ (value k x = -2 ^ 63 ∧ value k y = -1)) →
      ∃ q r, doBinary .div k x y = .ok q ∧ doBinary .mod k x y = .ok r ∧
        IsDivMod (value k x) (value k y) (value k q) (value k r)) := by
  by_cases hk : k = .uint
  · subst hk
    have hy0 : y.toNat = 0 ↔ y = 0 := by
      constructor
      · intro h; exact BitVec.eq_of_toNat_eq h
      · intro h; subst h; rfl
    simp only [value, doBinary, doBinaryUInt, if_true, ne_eq, not_true_eq_false, false_implies,
      true_and, true_or, Int.natCast_eq_zero, hy0]
    constructor
    · intro h
      subst h
      exact ⟨rfl, rfl⟩
    · intro h _
      refine ⟨x / y, x % y, by rw [if_neg h], by rw [if_neg h], ?_⟩
      have := udiv_umod_spec x.toNat y.toNat (fun hh => h (hy0.1 hh))
      simpa [BitVec.toNat_udiv, BitVec.toNat_umod] using this
  · simp only [value, doBinary, doBinaryInt, hk, if_false, false_or, ne_eq]
    refine ⟨?_, ?_, ?_⟩
    · intro h
      simp [h]
    · intro _ h1 h2
      have h0 : y.toInt ≠ 0 := by omega
      rw [if_neg h0, if_neg h0, if_pos ⟨h1, h2⟩, if_pos ⟨h1, h2⟩]
      exact ⟨rfl, rfl⟩
    · intro h1 h2
      have hx := toInt_cases x
      have hx' : -2 ^ 63 ≤ x.toInt ∧ x.toInt < 2 ^ 63 := by omega
      obtain ⟨q, hq, hqv⟩ := checkedInt_ok (tdiv_bounds x.toInt y.toInt hx' h1 h2)
      obtain ⟨r, hr, hrv⟩ := checkedInt_ok (tmod_bounds x.toInt y.toInt hx')
      refine ⟨q, r, by rw [if_neg h1, if_neg h2, hq], by rw [if_neg h1, if_neg h2, hr], ?_⟩
      rw [hqv, hrv]
      exact tdiv_tmod_spec _ _ h1

/-- `-7 / 2 == -3`, `-7 % 2 == -1`. -/
example : doBinary .div .int (-7) 2 = .ok (-3) ∧ doBinary .mod .int (-7) 2 = .ok (-1) ∧
    value .int 2 ≠ 0 ∧ ¬ (value .int (-7) = -2 ^ 63 ∧ value .int 2 = -1) ∧
    doBinary .div .int (BitVec.ofInt 64 (-2 ^ 63)) (-1) = .err (.overflow .int) := by decide

/-! ## C13 -/

/-- **C13.** Folding a binary or unary operator over constants of any ordinal types gives the value or
error that the same operator gives at run time; so do storing a constant and reading it back.  Where
the run-time operation is undefined (signed overflow, shift by 64 or more), so is the folded one. -/
theorem C13_constant_folding (op : BinOp) (lt rt : Kind) (x y : Slot) :
    applyOperatorConst op lt rt x y = applyOperator op lt rt x y := by
  unfold applyOperatorConst applyOperator
  have : constBinary = doBinary := by
    funext op k l r
    unfold constBinary doBinary
    split
    · cases op <;> rfl
    · cases op <;> rfl
  rw [this]

theorem C13_constant_folding_unary (op : UnOp) (x : Slot) : constUnary op x = doUnary op x := by
  cases op <;> rfl

theorem C13_constant_storing (k : Kind) (mem : Mem) (a : Nat) (ha : a ≠ 0) (x : Slot) :
    constAssign k mem a x = doAssign k mem a x ∧ constDeref k mem a = doDeref k mem a := by
  constructor
  · unfold constAssign doAssign
    rw [if_neg ha]
  · unfold constDeref doDeref
    rfl

/-- Folding `300 / 7` is not undefined, an error, or trivial. -/
example : applyOperatorConst .div .int .int 300 7 = .ok 42 ∧
    applyOperatorConst .div .int .int 300 0 = .err .divisionByZero := by decide

/-- **C13, built-in functions, negative part.** `atan2(0, x)` for nonzero `x` is rejected in a constant
expression but has a value at run time, whatever the floating-point arithmetic. -/
theorem C13_atan2_violated {R : Type} (o : RealOps R) (zero one : R) (h0 : o.isZero zero = true)
    (h1 : o.isZero one = false) (k : Kind) :
    constCallBuiltin o .atan2 k (.r zero) one = .err .domain ∧
    callBuiltin o .atan2 k (.r zero) one = .ok (.r (o.atan2 zero one)) := by
  simp [constCallBuiltin, callBuiltin, h0, h1]

/-- A sample floating-point arithmetic (the integers): the hypotheses of `C13_atan2_violated` and
`C13_builtins_partial` can be met. -/
def sampleOps : RealOps Int where
  isZero x := x == 0
  ltZero x := decide (x < 0)
  leZero x := decide (x ≤ 0)
  ofInt x := x
  ofNat x := x
  round x := some (BitVec.ofInt 64 x)
  trunc x := some (BitVec.ofInt 64 x)
  ceil x := some (BitVec.ofInt 64 x)
  floor x := some (BitVec.ofInt 64 x)
  fabs x := x.natAbs
  sqrt x := x
  sin x := x
  cos x := x
  atan x := x
  atan2 x _ := x
  exp x := x
  log x := x

example : sampleOps.isZero 0 = true ∧ sampleOps.isZero 1 = false := by decide

/-- **C13, built-in functions, partial.** For all other functions, and for `atan2` unless exactly one
argument is zero, folding agrees with run time.  Missing: `atan2` with exactly one zero argument, where
the property is false (`C13_atan2_violated`). -/
theorem C13_builtins_partial {R : Type} (o : RealOps R) (f : Builtin) (k : Kind) (x : Num R) (y : R)
    (h : f = .atan2 → ∀ v, x = .r v → o.isZero v = o.isZero y) :
    constCallBuiltin o f k x y = callBuiltin o f k x y := by
  cases f <;> cases x <;> first
    | rfl
    | (rename_i v
       have := h rfl v rfl
       simp [constCallBuiltin, callBuiltin, this])

example : ∀ v, (Num.r 5 : Num Int) = .r v → sampleOps.isZero v = sampleOps.isZero 7 := by
  intro v h; cases h; rfl

/-! ## C14 -/

/-- **C14, partial.** For two operands of ordinal types that are both `uint` or both not `uint`, the six
comparison operators are the relations between their values.  For operands of mixed signedness this
holds if both values are between 0 and 2^63 - 1.  Missing: the other mixed cases, where the property is
false (`C14_mixed_violated`). -/
theorem C14_comparison_partial (rel : Rel) (lt rt : Kind) (x y : Slot)
    (h : (lt = .uint ↔ rt = .uint) ∨
      (0 ≤ value lt x ∧ value lt x < 2 ^ 63 ∧ 0 ≤ value rt y ∧ value rt y < 2 ^ 63)) :
    applyOperator rel.op lt rt x y = .ok (if rel.holds (value lt x) (value rt y) then 1 else 0) := by
  have hx := toInt_cases x
  have hy := toInt_cases y
  have e : applyOperator rel.op lt rt x y = doBinary rel.op lt x y := by
    simp [applyOperator, implicitConv, Res.bind]
  rw [e, doBinary]
  by_cases hl : lt = .uint
  · rw [if_pos hl]
    have hyv : value rt y = y.toNat := by
      unfold value at h ⊢
      split
      · rfl
      · rename_i hr
        simp only [hl, hr, if_true, if_false] at h
        simp at h
        omega
    have hxv : value lt x = x.toNat := by rw [value, if_pos hl]
    rw [hxv, hyv]
    cases rel <;> simp only [Rel.op, doBinaryUInt, Rel.holds, ofBool, ge_iff_le, gt_iff_lt,
      Int.ofNat_le, Int.ofNat_lt, Int.natCast_inj] <;> congr 1
    have : (x.toNat : Int) = y.toNat ↔ x.toNat = y.toNat := Int.natCast_inj
    by_cases h : x.toNat = y.toNat <;> simp [h, this]
  · rw [if_neg hl]
    have hyv : value rt y = y.toInt := by
      unfold value at h ⊢
      split
      · rename_i hr
        simp only [hl, hr, if_true, if_false] at h
        simp at h
        omega
      · rfl
    have hxv : value lt x = x.toInt := by rw [value, if_neg hl]
    rw [hxv, hyv]
    cases rel <;> simp only [Rel.op, doBinaryInt, Rel.holds, ofBool] <;> congr 1
    by_cases h : x.toInt = y.toInt <;> simp [h]

example : (Kind.int = .uint ↔ Kind.int8 = .uint) ∧
    applyOperator .less .int .int8 (-5) 3 = .ok 1 := by decide

/-- **C14, negative part.** `u > -1` is false for the `uint` value 5, although `-1 < u` is true:
operands of mixed signedness are compared in the type of the left one. -/
theorem C14_mixed_violated :
    ∃ (u i : Slot), value .uint u > value .int i ∧
      applyOperator .greater .uint .int u i = .ok 0 ∧ applyOperator .less .int .uint i u = .ok 1 :=
  ⟨5, -1, by decide, by decide, by decide⟩

/-! ## C57 -/

/-- The exact result of an arithmetic operator on integers (`shl`/`shr`: multiplication by a power of
two and division rounding down). -/
def exact : BinOp → Int → Int → Option Int
  | .plus, x, y => some (x + y)
  | .minus, x, y => some (x - y)
  | .mul, x, y => some (x * y)
  | .shl, x, y => if 0 ≤ y ∧ y < 64 then some (x * 2 ^ y.toNat) else none
  | .shr, x, y => if 0 ≤ y ∧ y < 64 then some (x / 2 ^ y.toNat) else none
  | _, _, _ => none

/-- **C57, partial.** `+`, `-`, `*`, `<<` and `>>` (shift count 0 to 63) on `uint` yield the exact result
modulo 2^64; on all other integer types they yield the exact result whenever it fits in 64 bits.
Missing: results of the signed operators that do not fit, and shift counts outside 0..63, where the
property is false (`C57_arithmetic_violated`). -/
theorem C57_arithmetic_partial (op : BinOp) (k : Kind) (x y : Slot) (v : Int)
    (hv : exact op (value k x) (value k y) = some v)
    (hfit : k ≠ .uint → -2 ^ 63 ≤ v ∧ v < 2 ^ 63) :
    ∃ r, doBinary op k x y = .ok r ∧
      (if k = .uint then value k r = v % 2 ^ 64 else value k r = v) := by
  have hy := toInt_cases y
  by_cases hk : k = .uint
  · subst hk
    simp only [value, if_true] at hv ⊢
    unfold doBinary
    rw [if_pos rfl]
    have hx := x.isLt
    have hy := y.isLt
    cases op <;> simp only [exact, Option.some.injEq, reduceCtorEq] at hv <;> simp only [doBinaryUInt]
    · refine ⟨_, rfl, ?_⟩
      rw [BitVec.toNat_add, ← hv]; omega
    · refine ⟨_, rfl, ?_⟩
      rw [BitVec.toNat_sub, ← hv]; omega
    · refine ⟨_, rfl, ?_⟩
      rw [BitVec.toNat_mul, ← hv]
      simp
    · split at hv
      · rename_i hc
        rw [if_pos (by omega)]
        refine ⟨_, rfl, ?_⟩
        cases hv
        rw [BitVec.toNat_shiftLeft, Nat.shiftLeft_eq]
        simp
      · cases hv
    · split at hv
      · rename_i hc
        rw [if_pos (by omega)]
        refine ⟨_, rfl, ?_⟩
        cases hv
        rw [BitVec.toNat_ushiftRight, Nat.shiftRight_eq_div_pow]
        have : x.toNat / 2 ^ y.toNat ≤ x.toNat := Nat.div_le_self _ _
        simp only [Int.toNat_natCast, Int.natCast_ediv, Int.natCast_pow]
        rw [Int.emod_eq_of_lt]
        · rfl
        · exact Int.ediv_nonneg (by omega) (Int.pow_nonneg (by decide))
        · have h2 : ((x.toNat / 2 ^ y.toNat : Nat) : Int) < 2 ^ 64 := by omega
          simpa using h2
      · cases hv
  · have hfit := hfit hk
    simp only [value, if_neg hk] at hv ⊢
    unfold doBinary
    rw [if_neg hk]
    have hx := toInt_cases x
    cases op <;> simp only [exact, Option.some.injEq, reduceCtorEq] at hv <;> simp only [doBinaryInt]
    · subst hv; exact checkedInt_ok hfit
    · subst hv; exact checkedInt_ok hfit
    · subst hv; exact checkedInt_ok hfit
    · split at hv
      · rename_i hc
        rw [if_pos hc]
        refine ⟨_, rfl, ?_⟩
        cases hv
        rw [BitVec.toInt_shiftLeft, Nat.shiftLeft_eq]
        have e : y.toInt.toNat = y.toNat := by omega
        rw [e] at hfit ⊢
        have h1 : ((x.toNat * 2 ^ y.toNat : Nat) : Int) % 2 ^ 64 = (x.toInt * 2 ^ y.toNat) % 2 ^ 64 := by
          rcases hx with ⟨_, hx⟩ | ⟨_, _, hx⟩
          · rw [hx]; simp
          · rw [hx, Int.sub_mul, Int.sub_emod, Int.mul_emod_right]; simp
        rw [Int.bmod_def]
        generalize hN : x.toNat * 2 ^ y.toNat = N at h1 ⊢
        generalize hZ : x.toInt * 2 ^ y.toNat = Z at h1 hfit ⊢
        omega
      · cases hv
    · split at hv
      · rename_i hc
        rw [if_pos hc]
        refine ⟨_, rfl, ?_⟩
        cases hv
        rw [BitVec.toInt_sshiftRight, Int.shiftRight_eq_div_pow]
        have e : y.toInt.toNat = y.toNat := by omega
        rw [e]
        simp
      · cases hv

example : exact .mul (value .int (-3)) (value .int 7) = some (-21) ∧
    exact .shr (value .int (-3)) (value .int 1) = some (-2) := by decide

/-- **C57, negative part.** Adding 1 to the largest `int` at run time, and shifting by 64, are undefined
behaviour of the host program. -/
theorem C57_arithmetic_violated :
    doBinary .plus .int (BitVec.ofInt 64 (2 ^ 63 - 1)) 1 = .ub ∧ doBinary .shl .uint 1 64 = .ub := by
  decide

/-- **C57, bitwise operators.** `&`, `|`, `xor` and `~` act on every bit separately, for every type. -/
theorem C57_bitwise (k : Kind) (x y : Slot) (i : Nat) (hi : i < 64) :
    (∃ r, doBinary .and k x y = .ok r ∧ r.getLsbD i = (x.getLsbD i && y.getLsbD i)) ∧
    (∃ r, doBinary .or k x y = .ok r ∧ r.getLsbD i = (x.getLsbD i || y.getLsbD i)) ∧
    (∃ r, doBinary .xor k x y = .ok r ∧ r.getLsbD i = (x.getLsbD i != y.getLsbD i)) ∧
    (∃ r, doUnary .xor x = .ok r ∧ r.getLsbD i = !x.getLsbD i) := by
  refine ⟨⟨x &&& y, ?_, ?_⟩, ⟨x ||| y, ?_, ?_⟩, ⟨x ^^^ y, ?_, ?_⟩, ⟨~~~x, rfl, ?_⟩⟩
  · unfold doBinary; split <;> rfl
  · simp
  · unfold doBinary; split <;> rfl
  · simp
  · unfold doBinary; split <;> rfl
  · simp
  · simp [hi]

/-- **C57, negation.** `-x` is exact for every `int` except the smallest, for which it is undefined;
`!x` is the logical negation. -/
theorem C57_negation (x : Slot) :
    (x.toInt ≠ -2 ^ 63 → ∃ r, doUnary .minus x = .ok r ∧ r.toInt = -x.toInt) ∧
    (x.toInt = -2 ^ 63 → doUnary .minus x = .ub) ∧
    (doUnary .not x = .ok (if x = 0 then 1 else 0)) := by
  have hx := toInt_cases x
  refine ⟨?_, ?_, ?_⟩
  · intro h
    exact checkedInt_ok (by omega)
  · intro h
    rw [doUnary, checkedInt, if_neg (by omega)]
  · simp [doUnary, ofBool]

example : doUnary .minus 5 = .ok (-5) ∧ doUnary .not 5 = .ok 0 := by decide

/-! ## C53 -/

/-- The effect of `x++` (`d = 1`) or `x--` (`d = -1`) and that of `x += 1` or `x -= 1`. -/
def shortOp (d : Int) : BinOp := if d = 1 then .plus else .minus

/-- **C53, negative part.** For an `int8` variable with value 127, `x += 1` is an overflow error,
whereas `x++` silently makes it -128. -/
theorem C53_increment_violated :
    ∃ mem x, doDeref .int8 mem x = .ok 127 ∧
      shortAssign .plus .int8 .int mem x 1 = .err (.overflow .int8) ∧
      ∃ mem', incDec 1 .int8 mem x = .ok mem' ∧ doDeref .int8 mem' x = .ok (-128) := by
  refine ⟨fun _ => 127, 8, by decide +kernel, ?_, _, rfl, ?_⟩
  · have : doDeref .int8 (fun _ => 127) 8 = .ok 127 := by decide +kernel
    simp only [shortAssign, this, Res.bind]
    rfl
  · decide +kernel

/-- **C53, partial.** If the result is a value of the type of `x` (or `x` is a `uint`), `x++` and
`x += 1` (`x--` and `x -= 1`) have the same effect, for every integer type.  Missing: a result outside
the type, where the property is false (`C53_increment_violated`). -/
theorem C53_increment_partial (d : Int) (hd : d = 1 ∨ d = -1) (k : Kind) (hk : IsInteger k) (mem : Mem)
    (x : Nat) (hx : x ≠ 0) (w : Slot) (hw : doDeref k mem x = .ok w)
    (hr : k = .uint ∨ InRange k (value k w + d)) :
    ∃ mem', incDec d k mem x = .ok mem' ∧ shortAssign (shortOp d) k .int mem x 1 = .ok mem' ∧
      ∃ w', doDeref k mem' x = .ok w' ∧ (InRange k (value k w + d) → value k w' = value k w + d) ∧
        ∀ b, b < x ∨ x + size k ≤ b → mem' b = mem b := by
  have h1 : (1 : Slot).toInt = 1 := by decide
  have hn1 : (1 : Slot).toNat = 1 := by decide
  have hwc := toInt_cases w
  have hwd : w + BitVec.ofInt 64 d = BitVec.ofInt 64 (w.toInt + d) := by
    rw [BitVec.ofInt_add, BitVec.ofInt_toInt]
  -- the value that the binary operator computes
  have hbin : ∃ v, doBinary (shortOp d) k w 1 = .ok v ∧ typeOverflow k v = false ∧
      v = BitVec.ofInt 64 (w.toInt + d) ∧
      (InRange k (value k w + d) → value k v = value k w + d) := by
    by_cases hu : k = .uint
    · subst hu
      rcases hd with rfl | rfl
      · refine ⟨w + 1, by simp [shortOp, doBinary, doBinaryUInt], ?_, hwd, ?_⟩
        · simp [typeOverflow, typeConvOverflow, kindSigned]
        · simp only [InRange, lo, hi, value, if_true, BitVec.toNat_add, hn1]
          omega
      · refine ⟨w - 1, by simp [shortOp, doBinary, doBinaryUInt], ?_, ?_, ?_⟩
        · simp [typeOverflow, typeConvOverflow, kindSigned]
        · rw [← hwd]
          apply BitVec.eq_of_toNat_eq
          have : (BitVec.ofInt 64 (-1)).toNat = 2 ^ 64 - 1 := by decide
          rw [BitVec.toNat_sub, BitVec.toNat_add, this, hn1]
          omega
        · simp only [InRange, lo, hi, value, if_true, BitVec.toNat_sub, hn1]
          omega
    · have hr' : InRange k (w.toInt + d) := by
        have := hr.resolve_left hu
        rwa [value, if_neg hu] at this
      have hb : -2 ^ 63 ≤ w.toInt + d ∧ w.toInt + d < 2 ^ 63 := by
        cases k <;> simp [InRange, lo, hi] at hr' hu ⊢ <;> omega
      have hv : (BitVec.ofInt 64 (w.toInt + d)).toInt = w.toInt + d := by
        rw [BitVec.toInt_ofInt, Int.bmod_def]; omega
      refine ⟨BitVec.ofInt 64 (w.toInt + d), ?_, ?_, rfl, ?_⟩
      · rw [doBinary, if_neg hu]
        rcases hd with rfl | rfl
        · simp only [shortOp, if_true, doBinaryInt, h1, checkedInt, if_pos hb]
        · simp only [shortOp, doBinaryInt, h1, checkedInt]
          rw [if_neg (by decide)]
          simp only [Int.sub_eq_add_neg]
          rw [if_pos hb]
      · cases ho : typeOverflow k (BitVec.ofInt 64 (w.toInt + d))
        · rfl
        · have := (typeOverflow_iff k _ hu).1 ho
          rw [hv] at this
          exact absurd hr' this
      · intro _
        rw [value, value, if_neg hu, if_neg hu, hv]
  obtain ⟨v, hv1, hv2, hv3, hv4⟩ := hbin
  obtain ⟨mem', ha1, ha2, ha3⟩ := doAssign_ok k mem x v hx hv2
  refine ⟨mem', ?_, ?_, v, ha2, hv4, ha3⟩
  · rw [← ha1]
    subst hv3
    cases k
    case bool => exact hk.elim
    case char => exact hk.elim
    all_goals
      simp only [doDeref, hx, if_false, Res.ok.injEq] at hw
      simp only [incDec, doAssign, hx, if_false, hv2, hw, hwd, Bool.false_eq_true]
    · simp only [InRange, lo, hi, value, reduceCtorEq, false_or, if_false] at hr
      rw [if_pos (by omega)]
    · simp only [InRange, lo, hi, value, reduceCtorEq, false_or, if_false] at hr
      rw [checkedInt, if_pos (by omega)]
      rfl
  · have hc : implicitConv k .int true 1 = .ok 1 := rfl
    unfold shortAssign
    rw [hw, hc]
    simp only [Res.bind]
    rw [hv1]
    exact ha1

example : IsInteger .int8 ∧ doDeref .int8 (fun _ => 5) 8 = .ok 5 ∧ InRange .int8 (value .int8 5 + 1) := by
  decide +kernel

end Umka.Arith.Props
