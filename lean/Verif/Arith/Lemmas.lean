import Verif.Arith.Spec

/-! # Integer arithmetic: lemmas -/

namespace Umka.Arith

theorem write_frame (n : Nat) : ∀ (mem : Mem) (a v b : Nat), b < a ∨ a + n ≤ b →
    writeBytes mem a n v b = mem b := by
  induction n with
  | zero => intros; rfl
  | succ n ih =>
    intro mem a v b h
    rw [writeBytes, ih _ _ _ _ (by omega)]
    rw [if_neg (by omega)]

theorem read_congr (n : Nat) : ∀ (m m' : Mem) (a : Nat), (∀ b, a ≤ b → b < a + n → m b = m' b) →
    readBytes m a n = readBytes m' a n := by
  induction n with
  | zero => intros; rfl
  | succ n ih =>
    intro m m' a h
    rw [readBytes, readBytes, h a (by omega) (by omega), ih m m' (a + 1) (fun b hb hb' => h b (by omega) (by omega))]

theorem read_write (n : Nat) : ∀ (mem : Mem) (a v : Nat),
    readBytes (writeBytes mem a n v) a n = v % 256 ^ n := by
  induction n with
  | zero => intro mem a v; simp [readBytes, Nat.mod_one]
  | succ n ih =>
    intro mem a v
    rw [readBytes, writeBytes, ih, write_frame _ _ _ _ _ (by omega), if_pos rfl]
    simp only [BitVec.toNat_ofNat]
    rw [show 256 ^ (n + 1) = 256 * 256 ^ n by rw [Nat.pow_succ, Nat.mul_comm], Nat.mod_mul]

theorem read_lt (n : Nat) : ∀ (mem : Mem) (a : Nat), readBytes mem a n < 256 ^ n := by
  induction n with
  | zero => intro mem a; simp [readBytes]
  | succ n ih =>
    intro mem a
    have h1 := ih mem (a + 1)
    have h2 : (mem a).toNat < 256 := (mem a).isLt
    rw [readBytes, Nat.pow_succ]
    omega

theorem ofInt_of_toInt {s : Slot} {v : Int} (h : v = s.toInt) : BitVec.ofInt 64 v = s := by
  rw [h, BitVec.ofInt_toInt]

theorem ofNat_of_toNat {s : Slot} {v : Nat} (h : v = s.toNat) : BitVec.ofNat 64 v = s := by
  rw [h, BitVec.ofNat_toNat]; simp

theorem toInt_cases (s : Slot) : (s.toNat < 2 ^ 63 ∧ s.toInt = s.toNat) ∨
    (2 ^ 63 ≤ s.toNat ∧ s.toNat < 2 ^ 64 ∧ s.toInt = s.toNat - 2 ^ 64) := by
  have h := s.isLt
  have h2 := BitVec.toInt_eq_toNat_cond s
  split at h2 <;> omega

theorem readSigned_write (mem : Mem) (a n : Nat) (s : Slot) (hn : n = 1 ∨ n = 2 ∨ n = 4 ∨ n = 8)
    (h : -(256 ^ n : Nat) / 2 ≤ s.toInt ∧ s.toInt < (256 ^ n : Nat) / 2) :
    readSigned (writeBytes mem a n s.toNat) a n = s := by
  rw [readSigned, read_write]
  apply ofInt_of_toInt
  have hc := toInt_cases s
  rw [Int.bmod_def]
  rcases hn with rfl | rfl | rfl | rfl <;> omega

theorem readUnsigned_write (mem : Mem) (a n : Nat) (s : Slot) (h : s.toNat < 256 ^ n) :
    readUnsigned (writeBytes mem a n s.toNat) a n = s := by
  rw [readUnsigned, read_write]
  apply ofNat_of_toNat
  exact Nat.mod_eq_of_lt h

/-- The overflow check of a store is exact for the narrow types. -/
theorem typeOverflow_iff (k : Kind) (s : Slot) (hk : k ≠ .uint) :
    typeOverflow k s = true ↔ ¬ Spec.InRange k s.toInt := by
  have hc := toInt_cases s
  cases k <;> simp [typeOverflow, typeConvOverflow, Spec.InRange, Spec.lo, Spec.hi] at * <;> omega

theorem typeConvOverflow_iff (dest src : Kind) (s : Slot)
    (h : dest = .uint → src = .uint8 ∨ src = .uint16 ∨ src = .uint32 ∨ src = .bool ∨ src = .char →
      Spec.InRange src s.toInt) :
    typeConvOverflow dest (some src) s = true ↔ ¬ Spec.InRange dest (Spec.value src s) := by
  have hc := toInt_cases s
  cases dest <;> cases src <;>
    simp [typeConvOverflow, Spec.InRange, Spec.lo, Spec.hi, kindSigned, Spec.value] at * <;> omega

/-- What a store followed by a load yields, and that nothing else changes. -/
theorem doAssign_ok (k : Kind) (mem : Mem) (addr : Nat) (s : Slot) (ha : addr ≠ 0)
    (h : typeOverflow k s = false) :
    ∃ mem', doAssign k mem addr s = .ok mem' ∧ doDeref k mem' addr = .ok s ∧
      (∀ b, b < addr ∨ addr + Spec.size k ≤ b → mem' b = mem b) := by
  have hc := toInt_cases s
  have hs : ∀ n, n = 1 ∨ n = 2 ∨ n = 4 ∨ n = 8 →
      (-(256 ^ n : Nat) / 2 ≤ s.toInt ∧ s.toInt < (256 ^ n : Nat) / 2) →
      readSigned (writeBytes mem addr n s.toNat) addr n = s :=
    fun n hn h => readSigned_write mem addr n s hn h
  have hu : ∀ n, s.toNat < 256 ^ n → readUnsigned (writeBytes mem addr n s.toNat) addr n = s :=
    fun n h => readUnsigned_write mem addr n s h
  have hf : ∀ n v b, b < addr ∨ addr + n ≤ b → writeBytes mem addr n v b = mem b :=
    fun n v b h => write_frame n mem addr v b h
  have hr := typeOverflow_iff k s
  cases k with
  | uint =>
    refine ⟨_, by simp [doAssign, ha, h]; rfl, ?_, ?_⟩
    · simp only [doDeref, ha, if_false, hu 8 (by have := s.isLt; omega)]
    · exact hf 8 _
  | bool =>
    simp [h, Spec.InRange, Spec.lo, Spec.hi] at hr
    refine ⟨_, by simp [doAssign, ha, h]; rfl, ?_, ?_⟩
    · simp only [doDeref, ha, if_false]
      by_cases h0 : s = 0#64
      · subst h0
        simp only [if_true]
        exact congrArg Res.ok (hu 1 (by decide))
      · have : s = 1#64 := by
          apply BitVec.eq_of_toNat_eq
          have : s.toNat ≠ 0 := fun hh => h0 (BitVec.eq_of_toNat_eq hh)
          have : (1#64).toNat = 1 := rfl
          omega
        subst this
        rw [if_neg h0]
        exact congrArg Res.ok (hu 1 (by decide))
    · exact hf 1 _
  | int8 =>
    simp [h, Spec.InRange, Spec.lo, Spec.hi] at hr
    refine ⟨_, by simp [doAssign, ha, h]; rfl, ?_, ?_⟩
    · simp only [doDeref, ha, if_false, hs 1 (by omega) (by omega)]
    · exact hf 1 _
  | int16 =>
    simp [h, Spec.InRange, Spec.lo, Spec.hi] at hr
    refine ⟨_, by simp [doAssign, ha, h]; rfl, ?_, ?_⟩
    · simp only [doDeref, ha, if_false, hs 2 (by omega) (by omega)]
    · exact hf 2 _
  | int32 =>
    simp [h, Spec.InRange, Spec.lo, Spec.hi] at hr
    refine ⟨_, by simp [doAssign, ha, h]; rfl, ?_, ?_⟩
    · simp only [doDeref, ha, if_false, hs 4 (by omega) (by omega)]
    · exact hf 4 _
  | int =>
    simp [h, Spec.InRange, Spec.lo, Spec.hi] at hr
    refine ⟨_, by simp [doAssign, ha, h]; rfl, ?_, ?_⟩
    · simp only [doDeref, ha, if_false, hs 8 (by omega) (by omega)]
    · exact hf 8 _
  | uint8 =>
    simp [h, Spec.InRange, Spec.lo, Spec.hi] at hr
    refine ⟨_, by simp [doAssign, ha, h]; rfl, ?_, ?_⟩
    · simp only [doDeref, ha, if_false, hu 1 (by omega)]
    · exact hf 1 _
  | uint16 =>
    simp [h, Spec.InRange, Spec.lo, Spec.hi] at hr
    refine ⟨_, by simp [doAssign, ha, h]; rfl, ?_, ?_⟩
    · simp only [doDeref, ha, if_false, hu 2 (by omega)]
    · exact hf 2 _
  | uint32 =>
    simp [h, Spec.InRange, Spec.lo, Spec.hi] at hr
    refine ⟨_, by simp [doAssign, ha, h]; rfl, ?_, ?_⟩
    · simp only [doDeref, ha, if_false, hu 4 (by omega)]
    · exact hf 4 _
  | char =>
    simp [h, Spec.InRange, Spec.lo, Spec.hi] at hr
    refine ⟨_, by simp [doAssign, ha, h]; rfl, ?_, ?_⟩
    · simp only [doDeref, ha, if_false, hu 1 (by omega)]
    · exact hf 1 _

/-- A store that overflows is an error. -/
theorem doAssign_err (k : Kind) (mem : Mem) (addr : Nat) (s : Slot) (ha : addr ≠ 0)
    (h : typeOverflow k s = true) : doAssign k mem addr s = .err (.overflow k) := by
  simp [doAssign, ha, h]

/-- What a load can yield. -/
theorem readSigned_toInt (mem : Mem) (a n : Nat) (hn : n = 1 ∨ n = 2 ∨ n = 4 ∨ n = 8) :
    (readSigned mem a n).toInt = Int.bmod (readBytes mem a n) (256 ^ n) := by
  rw [readSigned, BitVec.toInt_ofInt]
  have h := read_lt n mem a
  rcases hn with rfl | rfl | rfl | rfl <;> simp only [Int.bmod_def] <;> omega

theorem readUnsigned_toNat (mem : Mem) (a n : Nat) (hn : n = 1 ∨ n = 2 ∨ n = 4 ∨ n = 8) :
    (readUnsigned mem a n).toNat = readBytes mem a n := by
  rw [readUnsigned, BitVec.toNat_ofNat]
  have h := read_lt n mem a
  rcases hn with rfl | rfl | rfl | rfl <;> omega

theorem checkedInt_ok {v : Int} (h : -2 ^ 63 ≤ v ∧ v < 2 ^ 63) :
    ∃ s, checkedInt v = .ok s ∧ s.toInt = v := by
  refine ⟨BitVec.ofInt 64 v, by rw [checkedInt, if_pos h], ?_⟩
  rw [BitVec.toInt_ofInt, Int.bmod_def]
  omega

theorem tdiv_bounds (x y : Int) (hx : -2 ^ 63 ≤ x ∧ x < 2 ^ 63) (hy : y ≠ 0)
    (h : ¬ (x = -2 ^ 63 ∧ y = -1)) : -2 ^ 63 ≤ x.tdiv y ∧ x.tdiv y < 2 ^ 63 := by
  have h1 : (x.tdiv y).natAbs = x.natAbs / y.natAbs := Int.natAbs_tdiv x y
  have h2 : x.natAbs / y.natAbs ≤ x.natAbs := Nat.div_le_self _ _
  by_cases hm : x = -2 ^ 63
  · have hy1 : y ≠ -1 := fun hh => h ⟨hm, hh⟩
    by_cases hy2 : y = 1
    · subst hy2
      simp [hm]
    · have : 2 ≤ y.natAbs := by omega
      have h3 : x.natAbs / y.natAbs ≤ x.natAbs / 2 := Nat.div_le_div_left this (by decide)
      omega
  · omega

theorem tmod_bounds (x y : Int) (hx : -2 ^ 63 ≤ x ∧ x < 2 ^ 63) :
    -2 ^ 63 ≤ x.tmod y ∧ x.tmod y < 2 ^ 63 := by
  have h1 : (x.tmod y).natAbs ≤ x.natAbs := by
    rw [Int.natAbs_tmod]
    exact Nat.mod_le _ _
  by_cases hs : 0 ≤ x
  · have := Int.tmod_nonneg y hs
    omega
  · have h1 : (-x).tmod y = -(x.tmod y) := Int.neg_tmod x y
    have h2 := Int.tmod_nonneg (a := -x) y (by omega)
    omega

theorem tdiv_tmod_spec (x y : Int) (hy : y ≠ 0) : Spec.IsDivMod x y (x.tdiv y) (x.tmod y) := by
  refine ⟨?_, ?_, ?_⟩
  · have := Int.tmod_add_mul_tdiv x y
    rw [Int.mul_comm]
    omega
  · rw [Int.natAbs_tmod]
    exact Nat.mod_lt _ (by omega)
  · by_cases hs : 0 ≤ x
    · right
      have := Int.tmod_nonneg y hs
      omega
    · by_cases h0 : x.tmod y = 0
      · exact .inl h0
      · right
        have h1 : (-x).tmod y = -(x.tmod y) := Int.neg_tmod x y
        have h2 := Int.tmod_nonneg (a := -x) y (by omega)
        omega

theorem udiv_umod_spec (x y : Nat) (hy : y ≠ 0) :
    Spec.IsDivMod x y ((x / y : Nat) : Int) ((x % y : Nat) : Int) := by
  refine ⟨?_, ?_, ?_⟩
  · have := Nat.div_add_mod x y
    rw [← Int.natCast_mul, Nat.mul_comm, ← Int.natCast_add, this]
  · have := Nat.mod_lt x (y := y) (by omega)
    omega
  · right; omega

end Umka.Arith
