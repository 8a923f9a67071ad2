import Verif.Lib.Spec

/-!
# Lib: lemmas
-/

namespace Umka.Lib

/-! ## Shifts -/

theorem shl_fixed (z : BitVec 64) (k : Nat) (hk : 0 < k) (h : z = z <<< k) : z = 0#64 := by
  have key : ∀ i : Nat, z.getLsbD i = false := by
    intro i
    induction i using Nat.strongRecOn with
    | ind i ih =>
      rw [h, BitVec.getLsbD_shiftLeft]
      by_cases hi : i < k
      · simp [hi]
      · rw [ih (i - k) (by omega)]; simp
  exact BitVec.eq_of_getLsbD_eq (fun i _ => by rw [key i]; simp)

theorem shr_fixed (z : BitVec 64) (k : Nat) (hk : 0 < k) (h : z = z >>> k) : z = 0#64 := by
  have key : ∀ n i : Nat, 64 ≤ i + n → z.getLsbD i = false := by
    intro n
    induction n with
    | zero => intro i hi; exact BitVec.getLsbD_of_ge z i (by omega)
    | succ n ih =>
      intro i hi
      rw [h, BitVec.getLsbD_ushiftRight]
      exact ih (k + i) (by omega)
  exact BitVec.eq_of_getLsbD_eq (fun i _ => by rw [key 64 i (by omega)]; simp)

theorem xor_eq_iff (a b : BitVec 64) : a = b ↔ a ^^^ b = 0#64 := by
  constructor
  · intro h; rw [h, BitVec.xor_self]
  · intro h
    have : a ^^^ b ^^^ b = 0#64 ^^^ b := by rw [h]
    rw [BitVec.xor_assoc, BitVec.xor_self, BitVec.xor_zero, BitVec.zero_xor] at this
    exact this

theorem xor_swap (a b c d : BitVec 64) : (a ^^^ b) ^^^ (c ^^^ d) = (a ^^^ c) ^^^ (b ^^^ d) := by
  rw [BitVec.xor_assoc, BitVec.xor_assoc, ← BitVec.xor_assoc b c d, BitVec.xor_comm b c, BitVec.xor_assoc c b d]

theorem shl_inj (k : Nat) (hk : 0 < k) {a b : BitVec 64} (h : a ^^^ (a <<< k) = b ^^^ (b <<< k)) : a = b := by
  rw [xor_eq_iff] at h ⊢
  rw [xor_swap, ← BitVec.shiftLeft_xor_distrib] at h
  exact shl_fixed _ k hk ((xor_eq_iff _ _).mpr h)

theorem shr_inj (k : Nat) (hk : 0 < k) {a b : BitVec 64} (h : a ^^^ (a >>> k) = b ^^^ (b >>> k)) : a = b := by
  rw [xor_eq_iff] at h ⊢
  rw [xor_swap, ← BitVec.ushiftRight_xor_distrib] at h
  exact shr_fixed _ k hk ((xor_eq_iff _ _).mpr h)

theorem randStep_inj {a b : Seed} (h : randStep a = randStep b) : a = b := by
  unfold randStep at h
  dsimp only at h
  exact shl_inj 13 (by omega) (shr_inj 7 (by omega) (shl_inj 17 (by omega) h))

theorem randStep_ne {a : Seed} (h : a ≠ 0#64) : randStep a ≠ 0#64 := by
  intro e
  apply h
  apply randStep_inj
  rw [e]
  decide

/-! ## Trimming -/

theorem ltrimFind_some {s : List Nat} {i k : Nat} (h : ltrimFind s i = some k) :
    i ≤ k ∧ (∃ hk : k < s.length, 32 < s[k]) ∧ ∀ j, i ≤ j → j < k → ∀ hj : j < s.length, s[j] ≤ 32 := by
  fun_induction ltrimFind s i with
  | case1 i hi hc =>
    simp only [Option.some.injEq] at h
    subst h
    exact ⟨Nat.le_refl _, ⟨hi, hc⟩, fun j h1 h2 => by omega⟩
  | case2 i hi hc ih =>
    obtain ⟨h1, h2, h3⟩ := ih h
    refine ⟨by omega, h2, ?_⟩
    intro j hj1 hj2 hj
    by_cases e : j = i
    · subst e; omega
    · exact h3 j (by omega) hj2 hj
  | case3 i hi => cases h

theorem ltrimFind_none {s : List Nat} {i : Nat} (h : ltrimFind s i = none) : ∀ j, i ≤ j → ∀ hj : j < s.length, s[j] ≤ 32 := by
  fun_induction ltrimFind s i with
  | case1 i hi hc => cases h
  | case2 i hi hc ih =>
    intro j hj1 hj
    by_cases e : j = i
    · subst e; omega
    · exact ih h j (by omega) hj
  | case3 i hi => intro j h1 h2; omega

theorem rtrimFind_some {s : List Nat} {i k : Nat} (h : rtrimFind s i = some k) :
    k < i ∧ 32 < s.getD k 0 ∧ ∀ j, k < j → j < i → s.getD j 0 ≤ 32 := by
  induction i with
  | zero => cases h
  | succ i ih =>
    rw [rtrimFind] at h
    split at h
    · simp only [Option.some.injEq] at h
      subst h
      exact ⟨by omega, by assumption, fun j h1 h2 => by omega⟩
    · obtain ⟨h1, h2, h3⟩ := ih h
      refine ⟨by omega, h2, ?_⟩
      intro j hj1 hj2
      by_cases e : j = i
      · subst e; omega
      · exact h3 j hj1 (by omega)

theorem rtrimFind_none {s : List Nat} {i : Nat} (h : rtrimFind s i = none) : ∀ j, j < i → s.getD j 0 ≤ 32 := by
  induction i with
  | zero => intro j hj; omega
  | succ i ih =>
    rw [rtrimFind] at h
    split at h
    · cases h
    · intro j hj
      by_cases e : j = i
      · subst e; omega
      · exact ih h j (by omega)

theorem ltrim_spec (s : List Nat) : ∃ a, s = a ++ ltrim s ∧ (∀ c ∈ a, Blank c) ∧ ∀ c, (ltrim s).head? = some c → ¬ Blank c := by
  rw [ltrim]
  cases h : ltrimFind s 0 with
  | none =>
    refine ⟨s, by simp, ?_, by simp⟩
    intro c hc
    obtain ⟨j, hj, e⟩ := List.mem_iff_getElem.mp hc
    rw [← e]; exact ltrimFind_none h j (by omega) hj
  | some k =>
    obtain ⟨_, ⟨hk, h2⟩, h3⟩ := ltrimFind_some h
    refine ⟨s.take k, by simp, ?_, ?_⟩
    · intro c hc
      obtain ⟨j, hj, e⟩ := List.mem_iff_getElem.mp hc
      rw [List.length_take] at hj
      rw [List.getElem_take] at e
      rw [← e]; exact h3 j (by omega) (by omega) (by omega)
    · intro c hc
      dsimp only at hc
      rw [List.head?_drop, List.getElem?_eq_getElem hk] at hc
      simp only [Option.some.injEq] at hc
      rw [← hc, Blank]; omega

theorem rtrim_spec (s : List Nat) : ∃ b, s = rtrim s ++ b ∧ (∀ c ∈ b, Blank c) ∧ ∀ c, (rtrim s).getLast? = some c → ¬ Blank c := by
  have hget : ∀ j (hj : j < s.length), s.getD j 0 = s[j] := fun j hj => by
    rw [List.getD_eq_getElem?_getD, List.getElem?_eq_getElem hj, Option.getD_some]
  rw [rtrim]
  cases h : rtrimFind s s.length with
  | none =>
    refine ⟨s, by simp, ?_, by simp⟩
    intro c hc
    obtain ⟨j, hj, e⟩ := List.mem_iff_getElem.mp hc
    rw [← e, ← hget j hj]; exact rtrimFind_none h j hj
  | some k =>
    obtain ⟨hk, h2, h3⟩ := rtrimFind_some h
    refine ⟨s.drop (k + 1), by simp, ?_, ?_⟩
    · intro c hc
      obtain ⟨j, hj, e⟩ := List.mem_iff_getElem.mp hc
      rw [List.length_drop] at hj
      rw [List.getElem_drop] at e
      rw [← e, ← hget (k + 1 + j) (by omega)]; exact h3 _ (by omega) (by omega)
    · intro c hc
      dsimp only at hc
      rw [List.getLast?_eq_getElem?, List.length_take, Nat.min_eq_left (by omega), Nat.add_sub_cancel,
        List.getElem?_take_of_lt (by omega), List.getElem?_eq_getElem hk] at hc
      simp only [Option.some.injEq] at hc
      rw [hget k hk] at h2
      rw [← hc, Blank]; omega

/-! ## Bits of UTF-8 -/

theorem and63 (x : Nat) : x &&& 0x3F = x % 64 := Nat.and_two_pow_sub_one_eq_mod x 6

theorem or128 (x : Nat) (h : x < 64) : x ||| 0x80 = 0x80 + x := by
  have : ∀ y : Fin 64, y.val ||| 0x80 = 0x80 + y.val := by decide
  exact this ⟨x, h⟩

theorem cont (y : Nat) (h : y < 64) : (0x80 + y) &&& 0xC0 = 0x80 ∧ (0x80 + y) &&& 0x3F = y := by
  have : ∀ y : Fin 64, (0x80 + y.val) &&& 0xC0 = 0x80 ∧ (0x80 + y.val) &&& 0x3F = y.val := by decide
  exact this ⟨y, h⟩

theorem head1 (x : Nat) (h : x < 128) : x &&& 0x80 = 0 := by
  have : ∀ y : Fin 128, y.val &&& 0x80 = 0 := by decide
  exact this ⟨x, h⟩

theorem head2 (x : Nat) (h : x < 32) : ((x &&& 0xFF) ||| 0xC0) &&& 0xFF = 0xC0 + x ∧ (0xC0 + x) &&& 0x80 ≠ 0 ∧
    headerSize (0xC0 + x) = 2 ∧ (0xC0 + x) &&& (255 - 0xE0) = x := by
  have : ∀ y : Fin 32, ((y.val &&& 0xFF) ||| 0xC0) &&& 0xFF = 0xC0 + y.val ∧ (0xC0 + y.val) &&& 0x80 ≠ 0 ∧
    headerSize (0xC0 + y.val) = 2 ∧ (0xC0 + y.val) &&& (255 - 0xE0) = y.val := by decide
  exact this ⟨x, h⟩

theorem head3 (x : Nat) (h : x < 16) : ((x &&& 0xFF) ||| 0xE0) &&& 0xFF = 0xE0 + x ∧ (0xE0 + x) &&& 0x80 ≠ 0 ∧
    headerSize (0xE0 + x) = 3 ∧ (0xE0 + x) &&& (255 - 0xF0) = x := by
  have : ∀ y : Fin 16, ((y.val &&& 0xFF) ||| 0xE0) &&& 0xFF = 0xE0 + y.val ∧ (0xE0 + y.val) &&& 0x80 ≠ 0 ∧
    headerSize (0xE0 + y.val) = 3 ∧ (0xE0 + y.val) &&& (255 - 0xF0) = y.val := by decide
  exact this ⟨x, h⟩

theorem head4 (x : Nat) (h : x < 8) : ((x &&& 0xFF) ||| 0xF0) &&& 0xFF = 0xF0 + x ∧ (0xF0 + x) &&& 0x80 ≠ 0 ∧
    headerSize (0xF0 + x) = 4 ∧ (0xF0 + x) &&& (255 - 0xF8) = x := by
  have : ∀ y : Fin 8, ((y.val &&& 0xFF) ||| 0xF0) &&& 0xFF = 0xF0 + y.val ∧ (0xF0 + y.val) &&& 0x80 ≠ 0 ∧
    headerSize (0xF0 + y.val) = 4 ∧ (0xF0 + y.val) &&& (255 - 0xF8) = y.val := by decide
  exact this ⟨x, h⟩

/-- Joining the pieces: `x` shifted by `k` bits and a number below `2 ^ k`. -/
theorem shl_or (x y k : Nat) (h : y < 2 ^ k) : x <<< k ||| y = x * 2 ^ k + y := by
  rw [← Nat.shiftLeft_add_eq_or_of_lt h, Nat.shiftLeft_eq]

theorem tailByte (r k : Nat) : r >>> k &&& 0x3F ||| 0x80 = 0x80 + r / 2 ^ k % 64 := by
  rw [and63, or128 _ (Nat.mod_lt _ (by omega)), Nat.shiftRight_eq_div_pow]

theorem toStr_append (l : List Nat) (h : ∀ c ∈ l, c ≠ 0) : toStr (l ++ [0]) = l := by
  induction l with
  | nil => rfl
  | cons c cs ih =>
    rw [toStr, List.cons_append, List.takeWhile_cons]
    simp only [h c List.mem_cons_self, ne_eq, not_false_eq_true, decide_true, if_true]
    congr 1
    exact ih (fun d hd => h d (List.mem_cons_of_mem _ hd))

theorem encodeRune_eq (r : Nat) (h : Valid r) : encodeRune r = .ok (utf8 r) := by
  obtain ⟨h0, h1⟩ := h
  have hN : ((r : Int)).toNat = r := rfl
  rw [encodeRune, utf8]
  dsimp only
  rw [hN]
  by_cases c1 : r < 0x80
  · have e : size (r : Int) = 1 := by rw [size, if_pos (by omega)]
    rw [e, if_neg (by omega), if_pos rfl, if_neg (by omega), if_pos c1, toStr]
    simp [show r ≠ 0 by omega]
  · rw [if_neg c1]
    by_cases c2 : r < 0x800
    · have e : size (r : Int) = 2 := by rw [size, if_neg (by omega), if_pos (by omega)]
      have e1 : encodeTail r 1 6 = [0x80 + r % 64] := by
        rw [encodeTail, encodeTail, tailByte]; simp
      rw [e, if_neg (by omega), if_neg (by omega), if_pos c2]
      have h2 := (head2 (r / 64) (by omega)).1
      show Except.ok (toStr ((((r >>> 6 &&& 0xFF) ||| 0xC0) &&& 0xFF) :: (encodeTail r 1 6 ++ [0]))) = _
      rw [e1, Nat.shiftRight_eq_div_pow, h2, ← List.cons_append, toStr_append]
      intro c hc
      simp only [List.mem_cons, List.not_mem_nil, or_false] at hc
      omega
    · rw [if_neg c2]
      by_cases c3 : r < 0x10000
      · have e : size (r : Int) = 3 := by rw [size, if_neg (by omega), if_neg (by omega), if_pos (by omega)]
        have e1 : encodeTail r 2 12 = [0x80 + r / 64 % 64, 0x80 + r % 64] := by
          rw [encodeTail, encodeTail, encodeTail, tailByte, tailByte]; simp
        rw [e, if_neg (by omega), if_neg (by omega), if_pos c3]
        have h2 := (head3 (r / 4096) (by omega)).1
        show Except.ok (toStr ((((r >>> 12 &&& 0xFF) ||| 0xE0) &&& 0xFF) :: (encodeTail r 2 12 ++ [0]))) = _
        rw [e1, Nat.shiftRight_eq_div_pow, h2, ← List.cons_append, toStr_append]
        intro c hc
        simp only [List.mem_cons, List.not_mem_nil, or_false] at hc
        omega
      · rw [if_neg c3]
        have e : size (r : Int) = 4 := by
          rw [size, if_neg (by omega), if_neg (by omega), if_neg (by omega), if_pos (by omega)]
        have e1 : encodeTail r 3 18 = [0x80 + r / 4096 % 64, 0x80 + r / 64 % 64, 0x80 + r % 64] := by
          rw [encodeTail, encodeTail, encodeTail, encodeTail, tailByte, tailByte, tailByte]; simp
        rw [e, if_neg (by omega), if_neg (by omega)]
        have h2 := (head4 (r / 262144) (by omega)).1
        show Except.ok (toStr ((((r >>> 18 &&& 0xFF) ||| 0xF0) &&& 0xFF) :: (encodeTail r 3 18 ++ [0]))) = _
        rw [e1, Nat.shiftRight_eq_div_pow, h2, ← List.cons_append, toStr_append]
        intro c hc
        simp only [List.mem_cons, List.not_mem_nil, or_false] at hc
        omega

theorem decodeTail_step {chars : List Nat} {k pos shift rune y : Nat} (hb : chars[pos]? = some (0x80 + y)) (hy : y < 64) :
    decodeTail chars (k + 1) pos shift rune = decodeTail chars k (pos + 1) (shift - 6) (rune ||| y <<< (shift - 6)) := by
  rw [decodeTail, hb]
  dsimp only
  rw [if_neg (by simp [(cont y hy).1]), (cont y hy).2]

theorem decodeRune_utf8 (pre post : List Nat) (r : Nat) (h : Valid r) :
    decodeRune (pre ++ utf8 r ++ post) pre.length = .ok r := by
  obtain ⟨h0, h1⟩ := h
  have hN : ((pre.length : Nat) : Int).toNat = pre.length := rfl
  have hget : ∀ (l : List Nat) (k : Nat), k < l.length → (pre ++ l ++ post)[pre.length + k]? = l[k]? := by
    intro l k hk
    rw [List.append_assoc, List.getElem?_append_right (by omega), Nat.add_sub_cancel_left, List.getElem?_append_left hk]
  rw [decodeRune, if_neg (by omega), hN]
  have hg0 : ∀ (l : List Nat), 0 < l.length → (pre ++ l ++ post)[pre.length]? = l[0]? := fun l hl => hget l 0 hl
  rw [utf8]
  by_cases c1 : r < 0x80
  · rw [if_pos c1, hg0 _ (by simp)]
    simp only [List.getElem?_cons_zero]
    rw [if_pos (head1 r c1)]
  · rw [if_neg c1]
    by_cases c2 : r < 0x800
    · rw [if_pos c2, hg0 _ (by simp)]
      simp only [List.getElem?_cons_zero]
      obtain ⟨_, b1, b2, b3⟩ := head2 (r / 64) (by omega)
      rw [if_neg b1, b2, if_neg (by omega)]
      show Except.ok (decodeTail _ 1 (pre.length + 1) 6 (((0xC0 + r / 64) &&& (255 - 0xE0)) <<< 6)) = _
      rw [b3, decodeTail_step (y := r % 64) (by rw [hget _ 1 (by simp)]; simp) (by omega), decodeTail]
      rw [show 6 - 6 = 0 from rfl, Nat.shiftLeft_zero, shl_or _ _ _ (by omega)]
      congr 1
      omega
    · rw [if_neg c2]
      by_cases c3 : r < 0x10000
      · rw [if_pos c3, hg0 _ (by simp)]
        simp only [List.getElem?_cons_zero]
        obtain ⟨_, b1, b2, b3⟩ := head3 (r / 4096) (by omega)
        rw [if_neg b1, b2, if_neg (by omega)]
        show Except.ok (decodeTail _ 2 (pre.length + 1) 12 (((0xE0 + r / 4096) &&& (255 - 0xF0)) <<< 12)) = _
        rw [b3, decodeTail_step (y := r / 64 % 64) (by rw [hget _ 1 (by simp)]; simp) (by omega),
          decodeTail_step (y := r % 64) (by rw [hget _ 2 (by simp)]; simp) (by omega), decodeTail]
        rw [show 12 - 6 = 6 from rfl, show 6 - 6 = 0 from rfl, Nat.shiftLeft_zero, Nat.or_assoc, shl_or _ _ 6 (by omega),
          shl_or _ _ 12 (by omega)]
        congr 1
        omega
      · rw [if_neg c3, hg0 _ (by simp)]
        simp only [List.getElem?_cons_zero]
        obtain ⟨_, b1, b2, b3⟩ := head4 (r / 262144) (by omega)
        rw [if_neg b1, b2, if_neg (by omega)]
        show Except.ok (decodeTail _ 3 (pre.length + 1) 18 (((0xF0 + r / 262144) &&& (255 - 0xF8)) <<< 18)) = _
        rw [b3, decodeTail_step (y := r / 4096 % 64) (by rw [hget _ 1 (by simp)]; simp) (by omega),
          decodeTail_step (y := r / 64 % 64) (by rw [hget _ 2 (by simp)]; simp) (by omega),
          decodeTail_step (y := r % 64) (by rw [hget _ 3 (by simp)]; simp) (by omega), decodeTail]
        rw [show 18 - 6 = 12 from rfl, show 12 - 6 = 6 from rfl, show 6 - 6 = 0 from rfl, Nat.shiftLeft_zero, Nat.or_assoc,
          shl_or _ _ 6 (by omega), Nat.or_assoc, shl_or _ _ 12 (by omega), shl_or _ _ 18 (by omega)]
        congr 1
        omega

theorem utf8_length (r : Nat) (h : Valid r) : ((utf8 r).length : Int) = size r := by
  obtain ⟨h0, h1⟩ := h
  rw [utf8, size]
  repeat' split
  all_goals first | rfl | omega

/-! ## Decoding -/

theorem encode_eq (rs : List Nat) (h : ∀ r ∈ rs, Valid r) : encode (rs.map Int.ofNat) = .ok (rs.flatMap utf8) := by
  induction rs with
  | nil => rfl
  | cons r rs ih =>
    have h1 : encodeRune (Int.ofNat r) = .ok (utf8 r) := encodeRune_eq r (h r List.mem_cons_self)
    rw [List.map_cons, encode, h1, ih (fun r hr => h r (List.mem_cons_of_mem _ hr))]
    rfl

theorem utf8_pos (r : Nat) : 0 < (utf8 r).length := by
  rw [utf8]
  repeat' split
  all_goals simp

theorem decodeLoop_post (post : List Nat) (hp : ∀ pre : List Nat, post ≠ [] ∧ decodeRune (pre ++ post) pre.length = .ok errRune) (rs : List Nat) :
    ∀ (pre : List Nat) (acc : List Int) (n : Nat), (∀ r ∈ rs, Valid r ∧ r ≠ 0xFFFD) → (rs.flatMap utf8).length < n →
    decodeLoop (pre ++ (rs.flatMap utf8 ++ post)) n pre.length acc = some (.ok (acc ++ rs.map Int.ofNat)) := by
  induction rs with
  | nil =>
    intro pre acc n _ hn
    cases n with
    | zero => simp at hn
    | succ n =>
      have h1 : 0 < post.length := List.length_pos_iff.mpr (hp []).1
      rw [List.flatMap_nil, List.nil_append, decodeLoop, if_pos (by simp only [List.length_append]; omega), (hp pre).2]
      simp
  | cons r rs ih =>
    intro pre acc n h hn
    cases n with
    | zero => omega
    | succ n =>
      obtain ⟨hv, hne⟩ := h r List.mem_cons_self
      have hp := utf8_pos r
      rw [List.flatMap_cons, List.length_append] at hn
      rw [decodeLoop, if_pos (by rw [List.flatMap_cons]; simp only [List.length_append]; omega), List.flatMap_cons,
        List.append_assoc, ← List.append_assoc, decodeRune_utf8 pre _ r hv]
      dsimp only
      rw [if_neg (by rw [errRune]; omega), ← utf8_length r hv]
      have e : (pre.length : Int) + ((utf8 r).length : Int) = ((pre ++ utf8 r).length : Int) := by
        rw [List.length_append]; omega
      rw [e, ih (pre ++ utf8 r) (acc ++ [(r : Int)]) n (fun r hr => h r (List.mem_cons_of_mem _ hr)) (by omega)]
      simp

theorem headerSize_eq (h : Nat) (hh : h < 256) : (h &&& 0x80 = 0 → announced h = 1) ∧ (h &&& 0x80 ≠ 0 → headerSize h = announced h) := by
  have : ∀ h : Fin 256, (h.val &&& 0x80 = 0 → announced h = 1) ∧ (h.val &&& 0x80 ≠ 0 → headerSize h = announced h) := by decide +kernel
  exact this ⟨h, hh⟩

theorem cont_bad (b : Nat) (hb : b < 256) (h : b < 0x80 ∨ 0xC0 ≤ b) : b &&& 0xC0 ≠ 0x80 := by
  have : ∀ b : Fin 256, (b.val < 0x80 ∨ 0xC0 ≤ b.val) → b.val &&& 0xC0 ≠ 0x80 := by decide +kernel
  exact this ⟨b, hb⟩ h

theorem decodeTail_bad {chars : List Nat} (k : Nat) : ∀ (pos shift rune j : Nat), j < k →
    (∀ b, chars[pos + j]? = some b → b < 256 ∧ (b < 0x80 ∨ 0xC0 ≤ b)) → decodeTail chars k pos shift rune = errRune := by
  induction k with
  | zero => intro pos shift rune j hj; omega
  | succ k ih =>
    intro pos shift rune j hj hb
    rw [decodeTail]
    cases hc : chars[pos]? with
    | none => rfl
    | some b =>
      dsimp only
      split
      · rfl
      · rename_i hok
        cases j with
        | zero => exact absurd (cont_bad b (hb b hc).1 (hb b hc).2) hok
        | succ j => exact ih _ _ _ j (by omega) (by rw [show pos + 1 + j = pos + (j + 1) from by omega]; exact hb)

theorem decodeRune_bad {t : List Nat} (ht : BadStart t) (pre : List Nat) : decodeRune (pre ++ t) pre.length = .ok errRune := by
  obtain ⟨h, rest, e, hh, hbad⟩ := ht
  have hN : ((pre.length : Nat) : Int).toNat = pre.length := rfl
  rw [decodeRune, if_neg (by omega), hN, e, List.getElem?_append_right (by omega), Nat.sub_self, List.getElem?_cons_zero]
  dsimp only
  obtain ⟨h1, h2⟩ := headerSize_eq h hh
  by_cases ha : h &&& 0x80 = 0
  · have := h1 ha
    rcases hbad with hb | ⟨j, hj, _⟩ <;> omega
  · rw [if_neg ha, h2 ha]
    split
    · rfl
    · rename_i hne
      rcases hbad with hb | ⟨j, hj, hb⟩
      · exact absurd hb hne
      · congr 1
        apply decodeTail_bad (announced h - 1) _ _ _ j (by omega)
        intro b hb'
        apply hb b
        rw [List.getElem?_append_right (by omega), show pre.length + 1 + j - pre.length = j + 1 from by omega, List.getElem?_cons_succ] at hb'
        exact hb'

theorem decodeLoop_utf8 (rs : List Nat) : ∀ (pre : List Nat) (acc : List Int) (n : Nat), (∀ r ∈ rs, Valid r ∧ r ≠ 0xFFFD) →
    (rs.flatMap utf8).length < n →
    decodeLoop (pre ++ rs.flatMap utf8) n pre.length acc = some (.ok (acc ++ rs.map Int.ofNat)) := by
  induction rs with
  | nil =>
    intro pre acc n _ hn
    cases n with
    | zero => simp at hn
    | succ n => rw [decodeLoop]; simp
  | cons r rs ih =>
    intro pre acc n h hn
    cases n with
    | zero => omega
    | succ n =>
      obtain ⟨hv, hne⟩ := h r List.mem_cons_self
      have hp := utf8_pos r
      rw [List.flatMap_cons, List.length_append] at hn
      rw [decodeLoop, if_pos (by rw [List.flatMap_cons]; simp only [List.length_append]; omega), List.flatMap_cons,
        ← List.append_assoc, decodeRune_utf8 pre _ r hv]
      dsimp only
      rw [if_neg (by rw [errRune]; omega), ← utf8_length r hv]
      have e : (pre.length : Int) + ((utf8 r).length : Int) = ((pre ++ utf8 r).length : Int) := by
        rw [List.length_append]; omega
      rw [e, ih (pre ++ utf8 r) (acc ++ [(r : Int)]) n (fun r hr => h r (List.mem_cons_of_mem _ hr)) (by omega)]
      simp

theorem countLoop_eq (chars : List Nat) (n : Nat) : ∀ (pos : Int) (runes : List Int),
    countLoop chars n pos runes.length = (decodeLoop chars n pos runes).map (fun r => r.map List.length) := by
  induction n with
  | zero => intro pos runes; rfl
  | succ n ih =>
    intro pos runes
    rw [countLoop, decodeLoop]
    split
    · cases decodeRune chars pos with
      | error e => rfl
      | ok rune =>
        dsimp only
        split
        · rfl
        · rw [← ih, List.length_append]; rfl
    · rfl

theorem and_lt (x k : Nat) (h : x &&& 0x3F = k) : k < 64 := by
  rw [and63] at h; omega

theorem decodeTail_bound (chars : List Nat) (k : Nat) : ∀ (pos m : Nat),
    decodeTail chars k pos (6 * k) (m * 2 ^ (6 * k)) = errRune ∨
    decodeTail chars k pos (6 * k) (m * 2 ^ (6 * k)) < ((m + 1) * 2 ^ (6 * k) : Nat) := by
  induction k with
  | zero => intro pos m; right; rw [decodeTail]; simp only [Nat.mul_zero, Nat.pow_zero]; omega
  | succ k ih =>
    intro pos m
    rw [decodeTail]
    cases hb : chars[pos]? with
    | none => exact Or.inl rfl
    | some byte =>
      dsimp only
      split
      · exact Or.inl rfl
      · generalize hy : byte &&& 0x3F = y
        have hy' := and_lt byte y hy
        have e : m * 2 ^ (6 * (k + 1)) ||| y <<< (6 * (k + 1) - 6) = (m * 64 + y) * 2 ^ (6 * k) := by
          show _ = (m * 2 ^ 6 + y) * 2 ^ (6 * k)
          rw [show 6 * (k + 1) - 6 = 6 * k by omega, show 6 * (k + 1) = 6 + 6 * k by omega, Nat.pow_add, ← Nat.mul_assoc,
            ← Nat.shiftLeft_eq _ (6 * k), ← Nat.shiftLeft_or_distrib, ← Nat.shiftLeft_eq m 6, shl_or _ _ _ (by omega),
            Nat.shiftLeft_eq, ← Nat.shiftLeft_eq m 6]
        rw [e, show 6 * (k + 1) - 6 = 6 * k by omega]
        rcases ih (pos + 1) (m * 64 + y) with h | h
        · exact Or.inl h
        · right
          have : (m * 64 + y + 1) * 2 ^ (6 * k) ≤ (m + 1) * 2 ^ (6 * (k + 1)) := by
            rw [show 6 * (k + 1) = 6 + 6 * k by omega, Nat.pow_add, ← Nat.mul_assoc]
            exact Nat.mul_le_mul_right _ (by omega)
          omega

/-- No byte pattern beyond the last Unicode character: a byte from F5 on, or F4 followed by a byte from 90 on. -/
def NoBig (s : List Nat) : Prop :=
  ∀ (k c : Nat), s[k]? = some c → c < 0xF5 ∧ (c = 0xF4 → ∀ d, s[k + 1]? = some d → d < 0x90)

theorem header_cases (h : Nat) (hh : h < 256) :
    (headerSize h = 0 ∨ headerSize h = 2 ∨ headerSize h = 3 ∨ headerSize h = 4) ∧
    h &&& (255 - 0xE0) < 32 ∧ h &&& (255 - 0xF0) < 16 ∧ (headerSize h = 4 → h = 0xF0 + (h &&& (255 - 0xF8))) := by
  have : ∀ h : Fin 256, (headerSize h = 0 ∨ headerSize h = 2 ∨ headerSize h = 3 ∨ headerSize h = 4) ∧
    h.val &&& (255 - 0xE0) < 32 ∧ h.val &&& (255 - 0xF0) < 16 ∧ (headerSize h = 4 → h.val = 0xF0 + (h.val &&& (255 - 0xF8))) := by
    decide +kernel
  exact this ⟨h, hh⟩

theorem decodeRune_bound {chars : List Nat} (hb : NoBig chars) (pos : Nat) (hp : pos < chars.length) :
    ∃ r, decodeRune chars pos = .ok r ∧ r ≤ 0x10FFFF := by
  have hN : ((pos : Nat) : Int).toNat = pos := rfl
  rw [decodeRune, if_neg (by omega), hN]
  cases hc : chars[pos]? with
  | none => rw [List.getElem?_eq_getElem hp] at hc; cases hc
  | some header =>
    obtain ⟨b1, b2⟩ := hb pos header hc
    dsimp only
    split
    · exact ⟨_, rfl, by omega⟩
    · obtain ⟨h1, h2, h3, h4⟩ := header_cases header (by omega)
      split
      · exact ⟨_, rfl, by rw [errRune]; omega⟩
      · refine ⟨_, rfl, ?_⟩
        rcases h1 with h1 | h1 | h1 | h1
        · contradiction
        · rw [h1]
          show decodeTail chars 1 (pos + 1) (6 * 1) ((header &&& (255 - 0xE0)) <<< (6 * 1)) ≤ _
          rw [Nat.shiftLeft_eq]
          rcases decodeTail_bound chars 1 (pos + 1) (header &&& (255 - 0xE0)) with h | h
          · rw [h, errRune]; omega
          · omega
        · rw [h1]
          show decodeTail chars 2 (pos + 1) (6 * 2) ((header &&& (255 - 0xF0)) <<< (6 * 2)) ≤ _
          rw [Nat.shiftLeft_eq]
          rcases decodeTail_bound chars 2 (pos + 1) (header &&& (255 - 0xF0)) with h | h
          · rw [h, errRune]; omega
          · omega
        · have h5 := h4 h1
          rw [h1]
          show decodeTail chars 3 (pos + 1) (6 * 3) ((header &&& (255 - 0xF8)) <<< (6 * 3)) ≤ _
          rw [Nat.shiftLeft_eq]
          by_cases h6 : header &&& (255 - 0xF8) = 4
          · rw [h6, decodeTail]
            cases hd : chars[pos + 1]? with
            | none => dsimp only; rw [errRune]; omega
            | some byte =>
              dsimp only
              split
              · rw [errRune]; omega
              · rename_i hcont
                have hlt := b2 (by omega) byte hd
                have hy : byte &&& 0x3F < 16 := by
                  have : ∀ b : Fin 0x90, b.val &&& 0xC0 = 0x80 → b.val &&& 0x3F < 16 := by decide +kernel
                  exact this ⟨byte, hlt⟩ (by simpa using hcont)
                generalize byte &&& 0x3F = y at hy
                have e : 4 * 2 ^ (6 * 3) ||| y <<< (6 * 3 - 6) = (4 * 64 + y) * 2 ^ (6 * 2) := by
                  rw [show 6 * 3 - 6 = 6 * 2 by omega, show 4 * 2 ^ (6 * 3) = (4 <<< 6) <<< (6 * 2) by decide,
                    ← Nat.shiftLeft_or_distrib, shl_or _ _ _ (by omega), Nat.shiftLeft_eq]
                rw [e]
                rcases decodeTail_bound chars 2 (pos + 1 + 1) (4 * 64 + y) with h | h
                · rw [show 6 * 3 - 6 = 6 * 2 by omega, h, errRune]; omega
                · rw [show 6 * 3 - 6 = 6 * 2 by omega]; omega
          · rcases decodeTail_bound chars 3 (pos + 1) (header &&& (255 - 0xF8)) with h | h
            · rw [h, errRune]; omega
            · have : header &&& (255 - 0xF8) ≤ 3 := by omega
              generalize header &&& (255 - 0xF8) = x at *
              omega

theorem decodeLoop_terminates {chars : List Nat} (hb : NoBig chars) (n : Nat) : ∀ (pos : Nat) (runes : List Int),
    0 < n → chars.length < pos + n → ∃ r, ∀ m, n ≤ m → decodeLoop chars m pos runes = some (.ok r) := by
  induction n with
  | zero =>
    intro pos runes h0
    omega
  | succ n ih =>
    intro pos runes _ hl
    by_cases hp : pos < chars.length
    · obtain ⟨r, h1, h2⟩ := decodeRune_bound hb pos hp
      by_cases he : r = errRune
      · refine ⟨runes, ?_⟩
        intro m hm
        cases m with
        | zero => omega
        | succ m => rw [decodeLoop, if_pos (by omega), h1]; dsimp only; rw [if_pos he]
      · have hs : ∃ k : Nat, size r = k ∧ 0 < k := by
          rw [size]
          split
          · exact ⟨1, rfl, by omega⟩
          · split
            · exact ⟨2, rfl, by omega⟩
            · split
              · exact ⟨3, rfl, by omega⟩
              · exact ⟨4, rfl, by omega⟩
        obtain ⟨k, hk, hk0⟩ := hs
        obtain ⟨res, hres⟩ := ih (pos + k) (runes ++ [r]) (by omega) (by omega)
        refine ⟨res, ?_⟩
        intro m hm
        cases m with
        | zero => omega
        | succ m =>
          rw [decodeLoop, if_pos (by omega), h1]
          dsimp only
          rw [if_neg he, hk]
          exact hres m (by omega)
    · refine ⟨runes, ?_⟩
      intro m hm
      cases m with
      | zero => omega
      | succ m => rw [decodeLoop, if_neg (by omega)]

/-! ## Functional tools -/

theorem transformLoop_ok {σ α β : Type} {arr : σ → List α} {f : α → σ → β × σ} (hf : ∀ x w, arr (f x w).2 = arr w) (xs : List α) :
    ∀ (pre : List α) (res : List β) (w : σ) (n : Nat), arr w = pre ++ xs → res.length = (arr w).length → xs.length < n →
    transformLoop arr f n pre.length res w =
      some (.ok (res.take pre.length ++ (mapInOrder f xs w).1, (mapInOrder f xs w).2)) := by
  induction xs with
  | nil =>
    intro pre res w n ha hr hn
    cases n with
    | zero => simp at hn
    | succ n =>
      rw [List.append_nil] at ha
      rw [transformLoop, ha, List.getElem?_eq_none (by omega)]
      simp [mapInOrder, List.take_of_length_le (show res.length ≤ pre.length by rw [hr, ha]; omega)]
  | cons x xs ih =>
    intro pre res w n ha hr hn
    cases n with
    | zero => omega
    | succ n =>
      have hlt : pre.length < res.length := by rw [hr, ha]; simp
      rw [transformLoop, ha, List.getElem?_append_right (by omega), Nat.sub_self]
      simp only [List.getElem?_cons_zero]
      rw [if_pos hlt]
      have := ih (pre ++ [x]) (res.set pre.length (f x w).1) (f x w).2 n (by rw [hf, ha]; simp) (by rw [hf, List.length_set, hr])
        (by simp at hn; omega)
      rw [List.length_append, List.length_singleton] at this
      rw [this, mapInOrder]
      congr 3
      rw [List.take_add_one, List.take_set_of_le (Nat.le_refl _), List.getElem?_set_self hlt]
      simp

theorem filterLoop_ok {σ α : Type} {arr : σ → List α} {f : α → σ → Bool × σ} (hf : ∀ x w, arr (f x w).2 = arr w) (xs : List α) :
    ∀ (pre res : List α) (w : σ) (n : Nat), arr w = pre ++ xs → xs.length < n →
    filterLoop arr f n pre.length res w = some (.ok (res ++ (filterInOrder f xs w).1, (filterInOrder f xs w).2)) := by
  induction xs with
  | nil =>
    intro pre res w n ha hn
    cases n with
    | zero => simp at hn
    | succ n =>
      rw [List.append_nil] at ha
      rw [filterLoop, ha, List.getElem?_eq_none (by omega)]
      simp [filterInOrder]
  | cons x xs ih =>
    intro pre res w n ha hn
    cases n with
    | zero => omega
    | succ n =>
      have hx : (pre ++ x :: xs)[pre.length]? = some x := by
        rw [List.getElem?_append_right (by omega), Nat.sub_self]; rfl
      rw [filterLoop, ha, hx]
      dsimp only
      rw [hf, ha, hx]
      dsimp only
      have := fun res => ih (pre ++ [x]) res (f x w).2 n (by rw [hf, ha]; simp) (by simp at hn; omega)
      simp only [List.length_append, List.length_singleton] at this
      rw [filterInOrder]
      cases (f x w).1 with
      | true => simp [this]
      | false => simp [this]

theorem reduceLoop_ok {σ α : Type} {arr : σ → List α} {f : α → α → σ → α × σ} (hf : ∀ x y w, arr (f x y w).2 = arr w) (xs : List α) :
    ∀ (pre : List α) (a : α) (w : σ) (n : Nat), arr w = pre ++ xs → xs.length < n →
    reduceLoop arr f n pre.length a w = some (.ok (foldInOrder f a xs w)) := by
  induction xs with
  | nil =>
    intro pre a w n ha hn
    cases n with
    | zero => simp at hn
    | succ n =>
      rw [List.append_nil] at ha
      rw [reduceLoop, ha, List.getElem?_eq_none (by omega)]
      simp [foldInOrder]
  | cons x xs ih =>
    intro pre a w n ha hn
    cases n with
    | zero => omega
    | succ n =>
      rw [reduceLoop, ha, List.getElem?_append_right (by omega), Nat.sub_self]
      simp only [List.getElem?_cons_zero]
      have := ih (pre ++ [x]) (f a x w).1 (f a x w).2 n (by rw [hf, ha]; simp) (by simp at hn; omega)
      simp only [List.length_append, List.length_singleton] at this
      rw [this, foldInOrder]

end Umka.Lib
