import Verif.Scanf.Spec
import Verif.Printf.Scan

/-! # Scanf: numbers and words -/

namespace Umka.Scanf

open Umka.Printf (Kind Size nul takeWhile_append_stop)
open Umka.Printf.Spec (Directive Piece Want want InBits)
open Umka.Arith (Mem writeBytes)
open Spec

/-! ## Blanks -/

theorem isSpace_iff (c : Char) : isSpace c = true ↔ c ∈ blanks := by
  constructor
  · intro h
    unfold isSpace at h
    simp only [Bool.or_eq_true, Bool.and_eq_true, beq_iff_eq, decide_eq_true_eq] at h
    rcases h with h | ⟨h1, h2⟩
    · subst h; decide
    · have hc : c = Char.ofNat c.toNat := (Char.ofNat_toNat c).symm
      have : c.toNat = 9 ∨ c.toNat = 10 ∨ c.toNat = 11 ∨ c.toNat = 12 ∨ c.toNat = 13 := by omega
      rcases this with h | h | h | h | h <;> rw [h] at hc <;> rw [hc] <;> decide
  · intro h
    simp only [blanks, List.mem_cons, List.not_mem_nil, or_false] at h
    rcases h with h | h | h | h | h | h <;> subst h <;> decide

theorem isSpace_false {c : Char} (h : c ∉ blanks) : isSpace c = false := by
  cases hc : isSpace c with
  | false => rfl
  | true => exact absurd ((isSpace_iff c).mp hc) h

theorem blank_split {sp text : List Char} (h1 : Blank sp) (h2 : NotBlank text) :
    (sp ++ text).takeWhile isSpace = sp ∧ (sp ++ text).dropWhile isSpace = text :=
  takeWhile_append_stop (fun c hc => (isSpace_iff c).mpr (h1 c hc)) (fun c hc => isSpace_false (h2 c hc))

/-! ## Digits -/

theorem isDigit_val {base d : Nat} {c : Char} (hb : base ≤ 16) (h : IsDigit base c d) : digitVal c = d ∧ digitVal c < base := by
  obtain ⟨h1, h2⟩ := h
  have hd : d < 16 := by omega
  have key : ∀ d, d < 16 → ∀ c, (lower[d]? = some c ∨ upper[d]? = some c) → digitVal c = d := by
    intro d hd c hc
    have : d = 0 ∨ d = 1 ∨ d = 2 ∨ d = 3 ∨ d = 4 ∨ d = 5 ∨ d = 6 ∨ d = 7 ∨ d = 8 ∨ d = 9 ∨ d = 10 ∨ d = 11 ∨ d = 12 ∨ d = 13 ∨ d = 14 ∨ d = 15 := by
      omega
    rcases this with h | h | h | h | h | h | h | h | h | h | h | h | h | h | h | h <;> subst h <;>
      (rcases hc with hc | hc <;> (injection hc with hc; subst hc; decide))
  have := key d hd c h2
  exact ⟨this, by omega⟩

theorem val_isDigit {base : Nat} {c : Char} (hb : base ≤ 16) (h : digitVal c < base) : IsDigit base c (digitVal c) := by
  refine ⟨h, ?_⟩
  have hc : c = Char.ofNat c.toNat := (Char.ofNat_toNat c).symm
  unfold digitVal at h ⊢
  generalize c.toNat = n at h hc ⊢
  subst hc
  split
  · have : n = 48 ∨ n = 49 ∨ n = 50 ∨ n = 51 ∨ n = 52 ∨ n = 53 ∨ n = 54 ∨ n = 55 ∨ n = 56 ∨ n = 57 := by omega
    rcases this with h | h | h | h | h | h | h | h | h | h <;> subst h <;> decide
  · split
    · have : n = 97 ∨ n = 98 ∨ n = 99 ∨ n = 100 ∨ n = 101 ∨ n = 102 := by omega
      rcases this with h | h | h | h | h | h <;> subst h <;> decide
    · split
      · have : n = 65 ∨ n = 66 ∨ n = 67 ∨ n = 68 ∨ n = 69 ∨ n = 70 := by omega
        rcases this with h | h | h | h | h | h <;> subst h <;> decide
      · rename_i h1 h2 h3
        rw [if_neg h1, if_neg h2, if_neg h3] at h
        omega

theorem not_isDigit {base : Nat} {c : Char} (hb : base ≤ 16) (h : ∀ k, ¬ IsDigit base c k) : base ≤ digitVal c := by
  by_cases hc : digitVal c < base
  · exact absurd (val_isDigit hb hc) (h _)
  · omega

theorem numeral_append (b : Nat) (s : List Char) (c : Char) : ∀ n, numeral b n (s ++ [c]) = b * numeral b n s + digitVal c := by
  induction s with
  | nil => intro n; rfl
  | cons x s ih => intro n; exact ih _

theorem digits_numeral {base : Nat} (hb : base ≤ 16) {s : List Char} {n : Nat} (h : Digits base s n) :
    s ≠ [] ∧ (∀ c ∈ s, digitVal c < base) ∧ numeral base 0 s = n := by
  induction h with
  | one hd =>
    obtain ⟨h1, h2⟩ := isDigit_val hb hd
    refine ⟨by simp, ?_, ?_⟩
    · intro x hx; rw [List.mem_singleton] at hx; subst hx; exact h2
    · simp only [numeral]; omega
  | more _ hd ih =>
    obtain ⟨_, ih2, ih3⟩ := ih
    obtain ⟨h1, h2⟩ := isDigit_val hb hd
    refine ⟨by simp, ?_, ?_⟩
    · intro x hx
      rcases List.mem_append.mp hx with hx | hx
      · exact ih2 x hx
      · rw [List.mem_singleton] at hx; subst hx; exact h2
    · rw [numeral_append, ih3, h1]

theorem digits_exists {base : Nat} (hb : base ≤ 16) (s : List Char) (hs : s ≠ []) (h : ∀ c ∈ s, digitVal c < base) :
    Digits base s (numeral base 0 s) := by
  generalize hk : s.length = k
  induction k generalizing s with
  | zero => exact absurd (List.length_eq_zero_iff.mp hk) hs
  | succ k ih =>
    have hl := List.dropLast_concat_getLast hs
    have hc : digitVal (s.getLast hs) < base := h _ (List.getLast_mem hs)
    generalize s.getLast hs = c at hl hc
    by_cases hd : s.dropLast = []
    · rw [hd, List.nil_append] at hl
      subst hl
      have := Digits.one (val_isDigit hb hc)
      simpa only [numeral, Nat.mul_zero, Nat.zero_add] using this
    · have hi := ih s.dropLast hd (fun x hx => h x (List.dropLast_subset s hx)) (by rw [List.length_dropLast]; omega)
      rw [← hl, numeral_append]
      exact Digits.more hi (val_isDigit hb hc)

theorem numeral_ge {b : Nat} (hb : 1 ≤ b) (s : List Char) : ∀ n, n ≤ numeral b n s := by
  induction s with
  | nil => intro n; exact Nat.le_refl _
  | cons c s ih =>
    intro n
    have := ih (b * n + digitVal c)
    have h2 : n ≤ b * n := Nat.le_mul_of_pos_left n hb
    rw [numeral]
    omega

/-! ## Numbers -/

/-- The base of a conversion. -/
def radix (conv : Char) : Option Nat := if conv = 'd' ∨ conv = 'u' then some 10 else if conv = 'i' then none else some 16

/-- The number ends here. -/
def Stop (conv : Char) (rest : List Char) : Prop :=
  ∀ c, rest.head? = some c → 10 ≤ digitVal c ∧ (conv ∉ ['d', 'u'] → 16 ≤ digitVal c ∧ c ≠ 'x' ∧ c ≠ 'X')

theorem takeDigits {base : Nat} {ds rest : List Char} (h : ∀ c ∈ ds, digitVal c < base) (hr : ∀ c, rest.head? = some c → base ≤ digitVal c) :
    (ds ++ rest).takeWhile (fun c => decide (digitVal c < base)) = ds :=
  (takeWhile_append_stop (fun c hc => decide_eq_true (h c hc)) (fun c hc => decide_eq_false (by have := hr c hc; omega))).1

/-- No prefix in front of digits. -/
theorem hexPrefix_none {c : Char} {s rest : List Char} (hs : ∀ x ∈ c :: s, digitVal x < 16)
    (hr : ∀ x, rest.head? = some x → x ≠ 'x' ∧ x ≠ 'X') : hexPrefix (c :: (s ++ rest)) = none := by
  have key : ∀ y, (s ++ rest).head? = some y → y ≠ 'x' ∧ y ≠ 'X' := by
    intro y hy
    cases s with
    | nil => exact hr y hy
    | cons z s =>
      injection hy with hy
      subst hy
      have := hs z (by simp)
      constructor <;> intro e <;> rw [e] at this <;> revert this <;> decide
  rw [hexPrefix.eq_def]
  split
  · rename_i h
    injection h with _ h
    rw [h] at key
    exact absurd rfl (key _ rfl).1
  · rename_i h
    injection h with _ h
    rw [h] at key
    exact absurd rfl (key _ rfl).2
  · rfl

theorem unsigned_parse {conv : Char} {t rest : List Char} {n : Nat} (h : Unsigned conv t n) (hs : Stop conv rest) :
    cDigits (cBase (radix conv) (t ++ rest)) ≠ [] ∧
    (cBase (radix conv) (t ++ rest)).2.2 + (cDigits (cBase (radix conv) (t ++ rest))).length = t.length ∧
    numeral (cBase (radix conv) (t ++ rest)).1 0 (cDigits (cBase (radix conv) (t ++ rest))) = n := by
  have fin : ∀ {b : Nat} {ds : List Char} {k : Nat}, b ≤ 16 → Digits b ds n → (∀ c, rest.head? = some c → b ≤ digitVal c) →
      cBase (radix conv) (t ++ rest) = (b, ds ++ rest, k) → t.length = k + ds.length →
      cDigits (cBase (radix conv) (t ++ rest)) ≠ [] ∧
      (cBase (radix conv) (t ++ rest)).2.2 + (cDigits (cBase (radix conv) (t ++ rest))).length = t.length ∧
      numeral (cBase (radix conv) (t ++ rest)).1 0 (cDigits (cBase (radix conv) (t ++ rest))) = n := by
    intro b ds k hb hd hr e hl
    obtain ⟨d1, d2, d3⟩ := digits_numeral hb hd
    rw [e]
    dsimp only [cDigits]
    rw [takeDigits d2 hr]
    exact ⟨d1, by omega, d3⟩
  cases h with
  | decimal hc hd =>
    have hr : radix conv = some 10 := by
      simp only [List.mem_cons, List.not_mem_nil, or_false] at hc
      rw [radix, if_pos hc]
    exact fin (k := 0) (by decide) hd (fun c hc => (hs c hc).1) (by rw [hr, cBase, if_pos rfl]) (by omega)
  | hex hc hd =>
    have hx : conv ∉ ['d', 'u'] ∧ radix conv = some 16 := by
      simp only [List.mem_cons, List.not_mem_nil, or_false] at hc
      rcases hc with hc | hc <;> subst hc <;> decide
    obtain ⟨d1, d2, d3⟩ := digits_numeral (by decide) hd
    obtain ⟨c, s, rfl⟩ := List.exists_cons_of_ne_nil d1
    have hp := hexPrefix_none d2 (fun x hx' => ((hs x hx').2 hx.1).2)
    refine fin (k := 0) (by decide) hd (fun c hc => ((hs c hc).2 hx.1).1) ?_ (by omega)
    rw [hx.2, cBase, if_neg (by decide), List.cons_append, hp]
    rfl
  | prefixed hc hx hd =>
    have hv : conv ∉ ['d', 'u'] ∧ radix conv ≠ some 10 := by
      simp only [List.mem_cons, List.not_mem_nil, or_false] at hc
      rcases hc with hc | hc | hc <;> subst hc <;> decide
    refine fin (k := 2) (by decide) hd (fun c hc => ((hs c hc).2 hv.1).1) ?_ (by simp; omega)
    simp only [List.mem_cons, List.not_mem_nil, or_false] at hx
    rw [cBase, if_neg hv.2]
    rcases hx with rfl | rfl <;> rfl
  | octal hd =>
    obtain ⟨d1, d2, d3⟩ := digits_numeral (by decide) hd
    have hp := hexPrefix_none (fun x hx => Nat.lt_trans (d2 x hx) (by decide)) (fun x hx' => ((hs x hx').2 (by decide)).2)
    refine fin (k := 0) (by decide) hd (fun c hc => Nat.le_trans (by decide) ((hs c hc).2 (by decide)).1) ?_ (by omega)
    have hr : radix 'i' = none := by decide
    rw [hr, cBase, if_neg (by decide), List.cons_append, hp]
    rfl
  | auto h0 hd =>
    obtain ⟨d1, d2, d3⟩ := digits_numeral (by decide) hd
    obtain ⟨c, s, rfl⟩ := List.exists_cons_of_ne_nil d1
    have hp := hexPrefix_none (fun x hx => Nat.lt_trans (d2 x hx) (by decide)) (fun x hx' => ((hs x hx').2 (by decide)).2)
    refine fin (k := 0) (by decide) hd (fun c hc => (hs c hc).1) ?_ (by omega)
    have hr : radix 'i' = none := by decide
    rw [hr, cBase, if_neg (by decide), List.cons_append, hp]
    dsimp only [Option.getD_none]
    rw [if_neg (by simpa using h0)]

theorem unsigned_head {conv : Char} {t : List Char} {n : Nat} (h : Unsigned conv t n) : ∃ c s, t = c :: s ∧ digitVal c < 16 := by
  have key : ∀ {b : Nat}, b ≤ 16 → Digits b t n → ∃ c s, t = c :: s ∧ digitVal c < 16 := by
    intro b hb hd
    obtain ⟨d1, d2, d3⟩ := digits_numeral hb hd
    obtain ⟨c, s, rfl⟩ := List.exists_cons_of_ne_nil d1
    exact ⟨c, s, rfl, Nat.lt_of_lt_of_le (d2 c (by simp)) hb⟩
  cases h with
  | decimal _ hd => exact key (by decide) hd
  | hex _ hd => exact key (by decide) hd
  | prefixed _ _ _ => exact ⟨_, _, rfl, by decide⟩
  | octal hd => exact ⟨_, _, rfl, by decide⟩
  | auto _ hd => exact key (by decide) hd

theorem number_parse {conv : Char} {t rest : List Char} {v : Int} (h : Number conv t v) (hs : Stop conv rest) :
    cNumber (radix conv) (t ++ rest) = (t.length, some v) := by
  cases h with
  | plain hu =>
    rename_i n
    obtain ⟨p1, p2, p3⟩ := unsigned_parse hu hs
    obtain ⟨c, s, rfl, hc⟩ := unsigned_head hu
    have h1 : c ≠ '-' := by intro e; rw [e] at hc; revert hc; decide
    have h2 : c ≠ '+' := by intro e; rw [e] at hc; revert hc; decide
    unfold cNumber
    rw [show cSign ((c :: s) ++ rest) = (false, (c :: s) ++ rest, 0) by
      rw [List.cons_append, cSign.eq_def]
      split
      · rename_i h; injection h with h; exact absurd h h1
      · rename_i h; injection h with h; exact absurd h h2
      · rfl]
    dsimp only
    rw [if_neg p1, p3, Nat.zero_add, p2]
    rfl
  | plus hu =>
    rename_i t n
    obtain ⟨p1, p2, p3⟩ := unsigned_parse hu hs
    have e : cSign ('+' :: t ++ rest) = (false, t ++ rest, 1) := rfl
    unfold cNumber
    rw [e]
    dsimp only
    rw [if_neg p1, p3, Nat.add_assoc, p2, List.length_cons, Nat.add_comm]
    rfl
  | minus hu =>
    rename_i t n
    obtain ⟨p1, p2, p3⟩ := unsigned_parse hu hs
    have e : cSign ('-' :: t ++ rest) = (true, t ++ rest, 1) := rfl
    unfold cNumber
    rw [e]
    dsimp only
    rw [if_neg p1, p3, Nat.add_assoc, p2, List.length_cons, Nat.add_comm]
    rfl

theorem number_notBlank {conv : Char} {t : List Char} {v : Int} (h : Number conv t v) (rest : List Char) : NotBlank (t ++ rest) ∧ t ≠ [] := by
  have key : ∀ c s, t = c :: s → c ∉ blanks → NotBlank (t ++ rest) ∧ t ≠ [] := by
    intro c s e hc
    subst e
    exact ⟨fun x hx => by injection hx with hx; subst hx; exact hc, by simp⟩
  cases h with
  | plain hu =>
    obtain ⟨c, s, e, hc⟩ := unsigned_head hu
    refine key c s e ?_
    intro hb
    simp only [blanks, List.mem_cons, List.not_mem_nil, or_false] at hb
    rcases hb with h | h | h | h | h | h <;> subst h <;> revert hc <;> decide
  | plus _ => exact key _ _ rfl (by decide)
  | minus _ => exact key _ _ rfl (by decide)

/-! ## Width -/

theorem printf_digit {c : Char} (h : c ∈ Printf.Spec.digitChars) : digitVal c < 10 := by
  simp only [Printf.Spec.digitChars, List.mem_cons, List.not_mem_nil, or_false] at h
  rcases h with h | h | h | h | h | h | h | h | h | h <;> subst h <;> decide

/-- The width that the C library sees. -/
def widthOf (d : Directive) : Option Nat := if d.width = [] then none else some (numeral 10 0 d.width)

theorem widthOf_pos {d : Directive} (hd : d.Shaped) : widthOf d ≠ some 0 := by
  unfold widthOf
  split
  · exact fun h => by cases h
  · rename_i hne
    obtain ⟨c, s, e⟩ := List.exists_cons_of_ne_nil hne
    have h1 := hd.2.1 c (by rw [e]; simp)
    have h2 : c ≠ '0' := fun h0 => hd.2.2.1 (by rw [e, h0]; rfl)
    have h3 : 1 ≤ digitVal c := by
      simp only [Printf.Spec.digitChars, List.mem_cons, List.not_mem_nil, or_false] at h1
      rcases h1 with h | h | h | h | h | h | h | h | h | h <;> subst h
      · exact absurd rfl h2
      all_goals decide
    intro h
    injection h with h
    rw [e, numeral] at h
    have := numeral_ge (b := 10) (by decide) s (10 * 0 + digitVal c)
    omega

theorem width_iff {d : Directive} (hd : d.Shaped) (w : Nat) : Width d w ↔ widthOf d = some w := by
  unfold widthOf Width
  constructor
  · intro h
    obtain ⟨h1, _, h3⟩ := digits_numeral (by decide) h
    rw [if_neg h1, h3]
  · intro h
    by_cases h0 : d.width = []
    · rw [if_pos h0] at h; cases h
    · rw [if_neg h0] at h
      injection h with h
      rw [← h]
      exact digits_exists (by decide) _ h0 (fun c hc => printf_digit (hd.2.1 c hc))

theorem stop_of {d : Directive} {text rest : List Char} (h : ∀ c, text.head? = some c →
    (∀ k, ¬ IsDigit 10 c k) ∧ (d.conv ∉ ['d', 'u'] → (∀ k, ¬ IsDigit 16 c k) ∧ c ≠ 'x' ∧ c ≠ 'X'))
    (hr : rest.head? = none ∨ rest.head? = text.head?) : Stop d.conv rest := by
  intro c hc
  rcases hr with hr | hr
  · rw [hr] at hc; cases hc
  · rw [hr] at hc
    obtain ⟨h1, h2⟩ := h c hc
    exact ⟨not_isDigit (by decide) h1, fun hn => ⟨not_isDigit (by decide) (h2 hn).1, (h2 hn).2⟩⟩

theorem limit_ends {d : Directive} (hd : d.Shaped) {t text : List Char} (h : Ends d t text) :
    ∃ rest, limit (widthOf d) (t ++ text) = t ++ rest ∧ Stop d.conv rest := by
  obtain ⟨h1, h2⟩ := h
  cases hw : widthOf d with
  | none =>
    rcases h2 with h2 | h2
    · rw [(width_iff hd _).mp h2] at hw; cases hw
    · exact ⟨text, rfl, stop_of h2 (.inr rfl)⟩
  | some w =>
    have hl := h1 w ((width_iff hd w).mpr hw)
    refine ⟨text.take (w - t.length), ?_, ?_⟩
    · rw [limit, List.take_append, List.take_of_length_le hl]
    · rcases h2 with h2 | h2
      · rw [(width_iff hd _).mp h2] at hw
        injection hw with hw
        rw [hw, Nat.sub_self, List.take_zero]
        intro c hc; cases hc
      · refine stop_of h2 ?_
        cases hk : w - t.length with
        | zero => exact .inl rfl
        | succ k => cases text with | nil => exact .inl rfl | cons c text => exact .inr rfl

/-! ## Conversions -/

theorem cStored_in {signed : Bool} {n : Nat} {v : Int} (h : InBits signed (8 * n) v) :
    cStored signed n v = some (v % (2 ^ (8 * n) : Nat)).toNat := by
  unfold InBits at h
  unfold cStored
  cases signed with
  | true =>
    rw [if_pos rfl] at h
    rw [if_pos rfl, if_pos h]
  | false =>
    rw [if_neg (by decide)] at h
    rw [if_neg (by decide), if_pos h]
    congr 2
    rw [Int.emod_eq_of_lt h.1 (by rw [Int.natCast_pow]; exact h.2)]

theorem convInt_ok {d : Directive} (hd : d.Shaped) {signed : Bool} {n : Nat} {sp t text : List Char} {v : Int} (hsp : Blank sp)
    (hn : Number d.conv t v) (hv : InBits signed (8 * n) v) (he : Ends d t text) :
    cConvInt (radix d.conv) signed n (widthOf d) (sp ++ (t ++ text)) = .ok (sp.length + t.length) n (v % (2 ^ (8 * n) : Nat)).toNat := by
  obtain ⟨rest, h1, h2⟩ := limit_ends hd he
  obtain ⟨b1, b2⟩ := number_notBlank hn text
  obtain ⟨s1, s2⟩ := blank_split hsp b1
  unfold cConvInt
  dsimp only
  rw [s1, s2, if_neg (by simp [b2]), h1, number_parse hn h2]
  dsimp only
  rw [cStored_in hv]

/-! ## Words -/

theorem skipSpaces_eq {sp : List Char} (hsp : Blank sp) {ch : Option Char} (hch : ∀ c, ch = some c → c ∉ blanks) (s : List (Option Char)) :
    ∀ len, skipSpaces (sp.map some ++ ch :: s) len = some (ch, s, len + sp.length + 1) := by
  induction sp with
  | nil =>
    intro len
    rw [List.map_nil, List.nil_append, skipSpaces, if_neg]
    · rfl
    · cases ch with
      | none => exact fun h => by cases h
      | some c =>
        intro h
        exact hch c rfl ((isSpace_iff c).mp h)
  | cons c sp ih =>
    intro len
    rw [List.map_cons, List.cons_append, skipSpaces,
      if_pos (show (some c).elim false isSpace = true from (isSpace_iff c).mpr (hsp c (by simp))),
      ih (fun x hx => hsp x (by simp [hx])), List.length_cons]
    congr 3
    omega

theorem readWord_eq {stop : Option Char} (hstop : ∀ c, stop = some c → c = nul ∨ c ∈ blanks) (s : List (Option Char)) (word : List Char) :
    ∀ (c : Char) (len : Nat) (str : List Char) (cap : Nat), (∀ x ∈ c :: word, x ∉ blanks ∧ x ≠ nul) → str.length + 2 ≤ cap →
      readWord (some c) (word.map some ++ stop :: s) len str cap = some (str ++ c :: word, len + word.length + 1) := by
  induction word with
  | nil =>
    intro c len str cap hw hcap
    obtain ⟨h1, h2⟩ := hw c (by simp)
    rw [List.map_nil, List.nil_append, readWord.eq_def]
    dsimp only
    rw [if_neg (by rw [isSpace_false h1]; simp [h2]), if_neg (by omega), readWord.eq_def]
    cases stop with
    | none =>
      dsimp only
      rw [if_pos (by rw [List.length_append, List.length_singleton]; split <;> omega)]
      rfl
    | some x =>
      dsimp only
      rw [if_pos (by rcases hstop x rfl with h | h; exact .inl h; exact .inr ((isSpace_iff x).mpr h)),
        if_pos (by rw [List.length_append, List.length_singleton]; split <;> omega)]
      rfl
  | cons y word ih =>
    intro c len str cap hw hcap
    obtain ⟨h1, h2⟩ := hw c (by simp)
    rw [List.map_cons, List.cons_append, readWord.eq_def]
    dsimp only
    rw [if_neg (by rw [isSpace_false h1]; simp [h2]), if_neg (by omega),
      ih y (len + 1) (str ++ [c]) _ (fun x hx => hw x (List.mem_cons_of_mem _ hx))
        (by rw [List.length_append, List.length_singleton]; split <;> omega)]
    simp only [List.append_assoc, List.cons_append, List.nil_append, List.length_cons, Option.some.injEq, Prod.mk.injEq, true_and]
    omega

theorem fsscanfString_eq {sp word : List Char} (hsp : Blank sp) (hne : word ≠ []) (hw : ∀ c ∈ word, c ∉ blanks ∧ c ≠ nul) {stop : Option Char}
    (hstop : ∀ c, stop = some c → c = nul ∨ c ∈ blanks) (s : List (Option Char)) :
    fsscanfString (sp.map some ++ (word.map some ++ stop :: s)) = some (word, sp.length + word.length + 1) := by
  obtain ⟨c, w, rfl⟩ := List.exists_cons_of_ne_nil hne
  unfold fsscanfString
  rw [List.map_cons, List.cons_append, skipSpaces_eq hsp (fun x hx => by injection hx with hx; subst hx; exact (hw c (by simp)).1)]
  dsimp only
  rw [readWord_eq hstop s w c _ [] 8 hw (by decide)]
  simp only [List.nil_append, List.length_cons, Option.some.injEq, Prod.mk.injEq, true_and]
  omega

end Umka.Scanf
