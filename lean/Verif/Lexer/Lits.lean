import Verif.Lexer.Ops
/-! # Lexer: comments, words, numbers and literals -/

namespace Umka.Lexer
open Spec

/-! ## Comments -/

theorem trailingStars_cons (c : Char) (l : List Char) :
    trailingStars (c :: l) =
      if trailingStars l = l.length then (if c = '*' then l.length + 1 else l.length)
      else trailingStars l := by
  unfold trailingStars
  rw [List.reverse_cons, List.takeWhile_append]
  rw [List.length_reverse]
  by_cases h : (List.takeWhile (fun x => x == '*') l.reverse).length = l.length
  · rw [if_pos h, if_pos h, List.length_append, List.length_reverse]
    by_cases hc : c = '*'
    · subst hc; simp
    · rw [if_neg hc]; simp [hc]
  · rw [if_neg h, if_neg h]

theorem trailingStars_le (l : List Char) : trailingStars l ≤ l.length := by
  unfold trailingStars
  have := (List.takeWhile_sublist (l := l.reverse) (· == '*')).length_le
  rwa [List.length_reverse] at this

theorem not_infix_tail {p l : List Char} {c : Char} (h : ¬p <:+: c :: l) : ¬p <:+: l :=
  fun hh => h (List.infix_cons hh)

theorem multiLine_exact (rest : List Char) (n : Nat) : ∀ body : List Char, body.length ≤ n →
    ¬['*', '/'] <:+: body ++ ['*'] →
    multiLineComment (body ++ '*' :: '/' :: rest) =
      if trailingStars body % 2 = 0 then .ok rest else multiLineComment rest := by
  induction n with
  | zero =>
    intro body hl _
    have : body = [] := List.eq_nil_of_length_eq_zero (by omega)
    subst this
    simp [multiLineComment, trailingStars]
  | succ n ih =>
    intro body hl hn
    match body with
    | [] => simp [multiLineComment, trailingStars]
    | c :: b =>
      by_cases hc : c = '*'
      · subst hc
        cases b with
        | nil =>
          have : trailingStars ['*'] = 1 := by decide
          rw [this]
          simp [multiLineComment]
        | cons d b =>
          have hd : d ≠ '/' := by
            intro hd; subst hd
            exact hn ⟨[], b ++ ['*'], by simp⟩
          simp only [List.cons_append, multiLineComment, if_neg hd]
          have hn' : ¬['*', '/'] <:+: b ++ ['*'] := not_infix_tail (not_infix_tail hn)
          rw [ih b (by simp at hl; omega) hn']
          have e : trailingStars ('*' :: d :: b) % 2 = trailingStars b % 2 := by
            rw [trailingStars_cons, trailingStars_cons]
            have := trailingStars_le b
            simp only [List.length_cons, if_true]
            by_cases h1 : trailingStars b = b.length
            · rw [if_pos h1]
              by_cases h2 : d = '*'
              · rw [if_pos h2, if_pos rfl]; omega
              · rw [if_neg h2, if_neg (by omega)]; omega
            · rw [if_neg h1, if_neg (by omega)]
          rw [e]
      · have hm : multiLineComment (c :: b ++ '*' :: '/' :: rest) =
            multiLineComment (b ++ '*' :: '/' :: rest) := by
          rw [List.cons_append, multiLineComment]
          · exact fun h => absurd h hc
          · exact fun _ _ h => absurd h hc
        rw [hm, ih b (by simp at hl; omega) (not_infix_tail hn)]
        have e : trailingStars (c :: b) = trailingStars b := by
          rw [trailingStars_cons, if_neg hc]
          split <;> omega
        rw [e]

theorem multiLine_ok_infix (l : List Char) :
    ∀ r, multiLineComment l = .ok r → ['*', '/'] <:+: l := by
  fun_induction multiLineComment l with
  | case1 => intro r h; cases h
  | case2 => intro r h; cases h
  | case3 l => intro r _; exact ⟨[], l, rfl⟩
  | case4 c l _ ih => intro r h; exact List.infix_cons (List.infix_cons (ih r h))
  | case5 c l _ _ ih => intro r h; exact List.infix_cons (ih r h)

theorem multiLine_err (l : List Char) :
    ∀ e, multiLineComment l = .error e → e = .err .unterminatedComment := by
  fun_induction multiLineComment l with
  | case1 => intro e h; injection h with h; exact h.symm
  | case2 => intro e h; injection h with h; exact h.symm
  | case3 l => intro e h; cases h
  | case4 c l _ ih => exact ih
  | case5 c l _ _ ih => exact ih

theorem singleLine_eq (body rest : List Char) (h : '\n' ∉ body) :
    singleLineComment (body ++ '\n' :: rest) = '\n' :: rest := by
  induction body with
  | nil => simp [singleLineComment]
  | cons c b ih =>
    simp only [List.mem_cons, not_or] at h
    simp only [List.cons_append, singleLineComment]
    rw [if_neg (fun hh => h.1 hh.symm), ih h.2]

theorem spaces_id {l : List Char} (h : peek l ≠ ' ' ∧ peek l ≠ '\t' ∧ peek l ≠ '\r' ∧ peek l ≠ '/') :
    spacesAndComments l = .ok l := by
  cases l with
  | nil => rw [spacesAndComments]
  | cons c l =>
    simp only [peek] at h
    rw [spacesAndComments.eq_def]
    dsimp only
    rw [if_neg (by simp [h]), if_neg h.2.2.2]

theorem spaces_space {c : Char} {l : List Char} (h : c = ' ' ∨ c = '\t' ∨ c = '\r') :
    spacesAndComments (c :: l) = spacesAndComments l := by
  rw [spacesAndComments.eq_def]
  dsimp only
  rw [if_pos h]

theorem spaces_line (l : List Char) :
    spacesAndComments ('/' :: '/' :: l) = spacesAndComments (singleLineComment l) := by
  rw [spacesAndComments.eq_def]
  dsimp only
  rw [if_neg (by decide), if_pos rfl]
  rfl

theorem spaces_block (l : List Char) :
    spacesAndComments ('/' :: '*' :: l) = (multiLineComment l >>= spacesAndComments) := by
  rw [spacesAndComments.eq_def]
  dsimp only
  rw [if_neg (by decide), if_pos rfl]
  change (match _h : multiLineComment l with
      | Except.error e => Except.error e
      | Except.ok r => spacesAndComments r) = _
  split
  · next h => rw [h]; rfl
  · next h => rw [h]; rfl

theorem spaces_slash {l : List Char} (h1 : peek l ≠ '/') (h2 : peek l ≠ '*') :
    spacesAndComments ('/' :: l) = .ok ('/' :: l) := by
  rw [spacesAndComments.eq_def]
  dsimp only
  rw [if_neg (by decide), if_pos rfl]
  split
  · exact absurd rfl h1
  · exact absurd rfl h2
  · rfl

theorem nextRaw_of_spaces {l l' : List Char} (h : spacesAndComments l = spacesAndComments l') :
    nextRaw l = nextRaw l' := by
  unfold nextRaw; rw [h]

/-! ## Words -/

instance (c : Char) : Decidable (identChar c) := by
  unfold identChar letter digit; infer_instance

theorem isIdentChar_iff (c : Char) : isIdentChar c = true ↔ identChar c := by
  unfold isIdentChar isLetter isDecDigit identChar letter digit
  simp [or_assoc]

theorem identLoop_eq (w rest acc : List Char) (len : Nat) (hw : ∀ c ∈ w, identChar c)
    (hr : ¬identChar (peek rest)) (hl : len + w.length ≤ 255) :
    identLoop acc len (w ++ rest) = .ok (acc.reverse ++ w, rest) := by
  induction w generalizing acc len with
  | nil =>
    cases rest with
    | nil => simp [identLoop]
    | cons c r =>
      simp only [peek] at hr
      simp only [List.nil_append, identLoop]
      rw [if_neg (fun h => hr ((isIdentChar_iff c).1 h))]
      simp
  | cons c w ih =>
    simp only [List.cons_append, identLoop]
    simp only [List.length_cons] at hl
    rw [if_pos ((isIdentChar_iff c).2 (hw c (by simp))), if_neg (by unfold maxIdentLen; omega),
      ih _ _ (fun d hd => hw d (by simp [hd])) (by omega)]
    simp

theorem keywords_eq : keywords = keywordTable := rfl

theorem keywordOrIdent_eq {w rest : List Char} (hw : Word w) (hr : ¬identChar (peek rest)) :
    keywordOrIdent (w ++ rest) = .ok ((Lexeme.word w).tok, rest) := by
  unfold keywordOrIdent
  rw [identLoop_eq w rest [] 0 hw.2.1 hr (by have := hw.1; omega), bind_ok]
  simp only [List.reverse_nil, List.nil_append, keywords_eq]
  unfold Lexeme.tok
  dsimp only
  split <;> next h =>
    split <;> next h' =>
      have := h.symm.trans h'
      first
      | rfl
      | (injection this with this; subst this; rfl)
      | cases this

/-! ## Numbers -/

theorem charDigit10 (d : Digit) (h : d.val < 10) : charDigit 10 d.char = some d.val := by
  have : ∀ v : Fin 10, ∀ u : Bool, charDigit 10 (Digit.char ⟨v.val, u⟩) = some v.val := by decide
  exact this ⟨d.val, h⟩ d.upper

theorem charDigit16 (d : Digit) (h : d.val < 16) : charDigit 16 d.char = some d.val := by
  have : ∀ v : Fin 16, ∀ u : Bool, charDigit 16 (Digit.char ⟨v.val, u⟩) = some v.val := by decide
  exact this ⟨d.val, h⟩ d.upper

def IsBase (base : Nat) : Prop := base = 10 ∨ base = 16

theorem charDigit_char {base : Nat} (hb : IsBase base) (d : Digit) (h : d.val < base) :
    charDigit base d.char = some d.val := by
  rcases hb with rfl | rfl
  · exact charDigit10 d h
  · exact charDigit16 d h

theorem charDigit_lt {base : Nat} (hb : IsBase base) {c : Char} {v : Nat}
    (h : charDigit base c = some v) : v < base := by
  have le : ∀ a b : Char, a ≤ b ↔ a.toNat ≤ b.toNat := by
    intro a b; rw [Char.le_def, UInt32.le_iff_toNat_le]; rfl
  rcases hb with rfl | rfl
  · unfold charDigit at h
    rw [if_pos rfl] at h
    split at h
    · next hc =>
      injection h with h
      rw [le, le] at hc
      have h1 : '0'.toNat = 48 := rfl
      have h2 : '9'.toNat = 57 := rfl
      omega
    · cases h
  · unfold charDigit at h
    rw [if_neg (by decide)] at h
    have h1 : '0'.toNat = 48 := rfl
    have h2 : '9'.toNat = 57 := rfl
    have h3 : 'a'.toNat = 97 := rfl
    have h4 : 'f'.toNat = 102 := rfl
    have h5 : 'A'.toNat = 65 := rfl
    have h6 : 'F'.toNat = 70 := rfl
    simp only [le] at h
    split at h
    · injection h with h; omega
    · split at h
      · injection h with h; omega
      · split at h
        · injection h with h; omega
        · cases h

/-- Every digit character is the character of a digit. -/
theorem charDigit_surj {base : Nat} (hb : IsBase base) {c : Char} {v : Nat}
    (h : charDigit base c = some v) : ∃ d : Digit, d.val = v ∧ v < base ∧ d.char = c := by
  have hlt := charDigit_lt hb h
  have le : ∀ a b : Char, a ≤ b ↔ a.toNat ≤ b.toNat := by
    intro a b; rw [Char.le_def, UInt32.le_iff_toNat_le]; rfl
  have h1 : '0'.toNat = 48 := rfl
  have h2 : '9'.toNat = 57 := rfl
  have h3 : 'a'.toNat = 97 := rfl
  have h4 : 'f'.toNat = 102 := rfl
  have h5 : 'A'.toNat = 65 := rfl
  have h6 : 'F'.toNat = 70 := rfl
  have dec : '0' ≤ c ∧ c ≤ '9' → v = c.toNat - 48 →
      ∃ d : Digit, d.val = v ∧ v < base ∧ d.char = c := by
    intro hc hv
    rw [le, le] at hc
    refine ⟨⟨v, false⟩, rfl, hlt, ?_⟩
    unfold Digit.char
    dsimp only
    rw [if_pos (by omega), show 48 + v = c.toNat by omega, Char.ofNat_toNat]
  rcases hb with rfl | rfl
  · unfold charDigit at h
    rw [if_pos rfl] at h
    split at h
    · next hc => injection h with h; exact dec hc h.symm
    · cases h
  · unfold charDigit at h
    rw [if_neg (by decide)] at h
    split at h
    · next hc => injection h with h; exact dec hc h.symm
    · split at h
      · next hc =>
        injection h with h
        rw [le, le] at hc
        refine ⟨⟨v, false⟩, rfl, hlt, ?_⟩
        unfold Digit.char
        dsimp only
        rw [if_neg (by omega), if_neg (by simp), show 97 + (v - 10) = c.toNat by omega,
          Char.ofNat_toNat]
      · split at h
        · next hc =>
          injection h with h
          rw [le, le] at hc
          refine ⟨⟨v, true⟩, rfl, hlt, ?_⟩
          unfold Digit.char
          dsimp only
          rw [if_neg (by omega), if_pos rfl, show 65 + (v - 10) = c.toNat by omega,
            Char.ofNat_toNat]
        · cases h

/-- The overflow test of `lexDigitSeq` is exact. -/
theorem overflow_iff {base : Nat} (hb : IsBase base) {result d : Nat} (hr : result < 2 ^ 64)
    (hd : d < base) :
    (result * base % 2 ^ 64 / base ≠ result ∨ (result * base + d) % 2 ^ 64 < result) ↔
      2 ^ 64 ≤ result * base + d := by
  rcases hb with rfl | rfl <;> omega

/-- Positional notation continued from `v`. -/
def continued (base v : Nat) (ds : List Nat) : Nat := ds.foldl (fun v d => v * base + d) v

theorem continued_ge {base : Nat} (hb : 1 ≤ base) (v : Nat) (ds : List Nat) :
    v ≤ continued base v ds := by
  induction ds generalizing v with
  | nil => exact Nat.le_refl _
  | cons d ds ih =>
    refine Nat.le_trans ?_ (ih (v * base + d))
    have := Nat.le_mul_of_pos_right v hb
    omega

theorem digitLoop_stop (base : Nat) (isFrac : Bool) (result len : Nat) (skip : Bool)
    {rest : List Char} (h : charDigit base (peek rest) = none) :
    digitLoop base isFrac result len skip rest = .ok (result, len, rest) := by
  cases rest with
  | nil => rw [digitLoop]
  | cons c l =>
    simp only [peek] at h
    rw [digitLoop, h]

/-- What `lexDigitSeq` does after a digit. -/
def afterDigit (base result len : Nat) (l : List Char) : Res (Nat × Nat × List Char) :=
  if peek l = '_' then
    if (charDigit base (peek l.tail)).isSome then digitLoop base false result len false l.tail
    else .error (.err .underscore)
  else digitLoop base false result len false l

theorem digitLoop_cons {base : Nat} (hb : IsBase base) {result len d : Nat} {c : Char}
    {l : List Char} (hr : result < 2 ^ 64) (hc : charDigit base c = some d) :
    digitLoop base false result len false (c :: l) =
      if result * base + d < 2 ^ 64 then
        afterDigit base (result * base + d) (len + 1) l
      else .error (.err .tooLarge) := by
  have hd := charDigit_lt hb hc
  have ho := overflow_iff hb hr hd
  rw [digitLoop.eq_def]
  dsimp only
  rw [hc]
  dsimp only
  by_cases hx : 2 ^ 64 ≤ result * base + d
  · have : decide (result * base % 2 ^ 64 / base ≠ result ∨
        (result * base + d) % 2 ^ 64 < result) = true := decide_eq_true (ho.2 hx)
    rw [this, if_neg (Nat.not_lt.2 hx)]; rfl
  · have : decide (result * base % 2 ^ 64 / base ≠ result ∨
        (result * base + d) % 2 ^ 64 < result) = false := decide_eq_false (fun h => hx (ho.1 h))
    rw [this, Nat.mod_eq_of_lt (Nat.not_le.1 hx), if_pos (Nat.not_le.1 hx)]
    simp only [Bool.false_and, Bool.or_false, Bool.false_eq_true, if_false]
    unfold afterDigit
    split
    · exact (if_pos (show peek ('_' :: _) = '_' from rfl)).symm
    · next h =>
      rw [if_neg]
      intro hp
      cases l with
      | nil => exact absurd hp (by decide)
      | cons a t => exact h t (by rw [show a = '_' from hp])

theorem digitLoop_text {base : Nat} (hb : IsBase base) (rest : List Char)
    (hstop : charDigit base (peek rest) = none) (hus : peek rest ≠ '_')
    (more : List (Bool × Digit)) :
    ∀ (d : Digit) (result len : Nat), result < 2 ^ 64 → d.val < base →
      (∀ p ∈ more, p.2.val < base) →
      digitLoop base false result len false (d.char :: (moreText more ++ rest)) =
        if continued base result (d.val :: more.map (·.2.val)) < 2 ^ 64 then
          .ok (continued base result (d.val :: more.map (·.2.val)), len + 1 + more.length, rest)
        else .error (.err .tooLarge) := by
  have hbp : 1 ≤ base := by rcases hb with rfl | rfl <;> omega
  induction more with
  | nil =>
    intro d result len hr hd _
    rw [digitLoop_cons hb hr (charDigit_char hb d hd)]
    simp only [moreText, List.flatMap_nil, List.nil_append, List.map_nil, continued,
      List.foldl_cons, List.foldl_nil, List.length_nil, Nat.add_zero]
    by_cases hx : result * base + d.val < 2 ^ 64
    · rw [if_pos hx, if_pos hx, afterDigit, if_neg hus, digitLoop_stop _ _ _ _ _ hstop]
    · rw [if_neg hx, if_neg hx]
  | cons p more ih =>
    intro d result len hr hd hm
    obtain ⟨us, d'⟩ := p
    have hd' : d'.val < base := hm (us, d') (by simp)
    have hc' := charDigit_char hb d' hd'
    have hne : d'.char ≠ '_' := by
      intro he
      rw [he] at hc'
      rcases hb with rfl | rfl
      · exact absurd (hc'.symm.trans (show charDigit 10 '_' = none by decide)) (by simp)
      · exact absurd (hc'.symm.trans (show charDigit 16 '_' = none by decide)) (by simp)
    rw [digitLoop_cons hb hr (charDigit_char hb d hd)]
    have hcont : continued base result (d.val :: List.map (fun x => x.2.val) ((us, d') :: more)) =
        continued base (result * base + d.val) (d'.val :: more.map (·.2.val)) := rfl
    rw [hcont]
    by_cases hx : result * base + d.val < 2 ^ 64
    · rw [if_pos hx]
      have := ih d' (result * base + d.val) (len + 1) hx hd'
        (fun q hq => hm q (List.mem_cons_of_mem _ hq))
      have hlen : len + 1 + 1 + more.length = len + 1 + ((us, d') :: more).length := by
        simp; omega
      rw [hlen] at this
      cases us with
      | true =>
        have e : moreText ((true, d') :: more) ++ rest =
            '_' :: (d'.char :: (moreText more ++ rest)) := by simp [moreText]
        rw [e, afterDigit, if_pos (show peek ('_' :: _) = '_' from rfl),
          if_pos (by simp [peek, hc'])]
        exact this
      | false =>
        have e : moreText ((false, d') :: more) ++ rest =
            d'.char :: (moreText more ++ rest) := by simp [moreText]
        rw [e, afterDigit, if_neg (by simpa [peek] using hne)]
        exact this
    · rw [if_neg hx, if_neg]
      have := continued_ge hbp (result * base + d.val) (d'.val :: more.map (·.2.val))
      omega

theorem digitSeq_text {base : Nat} (hb : IsBase base) (n : Number) (rest : List Char)
    (hstop : charDigit base (peek rest) = none) (hus : peek rest ≠ '_') (hv : n.valid base) :
    digitSeq base false (n.text ++ rest) =
      if positional base n.digits < 2 ^ 64 then
        .ok (positional base n.digits, n.digits.length, rest)
      else .error (.err .tooLarge) := by
  have h1 : n.first.val < base := hv _ (by simp [Number.digits])
  unfold digitSeq
  rw [if_neg (by simp [Number.text, peek, charDigit_char hb _ h1])]
  have := digitLoop_text hb rest hstop hus n.more n.first 0 0 (by decide) h1
    (fun p hp => hv _ (by simp only [Number.digits, List.mem_cons, List.mem_map]; exact Or.inr ⟨p, hp, rfl⟩))
  unfold Number.text
  rw [List.cons_append, this]
  have e : 0 + 1 + n.more.length = n.digits.length := by simp [Number.digits]; omega
  rw [e]
  rfl

/-- What a digit character is not. -/
theorem digit_char_ne {base : Nat} (hb : IsBase base) (d : Digit) (h : d.val < base) {c : Char}
    (hc : charDigit base c = none) : d.char ≠ c := by
  intro he
  have := charDigit_char hb d h
  rw [he, hc] at this
  cases this

theorem peek_more {more : List (Bool × Digit)} {rest : List Char} {c : Char}
    (hc : charDigit 10 c = none) (hu : c ≠ '_') (hr : peek rest ≠ c)
    (hm : ∀ p ∈ more, p.2.val < 10) : peek (moreText more ++ rest) ≠ c := by
  cases more with
  | nil => simpa [moreText] using hr
  | cons p more =>
    obtain ⟨us, d⟩ := p
    cases us with
    | true => simp [moreText, peek]; exact fun h => hu h.symm
    | false =>
      simp only [moreText, List.flatMap_cons, Bool.false_eq_true, if_false, List.cons_append,
        List.nil_append, peek]
      exact digit_char_ne (Or.inl rfl) d (hm (false, d) (by simp)) hc

theorem number_dec (n : Number) (rest : List Char) (hv : n.valid 10)
    (hr : ¬identChar (peek rest)) (hdot : peek rest ≠ '.') :
    number (n.text ++ rest) =
      if positional 10 n.digits < 2 ^ 64 then .ok (some (.int (positional 10 n.digits)), rest)
      else .error (.err .tooLarge) := by
  have h1 : n.first.val < 10 := hv _ (by simp [Number.digits])
  have hm : ∀ p ∈ n.more, p.2.val < 10 := fun p hp =>
    hv _ (by simp only [Number.digits, List.mem_cons, List.mem_map]; exact Or.inr ⟨p, hp, rfl⟩)
  have ne : ∀ c, identChar c → peek rest ≠ c := fun c hc h => hr (h ▸ hc)
  have hx : peek (n.text ++ rest).tail ≠ 'x' := by
    unfold Number.text
    exact peek_more (by decide) (by decide) (ne _ (by decide)) hm
  have hX : peek (n.text ++ rest).tail ≠ 'X' := by
    unfold Number.text
    exact peek_more (by decide) (by decide) (ne _ (by decide)) hm
  have hpd : peek (n.text ++ rest) ≠ '.' := by
    unfold Number.text
    exact digit_char_ne (Or.inl rfl) _ h1 (by decide)
  have hstop : charDigit 10 (peek rest) = none := by
    cases hcd : charDigit 10 (peek rest) with
    | none => rfl
    | some v =>
      exfalso; apply hr
      unfold charDigit at hcd
      rw [if_pos rfl] at hcd
      split at hcd
      · next hd => exact Or.inr (Or.inl hd)
      · cases hcd
  have hus : peek rest ≠ '_' := ne _ (by decide)
  have he : peek rest ≠ 'e' := ne _ (by decide)
  have hE : peek rest ≠ 'E' := ne _ (by decide)
  unfold number
  have hhex : decide (peek (n.text ++ rest) = '0' ∧ (peek (n.text ++ rest).tail = 'x' ∨
      peek (n.text ++ rest).tail = 'X')) = false := by
    apply decide_eq_false; intro h
    rcases h.2 with h | h
    · exact hx h
    · exact hX h
  rw [hhex]
  simp only [Bool.false_eq_true, if_false, false_and]
  rw [if_neg (fun h => hpd h.1), if_pos (fun h => hpd h.1),
    digitSeq_text (Or.inl rfl) n rest hstop hus hv]
  by_cases hval : positional 10 n.digits < 2 ^ 64
  · rw [if_pos hval, if_pos hval, bind_ok]
    simp only [if_true]
    rw [if_neg hdot]
    unfold exponent
    rw [if_neg (by simp [he, hE])]
    rfl
  · rw [if_neg hval, if_neg hval]; rfl

theorem number_hex (ux us : Bool) (n : Number) (rest : List Char) (hv : n.valid 16)
    (hstop : charDigit 16 (peek rest) = none) (hus : peek rest ≠ '_') :
    number ((Lexeme.hex ux us n).text ++ rest) =
      if positional 16 n.digits < 2 ^ 64 then .ok (some (.int (positional 16 n.digits)), rest)
      else .error (.err .tooLarge) := by
  have h1 : n.first.val < 16 := hv _ (by simp [Number.digits])
  have hc1 := charDigit16 _ h1
  have hp : peek (n.text ++ rest) ≠ '_' := digit_char_ne (Or.inr rfl) _ h1 (by decide)
  have hpd : peek (n.text ++ rest) ≠ '.' := digit_char_ne (Or.inr rfl) _ h1 (by decide)
  have key : ∀ l : List Char, peek l = '0' → (peek l.tail = 'x' ∨ peek l.tail = 'X') →
      (if peek l.tail.tail = '_' then l.tail.tail.tail else l.tail.tail) = n.text ++ rest →
      number l = if positional 16 n.digits < 2 ^ 64 then
        .ok (some (.int (positional 16 n.digits)), rest) else .error (.err .tooLarge) := by
    intro l h0 hx hl
    unfold number
    have hhex : decide (peek l = '0' ∧ (peek l.tail = 'x' ∨ peek l.tail = 'X')) = true :=
      decide_eq_true ⟨h0, hx⟩
    rw [hhex]
    simp only [if_true, true_and]
    rw [hl]
    rw [if_neg (fun h => hpd h.1), if_pos (fun h => hpd h.1),
      digitSeq_text (Or.inr rfl) n rest hstop hus hv]
    by_cases hval : positional 16 n.digits < 2 ^ 64
    · rw [if_pos hval, if_pos hval, bind_ok]
      rfl
    · rw [if_neg hval, if_neg hval]; rfl
  apply key
  · cases us <;> rfl
  · cases us <;> cases ux <;> simp [Lexeme.text, peek]
  · cases us with
    | true => simp [Lexeme.text, peek]
    | false =>
      simp only [Lexeme.text, Bool.false_eq_true, if_false, List.cons_append,
        List.nil_append, List.tail_cons]
      rw [if_neg hp]

end Umka.Lexer
