import Verif.Lexer.Strs
/-! # Lexer: single tokens, whole texts and implicit semicolons -/

namespace Umka.Lexer
open Spec

/-! ## Dispatch on the first character -/

theorem nextRaw_space {c : Char} {l : List Char} (h : c = ' ' ∨ c = '\t' ∨ c = '\r') :
    nextRaw (c :: l) = nextRaw l := nextRaw_of_spaces (spaces_space h)

theorem nextRaw_plain {l : List Char}
    (h : peek l ≠ ' ' ∧ peek l ≠ '\t' ∧ peek l ≠ '\r' ∧ peek l ≠ '/') :
    nextRaw l =
      if isLetter (peek l) ∨ peek l = '_' then keywordOrIdent l
      else if isDecDigit (peek l) ∨ peek l = '.' then do
        match ← number l with
        | (some t, l) => return (t, l)
        | (none, l) => operatorOrEnd l
      else if peek l = '\'' then charLiteral l
      else if peek l = '"' ∨ peek l = '`' then strLiteral l
      else operatorOrEnd l := by
  unfold nextRaw
  rw [spaces_id h, bind_ok]
  try rfl

theorem isLetter_iff (c : Char) : isLetter c = true ↔ letter c := by
  unfold isLetter letter; simp

theorem isDecDigit_iff (c : Char) : isDecDigit c = true ↔ digit c := by
  unfold isDecDigit digit; simp

theorem identChar_not_blank {c : Char} (h : identChar c) :
    c ≠ ' ' ∧ c ≠ '\t' ∧ c ≠ '\r' ∧ c ≠ '/' := by
  refine ⟨?_, ?_, ?_, ?_⟩ <;> (intro he; subst he; revert h; decide)

theorem nextRaw_word {w rest : List Char} (hw : Word w) (hr : ¬identChar (peek rest)) :
    nextRaw (w ++ rest) = .ok ((Lexeme.word w).tok, rest) := by
  obtain ⟨c, l, rfl, hd⟩ := hw.2.2
  have hc : identChar c := hw.2.1 c (by simp)
  rw [nextRaw_plain (by simpa [peek] using identChar_not_blank hc), if_pos, keywordOrIdent_eq hw hr]
  simp only [List.cons_append, peek]
  rcases hc with h | h | h
  · exact Or.inl ((isLetter_iff c).2 h)
  · exact absurd h hd
  · exact Or.inr h

theorem digit_of_char {d : Digit} (h : d.val < 10) : digit d.char := by
  have : ∀ v : Fin 10, ∀ u : Bool, isDecDigit (Digit.char ⟨v.val, u⟩) = true := by decide
  exact (isDecDigit_iff _).1 (this ⟨d.val, h⟩ d.upper)

theorem nextRaw_digit {l : List Char} (h : digit (peek l)) :
    nextRaw l = (do
      match ← number l with
      | (some t, l) => return (t, l)
      | (none, l) => operatorOrEnd l) := by
  rw [nextRaw_plain (identChar_not_blank (Or.inr (Or.inl h))), if_neg,
    if_pos (Or.inl ((isDecDigit_iff _).2 h))]
  rw [isLetter_iff]
  have le : ∀ a b : Char, a ≤ b ↔ a.toNat ≤ b.toNat := by
    intro a b; rw [Char.le_def, UInt32.le_iff_toNat_le]; rfl
  unfold digit at h
  unfold letter
  simp only [le] at h ⊢
  have h1 : '0'.toNat = 48 := rfl
  have h2 : '9'.toNat = 57 := rfl
  have h3 : 'a'.toNat = 97 := rfl
  have h5 : 'A'.toNat = 65 := rfl
  rintro (h' | h')
  · omega
  · rw [h'] at h; have : '_'.toNat = 95 := rfl; omega

theorem nextRaw_dec {n : Number} {rest : List Char} (hv : n.valid 10)
    (hr : ¬identChar (peek rest)) (hdot : peek rest ≠ '.') :
    nextRaw (n.text ++ rest) =
      if positional 10 n.digits < 2 ^ 64 then .ok (.int (positional 10 n.digits), rest)
      else .error (.err .tooLarge) := by
  have h1 : n.first.val < 10 := hv _ (by simp [Number.digits])
  rw [nextRaw_digit (l := n.text ++ rest) (digit_of_char h1), number_dec n rest hv hr hdot]
  split <;> rfl

theorem nextRaw_hex {ux us : Bool} {n : Number} {rest : List Char} (hv : n.valid 16)
    (hstop : charDigit 16 (peek rest) = none) (hus : peek rest ≠ '_') :
    nextRaw ((Lexeme.hex ux us n).text ++ rest) =
      if positional 16 n.digits < 2 ^ 64 then .ok (.int (positional 16 n.digits), rest)
      else .error (.err .tooLarge) := by
  have h1 : digit (peek ((Lexeme.hex ux us n).text ++ rest)) := by
    have : peek ((Lexeme.hex ux us n).text ++ rest) = '0' := by cases us <;> rfl
    rw [this]; unfold digit; decide
  rw [nextRaw_digit h1, number_hex ux us n rest hv hstop hus]
  split <;> rfl

/-! Only literals are numbers. -/

theorem digitLoop_only {base : Nat} (hb : IsBase base) (k : Nat) : ∀ (l : List Char), l.length ≤ k →
    ∀ (result len v m : Nat) (r : List Char), result < 2 ^ 64 → (charDigit base (peek l)).isSome →
      digitLoop base false result len false l = .ok (v, m, r) →
      ∃ n : Number, n.valid base ∧ l = n.text ++ r ∧ v = continued base result n.digits ∧
        v < 2 ^ 64 := by
  induction k with
  | zero =>
    intro l hl result len v m r _ hs _
    have : l = [] := List.eq_nil_of_length_eq_zero (by omega)
    subst this
    rcases hb with rfl | rfl <;> exact absurd hs (by decide)
  | succ k ih =>
    intro l hl result len v m r hr hs h
    cases l with
    | nil => rcases hb with rfl | rfl <;> exact absurd hs (by decide)
    | cons c l =>
      simp only [peek] at hs
      obtain ⟨d, hc⟩ := Option.isSome_iff_exists.1 hs
      obtain ⟨g, hg1, hg2, hg3⟩ := charDigit_surj hb hc
      rw [digitLoop_cons hb hr hc] at h
      simp only [List.length_cons] at hl
      split at h
      case isFalse => cases h
      next hx =>
      unfold afterDigit at h
      split at h
      · next hu =>
        split at h
        case isFalse => cases h
        next hs' =>
        cases l with
        | nil => exact absurd hu (by decide)
        | cons a l' =>
          simp only [List.tail_cons] at h hs'
          simp only [List.length_cons] at hl
          obtain ⟨n, h1, h2, h3, h4⟩ := ih l' (by omega) _ _ _ _ _ hx hs' h
          refine ⟨⟨g, (true, n.first) :: n.more⟩, ?_, ?_, ?_, h4⟩
          · intro e he
            simp only [Number.digits, List.mem_cons, List.map_cons] at he
            rcases he with he | he
            · rw [he, hg1]; exact hg2
            · exact h1 e (by simpa [Number.digits] using he)
          · have ha : a = '_' := hu
            rw [h2, ← hg3, ha]
            simp [Number.text, moreText]
          · rw [h3, ← hg1]; rfl
      · next hu =>
        cases hcd : charDigit base (peek l) with
        | none =>
          rw [digitLoop_stop _ _ _ _ _ hcd] at h
          injection h with h; injection h with h h'; injection h' with _ h'
          refine ⟨⟨g, []⟩, ?_, ?_, ?_, by omega⟩
          · intro e he
            simp only [Number.digits, List.mem_cons, List.map_nil, List.not_mem_nil, or_false] at he
            rw [he, hg1]; exact hg2
          · rw [← hg3, h']; rfl
          · rw [← h, ← hg1]; rfl
        | some d' =>
          obtain ⟨n, h1, h2, h3, h4⟩ := ih l (by omega) _ _ _ _ _ hx (by rw [hcd]; rfl) h
          refine ⟨⟨g, (false, n.first) :: n.more⟩, ?_, ?_, ?_, h4⟩
          · intro e he
            simp only [Number.digits, List.mem_cons, List.map_cons] at he
            rcases he with he | he
            · rw [he, hg1]; exact hg2
            · exact h1 e (by simpa [Number.digits] using he)
          · rw [h2, ← hg3]
            simp [Number.text, moreText]
          · rw [h3, ← hg1]; rfl

theorem digitSeq_only {base : Nat} (hb : IsBase base) {l r : List Char} {v m : Nat}
    (h : digitSeq base false l = .ok (v, m, r)) :
    ∃ n : Number, n.valid base ∧ l = n.text ++ r ∧ v = positional base n.digits ∧ v < 2 ^ 64 := by
  unfold digitSeq at h
  split at h
  · cases h
  · next hs =>
    exact digitLoop_only hb l.length l (Nat.le_refl _) 0 0 v m r (by decide)
      (by cases hc : charDigit base (peek l) <;> simp_all) h

theorem exponent_int {isReal : Bool} {w f n : Nat} {l r : List Char} {v : Nat}
    (h : exponent isReal w f n l = .ok (.int v, r)) : isReal = false ∧ v = w ∧ r = l := by
  unfold exponent at h
  split at h
  · simp only at h
    generalize (if peek l.tail = '-' ∨ peek l.tail = '+' then l.tail.tail else l.tail) = l2 at h
    obtain ⟨⟨e, m, l3⟩, _, h⟩ := bind_eq_ok h
    injection h with h; injection h with h; cases h
  · split at h
    · injection h with h; injection h with h; cases h
    · next hr =>
      injection h with h; injection h with h h'
      injection h with h
      exact ⟨by simpa using hr, h.symm, h'.symm⟩

theorem number_int_only {l r : List Char} {v : Nat} (hd : digit (peek l))
    (h : number l = .ok (some (.int v), r)) :
    v < 2 ^ 64 ∧
      ((∃ n : Number, n.valid 10 ∧ l = n.text ++ r ∧ v = positional 10 n.digits) ∨
       ∃ ux us, ∃ n : Number, n.valid 16 ∧ l = (Lexeme.hex ux us n).text ++ r ∧
        v = positional 16 n.digits) := by
  unfold number at h
  by_cases hx : peek l = '0' ∧ (peek l.tail = 'x' ∨ peek l.tail = 'X')
  · simp only [hx, and_self, decide_true, if_true, true_and] at h
    generalize hl2 : (if peek l.tail.tail = '_' then l.tail.tail.tail else l.tail.tail) = l2 at h
    split at h
    · injection h with h; injection h with h; cases h
    · rw [if_pos (by simp)] at h
      obtain ⟨⟨w, m, l3⟩, hs, h⟩ := bind_eq_ok h
      simp only [show ¬(16 : Nat) = 10 by decide, if_false] at h
      injection h with h; injection h with h h'
      injection h with h; injection h with h
      subst h; subst h'
      obtain ⟨n, h1, h2, h3, h4⟩ := digitSeq_only (Or.inr rfl) hs
      refine ⟨h4, Or.inr ?_⟩
      have hne : ∀ (m : List Char) (c : Char), peek m = c → c ≠ '\x00' → m = c :: m.tail := by
        intro m c hm hc
        cases m with
        | nil => exact absurd hm.symm hc
        | cons a m => rw [show a = c from hm]; rfl
      have e1 := hne l '0' hx.1 (by decide)
      have key : ∀ ux : Bool, peek l.tail = (if ux then 'X' else 'x') →
          ∃ ux us, ∃ n : Number, n.valid 16 ∧ l = (Lexeme.hex ux us n).text ++ l3 ∧
            w = positional 16 n.digits := by
        intro ux hux
        have e2 := hne l.tail _ hux (by cases ux <;> decide)
        by_cases hu : peek l.tail.tail = '_'
        · rw [if_pos hu] at hl2
          have e3 := hne _ _ hu (by decide)
          refine ⟨ux, true, n, h1, ?_, h3⟩
          rw [e1, e2, e3, hl2, h2]
          simp [Lexeme.text]
        · rw [if_neg hu] at hl2
          refine ⟨ux, false, n, h1, ?_, h3⟩
          rw [e1, e2, hl2, h2]
          simp [Lexeme.text]
      rcases hx.2 with hx | hx
      · exact key false hx
      · exact key true hx
  · simp only [hx, decide_false, Bool.false_eq_true, if_false, false_and] at h
    have hdot : peek l ≠ '.' := by
      intro hh; rw [hh] at hd; revert hd; unfold digit; decide
    rw [if_neg (fun hh => hdot hh.1), if_pos (fun hh => hdot hh.1)] at h
    obtain ⟨⟨w, m, l3⟩, hs, h⟩ := bind_eq_ok h
    simp only [if_true] at h
    obtain ⟨n, h1, h2, h3, h4⟩ := digitSeq_only (Or.inl rfl) hs
    split at h
    · generalize (if (charDigit 10 (peek l3.tail)).isSome = true then digitSeq 10 true l3.tail
        else Except.ok (0, 0, l3.tail)) = x at h
      obtain ⟨⟨f, m2, l4⟩, _, h⟩ := bind_eq_ok h
      simp only at h
      obtain ⟨⟨t, l5⟩, he, h⟩ := bind_eq_ok h
      injection h with h; injection h with h h'
      injection h with h
      subst h
      exact absurd (exponent_int he).1 (by simp)
    · obtain ⟨⟨t, l5⟩, he, h⟩ := bind_eq_ok h
      injection h with h; injection h with h h'
      injection h with h
      subst h; subst h'
      obtain ⟨_, hv, hr⟩ := exponent_int he
      subst hv; subst hr
      exact ⟨h4, Or.inl ⟨n, h1, h2, h3⟩⟩

theorem nextRaw_int_only {l r : List Char} {v : Nat} (hd : digit (peek l))
    (h : nextRaw l = .ok (.int v, r)) :
    v < 2 ^ 64 ∧
      ((∃ n : Number, n.valid 10 ∧ l = n.text ++ r ∧ v = positional 10 n.digits) ∨
       ∃ ux us, ∃ n : Number, n.valid 16 ∧ l = (Lexeme.hex ux us n).text ++ r ∧
        v = positional 16 n.digits) := by
  rw [nextRaw_digit hd] at h
  obtain ⟨⟨o, l2⟩, hn, h⟩ := bind_eq_ok h
  cases o with
  | some t =>
    injection h with h; injection h with h h'
    subst h; subst h'
    exact number_int_only hd hn
  | none =>
    exfalso
    change operatorOrEnd l2 = _ at h
    unfold operatorOrEnd at h
    split at h
    · injection h with h; injection h with h; cases h
    · split at h
      · injection h with h; injection h with h; cases h
      · injection h with h; injection h with h; cases h
      · cases h

theorem nextRaw_quote (l : List Char) : nextRaw ('\'' :: l) = charLiteral ('\'' :: l) := by
  rw [nextRaw_plain (by simp [peek]), if_neg (by simp only [peek]; decide),
    if_neg (by simp only [peek]; decide), if_pos (by simp only [peek])]

theorem nextRaw_string {c : Char} (hc : c = '"' ∨ c = '`') (l : List Char) :
    nextRaw (c :: l) = strLiteral (c :: l) := by
  rcases hc with rfl | rfl
  · rw [nextRaw_plain (by simp [peek]), if_neg (by simp only [peek]; decide),
      if_neg (by simp only [peek]; decide), if_neg (by simp only [peek]; decide),
      if_pos (by simp [peek])]
  · rw [nextRaw_plain (by simp [peek]), if_neg (by simp only [peek]; decide),
      if_neg (by simp only [peek]; decide), if_neg (by simp only [peek]; decide),
      if_pos (by simp [peek])]

theorem nextRaw_newline (l : List Char) : nextRaw ('\n' :: l) = .ok (.eoln, l) := by
  rw [nextRaw_plain (by simp [peek]), if_neg (by simp only [peek]; decide),
    if_neg (by simp only [peek]; decide), if_neg (by simp only [peek]; decide),
    if_neg (by simp [peek])]
  rfl

theorem nextRaw_nil : nextRaw [] = .ok (.eof, []) := by
  rw [nextRaw_plain (by simp [peek]), if_neg (by simp only [peek]; decide),
    if_neg (by simp only [peek]; decide), if_neg (by simp only [peek]; decide),
    if_neg (by simp [peek])]
  rfl

/-! ## Operators -/

/-- The text begins with an operator that is neither a comment nor a number. -/
def opStart (l : List Char) : Prop :=
  ¬['/', '/'] <+: l ∧ ¬['/', '*'] <+: l ∧ ∀ d, digit d → ¬['.', d] <+: l

theorem op_first (sp : List Char) (k : Kind) (h : (sp, k) ∈ opTable) :
    ∃ c t, sp = c :: t ∧ isLetter c = false ∧ c ≠ '_' ∧ isDecDigit c = false ∧ c ≠ '\'' ∧
      c ≠ '"' ∧ c ≠ '`' ∧ c ≠ ' ' ∧ c ≠ '\t' ∧ c ≠ '\r' := by
  have : ∀ p ∈ opTable, (match p.1 with
      | [] => false
      | c :: _ => isLetter c = false ∧ c ≠ '_' ∧ isDecDigit c = false ∧ c ≠ '\'' ∧
        c ≠ '"' ∧ c ≠ '`' ∧ c ≠ ' ' ∧ c ≠ '\t' ∧ c ≠ '\r' : Bool) = true := by decide
  have := this (sp, k) h
  cases sp with
  | nil => cases this
  | cons c t => exact ⟨c, t, rfl, by simpa using this⟩

theorem nextRaw_op {l r : List Char} {k : Kind} (h : LongestOp l k r) (hs : opStart l) :
    nextRaw l = .ok (.op k, r) := by
  have ho := (operator_iff l r k).2 h
  have hoe : operatorOrEnd l = .ok (.op k, r) := by unfold operatorOrEnd; rw [ho]
  obtain ⟨sp, hm, hl, _⟩ := h
  obtain ⟨c, t, rfl, h1, h2, h3, h4, h5, h6, h7, h8, h9⟩ := op_first sp k hm
  have hp : peek l = c := by rw [hl]; rfl
  have hsp : spacesAndComments l = .ok l := by
    by_cases hc : c = '/'
    · subst hc
      rw [hl, List.cons_append]
      apply spaces_slash
      · intro h
        apply hs.1
        rw [hl]
        cases ht : t ++ r with
        | nil => rw [ht] at h; cases h
        | cons a b => rw [ht] at h; exact ⟨b, by
            have ha : a = '/' := h
            rw [List.cons_append (as := t), ht, ha]; rfl⟩
      · intro h
        apply hs.2.1
        rw [hl]
        cases ht : t ++ r with
        | nil => rw [ht] at h; cases h
        | cons a b => rw [ht] at h; exact ⟨b, by
            have ha : a = '*' := h
            rw [List.cons_append (as := t), ht, ha]; rfl⟩
    · exact spaces_id (by rw [hp]; exact ⟨h7, h8, h9, hc⟩)
  unfold nextRaw
  rw [hsp, bind_ok]
  dsimp only
  rw [hp, if_neg (by simp [h1, h2])]
  by_cases hd : c = '.'
  · subst hd
    rw [if_pos (Or.inr rfl)]
    have hn : number l = .ok (none, l) := by
      unfold number
      have hhex : decide (peek l = '0' ∧ (peek l.tail = 'x' ∨ peek l.tail = 'X')) = false := by
        rw [hp]; simp
      rw [hhex]
      simp only [Bool.false_eq_true, if_false, false_and]
      rw [if_pos]
      refine ⟨hp, ?_⟩
      unfold charDigit
      rw [if_pos rfl, if_neg]
      intro hdig
      rw [hl] at hdig
      simp only [List.cons_append, List.tail_cons] at hdig
      cases ht : t ++ r with
      | nil => rw [ht] at hdig; revert hdig; decide
      | cons a b =>
        rw [ht] at hdig
        refine hs.2.2 a hdig ⟨b, ?_⟩
        rw [hl, List.cons_append (as := t), ht]; rfl
    rw [hn, bind_ok]
    exact hoe
  · rw [if_neg (by simp [h3, hd]), if_neg h4, if_neg (by simp [h5, h6])]
    exact hoe

/-! ## Whole texts -/

theorem op_no_blank : ∀ p ∈ opTable, ' ' ∉ p.1 := by decide

theorem prefix_append_blank {q sp rest : List Char} (hq : ' ' ∉ q) (h : q <+: sp ++ ' ' :: rest) :
    q.length ≤ sp.length := by
  refine Nat.le_of_not_lt fun hlt => hq ?_
  obtain ⟨t, ht⟩ := h
  have h1 : (q ++ t)[sp.length]? = (sp ++ ' ' :: rest)[sp.length]? := by rw [ht]
  rw [List.getElem?_append_left hlt, List.getElem?_append_right (Nat.le_refl _)] at h1
  simp only [Nat.sub_self, List.getElem?_cons_zero] at h1
  exact List.mem_of_getElem? h1

theorem op_clean : ∀ p ∈ opTable, ¬['/', '/'] <+: p.1 ++ [' '] ∧ ¬['/', '*'] <+: p.1 ++ [' '] ∧
    (match p.1 ++ [' '] with
      | '.' :: d :: _ => isDecDigit d = false
      | _ => True : Bool) = true := by decide

theorem prefix2 {a b c : Char} {t l : List Char} (h : [a, b] <+: t ++ c :: l) (ht : t ≠ []) :
    [a, b] <+: t ++ [c] := by
  match t, ht with
  | [x], _ =>
    obtain ⟨u, hu⟩ := h
    simp only [List.cons_append, List.nil_append] at hu
    injection hu with h1 h2; injection h2 with h2 _
    exact ⟨[], by simp [h1, h2]⟩
  | x :: y :: t, _ =>
    obtain ⟨u, hu⟩ := h
    simp only [List.cons_append, List.nil_append] at hu
    injection hu with h1 h2; injection h2 with h2 _
    exact ⟨t ++ [c], by simp [h1, h2]⟩

theorem nextRaw_lexeme {x : Lexeme} (hv : x.valid) (rest : List Char) :
    nextRaw (x.text ++ ' ' :: rest) = .ok (x.tok, ' ' :: rest) := by
  cases x with
  | word w => exact nextRaw_word hv (by simp only [peek]; decide)
  | dec n =>
    have := nextRaw_dec (rest := ' ' :: rest) hv.1 (by simp only [peek]; decide) (by simp [peek])
    rw [if_pos hv.2] at this
    exact this
  | hex ux us n =>
    have := nextRaw_hex (ux := ux) (us := us) (rest := ' ' :: rest) hv.1
      (by simp only [peek]; decide) (by simp [peek])
    rw [if_pos hv.2] at this
    exact this
  | op sp k =>
    obtain ⟨c, t, hc, _⟩ := op_first sp k hv
    have hne : sp ≠ [] := by rw [hc]; simp
    have hcl := op_clean _ hv
    refine nextRaw_op ⟨sp, hv, rfl, fun q hq hp => prefix_append_blank (op_no_blank q hq) hp⟩
      ⟨fun h => hcl.1 (prefix2 h hne), fun h => hcl.2.1 (prefix2 h hne), ?_⟩
    intro d hd h
    obtain ⟨u, hu⟩ := prefix2 h hne
    change _ = sp ++ [' '] at hu
    have h3 := hcl.2.2
    dsimp only at h3
    rw [← hu] at h3
    simp only [List.cons_append, List.nil_append, decide_eq_true_eq] at h3
    rw [(isDecDigit_iff d).2 hd] at h3
    cases h3
  | str items =>
    have e : (Lexeme.str items).text ++ ' ' :: rest = '"' :: (itemsText items ++ '"' :: ' ' :: rest) := by
      simp [Lexeme.text]
    have := strLiteral_str items (' ' :: rest) hv
    rw [e] at this ⊢
    rw [nextRaw_string (Or.inl rfl), this]; rfl
  | raw text =>
    have e : (Lexeme.raw text).text ++ ' ' :: rest = '`' :: (text ++ '`' :: ' ' :: rest) := by
      simp [Lexeme.text]
    have := strLiteral_raw text (' ' :: rest) hv
    rw [e] at this ⊢
    rw [nextRaw_string (Or.inr rfl), this]
  | chr i =>
    have e : (Lexeme.chr i).text ++ ' ' :: rest = '\'' :: (i.text ++ '\'' :: ' ' :: rest) := by
      simp [Lexeme.text]
    have := charLiteral_chr i (' ' :: rest) hv.1 hv.2
    rw [e] at this ⊢
    rw [nextRaw_quote, this]; rfl
  | newline => exact nextRaw_newline _

theorem rawTokens_eq (l : List Char) : rawTokens l = (nextRaw l >>= fun p =>
    if p.1 = .eof then .ok [.eof] else (rawTokens p.2).map (p.1 :: ·)) := by
  rw [rawTokens.eq_def]
  split
  · next h => rw [h]; rfl
  · next h =>
    rw [h, bind_ok]
    dsimp only
    split
    · rfl
    · rfl

theorem tokens_eq (prev : Option Tok) (l : List Char) : tokens prev l = (next prev l >>= fun p =>
    if p.1 = .eof then .ok [.eof] else (tokens (some p.1) p.2).map (p.1 :: ·)) := by
  rw [tokens.eq_def]
  split
  · next h => rw [h]; rfl
  · next h =>
    rw [h, bind_ok]
    dsimp only
    split
    · rfl
    · rfl

theorem next_eq (prev : Option Tok) (l : List Char) : next prev l = (nextRaw l >>= fun p =>
    if p.1 = .eoln then
      if prev.any endsStatement then .ok (.implicitSemicolon, p.2) else next (some .eoln) p.2
    else .ok p) := by
  rw [next.eq_def]
  split
  · next h => rw [h]; rfl
  · next h =>
    rw [h, bind_ok]
    dsimp only
    split
    · rfl
    · rfl

theorem rawTokens_blank (l : List Char) : rawTokens (' ' :: l) = rawTokens l := by
  rw [rawTokens_eq, rawTokens_eq, nextRaw_space (Or.inl rfl)]

theorem tok_ne_eof (x : Lexeme) : x.tok ≠ .eof := by
  cases x <;> simp only [Lexeme.tok] <;> first | (split <;> simp) | simp

theorem rawTokens_program (ls : List Lexeme) (hv : ∀ x ∈ ls, x.valid) :
    rawTokens (program ls) = .ok (ls.map Lexeme.tok ++ [.eof]) := by
  induction ls with
  | nil => rw [rawTokens_eq]; simp only [program, List.flatMap_nil]; rw [nextRaw_nil]; rfl
  | cons x ls ih =>
    have e : program (x :: ls) = x.text ++ ' ' :: program ls := by simp [program]
    rw [rawTokens_eq, e, nextRaw_lexeme (hv x (by simp)), bind_ok, if_neg (tok_ne_eof x),
      rawTokens_blank, ih (fun y hy => hv y (by simp [hy]))]
    rfl

/-! ## Implicit semicolons -/

theorem endsStatement_iff (t : Tok) : endsStatement t = true ↔ endsLine t := by
  unfold endsLine
  cases t with
  | kw k => cases k <;> simp [endsStatement]
  | op k => cases k <;> simp [endsStatement]
  | _ => simp [endsStatement]

/-- `withSemicolons` with the token before the list. -/
def semis : Option Tok → List Tok → List Tok
  | _, [] => []
  | prev, t :: ts =>
    if t = .eoln then
      if prev.any endsStatement then .implicitSemicolon :: semis (some t) ts
      else semis (some t) ts
    else t :: semis (some t) ts

open Classical in
theorem semis_eq (prev : Option Tok) (raw : List Tok) :
    semis prev raw = (raw.zip (prev :: raw.map some)).filterMap fun p =>
      if p.1 = .eoln then
        if ∃ t, p.2 = some t ∧ endsLine t then some .implicitSemicolon else none
      else some p.1 := by
  induction raw generalizing prev with
  | nil => rfl
  | cons t ts ih =>
    have hany : (prev.any endsStatement = true) ↔ ∃ t, prev = some t ∧ endsLine t := by
      cases prev with
      | none => simp
      | some p => simp [endsStatement_iff]
    simp only [semis, List.map_cons, List.zip_cons_cons, List.filterMap_cons]
    by_cases ht : t = .eoln
    · rw [if_pos ht, if_pos ht]
      by_cases hp : prev.any endsStatement = true
      · rw [if_pos hp, if_pos (hany.1 hp), ih]
      · rw [if_neg hp, if_neg (fun h => hp (hany.2 h)), ih]
    · rw [if_neg ht, if_neg ht, ih]

theorem semis_prev {a b : Option Tok} (ts : List Tok)
    (h : a.any endsStatement = b.any endsStatement) : semis a ts = semis b ts := by
  cases ts with
  | nil => rfl
  | cons t ts => simp only [semis, h]

theorem tokens_prev {a b : Option Tok} (h : a.any endsStatement = b.any endsStatement)
    (l : List Char) : tokens a l = tokens b l := by
  have hn : next a l = next b l := by rw [next_eq, next_eq b, h]
  rw [tokens_eq, tokens_eq b, hn]

theorem map_map {α β γ ε : Type} (f : α → β) (g : β → γ) (x : Except ε α) :
    (x.map f).map g = x.map (g ∘ f) := by cases x <;> rfl

theorem tokens_semis (n : Nat) : ∀ (l : List Char), l.length ≤ n → ∀ prev : Option Tok,
    tokens prev l = (rawTokens l).map (semis prev) := by
  induction n with
  | zero =>
    intro l hl prev
    have : l = [] := List.eq_nil_of_length_eq_zero (by omega)
    subst this
    rw [tokens_eq, next_eq, rawTokens_eq, nextRaw_nil]
    rfl
  | succ n ih =>
    intro l hl prev
    rw [rawTokens_eq]
    cases hr : nextRaw l with
    | error e => rw [tokens_eq, next_eq, hr]; rfl
    | ok p =>
      obtain ⟨t, r⟩ := p
      rw [bind_ok]
      dsimp only
      by_cases ht : t = .eof
      · subst ht
        rw [tokens_eq, next_eq, hr]; rfl
      · have hlt := nextRaw_length hr ht
        have hrn : r.length ≤ n := by omega
        rw [if_neg ht]
        by_cases he : t = .eoln
        · subst he
          by_cases hp : prev.any endsStatement = true
          · have hnx : next prev l = .ok (.implicitSemicolon, r) := by
              rw [next_eq, hr, bind_ok, if_pos rfl, if_pos hp]
            rw [tokens_eq, hnx, bind_ok]
            dsimp only
            rw [if_neg (by simp), ih r hrn, map_map, map_map]
            congr 1
            funext ts
            simp only [Function.comp, semis, hp, if_true]
            rw [semis_prev (a := some .implicitSemicolon) (b := some .eoln) ts rfl]
          · have hnx : next prev l = next (some .eoln) r := by
              rw [next_eq, hr, bind_ok, if_pos rfl, if_neg hp]
            rw [tokens_eq, hnx, ← tokens_eq, ih r hrn, map_map]
            congr 1
            funext ts
            simp only [Function.comp, semis, hp, if_true]
            rfl
        · have hnx : next prev l = .ok (t, r) := by
            rw [next_eq, hr, bind_ok, if_neg he]
          rw [tokens_eq, hnx, bind_ok]
          dsimp only
          rw [if_neg ht, ih r hrn, map_map, map_map]
          congr 1
          funext ts
          simp only [Function.comp, semis, if_neg he]

/-! ## The two passes over a string literal -/

theorem strPass_two (n : Nat) : ∀ (l : List Char), l.length ≤ n → ∀ size s o r,
    strPass none size l = .ok (s, o, r) → size < s ∧ ∀ b : List Nat, s ≤ b.length →
      ∃ b', b'.length = b.length ∧ strPass (some b) size l = .ok (s, some b', r) := by
  induction n with
  | zero =>
    intro l hl size s o r h
    have : l = [] := List.eq_nil_of_length_eq_zero (by omega)
    subst this
    rw [strPass.eq_def] at h
    simp [escChar] at h
  | succ n ih =>
    intro l hl size s o r h
    rw [strPass.eq_def] at h
    split at h
    · cases h
    · rename_i ch e l' hesc
      split at h
      · next hq =>
        change Except.ok (size + 1, none, l') = _ at h
        injection h with h; injection h with h h'; injection h' with h' h''
        subst h; subst h''
        refine ⟨by omega, fun b hb => ⟨b.set size 0, by simp, ?_⟩⟩
        rw [strPass.eq_def]
        split
        · next hx => rw [hesc] at hx; cases hx
        · next hx =>
          rw [hesc] at hx
          injection hx with hx; injection hx with hx hx'; injection hx' with hx' hx''
          subst hx; subst hx'; subst hx''
          rw [if_pos hq, putB_some (by omega)]
          rfl
      · next hq =>
        split at h
        · cases h
        · next hn =>
          split at h
          · cases h
          · next h0 =>
            change strPass none (size + 1) l' = _ at h
            have hlt : l'.length < l.length := by
              rcases escChar_length hesc with h | h
              · exact h
              · exact absurd h.1 h0
            obtain ⟨h1, h2⟩ := ih l' (by omega) _ _ _ _ h
            refine ⟨by omega, fun b hb => ?_⟩
            obtain ⟨b', hb', hs⟩ := h2 (b.set size ch) (by simpa using hb)
            refine ⟨b', by rw [hb']; simp, ?_⟩
            rw [strPass.eq_def]
            split
            · next hx => rw [hesc] at hx; cases hx
            · next hx =>
              rw [hesc] at hx
              injection hx with hx; injection hx with hx hx'; injection hx' with hx' hx''
              subst hx; subst hx'; subst hx''
              rw [if_neg hq, if_neg hn, dif_neg h0, putB_some (by omega)]
              exact hs

theorem rawPass_two (l : List Char) : ∀ size s o r,
    rawPass none size l = .ok (s, o, r) → size < s ∧ ∀ b : List Nat, s ≤ b.length →
      ∃ b', b'.length = b.length ∧ rawPass (some b) size l = .ok (s, some b', r) := by
  induction l with
  | nil => intro size s o r h; cases h
  | cons c l ih =>
    intro size s o r h
    simp only [rawPass] at h
    split at h
    · next hc =>
      change Except.ok (size + 1, none, l) = _ at h
      injection h with h; injection h with h h'; injection h' with h' h''
      subst h; subst h''
      refine ⟨by omega, fun b hb => ⟨b.set size 0, by simp, ?_⟩⟩
      simp only [rawPass, if_pos hc]
      rw [putB_some (by omega)]
      rfl
    · next hc =>
      split at h
      · next hcr =>
        change rawPass none (size + 1) l = _ at h
        obtain ⟨h1, h2⟩ := ih _ _ _ _ h
        refine ⟨by omega, fun b hb => ?_⟩
        obtain ⟨b', hb', hs⟩ := h2 (b.set size c.toNat) (by simpa using hb)
        refine ⟨b', by rw [hb']; simp, ?_⟩
        simp only [rawPass, if_neg hc, if_pos hcr]
        rw [putB_some (by omega)]
        exact hs
      · next hcr =>
        obtain ⟨h1, h2⟩ := ih _ _ _ _ h
        refine ⟨h1, fun b hb => ?_⟩
        obtain ⟨b', hb', hs⟩ := h2 b hb
        exact ⟨b', hb', by simp only [rawPass, if_neg hc, if_neg hcr]; exact hs⟩

theorem strLiteralPass_two {l r : List Char} {s : Nat} {o : Option (List Nat)}
    (h : strLiteralPass none l = .ok (s, o, r)) :
    ∃ b, b.length = s ∧ strLiteralPass (some (List.replicate s 0)) l = .ok (s, some b, r) := by
  unfold strLiteralPass at h ⊢
  split at h
  · next hp =>
    rw [if_pos hp]
    obtain ⟨b, hb, h'⟩ := (strPass_two _ _ (Nat.le_refl _) _ _ _ _ h).2 (List.replicate s 0) (by simp)
    exact ⟨b, by simpa using hb, h'⟩
  · next hp =>
    rw [if_neg hp]
    obtain ⟨b, hb, h'⟩ := (rawPass_two _ _ _ _ _ h).2 (List.replicate s 0) (by simp)
    exact ⟨b, by simpa using hb, h'⟩

/-! ## Rejected strings -/

theorem strPass_bad (items : List Item) (tail : List Char) (e : Fault)
    (hvalid : ValidString items)
    (hends : ∀ i, items.getLast? = some i → i.endsBefore (peek tail))
    (hstop : ∀ size, strPass none size tail = .error e) (size : Nat) :
    strPass none size (itemsText items ++ tail) = .error e := by
  induction items generalizing size with
  | nil => exact hstop size
  | cons i is ih =>
    obtain ⟨h1, h2, h3, h4, h5⟩ := hvalid
    have e1 : itemsText (i :: is) ++ tail = i.text ++ (itemsText is ++ tail) := by
      simp [itemsText]
    have he : i.endsBefore (peek (itemsText is ++ tail)) := by
      cases is with
      | nil => exact hends i rfl
      | cons j js =>
        have hne : ∃ c t, j.text = c :: t := by cases j <;> exact ⟨_, _, rfl⟩
        obtain ⟨c, t, hc⟩ := hne
        have : headOr0 (itemsText (j :: js) ++ ['"']) = peek (itemsText (j :: js) ++ tail) := by
          simp [itemsText, hc, headOr0, peek]
        rw [← this]; exact h4
    rw [e1, strPass_step h1 h2 h3 he]
    change strPass none (size + 1) _ = _
    refine ih h5 (fun k hk => hends k ?_) (size + 1)
    cases is with
    | nil => cases hk
    | cons j js => rw [List.getLast?_cons_cons]; exact hk

theorem strPass_newline (size : Nat) (rest : List Char) :
    strPass none size ('\n' :: rest) = .error (.err .unterminatedString) := by
  have hesc : escChar ('\n' :: rest) = .ok (10, false, rest) := by
    unfold escChar
    split
    · next h => cases h
    · next h => injection h with h; exact absurd h (by decide)
    · next h => injection h with h h'; subst h; subst h'; rfl
  rw [strPass.eq_def]
  split
  · next h => rw [hesc] at h; cases h
  · next h =>
    rw [hesc] at h
    injection h with h; injection h with h h'; injection h' with h' h''
    subst h; subst h'; subst h''
    rw [if_neg (by decide), if_pos (by decide)]

theorem strPass_eof (size : Nat) : strPass none size [] = .error (.err .unterminatedString) := by
  rw [strPass.eq_def]
  simp [escChar]

theorem strPass_zero (size : Nat) {i : Item} {tail : List Char} (hv : i.valid)
    (h0 : i.value = 0) (hp : ∀ c, i ≠ .plain c) (he : i.endsBefore (peek tail))
    (hx : peek tail ≠ 'x' ∧ peek tail ≠ 'X') :
    strPass none size (i.text ++ tail) = .error (.err .illegalInString) := by
  have hesc := escChar_item i tail hv he (Or.inr hx)
  have ht : Item.escaped i = true := by
    cases i with
    | plain c => exact absurd rfl (hp c)
    | esc c => rfl
    | hex ds => rfl
  rw [strPass.eq_def]
  split
  · next h => rw [hesc] at h; cases h
  · next h =>
    rw [hesc] at h
    injection h with h; injection h with h h'; injection h' with h' h''
    subst h; subst h'; subst h''
    rw [if_neg (by simp [ht]), if_neg (by simp [ht]), dif_pos h0]

end Umka.Lexer
