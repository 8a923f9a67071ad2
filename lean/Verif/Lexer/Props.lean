import Verif.Lexer.Program
/-!
# Lexer: properties

C25 integer literals, C26 block comments, C27 implicit semicolons, C28 string and character literals,
C29 operators, C58 the text is split into tokens without loss.

`nextRaw` is the next token of a text and the text that remains, `tokens none` the tokens that the
parser gets for a whole file, `rawTokens` the same before implicit semicolons.
-/

namespace Umka.Lexer.Props
open Spec

deriving instance DecidableEq for Except

/-! ## C25: integer literals -/

/-- C25, decimal.  A decimal literal that is not followed by a letter, a digit, an underscore or a
point denotes its value, and if the value does not fit 64 bits, it is an error: never a wrapped
value. -/
theorem C25_decimal_literal (n : Number) (rest : List Char) (hv : n.valid 10)
    (hr : ¬identChar (headOr0 rest)) (hdot : headOr0 rest ≠ '.') :
    nextRaw (n.text ++ rest) =
      if positional 10 n.digits < 2 ^ 64 then .ok (.int (positional 10 n.digits), rest)
      else .error (.err .tooLarge) := by
  rw [← peek_eq_headOr0] at hr hdot
  exact nextRaw_dec hv hr hdot

/-- Satisfiable: `1_024`. -/
example : nextRaw ['1', '_', '0', '2', '4', ';'] = .ok (.int 1024, [';']) :=
  C25_decimal_literal ⟨⟨1, false⟩, [(true, ⟨0, false⟩), (false, ⟨2, false⟩), (false, ⟨4, false⟩)]⟩
    [';'] (by unfold Number.valid; decide) (by decide) (by decide)

/-- C25, hexadecimal. -/
theorem C25_hex_literal (ux us : Bool) (n : Number) (rest : List Char) (hv : n.valid 16)
    (hr : ∀ d : Digit, d.val < 16 → d.char ≠ headOr0 rest) (hus : headOr0 rest ≠ '_') :
    nextRaw ((Lexeme.hex ux us n).text ++ rest) =
      if positional 16 n.digits < 2 ^ 64 then .ok (.int (positional 16 n.digits), rest)
      else .error (.err .tooLarge) := by
  rw [← peek_eq_headOr0] at hr hus
  exact nextRaw_hex hv (endsBefore_none (ds := []) hr) hus

/-- Satisfiable: `0XfF`. -/
example : nextRaw ['0', 'X', 'f', 'F', ')'] = .ok (.int 255, [')']) :=
  C25_hex_literal true false ⟨⟨15, false⟩, [(false, ⟨15, true⟩)]⟩ [')']
    (by unfold Number.valid; decide)
    (by
      intro d hd h
      have : ∀ v : Fin 16, ∀ u : Bool, Digit.char ⟨v.val, u⟩ ≠ ')' := by decide
      exact this ⟨d.val, hd⟩ d.upper h)
    (by decide)

/-- Every value below 2^64 has a literal, so the first case is not empty; 2^64 itself is the first
value that is rejected. -/
example : positional 10 [1, 8, 4, 4, 6, 7, 4, 4, 0, 7, 3, 7, 0, 9, 5, 5, 1, 6, 1, 5] = 2 ^ 64 - 1 ∧
    positional 10 [1, 8, 4, 4, 6, 7, 4, 4, 0, 7, 3, 7, 0, 9, 5, 5, 1, 6, 1, 6] = 2 ^ 64 := by decide

/-- C25, conversely: an integer token comes from a literal in the text, which denotes it. -/
theorem C25_only_literals (l r : List Char) (v : Nat) (hd : digit (headOr0 l))
    (h : nextRaw l = .ok (.int v, r)) :
    v < 2 ^ 64 ∧
      ((∃ n : Number, n.valid 10 ∧ l = n.text ++ r ∧ v = positional 10 n.digits) ∨
       ∃ ux us, ∃ n : Number, n.valid 16 ∧ l = (Lexeme.hex ux us n).text ++ r ∧
        v = positional 16 n.digits) := by
  rw [← peek_eq_headOr0] at hd
  exact nextRaw_int_only hd h

example : nextRaw ['0', 'x', '_', '1', '0'] = .ok (.int 16, []) := by
  rw [nextRaw_digit (by unfold digit; decide)]; rfl

/-! ## C26: comments -/

/-- C26 is false as stated: the comment `/***/` is not closed by its `*/`. -/
theorem C26_block_comment_violated :
    ∃ l body rest, FirstClose l body rest ∧
      nextRaw ('/' :: '*' :: l) = .error (.err .unterminatedComment) ∧
      nextRaw rest = .ok (.eof, []) := by
  refine ⟨['*', '*', '/'], ['*'], [], ⟨rfl, by decide⟩, ?_, nextRaw_nil⟩
  unfold nextRaw
  rw [spaces_block]
  rfl

/-- C26, exactly: a block comment ends at the first `*/` if an even number of asterisks stands just
before it; if the number is odd, that `*/` is overlooked and the comment goes on.  Missing from the
full statement: the case of an odd number. -/
theorem C26_block_comment_partial (l body rest : List Char) (h : FirstClose l body rest) :
    nextRaw ('/' :: '*' :: l) =
      if trailingStars body % 2 = 0 then nextRaw rest else nextRaw ('/' :: '*' :: rest) := by
  obtain ⟨rfl, hn⟩ := h
  have e := multiLine_exact rest body.length body (Nat.le_refl _) hn
  have e' : body ++ ['*', '/'] ++ rest = body ++ '*' :: '/' :: rest := by simp
  rw [e']
  by_cases hs : trailingStars body % 2 = 0
  · rw [if_pos hs] at e ⊢
    refine nextRaw_of_spaces ?_
    rw [spaces_block, e, bind_ok]
  · rw [if_neg hs] at e ⊢
    refine nextRaw_of_spaces ?_
    rw [spaces_block, spaces_block, e]

/-- Satisfiable: `/* a **/x`, closed at once. -/
example : FirstClose ['a', '*', '*', '*', '/', 'x'] ['a', '*', '*'] ['x'] ∧
    trailingStars ['a', '*', '*'] % 2 = 0 := ⟨⟨rfl, by decide⟩, by decide⟩

/-- C26: without a `*/` the comment is an error. -/
theorem C26_unterminated (l : List Char) (h : ¬['*', '/'] <:+: l) :
    nextRaw ('/' :: '*' :: l) = .error (.err .unterminatedComment) := by
  unfold nextRaw
  rw [spaces_block]
  cases hm : multiLineComment l with
  | ok r => exact absurd (multiLine_ok_infix l r hm) h
  | error e => rw [multiLine_err l e hm]; rfl

example : ¬['*', '/'] <:+: ['*', ' ', '/'] := by decide

/-- C26: a line comment extends to the end of the line, which stays. -/
theorem C26_line_comment (body rest : List Char) (h : '\n' ∉ body) :
    nextRaw ('/' :: '/' :: (body ++ '\n' :: rest)) = .ok (.eoln, rest) := by
  rw [nextRaw_of_spaces (l' := '\n' :: rest), nextRaw_newline]
  rw [spaces_line, singleLine_eq body rest h]

example : '\n' ∉ ['*', '/'] := by decide

/-! ## C27: implicit semicolons -/

/-- C27.  Whatever the text, the parser gets the tokens of the text, except that the end of a line
becomes a semicolon if the token just before it ends a statement, and is dropped otherwise. -/
theorem C27_implicit_semicolons (l : List Char) :
    tokens none l = (rawTokens l).map withSemicolons := by
  rw [tokens_semis l.length l (Nat.le_refl _)]
  congr 1
  funext ts
  exact semis_eq none ts

/-- Satisfiable, with both cases: `a` newline `+` newline `b` newline. -/
example : tokens none (program [.word ['a'], .newline, .op ['+'] .plus, .newline, .word ['b'],
      .newline]) =
    .ok [.ident ['a'], .implicitSemicolon, .op .plus, .ident ['b'], .implicitSemicolon, .eof] := by
  rw [tokens_semis _ _ (Nat.le_refl _), rawTokens_program]
  · decide
  · intro x hx
    simp only [List.mem_cons, List.not_mem_nil, or_false] at hx
    rcases hx with rfl | rfl | rfl | rfl | rfl | rfl
    · exact ⟨by decide, by decide, _, _, rfl, by unfold digit; decide⟩
    · trivial
    · show (_, _) ∈ _; decide
    · trivial
    · exact ⟨by decide, by decide, _, _, rfl, by unfold digit; decide⟩
    · trivial

/-- C27: after an export mark the end of the line is always a semicolon. -/
theorem C27_forced_semicolon (l : List Char) :
    nextForcedSemicolon l = (nextRaw l).map fun p =>
      if p.1 = .eoln then (.implicitSemicolon, p.2) else p := by
  unfold nextForcedSemicolon
  cases h : nextRaw l with
  | error e => rfl
  | ok p =>
    obtain ⟨t, r⟩ := p
    rw [bind_ok]
    change Except.ok (_, r) = Except.ok _
    dsimp only
    split <;> rfl

/-! ## C28: string and character literals -/

/-- C28.  A string literal denotes the values of its items, one byte each. -/
theorem C28_string_literal_partial (items : List Item) (rest : List Char) (hv : ValidString items) :
    nextRaw ('"' :: itemsText items ++ '"' :: rest) = .ok (.str (items.map Item.value), rest) := by
  have := strLiteral_str items rest hv
  have e : (Lexeme.str items).text ++ rest = '"' :: (itemsText items ++ '"' :: rest) := by
    simp [Lexeme.text]
  rw [e] at this
  rw [List.cons_append, nextRaw_string (Or.inl rfl), this]

/-- Satisfiable: `"a\n\x1B["`. -/
example : ValidString [.plain 'a', .esc 'n', .hex [⟨1, false⟩, ⟨11, true⟩], .plain '['] := by
  refine ⟨by simp [Item.valid], by decide, ?_, trivial, ⟨by decide, by decide⟩, by decide, ?_, trivial,
    ⟨by simp, by decide, by decide⟩, by decide, ?_, ?_, by simp [Item.valid], by decide, ?_, trivial, trivial⟩
  · intro c h; injection h with h; subst h; decide
  · intro c h; cases h
  · intro c h; cases h
  · intro d hd h
    have : ∀ v : Fin 16, ∀ u : Bool, Digit.char ⟨v.val, u⟩ ≠ '[' := by decide
    exact this ⟨d.val, hd⟩ d.upper h
  · intro c h; injection h with h; subst h; decide

/-- C28.  A character literal denotes the value of its item. -/
theorem C28_char_literal_partial (i : Item) (rest : List Char) (hv : i.valid)
    (he : i.endsBefore '\'') :
    nextRaw ('\'' :: i.text ++ '\'' :: rest) = .ok (.char i.value, rest) := by
  have := charLiteral_chr i rest hv he
  have e : (Lexeme.chr i).text ++ rest = '\'' :: (i.text ++ '\'' :: rest) := by
    simp [Lexeme.text]
  rw [e] at this
  rw [List.cons_append, nextRaw_quote, this]

example : (Item.esc 't').valid ∧ (Item.esc 't').value = 9 := ⟨⟨by decide, by decide⟩, by decide⟩

/-- C28 is false for the documented escape sequence `\e` (lang.md:78), the ESC character: it denotes
the letter `e`.  This is what is missing from the theorems above. -/
theorem C28_escape_violated :
    (Item.esc 'e').value = 27 ∧
      nextRaw ('\'' :: (Item.esc 'e').text ++ ['\'']) = .ok (.char 101, []) := by
  refine ⟨by decide, ?_⟩
  rw [List.cons_append, nextRaw_quote]
  rfl

/-- C28.  A raw literal denotes its characters without carriage returns. -/
theorem C28_raw_literal (text rest : List Char) (hv : '`' ∉ text) :
    nextRaw ('`' :: text ++ '`' :: rest) =
      .ok (.str ((text.filter (· ≠ '\r')).map Char.toNat), rest) := by
  have := strLiteral_raw text rest hv
  have e : (Lexeme.raw text).text ++ rest = '`' :: (text ++ '`' :: rest) := by
    simp [Lexeme.text]
  rw [e] at this
  rw [List.cons_append, nextRaw_string (Or.inr rfl), this]
  rfl

example : '`' ∉ ['\\', '"', '\n'] := by decide

/-- C28.  A string literal that the end of the line or of the file interrupts is an error. -/
theorem C28_unterminated (items : List Item) (rest : List Char) (hv : ValidString items) :
    nextRaw ('"' :: itemsText items ++ '\n' :: rest) = .error (.err .unterminatedString) ∧
      nextRaw ('"' :: itemsText items) = .error (.err .unterminatedString) := by
  have key : ∀ tail, (∀ size, strPass none size tail = .error (.err .unterminatedString)) →
      (∀ d : Digit, d.val < 16 → d.char ≠ peek tail) →
      nextRaw ('"' :: (itemsText items ++ tail)) = .error (.err .unterminatedString) := by
    intro tail hstop hd
    rw [nextRaw_string (Or.inl rfl)]
    unfold strLiteral strLiteralPass
    rw [if_pos (show peek ('"' :: _) = '"' from rfl), List.tail_cons,
      strPass_bad items tail _ hv ?_ hstop 0]
    · rfl
    · intro i _
      cases i with
      | hex ds => exact hd
      | plain c => trivial
      | esc c => trivial
  constructor
  · rw [List.cons_append]
    refine key ('\n' :: rest) (fun size => strPass_newline size rest) ?_
    intro d hd h
    have : ∀ v : Fin 16, ∀ u : Bool, Digit.char ⟨v.val, u⟩ ≠ '\n' := by decide
    exact this ⟨d.val, hd⟩ d.upper h
  · have := key [] strPass_eof (by
      intro d hd h
      have : ∀ v : Fin 16, ∀ u : Bool, Digit.char ⟨v.val, u⟩ ≠ '\x00' := by decide
      exact this ⟨d.val, hd⟩ d.upper h)
    rwa [List.append_nil] at this

/-- C28.  A string literal cannot contain a zero byte: an escape of value zero is an error. -/
theorem C28_zero_rejected (items : List Item) (i : Item) (rest : List Char)
    (hv : ValidString items) (hi : i.valid) (h0 : i.value = 0) (hp : ∀ c, i ≠ .plain c)
    (he : i.endsBefore (headOr0 rest)) (hx : headOr0 rest ≠ 'x' ∧ headOr0 rest ≠ 'X') :
    nextRaw ('"' :: itemsText items ++ (i.text ++ rest)) = .error (.err .illegalInString) := by
  rw [← peek_eq_headOr0] at he hx
  rw [List.cons_append, nextRaw_string (Or.inl rfl)]
  unfold strLiteral strLiteralPass
  rw [if_pos (show peek ('"' :: _) = '"' from rfl), List.tail_cons,
    strPass_bad items _ _ hv ?_ (fun size => strPass_zero size hi h0 hp he hx) 0]
  · rfl
  · intro j _
    cases j with
    | plain c => trivial
    | esc c => trivial
    | hex ds =>
      have hb : peek (i.text ++ rest) = '\\' := by
        cases i with
        | plain c => exact absurd rfl (hp c)
        | esc c => rfl
        | hex ds => rfl
      intro d hd h
      rw [hb] at h
      have : ∀ v : Fin 16, ∀ u : Bool, Digit.char ⟨v.val, u⟩ ≠ '\\' := by decide
      exact this ⟨d.val, hd⟩ d.upper h

example : (Item.esc '0').valid ∧ (Item.esc '0').value = 0 ∧ ∀ c, Item.esc '0' ≠ .plain c :=
  ⟨⟨by decide, by decide⟩, by decide, by simp⟩

/-- C28.  Whatever the text, the two passes over a string literal agree: the second pass fills
exactly the bytes that the first pass has counted and never writes outside them. -/
theorem C28_two_passes (l r : List Char) (s : Nat) (o : Option (List Nat))
    (h : strLiteralPass none l = .ok (s, o, r)) :
    ∃ b, b.length = s ∧ strLiteralPass (some (List.replicate s 0)) l = .ok (s, some b, r) :=
  strLiteralPass_two h

example : strLiteralPass none ['`', 'a', '\r', 'b', '`'] = .ok (3, none, []) := by rfl

/-! ## C29: operators -/

/-- C29.  If a text begins with an operator, and not with a comment or with a point and a digit, then
the next token is the longest operator with which it begins. -/
theorem C29_longest_match (l r : List Char) (k : Kind) (h : LongestOp l k r)
    (hc : ¬['/', '/'] <+: l ∧ ¬['/', '*'] <+: l) (hd : ∀ d, digit d → ¬['.', d] <+: l) :
    nextRaw l = .ok (.op k, r) := nextRaw_op h ⟨hc.1, hc.2, hd⟩

/-- Satisfiable: `<<=>`. -/
example : LongestOp ['<', '<', '=', '>'] .shlEq ['>'] :=
  ⟨['<', '<', '='], by decide, rfl, by decide⟩

/-- C29.  An operator token is only read where the text begins with that operator, and no longer one
would fit. -/
theorem C29_only_operators (l r : List Char) (k : Kind) :
    operator l = some (k, r) ↔ LongestOp l k r := operator_iff l r k

/-! ## C58: nothing is lost -/

/-- C58.  A text made of tokens separated by spaces is read as those tokens. -/
theorem C58_round_trip (ls : List Lexeme) (hv : ∀ x ∈ ls, x.valid) :
    rawTokens (program ls) = .ok (ls.map Lexeme.tok ++ [.eof]) := rawTokens_program ls hv

/-- Satisfiable: `if` `x` `+=` `10` `"a"` newline. -/
example : ∀ x ∈ [Lexeme.word ['i', 'f'], .word ['x'], .op ['+', '='] .plusEq,
    .dec ⟨⟨1, false⟩, [(false, ⟨0, false⟩)]⟩, .str [.plain 'a'], .newline], x.valid := by
  intro x hx
  simp only [List.mem_cons, List.not_mem_nil, or_false] at hx
  rcases hx with rfl | rfl | rfl | rfl | rfl | rfl
  · exact ⟨by decide, by decide, _, _, rfl, by unfold digit; decide⟩
  · exact ⟨by decide, by decide, _, _, rfl, by unfold digit; decide⟩
  · show (_, _) ∈ _; decide
  · exact ⟨by unfold Number.valid; decide, by decide⟩
  · refine ⟨by simp [Item.valid], by decide, ?_, trivial, trivial⟩
    intro c h; injection h with h; subst h; decide
  · trivial

/-- C58.  Every token other than the end of the file takes at least one character, so reading a file
ends. -/
theorem C58_progress (l r : List Char) (t : Tok) (h : nextRaw l = .ok (t, r)) (ht : t ≠ .eof) :
    r.length < l.length := nextRaw_length h ht

/-- C58 is false for a malformed number: `0x.a` is neither rejected nor read as a number; the `0x`
vanishes. -/
theorem C58_lost_text_violated :
    nextRaw ['0', 'x', '.', 'a'] = nextRaw ['.', 'a'] ∧
      nextRaw ['0', 'x', '.', 'a'] = .ok (.op .period, ['a']) := by
  constructor
  · rw [nextRaw_digit (by unfold digit; decide), nextRaw_op (k := .period) (r := ['a'])]
    · rfl
    · exact ⟨['.'], by decide, rfl, by decide⟩
    · refine ⟨by decide, by decide, ?_⟩
      rintro d hd ⟨t, ht⟩
      simp only [List.cons_append, List.nil_append] at ht
      injection ht with _ ht
      injection ht with ht _
      subst ht
      exact absurd hd (by unfold digit; decide)
  · rw [nextRaw_digit (by unfold digit; decide)]; rfl

end Umka.Lexer.Props
