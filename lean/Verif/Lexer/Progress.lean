import Verif.Lexer.Model
/-!
# Lexer: every token consumes input

This justifies the recursion of `lexNext` and of reading a whole file; then these are modelled.
-/

namespace Umka.Lexer

theorem bind_ok {ε β γ : Type} (x : β) (f : β → Except ε γ) :
    ((Except.ok x : Except ε β) >>= f) = f x := rfl

theorem bind_error {ε β γ : Type} (e : ε) (f : β → Except ε γ) :
    ((Except.error e : Except ε β) >>= f) = .error e := rfl

theorem pure_eq {ε β : Type} (x : β) : (pure x : Except ε β) = .ok x := rfl

theorem bind_eq_ok {ε β γ : Type} {m : Except ε β} {f : β → Except ε γ} {y : γ}
    (h : (m >>= f) = .ok y) : ∃ x, m = .ok x ∧ f x = .ok y := by
  cases m with
  | error e => cases h
  | ok x => exact ⟨x, rfl, h⟩

theorem spacesAndComments_length (l : List Char) :
    ∀ r, spacesAndComments l = .ok r → r.length ≤ l.length := by
  fun_induction spacesAndComments l with
  | case1 => intro r h; injection h with h; subst h; exact Nat.le_refl _
  | case2 c l hc ih => intro r h; have := ih r h; simp; omega
  | case3 l' _ ih =>
    intro r h; have := ih r h
    have := singleLineComment_length l'
    simp; omega
  | case4 l' e _ he => intro r h; cases h
  | case5 l' r' hr _ ih =>
    intro r h
    have := ih r h
    have := multiLineComment_length _ _ hr
    simp; omega
  | case6 => intro r h; injection h with h; subst h; exact Nat.le_refl _
  | case7 => intro r h; injection h with h; subst h; exact Nat.le_refl _

theorem identLoop_length (acc : List Char) (len : Nat) (l : List Char) :
    ∀ n r, identLoop acc len l = .ok (n, r) → r.length ≤ l.length := by
  fun_induction identLoop acc len l with
  | case1 => intro n r h; injection h with h; injection h with _ h; subst h; exact Nat.le_refl _
  | case2 => intro n r h; cases h
  | case3 acc len c l _ _ ih => intro n r h; have := ih n r h; simp; omega
  | case4 => intro n r h; injection h with h; injection h with _ h; subst h; exact Nat.le_refl _

theorem keywordOrIdent_length {l r : List Char} {t : Tok}
    (hc : isLetter (peek l) = true ∨ peek l = '_') (h : keywordOrIdent l = .ok (t, r)) :
    r.length < l.length := by
  cases l with
  | nil => exact absurd hc (by decide)
  | cons c l =>
    unfold keywordOrIdent at h
    obtain ⟨⟨name, r'⟩, h1, h2⟩ := bind_eq_ok h
    have hr : r = r' := by
      dsimp only at h2
      split at h2 <;> (rw [pure_eq] at h2; injection h2 with h2; injection h2 with _ h2; exact h2.symm)
    have hic : isIdentChar c = true := by
      unfold isIdentChar; simp only [peek] at hc
      rcases hc with hc | hc <;> simp [hc]
    rw [identLoop, if_pos hic, if_neg (by decide)] at h1
    have := identLoop_length _ _ _ _ _ h1
    rw [hr]; simp; omega

theorem operator_length {l r : List Char} {k : Kind} (h : operator l = some (k, r)) :
    r.length < l.length := by
  unfold operator at h
  split at h
  all_goals (repeat' split at h)
  all_goals first
    | (injection h with h; injection h with _ h; subst h
       simp only [List.length_cons]; omega)
    | cases h

theorem operatorOrEnd_length {l r : List Char} {t : Tok} (h : operatorOrEnd l = .ok (t, r))
    (ht : t ≠ .eof) : r.length < l.length := by
  unfold operatorOrEnd at h
  split at h
  · next k l' ho =>
    injection h with h; injection h with _ h; subst h
    exact operator_length ho
  · split at h
    · injection h with h; injection h with _ h; subst h; simp
    · injection h with h; injection h with h _; exact absurd h.symm ht
    · cases h

theorem digitLoop_length (base : Nat) (isFrac : Bool) (result len : Nat) (skip : Bool)
    (l : List Char) : ∀ v n r, digitLoop base isFrac result len skip l = .ok (v, n, r) →
      r.length ≤ l.length := by
  fun_induction digitLoop base isFrac result len skip l with
  | case1 =>
    intro v n r h
    injection h with h; injection h with _ h; injection h with _ h; subst h; exact Nat.le_refl _
  | case2 =>
    intro v n r h
    injection h with h; injection h with _ h; injection h with _ h; subst h; exact Nat.le_refl _
  | case3 => intro v n r h; cases h
  | case4 => rename_i ih; intro v n r h; have := ih v n r h; simp; omega
  | case5 => intro v n r h; cases h
  | case6 => rename_i ih; intro v n r h; have := ih v n r h; simp; omega

theorem digitSeq_length {base : Nat} {isFrac : Bool} {l r : List Char} {v n : Nat}
    (hb : base = 10 ∨ base = 16) (h : digitSeq base isFrac l = .ok (v, n, r)) :
    r.length < l.length := by
  unfold digitSeq at h
  split at h
  · cases h
  · next hd =>
    cases l with
    | nil =>
      exfalso; apply hd
      rcases hb with rfl | rfl <;> decide
    | cons c l =>
      simp only [peek] at hd
      rw [digitLoop] at h
      cases hc : charDigit base c with
      | none => exact absurd hc hd
      | some d =>
        rw [hc] at h
        dsimp only at h
        split at h
        · cases h
        · split at h
          · split at h
            · have := digitLoop_length _ _ _ _ _ _ _ _ _ h; simp; omega
            · cases h
          · have := digitLoop_length _ _ _ _ _ _ _ _ _ h; simp; omega

theorem tail_le (l : List Char) : l.tail.length ≤ l.length := by cases l <;> simp

theorem tail_lt {l : List Char} {c : Char} (h : peek l = c) (hc : c ≠ '\x00') :
    l.tail.length < l.length := by
  cases l with
  | nil => exact absurd h.symm hc
  | cons d l => simp

theorem exponent_length {isReal : Bool} {w f n : Nat} {l r : List Char} {t : Tok}
    (h : exponent isReal w f n l = .ok (t, r)) : r.length ≤ l.length := by
  unfold exponent at h
  split at h
  · dsimp only at h
    obtain ⟨⟨e, m, r'⟩, h1, h2⟩ := bind_eq_ok h
    dsimp only at h2
    rw [pure_eq] at h2; injection h2 with h2; injection h2 with _ h2; subst h2
    have := digitSeq_length (Or.inl rfl) h1
    have h3 := tail_le l
    have h4 := tail_le l.tail
    split at this <;> omega
  · split at h
    · injection h with h; injection h with _ h; subst h; exact Nat.le_refl _
    · injection h with h; injection h with _ h; subst h; exact Nat.le_refl _

/-- A number consumes input; if there is none, the rest starts with a dot. -/
theorem number_length {l r : List Char} {o : Option Tok} (h : number l = .ok (o, r)) :
    (o = none → peek r = '.' ∧ r.length ≤ l.length) ∧ (o ≠ none → r.length < l.length) := by
  unfold number at h
  dsimp only at h
  generalize hhex : decide (peek l = '0' ∧ (peek l.tail = 'x' ∨ peek l.tail = 'X')) = hex at h
  generalize hl1 : (if hex = true then l.tail.tail else l) = l1 at h
  generalize hl2 : (if hex = true ∧ peek l1 = '_' then l1.tail else l1) = l2 at h
  have hbase : (if hex = true then 16 else 10) = 10 ∨ (if hex = true then 16 else 10) = 16 := by
    cases hex <;> simp
  generalize (if hex = true then 16 else 10) = base at h hbase
  have hle : l2.length ≤ l.length := by
    have h1 := tail_le l
    have h2 := tail_le l.tail
    have h3 := tail_le l1
    have : l1.length ≤ l.length := by subst hl1; split <;> omega
    subst hl2; split <;> omega
  split at h
  · next hp =>
    injection h with h; injection h with h1 h2; subst h1; subst h2
    exact ⟨fun _ => ⟨hp.1, hle⟩, fun h => absurd rfl h⟩
  · next hp =>
    obtain ⟨⟨whole, n, l3⟩, h1, h⟩ := bind_eq_ok h
    dsimp only at h
    have h3 : l3.length ≤ l2.length ∧ (l3.length < l2.length ∨ (l3 = l2 ∧ peek l2 = '.' ∧
        base = 10)) := by
      split at h1
      · have := digitSeq_length hbase h1
        exact ⟨by omega, Or.inl this⟩
      · next hx =>
        injection h1 with h1; injection h1 with _ h1; injection h1 with _ h1; subst h1
        exact ⟨Nat.le_refl _, Or.inr ⟨rfl, by simpa using hx⟩⟩
    have hsome : ∀ t : Tok, o = some t → o ≠ none := by intro t ht; rw [ht]; simp
    split at h
    · split at h
      · next hdot =>
        obtain ⟨⟨f, n', l4⟩, h4, h⟩ := bind_eq_ok h
        obtain ⟨⟨t, l5⟩, h5, h⟩ := bind_eq_ok h
        rw [pure_eq] at h; injection h with h; injection h with ho h; subst h
        have e1 := tail_lt hdot (by decide)
        have e2 : l4.length ≤ l3.tail.length := by
          split at h4
          · exact Nat.le_of_lt (digitSeq_length (Or.inl rfl) h4)
          · injection h4 with h4; injection h4 with _ h4; injection h4 with _ h4; subst h4
            exact Nat.le_refl _
        have e3 := exponent_length h5
        dsimp only at ho e3 ⊢
        exact ⟨fun hn => absurd hn (by rw [← ho]; simp), fun _ => by omega⟩
      · next hdot =>
        obtain ⟨⟨t, l5⟩, h5, h⟩ := bind_eq_ok h
        rw [pure_eq] at h; injection h with h; injection h with ho h; subst h
        have e3 := exponent_length h5
        dsimp only at ho ⊢
        refine ⟨fun hn => absurd hn (by rw [← ho]; simp), fun _ => ?_⟩
        rcases h3.2 with h3 | ⟨h3, h4, _⟩
        · omega
        · subst h3; exact absurd h4 hdot
    · next hb =>
      rw [pure_eq] at h; injection h with h; injection h with ho h; subst h
      refine ⟨fun hn => absurd hn (by rw [← ho]; simp), fun _ => ?_⟩
      rcases h3.2 with h3 | ⟨_, _, h3⟩
      · omega
      · exact absurd h3 hb

theorem strPass_length (buf : Option (List Nat)) (size : Nat) (l : List Char) :
    ∀ n b r, strPass buf size l = .ok (n, b, r) → r.length ≤ l.length := by
  fun_induction strPass buf size l with
  | case1 => intro n b r h; cases h
  | case2 =>
    rename_i l' he hc
    intro n b r h
    obtain ⟨b', h1, h2⟩ := bind_eq_ok h
    rw [pure_eq] at h2; injection h2 with h2; injection h2 with _ h2; injection h2 with _ h2
    subst h2
    rcases escChar_length he with h3 | h3
    · omega
    · omega
  | case3 => intro n b r h; cases h
  | case4 => intro n b r h; cases h
  | case5 => intro n b r h; cases h
  | case6 =>
    rename_i he h1 h2 h0 _ _ ih
    intro n b r h
    have := ih n b r h
    rcases escChar_length he with h3 | h3
    · omega
    · exact absurd h3.1 h0

theorem rawPass_length (buf : Option (List Nat)) (size : Nat) (l : List Char) :
    ∀ n b r, rawPass buf size l = .ok (n, b, r) → r.length ≤ l.length := by
  fun_induction rawPass buf size l with
  | case1 => intro n b r h; cases h
  | case2 =>
    intro n b r h
    obtain ⟨b', h1, h2⟩ := bind_eq_ok h
    rw [pure_eq] at h2; injection h2 with h2; injection h2 with _ h2; injection h2 with _ h2
    subst h2; simp
  | case3 => intro n b r h; cases h
  | case4 => rename_i ih; intro n b r h; have := ih n b r h; simp; omega
  | case5 => rename_i ih; intro n b r h; have := ih n b r h; simp; omega

theorem strLiteral_length {l r : List Char} {t : Tok} (hc : peek l = '"' ∨ peek l = '`')
    (h : strLiteral l = .ok (t, r)) : r.length < l.length := by
  have ht : l.tail.length < l.length := by
    rcases hc with hc | hc
    · exact tail_lt hc (by decide)
    · exact tail_lt hc (by decide)
  unfold strLiteral at h
  obtain ⟨⟨n, b, r1⟩, h1, h⟩ := bind_eq_ok h
  obtain ⟨⟨n2, b2, r2⟩, h2, h⟩ := bind_eq_ok h
  dsimp only at h
  split at h
  · cases h
  · rw [pure_eq] at h; injection h with h; injection h with _ h; subst h
    unfold strLiteralPass at h2
    split at h2
    · have := strPass_length _ _ _ _ _ _ h2; omega
    · have := rawPass_length _ _ _ _ _ _ h2; omega

theorem charLiteral_length {l r : List Char} {t : Tok} (hc : peek l = '\'')
    (h : charLiteral l = .ok (t, r)) : r.length < l.length := by
  have ht := tail_lt hc (by decide)
  unfold charLiteral at h
  obtain ⟨⟨ch, e, l1⟩, h1, h⟩ := bind_eq_ok h
  dsimp only at h
  split at h
  · next hq =>
    rw [pure_eq] at h; injection h with h; injection h with _ h; subst h
    have h2 := tail_lt hq (by decide)
    have h3 : l1.length ≤ l.tail.length := by
      cases hl : l.tail with
      | nil =>
        rw [hl] at h1
        simp only [escChar] at h1
        injection h1 with h1; injection h1 with _ h1; injection h1 with _ h1; subst h1
        exact Nat.le_refl _
      | cons c l' =>
        rw [hl] at h1
        have := escChar_len h1
        exact this
    omega
  · cases h

/-- **Progress**: every token except the end of file consumes at least one character. -/
theorem nextRaw_length {l r : List Char} {t : Tok} (h : nextRaw l = .ok (t, r)) (ht : t ≠ .eof) :
    r.length < l.length := by
  unfold nextRaw at h
  obtain ⟨l1, h1, h⟩ := bind_eq_ok h
  have hle := spacesAndComments_length _ _ h1
  dsimp only at h
  split at h
  · next hc => have := keywordOrIdent_length hc h; omega
  · split at h
    · obtain ⟨⟨o, l2⟩, h2, h⟩ := bind_eq_ok h
      obtain ⟨hn, hs⟩ := number_length h2
      cases o with
      | some t' =>
        dsimp only at h
        rw [pure_eq] at h; injection h with h; injection h with _ h; subst h
        have := hs (by simp); omega
      | none =>
        dsimp only at h
        have := operatorOrEnd_length h ht
        have := (hn rfl).2
        omega
    · split at h
      · next hc => have := charLiteral_length hc h; omega
      · split at h
        · next hc => have := strLiteral_length hc h; omega
        · have := operatorOrEnd_length h ht; omega

/-! ## Implicit semicolons -/

/-- `lexNext` (umka_lexer.c:908-936): the token and the new `prevTok`, which is the same. -/
def next (prev : Option Tok) (l : List Char) : Res (Tok × List Char) :=
  match _h : nextRaw l with
  | .error e => .error e
  | .ok (t, l') =>
    if _ht : t = .eoln then
      if prev.any endsStatement then .ok (.implicitSemicolon, l')
      else next (some .eoln) l'
    else .ok (t, l')
  termination_by l.length
  decreasing_by exact nextRaw_length _h (by rw [_ht]; simp)

/-- `lexNextForcedSemicolon` (umka_lexer.c:939-948). -/
def nextForcedSemicolon (l : List Char) : Res (Tok × List Char) := do
  let (t, l) ← nextRaw l
  return (if t = .eoln then .implicitSemicolon else t, l)

theorem next_length (prev : Option Tok) (l : List Char) :
    ∀ t r, next prev l = .ok (t, r) → t ≠ .eof → r.length < l.length := by
  fun_induction next prev l with
  | case1 => intro t r h; cases h
  | case2 =>
    rename_i l' _ hr
    intro t r h ht
    injection h with h; injection h with _ h; subst h
    exact nextRaw_length hr (by simp)
  | case3 =>
    rename_i l' _ hr ih
    intro t r h ht
    have := ih t r h ht
    have := nextRaw_length hr (by simp)
    omega
  | case4 =>
    rename_i t' l' hr hne
    intro t r h ht
    injection h with h; injection h with h1 h; subst h; subst h1
    exact nextRaw_length hr ht

/-- The tokens that the parser sees if it reads a whole file by `lexNext`. -/
def tokens (prev : Option Tok) (l : List Char) : Res (List Tok) :=
  match _h : next prev l with
  | .error e => .error e
  | .ok (t, l') =>
    if _ht : t = .eof then .ok [.eof]
    else (tokens (some t) l').map (t :: ·)
  termination_by l.length
  decreasing_by exact next_length _ _ _ _ _h _ht

/-- The same before implicit semicolons: what `lexNextWithEOLN` delivers. -/
def rawTokens (l : List Char) : Res (List Tok) :=
  match _h : nextRaw l with
  | .error e => .error e
  | .ok (t, l') =>
    if _ht : t = .eof then .ok [.eof]
    else (rawTokens l').map (t :: ·)
  termination_by l.length
  decreasing_by exact nextRaw_length _h _ht

end Umka.Lexer
