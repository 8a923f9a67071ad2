import Verif.Lexer.Lits
/-! # Lexer: character and string literals -/

namespace Umka.Lexer
open Spec

theorem peek_eq_headOr0 (l : List Char) : peek l = headOr0 l := by cases l <;> rfl

/-! ## Escapes -/

theorem hexValue_digits (ds : List Digit) (hv : ∀ d ∈ ds, d.val < 16) :
    hexValue (ds.map Digit.char) = positional 16 (ds.map Digit.val) := by
  unfold hexValue positional
  suffices h : ∀ v, (ds.map Digit.char).foldl (fun v c => v * 16 + (charDigit 16 c).getD 0) v =
      (ds.map Digit.val).foldl (fun v d => v * 16 + d) v from h 0
  intro v
  induction ds generalizing v with
  | nil => rfl
  | cons d ds ih =>
    simp only [List.map_cons, List.foldl_cons]
    rw [charDigit16 d (hv d (by simp)), ih (fun e he => hv e (by simp [he]))]
    rfl

theorem takeWhile_digits (ds : List Digit) (tail : List Char) (hv : ∀ d ∈ ds, d.val < 16)
    (ht : charDigit 16 (peek tail) = none) :
    (ds.map Digit.char ++ tail).takeWhile (fun c => (charDigit 16 c).isSome) =
      ds.map Digit.char := by
  induction ds with
  | nil =>
    cases tail with
    | nil => rfl
    | cons c t =>
      simp only [peek] at ht
      simp [ht]
  | cons d ds ih =>
    simp only [List.map_cons, List.cons_append, List.takeWhile_cons]
    rw [charDigit16 d (hv d (by simp)), ih (fun e he => hv e (by simp [he]))]
    rfl

/-- `sscanf` reads the digits of a hexadecimal escape. -/
theorem scanHex_digits (ds : List Digit) (tail : List Char) (hne : ds ≠ [])
    (hv : ∀ d ∈ ds, d.val < 16) (hs : positional 16 (ds.map Digit.val) < 2 ^ 32)
    (ht : charDigit 16 (peek tail) = none)
    (hx : positional 16 (ds.map Digit.val) ≠ 0 ∨ (peek tail ≠ 'x' ∧ peek tail ≠ 'X')) :
    scanHex (ds.map Digit.char ++ tail) =
      .ok (some (positional 16 (ds.map Digit.val), ds.length)) := by
  cases ds with
  | nil => exact absurd rfl hne
  | cons d ds =>
    have hd := hv d (by simp)
    have ne : ∀ c, charDigit 16 c = none → d.char ≠ c := fun c hc =>
      digit_char_ne (Or.inr rfl) d hd hc
    have hsp : isSpace d.char = false := by
      have : ∀ v : Fin 16, ∀ u : Bool, isSpace (Digit.char ⟨v.val, u⟩) = false := by decide
      exact this ⟨d.val, hd⟩ d.upper
    have hws : ((d :: ds).map Digit.char ++ tail).takeWhile isSpace = [] := by
      simp [hsp]
    have hm : peek ((d :: ds).map Digit.char ++ tail) = d.char := rfl
    have hminus := ne '-' (by decide)
    have hplus := ne '+' (by decide)
    have hpre : ¬(peek ((d :: ds).map Digit.char ++ tail) = '0' ∧
        (peek ((d :: ds).map Digit.char ++ tail).tail = 'x' ∨
          peek ((d :: ds).map Digit.char ++ tail).tail = 'X')) := by
      rintro ⟨h0, h1⟩
      cases ds with
      | nil =>
        rcases hx with hx | hx
        · have : d.val = 0 := by
            have h2 := charDigit16 d hd
            rw [show d.char = '0' from h0] at h2
            have h3 : charDigit 16 '0' = some 0 := by decide
            rw [h3] at h2
            injection h2 with h2
            exact h2.symm
          apply hx
          simp [positional, this]
        · rcases h1 with h1 | h1
          · exact hx.1 h1
          · exact hx.2 h1
      | cons d' ds =>
        have hd' := hv d' (by simp)
        rcases h1 with h1 | h1
        · exact digit_char_ne (Or.inr rfl) d' hd' (c := 'x') (by decide) h1
        · exact digit_char_ne (Or.inr rfl) d' hd' (c := 'X') (by decide) h1
    unfold scanHex
    rw [hws]
    simp only [List.length_nil, List.drop_zero]
    rw [hm]
    simp only [hminus, hplus, or_self, if_false, decide_false, List.drop_zero]
    rw [hm] at hpre
    simp only [hm, hpre, if_false, List.drop_zero]
    rw [takeWhile_digits _ _ hv ht, if_neg (by simp), hexValue_digits _ hv, if_neg (by omega)]
    simp

theorem endsBefore_none {ds : List Digit} {c : Char} (h : (Item.hex ds).endsBefore c) :
    charDigit 16 c = none := by
  cases hc : charDigit 16 c with
  | none => rfl
  | some v =>
    obtain ⟨d, h1, h2, h3⟩ := charDigit_surj (Or.inr rfl) hc
    exact absurd h3 (h d (by omega))

/-- An item of a literal is not escaped exactly if it is a plain character. -/
def Item.escaped : Item → Bool
  | .plain _ => false
  | _ => true

theorem escChar_backslash (l : List Char) : escChar ('\\' :: l) = (match l with
    | [] => .ok (0, true, [])
    | '0' :: l => .ok (0, true, l)
    | 'a' :: l => .ok (7, true, l)
    | 'b' :: l => .ok (8, true, l)
    | 'f' :: l => .ok (12, true, l)
    | 'n' :: l => .ok (10, true, l)
    | 'r' :: l => .ok (13, true, l)
    | 't' :: l => .ok (9, true, l)
    | 'v' :: l => .ok (11, true, l)
    | 'x' :: l => (scanHex l >>= fun o => match o with
      | none => .error (.err .charCode)
      | some (hex, len) =>
        if hex > 255 then .error (.err .charCode) else .ok (hex, true, l.drop len))
    | c :: l => .ok (c.toNat, true, l)) := rfl

theorem escChar_item (i : Item) (tail : List Char) (hv : i.valid)
    (he : i.endsBefore (peek tail))
    (hx : i.value ≠ 0 ∨ (peek tail ≠ 'x' ∧ peek tail ≠ 'X')) :
    escChar (i.text ++ tail) = .ok (i.value, Item.escaped i, tail) := by
  cases i with
  | plain c =>
    simp only [Item.text, List.cons_append, List.nil_append]
    unfold escChar
    split
    · next h => cases h
    · next h => injection h with h _; exact absurd h hv
    · next h => injection h with h h'; subst h; subst h'; rfl
  | esc c =>
    simp only [Item.text, List.cons_append, List.nil_append, Item.value, Item.escaped]
    obtain ⟨h1, h2⟩ := hv
    rw [escChar_backslash]
    split
    · next h => cases h
    case h_11 =>
      rename_i n0 na nb nf nn nr nt nv nx h
      injection h with h h'; subst h; subst h'
      have : escValue c = c.toNat := by
        unfold escValue escapes
        have e0 : ¬'0' = c := fun h => n0 h.symm
        have ea : ¬'a' = c := fun h => na h.symm
        have eb : ¬'b' = c := fun h => nb h.symm
        have ef : ¬'f' = c := fun h => nf h.symm
        have en : ¬'n' = c := fun h => nn h.symm
        have er : ¬'r' = c := fun h => nr h.symm
        have et : ¬'t' = c := fun h => nt h.symm
        have ev : ¬'v' = c := fun h => nv h.symm
        have ee : ¬'e' = c := fun h => h2 h.symm
        simp [e0, ea, eb, ef, en, er, et, ev, ee]
      rw [this]
    case h_10 => next h => injection h with h; exact absurd h h1
    all_goals
      next h => injection h with h h'; subst h; subst h'; rfl
  | hex ds =>
    obtain ⟨h1, h2, h3⟩ := hv
    have hs := scanHex_digits ds tail h1 h2 (by omega) (endsBefore_none he) hx
    simp only [Item.text, List.cons_append, Item.value, Item.escaped]
    rw [escChar_backslash]
    change (scanHex (List.map Digit.char ds ++ tail) >>= _) = _
    rw [hs, bind_ok]
    dsimp only
    rw [if_neg (by omega)]
    have e : (List.map Digit.char ds ++ tail).drop ds.length = tail := by
      have := List.drop_left (l₁ := List.map Digit.char ds) (l₂ := tail)
      rwa [List.length_map] at this
    rw [e]

/-! ## Strings -/

theorem putB_some {b : List Nat} {i ch : Nat} (h : i < b.length) :
    put (some b) i ch = .ok (some (b.set i ch)) := by
  unfold put; dsimp only; rw [if_pos h]

theorem headOr0_append (a b : List Char) (c : Char) :
    headOr0 (a ++ c :: b) = headOr0 (a ++ [c]) := by cases a <;> rfl

theorem strPass_step {buf : Option (List Nat)} {size : Nat} {i : Item} {tail : List Char}
    (hv : i.valid) (h0 : i.value ≠ 0) (hp : ∀ c, i = .plain c → c ≠ '"' ∧ c ≠ '\n' ∧ c ≠ '\x00')
    (he : i.endsBefore (peek tail)) :
    strPass buf size (i.text ++ tail) =
      (put buf size i.value >>= fun buf => strPass buf (size + 1) tail) := by
  have hesc := escChar_item i tail hv he (Or.inl h0)
  have hq : ¬(i.value = 34 ∧ Item.escaped i = false) := by
    rintro ⟨h1, h2⟩
    cases i with
    | plain c =>
      have := (hp c rfl).1
      apply this
      have hc : c.toNat = 34 := h1
      rw [← Char.ofNat_toNat c, hc]
    | esc c => cases h2
    | hex ds => cases h2
  have hn : ¬((i.value = 0 ∨ i.value = 10) ∧ Item.escaped i = false) := by
    rintro ⟨h1, h2⟩
    cases i with
    | plain c =>
      have := (hp c rfl).2.1
      apply this
      have hc : c.toNat = 10 := by
        rcases h1 with h1 | h1
        · exact absurd h1 h0
        · exact h1
      rw [← Char.ofNat_toNat c, hc]
    | esc c => cases h2
    | hex ds => cases h2
  rw [strPass.eq_def]
  split
  · next h => rw [hesc] at h; cases h
  · next h =>
    rw [hesc] at h
    injection h with h; injection h with h h'; injection h' with h' h''
    subst h; subst h'; subst h''
    rw [if_neg hq, if_neg hn, dif_neg h0]
    cases put buf size i.value <;> rfl

theorem strPass_end {buf : Option (List Nat)} {size : Nat} {tail : List Char} :
    strPass buf size ('"' :: tail) =
      (put buf size 0 >>= fun buf => .ok (size + 1, buf, tail)) := by
  have hesc : escChar ('"' :: tail) = .ok (34, false, tail) := by
    unfold escChar
    split
    · next h => cases h
    · next h => injection h with h; exact absurd h (by decide)
    · next h => injection h with h h'; subst h; subst h'; rfl
  rw [strPass.eq_def]
  split
  · next h => rw [hesc] at h; cases h
  · next h =>
    rw [hesc] at h
    injection h with h; injection h with h h'; injection h' with h' h''
    subst h; subst h'; subst h''
    rw [if_pos (by decide)]
    rfl

theorem strPass_none (items : List Item) (rest : List Char) (size : Nat)
    (hv : ValidString items) :
    strPass none size (itemsText items ++ '"' :: rest) = .ok (size + items.length + 1, none, rest) := by
  induction items generalizing size with
  | nil => exact strPass_end
  | cons i is ih =>
    obtain ⟨h1, h2, h3, h4, h5⟩ := hv
    have e : itemsText (i :: is) ++ '"' :: rest = i.text ++ (itemsText is ++ '"' :: rest) := by
      simp [itemsText]
    rw [e, strPass_step h1 h2 h3 (by rw [peek_eq_headOr0, headOr0_append]; exact h4)]
    change strPass none (size + 1) _ = _
    rw [ih (size + 1) h5, List.length_cons]
    congr 2; omega

theorem strPass_some (items : List Item) (rest : List Char) (done todo : List Nat)
    (hl : todo.length = items.length + 1) (hv : ValidString items) :
    strPass (some (done ++ todo)) done.length (itemsText items ++ '"' :: rest) =
      .ok (done.length + items.length + 1,
        some (done ++ items.map Item.value ++ [0]), rest) := by
  induction items generalizing done todo with
  | nil =>
    match todo, hl with
    | [x], _ =>
      change strPass _ _ ('"' :: rest) = _
      rw [strPass_end, putB_some (by simp), bind_ok]
      simp
  | cons i is ih =>
    obtain ⟨h1, h2, h3, h4, h5⟩ := hv
    have e : itemsText (i :: is) ++ '"' :: rest = i.text ++ (itemsText is ++ '"' :: rest) := by
      simp [itemsText]
    match todo, hl with
    | x :: todo, hl =>
      rw [e, strPass_step h1 h2 h3 (by rw [peek_eq_headOr0, headOr0_append]; exact h4),
        putB_some (by simp), bind_ok]
      have e2 : (done ++ x :: todo).set done.length i.value = (done ++ [i.value]) ++ todo := by
        simp
      have e3 : done.length + 1 = (done ++ [i.value]).length := by simp
      rw [e2, e3, ih (done ++ [i.value]) todo (by simpa using hl) h5]
      simp; omega

theorem rawPass_none (text rest : List Char) (size : Nat) (hv : '`' ∉ text) :
    rawPass none size (text ++ '`' :: rest) =
      .ok (size + (text.filter (· ≠ '\r')).length + 1, none, rest) := by
  induction text generalizing size with
  | nil => simp [rawPass, put, pure_eq]; rfl
  | cons c t ih =>
    simp only [List.mem_cons, not_or] at hv
    simp only [List.cons_append, rawPass]
    rw [if_neg (fun h => hv.1 h.symm)]
    by_cases hc : c = '\r'
    · subst hc
      rw [if_neg (by simp), ih _ hv.2]
      simp
    · rw [if_pos hc]
      change rawPass none (size + 1) _ = _
      rw [ih _ hv.2]
      simp [hc]; omega

theorem rawPass_some (text rest : List Char) (done todo : List Nat)
    (hl : todo.length = (text.filter (· ≠ '\r')).length + 1) (hv : '`' ∉ text) :
    rawPass (some (done ++ todo)) done.length (text ++ '`' :: rest) =
      .ok (done.length + (text.filter (· ≠ '\r')).length + 1,
        some (done ++ (text.filter (· ≠ '\r')).map Char.toNat ++ [0]), rest) := by
  induction text generalizing done todo with
  | nil =>
    match todo, hl with
    | [x], _ =>
      simp only [List.nil_append, rawPass, if_true]
      rw [putB_some (by simp), bind_ok]
      simp [pure_eq]
  | cons c t ih =>
    simp only [List.mem_cons, not_or] at hv
    simp only [List.cons_append, rawPass]
    rw [if_neg (fun h => hv.1 h.symm)]
    by_cases hc : c = '\r'
    · subst hc
      rw [if_neg (by simp), ih done todo (by simpa using hl) hv.2]
      simp
    · rw [if_pos hc]
      match todo, hl with
      | x :: todo, hl =>
        rw [putB_some (by simp)]
        have e2 : (done ++ x :: todo).set done.length c.toNat = (done ++ [c.toNat]) ++ todo := by
          simp
        have e3 : done.length + 1 = (done ++ [c.toNat]).length := by simp
        dsimp only
        rw [e2, e3, ih (done ++ [c.toNat]) todo (by simpa [hc] using hl) hv.2]
        simp [hc]; omega

theorem strLiteral_str (items : List Item) (rest : List Char) (hv : ValidString items) :
    strLiteral ((Lexeme.str items).text ++ rest) = .ok (.str (items.map Item.value), rest) := by
  have e : (Lexeme.str items).text ++ rest = '"' :: (itemsText items ++ '"' :: rest) := by
    simp [Lexeme.text]
  unfold strLiteral strLiteralPass
  rw [e, if_pos (show peek ('"' :: _) = '"' from rfl), List.tail_cons,
    strPass_none items rest 0 hv, bind_ok]
  dsimp only
  rw [if_pos (show peek ('"' :: _) = '"' from rfl)]
  have := strPass_some items rest [] (List.replicate (0 + items.length + 1) 0) (by simp) hv
  rw [List.nil_append, List.length_nil] at this
  rw [this, bind_ok]
  simp [pure_eq]

theorem strLiteral_raw (text rest : List Char) (hv : '`' ∉ text) :
    strLiteral ((Lexeme.raw text).text ++ rest) = .ok ((Lexeme.raw text).tok, rest) := by
  have e : (Lexeme.raw text).text ++ rest = '`' :: (text ++ '`' :: rest) := by
    simp [Lexeme.text]
  unfold strLiteral strLiteralPass
  rw [e, if_neg (show ¬peek ('`' :: (text ++ '`' :: rest)) = '"' from fun h => absurd h (show '`' ≠ '"' by decide)), List.tail_cons,
    rawPass_none text rest 0 hv, bind_ok]
  dsimp only
  rw [if_neg (show ¬peek ('`' :: (text ++ '`' :: rest)) = '"' from fun h => absurd h (show '`' ≠ '"' by decide))]
  have := rawPass_some text rest []
    (List.replicate (0 + (text.filter (· ≠ '\r')).length + 1) 0) (by simp) hv
  rw [List.nil_append, List.length_nil] at this
  rw [this, bind_ok]
  simp [pure_eq, Lexeme.tok]

theorem charLiteral_chr (i : Item) (rest : List Char) (hv : i.valid) (he : i.endsBefore '\'') :
    charLiteral ((Lexeme.chr i).text ++ rest) = .ok (.char i.value, rest) := by
  have e : (Lexeme.chr i).text ++ rest = '\'' :: (i.text ++ '\'' :: rest) := by
    simp [Lexeme.text]
  unfold charLiteral
  rw [e, List.tail_cons, escChar_item i ('\'' :: rest) hv he (Or.inr ⟨by simp [peek], by simp [peek]⟩),
    bind_ok]
  dsimp only
  rw [if_pos (show peek ('\'' :: rest) = '\'' from rfl)]
  rfl

end Umka.Lexer
