import Verif.Lexer.Tok
/-!
# Lexer: model

Models umka_lexer.c: comments, identifiers, operators, numbers, character and string literals and
implicit semicolons.

The input is the list of the characters (bytes, read as `Char`) that have not been read yet, up to
the terminating zero of the buffer (umka_lexer.c:140-145); `lex->buf[lex->bufPos]` is the head of the
list, or 0 if the list is empty (`peek`); `lexChar` (umka_lexer.c:180-193) takes the tail.  Line and
column numbers are not modelled.  `error->handler` never returns (it is a `longjmp`), so it is the
outcome `err`.
-/

namespace Umka.Lexer

inductive Fault where
  | err (e : Err)
  | ub
  deriving DecidableEq, Repr

abbrev Res (α : Type) := Except Fault α

/-- `lex->buf[lex->bufPos]`. -/
def peek : List Char → Char
  | [] => '\x00'
  | c :: _ => c

/-! ## Spaces and comments -/

/-- `lexSingleLineComment` (umka_lexer.c:250-255), from the character after the second slash: the
rest starts with the newline, if there is one. -/
def singleLineComment : List Char → List Char
  | [] => []
  | c :: l => if c = '\n' then c :: l else singleLineComment l

/-- The loop of `lexMultiLineComment` (umka_lexer.c:258-277) together with the final `lexChar`. -/
def multiLineComment : List Char → Res (List Char)
  | [] => .error (.err .unterminatedComment)
  | '*' :: [] => .error (.err .unterminatedComment)
  | '*' :: c :: l => if c = '/' then .ok l else multiLineComment l
  | _ :: l => multiLineComment l

theorem multiLineComment_length (l r : List Char) (h : multiLineComment l = .ok r) :
    r.length < l.length := by
  fun_induction multiLineComment l with
  | case1 => cases h
  | case2 => cases h
  | case3 l => injection h with h; subst h; simp; omega
  | case4 c l hc ih => have := ih h; simp; omega
  | case5 c l _ _ ih => have := ih h; simp; omega

theorem singleLineComment_length (l : List Char) : (singleLineComment l).length ≤ l.length := by
  induction l with
  | nil => simp [singleLineComment]
  | cons c l ih =>
    simp only [singleLineComment]
    split
    · exact Nat.le_refl _
    · simp; omega

/-- `lexSpacesAndComments` (umka_lexer.c:280-306). -/
def spacesAndComments (l : List Char) : Res (List Char) :=
  match l with
  | [] => .ok []
  | c :: l' =>
    if c = ' ' ∨ c = '\t' ∨ c = '\r' then spacesAndComments l'
    else if c = '/' then
      match l' with
      | '/' :: l'' => spacesAndComments (singleLineComment l'')
      | '*' :: l'' =>
        match _h : multiLineComment l'' with
        | .error e => .error e
        | .ok r => spacesAndComments r
      | _ => .ok l
    else .ok l
  termination_by l.length
  decreasing_by
  · simp
  · have := singleLineComment_length l''; simp; omega
  · have := multiLineComment_length _ _ _h; simp; omega

/-! ## Identifiers and keywords -/

def isLetter (c : Char) : Bool :=
  decide (('A' ≤ c ∧ c ≤ 'Z') ∨ ('a' ≤ c ∧ c ≤ 'z'))

def isDecDigit (c : Char) : Bool := decide ('0' ≤ c ∧ c ≤ '9')

/-- The condition of the loop in `lexKeywordOrIdent` (umka_lexer.c:327-328). -/
def isIdentChar (c : Char) : Bool := isLetter c || isDecDigit c || c == '_'

/-- The keywords and their spellings (umka_lexer.c:17-37, umka_lexer.h:15-34). -/
def keywords : List (List Char × Kind) :=
  [(['b', 'r', 'e', 'a', 'k'], .kBreak), (['c', 'a', 's', 'e'], .kCase), (['c', 'o', 'n', 's', 't'], .kConst),
   (['c', 'o', 'n', 't', 'i', 'n', 'u', 'e'], .kContinue), (['d', 'e', 'f', 'a', 'u', 'l', 't'], .kDefault), (['e', 'l', 's', 'e'], .kElse),
   (['e', 'n', 'u', 'm'], .kEnum), (['f', 'n'], .kFn), (['f', 'o', 'r'], .kFor),
   (['i', 'm', 'p', 'o', 'r', 't'], .kImport), (['i', 'n', 't', 'e', 'r', 'f', 'a', 'c', 'e'], .kInterface), (['i', 'f'], .kIf),
   (['i', 'n'], .kIn), (['m', 'a', 'p'], .kMap), (['r', 'e', 't', 'u', 'r', 'n'], .kReturn),
   (['s', 't', 'r', 'u', 'c', 't'], .kStruct), (['s', 'w', 'i', 't', 'c', 'h'], .kSwitch), (['t', 'y', 'p', 'e'], .kType),
   (['v', 'a', 'r'], .kVar), (['w', 'e', 'a', 'k'], .kWeak)]

/-- `MAX_IDENT_LEN` (umka_common.h:15-16). -/
def maxIdentLen : Nat := 255

/-- The loop of `lexKeywordOrIdent` (umka_lexer.c:315-328): `len` characters are already stored,
in reverse order in `acc`. -/
def identLoop (acc : List Char) (len : Nat) : List Char → Res (List Char × List Char)
  | [] => .ok (acc.reverse, [])
  | c :: l =>
    if isIdentChar c then
      if len + 1 > maxIdentLen then .error (.err .identTooLong)
      else identLoop (c :: acc) (len + 1) l
    else .ok (acc.reverse, c :: l)

/-- `lexKeywordOrIdent` (umka_lexer.c:309-341); the first character is already known to be a letter
or an underscore. -/
def keywordOrIdent (l : List Char) : Res (Tok × List Char) := do
  let (name, rest) ← identLoop [] 0 l
  match keywords.find? (fun p => p.1 = name) with
  | some p => return (.kw p.2, rest)
  | none => return (.ident name, rest)

/-! ## Operators -/

/-- `lexOperator` (umka_lexer.c:344-656) without the newline. -/
def operator : List Char → Option (Kind × List Char)
  | '+' :: l => match l with
    | '=' :: l => some (.plusEq, l)
    | '+' :: l => some (.plusPlus, l)
    | l => some (.plus, l)
  | '-' :: l => match l with
    | '=' :: l => some (.minusEq, l)
    | '-' :: l => some (.minusMinus, l)
    | l => some (.minus, l)
  | '*' :: l => match l with
    | '=' :: l => some (.mulEq, l)
    | l => some (.mul, l)
  | '/' :: l => match l with
    | '=' :: l => some (.divEq, l)
    | l => some (.div, l)
  | '%' :: l => match l with
    | '=' :: l => some (.modEq, l)
    | l => some (.mod, l)
  | '&' :: l => match l with
    | '=' :: l => some (.andEq, l)
    | '&' :: l => some (.andAnd, l)
    | l => some (.and, l)
  | '|' :: l => match l with
    | '=' :: l => some (.orEq, l)
    | '|' :: l => some (.orOr, l)
    | l => some (.or, l)
  | '~' :: l => match l with
    | '=' :: l => some (.xorEq, l)
    | l => some (.xor, l)
  | '<' :: l => match l with
    | '<' :: l => match l with
      | '=' :: l => some (.shlEq, l)
      | l => some (.shl, l)
    | '=' :: l => some (.lessEq, l)
    | l => some (.less, l)
  | '>' :: l => match l with
    | '>' :: l => match l with
      | '=' :: l => some (.shrEq, l)
      | l => some (.shr, l)
    | '=' :: l => some (.greaterEq, l)
    | l => some (.greater, l)
  | '=' :: l => match l with
    | '=' :: l => some (.eqEq, l)
    | l => some (.eq, l)
  | '?' :: l => some (.question, l)
  | '!' :: l => match l with
    | '=' :: l => some (.notEq, l)
    | l => some (.not, l)
  | '(' :: l => some (.lPar, l)
  | ')' :: l => some (.rPar, l)
  | '[' :: l => some (.lBracket, l)
  | ']' :: l => some (.rBracket, l)
  | '{' :: l => some (.lBrace, l)
  | '}' :: l => some (.rBrace, l)
  | '^' :: l => some (.caret, l)
  | ',' :: l => some (.comma, l)
  | ';' :: l => some (.semicolon, l)
  | ':' :: l => match l with
    | '=' :: l => some (.colonEq, l)
    | ':' :: l => some (.colonColon, l)
    | l => some (.colon, l)
  | '.' :: l => match l with
    | '.' :: l => some (.ellipsis, l)
    | l => some (.period, l)
  | _ => none

/-! ## Numbers -/

/-- `lexCharDigit` (umka_lexer.c:659-670). -/
def charDigit (base : Nat) (c : Char) : Option Nat :=
  if base = 10 then
    if '0' ≤ c ∧ c ≤ '9' then some (c.toNat - 48) else none
  else
    if '0' ≤ c ∧ c ≤ '9' then some (c.toNat - 48)
    else if 'a' ≤ c ∧ c ≤ 'f' then some (c.toNat - 97 + 10)
    else if 'A' ≤ c ∧ c ≤ 'F' then some (c.toNat - 65 + 10)
    else none

/-- The loop of `lexDigitSeq` (umka_lexer.c:683-711); `uint64_t` arithmetic wraps around. -/
def digitLoop (base : Nat) (isFrac : Bool) (result len : Nat) (skip : Bool) :
    List Char → Res (Nat × Nat × List Char)
  | [] => .ok (result, len, [])
  | c :: l =>
    match charDigit base c with
    | none => .ok (result, len, c :: l)
    | some d =>
      let newResult := (result * base + d) % 2 ^ 64
      let overflow : Bool := decide (result * base % 2 ^ 64 / base ≠ result ∨ newResult < result)
      if overflow && !isFrac then .error (.err .tooLarge)
      else
        let skip := skip || overflow
        let result := if skip then result else newResult
        let len := if skip then len else len + 1
        match l with
        | '_' :: l' =>
          if (charDigit base (peek l')).isSome then digitLoop base isFrac result len skip l'
          else .error (.err .underscore)
        | l => digitLoop base isFrac result len skip l

/-- `lexDigitSeq` (umka_lexer.c:673-712). -/
def digitSeq (base : Nat) (isFrac : Bool) (l : List Char) : Res (Nat × Nat × List Char) :=
  if charDigit base (peek l) = none then .error (.err .invalidNumber)
  else digitLoop base isFrac 0 0 false l

/-- The exponent of a number (umka_lexer.c:744-755). -/
def exponent (isReal : Bool) (whole frac fracLen : Nat) (l : List Char) : Res (Tok × List Char) :=
  if peek l = 'e' ∨ peek l = 'E' then do
    let l := l.tail
    let neg := decide (peek l = '-')
    let l := if peek l = '-' ∨ peek l = '+' then l.tail else l
    let (expon, _, l) ← digitSeq 10 false l
    return (.real whole frac fracLen expon neg, l)
  else if isReal then .ok (.real whole frac fracLen 0 false, l)
  else .ok (.int whole, l)

/-- `lexNumber` (umka_lexer.c:715-779).  `none`: no number, the kind stays `TOK_NONE`; a prefix
`0x` has been skipped nevertheless.  The check that a real number is finite is not modelled. -/
def number (l : List Char) : Res (Option Tok × List Char) := do
  let hex := decide (peek l = '0' ∧ (peek l.tail = 'x' ∨ peek l.tail = 'X'))
  let l := if hex then l.tail.tail else l
  let l := if hex ∧ peek l = '_' then l.tail else l
  let base := if hex then 16 else 10
  if peek l = '.' ∧ charDigit 10 (peek l.tail) = none then .ok (none, l)
  else do
    let (whole, _, l) ←
      (if ¬(peek l = '.' ∧ base = 10) then digitSeq base false l else .ok (0, 0, l) :
        Res (Nat × Nat × List Char))
    if base = 10 then do
      if peek l = '.' then do
        let l := l.tail
        let (frac, fracLen, l) ←
          (if (charDigit 10 (peek l)).isSome then digitSeq 10 true l else .ok (0, 0, l) :
            Res (Nat × Nat × List Char))
        let (t, l) ← exponent true whole frac fracLen l
        return (some t, l)
      else do
        let (t, l) ← exponent false whole 0 0 l
        return (some t, l)
    else return (some (.int whole), l)

/-! ## Character and string literals -/

/-- White space of the C library (`isspace` in the "C" locale). -/
def isSpace (c : Char) : Bool := decide (c = ' ' ∨ (9 ≤ c.toNat ∧ c.toNat ≤ 13))

/-- The value of hexadecimal digits. -/
def hexValue (l : List Char) : Nat := l.foldl (fun v c => v * 16 + (charDigit 16 c).getD 0) 0

/-- `sscanf(.., "%x%n", &hex, &len)` as the C standard defines it (C11 7.21.6.2): white space is
skipped, then an optional sign, an optional prefix `0x` and digits.  `none` means no match.  A value
that does not fit `unsigned int`, and a prefix without digits, are `ub`. -/
def scanHex (l : List Char) : Res (Option (Nat × Nat)) :=
  let ws := (l.takeWhile isSpace).length
  let l := l.drop ws
  let sign := if peek l = '-' ∨ peek l = '+' then 1 else 0
  let neg := decide (peek l = '-')
  let l := l.drop sign
  let pre := if peek l = '0' ∧ (peek l.tail = 'x' ∨ peek l.tail = 'X') then 2 else 0
  let l := l.drop pre
  let ds := l.takeWhile (fun c => (charDigit 16 c).isSome)
  if ds = [] then (if pre = 2 then .error .ub else .ok none)
  else if hexValue ds ≥ 2 ^ 32 then .error .ub
  else .ok (some ((if neg then (2 ^ 32 - hexValue ds) % 2 ^ 32 else hexValue ds),
    ws + sign + pre + ds.length))

/-- `lexEscChar` (umka_lexer.c:208-247).  The argument and the last component of the result are the
characters after the current one. -/
def escChar : List Char → Res (Nat × Bool × List Char)
  | [] => .ok (0, false, [])
  | '\\' :: l => match l with
    | [] => .ok (0, true, [])
    | '0' :: l => .ok (0, true, l)
    | 'a' :: l => .ok (7, true, l)
    | 'b' :: l => .ok (8, true, l)
    | 'f' :: l => .ok (12, true, l)
    | 'n' :: l => .ok (10, true, l)
    | 'r' :: l => .ok (13, true, l)
    | 't' :: l => .ok (9, true, l)
    | 'v' :: l => .ok (11, true, l)
    | 'x' :: l => do
      match ← scanHex l with
      | none => .error (.err .charCode)
      | some (hex, len) =>
        if hex > 255 then .error (.err .charCode) else .ok (hex, true, l.drop len)
    | c :: l => .ok (c.toNat, true, l)
  | c :: l => .ok (c.toNat, false, l)

theorem escChar_length {l r : List Char} {ch : Nat} {e : Bool} (h : escChar l = .ok (ch, e, r)) :
    r.length < l.length ∨ (ch = 0 ∧ r = []) := by
  unfold escChar at h
  split at h
  · injection h with h; injection h with h h'; injection h' with _ h'
    exact Or.inr ⟨h.symm, h'.symm⟩
  · left
    rename_i l'
    split at h
    case h_1 =>
      injection h with h; injection h with _ h; injection h with _ h; subst h
      simp only [List.length_cons, List.length_nil]; omega
    case h_10 l'' =>
      cases hs : scanHex l'' with
      | error e => rw [hs] at h; cases h
      | ok o =>
        rw [hs] at h
        change (match o with
          | none => Except.error (Fault.err Err.charCode)
          | some (hex, len) => if hex > 255 then Except.error (Fault.err Err.charCode)
            else Except.ok (hex, true, List.drop len l'')) = _ at h
        cases o with
        | none => cases h
        | some p =>
          dsimp only at h
          split at h
          · cases h
          · injection h with h; injection h with _ h; injection h with _ h; subst h; simp; omega
    all_goals
      injection h with h; injection h with _ h; injection h with _ h; subst h
      simp only [List.length_cons]; omega
  · left; injection h with h; injection h with _ h; injection h with _ h; subst h; simp

theorem escChar_len {l r : List Char} {ch : Nat} {e : Bool} (h : escChar l = .ok (ch, e, r)) :
    r.length ≤ l.length := by
  rcases escChar_length h with h1 | ⟨_, h1⟩
  · omega
  · rw [h1]; simp

/-- Stores a character of a literal if there is a buffer. -/
def put (buf : Option (List Nat)) (i : Nat) (ch : Nat) : Res (Option (List Nat)) :=
  match buf with
  | none => .ok none
  | some b => if i < b.length then .ok (some (b.set i ch)) else .error .ub

/-- The loop of `lexSingleLineStrLiteralAndGetSize` (umka_lexer.c:797-828), with the final
terminator.  `buf` is `lex->tok.strVal`. -/
def strPass (buf : Option (List Nat)) (size : Nat) (l : List Char) :
    Res (Nat × Option (List Nat) × List Char) :=
  match _h : escChar l with
  | .error e => .error e
  | .ok (ch, escaped, l') =>
    if ch = 34 ∧ escaped = false then do
      let buf ← put buf size 0
      return (size + 1, buf, l')
    else if (ch = 0 ∨ ch = 10) ∧ escaped = false then .error (.err .unterminatedString)
    else if _h0 : ch = 0 then .error (.err .illegalInString)
    else
      match put buf size ch with
      | .error e => .error e
      | .ok buf => strPass buf (size + 1) l'
  termination_by l.length
  decreasing_by
    rcases escChar_length _h with h | h
    · exact h
    · exact absurd h.1 _h0

/-- The loop of `lexMultiLineStrLiteralAndGetSize` (umka_lexer.c:831-861). -/
def rawPass (buf : Option (List Nat)) (size : Nat) :
    List Char → Res (Nat × Option (List Nat) × List Char)
  | [] => .error (.err .unterminatedString)
  | c :: l =>
    if c = '`' then do
      let buf ← put buf size 0
      return (size + 1, buf, l)
    else if c ≠ '\r' then
      match put buf size c.toNat with
      | .error e => .error e
      | .ok buf => rawPass buf (size + 1) l
    else rawPass buf size l

/-- `lexStrLiteralAndGetSize` (umka_lexer.c:864-870). -/
def strLiteralPass (buf : Option (List Nat)) (l : List Char) :
    Res (Nat × Option (List Nat) × List Char) :=
  if peek l = '"' then strPass buf 0 l.tail else rawPass buf 0 l.tail

/-- `lexStrLiteral` (umka_lexer.c:873-881): measure, allocate `size` bytes (`storageAddStr`,
umka_common.c:91-102), fill.  The string is everything before the terminator. -/
def strLiteral (l : List Char) : Res (Tok × List Char) := do
  let (size, _, _) ← strLiteralPass none l
  let (_, buf, rest) ← strLiteralPass (some (List.replicate size 0)) l
  match buf with
  | none => .error .ub
  | some b => return (.str (b.take (size - 1)), rest)

/-- `lexCharLiteral` (umka_lexer.c:782-794). -/
def charLiteral (l : List Char) : Res (Tok × List Char) := do
  let (ch, _, l) ← escChar l.tail
  if peek l = '\'' then return (.char ch, l.tail) else .error (.err .charLiteral)

/-! ## Tokens -/

/-- `lexOperator` and the end of `lexNextWithEOLN` (umka_lexer.c:896-905). -/
def operatorOrEnd (l : List Char) : Res (Tok × List Char) :=
  match operator l with
  | some (k, l) => .ok (.op k, l)
  | none =>
    match l with
    | '\n' :: l => .ok (.eoln, l)
    | [] => .ok (.eof, [])
    | _ => .error (.err .unexpected)

/-- `lexNextWithEOLN` (umka_lexer.c:877-906). -/
def nextRaw (l : List Char) : Res (Tok × List Char) := do
  let l ← spacesAndComments l
  let c := peek l
  if isLetter c ∨ c = '_' then keywordOrIdent l
  else if isDecDigit c ∨ c = '.' then do
    match ← number l with
    | (some t, l) => return (t, l)
    | (none, l) => operatorOrEnd l
  else if c = '\'' then charLiteral l
  else if c = '"' ∨ c = '`' then strLiteral l
  else operatorOrEnd l

/-- The tokens after which a newline is a semicolon (umka_lexer.c:916-929). -/
def endsStatement : Tok → Bool
  | .kw .kBreak | .kw .kContinue | .kw .kReturn => true
  | .op .plusPlus | .op .minusMinus | .op .rPar | .op .rBracket | .op .rBrace | .op .caret => true
  | .ident _ | .int _ | .real .. | .char _ | .str _ => true
  | _ => false

end Umka.Lexer
