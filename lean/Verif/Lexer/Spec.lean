import Verif.Lexer.Tok
/-!
# Lexer: specification

How tokens are written, after the language manual (lang.md:11-161), independently of the lexer.
-/

namespace Umka.Lexer.Spec

/-! ## Operators (lang.md:119-127; the comma is missing there) -/

def opTable : List (List Char × Kind) :=
  [(['+'], .plus), (['-'], .minus), (['*'], .mul), (['/'], .div),
   (['%'], .mod), (['&'], .and), (['|'], .or), (['~'], .xor),
   (['<', '<'], .shl), (['>', '>'], .shr), (['+', '='], .plusEq), (['-', '='], .minusEq),
   (['*', '='], .mulEq), (['/', '='], .divEq), (['%', '='], .modEq), (['&', '='], .andEq),
   (['|', '='], .orEq), (['~', '='], .xorEq), (['<', '<', '='], .shlEq), (['>', '>', '='], .shrEq),
   (['&', '&'], .andAnd), (['|', '|'], .orOr), (['?'], .question), (['!'], .not),
   (['+', '+'], .plusPlus), (['-', '-'], .minusMinus), (['=', '='], .eqEq),
   (['<'], .less), (['>'], .greater), (['!', '='], .notEq), (['<', '='], .lessEq),
   (['>', '='], .greaterEq), (['='], .eq), ([':', '='], .colonEq), (['('], .lPar),
   ([')'], .rPar), (['['], .lBracket), ([']'], .rBracket), (['{'], .lBrace),
   (['}'], .rBrace), (['^'], .caret), ([';'], .semicolon), ([':'], .colon),
   ([':', ':'], .colonColon), (['.'], .period), (['.', '.'], .ellipsis),
   ([','], .comma)]

/-- `sp` is the longest operator that is a prefix of `l`, it denotes `k`, and `rest` follows. -/
def LongestOp (l : List Char) (k : Kind) (rest : List Char) : Prop :=
  ∃ sp, (sp, k) ∈ opTable ∧ l = sp ++ rest ∧
    ∀ q ∈ opTable, q.1 <+: l → q.1.length ≤ sp.length

/-! ## Block comments -/

/-- The first `*/` in `l` comes after `body`, and `rest` follows it. -/
def FirstClose (l body rest : List Char) : Prop :=
  l = body ++ ['*', '/'] ++ rest ∧ ¬['*', '/'] <:+: body ++ ['*']

/-- The number of asterisks at the end of `l`. -/
def trailingStars (l : List Char) : Nat := (l.reverse.takeWhile (· == '*')).length

/-! ## Numbers (lang.md:51-57) -/

/-- A digit, with its value and the case in which it is written. -/
structure Digit where
  val : Nat
  upper : Bool

def Digit.char (d : Digit) : Char :=
  if d.val < 10 then Char.ofNat (48 + d.val)
  else if d.upper then Char.ofNat (65 + (d.val - 10)) else Char.ofNat (97 + (d.val - 10))

/-- A number: a digit, then digits that may be preceded by an underscore. -/
structure Number where
  first : Digit
  more : List (Bool × Digit)

def moreText (more : List (Bool × Digit)) : List Char :=
  more.flatMap fun p => if p.1 then ['_', p.2.char] else [p.2.char]

def Number.text (n : Number) : List Char := n.first.char :: moreText n.more

def Number.digits (n : Number) : List Nat := n.first.val :: n.more.map (·.2.val)

/-- Positional notation. -/
def positional (base : Nat) (ds : List Nat) : Nat := ds.foldl (fun v d => v * base + d) 0

def Number.valid (base : Nat) (n : Number) : Prop := ∀ d ∈ n.digits, d < base

/-! ## Character and string literals (lang.md:73-111) -/

inductive Item where
  /-- a character that stands for itself -/
  | plain (c : Char)
  /-- a backslash and a character -/
  | esc (c : Char)
  /-- `\x` and hexadecimal digits -/
  | hex (ds : List Digit)

def Item.text : Item → List Char
  | .plain c => [c]
  | .esc c => ['\\', c]
  | .hex ds => '\\' :: 'x' :: ds.map Digit.char

/-- The documented escape sequences, with their values in C. -/
def escapes : List (Char × Nat) :=
  [('0', 0), ('a', 7), ('b', 8), ('e', 27), ('f', 12), ('n', 10), ('r', 13), ('t', 9), ('v', 11)]

/-- Every other character stands for itself. -/
def escValue (c : Char) : Nat := ((escapes.find? (·.1 = c)).map (·.2)).getD c.toNat

def Item.value : Item → Nat
  | .plain c => c.toNat
  | .esc c => escValue c
  | .hex ds => positional 16 (ds.map Digit.val)

/-- What an item may be.  `\e` is left out, see `C28_escape_violated`. -/
def Item.valid : Item → Prop
  | .plain c => c ≠ '\\'
  | .esc c => c ≠ 'x' ∧ c ≠ 'e'
  | .hex ds => ds ≠ [] ∧ (∀ d ∈ ds, d.val < 16) ∧ positional 16 (ds.map Digit.val) ≤ 255

/-- A hexadecimal escape takes all the digits that follow. -/
def Item.endsBefore (next : Char) : Item → Prop
  | .hex _ => ∀ d : Digit, d.val < 16 → d.char ≠ next
  | _ => True

def itemsText (items : List Item) : List Char := items.flatMap Item.text

/-- The first character of a list, or zero. -/
def headOr0 (l : List Char) : Char := l.headD '\x00'

/-- Items of a string literal: they are valid, they do not denote zero, and unescaped quotes,
newlines and zeros do not occur. -/
def ValidString : List Item → Prop
  | [] => True
  | i :: is => i.valid ∧ i.value ≠ 0 ∧ (∀ c, i = .plain c → c ≠ '"' ∧ c ≠ '\n' ∧ c ≠ '\x00') ∧
      i.endsBefore (headOr0 (itemsText is ++ ['"'])) ∧ ValidString is

/-! ## Implicit semicolons (lang.md:135-141) -/

/-- The tokens after which the end of the line is a semicolon. -/
def endsLine (t : Tok) : Prop :=
  (∃ n, t = .ident n) ∨ (∃ v, t = .int v) ∨ (∃ w f n e b, t = .real w f n e b) ∨
  (∃ v, t = .char v) ∨ (∃ b, t = .str b) ∨
  t ∈ [.kw .kBreak, .kw .kContinue, .kw .kReturn] ∨
  t ∈ [.op .plusPlus, .op .minusMinus, .op .rPar, .op .rBracket, .op .rBrace, .op .caret]

open Classical in
/-- The token stream for the parser: an end of line becomes a semicolon if the token just before it
ends a statement, and disappears otherwise; all other tokens stay. -/
noncomputable def withSemicolons (raw : List Tok) : List Tok :=
  (raw.zip (none :: raw.map some)).filterMap fun p =>
    if p.1 = .eoln then
      if ∃ t, p.2 = some t ∧ endsLine t then some .implicitSemicolon else none
    else some p.1

/-! ## Words (lang.md:18-31) -/

def keywordTable : List (List Char × Kind) :=
  [(['b', 'r', 'e', 'a', 'k'], .kBreak), (['c', 'a', 's', 'e'], .kCase), (['c', 'o', 'n', 's', 't'], .kConst),
   (['c', 'o', 'n', 't', 'i', 'n', 'u', 'e'], .kContinue), (['d', 'e', 'f', 'a', 'u', 'l', 't'], .kDefault), (['e', 'l', 's', 'e'], .kElse),
   (['e', 'n', 'u', 'm'], .kEnum), (['f', 'n'], .kFn), (['f', 'o', 'r'], .kFor),
   (['i', 'm', 'p', 'o', 'r', 't'], .kImport), (['i', 'n', 't', 'e', 'r', 'f', 'a', 'c', 'e'], .kInterface), (['i', 'f'], .kIf),
   (['i', 'n'], .kIn), (['m', 'a', 'p'], .kMap), (['r', 'e', 't', 'u', 'r', 'n'], .kReturn),
   (['s', 't', 'r', 'u', 'c', 't'], .kStruct), (['s', 'w', 'i', 't', 'c', 'h'], .kSwitch), (['t', 'y', 'p', 'e'], .kType),
   (['v', 'a', 'r'], .kVar), (['w', 'e', 'a', 'k'], .kWeak)]

def letter (c : Char) : Prop := ('A' ≤ c ∧ c ≤ 'Z') ∨ ('a' ≤ c ∧ c ≤ 'z')
def digit (c : Char) : Prop := '0' ≤ c ∧ c ≤ '9'
def identChar (c : Char) : Prop := letter c ∨ digit c ∨ c = '_'

/-- A word: a letter or underscore, then letters, digits, underscores, at most 255 in all. -/
def Word (w : List Char) : Prop :=
  w.length ≤ 255 ∧ (∀ c ∈ w, identChar c) ∧ ∃ c l, w = c :: l ∧ ¬digit c

/-! ## Whole texts -/

/-- A token as written in a program. -/
inductive Lexeme where
  | word (w : List Char)
  | dec (n : Number)
  | hex (upperX underscore : Bool) (n : Number)
  | op (sp : List Char) (k : Kind)
  | str (items : List Item)
  | raw (text : List Char)
  | chr (i : Item)
  | newline

def Lexeme.text : Lexeme → List Char
  | .word w => w
  | .dec n => n.text
  | .hex ux us n => '0' :: (if ux then 'X' else 'x') :: (if us then ['_'] else []) ++ n.text
  | .op sp _ => sp
  | .str items => '"' :: itemsText items ++ ['"']
  | .raw text => '`' :: text ++ ['`']
  | .chr i => '\'' :: i.text ++ ['\'']
  | .newline => ['\n']

/-- The token it denotes. -/
def Lexeme.tok : Lexeme → Tok
  | .word w => match keywordTable.find? (·.1 = w) with
    | some p => .kw p.2
    | none => .ident w
  | .dec n => .int (positional 10 n.digits)
  | .hex _ _ n => .int (positional 16 n.digits)
  | .op _ k => .op k
  | .str items => .str (items.map Item.value)
  | .raw text => .str ((text.filter (· ≠ '\r')).map Char.toNat)
  | .chr i => .char i.value
  | .newline => .eoln

def Lexeme.valid : Lexeme → Prop
  | .word w => Word w
  | .dec n => n.valid 10 ∧ positional 10 n.digits < 2 ^ 64
  | .hex _ _ n => n.valid 16 ∧ positional 16 n.digits < 2 ^ 64
  | .op sp k => (sp, k) ∈ opTable
  | .str items => ValidString items
  | .raw text => '`' ∉ text
  | .chr i => i.valid ∧ i.endsBefore '\''
  | .newline => True

/-- A text: every token is followed by a space. -/
def program (ls : List Lexeme) : List Char := ls.flatMap fun x => x.text ++ [' ']

end Umka.Lexer.Spec
