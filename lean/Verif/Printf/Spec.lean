import Verif.Printf.Model

/-!
# Printf: specification

The documented format (`doc/lang.md:688-713`) and what a call of `printf` writes, stated on the parts of the format and the mathematical
values of the arguments.  Only the types of the model (`Kind`, `Size`, `Arg`, `Shape`, `CLib`) are used, none of its functions.
-/

namespace Umka.Printf.Spec

open Umka.Printf (Kind Size Arg Val Shape CLib)

/-! ## Formats -/

/-- `%[flags][width][.precision][length]type`. -/
structure Directive where
  flags : List Char
  width : List Char
  prec : Option (List Char)
  size : Size
  conv : Char
  deriving DecidableEq, Repr

def sizeText : Size → List Char
  | .shortShort => ['h', 'h']
  | .short => ['h']
  | .normal => []
  | .long => ['l']
  | .longLong => ['l', 'l']

def precText : Option (List Char) → List Char
  | none => []
  | some p => '.' :: p

def Directive.text (d : Directive) : List Char :=
  '%' :: (d.flags ++ d.width ++ precText d.prec ++ sizeText d.size ++ [d.conv])

def flagChars : List Char := ['+', '-', ' ', '0', '\'', '#']
def digitChars : List Char := ['0', '1', '2', '3', '4', '5', '6', '7', '8', '9']

/-- Flags are flags, width and precision are numbers; a leading zero counts as a flag. -/
def Directive.Shaped (d : Directive) : Prop :=
  (∀ c ∈ d.flags, c ∈ flagChars) ∧ (∀ c ∈ d.width, c ∈ digitChars) ∧ d.width.head? ≠ some '0' ∧
  (∀ p, d.prec = some p → ∀ c ∈ p, c ∈ digitChars)

/-- What a type letter with a length stands for. -/
inductive Want
  | int (signed : Bool) (bits : Nat)
  | real (bits : Nat)
  | str
  | char
  | any
  deriving DecidableEq, Repr

def intBits : Size → Nat
  | .shortShort => 8
  | .short => 16
  | .normal => 32
  | .long => 32
  | .longLong => 64

/-- The table of type letters.  `none`: not a documented combination. -/
def want (conv : Char) (size : Size) : Option Want :=
  if conv ∈ ['d', 'i'] then some (.int true (intBits size))
  else if conv ∈ ['u', 'x', 'X'] then some (.int false (intBits size))
  else if conv ∈ ['f', 'F', 'e', 'E', 'g', 'G'] then
    if size = .normal then some (.real 32) else if size = .long then some (.real 64) else none
  else if conv = 's' then (if size = .normal then some .str else none)
  else if conv = 'c' then (if size = .normal then some .char else none)
  else if conv = 'v' then some .any
  else none

/-- A documented format specifier. -/
def Directive.Valid (d : Directive) : Prop := d.Shaped ∧ (want d.conv d.size).isSome

/-- A part of a format: a character, a percent sign, a specifier.  A percent sign is written `%%`; the scanner also takes it with flags,
width, precision and length in between, so the piece carries them (`conv` is `%`). -/
inductive Piece
  | lit (c : Char)
  | percent (d : Directive)
  | dir (d : Directive)
  deriving DecidableEq, Repr

def Piece.text : Piece → List Char
  | .lit c => [c]
  | .percent d => d.text
  | .dir d => d.text

def Piece.Valid : Piece → Prop
  | .lit c => c ≠ '%'
  | .percent d => d.Shaped ∧ d.conv = '%'
  | .dir d => d.Valid

def text (ps : List Piece) : List Char := ps.flatMap Piece.text

/-- The plain percent sign `%%`. -/
def plainPercent : Directive := ⟨[], [], none, .normal, '%'⟩

def dirs : List Piece → List Directive
  | [] => []
  | .dir d :: ps => d :: dirs ps
  | _ :: ps => dirs ps

/-! ## Arguments -/

/-- The mathematical value of an integer slot. -/
def intValue (k : Kind) (i : Int) : Int := if k = .uint ∧ i < 0 then i + 2 ^ 64 else i

def intKinds : List Kind := [.int8, .int16, .int32, .int, .uint8, .uint16, .uint32, .uint]

def InBits (signed : Bool) (bits : Nat) (v : Int) : Prop :=
  if signed then -(2 ^ (bits - 1) : Int) ≤ v ∧ v < 2 ^ (bits - 1) else 0 ≤ v ∧ v < 2 ^ bits

/-- The kind of an integer type: signedness and size. -/
def kindBits : Kind → Option (Bool × Nat)
  | .int8 => some (true, 8)
  | .int16 => some (true, 16)
  | .int32 => some (true, 32)
  | .int => some (true, 64)
  | .uint8 => some (false, 8)
  | .uint16 => some (false, 16)
  | .uint32 => some (false, 32)
  | .uint => some (false, 64)
  | .char => some (false, 8)
  | .bool => some (false, 1)
  | _ => none

/-- Texts in a value graph do not contain NUL. -/
def noNul (t : List Char) : Prop := ∀ c ∈ t, c ≠ Char.ofNat 0

def ShapeOk : Shape → Prop
  | .char c => c < 256
  | .str s => noNul s
  | .opaque t => noNul t
  | .ptr t _ => noNul t
  | .struct fs _ => ∀ f ∈ fs, noNul f.1
  | .iface (some (t, _)) => noNul t
  | _ => True

/-- A value that a program can pass: its slot has the form its type says, and an integer is within its type. -/
def ArgOk {R} (a : Arg R) : Prop :=
  a.kind ≠ .none ∧ a.kind ≠ .void ∧
  (∀ sb, kindBits a.kind = some sb → ∃ i, a.val = .int i ∧ -(2 ^ 63 : Int) ≤ i ∧ i < 2 ^ 63 ∧ InBits sb.1 sb.2 (intValue a.kind i)) ∧
  (a.kind = .real32 ∨ a.kind = .real → ∃ r, a.val = .real r) ∧
  (a.kind = .str → ∃ s, a.val = .str s ∧ noNul s) ∧
  (∀ n, ShapeOk (a.graph n))

/-- The argument is one the specifier asks for: the same kind of value, within the range that the letter and length stand for. -/
def Fits {R} (L : CLib R) (w : Want) (a : Arg R) : Prop :=
  match w with
  | .int signed bits => a.kind ∈ intKinds ∧ ∃ i, a.val = .int i ∧ InBits signed bits (intValue a.kind i)
  | .real bits => (a.kind = .real32 ∨ a.kind = .real) ∧ ∃ r, a.val = .real r ∧ (if bits = 32 then L.overFlt r else L.overDbl r) = false
  | .str => a.kind = .str
  | .char => a.kind = .char
  | .any => True

/-- Number and kinds of arguments match the specifiers. -/
def Matches {R} (L : CLib R) : List Directive → List (Arg R) → Prop
  | [], [] => True
  | d :: ds, a :: as => (∃ w, want d.conv d.size = some w ∧ Fits L w a) ∧ Matches L ds as
  | _, _ => False

/-! ## The representation of values -/

def indent (n : Nat) : List Char := '\n' :: List.replicate n ' '

def opening (pretty : Bool) (depth : Nat) (c : Char) : List Char := if pretty then c :: indent (4 * (depth + 1)) else [c]

def closing (pretty : Bool) (depth : Nat) (c : Char) : List Char :=
  if pretty then (if depth = 0 then ['\n', c] else indent (4 * depth) ++ [c]) else [c]

def between (pretty : Bool) (depth : Nat) : List Char := if pretty then indent (4 * (depth + 1)) else [' ']

def hexChars : List Char := "0123456789ABCDEF".toList

def charRepr (c : Nat) : List Char :=
  if c < 32 then "0x".toList ++ [hexChars.getD (c / 16) '?', hexChars.getD (c % 16) '?'] else ['\'', Char.ofNat c, '\'']

/-- The text of `%v` of a node; parts nested deeper than `limit` levels are cut to `...`. -/
def repr (g : Nat → Shape) (pretty dereferenced : Bool) : (limit depth node : Nat) → List Char
  | 0, _, _ => "...".toList
  | limit + 1, depth, node =>
    let part := repr g pretty dereferenced limit (depth + 1)
    match g node with
    | .void => "void".toList
    | .int i => (toString i).toList
    | .bool true => "true".toList
    | .bool false => "false".toList
    | .char c => charRepr c
    | .str s => ['"'] ++ s ++ ['"']
    | .opaque t => t
    | .ptr t target =>
      match dereferenced, target with
      | true, some n => t ++ " -> ".toList ++ opening pretty depth '(' ++ part n ++ closing pretty depth ')'
      | _, _ => t
    | .array items =>
      opening pretty depth '[' ++ List.intercalate (between pretty depth) (items.map part) ++ closing pretty depth ']'
    | .map entries =>
      opening pretty depth '{' ++ List.intercalate (between pretty depth) (entries.map fun e => part e.1 ++ ": ".toList ++ part e.2)
        ++ closing pretty depth '}'
    | .struct fields skipNames =>
      opening pretty depth '{'
        ++ List.intercalate (between pretty depth) (fields.map fun f => (if skipNames then [] else f.1 ++ ": ".toList) ++ part f.2)
        ++ closing pretty depth '}'
    | .iface none => "null".toList
    | .iface (some (typeName, n)) =>
      if pretty then typeName ++ opening pretty depth '(' ++ part n ++ closing pretty depth ')' else part n

/-- The whole value: twenty levels. -/
def reprOf (g : Nat → Shape) (root : Nat) (pretty dereferenced : Bool) : List Char := repr g pretty dereferenced 20 0 root

/-! ## Output -/

/-- The text of one specifier and its argument: the conversion applied to the value of the argument. -/
def dirText {R} (L : CLib R) (d : Directive) (a : Arg R) : List Char :=
  if d.conv = 'v' then
    L.render d.flags d.width d.prec 's'
      (.inr (.inr (reprOf a.graph a.root (d.size = .longLong) (d.size = .long ∨ d.size = .longLong))))
  else
    match a.val with
    | .int i => L.render d.flags d.width d.prec d.conv (.inl (intValue a.kind i))
    | .real r => L.render d.flags d.width d.prec d.conv (.inr (.inl r))
    | .str s => L.render d.flags d.width d.prec d.conv (.inr (.inr s))
    | .other => []

/-- What the whole call writes. -/
def outText {R} (L : CLib R) : List Piece → List (Arg R) → List Char
  | [], _ => []
  | .lit c :: ps, as => c :: outText L ps as
  | .percent _ :: ps, as => '%' :: outText L ps as
  | .dir d :: ps, a :: as => dirText L d a ++ outText L ps as
  | .dir _ :: _, [] => []

/-- `' '` has no effect on `%s` (C11 7.21.6.1p6: it is about signed conversions). -/
def BlankHarmless {R} (L : CLib R) : Prop :=
  ∀ flags n width prec s, L.render (flags ++ List.replicate n ' ') width prec 's' s = L.render flags width prec 's' s

/-- An integer conversion that takes 64 bits of an argument that is passed in 32 bits. -/
def TooWide {R} (L : CLib R) (d : Directive) (a : Arg R) : Prop :=
  d.conv ∈ ['d', 'i', 'u', 'x', 'X'] ∧ (d.size = .longLong ∨ d.size = .long ∧ L.longBits = 64) ∧ a.kind ≠ .int ∧ a.kind ≠ .uint

/-- `%v` with a length and also a width or precision. -/
def BrokenV (d : Directive) : Prop := d.conv = 'v' ∧ d.size ≠ .normal ∧ (d.width ≠ [] ∨ d.prec ≠ none)

/-- The cases in which the C library is called outside its contract. -/
def Hazard {R} (L : CLib R) (d : Directive) (a : Arg R) : Prop := TooWide L d a ∨ BrokenV d

def NoHazard {R} (L : CLib R) : List Directive → List (Arg R) → Prop
  | d :: ds, a :: as => ¬ Hazard L d a ∧ NoHazard L ds as
  | _, _ => True

def PlainPercents (ps : List Piece) : Prop := ∀ d, .percent d ∈ ps → d = plainPercent

end Umka.Printf.Spec
