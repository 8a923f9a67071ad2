import Verif.Scanf.Model
import Verif.Printf.Spec

/-!
# Scanf: specification

When a text has the form that a format describes, and which values it then contains.  Formats, directives and the table of type letters are
those of `Verif/Printf/Spec.lean`.  None of the functions of the model is used, except those that look at memory (`Arith.doDeref`, `readBytes`).
-/

namespace Umka.Scanf.Spec

open Umka.Printf (Kind Size)
open Umka.Printf.Spec (Directive Piece Want want dirs InBits)
open Umka.Arith (Mem)

/-! ## Numbers -/

/-- Blank, tabulators, line and form feed, carriage return. -/
def blanks : List Char := [' ', '\t', '\n', Char.ofNat 11, Char.ofNat 12, '\r']

def Blank (s : List Char) : Prop := ∀ c ∈ s, c ∈ blanks

/-- The text begins with something else. -/
def NotBlank (s : List Char) : Prop := ∀ c, s.head? = some c → c ∉ blanks

def lower : List Char := "0123456789abcdef".toList

def upper : List Char := "0123456789ABCDEF".toList

/-- `c` is the digit `d` in a base. -/
def IsDigit (base : Nat) (c : Char) (d : Nat) : Prop := d < base ∧ (lower[d]? = some c ∨ upper[d]? = some c)

/-- `s` is the number `n` in a base. -/
inductive Digits (base : Nat) : List Char → Nat → Prop
  | one {c : Char} {d : Nat} : IsDigit base c d → Digits base [c] d
  | more {s : List Char} {n : Nat} {c : Char} {d : Nat} : Digits base s n → IsDigit base c d → Digits base (s ++ [c]) (base * n + d)

/-- A number as a conversion expects it, without sign: decimal for `%d` and `%u`, hexadecimal for `%x`, as in a C program for `%i`. -/
inductive Unsigned : Char → List Char → Nat → Prop
  | decimal {conv t n} : conv ∈ ['d', 'u'] → Digits 10 t n → Unsigned conv t n
  | hex {conv t n} : conv ∈ ['x', 'X'] → Digits 16 t n → Unsigned conv t n
  | prefixed {conv x t n} : conv ∈ ['x', 'X', 'i'] → x ∈ ['x', 'X'] → Digits 16 t n → Unsigned conv ('0' :: x :: t) n
  | octal {t n} : Digits 8 ('0' :: t) n → Unsigned 'i' ('0' :: t) n
  | auto {t n} : t.head? ≠ some '0' → Digits 10 t n → Unsigned 'i' t n

inductive Number : Char → List Char → Int → Prop
  | plain {conv t} {n : Nat} : Unsigned conv t n → Number conv t n
  | plus {conv t} {n : Nat} : Unsigned conv t n → Number conv ('+' :: t) n
  | minus {conv t} {n : Nat} : Unsigned conv t n → Number conv ('-' :: t) (-n)

/-- The maximal width of a specifier. -/
def Width (d : Directive) (w : Nat) : Prop := Digits 10 d.width w

/-- A number `t` ends before `rest`: it has all the characters that the width permits, or a character follows that is not part of it: not a digit
and, unless the number is decimal, not a letter. -/
def Ends (d : Directive) (t rest : List Char) : Prop :=
  (∀ w, Width d w → t.length ≤ w) ∧
  (Width d t.length ∨ ∀ c, rest.head? = some c →
    (∀ k, ¬ IsDigit 10 c k) ∧ (d.conv ∉ ['d', 'u'] → (∀ k, ¬ IsDigit 16 c k) ∧ c ≠ 'x' ∧ c ≠ 'X'))

/-! ## Texts -/

inductive Value
  | int (v : Int)
  | real (bytes : Nat)
  | char (c : Char)
  | str (s : List Char)

/-- The text has the form of the format: `Reads L file ps text values rest`.  A blank in the format stands for any number of blanks; numbers, words and
percent signs may be preceded by blanks.  A word ends with a blank, which belongs to it, or with the end of a file; in a string it cannot contain the
character 255. -/
inductive Reads (L : CLib) (file : Bool) : List Piece → List Char → List Value → List Char → Prop
  | done {rest} : Reads L file [] rest [] rest
  | blank {c ps sp text vs rest} : c ∈ blanks → Blank sp → NotBlank text → Reads L file ps text vs rest →
      Reads L file (.lit c :: ps) (sp ++ text) vs rest
  | lit {c ps text vs rest} : c ∉ blanks → Reads L file ps text vs rest → Reads L file (.lit c :: ps) (c :: text) vs rest
  | percent {d ps sp text vs rest} : Blank sp → Reads L file ps text vs rest →
      Reads L file (.percent d :: ps) (sp ++ '%' :: text) vs rest
  | int {d : Directive} {signed bits ps sp t v text vs rest} : want d.conv d.size = some (.int signed bits) → Blank sp → Number d.conv t v →
      InBits signed bits v → Ends d t text → Reads L file ps text vs rest →
      Reads L file (.dir d :: ps) (sp ++ (t ++ text)) (.int v :: vs) rest
  | real {d : Directive} {bits ps sp text k b vs rest} : want d.conv d.size = some (.real bits) → Blank sp → NotBlank text → text ≠ [] →
      d.width = [] → L.real (bits / 8) text = (k, some b) → Reads L file ps (text.drop k) vs rest →
      Reads L file (.dir d :: ps) (sp ++ text) (.real b :: vs) rest
  | char {d : Directive} {ps c text vs rest} : want d.conv d.size = some .char → Reads L file ps text vs rest →
      Reads L file (.dir d :: ps) (c :: text) (.char c :: vs) rest
  | str {d : Directive} {ps sp word b text vs rest} : want d.conv d.size = some .str → Blank sp → word ≠ [] →
      (∀ c ∈ word, c ∉ blanks ∧ (file = false → c.toNat ≠ 255)) → b ∈ blanks → Reads L file ps text vs rest → Reads L file (.dir d :: ps) (sp ++ (word ++ b :: text)) (.str word :: vs) rest
  | strEnd {d : Directive} {ps sp word vs rest} : want d.conv d.size = some .str → file = true → Blank sp → word ≠ [] →
      (∀ c ∈ word, c ∉ blanks) → Reads L file ps [] vs rest → Reads L file (.dir d :: ps) (sp ++ word) (.str word :: vs) rest

/-! ## Formats -/

/-- A specifier that `scanf` of C knows too, and that does not write more than the destination holds: no flags and no precision, no width of
characters and strings, and `long` only if it has 32 bits. -/
def Supported (L : CLib) (d : Directive) : Prop :=
  d.flags = [] ∧ d.prec = none ∧ (d.conv ∈ ['c', 's'] → d.width = []) ∧
  (d.conv ∈ ['d', 'i', 'u', 'x', 'X'] → d.size = .long → L.longBytes = 4)

/-- Between a `%s` and the specifier before it there are only blanks: `ok` holds as long as this is so. -/
def WordsAlone : Bool → List Piece → Prop
  | _, [] => True
  | ok, .lit c :: ps => WordsAlone (ok && blanks.contains c) ps
  | _, .percent _ :: ps => WordsAlone false ps
  | ok, .dir d :: ps => (d.conv = 's' → ok = true) ∧ WordsAlone true ps

/-! ## Variables -/

/-- The type of variable that a type letter needs. -/
def wantKind : Want → Option Kind
  | .int true 8 => some .int8
  | .int true 16 => some .int16
  | .int true 32 => some .int32
  | .int true 64 => some .int
  | .int false 8 => some .uint8
  | .int false 16 => some .uint16
  | .int false 32 => some .uint32
  | .int false 64 => some .uint
  | .real 32 => some .real32
  | .real 64 => some .real
  | .char => some .char
  | .str => some .str
  | _ => none

/-- Number and types of the variables match the specifiers. -/
def Matches : List Directive → List (Kind × Nat) → Prop
  | [], [] => True
  | d :: ds, v :: vs => (∃ w, want d.conv d.size = some w ∧ wantKind w = some v.1) ∧ Matches ds vs
  | _, _ => False

/-- The size of a scalar variable. -/
def size : Kind → Nat
  | .int8 | .uint8 | .char | .bool => 1
  | .int16 | .uint16 => 2
  | .int32 | .uint32 | .real32 => 4
  | .int | .uint | .real => 8
  | _ => 0

/-- A byte of a variable. -/
def In (v : Kind × Nat) (a : Nat) : Prop := v.2 ≤ a ∧ a < v.2 + size v.1

/-- The variables do not overlap. -/
def Separate (v w : Kind × Nat) : Prop := (∀ a, ¬ (In v a ∧ In w a)) ∧ (v.1 = .str → w.1 = .str → v.2 ≠ w.2)

/-- The value of a variable. -/
def ordinal : Kind → Option Arith.Kind
  | .int8 => some .int8
  | .int16 => some .int16
  | .int32 => some .int32
  | .int => some .int
  | .uint8 => some .uint8
  | .uint16 => some .uint16
  | .uint32 => some .uint32
  | .uint => some .uint
  | .char => some .char
  | _ => none

def Holds (mem : Mem) (strs : Nat → List Char) (var : Kind × Nat) : Value → Prop
  | .int v => ∃ k, ordinal var.1 = some k ∧ Arith.doDeref k mem var.2 = .ok (BitVec.ofInt 64 v)
  | .char c => var.1 = .char ∧ Arith.doDeref .char mem var.2 = .ok (BitVec.ofNat 64 c.toNat)
  | .real b => (var.1 = .real32 ∨ var.1 = .real) ∧ Arith.readBytes mem var.2 (size var.1) = b
  | .str s => var.1 = .str ∧ strs var.2 = s

def AllHold (mem : Mem) (strs : Nat → List Char) : List (Kind × Nat) → List Value → Prop
  | [], [] => True
  | var :: vars, v :: vs => Holds mem strs var v ∧ AllHold mem strs vars vs
  | _, _ => False

/-- A source that contains the text: a file, or a string in a block that may be larger. -/
def source (file : Bool) (inp slack : List Char) : Stream := if file then .file inp else .str (inp ++ Char.ofNat 0 :: slack) 0

/-- Bytes other than NUL. -/
def Bytes (inp : List Char) : Prop := ∀ c ∈ inp, c ≠ Char.ofNat 0 ∧ c.toNat < 256

/-- `strtod` returns a number that has the size of its type, and takes no more characters than there are. -/
def _root_.Umka.Scanf.CLib.Ok (L : CLib) : Prop :=
  ∀ n s, (L.real n s).1 ≤ s.length ∧ ∀ b, (L.real n s).2 = some b → b < 256 ^ n

end Umka.Scanf.Spec
