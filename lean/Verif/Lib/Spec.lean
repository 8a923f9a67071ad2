import Verif.Lib.Model

/-!
# Lib: specification
-/

namespace Umka.Lib

/-- UTF-8 (RFC 3629, section 3). -/
def utf8 (r : Nat) : List Nat :=
  if r < 0x80 then [r]
  else if r < 0x800 then [0xC0 + r / 64, 0x80 + r % 64]
  else if r < 0x10000 then [0xE0 + r / 4096, 0x80 + r / 64 % 64, 0x80 + r % 64]
  else [0xF0 + r / 262144, 0x80 + r / 4096 % 64, 0x80 + r / 64 % 64, 0x80 + r % 64]

/-- A character other than NUL. -/
def Valid (r : Nat) : Prop := 0 < r ∧ r ≤ 0x10FFFF

/-- The number of bytes a first byte announces (RFC 3629); 0: it cannot be a first byte. -/
def announced (h : Nat) : Nat :=
  if h < 0x80 then 1
  else if h < 0xC0 then 0
  else if h < 0xE0 then 2
  else if h < 0xF0 then 3
  else if h < 0xF8 then 4
  else 0

/-- `t` does not begin with a character: its first byte is not a possible first byte, or one of the following bytes that it announces is
missing or is not in `0x80..0xBF`. -/
def BadStart (t : List Nat) : Prop :=
  ∃ h rest, t = h :: rest ∧ h < 256 ∧
    (announced h = 0 ∨ ∃ j, j + 1 < announced h ∧ ∀ b, rest[j]? = some b → b < 256 ∧ (b < 0x80 ∨ 0xC0 ≤ b))

/-- A blank or control character. -/
def Blank (c : Nat) : Prop := c ≤ 32

/-- `t` is `s` without the blanks at the left (`l`) and at the right (`r`), and nothing else is missing. -/
def TrimOf (l r : Bool) (s t : List Nat) : Prop :=
  ∃ a b, s = a ++ t ++ b ∧ (∀ c ∈ a, Blank c) ∧ (∀ c ∈ b, Blank c) ∧ (l = false → a = []) ∧ (r = false → b = []) ∧
    (l = true → ∀ c, t.head? = some c → ¬ Blank c) ∧ (r = true → ∀ c, t.getLast? = some c → ¬ Blank c)

/-- Calling a function for each item, from the first to the last. -/
def mapInOrder {σ α β : Type} (f : α → σ → β × σ) : List α → σ → List β × σ
  | [], w => ([], w)
  | x :: xs, w => ((f x w).1 :: (mapInOrder f xs (f x w).2).1, (mapInOrder f xs (f x w).2).2)

def filterInOrder {σ α : Type} (f : α → σ → Bool × σ) : List α → σ → List α × σ
  | [], w => ([], w)
  | x :: xs, w =>
    (if (f x w).1 then x :: (filterInOrder f xs (f x w).2).1 else (filterInOrder f xs (f x w).2).1,
      (filterInOrder f xs (f x w).2).2)

def foldInOrder {σ α : Type} (f : α → α → σ → α × σ) : α → List α → σ → α × σ
  | a, [], w => (a, w)
  | a, x :: xs, w => foldInOrder f (f a x w).1 xs (f a x w).2

end Umka.Lib
