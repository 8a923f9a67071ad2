import Verif.Printf.Model
import Verif.Arith.Model

/-!
# Scanf: model

`scanf`, `fscanf` and `sscanf`: the code generated for a call (`umka_expr.c:828-922`), the check of a literal format (`umka_expr.c:869-905`,
`umka_types.h:342-352`) and the run-time part (`umka_vm.c:784-845`, `2112-2208`).  The format scanner is that of `Verif/Printf`.

The function `scanf` of the C library is modelled after C11 7.21.6.2, with `strtod` as a parameter.  What the standard leaves undefined (flags and
precision, which only `printf` has; numbers that the destination cannot hold) is the outcome `undef`.

A source string is its whole memory block, which ends after the terminating NUL or later; looking beyond the block is undefined.  A file is
the list of the characters that have not been read; it is not changed by others during the call, and has no read errors.  Characters are bytes:
a `Char` stands for its code.  Scalars are in a byte memory as in `Verif/Arith`; the content of a string variable is kept by the
address of the variable, without the pointer, the block on the heap and its reference count.  Lengths are unbounded.
-/

namespace Umka.Scanf

open Umka.Printf (Kind Size Scan scan isFlag isDigit cLength nul)
open Umka.Arith (Mem writeBytes)

/-- `typeCompatibleScanf` (`umka_types.h:342-352`). -/
def compatibleScanf (expected base : Kind) (allowVoid : Bool) : Bool :=
  if !(base.isInt || base == .bool || base == .char || base.isReal || base == .str || (base == .void && allowVoid)) then false
  else if expected == .none then true
  else base == expected

/-! ## The C function `scanf` with at most one destination -/

/-- `longBytes`: the size of `long`.  `real n text`: `strtof` (`n = 4`) or `strtod` (`n = 8`): the number of characters taken from the start of
`text`, and the bytes of the number unless there is none. -/
structure CLib where
  longBytes : Nat
  real : Nat → List Char → Nat × Option Nat

/-- `isspace` in the C locale. -/
def isSpace (c : Char) : Bool := c == ' ' || (9 ≤ c.toNat && c.toNat ≤ 13)

/-- The value of a digit in base up to 16. -/
def digitVal (c : Char) : Nat :=
  if 48 ≤ c.toNat ∧ c.toNat ≤ 57 then c.toNat - 48
  else if 97 ≤ c.toNat ∧ c.toNat ≤ 102 then c.toNat - 87
  else if 65 ≤ c.toNat ∧ c.toNat ≤ 70 then c.toNat - 55
  else 16

def numeral (base : Nat) : Nat → List Char → Nat
  | n, [] => n
  | n, c :: s => numeral base (base * n + digitVal c) s

/-- The text after the prefix `0x`. -/
def hexPrefix : List Char → Option (List Char)
  | '0' :: 'x' :: t => some t
  | '0' :: 'X' :: t => some t
  | _ => none

/-- The base of a number, the text after the prefix and the length of the prefix.  `radix`: the base; none for `%i`. -/
def cBase (radix : Option Nat) (s : List Char) : Nat × List Char × Nat :=
  if radix = some 10 then (10, s, 0)
  else
    match hexPrefix s with
    | some t => (16, t, 2)
    | none => (radix.getD (if s.head? = some '0' then 8 else 10), s, 0)

/-- The sign of a number, the text after it and its length. -/
def cSign : List Char → Bool × List Char × Nat
  | '-' :: s => (true, s, 1)
  | '+' :: s => (false, s, 1)
  | s => (false, s, 0)

/-- The digits after the prefix. -/
def cDigits (b : Nat × List Char × Nat) : List Char := b.2.1.takeWhile (fun c => digitVal c < b.1)

/-- `strtoll` and its relatives on the input item: the characters taken, the number if there is one. -/
def cNumber (radix : Option Nat) (inp : List Char) : Nat × Option Int :=
  let sign := cSign inp
  let b := cBase radix sign.2.1
  let ds := cDigits b
  if ds = [] then (sign.2.2 + b.2.2, none)
  else (sign.2.2 + b.2.2 + ds.length, some (if sign.1 then -(numeral b.1 0 ds : Int) else numeral b.1 0 ds))

/-- The size of the object an integer conversion stores to. -/
def cIntBytes (L : CLib) : Size → Nat
  | .shortShort => 1
  | .short => 2
  | .normal => 4
  | .long => L.longBytes
  | .longLong => 8

/-- The bytes stored for a number; `none`: the object cannot hold it.  `strtoull` takes the negative of a number modulo `2 ^ 64`. -/
def cStored (signed : Bool) (n : Nat) (v : Int) : Option Nat :=
  if signed then
    if -(2 ^ (8 * n - 1) : Int) ≤ v ∧ v < 2 ^ (8 * n - 1) then some (v % (2 ^ (8 * n) : Nat)).toNat else none
  else if 0 ≤ v ∧ v < 2 ^ (8 * n) then some v.toNat
  else if n = 8 ∧ v < 0 ∧ -(2 ^ 64 : Int) < v then some (v + 2 ^ 64).toNat
  else none

/-- Characters as consecutive bytes. -/
def charsValue : List Char → Nat
  | [] => 0
  | c :: s => c.toNat % 256 + 256 * charsValue s

/-- The result of a call: what it returns, the characters taken from the stream, the value stored by `%n`, the number of bytes and the bytes stored
by the other conversion. -/
inductive CRes
  | undef
  | done (ret : Int) (taken : Nat) (len : Option Nat) (store : Option (Nat × Nat))
  deriving DecidableEq, Repr

/-- The number of conversions so far. -/
def assigned (store : Option (Nat × Nat)) : Int := if store.isSome then 1 else 0

/-- The end of the input: `EOF` unless a conversion has been completed. -/
def inputFailure (taken : Nat) (store : Option (Nat × Nat)) : CRes := .done (if store.isSome then 1 else -1) taken none store

/-- One conversion other than `%%` and `%n` on the input: the characters taken, and the store; `inl`: it fails there. -/
inductive Conv
  | undef
  | eof (taken : Nat)
  | mismatch (taken : Nat)
  | ok (taken : Nat) (bytes value : Nat)
  deriving DecidableEq, Repr

def limit (width : Option Nat) (inp : List Char) : List Char := match width with | none => inp | some w => inp.take w

def cConvInt (radix : Option Nat) (signed : Bool) (n : Nat) (width : Option Nat) (inp : List Char) : Conv :=
  let k := (inp.takeWhile isSpace).length
  let inp1 := inp.dropWhile isSpace
  if inp1 = [] then .eof k
  else
    match cNumber radix (limit width inp1) with
    | (t, none) => .mismatch (k + t)
    | (t, some v) => match cStored signed n v with | none => .undef | some b => .ok (k + t) n b

def cConvReal (L : CLib) (n : Nat) (width : Option Nat) (inp : List Char) : Conv :=
  let k := (inp.takeWhile isSpace).length
  let inp1 := inp.dropWhile isSpace
  if inp1 = [] then .eof k
  else
    match L.real n (limit width inp1) with
    | (t, none) => .mismatch (k + t)
    | (t, some b) => .ok (k + t) n b

def cConvChar (width : Option Nat) (inp : List Char) : Conv :=
  if inp = [] then .eof 0
  else
    let cs := inp.take (width.getD 1)
    .ok cs.length cs.length (charsValue cs)

def cConv (L : CLib) (width : Option Nat) (size : Size) (conv : Char) (inp : List Char) : Conv :=
  if conv = 'd' then cConvInt (some 10) true (cIntBytes L size) width inp
  else if conv = 'i' then cConvInt none true (cIntBytes L size) width inp
  else if conv = 'u' then cConvInt (some 10) false (cIntBytes L size) width inp
  else if conv = 'x' ∨ conv = 'X' then cConvInt (some 16) false (cIntBytes L size) width inp
  else if conv = 'f' ∨ conv = 'F' ∨ conv = 'e' ∨ conv = 'E' ∨ conv = 'g' ∨ conv = 'G' then
    match size with
    | .normal => cConvReal L 4 width inp
    | .long => cConvReal L 8 width inp
    | _ => .undef
  else if conv = 'c' then
    match size with
    | .normal => cConvChar width inp
    | _ => .undef
  else .undef

/-- `scanf(format, dest)` of the C library (C11 7.21.6.2).  `hasDest`: a destination is passed.  `%n` is only modelled at the end of the format,
where `doBuiltinScanf` puts it: the scanner rejects it elsewhere. -/
def cScanf (L : CLib) (hasDest : Bool) : Nat → List Char → List Char → Nat → Option (Nat × Nat) → CRes
  | 0, _, _, _, _ => .undef
  | _ + 1, [], _, taken, store => .done (assigned store) taken none store
  | fuel + 1, c :: f, inp, taken, store =>
    if isSpace c then
      cScanf L hasDest fuel f (inp.dropWhile isSpace) (taken + (inp.takeWhile isSpace).length) store
    else if c ≠ '%' then
      match inp with
      | [] => inputFailure taken store
      | x :: inp' => if x = c then cScanf L hasDest fuel f inp' (taken + 1) store else .done (assigned store) taken none store
    else
      let ds := f.takeWhile isDigit
      let width : Option Nat := if ds = [] then none else some (numeral 10 0 ds)
      let (size, f1) := cLength (f.dropWhile isDigit)
      match f1 with
      | [] => .undef
      | conv :: f2 =>
        if conv = 'n' then
          if ds = [] ∧ size = .normal ∧ f2 = [] then .done (assigned store) taken (some taken) store else .undef
        else if conv = '%' then
          if ds = [] ∧ size = .normal then
            let k := (inp.takeWhile isSpace).length
            match inp.dropWhile isSpace with
            | [] => inputFailure (taken + k) store
            | x :: inp' => if x = '%' then cScanf L hasDest fuel f2 inp' (taken + k + 1) store else .done (assigned store) (taken + k) none store
          else .undef
        else if width = some 0 ∨ hasDest = false ∨ store.isSome then .undef
        else
          match cConv L width size conv inp with
          | .undef => .undef
          | .eof k => inputFailure (taken + k) store
          | .mismatch k => .done (assigned store) (taken + k) none store
          | .ok k n b => cScanf L hasDest fuel f2 (inp.drop k) (taken + k) (some (n, b))

/-! ## Words -/

/-- The first loop of `fsscanfString` (`umka_vm.c:825-827`).  A character is what `fsgetc` returns; `none` is `EOF`.  The result is the last
character, the rest of the stream and `len`; `none`: the stream is read beyond its memory. -/
def skipSpaces : List (Option Char) → Nat → Option (Option Char × List (Option Char) × Nat)
  | [], _ => none
  | ch :: s, len => if ch.elim false isSpace then skipSpaces s (len + 1) else some (ch, s, len + 1)

/-- The second loop and the end (`umka_vm.c:829-844`): the string read and `len`.  `cap`: the size of the buffer. -/
def readWord : Option Char → List (Option Char) → Nat → List Char → Nat → Option (List Char × Nat)
  | ch, s, len, str, cap =>
    match ch with
    | none => if str.length < cap then some (str, len) else none
    | some c =>
      if c = nul ∨ isSpace c then if str.length < cap then some (str, len) else none
      else if cap ≤ str.length then none
      else
        match s with
        | [] => none
        | ch' :: s' => readWord ch' s' (len + 1) (str ++ [c]) (if str.length + 1 = cap - 1 then cap * 2 else cap)

/-- `fsscanfString` (`umka_vm.c:816-845`). -/
def fsscanfString (s : List (Option Char)) : Option (List Char × Nat) :=
  match skipSpaces s 0 with
  | none => none
  | some (ch, s', len) => readWord ch s' len [] 8

/-! ## The run-time part -/

/-- The source: a string with the position of the stream pointer in its block, a file, or a null pointer. -/
inductive Stream
  | str (bytes : List Char) (pos : Nat)
  | file (rest : List Char)
  | null

/-- What `fsgetc` (`umka_vm.c:784-789`) returns one call after another.  In a string a character is a signed `char`: 255 is `EOF`. -/
def Stream.chars : Stream → List (Option Char)
  | .str bytes pos => (bytes.drop pos).map fun c => if c.toNat = 255 then none else some c
  | .file rest => rest.map some ++ [none]
  | .null => []

/-- What the C library reads; `none`: there is no string. -/
def Stream.input : Stream → Option (List Char)
  | .str bytes pos => if nul ∈ bytes.drop pos then some ((bytes.drop pos).takeWhile (· != nul)) else none
  | .file rest => some rest
  | .null => none

/-- The stream after a call: a string is advanced by `len` (`umka_vm.c:2201-2202`), a file by what has been taken from it. -/
def Stream.advance (taken len : Nat) : Stream → Stream
  | .str bytes pos => .str bytes (pos + len)
  | .file rest => .file (rest.drop taken)
  | .null => .null

inductive Err
  | sourceNull | invalidFormat | incompatible (expected kind : Kind) | destinationNull
  deriving DecidableEq, Repr

/-- The slots under the value, the memory, and the contents of the string variables. -/
structure State where
  format : List Char
  count : Int
  stream : Stream
  mem : Mem
  strs : Nat → List Char

inductive Outcome
  | done (s : State)
  | fail (e : Err)
  | undef

/-- `doBuiltinScanf` (`umka_vm.c:2112-2208`) for one destination: its type and its address. -/
def step (L : CLib) (s : State) (kind : Kind) (dest : Nat) : Outcome :=
  match s.stream with
  | .null => .fail .sourceNull
  | stream =>
    match scan s.format with
    | none => .fail .invalidFormat
    | some sc =>
      if !compatibleScanf sc.kind kind true then .fail (.incompatible sc.kind kind)
      else
        let cur := s.format.take sc.formatLen ++ ['%', 'n']
        let next := { s with format := s.format.drop sc.formatLen }
        if kind = .void then
          match stream.input with
          | none => .undef
          | some inp =>
            match cScanf L false (cur.length + 1) cur inp 0 none with
            | .undef => .undef
            | .done ret taken len _ => .done { next with count := s.count + ret, stream := stream.advance taken (len.getD 0) }
        else if dest = 0 then .fail .destinationNull
        else if kind = .str then
          match fsscanfString stream.chars with
          | none => .undef
          | some (str, len) =>
            .done { next with count := s.count + (if str = [] then 0 else 1), stream := stream.advance len len,
                              strs := fun a => if a = dest then str else s.strs a }
        else
          match stream.input with
          | none => .undef
          | some inp =>
            match cScanf L true (cur.length + 1) cur inp 0 none with
            | .undef => .undef
            | .done ret taken len store =>
              .done { next with count := s.count + ret, stream := stream.advance taken (len.getD 0),
                                mem := match store with | none => s.mem | some (n, b) => writeBytes s.mem dest n b }

/-- The code of a call (`parseBuiltinIOCall`, `umka_expr.c:828-922`): one call of the built-in for each destination, then one for the rest of the
format. -/
def run (L : CLib) : List (Kind × Nat) → State → Outcome
  | [], s => step L s .void 0
  | v :: vs, s =>
    match step L s v.1 v.2 with
    | .done s' => run L vs s'
    | o => o

/-- `scanf` and its relatives, with the source, the format and the destinations. -/
def scanf (L : CLib) (stream : Stream) (format : List Char) (vars : List (Kind × Nat)) (mem : Mem) (strs : Nat → List Char) : Outcome :=
  run L vars ⟨format, 0, stream, mem, strs⟩

/-- The check of a literal format (`umka_expr.c:869-905`): `true` if the call compiles.  The kinds are those of the types pointed to. -/
def checkLiteral : List Char → List Kind → Bool
  | fmt, [] =>
    match scan fmt with
    | none => false
    | some sc => compatibleScanf sc.kind .void true
  | fmt, k :: ks =>
    match scan fmt with
    | none => false
    | some sc => compatibleScanf sc.kind k false && checkLiteral (fmt.drop sc.formatLen) ks

end Umka.Scanf
