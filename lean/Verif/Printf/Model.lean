/-!
# Printf: model

`printf`, `fprintf` and `sprintf`: the format scanner (`umka_types.c:977-1103`), the compile-time check of literal formats
(`umka_expr.c:850-906`), the `%v` representation of values (`umka_vm.c:1658-1909`) and the run-time part (`umka_vm.c:1912-2109`).

A C string is the list of its characters before the terminating NUL; reading `format[i]` at the end of the list is reading that NUL.
The conversions of the C library are a parameter (`CLib.render`): what the model fixes is which conversion is called on which value.
Integers in slots are the signed 64-bit value `slot.intVal`.  Lengths are unbounded: the `int` overflow of lengths is left out.
Undefined behaviour of the C program is the outcome `none` / `undef`.
-/

namespace Umka.Printf

/-- `TypeKind`, `umka_types.h`. -/
inductive Kind
  | none | void | int8 | int16 | int32 | int | uint8 | uint16 | uint32 | uint | bool | char | real32 | real
  | ptr | weakptr | array | dynarray | str | map | struct | interface | closure | fiber | fn
  deriving DecidableEq, Repr

/-- `FormatStringTypeSize`: `hh`, `h`, nothing, `l`, `ll`. -/
inductive Size
  | shortShort | short | normal | long | longLong
  deriving DecidableEq, Repr

/-! ## The format scanner -/

/-- The results of `typeFormatStringValid` through its pointer parameters.  `typeLetterPos` is `none` for the caller's initial `-1`. -/
structure Scan where
  formatLen : Nat
  typeLetterPos : Option Nat
  kind : Kind
  size : Size
  deriving DecidableEq, Repr

/-- `while (p(format[i])) i++;` for a `p` that is false on NUL: the rest of the string and the position. -/
def skip (p : Char → Bool) : List Char → Nat → List Char × Nat
  | [], i => ([], i)
  | c :: s, i => if p c then skip p s (i + 1) else (c :: s, i)

/-- `umka_types.c:998-999` -/
def isFlag (c : Char) : Bool := c == '+' || c == '-' || c == ' ' || c == '0' || c == '\'' || c == '#'

/-- `umka_types.c:1003`, `1010` -/
def isDigit (c : Char) : Bool := '0' ≤ c && c ≤ '9'

/-- `umka_types.c:1006-1012`: `[.precision]` -/
def skipPrecision : List Char → Nat → List Char × Nat
  | c :: s, i => if c == '.' then skip isDigit s (i + 1) else (c :: s, i)
  | [], i => ([], i)

/-- `umka_types.c:1014-1036`: `[length]` -/
def skipLength : List Char → Nat → Size × List Char × Nat
  | 'h' :: 'h' :: s, i => (.shortShort, s, i + 2)
  | 'h' :: s, i => (.short, s, i + 1)
  | 'l' :: 'l' :: s, i => (.longLong, s, i + 2)
  | 'l' :: s, i => (.long, s, i + 1)
  | s, i => (.normal, s, i)

/-- `umka_types.c:1040-1096`: the type letter; `none` is `return false`. -/
def letterKind (c : Char) (size : Size) : Option Kind :=
  if c == 'd' || c == 'i' then
    match size with
    | .shortShort => some .int8
    | .short => some .int16
    | .normal => some .int32
    | .long => some .int32
    | .longLong => some .int
  else if c == 'u' || c == 'x' || c == 'X' then
    match size with
    | .shortShort => some .uint8
    | .short => some .uint16
    | .normal => some .uint32
    | .long => some .uint32
    | .longLong => some .uint
  else if c == 'f' || c == 'F' || c == 'e' || c == 'E' || c == 'g' || c == 'G' then
    match size with
    | .normal => some .real32
    | .long => some .real
    | _ => none
  else if c == 's' || c == 'c' then
    match size with
    | .normal => some (if c == 's' then .str else .char)
    | _ => none
  else if c == 'v' then some .interface
  else none

/-- The main loop of `typeFormatStringValid`, `umka_types.c:983-1100`.  `fuel` bounds the number of iterations (each but the last consumes
a `%`); `none` is `return false`. -/
def scanLoop : Nat → List Char → Nat → Option Nat → Kind → Size → Option Scan
  | 0, _, _, _, _, _ => none
  | fuel + 1, s, i, pos, kind, size =>
    if s.isEmpty then some ⟨i, pos, kind, size⟩                       -- while (format[i])
    else
      let (s1, i1) := skip (· != '%') s i
      match s1 with
      | [] => some ⟨i1, pos, .void, .normal⟩                           -- no '%': break
      | _ :: s2 =>
        let (s3, i3) := skip isFlag s2 (i1 + 1)
        let (s4, i4) := skip isDigit s3 i3
        let (s5, i5) := skipPrecision s4 i4
        let (sz, s6, i6) := skipLength s5 i5
        match s6 with
        | [] => none
        | c :: s7 =>
          if c == '%' then scanLoop fuel s7 (i6 + 1) (some i6) .void sz
          else (letterKind c sz).map fun k => ⟨i6 + 1, some i6, k, sz⟩

/-- `typeFormatStringValid`, `umka_types.c:977-1103`. -/
def scan (format : List Char) : Option Scan := scanLoop (format.length + 1) format 0 none .void .normal

/-! ## Kinds -/

/-- `typeKindIntegerOrEnum`, `umka_types.h:241-245`. -/
def Kind.isInt : Kind → Bool
  | .int8 | .int16 | .int32 | .int | .uint8 | .uint16 | .uint32 | .uint => true
  | _ => false

/-- `typeKindReal`, `umka_types.h:272-275`. -/
def Kind.isReal : Kind → Bool
  | .real32 | .real => true
  | _ => false

/-- `typeKindSigned`, `umka_types.h:294-297`. -/
def Kind.isSigned : Kind → Bool
  | .int8 | .int16 | .int32 | .int => true
  | _ => false

/-- `typeCompatiblePrintf`, `umka_types.h:326-339`. -/
def compatiblePrintf (expected kind : Kind) (allowVoid : Bool) : Bool :=
  if kind == .void && !allowVoid then false
  else if expected == .none then true
  else kind == expected || (kind.isInt && expected.isInt) || (kind.isReal && expected.isReal)
    || (kind != .void && expected == .interface)

/-! ## Values -/

/-- What the model needs of the C library and of the numbers of the machine.  `render flags width precision conv value` is the text of one
conversion; `overFlt`, `overDbl`: a real outside `±FLT_MAX`, `±DBL_MAX`; `longBits`: the size of `long`. -/
structure CLib (R : Type) where
  render : List Char → List Char → Option (List Char) → Char → (Int ⊕ R ⊕ List Char) → List Char
  overFlt : R → Bool
  overDbl : R → Bool
  longBits : Nat

/-- The shape of a value as `doFillReprBuf` sees it.  Parts are numbered nodes, so that values can be shared or cyclic.  `opaque`: texts
the C library makes of reals, addresses, fibers and functions.  A map is given by its keys and items in the order of `doGetMapKeys`. -/
inductive Shape
  | void
  | int (i : Int)
  | bool (b : Bool)
  | char (c : Nat)
  | str (s : List Char)
  | opaque (text : List Char)
  | ptr (text : List Char) (target : Option Nat)
  | array (items : List Nat)
  | map (entries : List (Nat × Nat))
  | struct (fields : List (List Char × Nat)) (skipNames : Bool)
  | iface (self : Option (List Char × Nat))

/-- The content of the value slot. -/
inductive Val (R : Type)
  | int (i : Int)
  | real (r : R)
  | str (s : List Char)
  | other

/-- An argument of `printf`: its type, its slot and, for `%v`, the graph of its parts. -/
structure Arg (R : Type) where
  kind : Kind
  val : Val R
  graph : Nat → Shape
  root : Nat

/-- `typeConvOverflow`, `umka_types.h:379-412`, on the kinds that a format can expect. -/
def convOverflow {R} (L : CLib R) (expected kind : Kind) (v : Val R) : Bool :=
  match expected, v with
  | .real32, .real r => L.overFlt r
  | .real, .real r => L.overDbl r
  | .int8, .int i => i < -128 || i > 127 || (i < 0 && kind == .uint)
  | .int16, .int i => i < -32768 || i > 32767 || (i < 0 && kind == .uint)
  | .int32, .int i => i < -2147483648 || i > 2147483647 || (i < 0 && kind == .uint)
  | .int, .int i => i < 0 && kind == .uint
  | .uint8, .int i => i < 0 || i > 255
  | .uint16, .int i => i < 0 || i > 65535
  | .uint32, .int i => i < 0 || i > 4294967295
  | .uint, .int i => i < 0 && kind.isSigned
  | .char, .int i => i < 0 || i > 255
  | _, _ => false

/-! ## Memory -/

/-- Writing `text` at `pos`; `none` if it does not fit. -/
def writeAt (mem : List Char) (pos : Nat) (text : List Char) : Option (List Char) :=
  if pos + text.length ≤ mem.length then some (mem.take pos ++ text ++ mem.drop (pos + text.length)) else none

/-- The terminating NUL. -/
def nul : Char := Char.ofNat 0

/-- The C string at the start of a buffer. -/
def cstr (mem : List Char) : List Char := mem.takeWhile (· != nul)

/-! ## The representation of values (`%v`) -/

/-- A piece of code that prints at `buf + pos` (`buf` is `NULL` or a memory block) and returns the memory and the length printed. -/
abbrev Wr := Option (List Char) → Nat → Option (Option (List Char) × Nat)

/-- `snprintf(nonnull(buf, len), maxLen, ...)` whose output is `text`: at most `maxLen - 1` characters and a NUL are written. -/
def snp (maxLen : Nat) (text : List Char) : Wr := fun buf pos =>
  if maxLen = 0 then some (buf, text.length)
  else match buf with
    | none => none
    | some mem => (writeAt mem pos (text.take (maxLen - 1) ++ [nul])).map fun m => (some m, text.length)

/-- `len += a; len += b;` -/
def Wr.andThen (a b : Wr) : Wr := fun buf pos =>
  match a buf pos with
  | none => none
  | some (buf1, l1) =>
    match b buf1 (pos + l1) with
    | none => none
    | some (buf2, l2) => some (buf2, l1 + l2)

def Wr.nothing : Wr := fun buf _ => some (buf, 0)

def Wr.seq (ws : List Wr) : Wr := ws.foldr Wr.andThen Wr.nothing

/-- The output of `"\n%*c"` with a width and a blank. -/
def newlineIndent (width : Nat) : List Char := '\n' :: List.replicate (max width 1) ' '

/-- `doPrintIndented`, `umka_vm.c:1658-1704`; `INDENT_WIDTH` is 4. -/
def printIndented (maxLen depth : Nat) (pretty : Bool) (ch : Char) : Wr :=
  if ch = '(' ∨ ch = '[' ∨ ch = '{' then
    .seq [snp maxLen [ch], if pretty then snp maxLen (newlineIndent (4 * (depth + 1))) else .nothing]
  else if ch = ')' ∨ ch = ']' ∨ ch = '}' then
    .seq [if pretty then (if depth > 0 then snp maxLen (newlineIndent (4 * depth)) else snp maxLen ['\n']) else .nothing,
          snp maxLen [ch]]
  else if ch = ' ' then
    if pretty then snp maxLen (newlineIndent (4 * (depth + 1))) else snp maxLen [' ']
  else .nothing

/-- Two hexadecimal digits, `%02X`. -/
def hexDigit (n : Nat) : Char := if n < 10 then Char.ofNat (48 + n) else Char.ofNat (55 + n)

/-- `umka_vm.c:1731-1736`: a character. -/
def charText (c : Nat) : List Char :=
  if c ≥ 32 then ['\'', Char.ofNat c, '\''] else ['0', 'x', hexDigit (c / 16), hexDigit (c % 16)]

/-- `MAX_DEPTH`, `umka_vm.c:1709`. -/
def maxDepth : Nat := 20

/-- `doFillReprBuf`, `umka_vm.c:1707-1909`.  `left` is `MAX_DEPTH - depth`. -/
def fillRepr (g : Nat → Shape) (pretty dereferenced : Bool) (maxLen : Nat) : Nat → Nat → Wr
  | 0, _ => snp maxLen "...".toList
  | left + 1, node =>
    let depth := maxDepth - (left + 1)
    match g node with
    | .void => snp maxLen "void".toList
    | .int i => snp maxLen (toString i).toList
    | .bool b => snp maxLen (if b then "true".toList else "false".toList)
    | .char c => snp maxLen (charText c)
    | .opaque t => snp maxLen t
    | .str s => snp maxLen ('"' :: s ++ ['"'])
    | .ptr t target =>
      match dereferenced, target with
      | true, some n =>
        .seq [snp maxLen t, snp maxLen " -> ".toList, printIndented maxLen depth pretty '(',
              fillRepr g pretty dereferenced maxLen left n, printIndented maxLen depth pretty ')']
      | _, _ => snp maxLen t
    | .array items =>
      .seq [printIndented maxLen depth pretty '[',
            .seq (items.mapIdx fun i n =>
              .seq [fillRepr g pretty dereferenced maxLen left n,
                    if i + 1 < items.length then printIndented maxLen depth pretty ' ' else .nothing]),
            printIndented maxLen depth pretty ']']
    | .map entries =>
      .seq [printIndented maxLen depth pretty '{',
            .seq (entries.mapIdx fun i e =>
              .seq [fillRepr g pretty dereferenced maxLen left e.1, snp maxLen ": ".toList,
                    fillRepr g pretty dereferenced maxLen left e.2,
                    if i + 1 < entries.length then printIndented maxLen depth pretty ' ' else .nothing]),
            printIndented maxLen depth pretty '}']
    | .struct fields skipNames =>
      .seq [printIndented maxLen depth pretty '{',
            .seq (fields.mapIdx fun i f =>
              .seq [if skipNames then .nothing else snp maxLen (f.1 ++ ": ".toList),
                    fillRepr g pretty dereferenced maxLen left f.2,
                    if i + 1 < fields.length then printIndented maxLen depth pretty ' ' else .nothing]),
            printIndented maxLen depth pretty '}']
    | .iface (some (typeName, n)) =>
      .seq [if pretty then .seq [snp maxLen typeName, printIndented maxLen depth pretty '('] else .nothing,
            fillRepr g pretty dereferenced maxLen left n,
            if pretty then printIndented maxLen depth pretty ')' else .nothing]
    | .iface none => snp maxLen "null".toList

/-- The two passes, `umka_vm.c:2042-2056`: measure, get a buffer of `reprLen + 1` characters (its content is arbitrary, `junk`), terminate
it, fill it.  The result is the buffer and `reprLen`. -/
def makeRepr (g : Nat → Shape) (root : Nat) (pretty dereferenced : Bool) (junk : Char) : Option (List Char × Nat) :=
  match fillRepr g pretty dereferenced 0 maxDepth root none 0 with
  | none => none
  | some (_, reprLen) =>
    match writeAt (List.replicate (reprLen + 1) junk) reprLen [nul] with
    | none => none
    | some mem =>
      match fillRepr g pretty dereferenced (reprLen + 1) maxDepth root (some mem) 0 with
      | some (some mem', _) => some (mem', reprLen)
      | _ => none

/-! ## The C function `printf` with at most one argument -/

/-- A variadic argument: an integer passed in `bits` bits, a `double`, a pointer to a string. -/
inductive CArg (R : Type)
  | int (bits : Nat) (i : Int)
  | dbl (r : R)
  | str (s : List Char)

/-- The length modifier of a C conversion. -/
def cLength : List Char → Size × List Char
  | 'h' :: 'h' :: s => (.shortShort, s)
  | 'h' :: s => (.short, s)
  | 'l' :: 'l' :: s => (.longLong, s)
  | 'l' :: s => (.long, s)
  | s => (.normal, s)

/-- The bits that an integer conversion takes from its argument, and those it keeps (C11 7.21.6.1p7). -/
def cIntBits {R} (L : CLib R) : Size → Nat × Nat
  | .shortShort => (32, 8)
  | .short => (32, 16)
  | .normal => (32, 32)
  | .long => (L.longBits, L.longBits)
  | .longLong => (64, 64)

/-- One conversion of the C library (C11 7.21.6.1).  An integer argument occupies a 64-bit slot, as on the 64-bit ABIs: taking fewer bits
than were passed gives the low bits; taking more is undefined.  Invalid combinations of flags and conversions are left to `render`. -/
def cConv {R} (L : CLib R) (flags width : List Char) (prec : Option (List Char)) (size : Size) (conv : Char) (arg : CArg R) :
    Option (List Char) :=
  if conv = 'd' ∨ conv = 'i' then
    match arg with
    | .int bits i =>
      let (take, keep) := cIntBits L size
      if bits < take then none else some (L.render flags width prec conv (.inl (i.bmod (2 ^ keep : Nat))))
    | _ => none
  else if conv = 'u' ∨ conv = 'x' ∨ conv = 'X' then
    match arg with
    | .int bits i =>
      let (take, keep) := cIntBits L size
      if bits < take then none else some (L.render flags width prec conv (.inl (i % (2 ^ keep : Nat))))
    | _ => none
  else if conv = 'f' ∨ conv = 'F' ∨ conv = 'e' ∨ conv = 'E' ∨ conv = 'g' ∨ conv = 'G' then
    match arg, size with
    | .dbl r, .normal | .dbl r, .long => some (L.render flags width prec conv (.inr (.inl r)))
    | _, _ => none
  else if conv = 's' then
    match arg, size with
    | .str s, .normal => some (L.render flags width prec conv (.inr (.inr s)))
    | _, _ => none
  else if conv = 'c' then
    match arg, size with
    | .int _ i, .normal => some (L.render flags width prec conv (.inl (i % 256)))
    | _, _ => none
  else none

/-- `printf(format, arg)` of the C library; `none` is undefined behaviour.  C11 7.21.6.1: `%` flags width precision length conversion; the
complete specification of a percent sign is `%%`. -/
def cPrintf {R} (L : CLib R) : Nat → List Char → Option (CArg R) → Option (List Char)
  | 0, _, _ => none
  | _ + 1, [], _ => some []
  | fuel + 1, c :: s, arg =>
    if c ≠ '%' then (cPrintf L fuel s arg).map (c :: ·)
    else
      let flags := s.takeWhile isFlag
      let s1 := s.dropWhile isFlag
      let width := s1.takeWhile isDigit
      let s2 := s1.dropWhile isDigit
      let prec : Option (List Char) := match s2 with | '.' :: t => some (t.takeWhile isDigit) | _ => none
      let s3 := match s2 with | '.' :: t => t.dropWhile isDigit | _ => s2
      let (size, s4) := cLength s3
      match s4 with
      | [] => none
      | conv :: s5 =>
        if conv = '%' then
          if flags = [] ∧ width = [] ∧ prec = none ∧ size = .normal then (cPrintf L fuel s5 arg).map ('%' :: ·) else none
        else
          match arg with
          | none => none
          | some a =>
            match cConv L flags width prec size conv a with
            | none => none
            | some text => (cPrintf L fuel s5 none).map (text ++ ·)

/-! ## The run-time part -/

inductive Err
  | invalidFormat | incompatible (expected kind : Kind) | overflow (k : Kind) | nullDestination | illegalType
  deriving DecidableEq, Repr

/-- A string with its dimensions: `bytes` is the whole block, of `capacity` characters. -/
structure StrBuf where
  bytes : List Char
  len : Nat
  deriving DecidableEq, Repr

/-- The destination: the console or a file with what has been written, a string, or a null file. -/
inductive Dest
  | file (out : List Char)
  | str (s : StrBuf)
  | null
  deriving DecidableEq, Repr

/-- The slots under the value: the rest of the format, the count, the stream. -/
structure State where
  format : List Char
  count : Nat
  dest : Dest
  deriving DecidableEq, Repr

inductive Outcome
  | done (s : State)
  | fail (e : Err) (s : State)
  | undef
  deriving DecidableEq, Repr

/-- `doGetEmptyStr`, `umka_vm.c:1425-1436`. -/
def emptyStr : StrBuf := ⟨[nul], 0⟩

/-- `doAllocStr`, `umka_vm.c:1404-1422`, without the bounds near `INT_MAX`; new memory is zero. -/
def allocStr (len : Nat) : StrBuf := ⟨List.replicate (2 * (len + 1)) nul, len⟩

/-- The argument that `doPrintSlot` passes, `umka_vm.c:1912-1942`: `some none` is no argument (`TYPE_VOID`); `none` is `Illegal type`. -/
def slotArg {R} (kind : Kind) (v : Val R) : Option (Option (CArg R)) :=
  match kind, v with
  | .void, _ => some none
  | .int8, .int i => some (some (.int 32 (i.bmod 256)))
  | .int16, .int i => some (some (.int 32 (i.bmod 65536)))
  | .int32, .int i => some (some (.int 32 (i.bmod 4294967296)))
  | .int, .int i => some (some (.int 64 i))
  | .uint8, .int i => some (some (.int 32 (i % 256)))
  | .uint16, .int i => some (some (.int 32 (i % 65536)))
  | .uint32, .int i => some (some (.int 32 (i % 4294967296)))
  | .uint, .int i => some (some (.int 64 (i % 18446744073709551616)))
  | .bool, .int i => some (some (.int 32 (if i = 0 then 0 else 1)))
  | .char, .int i => some (some (.int 32 (i % 256)))
  | .real32, .real r => some (some (.dbl r))
  | .real, .real r => some (some (.dbl r))
  | .str, .str s => some (some (.str s))
  | _, _ => none

/-- `umka_vm.c:2030-2040`: `%v` becomes `%s`, the length letters become blanks. -/
def patchFormat (fmt : List Char) (pos : Nat) (size : Size) : List Char :=
  let f := fmt.set pos 's'
  let f := if size ≠ .normal ∧ pos ≥ 1 then f.set (pos - 1) ' ' else f
  if (size = .longLong ∨ size = .shortShort) ∧ pos ≥ 2 then f.set (pos - 2) ' ' else f

/-- `umka_vm.c:2059-2089`: printing to the destination.  `text` is the output of the C library. -/
def output (dest : Dest) (count : Nat) (text : List Char) : Option Dest :=
  match dest with
  | .null => none
  | .file out => some (.file (out ++ text))
  | .str s =>
    let len := text.length
    let s1 : Option StrBuf :=
      if s.bytes.length ≥ count + len + 1 then some { s with len := count + len }
      else
        let n := allocStr (count + len)
        (writeAt n.bytes 0 (s.bytes.take count)).bind fun b => (writeAt b count [nul]).map fun b' => { n with bytes := b' }
    s1.bind fun s2 => (writeAt s2.bytes count (text.take len ++ [nul])).map fun b => .str { s2 with bytes := b }

/-- The text of one call, `umka_vm.c:2018-2056` and `doPrintSlot`.  `none` is undefined; `some none` is `Illegal type`. -/
def callText {R} (L : CLib R) (junk : Char) (format : List Char) (sc : Scan) (a : Arg R) : Option (Option (List Char)) :=
  let cur := format.take sc.formatLen
  match sc.kind, sc.typeLetterPos with
  | .interface, some pos =>
    if pos < sc.formatLen then
      match makeRepr a.graph a.root (sc.size = .longLong) (sc.size = .long ∨ sc.size = .longLong) junk with
      | none => none
      | some (repr, _) =>
        (cPrintf L (cur.length + 1) (patchFormat cur pos sc.size) (some (.str (cstr repr)))).map some
    else
      match slotArg a.kind a.val with
      | none => some none
      | some arg => (cPrintf L (cur.length + 1) cur arg).map some
  | _, _ =>
    match slotArg a.kind a.val with
    | none => some none
    | some arg => (cPrintf L (cur.length + 1) cur arg).map some

/-- `doBuiltinPrintf`, `umka_vm.c:1953-2109`: one argument. -/
def step {R} (L : CLib R) (junk : Char) (s : State) (a : Arg R) : Outcome :=
  if s.dest = .null then .fail .nullDestination s
  else
    match scan s.format with
    | none => .fail .invalidFormat s
    | some sc =>
      if !compatiblePrintf sc.kind a.kind true then .fail (.incompatible sc.kind a.kind) s
      else if sc.kind ≠ .void ∧ convOverflow L sc.kind a.kind a.val then .fail (.overflow sc.kind) s
      else
        match callText L junk s.format sc a with
        | none => .undef
        | some none => .fail .illegalType s
        | some (some text) =>
          match output s.dest s.count text with
          | none => .undef
          | some dest => .done ⟨s.format.drop sc.formatLen, s.count + text.length, dest⟩

/-- The final call has no value: type `void`. -/
def voidArg {R} : Arg R := ⟨.void, .other, fun _ => .void, 0⟩

/-- The code emitted for a call of `printf`, `umka_expr.c:828-922`: one call of the built-in for each argument, then one for the rest. -/
def runArgs {R} (L : CLib R) (junk : Char) : List (Arg R) → State → Outcome
  | [], s => step L junk s voidArg
  | a :: as, s =>
    match step L junk s a with
    | .done s' => runArgs L junk as s'
    | o => o

/-- `printf(format, args...)` / `fprintf`; `sprintf` starts with the empty string (the null stream, `umka_vm.c:1957-1961`). -/
def printf {R} (L : CLib R) (junk : Char) (format : List Char) (args : List (Arg R)) : Outcome :=
  runArgs L junk args ⟨format, 0, .file []⟩

def sprintf {R} (L : CLib R) (junk : Char) (format : List Char) (args : List (Arg R)) : Outcome :=
  runArgs L junk args ⟨format, 0, .str emptyStr⟩

/-! ## The compile-time check -/

/-- `umka_expr.c:869-905` on a literal format: `true` if the call compiles. -/
def checkLiteral : List Char → List Kind → Bool
  | fmt, [] =>
    match scan fmt with
    | none => false
    | some sc => compatiblePrintf sc.kind .void true
  | fmt, k :: ks =>
    match scan fmt with
    | none => false
    | some sc => compatiblePrintf sc.kind k false && checkLiteral (fmt.drop sc.formatLen) ks

end Umka.Printf
