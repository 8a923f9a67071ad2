/-!
# Lib: model

Functions of the standard library that are written in Umka (`umka_runtime_src.h`): random numbers, trimming, `fnc.um`, `utf8.um`.
The statements are transcribed one by one; what the language constructs do is the subject of the other areas.

Strings and `[]char` are lists of bytes.  `str` of a `[]char` stops at the first zero byte (`Verif/Str/Model.lean`, `makeStr`).
-/

namespace Umka.Lib

/-! ## Random numbers -/

/-- `randSeed`: a `uint`. -/
abbrev Seed := BitVec 64

/-- The three assignments of `rand`, `umka_runtime_src.h:352-356`. -/
def randStep (s : Seed) : Seed :=
  let s := s ^^^ (s <<< 13)
  let s := s ^^^ (s >>> 7)
  s ^^^ (s <<< 17)

/-- `randMax`, `umka_runtime_src.h:348`. -/
def randMax : Seed := 0x7FFFFFFF

/-- `rand`, `umka_runtime_src.h:352-358`: the result, converted to `int`, and the new seed. -/
def rand (s : Seed) : Int × Seed := ((randStep s &&& randMax).toInt, randStep s)

/-- `srand`, `umka_runtime_src.h:364-369`. -/
def srand (s : Seed) (seed : Int) : Seed := if seed > 0 then (rand (BitVec.ofInt 64 seed)).2 else s

/-- A program's calls. -/
inductive RandOp
  | rand
  | srand (seed : Int)
  deriving DecidableEq

/-- The results of the calls of `rand`, starting with a seed; the initial seed is 1, `umka_runtime_src.h:350`. -/
def randRun : Seed → List RandOp → List Int × Seed
  | s, [] => ([], s)
  | s, .rand :: ops => ((rand s).1 :: (randRun (rand s).2 ops).1, (randRun (rand s).2 ops).2)
  | s, .srand seed :: ops => randRun (srand s seed) ops

/-! ## Trimming -/

/-- The loop of `ltrim`, `umka_runtime_src.h:290-295`; `none` is `-1`. -/
def ltrimFind (s : List Nat) (i : Nat) : Option Nat :=
  if h : i < s.length then
    if s[i] > 32 then some i else ltrimFind s (i + 1)
  else none
termination_by s.length - i

/-- `ltrim`, `umka_runtime_src.h:287-298`. -/
def ltrim (s : List Nat) : List Nat :=
  match ltrimFind s 0 with
  | none => []
  | some start => s.drop start

/-- The loop of `rtrim`, `umka_runtime_src.h:303-308`, with `i + 1` as argument. -/
def rtrimFind (s : List Nat) : Nat → Option Nat
  | 0 => none
  | i + 1 => if s.getD i 0 > 32 then some i else rtrimFind s i

/-- `rtrim`, `umka_runtime_src.h:300-311`. -/
def rtrim (s : List Nat) : List Nat :=
  match rtrimFind s s.length with
  | none => []
  | some stop => s.take (stop + 1)

/-- `trim`, `umka_runtime_src.h:313-315`. -/
def trim (s : List Nat) : List Nat := ltrim (rtrim s)

/-! ## Functional tools

The function argument is a closure: it may change anything, so it works on a state `σ` of the program.  The array is passed by pointer:
its items are read from the state. -/

inductive Err
  | index
  | range
  deriving DecidableEq, Repr

/-- The loop of `transform`, `umka_runtime_src.h:447-449`; the first argument bounds the number of rounds, `none`: not finished.  `res`: the
new array, whose items are `null` (`dflt`) at first.  The place `res[i]` is computed before the call. -/
def transformLoop {σ α β : Type} (arr : σ → List α) (f : α → σ → β × σ) : Nat → Nat → List β → σ → Option (Except Err (List β × σ))
  | 0, _, _, _ => none
  | n + 1, i, res, w =>
    match (arr w)[i]? with
    | none => some (.ok (res, w))
    | some x =>
      if i < res.length then
        let r := f x w
        transformLoop arr f n (i + 1) (res.set i r.1) r.2
      else some (.error .index)

/-- `transform`, `umka_runtime_src.h:445-451`. -/
def transform {σ α β : Type} (dflt : β) (arr : σ → List α) (f : α → σ → β × σ) (n : Nat) (w : σ) : Option (Except Err (List β × σ)) :=
  transformLoop arr f n 0 (List.replicate (arr w).length dflt) w

/-- The loop of `filter`, `umka_runtime_src.h:455-459`: the item is read again after the call. -/
def filterLoop {σ α : Type} (arr : σ → List α) (f : α → σ → Bool × σ) : Nat → Nat → List α → σ → Option (Except Err (List α × σ))
  | 0, _, _, _ => none
  | n + 1, i, res, w =>
    match (arr w)[i]? with
    | none => some (.ok (res, w))
    | some x =>
      let r := f x w
      if r.1 then
        match (arr r.2)[i]? with
        | none => some (.error .index)
        | some y => filterLoop arr f n (i + 1) (res ++ [y]) r.2
      else filterLoop arr f n (i + 1) res r.2

/-- `filter`, `umka_runtime_src.h:453-461`. -/
def filter {σ α : Type} (arr : σ → List α) (f : α → σ → Bool × σ) (n : Nat) (w : σ) : Option (Except Err (List α × σ)) :=
  filterLoop arr f n 0 [] w

/-- The loop of `reduce`, `umka_runtime_src.h:465-467`. -/
def reduceLoop {σ α : Type} (arr : σ → List α) (f : α → α → σ → α × σ) : Nat → Nat → α → σ → Option (Except Err (α × σ))
  | 0, _, _, _ => none
  | n + 1, i, res, w =>
    match (arr w)[i]? with
    | none => some (.ok (res, w))
    | some x =>
      let r := f res x w
      reduceLoop arr f n (i + 1) r.1 r.2

/-- `reduce`, `umka_runtime_src.h:463-469`. -/
def reduce {σ α : Type} (arr : σ → List α) (f : α → α → σ → α × σ) (n : Nat) (w : σ) : Option (Except Err (α × σ)) :=
  match (arr w)[0]? with
  | none => some (.error .index)
  | some x => reduceLoop arr f n 1 x w

/-! ## UTF-8 -/

/-- `errRune`, `umka_runtime_src.h:582`. -/
def errRune : Int := 0xFFFD

/-- `errStr`, `umka_runtime_src.h:583`. -/
def errStr : List Nat := [0xEF, 0xBF, 0xBD]

/-- `headerOnes`, `umka_runtime_src.h:586`. -/
def headerOnes (i : Nat) : Nat := [0x00, 0x00, 0xC0, 0xE0, 0xF0, 0xF8].getD i 0

/-- `size`, `umka_runtime_src.h:588-594`; a rune is an `int32`. -/
def size (r : Int) : Int :=
  if r ≤ 0x7F then 1
  else if r ≤ 0x7FF then 2
  else if r ≤ 0xFFFF then 3
  else if r ≤ 0x10FFFF then 4
  else -1

/-- The loop of `encode`, `umka_runtime_src.h:607-610`, for the remaining characters. -/
def encodeTail (r : Nat) : Nat → Nat → List Nat
  | 0, _ => []
  | k + 1, shift => (r >>> (shift - 6) &&& 0x3F ||| 0x80) :: encodeTail r k (shift - 6)

/-- `str` of a `[]char`: up to the first zero. -/
def toStr (chars : List Nat) : List Nat := chars.takeWhile (· ≠ 0)

/-- `encode` of a rune, `umka_runtime_src.h:596-613`. -/
def encodeRune (r : Int) : Except Err (List Nat) :=
  let size := size r
  if size ≤ 0 then .ok errStr
  else if size = 1 then
    if r < 0 then .error .range else .ok (toStr [r.toNat])
  else
    let n := size.toNat
    let shift := (n - 1) * 6
    .ok (toStr ((((r.toNat >>> shift &&& 0xFF) ||| headerOnes n) &&& 0xFF) :: (encodeTail r.toNat (n - 1) shift ++ [0])))

/-- `encode`, `umka_runtime_src.h:615-621`. -/
def encode : List Int → Except Err (List Nat)
  | [] => .ok []
  | r :: rs => do
    let s ← encodeRune r
    let t ← encode rs
    return s ++ t

/-- The loop of `decodeRune`, `umka_runtime_src.h:648-661`; `k`: the number of rounds left. -/
def decodeTail (chars : List Nat) : Nat → Nat → Nat → Nat → Int
  | 0, _, _, rune => rune
  | k + 1, pos, shift, rune =>
    match chars[pos]? with
    | none => errRune
    | some byte =>
      if byte &&& 0xC0 ≠ 0x80 then errRune
      else decodeTail chars k (pos + 1) (shift - 6) (rune ||| (byte &&& 0x3F) <<< (shift - 6))

/-- The number of bytes according to the header, `umka_runtime_src.h:631-639`. -/
def headerSize (header : Nat) : Nat :=
  if header &&& headerOnes 3 = headerOnes 2 then 2
  else if header &&& headerOnes 4 = headerOnes 3 then 3
  else if header &&& headerOnes 5 = headerOnes 4 then 4
  else 0

/-- `decodeRune`, `umka_runtime_src.h:623-664`.  `~headerOnes[size + 1]` is applied to a `uint8`: the complement within 8 bits. -/
def decodeRune (chars : List Nat) (pos : Int) : Except Err Int :=
  if pos < 0 then .error .index
  else
    match chars[pos.toNat]? with
    | none => .error .index
    | some header =>
      if header &&& 0x80 = 0 then .ok header
      else
        let size := headerSize header
        if size = 0 then .ok errRune
        else
          let shift := (size - 1) * 6
          .ok (decodeTail chars (size - 1) (pos.toNat + 1) shift ((header &&& (255 - headerOnes (size + 1))) <<< shift))

/-- The loop of `decode`, `umka_runtime_src.h:670-677`; the first argument bounds the number of rounds, `none`: not finished. -/
def decodeLoop (chars : List Nat) : Nat → Int → List Int → Option (Except Err (List Int))
  | 0, _, _ => none
  | n + 1, pos, runes =>
    if pos < chars.length then
      match decodeRune chars pos with
      | .error e => some (.error e)
      | .ok rune =>
        if rune = errRune then some (.ok runes)
        else decodeLoop chars n (pos + size rune) (runes ++ [rune])
    else some (.ok runes)

/-- `decode`, `umka_runtime_src.h:666-680`. -/
def decode (n : Nat) (s : List Nat) : Option (Except Err (List Int)) := decodeLoop s n 0 []

/-- The loop of `runeCount`, `umka_runtime_src.h:686-693`. -/
def countLoop (chars : List Nat) : Nat → Int → Nat → Option (Except Err Nat)
  | 0, _, _ => none
  | n + 1, pos, count =>
    if pos < chars.length then
      match decodeRune chars pos with
      | .error e => some (.error e)
      | .ok rune =>
        if rune = errRune then some (.ok count)
        else countLoop chars n (pos + size rune) (count + 1)
    else some (.ok count)

/-- `runeCount`, `umka_runtime_src.h:682-696`. -/
def runeCount (n : Nat) (s : List Nat) : Option (Except Err Nat) := countLoop s n 0 0

end Umka.Lib
