/-!
# Paths: model

Module paths (`umka_common.c:242-264`, `umka_common.c:387-512`).  A string is the list of its characters without the
terminating zero.  The non-Windows variant is modelled.

Simplifications.  A buffer that is written from left to right, with the writing position moved back now and then, is the
list of the characters before the writing position: what is after it is overwritten or cut off by the final terminating zero.
A pointer into the buffer is its index.
-/

namespace Umka.Paths

/-- `' '` or `'\t'`. -/
def blank (c : Char) : Bool := c == ' ' || c == '\t'

/-- `'/'` or `'\\'`. -/
def slash (c : Char) : Bool := c == '/' || c == '\\'

/-- `modulePathIsAbsolute`, `umka_common.c:410-424`. -/
def isAbsolute : List Char → Bool
  | [] => false
  | c :: cs => if blank c then isAbsolute cs else c == '/'

/-- The local variables of the loop in `moduleRegularizePath`: the text before `writeCh`, `separators[0..numSeparators-1]`,
`numDots`. -/
structure St where
  out : List Char
  seps : List Nat
  dots : Nat
  deriving DecidableEq, Repr

/-- One iteration of the loop, `umka_common.c:439-497`.  `none`: `return false`. -/
def stepChar (s : St) (c : Char) : Option St :=
  if slash c then
    if s.dots = 1 then some { s with dots := 0 }
    else if s.dots = 2 then
      if s.seps.length < 2 then none
      else
        let seps := s.seps.take (s.seps.length - 1)
        some { out := s.out.take (seps.getD (seps.length - 1) 0 + 1), seps := seps, dots := 0 }
    else some { out := s.out ++ ['/'], seps := s.seps ++ [s.out.length], dots := 0 }
  else if c == '.' then some { s with dots := s.dots + 1 }
  else
    let dots := if blank c then 0 else s.dots
    some { s with out := s.out ++ List.replicate dots '.' ++ [c], dots := 0 }

/-- The loop, `umka_common.c:439-500`. -/
def run : St → List Char → Option St
  | s, [] => some s
  | s, c :: cs =>
    match stepChar s c with
    | none => none
    | some s => run s cs

/-- `snprintf(absolutePath, size, "%s%s", ...)`, `umka_common.c:429-430`. -/
def absolutePath (path curFolder : List Char) (size : Nat) : List Char :=
  ((if isAbsolute path then [] else curFolder) ++ path).take (size - 1)

/-- `moduleRegularizePath`, `umka_common.c:427-505`.  `none`: it returns `false`. -/
def regularize (path curFolder : List Char) (size : Nat) : Option (List Char) :=
  match run { out := [], seps := [], dots := 0 } (absolutePath path curFolder size) with
  | none => none
  | some s => if s.dots > 0 then none else some s.out

/-- The index after the last character that satisfies `p`; `0` if there is none.  (`strrchr`.) -/
def afterLast (p : Char → Bool) (l : List Char) : Nat :=
  match l with
  | [] => 0
  | c :: cs => if afterLast p cs > 0 then afterLast p cs + 1 else if p c then 1 else 0

/-- `moduleNameFromPath`, `umka_common.c:242-263`: folder and name, or "Illegal module path". -/
def nameFromPath (path : List Char) (size : Nat) : Option (List Char × List Char) :=
  let start := afterLast slash path
  let dot := afterLast (· == '.') path
  let stop := if dot > 0 then dot - 1 else path.length
  if stop ≤ start then none
  else some ((path.take start).take (size - 1), ((path.drop start).take (stop - start)).take (size - 1))

end Umka.Paths
