/-!
# Spelling of types in messages: model

`typeSpelling` (`umka_types.c:882-975`), which writes the name of a type into a buffer of 256 bytes for error messages, `repr` and the listing.

Simplifications.  A type is the tree that the function walks through; of a recursive type of a local block, which is a graph, the unrolling.  A buffer is given by
the string in it, without the zero at its end; names contain no zeros.  The address `buf + len` may lie behind the buffer if nothing is written there.
-/

namespace Umka.Spell

abbrev Text := List Char

/-- The kinds of types that are written before another type without a number: `spelling`, `umka_types.c:34-37`. -/
inductive Prefix
  | ptr
  | weak
  | dynArray
  deriving DecidableEq, Repr

def Prefix.text : Prefix → Text
  | .ptr => "^".toList
  | .weak => "weak ^".toList
  | .dynArray => "[]".toList

/-- What matters of a `Type`. -/
inductive T
  /-- a type declared outside all functions: `type->block == 0 && type->typeIdent` -/
  | named (name : Text)
  | array (items : Int) (item : T)
  /-- an enumeration, with the spelling of the kind of its values -/
  | enum (kind : Text)
  | map (key item : T)
  /-- the type of a list of expressions, with at least one item -/
  | list (fields : List T)
  /-- a function or closure: is it a method; its first parameter, which is the receiver or hidden; the other parameters without the hidden last one; has it no result;
  its result -/
  | fn (method : Bool) (self : T) (params : List T) (void : Bool) (result : T) (closure : Bool)
  | pre (kind : Prefix) (base : T)
  /-- any other type, with the spelling of its kind -/
  | other (kind : Text)

/-- `DEFAULT_STR_LEN + 1`. -/
def size : Nat := 256

/-- The buffer and `len`. -/
abbrev St := Text × Nat

/-- `len += snprintf(buf + len, nonneg(size - len), ...)`. -/
def put (st : St) (t : Text) : St :=
  (if size - st.2 = 0 then st.1 else st.1.take st.2 ++ t.take (size - st.2 - 1), st.2 + t.length)

/-- `strncat(buf, t, n)`.  `none`: a write behind the end of the buffer. -/
def strncat (s t : Text) (n : Nat) : Option Text :=
  if size < (s ++ t.take n).length + 1 then none else some (s ++ t.take n)

def decimal (n : Int) : Text := (toString n).toList

mutual

/-- `typeSpellingRecursive`, `umka_types.c:882-967`.  A `depth` below zero is zero here. -/
def spelling (depth : Nat) : T → Option Text
  | .named name => some (put ([], 0) name).1
  | .array n item => do
    let st := put ([], 0) ('[' :: decimal n ++ [']'])
    let it ← (if depth > 0 then spelling (depth - 1) item else some "...".toList)
    strncat st.1 it (size - st.2 - 1)
  | .enum kind => some (put ([], 0) ("enum(".toList ++ kind ++ [')'])).1
  | .map key item => do
    let k ← spelling (depth - 1) key
    let st := put ([], 0) ("map[".toList ++ k ++ [']'])
    let it ← (if depth > 0 then spelling (depth - 1) item else some "...".toList)
    strncat st.1 it (size - st.2 - 1)
  | .list fields => do
    let st ← spellFields depth (put ([], 0) "{ ".toList) fields
    return (put st "}".toList).1
  | .fn method self params void result closure => do
    let st := put ([], 0) "fn (".toList
    let s ← (if method then spelling (depth - 1) self else some [])
    let st := if method then put st (s ++ ") (".toList) else st
    let st ← spellParams depth true st params
    let st := put st ")".toList
    let r ← (if void then some [] else spelling (depth - 1) result)
    let st := if void then st else put st (": ".toList ++ r)
    return (if closure then put st " |...|".toList else st).1
  | .pre kind base => do
    let buf := (put ([], 0) kind.text).1
    let it ← (if depth > 0 then spelling (depth - 1) base else some "...".toList)
    strncat buf it (size - 0 - 1)
  | .other kind => some (put ([], 0) kind).1

/-- The loop over the items of a list, `umka_types.c:907-911`. -/
def spellFields (depth : Nat) (st : St) : List T → Option St
  | [] => some st
  | t :: ts => do
    let s ← spelling (depth - 1) t
    spellFields depth (put st (s ++ " ".toList)) ts

/-- The loop over the parameters, `umka_types.c:931-938`. -/
def spellParams (depth : Nat) (first : Bool) (st : St) : List T → Option St
  | [] => some st
  | t :: ts => do
    let st := if first then st else put st ", ".toList
    let s ← spelling (depth - 1) t
    spellParams depth false (put st s) ts

end

/-- `typeSpelling`, `umka_types.c:970-975`. -/
def typeSpelling (t : T) : Option Text := spelling 10 t

end Umka.Spell
