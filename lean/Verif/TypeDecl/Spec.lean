/-!
# Type declarations: specification

Type expressions, the graph of types that declarations produce, and what it means that a type of the
graph is the type written in the source, that it is complete and what size it has.  Nothing here
refers to the compiler.
-/

namespace Umka.TypeDecl

abbrev Name := String

/-- Types are nodes of a graph. -/
abbrev Id := Nat

mutual
/-- Type expressions (doc/lang.md, Types). -/
inductive TE where
  | name (x : Name)
  | ptr (weak : Bool) (t : TE)
  /-- `[]t`, or the parameter type `..t`. -/
  | dyn (variadic : Bool) (t : TE)
  | arr (n : Nat) (t : TE)
  | map (k t : TE)
  | struct (fs : Flds)
  | iface (ms : Meths)
  | fn (sig : SigT)
/-- Fields or parameters: `x, y: t; ...`. -/
inductive Flds where
  | nil
  | cons (xs : List Name) (t : TE) (rest : Flds)
/-- Methods and embedded interfaces of an interface type. -/
inductive Meths where
  | nil
  | method (x : Name) (sig : SigT) (rest : Meths)
  | embed (x : Name) (rest : Meths)
/-- Signatures: parameters and result. -/
inductive SigT where
  | mk (ps : Flds) (r : ResT)
/-- Result of a function: none, one type, a list `(t, u, ...)` (with the names `item0`, `item1`, ...
that the items of expression lists have). -/
inductive ResT where
  | none
  | single (t : TE)
  | list (ts : Flds)
end

/-- Signature of a function: parameters, result (`none`: nothing is returned), and whether there is
a hidden parameter that tells where to put the result. -/
structure Sig where
  params : List (Name × Id)
  result : Option Id
  resultParam : Bool
  deriving DecidableEq, Repr

/-- A node of the graph. -/
inductive Body where
  /-- mentioned, not yet declared -/
  | forward (mustBeStructured : Bool)
  | void
  /-- numbers, characters, Booleans, and how many bytes they take -/
  | scalar (kind : Name) (bytes : Nat)
  | str
  | fiber
  | ptr (weak : Bool) (t : Id)
  | dyn (variadic : Bool) (t : Id)
  | arr (n : Nat) (t : Id)
  | map (k t : Id)
  | struct (fields : List (Name × Id))
  | iface (methods : List (Name × Sig))
  | closure (sig : Sig)
  deriving DecidableEq, Repr

/-- What a name stands for: a type, or something that is not a type. -/
inductive Bind where
  | type (t : Id)
  | other
  deriving DecidableEq, Repr

namespace Spec

/-- The graph: the node of each type. -/
abbrev Graph := Id → Body

/-! ## What is written -/

mutual
/-- Node `i` of the graph is the type that the expression says, if the names refer to what `ref`
says. -/
def Means (g : Graph) (ref : Name → Id → Prop) : TE → Id → Prop
  | .name x, i => ref x i
  | .ptr w t, i => ∃ b, g i = .ptr w b ∧ Means g ref t b
  | .dyn v t, i => ∃ b, g i = .dyn v b ∧ Means g ref t b
  | .arr n t, i => ∃ b, g i = .arr n b ∧ Means g ref t b
  | .map k t, i => ∃ a b, g i = .map a b ∧ Means g ref k a ∧ Means g ref t b
  | .struct fs, i => ∃ l, g i = .struct l ∧ MeansFields g ref fs l
  | .iface ms, i => ∃ l, g i = .iface l ∧ MeansMethods g ref ms l
  | .fn st, i => ∃ sig, g i = .closure sig ∧ MeansSig g ref st sig
/-- The fields are those written, in order: all names of one list have the same type. -/
def MeansFields (g : Graph) (ref : Name → Id → Prop) : Flds → List (Name × Id) → Prop
  | .nil, l => l = []
  | .cons xs t rest, l => ∃ i l', l = xs.map (fun x => (x, i)) ++ l' ∧ Means g ref t i ∧ MeansFields g ref rest l'
/-- The methods are those written and those of the embedded interfaces, in order. -/
def MeansMethods (g : Graph) (ref : Name → Id → Prop) : Meths → List (Name × Sig) → Prop
  | .nil, l => l = []
  | .method x st rest, l => ∃ sig l', l = (x, sig) :: l' ∧ MeansSig g ref st sig ∧ MeansMethods g ref rest l'
  | .embed x rest, l => ∃ j e l', l = e ++ l' ∧ ref x j ∧ g j = .iface e ∧ MeansMethods g ref rest l'
/-- The parameters and the result are those written. -/
def MeansSig (g : Graph) (ref : Name → Id → Prop) : SigT → Sig → Prop
  | .mk ps r, sig => MeansFields g ref ps sig.params ∧ MeansResult g ref r sig.result
/-- The result: a list of one type is that type, a longer one is a structure. -/
def MeansResult (g : Graph) (ref : Name → Id → Prop) : ResT → Option Id → Prop
  | .none, i => i = none
  | .single t, i => ∃ j, i = some j ∧ Means g ref t j
  | .list ts, i => ∃ l, MeansFields g ref ts l ∧
      ((∃ x j, l = [(x, j)] ∧ i = some j) ∨ (l.length ≠ 1 ∧ ∃ j, i = some j ∧ g j = .struct l))
end

/-- The type declared by `x = t`: a type of its own with the structure that is written; with the
structure of the named type if `t` is a name. -/
def Declares (g : Graph) (ref : Name → Id → Prop) : TE → Id → Prop
  | .name y, i => ∃ j, ref y j ∧ g i = g j
  | t, i => Means g ref t i

/-- What a name refers to in the declaration of a type in a block: what the block declares under the
name, if it does so earlier (`before`) or if the name is not known outside the block; otherwise what
the name is outside. -/
def Refers (before : Name → Prop) (block outside : Name → Option Bind) (x : Name) (i : Id) : Prop :=
  (before x ∨ outside x = none → block x = some (.type i)) ∧
  (¬ before x → outside x ≠ none → outside x = some (.type i))

/-! ## Size -/

/-- The least multiple of `a` that is not less than `n`. -/
def roundUp (n a : Nat) : Nat := (n + (a - 1)) / a * a

/-- Types of arrays of no items, and of arrays of them. -/
inductive Empty (g : Graph) : Id → Prop where
  | zero {i b} : g i = .arr 0 b → Empty g i
  | items {i n b} : g i = .arr n b → Empty g b → Empty g i

/-- Where fields of the given sizes and alignments end if they are put one after another. -/
def fieldsEnd (size align : Id → Nat) (fs : List (Name × Id)) : Nat :=
  fs.foldl (fun e f => roundUp e (align f.2) + size f.2) 0

/-- The greatest alignment of the fields, at least 1. -/
def fieldsAlign (align : Id → Nat) (fs : List (Name × Id)) : Nat :=
  fs.foldl (fun a f => max a (align f.2)) 1

/-- Size and alignment of a type.  There is a derivation only if the type does not contain itself. -/
inductive HasLayout (g : Graph) : Id → Nat → Nat → Prop where
  | void {i} : g i = .void → HasLayout g i 0 1
  | scalar {i k n} : g i = .scalar k n → HasLayout g i n n
  | str {i} : g i = .str → HasLayout g i 8 8
  | fiber {i} : g i = .fiber → HasLayout g i 8 8
  | ptr {i w t} : g i = .ptr w t → HasLayout g i 8 8
  | dyn {i v t} : g i = .dyn v t → HasLayout g i 24 8
  | map {i k t} : g i = .map k t → HasLayout g i 16 8
  | iface {i ms} : g i = .iface ms → HasLayout g i (16 + 8 * ms.length) 8
  | closure {i s} : g i = .closure s → HasLayout g i 24 8
  | arr {i n b s a} : g i = .arr n b → HasLayout g b s a → HasLayout g i (n * s) a
  | struct {i fs} (size align : Id → Nat) : g i = .struct fs →
      (∀ f ∈ fs, HasLayout g f.2 (size f.2) (align f.2)) →
      HasLayout g i (roundUp (fieldsEnd size align fs) (fieldsAlign align fs)) (fieldsAlign align fs)

/-- A value of the one type contains a value of the other: an array its items, a structure its
fields.  Pointers, dynamic arrays, maps, interfaces and functions refer to values elsewhere. -/
inductive Contains (g : Graph) : Id → Id → Prop where
  | item {i n b} : g i = .arr n b → 0 < n → Contains g i b
  | field {i fs x t} : g i = .struct fs → (x, t) ∈ fs → Contains g i t

/-- A value of the one type contains a value of the other, at some depth. -/
inductive ContainsDeep (g : Graph) : Id → Id → Prop where
  | one {i j} : Contains g i j → ContainsDeep g i j
  | more {i j k} : Contains g i j → ContainsDeep g j k → ContainsDeep g i k

/-- Values of the type are references to counted memory. -/
def IsRef : Body → Prop
  | .str | .fiber | .ptr false _ | .dyn _ _ | .map _ _ | .iface _ | .closure _ => True
  | _ => False

/-- A value of the type holds a reference to counted memory. -/
def HoldsRef (g : Graph) (i : Id) : Prop :=
  IsRef (g i) ∨ ∃ j, ContainsDeep g i j ∧ IsRef (g j)

/-- The types whose values functions return through a pointer. -/
def Structured : Body → Prop
  | .arr _ _ | .dyn _ _ | .map _ _ | .struct _ | .iface _ | .closure _ => True
  | _ => False

/-- What is written is a type of this kind: not a name, nor a pointer type. -/
def writtenStructured : TE → Bool
  | .name _ | .ptr _ _ => false
  | _ => true

/-! ## Names in type expressions -/

mutual
/-- The names that must be declared before: all except those that are the base type of a pointer or a
dynamic array, the item type of a map, or the type of a parameter or of a returned value. -/
def needs : TE → List Name
  | .name x => [x]
  | .ptr _ t | .dyn _ t => needsLate t
  | .arr _ t => needs t
  | .map k t => needs k ++ needsLate t
  | .struct fs => needsFields fs
  | .iface ms => needsMethods ms
  | .fn st => needsSig st
/-- The same of a type expression that may itself be a name declared later. -/
def needsLate : TE → List Name
  | .name _ => []
  | .ptr _ t | .dyn _ t => needsLate t
  | .arr _ t => needs t
  | .map k t => needs k ++ needsLate t
  | .struct fs => needsFields fs
  | .iface ms => needsMethods ms
  | .fn st => needsSig st
def needsFields : Flds → List Name
  | .nil => []
  | .cons _ t rest => needs t ++ needsFields rest
def needsParams : Flds → List Name
  | .nil => []
  | .cons _ t rest => needsLate t ++ needsParams rest
def needsMethods : Meths → List Name
  | .nil => []
  | .method _ st rest => needsSig st ++ needsMethods rest
  | .embed x rest => x :: needsMethods rest
def needsSig : SigT → List Name
  | .mk ps r => needsParams ps ++ needsResult r
def needsResult : ResT → List Name
  | .none => []
  | .single t => needsLate t
  | .list ts => needsFields ts
end

/-- The name that the type expression is. -/
def whole : TE → List Name
  | .name x => [x]
  | _ => []

mutual
/-- The names that must be declared before in any case: types of fields and of the items of result
lists, items of arrays that have items, keys of maps, embedded interfaces, at any depth. -/
def strict : TE → List Name
  | .name _ => []
  | .ptr _ t | .dyn _ t => strict t
  | .arr n t => (if n = 0 then [] else whole t) ++ strict t
  | .map k t => whole k ++ strict k ++ strict t
  | .struct fs => strictFields fs
  | .iface ms => strictMethods ms
  | .fn st => strictSig st
def strictFields : Flds → List Name
  | .nil => []
  | .cons xs t rest => (if xs = [] then [] else whole t) ++ strict t ++ strictFields rest
def strictParams : Flds → List Name
  | .nil => []
  | .cons _ t rest => strict t ++ strictParams rest
def strictMethods : Meths → List Name
  | .nil => []
  | .method _ st rest => strictSig st ++ strictMethods rest
  | .embed x rest => x :: strictMethods rest
def strictSig : SigT → List Name
  | .mk ps r => strictParams ps ++ strictResult r
def strictResult : ResT → List Name
  | .none => []
  | .single t => strict t
  | .list ts => strictFields ts
end

/-- The documented rule for a list of declarations: the names that must be declared before are visible
before the list or declared earlier in it. -/
def InOrder (visible : Name → Prop) (g : List (Name × TE)) : Prop :=
  ∀ pre x t post, g = pre ++ (x, t) :: post → ∀ y ∈ needs t, visible y ∨ y ∈ pre.map Prod.fst

mutual
/-- The names that are the type of what a function returns. -/
def results : TE → List Name
  | .name _ => []
  | .ptr _ t | .dyn _ t | .arr _ t => results t
  | .map k t => results k ++ results t
  | .struct fs => resultsFields fs
  | .iface ms => resultsMethods ms
  | .fn st => resultsSig st
def resultsFields : Flds → List Name
  | .nil => []
  | .cons _ t rest => results t ++ resultsFields rest
def resultsMethods : Meths → List Name
  | .nil => []
  | .method _ st rest => resultsSig st ++ resultsMethods rest
  | .embed _ rest => resultsMethods rest
def resultsSig : SigT → List Name
  | .mk ps r => resultsFields ps ++ resultsResult r
def resultsResult : ResT → List Name
  | .none => []
  | .single t => whole t ++ results t
  | .list ts => resultsFields ts
end

mutual
/-- All names in a type expression. -/
def mentions : TE → List Name
  | .name x => [x]
  | .ptr _ t | .dyn _ t | .arr _ t => mentions t
  | .map k t => mentions k ++ mentions t
  | .struct fs => mentionsFields fs
  | .iface ms => mentionsMethods ms
  | .fn st => mentionsSig st
def mentionsFields : Flds → List Name
  | .nil => []
  | .cons _ t rest => mentions t ++ mentionsFields rest
def mentionsMethods : Meths → List Name
  | .nil => []
  | .method _ st rest => mentionsSig st ++ mentionsMethods rest
  | .embed x rest => x :: mentionsMethods rest
def mentionsSig : SigT → List Name
  | .mk ps r => mentionsFields ps ++ mentionsResult r
def mentionsResult : ResT → List Name
  | .none => []
  | .single t => mentions t
  | .list ts => mentionsFields ts
end

/-- The hidden parameter for the result is there exactly if the result is of a structured type. -/
def ResultParamOk (g : Graph) (s : Sig) : Prop :=
  s.resultParam = true ↔ ∃ r, s.result = some r ∧ Structured (g r)

/-- At most 16 parameters with different names, the first of which is hidden: captured variables or the
receiver of a method.  The hidden parameter for the result counts. -/
def SigTidy (s : Sig) : Prop :=
  (s.params.map Prod.fst).Nodup ∧ 1 + s.params.length + (if s.resultParam then 1 else 0) ≤ 16

/-- Names of fields, methods and parameters are different; no field is void. -/
def Tidy (g : Graph) : Body → Prop
  | .struct fs => (fs.map Prod.fst).Nodup ∧ ∀ f ∈ fs, g f.2 ≠ .void
  | .iface ms => (ms.map Prod.fst).Nodup ∧ ∀ m ∈ ms, SigTidy m.2
  | .closure s => SigTidy s
  | _ => True

/-- The signatures in a type. -/
def signatures : Body → List Sig
  | .iface ms => ms.map Prod.snd
  | .closure s => [s]
  | _ => []

end Spec
end Umka.TypeDecl
