import Verif.Iface.Spec
import Verif.Conv.Model
/-!
# Type conversions: specification

The rules of the language reference (`doc/lang.md:413-464`), line by line.
-/

namespace Umka.Conv

open Umka.Types (Graph Kind Node Field Equivalent WellFormed)
open Umka.Iface (Compatible Declared IsPtrTo)

/-- The type `t` has all the methods of the interface type `T`, with signatures that agree. -/
def Implements (w : World) (t T : w.T) : Prop :=
  ∀ f ∈ (w.node T).fields.drop 2, ∃ m, Declared w.e f.name t m ∧ Compatible w.e.g f.type m.type

/-- The interface type `S` has all the methods of the interface type `T`. -/
def Declares (w : World) (S T : w.T) : Prop :=
  ∀ f ∈ (w.node T).fields.drop 2, ∃ f' ∈ (w.node S).fields, f'.name = f.name ∧ Compatible w.e.g f.type f'.type

/-- A value of type `S` is implicitly converted where a value of type `T` is expected (`doc/lang.md:436-451`).  `operand`: the values are the
operands of a binary operator. -/
inductive Implicit (w : World) : (operand : Bool) → (S T : w.T) → Prop
  /-- `S` and `T` are compatible -/
  | compatible {o S T} : Compatible w.e.g T S → Implicit w o S T
  /-- `S` is an integer type and `T` is a real type -/
  | intReal {o S T} : (w.node S).integer = true → (w.node T).real = true → Implicit w o S T
  /-- `S` is `char` and `T` is `str` -/
  | charStr {o S T} : w.kind S = .char → w.kind T = .str → Implicit w o S T
  /-- `S` is `[]char` and `T` is `str` -/
  | charsStr {o S T} : w.kind S = .dynarray → w.kind (w.base S) = .char → w.kind T = .str → Implicit w o S T
  /-- `S` is `str` and `T` is `[]char`, not for operands -/
  | strChars {S T} : w.kind S = .str → w.kind T = .dynarray → w.kind (w.base T) = .char → Implicit w false S T
  /-- `S` is an array type and `T` is a dynamic array type and the item types are equivalent, not for operands -/
  | arrayDyn {S T} : w.kind S = .array → w.kind T = .dynarray → Equivalent w.e.g (w.base T) (w.base S) → Implicit w false S T
  /-- `S` is a dynamic array type and `T` is an array type and the item types are equivalent -/
  | dynArray {o S T} : w.kind S = .dynarray → w.kind T = .array → Equivalent w.e.g (w.base T) (w.base S) → Implicit w o S T
  /-- `S` is a type that implements all the methods of `T` and `T` is an interface type -/
  | valueInterface {o S T} : w.kind T = .interface → w.kind S ∉ [.interface, .ptr, .void] → w.exprList S = false → Implements w S T →
    Implicit w o S T
  /-- `S` is a pointer to a type that implements all the methods of `T` and `T` is an interface type.  The null pointer implements all methods:
  this is not in the reference, but in a comment in the code. -/
  | ptrInterface {o S T} : w.kind T = .interface → w.kind S = .ptr → w.kind (w.base S) ≠ .ptr →
    w.kind (w.base S) = .null ∨ Implements w (w.base S) T → Implicit w o S T
  /-- `S` and `T` are interface types and `S` declares all the methods of `T` -/
  | interfaces {o S T} : w.kind T = .interface → w.kind S = .interface → Declares w S T → Implicit w o S T
  /-- `S` and `T` are pointer types and either `s` is `null`, or `T` is `^void` -/
  | pointers {o S T} : w.kind S = .ptr → w.kind T = .ptr → w.kind (w.base S) = .null ∨ w.kind (w.base T) = .void → Implicit w o S T
  /-- `S` is a weak pointer type and `T` is a strong pointer type and either the base types are equivalent, or `t` is `null` -/
  | strong {o S T} : w.kind S = .weakptr → w.kind T = .ptr → Equivalent w.e.g (w.base T) (w.base S) ∨ w.kind (w.base T) = .null →
    Implicit w o S T
  /-- `S` is a strong pointer type and `T` is a weak pointer type and either the base types are equivalent, or `s` is `null`, not for operands -/
  | weak {S T} : w.kind S = .ptr → w.kind T = .weakptr → Equivalent w.e.g (w.base T) (w.base S) ∨ w.kind (w.base S) = .null →
    Implicit w false S T
  /-- `S` is a function type and `T` is a closure type and `S` and the underlying function type of `T` are equivalent -/
  | closure {o S T f fs} : w.kind S = .fn → w.kind T = .closure → (w.node T).fields = f :: fs → Equivalent w.e.g f.type S → Implicit w o S T
  /-- `s` and `t` are expression lists having equal numbers of items and each item of `s` can be implicitly converted to the corresponding item of
  `t`; not for operands (which the reference does not say: an operand is not an expression list) -/
  | lists {S T} : w.exprListStruct S = true → w.exprListStruct T = true → (w.node S).fields.length = (w.node T).fields.length →
    (∀ (i : Nat) (s t : Field w.e.g.n), (w.node S).fields[i]? = some s → (w.node T).fields[i]? = some t → Implicit w false s.type t.type) →
    Implicit w false S T

/-- A value of the type contains a pointer, or something that is represented by a pointer. -/
inductive Contains (w : World) : w.T → Prop
  | pointer {t} : w.kind t ∈ [.ptr, .weakptr, .str, .map, .dynarray, .interface, .closure, .fiber] → Contains w t
  | item {t} : w.kind t = .array → 0 < (w.node t).numItems → Contains w (w.base t) → Contains w t
  | field {t f} : w.kind t = .struct → f ∈ (w.node t).fields → Contains w f.type → Contains w t

/-- A value of type `S` can be cast to type `T` (`doc/lang.md:455-464`). -/
inductive Explicit (w : World) : (S T : w.T) → Prop
  /-- `s` can be implicitly converted to `t` -/
  | implicit {S T} : Implicit w false S T → Explicit w S T
  /-- `S` and `T` are the same type except the type name -/
  | sameAs {S T} : w.sameAs S = w.sameAs T → Explicit w S T
  /-- `S` and `T` are ordinal types -/
  | ordinal {S T} : (w.node S).ordinal = true → (w.node T).ordinal = true → Explicit w S T
  /-- `S` and `T` are pointer types and `sizeof(s^) >= sizeof(t^)` and both `S` and `T` don't contain pointers -/
  | pointers {S T} : w.kind S = .ptr → w.kind T = .ptr → w.e.size (w.base T) ≤ w.e.size (w.base S) → ¬ Contains w (w.base S) →
    ¬ Contains w (w.base T) → Explicit w S T
  /-- `S` is an interface type and `T` is a type (or a pointer to a type); that it was actually converted to `S` is checked when the program
  runs (C48) -/
  | interface {S T} : w.kind S = .interface → w.kind T ≠ .interface → Explicit w S T
  /-- `S` is `[]uint8` and `T` is `str` -/
  | bytesStr {S T} : w.kind S = .dynarray → w.kind (w.base S) = .uint8 → (w.node (w.base S)).isEnum = false → w.kind T = .str → Explicit w S T
  /-- `S` is `str` and `T` is `[]uint8` -/
  | strBytes {S T} : w.kind S = .str → w.kind T = .dynarray → w.kind (w.base T) = .uint8 → (w.node (w.base T)).isEnum = false → Explicit w S T
  /-- `S` is `[]U`, `T` is `[]V` and `U` can be explicitly converted to `V` -/
  | items {S T} : w.kind S = .dynarray → w.kind T = .dynarray → Explicit w (w.base S) (w.base T) → Explicit w S T

/-- A type that expressions have: not that of a method in an interface, nor the base type of `null`. -/
def Proper (w : World) (t : w.T) : Prop := w.kind t ≠ .null ∧ Types.Proper w.e.g t

/-- What is known about the types of a program. -/
structure World.Ok (w : World) : Prop where
  env : w.e.Ok
  /-- the pointer type made for the conversion of a value to an interface -/
  ptrTo : ∀ t, Proper w t → w.kind t ∉ [.ptr, .interface, .void] → IsPtrTo w.e.g (w.ptrTo t) t
  /-- only structures are expression lists, and their items are not expression lists (`umka_expr.c:3206-3207`); the kind of
  the base type of `null` is not the kind of an item -/
  lists : ∀ t, w.exprList t = true → w.kind t = .struct
  flat : ∀ t, w.exprList t = true → ∀ f ∈ (w.node t).fields, w.exprList f.type = false ∧ w.kind f.type ≠ .null
  arrays : ∀ t, w.kind t = .dynarray → w.exprList (w.base t) = false ∧ w.kind (w.base t) ≠ .null
  /-- a declared type is a copy of the type in its declaration, except the name (`typeDeepCopy`, `umka_types.c:187-208`); an expression list is
  not a copy -/
  sameAs : ∀ l r, w.sameAs l = w.sameAs r → w.kind l = w.kind r ∧ w.base l = w.base r ∧ (w.node l).fields = (w.node r).fields ∧
    w.exprList l = w.exprList r ∧ (w.exprList l = true → l = r)
  /-- no method is declared twice for a type, or in the universe -/
  methods : ∀ name t m m', Declared w.e name t m → Declared w.e name t m' → m = m'
  noUniverse : ∀ m ∈ w.e.methods, m.module ≠ 0
  /-- values are finite: a type does not contain itself other than through pointers (C78) -/
  finite : ∃ rank : w.T → Nat, ∀ t, rank t < w.e.g.n ∧ (w.kind t = .array → rank (w.base t) < rank t) ∧
    (w.kind t = .struct → ∀ f ∈ (w.node t).fields, rank f.type < rank t)

/-- The signedness check of `uint` confuses enumerations with integers: one of the types is an enumeration, one has the base type `uint` and
the other one a signed base type. -/
def Confused (w : World) (S T : w.T) : Prop :=
  ((w.node S).enum = true ∨ (w.node T).enum = true) ∧
  ((w.kind T = .uint ∧ signed (w.kind S) = true) ∨ (signed (w.kind T) = true ∧ w.kind S = .uint))

instance (w : World) (S T : w.T) : Decidable (Confused w S T) := inferInstanceAs (Decidable (_ ∧ _))

/-- Neither the types are confused, nor those of the items of expression lists. -/
def Clear (w : World) (S T : w.T) : Prop :=
  ¬ Confused w S T ∧ (w.exprList S = true → w.exprList T = true →
    ∀ (i : Nat) (s t : Field w.e.g.n), (w.node S).fields[i]? = some s → (w.node T).fields[i]? = some t → ¬ Confused w s.type t.type)

/-- The item type, `k` levels of dynamic arrays down. -/
def World.itemType (w : World) : Nat → w.T → w.T
  | 0, t => t
  | k + 1, t => w.itemType k (w.base t)

/-- Neither type is a dynamic array, at any level, of enumerations with the base type `uint8`: these are confused with `[]uint8`. -/
def NoByteEnums (w : World) (S T : w.T) : Prop :=
  ∀ k, ∀ t ∈ [w.itemType k S, w.itemType k T], w.kind t = .dynarray → w.kind (w.base t) = .uint8 → (w.node (w.base t)).isEnum = false

/-- The compiler reports no error. -/
def Accepted {α : Type} (r : Out α) : Prop := ∃ x, r = .ok x

/-- An operator can be applied to operands of the type `t` (`doc/lang.md`, "Unary and binary operators"). -/
def Applies (w : World) (t : w.T) : Op → Prop
  | .plus => (w.node t).integer = true ∨ (w.node t).real = true ∨ w.kind t = .str
  | .arith => (w.node t).integer = true ∨ (w.node t).real = true
  | .bits => (w.node t).integer = true
  | .logic => w.kind t = .bool
  | .compare => ∀ s, Types.Part w.e.g s t → Types.BasicOrArrayOrStruct w.e.g s

/-- The operand that a piece of code acts on, when both are on the stack, the right one on top: `genSwap`, or an instruction that acts on the
left one; `none`: no operand. -/
inductive Side
  | left | right
  deriving DecidableEq

def Code.side {n : Nat} : Code n → Option Side
  | .skip => none
  | .makeReal _ l | .makeStr _ l | .makeArr _ l | .strengthen l => some (if l then .left else .right)
  | _ => some .right

/-! ## Values -/

/-- A cast in a running program: what the compiler accepts is executed. -/
def runCast {B E : Type} (w : World) (prim : Code w.e.g.n → Val B → Res (Val B) E) (zero : Val B) (depth : Nat) (dest src : w.T) (v : Val B) :
    Option (Res (Val B) E) :=
  match w.cast false depth dest src with
  | .ok (c, _) => some (exec prim zero c v)
  | _ => none

/-- An implicit conversion in a running program. -/
def runGive {B E : Type} (w : World) (prim : Code w.e.g.n → Val B → Res (Val B) E) (zero : Val B) (depth : Nat) (dest src : w.T) (v : Val B) :
    Option (Res (Val B) E) :=
  match w.give false depth dest src with
  | .ok (c, _) => some (exec prim zero c v)
  | _ => none

end Umka.Conv
