import Verif.Types.Model
/-!
# Types: specification

Two types are equivalent if they cannot be told apart by looking at them, at what they are made of, at what that is made
of, and so on.  For recursive types this is a coinductive notion: there is a relation between types that contains the pair
and is consistent, i.e. related types look alike at the surface and are made of related types.
-/

namespace Umka.Types

/-- Two types look alike at the surface and the corresponding types they are made of are related by `R`. -/
def Alike (g : Graph) (R : Fin g.n → Fin g.n → Prop) (l r : Fin g.n) : Prop :=
  (g.node l).kind = (g.node r).kind ∧
  match (g.node l).kind with
  | .ptr | .weakptr | .dynarray => R (g.node l).base (g.node r).base
  | .array => (g.node l).numItems = (g.node r).numItems ∧ R (g.node l).base (g.node r).base
  | .map => R (mapKey g l) (mapKey g r) ∧ R (g.node l).base (g.node r).base
  | .struct | .interface | .closure =>
    (g.node l).fields.length = (g.node r).fields.length ∧
    ∀ (i : Nat) (f f' : Field g.n), (g.node l).fields[i]? = some f → (g.node r).fields[i]? = some f' →
      f.name = f'.name ∧ R f.type f'.type
  | .fn =>
    let s := (g.node l).sig
    let s' := (g.node r).sig
    s.params.length = s'.params.length ∧ s.numDefault = s'.numDefault ∧ s.isMethod = s'.isMethod ∧ R s.result s'.result ∧
    ∀ (i : Nat) (p p' : Param g.n), s.params[i]? = some p → s'.params[i]? = some p' → ¬ (i = 0 ∧ s.isInterfaceMethod = true) →
      R p.type p'.type ∧ (s.params.length ≤ i + s.numDefault → g.dflt p.default p'.default = true)
  | _ => (g.node l).enum = false ∧ (g.node r).enum = false

def Named (g : Graph) (t : Fin g.n) : Prop := (g.node t).typeIdent.isSome = true

/-- The same declared type. -/
def SameName (g : Graph) (l r : Fin g.n) : Prop :=
  (g.node l).typeIdent = (g.node r).typeIdent ∧ (g.node l).block = (g.node r).block

/-- A consistent relation: related types are the same type, or both are declared types with the same name, or they are
alike, at least one of them having no name. -/
def Consistent (g : Graph) (R : Fin g.n → Fin g.n → Prop) : Prop :=
  ∀ l r, R l r → l = r ∨ (Named g l ∧ Named g r ∧ SameName g l r) ∨ (¬ (Named g l ∧ Named g r) ∧ Alike g R l r)

/-- Equivalence of types. -/
def Equivalent (g : Graph) (l r : Fin g.n) : Prop := ∃ R, Consistent g R ∧ R l r

/-- The types that a type is directly made of. -/
def children (g : Graph) (t : Fin g.n) : List (Fin g.n) :=
  match (g.node t).kind with
  | .ptr | .weakptr | .dynarray | .array => [(g.node t).base]
  | .map => [mapKey g t, (g.node t).base]
  | .struct | .interface | .closure => (g.node t).fields.map (·.type)
  | .fn => (g.node t).sig.result :: (g.node t).sig.params.map (·.type)
  | _ => []

/-- `t` occurs in `s`. -/
inductive Occurs (g : Graph) : Fin g.n → Fin g.n → Prop
  | refl {t} : Occurs g t t
  | step {t c s} : c ∈ children g s → Occurs g t c → Occurs g t s

/-- The default values of parameters are compared by an equivalence relation, and the methods of an interface, and nothing
else, are marked as such (`umka_decl.c:464-466`, `484`). -/
structure WellFormed (g : Graph) : Prop where
  dflt_refl : ∀ a, g.dflt a a = true
  dflt_symm : ∀ a b, g.dflt a b = true → g.dflt b a = true
  dflt_trans : ∀ a b c, g.dflt a b = true → g.dflt b c = true → g.dflt a c = true
  /-- the nodes made for one declaration are copies of each other (`umka_ident.c:158-163`) -/
  names : ∀ l r, Named g l → Named g r → SameName g l r → g.node l = g.node r
  methods : ∀ t, (g.node t).kind = .interface →
    ∀ f ∈ (g.node t).fields, (g.node f.type).kind = .fn → (g.node f.type).sig.isInterfaceMethod = true
  noMethods : ∀ t, (g.node t).kind ≠ .interface →
    ∀ c ∈ children g t, (g.node c).kind = .fn → (g.node c).sig.isInterfaceMethod = false

/-- A type that can be written in a program or used for a variable: not a method of an interface. -/
def Proper (g : Graph) (t : Fin g.n) : Prop := (g.node t).kind = .fn → (g.node t).sig.isInterfaceMethod = false

/-- Values of type `t` can be compared: the parts of a value that a comparison looks at (the items of arrays and the fields
of structures) are numbers, characters, pointers, strings, or again arrays or structures of such. -/
inductive Part (g : Graph) : Fin g.n → Fin g.n → Prop
  | refl {t} : Part g t t
  | item {t s} : (g.node s).kind = .array ∨ (g.node s).kind = .dynarray → Part g t (g.node s).base → Part g t s
  | field {t s f} : (g.node s).kind = .struct → f ∈ (g.node s).fields → Part g t f.type → Part g t s

def BasicOrArrayOrStruct (g : Graph) (t : Fin g.n) : Prop :=
  (g.node t).kind ∈ [.int8, .int16, .int32, .int, .uint8, .uint16, .uint32, .uint, .bool, .char, .real32, .real,
    .ptr, .weakptr, .str, .array, .dynarray, .struct]

end Umka.Types
