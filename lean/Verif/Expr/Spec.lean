import Verif.Arith.Model

/-!
# Expressions: specification

The documented grammar (doc/lang.md:1084-1091), the documented types of operands (1107-1162) and what an
expression evaluates to.  No parser, no instructions, no jumps.
-/

namespace Umka.Expr.Spec
open Umka.Arith (Kind UnOp BinOp)

/-- The types that are considered: ordinal ones and `real`. -/
inductive Ty
  | ord (k : Kind)
  | real
  deriving DecidableEq, Repr

abbrev Ty.bool : Ty := .ord .bool

/-- Tokens.  An identifier stands for a whole designator: a variable, an item, a field or a call. -/
inductive Tok
  | ident (i : Nat) | intNumber (n : Nat) | realNumber (n : Nat) | charLiteral (n : Nat)
  | plus | minus | mul | div | mod | and | or | xor | shl | shr | not
  | eqeq | noteq | less | lesseq | greater | greatereq
  | andand | oror | question | colon | lpar | rpar
  /-- any other token -/
  | other (n : Nat)
  deriving DecidableEq, Repr

/-- Syntax trees. -/
inductive Tree
  | ident (i : Nat) | int (n : Nat) | realNum (n : Nat) | char (n : Nat)
  | un (op : UnOp) (a : Tree)
  | bin (op : BinOp) (a b : Tree)
  | and (a b : Tree)
  | or (a b : Tree)
  | tern (c a b : Tree)
  deriving DecidableEq, Repr

/-- The nonterminals of the grammar. -/
inductive Level
  | factor | term | relTerm | rel | logTerm | logExpr | expr
  deriving DecidableEq, Repr

/-- `("+" | "-" | "!" | "~")` before a factor. -/
inductive Prefix : Tok → UnOp → Prop
  | plus : Prefix .plus .plus
  | minus : Prefix .minus .minus
  | not : Prefix .not .not
  | xor : Prefix .xor .xor

/-- The binary operators of each line of the table of precedences. -/
inductive Infix : Level → Tok → BinOp → Prop
  | mul : Infix .term .mul .mul
  | div : Infix .term .div .div
  | mod : Infix .term .mod .mod
  | shl : Infix .term .shl .shl
  | shr : Infix .term .shr .shr
  | and : Infix .term .and .and
  | plus : Infix .relTerm .plus .plus
  | minus : Infix .relTerm .minus .minus
  | or : Infix .relTerm .or .or
  | xor : Infix .relTerm .xor .xor
  | eqeq : Infix .rel .eqeq .eqeq
  | noteq : Infix .rel .noteq .noteq
  | less : Infix .rel .less .less
  | lesseq : Infix .rel .lesseq .lesseq
  | greater : Infix .rel .greater .greater
  | greatereq : Infix .rel .greatereq .greatereq

/-- The grammar of doc/lang.md:1084-1091, with the tree that a sentence stands for.  Repetition groups to the left. -/
inductive Grammar : Level → List Tok → Tree → Prop
  -- factor = designator | intNumber | realNumber | charLiteral | ("+" | "-" | "!" | "~") factor | "(" expr ")".
  | ident (i) : Grammar .factor [.ident i] (.ident i)
  | int (n) : Grammar .factor [.intNumber n] (.int n)
  | real (n) : Grammar .factor [.realNumber n] (.realNum n)
  | char (n) : Grammar .factor [.charLiteral n] (.char n)
  | un {t op ts a} : Prefix t op → Grammar .factor ts a → Grammar .factor (t :: ts) (.un op a)
  | paren {ts a} : Grammar .expr ts a → Grammar .factor (.lpar :: ts ++ [.rpar]) a
  -- term = factor {("*" | "/" | "%" | "<<" | ">>" | "&") factor}.
  | term {ts a} : Grammar .factor ts a → Grammar .term ts a
  | termOp {ts a t op us b} : Grammar .term ts a → Infix .term t op → Grammar .factor us b →
      Grammar .term (ts ++ t :: us) (.bin op a b)
  -- relationTerm = term {("+" | "-" | "|" | "~") term}.
  | relTerm {ts a} : Grammar .term ts a → Grammar .relTerm ts a
  | relTermOp {ts a t op us b} : Grammar .relTerm ts a → Infix .relTerm t op → Grammar .term us b →
      Grammar .relTerm (ts ++ t :: us) (.bin op a b)
  -- relation = relationTerm [("==" | "!=" | "<" | "<=" | ">" | ">=") relationTerm].
  | rel {ts a} : Grammar .relTerm ts a → Grammar .rel ts a
  | relOp {ts a t op us b} : Grammar .relTerm ts a → Infix .rel t op → Grammar .relTerm us b →
      Grammar .rel (ts ++ t :: us) (.bin op a b)
  -- logicalTerm = relation {"&&" relation}.
  | logTerm {ts a} : Grammar .rel ts a → Grammar .logTerm ts a
  | logTermOp {ts a us b} : Grammar .logTerm ts a → Grammar .rel us b →
      Grammar .logTerm (ts ++ .andand :: us) (.and a b)
  -- logicalExpr = logicalTerm {"||" logicalTerm}.
  | logExpr {ts a} : Grammar .logTerm ts a → Grammar .logExpr ts a
  | logExprOp {ts a us b} : Grammar .logExpr ts a → Grammar .logTerm us b →
      Grammar .logExpr (ts ++ .oror :: us) (.or a b)
  -- expr = logicalExpr ["?" expr ":" expr].
  | expr {ts a} : Grammar .logExpr ts a → Grammar .expr ts a
  | tern {ts c us a vs b} : Grammar .logExpr ts c → Grammar .expr us a → Grammar .expr vs b →
      Grammar .expr (ts ++ .question :: us ++ .colon :: vs) (.tern c a b)

/-- Tokens that continue an expression. -/
def Continues : Tok → Prop
  | .plus | .minus | .mul | .div | .mod | .and | .or | .xor | .shl | .shr
  | .eqeq | .noteq | .less | .lesseq | .greater | .greatereq | .andand | .oror | .question => True
  | _ => False

/-- What follows an expression does not continue it. -/
def Stops (rest : List Tok) : Prop := ∀ t, rest.head? = some t → ¬ Continues t

/-! ## What operators and designators do -/

/-- What the operators do with values.  `E`: run-time errors. -/
structure Ops (E V : Type) where
  unary : UnOp → Ty → V → Except E V
  binary : BinOp → Ty → V → V → Except E V
  /-- integer to real -/
  toReal : Kind → V → V
  /-- the range check between signed and unsigned integers: to, from -/
  assertRange : Kind → Kind → V → Except E V
  truth : V → Bool
  intLit : Nat → V
  realLit : Nat → V
  charLit : Nat → V
  no : V
  yes : V

/-- What designators are.  `σ`: everything that they can read or change. -/
structure Env (E V σ : Type) where
  ty : Nat → Ty
  read : Nat → σ → σ × Except E V
  /-- the value of an identifier that is a constant -/
  const : Nat → Option V

/-! ## Types of operands -/

def Integer : Ty → Prop
  | .ord .bool | .ord .char | .real => False
  | .ord _ => True

instance : DecidablePred Integer := fun t => by
  cases t with
  | real => exact isFalse id
  | ord k => cases k <;> first | exact isTrue trivial | exact isFalse id

/-- The type in which a binary operator is applied: that of the left operand, or `real` if one of them is. -/
def common (a b : Ty) : Option Ty :=
  if a = b then some a
  else if Integer a ∧ Integer b then some a
  else if (Integer a ∧ b = .real) ∨ (a = .real ∧ Integer b) then some .real
  else none

/-- doc/lang.md:1107-1111 -/
def unaryFor : UnOp → Ty → Prop
  | .plus, t | .minus, t => Integer t ∨ t = .real
  | .xor, t => Integer t
  | .not, t => t = .bool

instance (op t) : Decidable (unaryFor op t) := by cases op <;> unfold unaryFor <;> infer_instance

def isRel : BinOp → Bool
  | .eqeq | .noteq | .less | .lesseq | .greater | .greatereq => true
  | _ => false

/-- doc/lang.md:1117-1134; all types considered here are comparable -/
def binaryFor : BinOp → Ty → Prop
  | .plus, t | .minus, t | .mul, t | .div, t | .mod, t => Integer t ∨ t = .real
  | .and, t | .or, t | .xor, t | .shl, t | .shr, t => Integer t
  | _, _ => True

instance (op t) : Decidable (binaryFor op t) := by cases op <;> unfold binaryFor <;> infer_instance

/-- Can `c` in `a ? b : c` be converted to the type of `b`? -/
def convertible (b c : Ty) : Prop := b = c ∨ (Integer b ∧ Integer c) ∨ (b = .real ∧ Integer c)

instance (a b) : Decidable (convertible a b) := by unfold convertible; infer_instance

variable {E V σ : Type}

/-- The type of an expression, if it has one. -/
def typeOf (env : Env E V σ) : Tree → Option Ty
  | .ident i => some (env.ty i)
  | .int n => some (if n < 2 ^ 63 then .ord .int else .ord .uint)
  | .realNum _ => some .real
  | .char _ => some (.ord .char)
  | .un op a => do
    let t ← typeOf env a
    if unaryFor op t then some t else none
  | .bin op a b => do
    let ta ← typeOf env a
    let tb ← typeOf env b
    let t ← common ta tb
    if binaryFor op t then some (if isRel op then .bool else t) else none
  | .and a b | .or a b => do
    let ta ← typeOf env a
    let tb ← typeOf env b
    if ta = .bool ∧ tb = .bool then some .bool else none
  | .tern c a b => do
    let tc ← typeOf env c
    let ta ← typeOf env a
    let tb ← typeOf env b
    if tc = .bool ∧ convertible ta tb then some ta else none

/-- The type of a tree that has one. -/
def tyOf (env : Env E V σ) (a : Tree) : Ty := (typeOf env a).getD .real

/-! ## Values -/

/-- A value of type `src` as an operand of an operator that is applied in type `dest`. -/
def operand (ops : Ops E V) (dest src : Ty) (v : V) : V :=
  match dest, src with
  | .real, .ord k => ops.toReal k v
  | _, _ => v

/-- A value of type `src` converted to type `dest` by `? :`. -/
def convert (ops : Ops E V) (dest src : Ty) (v : V) : Except E V :=
  match dest, src with
  | .real, .ord k => .ok (ops.toReal k v)
  | .ord d, .ord s =>
    if (d = .uint ∧ s ∈ [.int8, .int16, .int32, .int]) ∨ (d ∈ [.int8, .int16, .int32, .int] ∧ s = .uint) then
      ops.assertRange d s v
    else .ok v
  | _, _ => .ok v

/-- First one thing, then, unless it has failed, another. -/
def andThen {α β : Type} (x : σ × Except E α) (f : σ → α → σ × Except E β) : σ × Except E β :=
  match x with
  | (s, .ok a) => f s a
  | (s, .error e) => (s, .error e)

/-- Evaluation: operands from left to right, each once; of `&&`, `||` and `? :` only those that are needed. -/
def eval (ops : Ops E V) (env : Env E V σ) : Tree → σ → σ × Except E V
  | .ident i, s => env.read i s
  | .int n, s => (s, .ok (ops.intLit n))
  | .realNum n, s => (s, .ok (ops.realLit n))
  | .char n, s => (s, .ok (ops.charLit n))
  | .un op a, s => andThen (eval ops env a s) fun s v => (s, ops.unary op (tyOf env a) v)
  | .bin op a b, s =>
    let ta := tyOf env a
    let tb := tyOf env b
    let t := (common ta tb).getD .real
    andThen (eval ops env a s) fun s v =>
      andThen (eval ops env b s) fun s w => (s, ops.binary op t (operand ops t ta v) (operand ops t tb w))
  | .and a b, s => andThen (eval ops env a s) fun s v => if ops.truth v then eval ops env b s else (s, .ok v)
  | .or a b, s => andThen (eval ops env a s) fun s v => if ops.truth v then (s, .ok v) else eval ops env b s
  | .tern c a b, s =>
    andThen (eval ops env c s) fun s v =>
      if ops.truth v then eval ops env a s
      else andThen (eval ops env b s) fun s w => (s, convert ops (tyOf env a) (tyOf env b) w)

/-- The designators that occur in an expression. -/
def idents : Tree → List Nat
  | .ident i => [i]
  | .un _ a => idents a
  | .bin _ a b | .and a b | .or a b => idents a ++ idents b
  | .tern c a b => idents c ++ idents a ++ idents b
  | _ => []

/-- All designators are constants, and reading them gives their values. -/
def Constants (env : Env E V σ) (e : Tree) : Prop :=
  ∀ i ∈ idents e, ∃ v, env.const i = some v ∧ ∀ s, env.read i s = (s, .ok v)

/-- No left operand of `&&` is false, no left operand of `||` is true. -/
def Undecided (ops : Ops E V) (env : Env E V σ) (s : σ) : Tree → Prop
  | .un _ a => Undecided ops env s a
  | .bin _ a b => Undecided ops env s a ∧ Undecided ops env s b
  | .and a b => Undecided ops env s a ∧ Undecided ops env s b ∧ ∀ v, (eval ops env a s).2 = .ok v → ops.truth v = true
  | .or a b => Undecided ops env s a ∧ Undecided ops env s b ∧ ∀ v, (eval ops env a s).2 = .ok v → ops.truth v = false
  | .tern c a b => Undecided ops env s c ∧ Undecided ops env s a ∧ Undecided ops env s b
  | _ => True

/-- Every part has a value, also the one of `? :` that is not needed. -/
def Defined (ops : Ops E V) (env : Env E V σ) (s : σ) : Tree → Prop
  | .un op a => Defined ops env s a ∧ ∃ v, (eval ops env (.un op a) s).2 = .ok v
  | .bin op a b => Defined ops env s a ∧ Defined ops env s b ∧ ∃ v, (eval ops env (.bin op a b) s).2 = .ok v
  | .and a b | .or a b => Defined ops env s a ∧ Defined ops env s b
  | .tern c a b => Defined ops env s c ∧ Defined ops env s a ∧ Defined ops env s b ∧
      ∃ w v, (eval ops env b s).2 = .ok w ∧ convert ops (tyOf env a) (tyOf env b) w = .ok v
  | _ => True

end Umka.Expr.Spec
