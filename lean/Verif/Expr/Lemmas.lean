import Verif.Expr.Model

/-!
# Expressions: the parser makes the code of a syntax tree

A parser that does make a syntax tree (`ast…`), the code of a tree (`gen`), and a proof that the parser of the
model does the work of both at once.
-/

namespace Umka.Expr
open Umka.Arith (Kind UnOp BinOp kindSigned)
open Spec (Ty Tok Ops Env Tree typeOf tyOf common Integer unaryFor binaryFor convertible isRel)

variable {E V σ : Type}

/-! ## A parser that makes trees -/

mutual

def astFactor : Nat → List Tok → Option (Tree × List Tok)
  | 0, _ => none
  | n + 1, ts =>
    match prefixOp ts.head? with
    | some op => do
      let (a, ts) ← astFactor n ts.tail
      return (.un op a, ts)
    | none =>
      match ts.head? with
      | some (.ident i) => some (.ident i, ts.tail)
      | some (.intNumber k) => some (.int k, ts.tail)
      | some (.realNumber k) => some (.realNum k, ts.tail)
      | some (.charLiteral k) => some (.char k, ts.tail)
      | some .lpar => do
        let (a, ts) ← astExpr n ts.tail
        if ts.head? = some .rpar then some (a, ts.tail) else none
      | _ => none

def astTerm : Nat → List Tok → Option (Tree × List Tok)
  | 0, _ => none
  | n + 1, ts => do
    let (a, ts) ← astFactor n ts
    astTermLoop n a ts

def astTermLoop : Nat → Tree → List Tok → Option (Tree × List Tok)
  | 0, _, _ => none
  | n + 1, a, ts =>
    match termOp ts.head? with
    | some op => do
      let (b, ts) ← astFactor n ts.tail
      astTermLoop n (.bin op a b) ts
    | none => some (a, ts)

def astRelTerm : Nat → List Tok → Option (Tree × List Tok)
  | 0, _ => none
  | n + 1, ts => do
    let (a, ts) ← astTerm n ts
    astRelTermLoop n a ts

def astRelTermLoop : Nat → Tree → List Tok → Option (Tree × List Tok)
  | 0, _, _ => none
  | n + 1, a, ts =>
    match relTermOp ts.head? with
    | some op => do
      let (b, ts) ← astTerm n ts.tail
      astRelTermLoop n (.bin op a b) ts
    | none => some (a, ts)

def astRel : Nat → List Tok → Option (Tree × List Tok)
  | 0, _ => none
  | n + 1, ts => do
    let (a, ts) ← astRelTerm n ts
    match relOp ts.head? with
    | some op => do
      let (b, ts) ← astRelTerm n ts.tail
      some (.bin op a b, ts)
    | none => some (a, ts)

def astLogTerm : Nat → List Tok → Option (Tree × List Tok)
  | 0, _ => none
  | n + 1, ts => do
    let (a, ts) ← astRel n ts
    astLogTermLoop n a ts

def astLogTermLoop : Nat → Tree → List Tok → Option (Tree × List Tok)
  | 0, _, _ => none
  | n + 1, a, ts =>
    if ts.head? = some .andand then do
      let (b, ts) ← astRel n ts.tail
      astLogTermLoop n (.and a b) ts
    else some (a, ts)

def astLogExpr : Nat → List Tok → Option (Tree × List Tok)
  | 0, _ => none
  | n + 1, ts => do
    let (a, ts) ← astLogTerm n ts
    astLogExprLoop n a ts

def astLogExprLoop : Nat → Tree → List Tok → Option (Tree × List Tok)
  | 0, _, _ => none
  | n + 1, a, ts =>
    if ts.head? = some .oror then do
      let (b, ts) ← astLogTerm n ts.tail
      astLogExprLoop n (.or a b) ts
    else some (a, ts)

def astExpr : Nat → List Tok → Option (Tree × List Tok)
  | 0, _ => none
  | n + 1, ts => do
    let (c, ts) ← astLogExpr n ts
    if ts.head? = some .question then do
      let (a, ts) ← astExpr n ts.tail
      if ts.head? = some .colon then do
        let (b, ts) ← astExpr n ts.tail
        some (.tern c a b, ts)
      else none
    else some (c, ts)

end

/-! ## The code of a tree -/

/-- Conversion of the operands of a binary operator. -/
def convOps (ta tb : Ty) : List (Instr V) :=
  match ta, tb with
  | .real, .ord k => [.makeReal k]
  | .ord k, .real => [.makeRealLeft k]
  | _, _ => []

/-- Conversion of `c` in `a ? b : c`. -/
def convElse (ta tb : Ty) : List (Instr V) :=
  match ta, tb with
  | .real, .ord k => [.makeReal k]
  | .ord d, .ord s =>
    if (d = .uint ∧ s ∈ [.int8, .int16, .int32, .int]) ∨ (d ∈ [.int8, .int16, .int32, .int] ∧ s = .uint) then
      [.assertRange d s]
    else []
  | _, _ => []

/-- The code of a tree, from position `p` on. -/
def gen (ops : Ops E V) (env : Env E V σ) : Tree → Nat → List (Instr V)
  | .ident i, _ => [.desig i]
  | .int n, _ => [.push (ops.intLit n)]
  | .realNum n, _ => [.push (ops.realLit n)]
  | .char n, _ => [.push (ops.charLit n)]
  | .un op a, p => gen ops env a p ++ [.unary op (tyOf env a)]
  | .bin op a b, p =>
    let ca := gen ops env a p
    ca ++ gen ops env b (p + ca.length) ++ convOps (tyOf env a) (tyOf env b) ++
      [.binary op ((common (tyOf env a) (tyOf env b)).getD .real)]
  | .and a b, p =>
    let ca := gen ops env a p
    let cb := gen ops env b (p + ca.length + 3)
    ca ++ [.dup, .gotoIfNot (p + ca.length + 3 + cb.length), .pop] ++ cb
  | .or a b, p =>
    let ca := gen ops env a p
    let cb := gen ops env b (p + ca.length + 3)
    ca ++ [.dup, .gotoIf (p + ca.length + 3 + cb.length), .pop] ++ cb
  | .tern c a b, p =>
    let cc := gen ops env c p
    let ca := gen ops env a (p + cc.length + 1)
    let cb := gen ops env b (p + cc.length + ca.length + 2) ++ convElse (tyOf env a) (tyOf env b)
    cc ++ [.gotoIfNot (p + cc.length + ca.length + 2)] ++ ca ++
      [.goto (p + cc.length + ca.length + 2 + cb.length)] ++ cb

/-! ## The parser of the model does both -/

/-- What the parser of the model returns for a tree. -/
def res (ops : Ops E V) (env : Env E V σ) (code : List (Instr V)) (stubs : List Nat) (o : Option (Tree × List Tok)) :
    Option (Item V × PS V) := do
  let (e, rest) ← o
  let t ← typeOf env e
  return (⟨t, ops.no⟩, ⟨rest, code ++ gen ops env e code.length, stubs⟩)

theorem toOption_bind {α β : Type} (x : Except (Err E) α) (f : α → Except (Err E) β) :
    (x >>= f).toOption = x.toOption >>= fun a => (f a).toOption := by
  cases x <;> rfl

theorem integer_iff (t : Ty) : typeInteger t = true ↔ Integer t := by
  cases t with
  | real => simp [typeInteger, Integer]
  | ord k => cases k <;> simp [typeInteger, Integer]

theorem validUnary_iff (t : Ty) (op : UnOp) : validUnary t op = true ↔ unaryFor op t := by
  cases op <;> cases t <;> simp [validUnary, unaryFor, integer_iff, typeReal]

theorem validBinary_iff (t : Ty) (op : BinOp) : validBinary t op = true ↔ binaryFor op t := by
  cases op <;> cases t <;> simp [validBinary, binaryFor, integer_iff, typeReal]

theorem signed_iff (k : Kind) : kindSigned (some k) = true ↔ k ∈ [Kind.int8, .int16, .int32, .int] := by
  cases k <;> simp [kindSigned]

/-- `applyOperator` at run time. -/
theorem applyOperator_run (ops : Ops E V) (op : BinOp) (ta tb : Ty) (v : V) (st : PS V) :
    (applyOperator ops false op ⟨ta, v⟩ ⟨tb, v⟩ st).toOption =
      (common ta tb).bind fun t =>
        if binaryFor op t then
          some (⟨t, v⟩, { st with code := st.code ++ (convOps ta tb ++ [.binary op t]) })
        else none := by
  have key : ∀ (t u : Ty) (st' : PS V), 
      ((do
        if typeCompatible t u = false then throw (Err.incompatible : Err E)
        if validBinary t op = false then throw .operator
        binary ops false op ⟨t, v⟩ ⟨u, v⟩ st' : Except (Err E) (Item V × PS V))).toOption =
      if typeCompatible t u = true ∧ binaryFor op t then
        some (⟨t, v⟩, { st' with code := st'.code ++ [.binary op t] }) else none := by
    intro t u st'
    have h1 := validBinary_iff t op
    by_cases hc : typeCompatible t u = true
    · by_cases hb : validBinary t op = true
      · refine Eq.trans ?_ (if_pos (⟨hc, h1.1 hb⟩ : typeCompatible t u = true ∧ binaryFor op t)).symm
        simp only [hc, hb, binary, PS.emit, Bool.true_eq_false, if_false]
        rfl
      · refine Eq.trans ?_ (if_neg (fun h => hb (h1.2 h.2) : ¬ (typeCompatible t u = true ∧ binaryFor op t))).symm
        simp only [hc, hb, Bool.true_eq_false, if_false, Bool.not_eq_true] at *
        simp only [hb, if_true]
        rfl
    · refine Eq.trans ?_ (if_neg (fun h => hc h.1 : ¬ (typeCompatible t u = true ∧ binaryFor op t))).symm
      simp only [Bool.not_eq_true] at hc
      simp only [hc, if_true]
      rfl
  cases ta with
  | real =>
    cases tb with
    | real =>
      refine (key .real .real st).trans ?_
      simp [typeCompatible, common, convOps]
    | ord k =>
      cases k <;> first
        | (refine (key .real .real (st.emit (.makeReal _))).trans ?_
           simp [typeCompatible, common, convOps, Integer, PS.emit]
           done)
        | rfl
  | ord j =>
    cases tb with
    | real =>
      cases j <;> first
        | (refine (key .real .real (st.emit (.makeRealLeft _))).trans ?_
           simp [typeCompatible, common, convOps, Integer, PS.emit]
           done)
        | rfl
    | ord k =>
      unfold applyOperator
      simp only [implicitConv, Bool.not_true, Bool.and_false, Bool.false_and, Bool.not_false, if_false]
      refine (key (.ord j) (.ord k) st).trans ?_
      have h1 := integer_iff (.ord j)
      have h2 := integer_iff (.ord k)
      by_cases he : j = k
      · subst he
        simp [typeCompatible, common, convOps]
      · by_cases hj : Integer (.ord j)
        · by_cases hk : Integer (.ord k)
          · simp [typeCompatible, common, convOps, he, hj, hk, h1, h2]
          · simp [typeCompatible, common, convOps, he, hj, hk, h1, h2, typeReal]
        · simp [typeCompatible, common, convOps, he, hj, h1, h2, typeReal]

/-- `checkLogical` at run time. -/
theorem checkLogical_run (ops : Ops E V) (ta tb : Ty) (v : V) (st : PS V) :
    (checkLogical ops false ⟨ta, v⟩ ⟨tb, v⟩ st).toOption =
      if ta = .bool ∧ tb = .bool then some (⟨ta, v⟩, ⟨tb, v⟩, st) else none := by
  cases ta with
  | real =>
    cases tb with
    | real => simp [checkLogical, implicitConv]; rfl
    | ord k => cases k <;> rfl
  | ord j =>
    cases tb with
    | real => cases j <;> rfl
    | ord k => cases j <;> cases k <;> rfl

/-- Conversion of the third operand of `? :` at run time. -/
theorem convElse_run (ops : Ops E V) (ta tb : Ty) (v : V) (st : PS V) :
    (do let (b, st) ← implicitConv ops false false false ta ⟨tb, v⟩ st
        if typeCompatible ta b.ty = false then throw (Err.incompatible : Err E)
        return ((⟨ta, v⟩ : Item V), st.fixup (.goto st.code.length)) : Except (Err E) (Item V × PS V)).toOption =
      if convertible ta tb then
        some (⟨ta, v⟩, ({ st with code := st.code ++ convElse ta tb } : PS V).fixup
          (.goto (st.code ++ (convElse ta tb : List (Instr V))).length))
      else none := by
  cases ta with
  | real =>
    cases tb with
    | real => simp [implicitConv, convertible, typeCompatible, convElse]; rfl
    | ord k => cases k <;> rfl
  | ord j =>
    cases tb with
    | real => cases j <;> rfl
    | ord k =>
      cases j <;> cases k <;> first
        | rfl
        | (refine Eq.trans ?_ (if_pos (by decide)).symm
           refine Eq.trans ?_ (congrArg (fun l => some ((⟨_, v⟩ : Item V), (({ st with code := l } : PS V).fixup (.goto l.length))))
             (List.append_nil st.code).symm)
           rfl)

end Umka.Expr
