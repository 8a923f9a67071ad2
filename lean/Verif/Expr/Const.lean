import Verif.Expr.Syntax
import Verif.Expr.Sim
import Verif.Expr.Exec

/-!
# Expressions: constant expressions
-/

namespace Umka.Expr
open Umka.Arith (Kind UnOp BinOp kindSigned)
open Spec (Ty Tok Ops Env Tree typeOf tyOf common Integer unaryFor binaryFor convertible isRel operand convert eval andThen
  idents)

variable {E V σ : Type}

/-- The type and the value of a tree, all of whose parts are computed. -/
def cev (ops : Ops E V) (env : Env E V σ) : Tree → Option (Ty × V)
  | .ident i => do
    let v ← env.const i
    some (env.ty i, v)
  | .int n => some (if n < 2 ^ 63 then .ord .int else .ord .uint, ops.intLit n)
  | .realNum n => some (.real, ops.realLit n)
  | .char n => some (.ord .char, ops.charLit n)
  | .un op a => do
    let (t, v) ← cev ops env a
    if unaryFor op t then do
      let w ← (ops.unary op t v).toOption
      some (t, w)
    else none
  | .bin op a b => do
    let (ta, v) ← cev ops env a
    let (tb, w) ← cev ops env b
    let t ← common ta tb
    if binaryFor op t then do
      let x ← (ops.binary op t (operand ops t ta v) (operand ops t tb w)).toOption
      some (if isRel op then .bool else t, x)
    else none
  | .and a b => do
    let (ta, _) ← cev ops env a
    let (tb, w) ← cev ops env b
    if ta = .bool ∧ tb = .bool then some (.bool, w) else none
  | .or a b => do
    let (ta, _) ← cev ops env a
    let (tb, w) ← cev ops env b
    if ta = .bool ∧ tb = .bool then some (.bool, w) else none
  | .tern c a b => do
    let (tc, x) ← cev ops env c
    let (ta, v) ← cev ops env a
    let (tb, w) ← cev ops env b
    if tc = .bool ∧ convertible ta tb then do
      let w' ← (convert ops ta tb w).toOption
      some (ta, if ops.truth x then v else w')
    else none

/-- No `&&` or `||` is decided by its left operand. -/
def Und (ops : Ops E V) (env : Env E V σ) : Tree → Prop
  | .un _ a => Und ops env a
  | .bin _ a b => Und ops env a ∧ Und ops env b
  | .and a b => Und ops env a ∧ Und ops env b ∧ ∀ t v, cev ops env a = some (t, v) → ops.truth v = true
  | .or a b => Und ops env a ∧ Und ops env b ∧ ∀ t v, cev ops env a = some (t, v) → ops.truth v = false
  | .tern c a b => Und ops env c ∧ Und ops env a ∧ Und ops env b
  | _ => True

/-! ## Operators on constants -/

theorem applyOperator_const (ops : Ops E V) (op : BinOp) (ta tb : Ty) (v w : V) (st : PS V) :
    (applyOperator ops true op ⟨ta, v⟩ ⟨tb, w⟩ st).toOption =
      (common ta tb).bind fun t =>
        if binaryFor op t then
          (ops.binary op t (operand ops t ta v) (operand ops t tb w)).toOption.bind fun x => some (⟨t, x⟩, st)
        else none := by
  have key : ∀ (t u : Ty) (v w : V),
      ((do
        if typeCompatible t u = false then throw (Err.incompatible : Err E)
        if validBinary t op = false then throw .operator
        binary ops true op ⟨t, v⟩ ⟨u, w⟩ st : Except (Err E) (Item V × PS V))).toOption =
      if typeCompatible t u = true ∧ binaryFor op t then
        (ops.binary op t v w).toOption.bind fun x => some (⟨t, x⟩, st) else none := by
    intro t u v w
    have h1 := validBinary_iff t op
    by_cases hc : typeCompatible t u = true
    · by_cases hb : validBinary t op = true
      · refine Eq.trans ?_ (if_pos (⟨hc, h1.1 hb⟩ : typeCompatible t u = true ∧ binaryFor op t)).symm
        simp only [hc, hb, binary, Bool.true_eq_false, if_false, if_true]
        cases ho : ops.binary op t v w <;> rfl
      · refine Eq.trans ?_ (if_neg (fun h => hb (h1.2 h.2) : ¬ (typeCompatible t u = true ∧ binaryFor op t))).symm
        simp only [hc, hb, Bool.true_eq_false, if_false, Bool.not_eq_true] at *
        simp only [hb, if_true]
        rfl
    · refine Eq.trans ?_ (if_neg (fun h => hc h.1 : ¬ (typeCompatible t u = true ∧ binaryFor op t))).symm
      simp only [Bool.not_eq_true] at hc
      simp only [hc, if_true]
      rfl
  cases ta with
  | real =>
    cases tb with
    | real =>
      refine (key .real .real v w).trans ?_
      simp [typeCompatible, common, operand]
    | ord k =>
      cases k <;> first
        | (refine (key .real .real v (ops.toReal _ w)).trans ?_
           simp [typeCompatible, common, operand, Integer]
           done)
        | rfl
  | ord j =>
    cases tb with
    | real =>
      cases j <;> first
        | (refine (key .real .real (ops.toReal _ v) w).trans ?_
           simp [typeCompatible, common, operand, Integer]
           done)
        | rfl
    | ord k =>
      unfold applyOperator
      simp only [implicitConv, Bool.not_true, Bool.and_false, Bool.false_and, Bool.not_false, if_false]
      refine (key (.ord j) (.ord k) v w).trans ?_
      have h1 := integer_iff (.ord j)
      have h2 := integer_iff (.ord k)
      by_cases he : j = k
      · subst he
        simp [typeCompatible, common, operand]
      · by_cases hj : Integer (.ord j)
        · by_cases hk : Integer (.ord k)
          · simp [typeCompatible, common, operand, he, hj, hk, h1, h2]
          · simp [typeCompatible, common, he, hj, hk, h1, h2, typeReal]
        · simp [typeCompatible, common, he, hj, h1, h2, typeReal]

theorem checkLogical_const (ops : Ops E V) (ta tb : Ty) (v w : V) (st : PS V) :
    (checkLogical ops true ⟨ta, v⟩ ⟨tb, w⟩ st).toOption =
      if ta = .bool ∧ tb = .bool then some (⟨ta, v⟩, ⟨tb, w⟩, st) else none := by
  cases ta with
  | real =>
    cases tb with
    | real => simp [checkLogical, implicitConv]; rfl
    | ord k => cases k <;> rfl
  | ord j =>
    cases tb with
    | real => cases j <;> rfl
    | ord k => cases j <;> cases k <;> rfl

theorem convElse_const (ops : Ops E V) (c : Bool) (ta tb : Ty) (v w : V) (st : PS V) :
    (do let (b, st) ← implicitConv ops true false false ta ⟨tb, w⟩ st
        if typeCompatible ta b.ty = false then throw (Err.incompatible : Err E)
        return ((⟨ta, if c then v else b.val⟩ : Item V), st) : Except (Err E) (Item V × PS V)).toOption =
      if convertible ta tb then
        (convert ops ta tb w).toOption.bind fun w' => some (⟨ta, if c then v else w'⟩, st)
      else none := by
  cases ta with
  | real =>
    cases tb with
    | real => simp [implicitConv, convertible, typeCompatible, convert]; rfl
    | ord k => cases k <;> rfl
  | ord j =>
    cases tb with
    | real => cases j <;> rfl
    | ord k =>
      have h1 := signed_iff j
      have h2 := signed_iff k
      by_cases hr : (j = .uint ∧ k ∈ [Kind.int8, .int16, .int32, .int]) ∨ (j ∈ [Kind.int8, .int16, .int32, .int] ∧ k = .uint)
      · have e1 : convert ops (.ord j) (.ord k) w = ops.assertRange j k w := if_pos hr
        have e2 : convertible (.ord j) (.ord k) := by
          rcases hr with ⟨rfl, h⟩ | ⟨h, rfl⟩
          · simp only [List.mem_cons, List.not_mem_nil, or_false] at h
            rcases h with rfl | rfl | rfl | rfl <;> decide
          · simp only [List.mem_cons, List.not_mem_nil, or_false] at h
            rcases h with rfl | rfl | rfl | rfl <;> decide
        rw [if_pos e2, e1]
        have e3 : implicitConv ops true false false (.ord j) ⟨.ord k, w⟩ st = rangeConv ops true j k ⟨.ord k, w⟩ st := by
          simp only [implicitConv]
          refine if_pos ?_
          rcases hr with ⟨rfl, h⟩ | ⟨h, rfl⟩
          · simp [h2.2 h]
          · simp [h1.2 h]
        rw [e3]
        simp only [rangeConv, if_true]
        cases ho : ops.assertRange j k w with
        | error e => rfl
        | ok x => 
          have : typeCompatible (.ord j) (.ord j) = true := by simp [typeCompatible]
          simp only [bind, Except.bind, this, Bool.true_eq_false, if_false]
          rfl
      · have e1 : convert ops (.ord j) (.ord k) w = .ok w := if_neg hr
        rw [e1]
        have e3 : implicitConv ops true false false (.ord j) ⟨.ord k, w⟩ st = .ok (⟨.ord k, w⟩, st) := by
          simp only [implicitConv]
          refine if_neg ?_
          intro h
          apply hr
          simp only [Bool.not_false, Bool.true_and, Bool.or_eq_true, Bool.and_eq_true, beq_iff_eq] at h
          rcases h with ⟨a, b⟩ | ⟨a, b⟩
          · exact Or.inl ⟨a, h2.1 b⟩
          · exact Or.inr ⟨h1.1 a, b⟩
        rw [e3]
        have e4 : typeCompatible (.ord j) (.ord k) = decide (convertible (.ord j) (.ord k)) := by
          cases j <;> cases k <;> rfl
        simp only [bind, Except.bind, e4]
        by_cases hv : convertible (.ord j) (.ord k)
        · simp only [hv, decide_true, Bool.true_eq_false, if_false, if_true]
          rfl
        · simp only [hv, decide_false, if_true, if_false]
          rfl

/-! ## A tree with a part without a value has none -/

theorem termLoop_cev (ops : Ops E V) (env : Env E V σ) : ∀ n e ts e' r, astTermLoop n e ts = some (e', r) →
    (cev ops env e = none → cev ops env e' = none) ∧ (Und ops env e' → Und ops env e)
  | 0, _, _, _, _, h => by simp [astTermLoop] at h
  | n + 1, e, ts, e', r, h => by
    rw [astTermLoop] at h
    cases ho : termOp ts.head? with
    | none =>
      rw [ho] at h
      obtain ⟨rfl, rfl⟩ := pair_some h
      exact ⟨id, id⟩
    | some op =>
      rw [ho] at h
      obtain ⟨p, h1, h2⟩ := bind_some h
      have h3 := termLoop_cev ops env n _ _ _ _ h2
      exact ⟨fun hn => h3.1 (by simp [cev, hn]), fun hu => (h3.2 hu).1⟩

theorem relTermLoop_cev (ops : Ops E V) (env : Env E V σ) : ∀ n e ts e' r, astRelTermLoop n e ts = some (e', r) →
    (cev ops env e = none → cev ops env e' = none) ∧ (Und ops env e' → Und ops env e)
  | 0, _, _, _, _, h => by simp [astRelTermLoop] at h
  | n + 1, e, ts, e', r, h => by
    rw [astRelTermLoop] at h
    cases ho : relTermOp ts.head? with
    | none =>
      rw [ho] at h
      obtain ⟨rfl, rfl⟩ := pair_some h
      exact ⟨id, id⟩
    | some op =>
      rw [ho] at h
      obtain ⟨p, h1, h2⟩ := bind_some h
      have h3 := relTermLoop_cev ops env n _ _ _ _ h2
      exact ⟨fun hn => h3.1 (by simp [cev, hn]), fun hu => (h3.2 hu).1⟩

theorem logTermLoop_cev (ops : Ops E V) (env : Env E V σ) : ∀ n e ts e' r, astLogTermLoop n e ts = some (e', r) →
    (cev ops env e = none → cev ops env e' = none) ∧ (Und ops env e' → Und ops env e)
  | 0, _, _, _, _, h => by simp [astLogTermLoop] at h
  | n + 1, e, ts, e', r, h => by
    rw [astLogTermLoop] at h
    by_cases ho : ts.head? = some .andand
    · rw [if_pos ho] at h
      obtain ⟨p, h1, h2⟩ := bind_some h
      have h3 := logTermLoop_cev ops env n _ _ _ _ h2
      exact ⟨fun hn => h3.1 (by simp [cev, hn]), fun hu => (h3.2 hu).1⟩
    · rw [if_neg ho] at h
      obtain ⟨rfl, rfl⟩ := pair_some h
      exact ⟨id, id⟩

theorem logExprLoop_cev (ops : Ops E V) (env : Env E V σ) : ∀ n e ts e' r, astLogExprLoop n e ts = some (e', r) →
    (cev ops env e = none → cev ops env e' = none) ∧ (Und ops env e' → Und ops env e)
  | 0, _, _, _, _, h => by simp [astLogExprLoop] at h
  | n + 1, e, ts, e', r, h => by
    rw [astLogExprLoop] at h
    by_cases ho : ts.head? = some .oror
    · rw [if_pos ho] at h
      obtain ⟨p, h1, h2⟩ := bind_some h
      have h3 := logExprLoop_cev ops env n _ _ _ _ h2
      exact ⟨fun hn => h3.1 (by simp [cev, hn]), fun hu => (h3.2 hu).1⟩
    · rw [if_neg ho] at h
      obtain ⟨rfl, rfl⟩ := pair_some h
      exact ⟨id, id⟩

/-! ## The parser computes the value -/

/-- What the parser returns for a tree in a constant expression. -/
def cres (ops : Ops E V) (env : Env E V σ) (st : PS V) (e : Tree) (r : List Tok) : Option (Item V × PS V) :=
  (cev ops env e).bind fun p => some (⟨p.1, p.2⟩, { st with toks := r })

theorem cres_none {ops : Ops E V} {env : Env E V σ} {st : PS V} {e : Tree} {r : List Tok} (h : cev ops env e = none) :
    cres ops env st e r = none := by
  simp [cres, h]

theorem bind_cres {ops : Ops E V} {env : Env E V σ} {st : PS V} {e : Tree} {r : List Tok}
    {x : Except (Err E) (Item V × PS V)} {f : Item V × PS V → Except (Err E) (Item V × PS V)}
    (hx : x.toOption = cres ops env st e r) {o : Option (Item V × PS V)}
    (h1 : cev ops env e = none → o = none)
    (h2 : ∀ t v, cev ops env e = some (t, v) → (f (⟨t, v⟩, { st with toks := r })).toOption = o) :
    (x >>= f).toOption = o := by
  rw [toOption_bind, hx, cres]
  cases hc : cev ops env e with
  | none => rw [h1 hc]; rfl
  | some p => exact h2 p.1 p.2 hc

structure CSim (ops : Ops E V) (env : Env E V σ) (n : Nat) : Prop where
  factor : ∀ st e r, astFactor n st.toks = some (e, r) → Und ops env e →
    (parseFactor ops env true n st).toOption = cres ops env st e r
  term : ∀ st e r, astTerm n st.toks = some (e, r) → Und ops env e →
    (parseTerm ops env true n st).toOption = cres ops env st e r
  termLoop : ∀ st e₀ t v e r, cev ops env e₀ = some (t, v) → astTermLoop n e₀ st.toks = some (e, r) → Und ops env e →
    (termLoop ops env true n ⟨t, v⟩ st).toOption = cres ops env st e r
  relTerm : ∀ st e r, astRelTerm n st.toks = some (e, r) → Und ops env e →
    (parseRelTerm ops env true n st).toOption = cres ops env st e r
  relTermLoop : ∀ st e₀ t v e r, cev ops env e₀ = some (t, v) → astRelTermLoop n e₀ st.toks = some (e, r) →
    Und ops env e → (relTermLoop ops env true n ⟨t, v⟩ st).toOption = cres ops env st e r
  rel : ∀ st e r, astRel n st.toks = some (e, r) → Und ops env e →
    (parseRel ops env true n st).toOption = cres ops env st e r
  logTerm : ∀ st e r, astLogTerm n st.toks = some (e, r) → Und ops env e →
    (parseLogTerm ops env true n st).toOption = cres ops env st e r
  logTermLoop : ∀ st e₀ t v e r, cev ops env e₀ = some (t, v) → astLogTermLoop n e₀ st.toks = some (e, r) →
    Und ops env e → (logTermLoop ops env true n ⟨t, v⟩ st).toOption = cres ops env st e r
  logExpr : ∀ st e r, astLogExpr n st.toks = some (e, r) → Und ops env e →
    (parseLogExpr ops env true n st).toOption = cres ops env st e r
  logExprLoop : ∀ st e₀ t v e r, cev ops env e₀ = some (t, v) → astLogExprLoop n e₀ st.toks = some (e, r) →
    Und ops env e → (logExprLoop ops env true n ⟨t, v⟩ st).toOption = cres ops env st e r
  expr : ∀ st e r, astExpr n st.toks = some (e, r) → Und ops env e →
    (parseExpr ops env true n st).toOption = cres ops env st e r

/-- After the operands of a binary operator. -/
theorem apply_csim {ops : Ops E V} {env : Env E V σ} {op : BinOp} {a b : Tree} {ta tb : Ty} {v w : V}
    (ha : cev ops env a = some (ta, v)) (hb : cev ops env b = some (tb, w)) (st : PS V)
    {f : Item V × PS V → Except (Err E) (Item V × PS V)} {o : Option (Item V × PS V)}
    (h1 : cev ops env (.bin op a b) = none → o = none)
    (h2 : ∀ t x, cev ops env (.bin op a b) = some (if isRel op then .bool else t, x) →
      (f (⟨t, x⟩, st)).toOption = o) :
    (applyOperator ops true op ⟨ta, v⟩ ⟨tb, w⟩ st >>= f).toOption = o := by
  rw [toOption_bind, applyOperator_const]
  have he : cev ops env (.bin op a b) = (common ta tb).bind fun t =>
      if binaryFor op t then
        (ops.binary op t (operand ops t ta v) (operand ops t tb w)).toOption.bind fun x =>
          some (if isRel op then .bool else t, x)
      else none := by
    simp only [cev, ha, hb]; rfl
  cases hc : common ta tb with
  | none =>
    rw [hc] at he
    rw [h1 he]; rfl
  | some t =>
    rw [hc] at he
    simp only [Option.bind_some] at he ⊢
    by_cases hbf : binaryFor op t
    · rw [if_pos hbf] at he ⊢
      cases ho : (ops.binary op t (operand ops t ta v) (operand ops t tb w)).toOption with
      | none =>
        rw [ho] at he
        rw [h1 he]; rfl
      | some x =>
        rw [ho] at he
        exact h2 t x he
    · rw [if_neg hbf] at he ⊢
      rw [h1 he]; rfl

theorem csim_termLoop {ops : Ops E V} {env : Env E V σ} {n : Nat} (ih : CSim ops env n) (st : PS V) (e₀ : Tree) (t : Ty)
    (v : V) (e : Tree) (r : List Tok) (h0 : cev ops env e₀ = some (t, v))
    (h : astTermLoop (n + 1) e₀ st.toks = some (e, r)) (hu : Und ops env e) :
    (termLoop ops env true (n + 1) ⟨t, v⟩ st).toOption = cres ops env st e r := by
  rw [astTermLoop] at h
  rw [termLoop]
  cases ho : termOp st.toks.head? with
  | none =>
    rw [ho] at h
    obtain ⟨rfl, rfl⟩ := pair_some h
    simp only [cres, h0]
    rfl
  | some op =>
    rw [ho] at h
    obtain ⟨⟨b, q⟩, h1, h2⟩ := bind_some h
    have h3 := termLoop_cev ops env n _ _ _ _ h2
    have hub := (h3.2 hu).2
    refine bind_cres (ih.factor st.skip b q h1 hub) ?_ ?_
    · intro hn
      exact cres_none (h3.1 (by simp [cev, hn]))
    · intro tb w hb
      refine apply_csim h0 hb _ ?_ ?_
      · intro hn
        exact cres_none (h3.1 hn)
      · intro t' x hx
        rw [termOp_rel ho] at hx
        exact ih.termLoop _ _ _ _ e r hx h2 hu

theorem csim_relTermLoop {ops : Ops E V} {env : Env E V σ} {n : Nat} (ih : CSim ops env n) (st : PS V) (e₀ : Tree) (t : Ty)
    (v : V) (e : Tree) (r : List Tok) (h0 : cev ops env e₀ = some (t, v))
    (h : astRelTermLoop (n + 1) e₀ st.toks = some (e, r)) (hu : Und ops env e) :
    (relTermLoop ops env true (n + 1) ⟨t, v⟩ st).toOption = cres ops env st e r := by
  rw [astRelTermLoop] at h
  rw [relTermLoop]
  cases ho : relTermOp st.toks.head? with
  | none =>
    rw [ho] at h
    obtain ⟨rfl, rfl⟩ := pair_some h
    simp only [cres, h0]
    rfl
  | some op =>
    rw [ho] at h
    obtain ⟨⟨b, q⟩, h1, h2⟩ := bind_some h
    have h3 := relTermLoop_cev ops env n _ _ _ _ h2
    have hub := (h3.2 hu).2
    refine bind_cres (ih.term st.skip b q h1 hub) ?_ ?_
    · intro hn
      exact cres_none (h3.1 (by simp [cev, hn]))
    · intro tb w hb
      refine apply_csim h0 hb _ ?_ ?_
      · intro hn
        exact cres_none (h3.1 hn)
      · intro t' x hx
        rw [relTermOp_rel ho] at hx
        exact ih.relTermLoop _ _ _ _ e r hx h2 hu

theorem csim_logTermLoop {ops : Ops E V} {env : Env E V σ} {n : Nat} (ih : CSim ops env n) (st : PS V) (e₀ : Tree) (t : Ty)
    (v : V) (e : Tree) (r : List Tok) (h0 : cev ops env e₀ = some (t, v))
    (h : astLogTermLoop (n + 1) e₀ st.toks = some (e, r)) (hu : Und ops env e) :
    (logTermLoop ops env true (n + 1) ⟨t, v⟩ st).toOption = cres ops env st e r := by
  rw [astLogTermLoop] at h
  rw [logTermLoop]
  by_cases ho : st.toks.head? = some .andand
  · rw [if_pos ho] at h ⊢
    obtain ⟨⟨b, q⟩, h1, h2⟩ := bind_some h
    have h3 := logTermLoop_cev ops env n _ _ _ _ h2
    obtain ⟨hua, hub, htr⟩ := h3.2 hu
    have ht := htr t v h0
    dsimp only
    rw [if_pos rfl, if_pos ht]
    refine bind_cres (ih.rel st.skip b q h1 hub) ?_ ?_
    · intro hn
      exact cres_none (h3.1 (by simp [cev, hn]))
    · intro tb w hb
      rw [toOption_bind, checkLogical_const]
      have he : cev ops env (.and e₀ b) = if t = .bool ∧ tb = .bool then some (.bool, w) else none := by
        simp only [cev, h0, hb]; rfl
      by_cases hbool : t = .bool ∧ tb = .bool
      · rw [if_pos hbool] at he ⊢
        obtain ⟨rfl, rfl⟩ := hbool
        exact ih.logTermLoop _ _ _ _ e r he h2 hu
      · rw [if_neg hbool] at he ⊢
        exact (cres_none (h3.1 he)).symm
  · rw [if_neg ho] at h ⊢
    obtain ⟨rfl, rfl⟩ := pair_some h
    simp only [cres, h0]
    rfl

theorem csim_logExprLoop {ops : Ops E V} {env : Env E V σ} {n : Nat} (ih : CSim ops env n) (st : PS V) (e₀ : Tree) (t : Ty)
    (v : V) (e : Tree) (r : List Tok) (h0 : cev ops env e₀ = some (t, v))
    (h : astLogExprLoop (n + 1) e₀ st.toks = some (e, r)) (hu : Und ops env e) :
    (logExprLoop ops env true (n + 1) ⟨t, v⟩ st).toOption = cres ops env st e r := by
  rw [astLogExprLoop] at h
  rw [logExprLoop]
  by_cases ho : st.toks.head? = some .oror
  · rw [if_pos ho] at h ⊢
    obtain ⟨⟨b, q⟩, h1, h2⟩ := bind_some h
    have h3 := logExprLoop_cev ops env n _ _ _ _ h2
    obtain ⟨hua, hub, htr⟩ := h3.2 hu
    have ht := htr t v h0
    dsimp only
    rw [if_pos rfl, if_pos ht]
    refine bind_cres (ih.logTerm st.skip b q h1 hub) ?_ ?_
    · intro hn
      exact cres_none (h3.1 (by simp [cev, hn]))
    · intro tb w hb
      rw [toOption_bind, checkLogical_const]
      have he : cev ops env (.or e₀ b) = if t = .bool ∧ tb = .bool then some (.bool, w) else none := by
        simp only [cev, h0, hb]; rfl
      by_cases hbool : t = .bool ∧ tb = .bool
      · rw [if_pos hbool] at he ⊢
        obtain ⟨rfl, rfl⟩ := hbool
        exact ih.logExprLoop _ _ _ _ e r he h2 hu
      · rw [if_neg hbool] at he ⊢
        exact (cres_none (h3.1 he)).symm
  · rw [if_neg ho] at h ⊢
    obtain ⟨rfl, rfl⟩ := pair_some h
    simp only [cres, h0]
    rfl

theorem csim_rel {ops : Ops E V} {env : Env E V σ} {n : Nat} (ih : CSim ops env n) (st : PS V) (e : Tree) (r : List Tok)
    (h : astRel (n + 1) st.toks = some (e, r)) (hu : Und ops env e) :
    (parseRel ops env true (n + 1) st).toOption = cres ops env st e r := by
  rw [astRel] at h
  rw [parseRel]
  obtain ⟨⟨a, q⟩, h1, h2⟩ := bind_some h
  dsimp only at h2
  cases ho : relOp q.head? with
  | none =>
    rw [ho] at h2
    obtain ⟨rfl, rfl⟩ := pair_some h2
    refine bind_cres (ih.relTerm st _ _ h1 hu) ?_ ?_
    · intro hn
      exact cres_none hn
    · intro t v ha
      simp only [cres, ha, ho]
      rfl
  | some op =>
    rw [ho] at h2
    obtain ⟨⟨b, q'⟩, h3, h4⟩ := bind_some h2
    obtain ⟨rfl, rfl⟩ := pair_some h4
    refine bind_cres (ih.relTerm st _ _ h1 hu.1) ?_ ?_
    · intro hn
      exact cres_none (by simp [cev, hn])
    · intro t v ha
      dsimp only
      rw [ho]
      refine bind_cres (ih.relTerm ⟨q.tail, st.code, st.stubs⟩ _ _ h3 hu.2) ?_ ?_
      · intro hn
        exact cres_none (by simp [cev, hn])
      · intro tb w hb
        refine apply_csim ha hb _ ?_ ?_
        · intro hn
          exact cres_none hn
        · intro t' x hx
          rw [relOp_rel ho] at hx
          simp only [cres, hx]
          rfl

theorem csim_expr {ops : Ops E V} {env : Env E V σ} {n : Nat} (ih : CSim ops env n) (st : PS V) (e : Tree) (r : List Tok)
    (h : astExpr (n + 1) st.toks = some (e, r)) (hu : Und ops env e) :
    (parseExpr ops env true (n + 1) st).toOption = cres ops env st e r := by
  rw [astExpr] at h
  rw [parseExpr]
  obtain ⟨⟨c, q⟩, h1, h2⟩ := bind_some h
  dsimp only at h2
  by_cases ho : q.head? = some .question
  · rw [if_pos ho] at h2
    obtain ⟨⟨a, q'⟩, h3, h4⟩ := bind_some h2
    dsimp only at h4
    by_cases hcol : q'.head? = some .colon
    · rw [if_pos hcol] at h4
      obtain ⟨⟨b, q''⟩, h5, h6⟩ := bind_some h4
      obtain ⟨rfl, rfl⟩ := pair_some h6
      obtain ⟨huc, hua, hub⟩ := hu
      refine bind_cres (ih.logExpr st _ _ h1 huc) ?_ ?_
      · intro hn
        exact cres_none (by simp [cev, hn])
      · intro tc x hc
        dsimp only
        rw [if_pos ho]
        by_cases hcb : typeCompatible .bool tc = true
        · rw [if_neg (by rw [hcb]; exact Bool.noConfusion), if_pos rfl]
          have htc : tc = .bool := by
            cases tc with
            | real => exact absurd hcb (by decide)
            | ord k => cases k <;> first | rfl | exact absurd hcb (by decide)
          refine bind_cres (ih.expr ⟨q.tail, st.code, st.stubs⟩ _ _ h3 hua) ?_ ?_
          · intro hn
            exact cres_none (by simp [cev, hn])
          · intro ta v ha
            dsimp only [PS.eat]
            rw [if_pos hcol]
            refine bind_cres (ih.expr ⟨q'.tail, st.code, st.stubs⟩ _ _ h5 hub) ?_ ?_
            · intro hn
              exact cres_none (by simp [cev, hn])
            · intro tb w hb
              refine (convElse_const ops (ops.truth x) ta tb v w _).trans ?_
              have he : cev ops env (.tern c a b) = if tc = .bool ∧ convertible ta tb then
                  (convert ops ta tb w).toOption.bind fun w' => some (ta, if ops.truth x then v else w') else none := by
                simp only [cev, hc, ha, hb]; rfl
              simp only [cres, he, htc, true_and]
              by_cases hconv : convertible ta tb
              · rw [if_pos hconv, if_pos hconv]
                cases ho : (convert ops ta tb w).toOption <;> rfl
              · rw [if_neg hconv, if_neg hconv]
                rfl
        · rw [if_pos (by simpa using hcb)]
          have htc : tc ≠ .bool := by
            intro h; subst h; exact hcb (by decide)
          refine Eq.trans (b := none) rfl (cres_none ?_).symm
          cases ha : cev ops env a with
          | none => simp [cev, ha]
          | some p =>
            cases hb : cev ops env b with
            | none => simp [cev, hb]
            | some p' => simp [cev, hc, ha, hb, htc]
    · rw [if_neg hcol] at h4
      exact nomatch h4
  · rw [if_neg ho] at h2
    obtain ⟨rfl, rfl⟩ := pair_some h2
    refine bind_cres (ih.logExpr st _ _ h1 hu) ?_ ?_
    · intro hn
      exact cres_none hn
    · intro t v ha
      dsimp only
      rw [if_neg ho]
      simp only [cres, ha]
      rfl

theorem csim_factor {ops : Ops E V} {env : Env E V σ} {n : Nat} (ih : CSim ops env n) (st : PS V) (e : Tree) (r : List Tok)
    (h : astFactor (n + 1) st.toks = some (e, r)) (hu : Und ops env e) :
    (parseFactor ops env true (n + 1) st).toOption = cres ops env st e r := by
  rw [astFactor] at h
  rw [parseFactor]
  cases ho : prefixOp st.toks.head? with
  | some op =>
    rw [ho] at h
    obtain ⟨⟨a, q⟩, h1, h2⟩ := bind_some h
    obtain ⟨rfl, rfl⟩ := pair_some h2
    refine bind_cres (ih.factor st.skip _ _ h1 hu) ?_ ?_
    · intro hn
      exact cres_none (by simp [cev, hn])
    · intro t v ha
      have hv := validUnary_iff t op
      have he : cev ops env (.un op a) = if unaryFor op t then (ops.unary op t v).toOption.bind fun w => some (t, w)
          else none := by
        simp only [cev, ha]; rfl
      by_cases huf : unaryFor op t
      · rw [if_pos huf] at he
        simp only [hv.2 huf, Bool.true_eq_false, if_false, unary, if_true, cres, he, PS.skip]
        cases hw : ops.unary op t v <;> rfl
      · rw [if_neg huf] at he
        have hf : validUnary t op = false := by
          cases h : validUnary t op with
          | false => rfl
          | true => exact absurd (hv.1 h) huf
        simp only [hf, if_true]
        exact (cres_none he).symm
  | none =>
    rw [ho] at h
    dsimp only at h ⊢
    cases hh : st.toks.head? with
    | none => rw [hh] at h; exact nomatch h
    | some t =>
      rw [hh] at h
      cases t with
      | ident i =>
        obtain ⟨rfl, rfl⟩ := pair_some h
        simp only [designator, if_true, cres, cev]
        cases hc : env.const i <;> rfl
      | intNumber k =>
        obtain ⟨rfl, rfl⟩ := pair_some h
        dsimp only
        by_cases hk : k > 2 ^ 63 - 1
        · rw [if_pos hk]
          simp only [cres, cev, if_neg (show ¬ k < 2 ^ 63 by omega)]
          rfl
        · rw [if_neg hk]
          simp only [cres, cev, if_pos (show k < 2 ^ 63 by omega)]
          rfl
      | realNumber k =>
        obtain ⟨rfl, rfl⟩ := pair_some h
        rfl
      | charLiteral k =>
        obtain ⟨rfl, rfl⟩ := pair_some h
        rfl
      | lpar =>
        obtain ⟨⟨a, q⟩, h1, h2⟩ := bind_some h
        replace h2 : (if q.head? = some .rpar then some (a, q.tail) else none) = some (e, r) := h2
        by_cases hp : q.head? = some .rpar
        · rw [if_pos hp] at h2
          obtain ⟨rfl, rfl⟩ := pair_some h2
          refine bind_cres (ih.expr st.skip _ _ h1 hu) ?_ ?_
          · intro hn
            exact cres_none hn
          · intro t v ha
            simp only [cres, ha, PS.eat, PS.skip, if_pos hp]
            rfl
        · rw [if_neg hp] at h2
          exact nomatch h2
      | _ => exact nomatch h

theorem csim (ops : Ops E V) (env : Env E V σ) : ∀ n, CSim ops env n
  | 0 => by
    constructor
    all_goals intros
    all_goals first
      | (rename_i h _; exact nomatch h)
  | n + 1 => by
    have ih := csim ops env n
    refine ⟨csim_factor ih, ?_, csim_termLoop ih, ?_, csim_relTermLoop ih, csim_rel ih, ?_, csim_logTermLoop ih, ?_,
      csim_logExprLoop ih, csim_expr ih⟩
    · intro st e r h hu
      rw [astTerm] at h
      rw [parseTerm]
      obtain ⟨⟨a, q⟩, h1, h2⟩ := bind_some h
      have h3 := termLoop_cev ops env n _ _ _ _ h2
      refine bind_cres (ih.factor st a q h1 (h3.2 hu)) ?_ ?_
      · intro hn
        exact cres_none (h3.1 hn)
      · intro t v ha
        exact ih.termLoop _ _ _ _ e r ha h2 hu
    · intro st e r h hu
      rw [astRelTerm] at h
      rw [parseRelTerm]
      obtain ⟨⟨a, q⟩, h1, h2⟩ := bind_some h
      have h3 := relTermLoop_cev ops env n _ _ _ _ h2
      refine bind_cres (ih.term st a q h1 (h3.2 hu)) ?_ ?_
      · intro hn
        exact cres_none (h3.1 hn)
      · intro t v ha
        exact ih.relTermLoop _ _ _ _ e r ha h2 hu
    · intro st e r h hu
      rw [astLogTerm] at h
      rw [parseLogTerm]
      obtain ⟨⟨a, q⟩, h1, h2⟩ := bind_some h
      have h3 := logTermLoop_cev ops env n _ _ _ _ h2
      refine bind_cres (ih.rel st a q h1 (h3.2 hu)) ?_ ?_
      · intro hn
        exact cres_none (h3.1 hn)
      · intro t v ha
        exact ih.logTermLoop _ _ _ _ e r ha h2 hu
    · intro st e r h hu
      rw [astLogExpr] at h
      rw [parseLogExpr]
      obtain ⟨⟨a, q⟩, h1, h2⟩ := bind_some h
      have h3 := logExprLoop_cev ops env n _ _ _ _ h2
      refine bind_cres (ih.logTerm st a q h1 (h3.2 hu)) ?_ ?_
      · intro hn
        exact cres_none (h3.1 hn)
      · intro t v ha
        exact ih.logExprLoop _ _ _ _ e r ha h2 hu

/-! ## The value is that of evaluation -/

theorem toOption_some {x : Except E V} {v : V} (h : x.toOption = some v) : x = .ok v := by
  cases x with
  | error e => exact nomatch h
  | ok w => injection h with h; rw [h]

theorem cev_eval (ops : Ops E V) (env : Env E V σ) : ∀ (e : Tree) (t : Ty) (v : V), Spec.Constants env e → Und ops env e →
    cev ops env e = some (t, v) → typeOf env e = some t ∧ ∀ s, eval ops env e s = (s, .ok v)
  | .ident i, t, v, hp, _, h => by
    obtain ⟨w, h1, h2⟩ := hp i (by simp [idents])
    simp only [cev, h1] at h
    obtain ⟨rfl, rfl⟩ := pair_some h
    exact ⟨rfl, h2⟩
  | .int n, t, v, _, _, h => by
    obtain ⟨rfl, rfl⟩ := pair_some h
    exact ⟨rfl, fun _ => rfl⟩
  | .realNum n, t, v, _, _, h => by
    obtain ⟨rfl, rfl⟩ := pair_some h
    exact ⟨rfl, fun _ => rfl⟩
  | .char n, t, v, _, _, h => by
    obtain ⟨rfl, rfl⟩ := pair_some h
    exact ⟨rfl, fun _ => rfl⟩
  | .un op a, t, v, hp, hu, h => by
    obtain ⟨⟨ta, x⟩, ha, h⟩ := bind_some h
    obtain ⟨h1, h2⟩ := cev_eval ops env a ta x hp hu ha
    by_cases huf : unaryFor op ta
    · replace h : (if unaryFor op ta then (ops.unary op ta x).toOption.bind fun w => some (ta, w) else none) = some (t, v) := h
      rw [if_pos huf] at h
      obtain ⟨w, h3, h4⟩ := Option.bind_eq_some_iff.1 h
      obtain ⟨rfl, rfl⟩ := pair_some h4
      refine ⟨by simp [typeOf, h1, huf], fun s => ?_⟩
      rw [eval, h2 s, tyOf_eq h1]
      simp only [andThen, toOption_some h3]
    · replace h : (if unaryFor op ta then (ops.unary op ta x).toOption.bind fun w => some (ta, w) else none) = some (t, v) := h
      rw [if_neg huf] at h
      exact nomatch h
  | .bin op a b, t, v, hp, hu, h => by
    obtain ⟨⟨ta, x⟩, ha, h⟩ := bind_some h
    obtain ⟨⟨tb, y⟩, hb, h⟩ := bind_some h
    obtain ⟨tc, hc, h⟩ := bind_some h
    obtain ⟨h1, h2⟩ := cev_eval ops env a ta x (fun i hi => hp i (by simp [idents, hi])) hu.1 ha
    obtain ⟨h3, h4⟩ := cev_eval ops env b tb y (fun i hi => hp i (by simp [idents, hi])) hu.2 hb
    replace hc : common ta tb = some tc := hc
    replace h : (if binaryFor op tc then
      (ops.binary op tc (operand ops tc ta x) (operand ops tc tb y)).toOption.bind fun x =>
          some (if isRel op then .bool else tc, x)
        else none) = some (t, v) := h
    by_cases hbf : binaryFor op tc
    · rw [if_pos hbf] at h
      obtain ⟨w, h5, h6⟩ := Option.bind_eq_some_iff.1 h
      obtain ⟨rfl, rfl⟩ := pair_some h6
      refine ⟨by rw [typeOf_bin env op a b ta tb h1 h3, hc]; exact if_pos hbf, fun s => ?_⟩
      rw [eval]
      simp only [tyOf_eq h1, tyOf_eq h3, hc, h2, h4, andThen, Option.getD_some, toOption_some h5]
    · rw [if_neg hbf] at h
      exact nomatch h
  | .and a b, t, v, hp, hu, h => by
    obtain ⟨⟨ta, x⟩, ha, h⟩ := bind_some h
    obtain ⟨⟨tb, y⟩, hb, h⟩ := bind_some h
    obtain ⟨h1, h2⟩ := cev_eval ops env a ta x (fun i hi => hp i (by simp [idents, hi])) hu.1 ha
    obtain ⟨h3, h4⟩ := cev_eval ops env b tb y (fun i hi => hp i (by simp [idents, hi])) hu.2.1 hb
    replace h : (if ta = .bool ∧ tb = .bool then some (Ty.bool, y) else none) = some (t, v) := h
    by_cases hbb : ta = .bool ∧ tb = .bool
    · rw [if_pos hbb] at h
      obtain ⟨rfl, rfl⟩ := pair_some h
      refine ⟨by simp [typeOf, h1, h3, hbb], fun s => ?_⟩
      rw [eval]
      simp only [h2, andThen, hu.2.2 _ _ ha, if_true, h4]
    · rw [if_neg hbb] at h
      exact nomatch h
  | .or a b, t, v, hp, hu, h => by
    obtain ⟨⟨ta, x⟩, ha, h⟩ := bind_some h
    obtain ⟨⟨tb, y⟩, hb, h⟩ := bind_some h
    obtain ⟨h1, h2⟩ := cev_eval ops env a ta x (fun i hi => hp i (by simp [idents, hi])) hu.1 ha
    obtain ⟨h3, h4⟩ := cev_eval ops env b tb y (fun i hi => hp i (by simp [idents, hi])) hu.2.1 hb
    replace h : (if ta = .bool ∧ tb = .bool then some (Ty.bool, y) else none) = some (t, v) := h
    by_cases hbb : ta = .bool ∧ tb = .bool
    · rw [if_pos hbb] at h
      obtain ⟨rfl, rfl⟩ := pair_some h
      refine ⟨by simp [typeOf, h1, h3, hbb], fun s => ?_⟩
      rw [eval]
      simp only [h2, andThen, hu.2.2 _ _ ha, Bool.false_eq_true, if_false, h4]
    · rw [if_neg hbb] at h
      exact nomatch h
  | .tern c a b, t, v, hp, hu, h => by
    obtain ⟨⟨tc, z⟩, hc, h⟩ := bind_some h
    obtain ⟨⟨ta, x⟩, ha, h⟩ := bind_some h
    obtain ⟨⟨tb, y⟩, hb, h⟩ := bind_some h
    obtain ⟨h5, h6⟩ := cev_eval ops env c tc z (fun i hi => hp i (by simp [idents, hi])) hu.1 hc
    obtain ⟨h1, h2⟩ := cev_eval ops env a ta x (fun i hi => hp i (by simp [idents, hi])) hu.2.1 ha
    obtain ⟨h3, h4⟩ := cev_eval ops env b tb y (fun i hi => hp i (by simp [idents, hi])) hu.2.2 hb
    replace h : (if tc = .bool ∧ convertible ta tb then
      (convert ops ta tb y).toOption.bind fun w' => some (ta, if ops.truth z then x else w') else none) = some (t, v) := h
    by_cases hcc : tc = .bool ∧ convertible ta tb
    · rw [if_pos hcc] at h
      obtain ⟨w, h7, h8⟩ := Option.bind_eq_some_iff.1 h
      obtain ⟨rfl, rfl⟩ := pair_some h8
      refine ⟨by simp [typeOf, h1, h3, h5, hcc], fun s => ?_⟩
      rw [eval]
      simp only [h6, andThen, h2, h4, tyOf_eq h1, tyOf_eq h3, toOption_some h7]
      cases ops.truth z <;> rfl
    · rw [if_neg hcc] at h
      exact nomatch h

theorem typed_and' {env : Env E V σ} {a b : Tree} {t : Ty} (h : typeOf env (.and a b) = some t) :
    typeOf env a = some .bool ∧ typeOf env b = some .bool ∧ t = .bool := by
  simp only [typeOf] at h
  obtain ⟨ta, h1, h⟩ := bind_some h
  obtain ⟨tb, h2, h⟩ := bind_some h
  by_cases hh : ta = .bool ∧ tb = .bool
  · rw [if_pos hh] at h
    injection h with ht
    obtain ⟨rfl, rfl⟩ := hh
    exact ⟨h1, h2, ht.symm⟩
  · rw [if_neg hh] at h; exact nomatch h

theorem typed_or' {env : Env E V σ} {a b : Tree} {t : Ty} (h : typeOf env (.or a b) = some t) :
    typeOf env a = some .bool ∧ typeOf env b = some .bool ∧ t = .bool :=
  typed_and' (env := env) (a := a) (b := b) (by simpa only [typeOf] using h)

theorem typed_tern' {env : Env E V σ} {c a b : Tree} {t : Ty} (h : typeOf env (.tern c a b) = some t) :
    ∃ tb, typeOf env c = some .bool ∧ typeOf env a = some t ∧ typeOf env b = some tb ∧ convertible t tb := by
  simp only [typeOf] at h
  obtain ⟨tc, h0, h⟩ := bind_some h
  obtain ⟨ta, h1, h⟩ := bind_some h
  obtain ⟨tb, h2, h⟩ := bind_some h
  by_cases hh : tc = .bool ∧ convertible ta tb
  · rw [if_pos hh] at h
    injection h with ht
    obtain ⟨rfl, hh⟩ := hh
    subst ht
    exact ⟨tb, h0, h1, h2, hh⟩
  · rw [if_neg hh] at h; exact nomatch h

theorem und_of (ops : Ops E V) (env : Env E V σ) (s : σ) : ∀ e : Tree, Spec.Constants env e →
    Spec.Undecided ops env s e → Und ops env e
  | .ident _, _, _ => trivial
  | .int _, _, _ => trivial
  | .realNum _, _, _ => trivial
  | .char _, _, _ => trivial
  | .un _ a, hp, h => und_of ops env s a hp h
  | .bin _ a b, hp, h => ⟨und_of ops env s a (fun i hi => hp i (by simp [idents, hi])) h.1,
      und_of ops env s b (fun i hi => hp i (by simp [idents, hi])) h.2⟩
  | .and a b, hp, h => by
    have hpa : Spec.Constants env a := fun i hi => hp i (by simp [idents, hi])
    have ha := und_of ops env s a hpa h.1
    refine ⟨ha, und_of ops env s b (fun i hi => hp i (by simp [idents, hi])) h.2.1, fun t v hv => ?_⟩
    exact h.2.2 v (by rw [(cev_eval ops env a t v hpa ha hv).2 s])
  | .or a b, hp, h => by
    have hpa : Spec.Constants env a := fun i hi => hp i (by simp [idents, hi])
    have ha := und_of ops env s a hpa h.1
    refine ⟨ha, und_of ops env s b (fun i hi => hp i (by simp [idents, hi])) h.2.1, fun t v hv => ?_⟩
    exact h.2.2 v (by rw [(cev_eval ops env a t v hpa ha hv).2 s])
  | .tern c a b, hp, h => ⟨und_of ops env s c (fun i hi => hp i (by simp [idents, hi])) h.1,
      und_of ops env s a (fun i hi => hp i (by simp [idents, hi])) h.2.1,
      und_of ops env s b (fun i hi => hp i (by simp [idents, hi])) h.2.2⟩

theorem cev_defined (ops : Ops E V) (env : Env E V σ) (s : σ) : ∀ (e : Tree) (t : Ty), Spec.Constants env e →
    Und ops env e → typeOf env e = some t → (Spec.Defined ops env s e ↔ ∃ v, cev ops env e = some (t, v))
  | .ident i, t, hp, _, h => by
    obtain ⟨w, h1, h2⟩ := hp i (by simp [idents])
    injection h with h
    subst h
    exact ⟨fun _ => ⟨w, by simp only [cev, h1]; rfl⟩, fun _ => trivial⟩
  | .int n, t, _, _, h => by
    injection h with h
    subst h
    exact ⟨fun _ => ⟨_, rfl⟩, fun _ => trivial⟩
  | .realNum n, t, _, _, h => by
    injection h with h
    subst h
    exact ⟨fun _ => ⟨_, rfl⟩, fun _ => trivial⟩
  | .char n, t, _, _, h => by
    injection h with h
    subst h
    exact ⟨fun _ => ⟨_, rfl⟩, fun _ => trivial⟩
  | .un op a, t, hp, hu, h => by
    obtain ⟨ta, hta⟩ := typed_un h
    have ih := cev_defined ops env s a ta hp hu hta
    have huf : unaryFor op ta ∧ ta = t := by
      simp only [typeOf, hta] at h
      replace h : (if unaryFor op ta then some ta else none) = some t := h
      by_cases hh : unaryFor op ta
      · rw [if_pos hh] at h; injection h with h; exact ⟨hh, h⟩
      · rw [if_neg hh] at h; exact nomatch h
    obtain ⟨huf, rfl⟩ := huf
    constructor
    · rintro ⟨hd, v, hv⟩
      obtain ⟨x, hx⟩ := ih.1 hd
      rw [eval, (cev_eval ops env a _ x hp hu hx).2 s, tyOf_eq hta] at hv
      replace hv : ops.unary op ta x = .ok v := hv
      refine ⟨v, ?_⟩
      simp only [cev, hx]
      show (if unaryFor op ta then (ops.unary op ta x).toOption.bind fun w => some (ta, w) else none) = _
      rw [if_pos huf, hv]
      rfl
    · rintro ⟨v, hv⟩
      obtain ⟨⟨ta', x⟩, ha, _⟩ := bind_some hv
      obtain rfl := some_ne (cev_eval ops env a _ x hp hu ha).1 hta
      exact ⟨ih.2 ⟨x, ha⟩, v, by rw [(cev_eval ops env (.un op a) _ v hp hu hv).2 s]⟩
  | .bin op a b, t, hp, hu, h => by
    obtain ⟨ta, tb, _, hta, htb, _⟩ := typed_bin h
    have hpa : Spec.Constants env a := fun i hi => hp i (by simp [idents, hi])
    have hpb : Spec.Constants env b := fun i hi => hp i (by simp [idents, hi])
    have iha := cev_defined ops env s a ta hpa hu.1 hta
    have ihb := cev_defined ops env s b tb hpb hu.2 htb
    have htc : ∃ tc, common ta tb = some tc ∧ binaryFor op tc ∧ (if isRel op then Ty.bool else tc) = t := by
      rw [typeOf_bin env op a b ta tb hta htb] at h
      obtain ⟨tc, h1, h2⟩ := Option.bind_eq_some_iff.1 h
      by_cases hh : binaryFor op tc
      · rw [if_pos hh] at h2; injection h2 with h2; exact ⟨tc, h1, hh, h2⟩
      · rw [if_neg hh] at h2; exact nomatch h2
    obtain ⟨tc, htc, hbf, rfl⟩ := htc
    constructor
    · rintro ⟨hd, hd', v, hv⟩
      obtain ⟨x, hx⟩ := iha.1 hd
      obtain ⟨y, hy⟩ := ihb.1 hd'
      rw [eval] at hv
      simp only [(cev_eval ops env a _ x hpa hu.1 hx).2, (cev_eval ops env b _ y hpb hu.2 hy).2, tyOf_eq hta, tyOf_eq htb,
        htc, andThen, Option.getD_some] at hv
      refine ⟨v, ?_⟩
      simp only [cev, hx, hy]
      show (common ta tb).bind (fun tc => (if binaryFor op tc then
        (ops.binary op tc (operand ops tc ta x) (operand ops tc tb y)).toOption.bind fun x =>
          some (if isRel op then Ty.bool else tc, x)
        else none)) = _
      rw [htc, Option.bind_some, if_pos hbf, hv]
      rfl
    · rintro ⟨v, hv⟩
      have hv' := hv
      obtain ⟨⟨ta', x⟩, ha, hv'⟩ := bind_some hv'
      obtain ⟨⟨tb', y⟩, hb, _⟩ := bind_some hv'
      obtain rfl := some_ne (cev_eval ops env a _ x hpa hu.1 ha).1 hta
      obtain rfl := some_ne (cev_eval ops env b _ y hpb hu.2 hb).1 htb
      exact ⟨iha.2 ⟨x, ha⟩, ihb.2 ⟨y, hb⟩, v, by rw [(cev_eval ops env (.bin op a b) _ v hp hu hv).2 s]⟩
  | .and a b, t, hp, hu, h => by
    have hpa : Spec.Constants env a := fun i hi => hp i (by simp [idents, hi])
    have hpb : Spec.Constants env b := fun i hi => hp i (by simp [idents, hi])
    obtain ⟨hta, htb, rfl⟩ := typed_and' h
    have iha := cev_defined ops env s a _ hpa hu.1 hta
    have ihb := cev_defined ops env s b _ hpb hu.2.1 htb
    constructor
    · rintro ⟨hd, hd'⟩
      obtain ⟨x, hx⟩ := iha.1 hd
      obtain ⟨y, hy⟩ := ihb.1 hd'
      refine ⟨y, ?_⟩
      simp only [cev, hx, hy]
      rfl
    · rintro ⟨v, hv⟩
      obtain ⟨⟨ta', x⟩, ha, hv'⟩ := bind_some hv
      obtain ⟨⟨tb', y⟩, hb, _⟩ := bind_some hv'
      obtain rfl := some_ne (cev_eval ops env a _ x hpa hu.1 ha).1 hta
      obtain rfl := some_ne (cev_eval ops env b _ y hpb hu.2.1 hb).1 htb
      exact ⟨iha.2 ⟨x, ha⟩, ihb.2 ⟨y, hb⟩⟩
  | .or a b, t, hp, hu, h => by
    have hpa : Spec.Constants env a := fun i hi => hp i (by simp [idents, hi])
    have hpb : Spec.Constants env b := fun i hi => hp i (by simp [idents, hi])
    obtain ⟨hta, htb, rfl⟩ := typed_or' h
    have iha := cev_defined ops env s a _ hpa hu.1 hta
    have ihb := cev_defined ops env s b _ hpb hu.2.1 htb
    constructor
    · rintro ⟨hd, hd'⟩
      obtain ⟨x, hx⟩ := iha.1 hd
      obtain ⟨y, hy⟩ := ihb.1 hd'
      refine ⟨y, ?_⟩
      simp only [cev, hx, hy]
      rfl
    · rintro ⟨v, hv⟩
      obtain ⟨⟨ta', x⟩, ha, hv'⟩ := bind_some hv
      obtain ⟨⟨tb', y⟩, hb, _⟩ := bind_some hv'
      obtain rfl := some_ne (cev_eval ops env a _ x hpa hu.1 ha).1 hta
      obtain rfl := some_ne (cev_eval ops env b _ y hpb hu.2.1 hb).1 htb
      exact ⟨iha.2 ⟨x, ha⟩, ihb.2 ⟨y, hb⟩⟩
  | .tern c a b, t, hp, hu, h => by
    have hpc : Spec.Constants env c := fun i hi => hp i (by simp [idents, hi])
    have hpa : Spec.Constants env a := fun i hi => hp i (by simp [idents, hi])
    have hpb : Spec.Constants env b := fun i hi => hp i (by simp [idents, hi])
    obtain ⟨tb, htc, hta, htb, hconv⟩ := typed_tern' h
    have ihc := cev_defined ops env s c _ hpc hu.1 htc
    have iha := cev_defined ops env s a _ hpa hu.2.1 hta
    have ihb := cev_defined ops env s b _ hpb hu.2.2 htb
    constructor
    · rintro ⟨hdc, hd, hd', w, v, hw, hv⟩
      obtain ⟨z, hz⟩ := ihc.1 hdc
      obtain ⟨x, hx⟩ := iha.1 hd
      obtain ⟨y, hy⟩ := ihb.1 hd'
      rw [(cev_eval ops env b _ y hpb hu.2.2 hy).2 s] at hw
      injection hw with hw
      subst hw
      rw [tyOf_eq hta, tyOf_eq htb] at hv
      refine ⟨if ops.truth z then x else v, ?_⟩
      simp only [cev, hx, hy, hz]
      show (if Ty.bool = Ty.bool ∧ convertible t tb then
        (convert ops t tb y).toOption.bind fun w' => some (t, if ops.truth z then x else w') else none) = _
      rw [if_pos ⟨rfl, hconv⟩, hv]
      rfl
    · rintro ⟨v, hv⟩
      obtain ⟨⟨tc', z⟩, hc, hv'⟩ := bind_some hv
      obtain ⟨⟨ta', x⟩, ha, hv'⟩ := bind_some hv'
      obtain ⟨⟨tb', y⟩, hb, hv'⟩ := bind_some hv'
      have hey := (cev_eval ops env b _ y hpb hu.2.2 hb).2
      obtain rfl := some_ne (cev_eval ops env c _ z hpc hu.1 hc).1 htc
      obtain rfl := some_ne (cev_eval ops env a _ x hpa hu.2.1 ha).1 hta
      obtain rfl := some_ne (cev_eval ops env b _ y hpb hu.2.2 hb).1 htb
      replace hv' : (if Ty.bool = Ty.bool ∧ convertible ta' tb' then
        (convert ops ta' tb' y).toOption.bind fun w' => some (ta', if ops.truth z then x else w') else none)
          = some (ta', v) := hv'
      rw [if_pos ⟨rfl, hconv⟩] at hv'
      obtain ⟨w, h7, _⟩ := Option.bind_eq_some_iff.1 hv'
      refine ⟨ihc.2 ⟨z, hc⟩, iha.2 ⟨x, ha⟩, ihb.2 ⟨y, hb⟩, y, w, by rw [hey s], ?_⟩
      rw [tyOf_eq hta, tyOf_eq htb]
      exact toOption_some h7

end Umka.Expr
