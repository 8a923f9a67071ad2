import Verif.Expr.Lemmas

/-!
# Expressions: the parser of the model does the work of `ast…` and `gen` at once
-/

namespace Umka.Expr
open Umka.Arith (Kind UnOp BinOp kindSigned)
open Spec (Ty Tok Ops Env Tree typeOf tyOf common Integer unaryFor binaryFor convertible isRel)

variable {E V σ : Type}

/-! ## A tree with a part without a type has none -/

theorem termLoop_none (env : Env E V σ) : ∀ n e ts e' r, astTermLoop n e ts = some (e', r) →
    typeOf env e = none → typeOf env e' = none
  | 0, _, _, _, _, h, _ => by simp [astTermLoop] at h
  | n + 1, e, ts, e', r, h, hn => by
    rw [astTermLoop] at h
    cases ho : termOp ts.head? with
    | none =>
      rw [ho] at h
      injection h with h
      injection h with h1 h2
      rw [← h1]
      exact hn
    | some op =>
      rw [ho] at h
      dsimp only at h
      cases hf : astFactor n ts.tail with
      | none => rw [hf] at h; exact nomatch h
      | some p =>
        rw [hf] at h
        exact termLoop_none env n _ _ _ _ h (by simp [typeOf, hn])

theorem relTermLoop_none (env : Env E V σ) : ∀ n e ts e' r, astRelTermLoop n e ts = some (e', r) →
    typeOf env e = none → typeOf env e' = none
  | 0, _, _, _, _, h, _ => by simp [astRelTermLoop] at h
  | n + 1, e, ts, e', r, h, hn => by
    rw [astRelTermLoop] at h
    cases ho : relTermOp ts.head? with
    | none =>
      rw [ho] at h
      injection h with h
      injection h with h1 h2
      rw [← h1]
      exact hn
    | some op =>
      rw [ho] at h
      dsimp only at h
      cases hf : astTerm n ts.tail with
      | none => rw [hf] at h; exact nomatch h
      | some p =>
        rw [hf] at h
        exact relTermLoop_none env n _ _ _ _ h (by simp [typeOf, hn])

theorem logTermLoop_none (env : Env E V σ) : ∀ n e ts e' r, astLogTermLoop n e ts = some (e', r) →
    typeOf env e = none → typeOf env e' = none
  | 0, _, _, _, _, h, _ => by simp [astLogTermLoop] at h
  | n + 1, e, ts, e', r, h, hn => by
    rw [astLogTermLoop] at h
    by_cases ho : ts.head? = some .andand
    · rw [if_pos ho] at h
      cases hf : astRel n ts.tail with
      | none => rw [hf] at h; exact nomatch h
      | some p =>
        rw [hf] at h
        exact logTermLoop_none env n _ _ _ _ h (by simp [typeOf, hn])
    · rw [if_neg ho] at h
      injection h with h
      injection h with h1 h2
      rw [← h1]
      exact hn

theorem logExprLoop_none (env : Env E V σ) : ∀ n e ts e' r, astLogExprLoop n e ts = some (e', r) →
    typeOf env e = none → typeOf env e' = none
  | 0, _, _, _, _, h, _ => by simp [astLogExprLoop] at h
  | n + 1, e, ts, e', r, h, hn => by
    rw [astLogExprLoop] at h
    by_cases ho : ts.head? = some .oror
    · rw [if_pos ho] at h
      cases hf : astLogTerm n ts.tail with
      | none => rw [hf] at h; exact nomatch h
      | some p =>
        rw [hf] at h
        exact logExprLoop_none env n _ _ _ _ h (by simp [typeOf, hn])
    · rw [if_neg ho] at h
      injection h with h
      injection h with h1 h2
      rw [← h1]
      exact hn

theorem res_none (ops : Ops E V) (env : Env E V σ) (code : List (Instr V)) (stubs : List Nat)
    (o : Option (Tree × List Tok)) (h : ∀ e r, o = some (e, r) → typeOf env e = none) :
    res ops env code stubs o = none := by
  cases o with
  | none => rfl
  | some p =>
    obtain ⟨e, r⟩ := p
    simp [res, h e r rfl]

theorem res_some (ops : Ops E V) (env : Env E V σ) (code : List (Instr V)) (stubs : List Nat) (e : Tree) (r : List Tok)
    (t : Ty) (h : typeOf env e = some t) :
    res ops env code stubs (some (e, r)) = some (⟨t, ops.no⟩, ⟨r, code ++ gen ops env e code.length, stubs⟩) := by
  simp [res, h]

theorem bind_res (ops : Ops E V) (env : Env E V σ) (code : List (Instr V)) (stubs : List Nat)
    (o : Option (Tree × List Tok)) (x : Except (Err E) (Item V × PS V))
    (f : Item V × PS V → Except (Err E) (Item V × PS V)) (hx : x.toOption = res ops env code stubs o)
    (o' : Option (Tree × List Tok)) (code' : List (Instr V)) (stubs' : List Nat)
    (h1 : o = none → o' = none)
    (h2 : ∀ e r, o = some (e, r) → typeOf env e = none → ∀ e' r', o' = some (e', r') → typeOf env e' = none)
    (h3 : ∀ e r t, o = some (e, r) → typeOf env e = some t →
      (f (⟨t, ops.no⟩, ⟨r, code ++ gen ops env e code.length, stubs⟩)).toOption = res ops env code' stubs' o') :
    (x >>= f).toOption = res ops env code' stubs' o' := by
  rw [toOption_bind, hx]
  cases ho : o with
  | none => rw [h1 ho]; rfl
  | some p =>
    obtain ⟨e, r⟩ := p
    cases ht : typeOf env e with
    | none =>
      rw [res_none ops env code stubs _ (fun e' r' h => by injection h with h; injection h with h; rw [← h]; exact ht)]
      rw [res_none ops env code' stubs' o' (fun e' r' h => h2 e r ho ht e' r' h)]
      rfl
    | some t =>
      rw [res_some ops env code stubs e r t ht]
      exact h3 e r t ho ht

/-! ## Simulation -/

/-- The parser with bound `n` does what it should. -/
structure Sim (ops : Ops E V) (env : Env E V σ) (n : Nat) : Prop where
  factor : ∀ st, (parseFactor ops env false n st).toOption = res ops env st.code st.stubs (astFactor n st.toks)
  term : ∀ st, (parseTerm ops env false n st).toOption = res ops env st.code st.stubs (astTerm n st.toks)
  termLoop : ∀ e t code r stubs, typeOf env e = some t →
    (termLoop ops env false n ⟨t, ops.no⟩ ⟨r, code ++ gen ops env e code.length, stubs⟩).toOption =
      res ops env code stubs (astTermLoop n e r)
  relTerm : ∀ st, (parseRelTerm ops env false n st).toOption = res ops env st.code st.stubs (astRelTerm n st.toks)
  relTermLoop : ∀ e t code r stubs, typeOf env e = some t →
    (relTermLoop ops env false n ⟨t, ops.no⟩ ⟨r, code ++ gen ops env e code.length, stubs⟩).toOption =
      res ops env code stubs (astRelTermLoop n e r)
  rel : ∀ st, (parseRel ops env false n st).toOption = res ops env st.code st.stubs (astRel n st.toks)
  logTerm : ∀ st, (parseLogTerm ops env false n st).toOption = res ops env st.code st.stubs (astLogTerm n st.toks)
  logTermLoop : ∀ e t code r stubs, typeOf env e = some t →
    (logTermLoop ops env false n ⟨t, ops.no⟩ ⟨r, code ++ gen ops env e code.length, stubs⟩).toOption =
      res ops env code stubs (astLogTermLoop n e r)
  logExpr : ∀ st, (parseLogExpr ops env false n st).toOption = res ops env st.code st.stubs (astLogExpr n st.toks)
  logExprLoop : ∀ e t code r stubs, typeOf env e = some t →
    (logExprLoop ops env false n ⟨t, ops.no⟩ ⟨r, code ++ gen ops env e code.length, stubs⟩).toOption =
      res ops env code stubs (astLogExprLoop n e r)
  expr : ∀ st, (parseExpr ops env false n st).toOption = res ops env st.code st.stubs (astExpr n st.toks)

theorem sim_zero (ops : Ops E V) (env : Env E V σ) : Sim ops env 0 := by
  constructor <;> intros <;> rfl

theorem termOp_rel {t : Option Tok} {op : BinOp} (h : termOp t = some op) : isRel op = false := by
  unfold termOp at h; split at h <;> first | (injection h with h; subst h; rfl) | exact nomatch h

theorem relTermOp_rel {t : Option Tok} {op : BinOp} (h : relTermOp t = some op) : isRel op = false := by
  unfold relTermOp at h; split at h <;> first | (injection h with h; subst h; rfl) | exact nomatch h

theorem relOp_rel {t : Option Tok} {op : BinOp} (h : relOp t = some op) : isRel op = true := by
  unfold relOp at h; split at h <;> first | (injection h with h; subst h; rfl) | exact nomatch h

theorem some_ne {α : Type} {a b : α} {x : Option α} (h : x = some a) (h' : x = some b) : a = b := by
  rw [h] at h'; injection h'

/-- The typing of a binary operator whose operands have types. -/
theorem typeOf_bin (env : Env E V σ) (op : BinOp) (a b : Tree) (ta tb : Ty) (ha : typeOf env a = some ta)
    (hb : typeOf env b = some tb) :
    typeOf env (.bin op a b) = (common ta tb).bind fun t =>
      if binaryFor op t then some (if isRel op then .bool else t) else none := by
  simp only [typeOf, ha, hb]
  rfl

theorem tyOf_eq {env : Env E V σ} {a : Tree} {t : Ty} (h : typeOf env a = some t) : tyOf env a = t := by
  simp [tyOf, h]

/-- After the operands of a binary operator. -/
theorem apply_sim (ops : Ops E V) (env : Env E V σ) (op : BinOp) (a b : Tree) (ta tb : Ty)
    (ha : typeOf env a = some ta) (hb : typeOf env b = some tb) (code : List (Instr V)) (r : List Tok) (stubs : List Nat)
    (f : Item V × PS V → Except (Err E) (Item V × PS V)) (o' : Option (Tree × List Tok))
    (code' : List (Instr V)) (stubs' : List Nat)
    (h2 : typeOf env (.bin op a b) = none → ∀ e' r', o' = some (e', r') → typeOf env e' = none)
    (h3 : ∀ t, typeOf env (.bin op a b) = some (if isRel op then .bool else t) →
      (f (⟨t, ops.no⟩, ⟨r, code ++ gen ops env (.bin op a b) code.length, stubs⟩)).toOption = res ops env code' stubs' o') :
    (applyOperator ops false op ⟨ta, ops.no⟩ ⟨tb, ops.no⟩
      ⟨r, code ++ gen ops env a code.length ++ gen ops env b (code ++ gen ops env a code.length).length, stubs⟩
        >>= f).toOption = res ops env code' stubs' o' := by
  rw [toOption_bind, applyOperator_run]
  have ht := typeOf_bin env op a b ta tb ha hb
  cases hc : common ta tb with
  | none =>
    rw [hc] at ht
    rw [res_none ops env code' stubs' o' (h2 ht)]
    rfl
  | some t =>
    rw [hc] at ht
    by_cases hbf : binaryFor op t
    · have ht' : typeOf env (.bin op a b) = some (if isRel op then .bool else t) := by
        rw [ht]; exact if_pos hbf
      refine Eq.trans ?_ (h3 t ht')
      simp only [Option.bind_some, if_pos hbf]
      show (f _).toOption = _
      simp only [gen, tyOf_eq ha, tyOf_eq hb, hc, Option.getD_some, List.length_append, List.append_assoc]
    · have ht' : typeOf env (.bin op a b) = none := by
        rw [ht]; exact if_neg hbf
      rw [res_none ops env code' stubs' o' (h2 ht')]
      simp only [Option.bind_some, if_neg hbf]
      rfl

theorem sim_termLoop {ops : Ops E V} {env : Env E V σ} {n : Nat} (ih : Sim ops env n) (e : Tree) (t : Ty)
    (code : List (Instr V)) (r : List Tok) (stubs : List Nat) (ht : typeOf env e = some t) :
    (termLoop ops env false (n + 1) ⟨t, ops.no⟩ ⟨r, code ++ gen ops env e code.length, stubs⟩).toOption =
      res ops env code stubs (astTermLoop (n + 1) e r) := by
  rw [termLoop, astTermLoop]
  dsimp only
  cases ho : termOp r.head? with
  | none =>
    rw [res_some ops env code stubs e r t ht]
    rfl
  | some op =>
    dsimp only
    refine bind_res ops env _ stubs (astFactor n r.tail) _ _ (ih.factor ⟨r.tail, code ++ gen ops env e code.length, stubs⟩) _ _ _ ?_ ?_ ?_
    · intro h; rw [h]; rfl
    · intro b r' h hb e' r'' h'
      rw [h] at h'
      exact termLoop_none env n _ _ _ _ h' (by simp only [typeOf, ht, hb]; rfl)
    · intro b r' tb h hb
      rw [h]
      refine apply_sim ops env op e b t tb ht hb code r' stubs _ _ _ _ ?_ ?_
      · intro hn e' r'' h'
        exact termLoop_none env n _ _ _ _ h' hn
      · intro t' ht'
        rw [termOp_rel ho] at ht'
        exact ih.termLoop _ _ _ _ _ ht'

theorem sim_relTermLoop {ops : Ops E V} {env : Env E V σ} {n : Nat} (ih : Sim ops env n) (e : Tree) (t : Ty)
    (code : List (Instr V)) (r : List Tok) (stubs : List Nat) (ht : typeOf env e = some t) :
    (relTermLoop ops env false (n + 1) ⟨t, ops.no⟩ ⟨r, code ++ gen ops env e code.length, stubs⟩).toOption =
      res ops env code stubs (astRelTermLoop (n + 1) e r) := by
  rw [relTermLoop, astRelTermLoop]
  dsimp only
  cases ho : relTermOp r.head? with
  | none =>
    rw [res_some ops env code stubs e r t ht]
    rfl
  | some op =>
    dsimp only
    refine bind_res ops env _ stubs (astTerm n r.tail) _ _ (ih.term ⟨r.tail, code ++ gen ops env e code.length, stubs⟩) _ _ _ ?_ ?_ ?_
    · intro h; rw [h]; rfl
    · intro b r' h hb e' r'' h'
      rw [h] at h'
      exact relTermLoop_none env n _ _ _ _ h' (by simp only [typeOf, ht, hb]; rfl)
    · intro b r' tb h hb
      rw [h]
      refine apply_sim ops env op e b t tb ht hb code r' stubs _ _ _ _ ?_ ?_
      · intro hn e' r'' h'
        exact relTermLoop_none env n _ _ _ _ h' hn
      · intro t' ht'
        rw [relTermOp_rel ho] at ht'
        exact ih.relTermLoop _ _ _ _ _ ht'

theorem sim_rel {ops : Ops E V} {env : Env E V σ} {n : Nat} (ih : Sim ops env n) (st : PS V) :
    (parseRel ops env false (n + 1) st).toOption = res ops env st.code st.stubs (astRel (n + 1) st.toks) := by
  rw [parseRel, astRel]
  dsimp only
  refine bind_res ops env _ _ (astRelTerm n st.toks) _ _ (ih.relTerm st) _ _ _ ?_ ?_ ?_
  · intro h; rw [h]; rfl
  · intro a r h ha e' r' h'
    rw [h] at h'
    dsimp only [bind, Option.bind] at h'
    cases ho : relOp r.head? with
    | none =>
      rw [ho] at h'
      injection h' with h'
      injection h' with h1 h2
      rw [← h1]; exact ha
    | some op =>
      rw [ho] at h'
      dsimp only at h'
      cases hb : astRelTerm n r.tail with
      | none => rw [hb] at h'; exact nomatch h'
      | some p =>
        rw [hb] at h'
        injection h' with h'
        injection h' with h1 h2
        rw [← h1]
        simp only [typeOf, ha]
        rfl
  · intro a r t h ha
    rw [h]
    dsimp only [bind, Option.bind]
    cases ho : relOp r.head? with
    | none =>
      dsimp only
      rw [res_some ops env _ _ a r t ha]
      rfl
    | some op =>
      dsimp only
      refine bind_res ops env _ _ (astRelTerm n r.tail) _ _ (ih.relTerm ⟨r.tail, _, _⟩) _ _ _ ?_ ?_ ?_
      · intro h; rw [h]
      · intro b r' h hb e' r'' h'
        rw [h] at h'
        injection h' with h'
        injection h' with h1 h2
        rw [← h1]
        simp only [typeOf, ha, hb]
        rfl
      · intro b r' tb h hb
        rw [h]
        refine apply_sim ops env op a b t tb ha hb _ r' _ _ _ _ _ ?_ ?_
        · intro hn e' r'' h'
          injection h' with h'
          injection h' with h1 h2
          rw [← h1]; exact hn
        · intro t' ht'
          rw [relOp_rel ho] at ht'
          rw [res_some ops env _ _ _ r' .bool ht']
          rfl

theorem gen_and (ops : Ops E V) (env : Env E V σ) (a b : Tree) (code : List (Instr V)) (r : List Tok) (stubs : List Nat) :
    (⟨r, ((code ++ gen ops env a code.length ++ [Instr.dup]) ++ [Instr.nop] ++ [Instr.pop]) ++
        gen ops env b ((code ++ gen ops env a code.length ++ [Instr.dup]) ++ [Instr.nop] ++ [Instr.pop] : List (Instr V)).length,
        (code ++ gen ops env a code.length ++ [Instr.dup] : List (Instr V)).length :: stubs⟩ : PS V).fixup
      (.gotoIfNot (((code ++ gen ops env a code.length ++ [Instr.dup]) ++ [Instr.nop] ++ [Instr.pop]) ++
        gen ops env b ((code ++ gen ops env a code.length ++ [Instr.dup]) ++ [Instr.nop] ++ [Instr.pop] : List (Instr V)).length).length) =
      ⟨r, code ++ gen ops env (.and a b) code.length, stubs⟩ := by
  simp only [PS.fixup, List.headD_cons, List.tail_cons, gen]
  have h : ∀ (x y z : List (Instr V)) (i j : Instr V), (x ++ [i] ++ y ++ z).set x.length j = x ++ [j] ++ y ++ z := by
    intro x y z i j
    simp [List.append_assoc]
  rw [h]
  simp [Nat.add_assoc, Nat.add_comm, Nat.add_left_comm]
  omega

theorem gen_or (ops : Ops E V) (env : Env E V σ) (a b : Tree) (code : List (Instr V)) (r : List Tok) (stubs : List Nat) :
    (⟨r, ((code ++ gen ops env a code.length ++ [Instr.dup]) ++ [Instr.nop] ++ [Instr.pop]) ++
        gen ops env b ((code ++ gen ops env a code.length ++ [Instr.dup]) ++ [Instr.nop] ++ [Instr.pop] : List (Instr V)).length,
        (code ++ gen ops env a code.length ++ [Instr.dup] : List (Instr V)).length :: stubs⟩ : PS V).fixup
      (.gotoIf (((code ++ gen ops env a code.length ++ [Instr.dup]) ++ [Instr.nop] ++ [Instr.pop]) ++
        gen ops env b ((code ++ gen ops env a code.length ++ [Instr.dup]) ++ [Instr.nop] ++ [Instr.pop] : List (Instr V)).length).length) =
      ⟨r, code ++ gen ops env (.or a b) code.length, stubs⟩ := by
  simp only [PS.fixup, List.headD_cons, List.tail_cons, gen]
  have h : ∀ (x y z : List (Instr V)) (i j : Instr V), (x ++ [i] ++ y ++ z).set x.length j = x ++ [j] ++ y ++ z := by
    intro x y z i j
    simp [List.append_assoc]
  rw [h]
  simp [Nat.add_assoc, Nat.add_comm, Nat.add_left_comm]
  omega

theorem sim_logTermLoop {ops : Ops E V} {env : Env E V σ} {n : Nat} (ih : Sim ops env n) (e : Tree) (t : Ty)
    (code : List (Instr V)) (r : List Tok) (stubs : List Nat) (ht : typeOf env e = some t) :
    (logTermLoop ops env false (n + 1) ⟨t, ops.no⟩ ⟨r, code ++ gen ops env e code.length, stubs⟩).toOption =
      res ops env code stubs (astLogTermLoop (n + 1) e r) := by
  rw [logTermLoop, astLogTermLoop]
  dsimp only
  by_cases ho : r.head? = some .andand
  · rw [if_pos ho, if_pos ho]
    dsimp only [PS.skip, PS.emit, PS.stub]
    refine bind_res ops env _ _ (astRel n r.tail) _ _ (ih.rel ⟨r.tail, _, _⟩) _ _ _ ?_ ?_ ?_
    · intro h; rw [h]; rfl
    · intro b r' h hb e' r'' h'
      rw [h] at h'
      exact logTermLoop_none env n _ _ _ _ h' (by simp only [typeOf, ht, hb]; rfl)
    · intro b r' tb h hb
      rw [h]
      dsimp only
      rw [toOption_bind, checkLogical_run]
      have hty : typeOf env (.and e b) = if t = .bool ∧ tb = .bool then some .bool else none := by
        simp only [typeOf, ht, hb]; rfl
      by_cases hbool : t = .bool ∧ tb = .bool
      · rw [if_pos hbool] at hty ⊢
        obtain ⟨h1, h2⟩ := hbool
        subst h1
        refine Eq.trans ?_ (ih.logTermLoop _ _ code r' stubs hty)
        rw [← gen_and]
        rfl
      · rw [if_neg hbool] at hty ⊢
        exact (res_none ops env code stubs _ (fun e' r' h' => logTermLoop_none env n _ _ _ _ h' hty)).symm
  · rw [if_neg ho, if_neg ho, res_some ops env code stubs e r t ht]
    rfl

theorem sim_logExprLoop {ops : Ops E V} {env : Env E V σ} {n : Nat} (ih : Sim ops env n) (e : Tree) (t : Ty)
    (code : List (Instr V)) (r : List Tok) (stubs : List Nat) (ht : typeOf env e = some t) :
    (logExprLoop ops env false (n + 1) ⟨t, ops.no⟩ ⟨r, code ++ gen ops env e code.length, stubs⟩).toOption =
      res ops env code stubs (astLogExprLoop (n + 1) e r) := by
  rw [logExprLoop, astLogExprLoop]
  dsimp only
  by_cases ho : r.head? = some .oror
  · rw [if_pos ho, if_pos ho]
    dsimp only [PS.skip, PS.emit, PS.stub]
    refine bind_res ops env _ _ (astLogTerm n r.tail) _ _ (ih.logTerm ⟨r.tail, _, _⟩) _ _ _ ?_ ?_ ?_
    · intro h; rw [h]; rfl
    · intro b r' h hb e' r'' h'
      rw [h] at h'
      exact logExprLoop_none env n _ _ _ _ h' (by simp only [typeOf, ht, hb]; rfl)
    · intro b r' tb h hb
      rw [h]
      dsimp only
      rw [toOption_bind, checkLogical_run]
      have hty : typeOf env (.or e b) = if t = .bool ∧ tb = .bool then some .bool else none := by
        simp only [typeOf, ht, hb]; rfl
      by_cases hbool : t = .bool ∧ tb = .bool
      · rw [if_pos hbool] at hty ⊢
        obtain ⟨h1, h2⟩ := hbool
        subst h1
        refine Eq.trans ?_ (ih.logExprLoop _ _ code r' stubs hty)
        rw [← gen_or]
        rfl
      · rw [if_neg hbool] at hty ⊢
        exact (res_none ops env code stubs _ (fun e' r' h' => logExprLoop_none env n _ _ _ _ h' hty)).symm
  · rw [if_neg ho, if_neg ho, res_some ops env code stubs e r t ht]
    rfl

theorem gen_tern (ops : Ops E V) (env : Env E V σ) (c a b : Tree) (ta tb : Ty) (ha : tyOf env a = ta)
    (hb : tyOf env b = tb) (code : List (Instr V)) (r : List Tok)
    (stubs : List Nat) (cc ca cb : List (Instr V)) (hcc : cc = code ++ gen ops env c code.length)
    (hca : ca = cc ++ [Instr.nop] ++ gen ops env a (cc ++ [Instr.nop]).length)
    (hcb : cb = (ca.set cc.length (.gotoIfNot (ca.length + 1))) ++ [Instr.nop]) :
    (⟨r, cb ++ gen ops env b cb.length ++ convElse ta tb, (ca.set cc.length (.gotoIfNot (ca.length + 1))).length :: stubs⟩
      : PS V).fixup
        (.goto (cb ++ gen ops env b cb.length ++ (convElse ta tb : List (Instr V))).length) =
      ⟨r, code ++ gen ops env (.tern c a b) code.length, stubs⟩ := by
  subst hcc hca hcb ha hb
  have h : ∀ (x y : List (Instr V)) (i j : Instr V), (x ++ [i] ++ y).set x.length j = x ++ [j] ++ y := by
    intro x y i j
    simp [List.append_assoc]
  have h' : ∀ (x y z : List (Instr V)) (i j : Instr V), (x ++ [i] ++ y ++ z).set x.length j = x ++ [j] ++ y ++ z := by
    intro x y z i j
    simp [List.append_assoc]
  simp only [PS.fixup, List.headD_cons, List.tail_cons, gen, h]
  rw [h']
  simp [Nat.add_assoc, Nat.add_comm, Nat.add_left_comm]
  simp only [show ∀ x, 1 + (1 + x) = 2 + x from fun x => by omega]
  exact ⟨trivial, trivial, trivial⟩

theorem sim_expr {ops : Ops E V} {env : Env E V σ} {n : Nat} (ih : Sim ops env n) (st : PS V) :
    (parseExpr ops env false (n + 1) st).toOption = res ops env st.code st.stubs (astExpr (n + 1) st.toks) := by
  rw [parseExpr, astExpr]
  dsimp only
  refine bind_res ops env _ _ (astLogExpr n st.toks) _ _ (ih.logExpr st) _ _ _ ?_ ?_ ?_
  · intro h; rw [h]; rfl
  · intro c r h hc e' r' h'
    rw [h] at h'
    dsimp only [bind, Option.bind] at h'
    by_cases ho : r.head? = some .question
    · rw [if_pos ho] at h'
      cases ha : astExpr n r.tail with
      | none => rw [ha] at h'; exact nomatch h'
      | some p =>
        rw [ha] at h'
        dsimp only at h'
        by_cases hcol : p.2.head? = some .colon
        · rw [if_pos hcol] at h'
          cases hb : astExpr n p.2.tail with
          | none => rw [hb] at h'; exact nomatch h'
          | some q =>
            rw [hb] at h'
            injection h' with h'
            injection h' with h1 h2
            rw [← h1]
            simp only [typeOf, hc]
            rfl
        · rw [if_neg hcol] at h'
          exact nomatch h'
    · rw [if_neg ho] at h'
      injection h' with h'
      injection h' with h1 h2
      rw [← h1]; exact hc
  · intro c r tc h hc
    rw [h]
    dsimp only [Bind.bind, Option.bind]
    by_cases ho : r.head? = some .question
    · rw [if_pos ho, if_pos ho]
      by_cases hcb : typeCompatible .bool tc = true
      · rw [if_neg (by rw [hcb]; exact Bool.noConfusion)]
        have htc : tc = .bool := by
          cases tc with
          | real => exact absurd hcb (by decide)
          | ord k => cases k <;> first | rfl | exact absurd hcb (by decide)
        dsimp only [PS.skip, PS.stub]
        refine bind_res ops env _ _ (astExpr n r.tail) _ _ (ih.expr ⟨r.tail, _, _⟩) _ _ _ ?_ ?_ ?_
        · intro h; rw [h]
        · intro a r' h ha e' r'' h'
          rw [h] at h'
          dsimp only at h'
          by_cases hcol : r'.head? = some .colon
          · rw [if_pos hcol] at h'
            cases hb : astExpr n r'.tail with
            | none => rw [hb] at h'; exact nomatch h'
            | some q =>
              rw [hb] at h'
              injection h' with h'
              injection h' with h1 h2
              rw [← h1]
              simp only [typeOf, hc, ha]
              rfl
          · rw [if_neg hcol] at h'
            exact nomatch h'
        · intro a r' ta h ha
          rw [h]
          dsimp only [PS.eat]
          by_cases hcol : r'.head? = some .colon
          · rw [if_pos hcol, if_pos hcol]
            dsimp only [PS.skip, PS.fixup, Except.bind, List.headD_cons, List.tail_cons]
            refine bind_res ops env _ _ (astExpr n r'.tail) _ _ (ih.expr ⟨r'.tail, _, _⟩) _ _ _ ?_ ?_ ?_
            · intro h; rw [h]
            · intro b r'' h hb e' r'' h'
              rw [h] at h'
              injection h' with h'
              injection h' with h1 h2
              rw [← h1]
              simp only [typeOf, hc, ha, hb]
              rfl
            · intro b r'' tb h hb
              rw [h]
              refine (convElse_run ops ta tb ops.no _).trans ?_
              have hty : typeOf env (.tern c a b) = if tc = .bool ∧ convertible ta tb then some ta else none := by
                simp only [typeOf, hc, ha, hb]; rfl
              by_cases hconv : convertible ta tb
              · rw [if_pos (⟨htc, hconv⟩ : tc = .bool ∧ convertible ta tb)] at hty
                rw [if_pos hconv, res_some ops env _ _ _ _ ta hty]
                congr 2
                exact gen_tern ops env c a b ta tb (tyOf_eq ha) (tyOf_eq hb) st.code r'' st.stubs _ _ _ rfl rfl rfl
              · rw [if_neg (fun h : tc = .bool ∧ convertible ta tb => hconv h.2)] at hty
                rw [if_neg hconv]
                refine (res_none ops env _ _ _ ?_).symm
                intro e' r' h'
                injection h' with h'
                injection h' with h1 h2
                rw [← h1]; exact hty
          · rw [if_neg hcol, if_neg hcol]
            rfl
      · rw [if_pos (by simpa using hcb)]
        refine Eq.trans (b := none) rfl (res_none ops env _ _ _ ?_).symm
        have htc : tc ≠ .bool := by
          intro h; subst h; exact hcb (by decide)
        intro e' r' h'
        cases ha : astExpr n r.tail with
        | none => rw [ha] at h'; exact nomatch h'
        | some p =>
          rw [ha] at h'
          dsimp only at h'
          by_cases hcol : p.2.head? = some .colon
          · rw [if_pos hcol] at h'
            cases hb : astExpr n p.2.tail with
            | none => rw [hb] at h'; exact nomatch h'
            | some q =>
              rw [hb] at h'
              injection h' with h'
              injection h' with h1 h2
              rw [← h1]
              simp [typeOf, hc, htc]
          · rw [if_neg hcol] at h'
            exact nomatch h'
    · rw [if_neg ho, if_neg ho, res_some ops env _ _ c r tc hc]
      rfl

theorem sim_factor {ops : Ops E V} {env : Env E V σ} {n : Nat} (ih : Sim ops env n) (st : PS V) :
    (parseFactor ops env false (n + 1) st).toOption = res ops env st.code st.stubs (astFactor (n + 1) st.toks) := by
  rw [parseFactor, astFactor]
  cases ho : prefixOp st.toks.head? with
  | some op =>
    dsimp only
    refine bind_res ops env _ _ (astFactor n st.toks.tail) _ _ (ih.factor st.skip) _ _ _ ?_ ?_ ?_
    · intro h; rw [h]; rfl
    · intro a r h ha e' r' h'
      rw [h] at h'
      injection h' with h'
      injection h' with h1 h2
      rw [← h1]
      simp only [typeOf, ha]
      rfl
    · intro a r t h ha
      rw [h]
      have hty : typeOf env (.un op a) = if unaryFor op t then some t else none := by
        simp only [typeOf, ha]; rfl
      have hv := validUnary_iff t op
      by_cases hu : unaryFor op t
      · rw [if_pos hu] at hty
        refine Eq.trans ?_ (res_some ops env _ _ (.un op a) r t hty).symm
        simp only [hv.2 hu, Bool.true_eq_false, if_false, unary, PS.emit, gen, tyOf_eq ha, PS.skip, List.append_assoc]
        rfl
      · rw [if_neg hu] at hty
        refine Eq.trans ?_ (res_none ops env _ _ _ ?_).symm
        · have hf : validUnary t op = false := by
            cases h : validUnary t op with
            | false => rfl
            | true => exact absurd (hv.1 h) hu
          simp only [hf, if_true]
          rfl
        · intro e' r' h'
          injection h' with h'
          injection h' with h1 h2
          rw [← h1]; exact hty
  | none =>
    dsimp only
    cases hh : st.toks.head? with
    | none => rfl
    | some t =>
      cases t with
      | lpar =>
        dsimp only
        refine bind_res ops env _ _ (astExpr n st.toks.tail) _ _ (ih.expr st.skip) _ _ _ ?_ ?_ ?_
        · intro h; rw [h]; rfl
        · intro a r h ha e' r' h'
          rw [h] at h'
          dsimp only [Bind.bind, Option.bind] at h'
          by_cases hp : r.head? = some .rpar
          · rw [if_pos hp] at h'
            injection h' with h'
            injection h' with h1 h2
            rw [← h1]; exact ha
          · rw [if_neg hp] at h'; exact nomatch h'
        · intro a r t h ha
          rw [h]
          dsimp only [Bind.bind, Option.bind, PS.eat]
          by_cases hp : r.head? = some .rpar
          · rw [if_pos hp, if_pos hp, res_some ops env _ _ a _ t ha]
            rfl
          · rw [if_neg hp, if_neg hp]
            rfl
      | intNumber k =>
        dsimp only
        by_cases hk : k > 2 ^ 63 - 1
        · rw [if_pos hk, res_some ops env _ _ (.int k) _ (.ord .uint) (by rw [typeOf, if_neg (by omega)])]
          rfl
        · rw [if_neg hk, res_some ops env _ _ (.int k) _ (.ord .int) (by rw [typeOf, if_pos (by omega)])]
          rfl
      | _ => rfl

theorem sim (ops : Ops E V) (env : Env E V σ) : ∀ n, Sim ops env n
  | 0 => sim_zero ops env
  | n + 1 => by
    have ih := sim ops env n
    refine ⟨sim_factor ih, ?_, sim_termLoop ih, ?_, sim_relTermLoop ih, sim_rel ih, ?_, sim_logTermLoop ih, ?_,
      sim_logExprLoop ih, sim_expr ih⟩
    · intro st
      rw [parseTerm, astTerm]
      refine bind_res ops env _ _ (astFactor n st.toks) _ _ (ih.factor st) _ _ _ ?_ ?_ ?_
      · intro h; rw [h]; rfl
      · intro a r h ha e' r' h'
        rw [h] at h'
        exact termLoop_none env n _ _ _ _ h' ha
      · intro a r t h ha
        rw [h]
        exact ih.termLoop _ _ _ _ _ ha
    · intro st
      rw [parseRelTerm, astRelTerm]
      refine bind_res ops env _ _ (astTerm n st.toks) _ _ (ih.term st) _ _ _ ?_ ?_ ?_
      · intro h; rw [h]; rfl
      · intro a r h ha e' r' h'
        rw [h] at h'
        exact relTermLoop_none env n _ _ _ _ h' ha
      · intro a r t h ha
        rw [h]
        exact ih.relTermLoop _ _ _ _ _ ha
    · intro st
      rw [parseLogTerm, astLogTerm]
      refine bind_res ops env _ _ (astRel n st.toks) _ _ (ih.rel st) _ _ _ ?_ ?_ ?_
      · intro h; rw [h]; rfl
      · intro a r h ha e' r' h'
        rw [h] at h'
        exact logTermLoop_none env n _ _ _ _ h' ha
      · intro a r t h ha
        rw [h]
        exact ih.logTermLoop _ _ _ _ _ ha
    · intro st
      rw [parseLogExpr, astLogExpr]
      refine bind_res ops env _ _ (astLogTerm n st.toks) _ _ (ih.logTerm st) _ _ _ ?_ ?_ ?_
      · intro h; rw [h]; rfl
      · intro a r h ha e' r' h'
        rw [h] at h'
        exact logExprLoop_none env n _ _ _ _ h' ha
      · intro a r t h ha
        rw [h]
        exact ih.logExprLoop _ _ _ _ _ ha

end Umka.Expr
