import Verif.Expr.Const

/-!
# Expressions: the properties
-/

namespace Umka.Expr.Props
open Umka.Arith (Kind UnOp BinOp Slot)
open Umka.Expr Umka.Expr.Spec

variable {E V σ : Type}

/-! ## Lemmas -/

theorem ast_of_grammar {ts : List Tok} {e : Tree} (h : Grammar .expr ts e) {rest : List Tok} (hr : Stops rest) :
    astExpr (10 * (ts ++ rest).length + 10) (ts ++ rest) = some (e, rest) :=
  cpl h _ rest (by rw [List.length_append]; omega) hr

theorem compile_eq (ops : Ops E V) (env : Env E V σ) (code : List (Instr V)) (toks : List Tok) :
    (compile ops env code toks).toOption = (res ops env code [] (astExpr (10 * toks.length + 10) toks)).bind
      fun p => some (p.1.ty, p.2.toks, p.2.code) := by
  have h := (sim ops env (10 * toks.length + 10)).expr ⟨toks, code, []⟩
  rw [compile, toOption_bind, h]
  rfl

theorem compile_ok {ops : Ops E V} {env : Env E V σ} {code code' : List (Instr V)} {toks rest : List Tok} {t : Ty}
    (h : compile ops env code toks = .ok (t, rest, code')) :
    ∃ e, astExpr (10 * toks.length + 10) toks = some (e, rest) ∧ typeOf env e = some t ∧
      code' = code ++ gen ops env e code.length := by
  have h1 := compile_eq ops env code toks
  rw [h] at h1
  cases ha : astExpr (10 * toks.length + 10) toks with
  | none => rw [ha] at h1; exact nomatch h1
  | some p =>
    obtain ⟨e, r⟩ := p
    rw [ha] at h1
    cases ht : typeOf env e with
    | none =>
      rw [res_none ops env code [] _ (fun e2 r2 h2 => by injection h2 with h2; injection h2 with h2 _; rw [← h2]; exact ht)] at h1
      exact nomatch h1
    | some t' =>
      rw [res_some ops env code [] e r t' ht] at h1
      injection h1 with h1
      injection h1 with h1 h2
      injection h2 with h2 h3
      subst h1 h2 h3
      exact ⟨e, rfl, ht, rfl⟩

theorem toOption_ok {α β : Type} {x : Except α β} {v : β} (h : x.toOption = some v) : x = .ok v := by
  cases x with
  | error e => exact nomatch h
  | ok w => injection h with h; rw [h]

theorem compile_of {ops : Ops E V} {env : Env E V σ} (code : List (Instr V)) {ts rest : List Tok} {e : Tree} {t : Ty}
    (hg : Grammar .expr ts e) (ht : typeOf env e = some t) (hr : Stops rest) :
    compile ops env code (ts ++ rest) = .ok (t, rest, code ++ gen ops env e code.length) := by
  apply toOption_ok
  rw [compile_eq, ast_of_grammar hg hr, res_some ops env code [] e rest t ht]
  rfl

theorem typeOf_congr {env env' : Env E V σ} (h : env'.ty = env.ty) : ∀ e, typeOf env' e = typeOf env e
  | .ident i => by simp only [typeOf, h]
  | .int _ => rfl
  | .realNum _ => rfl
  | .char _ => rfl
  | .un op a => by simp only [typeOf, typeOf_congr h a]
  | .bin op a b => by simp only [typeOf, typeOf_congr h a, typeOf_congr h b]
  | .and a b => by simp only [typeOf, typeOf_congr h a, typeOf_congr h b]
  | .or a b => by simp only [typeOf, typeOf_congr h a, typeOf_congr h b]
  | .tern c a b => by simp only [typeOf, typeOf_congr h a, typeOf_congr h b, typeOf_congr h c]

theorem tyOf_congr {env env' : Env E V σ} (h : env'.ty = env.ty) (e) : tyOf env' e = tyOf env e := by
  simp only [tyOf, typeOf_congr h]

theorem gen_congr {ops : Ops E V} {env env' : Env E V σ} (h : env'.ty = env.ty) : ∀ e p,
    gen ops env' e p = gen ops env e p
  | .ident i, _ => rfl
  | .int _, _ => rfl
  | .realNum _, _ => rfl
  | .char _, _ => rfl
  | .un op a, p => by simp only [gen, gen_congr h a, tyOf_congr h]
  | .bin op a b, p => by simp only [gen, gen_congr h a, gen_congr h b, tyOf_congr h]
  | .and a b, p => by simp only [gen, gen_congr h a, gen_congr h b]
  | .or a b, p => by simp only [gen, gen_congr h a, gen_congr h b]
  | .tern c a b, p => by simp only [gen, gen_congr h a, gen_congr h b, gen_congr h c, tyOf_congr h]

theorem andThen_congr {α β : Type} {x : σ × Except E α} {f g : σ → α → σ × Except E β} (h : ∀ s a, f s a = g s a) :
    andThen x f = andThen x g := by
  have : f = g := funext fun s => funext fun a => h s a
  rw [this]

theorem eval_congr {ops : Ops E V} {env env' : Env E V σ} (h : env'.ty = env.ty) : ∀ (e : Tree),
    (∀ i ∈ idents e, env'.read i = env.read i) → ∀ s, eval ops env' e s = eval ops env e s
  | .ident i, hi, s => by
    show env'.read i s = env.read i s
    rw [hi i (by simp [idents])]
  | .int _, _, _ => rfl
  | .realNum _, _, _ => rfl
  | .char _, _, _ => rfl
  | .un op a, hi, s => by
    simp only [eval, tyOf_congr h, eval_congr h a (fun i hh => hi i (by simp [idents, hh]))]
  | .bin op a b, hi, s => by
    simp only [eval, tyOf_congr h, eval_congr h a (fun i hh => hi i (by simp [idents, hh])),
      eval_congr h b (fun i hh => hi i (by simp [idents, hh]))]
  | .and a b, hi, s => by
    simp only [eval, eval_congr h a (fun i hh => hi i (by simp [idents, hh])),
      eval_congr h b (fun i hh => hi i (by simp [idents, hh]))]
  | .or a b, hi, s => by
    simp only [eval, eval_congr h a (fun i hh => hi i (by simp [idents, hh])),
      eval_congr h b (fun i hh => hi i (by simp [idents, hh]))]
  | .tern c a b, hi, s => by
    simp only [eval, tyOf_congr h, eval_congr h c (fun i hh => hi i (by simp [idents, hh])),
      eval_congr h a (fun i hh => hi i (by simp [idents, hh])),
      eval_congr h b (fun i hh => hi i (by simp [idents, hh]))]

theorem gen_runs (ops : Ops E V) (env : Env E V σ) (code after : List (Instr V)) {e : Tree} {t : Ty}
    (ht : typeOf env e = some t) (stk : List V) (s : σ) :
    (∀ s' v, eval ops env e s = (s', .ok v) →
      ∃ n, run ops env (code ++ gen ops env e code.length ++ after) n ⟨code.length, stk, s⟩ =
        .next ⟨(code ++ gen ops env e code.length).length, v :: stk, s'⟩) ∧
    (∀ s' x, eval ops env e s = (s', .error x) →
      ∃ n, run ops env (code ++ gen ops env e code.length ++ after) n ⟨code.length, stk, s⟩ = .error s' x) := by
  have h := gen_does (ops := ops) (env := env) (code := code ++ gen ops env e code.length ++ after) e t code.length stk s ht
    (at_append _ _ _)
  constructor
  · intro s' v hv
    rw [hv] at h
    rw [List.length_append]
    exact h
  · intro s' x hx
    rw [hx] at h
    exact h

/-! ## C64: grouping, types and values -/

/-- A text is an expression in at most one way: precedence and associativity leave no choice. -/
theorem C64_unambiguous {ts : List Tok} {e e' : Tree} (h : Grammar .expr ts e) (h' : Grammar .expr ts e') : e = e' := by
  have h1 := ast_of_grammar h (rest := []) nofun
  rw [ast_of_grammar h' (rest := []) nofun] at h1
  injection h1 with h1
  injection h1 with h1
  exact h1.symm

/-- Every text that is an expression by the documented grammar, followed by something that does not continue
it, is accepted up to its end if it has a type; otherwise it is refused. -/
theorem C64_accepted (ops : Ops E V) (env : Env E V σ) (code : List (Instr V)) {ts rest : List Tok} {e : Tree}
    (hg : Grammar .expr ts e) (hr : Stops rest) (t : Ty) :
    (∃ code', compile ops env code (ts ++ rest) = .ok (t, rest, code')) ↔ typeOf env e = some t := by
  constructor
  · rintro ⟨code', h⟩
    obtain ⟨e', h1, h2, _⟩ := compile_ok h
    rw [ast_of_grammar hg hr] at h1
    injection h1 with h1
    injection h1 with h1
    rw [h1]
    exact h2
  · intro ht
    exact ⟨_, compile_of code hg ht hr⟩

/-- A text that is not an expression, nor has one as its beginning, is refused. -/
theorem C64_refused (ops : Ops E V) (env : Env E V σ) (code : List (Instr V)) (toks : List Tok)
    (h : ¬ ∃ ts rest e t, toks = ts ++ rest ∧ Grammar .expr ts e ∧ typeOf env e = some t) :
    ∃ err, compile ops env code toks = .error err := by
  cases hc : compile ops env code toks with
  | error err => exact ⟨err, rfl⟩
  | ok p =>
    obtain ⟨t, rest, code'⟩ := p
    obtain ⟨e, h1, h2, _⟩ := compile_ok hc
    obtain ⟨us, h3, h4⟩ := (snd _).expr _ _ _ h1
    exact absurd ⟨us, rest, e, t, h3, h4, h2⟩ h

/-- What has been accepted is an expression by the documented grammar and has the type it has been given; no
earlier code has been changed; and the code that has been made for it, wherever the code after it leads,
evaluates it as documented: it leaves exactly its value on top of the stack and everything else as evaluation
leaves it, or stops with the error with which evaluation stops. -/
theorem C64_value (ops : Ops E V) (env : Env E V σ) (code code' : List (Instr V)) (toks rest : List Tok) (t : Ty)
    (h : compile ops env code toks = .ok (t, rest, code')) :
    ∃ ts e, toks = ts ++ rest ∧ Grammar .expr ts e ∧ typeOf env e = some t ∧ code <+: code' ∧
      ∀ (after : List (Instr V)) (stk : List V) (s : σ),
        (∀ s' v, eval ops env e s = (s', .ok v) →
          ∃ n, run ops env (code' ++ after) n ⟨code.length, stk, s⟩ = .next ⟨code'.length, v :: stk, s'⟩) ∧
        (∀ s' x, eval ops env e s = (s', .error x) →
          ∃ n, run ops env (code' ++ after) n ⟨code.length, stk, s⟩ = .error s' x) := by
  obtain ⟨e, h1, h2, rfl⟩ := compile_ok h
  obtain ⟨us, h3, h4⟩ := (snd _).expr _ _ _ h1
  exact ⟨us, e, h3, h4, h2, ⟨_, rfl⟩, fun after stk s => gen_runs ops env code after h2 stk s⟩

/-! ## C65: operands that are not needed -/

/-- If the left operand of `&&` is false, the code gives false after it has evaluated the left operand,
whatever the designators of the right operand would do (`env'` may read those in any way). -/
theorem C65_and (ops : Ops E V) (env env' : Env E V σ) (code code' after : List (Instr V)) {ts us rest : List Tok}
    {a b : Tree} (ha : Grammar .logTerm ts a) (hb : Grammar .rel us b) (hr : Stops rest) (t : Ty)
    (hc : compile ops env code (ts ++ .andand :: us ++ rest) = .ok (t, rest, code'))
    (hty : env'.ty = env.ty) (hread : ∀ i ∈ idents a, env'.read i = env.read i)
    (stk : List V) (s s' : σ) (v : V) (hv : eval ops env a s = (s', .ok v)) (hf : ops.truth v = false) :
    ∃ n, run ops env' (code' ++ after) n ⟨code.length, stk, s⟩ = .next ⟨code'.length, v :: stk, s'⟩ := by
  have hg : Grammar .expr (ts ++ .andand :: us) (.and a b) := .expr (.logExpr (.logTermOp ha hb))
  have ht := (C64_accepted ops env code hg hr t).1 ⟨_, hc⟩
  rw [compile_of code hg ht hr] at hc
  injection hc with hc
  injection hc with _ hc
  injection hc with _ hc
  subst hc
  rw [← gen_congr hty]
  refine (gen_runs ops env' code after ((typeOf_congr hty _).trans ht) stk s).1 s' v ?_
  simp only [eval, eval_congr hty a hread, hv, andThen, hf]
  rfl

/-- If the left operand of `||` is true, the right one is not evaluated. -/
theorem C65_or (ops : Ops E V) (env env' : Env E V σ) (code code' after : List (Instr V)) {ts us rest : List Tok}
    {a b : Tree} (ha : Grammar .logExpr ts a) (hb : Grammar .logTerm us b) (hr : Stops rest) (t : Ty)
    (hc : compile ops env code (ts ++ .oror :: us ++ rest) = .ok (t, rest, code'))
    (hty : env'.ty = env.ty) (hread : ∀ i ∈ idents a, env'.read i = env.read i)
    (stk : List V) (s s' : σ) (v : V) (hv : eval ops env a s = (s', .ok v)) (hf : ops.truth v = true) :
    ∃ n, run ops env' (code' ++ after) n ⟨code.length, stk, s⟩ = .next ⟨code'.length, v :: stk, s'⟩ := by
  have hg : Grammar .expr (ts ++ .oror :: us) (.or a b) := .expr (.logExprOp ha hb)
  have ht := (C64_accepted ops env code hg hr t).1 ⟨_, hc⟩
  rw [compile_of code hg ht hr] at hc
  injection hc with hc
  injection hc with _ hc
  injection hc with _ hc
  subst hc
  rw [← gen_congr hty]
  refine (gen_runs ops env' code after ((typeOf_congr hty _).trans ht) stk s).1 s' v ?_
  simp only [eval, eval_congr hty a hread, hv, andThen, hf]
  rfl

/-- `c ? a : b` with a true condition: `a` is evaluated, `b` is not. -/
theorem C65_ternary_true (ops : Ops E V) (env env' : Env E V σ) (code code' after : List (Instr V))
    {ts us vs rest : List Tok} {c a b : Tree} (hgc : Grammar .logExpr ts c) (ha : Grammar .expr us a)
    (hb : Grammar .expr vs b) (hr : Stops rest) (t : Ty)
    (hc : compile ops env code (ts ++ .question :: us ++ .colon :: vs ++ rest) = .ok (t, rest, code'))
    (hty : env'.ty = env.ty) (hread : ∀ i ∈ idents c ++ idents a, env'.read i = env.read i)
    (stk : List V) (s s' s'' : σ) (x v : V) (hx : eval ops env c s = (s', .ok x)) (hf : ops.truth x = true)
    (hv : eval ops env a s' = (s'', .ok v)) :
    ∃ n, run ops env' (code' ++ after) n ⟨code.length, stk, s⟩ = .next ⟨code'.length, v :: stk, s''⟩ := by
  have hg : Grammar .expr (ts ++ .question :: us ++ .colon :: vs) (.tern c a b) := .tern hgc ha hb
  have ht := (C64_accepted ops env code hg hr t).1 ⟨_, hc⟩
  rw [compile_of code hg ht hr] at hc
  injection hc with hc
  injection hc with _ hc
  injection hc with _ hc
  subst hc
  rw [← gen_congr hty]
  refine (gen_runs ops env' code after ((typeOf_congr hty _).trans ht) stk s).1 s'' v ?_
  simp only [eval, eval_congr hty c (fun i hi => hread i (by simp [hi])),
    eval_congr hty a (fun i hi => hread i (by simp [hi])), hx, andThen, hf, hv]
  rfl

/-- `c ? a : b` with a false condition: `b` is evaluated, `a` is not. -/
theorem C65_ternary_false (ops : Ops E V) (env env' : Env E V σ) (code code' after : List (Instr V))
    {ts us vs rest : List Tok} {c a b : Tree} (hgc : Grammar .logExpr ts c) (ha : Grammar .expr us a)
    (hb : Grammar .expr vs b) (hr : Stops rest) (t : Ty)
    (hc : compile ops env code (ts ++ .question :: us ++ .colon :: vs ++ rest) = .ok (t, rest, code'))
    (hty : env'.ty = env.ty) (hread : ∀ i ∈ idents c ++ idents b, env'.read i = env.read i)
    (stk : List V) (s s' s'' : σ) (x v w : V) (hx : eval ops env c s = (s', .ok x)) (hf : ops.truth x = false)
    (hv : eval ops env b s' = (s'', .ok v)) (hw : convert ops (tyOf env a) (tyOf env b) v = .ok w) :
    ∃ n, run ops env' (code' ++ after) n ⟨code.length, stk, s⟩ = .next ⟨code'.length, w :: stk, s''⟩ := by
  have hg : Grammar .expr (ts ++ .question :: us ++ .colon :: vs) (.tern c a b) := .tern hgc ha hb
  have ht := (C64_accepted ops env code hg hr t).1 ⟨_, hc⟩
  rw [compile_of code hg ht hr] at hc
  injection hc with hc
  injection hc with _ hc
  injection hc with _ hc
  subst hc
  rw [← gen_congr hty]
  refine (gen_runs ops env' code after ((typeOf_congr hty _).trans ht) stk s).1 s'' w ?_
  simp only [eval, eval_congr hty c (fun i hi => hread i (by simp [hi])),
    eval_congr hty b (fun i hi => hread i (by simp [hi])), hx, andThen, hf, hv, tyOf_congr hty, hw]
  rfl

/-! ## C66: constant expressions -/

/-- A constant expression in which no `&&` or `||` is decided by its left operand is accepted exactly if all
its parts have values, and then its type and value are those of evaluation at run time.

Missing: `&&` and `||` that are decided by the left operand (`C66_and_violated`, `C66_or_violated`), and the
part of `? :` that is not needed (`C66_ternary_violated`). -/
theorem C66_value_partial (ops : Ops E V) (env : Env E V σ) {ts rest : List Tok} {e : Tree} (hg : Grammar .expr ts e)
    (hr : Stops rest) (s : σ) (hcs : Constants env e) (hu : Undecided ops env s e) (t : Ty) (rest' : List Tok) (v : V) :
    constant ops env (ts ++ rest) = .ok (t, rest', v) ↔
      rest' = rest ∧ typeOf env e = some t ∧ Defined ops env s e ∧ ∀ s', eval ops env e s' = (s', .ok v) := by
  have hund := und_of ops env s e hcs hu
  have h := (csim ops env (10 * (ts ++ rest).length + 10)).expr ⟨ts ++ rest, [], []⟩ e rest (ast_of_grammar hg hr) hund
  have h' : (constant ops env (ts ++ rest)).toOption = (cev ops env e).bind fun p => some (p.1, rest, p.2) := by
    rw [constant, toOption_bind, h]
    simp only [cres]
    cases cev ops env e <;> rfl
  constructor
  · intro hc
    rw [hc] at h'
    cases hev : cev ops env e with
    | none => rw [hev] at h'; exact nomatch h'
    | some p =>
      rw [hev] at h'
      injection h' with h'
      injection h' with h1 h'
      injection h' with h2 h3
      have hpe : cev ops env e = some (t, v) := by rw [hev, h1, h3]
      obtain ⟨h4, h5⟩ := cev_eval ops env e t v hcs hund hpe
      exact ⟨h2, h4, (cev_defined ops env s e t hcs hund h4).2 ⟨v, hpe⟩, h5⟩
  · rintro ⟨rfl, ht, hd, hv⟩
    obtain ⟨w, hw⟩ := (cev_defined ops env s e t hcs hund ht).1 hd
    have h5 := (cev_eval ops env e t w hcs hund hw).2 s
    rw [hv s] at h5
    injection h5 with _ h5
    injection h5 with h5
    subst h5
    apply toOption_ok
    rw [h', hw]
    rfl

/-! ## A machine with 64-bit words -/

/-- The operators of `Verif/Arith`; undefined behaviour is an error of its own. -/
def ofArith : Arith.Res Slot → Except (Option Arith.Err) Slot
  | .ok v => .ok v
  | .err e => .error (some e)
  | .ub => .error none

/-- The operators on ordinal values of the real machine (numbers of type real are out of its reach). -/
def word : Ops (Option Arith.Err) Slot where
  unary op _ v := ofArith (Arith.doUnary op v)
  binary op t v w := match t with
    | .ord k => ofArith (Arith.doBinary op k v w)
    | .real => .error none
  toReal _ v := v
  assertRange d s v := ofArith (Arith.doAssertRange d s v)
  truth v := v != 0
  intLit n := BitVec.ofNat 64 n
  realLit n := BitVec.ofNat 64 n
  charLit n := BitVec.ofNat 64 n
  no := 0
  yes := 1

/-- Variables 0-2 are integers, 3-5 are Booleans; reading one counts.  Constants: 0 is 7, 3 is false, 4 is true. -/
def vars : Env (Option Arith.Err) Slot Nat where
  ty i := if i < 3 then .ord .int else .bool
  read i s := (s + 1, .ok (if i = 3 then 0 else if i = 4 then 1 else BitVec.ofNat 64 (i + 7)))
  const i := if i = 0 then some 7 else if i = 3 then some 0 else if i = 4 then some 1 else none

/-- The same constants, and reading them has no effects. -/
def consts : Env (Option Arith.Err) Slot Unit where
  ty i := if i < 3 then .ord .int else .bool
  read i s := (s, .ok (if i = 0 then 7 else if i = 4 then 1 else 0))
  const i := if i = 0 then some 7 else if i = 3 then some 0 else if i = 4 then some 1 else none

/-- A constant expression of the documented grammar that has a value is refused or cut short: `false && true`
is read as `false`, and `true` is left over. -/
theorem C66_and_violated :
    ∃ (ts : List Tok) (e : Tree), Grammar .expr ts e ∧ Constants consts e ∧ typeOf consts e = some .bool ∧
      eval word consts e () = ((), .ok 0) ∧ constant word consts ts = .ok (.bool, [.ident 4], 0) :=
  ⟨[.ident 3, .andand, .ident 4], .and (.ident 3) (.ident 4),
    .expr (.logExpr (.logTermOp (.logTerm (.rel (.relTerm (.term (.ident 3))))) (.rel (.relTerm (.term (.ident 4)))))),
    (by intro i hi; simp [idents] at hi; rcases hi with rfl | rfl <;> exact ⟨_, rfl, fun _ => rfl⟩), rfl, rfl, rfl⟩

/-- `true ||` is accepted although nothing follows, and so is `7 ||`. -/
theorem C66_or_violated :
    (∃ ts, (¬ ∃ e, Grammar .expr ts e) ∧ constant word consts ts = .ok (.bool, [], 1)) ∧
    (∃ ts, (¬ ∃ e, Grammar .expr ts e) ∧ constant word consts ts = .ok (.ord .int, [], 1)) := by
  constructor
  · refine ⟨[.ident 4, .oror], ?_, rfl⟩
    rintro ⟨e, h⟩
    exact nomatch (ast_of_grammar h (rest := []) nofun)
  · refine ⟨[.ident 0, .oror], ?_, rfl⟩
    rintro ⟨e, h⟩
    exact nomatch (ast_of_grammar h (rest := []) nofun)

/-- `true ? 7 : 7 / 0` has a value, but is refused. -/
theorem C66_ternary_violated :
    ∃ (ts : List Tok) (e : Tree), Grammar .expr ts e ∧ Constants consts e ∧ typeOf consts e = some (.ord .int) ∧
      eval word consts e () = ((), .ok 7) ∧ constant word consts ts = .error (.value (some .divisionByZero)) :=
  ⟨[.ident 4, .question, .ident 0, .colon, .ident 0, .div, .intNumber 0],
    .tern (.ident 4) (.ident 0) (.bin .div (.ident 0) (.int 0)),
    .tern (ts := [.ident 4]) (us := [.ident 0]) (vs := [.ident 0, .div, .intNumber 0])
      (.logExpr (.logTerm (.rel (.relTerm (.term (.ident 4)))))) (.expr (.logExpr (.logTerm (.rel (.relTerm (.term (.ident 0)))))))
      (.expr (.logExpr (.logTerm (.rel (.relTerm (.termOp (.term (.ident 0)) .div (.int 0))))))),
    (by intro i hi; simp [idents] at hi; rcases hi with rfl | rfl <;> exact ⟨_, rfl, fun _ => rfl⟩), rfl, rfl, rfl⟩

/-! ## The hypotheses are met -/

/-- `x + y * z` -/
def sum : List Tok := [.ident 0, .plus, .ident 1, .mul, .ident 2]

theorem sum_grammar : Grammar .expr sum (.bin .plus (.ident 0) (.bin .mul (.ident 1) (.ident 2))) :=
  .expr (.logExpr (.logTerm (.rel (.relTermOp (ts := [.ident 0]) (us := [.ident 1, .mul, .ident 2])
    (.relTerm (.term (.ident 0))) .plus (.termOp (.term (.ident 1)) .mul (.ident 2))))))

example : ∃ code', compile word vars [] (sum ++ [.other 0]) = .ok (.ord .int, [.other 0], code') :=
  (C64_accepted word vars [] sum_grammar (by intro t ht; injection ht with ht; subst ht; exact id) _).2 rfl

/-- 7 + 8 * 9 -/
example : eval word vars (.bin .plus (.ident 0) (.bin .mul (.ident 1) (.ident 2))) 0 = (3, .ok 79) := rfl

/-- `x - y - z` groups to the left -/
example (e : Tree) (h : Grammar .expr [.ident 0, .minus, .ident 1, .minus, .ident 2] e) :
    e = .bin .minus (.bin .minus (.ident 0) (.ident 1)) (.ident 2) :=
  C64_unambiguous h (.expr (.logExpr (.logTerm (.rel (.relTermOp (ts := [.ident 0, .minus, .ident 1])
    (us := [.ident 2]) (.relTermOp (.relTerm (.term (.ident 0))) .minus (.term (.ident 1))) .minus (.term (.ident 2)))))))

/-- `x < y < z` is not an expression; its beginning is -/
example : ∃ code', compile word vars [] [.ident 0, .less, .ident 1, .less, .ident 2] =
    .ok (.bool, [.less, .ident 2], code') := ⟨_, rfl⟩

/-- `+ *` is refused -/
example : ∃ err, compile word vars [] [.plus, .mul] = .error err := ⟨_, rfl⟩

/-- `false && z` -/
example (env' : Env (Option Arith.Err) Slot Nat) (hty : env'.ty = vars.ty) (h : env'.read 3 = vars.read 3) :
    ∃ code' n, compile word vars [] [.ident 3, .andand, .ident 5] = .ok (.bool, [], code') ∧
      run word env' (code' ++ [Instr.pop]) n ⟨0, [], 0⟩ = .next ⟨code'.length, [0], 1⟩ := by
  refine ⟨_, _, rfl, (C65_and word vars env' [] _ [Instr.pop] (ts := [.ident 3]) (us := [.ident 5]) (rest := [])
    (a := .ident 3) (b := .ident 5) (.logTerm (.rel (.relTerm (.term (.ident 3))))) (.rel (.relTerm (.term (.ident 5))))
    nofun .bool rfl hty (by intro i hi; simp [idents] at hi; subst hi; exact h) [] 0 1 0 rfl rfl).choose_spec⟩

/-- `true && 7 < 8` as a constant -/
example : constant word consts [.ident 4, .andand, .ident 0, .less, .intNumber 8, .other 0] = .ok (.bool, [.other 0], 1) :=
  (C66_value_partial word consts (ts := [.ident 4, .andand, .ident 0, .less, .intNumber 8]) (rest := [.other 0])
    (e := .and (.ident 4) (.bin .less (.ident 0) (.int 8)))
    (.expr (.logExpr (.logTermOp (ts := [.ident 4]) (us := [.ident 0, .less, .intNumber 8])
      (.logTerm (.rel (.relTerm (.term (.ident 4)))))
      (.relOp (ts := [.ident 0]) (us := [.intNumber 8]) (.relTerm (.term (.ident 0))) .less (.relTerm (.term (.int 8)))))))
    (by intro t ht; injection ht with ht; subst ht; exact id) ()
    (by intro i hi; simp [idents] at hi; rcases hi with rfl | rfl <;> exact ⟨_, rfl, fun _ => rfl⟩)
    ⟨trivial, ⟨trivial, trivial⟩, fun v hv => by injection hv with hv; subst hv; rfl⟩ .bool [.other 0] 1).2
    ⟨rfl, rfl, ⟨trivial, trivial, trivial, 1, rfl⟩, fun _ => rfl⟩

end Umka.Expr.Props
