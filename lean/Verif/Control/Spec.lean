/-!
# Control statements: specification

The statements of the language that steer the flow of control, and what they mean.  Everything else
(variables, arithmetic, calls) is opaque: it is given by functions on an arbitrary state `σ`, where
`none` is a run-time error.
-/

namespace Umka.Control.Spec

/-- Expressions: `and`, `or` and anything else that evaluates its operands from left to right. -/
inductive Expr (σ : Type) where
  | atom (f : σ → Option (σ × Int))
  | unary (f : σ → Int → Option (σ × Int)) (e : Expr σ)
  | binary (f : σ → Int → Int → Option (σ × Int)) (a b : Expr σ)
  | and (a b : Expr σ)
  | or (a b : Expr σ)

/-- The value of an expression; 0 is false.  The second operand of `&&` is not evaluated if the first
one is false, that of `||` not if the first one is true. -/
def Expr.eval {σ : Type} : Expr σ → σ → Option (σ × Int)
  | .atom f, s => f s
  | .unary f e, s => do
    let (s, v) ← e.eval s
    f s v
  | .binary f a b, s => do
    let (s, v) ← a.eval s
    let (s, w) ← b.eval s
    f s v w
  | .and a b, s => do
    let (s, v) ← a.eval s
    if v ≠ 0 then b.eval s else some (s, v)
  | .or a b, s => do
    let (s, v) ← a.eval s
    if v ≠ 0 then some (s, v) else b.eval s

mutual
/-- Statements. -/
inductive Stmt (σ : Type) where
  /-- anything without expressions of interest -/
  | act (f : σ → Option σ)
  /-- evaluate `e` and do something with its value: assignment, call, return value -/
  | use (e : Expr σ) (f : σ → Int → Option σ)
  | skip
  | seq (a b : Stmt σ)
  | ifThen (c : Expr σ) (a : Stmt σ)
  | ifElse (c : Expr σ) (a b : Stmt σ)
  /-- `switch e { cases; default: d }` -/
  | switch (e : Expr σ) (cs : Cases σ) (d : Stmt σ)
  /-- `switch v := type(e) { cases; default: d }` -/
  | typeSwitch (e : Expr σ) (cs : TypeCases σ) (d : Stmt σ)
  /-- `for c { body }`, `for c; i++ { body }` and `for i in a { body }`, with what is done after each
  iteration -/
  | loop (c : Expr σ) (body : Stmt σ) (post : Option (σ → Option σ))
  /-- `for c; post { body }` with any other statement `post`: evaluate `p` and do something with it -/
  | forPost (c : Expr σ) (p : Expr σ) (f : σ → Int → Option σ) (body : Stmt σ)
  | brk
  | cont
  | ret
/-- `case k1, k2: body` -/
inductive Cases (σ : Type) where
  | nil
  | cons (ks : List Int) (body : Stmt σ) (rest : Cases σ)
/-- `case T: body`; `conv` gives a pointer to the value of type `T` that the interface holds, or null,
and `bind` assigns what the pointer points to to the variable of the switch -/
inductive TypeCases (σ : Type) where
  | nil
  | cons (conv : σ → Int → Int) (bind : σ → Int → Option σ) (body : Stmt σ) (rest : TypeCases σ)
end

/-- The statements a list of statements consists of, without those in inner blocks. -/
def Stmt.parts {σ : Type} : Stmt σ → List (Stmt σ)
  | .seq a b => a.parts ++ b.parts
  | p => [p]

/-- How a statement ends. -/
inductive Out where
  | normal | brk | cont | ret
  deriving DecidableEq, Repr

/-- The result of running a statement for so many iterations of its loops. -/
inductive Res (σ : Type) where
  | done (o : Out) (s : σ)
  /-- run-time error -/
  | error
  /-- more iterations are needed -/
  | timeout
  deriving DecidableEq, Repr

def Res.ofOption {σ : Type} : Option σ → Res σ
  | some s => .done .normal s
  | none => .error

/-- Go on if the statement before ended normally. -/
def Res.andThen {σ : Type} (r : Res σ) (k : σ → Res σ) : Res σ :=
  match r with
  | .done .normal s => k s
  | r => r

/-- A loop: `break` ends it, `continue` ends the iteration, `return` ends both. -/
def iterate {σ : Type} (cond : σ → Option (σ × Int)) (body : σ → Res σ) (post : σ → Option σ) :
    Nat → σ → Res σ
  | 0, _ => .timeout
  | n + 1, s =>
    match cond s with
    | none => .error
    | some (s, v) =>
      if v = 0 then .done .normal s
      else
        match body s with
        | .done .normal s => next n s
        | .done .cont s => next n s
        | .done .brk s => .done .normal s
        | .done .ret s => .done .ret s
        | .error => .error
        | .timeout => .timeout
where
  next (n : Nat) (s : σ) : Res σ :=
    match post s with
    | none => .error
    | some s => iterate cond body post n s

mutual
/-- The meaning of statements, with at most `n` iterations of each loop. -/
def exec {σ : Type} (n : Nat) : Stmt σ → σ → Res σ
  | .act f, s => .ofOption (f s)
  | .use e f, s => .ofOption (do let (s, v) ← e.eval s; f s v)
  | .skip, s => .done .normal s
  | .seq a b, s => (exec n a s).andThen (exec n b)
  | .ifThen c a, s =>
    match c.eval s with
    | none => .error
    | some (s, v) => if v ≠ 0 then exec n a s else .done .normal s
  | .ifElse c a b, s =>
    match c.eval s with
    | none => .error
    | some (s, v) => if v ≠ 0 then exec n a s else exec n b s
  | .switch e cs d, s =>
    match e.eval s with
    | none => .error
    | some (s, v) => execCases n cs v (exec n d) s
  | .typeSwitch e cs d, s =>
    match e.eval s with
    | none => .error
    | some (s, v) => execTypeCases n cs v (exec n d) s
  | .loop c body post, s =>
    iterate c.eval (exec n body) (fun s => match post with | none => some s | some f => f s) n s
  | .forPost c p f body, s =>
    iterate c.eval (exec n body) (fun s => do let (s, v) ← p.eval s; f s v) n s
  | .brk, s => .done .brk s
  | .cont, s => .done .cont s
  | .ret, s => .done .ret s
/-- The first case that has the value. -/
def execCases {σ : Type} (n : Nat) : Cases σ → Int → (σ → Res σ) → σ → Res σ
  | .nil, _, d, s => d s
  | .cons ks body rest, v, d, s => if v ∈ ks then exec n body s else execCases n rest v d s
/-- The first case whose type is that of the value. -/
def execTypeCases {σ : Type} (n : Nat) : TypeCases σ → Int → (σ → Res σ) → σ → Res σ
  | .nil, _, d, s => d s
  | .cons conv bind body rest, v, d, s =>
    if conv s v ≠ 0 then (Res.ofOption (bind s (conv s v))).andThen (exec n body)
    else execTypeCases n rest v d s
end

/-- The statement ends. -/
def Ends {σ : Type} (p : Stmt σ) (s : σ) (o : Out) (s' : σ) : Prop := ∃ n, exec n p s = .done o s'

/-- The statement ends with a run-time error. -/
def Fails {σ : Type} (p : Stmt σ) (s : σ) : Prop := ∃ n, exec n p s = .error

/-- The statement never ends. -/
def Diverges {σ : Type} (p : Stmt σ) (s : σ) : Prop := ∀ n, exec n p s = .timeout

mutual
/-- The statement can end in `break` or `continue` of a loop around it. -/
def Stmt.jumpsOut {σ : Type} : Stmt σ → Bool
  | .brk | .cont => true
  | .seq a b | .ifElse _ a b => a.jumpsOut || b.jumpsOut
  | .ifThen _ a => a.jumpsOut
  | .switch _ cs d => cs.jumpsOut || d.jumpsOut
  | .typeSwitch _ cs d => cs.jumpsOut || d.jumpsOut
  | _ => false
def Cases.jumpsOut {σ : Type} : Cases σ → Bool
  | .nil => false
  | .cons _ body rest => body.jumpsOut || rest.jumpsOut
def TypeCases.jumpsOut {σ : Type} : TypeCases σ → Bool
  | .nil => false
  | .cons _ _ body rest => body.jumpsOut || rest.jumpsOut
end

mutual
/-- No `break` or `continue` leaves a type switch. -/
def Stmt.tidy {σ : Type} : Stmt σ → Bool
  | .seq a b | .ifElse _ a b => a.tidy && b.tidy
  | .ifThen _ a => a.tidy
  | .switch _ cs d => cs.tidy && d.tidy
  | .typeSwitch _ cs d => cs.tidy && d.tidy && !cs.jumpsOut && !d.jumpsOut
  | .loop _ body _ | .forPost _ _ _ body => body.tidy
  | _ => true
def Cases.tidy {σ : Type} : Cases σ → Bool
  | .nil => true
  | .cons _ body rest => body.tidy && rest.tidy
def TypeCases.tidy {σ : Type} : TypeCases σ → Bool
  | .nil => true
  | .cons _ _ body rest => body.tidy && rest.tidy
end

/-! ## How many positions of jumps are pending at the same time -/

def Expr.pending {σ : Type} : Expr σ → Nat
  | .atom _ => 0
  | .unary _ e => e.pending
  | .binary _ a b => max a.pending b.pending
  | .and a b | .or a b => max a.pending (1 + b.pending)

mutual
/-- One for the condition of `if`, two for a loop, one for each case of a `switch` that is already
compiled, or for each constant of the case. -/
def Stmt.pending {σ : Type} : Stmt σ → Nat
  | .use e _ => e.pending
  | .seq a b => max a.pending b.pending
  | .ifThen c a => max c.pending (1 + a.pending)
  | .ifElse c a b => max c.pending (1 + max a.pending b.pending)
  | .switch e cs d => max e.pending (cs.pending d.pending)
  | .typeSwitch e cs d => max e.pending (cs.pending d.pending)
  | .loop c body _ => max (1 + c.pending) (2 + body.pending)
  | .forPost c p _ body => max (1 + c.pending) (max (2 + p.pending) (1 + body.pending))
  | _ => 0
def Cases.pending {σ : Type} : Cases σ → Nat → Nat
  | .nil, d => d
  | .cons ks body rest, d => max ks.length (max (1 + body.pending) (1 + rest.pending d))
def TypeCases.pending {σ : Type} : TypeCases σ → Nat → Nat
  | .nil, d => d
  | .cons _ _ body rest, d => max (1 + body.pending) (1 + rest.pending d)
end

end Umka.Control.Spec
