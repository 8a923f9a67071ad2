import Verif.Control.Limits
/-!
# Control statements: properties C21, C23, C67

The functions compiled here are arbitrary: `g` is the state of the generator before the function
(other functions, or an enclosing function whose loops are still open), `body` is any statement.
-/

namespace Umka.Control.Props
open Spec

variable {σ : Type}

/-- The code of a generator, as the machine sees it. -/
def codeOf (g : Gen σ) : Code σ := fun i => g.code[i]?

/-- The machine starts at a function. -/
def start (g : Gen σ) (stack : List Int) (reg : Int) (base : List Int) (s : σ) : Cfg σ :=
  ⟨g.ip, stack, reg, base, s⟩

/-- The machine returns from the function in the state `s'` with the stack `stack`. -/
def Returns (C : Code σ) (c : Cfg σ) (stack : List Int) (s' : σ) : Prop :=
  ∃ k c', Steps C k c c' ∧ step C c' = .returned c' ∧ c'.stack = stack ∧ c'.data = s'

/-- The machine goes on and on. -/
def RunsForever (C : Code σ) (c : Cfg σ) : Prop := ∀ k, ∃ c', Steps C k c c'

theorem steps_prefix {C : Code σ} : ∀ {k : Nat} {c c' : Cfg σ} (j : Nat), j ≤ k → Steps C k c c' →
    ∃ c1, Steps C j c c1
  | _, c, _, 0, _, _ => ⟨c, rfl⟩
  | k + 1, c, c', j + 1, hj, h => by
    obtain ⟨c1, h1, h⟩ := h
    obtain ⟨c2, h2⟩ := steps_prefix j (by omega) h
    exact ⟨c2, c1, h1, h2⟩

/-- Every statement ends, fails or diverges in exactly one way. -/
theorem meaning_total (p : Stmt σ) (s : σ) :
    ((∃ o s', Ends p s o s') ∨ Fails p s ∨ Diverges p s) ∧
    (∀ o s' o' s'', Ends p s o s' → Ends p s o' s'' → o = o' ∧ s' = s'') ∧
    (∀ o s', Ends p s o s' → ¬ Fails p s) ∧
    (∀ o s', Ends p s o s' → ¬ Diverges p s) ∧ (Fails p s → ¬ Diverges p s) := by
  have agree : ∀ {n m : Nat}, exec n p s ≠ .timeout → exec m p s ≠ .timeout →
      exec n p s = exec m p s := by
    intro n m hn hm
    rcases Nat.le_total n m with h | h
    · exact (exec_mono_le h hn).symm
    · exact exec_mono_le h hm
  refine ⟨?_, ?_, ?_, ?_, ?_⟩
  · by_cases h : ∀ n, exec n p s = .timeout
    · exact .inr (.inr h)
    · obtain ⟨n, hn⟩ := Classical.not_forall.1 h
      cases hr : exec n p s with
      | done o s' => exact .inl ⟨o, s', n, hr⟩
      | error => exact .inr (.inl ⟨n, hr⟩)
      | timeout => exact absurd hr hn
  · rintro o s' o' s'' ⟨n, hn⟩ ⟨m, hm⟩
    have := agree (n := n) (m := m) (by rw [hn]; simp) (by rw [hm]; simp)
    rw [hn, hm] at this
    injection this with h1 h2
    exact ⟨h1, h2⟩
  · rintro o s' ⟨n, hn⟩ ⟨m, hm⟩
    have := agree (n := n) (m := m) (by rw [hn]; simp) (by rw [hm]; simp)
    rw [hn, hm] at this
    cases this
  · rintro o s' ⟨n, hn⟩ h
    rw [h n] at hn; cases hn
  · rintro ⟨n, hn⟩ h
    rw [h n] at hn; cases hn

/-- The machine does one thing only. -/
theorem steps_det {C : Code σ} : ∀ {k : Nat} {c a b : Cfg σ}, Steps C k c a → Steps C k c b → a = b
  | 0, _, _, _, h1, h2 => h1.symm.trans h2
  | k + 1, _, _, _, ⟨c1, h1, r1⟩, ⟨c2, h2, r2⟩ => by
    rw [h1] at h2
    injection h2 with h2
    subst h2
    exact steps_det r1 r2

/-- **C21**: a compiled function does what its statements mean.  If the body ends, it ends normally or
with `return`, and the function returns in that state and with the stack it was called with; if the
body fails, the machine reports a run-time error; if the body runs forever, so does the machine.
`C` may be any code with the function in it. -/
theorem C21_control_statements {g g' : Gen σ} {body : Stmt σ} (h : genFn g body = .ok g')
    (C : Code σ) (hC : ∀ i, g.ip ≤ i → i < g'.ip → C i = codeOf g' i)
    (stack : List Int) (reg : Int) (base : List Int) (s : σ) :
    (∀ o s', Ends body s o s' →
      (o = .normal ∨ o = .ret) ∧ Returns C (start g stack reg base s) stack s') ∧
    (Fails body s → Errs C (start g stack reg base s)) ∧
    (Diverges body s → RunsForever C (start g stack reg base s)) := by
  obtain ⟨hj, _, hi, _, _, hs⟩ := genFn_shape h
  obtain ⟨q1, q2, q3, hst⟩ := hs C hC
  have a1 : Steps C 1 (start g stack reg base s) ⟨g.ip + 1, stack, reg, stack, s⟩ :=
    Steps.one (by simp only [start, step, q1])
  have sim : ∀ n, Sim C hi 0 0 hi n body.tidy ⟨g.ip + 1, stack, reg, stack, s⟩ (exec n body s) :=
    fun n => stmt_sim hi n body 0 0 _ _ _ hst rfl
  refine ⟨?_, ?_, ?_⟩
  · rintro o s' ⟨n, hn⟩
    have ho := exec_jumpsOut n body hj s o s' hn
    have ho' : o = .normal ∨ o = .ret := by
      cases o with
      | normal => exact .inl rfl
      | ret => exact .inr rfl
      | brk => exact absurd rfl ho.1
      | cont => exact absurd rfl ho.2
    refine ⟨ho', ?_⟩
    have sm := sim n
    rw [hn] at sm
    obtain ⟨k, junk, r, hk, _⟩ := sm
    have ht : target hi 0 0 hi o = hi := by rcases ho' with rfl | rfl <;> rfl
    rw [ht] at hk
    have a2 : Steps C 1 ⟨hi, junk ++ stack, r, stack, s'⟩ ⟨hi + 1, stack, r, stack, s'⟩ :=
      Steps.one (by simp only [step, q2])
    exact ⟨_, _, (a1.trans hk).trans a2, by simp only [step, q3], rfl, rfl⟩
  · rintro ⟨n, hn⟩
    have sm := sim n
    rw [hn] at sm
    exact Errs.after a1 sm
  · intro hd k
    have sm := sim k
    rw [hd k] at sm
    obtain ⟨l, c', hl, hk⟩ := sm
    exact steps_prefix k (by omega) (a1.trans hk)

/-- **C21**: the body of a function leaves nothing on the stack where it ends normally, unless a
`break` or `continue` in it leaves a type switch. -/
theorem C21_stack_partial {g g' : Gen σ} {body : Stmt σ} (h : genFn g body = .ok g')
    (ht : body.tidy = true) (C : Code σ) (hC : ∀ i, g.ip ≤ i → i < g'.ip → C i = codeOf g' i)
    (stack : List Int) (reg : Int) (base : List Int) (s s' : σ) (hn : Ends body s .normal s') :
    ∃ k r hi, Steps C k (start g stack reg base s) ⟨hi, stack, r, stack, s'⟩ ∧
      C hi = some .leaveFrame := by
  obtain ⟨hj, _, hi, _, _, hs⟩ := genFn_shape h
  obtain ⟨q1, q2, q3, hst⟩ := hs C hC
  have a1 : Steps C 1 (start g stack reg base s) ⟨g.ip + 1, stack, reg, stack, s⟩ :=
    Steps.one (by simp only [start, step, q1])
  obtain ⟨n, hn⟩ := hn
  have sm := stmt_sim hi n body 0 0 _ _ ⟨g.ip + 1, stack, reg, stack, s⟩ hst rfl
  rw [hn] at sm
  obtain ⟨k, junk, r, hk, hjunk⟩ := sm
  rw [hjunk ht (by simp)] at hk
  exact ⟨_, r, hi, a1.trans hk, q2⟩

/-- **C21**: the code of other functions is not touched, and an open loop of an enclosing function is
still open, with the same pending jumps. -/
theorem C21_nested_function {g g' : Gen σ} {body : Stmt σ} (h : genFn g body = .ok g') :
    (∀ i, i < g.ip → codeOf g' i = codeOf g i) ∧ g'.stack = g.stack ∧ g'.breaks = g.breaks ∧
    g'.continues = g.continues ∧ g'.returns = g.returns ∧ body.jumpsOut = false := by
  obtain ⟨hj, e, _⟩ := genFn_shape h
  refine ⟨e.pre, e.stack, ?_, ?_, ?_, hj⟩
  · rw [e.brk, map_append_nil]
  · rw [e.cont, map_append_nil]
  · rw [e.ret, List.append_nil]

/-- The same for a single expression: `&&` and `||` do not evaluate the second operand in vain. -/
theorem C21_expressions {g g' : Gen σ} {e : Expr σ} (h : genExpr g e = .ok g')
    (C : Code σ) (hC : ∀ i, g.ip ≤ i → i < g'.ip → C i = codeOf g' i) (c : Cfg σ) (hc : c.ip = g.ip) :
    (∀ s v, e.eval c.data = some (s, v) →
      ∃ k, Steps C k c { c with ip := g'.ip, data := s, stack := v :: c.stack }) ∧
    (e.eval c.data = none → Errs C c) := by
  have sm := expr_sim e _ _ c ((genExpr_shape e g g' h).2 C hC) hc
  unfold ExprSim at sm
  refine ⟨fun s v hv => ?_, fun hv => ?_⟩
  · rw [hv] at sm; exact sm
  · rw [hv] at sm; exact sm

/-! ## Examples -/

section Examples

/-- A generator with nothing in it. -/
def empty (σ : Type) : Gen σ := ⟨[], [], none, none, []⟩

def get (f : Int → Int) : Expr (Int × Int) := .atom fun s => some (s, f s.1)
def set (f : Int × Int → Int × Int) : Stmt (Int × Int) := .act fun s => some (f s)

/-- `for i := 0; i < 10; i++ { if i == 3 && true { continue }; if i == 7 { break }; sum += i }`. -/
def demo : Stmt (Int × Int) :=
  .loop (get fun i => if i < 10 then 1 else 0)
    (.seq (.ifThen (.and (get fun i => if i = 3 then 1 else 0) (get fun _ => 1)) .cont)
      (.seq (.ifThen (get fun i => if i = 7 then 1 else 0) .brk)
        (.switch (get id)
          (.cons [1, 2] (set fun s => (s.1, s.2 + 100 * s.1)) (.cons [5] .ret .nil))
          (set fun s => (s.1, s.2 + s.1)))))
    (some fun s => some (s.1 + 1, s.2))

def compiles (p : Stmt (Int × Int)) : Bool :=
  match genFn (empty _) p with
  | .ok _ => true
  | .error _ => false

example : compiles demo = true := by decide +kernel
example : Ends demo (0, 0) .ret (5, 304) := ⟨9, by
  simp [demo, exec, iterate, iterate.next, get, set, Expr.eval, Res.andThen, execCases, Res.ofOption]⟩
example : demo.tidy = true := by decide

/-- `for { }` runs forever, in the program and in the machine. -/
example : Diverges (.loop (get fun _ => 1) .skip none) (0, 0) := by
  intro n
  have : ∀ k, iterate (get fun _ => 1).eval (exec n (.skip : Stmt (Int × Int)))
      (fun s => match (none : Option (Int × Int → Option (Int × Int))) with
        | none => some s | some f => f s) k (0, 0) = .timeout := by
    intro k
    induction k with
    | zero => rw [iterate]
    | succ k ih => simp [iterate, get, Expr.eval, exec, iterate.next] at ih ⊢; exact ih
  rw [exec]; exact this n

example : Fails (.seq (.act fun s : Int × Int => some s) (.act fun _ => none)) (0, 0) :=
  ⟨0, by decide +kernel⟩

end Examples

/-! ## A type switch leaks -/

/-- `for i > 0 { i--; switch v := type(a) { case T: continue } }`. -/
def leak : Stmt Nat :=
  .loop (.atom fun s => some (s, s))
    (.seq (.act fun s => some (s - 1))
      (.typeSwitch (.atom fun s => some (s, 7)) (.cons (fun _ v => v) (fun s _ => some s) .cont .nil)
        .skip))
    none

/-- The code of `leak`. -/
def leakCode (i : Nat) : Option (Instr Nat) :=
  match genFn (empty Nat) leak with
  | .ok g => g.code[i]?
  | .error _ => none

/-- **C21** is violated: each `continue` in a type switch leaves the switched value on the stack, so
after `m` iterations `m` values have piled up, for every `m`.  The stack of a fiber has a fixed size:
a long enough loop ends with "Stack overflow". -/
theorem C21_type_switch_leak_violated (m : Nat) (stack : List Int) :
    Ends leak m .normal 0 ∧
    ∃ k reg junk, Steps leakCode k ⟨0, stack, 0, [], m⟩ ⟨1, junk ++ stack, reg, stack, 0⟩ ∧
      junk.length = m := by
  have step1 : ∀ (n : Nat) (st base : List Int) (r : Int),
      Steps leakCode 13 ⟨1, st, r, base, n + 1⟩ ⟨1, 7 :: st, r, base, n⟩ := by
    intro n st base r
    refine ⟨⟨2, (n + 1 : Nat) :: st, r, base, n + 1⟩, rfl, ?_⟩
    refine ⟨⟨3, st, r, base, n + 1⟩, ?_, ?_⟩
    · show StepRes.next _ = _
      have : ((n + 1 : Nat) : Int) ≠ 0 := by omega
      simp only [if_pos this]
    refine ⟨⟨4, st, r, base, n⟩, rfl, ?_⟩
    refine ⟨⟨5, 7 :: st, r, base, n⟩, rfl, ?_⟩
    refine ⟨⟨6, 7 :: 7 :: st, r, base, n⟩, rfl, ?_⟩
    refine ⟨⟨7, 7 :: 7 :: st, r, base, n⟩, rfl, ?_⟩
    refine ⟨⟨8, 7 :: 7 :: 7 :: st, r, base, n⟩, rfl, ?_⟩
    refine ⟨⟨9, 0 :: 7 :: 7 :: 7 :: st, r, base, n⟩, rfl, ?_⟩
    refine ⟨⟨10, 1 :: 7 :: 7 :: st, r, base, n⟩, rfl, ?_⟩
    refine ⟨⟨11, 7 :: 7 :: st, r, base, n⟩, rfl, ?_⟩
    refine ⟨⟨12, 7 :: st, r, base, n⟩, rfl, ?_⟩
    refine ⟨⟨16, 7 :: st, r, base, n⟩, rfl, ?_⟩
    exact ⟨⟨1, 7 :: st, r, base, n⟩, rfl, rfl⟩
  have run : ∀ (n : Nat) (st base : List Int) (r : Int),
      Steps leakCode (13 * n) ⟨1, st, r, base, n⟩ ⟨1, List.replicate n 7 ++ st, r, base, 0⟩ := by
    intro n
    induction n with
    | zero => intro st base r; rfl
    | succ n ih =>
      intro st base r
      have := (step1 n st base r).trans (ih (7 :: st) base r)
      rw [List.append_cons, ← List.replicate_succ'] at this
      rw [Nat.mul_succ, Nat.add_comm]
      exact this
  refine ⟨?_, 1 + 13 * m, 0, List.replicate m 7, ?_, List.length_replicate⟩
  · have it : ∀ (j n : Nat), iterate (Expr.eval (.atom fun s : Nat => some (s, (s : Int))))
        (exec n (.seq (.act fun s => some (s - 1))
          (.typeSwitch (.atom fun s => some (s, 7))
            (.cons (fun _ v => v) (fun s _ => some s) .cont .nil) .skip)))
        (fun s => match (none : Option (Nat → Option Nat)) with | none => some s | some f => f s)
        (j + 1) j = .done .normal 0 := by
      intro j n
      induction j with
      | zero => rw [iterate]; rfl
      | succ j ih =>
        rw [iterate]
        simp only [Expr.eval, exec, Res.ofOption, Res.andThen, execTypeCases]
        have h1 : ¬ (((j + 1 : Nat) : Int) = 0) := by omega
        have h2 : (7 : Int) ≠ 0 := by decide
        rw [if_neg h1]
        simp only [if_pos h2]
        rw [iterate.next]
        exact ih
    exact ⟨m + 1, by unfold leak; rw [exec]; exact it m (m + 1)⟩
  · have a1 : Steps leakCode 1 ⟨0, stack, 0, [], m⟩ ⟨1, stack, 0, stack, m⟩ := ⟨_, rfl, rfl⟩
    exact a1.trans (run m stack stack 0)

example : leak.tidy = false := by decide

/-! ## C67: results -/

/-- A statement that contains a `return` outside all inner blocks does not end normally. -/
theorem returns_top (n : Nat) : ∀ (p : Stmt σ) (flag : Bool), hasReturn flag p = true →
    flag = true ∨ ∀ s s', exec n p s ≠ .done .normal s'
  | .ret, _, _ => .inr fun s s' h => by simp [exec] at h
  | .seq a b, flag, h => by
    rcases returns_top n b _ h with h1 | h1
    · rcases returns_top n a flag h1 with h2 | h2
      · exact .inl h2
      · refine .inr fun s s' h => ?_
        rw [exec] at h
        cases ha : exec n a s with
        | done o s1 =>
          rw [ha] at h
          cases o with
          | normal => exact h2 s s1 ha
          | _ => simp [Res.andThen] at h
        | error => rw [ha] at h; cases h
        | timeout => rw [ha] at h; cases h
    · refine .inr fun s s' h => ?_
      rw [exec] at h
      cases ha : exec n a s with
      | done o s1 =>
        rw [ha] at h
        cases o with
        | normal => exact h1 s1 s' h
        | _ => simp [Res.andThen] at h
      | error => rw [ha] at h; cases h
      | timeout => rw [ha] at h; cases h
  | .act _, _, h => .inl h
  | .use _ _, _, h => .inl h
  | .skip, _, h => .inl h
  | .ifThen _ _, _, h => .inl h
  | .ifElse _ _ _, _, h => .inl h
  | .switch _ _ _, _, h => .inl h
  | .typeSwitch _ _ _, _, h => .inl h
  | .loop _ _ _, _, h => .inl h
  | .forPost _ _ _ _, _, h => .inl h
  | .brk, _, h => .inl h
  | .cont, _, h => .inl h

/-- **C67**: if a function with a result compiles, its body can end in no other way than by a `return` statement; the machine then returns to
the caller in the state in which that statement has left it. -/
theorem C67_result {g g' : Gen σ} {body : Stmt σ} (h : compileFn g false body = .ok g')
    (C : Code σ) (hC : ∀ i, g.ip ≤ i → i < g'.ip → C i = codeOf g' i)
    (stack : List Int) (reg : Int) (base : List Int) (s : σ) (o : Out) (s' : σ) (he : Ends body s o s') :
    o = .ret ∧ Returns C (start g stack reg base s) stack s' := by
  unfold compileFn at h
  cases hg : genFn g body with
  | error e => rw [hg] at h; cases h
  | ok g1 =>
    rw [hg] at h
    cases hr : hasReturn false body with
    | false => rw [show (Except.ok g1 >>= fun g => _) = _ from rfl, hr] at h; cases h
    | true =>
      rw [show (Except.ok g1 >>= fun g => _) = _ from rfl, hr] at h
      injection h with h
      subst h
      have h1 := (C21_control_statements hg C hC stack reg base s).1 o s' he
      refine ⟨?_, h1.2⟩
      obtain ⟨n, hn⟩ := he
      rcases h1.1 with rfl | rfl
      · rcases returns_top n body false hr with h2 | h2
        · cases h2
        · exact absurd hn (h2 s s')
      · rfl

theorem hasReturn_parts : ∀ (p : Stmt σ) (flag : Bool), hasReturn flag p = true ↔ flag = true ∨ .ret ∈ p.parts
  | .ret, _ => by simp [hasReturn, Stmt.parts]
  | .seq a b, flag => by
    rw [hasReturn, hasReturn_parts b, hasReturn_parts a, Stmt.parts, List.mem_append, or_assoc]
  | .act _, _ => by simp [hasReturn, Stmt.parts]
  | .use _ _, _ => by simp [hasReturn, Stmt.parts]
  | .skip, _ => by simp [hasReturn, Stmt.parts]
  | .ifThen _ _, _ => by simp [hasReturn, Stmt.parts]
  | .ifElse _ _ _, _ => by simp [hasReturn, Stmt.parts]
  | .switch _ _ _, _ => by simp [hasReturn, Stmt.parts]
  | .typeSwitch _ _ _, _ => by simp [hasReturn, Stmt.parts]
  | .loop _ _ _, _ => by simp [hasReturn, Stmt.parts]
  | .forPost _ _ _ _, _ => by simp [hasReturn, Stmt.parts]
  | .brk, _ => by simp [hasReturn, Stmt.parts]
  | .cont, _ => by simp [hasReturn, Stmt.parts]

/-- **C67**: a function with a result compiles only if one of the statements of its body is a `return`, one inside an `if`, a `switch` or a `for`
does not count; nothing else is asked of it, and nothing of a function without a result. -/
theorem C67_refused (g : Gen σ) (body : Stmt σ) :
    (.ret ∉ body.parts → ∀ g', compileFn g false body ≠ .ok g') ∧
    (.ret ∈ body.parts → compileFn g false body = genFn g body) ∧ compileFn g true body = genFn g body := by
  refine ⟨?_, ?_, ?_⟩
  · intro hr g' h
    have hr : hasReturn false body = false := by
      cases hb : hasReturn false body with
      | false => rfl
      | true => exact absurd ((hasReturn_parts body false).1 hb) (by simp [hr])
    unfold compileFn at h
    cases hg : genFn g body with
    | error e => rw [hg] at h; cases h
    | ok g1 => rw [hg, show (Except.ok g1 >>= fun g => _) = _ from rfl, hr] at h; cases h
  · intro hr
    have hr : hasReturn false body = true := (hasReturn_parts body false).2 (.inr hr)
    unfold compileFn
    cases hg : genFn g body with
    | error e => rfl
    | ok g1 =>
      show (if (!hasReturn false body && !false) = true then _ else _) = _
      rw [hr]
      rfl
  · unfold compileFn
    cases hg : genFn g body with
    | error e => rfl
    | ok g1 =>
      show (if (!hasReturn false body && !true) = true then _ else _) = _
      rw [Bool.not_true, Bool.and_false]
      rfl

/-- `if x > 0 { return 1 }; return 2` compiles; `if x > 0 { return 1 } else { return 2 }`, which also returns in all cases, does not. -/
example : (∃ g', compileFn (empty (Int × Int)) false (.seq (.ifThen (.atom fun s => some (s, s.1)) (.seq (.act fun s => some (s.1, 1)) .ret))
      (.seq (.act fun s => some (s.1, 2)) .ret)) = .ok g') ∧
    Ends (.seq (.ifThen (.atom fun s => some (s, s.1)) (.seq (.act fun s => some (s.1, 1)) .ret))
      (.seq (.act fun s => some (s.1, 2)) .ret)) ((5, 0) : Int × Int) .ret (5, 1) ∧
    compileFn (empty (Int × Int)) false
      (.ifElse (.atom fun s => some (s, s.1)) (.seq (.act fun s => some (s.1, 1)) .ret) (.seq (.act fun s => some (s.1, 2)) .ret)) =
      .error (.err .mustReturn) :=
  ⟨⟨_, rfl⟩, ⟨0, by decide +kernel⟩, rfl⟩

/-! ## C23 -/

/-- **C23**: no table of pending jumps is overrun as long as not more than 100 positions of jumps are
pending at the same time: those of enclosing functions, one for the function, and those of its
statements.  The tables of `break`, `continue` and `return` are never overrun. -/
theorem C23_tables_partial (g : Gen σ) (body : Stmt σ)
    (h : g.stack.length + 1 + body.pending ≤ 100) : genFn g body ≠ .error .ub := by
  unfold genFn
  refine safe_bind (safe_savePos (by omega)) fun g1 h1 => ?_
  have t1 := savePos_ok h1
  refine safe_bind (genStmt_safe body _ (by
    show g1.stack.length + _ ≤ 100; rw [t1, List.length_cons]; omega)) fun g2 h2 => ?_
  obtain ⟨_, _, _, e2, _⟩ := genStmt_shape body _ g2 h2
  refine safe_bind (safe_restorePos (p := g.ip) (st := g.stack) ?_) fun _ _ => safe_ok _
  show (gotosEpilog g2 _).stack = _
  rw [gotosEpilog_stack, e2.stack]
  show g1.stack = _
  rw [t1]

/-- **C23**: the bound is exact.  A function that needs more pending positions is never compiled
correctly, and no check reports it. -/
theorem C23_bound_exact (g g' : Gen σ) (body : Stmt σ) (h : genFn g body = .ok g') :
    g.stack.length + 1 + body.pending ≤ 100 := by
  unfold genFn at h
  obtain ⟨g1, h1, h⟩ := bind_eq_ok h
  obtain ⟨g2, h2, h⟩ := bind_eq_ok h
  have b1 := savePos_bound h1
  have l1 : g1.stack.length = g.stack.length + 1 := by rw [savePos_ok h1]; rfl
  have b2 := genStmt_bound body _ g2 (by show g1.stack.length ≤ 100; omega) h2
  have b2 : g1.stack.length + body.pending ≤ 100 := b2
  omega

/-- **C23**: too many `break`, `continue` or `return` statements are reported. -/
theorem C23_too_many_gotos (g : Gen σ) :
    (∀ l, g.breaks = some l → l.length ≥ 100 → genStmt g .brk = .error (.err .tooManyGotos)) ∧
    (∀ l, g.continues = some l → l.length ≥ 100 → genStmt g .cont = .error (.err .tooManyGotos)) ∧
    (g.returns.length ≥ 100 → genStmt g .ret = .error (.err .tooManyGotos)) := by
  refine ⟨fun l hl h => ?_, fun l hl h => ?_, fun h => ?_⟩
  · rw [genStmt, breakStub, hl]
    simp only [addGoto, if_pos h]; rfl
  · rw [genStmt, continueStub, hl]
    simp only [addGoto, if_pos h]; rfl
  · rw [genStmt, returnStub]
    simp only [addGoto, if_pos h]; rfl

/-- A `switch` with so many cases. -/
def manyCases : Nat → Cases Unit
  | 0 => .nil
  | n + 1 => .cons [n] .skip (manyCases n)

def outcome (p : Stmt Unit) : Option Fault :=
  match genFn (empty Unit) p with
  | .ok _ => none
  | .error e => some e

/-- **C23** is violated: a `switch` with 100 cases, and a case with 100 constants, make the compiler
write beyond its table.  With 99 they are compiled. -/
theorem C23_switch_violated :
    outcome (.switch (.atom fun s => some (s, 0)) (manyCases 100) .skip) = some .ub ∧
    outcome (.switch (.atom fun s => some (s, 0))
      (.cons ((List.range 100).map Int.ofNat) .skip .nil) .skip) = some .ub ∧
    outcome (.switch (.atom fun s => some (s, 0)) (manyCases 99) .skip) = none ∧
    outcome (.switch (.atom fun s => some (s, 0))
      (.cons ((List.range 99).map Int.ofNat) .skip .nil) .skip) = none := by
  decide +kernel

/-- A hundred nested statements are within reach, a hundred case labels are not. -/
example : (Stmt.switch (.atom fun s : Unit => some (s, 0)) (manyCases 99) .skip).pending = 99 := by
  decide +kernel
example : demo.pending = 4 := by decide

end Umka.Control.Props
