import Verif.Control.Fn
/-! # Control statements: the stack of pending positions -/

namespace Umka.Control
open Spec

variable {σ : Type}

/-- No write or read outside the table. -/
def Safe {α : Type} (m : M α) : Prop := m ≠ .error .ub

theorem safe_ok {α : Type} (x : α) : Safe (.ok x : M α) := by intro h; cases h

theorem safe_bind {α β : Type} {m : M α} {f : α → M β} (h : Safe m)
    (hf : ∀ x, m = .ok x → Safe (f x)) : Safe (m >>= f) := by
  cases m with
  | ok x => exact hf x rfl
  | error e =>
    intro h'
    exact h (by injection h' with h'; rw [h'])

theorem safe_savePos {g : Gen σ} (h : g.stack.length < 100) : Safe (savePos g) := by
  unfold savePos; rw [if_pos h]; exact safe_ok _

theorem savePos_bound {g g' : Gen σ} (h : savePos g = .ok g') : g.stack.length < 100 := by
  unfold savePos at h
  split at h
  · assumption
  · cases h

theorem safe_restorePos {g : Gen σ} {p : Nat} {st : List Nat} (h : g.stack = p :: st) :
    Safe (restorePos g) := by
  rw [restorePos_cons h]; exact safe_ok _

theorem ifCondEpilog_safe {g : Gen σ} (h : g.stack.length < 100) : Safe (ifCondEpilog g) :=
  safe_bind (safe_savePos h) fun _ _ => safe_ok _

theorem ifCondEpilog_bound {g g' : Gen σ} (h : ifCondEpilog g = .ok g') : g.stack.length < 100 := by
  obtain ⟨g1, h1, _⟩ := bind_eq_ok h
  exact savePos_bound h1

theorem ext_length {g g' : Gen σ} {ns nb nk nr : List Nat} (e : Ext g g' ns nb nk nr) :
    g'.stack.length = ns.length + g.stack.length := by rw [e.stack, List.length_append]

theorem fill_safe {g g1 : Gen σ} {p : Nat} {ns nb nk nr : List Nat}
    (e : Ext g g1 (p :: ns) nb nk nr) : Safe (ifEpilog g1) ∧ Safe (ifElseEpilog g1) ∧
    (g.stack.length + ns.length < 100 → Safe (elseProlog g1) ∧ Safe (caseBlockEpilog g1)) := by
  have hr := safe_restorePos e.stack
  have hst : ∀ x, restorePos g1 = .ok x → x.2.stack = ns ++ g.stack := by
    intro x hx
    rw [restorePos_cons e.stack] at hx
    injection hx with hx
    rw [← hx]; rfl
  refine ⟨safe_bind hr fun _ _ => safe_ok _, safe_bind hr fun _ _ => safe_ok _, fun hl =>
    ⟨safe_bind hr fun x hx => safe_bind (safe_savePos ?_) fun _ _ => safe_ok _,
     safe_bind hr fun x hx => safe_bind (safe_savePos ?_) fun _ _ => safe_ok _⟩⟩
  all_goals
    show x.2.stack.length < 100
    rw [hst x hx, List.length_append]; omega

/-! ## Expressions -/

theorem genExpr_safe (e : Expr σ) : ∀ g : Gen σ, g.stack.length + e.pending ≤ 100 →
    Safe (genExpr g e) := by
  induction e with
  | atom f => intro g _; exact safe_ok _
  | unary f e ih =>
    intro g h
    rw [genExpr]
    exact safe_bind (ih g h) fun _ _ => safe_ok _
  | binary f a b iha ihb =>
    intro g h
    rw [Expr.pending] at h
    rw [genExpr]
    refine safe_bind (iha g (by omega)) fun g1 h1 => safe_bind (ihb g1 ?_) fun _ _ => safe_ok _
    have := ext_length (genExpr_shape a g g1 h1).1
    rw [List.length_nil] at this; omega
  | and a b iha ihb =>
    intro g h
    rw [Expr.pending] at h
    rw [genExpr]
    refine safe_bind (iha g (by omega)) fun g1 h1 => ?_
    have l1 := ext_length (genExpr_shape a g g1 h1).1
    rw [List.length_nil] at l1
    refine safe_bind (safe_bind (safe_savePos (by show g1.stack.length < 100; omega))
      fun _ _ => safe_ok _) fun g2 h2 => ?_
    obtain ⟨g1', h1', h2⟩ := bind_eq_ok h2
    injection h2 with h2
    rw [savePos_ok h1'] at h2
    have t2 : g2.stack = (emit g1 (.dup : Instr σ)).ip :: g1.stack := by rw [← h2]; rfl
    refine safe_bind (ihb g2 (by rw [t2, List.length_cons]; omega)) fun g3 h3 => ?_
    have t3 := (genExpr_shape b g2 g3 h3).1.stack
    rw [t2] at t3
    exact safe_bind (safe_restorePos t3) fun _ _ => safe_ok _
  | or a b iha ihb =>
    intro g h
    rw [Expr.pending] at h
    rw [genExpr]
    refine safe_bind (iha g (by omega)) fun g1 h1 => ?_
    have l1 := ext_length (genExpr_shape a g g1 h1).1
    rw [List.length_nil] at l1
    refine safe_bind (safe_bind (safe_savePos (by show g1.stack.length < 100; omega))
      fun _ _ => safe_ok _) fun g2 h2 => ?_
    obtain ⟨g1', h1', h2⟩ := bind_eq_ok h2
    injection h2 with h2
    rw [savePos_ok h1'] at h2
    have t2 : g2.stack = (emit g1 (.dup : Instr σ)).ip :: g1.stack := by rw [← h2]; rfl
    refine safe_bind (ihb g2 (by rw [t2, List.length_cons]; omega)) fun g3 h3 => ?_
    have t3 := (genExpr_shape b g2 g3 h3).1.stack
    rw [t2] at t3
    exact safe_bind (safe_restorePos t3) fun _ _ => safe_ok _

theorem genExpr_bound (e : Expr σ) : ∀ g g' : Gen σ, g.stack.length ≤ 100 → genExpr g e = .ok g' →
    g.stack.length + e.pending ≤ 100 := by
  induction e with
  | atom f => intro g g' hg _; exact hg
  | unary f e ih =>
    intro g g' hg h
    rw [genExpr] at h
    obtain ⟨g1, h1, _⟩ := bind_eq_ok h
    exact ih g g1 hg h1
  | binary f a b iha ihb =>
    intro g g' hg h
    rw [genExpr] at h
    obtain ⟨g1, h1, h⟩ := bind_eq_ok h
    obtain ⟨g2, h2, h⟩ := bind_eq_ok h
    have l1 := ext_length (genExpr_shape a g g1 h1).1
    rw [List.length_nil] at l1
    have b1 := iha g g1 hg h1
    have b2 := ihb g1 g2 (by omega) h2
    rw [Expr.pending]; omega
  | and a b iha ihb =>
    intro g g' hg h
    rw [genExpr] at h
    obtain ⟨g1, h1, h⟩ := bind_eq_ok h
    obtain ⟨g2, h2, h⟩ := bind_eq_ok h
    obtain ⟨g3, h3, h⟩ := bind_eq_ok h
    have l1 := ext_length (genExpr_shape a g g1 h1).1
    rw [List.length_nil] at l1
    have b1 := iha g g1 hg h1
    obtain ⟨g1', h1', h2⟩ := bind_eq_ok h2
    have b2 := savePos_bound h1'
    have b2 : g1.stack.length < 100 := b2
    injection h2 with h2
    rw [savePos_ok h1'] at h2
    have t2 : g2.stack = (emit g1 (.dup : Instr σ)).ip :: g1.stack := by rw [← h2]; rfl
    have l2 : g2.stack.length = g1.stack.length + 1 := by rw [t2]; rfl
    have b3 := ihb g2 g3 (by omega) h3
    rw [Expr.pending]; omega
  | or a b iha ihb =>
    intro g g' hg h
    rw [genExpr] at h
    obtain ⟨g1, h1, h⟩ := bind_eq_ok h
    obtain ⟨g2, h2, h⟩ := bind_eq_ok h
    obtain ⟨g3, h3, h⟩ := bind_eq_ok h
    have l1 := ext_length (genExpr_shape a g g1 h1).1
    rw [List.length_nil] at l1
    have b1 := iha g g1 hg h1
    obtain ⟨g1', h1', h2⟩ := bind_eq_ok h2
    have b2 := savePos_bound h1'
    have b2 : g1.stack.length < 100 := b2
    injection h2 with h2
    rw [savePos_ok h1'] at h2
    have t2 : g2.stack = (emit g1 (.dup : Instr σ)).ip :: g1.stack := by rw [← h2]; rfl
    have l2 : g2.stack.length = g1.stack.length + 1 := by rw [t2]; rfl
    have b3 := ihb g2 g3 (by omega) h3
    rw [Expr.pending]; omega

/-! ## Case constants -/

theorem caseConstantCheck_safe {g : Gen σ} {k : Int} (h : g.stack.length < 100) :
    Safe (caseConstantCheck g k) :=
  safe_bind (safe_savePos h) fun _ _ => safe_ok _

theorem caseConstants_safe (ks : List Int) : ∀ g : Gen σ, g.stack.length + ks.length ≤ 100 →
    Safe (caseConstants g ks) := by
  induction ks with
  | nil => intro g _; exact safe_ok _
  | cons k ks ih =>
    intro g h
    rw [List.length_cons] at h
    rw [caseConstants]
    refine safe_bind (caseConstantCheck_safe (by omega)) fun g1 h1 => ih g1 ?_
    have := ext_length (caseConstantCheck_ok h1).2.1
    rw [List.length_singleton] at this; omega

theorem caseConstants_bound (ks : List Int) : ∀ g g' : Gen σ, g.stack.length ≤ 100 →
    caseConstants g ks = .ok g' → g.stack.length + ks.length ≤ 100 := by
  induction ks with
  | nil => intro g g' h _; exact h
  | cons k ks ih =>
    intro g g' hg h
    rw [caseConstants] at h
    obtain ⟨g1, h1, h⟩ := bind_eq_ok h
    have l := ext_length (caseConstantCheck_ok h1).2.1
    rw [List.length_singleton] at l
    obtain ⟨g2, h2, _⟩ := bind_eq_ok h1
    have b := savePos_bound h2
    have b : g.stack.length < 100 := b
    have := ih g1 g' (by omega) h
    rw [List.length_cons]; omega

theorem patchCases_safe {g : Gen σ} {ns nb nk nr : List Nat} (ps : List Nat) :
    ∀ {g1 : Gen σ}, Ext g g1 (ps ++ ns) nb nk nr → Safe (patchCases g1 ps.length) := by
  induction ps with
  | nil => intro g1 _; exact safe_ok _
  | cons p ps ih =>
    intro g1 e
    rw [List.length_cons, patchCases, (ext_patch .nop e).1, bind_ok]
    exact ih (filled_patch _ e).ext

theorem switchEpilog_safe {g : Gen σ} {ns nb nk nr : List Nat} (ps : List Nat) :
    ∀ {g1 : Gen σ}, Ext g g1 (ps ++ ns) nb nk nr → Safe (switchEpilog g1 ps.length) := by
  induction ps with
  | nil => intro g1 _; exact safe_ok _
  | cons p ps ih =>
    intro g1 e
    rw [List.length_cons, switchEpilog, (ext_patch .nop e).1, bind_ok]
    exact ih (filled_patch _ e).ext

theorem caseBlockProlog_safe {g g1 : Gen σ} {ps : List Nat} (e : Ext g g1 ps [] [] [])
    (h : g.stack.length < 100) : Safe (caseBlockProlog g1 ps.length) := by
  have e' : Ext g g1 (ps ++ []) [] [] [] := by simpa using e
  refine safe_bind (patchCases_safe ps e') fun g2 h2 => safe_bind (safe_savePos ?_) fun _ _ => safe_ok _
  rw [(patchCases_ok ps e' h2).ext.stack]
  exact h

theorem caseBlockProlog_bound {g g1 g2 : Gen σ} {ps : List Nat} (e : Ext g g1 ps [] [] [])
    (h : caseBlockProlog g1 ps.length = .ok g2) : g.stack.length < 100 := by
  have e' : Ext g g1 (ps ++ []) [] [] [] := by simpa using e
  obtain ⟨g3, h3, h⟩ := bind_eq_ok h
  obtain ⟨g4, h4, h⟩ := bind_eq_ok h
  have := savePos_bound h4
  rw [(patchCases_ok ps e' h3).ext.stack] at this
  exact this

theorem whileEpilog_safe {g : Gen σ} {p q : Nat} {st : List Nat} (hs : g.stack = p :: q :: st) :
    Safe (whileEpilog g) := by
  unfold whileEpilog
  rw [restorePos_cons hs, bind_ok]
  exact safe_bind (safe_restorePos (p := q) (st := st) rfl) fun _ _ => safe_ok _

theorem forPostStmtEpilog_safe {g : Gen σ} {p q : Nat} {st : List Nat} (hs : g.stack = p :: q :: st) :
    Safe (forPostStmtEpilog g) := by
  unfold forPostStmtEpilog
  rw [restorePos_cons hs, bind_ok]
  exact safe_bind (safe_restorePos (p := q) (st := st) rfl) fun _ _ => safe_ok _

theorem gotosEpilog_stack (ps : List Nat) : ∀ g : Gen σ, (gotosEpilog g ps).stack = g.stack := by
  induction ps with
  | nil => intro g; rfl
  | cons p ps ih => intro g; rw [gotosEpilog, ih]; rfl

/-! ## Statements -/

theorem addGoto_safe (l : List Nat) (ip : Nat) : Safe (addGoto l ip) := by
  unfold addGoto
  split
  · intro h; cases h
  · rw [if_pos (by omega)]; exact safe_ok _

theorem stub_safe (g : Gen σ) : Safe (breakStub g) ∧ Safe (continueStub g) ∧ Safe (returnStub g) := by
  refine ⟨?_, ?_, safe_bind (addGoto_safe _ _) fun _ _ => safe_ok _⟩
  · unfold breakStub
    split
    · intro h; cases h
    · exact safe_bind (addGoto_safe _ _) fun _ _ => safe_ok _
  · unfold continueStub
    split
    · intro h; cases h
    · exact safe_bind (addGoto_safe _ _) fun _ _ => safe_ok _

mutual
theorem genStmt_safe : ∀ (p : Stmt σ) (g : Gen σ), g.stack.length + p.pending ≤ 100 →
    Safe (genStmt g p)
  | .act f, g, _ => safe_ok _
  | .use e f, g, h => by
    rw [Stmt.pending] at h
    rw [genStmt]
    exact safe_bind (genExpr_safe e g h) fun _ _ => safe_ok _
  | .skip, g, _ => safe_ok _
  | .brk, g, _ => (stub_safe g).1
  | .cont, g, _ => (stub_safe g).2.1
  | .ret, g, _ => (stub_safe g).2.2
  | .seq a b, g, h => by
    rw [Stmt.pending] at h
    rw [genStmt]
    refine safe_bind (genStmt_safe a g (by omega)) fun g1 h1 => genStmt_safe b g1 ?_
    obtain ⟨_, _, _, e, _⟩ := genStmt_shape a g g1 h1
    have l := ext_length e; rw [List.length_nil] at l; omega
  | .ifThen c a, g, h => by
    rw [Stmt.pending] at h
    rw [genStmt]
    refine safe_bind (genExpr_safe c g (by omega)) fun g1 h1 => ?_
    have e1 := (genExpr_shape c g g1 h1).1
    have l1 := ext_length e1; rw [List.length_nil] at l1
    refine safe_bind (ifCondEpilog_safe (by omega)) fun g2 h2 => ?_
    have e2 := (ifCondEpilog_ok h2).2
    have l2 := ext_length e2; rw [List.length_singleton] at l2
    refine safe_bind (genStmt_safe a g2 (by omega)) fun g3 h3 => ?_
    obtain ⟨_, _, _, e3, _⟩ := genStmt_shape a g2 g3 h3
    exact (fill_safe ((e1.trans e2).trans e3)).1
  | .ifElse c a b, g, h => by
    rw [Stmt.pending] at h
    rw [genStmt]
    refine safe_bind (genExpr_safe c g (by omega)) fun g1 h1 => ?_
    have e1 := (genExpr_shape c g g1 h1).1
    have l1 := ext_length e1; rw [List.length_nil] at l1
    refine safe_bind (ifCondEpilog_safe (by omega)) fun g2 h2 => ?_
    have e2 := (ifCondEpilog_ok h2).2
    have l2 := ext_length e2; rw [List.length_singleton] at l2
    refine safe_bind (genStmt_safe a g2 (by omega)) fun g3 h3 => ?_
    obtain ⟨_, _, _, e3, _⟩ := genStmt_shape a g2 g3 h3
    have e13 : Ext g g3 [g1.ip] _ _ _ := (e1.trans e2).trans e3
    refine safe_bind ((fill_safe e13).2.2 (by rw [List.length_nil]; omega)).1 fun g4 h4 => ?_
    have m := elseProlog_ok e13 h4
    have l4 := ext_length m.ext
    rw [List.length_cons, List.length_nil] at l4
    refine safe_bind (genStmt_safe b g4 (by omega)) fun g5 h5 => ?_
    obtain ⟨_, _, _, e5, _⟩ := genStmt_shape b g4 g5 h5
    exact (fill_safe (m.ext.trans e5)).2.1
  | .switch e cs d, g, h => by
    rw [Stmt.pending] at h
    rw [genStmt]
    refine safe_bind (genExpr_safe e g (by omega)) fun g1 h1 => ?_
    have e1 := (genExpr_shape e g g1 h1).1.trans (ext_emit g1 .popReg)
    have l1 := ext_length e1
    simp only [List.nil_append, List.length_nil] at l1
    refine safe_bind (genCases_safe cs d.pending _ (by omega)).1 fun x hx => ?_
    obtain ⟨g2, n⟩ := x
    have b2 := (genCases_safe cs d.pending (emit g1 .popReg) (by omega)).2 g2 n hx
    obtain ⟨ns, nb, nk, nr, nl, e2, _⟩ := genCases_shape cs _ g2 n hx
    refine safe_bind (genStmt_safe d g2 b2) fun g3 h3 => ?_
    obtain ⟨nb', nk', nr', e3, _⟩ := genStmt_shape d g2 g3 h3
    have e13 := (e1.trans e2).trans e3
    rw [← nl]
    exact switchEpilog_safe (ns := []) ns (by simpa using e13)
  | .typeSwitch e cs d, g, h => by
    rw [Stmt.pending] at h
    rw [genStmt]
    refine safe_bind (genExpr_safe e g (by omega)) fun g1 h1 => ?_
    have e1 := (genExpr_shape e g g1 h1).1
    have l1 := ext_length e1
    simp only [List.length_nil] at l1
    refine safe_bind (genTypeCases_safe cs d.pending _ (by omega)).1 fun x hx => ?_
    obtain ⟨g2, n⟩ := x
    have b2 := (genTypeCases_safe cs d.pending g1 (by omega)).2 g2 n hx
    obtain ⟨ns, nb, nk, nr, nl, e2, _⟩ := genTypeCases_shape cs _ g2 n hx
    refine safe_bind (genStmt_safe d g2 b2) fun g3 h3 => ?_
    obtain ⟨nb', nk', nr', e3, _⟩ := genStmt_shape d g2 g3 h3
    have e13 := (e1.trans e2).trans e3
    rw [← nl]
    exact safe_bind (switchEpilog_safe (ns := []) ns (by simpa using e13)) fun _ _ => safe_ok _
  | .loop c body post, g, h => by
    rw [Stmt.pending] at h
    rw [genStmt]
    refine safe_bind (safe_savePos (by show g.stack.length < 100; omega)) fun g0 h0 => ?_
    have l0 : g0.stack.length = g.stack.length + 1 := by rw [savePos_ok h0]; rfl
    have t0 : g0.stack = g.ip :: g.stack := by rw [savePos_ok h0]; rfl
    refine safe_bind (genExpr_safe c g0 (by omega)) fun g1 h1 => ?_
    have e1 := (genExpr_shape c g0 g1 h1).1
    have l1 := ext_length e1; rw [List.length_nil] at l1
    refine safe_bind (ifCondEpilog_safe (by omega)) fun g2 h2 => ?_
    have e2 := (ifCondEpilog_ok h2).2
    have l2 := ext_length e2; rw [List.length_singleton] at l2
    refine safe_bind (genStmt_safe body g2 (by omega)) fun g3 h3 => ?_
    obtain ⟨_, _, _, e3, _⟩ := genStmt_shape body g2 g3 h3
    have t3 := ((e1.trans e2).trans e3).stack
    refine safe_bind (whileEpilog_safe (p := g1.ip) (q := g.ip) (st := g.stack) ?_) fun _ _ => safe_ok _
    cases post with
    | none => show (gotosEpilog g3 _).stack = _; rw [gotosEpilog_stack, t3, t0]; rfl
    | some f => show (gotosEpilog g3 _).stack = _; rw [gotosEpilog_stack, t3, t0]; rfl
  | .forPost c p f body, g, h => by
    rw [Stmt.pending] at h
    rw [genStmt]
    refine safe_bind (safe_savePos (by show g.stack.length < 100; omega)) fun g0 h0 => ?_
    have l0 : g0.stack.length = g.stack.length + 1 := by rw [savePos_ok h0]; rfl
    have t0 : g0.stack = g.ip :: g.stack := by rw [savePos_ok h0]; rfl
    have p0 : g0.ip = g.ip := by rw [savePos_ok h0]; rfl
    refine safe_bind (genExpr_safe c g0 (by omega)) fun g1 h1 => ?_
    have e1 := (genExpr_shape c g0 g1 h1).1
    have l1 := ext_length e1; rw [List.length_nil] at l1
    refine safe_bind (safe_bind (safe_savePos (by omega)) fun _ _ => safe_ok _) fun g2 h2 => ?_
    obtain ⟨p2, e2⟩ := forCondEpilog_ok h2
    have l2 := ext_length e2; rw [List.length_singleton] at l2
    refine safe_bind (genExpr_safe p g2 (by omega)) fun g3 h3 => ?_
    have e3 := (genExpr_shape p g2 g3 h3).1
    have e03 := ((e1.trans e2).trans e3).trans (ext_emit g3 (.take f))
    have t3 : (emit g3 (.take f)).stack = g1.ip :: g.ip :: g.stack := by rw [e03.stack, t0]; rfl
    refine safe_bind (forPostStmtEpilog_safe t3) fun g4 h4 => ?_
    have m1 := e1.len; have m3 := e3.len
    have hip := emit_ip g3 (.take f)
    have t4 := (forPostStmtEpilog_ok t3 (by omega) h4).2.1
    refine safe_bind (genStmt_safe body g4 (by rw [t4, List.length_cons]; omega)) fun g5 h5 => ?_
    obtain ⟨_, _, _, e5, _⟩ := genStmt_shape body g4 g5 h5
    refine safe_bind (safe_bind (safe_restorePos (p := g1.ip) (st := g.stack) ?_) fun _ _ => safe_ok _)
      fun _ _ => safe_ok _
    show (gotosEpilog g5 _).stack = _
    rw [gotosEpilog_stack, e5.stack, t4]; rfl
theorem genCases_safe : ∀ (cs : Cases σ) (d : Nat) (g : Gen σ), g.stack.length + cs.pending d ≤ 100 →
    Safe (genCases g cs) ∧ ∀ g' n, genCases g cs = .ok (g', n) → g'.stack.length + d ≤ 100
  | .nil, d, g, h => by
    refine ⟨safe_ok _, fun g' n hg => ?_⟩
    injection hg with hg
    injection hg with h1 h2
    subst h1
    exact h
  | .cons ks body rest, d, g, h => by
    rw [Cases.pending] at h
    rw [genCases]
    have key : ∀ g1, caseConstants g ks = .ok g1 → ∀ g2, caseBlockProlog g1 ks.length = .ok g2 →
        ∀ g3, genStmt g2 body = .ok g3 → ∃ ns nb nk nr, Ext g g3 (g1.ip :: ns) nb nk nr ∧
          ns = [] ∧ ∀ g4, caseBlockEpilog g3 = .ok g4 → g4.stack.length = g.stack.length + 1 := by
      intro g1 h1 g2 h2 g3 h3
      obtain ⟨ps, pl, e1, _⟩ := caseConstants_ok ks h1
      rw [← pl] at h2
      obtain ⟨_, e2, _, _⟩ := caseBlockProlog_ok e1 h2
      obtain ⟨nb, nk, nr, e3, _⟩ := genStmt_shape body g2 g3 h3
      refine ⟨[], _, _, _, e2.trans e3, rfl, fun g4 h4 => ?_⟩
      have l4 := ext_length (caseBlockEpilog_ok (e2.trans e3) h4).ext
      rw [List.length_cons, List.length_nil] at l4
      omega
    refine ⟨?_, ?_⟩
    · refine safe_bind (caseConstants_safe ks g (by omega)) fun g1 h1 => ?_
      obtain ⟨ps, pl, e1, _⟩ := caseConstants_ok ks h1
      refine safe_bind (pl ▸ caseBlockProlog_safe e1 (by omega)) fun g2 h2 => ?_
      have h2' := h2
      rw [← pl] at h2'
      have l2 := ext_length (caseBlockProlog_ok e1 h2').2.1
      rw [List.length_singleton] at l2
      refine safe_bind (genStmt_safe body g2 (by omega)) fun g3 h3 => ?_
      obtain ⟨ns, nb, nk, nr, e3, rfl, k4⟩ := key g1 h1 g2 h2 g3 h3
      refine safe_bind ((fill_safe e3).2.2 (by rw [List.length_nil]; omega)).2 fun g4 h4 => ?_
      have l4 := k4 g4 h4
      exact safe_bind (genCases_safe rest d g4 (by omega)).1 fun _ _ => safe_ok _
    · intro g' n hg
      obtain ⟨g1, h1, hg⟩ := bind_eq_ok hg
      obtain ⟨g2, h2, hg⟩ := bind_eq_ok hg
      obtain ⟨g3, h3, hg⟩ := bind_eq_ok hg
      obtain ⟨g4, h4, hg⟩ := bind_eq_ok hg
      obtain ⟨⟨g5, m⟩, h5, hg⟩ := bind_eq_ok hg
      injection hg with hg
      injection hg with q1 q2
      subst q1
      obtain ⟨_, _, _, _, _, _, k4⟩ := key g1 h1 g2 h2 g3 h3
      have l4 := k4 g4 h4
      exact (genCases_safe rest d g4 (by omega)).2 _ m h5
theorem genTypeCases_safe : ∀ (cs : TypeCases σ) (d : Nat) (g : Gen σ),
    g.stack.length + cs.pending d ≤ 100 →
    Safe (genTypeCases g cs) ∧ ∀ g' n, genTypeCases g cs = .ok (g', n) → g'.stack.length + d ≤ 100
  | .nil, d, g, h => by
    refine ⟨safe_ok _, fun g' n hg => ?_⟩
    injection hg with hg
    injection hg with h1 h2
    subst h1
    exact h
  | .cons conv bind body rest, d, g, h => by
    rw [TypeCases.pending] at h
    rw [genTypeCases]
    have e1 := ((((ext_emit g (.dup : Instr σ)).trans (ext_emit _ (.assertType conv))).trans
      (ext_emit _ .dup)).trans (ext_emit _ (.push 0))).trans (ext_emit _ .ne)
    have key : ∀ g2, ifCondEpilog (emit (emit (emit (emit (emit g (.dup : Instr σ))
          (.assertType conv)) .dup) (.push 0)) .ne) = .ok g2 →
        g2.stack.length = g.stack.length + 1 ∧
        ∀ g3, genStmt (emit g2 (.take bind)) body = .ok g3 → ∃ p ns nb nk nr,
          Ext g g3 (p :: ns) nb nk nr ∧ ns = [] ∧
            ∀ g4, elseProlog g3 = .ok g4 → g4.stack.length = g.stack.length + 1 := by
      intro g2 h2
      have e2 := e1.trans (ifCondEpilog_ok h2).2
      refine ⟨?_, fun g3 h3 => ?_⟩
      · have := ext_length e2
        simp only [List.append_nil, List.length_singleton] at this
        omega
      · obtain ⟨nb, nk, nr, e3, _⟩ := genStmt_shape body _ g3 h3
        have e4 : Ext g g3 [_] _ _ _ := (e2.trans (ext_emit g2 (.take bind))).trans e3
        refine ⟨_, [], _, _, _, e4, rfl, fun g4 h4 => ?_⟩
        have l4 := ext_length (elseProlog_ok e4 h4).ext
        rw [List.length_cons, List.length_nil] at l4
        omega
    refine ⟨?_, ?_⟩
    · refine safe_bind (ifCondEpilog_safe (by show g.stack.length < 100; omega)) fun g2 h2 => ?_
      obtain ⟨l2, k2⟩ := key g2 h2
      refine safe_bind (genStmt_safe body _ (by show g2.stack.length + _ ≤ 100; omega)) fun g3 h3 => ?_
      obtain ⟨p, ns, nb, nk, nr, e3, rfl, k4⟩ := k2 g3 h3
      refine safe_bind ((fill_safe e3).2.2 (by rw [List.length_nil]; omega)).1 fun g4 h4 => ?_
      have l4 := k4 g4 h4
      exact safe_bind (genTypeCases_safe rest d _ (by show g4.stack.length + _ ≤ 100; omega)).1
        fun _ _ => safe_ok _
    · intro g' n hg
      obtain ⟨g2, h2, hg⟩ := bind_eq_ok hg
      obtain ⟨g3, h3, hg⟩ := bind_eq_ok hg
      obtain ⟨g4, h4, hg⟩ := bind_eq_ok hg
      obtain ⟨⟨g5, m⟩, h5, hg⟩ := bind_eq_ok hg
      injection hg with hg
      injection hg with q1 q2
      subst q1
      obtain ⟨l2, k2⟩ := key g2 h2
      obtain ⟨_, _, _, _, _, _, _, k4⟩ := k2 g3 h3
      have l4 := k4 g4 h4
      exact (genTypeCases_safe rest d _ (by show g4.stack.length + _ ≤ 100; omega)).2 _ m h5
end

mutual
theorem genStmt_bound : ∀ (p : Stmt σ) (g g' : Gen σ), g.stack.length ≤ 100 → genStmt g p = .ok g' →
    g.stack.length + p.pending ≤ 100
  | .act f, g, g', hg, h | .skip, g, g', hg, h | .brk, g, g', hg, h | .cont, g, g', hg, h
  | .ret, g, g', hg, h => hg
  | .use e f, g, g', hg, h => by
    rw [genStmt] at h
    obtain ⟨g1, h1, h⟩ := bind_eq_ok h
    exact genExpr_bound e g g1 hg h1
  | .seq a b, g, g', hg, h => by
    rw [genStmt] at h
    obtain ⟨g1, h1, h⟩ := bind_eq_ok h
    have b1 := genStmt_bound a g g1 hg h1
    obtain ⟨_, _, _, e, _⟩ := genStmt_shape a g g1 h1
    have l := ext_length e; rw [List.length_nil] at l
    have b2 := genStmt_bound b g1 g' (by omega) h
    rw [Stmt.pending]; omega
  | .ifThen c a, g, g', hg, h => by
    rw [genStmt] at h
    obtain ⟨g1, h1, h⟩ := bind_eq_ok h
    obtain ⟨g2, h2, h⟩ := bind_eq_ok h
    obtain ⟨g3, h3, h⟩ := bind_eq_ok h
    have b1 := genExpr_bound c g g1 hg h1
    have l1 := ext_length (genExpr_shape c g g1 h1).1; rw [List.length_nil] at l1
    have b2 := ifCondEpilog_bound h2
    have l2 := ext_length (ifCondEpilog_ok h2).2; rw [List.length_singleton] at l2
    have b3 := genStmt_bound a g2 g3 (by omega) h3
    rw [Stmt.pending]; omega
  | .ifElse c a b, g, g', hg, h => by
    rw [genStmt] at h
    obtain ⟨g1, h1, h⟩ := bind_eq_ok h
    obtain ⟨g2, h2, h⟩ := bind_eq_ok h
    obtain ⟨g3, h3, h⟩ := bind_eq_ok h
    obtain ⟨g4, h4, h⟩ := bind_eq_ok h
    obtain ⟨g5, h5, h⟩ := bind_eq_ok h
    have b1 := genExpr_bound c g g1 hg h1
    have e1 := (genExpr_shape c g g1 h1).1
    have l1 := ext_length e1; rw [List.length_nil] at l1
    have b2 := ifCondEpilog_bound h2
    have e2 := (ifCondEpilog_ok h2).2
    have l2 := ext_length e2; rw [List.length_singleton] at l2
    have b3 := genStmt_bound a g2 g3 (by omega) h3
    obtain ⟨_, _, _, e3, _⟩ := genStmt_shape a g2 g3 h3
    have e13 : Ext g g3 [g1.ip] _ _ _ := (e1.trans e2).trans e3
    have l4 := ext_length (elseProlog_ok e13 h4).ext
    rw [List.length_cons, List.length_nil] at l4
    have b5 := genStmt_bound b g4 g5 (by omega) h5
    rw [Stmt.pending]; omega
  | .switch e cs d, g, g', hg, h => by
    rw [genStmt] at h
    obtain ⟨g1, h1, h⟩ := bind_eq_ok h
    obtain ⟨⟨g2, n⟩, h2, h⟩ := bind_eq_ok h
    obtain ⟨g3, h3, h⟩ := bind_eq_ok h
    have b1 := genExpr_bound e g g1 hg h1
    have l1 := ext_length (genExpr_shape e g g1 h1).1; rw [List.length_nil] at l1
    have l1' : (emit g1 (.popReg : Instr σ)).stack.length = g1.stack.length := rfl
    have b2 := genCases_bound cs d.pending _ g2 n (by omega) h2
    have b3 := b2.2 (genStmt_bound d g2 g3 b2.1 h3)
    rw [Stmt.pending]; omega
  | .typeSwitch e cs d, g, g', hg, h => by
    rw [genStmt] at h
    obtain ⟨g1, h1, h⟩ := bind_eq_ok h
    obtain ⟨⟨g2, n⟩, h2, h⟩ := bind_eq_ok h
    obtain ⟨g3, h3, h⟩ := bind_eq_ok h
    have b1 := genExpr_bound e g g1 hg h1
    have l1 := ext_length (genExpr_shape e g g1 h1).1; rw [List.length_nil] at l1
    have b2 := genTypeCases_bound cs d.pending _ g2 n (by omega) h2
    have b3 := b2.2 (genStmt_bound d g2 g3 b2.1 h3)
    rw [Stmt.pending]; omega
  | .loop c body post, g, g', hg, h => by
    rw [genStmt] at h
    obtain ⟨g0, h0, h⟩ := bind_eq_ok h
    obtain ⟨g1, h1, h⟩ := bind_eq_ok h
    obtain ⟨g2, h2, h⟩ := bind_eq_ok h
    obtain ⟨g3, h3, h⟩ := bind_eq_ok h
    have b0 := savePos_bound h0
    have b0 : g.stack.length < 100 := b0
    have l0 : g0.stack.length = g.stack.length + 1 := by rw [savePos_ok h0]; rfl
    have b1 := genExpr_bound c g0 g1 (by omega) h1
    have l1 := ext_length (genExpr_shape c g0 g1 h1).1; rw [List.length_nil] at l1
    have b2 := ifCondEpilog_bound h2
    have l2 := ext_length (ifCondEpilog_ok h2).2; rw [List.length_singleton] at l2
    have b3 := genStmt_bound body g2 g3 (by omega) h3
    rw [Stmt.pending]; omega
  | .forPost c p f body, g, g', hg, h => by
    rw [genStmt] at h
    obtain ⟨g0, h0, h⟩ := bind_eq_ok h
    obtain ⟨g1, h1, h⟩ := bind_eq_ok h
    obtain ⟨g2, h2, h⟩ := bind_eq_ok h
    obtain ⟨g3, h3, h⟩ := bind_eq_ok h
    obtain ⟨g4, h4, h⟩ := bind_eq_ok h
    obtain ⟨g5, h5, h⟩ := bind_eq_ok h
    have b0 := savePos_bound h0
    have b0 : g.stack.length < 100 := b0
    have l0 : g0.stack.length = g.stack.length + 1 := by rw [savePos_ok h0]; rfl
    have t0 : g0.stack = g.ip :: g.stack := by rw [savePos_ok h0]; rfl
    have p0 : g0.ip = g.ip := by rw [savePos_ok h0]; rfl
    have b1 := genExpr_bound c g0 g1 (by omega) h1
    have e1 := (genExpr_shape c g0 g1 h1).1
    have l1 := ext_length e1; rw [List.length_nil] at l1
    obtain ⟨g1', h1', _⟩ := bind_eq_ok h2
    have b2 := savePos_bound h1'
    obtain ⟨p2, e2⟩ := forCondEpilog_ok h2
    have l2 := ext_length e2; rw [List.length_singleton] at l2
    have b3 := genExpr_bound p g2 g3 (by omega) h3
    have e3 := (genExpr_shape p g2 g3 h3).1
    have e03 := ((e1.trans e2).trans e3).trans (ext_emit g3 (.take f))
    have t3 : (emit g3 (.take f)).stack = g1.ip :: g.ip :: g.stack := by rw [e03.stack, t0]; rfl
    have m1 := e1.len; have m3 := e3.len
    have hip := emit_ip g3 (.take f)
    have t4 := (forPostStmtEpilog_ok t3 (by omega) h4).2.1
    have l4 : g4.stack.length = g.stack.length + 1 := by rw [t4]; rfl
    have b5 := genStmt_bound body g4 g5 (by omega) h5
    rw [Stmt.pending]; omega
theorem genCases_bound : ∀ (cs : Cases σ) (d : Nat) (g g' : Gen σ) (n : Nat), g.stack.length ≤ 100 →
    genCases g cs = .ok (g', n) →
    g'.stack.length ≤ 100 ∧ (g'.stack.length + d ≤ 100 → g.stack.length + cs.pending d ≤ 100)
  | .nil, d, g, g', n, hg, h => by
    injection h with h
    injection h with h1 h2
    subst h1
    exact ⟨hg, fun h => h⟩
  | .cons ks body rest, d, g, g', n, hg, h => by
    rw [genCases] at h
    obtain ⟨g1, h1, h⟩ := bind_eq_ok h
    obtain ⟨g2, h2, h⟩ := bind_eq_ok h
    obtain ⟨g3, h3, h⟩ := bind_eq_ok h
    obtain ⟨g4, h4, h⟩ := bind_eq_ok h
    obtain ⟨⟨g5, m⟩, h5, h⟩ := bind_eq_ok h
    injection h with h
    injection h with q1 q2
    subst q1
    have b1 := caseConstants_bound ks g g1 hg h1
    obtain ⟨ps, pl, e1, _⟩ := caseConstants_ok ks h1
    rw [← pl] at h2
    have b2 := caseBlockProlog_bound e1 h2
    obtain ⟨_, e2, _, _⟩ := caseBlockProlog_ok e1 h2
    have l2 := ext_length e2; rw [List.length_singleton] at l2
    have b3 := genStmt_bound body g2 g3 (by omega) h3
    obtain ⟨nb, nk, nr, e3, _⟩ := genStmt_shape body g2 g3 h3
    have e13 : Ext g g3 [g1.ip] _ _ _ := e2.trans e3
    have l4 := ext_length (caseBlockEpilog_ok e13 h4).ext
    rw [List.length_cons, List.length_nil] at l4
    have b5 := genCases_bound rest d g4 _ m (by omega) h5
    refine ⟨b5.1, fun hd => ?_⟩
    have := b5.2 hd
    rw [Cases.pending]; omega
theorem genTypeCases_bound : ∀ (cs : TypeCases σ) (d : Nat) (g g' : Gen σ) (n : Nat),
    g.stack.length ≤ 100 → genTypeCases g cs = .ok (g', n) →
    g'.stack.length ≤ 100 ∧ (g'.stack.length + d ≤ 100 → g.stack.length + cs.pending d ≤ 100)
  | .nil, d, g, g', n, hg, h => by
    injection h with h
    injection h with h1 h2
    subst h1
    exact ⟨hg, fun h => h⟩
  | .cons conv bind body rest, d, g, g', n, hg, h => by
    rw [genTypeCases] at h
    obtain ⟨g2, h2, h⟩ := bind_eq_ok h
    obtain ⟨g3, h3, h⟩ := bind_eq_ok h
    obtain ⟨g4, h4, h⟩ := bind_eq_ok h
    obtain ⟨⟨g5, m⟩, h5, h⟩ := bind_eq_ok h
    injection h with h
    injection h with q1 q2
    subst q1
    have b2 := ifCondEpilog_bound h2
    have b2 : g.stack.length < 100 := b2
    have l2 := ext_length (ifCondEpilog_ok h2).2; rw [List.length_singleton] at l2
    have l2 : g2.stack.length = 1 + g.stack.length := l2
    have b3 := genStmt_bound body _ g3 (by show g2.stack.length ≤ 100; omega) h3
    have b3 : g2.stack.length + body.pending ≤ 100 := b3
    have e2 := (((((ext_emit g (.dup : Instr σ)).trans (ext_emit _ (.assertType conv))).trans
      (ext_emit _ .dup)).trans (ext_emit _ (.push 0))).trans (ext_emit _ .ne)).trans (ifCondEpilog_ok h2).2
    obtain ⟨nb, nk, nr, e3, _⟩ := genStmt_shape body _ g3 h3
    have e13 : Ext g g3 [_] _ _ _ := (e2.trans (ext_emit g2 (.take bind))).trans e3
    have l4 := ext_length (elseProlog_ok e13 h4).ext
    rw [List.length_cons, List.length_nil] at l4
    have l4' : (emit g4 (.pop : Instr σ)).stack.length = g4.stack.length := rfl
    have b5 := genTypeCases_bound rest d _ _ m (by omega) h5
    refine ⟨b5.1, fun hd => ?_⟩
    have := b5.2 hd
    rw [TypeCases.pending]; omega
end

end Umka.Control
