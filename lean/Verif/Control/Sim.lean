import Verif.Control.Model
/-! # Control statements: code of the right shape does what the statement means -/

namespace Umka.Control
open Spec

variable {σ : Type}

abbrev Code (σ : Type) := Nat → Option (Instr σ)

/-- `k` steps of the machine. -/
def Steps (C : Code σ) : Nat → Cfg σ → Cfg σ → Prop
  | 0, c, c' => c = c'
  | k + 1, c, c' => ∃ c1, step C c = .next c1 ∧ Steps C k c1 c'

/-- The machine ends in a run-time error. -/
def Errs (C : Code σ) (c : Cfg σ) : Prop := ∃ k c', Steps C k c c' ∧ step C c' = .error

theorem Steps.trans {C : Code σ} {k l : Nat} {a b c : Cfg σ} (h1 : Steps C k a b)
    (h2 : Steps C l b c) : Steps C (k + l) a c := by
  induction k generalizing a with
  | zero => cases h1; simpa using h2
  | succ k ih =>
    obtain ⟨a1, h, h1⟩ := h1
    rw [Nat.add_right_comm]
    exact ⟨a1, h, ih h1⟩

theorem Steps.one {C : Code σ} {a b : Cfg σ} (h : step C a = .next b) : Steps C 1 a b := ⟨b, h, rfl⟩

theorem Errs.after {C : Code σ} {k : Nat} {a b : Cfg σ} (h1 : Steps C k a b) (h2 : Errs C b) :
    Errs C a := by
  obtain ⟨l, c, h, he⟩ := h2
  exact ⟨k + l, c, h1.trans h, he⟩

theorem Errs.now {C : Code σ} {a : Cfg σ} (h : step C a = .error) : Errs C a := ⟨0, a, rfl, h⟩

/-! ## Shapes -/

/-- The code from `lo` to `hi` is that of an expression. -/
def ExprAt (C : Code σ) : Expr σ → Nat → Nat → Prop
  | .atom f, lo, hi => C lo = some (.eval f) ∧ hi = lo + 1
  | .unary f e, lo, hi => ∃ m, ExprAt C e lo m ∧ C m = some (.unary f) ∧ hi = m + 1
  | .binary f a b, lo, hi =>
    ∃ m m', ExprAt C a lo m ∧ ExprAt C b m m' ∧ C m' = some (.binary f) ∧ hi = m' + 1
  | .and a b, lo, hi =>
    ∃ m, ExprAt C a lo m ∧ C m = some .dup ∧ C (m + 1) = some (.gotoIfNot hi) ∧
      C (m + 2) = some .pop ∧ ExprAt C b (m + 3) hi
  | .or a b, lo, hi =>
    ∃ m, ExprAt C a lo m ∧ C m = some .dup ∧ C (m + 1) = some (.gotoIf hi) ∧
      C (m + 2) = some .pop ∧ ExprAt C b (m + 3) hi

/-- Checks of case constants from `lo` to `hi` that go to `hi + 1`. -/
def ConstsAt (C : Code σ) (dest : Nat) : List Int → Nat → Nat → Prop
  | [], lo, hi => hi = lo
  | k :: ks, lo, hi => C lo = some .pushReg ∧ C (lo + 1) = some (.push k) ∧ C (lo + 2) = some .eq ∧
      C (lo + 3) = some (.gotoIf dest) ∧ ConstsAt C dest ks (lo + 4) hi

def PostAt (C : Code σ) (post : Option (σ → Option σ)) (lo hi : Nat) : Prop :=
  match post with
  | none => hi = lo
  | some f => C lo = some (.act f) ∧ hi = lo + 1

mutual
/-- The code from `lo` to `hi` is that of a statement; `break`, `continue`, `return` go to `B`, `K`,
`R`. -/
def StmtAt (C : Code σ) (R : Nat) : Stmt σ → Nat → Nat → Nat → Nat → Prop
  | .act f, _, _, lo, hi => C lo = some (.act f) ∧ hi = lo + 1
  | .use e f, _, _, lo, hi => ∃ m, ExprAt C e lo m ∧ C m = some (.take f) ∧ hi = m + 1
  | .skip, _, _, lo, hi => hi = lo
  | .seq a b, B, K, lo, hi => ∃ m, StmtAt C R a B K lo m ∧ StmtAt C R b B K m hi
  | .ifThen c a, B, K, lo, hi =>
    ∃ m, ExprAt C c lo m ∧ C m = some (.gotoIfNot hi) ∧ StmtAt C R a B K (m + 1) hi
  | .ifElse c a b, B, K, lo, hi =>
    ∃ m h, ExprAt C c lo m ∧ C m = some (.gotoIfNot (h + 1)) ∧ StmtAt C R a B K (m + 1) h ∧
      C h = some (.goto hi) ∧ StmtAt C R b B K (h + 1) hi
  | .switch e cs d, B, K, lo, hi =>
    ∃ m h, ExprAt C e lo m ∧ C m = some .popReg ∧ CasesAt C R hi cs B K (m + 1) h ∧
      StmtAt C R d B K h hi
  | .typeSwitch e cs d, B, K, lo, hi =>
    ∃ m h h', ExprAt C e lo m ∧ TypeCasesAt C R h' cs B K m h ∧ StmtAt C R d B K h h' ∧
      C h' = some .pop ∧ hi = h' + 1
  | .loop c body post, _, _, lo, hi =>
    ∃ m h h', ExprAt C c lo m ∧ C m = some (.gotoIfNot hi) ∧ StmtAt C R body hi h (m + 1) h ∧
      PostAt C post h h' ∧ C h' = some (.goto lo) ∧ hi = h' + 1
  | .forPost c p f body, _, _, lo, hi =>
    ∃ m q h, ExprAt C c lo m ∧ C m = some (.gotoIf (q + 2)) ∧ C (m + 1) = some (.goto hi) ∧
      ExprAt C p (m + 2) q ∧ C q = some (.take f) ∧ C (q + 1) = some (.goto lo) ∧
      StmtAt C R body hi h (q + 2) h ∧ C h = some (.goto (m + 2)) ∧ hi = h + 1
  | .brk, B, _, lo, hi => C lo = some (.goto B) ∧ hi = lo + 1
  | .cont, _, K, lo, hi => C lo = some (.goto K) ∧ hi = lo + 1
  | .ret, _, _, lo, hi => C lo = some (.goto R) ∧ hi = lo + 1
/-- Cases; each ends with a jump to `E`. -/
def CasesAt (C : Code σ) (R E : Nat) : Cases σ → Nat → Nat → Nat → Nat → Prop
  | .nil, _, _, lo, hi => hi = lo
  | .cons ks body rest, B, K, lo, hi =>
    ∃ m h, ConstsAt C (m + 1) ks lo m ∧ C m = some (.goto (h + 1)) ∧ StmtAt C R body B K (m + 1) h ∧
      C h = some (.goto E) ∧ CasesAt C R E rest B K (h + 1) hi
/-- Cases of a type switch; each ends with a jump to `E`. -/
def TypeCasesAt (C : Code σ) (R E : Nat) : TypeCases σ → Nat → Nat → Nat → Nat → Prop
  | .nil, _, _, lo, hi => hi = lo
  | .cons conv bind body rest, B, K, lo, hi =>
    ∃ h, C lo = some .dup ∧ C (lo + 1) = some (.assertType conv) ∧ C (lo + 2) = some .dup ∧
      C (lo + 3) = some (.push 0) ∧ C (lo + 4) = some .ne ∧ C (lo + 5) = some (.gotoIfNot (h + 1)) ∧
      C (lo + 6) = some (.take bind) ∧ StmtAt C R body B K (lo + 7) h ∧ C h = some (.goto E) ∧
      C (h + 1) = some .pop ∧ TypeCasesAt C R E rest B K (h + 2) hi
end

/-! ## Expressions -/

/-- The expression leaves its value on the stack, or the machine ends in an error. -/
def ExprSim (C : Code σ) (hi : Nat) (c : Cfg σ) (r : Option (σ × Int)) : Prop :=
  match r with
  | some (s, v) => ∃ k, Steps C k c { c with ip := hi, data := s, stack := v :: c.stack }
  | none => Errs C c

theorem expr_sim {C : Code σ} (e : Expr σ) :
    ∀ (lo hi : Nat) (c : Cfg σ), ExprAt C e lo hi → c.ip = lo → ExprSim C hi c (e.eval c.data) := by
  induction e with
  | atom f =>
    rintro _ hi c ⟨h1, rfl⟩ rfl
    rw [Expr.eval]
    unfold ExprSim
    split
    · next s v hf => exact ⟨1, Steps.one (by simp only [step, h1, hf, ofOption])⟩
    · next hf => exact Errs.now (by simp only [step, h1, hf, ofOption])
  | unary f e ih =>
    rintro _ hi c ⟨m, he, h1, rfl⟩ rfl
    have ih := ih _ _ c he rfl
    rw [Expr.eval]
    unfold ExprSim at ih
    split at ih
    · next s v hf =>
      obtain ⟨k, ih⟩ := ih
      rw [hf]
      show ExprSim C (m + 1) c (f s v)
      unfold ExprSim
      split
      · next s' v' hf' =>
        exact ⟨k + 1, ih.trans (Steps.one (by simp only [step, h1, hf', ofOption]))⟩
      · next hf' => exact Errs.after ih (Errs.now (by simp only [step, h1, hf', ofOption]))
    · next hf => rw [hf]; exact ih
  | binary f a b iha ihb =>
    rintro _ hi c ⟨m, m', ha, hb, h1, rfl⟩ rfl
    have iha := iha _ _ c ha rfl
    rw [Expr.eval]
    unfold ExprSim at iha
    split at iha
    · next s v hf =>
      obtain ⟨k, iha⟩ := iha
      rw [hf]
      have ihb := ihb _ _ { c with ip := m, data := s, stack := v :: c.stack } hb rfl
      unfold ExprSim at ihb
      split at ihb
      · next s' v' hf' =>
        obtain ⟨k', ihb⟩ := ihb
        dsimp only at hf'
        simp only [Option.bind_eq_bind, Option.bind_some, hf']
        unfold ExprSim
        split
        · next s2 v2 hf2 =>
          exact ⟨k + (k' + 1), iha.trans (ihb.trans (Steps.one (by simp only [step, h1, hf2, ofOption])))⟩
        · next hf2 =>
          exact Errs.after iha (Errs.after ihb (Errs.now (by simp only [step, h1, hf2, ofOption])))
      · next hf' =>
        dsimp only at hf'
        simp only [Option.bind_eq_bind, Option.bind_some, hf']
        exact Errs.after iha ihb
    · next hf => rw [hf]; exact iha
  | and a b iha ihb =>
    rintro _ hi c ⟨m, ha, h1, h2, h3, hb⟩ rfl
    have iha := iha _ _ c ha rfl
    rw [Expr.eval]
    unfold ExprSim at iha
    split at iha
    · next s v hf =>
      obtain ⟨k, iha⟩ := iha
      rw [hf]
      simp only [Option.bind_eq_bind, Option.bind_some]
      have hd : Steps C 1 _ { c with ip := m + 1, data := s, stack := v :: v :: c.stack } :=
        Steps.one (a := { c with ip := m, data := s, stack := v :: c.stack })
          (by simp only [step, h1])
      by_cases hv : v ≠ 0
      · rw [if_pos hv]
        have hg : Steps C 1 { c with ip := m + 1, data := s, stack := v :: v :: c.stack }
            { c with ip := m + 2, data := s, stack := v :: c.stack } :=
          Steps.one (by simp only [step, h2, if_pos hv])
        have hp : Steps C 1 { c with ip := m + 2, data := s, stack := v :: c.stack }
            { c with ip := m + 3, data := s } := Steps.one (by simp only [step, h3])
        have hall := iha.trans (hd.trans (hg.trans hp))
        have ihb := ihb _ _ { c with ip := m + 3, data := s } hb rfl
        unfold ExprSim at ihb ⊢
        dsimp only at ihb
        split
        · next hx => rw [hx] at ihb; obtain ⟨k', ihb⟩ := ihb; exact ⟨_, hall.trans ihb⟩
        · next hx => rw [hx] at ihb; exact Errs.after hall ihb
      · rw [if_neg hv]
        exact ⟨_, iha.trans (hd.trans (Steps.one (by simp only [step, h2, if_neg hv])))⟩
    · next hf => rw [hf]; exact iha
  | or a b iha ihb =>
    rintro _ hi c ⟨m, ha, h1, h2, h3, hb⟩ rfl
    have iha := iha _ _ c ha rfl
    rw [Expr.eval]
    unfold ExprSim at iha
    split at iha
    · next s v hf =>
      obtain ⟨k, iha⟩ := iha
      rw [hf]
      simp only [Option.bind_eq_bind, Option.bind_some]
      have hd : Steps C 1 _ { c with ip := m + 1, data := s, stack := v :: v :: c.stack } :=
        Steps.one (a := { c with ip := m, data := s, stack := v :: c.stack })
          (by simp only [step, h1])
      by_cases hv : v ≠ 0
      · rw [if_pos hv]
        exact ⟨_, iha.trans (hd.trans (Steps.one (by simp only [step, h2, if_pos hv])))⟩
      · rw [if_neg hv]
        have hg : Steps C 1 { c with ip := m + 1, data := s, stack := v :: v :: c.stack }
            { c with ip := m + 2, data := s, stack := v :: c.stack } :=
          Steps.one (by simp only [step, h2, if_neg hv])
        have hp : Steps C 1 { c with ip := m + 2, data := s, stack := v :: c.stack }
            { c with ip := m + 3, data := s } := Steps.one (by simp only [step, h3])
        have hall := iha.trans (hd.trans (hg.trans hp))
        have ihb := ihb _ _ { c with ip := m + 3, data := s } hb rfl
        unfold ExprSim at ihb ⊢
        dsimp only at ihb
        split
        · next hx => rw [hx] at ihb; obtain ⟨k', ihb⟩ := ihb; exact ⟨_, hall.trans ihb⟩
        · next hx => rw [hx] at ihb; exact Errs.after hall ihb
    · next hf => rw [hf]; exact iha

/-! ## Statements -/

/-- Where the machine is after a statement. -/
def target (hi B K R : Nat) : Out → Nat
  | .normal => hi
  | .brk => B
  | .cont => K
  | .ret => R

/-- What the machine does for a statement with the result `r`.  If the statement is tidy, nothing
is left on the stack. -/
def Sim (C : Code σ) (hi B K R n : Nat) (tidy : Bool) (c : Cfg σ) (r : Res σ) : Prop :=
  match r with
  | .done o s => ∃ k junk reg, Steps C k c ⟨target hi B K R o, junk ++ c.stack, reg, c.base, s⟩ ∧
      (tidy = true → o ≠ .ret → junk = [])
  | .error => Errs C c
  | .timeout => ∃ k c', n ≤ k ∧ Steps C k c c'

theorem Sim.after {C : Code σ} {hi B K R n k : Nat} {tidy : Bool} {c c1 : Cfg σ} {r : Res σ}
    {junk : List Int} (h : Steps C k c c1) (hst : c1.stack = junk ++ c.stack) (hb : c1.base = c.base)
    (hj : tidy = true → junk = []) (hs : Sim C hi B K R n tidy c1 r) : Sim C hi B K R n tidy c r := by
  cases r with
  | done o s =>
    obtain ⟨l, j, reg, h2, hj2⟩ := hs
    rw [hst, hb, ← List.append_assoc] at h2
    refine ⟨k + l, j ++ junk, reg, h.trans h2, fun ht ho => ?_⟩
    rw [hj2 ht ho, hj ht]; rfl
  | error => exact Errs.after h hs
  | timeout =>
    obtain ⟨l, c', hl, h2⟩ := hs
    exact ⟨k + l, c', by omega, h.trans h2⟩

/-- Like `Sim.after`, with nothing left on the stack. -/
theorem Sim.after' {C : Code σ} {hi B K R n k : Nat} {tidy : Bool} {c c1 : Cfg σ} {r : Res σ}
    (h : Steps C k c c1) (hst : c1.stack = c.stack) (hb : c1.base = c.base)
    (hs : Sim C hi B K R n tidy c1 r) : Sim C hi B K R n tidy c r :=
  hs.after (junk := []) h (by rw [hst]; rfl) hb (fun _ => rfl)

theorem Sim.mono {C : Code σ} {hi B K R n : Nat} {tidy tidy' : Bool} {c : Cfg σ} {r : Res σ}
    (h : tidy' = true → tidy = true) (hs : Sim C hi B K R n tidy c r) :
    Sim C hi B K R n tidy' c r := by
  cases r with
  | done o s =>
    obtain ⟨l, j, reg, h2, hj2⟩ := hs
    exact ⟨l, j, reg, h2, fun ht => hj2 (h ht)⟩
  | error => exact hs
  | timeout => exact hs

/-- The result continues at the end of the first statement. -/
theorem Sim.bind {C : Code σ} {m hi B K R n : Nat} {tidy : Bool} {c : Cfg σ} {r : Res σ}
    {f : σ → Res σ} (h1 : Sim C m B K R n tidy c r)
    (h2 : ∀ c1 : Cfg σ, c1.ip = m → Sim C hi B K R n tidy c1 (f c1.data)) :
    Sim C hi B K R n tidy c (r.andThen f) := by
  cases r with
  | done o s =>
    obtain ⟨l, j, reg, hs, hj⟩ := h1
    cases o with
    | normal => exact Sim.after hs rfl rfl (fun ht => hj ht (by simp)) (h2 ⟨m, _, _, _, s⟩ rfl)
    | brk => exact ⟨l, j, reg, hs, hj⟩
    | cont => exact ⟨l, j, reg, hs, hj⟩
    | ret => exact ⟨l, j, reg, hs, hj⟩
  | error => exact h1
  | timeout => exact h1

/-- After the statement, one more step leads from `h` to `hi`. -/
theorem Sim.goto {C : Code σ} {h hi B K R n : Nat} {tidy : Bool} {c : Cfg σ} {r : Res σ}
    (h1 : Sim C h B K R n tidy c r) (hg : C h = some (.goto hi)) : Sim C hi B K R n tidy c r := by
  cases r with
  | done o s =>
    obtain ⟨l, j, reg, hs, hj⟩ := h1
    cases o with
    | normal => exact ⟨l + 1, j, reg, hs.trans (Steps.one (by simp only [step, target, hg])), hj⟩
    | brk => exact ⟨l, j, reg, hs, hj⟩
    | cont => exact ⟨l, j, reg, hs, hj⟩
    | ret => exact ⟨l, j, reg, hs, hj⟩
  | error => exact h1
  | timeout => exact h1

theorem iterate_normal {cond : σ → Option (σ × Int)} {body : σ → Res σ} {post : σ → Option σ}
    (n : Nat) : ∀ s o s', iterate cond body post n s = .done o s' → o ≠ .brk ∧ o ≠ .cont := by
  induction n with
  | zero => intro s o s' h; rw [iterate] at h; cases h
  | succ n ih =>
    intro s o s' h
    have hnext : ∀ s o s', iterate.next cond body post n s = .done o s' → o ≠ .brk ∧ o ≠ .cont := by
      intro s o s' h
      rw [iterate.next] at h
      split at h
      · cases h
      · exact ih _ _ _ h
    rw [iterate] at h
    split at h
    · cases h
    · split at h
      · cases h; simp
      · split at h
        · exact hnext _ _ _ h
        · exact hnext _ _ _ h
        · cases h; simp
        · cases h; simp
        · cases h
        · cases h

theorem ofOption_normal {r : Option σ} {o : Out} {s' : σ} (h : Res.ofOption r = .done o s') :
    o = .normal := by
  cases r <;> cases h; rfl

mutual
theorem exec_jumpsOut (n : Nat) : ∀ (p : Stmt σ), p.jumpsOut = false → ∀ s o s',
    exec n p s = .done o s' → o ≠ .brk ∧ o ≠ .cont
  | .act f, _, s, o, s', h => by rw [exec] at h; rw [ofOption_normal h]; simp
  | .use e f, _, s, o, s', h => by rw [exec] at h; rw [ofOption_normal h]; simp
  | .skip, _, s, o, s', h => by rw [exec] at h; cases h; simp
  | .seq a b, hj, s, o, s', h => by
    rw [Stmt.jumpsOut, Bool.or_eq_false_iff] at hj
    rw [exec] at h
    cases ha : exec n a s with
    | done o1 s1 =>
      rw [ha] at h
      have := exec_jumpsOut n a hj.1 s o1 s1 ha
      cases o1 with
      | normal => exact exec_jumpsOut n b hj.2 _ _ _ h
      | brk => exact absurd rfl this.1
      | cont => exact absurd rfl this.2
      | ret => cases h; simp
    | error => rw [ha] at h; cases h
    | timeout => rw [ha] at h; cases h
  | .ifThen c a, hj, s, o, s', h => by
    rw [Stmt.jumpsOut] at hj
    rw [exec] at h
    split at h
    · cases h
    · split at h
      · exact exec_jumpsOut n a hj _ _ _ h
      · cases h; simp
  | .ifElse c a b, hj, s, o, s', h => by
    rw [Stmt.jumpsOut, Bool.or_eq_false_iff] at hj
    rw [exec] at h
    split at h
    · cases h
    · split at h
      · exact exec_jumpsOut n a hj.1 _ _ _ h
      · exact exec_jumpsOut n b hj.2 _ _ _ h
  | .switch e cs d, hj, s, o, s', h => by
    rw [Stmt.jumpsOut, Bool.or_eq_false_iff] at hj
    rw [exec] at h
    split at h
    · cases h
    · exact execCases_jumpsOut n cs hj.1 _ (fun s o s' => exec_jumpsOut n d hj.2 s o s') _ _ _ _ h
  | .typeSwitch e cs d, hj, s, o, s', h => by
    rw [Stmt.jumpsOut, Bool.or_eq_false_iff] at hj
    rw [exec] at h
    split at h
    · cases h
    · exact execTypeCases_jumpsOut n cs hj.1 _ (fun s o s' => exec_jumpsOut n d hj.2 s o s') _ _ _ _ h
  | .loop c body post, _, s, o, s', h => by rw [exec] at h; exact iterate_normal n _ _ _ h
  | .forPost c p f body, _, s, o, s', h => by rw [exec] at h; exact iterate_normal n _ _ _ h
  | .brk, hj, _, _, _, _ => by rw [Stmt.jumpsOut] at hj; cases hj
  | .cont, hj, _, _, _, _ => by rw [Stmt.jumpsOut] at hj; cases hj
  | .ret, _, s, o, s', h => by rw [exec] at h; cases h; simp
theorem execCases_jumpsOut (n : Nat) : ∀ (p : Cases σ), p.jumpsOut = false → ∀ (d : σ → Res σ),
    (∀ s o s', d s = .done o s' → o ≠ .brk ∧ o ≠ .cont) → ∀ v s o s',
    execCases n p v d s = .done o s' → o ≠ .brk ∧ o ≠ .cont
  | .nil, _, d, hd, v, s, o, s', h => by rw [execCases] at h; exact hd _ _ _ h
  | .cons ks body rest, hj, d, hd, v, s, o, s', h => by
    rw [Cases.jumpsOut, Bool.or_eq_false_iff] at hj
    rw [execCases] at h
    split at h
    · exact exec_jumpsOut n body hj.1 _ _ _ h
    · exact execCases_jumpsOut n rest hj.2 d hd _ _ _ _ h
theorem execTypeCases_jumpsOut (n : Nat) : ∀ (p : TypeCases σ), p.jumpsOut = false →
    ∀ (d : σ → Res σ), (∀ s o s', d s = .done o s' → o ≠ .brk ∧ o ≠ .cont) → ∀ v s o s',
    execTypeCases n p v d s = .done o s' → o ≠ .brk ∧ o ≠ .cont
  | .nil, _, d, hd, v, s, o, s', h => by rw [execTypeCases] at h; exact hd _ _ _ h
  | .cons conv bind body rest, hj, d, hd, v, s, o, s', h => by
    rw [TypeCases.jumpsOut, Bool.or_eq_false_iff] at hj
    rw [execTypeCases] at h
    split at h
    · cases hb : bind s (conv s v) with
      | none => rw [hb] at h; cases h
      | some s1 => rw [hb] at h; exact exec_jumpsOut n body hj.1 _ _ _ h
    · exact execTypeCases_jumpsOut n rest hj.2 d hd _ _ _ _ h
end

/-- A loop whose condition is at `lo`, body at `b`, statement after each iteration at `h`. -/
theorem iterate_sim {C : Code σ} {cond : σ → Option (σ × Int)} {body : σ → Res σ}
    {post : σ → Option σ} {lo b h hi R N : Nat} {tidy : Bool} (B K : Nat)
    (hcond : ∀ c : Cfg σ, c.ip = lo → match cond c.data with
      | none => Errs C c
      | some (s, v) => ∃ k, Steps C (k + 1) c { c with ip := if v = 0 then hi else b, data := s })
    (hbody : ∀ c : Cfg σ, c.ip = b → Sim C h hi h R N tidy c (body c.data))
    (hpost : ∀ c : Cfg σ, c.ip = h → match post c.data with
      | none => Errs C c
      | some s => ∃ k, Steps C k c { c with ip := lo, data := s }) :
    ∀ (n : Nat), n ≤ N → ∀ c : Cfg σ, c.ip = lo →
      Sim C hi B K R n tidy c (iterate cond body post n c.data) := by
  intro n
  induction n with
  | zero => intro _ c _; rw [iterate]; exact ⟨0, c, Nat.le_refl _, rfl⟩
  | succ n ih =>
    intro hn c hip
    have ih := ih (by omega)
    -- what follows an iteration
    have hnext : ∀ c1 : Cfg σ, c1.ip = h →
        Sim C hi B K R n tidy c1 (iterate.next cond body post n c1.data) := by
      intro c1 h1
      have hp := hpost c1 h1
      rw [iterate.next]
      split at hp
      · next hf => try rw [hf]
                   exact hp
      · next s hf =>
        try rw [hf]
        obtain ⟨k, hp⟩ := hp
        exact Sim.after' hp rfl rfl (ih ⟨lo, _, _, _, s⟩ rfl)
    have hc := hcond c hip
    rw [iterate]
    split at hc
    · next hf => try rw [hf]
                 exact hc
    · next s v hf =>
      try rw [hf]
      obtain ⟨k, hc⟩ := hc
      try dsimp only
      by_cases hv : v = 0
      · rw [if_pos hv]
        rw [if_pos hv] at hc
        exact ⟨k + 1, [], c.reg, hc, fun _ _ => rfl⟩
      · rw [if_neg hv]
        rw [if_neg hv] at hc
        have hb := hbody { c with ip := b, data := s } rfl
        dsimp only at hb
        have lift : ∀ (l : Nat) (junk : List Int) (reg : Int) (s' : σ) (r : Res σ),
            Steps C l { c with ip := b, data := s } ⟨h, junk ++ c.stack, reg, c.base, s'⟩ →
            (tidy = true → junk = []) →
            (∀ c1 : Cfg σ, c1.ip = h → c1.data = s' → Sim C hi B K R n tidy c1 r) →
            Sim C hi B K R (n + 1) tidy c r := by
          intro l junk reg s' r hl hj hr
          have hx := hr ⟨h, junk ++ c.stack, reg, c.base, s'⟩ rfl rfl
          have hl := hc.trans hl
          cases r with
          | done o s2 => exact Sim.after (n := n + 1) hl rfl rfl hj hx
          | error => exact Errs.after hl hx
          | timeout =>
            obtain ⟨k2, c2, hk2, h2⟩ := hx
            exact ⟨_, c2, by omega, hl.trans h2⟩
        generalize hr : body s = r at hb
        cases r with
        | done o s1 =>
          obtain ⟨l, junk, reg, hl, hj⟩ := hb
          cases o with
          | normal =>
            exact lift l junk reg s1 _ hl (fun ht => hj ht (by simp))
              (fun c1 h1 h2 => by subst h2; exact hnext c1 h1)
          | cont =>
            exact lift l junk reg s1 _ hl (fun ht => hj ht (by simp))
              (fun c1 h1 h2 => by subst h2; exact hnext c1 h1)
          | brk => exact ⟨_, junk, reg, hc.trans hl, fun ht _ => hj ht (by simp)⟩
          | ret => exact ⟨_, junk, reg, hc.trans hl, fun ht h => absurd rfl h⟩
        | error => exact Errs.after hc hb
        | timeout =>
          obtain ⟨k2, c2, hk2, h2⟩ := hb
          exact ⟨_, c2, by omega, hc.trans h2⟩

theorem consts_sim {C : Code σ} {dest : Nat} (ks : List Int) : ∀ (lo hi : Nat) (c : Cfg σ),
    ConstsAt C dest ks lo hi → c.ip = lo →
    ∃ k, Steps C k c { c with ip := if c.reg ∈ ks then dest else hi } := by
  induction ks with
  | nil => rintro lo hi c rfl rfl; exact ⟨0, by simp [Steps]⟩
  | cons x ks ih =>
    rintro lo hi c ⟨h0, h1, h2, h3, h4⟩ rfl
    have s3 : Steps C 3 c { c with ip := c.ip + 3, stack := (if c.reg = x then 1 else 0) :: c.stack } := by
      have a1 : Steps C 1 c { c with ip := c.ip + 1, stack := c.reg :: c.stack } :=
        Steps.one (by simp only [step, h0])
      have a2 : Steps C 1 { c with ip := c.ip + 1, stack := c.reg :: c.stack }
          { c with ip := c.ip + 2, stack := x :: c.reg :: c.stack } :=
        Steps.one (by simp only [step, h1])
      exact (a1.trans a2).trans (Steps.one (by simp only [step, h2]))
    by_cases hx : c.reg = x
    · rw [if_pos hx] at s3
      refine ⟨3 + 1, s3.trans (Steps.one ?_)⟩
      simp [step, h3, hx]
    · rw [if_neg hx] at s3
      obtain ⟨k, ih⟩ := ih _ _ { c with ip := c.ip + 4 } h4 rfl
      refine ⟨3 + (1 + k), s3.trans ((Steps.one (b := { c with ip := c.ip + 4 }) ?_).trans ?_)⟩
      · simp [step, h3]
      · simpa [hx] using ih

mutual
theorem stmt_sim {C : Code σ} (R n : Nat) : ∀ (p : Stmt σ) (B K lo hi : Nat) (c : Cfg σ),
    StmtAt C R p B K lo hi → c.ip = lo → Sim C hi B K R n p.tidy c (exec n p c.data)
  | .act f, B, K, lo, hi, c, h, hip => by
    obtain ⟨h1, rfl⟩ := h
    subst hip
    rw [exec]
    cases hf : f c.data with
    | none => exact Errs.now (by simp only [step, h1, hf, ofOption])
    | some s => exact ⟨1, [], c.reg, Steps.one (by simp only [step, h1, hf, ofOption]; rfl), fun _ _ => rfl⟩
  | .use e f, B, K, lo, hi, c, h, hip => by
    obtain ⟨m, he, h1, rfl⟩ := h
    subst hip
    have hs := expr_sim e _ _ c he rfl
    rw [exec]
    unfold ExprSim at hs
    split at hs
    · next s v hv =>
      obtain ⟨k, hs⟩ := hs
      simp only [hv, Option.bind_eq_bind, Option.bind_some]
      cases hf : f s v with
      | none => exact Errs.after hs (Errs.now (by simp only [step, h1, hf, ofOption]))
      | some s' =>
        exact ⟨k + 1, [], c.reg, hs.trans (Steps.one (by simp only [step, h1, hf, ofOption]; rfl)),
          fun _ _ => rfl⟩
    · next hv => simp only [hv]; exact hs
  | .skip, B, K, lo, hi, c, h, hip => by
    cases h
    subst hip
    rw [exec]
    exact ⟨0, [], c.reg, rfl, fun _ _ => rfl⟩
  | .seq a b, B, K, lo, hi, c, h, hip => by
    obtain ⟨m, ha, hb⟩ := h
    rw [exec]
    have h1 := stmt_sim R n a B K lo m c ha hip
    refine Sim.bind (m := m) (Sim.mono ?_ h1) (fun c1 hc1 => Sim.mono ?_ (stmt_sim R n b B K m hi c1 hb hc1))
    · rw [Stmt.tidy, Bool.and_eq_true]; exact And.left
    · rw [Stmt.tidy, Bool.and_eq_true]; exact And.right
  | .ifThen e a, B, K, lo, hi, c, h, hip => by
    obtain ⟨m, he, h1, ha⟩ := h
    subst hip
    have hs := expr_sim e _ _ c he rfl
    rw [exec, Stmt.tidy]
    unfold ExprSim at hs
    split at hs
    · next s v hv =>
      obtain ⟨k, hs⟩ := hs
      simp only [hv]
      by_cases hv0 : v ≠ 0
      · rw [if_pos hv0]
        exact Sim.after' (c1 := { c with ip := m + 1, data := s })
          (hs.trans (Steps.one (by simp only [step, h1, if_pos hv0]))) rfl rfl
          (stmt_sim R n a B K _ _ _ ha rfl)
      · rw [if_neg hv0]
        exact ⟨k + 1, [], c.reg, hs.trans (Steps.one (by simp only [step, h1, if_neg hv0]; rfl)),
          fun _ _ => rfl⟩
    · next hv => simp only [hv]; exact hs
  | .ifElse e a b, B, K, lo, hi, c, h, hip => by
    obtain ⟨m, h', he, h1, ha, h2, hb⟩ := h
    subst hip
    have hs := expr_sim e _ _ c he rfl
    rw [exec, Stmt.tidy]
    unfold ExprSim at hs
    split at hs
    · next s v hv =>
      obtain ⟨k, hs⟩ := hs
      simp only [hv]
      by_cases hv0 : v ≠ 0
      · rw [if_pos hv0]
        refine Sim.after' (c1 := { c with ip := m + 1, data := s })
          (hs.trans (Steps.one (by simp only [step, h1, if_pos hv0]))) rfl rfl
          (Sim.mono ?_ ((stmt_sim R n a B K _ _ _ ha rfl).goto h2))
        rw [Bool.and_eq_true]; exact And.left
      · rw [if_neg hv0]
        refine Sim.after' (c1 := { c with ip := h' + 1, data := s })
          (hs.trans (Steps.one (by simp only [step, h1, if_neg hv0]))) rfl rfl
          (Sim.mono ?_ (stmt_sim R n b B K _ _ _ hb rfl))
        rw [Bool.and_eq_true]; exact And.right
    · next hv => simp only [hv]; exact hs
  | .switch e cs d, B, K, lo, hi, c, h, hip => by
    obtain ⟨m, h', he, h1, hcs, hd⟩ := h
    subst hip
    have hs := expr_sim e _ _ c he rfl
    rw [exec, Stmt.tidy]
    unfold ExprSim at hs
    split at hs
    · next s v hv =>
      obtain ⟨k, hs⟩ := hs
      simp only [hv]
      refine Sim.after' (c1 := { c with ip := m + 1, data := s, reg := v })
        (hs.trans (Steps.one (by simp only [step, h1]))) rfl rfl ?_
      refine cases_sim R n cs hi B K _ _ _ hcs rfl _ _ rfl ?_ ?_
      · rw [Bool.and_eq_true]; exact And.left
      · intro c1 hc1
        refine Sim.mono ?_ (stmt_sim R n d B K _ _ c1 hd hc1)
        rw [Bool.and_eq_true]; exact And.right
    · next hv => simp only [hv]; exact hs
  | .typeSwitch e cs d, B, K, lo, hi, c, h, hip => by
    obtain ⟨m, h', h'', he, hcs, hd, h1, rfl⟩ := h
    subst hip
    have hs := expr_sim e _ _ c he rfl
    rw [exec, Stmt.tidy]
    unfold ExprSim at hs
    split at hs
    · next s v hv =>
      obtain ⟨k, hs⟩ := hs
      simp only [hv]
      generalize ht : (cs.tidy && d.tidy && !cs.jumpsOut && !d.jumpsOut) = t
      have hsim := typeCases_sim R n cs h'' B K _ _ { c with ip := m, data := s, stack := v :: c.stack } hcs rfl
        (exec n d) v c.stack rfl t
        (by rw [← ht]; simp only [Bool.and_eq_true]; exact fun h => h.1.1.1)
        (by
          intro c1 hc1
          refine Sim.mono ?_ (stmt_sim R n d B K _ _ c1 hd hc1)
          rw [← ht]; simp only [Bool.and_eq_true]; exact fun h => h.1.1.2)
      generalize hr : execTypeCases n cs v (exec n d) s = r at hsim
      cases r with
      | error => exact Errs.after hs hsim
      | timeout =>
        obtain ⟨k2, c2, hk2, h2⟩ := hsim
        exact ⟨_, c2, by omega, hs.trans h2⟩
      | done o s' =>
        obtain ⟨l, junk, reg, hl, hj⟩ := hsim
        dsimp only at hl
        have hout : t = true → o ≠ .brk ∧ o ≠ .cont := by
          intro h
          rw [← ht] at h
          simp only [Bool.and_eq_true, Bool.not_eq_true'] at h
          exact execTypeCases_jumpsOut n cs h.1.2 _ (exec_jumpsOut n d h.2) _ _ _ _ hr
        cases o with
        | normal =>
          cases junk with
          | nil =>
            exact ⟨_, [], reg, hs.trans (hl.trans (Steps.one (by simp only [step, target, h1]; rfl))),
              fun _ _ => rfl⟩
          | cons x xs =>
            refine ⟨k + (l + 1), xs ++ [v], reg, hs.trans (hl.trans (Steps.one ?_)), fun h => ?_⟩
            · simp only [step, target, h1, List.cons_append, List.append_assoc, List.nil_append]
            · have := hj h (by simp); cases this
        | brk =>
          refine ⟨k + l, junk ++ [v], reg, ?_, fun h => absurd rfl (hout h).1⟩
          rw [List.append_assoc]; exact hs.trans hl
        | cont =>
          refine ⟨k + l, junk ++ [v], reg, ?_, fun h => absurd rfl (hout h).2⟩
          rw [List.append_assoc]; exact hs.trans hl
        | ret =>
          refine ⟨k + l, junk ++ [v], reg, ?_, fun _ h => absurd rfl h⟩
          rw [List.append_assoc]; exact hs.trans hl
    · next hv => simp only [hv]; exact hs
  | .loop e body post, B, K, lo, hi, c, h, hip => by
    obtain ⟨m, h', h'', he, h1, hb, hp, h2, rfl⟩ := h
    rw [exec, Stmt.tidy]
    refine iterate_sim (lo := lo) (b := m + 1) (h := h') (N := n) B K ?_ ?_ ?_ n (Nat.le_refl _) c hip
    · intro c hc
      subst hc
      have hs := expr_sim e _ _ c he rfl
      unfold ExprSim at hs
      split at hs
      · next s v hv =>
        obtain ⟨k, hs⟩ := hs
        simp only [hv]
        by_cases hv0 : v = 0
        · exact ⟨k, hs.trans (Steps.one (by simp [step, h1, hv0]))⟩
        · exact ⟨k, hs.trans (Steps.one (by simp [step, h1, hv0]))⟩
      · next hv => simp only [hv]; exact hs
    · intro c hc; exact stmt_sim R n body _ _ _ _ c hb hc
    · intro c hc
      subst hc
      cases post with
      | none =>
        cases hp
        exact ⟨1, Steps.one (by simp only [step, h2])⟩
      | some f =>
        obtain ⟨hp, rfl⟩ := hp
        dsimp only
        split
        · next hf => exact Errs.now (by simp only [step, hp, hf, ofOption])
        · next s hf =>
          have a1 : Steps C 1 c { c with ip := c.ip + 1, data := s } :=
            Steps.one (by simp only [step, hp, hf, ofOption])
          exact ⟨1 + 1, a1.trans (Steps.one (by simp only [step, h2]))⟩
  | .forPost e p f body, B, K, lo, hi, c, h, hip => by
    obtain ⟨m, q, h', he, h1, h2, hp, h3, h4, hb, h5, rfl⟩ := h
    rw [exec, Stmt.tidy]
    refine iterate_sim (lo := lo) (b := q + 2) (h := h') (N := n) B K ?_ ?_ ?_ n (Nat.le_refl _) c hip
    · intro c hc
      subst hc
      have hs := expr_sim e _ _ c he rfl
      unfold ExprSim at hs
      split at hs
      · next s v hv =>
        obtain ⟨k, hs⟩ := hs
        simp only [hv]
        by_cases hv0 : v = 0
        · refine ⟨k + 1, (hs.trans (Steps.one (b := { c with ip := m + 1, data := s }) ?_)).trans
            (Steps.one ?_)⟩
          · simp [step, h1, hv0]
          · simp [step, h2, hv0]
        · exact ⟨k, hs.trans (Steps.one (by simp [step, h1, hv0]))⟩
      · next hv => simp only [hv]; exact hs
    · intro c hc; exact stmt_sim R n body _ _ _ _ c hb hc
    · intro c hc
      subst hc
      have hg : Steps C 1 c { c with ip := m + 2 } := Steps.one (by simp only [step, h5])
      have hs := expr_sim p _ _ { c with ip := m + 2 } hp rfl
      unfold ExprSim at hs
      dsimp only at hs
      split at hs
      · next s v hv =>
        obtain ⟨k, hs⟩ := hs
        simp only [hv, Option.bind_eq_bind, Option.bind_some]
        cases hf : f s v with
        | none => exact Errs.after (hg.trans hs) (Errs.now (by simp only [step, h3, hf, ofOption]))
        | some s' =>
          have a1 : Steps C 1 { c with ip := q, data := s, stack := v :: c.stack }
              { c with ip := q + 1, data := s' } := Steps.one (by simp only [step, h3, hf, ofOption])
          exact ⟨_, (hg.trans hs).trans (a1.trans (Steps.one (by simp only [step, h4])))⟩
      · next hv =>
        simp only [hv]
        exact Errs.after hg hs
  | .brk, B, K, lo, hi, c, h, hip => by
    obtain ⟨h1, rfl⟩ := h
    subst hip
    rw [exec]
    exact ⟨1, [], c.reg, Steps.one (by simp only [step, h1]; rfl), fun _ _ => rfl⟩
  | .cont, B, K, lo, hi, c, h, hip => by
    obtain ⟨h1, rfl⟩ := h
    subst hip
    rw [exec]
    exact ⟨1, [], c.reg, Steps.one (by simp only [step, h1]; rfl), fun _ _ => rfl⟩
  | .ret, B, K, lo, hi, c, h, hip => by
    obtain ⟨h1, rfl⟩ := h
    subst hip
    rw [exec]
    exact ⟨1, [], c.reg, Steps.one (by simp only [step, h1]; rfl), fun _ _ => rfl⟩
theorem cases_sim {C : Code σ} (R n : Nat) : ∀ (cs : Cases σ) (E B K lo hi : Nat) (c : Cfg σ),
    CasesAt C R E cs B K lo hi → c.ip = lo → ∀ (d : σ → Res σ) (v : Int), c.reg = v →
    ∀ {tidy : Bool}, (tidy = true → cs.tidy = true) →
    (∀ c1 : Cfg σ, c1.ip = hi → Sim C E B K R n tidy c1 (d c1.data)) →
    Sim C E B K R n tidy c (execCases n cs v d c.data)
  | .nil, E, B, K, lo, hi, c, h, hip, d, v, hv, tidy, ht, hd => by
    cases h
    rw [execCases]
    exact hd c hip
  | .cons ks body rest, E, B, K, lo, hi, c, h, hip, d, v, hv, tidy, ht, hd => by
    obtain ⟨m, h', hks, h1, hb, h2, hrest⟩ := h
    rw [Cases.tidy, Bool.and_eq_true] at ht
    obtain ⟨k, hs⟩ := consts_sim ks lo m c hks hip
    rw [execCases]
    subst hv
    by_cases hmem : c.reg ∈ ks
    · rw [if_pos hmem]
      rw [if_pos hmem] at hs
      exact Sim.after' hs rfl rfl (Sim.mono (fun t => (ht t).1)
        ((stmt_sim R n body B K _ _ { c with ip := m + 1 } hb rfl).goto h2))
    · rw [if_neg hmem]
      rw [if_neg hmem] at hs
      refine Sim.after' (c1 := { c with ip := h' + 1 }) (hs.trans (Steps.one ?_)) rfl rfl
        (cases_sim R n rest E B K _ _ { c with ip := h' + 1 } hrest rfl d _ rfl (fun t => (ht t).2) hd)
      simp only [step, h1]
theorem typeCases_sim {C : Code σ} (R n : Nat) : ∀ (cs : TypeCases σ) (E B K lo hi : Nat) (c : Cfg σ),
    TypeCasesAt C R E cs B K lo hi → c.ip = lo → ∀ (d : σ → Res σ) (v : Int) (st : List Int),
    c.stack = v :: st → ∀ (tidy : Bool), (tidy = true → cs.tidy = true) →
    (∀ c1 : Cfg σ, c1.ip = hi → Sim C E B K R n tidy c1 (d c1.data)) →
    Sim C E B K R n tidy c (execTypeCases n cs v d c.data)
  | .nil, E, B, K, lo, hi, c, h, hip, d, v, st, hv, tidy, ht, hd => by
    cases h
    rw [execTypeCases]
    exact hd c hip
  | .cons conv bind body rest, E, B, K, lo, hi, c, h, hip, d, v, st, hst, tidy, ht, hd => by
    obtain ⟨h', h0, h1, h2, h3, h4, h5, h6, hb, h7, h8, hrest⟩ := h
    rw [TypeCases.tidy, Bool.and_eq_true] at ht
    obtain ⟨ip, stack, reg, base, data⟩ := c
    dsimp only at hip hst ⊢
    subst hip hst
    rw [execTypeCases]
    have s5 : Steps C 5 ⟨ip, v :: st, reg, base, data⟩
        ⟨ip + 5, (if conv data v ≠ 0 then 1 else 0) :: conv data v :: v :: st, reg, base, data⟩ := by
      have a1 : Steps C 1 ⟨ip, v :: st, reg, base, data⟩ ⟨ip + 1, v :: v :: st, reg, base, data⟩ :=
        Steps.one (by simp only [step, h0])
      have a2 : Steps C 1 ⟨ip + 1, v :: v :: st, reg, base, data⟩
          ⟨ip + 2, conv data v :: v :: st, reg, base, data⟩ := Steps.one (by simp only [step, h1])
      have a3 : Steps C 1 ⟨ip + 2, conv data v :: v :: st, reg, base, data⟩
          ⟨ip + 3, conv data v :: conv data v :: v :: st, reg, base, data⟩ :=
        Steps.one (by simp only [step, h2])
      have a4 : Steps C 1 ⟨ip + 3, conv data v :: conv data v :: v :: st, reg, base, data⟩
          ⟨ip + 4, 0 :: conv data v :: conv data v :: v :: st, reg, base, data⟩ :=
        Steps.one (by simp only [step, h3])
      exact a1.trans (a2.trans (a3.trans (a4.trans (Steps.one (by simp only [step, h4])))))
    by_cases hc : conv data v ≠ 0
    · rw [if_pos hc]
      rw [if_pos hc] at s5
      have s6 := s5.trans (Steps.one (b := ⟨ip + 6, conv data v :: v :: st, reg, base, data⟩)
        (by simp [step, h5]))
      cases hbind : bind data (conv data v) with
      | none => exact Errs.after s6 (Errs.now (by simp only [step, h6, hbind, ofOption]))
      | some s1 =>
        have s7 := s6.trans (Steps.one (b := ⟨ip + 7, v :: st, reg, base, s1⟩)
          (by simp only [step, h6, hbind, ofOption]))
        exact Sim.after' s7 rfl rfl (Sim.mono (fun t => (ht t).1)
          ((stmt_sim R n body B K _ _ ⟨ip + 7, v :: st, reg, base, s1⟩ hb rfl).goto h7))
    · rw [if_neg hc]
      rw [if_neg hc] at s5
      have s6 := s5.trans (Steps.one (b := ⟨h' + 1, conv data v :: v :: st, reg, base, data⟩)
        (by simp [step, h5]))
      have s7 := s6.trans (Steps.one (b := ⟨h' + 2, v :: st, reg, base, data⟩)
        (by simp only [step, h8]))
      exact Sim.after' s7 rfl rfl (typeCases_sim R n rest E B K _ _ ⟨h' + 2, v :: st, reg, base, data⟩
        hrest rfl d v st rfl tidy (fun t => (ht t).2) hd)
end

end Umka.Control
