import Verif.Control.Shape
/-! # Control statements: functions, limits -/

namespace Umka.Control
open Spec

variable {σ : Type}

/-! ## `break` and `continue` need a loop -/

mutual
theorem genStmt_noJump : ∀ (p : Stmt σ) (g g' : Gen σ), genStmt g p = .ok g' → g.breaks = none →
    g.continues = none → p.jumpsOut = false
  | .act f, _, _, _, _, _ | .use e f, _, _, _, _, _ | .skip, _, _, _, _, _ | .loop .., _, _, _, _, _
  | .forPost .., _, _, _, _, _ | .ret, _, _, _, _, _ => rfl
  | .brk, g, g', h, hb, hk => by
    rw [genStmt] at h; unfold breakStub at h; rw [hb] at h; cases h
  | .cont, g, g', h, hb, hk => by
    rw [genStmt] at h; unfold continueStub at h; rw [hk] at h; cases h
  | .seq a b, g, g', h, hb, hk => by
    rw [genStmt] at h
    obtain ⟨g1, h1, h⟩ := bind_eq_ok h
    obtain ⟨_, _, _, e, _⟩ := genStmt_shape a g g1 h1
    rw [Stmt.jumpsOut, genStmt_noJump a g g1 h1 hb hk,
      genStmt_noJump b g1 g' h (by rw [e.brk, hb]; rfl) (by rw [e.cont, hk]; rfl)]
    rfl
  | .ifThen c a, g, g', h, hb, hk => by
    rw [genStmt] at h
    obtain ⟨g1, h1, h⟩ := bind_eq_ok h
    obtain ⟨g2, h2, h⟩ := bind_eq_ok h
    obtain ⟨g3, h3, h⟩ := bind_eq_ok h
    have e := (genExpr_shape c g g1 h1).1.trans (ifCondEpilog_ok h2).2
    rw [Stmt.jumpsOut, genStmt_noJump a g2 g3 h3 (by rw [e.brk, hb]; rfl) (by rw [e.cont, hk]; rfl)]
  | .ifElse c a b, g, g', h, hb, hk => by
    rw [genStmt] at h
    obtain ⟨g1, h1, h⟩ := bind_eq_ok h
    obtain ⟨g2, h2, h⟩ := bind_eq_ok h
    obtain ⟨g3, h3, h⟩ := bind_eq_ok h
    obtain ⟨g4, h4, h⟩ := bind_eq_ok h
    obtain ⟨g5, h5, h⟩ := bind_eq_ok h
    have e := (genExpr_shape c g g1 h1).1.trans (ifCondEpilog_ok h2).2
    obtain ⟨nb, nk, nr, e3, _⟩ := genStmt_shape a g2 g3 h3
    have e13 : Ext g g3 [g1.ip] nb nk nr := by simpa using e.trans e3
    have m := elseProlog_ok e13 h4
    rw [Stmt.jumpsOut, genStmt_noJump a g2 g3 h3 (by rw [e.brk, hb]; rfl) (by rw [e.cont, hk]; rfl),
      genStmt_noJump b g4 g5 h5 (by rw [m.ext.brk, hb]; rfl) (by rw [m.ext.cont, hk]; rfl)]
    rfl
  | .switch e cs d, g, g', h, hb, hk => by
    rw [genStmt] at h
    obtain ⟨g1, h1, h⟩ := bind_eq_ok h
    obtain ⟨⟨g2, n⟩, h2, h⟩ := bind_eq_ok h
    obtain ⟨g3, h3, h⟩ := bind_eq_ok h
    have e1 := (genExpr_shape e g g1 h1).1.trans (ext_emit g1 .popReg)
    obtain ⟨_, _, _, _, _, e2, _⟩ := genCases_shape cs _ g2 n h2
    have b1 := e1.brk; have k1 := e1.cont
    rw [hb] at b1; rw [hk] at k1
    rw [Stmt.jumpsOut, genCases_noJump cs _ g2 n h2 b1 k1,
      genStmt_noJump d g2 g3 h3 (by rw [e2.brk, b1]; rfl) (by rw [e2.cont, k1]; rfl)]
    rfl
  | .typeSwitch e cs d, g, g', h, hb, hk => by
    rw [genStmt] at h
    obtain ⟨g1, h1, h⟩ := bind_eq_ok h
    obtain ⟨⟨g2, n⟩, h2, h⟩ := bind_eq_ok h
    obtain ⟨g3, h3, h⟩ := bind_eq_ok h
    have e1 := (genExpr_shape e g g1 h1).1
    obtain ⟨_, _, _, _, _, e2, _⟩ := genTypeCases_shape cs _ g2 n h2
    have b1 := e1.brk; have k1 := e1.cont
    rw [hb] at b1; rw [hk] at k1
    rw [Stmt.jumpsOut, genTypeCases_noJump cs _ g2 n h2 b1 k1,
      genStmt_noJump d g2 g3 h3 (by rw [e2.brk, b1]; rfl) (by rw [e2.cont, k1]; rfl)]
    rfl
theorem genCases_noJump : ∀ (cs : Cases σ) (g g' : Gen σ) (n : Nat), genCases g cs = .ok (g', n) →
    g.breaks = none → g.continues = none → cs.jumpsOut = false
  | .nil, _, _, _, _, _, _ => rfl
  | .cons ks body rest, g, g', n, h, hb, hk => by
    rw [genCases] at h
    obtain ⟨g1, h1, h⟩ := bind_eq_ok h
    obtain ⟨g2, h2, h⟩ := bind_eq_ok h
    obtain ⟨g3, h3, h⟩ := bind_eq_ok h
    obtain ⟨g4, h4, h⟩ := bind_eq_ok h
    obtain ⟨⟨g5, m⟩, h5, h⟩ := bind_eq_ok h
    obtain ⟨ps, pl, e1, _⟩ := caseConstants_ok ks h1
    rw [← pl] at h2
    obtain ⟨_, e2, _, _⟩ := caseBlockProlog_ok e1 h2
    obtain ⟨nb, nk, nr, e3, _⟩ := genStmt_shape body g2 g3 h3
    have e13 : Ext g g3 [g1.ip] nb nk nr := by simpa using e2.trans e3
    have m4 := caseBlockEpilog_ok e13 h4
    rw [Cases.jumpsOut, genStmt_noJump body g2 g3 h3 (by rw [e2.brk, hb]; rfl) (by rw [e2.cont, hk]; rfl),
      genCases_noJump rest g4 g5 m h5 (by rw [m4.ext.brk, hb]; rfl) (by rw [m4.ext.cont, hk]; rfl)]
    rfl
theorem genTypeCases_noJump : ∀ (cs : TypeCases σ) (g g' : Gen σ) (n : Nat),
    genTypeCases g cs = .ok (g', n) → g.breaks = none → g.continues = none → cs.jumpsOut = false
  | .nil, _, _, _, _, _, _ => rfl
  | .cons conv bind body rest, g, g', n, h, hb, hk => by
    rw [genTypeCases] at h
    obtain ⟨g2, h2, h⟩ := bind_eq_ok h
    obtain ⟨g3, h3, h⟩ := bind_eq_ok h
    obtain ⟨g4, h4, h⟩ := bind_eq_ok h
    obtain ⟨⟨g5, m⟩, h5, h⟩ := bind_eq_ok h
    have e1 := ((((ext_emit g (.dup : Instr σ)).trans (ext_emit _ (.assertType conv))).trans
      (ext_emit _ .dup)).trans (ext_emit _ (.push 0))).trans (ext_emit _ .ne)
    have e2 := e1.trans (ifCondEpilog_ok h2).2
    have e2' := e2.trans (ext_emit g2 (.take bind))
    obtain ⟨nb, nk, nr, e3, _⟩ := genStmt_shape body _ g3 h3
    have e13 := e2'.trans e3
    have m4 := elseProlog_ok e13 h4
    rw [TypeCases.jumpsOut,
      genStmt_noJump body _ g3 h3 (by rw [e2'.brk, hb]; rfl) (by rw [e2'.cont, hk]; rfl),
      genTypeCases_noJump rest _ g5 m h5 (by show g4.breaks = _; rw [m4.ext.brk, hb]; rfl)
        (by show g4.continues = _; rw [m4.ext.cont, hk]; rfl)]
    rfl
end

/-! ## Functions -/

/-- What code generation for a function guarantees. -/
theorem genFn_shape {g g' : Gen σ} {body : Stmt σ} (h : genFn g body = .ok g') :
    body.jumpsOut = false ∧ Ext g g' [] [] [] [] ∧ ∃ hi, g'.ip = hi + 2 ∧ g.ip < hi ∧
    ∀ C : Code σ, (∀ i, g.ip ≤ i → i < g'.ip → C i = g'.at i) →
      C g.ip = some .enterFrame ∧ C hi = some .leaveFrame ∧ C (hi + 1) = some .ret ∧
      StmtAt C hi body 0 0 (g.ip + 1) hi := by
  unfold genFn at h
  obtain ⟨g1, h1, h⟩ := bind_eq_ok h
  obtain ⟨g2, h2, h⟩ := bind_eq_ok h
  have h1 := savePos_ok h1
  have p1 : (emit g1 (.nop : Instr σ)).ip = g.ip + 1 := by rw [emit_ip, h1]; rfl
  obtain ⟨nb, nk, nr, e2, s2⟩ := genStmt_shape body _ g2 h2
  have hj := genStmt_noJump body _ g2 h2 rfl rfl
  have l2 := e2.len
  have p1' : ({ emit g1 (.nop : Instr σ) with breaks := none, continues := none, returns := [] } :
    Gen σ).ip = g.ip + 1 := p1
  rw [p1'] at l2
  have hnb : nb = [] := e2.brk0 rfl
  have hnk : nk = [] := e2.cont0 rfl
  subst hnb hnk
  have hr : g2.returns = nr := e2.ret
  have rr := e2.rr
  rw [p1'] at rr
  obtain ⟨i1, i2, i3, i4, i5, i6, i7⟩ := gotosEpilog_spec nr g2 (fun i hi => (rr i hi).2)
  have t2 : g2.stack = g.ip :: g.stack := by
    rw [e2.stack]
    show g1.stack = _
    rw [h1]
  rw [hr] at h
  dsimp only at h
  have hrp := restorePos_cons (g := Gen.mk (gotosEpilog g2 nr).code (gotosEpilog g2 nr).stack g.breaks
    g.continues g.returns) (p := g.ip) (st := g.stack) (i2.trans t2)
  rw [hrp, bind_ok] at h
  dsimp only at h
  injection h with h
  generalize hg3 : (Gen.mk (gotosEpilog g2 nr).code g.stack g.breaks g.continues g.returns) = g3 at h
  have p3 : g3.ip = g2.ip := by rw [← hg3]; exact i1
  have a3 : ∀ i, g3.at i = (gotosEpilog g2 nr).at i := by intro i; rw [← hg3]; rfl
  have p4 : (patch g3 g.ip .enterFrame).ip = g2.ip := by rw [patch_ip, p3]
  have p5 := emit_ip (patch g3 g.ip .enterFrame) (.leaveFrame : Instr σ)
  have p6 := emit_ip (emit (patch g3 g.ip .enterFrame) .leaveFrame) (.ret : Instr σ)
  have q1 : g'.at g.ip = some .enterFrame := by
    rw [← h, emit_at_lt (by omega), emit_at_lt (by omega), patch_at_eq (by omega)]
  have q2 : g'.at g2.ip = some .leaveFrame := by
    rw [← h, emit_at_lt (by omega), ← p4, emit_at_eq]
  have q3 : g'.at (g2.ip + 1) = some .ret := by
    rw [← h, show g2.ip + 1 = (emit (patch g3 g.ip .enterFrame) (.leaveFrame : Instr σ)).ip by omega,
      emit_at_eq]
  have q4 : ∀ i, i < g2.ip → i ≠ g.ip → g'.at i = (gotosEpilog g2 nr).at i := by
    intro i hi hne
    rw [← h, emit_at_lt (by omega), emit_at_lt (by omega), patch_at_ne hne, a3]
  have e1 : ∀ i, i < g.ip → (emit g1 (.nop : Instr σ)).at i = g.at i := by
    intro i hi
    rw [emit_at_lt (by rw [h1]; exact hi), h1]; rfl
  have hip : g'.ip = g2.ip + 2 := by rw [← h]; omega
  refine ⟨hj, ?_, g2.ip, hip, by omega, fun C hC => ⟨?_, ?_, ?_, ?_⟩⟩
  · constructor
    · omega
    · intro i hi
      rw [q4 i (by omega) (by omega), i7 i (fun hm => by have := rr i hm; omega), ← e1 i hi]
      exact e2.pre i (by rw [p1']; omega)
    · rw [← h]; show g3.stack = _; rw [← hg3]; rfl
    · rw [← h]; show g3.breaks = _; rw [← hg3]; exact (map_append_nil _).symm
    · intro _; rfl
    · rw [← h]; show g3.continues = _; rw [← hg3]; exact (map_append_nil _).symm
    · intro _; rfl
    · rw [← h]; show g3.returns = _; rw [← hg3]; exact (List.append_nil _).symm
    · simp
    · simp
    · simp
    · simp
    · simp
  · rw [hC _ (by omega) (by omega), q1]
  · rw [hC _ (by omega) (by omega), q2]
  · rw [hC _ (by omega) (by omega), q3]
  · rw [← p1']
    refine s2 C 0 0 g2.ip ⟨by simp, by simp, by simp, ?_, ?_⟩
    · intro i hi
      have := rr i hi
      rw [hC i (by omega) (by omega), q4 i (by omega) (by omega), i6 i hi]
    · intro i h1 h2 _ _ _ hnr
      rw [p1'] at h1
      rw [hC i (by omega) (by omega), q4 i h2 (by omega), i7 i hnr]

/-! ## More iterations change nothing -/

theorem iterate_mono {cond : σ → Option (σ × Int)} {body body' : σ → Res σ} {post : σ → Option σ}
    (hb : ∀ s, body s ≠ .timeout → body' s = body s) : ∀ (n : Nat) (s : σ),
    iterate cond body post n s ≠ .timeout →
      iterate cond body' post (n + 1) s = iterate cond body post n s := by
  intro n
  induction n with
  | zero => intro s h; exact absurd (by rw [iterate]) h
  | succ n ih =>
    have hnext : ∀ s, iterate.next cond body post n s ≠ .timeout →
        iterate.next cond body' post (n + 1) s = iterate.next cond body post n s := by
      intro s h
      rw [iterate.next] at h
      rw [iterate.next, iterate.next]
      cases hp : post s with
      | none => rfl
      | some s' => rw [hp] at h; exact ih s' h
    intro s h
    rw [iterate] at h
    rw [iterate, iterate]
    cases hc : cond s with
    | none => rfl
    | some r =>
      obtain ⟨s1, v⟩ := r
      rw [hc] at h
      dsimp only at h ⊢
      by_cases hv : v = 0
      · rw [if_pos hv, if_pos hv]
      · rw [if_neg hv] at h
        rw [if_neg hv, if_neg hv]
        cases hr : body s1 with
        | timeout => rw [hr] at h; exact absurd rfl h
        | error => rw [hb s1 (by rw [hr]; simp), hr]
        | done o s2 =>
          rw [hr] at h
          rw [hb s1 (by rw [hr]; simp), hr]
          cases o with
          | normal => exact hnext s2 h
          | cont => exact hnext s2 h
          | brk => rfl
          | ret => rfl

theorem andThen_mono {r r' : Res σ} {k k' : σ → Res σ} (hr : r ≠ .timeout → r' = r)
    (hk : ∀ s, k s ≠ .timeout → k' s = k s) (h : r.andThen k ≠ .timeout) :
    r'.andThen k' = r.andThen k := by
  cases r with
  | timeout => exact absurd rfl h
  | error => rw [hr (by simp)]; rfl
  | done o s =>
    rw [hr (by simp)]
    cases o with
    | normal => exact hk s h
    | _ => rfl

mutual
theorem exec_mono (n : Nat) : ∀ (p : Stmt σ) (s : σ), exec n p s ≠ .timeout →
    exec (n + 1) p s = exec n p s
  | .act f, s, _ => by rw [exec, exec]
  | .use e f, s, _ => by rw [exec, exec]
  | .skip, s, _ => by rw [exec, exec]
  | .brk, s, _ => by rw [exec, exec]
  | .cont, s, _ => by rw [exec, exec]
  | .ret, s, _ => by rw [exec, exec]
  | .seq a b, s, h => by
    rw [exec] at h
    rw [exec, exec]
    exact andThen_mono (exec_mono n a s) (exec_mono n b) h
  | .ifThen c a, s, h => by
    rw [exec] at h
    rw [exec, exec]
    cases hc : c.eval s with
    | none => rfl
    | some r =>
      rw [hc] at h
      dsimp only at h ⊢
      split
      · next hv => rw [if_pos hv] at h; exact exec_mono n a _ h
      · rfl
  | .ifElse c a b, s, h => by
    rw [exec] at h
    rw [exec, exec]
    cases hc : c.eval s with
    | none => rfl
    | some r =>
      rw [hc] at h
      dsimp only at h ⊢
      split
      · next hv => rw [if_pos hv] at h; exact exec_mono n a _ h
      · next hv => rw [if_neg hv] at h; exact exec_mono n b _ h
  | .switch e cs d, s, h => by
    rw [exec] at h
    rw [exec, exec]
    cases hc : e.eval s with
    | none => rfl
    | some r =>
      rw [hc] at h
      exact execCases_mono n cs _ _ _ (exec_mono n d) _ h
  | .typeSwitch e cs d, s, h => by
    rw [exec] at h
    rw [exec, exec]
    cases hc : e.eval s with
    | none => rfl
    | some r =>
      rw [hc] at h
      exact execTypeCases_mono n cs _ _ _ (exec_mono n d) _ h
  | .loop c body post, s, h => by
    rw [exec] at h
    rw [exec, exec]
    exact iterate_mono (exec_mono n body) n s h
  | .forPost c p f body, s, h => by
    rw [exec] at h
    rw [exec, exec]
    exact iterate_mono (exec_mono n body) n s h
theorem execCases_mono (n : Nat) : ∀ (cs : Cases σ) (v : Int) (d d' : σ → Res σ),
    (∀ s, d s ≠ .timeout → d' s = d s) → ∀ s, execCases n cs v d s ≠ .timeout →
    execCases (n + 1) cs v d' s = execCases n cs v d s
  | .nil, v, d, d', hd, s, h => by
    rw [execCases] at h
    rw [execCases, execCases]; exact hd s h
  | .cons ks body rest, v, d, d', hd, s, h => by
    rw [execCases] at h
    rw [execCases, execCases]
    split
    · next hv => rw [if_pos hv] at h; exact exec_mono n body s h
    · next hv => rw [if_neg hv] at h; exact execCases_mono n rest v d d' hd s h
theorem execTypeCases_mono (n : Nat) : ∀ (cs : TypeCases σ) (v : Int) (d d' : σ → Res σ),
    (∀ s, d s ≠ .timeout → d' s = d s) → ∀ s, execTypeCases n cs v d s ≠ .timeout →
    execTypeCases (n + 1) cs v d' s = execTypeCases n cs v d s
  | .nil, v, d, d', hd, s, h => by
    rw [execTypeCases] at h
    rw [execTypeCases, execTypeCases]; exact hd s h
  | .cons conv bind body rest, v, d, d', hd, s, h => by
    rw [execTypeCases] at h
    rw [execTypeCases, execTypeCases]
    split
    · next hv =>
      rw [if_pos hv] at h
      exact andThen_mono (fun _ => rfl) (exec_mono n body) h
    · next hv => rw [if_neg hv] at h; exact execTypeCases_mono n rest v d d' hd s h
end

theorem exec_mono_le {n m : Nat} {p : Stmt σ} {s : σ} (hm : n ≤ m) (h : exec n p s ≠ .timeout) :
    exec m p s = exec n p s := by
  induction m with
  | zero =>
    have : n = 0 := by omega
    subst this; rfl
  | succ m ih =>
    by_cases hn : n = m + 1
    · subst hn; rfl
    · have e := ih (by omega)
      rw [exec_mono m p s (by rw [e]; exact h), e]

end Umka.Control
