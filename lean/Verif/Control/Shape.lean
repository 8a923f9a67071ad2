import Verif.Control.Emit
/-! # Control statements: shape of the code for statements -/

namespace Umka.Control
open Spec

variable {σ : Type}

/-- What code generation for a statement guarantees. -/
def StmtShape (p : Stmt σ) (g g' : Gen σ) : Prop :=
  ∃ nb nk nr, Ext g g' [] nb nk nr ∧
    ∀ (C : Code σ) (B K R : Nat), Fits C g g' [] nb nk nr 0 B K R → StmtAt C R p B K g.ip g'.ip

def CasesShape (cs : Cases σ) (g g' : Gen σ) (n : Nat) : Prop :=
  ∃ ns nb nk nr, ns.length = n ∧ Ext g g' ns nb nk nr ∧
    ∀ (C : Code σ) (E B K R : Nat), Fits C g g' ns nb nk nr E B K R →
      CasesAt C R E cs B K g.ip g'.ip

def TypeCasesShape (cs : TypeCases σ) (g g' : Gen σ) (n : Nat) : Prop :=
  ∃ ns nb nk nr, ns.length = n ∧ Ext g g' ns nb nk nr ∧
    ∀ (C : Code σ) (E B K R : Nat), Fits C g g' ns nb nk nr E B K R →
      TypeCasesAt C R E cs B K g.ip g'.ip

/-- Part of a fitting piece of code. -/
theorem Fits.part {C : Code σ} {g gf g1 g2 : Gen σ} {ns nb nk nr ns1 nb1 nk1 nr1 : List Nat}
    {E B K R E1 : Nat} (hf : Fits C g gf ns nb nk nr E B K R)
    (hlo : g.ip ≤ g1.ip) (hhi : g2.ip ≤ gf.ip)
    (hs : ∀ i ∈ ns1, C i = some (.goto E1))
    (hb : ∀ i ∈ nb1, i ∈ nb) (hk : ∀ i ∈ nk1, i ∈ nk) (hr : ∀ i ∈ nr1, i ∈ nr)
    (hrest : ∀ i, g1.ip ≤ i → i < g2.ip → i ∉ ns1 → i ∉ nb1 → i ∉ nk1 → i ∉ nr1 →
      i ∉ ns ∧ i ∉ nb ∧ i ∉ nk ∧ i ∉ nr ∧ gf.at i = g2.at i) :
    Fits C g1 g2 ns1 nb1 nk1 nr1 E1 B K R where
  s := hs
  b i hi := hf.b i (hb i hi)
  k i hi := hf.k i (hk i hi)
  r i hi := hf.r i (hr i hi)
  rest i h1 h2 a b c d := by
    obtain ⟨x1, x2, x3, x4, x5⟩ := hrest i h1 h2 a b c d
    rw [hf.rest i (by omega) (by omega) x1 x2 x3 x4, x5]

theorem emit_shape {g : Gen σ} {x : Instr σ} {C : Code σ} {B K R E : Nat}
    (hf : Fits C g (emit g x) [] [] [] [] E B K R) : C g.ip = some x := by
  rw [hf.rest _ (Nat.le_refl _) (by rw [emit_ip]; omega) (by simp) (by simp) (by simp) (by simp),
    emit_at_eq]

theorem use_shape {e : Expr σ} {f : σ → Int → Option σ} {g g1 : Gen σ} (h : ExprShape e g g1) :
    StmtShape (.use e f) g (emit g1 (.take f)) := by
  obtain ⟨e1, s1⟩ := h
  have l1 := e1.len
  refine ⟨[], [], [], e1.trans (ext_emit _ _), fun C B K R hf => ⟨g1.ip, s1 C ?_, ?_, emit_ip _ _⟩⟩
  · intro i h1 h2
    rw [hf.rest i h1 (by rw [emit_ip]; omega) (by simp) (by simp) (by simp) (by simp), emit_at_lt h2]
  · rw [hf.rest _ l1 (by rw [emit_ip]; omega) (by simp) (by simp) (by simp) (by simp), emit_at_eq]

theorem seq_shape {a b : Stmt σ} {g g1 g2 : Gen σ} (ha : StmtShape a g g1) (hb : StmtShape b g1 g2) :
    StmtShape (.seq a b) g g2 := by
  obtain ⟨nb, nk, nr, e1, s1⟩ := ha
  obtain ⟨nb', nk', nr', e2, s2⟩ := hb
  have l1 := e1.len; have l2 := e2.len
  refine ⟨nb ++ nb', nk ++ nk', nr ++ nr', e1.trans e2, fun C B K R hf =>
    ⟨g1.ip, s1 C B K R ?_, s2 C B K R ?_⟩⟩
  · exact hf.left (by simp) (by simp) l2 (fun i h => (e2.rb i h).1) (fun i h => (e2.rk i h).1)
      (fun i h => (e2.rr i h).1) (fun i _ h2 _ => e2.pre i h2)
  · exact hf.right (by simp) (by simp) l1 (Nat.le_refl _) (fun i h => (e1.rb i h).2)
      (fun i h => (e1.rk i h).2) (fun i h => (e1.rr i h).2) (fun _ _ _ _ => rfl)

theorem ifThen_shape {c : Expr σ} {a : Stmt σ} {g g1 g2 g3 g4 : Gen σ} (hc : ExprShape c g g1)
    (h2 : ifCondEpilog g1 = .ok g2) (ha : StmtShape a g2 g3) (h4 : ifEpilog g3 = .ok g4) :
    StmtShape (.ifThen c a) g g4 := by
  obtain ⟨e1, s1⟩ := hc
  obtain ⟨p2, e2⟩ := ifCondEpilog_ok h2
  obtain ⟨nb, nk, nr, e3, s3⟩ := ha
  have l1 := e1.len; have l3 := e3.len
  have e123 : Ext g g3 [g1.ip] nb nk nr := by simpa using (e1.trans e2).trans e3
  have f := ifEpilog_ok e123 h4
  refine ⟨nb, nk, nr, f.ext, fun C B K R hf => ⟨g1.ip, s1 C ?_, ?_, ?_⟩⟩
  · intro i h1 h2
    rw [hf.rest i h1 (by rw [f.ip]; omega) (by simp) (fun h => by have := e3.rb i h; omega)
      (fun h => by have := e3.rk i h; omega) (fun h => by have := e3.rr i h; omega),
      f.other i (by omega), e3.pre i (by omega), e2.pre i h2]
  · rw [hf.rest _ l1 (by rw [f.ip]; omega) (by simp) (fun h => by have := e3.rb _ h; omega)
      (fun h => by have := e3.rk _ h; omega) (fun h => by have := e3.rr _ h; omega), f.here, f.ip]
  · rw [← p2, f.ip]
    refine s3 C B K R (hf.part (by omega) (by rw [f.ip]; omega) (by simp) (fun i h => h)
      (fun i h => h) (fun i h => h) fun i h1 h2 _ hb hk hr => ⟨by simp, hb, hk, hr, ?_⟩)
    exact f.other i (by omega)

theorem ifElse_shape {c : Expr σ} {a b : Stmt σ} {g g1 g2 g3 g4 g5 g6 : Gen σ}
    (hc : ExprShape c g g1) (h2 : ifCondEpilog g1 = .ok g2) (ha : StmtShape a g2 g3)
    (h4 : elseProlog g3 = .ok g4) (hb : StmtShape b g4 g5) (h6 : ifElseEpilog g5 = .ok g6) :
    StmtShape (.ifElse c a b) g g6 := by
  obtain ⟨e1, s1⟩ := hc
  obtain ⟨p2, e2⟩ := ifCondEpilog_ok h2
  obtain ⟨nb, nk, nr, e3, s3⟩ := ha
  obtain ⟨nb', nk', nr', e5, s5⟩ := hb
  have l1 := e1.len; have l3 := e3.len; have l5 := e5.len
  have e123 : Ext g g3 [g1.ip] nb nk nr := by simpa using (e1.trans e2).trans e3
  have m := elseProlog_ok e123 h4
  have p4 := m.ip
  have e15 : Ext g g5 [g3.ip] (nb ++ nb') (nk ++ nk') (nr ++ nr') := by simpa using m.ext.trans e5
  have f := ifElseEpilog_ok e15 h6
  have p6 := f.ip
  have low : ∀ i, i < g3.ip → i ≠ g1.ip → g6.at i = g3.at i := by
    intro i h1 h2
    rw [f.other i (by omega), e5.pre i (by omega), m.other i h1 h2]
  have nlow : ∀ i, i < g2.ip → i ∉ nb ++ nb' ∧ i ∉ nk ++ nk' ∧ i ∉ nr ++ nr' := by
    intro i hi
    refine ⟨fun h => ?_, fun h => ?_, fun h => ?_⟩ <;> rcases List.mem_append.1 h with h | h
    · have := e3.rb i h; omega
    · have := e5.rb i h; omega
    · have := e3.rk i h; omega
    · have := e5.rk i h; omega
    · have := e3.rr i h; omega
    · have := e5.rr i h; omega
  refine ⟨_, _, _, f.ext, fun C B K R hf => ⟨g1.ip, g3.ip, s1 C ?_, ?_, ?_, ?_, ?_⟩⟩
  · intro i h1 h2
    obtain ⟨x1, x2, x3⟩ := nlow i (by omega)
    rw [hf.rest i h1 (by omega) (by simp) x1 x2 x3, low i (by omega) (by omega),
      e3.pre i (by omega), e2.pre i h2]
  · obtain ⟨x1, x2, x3⟩ := nlow g1.ip (by omega)
    rw [hf.rest _ l1 (by omega) (by simp) x1 x2 x3, f.other _ (by omega), e5.pre _ (by omega), m.here]
  · rw [← p2]
    refine s3 C B K R (hf.part (by omega) (by omega) (by simp) (fun i h => by simp [h])
      (fun i h => by simp [h]) (fun i h => by simp [h])
      fun i h1 h2 _ hb hk hr => ⟨by simp, ?_, ?_, ?_, low i (by omega) (by omega)⟩)
    · intro h; rcases List.mem_append.1 h with h | h
      · exact hb h
      · have := e5.rb i h; omega
    · intro h; rcases List.mem_append.1 h with h | h
      · exact hk h
      · have := e5.rk i h; omega
    · intro h; rcases List.mem_append.1 h with h | h
      · exact hr h
      · have := e5.rr i h; omega
  · rw [hf.rest g3.ip (by omega) (by omega) (by simp), f.here, p6]
    · intro h; rcases List.mem_append.1 h with h | h
      · have := e3.rb _ h; omega
      · have := e5.rb _ h; omega
    · intro h; rcases List.mem_append.1 h with h | h
      · have := e3.rk _ h; omega
      · have := e5.rk _ h; omega
    · intro h; rcases List.mem_append.1 h with h | h
      · have := e3.rr _ h; omega
      · have := e5.rr _ h; omega
  · rw [← p4, p6]
    refine s5 C B K R (hf.part (by omega) (by omega) (by simp) (fun i h => by simp [h])
      (fun i h => by simp [h]) (fun i h => by simp [h])
      fun i h1 h2 _ hb hk hr => ⟨by simp, ?_, ?_, ?_, f.other i (by omega)⟩)
    · intro h; rcases List.mem_append.1 h with h | h
      · have := e3.rb i h; omega
      · exact hb h
    · intro h; rcases List.mem_append.1 h with h | h
      · have := e3.rk i h; omega
      · exact hk h
    · intro h; rcases List.mem_append.1 h with h | h
      · have := e3.rr i h; omega
      · exact hr h

/-! ## Switches -/

theorem caseBlockProlog_ok {g g1 g' : Gen σ} {ps : List Nat} (e : Ext g g1 ps [] [] [])
    (h : caseBlockProlog g1 ps.length = .ok g') :
    g'.ip = g1.ip + 1 ∧ Ext g g' [g1.ip] [] [] [] ∧
    (∀ i ∈ ps, g'.at i = some (.gotoIf (g1.ip + 1))) ∧
    (∀ i, i < g1.ip → i ∉ ps → g'.at i = g1.at i) := by
  unfold caseBlockProlog at h
  obtain ⟨g2, h2, h⟩ := bind_eq_ok h
  obtain ⟨g3, h3, h⟩ := bind_eq_ok h
  injection h with h
  have f := patchCases_ok (ns := []) ps (by simpa using e) h2
  rw [savePos_ok h3] at h
  have e2 := f.ext.trans (ext_stub g2)
  rw [h, f.ip] at e2
  have hl : ∀ i, i < g2.ip → g'.at i = g2.at i := by
    intro i hi; rw [← h]; exact emit_at_lt hi
  refine ⟨?_, by simpa using e2, ?_, ?_⟩
  · rw [← h, emit_ip]; show g2.ip + 1 = _; rw [f.ip]
  · intro i hi
    rw [hl i (by rw [f.ip]; exact (e.rs i hi).2), f.here i hi]
  · intro i h1 h2
    rw [hl i (by rw [f.ip]; exact h1), f.other i h2]

theorem cases_cons_shape {ks : List Int} {body : Stmt σ} {rest : Cases σ}
    {g g1 g2 g3 g4 g5 : Gen σ} {n : Nat}
    (h1 : caseConstants g ks = .ok g1) (h2 : caseBlockProlog g1 ks.length = .ok g2)
    (hb : StmtShape body g2 g3) (h4 : caseBlockEpilog g3 = .ok g4) (hr : CasesShape rest g4 g5 n) :
    CasesShape (.cons ks body rest) g g5 (n + 1) := by
  obtain ⟨ps, pl, e1, s1⟩ := caseConstants_ok ks h1
  rw [← pl] at h2
  obtain ⟨p2, e2, q2, r2⟩ := caseBlockProlog_ok e1 h2
  obtain ⟨nb, nk, nr, e3, s3⟩ := hb
  have e123 : Ext g g3 [g1.ip] nb nk nr := by simpa using e2.trans e3
  have m := caseBlockEpilog_ok e123 h4
  obtain ⟨ns, nb', nk', nr', nl, e5, s5⟩ := hr
  have l1 := e1.len; have l3 := e3.len; have l5 := e5.len; have p4 := m.ip
  have ef : Ext g g5 (ns ++ [g3.ip]) (nb ++ nb') (nk ++ nk') (nr ++ nr') := m.ext.trans e5
  have low : ∀ i, i < g3.ip → i ≠ g1.ip → g5.at i = g3.at i := by
    intro i h1 h2
    rw [e5.pre i (by omega), m.other i h1 h2]
  have nlow : ∀ i, i < g2.ip → i ∉ ns ++ [g3.ip] ∧ i ∉ nb ++ nb' ∧ i ∉ nk ++ nk' ∧ i ∉ nr ++ nr' := by
    intro i hi
    refine ⟨fun h => ?_, fun h => ?_, fun h => ?_, fun h => ?_⟩ <;>
      rcases List.mem_append.1 h with h | h
    · have := e5.rs i h; omega
    · rw [List.mem_singleton] at h; omega
    · have := e3.rb i h; omega
    · have := e5.rb i h; omega
    · have := e3.rk i h; omega
    · have := e5.rk i h; omega
    · have := e3.rr i h; omega
    · have := e5.rr i h; omega
  refine ⟨_, _, _, _, by simp [nl], ef, fun C E B K R hf => ⟨g1.ip, g3.ip, s1 C _ ?_ ?_, ?_, ?_, ?_, ?_⟩⟩
  · intro i hi
    have := e1.rs i hi
    obtain ⟨x0, x1, x2, x3⟩ := nlow i (by omega)
    rw [hf.rest i (by omega) (by omega) x0 x1 x2 x3, low i (by omega) (by omega),
      e3.pre i (by omega), q2 i hi]
  · intro i h1 h2 h3
    obtain ⟨x0, x1, x2, x3⟩ := nlow i (by omega)
    rw [hf.rest i (by omega) (by omega) x0 x1 x2 x3, low i (by omega) (by omega),
      e3.pre i (by omega), r2 i h2 h3]
  · obtain ⟨x0, x1, x2, x3⟩ := nlow g1.ip (by omega)
    rw [hf.rest _ l1 (by omega) x0 x1 x2 x3, e5.pre _ (by omega), m.here]
  · rw [← p2]
    refine s3 C B K R (hf.part (by omega) (by omega) (by simp) (fun i h => by simp [h])
      (fun i h => by simp [h]) (fun i h => by simp [h])
      fun i h1 h2 _ hb hk hr => ⟨?_, ?_, ?_, ?_, low i (by omega) (by omega)⟩)
    · intro h; rcases List.mem_append.1 h with h | h
      · have := e5.rs i h; omega
      · rw [List.mem_singleton] at h; omega
    · intro h; rcases List.mem_append.1 h with h | h
      · exact hb h
      · have := e5.rb i h; omega
    · intro h; rcases List.mem_append.1 h with h | h
      · exact hk h
      · have := e5.rk i h; omega
    · intro h; rcases List.mem_append.1 h with h | h
      · exact hr h
      · have := e5.rr i h; omega
  · exact hf.s _ (by simp)
  · rw [← p4]
    refine s5 C E B K R (hf.part (by omega) (by omega) (fun i h => hf.s i (by simp [h]))
      (fun i h => by simp [h]) (fun i h => by simp [h]) (fun i h => by simp [h])
      fun i h1 h2 hs hb hk hr => ⟨?_, ?_, ?_, ?_, rfl⟩)
    · intro h; rcases List.mem_append.1 h with h | h
      · exact hs h
      · rw [List.mem_singleton] at h; omega
    · intro h; rcases List.mem_append.1 h with h | h
      · have := e3.rb i h; omega
      · exact hb h
    · intro h; rcases List.mem_append.1 h with h | h
      · have := e3.rk i h; omega
      · exact hk h
    · intro h; rcases List.mem_append.1 h with h | h
      · have := e3.rr i h; omega
      · exact hr h

theorem switch_shape {e : Expr σ} {cs : Cases σ} {d : Stmt σ} {g g1 g2 g3 g4 : Gen σ} {n : Nat}
    (he : ExprShape e g g1) (hc : CasesShape cs (emit g1 .popReg) g2 n) (hd : StmtShape d g2 g3)
    (h4 : switchEpilog g3 n = .ok g4) : StmtShape (.switch e cs d) g g4 := by
  obtain ⟨e1, s1⟩ := he
  obtain ⟨ns, nb, nk, nr, nl, e2, s2⟩ := hc
  obtain ⟨nb', nk', nr', e3, s3⟩ := hd
  have p1 := emit_ip g1 (.popReg : Instr σ)
  have l1 := e1.len; have l2 := e2.len; have l3 := e3.len
  have e13 : Ext g g3 (ns ++ []) (nb ++ nb') (nk ++ nk') (nr ++ nr') := by
    simpa using ((e1.trans (ext_emit g1 .popReg)).trans e2).trans e3
  subst nl
  have f := switchEpilog_ok ns e13 h4
  have p4 := f.ip
  have nlow : ∀ i, i < g1.ip + 1 → i ∉ ns ∧ i ∉ nb ++ nb' ∧ i ∉ nk ++ nk' ∧ i ∉ nr ++ nr' := by
    intro i hi
    refine ⟨fun h => by have := e2.rs i h; omega, fun h => ?_, fun h => ?_, fun h => ?_⟩ <;>
      rcases List.mem_append.1 h with h | h
    · have := e2.rb i h; omega
    · have := e3.rb i h; omega
    · have := e2.rk i h; omega
    · have := e3.rk i h; omega
    · have := e2.rr i h; omega
    · have := e3.rr i h; omega
  have d13 := e13.dis
  have hgoto : ∀ (C : Code σ) (B K R : Nat), Fits C g g4 [] (nb ++ nb') (nk ++ nk') (nr ++ nr') 0 B K R →
      ∀ i ∈ ns, C i = some (.goto g3.ip) := by
    intro C B K R hf i hi
    have r := e2.rs i hi
    obtain ⟨x1, x2, x3⟩ := (d13 i).1 (by simp [hi])
    rw [hf.rest i (by omega) (by omega) (by simp) x1 x2 x3, f.here i hi]
  refine ⟨_, _, _, f.ext, fun C B K R hf => ⟨g1.ip, g2.ip, s1 C ?_, ?_, ?_, ?_⟩⟩
  · intro i h1 h2
    obtain ⟨x0, x1, x2, x3⟩ := nlow i (by omega)
    rw [hf.rest i h1 (by omega) (by simp) x1 x2 x3, f.other i x0, e3.pre i (by omega),
      e2.pre i (by omega), emit_at_lt h2]
  · obtain ⟨x0, x1, x2, x3⟩ := nlow g1.ip (by omega)
    rw [hf.rest _ l1 (by omega) (by simp) x1 x2 x3, f.other _ x0, e3.pre _ (by omega),
      e2.pre _ (by omega), emit_at_eq]
  · rw [← p1, p4]
    refine s2 C g3.ip B K R (hf.part (by omega) (by omega) (hgoto C B K R hf) (fun i h => by simp [h])
      (fun i h => by simp [h]) (fun i h => by simp [h])
      fun i h1 h2 hs hb hk hr => ⟨by simp, ?_, ?_, ?_, ?_⟩)
    · intro h; rcases List.mem_append.1 h with h | h
      · exact hb h
      · have := e3.rb i h; omega
    · intro h; rcases List.mem_append.1 h with h | h
      · exact hk h
      · have := e3.rk i h; omega
    · intro h; rcases List.mem_append.1 h with h | h
      · exact hr h
      · have := e3.rr i h; omega
    · rw [f.other i hs, e3.pre i h2]
  · rw [p4]
    refine s3 C B K R (hf.part (by omega) (by omega) (by simp) (fun i h => by simp [h])
      (fun i h => by simp [h]) (fun i h => by simp [h])
      fun i h1 h2 hs hb hk hr => ⟨by simp, ?_, ?_, ?_, ?_⟩)
    · intro h; rcases List.mem_append.1 h with h | h
      · have := e2.rb i h; omega
      · exact hb h
    · intro h; rcases List.mem_append.1 h with h | h
      · have := e2.rk i h; omega
      · exact hk h
    · intro h; rcases List.mem_append.1 h with h | h
      · have := e2.rr i h; omega
      · exact hr h
    · exact f.other i fun h => by have := e2.rs i h; omega

theorem typeCases_cons_shape {conv : σ → Int → Int} {bind : σ → Int → Option σ} {body : Stmt σ}
    {rest : TypeCases σ} {g g1 g2 g3 g4 g5 g6 : Gen σ} {n : Nat}
    (h1 : g1 = emit (emit (emit (emit (emit g .dup) (.assertType conv)) .dup) (.push 0)) .ne)
    (h2 : ifCondEpilog g1 = .ok g2) (hb : StmtShape body (emit g2 (.take bind)) g3)
    (h4 : elseProlog g3 = .ok g4) (h5 : g5 = emit g4 .pop) (hr : TypeCasesShape rest g5 g6 n) :
    TypeCasesShape (.cons conv bind body rest) g g6 (n + 1) := by
  have a0 := emit_ip g (.dup : Instr σ)
  have a1 := emit_ip (emit g .dup) (.assertType conv : Instr σ)
  have a2 := emit_ip (emit (emit g .dup) (.assertType conv)) (.dup : Instr σ)
  have a3 := emit_ip (emit (emit (emit g .dup) (.assertType conv)) .dup) (.push 0 : Instr σ)
  have a4 := emit_ip (emit (emit (emit (emit g .dup) (.assertType conv)) .dup) (.push 0)) (.ne : Instr σ)
  have e1 : Ext g g1 [] [] [] [] := h1 ▸
    ((((ext_emit g .dup).trans (ext_emit _ _)).trans (ext_emit _ _)).trans (ext_emit _ _)).trans
      (ext_emit _ _)
  rw [← h1] at a4
  obtain ⟨p2, e2⟩ := ifCondEpilog_ok h2
  obtain ⟨nb, nk, nr, e3, s3⟩ := hb
  have p3 := emit_ip g2 (.take bind : Instr σ)
  have e123 : Ext g g3 [g1.ip] nb nk nr := by
    simpa using ((e1.trans e2).trans (ext_emit g2 (.take bind))).trans e3
  have m := elseProlog_ok e123 h4
  have p4 := m.ip
  have p5 := emit_ip g4 (.pop : Instr σ)
  rw [← h5] at p5
  have e45 : Ext g4 g5 [] [] [] [] := h5 ▸ ext_emit g4 .pop
  obtain ⟨ns, nb', nk', nr', nl, e6, s6⟩ := hr
  have l1 := e1.len; have l3 := e3.len; have l6 := e6.len
  have ef : Ext g g6 (ns ++ [g3.ip]) (nb ++ nb') (nk ++ nk') (nr ++ nr') := by
    simpa using (m.ext.trans e45).trans e6
  have low : ∀ i, i < g3.ip → i ≠ g1.ip → g6.at i = g3.at i := by
    intro i h1 h2
    rw [e6.pre i (by omega), e45.pre i (by omega), m.other i h1 h2]
  have nlow : ∀ i, i < g2.ip + 1 → i ∉ ns ++ [g3.ip] ∧ i ∉ nb ++ nb' ∧ i ∉ nk ++ nk' ∧ i ∉ nr ++ nr' := by
    intro i hi
    refine ⟨fun h => ?_, fun h => ?_, fun h => ?_, fun h => ?_⟩ <;>
      rcases List.mem_append.1 h with h | h
    · have := e6.rs i h; omega
    · rw [List.mem_singleton] at h; omega
    · have := e3.rb i h; omega
    · have := e6.rb i h; omega
    · have := e3.rk i h; omega
    · have := e6.rk i h; omega
    · have := e3.rr i h; omega
    · have := e6.rr i h; omega
  have q : ∀ (C : Code σ) (E B K R : Nat),
      Fits C g g6 (ns ++ [g3.ip]) (nb ++ nb') (nk ++ nk') (nr ++ nr') E B K R →
      ∀ i, g.ip ≤ i → i < g1.ip → C i = g1.at i := by
    intro C E B K R hf i h1 h2
    obtain ⟨x0, x1, x2, x3⟩ := nlow i (by omega)
    rw [hf.rest i (by omega) (by omega) x0 x1 x2 x3, low i (by omega) (by omega), e3.pre i (by omega),
      emit_at_lt (by omega), e2.pre i h2]
  refine ⟨_, _, _, _, by simp [nl], ef, fun C E B K R hf =>
    ⟨g3.ip, ?_, ?_, ?_, ?_, ?_, ?_, ?_, ?_, ?_, ?_, ?_⟩⟩
  · rw [q C E B K R hf _ (by omega) (by omega), h1, emit_at_lt (by omega), emit_at_lt (by omega),
      emit_at_lt (by omega), emit_at_lt (by omega), emit_at_eq]
  · rw [q C E B K R hf _ (by omega) (by omega), h1, emit_at_lt (by omega), emit_at_lt (by omega),
      emit_at_lt (by omega), ← a0, emit_at_eq]
  · rw [q C E B K R hf _ (by omega) (by omega), h1, emit_at_lt (by omega), emit_at_lt (by omega),
      show g.ip + 2 = (emit (emit g .dup) (.assertType conv : Instr σ)).ip by omega, emit_at_eq]
  · rw [q C E B K R hf _ (by omega) (by omega), h1, emit_at_lt (by omega),
      show g.ip + 3 = (emit (emit (emit g .dup) (.assertType conv)) (.dup : Instr σ)).ip by omega,
      emit_at_eq]
  · rw [q C E B K R hf _ (by omega) (by omega), h1,
      show g.ip + 4 = (emit (emit (emit (emit g .dup) (.assertType conv)) .dup) (.push 0 : Instr σ)).ip
        by omega, emit_at_eq]
  · rw [show g.ip + 5 = g1.ip by omega]
    obtain ⟨x0, x1, x2, x3⟩ := nlow g1.ip (by omega)
    rw [hf.rest _ (by omega) (by omega) x0 x1 x2 x3, e6.pre _ (by omega), e45.pre _ (by omega), m.here]
  · rw [show g.ip + 6 = g2.ip by omega]
    obtain ⟨x0, x1, x2, x3⟩ := nlow g2.ip (by omega)
    rw [hf.rest _ (by omega) (by omega) x0 x1 x2 x3, low _ (by omega) (by omega), e3.pre _ (by omega),
      emit_at_eq]
  · rw [show g.ip + 7 = (emit g2 (.take bind : Instr σ)).ip by omega]
    refine s3 C B K R (hf.part (by omega) (by omega) (by simp) (fun i h => by simp [h])
      (fun i h => by simp [h]) (fun i h => by simp [h])
      fun i h1 h2 _ hb hk hr => ⟨?_, ?_, ?_, ?_, low i (by omega) (by omega)⟩)
    · intro h; rcases List.mem_append.1 h with h | h
      · have := e6.rs i h; omega
      · rw [List.mem_singleton] at h; omega
    · intro h; rcases List.mem_append.1 h with h | h
      · exact hb h
      · have := e6.rb i h; omega
    · intro h; rcases List.mem_append.1 h with h | h
      · exact hk h
      · have := e6.rk i h; omega
    · intro h; rcases List.mem_append.1 h with h | h
      · exact hr h
      · have := e6.rr i h; omega
  · exact hf.s _ (by simp)
  · rw [← p4]
    have r1 := hf.rest g4.ip (by omega) (by omega)
    rw [r1, e6.pre _ (by omega), h5, emit_at_eq]
    · intro h; rcases List.mem_append.1 h with h | h
      · have := e6.rs _ h; omega
      · rw [List.mem_singleton] at h; omega
    · intro h; rcases List.mem_append.1 h with h | h
      · have := e3.rb _ h; omega
      · have := e6.rb _ h; omega
    · intro h; rcases List.mem_append.1 h with h | h
      · have := e3.rk _ h; omega
      · have := e6.rk _ h; omega
    · intro h; rcases List.mem_append.1 h with h | h
      · have := e3.rr _ h; omega
      · have := e6.rr _ h; omega
  · rw [show g3.ip + 2 = g5.ip by omega]
    refine s6 C E B K R (hf.part (by omega) (by omega) (fun i h => hf.s i (by simp [h]))
      (fun i h => by simp [h]) (fun i h => by simp [h]) (fun i h => by simp [h])
      fun i h1 h2 hs hb hk hr => ⟨?_, ?_, ?_, ?_, rfl⟩)
    · intro h; rcases List.mem_append.1 h with h | h
      · exact hs h
      · rw [List.mem_singleton] at h; omega
    · intro h; rcases List.mem_append.1 h with h | h
      · have := e3.rb i h; omega
      · exact hb h
    · intro h; rcases List.mem_append.1 h with h | h
      · have := e3.rk i h; omega
      · exact hk h
    · intro h; rcases List.mem_append.1 h with h | h
      · have := e3.rr i h; omega
      · exact hr h

theorem typeSwitch_shape {e : Expr σ} {cs : TypeCases σ} {d : Stmt σ} {g g1 g2 g3 g4 : Gen σ} {n : Nat}
    (he : ExprShape e g g1) (hc : TypeCasesShape cs g1 g2 n) (hd : StmtShape d g2 g3)
    (h4 : switchEpilog g3 n = .ok g4) : StmtShape (.typeSwitch e cs d) g (emit g4 .pop) := by
  obtain ⟨e1, s1⟩ := he
  obtain ⟨ns, nb, nk, nr, nl, e2, s2⟩ := hc
  obtain ⟨nb', nk', nr', e3, s3⟩ := hd
  have l1 := e1.len; have l2 := e2.len; have l3 := e3.len
  have e13 : Ext g g3 (ns ++ []) (nb ++ nb') (nk ++ nk') (nr ++ nr') := by
    simpa using (e1.trans e2).trans e3
  subst nl
  have f := switchEpilog_ok ns e13 h4
  have p4 := f.ip
  have p5 := emit_ip g4 (.pop : Instr σ)
  have nlow : ∀ i, i < g1.ip → i ∉ ns ∧ i ∉ nb ++ nb' ∧ i ∉ nk ++ nk' ∧ i ∉ nr ++ nr' := by
    intro i hi
    refine ⟨fun h => by have := e2.rs i h; omega, fun h => ?_, fun h => ?_, fun h => ?_⟩ <;>
      rcases List.mem_append.1 h with h | h
    · have := e2.rb i h; omega
    · have := e3.rb i h; omega
    · have := e2.rk i h; omega
    · have := e3.rk i h; omega
    · have := e2.rr i h; omega
    · have := e3.rr i h; omega
  have d13 := e13.dis
  have hgoto : ∀ (C : Code σ) (B K R : Nat),
      Fits C g (emit g4 .pop) [] (nb ++ nb') (nk ++ nk') (nr ++ nr') 0 B K R →
      ∀ i ∈ ns, C i = some (.goto g3.ip) := by
    intro C B K R hf i hi
    have r := e2.rs i hi
    obtain ⟨x1, x2, x3⟩ := (d13 i).1 (by simp [hi])
    rw [hf.rest i (by omega) (by omega) (by simp) x1 x2 x3, emit_at_lt (by omega), f.here i hi]
  have ef : Ext g (emit g4 .pop) [] (nb ++ nb') (nk ++ nk') (nr ++ nr') := by
    simpa using f.ext.trans (ext_emit g4 .pop)
  refine ⟨_, _, _, ef, fun C B K R hf => ⟨g1.ip, g2.ip, g3.ip, s1 C ?_, ?_, ?_, ?_, by omega⟩⟩
  · intro i h1 h2
    obtain ⟨x0, x1, x2, x3⟩ := nlow i (by omega)
    rw [hf.rest i h1 (by omega) (by simp) x1 x2 x3, emit_at_lt (by omega), f.other i x0,
      e3.pre i (by omega), e2.pre i h2]
  · refine s2 C g3.ip B K R (hf.part (by omega) (by omega) (hgoto C B K R hf) (fun i h => by simp [h])
      (fun i h => by simp [h]) (fun i h => by simp [h])
      fun i h1 h2 hs hb hk hr => ⟨by simp, ?_, ?_, ?_, ?_⟩)
    · intro h; rcases List.mem_append.1 h with h | h
      · exact hb h
      · have := e3.rb i h; omega
    · intro h; rcases List.mem_append.1 h with h | h
      · exact hk h
      · have := e3.rk i h; omega
    · intro h; rcases List.mem_append.1 h with h | h
      · exact hr h
      · have := e3.rr i h; omega
    · rw [emit_at_lt (by omega), f.other i hs, e3.pre i h2]
  · refine s3 C B K R (hf.part (by omega) (by omega) (by simp) (fun i h => by simp [h])
      (fun i h => by simp [h]) (fun i h => by simp [h])
      fun i h1 h2 hs hb hk hr => ⟨by simp, ?_, ?_, ?_, ?_⟩)
    · intro h; rcases List.mem_append.1 h with h | h
      · have := e2.rb i h; omega
      · exact hb h
    · intro h; rcases List.mem_append.1 h with h | h
      · have := e2.rk i h; omega
      · exact hk h
    · intro h; rcases List.mem_append.1 h with h | h
      · have := e2.rr i h; omega
      · exact hr h
    · rw [emit_at_lt (by omega), f.other i fun h => by have := e2.rs i h; omega]
  · rw [← p4, hf.rest g4.ip (by omega) (by omega) (by simp), emit_at_eq]
    · intro h; rcases List.mem_append.1 h with h | h
      · have := e2.rb _ h; omega
      · have := e3.rb _ h; omega
    · intro h; rcases List.mem_append.1 h with h | h
      · have := e2.rk _ h; omega
      · have := e3.rk _ h; omega
    · intro h; rcases List.mem_append.1 h with h | h
      · have := e2.rr _ h; omega
      · have := e3.rr _ h; omega

/-! ## Stubs for `break`, `continue`, `return` -/

theorem break_shape {g g' : Gen σ} (h : breakStub g = .ok g') : StmtShape (.brk : Stmt σ) g g' := by
  unfold breakStub at h
  split at h
  · cases h
  next l hl =>
  obtain ⟨l', hl', h⟩ := bind_eq_ok h
  injection h with h
  rw [addGoto_ok hl'] at h
  subst h
  have p := emit_ip { g with breaks := some (l ++ [g.ip]) } (.nop : Instr σ)
  have p' : (emit { g with breaks := some (l ++ [g.ip]) } (.nop : Instr σ)).ip = g.ip + 1 := p
  refine ⟨[g.ip], [], [], ?_, fun C B K R hf => ⟨hf.b _ (by simp), p'⟩⟩
  constructor
  · omega
  · intro i hi; exact emit_at_lt (g := { g with breaks := some (l ++ [g.ip]) }) hi
  · rfl
  · rw [hl]; rfl
  · intro h; rw [hl] at h; cases h
  · exact (map_append_nil _).symm
  · intro _; rfl
  · exact (List.append_nil _).symm
  · simp
  · intro i hi; rw [List.mem_singleton] at hi; subst hi; omega
  · simp
  · simp
  · simp

theorem continue_shape {g g' : Gen σ} (h : continueStub g = .ok g') :
    StmtShape (.cont : Stmt σ) g g' := by
  unfold continueStub at h
  split at h
  · cases h
  next l hl =>
  obtain ⟨l', hl', h⟩ := bind_eq_ok h
  injection h with h
  rw [addGoto_ok hl'] at h
  subst h
  have p := emit_ip { g with continues := some (l ++ [g.ip]) } (.nop : Instr σ)
  have p' : (emit { g with continues := some (l ++ [g.ip]) } (.nop : Instr σ)).ip = g.ip + 1 := p
  refine ⟨[], [g.ip], [], ?_, fun C B K R hf => ⟨hf.k _ (by simp), p'⟩⟩
  constructor
  · omega
  · intro i hi; exact emit_at_lt (g := { g with continues := some (l ++ [g.ip]) }) hi
  · rfl
  · exact (map_append_nil _).symm
  · intro _; rfl
  · rw [hl]; rfl
  · intro h; rw [hl] at h; cases h
  · exact (List.append_nil _).symm
  · simp
  · simp
  · intro i hi; rw [List.mem_singleton] at hi; subst hi; omega
  · simp
  · simp

theorem return_shape {g g' : Gen σ} (h : returnStub g = .ok g') : StmtShape (.ret : Stmt σ) g g' := by
  unfold returnStub at h
  obtain ⟨l', hl', h⟩ := bind_eq_ok h
  injection h with h
  rw [addGoto_ok hl'] at h
  subst h
  have p := emit_ip { g with returns := g.returns ++ [g.ip] } (.nop : Instr σ)
  have p' : (emit { g with returns := g.returns ++ [g.ip] } (.nop : Instr σ)).ip = g.ip + 1 := p
  refine ⟨[], [], [g.ip], ?_, fun C B K R hf => ⟨hf.r _ (by simp), p'⟩⟩
  constructor
  · omega
  · intro i hi; exact emit_at_lt (g := { g with returns := g.returns ++ [g.ip] }) hi
  · rfl
  · exact (map_append_nil _).symm
  · intro _; rfl
  · exact (map_append_nil _).symm
  · intro _; rfl
  · rfl
  · simp
  · simp
  · simp
  · intro i hi; rw [List.mem_singleton] at hi; subst hi; omega
  · simp

/-! ## Loops -/

theorem whileEpilog_ok {g g' : Gen σ} {p q : Nat} {st : List Nat} (hs : g.stack = p :: q :: st)
    (hp : p < g.ip) (h : whileEpilog g = .ok g') :
    g'.ip = g.ip + 1 ∧ g'.stack = st ∧ g'.breaks = g.breaks ∧ g'.continues = g.continues ∧
    g'.returns = g.returns ∧ g'.at p = some (.gotoIfNot (g.ip + 1)) ∧
    g'.at g.ip = some (.goto q) ∧ ∀ i, i < g.ip → i ≠ p → g'.at i = g.at i := by
  unfold whileEpilog at h
  rw [restorePos_cons hs, bind_ok] at h
  have h' : (do
      let (q, g) ← restorePos (patch { g with stack := q :: st } p (.gotoIfNot (g.ip + 1)))
      return emit g (.goto q) : M (Gen σ)) = .ok g' := h
  rw [restorePos_cons (p := q) (st := st) rfl, bind_ok] at h'
  injection h' with h'
  have hip : (patch { g with stack := q :: st } p (.gotoIfNot (g.ip + 1))).ip = g.ip := patch_ip _ _ _
  have hl : ∀ i, i < g.ip → g'.at i =
      (patch { g with stack := q :: st } p (.gotoIfNot (g.ip + 1))).at i := by
    intro i hi
    rw [← h']
    exact emit_at_lt (g := { patch { g with stack := q :: st } p (.gotoIfNot (g.ip + 1)) with
      stack := st }) (by show i < (patch { g with stack := q :: st } p (.gotoIfNot (g.ip + 1))).ip; omega)
  refine ⟨?_, by rw [← h']; rfl, by rw [← h']; rfl, by rw [← h']; rfl, by rw [← h']; rfl, ?_, ?_, ?_⟩
  · rw [← h', emit_ip]
    show (patch { g with stack := q :: st } p (.gotoIfNot (g.ip + 1))).ip + 1 = _
    rw [hip]
  · rw [hl p hp]; exact patch_at_eq (g := { g with stack := q :: st }) hp
  · have e := emit_at_eq { patch { g with stack := q :: st } p (.gotoIfNot (g.ip + 1)) with
      stack := st } (.goto q)
    rw [h'] at e
    rw [← e]
    exact congrArg g'.at hip.symm
  · intro i h1 h2
    rw [hl i h1, patch_at_ne h2]; rfl

theorem post_ok (post : Option (σ → Option σ)) {g g' : Gen σ}
    (h : g' = match post with | some f => emit g (.act f) | none => g) :
    Ext g g' [] [] [] [] ∧
    ∀ C : Code σ, (∀ i, g.ip ≤ i → i < g'.ip → C i = g'.at i) → PostAt C post g.ip g'.ip := by
  cases post with
  | none => subst h; exact ⟨Ext.refl _, fun _ _ => rfl⟩
  | some f =>
    subst h
    refine ⟨ext_emit _ _, fun C hC => ⟨?_, emit_ip _ _⟩⟩
    rw [hC _ (Nat.le_refl _) (by rw [emit_ip]; omega), emit_at_eq]

theorem loop_shape {c : Expr σ} {body : Stmt σ} {post : Option (σ → Option σ)}
    {g g0 g1 g2 g3 g4 g5 g6 g7 : Gen σ}
    (h0 : savePos { g with breaks := some [], continues := some [] } = .ok g0)
    (hc : ExprShape c g0 g1) (h2 : ifCondEpilog g1 = .ok g2) (hb : StmtShape body g2 g3)
    (h4 : g4 = { gotosEpilog g3 (g3.continues.getD []) with continues := g.continues })
    (h5 : g5 = match post with | some f => emit g4 (.act f) | none => g4)
    (h6 : whileEpilog g5 = .ok g6)
    (h7 : g7 = { gotosEpilog g6 (g6.breaks.getD []) with breaks := g.breaks }) :
    StmtShape (.loop c body post) g g7 := by
  have h0 := savePos_ok h0
  have p0 : g0.ip = g.ip := by rw [h0]; rfl
  obtain ⟨e1, s1⟩ := hc
  obtain ⟨p2, e2⟩ := ifCondEpilog_ok h2
  obtain ⟨nb, nk, nr, e3, s3⟩ := hb
  have l1 := e1.len; have l3 := e3.len
  have e03 : Ext g0 g3 [g1.ip] nb nk nr := by simpa using (e1.trans e2).trans e3
  have b3 : g3.breaks = some nb := by rw [e03.brk, h0]; rfl
  have k3 : g3.continues = some nk := by rw [e03.cont, h0]; rfl
  have r3 : g3.returns = g.returns ++ nr := by rw [e03.ret, h0]
  have t3 : g3.stack = g1.ip :: g.ip :: g.stack := by rw [e03.stack, h0]; rfl
  rw [k3, Option.getD_some] at h4
  obtain ⟨i1, i2, i3, i4, i5, i6, i7⟩ := gotosEpilog_spec nk g3 (fun i hi => (e3.rk i hi).2)
  have p4 : g4.ip = g3.ip := by rw [h4]; exact i1
  have t4 : g4.stack = g1.ip :: g.ip :: g.stack := by rw [h4]; exact i2.trans t3
  have b4 : g4.breaks = some nb := by rw [h4]; exact i3.trans b3
  have k4 : g4.continues = g.continues := by rw [h4]
  have r4 : g4.returns = g.returns ++ nr := by rw [h4]; exact i5.trans r3
  have x4 : ∀ i ∈ nk, g4.at i = some (.goto g3.ip) := by rw [h4]; exact i6
  have y4 : ∀ i, i ∉ nk → g4.at i = g3.at i := by rw [h4]; exact i7
  obtain ⟨e5, s5⟩ := post_ok post h5
  have l5 := e5.len
  obtain ⟨j1, j2, j3, j4, j5, j6, j7, j8⟩ := whileEpilog_ok (p := g1.ip) (q := g.ip) (st := g.stack)
    (by rw [e5.stack, t4]; rfl) (by omega) h6
  have b5 : g5.breaks = some nb := by rw [e5.brk, b4]; simp
  have b6 : g6.breaks = some nb := by rw [j3, b5]
  rw [b6, Option.getD_some] at h7
  obtain ⟨m1, m2, m3, m4, m5, m6, m7⟩ := gotosEpilog_spec nb g6
    (fun i hi => by have := e3.rb i hi; omega)
  have p7 : g7.ip = g6.ip := by rw [h7]; exact m1
  have x7 : ∀ i ∈ nb, g7.at i = some (.goto g6.ip) := by rw [h7]; exact m6
  have y7 : ∀ i, i ∉ nb → g7.at i = g6.at i := by rw [h7]; exact m7
  have ef : Ext g g7 [] [] [] nr := by
    constructor
    · omega
    · intro i hi
      rw [y7 i (fun h => by have := e3.rb i h; omega), j8 i (by omega) (by omega), e5.pre i (by omega),
        y4 i (fun h => by have := e3.rk i h; omega), e03.pre i (by omega), h0]
      rfl
    · rw [h7]; exact m2.trans j2
    · rw [h7]; exact (map_append_nil _).symm
    · intro _; rfl
    · rw [h7]
      show (gotosEpilog g6 nb).continues = _
      rw [m4, j4, e5.cont, k4]
    · intro _; rfl
    · rw [h7]
      show (gotosEpilog g6 nb).returns = _
      rw [m5, j5, e5.ret, r4]; simp
    · simp
    · simp
    · simp
    · intro i hi; have := e3.rr i hi; omega
    · simp
  have d3 := e3.dis
  refine ⟨[], [], nr, ef, fun C B K R hf => ⟨g1.ip, g3.ip, g5.ip, ?_, ?_, ?_, ?_, ?_, by omega⟩⟩
  · rw [← p0]
    refine s1 C fun i h1 h2 => ?_
    rw [hf.rest i (by omega) (by omega) (by simp) (by simp) (by simp)
        (fun h => by have := e3.rr i h; omega),
      y7 i (fun h => by have := e3.rb i h; omega), j8 i (by omega) (by omega), e5.pre i (by omega),
      y4 i (fun h => by have := e3.rk i h; omega), e3.pre i (by omega), e2.pre i h2]
  · rw [hf.rest _ (by omega) (by omega) (by simp) (by simp) (by simp)
        (fun h => by have := e3.rr _ h; omega),
      y7 _ (fun h => by have := e3.rb _ h; omega), j6, p7, j1]
  · rw [← p2]
    refine s3 C g7.ip g3.ip R ⟨by simp, ?_, ?_, hf.r, ?_⟩
    · intro i hi
      have r := e3.rb i hi
      rw [hf.rest i (by omega) (by omega) (by simp) (by simp) (by simp) ((d3 i).2.1 hi).2, x7 i hi, p7]
    · intro i hi
      have r := e3.rk i hi
      have hnb : i ∉ nb := fun h => ((d3 i).2.1 h).1 hi
      rw [hf.rest i (by omega) (by omega) (by simp) (by simp) (by simp) ((d3 i).2.2 hi), y7 i hnb,
        j8 i (by omega) (by omega), e5.pre i (by omega), x4 i hi]
    · intro i h1 h2 _ hnb hnk hnr
      rw [hf.rest i (by omega) (by omega) (by simp) (by simp) (by simp) hnr, y7 i hnb,
        j8 i (by omega) (by omega), e5.pre i (by omega), y4 i hnk]
  · rw [← p4]
    refine s5 C fun i h1 h2 => ?_
    rw [hf.rest i (by omega) (by omega) (by simp) (by simp) (by simp)
        (fun h => by have := e3.rr i h; omega),
      y7 i (fun h => by have := e3.rb i h; omega), j8 i (by omega) (by omega)]
  · rw [hf.rest _ (by omega) (by omega) (by simp) (by simp) (by simp)
        (fun h => by have := e3.rr _ h; omega),
      y7 _ (fun h => by have := e3.rb _ h; omega), j7]

theorem forCondEpilog_ok {g g' : Gen σ} (h : forCondEpilog g = .ok g') :
    g'.ip = g.ip + 2 ∧ Ext g g' [g.ip] [] [] [] := by
  unfold forCondEpilog at h
  obtain ⟨g1, h1, h⟩ := bind_eq_ok h
  injection h with h
  rw [savePos_ok h1] at h
  subst h
  refine ⟨?_, by simpa using (ext_stub g).trans (ext_emit _ .nop)⟩
  rw [emit_ip, emit_ip]
  rfl

theorem forPostStmtEpilog_ok {g g' : Gen σ} {p q : Nat} {st : List Nat} (hs : g.stack = p :: q :: st)
    (hp : p < g.ip) (h : forPostStmtEpilog g = .ok g') :
    g'.ip = g.ip + 1 ∧ g'.stack = p :: st ∧ g'.breaks = g.breaks ∧ g'.continues = g.continues ∧
    g'.returns = g.returns ∧ g'.at p = some (.gotoIf (g.ip + 1)) ∧
    g'.at g.ip = some (.goto q) ∧ ∀ i, i < g.ip → i ≠ p → g'.at i = g.at i := by
  unfold forPostStmtEpilog at h
  rw [restorePos_cons hs, bind_ok] at h
  dsimp only at h
  rw [restorePos_cons (g := { g with stack := q :: st }) (p := q) (st := st) rfl, bind_ok] at h
  dsimp only at h
  injection h with h
  have hip : (emit { g with stack := st } (.goto q : Instr σ)).ip = g.ip + 1 := emit_ip _ _
  have hat : ∀ i, g'.at i = (patch (emit { g with stack := st } (.goto q)) p
      (.gotoIf (emit { g with stack := st } (.goto q : Instr σ)).ip)).at i := by
    intro i; rw [← h]; rfl
  refine ⟨?_, by rw [← h]; rfl, by rw [← h]; rfl, by rw [← h]; rfl, by rw [← h]; rfl, ?_, ?_, ?_⟩
  · rw [← hip, ← h]; exact patch_ip _ _ _
  · rw [hat, patch_at_eq (by omega), hip]
  · rw [hat, patch_at_ne (by omega)]; exact emit_at_eq { g with stack := st } _
  · intro i h1 h2
    rw [hat, patch_at_ne h2]; exact emit_at_lt (g := { g with stack := st }) h1

theorem forEpilog_ok {g g' : Gen σ} {p : Nat} {st : List Nat} (hs : g.stack = p :: st)
    (hp : p + 1 < g.ip) (h : forEpilog g = .ok g') :
    g'.ip = g.ip + 1 ∧ g'.stack = st ∧ g'.breaks = g.breaks ∧ g'.continues = g.continues ∧
    g'.returns = g.returns ∧ g'.at (p + 1) = some (.goto (g.ip + 1)) ∧
    g'.at g.ip = some (.goto (p + 2)) ∧ ∀ i, i < g.ip → i ≠ p + 1 → g'.at i = g.at i := by
  unfold forEpilog at h
  rw [restorePos_cons hs, bind_ok] at h
  dsimp only at h
  injection h with h
  have hip : (emit { g with stack := st } (.goto (p + 2) : Instr σ)).ip = g.ip + 1 := emit_ip _ _
  refine ⟨?_, by rw [← h]; rfl, by rw [← h]; rfl, by rw [← h]; rfl, by rw [← h]; rfl, ?_, ?_, ?_⟩
  · rw [← hip, ← h]; exact patch_ip _ _ _
  · rw [← h, patch_at_eq (by omega), hip]
  · rw [← h, patch_at_ne (by omega)]; exact emit_at_eq { g with stack := st } _
  · intro i h1 h2
    rw [← h, patch_at_ne h2]; exact emit_at_lt (g := { g with stack := st }) h1

theorem forPost_shape {c p : Expr σ} {f : σ → Int → Option σ} {body : Stmt σ}
    {g g0 g1 g2 g3 g4 g5 g6 g7 g8 : Gen σ}
    (h0 : savePos { g with breaks := some [], continues := some [] } = .ok g0)
    (hc : ExprShape c g0 g1) (h2 : forCondEpilog g1 = .ok g2) (hp : ExprShape p g2 g3)
    (h4 : forPostStmtEpilog (emit g3 (.take f)) = .ok g4) (hb : StmtShape body g4 g5)
    (h6 : g6 = { gotosEpilog g5 (g5.continues.getD []) with continues := g.continues })
    (h7 : forEpilog g6 = .ok g7)
    (h8 : g8 = { gotosEpilog g7 (g7.breaks.getD []) with breaks := g.breaks }) :
    StmtShape (.forPost c p f body) g g8 := by
  have h0 := savePos_ok h0
  have p0 : g0.ip = g.ip := by rw [h0]; rfl
  obtain ⟨e1, s1⟩ := hc
  obtain ⟨p2, e2⟩ := forCondEpilog_ok h2
  obtain ⟨e3, s3⟩ := hp
  have p3 := emit_ip g3 (.take f : Instr σ)
  have l1 := e1.len; have l3 := e3.len
  have e03 : Ext g0 (emit g3 (.take f)) [g1.ip] [] [] [] := by
    simpa using ((e1.trans e2).trans e3).trans (ext_emit g3 (.take f))
  obtain ⟨j1, j2, j3, j4, j5, j6, j7, j8⟩ := forPostStmtEpilog_ok (p := g1.ip) (q := g.ip)
    (st := g.stack) (by rw [e03.stack, h0]; rfl) (by omega) h4
  obtain ⟨nb, nk, nr, e5, s5⟩ := hb
  have l5 := e5.len
  have b5 : g5.breaks = some nb := by rw [e5.brk, j3, e03.brk, h0]; rfl
  have k5 : g5.continues = some nk := by rw [e5.cont, j4, e03.cont, h0]; rfl
  have r5 : g5.returns = g.returns ++ nr := by rw [e5.ret, j5, e03.ret, h0]; simp
  have t5 : g5.stack = g1.ip :: g.stack := by rw [e5.stack, j2]; rfl
  rw [k5, Option.getD_some] at h6
  obtain ⟨i1, i2, i3, i4, i5, i6, i7⟩ := gotosEpilog_spec nk g5 (fun i hi => (e5.rk i hi).2)
  have p6 : g6.ip = g5.ip := by rw [h6]; exact i1
  have t6 : g6.stack = g1.ip :: g.stack := by rw [h6]; exact i2.trans t5
  have b6 : g6.breaks = some nb := by rw [h6]; exact i3.trans b5
  have k6 : g6.continues = g.continues := by rw [h6]
  have r6 : g6.returns = g.returns ++ nr := by rw [h6]; exact i5.trans r5
  have x6 : ∀ i ∈ nk, g6.at i = some (.goto g5.ip) := by rw [h6]; exact i6
  have y6 : ∀ i, i ∉ nk → g6.at i = g5.at i := by rw [h6]; exact i7
  obtain ⟨q1, q2, q3, q4, q5, q6, q7, q8⟩ := forEpilog_ok t6 (by omega) h7
  have b7 : g7.breaks = some nb := by rw [q3, b6]
  rw [b7, Option.getD_some] at h8
  obtain ⟨m1, m2, m3, m4, m5, m6, m7⟩ := gotosEpilog_spec nb g7
    (fun i hi => by have := e5.rb i hi; omega)
  have p8 : g8.ip = g7.ip := by rw [h8]; exact m1
  have x8 : ∀ i ∈ nb, g8.at i = some (.goto g7.ip) := by rw [h8]; exact m6
  have y8 : ∀ i, i ∉ nb → g8.at i = g7.at i := by rw [h8]; exact m7
  have low : ∀ i, i < g4.ip → i ≠ g1.ip + 1 → g8.at i = g4.at i := by
    intro i h1 h2
    rw [y8 i (fun h => by have := e5.rb i h; omega), q8 i (by omega) h2,
      y6 i (fun h => by have := e5.rk i h; omega), e5.pre i h1]
  have ef : Ext g g8 [] [] [] nr := by
    constructor
    · omega
    · intro i hi
      rw [low i (by omega) (by omega), j8 i (by omega) (by omega), e03.pre i (by omega), h0]
      rfl
    · rw [h8]; exact m2.trans q2
    · rw [h8]; exact (map_append_nil _).symm
    · intro _; rfl
    · rw [h8]
      show (gotosEpilog g7 nb).continues = _
      rw [m4, q4, k6]; simp
    · intro _; rfl
    · rw [h8]
      show (gotosEpilog g7 nb).returns = _
      rw [m5, q5, r6]
    · simp
    · simp
    · simp
    · intro i hi; have := e5.rr i hi; omega
    · simp
  have d5 := e5.dis
  have hlow : ∀ (C : Code σ) (B K R : Nat), Fits C g g8 [] [] [] nr 0 B K R →
      ∀ i, g.ip ≤ i → i < g4.ip → i ≠ g1.ip + 1 → C i = g4.at i := by
    intro C B K R hf i h1 h2 h3
    rw [hf.rest i h1 (by omega) (by simp) (by simp) (by simp)
        (fun h => by have := e5.rr i h; omega), low i h2 h3]
  refine ⟨[], [], nr, ef, fun C B K R hf =>
    ⟨g1.ip, g3.ip, g5.ip, ?_, ?_, ?_, ?_, ?_, ?_, ?_, ?_, by omega⟩⟩
  · rw [← p0]
    refine s1 C fun i h1 h2 => ?_
    rw [hlow C B K R hf i (by omega) (by omega) (by omega), j8 i (by omega) (by omega),
      emit_at_lt (by omega), e3.pre i (by omega), e2.pre i h2]
  · rw [hlow C B K R hf _ (by omega) (by omega) (by omega), j6, p3]
  · rw [hf.rest _ (by omega) (by omega) (by simp) (by simp) (by simp)
        (fun h => by have := e5.rr _ h; omega),
      y8 _ (fun h => by have := e5.rb _ h; omega), q6, p8, q1]
  · rw [← p2]
    refine s3 C fun i h1 h2 => ?_
    rw [hlow C B K R hf i (by omega) (by omega) (by omega), j8 i (by omega) (by omega),
      emit_at_lt (by omega)]
  · rw [hlow C B K R hf _ (by omega) (by omega) (by omega), j8 _ (by omega) (by omega), emit_at_eq]
  · rw [← p3, hlow C B K R hf _ (by omega) (by omega) (by omega), j7]
  · rw [show g3.ip + 2 = g4.ip by omega]
    refine s5 C g8.ip g5.ip R ⟨by simp, ?_, ?_, hf.r, ?_⟩
    · intro i hi
      have r := e5.rb i hi
      rw [hf.rest i (by omega) (by omega) (by simp) (by simp) (by simp) ((d5 i).2.1 hi).2, x8 i hi, p8]
    · intro i hi
      have r := e5.rk i hi
      have hnb : i ∉ nb := fun h => ((d5 i).2.1 h).1 hi
      rw [hf.rest i (by omega) (by omega) (by simp) (by simp) (by simp) ((d5 i).2.2 hi), y8 i hnb,
        q8 i (by omega) (by omega), x6 i hi]
    · intro i h1 h2 _ hnb hnk hnr
      rw [hf.rest i (by omega) (by omega) (by simp) (by simp) (by simp) hnr, y8 i hnb,
        q8 i (by omega) (by omega), y6 i hnk]
  · rw [← p6, hf.rest _ (by omega) (by omega) (by simp) (by simp) (by simp)
        (fun h => by have := e5.rr _ h; omega),
      y8 _ (fun h => by have := e5.rb _ h; omega), q7]

mutual
theorem genStmt_shape : ∀ (p : Stmt σ) (g g' : Gen σ), genStmt g p = .ok g' → StmtShape p g g'
  | .act f, g, g', h => by
    injection h with h
    subst h
    exact ⟨[], [], [], ext_emit g _, fun C B K R hf => ⟨emit_shape hf, emit_ip _ _⟩⟩
  | .use e f, g, g', h => by
    rw [genStmt] at h
    obtain ⟨g1, h1, h⟩ := bind_eq_ok h
    injection h with h
    subst h
    exact use_shape (genExpr_shape e g g1 h1)
  | .skip, g, g', h => by
    injection h with h
    subst h
    exact ⟨[], [], [], Ext.refl g, fun C B K R hf => rfl⟩
  | .seq a b, g, g', h => by
    rw [genStmt] at h
    obtain ⟨g1, h1, h⟩ := bind_eq_ok h
    exact seq_shape (genStmt_shape a g g1 h1) (genStmt_shape b g1 g' h)
  | .ifThen c a, g, g', h => by
    rw [genStmt] at h
    obtain ⟨g1, h1, h⟩ := bind_eq_ok h
    obtain ⟨g2, h2, h⟩ := bind_eq_ok h
    obtain ⟨g3, h3, h⟩ := bind_eq_ok h
    exact ifThen_shape (genExpr_shape c g g1 h1) h2 (genStmt_shape a g2 g3 h3) h
  | .ifElse c a b, g, g', h => by
    rw [genStmt] at h
    obtain ⟨g1, h1, h⟩ := bind_eq_ok h
    obtain ⟨g2, h2, h⟩ := bind_eq_ok h
    obtain ⟨g3, h3, h⟩ := bind_eq_ok h
    obtain ⟨g4, h4, h⟩ := bind_eq_ok h
    obtain ⟨g5, h5, h⟩ := bind_eq_ok h
    exact ifElse_shape (genExpr_shape c g g1 h1) h2 (genStmt_shape a g2 g3 h3) h4
      (genStmt_shape b g4 g5 h5) h
  | .switch e cs d, g, g', h => by
    rw [genStmt] at h
    obtain ⟨g1, h1, h⟩ := bind_eq_ok h
    obtain ⟨⟨g2, n⟩, h2, h⟩ := bind_eq_ok h
    obtain ⟨g3, h3, h⟩ := bind_eq_ok h
    exact switch_shape (genExpr_shape e g g1 h1) (genCases_shape cs _ g2 n h2)
      (genStmt_shape d g2 g3 h3) h
  | .typeSwitch e cs d, g, g', h => by
    rw [genStmt] at h
    obtain ⟨g1, h1, h⟩ := bind_eq_ok h
    obtain ⟨⟨g2, n⟩, h2, h⟩ := bind_eq_ok h
    obtain ⟨g3, h3, h⟩ := bind_eq_ok h
    obtain ⟨g4, h4, h⟩ := bind_eq_ok h
    injection h with h
    subst h
    exact typeSwitch_shape (genExpr_shape e g g1 h1) (genTypeCases_shape cs g1 g2 n h2)
      (genStmt_shape d g2 g3 h3) h4
  | .loop c body post, g, g', h => by
    rw [genStmt] at h
    obtain ⟨g0, h0, h⟩ := bind_eq_ok h
    obtain ⟨g1, h1, h⟩ := bind_eq_ok h
    obtain ⟨g2, h2, h⟩ := bind_eq_ok h
    obtain ⟨g3, h3, h⟩ := bind_eq_ok h
    obtain ⟨g6, h6, h⟩ := bind_eq_ok h
    injection h with h
    exact loop_shape h0 (genExpr_shape c g0 g1 h1) h2 (genStmt_shape body g2 g3 h3) rfl rfl h6 h.symm
  | .forPost c p f body, g, g', h => by
    rw [genStmt] at h
    obtain ⟨g0, h0, h⟩ := bind_eq_ok h
    obtain ⟨g1, h1, h⟩ := bind_eq_ok h
    obtain ⟨g2, h2, h⟩ := bind_eq_ok h
    obtain ⟨g3, h3, h⟩ := bind_eq_ok h
    obtain ⟨g4, h4, h⟩ := bind_eq_ok h
    obtain ⟨g5, h5, h⟩ := bind_eq_ok h
    obtain ⟨g7, h7, h⟩ := bind_eq_ok h
    injection h with h
    exact forPost_shape h0 (genExpr_shape c g0 g1 h1) h2 (genExpr_shape p g2 g3 h3) h4
      (genStmt_shape body g4 g5 h5) rfl h7 h.symm
  | .brk, g, g', h => break_shape h
  | .cont, g, g', h => continue_shape h
  | .ret, g, g', h => return_shape h
theorem genCases_shape : ∀ (cs : Cases σ) (g g' : Gen σ) (n : Nat), genCases g cs = .ok (g', n) →
    CasesShape cs g g' n
  | .nil, g, g', n, h => by
    injection h with h
    injection h with h1 h2
    subst h1 h2
    exact ⟨[], [], [], [], rfl, Ext.refl g, fun C E B K R hf => rfl⟩
  | .cons ks body rest, g, g', n, h => by
    rw [genCases] at h
    obtain ⟨g1, h1, h⟩ := bind_eq_ok h
    obtain ⟨g2, h2, h⟩ := bind_eq_ok h
    obtain ⟨g3, h3, h⟩ := bind_eq_ok h
    obtain ⟨g4, h4, h⟩ := bind_eq_ok h
    obtain ⟨⟨g5, m⟩, h5, h⟩ := bind_eq_ok h
    injection h with h
    injection h with e1 e2
    subst e1 e2
    exact cases_cons_shape h1 h2 (genStmt_shape body g2 g3 h3) h4 (genCases_shape rest g4 _ m h5)
theorem genTypeCases_shape : ∀ (cs : TypeCases σ) (g g' : Gen σ) (n : Nat),
    genTypeCases g cs = .ok (g', n) → TypeCasesShape cs g g' n
  | .nil, g, g', n, h => by
    injection h with h
    injection h with h1 h2
    subst h1 h2
    exact ⟨[], [], [], [], rfl, Ext.refl g, fun C E B K R hf => rfl⟩
  | .cons conv bind body rest, g, g', n, h => by
    rw [genTypeCases] at h
    obtain ⟨g2, h2, h⟩ := bind_eq_ok h
    obtain ⟨g3, h3, h⟩ := bind_eq_ok h
    obtain ⟨g4, h4, h⟩ := bind_eq_ok h
    obtain ⟨⟨g5, m⟩, h5, h⟩ := bind_eq_ok h
    injection h with h
    injection h with e1 e2
    subst e1 e2
    exact typeCases_cons_shape rfl h2 (genStmt_shape body _ g3 h3) h4 rfl
      (genTypeCases_shape rest _ _ m h5)
end

end Umka.Control
