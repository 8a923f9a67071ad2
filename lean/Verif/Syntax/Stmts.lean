import Verif.Syntax.Simple
/-
Statements.
-/
namespace Umka.Syntax
open Spec Spec.EBNF

/-- What the statements of a block are assumed to be like: what is proved below for one more level of nesting. -/
structure StmtOk (stmt : P) : Prop where
  sound : Sound accepted stmt (nt .stmt)
  closed : SoundAt accepted [.kCase, .kDefault] stmt (nt .closedStmt)

/-- The same for the texts that are taken. -/
structure StmtAll (stmt : P) (k : Nat) : Prop where
  comp : CompAt accepted k stmt (nt .stmt) [.semi, .rbrace]
  closed : CompAt accepted k stmt (nt .closedStmt) [.semi, .rbrace, .kCase, .kDefault]

section
variable {stmt : P} {k : Nat}

/-! ### Lists of statements -/

theorem sound_stmtList (h : StmtOk stmt) : Sound accepted (parseStmtList stmt) (nt .stmtList) := by
  unfold parseStmtList
  rw [many_next]
  exact .nt (.then h.sound (.many (.then (.eat _) h.sound)))

theorem closedN (h : StmtOk stmt) : ∀ (n : Nat) (ts m rest : List Tok), stmt ts = some m →
    manyN [.semi] (eat .semi ⟫ stmt) n m = some rest → at_ [.kCase, .kDefault] rest = true →
      ∃ pre, ts = pre ++ rest ∧ Derives accepted (nt .closedList) pre := by
  have stop : ∀ ts m : List Tok, stmt ts = some m → at_ [.kCase, .kDefault] m = true →
      ∃ pre, ts = pre ++ m ∧ Derives accepted (nt .closedList) pre := by
    intro ts m h1 hr
    obtain ⟨x, e, hx⟩ := h.closed _ _ h1 hr
    exact ⟨x, e, .nt (.seq (xs := []) .starNil hx)⟩
  intro n
  induction n with
  | zero =>
    intro ts m rest h1 h2 hr
    unfold manyN at h2
    split at h2
    · cases h2
    · cases h2; exact stop ts m h1 hr
  | succ n ih =>
    intro ts m rest h1 h2 hr
    unfold manyN at h2
    split at h2
    · obtain ⟨m2, h3, h4⟩ := Option.bind_eq_some_iff.mp h2
      obtain ⟨m1, h5, h6⟩ := then_some.mp h3
      have e := eat_some.mp h5
      subst e
      obtain ⟨y, e2, hy⟩ := ih m1 m2 rest h6 h4 hr
      obtain ⟨x, e1, hx⟩ := h.sound _ _ h1
      have hy' : Derives accepted (star (nt .stmt ⬝ tok .semi) ⬝ nt .closedStmt) y := d_nt.mp hy
      obtain ⟨u, v, rfl, hu, hv⟩ := d_seq.mp hy'
      refine ⟨(x ++ [.semi]) ++ u ++ v, by rw [e1, e2]; simp, .nt (.seq (.starCons (.seq hx .tok) hu) hv)⟩
    · cases h2; exact stop ts m h1 hr

theorem soundAt_stmtList (h : StmtOk stmt) : SoundAt accepted [.kCase, .kDefault] (parseStmtList stmt) (nt .closedList) := by
  intro ts rest h1 hr
  unfold parseStmtList at h1
  rw [many_next] at h1
  obtain ⟨m, h2, h3⟩ := then_some.mp h1
  exact closedN h _ ts m rest h2 h3 hr

theorem manyN_mono {l : List Tok} {p : P} : ∀ {n n' : Nat} {ts rest : List Tok}, n ≤ n' → manyN l p n ts = some rest →
    manyN l p n' ts = some rest
  | 0, n', ts, rest, _, h => by
    unfold manyN at h
    split at h
    · cases h
    · next h0 =>
      cases h
      exact manyN_stop (by unfold Free; simpa using h0)
  | n + 1, 0, _, _, hn, _ => absurd hn (by omega)
  | n + 1, n' + 1, ts, rest, hn, h => by
    unfold manyN at h ⊢
    split
    · next h0 =>
      rw [if_pos h0] at h
      obtain ⟨m, h1, h2⟩ := Option.bind_eq_some_iff.mp h
      rw [h1]
      exact manyN_mono (Nat.le_of_succ_le_succ hn) h2
    · next h0 => rw [if_neg h0] at h; exact h

/-- A statement, a semicolon and more statements. -/
theorem stmtList_cons (h : StmtOk stmt) {ts ts' rest : List Tok} (h1 : stmt ts = some (.semi :: ts'))
    (h2 : parseStmtList stmt ts' = some rest) : parseStmtList stmt ts = some rest := by
  unfold parseStmtList at h2 ⊢
  obtain ⟨m, h3, h4⟩ := then_some.mp h2
  refine then_some.mpr ⟨_, h1, ?_⟩
  obtain ⟨x, e, _⟩ := h.sound _ _ h3
  have hl : m.length ≤ ts'.length := by rw [e, List.length_append]; omega
  show manyN [.semi] (next ⟫ stmt) (ts'.length + 1) (.semi :: ts') = some rest
  unfold manyN
  rw [if_pos (by rfl)]
  rw [show (next ⟫ stmt) (.semi :: ts') = stmt ts' from rfl, h3]
  exact manyN_mono hl h4

/-- The last statement. -/
theorem stmtList_one {ts rest : List Tok} (h1 : stmt ts = some rest) (hr : Free [.semi] rest) : parseStmtList stmt ts = some rest := by
  unfold parseStmtList
  exact then_some.mpr ⟨_, h1, manyN_stop hr⟩

theorem comp_stmtList (h : StmtOk stmt) (ha : StmtAll stmt k) : CompAt accepted k (parseStmtList stmt) (nt .stmtList) [.rbrace] := by
  have tail : ∀ {s : List Tok}, Derives accepted (star (tok .semi ⬝ nt .stmt)) s → ∀ x rest, Derives accepted (nt .stmt) x →
      x.length + s.length ≤ k → at_ [.rbrace] rest = true → parseStmtList stmt (x ++ (s ++ rest)) = some rest := by
    intro s hs
    generalize e : star (tok .semi ⬝ nt .stmt) = e' at hs
    induction hs with
    | starNil =>
      intro x rest hx hk hr
      exact stmtList_one (ha.comp x rest (by omega) hx (at_mono hr (by decide))) (free_of_at hr (by decide))
    | @starCons a xs ys h1 h2 _ ih =>
      cases e
      intro x rest hx hk hr
      obtain ⟨y, rfl, hy⟩ := d_cons.mp h1
      simp only [List.length_append, List.length_cons] at hk
      have e1 : Tok.semi :: y ++ ys ++ rest = .semi :: (y ++ (ys ++ rest)) := by simp
      rw [e1]
      refine stmtList_cons h (ha.comp x _ (by omega) hx rfl) (ih rfl y rest hy (by omega) hr)
    | _ => cases e
  intro pre rest hk hd hr
  obtain ⟨x, s, rfl, hx, hs⟩ := d_seq.mp (d_nt.mp hd)
  rw [List.append_assoc]
  exact tail hs x rest hx (by rw [List.length_append] at hk; exact hk) hr

theorem comp_closedList (h : StmtOk stmt) (ha : StmtAll stmt k) :
    CompAt accepted k (parseStmtList stmt) (nt .closedList) [.rbrace, .kCase, .kDefault] := by
  have tail : ∀ {s : List Tok}, Derives accepted (star (nt .stmt ⬝ tok .semi)) s → ∀ x rest, Derives accepted (nt .closedStmt) x →
      s.length + x.length ≤ k → at_ [.rbrace, .kCase, .kDefault] rest = true → parseStmtList stmt (s ++ (x ++ rest)) = some rest := by
    intro s hs
    generalize e : star (nt .stmt ⬝ tok .semi) = e' at hs
    induction hs with
    | starNil =>
      intro x rest hx hk hr
      exact stmtList_one (ha.closed x rest (by omega) hx (at_mono hr (by decide))) (free_of_at hr (by decide))
    | @starCons a xs ys h1 h2 _ ih =>
      cases e
      intro x rest hx hk hr
      obtain ⟨y, z, rfl, hy, hz⟩ := d_seq.mp h1
      have ez := d_tok.mp hz
      subst ez
      simp only [List.length_append, List.length_cons, List.length_nil] at hk
      have e1 : y ++ [Tok.semi] ++ ys ++ (x ++ rest) = y ++ .semi :: (ys ++ (x ++ rest)) := by simp
      rw [e1]
      exact stmtList_cons h (ha.comp y _ (by omega) hy rfl) (ih rfl x rest hx (by omega) hr)
    | _ => cases e
  intro pre rest hk hd hr
  obtain ⟨s, x, rfl, hs, hx⟩ := d_seq.mp (d_nt.mp hd)
  rw [List.append_assoc]
  exact tail hs x rest hx (by rw [List.length_append] at hk; exact hk) hr

theorem sound_block (h : StmtOk stmt) : Sound accepted (parseBlock stmt) (nt .block) :=
  .nt (.then (.eat _) (.then (sound_stmtList h) (.eat _)))

theorem comp_block (h : StmtOk stmt) (ha : StmtAll stmt k) : Comp accepted (k + 1) (parseBlock stmt) (nt .block) [] :=
  .nt (.eatThen (comp_stmtList h ha).close)

/-! ### `if` -/

theorem sound_ifStmtN (h : StmtOk stmt) : ∀ n, Sound accepted (parseIfStmtN stmt n) (nt .ifStmt)
  | 0 => .fail
  | n + 1 => by
    unfold parseIfStmtN
    rw [ifAt_next (l := [.kElse]) rfl]
    exact .nt (.then (.eat _) (sound_header (.then (sound_block h) (.opt (.then (.eat _) (.ifAt (sound_ifStmtN h n) (sound_block h)))))))

theorem comp_ifStmtN (h : StmtOk stmt) (ha : StmtAll stmt k) : ∀ n j, j ≤ n → j ≤ k + 1 →
    Comp accepted j (parseIfStmtN stmt n) (nt .ifStmt) [.kElse, .comma, .colonEq]
  | n, 0, _, _ => by
    intro pre rest hk hd
    have e := List.length_eq_zero_iff.mp (Nat.le_zero.mp hk)
    exact absurd ((hd.start tables).1 e) (by decide)
  | 0, j + 1, hn, _ => absurd hn (by omega)
  | n + 1, j + 1, hn, hk => by
    have hb : Comp accepted j (parseBlock stmt) (nt .block) [] := (comp_block h ha).le (by omega)
    have ih := comp_ifStmtN h ha n j (by omega) (by omega)
    unfold parseIfStmtN
    rw [ifAt_next (l := [.kElse]) rfl]
    refine .nt (.eatThen (comp_header (Comp.then tables hb (Comp.opt tables (Comp.then tables (l1 := []) (.eat _)
      (Comp.ifAt tables ih (hb.weaken nofun) (by decide) (by decide) (by decide) (by decide)) (by decide) (by decide))
      (by decide) (by decide) (by decide)) (by decide) (by decide)) (by decide) (by decide)))

theorem sound_ifStmt (h : StmtOk stmt) : Sound accepted (parseIfStmt stmt) (nt .ifStmt) := fun ts => sound_ifStmtN h ts.length ts

theorem comp_ifStmt (h : StmtOk stmt) (ha : StmtAll stmt k) :
    Comp accepted (k + 1) (parseIfStmt stmt) (nt .ifStmt) [.kElse, .comma, .colonEq] := fun pre rest hk hd hr =>
  comp_ifStmtN h ha (pre ++ rest).length pre.length (by rw [List.length_append]; omega) hk pre rest (Nat.le_refl _) hd hr

/-! ### `switch` -/

section
variable {caseP dfltP : P} {cl la df : EBNF}

/-- The clauses of a `switch`. -/
theorem clausesN (hS : Sound accepted caseP la) (hA : SoundAt accepted [.kCase, .kDefault] caseP cl) :
    ∀ (n : Nat) (ts rest : List Tok), manyN [.kCase] caseP n ts = some rest →
      (at_ [.kDefault] rest = true → ∃ pre, ts = pre ++ rest ∧ Derives accepted (star cl) pre) ∧
      (∃ s o, ts = s ++ o ++ rest ∧ Derives accepted (star cl) s ∧ Derives accepted (opt la) o)
  | 0, ts, rest, h => by
    unfold manyN at h
    split at h
    · cases h
    · cases h; exact ⟨fun _ => ⟨[], rfl, .starNil⟩, [], [], rfl, .starNil, .optNone⟩
  | n + 1, ts, rest, h => by
    unfold manyN at h
    split at h
    · obtain ⟨m, h1, h2⟩ := Option.bind_eq_some_iff.mp h
      have ih := clausesN hS hA n m rest h2
      have closed : at_ [.kCase, .kDefault] m = true → ∃ pre, ts = pre ++ m ∧ Derives accepted cl pre := hA _ _ h1
      by_cases hc : at_ [.kCase] m = true
      · obtain ⟨x, ex, hx⟩ := closed (at_mono hc (by decide))
        refine ⟨fun hr => ?_, ?_⟩
        · obtain ⟨y, ey, hy⟩ := ih.1 hr
          exact ⟨x ++ y, by rw [ex, ey, List.append_assoc], .starCons hx hy⟩
        · obtain ⟨s, o, e, hs, ho⟩ := ih.2
          exact ⟨x ++ s, o, by rw [ex, e]; simp, .starCons hx hs, ho⟩
      · have hf : Free [.kCase] m := by unfold Free; simpa using hc
        rw [manyN_stop hf] at h2
        cases h2
        refine ⟨fun hr => ?_, ?_⟩
        · obtain ⟨x, ex, hx⟩ := closed (at_mono hr (by decide))
          have := Derives.starCons hx .starNil
          rw [List.append_nil] at this
          exact ⟨x, ex, this⟩
        · obtain ⟨x, ex, hx⟩ := hS _ _ h1
          exact ⟨[], x, by rw [ex]; rfl, .starNil, .optSome hx⟩
    · cases h; exact ⟨fun _ => ⟨[], rfl, .starNil⟩, [], [], rfl, .starNil, .optNone⟩

theorem sound_clauses (hS : Sound accepted caseP la) (hA : SoundAt accepted [.kCase, .kDefault] caseP cl) (hD : Sound accepted dfltP df) :
    Sound accepted (many [.kCase] caseP ⟫ ifAt [.kDefault] dfltP skip ⟫ eat .rbrace) (star cl ⬝ opt (la ∣ df) ⬝ tok .rbrace) := by
  intro ts rest h
  obtain ⟨m, h1, h2⟩ := then_some.mp h
  obtain ⟨m', h3, h4⟩ := then_some.mp h2
  have e4 := eat_some.mp h4
  subst e4
  obtain ⟨ha, s, o, e, hs, ho⟩ := clausesN hS hA _ _ _ h1
  unfold ifAt at h3
  split at h3
  · next hd =>
    obtain ⟨x, ex, hx⟩ := ha hd
    obtain ⟨y, ey, hy⟩ := hD _ _ h3
    exact ⟨x ++ (y ++ [.rbrace]), by rw [ex, ey]; simp, .seq hx (.seq (.optSome (.right hy)) .tok)⟩
  · cases h3
    refine ⟨s ++ (o ++ [.rbrace]), by rw [e]; simp, .seq hs (.seq ?_ .tok)⟩
    rcases d_opt.mp ho with rfl | ho
    · exact .optNone
    · exact .optSome (.left ho)

theorem comp_clauses (hC : CompAt accepted k caseP cl [.kCase, .kDefault, .rbrace]) (hL : CompAt accepted k caseP la [.rbrace])
    (hD : CompAt accepted k dfltP df [.rbrace]) (fc : first nl fs cl = [.kCase]) (nc : nullable nl cl = false)
    (fl : first nl fs la = [.kCase]) (nla : nullable nl la = false) (fd : first nl fs df = [.kDefault]) (nd : nullable nl df = false) :
    Comp accepted k (many [.kCase] caseP ⟫ ifAt [.kDefault] dfltP skip ⟫ eat .rbrace) (star cl ⬝ opt (la ∣ df) ⬝ tok .rbrace) [] := by
  intro pre rest hk hd _
  obtain ⟨s, _, rfl, hs, h1⟩ := d_seq.mp hd
  obtain ⟨o, z, rfl, ho, hz⟩ := d_seq.mp h1
  have ez := d_tok.mp hz
  subst ez
  have hat : ∀ (e : EBNF) (x r : List Tok) (c : Tok), Derives accepted e x → first nl fs e = [c] → nullable nl e = false →
      at_ [c] (x ++ r) = true := fun e x r c hx h1 h2 => at_of tables hx (by rw [h1]; exact fun _ h => h) h2
  simp only [List.length_append, List.length_cons, List.length_nil] at hk
  -- the end
  have hend : (ifAt [.kDefault] dfltP skip ⟫ eat .rbrace) (.rbrace :: rest) = some rest := rfl
  have stop : ∀ n, manyN [.kCase] caseP n (.rbrace :: rest) = some (.rbrace :: rest) :=
    fun n => manyN_stop (free_cons.mpr (by decide))
  have ho' : ∃ m, (∀ n, o.length ≤ n → manyN [.kCase] caseP n (o ++ .rbrace :: rest) = some m) ∧
      (ifAt [.kDefault] dfltP skip ⟫ eat .rbrace) m = some rest ∧ at_ [.kCase, .kDefault, .rbrace] (o ++ .rbrace :: rest) = true := by
    rcases d_opt.mp ho with rfl | ho
    · exact ⟨_, fun n _ => stop n, hend, rfl⟩
    rcases d_alt.mp ho with ho | ho
    · have hc := hat la o (.rbrace :: rest) _ ho fl nla
      refine ⟨_, fun n hn => ?_, hend, at_mono hc (by decide)⟩
      cases n with
      | zero => exact absurd ((ho.start tables).1 (List.length_eq_zero_iff.mp (by omega))) (by rw [nla]; exact Bool.false_ne_true)
      | succ n =>
        unfold manyN
        rw [if_pos hc, hL o _ (by omega) ho rfl]
        exact stop n
    · have hc := hat df o (.rbrace :: rest) _ ho fd nd
      refine ⟨_, fun n _ => manyN_stop (free_of_at hc (by decide)), ?_, at_mono hc (by decide)⟩
      refine then_some.mpr ⟨.rbrace :: rest, ?_, rfl⟩
      unfold ifAt
      rw [if_pos hc, hD o _ (by omega) ho rfl]
  obtain ⟨m, hm, hm2, hm3⟩ := ho'
  have all : ∀ {s : List Tok}, Derives accepted (star cl) s → s.length ≤ k → ∀ n, s.length + o.length ≤ n →
      manyN [.kCase] caseP n (s ++ (o ++ .rbrace :: rest)) = some m ∧ at_ [.kCase, .kDefault, .rbrace] (s ++ (o ++ .rbrace :: rest)) = true := by
    intro s hs
    generalize e : star cl = e' at hs
    induction hs with
    | starNil => intro _ n hn; exact ⟨hm n (by omega), hm3⟩
    | @starCons a xs ys h1 h2 _ ih =>
      cases e
      intro hk n hn
      simp only [List.length_append] at hk hn
      have hc := hat cl xs (ys ++ (o ++ .rbrace :: rest)) _ h1 fc nc
      rw [List.append_assoc]
      refine ⟨?_, at_mono hc (by decide)⟩
      cases n with
      | zero => exact absurd ((h1.start tables).1 (List.length_eq_zero_iff.mp (by omega))) (by rw [nc]; exact Bool.false_ne_true)
      | succ n =>
        have hpos : xs.length ≠ 0 := fun h0 => absurd ((h1.start tables).1 (List.length_eq_zero_iff.mp h0)) (by rw [nc]; exact Bool.false_ne_true)
        obtain ⟨i1, i2⟩ := ih rfl (by omega) n (by omega)
        unfold manyN
        rw [if_pos hc, hC xs _ (by omega) h1 i2]
        exact i1
    | _ => cases e
  have e : s ++ (o ++ [Tok.rbrace]) ++ rest = s ++ (o ++ .rbrace :: rest) := by simp
  rw [e]
  refine then_some.mpr ⟨m, (all hs (by omega) _ ?_).1, hm2⟩
  simp only [List.length_append, List.length_cons]; omega

end

theorem sound_default (h : StmtOk stmt) : Sound accepted (parseDefault stmt) (nt .default_) :=
  .nt (.then (.eat _) (.then (.eat _) (sound_stmtList h)))

theorem comp_default (h : StmtOk stmt) (ha : StmtAll stmt k) : CompAt accepted k (parseDefault stmt) (nt .default_) [.rbrace] :=
  .nt (CompAt.then tables (l1 := []) (.eat _) (CompAt.then tables (l1 := []) (.eat _) (comp_stmtList h ha) (by decide) (by decide))
    (by decide) (by decide))

theorem sound_exprSwitch (h : StmtOk stmt) : Sound accepted (parseExprSwitchStmt stmt) (nt .exprSwitchStmt) := by
  refine .nt (.then (.eat _) (sound_header (.then (.eat _) (sound_clauses ?_ ?_ (sound_default h)))))
  · exact .nt (.then (.eat _) (.then sound_exprList (.then (.eat _) (sound_stmtList h))))
  · exact .nt (.then (.eat _) (.then sound_exprList (.then (.eat _) (soundAt_stmtList h))))

theorem comp_exprSwitch (h : StmtOk stmt) (ha : StmtAll stmt k) : Comp accepted (k + 1) (parseExprSwitchStmt stmt) (nt .exprSwitchStmt) [] := by
  have hC : CompAt accepted k (parseExprCase stmt) (nt .exprCase) [.kCase, .kDefault, .rbrace] :=
    .nt (CompAt.then tables (l1 := []) (.eat _) (CompAt.then tables comp_exprList (CompAt.then tables (l1 := []) (.eat _)
      ((comp_closedList h ha).weaken (by decide)) (by decide) (by decide)) (by decide) (by decide)) (by decide) (by decide))
  have hL : CompAt accepted k (parseExprCase stmt) (nt .lastExprCase) [.rbrace] :=
    .nt (CompAt.then tables (l1 := []) (.eat _) (CompAt.then tables comp_exprList (CompAt.then tables (l1 := []) (.eat _)
      (comp_stmtList h ha) (by decide) (by decide)) (by decide) (by decide)) (by decide) (by decide))
  exact .nt (.eatThen (comp_header (Comp.then tables (l1 := []) (.eat _) (comp_clauses hC hL (comp_default h ha) rfl rfl rfl rfl rfl rfl)
    (by decide) (by decide)) (by decide) (by decide)))

theorem sound_typeSwitch (h : StmtOk stmt) : Sound accepted (parseTypeSwitchStmt stmt) (nt .typeSwitchStmt) := by
  refine .nt (.then (.eat _) (.then (.eat _) (.then (.eat _) (.then (.eat _) (.then (.eat _) (.then sound_expr (.then (.eat _)
    (.then (.eat _) (sound_clauses ?_ ?_ (sound_default h))))))))))
  · exact .nt (.then (.eat _) (soundAt_type.eatThen (sound_stmtList h)))
  · exact .nt (.then (.eat _) (soundAt_type.eatThenAt (soundAt_stmtList h)))

theorem comp_typeSwitch (h : StmtOk stmt) (ha : StmtAll stmt k) : Comp accepted (k + 1) (parseTypeSwitchStmt stmt) (nt .typeSwitchStmt) [] := by
  have hC : CompAt accepted k (parseTypeCase stmt) (nt .typeCase) [.kCase, .kDefault, .rbrace] :=
    .nt (CompAt.then tables (l1 := []) (.eat _) (CompAt.then tables comp_caseType (CompAt.then tables (l1 := []) (.eat _)
      ((comp_closedList h ha).weaken (by decide)) (by decide) (by decide)) (by decide) (by decide)) (by decide) (by decide))
  have hL : CompAt accepted k (parseTypeCase stmt) (nt .lastTypeCase) [.rbrace] :=
    .nt (CompAt.then tables (l1 := []) (.eat _) (CompAt.then tables comp_caseType (CompAt.then tables (l1 := []) (.eat _)
      (comp_stmtList h ha) (by decide) (by decide)) (by decide) (by decide)) (by decide) (by decide))
  refine .nt (.eatThen (Comp.then tables (l1 := []) (.eat _) (Comp.then tables (l1 := []) (.eat _) (Comp.then tables (l1 := []) (.eat _)
    (Comp.then tables (l1 := []) (.eat _) (Comp.then tables (l1 := []) comp_expr (Comp.then tables (l1 := []) (.eat _)
    (Comp.then tables (l1 := []) (.eat _) (comp_clauses hC hL (comp_default h ha) rfl rfl rfl rfl rfl rfl)
    (by decide) (by decide)) (by decide) (by decide)) (by decide) (by decide)) (by decide) (by decide)) (by decide) (by decide))
    (by decide) (by decide)) (by decide) (by decide)))

theorem sound_switchStmt (h : StmtOk stmt) : Sound accepted (parseSwitchStmt stmt) (nt .switchStmt) := by
  intro ts rest h1
  unfold parseSwitchStmt at h1
  split at h1
  · obtain ⟨x, e, hx⟩ := sound_typeSwitch h _ _ h1; exact ⟨x, e, .nt (.right hx)⟩
  · obtain ⟨x, e, hx⟩ := sound_exprSwitch h _ _ h1; exact ⟨x, e, .nt (.left hx)⟩

theorem not_typeSwitch {x r : List Tok} (hx : Derives accepted (nt .exprSwitchStmt) x) : typeSwitchAhead (x ++ r) = false := by
  obtain ⟨_, rfl, h1⟩ := d_cons.mp (d_nt.mp hx)
  obtain ⟨u, _, rfl, hu, h2⟩ := d_seq.mp h1
  obtain ⟨e, _, rfl, he, h3⟩ := d_seq.mp h2
  obtain ⟨z, rfl, _⟩ := d_cons.mp h3
  obtain ⟨t, ht, rfl⟩ := d_one.mp (d_nt.mp he)
  rcases d_opt.mp hu with rfl | hu
  · cases t <;> rfl
  · obtain ⟨v, w, rfl, hv, hw⟩ := d_seq.mp hu
    obtain ⟨ms, y, hms, ha, rfl, hy⟩ := d_localVarDecl.mp hv
    match ms, hms, ha, hy with
    | [false], _, _, hy =>
      have hy0 : Derives accepted (tok .colonEq ⬝ nt .expr) y := hy
      obtain ⟨y', rfl, hy'⟩ := d_cons.mp hy0
      obtain ⟨t', ht', rfl⟩ := d_one.mp (d_nt.mp hy')
      cases t' <;> first | rfl | exact absurd ht' (by decide)
    | false :: m' :: ms, _, _, _ => rw [idents_cons (List.cons_ne_nil _ _)]; rfl

theorem comp_switchStmt (h : StmtOk stmt) (ha : StmtAll stmt k) : Comp accepted (k + 1) (parseSwitchStmt stmt) (nt .switchStmt) [] := by
  intro pre rest hk hd hr
  have h0 : Derives accepted (nt .exprSwitchStmt ∣ nt .typeSwitchStmt) pre := d_nt.mp hd
  unfold parseSwitchStmt
  rcases d_alt.mp h0 with h1 | h1
  · rw [if_neg (by rw [not_typeSwitch h1]; exact Bool.false_ne_true)]
    exact comp_exprSwitch h ha pre rest hk h1 hr
  · have h2 := comp_typeSwitch h ha pre rest hk h1 hr
    obtain ⟨_, rfl, h3⟩ := d_cons.mp (d_nt.mp h1)
    obtain ⟨_, rfl, h4⟩ := d_cons.mp h3
    obtain ⟨_, rfl, h5⟩ := d_cons.mp h4
    obtain ⟨_, rfl, h6⟩ := d_cons.mp h5
    rw [if_pos (by rfl)]
    exact h2

/-! ### `for`, `return` -/

theorem sound_forStmt (h : StmtOk stmt) : Sound accepted (parseForStmt stmt) (nt .forStmt) :=
  .nt (.then (.eat _) (.then sound_forEither (sound_block h)))

theorem comp_forStmt (h : StmtOk stmt) (ha : StmtAll stmt k) : Comp accepted (k + 1) (parseForStmt stmt) (nt .forStmt) [] :=
  .nt (.eatThen (Comp.then tables comp_forEither ((comp_block h ha).le (by omega)) (by decide) (by decide)))

end

theorem sound_skip {e : EBNF} : Sound accepted skip (opt e) := fun ts rest h => by cases h; exact ⟨[], rfl, .optNone⟩

theorem sound_return : Sound accepted parseReturnStmt (tok .kReturn ⬝ (opt never ∣ nt .exprList)) :=
  .then (.eat _) (.ifAt sound_skip sound_exprList)

theorem soundAt_return : SoundAt accepted [.kCase, .kDefault] parseReturnStmt (tok .kReturn ⬝ nt .exprList) := by
  refine .then (.eat _) ?_
  intro ts rest h hr
  unfold ifAt at h
  split at h
  · next h0 =>
    cases h
    have := free_of_at (l1 := [.semi, .rbrace]) hr (by decide)
    rw [this] at h0; cases h0
  · exact sound_exprList _ _ h

theorem comp_return {k : Nat} : CompAt accepted k parseReturnStmt (tok .kReturn ⬝ nt .exprList) [.semi, .rbrace, .kCase, .kDefault] := by
  refine CompAt.then tables (l1 := []) (.eat _) ?_ (by decide) (by decide)
  intro pre rest hk hd hr
  unfold ifAt
  rw [if_neg]
  · exact comp_exprList pre rest hk hd (free_of_at hr (by decide))
  · rw [show at_ [.semi, .rbrace] (pre ++ rest) = false from free_of tables hd (by decide) (fun h => absurd h (by decide))]
    exact Bool.false_ne_true

/-! ### Statements -/

/-- The kinds of statements, in the order of the parser. -/
abbrev stmtAlt (ret : EBNF) : EBNF :=
  nt .typeDecl ∣ nt .constDecl ∣ nt .fullVarDecl ∣ nt .block ∣ nt .simpleStmt ∣ nt .ifStmt ∣ nt .switchStmt ∣ nt .forStmt ∣
    tok .kBreak ∣ tok .kContinue ∣ ret ∣ opt never

theorem d_closedStmt {ts : List Tok} :
    Derives accepted (nt .closedStmt) ts ↔ Derives accepted (stmtAlt (tok .kReturn ⬝ nt .exprList)) ts := by
  have hb : Derives accepted (nt .breakStmt) ts ↔ Derives accepted (tok .kBreak) ts := d_nt
  have hc : Derives accepted (nt .continueStmt) ts ↔ Derives accepted (tok .kContinue) ts := d_nt
  rw [d_nt]
  show Derives accepted (opt (nt .typeDecl ∣ nt .constDecl ∣ nt .fullVarDecl ∣ nt .block ∣ nt .simpleStmt ∣ nt .ifStmt ∣ nt .switchStmt ∣
      nt .forStmt ∣ nt .breakStmt ∣ nt .continueStmt ∣ tok .kReturn ⬝ nt .exprList)) ts ↔ _
  simp only [d_opt, d_alt, d_never, or_false, hb, hc]
  grind

theorem stmtOk : ∀ n, StmtOk (parseStmtN n)
  | 0 => ⟨.fail, .fail⟩
  | n + 1 => by
    have h := stmtOk n
    constructor
    · refine Sound.mono (a := stmtAlt (tok .kReturn ⬝ (opt never ∣ nt .exprList))) ?_ ?_
      · unfold parseStmtN
        exact .ifAt sound_typeDecl (.ifAt sound_constDecl (.ifAt sound_fullVarDecl (.ifAt (sound_block h) (.ifAt sound_simpleStmt
          (.ifAt (sound_ifStmt h) (.ifAt (sound_switchStmt h) (.ifAt (sound_forStmt h) (.ifAt (.eat _) (.ifAt (.eat _)
          (.ifAt sound_return sound_skip))))))))))
      · intro ts hd
        refine .nt ?_
        show Derives accepted (nt .closedStmt ∣ tok .kReturn) ts
        rw [d_alt, d_closedStmt]
        simp only [d_alt, d_opt, d_never, or_false] at hd ⊢
        rcases hd with hd | hd | hd | hd | hd | hd | hd | hd | hd | hd | hd | hd
        all_goals try (refine .inl ?_; simp only [hd, true_or, or_true]; done)
        obtain ⟨y, rfl, hy⟩ := d_cons.mp hd
        rcases d_alt.mp hy with hy | hy
        · rcases d_opt.mp hy with rfl | hy
          · exact .inr .tok
          · exact absurd hy d_never
        · have : Derives accepted (tok .kReturn ⬝ nt .exprList) (.kReturn :: y) := .cons hy
          refine .inl ?_
          simp only [this, true_or, or_true]
    · refine SoundAt.mono (a := stmtAlt (tok .kReturn ⬝ nt .exprList)) ?_ (fun ts => d_closedStmt.mpr)
      unfold parseStmtN
      exact .ifAt sound_typeDecl.soundAt (.ifAt sound_constDecl.soundAt (.ifAt sound_fullVarDecl.soundAt (.ifAt (sound_block h).soundAt
        (.ifAt sound_simpleStmt.soundAt (.ifAt (sound_ifStmt h).soundAt (.ifAt (sound_switchStmt h).soundAt (.ifAt (sound_forStmt h).soundAt
        (.ifAt (Sound.eat _).soundAt (.ifAt (Sound.eat _).soundAt (.ifAt soundAt_return sound_skip.soundAt))))))))))

theorem comp_skip {k : Nat} {l : List Tok} : CompAt accepted k skip (opt never) l := by
  intro pre rest _ hd _
  rcases d_opt.mp hd with rfl | hd
  · rfl
  · exact absurd hd d_never

theorem stmtAll : ∀ n k, k < n → StmtAll (parseStmtN n) k
  | 0, k, hk => absurd hk (by omega)
  | n + 1, k, hk => by
    have hclosed : CompAt accepted k (parseStmtN (n + 1)) (nt .closedStmt) [.semi, .rbrace, .kCase, .kDefault] := by
      cases k with
      | zero =>
        intro pre rest hk hd hr
        have e := List.length_eq_zero_iff.mp (Nat.le_zero.mp hk)
        subst e
        obtain ⟨c, r, rfl, hc⟩ := at_iff.mp hr
        simp only [List.mem_cons, List.not_mem_nil, or_false] at hc
        rcases hc with rfl | rfl | rfl | rfl <;> rfl
      | succ k =>
        have h := stmtOk n
        have ha := stmtAll n k (by omega)
        refine CompAt.mono (b := stmtAlt (tok .kReturn ⬝ nt .exprList)) ?_ (fun ts => d_closedStmt.mp)
        unfold parseStmtN
        exact CompAt.ifAt tables (comp_typeDecl.compAt (by decide)) (CompAt.ifAt tables (comp_constDecl.compAt (by decide))
          (CompAt.ifAt tables (comp_fullVarDecl.compAt (by decide)) (CompAt.ifAt tables ((comp_block h ha).compAt (by decide))
          (CompAt.ifAt tables (comp_simpleStmt.compAt (by decide)) (CompAt.ifAt tables ((comp_ifStmt h ha).compAt (by decide))
          (CompAt.ifAt tables ((comp_switchStmt h ha).compAt (by decide)) (CompAt.ifAt tables ((comp_forStmt h ha).compAt (by decide))
          (CompAt.ifAt tables ((Comp.eat _).compAt (by decide)) (CompAt.ifAt tables ((Comp.eat _).compAt (by decide))
          (CompAt.ifAt tables comp_return comp_skip
          (by decide) (by decide) (by decide) (by decide)) (by decide) (by decide) (by decide) (by decide))
          (by decide) (by decide) (by decide) (by decide)) (by decide) (by decide) (by decide) (by decide))
          (by decide) (by decide) (by decide) (by decide)) (by decide) (by decide) (by decide) (by decide))
          (by decide) (by decide) (by decide) (by decide)) (by decide) (by decide) (by decide) (by decide))
          (by decide) (by decide) (by decide) (by decide)) (by decide) (by decide) (by decide) (by decide))
          (by decide) (by decide) (by decide) (by decide)
    refine ⟨?_, hclosed⟩
    intro pre rest hk hd hr
    have h0 : Derives accepted (nt .closedStmt ∣ tok .kReturn) pre := d_nt.mp hd
    rcases d_alt.mp h0 with h1 | h1
    · exact hclosed pre rest hk h1 (at_mono hr (by decide))
    · rw [d_tok.mp h1]
      obtain ⟨c, r, rfl, hc⟩ := at_iff.mp hr
      simp only [List.mem_cons, List.not_mem_nil, or_false] at hc
      rcases hc with rfl | rfl <;> rfl

theorem sound_fnBlock : Sound accepted parseFnBlock (nt .block) := fun ts => sound_block (stmtOk ts.length) ts

theorem comp_fnBlock {k : Nat} : Comp accepted k parseFnBlock (nt .block) [] := by
  intro pre rest _ hd hr
  obtain ⟨z, rfl, hz⟩ := d_cons.mp (d_nt.mp hd)
  have := comp_block (stmtOk (Tok.lbrace :: z ++ rest).length)
    (stmtAll (Tok.lbrace :: z ++ rest).length z.length (by simp only [List.length_append, List.length_cons]; omega))
  exact this _ rest (by simp) hd hr

end Umka.Syntax
