import Verif.Syntax.TypeAll
/-
Declarations of types, constants and variables.
-/
namespace Umka.Syntax
open Spec Spec.EBNF

variable {k : Nat}

/-! ### Types and constants -/

theorem sound_typeDeclItem : Sound accepted parseTypeDeclItem (nt .typeDeclItem) :=
  .nt (.then (.eat _) (.then sound_mark (.then (.eat _) sound_type)))

theorem comp_typeDeclItem : Comp accepted k parseTypeDeclItem (nt .typeDeclItem) typeEnd :=
  .nt (Comp.then tables (l1 := []) (.eat _) (Comp.then tables comp_mark (Comp.then tables (l1 := []) (.eat _) comp_type
    (by decide) (by decide)) (by decide) (by decide)) (by decide) (by decide))

theorem sound_typeDecl : Sound accepted parseTypeDecl (nt .typeDecl) := by
  unfold parseTypeDecl
  rw [ifAt_next (l := [.lpar]) rfl]
  refine .nt (.then (.eat _) (Sound.mono (.ifAt (.then (.eat _) (.then (sound_items sound_typeDeclItem (by decide)) (.eat _)))
    sound_typeDeclItem) ?_))
  exact fun ts h => d_alt.mpr (d_alt.mp h).symm

theorem comp_typeDecl : Comp accepted k parseTypeDecl (nt .typeDecl) typeEnd := by
  unfold parseTypeDecl
  rw [ifAt_next (l := [.lpar]) rfl]
  refine .nt (Comp.then tables (l1 := []) (.eat _) (Comp.mono (b := group' .lpar .rpar (nt .typeDeclItem) ∣ nt .typeDeclItem) ?_ ?_)
    (by decide) (by decide))
  · refine Comp.ifAt tables (Comp.weaken (l1 := []) ?_ nofun) comp_typeDeclItem (by decide) (by decide) (by decide) (by decide)
    exact Comp.then tables (l1 := []) (.eat _)
      (comp_items tables comp_typeDeclItem (by decide) (by decide) (by decide) (by decide) (by decide) (by decide)) (by decide) (by decide)
  · exact fun ts h => d_alt.mpr (d_alt.mp h).symm

theorem sound_constDeclItem : Sound accepted (parseConstDeclItem true) (nt .constDeclItem) :=
  .nt (.then (.eat _) (.then sound_mark (.then (.eat _) sound_expr)))

theorem sound_nextConst : Sound accepted (parseConstDeclItem false) (nt .nextConst) :=
  .nt (.then (.eat _) (.then sound_mark (.opt (.then (.eat _) sound_expr))))

theorem comp_constDeclItem : Comp accepted k (parseConstDeclItem true) (nt .constDeclItem) [] :=
  .nt (Comp.then tables (l1 := []) (.eat _) (Comp.then tables comp_mark (Comp.then tables (l1 := []) (.eat _) comp_expr
    (by decide) (by decide)) (by decide) (by decide)) (by decide) (by decide))

theorem comp_nextConst : Comp accepted k (parseConstDeclItem false) (nt .nextConst) [.mul, .eq] :=
  .nt (Comp.then tables (l1 := []) (.eat _) (Comp.then tables comp_mark (Comp.opt tables (Comp.weaken (l1 := [])
    (Comp.then tables (l1 := []) (.eat _) comp_expr (by decide) (by decide)) nofun) (by decide) (by decide) (by decide))
    (by decide) (by decide)) (by decide) (by decide))

theorem sound_constDecl : Sound accepted parseConstDecl (nt .constDecl) := by
  unfold parseConstDecl
  rw [ifAt_next (l := [.lpar]) rfl]
  refine .nt (.then (.eat _) (Sound.mono (.ifAt (.then (.eat _) (.then (sound_items2 sound_constDeclItem sound_nextConst (by decide)) (.eat _)))
    sound_constDeclItem) ?_))
  exact fun ts h => d_alt.mpr (d_alt.mp h).symm

theorem comp_constDecl : Comp accepted k parseConstDecl (nt .constDecl) [] := by
  unfold parseConstDecl
  rw [ifAt_next (l := [.lpar]) rfl]
  refine .nt (Comp.then tables (l1 := []) (.eat _)
    (Comp.mono (b := tok .lpar ⬝ items (nt .constDeclItem) (nt .nextConst) ⬝ tok .rpar ∣ nt .constDeclItem) ?_ ?_) (by decide) (by decide))
  · refine Comp.ifAt tables ?_ comp_constDeclItem (by decide) (by decide) (by decide) (by decide)
    exact Comp.then tables (l1 := []) (.eat _) (comp_items2 tables (comp_constDeclItem.weaken nofun) comp_nextConst
      (by decide) (by decide) (by decide) (by decide) (by decide) (by decide) (by decide) (by decide)) (by decide) (by decide)
  · exact fun ts h => d_alt.mpr (d_alt.mp h).symm

/-! ### Variables -/

/-- One identifier, or at least two, and what follows them. -/
theorem d_oneMany {a b : EBNF} {ts : List Tok} :
    Derives accepted (tok .ident ⬝ nt .exportMark ⬝ a ∣ tok .ident ⬝ nt .exportMark ⬝ tok .comma ⬝ nt .identList ⬝ b) ts ↔
      ∃ ms y, ms ≠ [] ∧ ts = idents ms ++ y ∧ Derives accepted (if ms.length = 1 then a else b) y := by
  rw [d_alt]
  constructor
  · rintro (h | h)
    · obtain ⟨_, rfl, h1⟩ := d_cons.mp h
      obtain ⟨_, y, rfl, h2, h3⟩ := d_seq.mp h1
      obtain ⟨m, rfl⟩ := d_mark.mp h2
      exact ⟨[m], y, nofun, rfl, h3⟩
    · obtain ⟨_, rfl, h1⟩ := d_cons.mp h
      obtain ⟨_, _, rfl, h2, h3⟩ := d_seq.mp h1
      obtain ⟨m, rfl⟩ := d_mark.mp h2
      obtain ⟨_, rfl, h4⟩ := d_cons.mp h3
      obtain ⟨_, y, rfl, h5, h6⟩ := d_seq.mp h4
      obtain ⟨ms, hms, rfl⟩ := d_identList.mp h5
      refine ⟨m :: ms, y, nofun, ?_, ?_⟩
      · rw [idents_cons hms]; simp
      · rw [if_neg]
        · exact h6
        · cases ms with
          | nil => exact absurd rfl hms
          | cons _ _ => simp
  · rintro ⟨ms, y, hms, rfl, h⟩
    match ms, hms, h with
    | [m], _, h =>
      exact .inl (.cons (.seq (d_mark.mpr ⟨m, rfl⟩) h))
    | m :: m' :: ms, _, h =>
      rw [if_neg (by simp)] at h
      refine .inr ?_
      rw [idents_cons (List.cons_ne_nil _ _)]
      have e : Tok.ident :: ((if m then [.mul] else []) ++ .comma :: idents (m' :: ms)) ++ y =
        .ident :: ((if m then [.mul] else []) ++ .comma :: (idents (m' :: ms) ++ y)) := by simp
      rw [e]
      exact .cons (.seq (d_mark.mpr ⟨m, rfl⟩) (.cons (.seq (d_identList.mpr ⟨m' :: ms, nofun, rfl⟩) h)))

theorem sound_varDeclItem : Sound accepted parseVarDeclItem (nt .varDeclItem) := by
  intro ts rest h
  unfold parseVarDeclItem at h
  obtain ⟨⟨ms, r1⟩, h1, h2⟩ := Option.bind_eq_some_iff.mp h
  obtain ⟨hms, e1⟩ := identList_some h1
  have hs : Sound accepted (eat .colon ⟫ parseType ⟫ ifAt [.eq] (next ⟫ if ms.length != 1 then parseExprList else parseExpr) skip)
      (if ms.length = 1 then tok .colon ⬝ nt .type_ ⬝ opt (tok .eq ⬝ nt .expr) else tok .colon ⬝ nt .type_ ⬝ opt (tok .eq ⬝ nt .exprList)) := by
    rw [ifAt_next (l := [.eq]) rfl]
    by_cases hl : ms.length = 1
    · rw [if_pos hl, if_neg (by simp [hl])]
      exact .then (.eat _) (.then sound_type (.opt (.then (.eat _) sound_expr)))
    · rw [if_neg hl, if_pos (by simp [hl])]
      exact .then (.eat _) (.then sound_type (.opt (.then (.eat _) sound_exprList)))
  obtain ⟨y, e2, hy⟩ := hs _ _ h2
  dsimp only at e2
  exact ⟨idents ms ++ y, by rw [e1, e2, List.append_assoc], .nt (d_oneMany.mpr ⟨ms, y, hms, rfl, hy⟩)⟩

theorem comp_varDeclItem : Comp accepted k parseVarDeclItem (nt .varDeclItem) [.colonColon, .colon, .eq, .comma] := by
  intro pre rest _ hd hr
  obtain ⟨ms, y, hms, rfl, hy⟩ := d_oneMany.mp (d_nt.mp hd)
  have hs : Comp accepted y.length (eat .colon ⟫ parseType ⟫ ifAt [.eq] (next ⟫ if ms.length != 1 then parseExprList else parseExpr) skip)
      (if ms.length = 1 then tok .colon ⬝ nt .type_ ⬝ opt (tok .eq ⬝ nt .expr) else tok .colon ⬝ nt .type_ ⬝ opt (tok .eq ⬝ nt .exprList))
      [.colonColon, .colon, .eq, .comma] := by
    rw [ifAt_next (l := [.eq]) rfl]
    by_cases hl : ms.length = 1
    · rw [if_pos hl, if_neg (by simp [hl])]
      exact Comp.then tables (l1 := []) (.eat _) (Comp.then tables comp_type (Comp.opt tables (Comp.weaken (l1 := [])
        (Comp.then tables (l1 := []) (.eat _) comp_expr (by decide) (by decide)) nofun) (by decide) (by decide) (by decide))
        (by decide) (by decide)) (by decide) (by decide)
    · rw [if_neg hl, if_pos (by simp [hl])]
      exact Comp.then tables (l1 := []) (.eat _) (Comp.then tables comp_type (Comp.opt tables (Comp.weaken (l1 := [.comma])
        (Comp.then tables (l1 := []) (.eat _) comp_exprList (by decide) (by decide)) (by decide)) (by decide) (by decide) (by decide))
        (by decide) (by decide)) (by decide) (by decide)
  have hc : ∃ z, y = .colon :: z := by
    split at hy
    · obtain ⟨z, e, _⟩ := d_cons.mp hy; exact ⟨z, e⟩
    · obtain ⟨z, e, _⟩ := d_cons.mp hy; exact ⟨z, e⟩
  have := hs y rest (Nat.le_refl _) hy hr
  obtain ⟨z, rfl⟩ := hc
  rw [parseVarDeclItem, List.append_assoc, show idents ms ++ (Tok.colon :: z ++ rest) = idents ms ++ (.colon :: (z ++ rest)) from rfl,
    identList_idents idents_colon hms]
  exact this

theorem sound_fullVarDecl : Sound accepted parseFullVarDecl (nt .fullVarDecl) := by
  unfold parseFullVarDecl
  rw [ifAt_next (l := [.lpar]) rfl]
  refine .nt (.then (.eat _) (Sound.mono (.ifAt (.then (.eat _) (.then (sound_items sound_varDeclItem (by decide)) (.eat _)))
    sound_varDeclItem) ?_))
  exact fun ts h => d_alt.mpr (d_alt.mp h).symm

theorem comp_fullVarDecl : Comp accepted k parseFullVarDecl (nt .fullVarDecl) [.colonColon, .colon, .eq, .comma] := by
  unfold parseFullVarDecl
  rw [ifAt_next (l := [.lpar]) rfl]
  refine .nt (Comp.then tables (l1 := []) (.eat _) (Comp.mono (b := group' .lpar .rpar (nt .varDeclItem) ∣ nt .varDeclItem) ?_ ?_)
    (by decide) (by decide))
  · refine Comp.ifAt tables (Comp.weaken (l1 := []) ?_ nofun) comp_varDeclItem (by decide) (by decide) (by decide) (by decide)
    exact Comp.then tables (l1 := []) (.eat _)
      (comp_items tables comp_varDeclItem (by decide) (by decide) (by decide) (by decide) (by decide) (by decide)) (by decide) (by decide)
  · exact fun ts h => d_alt.mpr (d_alt.mp h).symm

/-! ### Short declarations -/

/-- What follows the identifiers of a short declaration. -/
abbrev shortRest (n : Nat) : EBNF := if n = 1 then tok .colonEq ⬝ nt .expr else tok .colonEq ⬝ nt .exprList

theorem sound_shortRest {n : Nat} (hn : n ≠ 0) :
    Sound accepted (eat .colonEq ⟫ if n > 1 then parseExprList else parseExpr) (shortRest n) := by
  by_cases hl : n = 1
  · rw [shortRest, if_pos hl, if_neg (by omega)]
    exact .then (.eat _) sound_expr
  · rw [shortRest, if_neg hl, if_pos (by omega)]
    exact .then (.eat _) sound_exprList

theorem comp_shortRest {n : Nat} (hn : n ≠ 0) :
    Comp accepted k (eat .colonEq ⟫ if n > 1 then parseExprList else parseExpr) (shortRest n) [.comma] := by
  by_cases hl : n = 1
  · rw [shortRest, if_pos hl, if_neg (by omega)]
    exact Comp.then tables (l1 := []) (.eat _) (comp_expr.weaken nofun) (by decide) (by decide)
  · rw [shortRest, if_neg hl, if_pos (by omega)]
    exact Comp.then tables (l1 := []) (.eat _) comp_exprList (by decide) (by decide)

theorem length_ne {ms : List Bool} (h : ms ≠ []) : ms.length ≠ 0 := fun h' => h (List.length_eq_zero_iff.mp h')

theorem shortVarDecl_some {ts rest : List Tok} (h : parseShortVarDecl ts = some rest) :
    ∃ ms y, ms ≠ [] ∧ ts = idents ms ++ (y ++ rest) ∧ Derives accepted (shortRest ms.length) y := by
  unfold parseShortVarDecl at h
  obtain ⟨⟨ms, r1⟩, h1, h2⟩ := Option.bind_eq_some_iff.mp h
  obtain ⟨hms, e1⟩ := identList_some h1
  obtain ⟨y, e2, hy⟩ := sound_shortRest (length_ne hms) _ _ h2
  dsimp only at e2
  exact ⟨ms, y, hms, by rw [e1, e2], hy⟩

theorem shortRest_start {n : Nat} {y : List Tok} (h : Derives accepted (shortRest n) y) : ∃ z, y = .colonEq :: z := by
  unfold shortRest at h
  split at h
  · obtain ⟨z, e, _⟩ := d_cons.mp h; exact ⟨z, e⟩
  · obtain ⟨z, e, _⟩ := d_cons.mp h; exact ⟨z, e⟩

theorem shortVarDecl_of {ms : List Bool} {y rest : List Tok} (hms : ms ≠ []) (hy : Derives accepted (shortRest ms.length) y)
    (hr : Free [.comma] rest) : parseShortVarDecl (idents ms ++ (y ++ rest)) = some rest := by
  have := comp_shortRest (k := y.length) (length_ne hms) y rest (Nat.le_refl _) hy hr
  obtain ⟨z, rfl⟩ := shortRest_start hy
  rw [parseShortVarDecl, show idents ms ++ (Tok.colonEq :: z ++ rest) = idents ms ++ (.colonEq :: (z ++ rest)) from rfl,
    identList_idents (free_cons.mpr (by decide)) hms]
  exact this

theorem sound_shortVarDecl : Sound accepted parseShortVarDecl (nt .shortVarDecl) := by
  intro ts rest h
  obtain ⟨ms, y, hms, e, hy⟩ := shortVarDecl_some h
  exact ⟨idents ms ++ y, by rw [e, List.append_assoc], .nt (d_oneMany.mpr ⟨ms, y, hms, rfl, hy⟩)⟩

theorem comp_shortVarDecl : Comp accepted k parseShortVarDecl (nt .shortVarDecl) [.comma] := by
  intro pre rest _ hd hr
  obtain ⟨ms, y, hms, rfl, hy⟩ := d_oneMany.mp (d_nt.mp hd)
  rw [List.append_assoc]
  exact shortVarDecl_of hms hy hr

theorem d_localVarDecl {ts : List Tok} : Derives accepted (nt .localVarDecl) ts ↔
    ∃ ms y, ms ≠ [] ∧ ms.any id = false ∧ ts = idents ms ++ y ∧ Derives accepted (shortRest ms.length) y := by
  rw [d_nt]
  show Derives accepted (tok .ident ⬝ tok .colonEq ⬝ nt .expr ∣ tok .ident ⬝ tok .comma ⬝ nt .names ⬝ tok .colonEq ⬝ nt .exprList) ts ↔ _
  rw [d_alt]
  constructor
  · rintro (h | h)
    · obtain ⟨y, rfl, h1⟩ := d_cons.mp h
      exact ⟨[false], y, nofun, rfl, rfl, h1⟩
    · obtain ⟨_, rfl, h1⟩ := d_cons.mp h
      obtain ⟨_, rfl, h2⟩ := d_cons.mp h1
      obtain ⟨_, y, rfl, h5, h6⟩ := d_seq.mp h2
      obtain ⟨ms, hms, ha, rfl⟩ := d_names.mp h5
      refine ⟨false :: ms, y, nofun, ha, by rw [idents_cons hms]; simp, ?_⟩
      rw [shortRest, if_neg]
      · exact h6
      · cases ms with
        | nil => exact absurd rfl hms
        | cons _ _ => simp
  · rintro ⟨ms, y, hms, ha, rfl, h⟩
    match ms, hms, ha, h with
    | [false], _, _, h => exact .inl (.cons h)
    | false :: m' :: ms, _, ha, h =>
      rw [shortRest, if_neg (by simp)] at h
      refine .inr ?_
      rw [idents_cons (List.cons_ne_nil _ _)]
      exact .cons (.cons (.seq (d_names.mpr ⟨m' :: ms, nofun, ha, rfl⟩) h))

/-! ### The lookahead for short declarations -/

theorem ahead_iff {ts : List Tok} : shortVarDeclAhead ts = true ↔
    ∃ ms r, ms ≠ [] ∧ ms.any id = false ∧ ts = idents ms ++ .colonEq :: r := by
  constructor
  · induction ts using shortVarDeclAhead.induct with
    | case1 ts ih =>
      intro h
      rw [shortVarDeclAhead] at h
      obtain ⟨ms, r, hms, ha, rfl⟩ := ih h
      exact ⟨false :: ms, r, nofun, ha, by rw [idents_cons hms]; simp⟩
    | case2 r => intro _; exact ⟨[false], r, nofun, rfl, rfl⟩
    | case3 ts h1 h2 =>
      intro h
      rw [shortVarDeclAhead] at h
      · cases h
      · exact h1
      · exact h2
  · rintro ⟨ms, r, hms, ha, rfl⟩
    induction ms with
    | nil => exact absurd rfl hms
    | cons m ms ih =>
      cases m with
      | true => cases ha
      | false =>
        cases ms with
        | nil => rfl
        | cons m' ms =>
          rw [idents_cons (List.cons_ne_nil _ _)]
          show shortVarDeclAhead (.ident :: .comma :: (idents (m' :: ms) ++ .colonEq :: r)) = true
          rw [shortVarDeclAhead]
          exact ih nofun ha

/-- Two lists of identifiers that start the same text. -/
theorem idents_inj {ms ms' : List Bool} {r r' : List Tok} (h : ms ≠ []) (h' : ms' ≠ []) (hr : Free [.mul, .comma] r)
    (hr' : Free [.mul, .comma] r') (e : idents ms ++ r = idents ms' ++ r') : ms = ms' ∧ r = r' := by
  have h1 := identList_idents hr h
  rw [e, identList_idents hr' h'] at h1
  cases h1
  exact ⟨rfl, rfl⟩

theorem sound_localVarDecl {ts rest : List Tok} (h : shortVarDeclAhead ts = true) (h' : parseShortVarDecl ts = some rest) :
    ∃ pre, ts = pre ++ rest ∧ Derives accepted (nt .localVarDecl) pre := by
  obtain ⟨ms, r, hms, ha, rfl⟩ := ahead_iff.mp h
  obtain ⟨ms', y, hms', e, hy⟩ := shortVarDecl_some h'
  obtain ⟨z, rfl⟩ := shortRest_start hy
  obtain ⟨rfl, e'⟩ := idents_inj hms hms' (free_cons.mpr (by decide)) (free_cons.mpr (by decide)) e
  exact ⟨idents ms ++ .colonEq :: z, by rw [e, List.append_assoc], d_localVarDecl.mpr ⟨ms, _, hms, ha, rfl, hy⟩⟩

theorem comp_localVarDecl {pre rest : List Tok} (hd : Derives accepted (nt .localVarDecl) pre) :
    shortVarDeclAhead (pre ++ rest) = true ∧ (Free [.comma] rest → parseShortVarDecl (pre ++ rest) = some rest) := by
  obtain ⟨ms, y, hms, ha, rfl, hy⟩ := d_localVarDecl.mp hd
  rw [List.append_assoc]
  refine ⟨?_, fun hr => shortVarDecl_of hms hy hr⟩
  obtain ⟨z, rfl⟩ := shortRest_start hy
  exact ahead_iff.mpr ⟨ms, z ++ rest, hms, ha, rfl⟩

end Umka.Syntax
