import Verif.Syntax.Tables
/-
Types and signatures.
-/
namespace Umka.Syntax
open Spec Spec.EBNF

theorem ifAt_next1 {t : Tok} {q : P} : ifAt [t] next q = ifAt [t] (eat t) q := by
  funext ts
  unfold ifAt
  split
  · next h => unfold eat; rw [if_pos h]
  · rfl

theorem manyN_next {t : Tok} {p : P} : ∀ n, manyN [t] (next ⟫ p) n = manyN [t] (eat t ⟫ p) n
  | 0 => rfl
  | n + 1 => by
    funext ts
    unfold manyN
    rw [manyN_next n]
    split
    · next h =>
      show ((next ts).bind p).bind _ = ((eat t ts).bind p).bind _
      unfold eat; rw [if_pos h]
    · rfl

theorem many_next {t : Tok} {p : P} : many [t] (next ⟫ p) = many [t] (eat t ⟫ p) := by
  funext ts; unfold many; rw [manyN_next]

theorem sound_expr : Sound accepted parseExpr (nt .expr) := by
  intro ts rest h
  unfold parseExpr ifAt at h
  split at h
  · next h0 =>
    obtain ⟨t, r, rfl, ht⟩ := at_iff.mp h0
    cases h
    exact ⟨[t], rfl, .nt (.one ht)⟩
  · cases h

theorem comp_expr {k : Nat} : Comp accepted k parseExpr (nt .expr) [] := by
  intro pre rest _ hd _
  obtain ⟨t, ht, rfl⟩ := d_one.mp (d_nt.mp hd)
  show ifAt exprs next fail (t :: rest) = _
  unfold ifAt
  rw [if_pos (at_cons.mpr ht)]; rfl

theorem sound_exprList : Sound accepted parseExprList (nt .exprList) := by
  unfold parseExprList
  rw [many_next]
  exact .nt (.then sound_expr (.many (.then (.eat _) sound_expr)))

/-- More expressions. -/
theorem comp_exprs {k : Nat} : Comp accepted k (many [.comma] (next ⟫ parseExpr)) (star (tok .comma ⬝ nt .expr)) [.comma] := by
  rw [many_next]
  exact Comp.many tables (l1 := []) (Comp.then tables (l1 := []) (.eat _) comp_expr (by decide) (by decide)) (by decide)
    (by decide) (by decide)

theorem comp_exprList {k : Nat} : Comp accepted k parseExprList (nt .exprList) [.comma] :=
  .nt (Comp.then tables (l1 := []) comp_expr comp_exprs (by decide) (by decide))

theorem sound_mark : Sound accepted parseExportMark (nt .exportMark) := by
  unfold parseExportMark
  rw [ifAt_next1]
  exact .nt (.opt (.eat _))

theorem comp_mark {k : Nat} : Comp accepted k parseExportMark (nt .exportMark) [.mul] := by
  unfold parseExportMark
  rw [ifAt_next1]
  exact .nt (Comp.opt tables ((Comp.eat _).weaken (by decide)) (by decide) (by decide) (by decide))

theorem sound_qualIdent : Sound accepted parseQualIdent (nt .qualIdent) := by
  intro ts rest h
  unfold parseQualIdent at h
  split at h
  · have := eat_some.mp h
    subst this
    exact ⟨[.ident, .colonColon, .ident], rfl, .nt (.seq (.optSome (.cons .tok)) .tok)⟩
  · cases h
    exact ⟨[.ident], rfl, .nt (.seq (xs := []) .optNone .tok)⟩
  · cases h

theorem comp_qualIdent {k : Nat} : Comp accepted k parseQualIdent (nt .qualIdent) [.colonColon] := by
  intro pre rest _ hd hr
  obtain ⟨x, y, rfl, hx, hy⟩ := d_seq.mp (d_nt.mp hd)
  rw [d_tok.mp hy]
  rcases d_opt.mp hx with rfl | hx
  · cases rest with
    | nil => rfl
    | cons c r =>
      rw [free_cons] at hr
      cases c <;> first | rfl | exact absurd (by decide) hr
  · obtain ⟨z, rfl, hz⟩ := d_cons.mp hx
    rw [d_tok.mp hz]
    rfl

/-! ### Parameters -/

/-- Where a type is not complete before these tokens. -/
def typeEnd : List Tok := [.colonColon, .colon]

/-- Where a list of parameters is not complete before these tokens. -/
def paramsEnd : List Tok := [.colonColon, .colon, .eq, .comma]

theorem idents_one {ms : List Bool} (h : ms.length = 1) (h' : ms.any id = false) : idents ms = [.ident] := by
  match ms, h with
  | [false], _ => rfl
  | [true], _ => cases h'

theorem sound_params {type : P} (ht : Sound accepted type (nt .type_)) : ∀ (n : Nat) (v d : Bool) (ts rest : List Tok),
    parseParams type n v d ts = some rest → v = false ∧ ∃ pre, ts = pre ++ rest ∧
      Derives accepted (if d then nt .defaults else nt .params) pre
  | 0, _, _, _, _, h => nomatch h
  | n + 1, v, d, ts, rest, h => by
    unfold parseParams at h
    split at h
    · cases h
    · next hv =>
      refine ⟨by simpa using hv, ?_⟩
      obtain ⟨⟨ms, r1⟩, h1, ha⟩ := Option.bind_eq_some_iff.mp h
      obtain ⟨hms, e1⟩ := identList_some h1
      obtain ⟨r2, h2, hb⟩ := Option.bind_eq_some_iff.mp ha
      have e2 := eat_some.mp h2
      clear h ha h1 h2
      dsimp only at e2
      subst e2
      subst e1
      have h := hb
      clear hb
      dsimp only at h
      split at h
      · cases h
      next hell =>
      obtain ⟨r3, h3, h⟩ := Option.bind_eq_some_iff.mp h
      obtain ⟨r2', h3, h4⟩ := then_some.mp h3
      obtain ⟨x, rfl, hx⟩ := ht _ _ h4
      split at h
      · cases h
      next hg1 =>
      split at h
      · cases h
      next hg2 =>
      split at h
      · cases h
      next hg3 =>
      obtain ⟨r4, h5, h⟩ := Option.bind_eq_some_iff.mp h
      split at h
      · cases h
      next hexp =>
      have hexp : ms.any id = false := by simpa using hexp
      simp only [Bool.and_eq_true, bne_iff_ne, ne_eq, not_and, Decidable.not_not, Bool.not_eq_true', Bool.not_eq_true] at hell hg1 hg2 hg3
      -- how it goes on
      have tail : ∀ b : Bool, b = (d || at_ [.eq] r3) → ∃ more, r4 = more ++ rest ∧
          (more = [] ∨ ∃ m, more = .comma :: m ∧ at_ [.ellipsis] r2 = false ∧
            Derives accepted (if b then nt .defaults else nt .params) m) := by
        rintro _ rfl
        split at h
        · next hc =>
          obtain ⟨r5, h6, h7⟩ := Option.bind_eq_some_iff.mp h
          obtain ⟨c, r, rfl, hc'⟩ := at_iff.mp hc
          cases h6
          obtain ⟨hv', m, rfl, hm⟩ := sound_params ht n _ _ _ _ h7
          rw [List.mem_singleton.mp hc']
          exact ⟨_, rfl, .inr ⟨m, rfl, hv', hm⟩⟩
        · cases h; exact ⟨[], rfl, .inl rfl⟩
      unfold ifAt at h3 h5
      split at h3
      · -- variadic
        next he =>
        obtain ⟨c, r, rfl, hc⟩ := at_iff.mp he
        rw [List.mem_singleton.mp hc] at *
        cases h3
        have hl := hell he
        have hneq : at_ [.eq] r3 = false := by
          cases h9 : at_ [.eq] r3 with
          | false => rfl
          | true => exact absurd he (by rw [hg2 h9]; exact Bool.false_ne_true)
        rw [hneq] at h5
        simp only [Bool.false_eq_true, if_false] at h5
        cases h5
        have hd := hg3 hneq
        subst hd
        obtain ⟨more, rfl, hmore⟩ := tail _ rfl
        rcases hmore with rfl | ⟨m, rfl, h9, _⟩
        · refine ⟨.ident :: .colon :: .ellipsis :: x, by rw [idents_one hl hexp]; simp, ?_⟩
          exact .nt (.right (.left (.nt (.cons (.cons (.cons hx))))))
        · exact absurd he (by rw [h9]; exact Bool.false_ne_true)
      · next he =>
        cases h3
        split at h5
        · -- a default value
          next hq =>
          have hl := hg1 hq
          obtain ⟨c, r, rfl, hc⟩ := at_iff.mp hq
          rw [List.mem_singleton.mp hc] at *
          obtain ⟨r5, h6, h7⟩ := then_some.mp h5
          cases h6
          obtain ⟨y, rfl, hy⟩ := sound_expr _ _ h7
          have hdef : ∃ more, r4 = more ++ rest ∧ Derives accepted (opt (tok .comma ⬝ nt .defaults)) more := by
            obtain ⟨more, e, hmore⟩ := tail true (by rw [hq, Bool.or_true])
            rcases hmore with rfl | ⟨m, rfl, _, hm⟩
            · exact ⟨[], e, .optNone⟩
            · exact ⟨_, e, .optSome (.cons hm)⟩
          obtain ⟨more, rfl, hmore⟩ := hdef
          have hD : Derives accepted (nt .defaults) (.ident :: .colon :: (x ++ .eq :: (y ++ more))) :=
            .nt (.cons (.cons (.seq hx (.cons (.seq hy hmore)))))
          refine ⟨.ident :: .colon :: (x ++ .eq :: (y ++ more)), by rw [idents_one hl hexp]; simp, ?_⟩
          cases d
          · exact .nt (.right (.right hD))
          · exact hD
        · next hq =>
          have hq : at_ [.eq] r3 = false := by simpa using hq
          have hd := hg3 hq
          subst hd
          cases h5
          obtain ⟨more, rfl, hmore⟩ := tail false (by rw [hq]; rfl)
          refine ⟨idents ms ++ .colon :: (x ++ more), by simp, ?_⟩
          refine .nt (.left (.seq (d_names.mpr ⟨ms, hms, hexp, rfl⟩) (.cons (.seq hx ?_))))
          rcases hmore with rfl | ⟨m, rfl, _, hm⟩
          · exact .optNone
          · exact .optSome (.cons hm)

theorem idents_colon {r : List Tok} : Free [.mul, .comma] (Tok.colon :: r) := by
  rw [free_cons]; decide

theorem comp_params {k : Nat} {type : P} (ht : Comp accepted k type (nt .type_) typeEnd) : ∀ (n : Nat) (pre rest : List Tok),
    pre.length ≤ n → pre.length ≤ k → Free paramsEnd rest →
      (Derives accepted (nt .params) pre → parseParams type n false false (pre ++ rest) = some rest) ∧
      (Derives accepted (nt .defaults) pre → ∀ d, parseParams type n false d (pre ++ rest) = some rest)
  | 0, pre, rest, hn, _, _ => by
    have e := List.length_eq_zero_iff.mp (Nat.le_zero.mp hn)
    subst e
    exact ⟨fun h => (nomatch (h.start tables).1 rfl), fun h => (nomatch (h.start tables).1 rfl)⟩
  | n + 1, pre, rest, hn, hk, hr => by
    have hdef : Derives accepted (nt .defaults) pre → ∀ d, parseParams type (n + 1) false d (pre ++ rest) = some rest := by
      intro h d
      obtain ⟨_, rfl, h1⟩ := d_cons.mp (d_nt.mp h)
      obtain ⟨_, rfl, h2⟩ := d_cons.mp h1
      obtain ⟨x, _, rfl, hx, h3⟩ := d_seq.mp h2
      obtain ⟨_, rfl, h4⟩ := d_cons.mp h3
      obtain ⟨y, more, rfl, hy, h5⟩ := d_seq.mp h4
      simp only [List.length_append, List.length_cons] at hn hk
      have e : Tok.ident :: .colon :: (x ++ .eq :: (y ++ more)) ++ rest =
          idents [false] ++ .colon :: (x ++ .eq :: (y ++ (more ++ rest))) := by simp [idents]
      rw [e, parseParams, identList_idents idents_colon (List.cons_ne_nil false [])]
      have hell : at_ [.ellipsis] (x ++ .eq :: (y ++ (more ++ rest))) = false :=
        free_of tables hx (by decide) (fun h => absurd h (by decide))
      have htx : type (x ++ .eq :: (y ++ (more ++ rest))) = some (.eq :: (y ++ (more ++ rest))) :=
        ht x _ (by omega) hx (free_cons.mpr (by decide))
      have hye : parseExpr (y ++ (more ++ rest)) = some (more ++ rest) := comp_expr y _ (Nat.le_refl _) hy free_empty
      have heat : eat .colon (.colon :: (x ++ .eq :: (y ++ (more ++ rest)))) = some (x ++ .eq :: (y ++ (more ++ rest))) := rfl
      have heq : at_ [.eq] (Tok.eq :: (y ++ (more ++ rest))) = true := rfl
      have hif : (ifAt [.ellipsis] next skip ⟫ type) (x ++ .eq :: (y ++ (more ++ rest))) = some (.eq :: (y ++ (more ++ rest))) := by
        refine then_some.mpr ⟨_, ?_, htx⟩
        unfold ifAt; rw [hell]; rfl
      have hif2 : ifAt [.eq] (next ⟫ parseExpr) skip (.eq :: (y ++ (more ++ rest))) = some (more ++ rest) := by
        unfold ifAt; rw [heq]; exact then_some.mpr ⟨_, rfl, hye⟩
      simp only [Option.bind_some, heat, hell, hif, heq, hif2, Bool.false_eq_true, if_false, Bool.false_and,
        Bool.and_false, Bool.not_true, List.length_cons, List.length_nil, bne_self_eq_false, List.any_cons, id, List.any_nil, Bool.or_self,
        Bool.or_true, Nat.zero_add]
      rcases d_opt.mp h5 with rfl | h5
      · rw [List.nil_append, if_neg]
        rw [show at_ [.comma] rest = false from hr.mono (by decide)]
        exact Bool.false_ne_true
      · obtain ⟨m, rfl, hm⟩ := d_cons.mp h5
        rw [if_pos (by rfl)]
        rw [List.length_cons] at hn hk
        exact (comp_params ht n m rest (by omega) (by omega) hr).2 hm true
    refine ⟨fun h => ?_, hdef⟩
    rcases d_alt.mp (d_nt.mp h) with h1 | h1
    · obtain ⟨w, _, rfl, hw, h2⟩ := d_seq.mp h1
      obtain ⟨_, rfl, h3⟩ := d_cons.mp h2
      obtain ⟨x, more, rfl, hx, h4⟩ := d_seq.mp h3
      obtain ⟨ms, hms, hany, rfl⟩ := d_names.mp hw
      simp only [List.length_append, List.length_cons] at hn hk
      have e : idents ms ++ .colon :: (x ++ more) ++ rest = idents ms ++ .colon :: (x ++ (more ++ rest)) := by simp
      rw [e, parseParams, identList_idents idents_colon hms]
      have hmore : Free paramsEnd (more ++ rest) ∨ at_ [.comma] (more ++ rest) = true := by
        rcases d_opt.mp h4 with rfl | h4
        · exact .inl hr
        · obtain ⟨m, rfl, hm⟩ := d_cons.mp h4
          exact .inr rfl
      have hfr : Free [.colonColon, .colon, .eq] (more ++ rest) := by
        rcases hmore with h | h
        · exact h.mono (by decide)
        · obtain ⟨c, r, e, hc⟩ := at_iff.mp h
          rw [e, List.mem_singleton.mp hc]; rfl
      have hell : at_ [.ellipsis] (x ++ (more ++ rest)) = false := free_of tables hx (by decide) (fun h => absurd h (by decide))
      have htx : type (x ++ (more ++ rest)) = some (more ++ rest) := ht x _ (by omega) hx (hfr.mono (by decide))
      have heat : eat .colon (.colon :: (x ++ (more ++ rest))) = some (x ++ (more ++ rest)) := rfl
      have heq : at_ [.eq] (more ++ rest) = false := hfr.mono (by decide)
      have hif : (ifAt [.ellipsis] next skip ⟫ type) (x ++ (more ++ rest)) = some (more ++ rest) := by
        refine then_some.mpr ⟨_, ?_, htx⟩
        unfold ifAt; rw [hell]; rfl
      have hif2 : ifAt [.eq] (next ⟫ parseExpr) skip (more ++ rest) = some (more ++ rest) := by
        unfold ifAt; rw [heq]; rfl
      simp only [Option.bind_some, heat, hell, hif, heq, hif2, Bool.false_eq_true, if_false, Bool.false_and,
        Bool.and_false, hany, Bool.or_self]
      rcases d_opt.mp h4 with rfl | h4
      · rw [List.nil_append, if_neg]
        rw [show at_ [.comma] rest = false from hr.mono (by decide)]
        exact Bool.false_ne_true
      · obtain ⟨m, rfl, hm⟩ := d_cons.mp h4
        rw [if_pos (by rfl)]
        rw [List.length_cons] at hn hk
        exact (comp_params ht n m rest (by omega) (by omega) hr).1 hm
    · rcases d_alt.mp h1 with h1 | h1
      · obtain ⟨_, rfl, h2⟩ := d_cons.mp (d_nt.mp h1)
        obtain ⟨_, rfl, h3⟩ := d_cons.mp h2
        obtain ⟨x, rfl, hx⟩ := d_cons.mp h3
        simp only [List.length_cons] at hn hk
        have e : Tok.ident :: .colon :: .ellipsis :: x ++ rest = idents [false] ++ .colon :: (.ellipsis :: (x ++ rest)) := by
          simp [idents]
        rw [e, parseParams, identList_idents idents_colon (List.cons_ne_nil false [])]
        have htx : type (x ++ rest) = some rest := ht x _ (by omega) hx (hr.mono (by decide))
        have heat : eat .colon (.colon :: .ellipsis :: (x ++ rest)) = some (.ellipsis :: (x ++ rest)) := rfl
        have hell : at_ [.ellipsis] (Tok.ellipsis :: (x ++ rest)) = true := rfl
        have heq : at_ [.eq] rest = false := hr.mono (by decide)
        have hcm : at_ [.comma] rest = false := hr.mono (by decide)
        have hif : (ifAt [.ellipsis] next skip ⟫ type) (.ellipsis :: (x ++ rest)) = some rest := by
          refine then_some.mpr ⟨_, ?_, htx⟩
          unfold ifAt; rw [hell]; rfl
        have hif2 : ifAt [.eq] (next ⟫ parseExpr) skip rest = some rest := by
          unfold ifAt; rw [heq]; rfl
        simp only [Option.bind_some, heat, hell, hif, heq, hif2, hcm, Bool.false_eq_true, if_false, Bool.false_and,
          Bool.and_false, List.length_cons, List.length_nil, bne_self_eq_false, List.any_cons, id, List.any_nil, Bool.or_self, Nat.zero_add]
      · exact hdef h1 false

/-! ### Signatures -/

variable {type : P}

theorem sound_signature (ht : Sound accepted type (nt .type_)) : Sound accepted (parseSignature type) (nt .signature) := by
  unfold parseSignature
  rw [many_next, ifAt_next (l := [.lpar]) rfl, ifAt_next (l := [.colon]) rfl]
  refine .nt (.then (.eat _) (.then (.opt ?_) (.then (.eat _) (.opt (.then (.eat _) ?_)))))
  · intro ts rest h
    exact (sound_params ht _ _ _ _ _ h).2
  · refine Sound.mono (a := tok .lpar ⬝ nt .type_ ⬝ star (tok .comma ⬝ nt .type_) ⬝ tok .rpar ∣ nt .type_) ?_ ?_
    · exact .ifAt (.then (.eat _) (.then ht (.then (.many (.then (.eat _) ht)) (.eat _)))) ht
    · intro ts h; exact d_alt.mpr (d_alt.mp h).symm

/-- A signature with a result, before a colon. -/
theorem soundAt_signature (ht : Sound accepted type (nt .type_)) (hc : SoundAt accepted [.colon] type (nt .caseType)) :
    SoundAt accepted [.colon] (parseSignature type) (tok .lpar ⬝ opt (nt .params) ⬝ tok .rpar ⬝ tok .colon ⬝
      (nt .caseType ∣ tok .lpar ⬝ nt .type_ ⬝ star (tok .comma ⬝ nt .type_) ⬝ tok .rpar)) := by
  unfold parseSignature
  rw [many_next, ifAt_next (l := [.lpar]) rfl, ifAt_next (l := [.colon]) rfl]
  refine .then (.eat _) (.then (.opt ?_) (.then (.eat _) (.must (.then (.eat _) ?_))))
  · intro ts rest h
    exact (sound_params ht _ _ _ _ _ h).2
  · refine SoundAt.mono (a := tok .lpar ⬝ nt .type_ ⬝ star (tok .comma ⬝ nt .type_) ⬝ tok .rpar ∣ nt .caseType) ?_ ?_
    · exact .ifAt (Sound.then (.eat _) (.then ht (.then (.many (.then (.eat _) ht)) (.eat _)))).soundAt hc
    · intro ts h; exact d_alt.mpr (d_alt.mp h).symm

theorem comp_paramsOpt {k : Nat} (ht : Comp accepted k type (nt .type_) typeEnd) :
    Comp accepted k (ifAt [.ident] (fun ts => parseParams type ts.length false false ts) skip) (opt (nt .params)) (.ident :: paramsEnd) := by
  refine Comp.opt tables ?_ (by decide) (by decide) (by decide)
  intro pre rest hk hd hr
  exact (comp_params ht _ pre rest (by rw [List.length_append]; omega) hk (hr.mono (by decide))).1 hd

/-- The list of result types. -/
theorem comp_results {k : Nat} {l : List Tok} (ht : Comp accepted k type (nt .type_) typeEnd) :
    Comp accepted k (eat .lpar ⟫ type ⟫ many [.comma] (eat .comma ⟫ type) ⟫ eat .rpar)
      (tok .lpar ⬝ nt .type_ ⬝ star (tok .comma ⬝ nt .type_) ⬝ tok .rpar) l := by
  have h1 : Comp accepted k (many [.comma] (eat .comma ⟫ type)) (star (tok .comma ⬝ nt .type_)) ([.comma] ++ typeEnd) :=
    Comp.many tables (Comp.then tables (l1 := []) (.eat _) ht (by decide) (by decide)) (by decide) (by decide) (by decide)
  refine Comp.weaken (l1 := []) ?_ nofun
  exact Comp.then tables (l1 := []) (.eat _) (Comp.then tables ht (Comp.then tables h1 (.eat _) (by decide) (by decide)) (by decide) (by decide))
    (by decide) (by decide)

theorem comp_signature {k : Nat} (ht : Comp accepted k type (nt .type_) typeEnd) :
    Comp accepted k (parseSignature type) (nt .signature) typeEnd := by
  unfold parseSignature
  rw [many_next, ifAt_next (l := [.lpar]) rfl, ifAt_next (l := [.colon]) rfl]
  refine .nt (Comp.then tables (l1 := []) (.eat _) (Comp.then tables (comp_paramsOpt ht)
    (Comp.then tables (l1 := []) (.eat _) ?_ (by decide) (by decide)) (by decide) (by decide)) (by decide) (by decide))
  refine Comp.opt tables (Comp.then tables (l1 := []) (.eat _) ?_ (by decide) (by decide)) (by decide) (by decide) (by decide)
  refine Comp.mono (b := tok .lpar ⬝ nt .type_ ⬝ star (tok .comma ⬝ nt .type_) ⬝ tok .rpar ∣ nt .type_) ?_
    (fun ts h => d_alt.mpr (d_alt.mp h).symm)
  exact Comp.ifAt tables (comp_results ht) ht (by decide) (by decide) (by decide) (by decide)

/-- A signature with a result. -/
theorem comp_caseSignature {k : Nat} (ht : Comp accepted k type (nt .type_) typeEnd) (hc : Comp accepted k type (nt .caseType) [.colonColon]) :
    Comp accepted k (parseSignature type) (tok .lpar ⬝ opt (nt .params) ⬝ tok .rpar ⬝ tok .colon ⬝
      (nt .caseType ∣ tok .lpar ⬝ nt .type_ ⬝ star (tok .comma ⬝ nt .type_) ⬝ tok .rpar)) [.colonColon] := by
  unfold parseSignature
  rw [many_next, ifAt_next (l := [.lpar]) rfl, ifAt_next (l := [.colon]) rfl]
  refine Comp.then tables (l1 := []) (.eat _) (Comp.then tables (comp_paramsOpt ht)
    (Comp.then tables (l1 := []) (.eat _) ?_ (by decide) (by decide)) (by decide) (by decide)) (by decide) (by decide)
  have h0 : Comp accepted k (ifAt [.lpar] (eat .lpar ⟫ type ⟫ many [.comma] (eat .comma ⟫ type) ⟫ eat .rpar) type)
      (nt .caseType ∣ tok .lpar ⬝ nt .type_ ⬝ star (tok .comma ⬝ nt .type_) ⬝ tok .rpar) [.colonColon] := by
    refine Comp.mono (b := tok .lpar ⬝ nt .type_ ⬝ star (tok .comma ⬝ nt .type_) ⬝ tok .rpar ∣ nt .caseType) ?_
      (fun ts h => d_alt.mpr (d_alt.mp h).symm)
    exact Comp.ifAt tables (comp_results ht) hc (by decide) (by decide) (by decide) (by decide)
  intro pre rest hk hd hr
  obtain ⟨y, rfl, hy⟩ := d_cons.mp hd
  show ifAt [.colon] _ _ (.colon :: (y ++ rest)) = _
  unfold ifAt
  rw [if_pos (by rfl)]
  refine then_some.mpr ⟨y ++ rest, rfl, h0 y rest ?_ hy hr⟩
  rw [List.length_cons] at hk; omega

end Umka.Syntax
