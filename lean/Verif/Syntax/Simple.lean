import Verif.Syntax.Decls
/-
Simple statements, and the headers of the other ones.
-/
namespace Umka.Syntax
open Spec Spec.EBNF

/-! ### Parsers that take all texts of a rule, if the text goes on in a certain way -/

/-- Every text of at most `k` tokens derived from the rule is taken, and nothing more, if it goes on with one of the tokens of `l`. -/
def CompAt (g : NT → EBNF) (k : Nat) (p : P) (e : EBNF) (l : List Tok) : Prop :=
  ∀ pre rest, pre.length ≤ k → Derives g e pre → at_ l rest = true → p (pre ++ rest) = some rest

section
variable {g : NT → EBNF} {t : NT → Bool} {f : NT → List Tok} {p q : P} {a b : EBNF} {k : Nat} {l l1 l2 : List Tok}

theorem free_of_at {rest : List Tok} (h : at_ l rest = true) (hd : ∀ x ∈ l, x ∉ l1) : Free l1 rest := by
  obtain ⟨x, r, rfl, hx⟩ := at_iff.mp h
  exact free_cons.mpr (hd x hx)

theorem at_mono {rest : List Tok} (h : at_ l rest = true) (hd : ∀ x ∈ l, x ∈ l1) : at_ l1 rest = true := by
  obtain ⟨x, r, rfl, hx⟩ := at_iff.mp h
  exact at_cons.mpr (hd x hx)

theorem Comp.compAt (h : Comp g k p a l1) (hd : ∀ x ∈ l, x ∉ l1) : CompAt g k p a l :=
  fun pre rest hk hx hr => h pre rest hk hx (free_of_at hr hd)

theorem CompAt.weaken (h : CompAt g k p a l1) (hl : ∀ x ∈ l2, x ∈ l1) : CompAt g k p a l2 :=
  fun pre rest hk hd hf => h pre rest hk hd (at_mono hf hl)

theorem CompAt.le {k' : Nat} (h : CompAt g k p a l1) (hk : k' ≤ k) : CompAt g k' p a l1 :=
  fun pre rest hk' => h pre rest (Nat.le_trans hk' hk)

theorem CompAt.then (H : Tables g t f) (h1 : Comp g k p a l1) (h2 : CompAt g k q b l) (hf : ∀ x ∈ first t f b, x ∉ l1)
    (hn : nullable t b = true → ∀ x ∈ l, x ∉ l1) : CompAt g k (p ⟫ q) (a ⬝ b) l := by
  intro pre rest hk hd hr
  obtain ⟨xs, ys, rfl, hx, hy⟩ := d_seq.mp hd
  rw [List.length_append] at hk
  refine then_some.mpr ⟨ys ++ rest, ?_, h2 ys rest (by omega) hy hr⟩
  rw [List.append_assoc]
  exact h1 xs _ (by omega) hx (free_of H hy hf fun h => free_of_at hr (hn h))

theorem CompAt.eatThen {x : Tok} (h2 : CompAt g k q b l2) : CompAt g (k + 1) (Umka.Syntax.eat x ⟫ q) (.tok x ⬝ b) l2 := by
  intro pre rest hk hd hr
  obtain ⟨ys, rfl, hy⟩ := d_cons.mp hd
  exact then_some.mpr ⟨ys ++ rest, eat_some.mpr rfl, h2 ys rest (Nat.le_of_succ_le_succ hk) hy hr⟩

/-- Up to a closing token. -/
theorem CompAt.close {c : Tok} (h : CompAt g k p a [c]) : Comp g k (p ⟫ Umka.Syntax.eat c) (a ⬝ .tok c) [] := by
  intro pre rest hk hd _
  obtain ⟨xs, ys, rfl, hx, hy⟩ := d_seq.mp hd
  rw [d_tok.mp hy] at *
  rw [List.length_append] at hk
  refine then_some.mpr ⟨c :: rest, ?_, eat_some.mpr rfl⟩
  rw [List.append_assoc]
  exact h xs _ (by omega) hx (at_cons.mpr (List.mem_singleton.mpr rfl))

theorem CompAt.ifAt (H : Tables g t f) (h1 : CompAt g k p a l2) (h2 : CompAt g k q b l2) (ha : ∀ x ∈ first t f a, x ∈ l)
    (hna : nullable t a = false) (hb : ∀ x ∈ first t f b, x ∉ l) (hnb : nullable t b = true → ∀ x ∈ l2, x ∉ l) :
    CompAt g k (ifAt l p q) (a ∣ b) l2 := by
  intro pre rest hk hd hr
  rcases d_alt.mp hd with hd | hd
  · show (if at_ l (pre ++ rest) then p (pre ++ rest) else q (pre ++ rest)) = _
    rw [if_pos (at_of H hd ha hna)]
    exact h1 pre rest hk hd hr
  · show (if at_ l (pre ++ rest) then p (pre ++ rest) else q (pre ++ rest)) = _
    have : Free l (pre ++ rest) := free_of H hd hb fun h => free_of_at hr (hnb h)
    rw [if_neg (by rw [this]; exact Bool.false_ne_true)]
    exact h2 pre rest hk hd hr

theorem CompAt.nt {n : NT} (h : CompAt g k p (g n) l) : CompAt g k p (.nt n) l := fun pre rest hk hd => h pre rest hk (d_nt.mp hd)

theorem CompAt.mono (h : CompAt g k p b l) (hab : ∀ ts, Derives g a ts → Derives g b ts) : CompAt g k p a l :=
  fun pre rest hk hd => h pre rest hk (hab _ hd)

/-- A part that is read up to a token, and the token. -/
theorem SoundAt.eatThen {c : Tok} (h1 : SoundAt g [c] p a) (h2 : Sound g q b) :
    Sound g (p ⟫ Umka.Syntax.eat c ⟫ q) (a ⬝ .tok c ⬝ b) := by
  intro ts rest h
  obtain ⟨m, h3, h4⟩ := then_some.mp h
  obtain ⟨m', h5, h6⟩ := then_some.mp h4
  have e := eat_some.mp h5
  subst e
  obtain ⟨x, rfl, hx⟩ := h1 _ _ h3 (at_cons.mpr (List.mem_singleton.mpr rfl))
  obtain ⟨y, rfl, hy⟩ := h2 _ _ h6
  exact ⟨x ++ c :: y, by simp, .seq hx (.cons hy)⟩

theorem SoundAt.eatThenAt {c : Tok} (h1 : SoundAt g [c] p a) (h2 : SoundAt g l q b) :
    SoundAt g l (p ⟫ Umka.Syntax.eat c ⟫ q) (a ⬝ .tok c ⬝ b) := by
  intro ts rest h hr
  obtain ⟨m, h3, h4⟩ := then_some.mp h
  obtain ⟨m', h5, h6⟩ := then_some.mp h4
  have e := eat_some.mp h5
  subst e
  obtain ⟨x, rfl, hx⟩ := h1 _ _ h3 (at_cons.mpr (List.mem_singleton.mpr rfl))
  obtain ⟨y, rfl, hy⟩ := h2 _ _ h6 hr
  exact ⟨x ++ c :: y, by simp, .seq hx (.cons hy)⟩

end

variable {k : Nat}

/-! ### Simple statements -/

theorem sound_place : Sound accepted (ifAt places next fail) (one places) := by
  intro ts rest h
  unfold ifAt at h
  split at h
  · next h0 =>
    obtain ⟨t, r, rfl, ht⟩ := at_iff.mp h0
    cases h
    exact ⟨[t], rfl, .one ht⟩
  · cases h

theorem comp_place : Comp accepted k (ifAt places next fail) (one places) [] := by
  intro pre rest _ hd _
  obtain ⟨t, ht, rfl⟩ := d_one.mp hd
  show ifAt places next fail (t :: rest) = _
  unfold ifAt
  rw [if_pos (at_cons.mpr ht)]; rfl

theorem sound_simpleStmt : Sound accepted parseSimpleStmt (nt .simpleStmt) := by
  intro ts rest h
  unfold parseSimpleStmt at h
  split at h
  · next ha =>
    obtain ⟨x, e, hx⟩ := sound_localVarDecl ha h
    exact ⟨x, e, .nt (.left hx)⟩
  · cases ts with
    | nil => cases h
    | cons d ts =>
      dsimp only at h
      split at h
      · next hd =>
        have hd : d ∈ designators := List.contains_iff_mem.mp hd
        split at h
        · next hpc =>
          obtain ⟨hp0, hc⟩ := Bool.and_eq_true_iff.mp hpc
          have hp : d ∈ places := List.contains_iff_mem.mp hp0
          rw [many_next] at h
          have hs : Sound accepted (many [.comma] (eat .comma ⟫ ifAt places next fail) ⟫ eat .eq ⟫ parseExprList)
            (star (tok .comma ⬝ one places) ⬝ tok .eq ⬝ nt .exprList) := .then (.many (.then (.eat _) sound_place)) (.then (.eat _) sound_exprList)
          obtain ⟨x, rfl, hx⟩ := hs _ _ h
          obtain ⟨s, y, rfl, hs1, hy⟩ := d_seq.mp hx
          rcases d_star.mp hs1 with rfl | ⟨u, v, rfl, hu, hv⟩
          · obtain ⟨z, rfl, _⟩ := d_cons.mp hy
            cases hc
          · obtain ⟨z, rfl, hz⟩ := d_cons.mp hu
            refine ⟨d :: (.comma :: z ++ v ++ y), rfl, .nt (.right (.left (.nt (.right (.nt ?_)))))⟩
            have e : d :: (.comma :: z ++ v ++ y) = [d] ++ (.comma :: (z ++ v ++ y)) := rfl
            rw [e]
            exact .seq (.one hp) (.cons (.seq (.nt (.seq hz hv)) hy))
        · split at h
          · next hq =>
            split at h
            · next hp =>
              have hp : d ∈ places := List.contains_iff_mem.mp hp
              obtain ⟨c, r, rfl, hc⟩ := at_iff.mp hq
              obtain ⟨m, h1, h2⟩ := then_some.mp h
              cases h1
              obtain ⟨x, rfl, hx⟩ := sound_expr _ _ h2
              refine ⟨[d] ++ c :: x, rfl, .nt (.right ?_)⟩
              rcases List.mem_cons.mp hc with rfl | hc
              · exact .left (.nt (.left (.nt (.seq (.one hp) (.cons hx)))))
              · rw [List.mem_singleton.mp hc]
                exact .right (.left (.nt (.seq (.one hp) (.cons hx))))
            · cases h
          · split at h
            · next hi =>
              obtain ⟨c, r, rfl, hc⟩ := at_iff.mp hi
              rw [List.mem_singleton.mp hc]
              cases h
              exact ⟨[d, .incDec], rfl, .nt (.right (.right (.right (.left (.nt (.seq (xs := [d]) (.nt (.one hd)) .tok))))))⟩
            · split at h
              · next hcall =>
                cases h
                have : d = .call := by simpa using hcall
                subst this
                exact ⟨[.call], rfl, .nt (.right (.right (.right (.right (.nt .tok)))))⟩
              · cases h
      · cases h

theorem not_ahead_list {s r : List Tok} (hs : Derives accepted (star (tok .comma ⬝ one places)) s) :
    ∀ t, shortVarDeclAhead (t :: (s ++ .eq :: r)) = false := by
  generalize e : star (tok .comma ⬝ one places) = e' at hs
  induction hs with
  | starNil => intro t; cases t <;> rfl
  | starCons h1 _ _ ih =>
    cases e
    intro t
    obtain ⟨_, rfl, h2⟩ := d_cons.mp h1
    obtain ⟨p, _, rfl⟩ := d_one.mp h2
    have := ih rfl p
    cases t <;> first | exact this | rfl
  | _ => cases e

/-- Where a simple statement is not complete before these tokens. -/
def simpleEnd : List Tok := [.comma, .eq, .opEq, .incDec]

theorem comp_simpleStmt : Comp accepted k parseSimpleStmt (nt .simpleStmt) simpleEnd := by
  intro pre rest hk hd hr
  have h0 : Derives accepted (nt .localVarDecl ∣ nt .assignmentStmt ∣ nt .shortAssignmentStmt ∣ nt .incDecStmt ∣ nt .callStmt) pre := d_nt.mp hd
  rcases d_alt.mp h0 with h | h1
  · obtain ⟨h1, h2⟩ := comp_localVarDecl (rest := rest) h
    unfold parseSimpleStmt
    rw [if_pos h1]
    exact h2 (hr.mono (by decide))
  rcases d_alt.mp h1 with h | h1
  · have h : Derives accepted (nt .singleAssgnStmt ∣ nt .listAssgnStmt) pre := d_nt.mp h
    rcases d_alt.mp h with h | h
    · obtain ⟨u, v, rfl, hu, hv⟩ := d_seq.mp (d_nt.mp h)
      obtain ⟨d, hp, rfl⟩ := d_one.mp hu
      obtain ⟨x, rfl, hx⟩ := d_cons.mp hv
      have hx' := comp_expr (k := x.length) x rest (Nat.le_refl _) hx free_empty
      have hx2 : (next ⟫ parseExpr) (.eq :: (x ++ rest)) = some rest := then_some.mpr ⟨_, rfl, hx'⟩
      simp only [places, List.mem_cons, List.not_mem_nil, or_false] at hp
      rcases hp with rfl | rfl <;> exact hx2
    · obtain ⟨u, v, rfl, hu, hv⟩ := d_seq.mp (d_nt.mp h)
      obtain ⟨d, hp, rfl⟩ := d_one.mp hu
      obtain ⟨x, rfl, hx⟩ := d_cons.mp hv
      obtain ⟨w, y, rfl, hw, hy⟩ := d_seq.mp hx
      have hw' : Derives accepted (one places ⬝ star (tok .comma ⬝ one places)) w := d_nt.mp hw
      obtain ⟨w0, w1, rfl, hw0, hw1⟩ := d_seq.mp hw'
      have hst : Derives accepted (star (tok .comma ⬝ one places)) (.comma :: (w0 ++ w1)) :=
        .starCons (xs := .comma :: w0) (.cons hw0) hw1
      have hC : Comp accepted ((Tok.comma :: (w0 ++ w1)) ++ y).length (many [.comma] (next ⟫ ifAt places next fail) ⟫ eat .eq ⟫ parseExprList)
          (star (tok .comma ⬝ one places) ⬝ tok .eq ⬝ nt .exprList) [.comma] := by
        rw [many_next]
        exact Comp.then tables (Comp.many tables (l1 := []) (Comp.then tables (l1 := []) (.eat _) comp_place (by decide) (by decide)) (by decide)
          (by decide) (by decide)) (Comp.then tables (l1 := []) (.eat _) comp_exprList (by decide) (by decide)) (by decide) (by decide)
      have hres := hC _ rest (Nat.le_refl _) (.seq hst hy) (hr.mono (by decide))
      obtain ⟨z, rfl, _⟩ := d_cons.mp hy
      have hna := not_ahead_list (r := z ++ rest) hst d
      have e : [d] ++ .comma :: (w0 ++ w1 ++ .eq :: z) ++ rest = d :: ((.comma :: (w0 ++ w1)) ++ .eq :: (z ++ rest)) := by simp
      have e2 : (Tok.comma :: (w0 ++ w1)) ++ .eq :: z ++ rest = .comma :: (w0 ++ w1) ++ .eq :: (z ++ rest) := by simp
      rw [e]
      rw [e2] at hres
      unfold parseSimpleStmt
      rw [if_neg (by rw [hna]; exact Bool.false_ne_true)]
      simp only [places, List.mem_cons, List.not_mem_nil, or_false] at hp
      rcases hp with rfl | rfl <;> exact hres
  rcases d_alt.mp h1 with h | h1
  · obtain ⟨u, v, rfl, hu, hv⟩ := d_seq.mp (d_nt.mp h)
    obtain ⟨d, hp, rfl⟩ := d_one.mp hu
    obtain ⟨x, rfl, hx⟩ := d_cons.mp hv
    have hx' := comp_expr (k := x.length) x rest (Nat.le_refl _) hx free_empty
    have hx2 : (next ⟫ parseExpr) (.opEq :: (x ++ rest)) = some rest := then_some.mpr ⟨_, rfl, hx'⟩
    simp only [places, List.mem_cons, List.not_mem_nil, or_false] at hp
    rcases hp with rfl | rfl <;> exact hx2
  rcases d_alt.mp h1 with h | h1
  · obtain ⟨u, v, rfl, hu, hv⟩ := d_seq.mp (d_nt.mp h)
    obtain ⟨d, hp, rfl⟩ := d_one.mp (d_nt.mp hu)
    rw [d_tok.mp hv]
    simp only [designators, List.mem_cons, List.not_mem_nil, or_false] at hp
    rcases hp with rfl | rfl | rfl | rfl <;> rfl
  · have e : pre = [.call] := d_tok.mp (d_nt.mp h1)
    subst e
    cases rest with
    | nil => rfl
    | cons c r =>
      rw [free_cons] at hr
      cases c <;> first | rfl | exact absurd (by decide) hr

theorem forPost_eq : parseForPost = parseSimpleStmt := by
  funext ts
  unfold parseForPost
  split
  · next h =>
    unfold postIncDecAhead at h
    split at h
    · rfl
    · cases h
  · rfl

/-! ### Headers -/

section
variable {q : P} {b : EBNF} {l : List Tok}

theorem sound_header (hq : Sound accepted q b) :
    Sound accepted (parseHeaderDecl ⟫ parseExpr ⟫ q) (opt (nt .localVarDecl ⬝ tok .semi) ⬝ nt .expr ⬝ b) := by
  intro ts rest h
  obtain ⟨m, h1, h2⟩ := then_some.mp h
  obtain ⟨y, rfl, hy⟩ := Sound.then sound_expr hq _ _ h2
  unfold parseHeaderDecl at h1
  split at h1
  · next ha =>
    obtain ⟨m', h3, h4⟩ := then_some.mp h1
    obtain ⟨x, rfl, hx⟩ := sound_localVarDecl ha h3
    rcases eatSemi_some.mp h4 with ⟨h5, rfl⟩ | rfl
    · exfalso
      obtain ⟨u, v, rfl, hu, _⟩ := d_seq.mp hy
      rw [List.append_assoc] at h5
      have := free_of tables (l1 := [.rpar, .rbrace]) (rest := v ++ rest) hu (by decide) (fun h => absurd h (by decide))
      rw [this] at h5; cases h5
    · exact ⟨(x ++ [.semi]) ++ y, by simp, .seq (.optSome (.seq hx .tok)) hy⟩
  · cases h1
    exact ⟨y, rfl, .seq (xs := []) .optNone hy⟩

/-- An expression that is not followed by `,` or `:=` is no short declaration. -/
theorem not_ahead_expr {x r : List Tok} (hx : Derives accepted (nt .expr) x) (hr : Free [.comma, .colonEq] r) :
    shortVarDeclAhead (x ++ r) = false := by
  obtain ⟨t, _, rfl⟩ := d_one.mp (d_nt.mp hx)
  show shortVarDeclAhead (t :: r) = false
  cases r with
  | nil => cases t <;> rfl
  | cons c r =>
    rw [free_cons] at hr
    cases t <;> first | rfl | (cases c <;> first | rfl | exact absurd (by decide) hr)

theorem comp_header (hq : Comp accepted k q b l) (hf : ∀ x ∈ first nl fs b, x ∉ [Tok.comma, .colonEq])
    (hn : nullable nl b = true → ∀ x ∈ [Tok.comma, .colonEq], x ∈ l) :
    Comp accepted k (parseHeaderDecl ⟫ parseExpr ⟫ q) (opt (nt .localVarDecl ⬝ tok .semi) ⬝ nt .expr ⬝ b) l := by
  intro pre rest hk hd hr
  obtain ⟨u, _, rfl, hu, h1⟩ := d_seq.mp hd
  obtain ⟨x, y, rfl, hx, hy⟩ := d_seq.mp h1
  simp only [List.length_append] at hk
  have h2 : (parseExpr ⟫ q) (x ++ (y ++ rest)) = some rest :=
    then_some.mpr ⟨_, comp_expr (k := x.length) x _ (Nat.le_refl _) hx free_empty, hq y rest (by omega) hy hr⟩
  have e : u ++ (x ++ y) ++ rest = u ++ (x ++ (y ++ rest)) := by simp
  rw [e]
  refine then_some.mpr ⟨x ++ (y ++ rest), ?_, h2⟩
  unfold parseHeaderDecl
  rcases d_opt.mp hu with rfl | hu
  · have := not_ahead_expr hx (free_of tables hy hf fun h => hr.mono (hn h) : Free _ (y ++ rest))
    rw [List.nil_append, if_neg (by rw [this]; exact Bool.false_ne_true)]
  · obtain ⟨u, v, rfl, hu, hv⟩ := d_seq.mp hu
    rw [d_tok.mp hv, List.append_assoc]
    obtain ⟨h3, h4⟩ := comp_localVarDecl (rest := [.semi] ++ (x ++ (y ++ rest))) hu
    rw [if_pos h3]
    exact then_some.mpr ⟨_, h4 (free_cons.mpr (by decide)), eatSemi_some.mpr (.inr rfl)⟩

end

theorem sound_forHeader : Sound accepted parseForHeader (nt .forHeader) := by
  unfold parseForHeader
  rw [forPost_eq, ifAt_next (l := [.semi]) rfl]
  exact .nt (sound_header (.opt (.then (.eat _) sound_simpleStmt)))

theorem comp_forHeader : Comp accepted k parseForHeader (nt .forHeader) (.colonEq :: .semi :: simpleEnd) := by
  unfold parseForHeader
  rw [forPost_eq, ifAt_next (l := [.semi]) rfl]
  exact .nt (comp_header (Comp.opt tables (Comp.then tables (l1 := []) (.eat _) (comp_simpleStmt.weaken (by decide)) (by decide) (by decide))
    (by decide) (by decide) (by decide)) (by decide) (by decide))

theorem sound_forInHeader : Sound accepted parseForInHeader (nt .forInHeader) := by
  unfold parseForInHeader
  rw [ifAt_next1, ifAt_next (l := [.comma]) rfl]
  exact .nt (.then (.eat _) (.then (.opt (.then (.eat _) (.then (.eat _) (.opt (.eat _))))) (.then (.eat _) sound_expr)))

theorem comp_forInHeader : Comp accepted k parseForInHeader (nt .forInHeader) [] := by
  unfold parseForInHeader
  rw [ifAt_next1, ifAt_next (l := [.comma]) rfl]
  refine .nt (Comp.then tables (l1 := []) (.eat _) (Comp.then tables (l1 := [.comma, .caret]) ?_
    (Comp.then tables (l1 := []) (.eat _) comp_expr (by decide) (by decide)) (by decide) (by decide)) (by decide) (by decide))
  refine Comp.opt tables (Comp.then tables (l1 := []) (.eat _) (Comp.then tables (l1 := []) (.eat _) ?_ (by decide) (by decide))
    (by decide) (by decide)) (by decide) (by decide) (by decide)
  exact Comp.opt tables ((Comp.eat _).weaken nofun) (by decide) (by decide) (by decide)

theorem sound_forEither : Sound accepted parseForEither (nt .forHeader ∣ nt .forInHeader) := by
  intro ts rest h
  unfold parseForEither at h
  split at h
  · obtain ⟨x, e, hx⟩ := sound_forInHeader _ _ h; exact ⟨x, e, .right hx⟩
  · obtain ⟨x, e, hx⟩ := sound_forHeader _ _ h; exact ⟨x, e, .left hx⟩

theorem comp_forEither : Comp accepted k parseForEither (nt .forHeader ∣ nt .forInHeader) (.kIn :: .colonEq :: .semi :: simpleEnd) := by
  intro pre rest hk hd hr
  unfold parseForEither
  rcases d_alt.mp hd with h | h
  · have h1 := comp_forHeader pre rest hk h (hr.mono (by decide))
    rw [if_neg]
    · exact h1
    obtain ⟨u, _, rfl, hu, h1⟩ := d_seq.mp (d_nt.mp h)
    obtain ⟨x, y, rfl, hx, hy⟩ := d_seq.mp h1
    rcases d_opt.mp hu with rfl | hu
    · obtain ⟨t, _, rfl⟩ := d_one.mp (d_nt.mp hx)
      have hfy : Free [.comma, .kIn] (y ++ rest) := free_of tables hy (by decide) fun _ => hr.mono (by decide)
      have : forInAhead ([] ++ ([t] ++ y) ++ rest) = false := by
        show forInAhead (t :: (y ++ rest)) = false
        revert hfy
        generalize y ++ rest = z
        intro hfy
        cases z with
        | nil => rfl
        | cons c r =>
          rw [free_cons] at hfy
          cases c <;> first | rfl | exact absurd (by decide) hfy
      rw [this, Bool.and_false]
      exact Bool.false_ne_true
    · obtain ⟨u, v, rfl, hu, hv⟩ := d_seq.mp hu
      have := (comp_localVarDecl (rest := v ++ (x ++ y) ++ rest) hu).1
      rw [show u ++ v ++ (x ++ y) ++ rest = u ++ (v ++ (x ++ y) ++ rest) from by simp, this]
      exact Bool.false_ne_true
  · have h1 := comp_forInHeader pre rest hk h free_empty
    obtain ⟨_, rfl, h2⟩ := d_cons.mp (d_nt.mp h)
    obtain ⟨u, _, rfl, hu, h3⟩ := d_seq.mp h2
    obtain ⟨x, rfl, _⟩ := d_cons.mp h3
    rw [if_pos]
    · exact h1
    rcases d_opt.mp hu with rfl | hu
    · rfl
    · obtain ⟨_, rfl, h4⟩ := d_cons.mp hu
      obtain ⟨v, rfl, h5⟩ := d_cons.mp h4
      rcases d_opt.mp h5 with rfl | h5
      · rfl
      · rw [d_tok.mp h5]; rfl

end Umka.Syntax
