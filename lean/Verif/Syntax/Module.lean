import Verif.Syntax.Stmts
/-
Functions and modules.
-/
namespace Umka.Syntax
open Spec Spec.EBNF

variable {k : Nat}

theorem sound_rcv : Sound accepted parseRcvSignature (nt .rcvSignature) :=
  .nt (.then (.eat _) (.then (.eat _) (.then (.eat _) (.then sound_type (.eat _)))))

theorem comp_rcv : Comp accepted k parseRcvSignature (nt .rcvSignature) [] :=
  .nt (Comp.then tables (l1 := []) (.eat _) (Comp.then tables (l1 := []) (.eat _) (Comp.then tables (l1 := []) (.eat _)
    (Comp.then tables comp_type (.eat _) (by decide) (by decide)) (by decide) (by decide)) (by decide) (by decide)) (by decide) (by decide))

theorem sound_fnDecl : Sound accepted parseFnDecl (nt .fnDecl) :=
  .nt (.then (.eat _) (.then (.opt sound_rcv) (.then (.eat _) (.then sound_mark (.then (sound_signature sound_type) (.opt sound_fnBlock))))))

/-- Where a declaration is not complete before these tokens. -/
def declEnd : List Tok := [.colonColon, .colon, .eq, .comma, .lbrace]

theorem comp_fnDecl : Comp accepted k parseFnDecl (nt .fnDecl) declEnd := by
  refine .nt (Comp.then tables (l1 := []) (.eat _) (Comp.then tables (l1 := [.lpar]) ?_ (Comp.then tables (l1 := []) (.eat _)
    (Comp.then tables comp_mark (Comp.then tables (comp_signature comp_type) ?_ (by decide) (by decide)) (by decide) (by decide))
    (by decide) (by decide)) (by decide) (by decide)) (by decide) (by decide))
  · exact Comp.opt tables (comp_rcv.weaken nofun) (by decide) (by decide) (by decide)
  · exact Comp.opt tables (comp_fnBlock.weaken nofun) (by decide) (by decide) (by decide)

/-- The kinds of declarations, in the order of the parser. -/
abbrev declAlt : EBNF := nt .typeDecl ∣ nt .constDecl ∣ nt .fullVarDecl ∣ nt .shortVarDecl ∣ nt .fnDecl ∣ never

theorem d_decl {ts : List Tok} : Derives accepted (nt .decl) ts ↔ Derives accepted declAlt ts := by
  have hv : Derives accepted (nt .varDecl) ts ↔ Derives accepted (nt .fullVarDecl ∣ nt .shortVarDecl) ts := d_nt
  rw [d_nt]
  show Derives accepted (nt .typeDecl ∣ nt .constDecl ∣ nt .varDecl ∣ nt .fnDecl) ts ↔ _
  simp only [d_alt, d_never, or_false, hv, or_assoc]

theorem sound_decl : Sound accepted parseDecl (nt .decl) :=
  Sound.mono (a := declAlt) (.ifAt sound_typeDecl (.ifAt sound_constDecl (.ifAt sound_fullVarDecl (.ifAt sound_shortVarDecl
    (.ifAt sound_fnDecl .fail))))) fun _ => d_decl.mpr

theorem comp_decl : Comp accepted k parseDecl (nt .decl) declEnd :=
  Comp.mono (b := declAlt) (Comp.ifAt tables (comp_typeDecl.weaken (by decide)) (Comp.ifAt tables (comp_constDecl.weaken nofun)
    (Comp.ifAt tables (comp_fullVarDecl.weaken (by decide)) (Comp.ifAt tables (comp_shortVarDecl.weaken (by decide))
    (Comp.ifAt tables comp_fnDecl comp_fail
    (by decide) (by decide) (by decide) (by decide)) (by decide) (by decide) (by decide) (by decide))
    (by decide) (by decide) (by decide) (by decide)) (by decide) (by decide) (by decide) (by decide))
    (by decide) (by decide) (by decide) (by decide)) fun _ => d_decl.mp

/-- Nothing is declared before `)` and `}`. -/
theorem decls_closing {n : Nat} {ts : List Tok} (h : at_ [.rpar, .rbrace] ts = true) : parseDeclsN n ts = false := by
  obtain ⟨c, r, rfl, hc⟩ := at_iff.mp h
  simp only [List.mem_cons, List.not_mem_nil, or_false] at hc
  cases n with
  | zero => rfl
  | succ n => rcases hc with rfl | rfl <;> rfl

theorem sound_declsN : ∀ (n : Nat) (ts : List Tok), parseDeclsN n ts = true →
    ts = [] ∨ Derives accepted (nt .decl ⬝ star (tok .semi ⬝ nt .decl) ⬝ opt (tok .semi)) ts
  | _, [], _ => .inl rfl
  | 0, t :: ts, h => nomatch h
  | n + 1, t :: ts, h => by
    refine .inr ?_
    unfold parseDeclsN at h
    split at h
    · cases h
    · next h1 =>
      obtain ⟨x, e, hx⟩ := sound_decl _ _ h1
      rw [e]
      exact .seq hx (.seq (xs := []) .starNil .optNone)
    · next m _ h1 =>
      obtain ⟨x, e, hx⟩ := sound_decl _ _ h1
      split at h
      · cases h
      · next m' h2 =>
        rcases eatSemi_some.mp h2 with ⟨h3, rfl⟩ | e2
        · rw [decls_closing h3] at h; cases h
        · rw [e, e2]
          rcases sound_declsN n m' h with rfl | hy
          · exact .seq hx (.seq (xs := []) .starNil (.optSome .tok))
          · obtain ⟨u, v, rfl, hu, hv⟩ := d_seq.mp hy
            obtain ⟨v, w, rfl, hv, hw⟩ := d_seq.mp hv
            refine .seq hx ?_
            have : Tok.semi :: (u ++ (v ++ w)) = ((Tok.semi :: u) ++ v) ++ w := by simp
            rw [this]
            exact .seq (.starCons (.cons hu) hv) hw

theorem declsN_cons {n : Nat} {x m : List Tok} (hx : Derives accepted (nt .decl) x) (hm : Free declEnd m)
    (h : m = [] ∨ ∃ r, m = .semi :: r ∧ parseDeclsN n r = true) : parseDeclsN (n + 1) (x ++ m) = true := by
  have h1 := comp_decl (k := x.length) x m (Nat.le_refl _) hx hm
  cases x with
  | nil => exact absurd ((hx.start tables).1 rfl) (by decide)
  | cons t x =>
    show parseDeclsN (n + 1) (t :: (x ++ m)) = true
    unfold parseDeclsN
    rw [show parseDecl (t :: (x ++ m)) = some m from h1]
    rcases h with rfl | ⟨r, rfl, hr⟩
    · rfl
    · exact hr

theorem comp_declsN {s : List Tok} (hs : Derives accepted (star (tok .semi ⬝ nt .decl)) s) : ∀ (n : Nat) (x w : List Tok),
    Derives accepted (nt .decl) x → Derives accepted (opt (tok .semi)) w → x.length + s.length + w.length ≤ n →
      parseDeclsN n (x ++ (s ++ w)) = true := by
  generalize e : star (tok .semi ⬝ nt .decl) = e' at hs
  induction hs with
  | starNil =>
    cases e
    intro n x w hx hw hn
    cases n with
    | zero => exact absurd ((hx.start tables).1 (List.length_eq_zero_iff.mp (by omega))) (by decide)
    | succ n =>
      rcases d_opt.mp hw with rfl | hw
      · exact declsN_cons hx free_nil (.inl rfl)
      · rw [d_tok.mp hw]
        exact declsN_cons hx (free_cons.mpr (by decide)) (.inr ⟨[], rfl, by cases n <;> rfl⟩)
  | @starCons a xs ys h1 h2 _ ih =>
    cases e
    intro n x w hx hw hn
    obtain ⟨y, rfl, hy⟩ := d_cons.mp h1
    simp only [List.length_append, List.length_cons] at hn
    cases n with
    | zero => omega
    | succ n =>
      exact declsN_cons hx (free_cons.mpr (by decide)) (.inr ⟨y ++ (ys ++ w), by simp, ih rfl n y w hy hw (by omega)⟩)
  | _ => cases e

theorem decls_iff {n : Nat} {ts : List Tok} (hn : ts.length ≤ n) : parseDeclsN n ts = true ↔ Derives accepted (nt .decls) ts := by
  rw [d_nt]
  show _ ↔ Derives accepted (opt (nt .decl ⬝ star (tok .semi ⬝ nt .decl) ⬝ opt (tok .semi))) ts
  rw [d_opt]
  refine ⟨sound_declsN n ts, ?_⟩
  rintro (rfl | h)
  · cases n <;> rfl
  · obtain ⟨x, _, rfl, hx, h1⟩ := d_seq.mp h
    obtain ⟨s, w, rfl, hs, hw⟩ := d_seq.mp h1
    simp only [List.length_append] at hn
    exact comp_declsN hs n x w hx hw (by omega)

/-! ### Imports -/

theorem sound_importItem : Sound accepted parseImportItem (nt .importItem) := by
  unfold parseImportItem
  rw [ifAt_next (l := [.ident]) rfl]
  exact .nt (.then (.opt (.then (.eat _) (.eat _))) (.eat _))

theorem comp_importItem : Comp accepted k parseImportItem (nt .importItem) [] := by
  unfold parseImportItem
  rw [ifAt_next (l := [.ident]) rfl]
  exact .nt (Comp.then tables (l1 := [.ident]) (Comp.opt tables (Comp.weaken (l1 := []) (Comp.then tables (l1 := []) (.eat _) (.eat _)
    (by decide) (by decide)) nofun) (by decide) (by decide) (by decide)) (.eat _) (by decide) (by decide))

theorem sound_import : Sound accepted parseImport (nt .import_) := by
  unfold parseImport
  rw [ifAt_next (l := [.lpar]) rfl]
  refine .nt (.then (.eat _) (Sound.mono (.ifAt (.then (.eat _) (.then (sound_items sound_importItem (by decide)) (.eat _)))
    sound_importItem) ?_))
  exact fun ts h => d_alt.mpr (d_alt.mp h).symm

theorem comp_import : Comp accepted k parseImport (nt .import_) [] := by
  unfold parseImport
  rw [ifAt_next (l := [.lpar]) rfl]
  refine .nt (Comp.then tables (l1 := []) (.eat _) (Comp.mono (b := group' .lpar .rpar (nt .importItem) ∣ nt .importItem) ?_ ?_)
    (by decide) (by decide))
  · refine Comp.ifAt tables ?_ comp_importItem (by decide) (by decide) (by decide) (by decide)
    exact Comp.then tables (l1 := []) (.eat _)
      (comp_items tables comp_importItem (by decide) (by decide) (by decide) (by decide) (by decide) (by decide)) (by decide) (by decide)
  · exact fun ts h => d_alt.mpr (d_alt.mp h).symm

/-! ### Modules -/

theorem accepts_iff {ts : List Tok} : accepts ts = true ↔ Derives accepted (nt .program) ts := by
  have hm : Derives accepted (nt .program) ts ↔ Derives accepted (opt (nt .import_ ⬝ tok .semi) ⬝ nt .decls) ts := by
    rw [d_nt]
    show Derives accepted (nt .module_) ts ↔ _
    rw [d_nt]
    exact Iff.rfl
  rw [hm]
  constructor
  · intro h
    unfold accepts at h
    split at h
    · cases h
    · next m h1 =>
      have hd := (decls_iff (by omega)).mp h
      unfold ifAt at h1
      split at h1
      · obtain ⟨m', h2, h3⟩ := then_some.mp h1
        obtain ⟨x, e, hx⟩ := sound_import _ _ h2
        rcases eatSemi_some.mp h3 with ⟨h4, rfl⟩ | e2
        · rw [decls_closing h4] at h; cases h
        · rw [e, e2, show x ++ Tok.semi :: m = (x ++ [.semi]) ++ m from by simp]
          exact .seq (.optSome (.seq hx .tok)) hd
      · cases h1
        exact .seq (xs := []) .optNone hd
  · intro h
    obtain ⟨u, v, rfl, hu, hv⟩ := d_seq.mp h
    unfold accepts
    rcases d_opt.mp hu with rfl | hu
    · have hf : Free [.kImport] v := by
        have := free_of tables (rest := []) (l1 := [.kImport]) hv (by decide) fun _ => free_nil
        rwa [List.append_nil] at this
      rw [List.nil_append]
      unfold ifAt
      rw [if_neg (by rw [hf]; exact Bool.false_ne_true)]
      exact (decls_iff (by omega)).mpr hv
    · obtain ⟨x, y, rfl, hx, hy⟩ := d_seq.mp hu
      have ey := d_tok.mp hy
      subst ey
      rw [List.append_assoc]
      have h1 : (parseImport ⟫ eatSemi) (x ++ ([.semi] ++ v)) = some v :=
        then_some.mpr ⟨.semi :: v, comp_import x _ (Nat.le_refl _) hx free_empty, eatSemi_some.mpr (.inr rfl)⟩
      unfold ifAt
      rw [if_pos (at_of tables hx (by decide) (by decide)), h1]
      exact (decls_iff (by omega)).mpr hv

end Umka.Syntax
