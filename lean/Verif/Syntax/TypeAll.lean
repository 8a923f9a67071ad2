import Verif.Syntax.TypeParse
/-
All types.
-/
namespace Umka.Syntax
open Spec Spec.EBNF

section
variable {type : P} {k : Nat}

theorem arrayType_sound {e : EBNF} {F : List Tok → Prop}
    (ht : ∀ ts rest, type ts = some rest → F rest → ∃ pre, ts = pre ++ rest ∧ Derives accepted e pre) (ts rest : List Tok)
    (h : parseArrayType type ts = some rest) (hl : F rest) : ∃ pre, ts = pre ++ rest ∧
      Derives accepted (tok .lbracket ⬝ nt .expr ⬝ tok .rbracket ⬝ e ∣ tok .lbracket ⬝ tok .rbracket ⬝ e) pre := by
  obtain ⟨m, h1, h2⟩ := then_some.mp h
  obtain ⟨m1, h3, h4⟩ := then_some.mp h2
  obtain ⟨m2, h5, h6⟩ := then_some.mp h4
  have e1 := eat_some.mp h1
  have e2 := eat_some.mp h5
  obtain ⟨x, e3, hx⟩ := ht _ _ h6 hl
  unfold ifAt at h3
  split at h3
  · cases h3
    rw [e1, e2, e3]
    exact ⟨.lbracket :: .rbracket :: x, rfl, .right (.cons (.cons hx))⟩
  · obtain ⟨y, e4, hy⟩ := sound_expr _ _ h3
    rw [e1, e4, e2, e3]
    exact ⟨.lbracket :: (y ++ .rbracket :: x), by simp, .left (.cons (.seq hy (.cons hx)))⟩

theorem comp_arrayType {e : EBNF} {l : List Tok} (ht : Comp accepted k type e l) : Comp accepted (k + 1) (parseArrayType type)
    (tok .lbracket ⬝ nt .expr ⬝ tok .rbracket ⬝ e ∣ tok .lbracket ⬝ tok .rbracket ⬝ e) l := by
  intro pre rest hk hd hr
  rcases d_alt.mp hd with h | h
  · obtain ⟨_, rfl, h1⟩ := d_cons.mp h
    obtain ⟨y, _, rfl, hy, h2⟩ := d_seq.mp h1
    obtain ⟨x, rfl, hx⟩ := d_cons.mp h2
    simp only [List.length_cons, List.length_append] at hk
    have e : Tok.lbracket :: (y ++ .rbracket :: x) ++ rest = .lbracket :: (y ++ .rbracket :: (x ++ rest)) := by simp
    rw [e]
    refine then_some.mpr ⟨_, rfl, then_some.mpr ⟨.rbracket :: (x ++ rest), ?_, then_some.mpr ⟨_, rfl, ht x rest (by omega) hx hr⟩⟩⟩
    unfold ifAt
    rw [if_neg]
    · exact comp_expr y _ (Nat.le_refl _) hy free_empty
    · rw [show at_ [.rbracket] (y ++ .rbracket :: (x ++ rest)) = false from free_of tables hy (by decide) (fun h => absurd h (by decide))]
      exact Bool.false_ne_true
  · obtain ⟨_, rfl, h1⟩ := d_cons.mp h
    obtain ⟨x, rfl, hx⟩ := d_cons.mp h1
    simp only [List.length_cons] at hk
    exact then_some.mpr ⟨_, rfl, then_some.mpr ⟨_, rfl, then_some.mpr ⟨_, rfl, ht x rest (by omega) hx hr⟩⟩⟩

theorem sound_enumItem : Sound accepted parseEnumItem (nt .enumItem) := .nt (.then (.eat _) (.opt (.then (.eat _) sound_expr)))

theorem comp_enumItem : Comp accepted k parseEnumItem (nt .enumItem) [.eq] :=
  .nt (Comp.then tables (l1 := []) (.eat _) (Comp.opt tables
    (Comp.weaken (l1 := []) (Comp.then tables (l1 := []) (.eat _) comp_expr (by decide) (by decide)) nofun) (by decide) (by decide) (by decide))
    (by decide) (by decide))

theorem sound_enumType (ht : Sound accepted type (nt .type_)) : Sound accepted (parseEnumType type) (nt .enumType) := by
  unfold parseEnumType
  rw [ifAt_next (l := [.lpar]) rfl]
  exact .nt (.then (.eat _) (.then (.opt (.then (.eat _) (.then ht (.eat _)))) (.then (.eat _) (.then (sound_items sound_enumItem (by decide)) (.eat _)))))

theorem comp_enumType (ht : Comp accepted k type (nt .type_) typeEnd) : Comp accepted (k + 1) (parseEnumType type) (nt .enumType) [] := by
  unfold parseEnumType
  rw [ifAt_next (l := [.lpar]) rfl]
  refine .nt (.eatThen (Comp.then tables (l1 := [.lpar]) ?_ (Comp.then tables (l1 := []) (.eat _) ?_ (by decide) (by decide)) (by decide) (by decide)))
  · refine Comp.opt tables (Comp.weaken (l1 := []) ?_ nofun) (by decide) (by decide) (by decide)
    exact Comp.then tables (l1 := []) (.eat _) (Comp.then tables ht (.eat _) (by decide) (by decide)) (by decide) (by decide)
  · exact comp_items tables comp_enumItem (by decide) (by decide) (by decide) (by decide) (by decide) (by decide)

theorem sound_fields (ht : Sound accepted type (nt .type_)) : Sound accepted (parseFields type) (nt .names ⬝ tok .colon ⬝ nt .type_) := by
  intro ts rest h
  unfold parseFields at h
  obtain ⟨⟨ms, r1⟩, h1, h2⟩ := Option.bind_eq_some_iff.mp h
  obtain ⟨hms, e1⟩ := identList_some h1
  obtain ⟨r2, h3, h4⟩ := Option.bind_eq_some_iff.mp h2
  obtain ⟨x, e2, hx⟩ := Sound.then (.eat _) ht _ _ h3
  dsimp only at h4 e2
  split at h4
  · cases h4
  · next h5 =>
    cases h4
    exact ⟨idents ms ++ x, by rw [e1, e2, List.append_assoc], .seq (d_names.mpr ⟨ms, hms, by simpa using h5, rfl⟩) hx⟩

theorem comp_fields (ht : Comp accepted k type (nt .type_) typeEnd) : Comp accepted k (parseFields type) (nt .names ⬝ tok .colon ⬝ nt .type_) typeEnd := by
  intro pre rest hk hd hr
  obtain ⟨w, _, rfl, hw, h1⟩ := d_seq.mp hd
  obtain ⟨ms, hms, hany, rfl⟩ := d_names.mp hw
  obtain ⟨x, rfl, hx⟩ := d_cons.mp h1
  simp only [List.length_append, List.length_cons] at hk
  have e : idents ms ++ .colon :: x ++ rest = idents ms ++ (.colon :: (x ++ rest)) := by simp
  unfold parseFields
  rw [e, identList_idents idents_colon hms, Option.bind_some]
  rw [show (eat .colon ⟫ type) (.colon :: (x ++ rest)) = some rest from then_some.mpr ⟨_, rfl, ht x rest (by omega) hx hr⟩]
  rw [Option.bind_some, if_neg (by rw [hany]; exact Bool.false_ne_true)]

theorem sound_structType (ht : Sound accepted type (nt .type_)) : Sound accepted (parseStructType type) (nt .structType) :=
  .nt (.then (.eat _) (.then (.eat _) (.then (sound_items (sound_fields ht) (by decide)) (.eat _))))

theorem comp_structType (ht : Comp accepted k type (nt .type_) typeEnd) : Comp accepted (k + 1) (parseStructType type) (nt .structType) [] :=
  .nt (.eatThen (Comp.then tables (l1 := []) (.eat _)
    (comp_items tables (comp_fields ht) (by decide) (by decide) (by decide) (by decide) (by decide) (by decide)) (by decide) (by decide)))

theorem sound_method (ht : Sound accepted type (nt .type_)) : Sound accepted (parseMethod type) (tok .ident ⬝ nt .signature ∣ nt .qualIdent) := by
  intro ts rest h
  unfold parseMethod at h
  split at h
  · obtain ⟨x, e, hx⟩ := Sound.then (.eat _) (sound_signature ht) _ _ h
    exact ⟨x, e, .left hx⟩
  · obtain ⟨x, e, hx⟩ := sound_qualIdent _ _ h
    exact ⟨x, e, .right hx⟩

theorem comp_method (ht : Comp accepted k type (nt .type_) typeEnd) :
    Comp accepted k (parseMethod type) (tok .ident ⬝ nt .signature ∣ nt .qualIdent) [.colonColon, .colon, .lpar] := by
  intro pre rest hk hd hr
  rcases d_alt.mp hd with h | h
  · obtain ⟨s, rfl, hs⟩ := d_cons.mp h
    have h0 : ∃ r, s = .lpar :: r := by
      obtain ⟨r, e, _⟩ := d_cons.mp (d_nt.mp hs)
      exact ⟨r, e⟩
    obtain ⟨r, rfl⟩ := h0
    show (eat .ident ⟫ parseSignature type) (.ident :: (.lpar :: r ++ rest)) = _
    refine then_some.mpr ⟨_, rfl, comp_signature ht _ rest ?_ hs (hr.mono (by decide))⟩
    simp only [List.length_cons] at hk ⊢; omega
  · have hq : parseQualIdent (pre ++ rest) = some rest := comp_qualIdent pre rest (Nat.le_refl _) h (hr.mono (by decide))
    obtain ⟨x, y, rfl, hx, hy⟩ := d_seq.mp (d_nt.mp h)
    have ey := d_tok.mp hy
    subst ey
    rcases d_opt.mp hx with rfl | hx
    · rw [← hq]
      cases rest with
      | nil => rfl
      | cons c r =>
        rw [free_cons] at hr
        cases c <;> first | rfl | exact absurd (by decide) hr
    · obtain ⟨z, rfl, hz⟩ := d_cons.mp hx
      rw [d_tok.mp hz]
      rfl

theorem sound_interfaceType (ht : Sound accepted type (nt .type_)) : Sound accepted (parseInterfaceType type) (nt .interfaceType) :=
  .nt (.then (.eat _) (.then (.eat _) (.then (sound_items (sound_method ht) (by decide)) (.eat _))))

theorem comp_interfaceType (ht : Comp accepted k type (nt .type_) typeEnd) : Comp accepted (k + 1) (parseInterfaceType type) (nt .interfaceType) [] :=
  .nt (.eatThen (Comp.then tables (l1 := []) (.eat _)
    (comp_items tables (comp_method ht) (by decide) (by decide) (by decide) (by decide) (by decide) (by decide)) (by decide) (by decide)))

theorem sound_weak : Sound accepted (ifAt [.kWeak] next skip) (opt (tok .kWeak)) := by
  rw [ifAt_next1]; exact .opt (.eat _)

theorem comp_weak : Comp accepted k (ifAt [.kWeak] next skip) (opt (tok .kWeak)) [.kWeak] := by
  rw [ifAt_next1]; exact Comp.opt tables ((Comp.eat _).weaken nofun) (by decide) (by decide) (by decide)

end

/-! ### All of them -/

theorem sound_typeN : ∀ n, Sound accepted (parseTypeN n) (nt .type_)
  | 0 => .fail
  | n + 1 => by
    have ht := sound_typeN n
    refine .nt (Sound.mono (a := nt .qualIdent ∣ nt .ptrType ∣ (nt .arrayType ∣ nt .dynArrayType) ∣ nt .enumType ∣ nt .mapType ∣
      nt .structType ∣ nt .interfaceType ∣ nt .closureType ∣ never) ?_ ?_)
    · unfold parseTypeN
      refine .ifAt sound_qualIdent (.ifAt (.nt (.then sound_weak (.then (.eat _) ht))) (.ifAt ?_ (.ifAt (sound_enumType ht)
        (.ifAt (.nt (.then (.eat _) (.then (.eat _) (.then ht (.then (.eat _) ht))))) (.ifAt (sound_structType ht)
        (.ifAt (sound_interfaceType ht) (.ifAt (.nt (.then (.eat _) (sound_signature ht))) .fail)))))))
      intro ts rest h
      obtain ⟨x, e, hx⟩ := arrayType_sound (F := fun _ => True) (fun ts rest h _ => ht ts rest h) ts rest h trivial
      exact ⟨x, e, d_alt.mpr ((d_alt.mp hx).imp .nt .nt)⟩
    · intro ts h
      simp only [d_alt, d_never, or_false] at h
      show Derives accepted (_ ∣ _) ts
      simp only [d_alt]
      rcases h with h | h | (h | h) | h | h | h | h | h <;> simp [h]

/-- Before a colon. -/
theorem soundAt_typeN : ∀ n, SoundAt accepted [.colon] (parseTypeN n) (nt .caseType)
  | 0 => .fail
  | n + 1 => by
    have ht := sound_typeN n
    have hc := soundAt_typeN n
    refine .nt (SoundAt.mono (a := nt .qualIdent ∣ opt (tok .kWeak) ⬝ tok .caret ⬝ nt .caseType ∣
      (tok .lbracket ⬝ nt .expr ⬝ tok .rbracket ⬝ nt .caseType ∣ tok .lbracket ⬝ tok .rbracket ⬝ nt .caseType) ∣ nt .enumType ∣
      tok .kMap ⬝ tok .lbracket ⬝ nt .type_ ⬝ tok .rbracket ⬝ nt .caseType ∣ nt .structType ∣ nt .interfaceType ∣
      tok .kFn ⬝ tok .lpar ⬝ opt (nt .params) ⬝ tok .rpar ⬝ tok .colon ⬝
        (nt .caseType ∣ tok .lpar ⬝ nt .type_ ⬝ star (tok .comma ⬝ nt .type_) ⬝ tok .rpar) ∣ never) ?_ ?_)
    · unfold parseTypeN
      refine .ifAt sound_qualIdent.soundAt (.ifAt (.then sound_weak (.then (.eat _) hc)) (.ifAt ?_ (.ifAt (sound_enumType ht).soundAt
        (.ifAt (.then (.eat _) (.then (.eat _) (.then ht (.then (.eat _) hc)))) (.ifAt (sound_structType ht).soundAt
        (.ifAt (sound_interfaceType ht).soundAt (.ifAt (.then (.eat _) (soundAt_signature ht hc)) .fail)))))))
      intro ts rest h hl
      exact arrayType_sound (F := fun r => at_ [.colon] r = true) hc ts rest h hl
    · intro ts h
      simp only [d_alt, d_never, or_false] at h
      show Derives accepted (_ ∣ _) ts
      rcases h with h | h | (h | h) | h | h | h | h | h
      · exact .left h
      · exact .right (.left h)
      · exact .right (.right (.left h))
      · exact .right (.right (.right (.left h)))
      · exact .right (.right (.right (.right (.left h))))
      · exact .right (.right (.right (.right (.right (.left h)))))
      · exact .right (.right (.right (.right (.right (.right (.left h))))))
      · exact .right (.right (.right (.right (.right (.right (.right (.left h)))))))
      · exact .right (.right (.right (.right (.right (.right (.right (.right (d_seq.mpr (by simpa only [d_seq, d_alt] using h)))))))))

theorem comp_fail {k : Nat} {l : List Tok} : Comp accepted k fail never l := fun _ _ _ h => (nomatch h)

theorem comp_typeN : ∀ n, Comp accepted n (parseTypeN n) (nt .type_) typeEnd
  | 0 => by
    intro pre rest hk hd
    have e := List.length_eq_zero_iff.mp (Nat.le_zero.mp hk)
    exact absurd ((hd.start tables).1 e) (by decide)
  | n + 1 => by
    have ht := comp_typeN n
    refine .nt (Comp.mono (b := nt .qualIdent ∣ nt .ptrType ∣ (nt .arrayType ∣ nt .dynArrayType) ∣ nt .enumType ∣ nt .mapType ∣
      nt .structType ∣ nt .interfaceType ∣ nt .closureType ∣ never) ?_ ?_)
    · unfold parseTypeN
      have hp : Comp accepted (n + 1) (parsePtrType (parseTypeN n)) (nt .ptrType) typeEnd :=
        .nt (Comp.then tables comp_weak (.eatThen ht) (by decide) (by decide))
      have ha : Comp accepted (n + 1) (parseArrayType (parseTypeN n)) (nt .arrayType ∣ nt .dynArrayType) typeEnd :=
        (comp_arrayType ht).mono fun ts h => d_alt.mpr ((d_alt.mp h).imp d_nt.mp d_nt.mp)
      have hm : Comp accepted (n + 1) (parseMapType (parseTypeN n)) (nt .mapType) typeEnd :=
        .nt (.eatThen (Comp.then tables (l1 := []) (.eat _) (Comp.then tables ht (Comp.then tables (l1 := []) (.eat _) ht (by decide) (by decide))
          (by decide) (by decide)) (by decide) (by decide)))
      have hc : Comp accepted (n + 1) (parseClosureType (parseTypeN n)) (nt .closureType) typeEnd := .nt (.eatThen (comp_signature ht))
      exact Comp.ifAt tables (comp_qualIdent.weaken (by decide)) (Comp.ifAt tables hp (Comp.ifAt tables ha
        (Comp.ifAt tables ((comp_enumType ht).weaken nofun) (Comp.ifAt tables hm (Comp.ifAt tables ((comp_structType ht).weaken nofun)
        (Comp.ifAt tables ((comp_interfaceType ht).weaken nofun) (Comp.ifAt tables hc comp_fail
        (by decide) (by decide) (by decide) (by decide)) (by decide) (by decide) (by decide) (by decide))
        (by decide) (by decide) (by decide) (by decide)) (by decide) (by decide) (by decide) (by decide))
        (by decide) (by decide) (by decide) (by decide)) (by decide) (by decide) (by decide) (by decide))
        (by decide) (by decide) (by decide) (by decide)) (by decide) (by decide) (by decide) (by decide)
    · intro ts h
      have h : Derives accepted (nt .qualIdent ∣ nt .ptrType ∣ nt .arrayType ∣ nt .dynArrayType ∣ nt .enumType ∣ nt .mapType ∣ nt .structType ∣
        nt .interfaceType ∣ nt .closureType) ts := h
      simp only [d_alt] at h ⊢
      rcases h with h | h | h | h | h | h | h | h | h <;> simp [h]

theorem comp_caseTypeN : ∀ n, Comp accepted n (parseTypeN n) (nt .caseType) [.colonColon]
  | 0 => by
    intro pre rest hk hd
    have e := List.length_eq_zero_iff.mp (Nat.le_zero.mp hk)
    exact absurd ((hd.start tables).1 e) (by decide)
  | n + 1 => by
    have ht := comp_typeN n
    have hc := comp_caseTypeN n
    refine .nt (Comp.mono (b := nt .qualIdent ∣ opt (tok .kWeak) ⬝ tok .caret ⬝ nt .caseType ∣
      (tok .lbracket ⬝ nt .expr ⬝ tok .rbracket ⬝ nt .caseType ∣ tok .lbracket ⬝ tok .rbracket ⬝ nt .caseType) ∣ nt .enumType ∣
      tok .kMap ⬝ tok .lbracket ⬝ nt .type_ ⬝ tok .rbracket ⬝ nt .caseType ∣ nt .structType ∣ nt .interfaceType ∣
      tok .kFn ⬝ tok .lpar ⬝ opt (nt .params) ⬝ tok .rpar ⬝ tok .colon ⬝
        (nt .caseType ∣ tok .lpar ⬝ nt .type_ ⬝ star (tok .comma ⬝ nt .type_) ⬝ tok .rpar) ∣ never) ?_ ?_)
    · unfold parseTypeN
      have hp : Comp accepted (n + 1) (parsePtrType (parseTypeN n)) (opt (tok .kWeak) ⬝ tok .caret ⬝ nt .caseType) [.colonColon] :=
        Comp.then tables comp_weak (.eatThen hc) (by decide) (by decide)
      have hm : Comp accepted (n + 1) (parseMapType (parseTypeN n)) (tok .kMap ⬝ tok .lbracket ⬝ nt .type_ ⬝ tok .rbracket ⬝ nt .caseType)
          [.colonColon] :=
        .eatThen (Comp.then tables (l1 := []) (.eat _) (Comp.then tables ht (Comp.then tables (l1 := []) (.eat _) hc (by decide) (by decide))
          (by decide) (by decide)) (by decide) (by decide))
      exact Comp.ifAt tables comp_qualIdent (Comp.ifAt tables hp (Comp.ifAt tables (comp_arrayType hc)
        (Comp.ifAt tables ((comp_enumType ht).weaken nofun) (Comp.ifAt tables hm (Comp.ifAt tables ((comp_structType ht).weaken nofun)
        (Comp.ifAt tables ((comp_interfaceType ht).weaken nofun) (Comp.ifAt tables (.eatThen (comp_caseSignature ht hc)) comp_fail
        (by decide) (by decide) (by decide) (by decide)) (by decide) (by decide) (by decide) (by decide))
        (by decide) (by decide) (by decide) (by decide)) (by decide) (by decide) (by decide) (by decide))
        (by decide) (by decide) (by decide) (by decide)) (by decide) (by decide) (by decide) (by decide))
        (by decide) (by decide) (by decide) (by decide)) (by decide) (by decide) (by decide) (by decide)
    · intro ts h
      have h : Derives accepted (_ ∣ _ ∣ _ ∣ _ ∣ _ ∣ _ ∣ _ ∣ _ ∣ _) ts := h
      rcases d_alt.mp h with h | h
      · exact .left h
      refine .right ?_
      rcases d_alt.mp h with h | h
      · exact .left h
      refine .right ?_
      rcases d_alt.mp h with h | h
      · exact .left (.left h)
      rcases d_alt.mp h with h | h
      · exact .left (.right h)
      refine .right ?_
      rcases d_alt.mp h with h | h
      · exact .left h
      refine .right ?_
      rcases d_alt.mp h with h | h
      · exact .left h
      refine .right ?_
      rcases d_alt.mp h with h | h
      · exact .left h
      refine .right ?_
      rcases d_alt.mp h with h | h
      · exact .left h
      exact .right (.left h)

theorem sound_type : Sound accepted parseType (nt .type_) := fun ts => sound_typeN ts.length ts

theorem soundAt_type : SoundAt accepted [.colon] parseType (nt .caseType) := fun ts => soundAt_typeN ts.length ts

theorem comp_type {k : Nat} : Comp accepted k parseType (nt .type_) typeEnd := fun pre rest _ hd hr =>
  comp_typeN (pre ++ rest).length pre rest (by rw [List.length_append]; omega) hd hr

theorem comp_caseType {k : Nat} : Comp accepted k parseType (nt .caseType) [.colonColon] := fun pre rest _ hd hr =>
  comp_caseTypeN (pre ++ rest).length pre rest (by rw [List.length_append]; omega) hd hr

end Umka.Syntax
