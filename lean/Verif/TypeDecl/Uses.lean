import Verif.TypeDecl.Late
/-!
# Type declarations: uses of types outside of lists of type declarations
-/

set_option linter.unusedVariables false

namespace Umka.TypeDecl
open Spec

/-- All the names are visible. -/
def Visible (s : State) (ns : List Name) : Prop := ∀ y ∈ ns, s.lookup y ≠ none

theorem Visible.append {s : State} {a b : List Name} (h1 : Visible s a) (h2 : Visible s b) : Visible s (a ++ b) :=
  fun y hy => (List.mem_append.mp hy).elim (h1 y) (h2 y)

theorem orForward_false {rbs : Bool} {t : TE} {s : State} {r : Res (Id × State)} : orForward false rbs t s r = r := by
  unfold orForward
  split
  · exact if_neg (fun h => (nomatch h.1))
  · rfl

/-- Names and blocks are left alone. -/
def Same (s s' : State) : Prop := s'.cur = s.cur ∧ s'.outer = s.outer

theorem Same.lookup {s s' : State} (h : Same s s') (x : Name) : s'.lookup x = s.lookup x := by
  unfold State.lookup; rw [h.1, h.2]

theorem Same.visible {s s' : State} (h : Same s s') {ns : List Name} (hv : Visible s' ns) : Visible s ns :=
  fun y hy => by rw [← h.lookup]; exact hv y hy

mutual
theorem parse_uses : ∀ (t : TE) (s s' : State) (i : Id), parse false t s = .ok (i, s') →
    Same s s' ∧ Visible s (mentions t)
  | .name x, s, s', i, h => by
    rw [parse] at h
    split at h
    · cases h
    · cases h
    · rename_i hb
      injection h with h
      injection h with h1 h2
      rw [← h2]
      exact ⟨⟨rfl, rfl⟩, fun y hy => by rw [List.mem_singleton.mp hy, hb]; exact fun hh => (nomatch hh)⟩
  | .ptr w t, s, s', i, h => by
    rw [parse, orForward_false] at h
    split at h
    · cases h
    · rename_i b s1 he
      injection h with h
      obtain ⟨k1, k2⟩ := parse_uses t s s1 b he
      have := congrArg Prod.snd h
      dsimp only at this
      rw [← this]
      exact ⟨k1, k2⟩
  | .dyn w t, s, s', i, h => by
    rw [parse, orForward_false] at h
    split at h
    · cases h
    · rename_i b s1 he
      split at h
      · cases h
      injection h with h
      obtain ⟨k1, k2⟩ := parse_uses t s s1 b he
      have := congrArg Prod.snd h
      dsimp only at this
      rw [← this]
      exact ⟨k1, k2⟩
  | .arr n t, s, s', i, h => by
    rw [parse] at h
    split at h
    · cases h
    split at h
    · cases h
    · rename_i b s1 he
      obtain ⟨k1, k2⟩ := parse_uses t s s1 b he
      split at h
      · cases h
      split at h
      · cases h
      injection h with h
      have := congrArg Prod.snd h
      dsimp only at this
      rw [← this]
      exact ⟨k1, k2⟩
  | .map ky t, s, s', i, h => by
    rw [parse] at h
    split at h
    · cases h
    · rename_i a s1 he
      obtain ⟨k1, k2⟩ := parse_uses ky s s1 a he
      split at h
      · cases h
      rw [orForward_false] at h
      split at h
      · cases h
      rename_i b s2 he2
      obtain ⟨j1, j2⟩ := parse_uses t s1 s2 b he2
      split at h
      · cases h
      injection h with h
      have := congrArg Prod.snd h
      dsimp only at this
      rw [← this]
      exact ⟨⟨j1.1.trans k1.1, j1.2.trans k1.2⟩, k2.append (k1.visible j2)⟩
  | .struct fs, s, s', i, h => by
    rw [parse] at h
    split at h
    · cases h
    · rename_i a s1 he
      obtain ⟨k1, k2⟩ := parseFields_uses fs s s1 _ a he
      injection h with h
      have := congrArg Prod.snd h
      dsimp only at this
      rw [← this]
      exact ⟨k1, k2⟩
  | .iface ms, s, s', i, h => by
    rw [parse] at h
    split at h
    · cases h
    · rename_i a s1 he
      obtain ⟨k1, k2⟩ := parseMethods_uses ms s s1 _ a he
      injection h with h
      have := congrArg Prod.snd h
      dsimp only at this
      rw [← this]
      exact ⟨k1, k2⟩
  | .fn st, s, s', i, h => by
    rw [parse] at h
    split at h
    · cases h
    · rename_i a s1 he
      obtain ⟨k1, k2⟩ := parseSig_uses st s s1 a he
      injection h with h
      have := congrArg Prod.snd h
      dsimp only at this
      rw [← this]
      exact ⟨k1, k2⟩
theorem parseFields_uses : ∀ (fs : Flds) (s s' : State) (a a' : Acc), parseFields false fs s a = .ok (a', s') →
    Same s s' ∧ Visible s (mentionsFields fs)
  | .nil, s, s', a, a', h => by
    rw [parseFields] at h
    injection h with h
    injection h with h1 h2
    rw [← h2]
    exact ⟨⟨rfl, rfl⟩, fun y hy => (nomatch hy)⟩
  | .cons xs t rest, s, s', a, a', h => by
    rw [parseFields] at h
    split at h
    · cases h
    · rename_i i s1 he
      obtain ⟨k1, k2⟩ := parse_uses t s s1 i he
      split at h
      · cases h
      · obtain ⟨j1, j2⟩ := parseFields_uses rest s1 s' _ a' h
        exact ⟨⟨j1.1.trans k1.1, j1.2.trans k1.2⟩, k2.append (k1.visible j2)⟩
theorem parseParams_uses : ∀ (fs : Flds) (s s' : State) (a a' : List (Name × Id)),
    parseParams false fs s a = .ok (a', s') → Same s s' ∧ Visible s (mentionsFields fs)
  | .nil, s, s', a, a', h => by
    rw [parseParams] at h
    injection h with h
    injection h with h1 h2
    rw [← h2]
    exact ⟨⟨rfl, rfl⟩, fun y hy => (nomatch hy)⟩
  | .cons xs t rest, s, s', a, a', h => by
    rw [parseParams, orForward_false] at h
    split at h
    · cases h
    · rename_i i s1 he
      obtain ⟨k1, k2⟩ := parse_uses t s s1 i he
      split at h
      · cases h
      · obtain ⟨j1, j2⟩ := parseParams_uses rest s1 s' _ a' h
        exact ⟨⟨j1.1.trans k1.1, j1.2.trans k1.2⟩, k2.append (k1.visible j2)⟩
theorem parseSig_uses : ∀ (st : SigT) (s s' : State) (sig : Sig), parseSig false st s = .ok (sig, s') →
    Same s s' ∧ Visible s (mentionsSig st)
  | .mk ps r, s, s', sig, h => by
    rw [parseSig] at h
    split at h
    · cases h
    · rename_i l s1 he
      obtain ⟨k1, k2⟩ := parseParams_uses ps s s1 _ l he
      split at h
      · cases h
      · rename_i res s2 he2
        obtain ⟨j1, j2⟩ := parseResult_uses r s1 s2 res he2
        split at h
        · cases h
        · injection h with h
          injection h with _ h
          rw [← h]
          exact ⟨⟨j1.1.trans k1.1, j1.2.trans k1.2⟩, k2.append (k1.visible j2)⟩
theorem parseResult_uses : ∀ (r : ResT) (s s' : State) (o : Option Id), parseResult false r s = .ok (o, s') →
    Same s s' ∧ Visible s (mentionsResult r)
  | .none, s, s', o, h => by
    rw [parseResult] at h
    injection h with h
    injection h with h1 h2
    rw [← h2]
    exact ⟨⟨rfl, rfl⟩, fun y hy => (nomatch hy)⟩
  | .single t, s, s', o, h => by
    rw [parseResult, orForward_false] at h
    split at h
    · cases h
    · rename_i i s1 he
      obtain ⟨k1, k2⟩ := parse_uses t s s1 i he
      injection h with h
      injection h with _ h
      rw [← h]
      exact ⟨k1, k2⟩
  | .list ts, s, s', o, h => by
    rw [parseResult] at h
    split at h
    · cases h
    · rename_i a s1 he
      obtain ⟨k1, k2⟩ := parseFields_uses ts s s1 _ a he
      injection h with h
      unfold listResult at h
      split at h
      · injection h with _ h
        rw [← h]; exact ⟨k1, k2⟩
      · injection h with _ h
        rw [← h]; exact ⟨k1, k2⟩
theorem parseMethods_uses : ∀ (ms : Meths) (s s' : State) (a a' : List (Name × Sig)),
    parseMethods false ms s a = .ok (a', s') → Same s s' ∧ Visible s (mentionsMethods ms)
  | .nil, s, s', a, a', h => by
    rw [parseMethods] at h
    injection h with h
    injection h with h1 h2
    rw [← h2]
    exact ⟨⟨rfl, rfl⟩, fun y hy => (nomatch hy)⟩
  | .method x st rest, s, s', a, a', h => by
    rw [parseMethods] at h
    split at h
    · cases h
    · rename_i sig s1 he
      obtain ⟨k1, k2⟩ := parseSig_uses st s s1 sig he
      split at h
      · cases h
      · obtain ⟨j1, j2⟩ := parseMethods_uses rest s1 s' _ a' h
        exact ⟨⟨j1.1.trans k1.1, j1.2.trans k1.2⟩, k2.append (k1.visible j2)⟩
  | .embed x rest, s, s', a, a', h => by
    rw [parseMethods] at h
    split at h
    · cases h
    · cases h
    · rename_i i hb
      split at h
      · split at h
        · cases h
        · obtain ⟨j1, j2⟩ := parseMethods_uses rest s s' _ a' h
          refine ⟨j1, fun y hy => ?_⟩
          rcases List.mem_cons.mp hy with hy | hy
          · rw [hy, hb]; exact fun hh => (nomatch hh)
          · exact j2 y hy
      · cases h
end

theorem orForward_same {rbs : Bool} {t : TE} {s : State} {r : Res (Id × State)} (hv : Visible s (mentions t)) :
    orForward true rbs t s r = r := by
  unfold orForward
  split
  · rename_i x
    exact if_neg (fun h => hv x (List.mem_singleton.mpr rfl) h.2)
  · rfl

theorem Visible.ext {s s' : State} {ns : List Name} (h : Visible s ns) (he : Ext s s') : Visible s' ns := by
  intro y hy
  cases hl : s.lookup y with
  | none => exact absurd hl (h y hy)
  | some b => rw [he.lookup hl]; exact fun hh => (nomatch hh)

theorem Visible.left {s : State} {a b : List Name} (h : Visible s (a ++ b)) : Visible s a :=
  fun x hx => h x (List.mem_append_left _ hx)
theorem Visible.right {s : State} {a b : List Name} (h : Visible s (a ++ b)) : Visible s b :=
  fun x hx => h x (List.mem_append_right _ hx)

mutual
/-- If all names are visible, it makes no difference whether types may be declared later. -/
theorem parse_same : ∀ (t : TE) (s : State), Inv s → Visible s (mentions t) → parse false t s = parse true t s
  | .name x, s, h, hv => by rw [parse, parse]
  | .ptr w t, s, h, hv => by
    rw [parse, parse, orForward_false, orForward_same (t := t) hv, parse_same t s h hv]
  | .dyn w t, s, h, hv => by
    rw [parse, parse, orForward_false, orForward_same (t := t) hv, parse_same t s h hv]
  | .arr n t, s, h, hv => by
    rw [parse, parse, parse_same t s h hv]
  | .map ky t, s, h, hv => by
    rw [parse, parse, parse_same ky s h hv.left]
    split
    · rfl
    · rename_i a s1 he
      obtain ⟨k1, _⟩ := parse_post true ky s s1 a h he
      have hv2 := hv.right.ext k1.ext
      rw [orForward_false, orForward_same hv2, parse_same t s1 k1.inv hv2]
  | .struct fs, s, h, hv => by
    rw [parse, parse, parseFields_same fs s _ h hv (accOk_empty s)]
  | .iface ms, s, h, hv => by
    rw [parse, parse, parseMethods_same ms s _ h hv]
  | .fn st, s, h, hv => by
    rw [parse, parse, parseSig_same st s h hv]
theorem parseFields_same : ∀ (fs : Flds) (s : State) (a : Acc), Inv s → Visible s (mentionsFields fs) → AccOk s a →
    parseFields false fs s a = parseFields true fs s a
  | .nil, s, a, h, hv, ha => by rw [parseFields, parseFields]
  | .cons xs t rest, s, a, h, hv, ha => by
    rw [parseFields, parseFields, parse_same t s h hv.left]
    split
    · rfl
    · rename_i i s1 he
      obtain ⟨k1, _⟩ := parse_post true t s s1 i h he
      split
      · rfl
      · rename_i a1 he2
        obtain ⟨j1, _⟩ := addFields_ok k1.inv.ok (ha.mono k1.ext.keeps) he2
        exact parseFields_same rest s1 a1 k1.inv (hv.right.ext k1.ext) j1
theorem parseParams_same : ∀ (fs : Flds) (s : State) (a : List (Name × Id)), Inv s →
    Visible s (mentionsFields fs) → parseParams false fs s a = parseParams true fs s a
  | .nil, s, a, h, hv => by rw [parseParams, parseParams]
  | .cons xs t rest, s, a, h, hv => by
    rw [parseParams, parseParams, orForward_false, orForward_same hv.left, parse_same t s h hv.left]
    split
    · rfl
    · rename_i i s1 he
      obtain ⟨k1, _⟩ := parse_post true t s s1 i h he
      split
      · rfl
      · exact parseParams_same rest s1 _ k1.inv (hv.right.ext k1.ext)
theorem parseSig_same : ∀ (st : SigT) (s : State), Inv s → Visible s (mentionsSig st) →
    parseSig false st s = parseSig true st s
  | .mk ps r, s, h, hv => by
    rw [parseSig, parseSig, parseParams_same ps s _ h hv.left]
    split
    · rfl
    · rename_i l s1 he
      obtain ⟨k1, _⟩ := parseParams_post true ps s s1 [] l h he
      rw [parseResult_same r s1 k1.inv (hv.right.ext k1.ext)]
theorem parseResult_same : ∀ (r : ResT) (s : State), Inv s → Visible s (mentionsResult r) →
    parseResult false r s = parseResult true r s
  | .none, s, h, hv => by rw [parseResult, parseResult]
  | .single t, s, h, hv => by
    rw [parseResult, parseResult, orForward_false, orForward_same (t := t) hv, parse_same t s h hv]
  | .list ts, s, h, hv => by
    rw [parseResult, parseResult, parseFields_same ts s _ h hv (accOk_empty s)]
theorem parseMethods_same : ∀ (ms : Meths) (s : State) (a : List (Name × Sig)), Inv s →
    Visible s (mentionsMethods ms) → parseMethods false ms s a = parseMethods true ms s a
  | .nil, s, a, h, hv => by rw [parseMethods, parseMethods]
  | .method x st rest, s, a, h, hv => by
    rw [parseMethods, parseMethods, parseSig_same st s h hv.left]
    split
    · rfl
    · rename_i sig s1 he
      obtain ⟨k1, _⟩ := parseSig_post true st s s1 sig h he
      split
      · rfl
      · exact parseMethods_same rest s1 _ k1.inv (hv.right.ext k1.ext)
  | .embed x rest, s, a, h, hv => by
    have hv2 : Visible s (mentionsMethods rest) := fun y hy => hv y (List.mem_cons_of_mem _ hy)
    rw [parseMethods, parseMethods]
    split
    · rfl
    · rfl
    · split
      · split
        · rfl
        · exact parseMethods_same rest s _ h hv2
      · rfl
end

/-! ## Histories in which the rule is kept -/

theorem namesOk_of_visible {s : State} (h : Ready s) {ns : List Name} (hv : Visible s ns) : NamesOk s ns := by
  intro y hy
  cases hl : s.lookup y with
  | none => exact absurd hl (hv y hy)
  | some b =>
    refine ⟨b, rfl, ?_⟩
    intro i hi
    subst hi
    exact h.complete i (h.inv.lookupLt hl)

mutual
theorem needs_mentions : ∀ (t : TE) y, y ∈ needs t → y ∈ mentions t
  | .name x, y, h => h
  | .ptr w t, y, h => needsLate_mentions t y h
  | .dyn w t, y, h => needsLate_mentions t y h
  | .arr n t, y, h => needs_mentions t y h
  | .map k t, y, h => (List.mem_append.mp h).elim (fun h => List.mem_append_left _ (needs_mentions k y h))
      (fun h => List.mem_append_right _ (needsLate_mentions t y h))
  | .struct fs, y, h => needsFields_mentions fs y h
  | .iface ms, y, h => needsMethods_mentions ms y h
  | .fn st, y, h => needsSig_mentions st y h
theorem needsLate_mentions : ∀ (t : TE) y, y ∈ needsLate t → y ∈ mentions t
  | .name x, y, h => (nomatch h)
  | .ptr w t, y, h => needsLate_mentions t y h
  | .dyn w t, y, h => needsLate_mentions t y h
  | .arr n t, y, h => needs_mentions t y h
  | .map k t, y, h => (List.mem_append.mp h).elim (fun h => List.mem_append_left _ (needs_mentions k y h))
      (fun h => List.mem_append_right _ (needsLate_mentions t y h))
  | .struct fs, y, h => needsFields_mentions fs y h
  | .iface ms, y, h => needsMethods_mentions ms y h
  | .fn st, y, h => needsSig_mentions st y h
theorem needsFields_mentions : ∀ (fs : Flds) y, y ∈ needsFields fs → y ∈ mentionsFields fs
  | .nil, y, h => (nomatch h)
  | .cons xs t rest, y, h => (List.mem_append.mp h).elim (fun h => List.mem_append_left _ (needs_mentions t y h))
      (fun h => List.mem_append_right _ (needsFields_mentions rest y h))
theorem needsParams_mentions : ∀ (fs : Flds) y, y ∈ needsParams fs → y ∈ mentionsFields fs
  | .nil, y, h => (nomatch h)
  | .cons xs t rest, y, h => (List.mem_append.mp h).elim (fun h => List.mem_append_left _ (needsLate_mentions t y h))
      (fun h => List.mem_append_right _ (needsParams_mentions rest y h))
theorem needsMethods_mentions : ∀ (ms : Meths) y, y ∈ needsMethods ms → y ∈ mentionsMethods ms
  | .nil, y, h => (nomatch h)
  | .method x st rest, y, h => (List.mem_append.mp h).elim (fun h => List.mem_append_left _ (needsSig_mentions st y h))
      (fun h => List.mem_append_right _ (needsMethods_mentions rest y h))
  | .embed x rest, y, h => (List.mem_cons.mp h).elim (fun h => by rw [h]; exact List.mem_cons_self ..)
      (fun h => List.mem_cons_of_mem _ (needsMethods_mentions rest y h))
theorem needsSig_mentions : ∀ (st : SigT) y, y ∈ needsSig st → y ∈ mentionsSig st
  | .mk ps r, y, h => (List.mem_append.mp h).elim (fun h => List.mem_append_left _ (needsParams_mentions ps y h))
      (fun h => List.mem_append_right _ (needsResult_mentions r y h))
theorem needsResult_mentions : ∀ (r : ResT) y, y ∈ needsResult r → y ∈ mentionsResult r
  | .none, y, h => (nomatch h)
  | .single t, y, h => needsLate_mentions t y h
  | .list ts, y, h => needsFields_mentions ts y h
end

/-- A type used where all its names are visible: other errors only. -/
theorem use_fine {s : State} {t : TE} (h : Ready s) (hc : Clean s) (hv : Visible s (mentions t)) :
    Fine s (mentions t) (results t) (parse false t s) := by
  rw [parse_same t s h.inv hv]
  exact parse_fine t s h.inv hc (namesOk_of_visible h (fun y hy => hv y (needs_mentions t y hy)))

theorem group_clean {s s' : State} {g : List (Name × TE)} (h : Ready s) (hc : Clean s)
    (hg : ∀ pre x t post, g = pre ++ (x, t) :: post → ∀ y ∈ needs t, s.lookup y ≠ none ∨ y ∈ pre.map Prod.fst)
    (he : declGroup s g = .ok s') : Clean s' := by
  obtain ⟨h1, _⟩ := declGroup_ok he
  have hD : NamesOk s ((g.flatMap (fun p => needs p.2)).filter (fun y => (s.lookup y).isSome)) :=
    namesOk_of_visible h (fun y hy => Option.isSome_iff_ne_none.mp (List.mem_filter.mp hy).2)
  have k := declItems_fine g s _ h.inv hc hD (by
    intro pre x t post hh y hy
    rcases hg pre x t post hh y hy with h | h
    · refine .inl (List.mem_filter.mpr ⟨List.mem_flatMap.mpr ⟨(x, t), ?_, hy⟩, ?_⟩)
      · rw [hh]; exact List.mem_append_right _ (List.mem_cons_self ..)
      · exact Option.isSome_iff_ne_none.mpr h
    · exact .inr h)
  rw [h1] at k
  exact k.1

end Umka.TypeDecl
