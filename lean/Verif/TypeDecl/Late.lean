import Verif.TypeDecl.Early
/-!
# Type declarations: uses of types that are declared later
-/

namespace Umka.TypeDecl
open Spec

/-- Errors that have nothing to do with the order of declarations. -/
def Benign : Err → Prop
  | .unknownIdent _ | .unresolvedForward | .forwardField _ | .illegalType | .mustBeStructured _ => False
  | _ => True

/-- All declared types can be used for fields. -/
def Clean (s : State) : Prop := ∀ i, isForward (s.get i).body = false → 0 < (s.get i).alignment

/-- The names are declared. -/
def NamesOk (s : State) (ns : List Name) : Prop :=
  ∀ x ∈ ns, ∃ b, s.lookup x = some b ∧ ∀ i, b = .type i → isForward (s.get i).body = false

theorem NamesOk.ext {s s' : State} {ns : List Name} (h : NamesOk s ns) (he : Ext s s') : NamesOk s' ns := by
  intro x hx
  obtain ⟨b, h1, h2⟩ := h x hx
  exact ⟨b, he.lookup h1, fun i hi => by rw [he.keeps i (h2 i hi)]; exact h2 i hi⟩

theorem NamesOk.left {s : State} {a b : List Name} (h : NamesOk s (a ++ b)) : NamesOk s a :=
  fun x hx => h x (List.mem_append_left _ hx)
theorem NamesOk.right {s : State} {a b : List Name} (h : NamesOk s (a ++ b)) : NamesOk s b :=
  fun x hx => h x (List.mem_append_right _ hx)

/-- New names are among those mentioned, and those that must become structured types are results of
functions. -/
def NewIn (s s' : State) (ns rs : List Name) : Prop :=
  (∀ y, find s'.cur y ≠ none → find s.cur y ≠ none ∨ y ∈ ns) ∧
  (∀ y k, find s'.cur y = some (.type k) → (s'.get k).body = .forward true →
    (find s.cur y = some (.type k) ∧ (s.get k).body = .forward true) ∨ y ∈ rs)

theorem NewIn.refl (s : State) (ns rs : List Name) : NewIn s s ns rs :=
  ⟨fun _ h => .inl h, fun _ _ h1 h2 => .inl ⟨h1, h2⟩⟩

theorem NewIn.trans {s s1 s2 : State} {a b c d : List Name} (h1 : NewIn s s1 a c) (h2 : NewIn s1 s2 b d) :
    NewIn s s2 (a ++ b) (c ++ d) := by
  constructor
  · intro y hy
    rcases h2.1 y hy with h | h
    · rcases h1.1 y h with h | h
      · exact .inl h
      · exact .inr (List.mem_append_left _ h)
    · exact .inr (List.mem_append_right _ h)
  · intro y k hy hk
    rcases h2.2 y k hy hk with h | h
    · rcases h1.2 y k h.1 h.2 with h | h
      · exact .inl h
      · exact .inr (List.mem_append_left _ h)
    · exact .inr (List.mem_append_right _ h)

theorem get_alloc_fwd {s : State} {n : Node} {k : Id} (hn : n.body ≠ .forward true)
    (hk : ((s.alloc n).2.get k).body = .forward true) : (s.get k).body = .forward true := by
  by_cases h1 : k < s.nodes.length
  · rw [get_alloc_old h1] at hk; exact hk
  · by_cases h2 : k = s.nodes.length
    · rw [show k = (s.alloc n).1 from h2, get_alloc_new] at hk
      exact absurd hk hn
    · rw [get_alloc_gt (Nat.lt_of_le_of_ne (Nat.le_of_not_lt h1) (fun e => h2 e.symm))] at hk
      cases hk

theorem NewIn.alloc {s s1 : State} {a c : List Name} (h : NewIn s s1 a c) {n : Node}
    (hn : n.body ≠ .forward true) : NewIn s (s1.alloc n).2 a c :=
  ⟨h.1, fun y k hy hk => h.2 y k hy (get_alloc_fwd hn hk)⟩

theorem clean_alloc {s : State} (h : Clean s) {n : Node} (hn : isForward n.body = false → 0 < n.alignment) :
    Clean (s.alloc n).2 := by
  intro i hi
  by_cases h1 : i < s.nodes.length
  · rw [get_alloc_old h1] at hi ⊢; exact h i hi
  · by_cases h2 : i = s.nodes.length
    · rw [show i = (s.alloc n).1 from h2, get_alloc_new] at hi ⊢
      exact hn hi
    · rw [get_alloc_gt (Nat.lt_of_le_of_ne (Nat.le_of_not_lt h1) (fun e => h2 e.symm))] at hi
      cases hi

/-- What the result of parsing is like if the names that are needed are declared. -/
def Fine (s : State) (ns rs : List Name) (r : Res (Id × State)) : Prop :=
  match r with
  | .error e => Benign e
  | .ok (i, s') => Clean s' ∧ NewIn s s' ns rs ∧ isForward (s'.get i).body = false

/-- The same of `parseTypeOrForwardType`. -/
def FineLate (s : State) (ns rs : List Name) (r : Res (Id × State)) : Prop :=
  match r with
  | .error e => Benign e
  | .ok (_, s') => Clean s' ∧ NewIn s s' ns rs

def FineWith {α : Type} (s : State) (ns rs : List Name) (P : State → α → Prop) (r : Res (α × State)) : Prop :=
  match r with
  | .error e => Benign e
  | .ok (a, s') => Clean s' ∧ NewIn s s' ns rs ∧ P s' a

theorem needsLate_eq {t : TE} (h : ∀ x, t ≠ .name x) : needsLate t = needs t := by
  cases t with
  | name x => exact absurd rfl (h x)
  | _ => rfl

theorem orForward_fine {rbs : Bool} {t : TE} {s : State} (h : Inv s) (hc : Clean s)
    (hn : NamesOk s (needsLate t))
    (hr : NamesOk s (needs t) → Fine s (mentions t) (results t) (parse true t s)) :
    FineLate s (mentions t) ((if rbs then whole t else []) ++ results t) (orForward true rbs t s (parse true t s)) := by
  by_cases ht : ∃ x, t = .name x
  · obtain ⟨x, rfl⟩ := ht
    by_cases hl : s.lookup x = none
    · have ho : orForward true rbs (.name x) s (parse true (.name x) s) =
          .ok (s.nodes.length, { (s.alloc (mkNode (.forward rbs))).2 with cur := (x, .type s.nodes.length) :: s.cur }) :=
        if_pos ⟨rfl, hl⟩
      rw [ho]
      refine ⟨clean_alloc hc (fun hf => by cases hf), ?_, ?_⟩
      · intro y hy
        have hy : (if x = y then some (Bind.type s.nodes.length) else find s.cur y) ≠ none := hy
        split at hy
        · rename_i e; exact .inr (by rw [← e]; exact List.mem_singleton.mpr rfl)
        · exact .inl hy
      · intro y k hy hk
        have hy : (if x = y then some (Bind.type s.nodes.length) else find s.cur y) = some (.type k) := hy
        have hk : ((s.alloc (mkNode (.forward rbs))).2.get k).body = .forward true := hk
        split at hy
        · rename_i e
          injection hy with hy
          injection hy with hy
          rw [← hy, show s.nodes.length = (s.alloc (mkNode (.forward rbs))).1 from rfl, get_alloc_new] at hk
          injection hk with hk
          refine .inr ?_
          rw [hk, ← e]
          exact List.mem_append_left _ (List.mem_singleton.mpr rfl)
        · have := h.curLt y k hy
          rw [get_alloc_old this] at hk
          exact .inl ⟨hy, hk⟩
    · have ho : orForward true rbs (.name x) s (parse true (.name x) s) = parse true (.name x) s :=
        if_neg (fun hh => hl hh.2)
      rw [ho, parse]
      cases hb : s.lookup x with
      | none => exact absurd hb hl
      | some b =>
        cases b with
        | other => exact trivial
        | type i => exact ⟨hc, .refl _ _ _⟩
  · have ht : ∀ x, t ≠ .name x := fun x hx => ht ⟨x, hx⟩
    rw [needsLate_eq ht] at hn
    have := hr hn
    have ho : orForward true rbs t s (parse true t s) = parse true t s := by
      unfold orForward
      cases t with
      | name x => exact absurd rfl (ht x)
      | _ => rfl
    rw [ho]
    unfold Fine at this
    unfold FineLate
    split
    · rename_i e he; rw [he] at this; exact this
    · rename_i i s' he; rw [he] at this; 
      exact ⟨this.1, this.2.1.1, fun y k hy hk => (this.2.1.2 y k hy hk).imp_right (List.mem_append_right _)⟩

theorem fine_alloc {s s1 : State} {ns rs : List Name} {n : Node} (h1 : Clean s1) (h2 : NewIn s s1 ns rs)
    (hn : isForward n.body = false) (ha : 0 < n.alignment) : Fine s ns rs (.ok (s1.alloc n)) := by
  refine ⟨clean_alloc h1 (fun _ => ha), h2.alloc (fun h => by rw [h] at hn; cases hn), ?_⟩
  have := get_alloc_new (s := s1) (n := n)
  show isForward ((s1.alloc n).2.get (s1.alloc n).1).body = false
  rw [this]; exact hn

theorem addField_fine {s : State} (hc : Clean s) (ho : Ok s) {a : Acc} {x : Name} {i : Id}
    (hi : isForward (s.get i).body = false) {e : Err} (h : addField s a x i = .error e) : Benign e := by
  unfold addField at h
  dsimp only at h
  split at h
  · injection h with h; subst h; trivial
  rw [hi] at h
  split at h
  · rename_i hh; cases hh
  split at h
  · injection h with h; subst h; trivial
  split at h
  · rename_i hs
    obtain ⟨⟨sz, al, e1, _⟩, _⟩ := ho.good i hi
    rw [e1] at hs
    exact absurd hs (by omega)
  split at h
  · injection h with h; subst h; trivial
  split at h
  · rename_i hs
    exact absurd (hc i hi) (by omega)
  · cases h

theorem addFields_fine {s : State} (hc : Clean s) (ho : Ok s) {i : Id}
    (hi : isForward (s.get i).body = false) {e : Err} : ∀ {xs : List Name} {a : Acc},
    addFields s a xs i = .error e → Benign e
  | [], a, h => by cases h
  | x :: xs, a, h => by
    unfold addFields at h
    split at h
    · rename_i e' he
      injection h with h
      subst h
      exact addField_fine hc ho hi he
    · exact addFields_fine hc ho hi h

theorem addParams_fine {hid : Nat} {i : Id} {e : Err} : ∀ {xs : List Name} {ps : List (Name × Id)},
    addParams hid ps xs i = .error e → Benign e
  | [], ps, h => by cases h
  | x :: xs, ps, h => by
    unfold addParams at h
    split at h
    · injection h with h; subst h; trivial
    split at h
    · injection h with h; subst h; trivial
    exact addParams_fine h

theorem addMethods_fine {e : Err} : ∀ {ms l : List (Name × Sig)}, addMethods l ms = .error e → Benign e
  | [], l, h => by cases h
  | m :: ms, l, h => by
    unfold addMethods at h
    split at h
    · injection h with h; subst h; trivial
    exact addMethods_fine h

theorem mkSig_fine {s : State} {hid : Nat} {ps : List (Name × Id)} {r : Option Id} {e : Err}
    (h : mkSig s hid ps r = .error e) : Benign e := by
  unfold mkSig at h
  split at h
  · split at h
    · injection h with h; subst h; trivial
    · cases h
  · cases h

mutual
theorem parse_fine : ∀ (t : TE) (s : State), Inv s → Clean s → NamesOk s (needs t) →
    Fine s (mentions t) (results t) (parse true t s)
  | .name x, s, h, hc, hn => by
    obtain ⟨b, h1, h2⟩ := hn x (List.mem_singleton.mpr rfl)
    rw [parse, h1]
    cases b with
    | other => exact trivial
    | type i => exact ⟨hc, .refl _ _ _, h2 i rfl⟩
  | .ptr w t, s, h, hc, hn => by
    rw [parse]
    have k := orForward_fine (rbs := false) h hc hn (fun hn' => parse_fine t s h hc hn')
    split
    · rename_i e he; rw [he] at k; exact k
    · rename_i b s1 he
      rw [he] at k
      exact fine_alloc k.1 k.2 rfl (by show 0 < 8; decide)
  | .dyn w t, s, h, hc, hn => by
    rw [parse]
    have k := orForward_fine (rbs := false) h hc hn (fun hn' => parse_fine t s h hc hn')
    split
    · rename_i e he; rw [he] at k; exact k
    · rename_i b s1 he
      rw [he] at k
      split
      · exact trivial
      · exact fine_alloc k.1 k.2 rfl (by show 0 < 8; decide)
  | .arr n t, s, h, hc, hn => by
    rw [parse]
    split
    · exact trivial
    have k := parse_fine t s h hc hn
    split
    · rename_i e he; rw [he] at k; exact k
    · rename_i b s1 he
      obtain ⟨k1, _⟩ := parse_post true t s s1 b h he
      rw [he] at k
      split
      · exact trivial
      · obtain ⟨⟨sz, al, e1, e2, _⟩, _⟩ := k1.inv.ok.good b k.2.2
        split
        · rename_i e hnd
          unfold arrNode at hnd
          split at hnd
          · rename_i hs
            rw [e1] at hs
            exact absurd hs.2 (by omega)
          split at hnd
          · injection hnd with hnd; subst hnd; exact trivial
          · cases hnd
        · rename_i nd hnd
          unfold arrNode at hnd
          split at hnd
          · cases hnd
          split at hnd
          · cases hnd
          injection hnd with hnd
          refine fine_alloc k.1 k.2.1 (by rw [← hnd]; rfl) (by rw [← hnd]; exact k.1 b k.2.2)
  | .map ky t, s, h, hc, hn => by
    rw [parse]
    have k := parse_fine ky s h hc hn.left
    split
    · rename_i e he; rw [he] at k; exact k
    · rename_i a s1 he
      obtain ⟨k1, _⟩ := parse_post true ky s s1 a h he
      rw [he] at k
      split
      · exact trivial
      · have j := orForward_fine (rbs := false) k1.inv k.1 (hn.right.ext k1.ext)
          (fun hn' => parse_fine t s1 k1.inv k.1 hn')
        split
        · rename_i e he2; rw [he2] at j; exact j
        · rename_i b s2 he2
          rw [he2] at j
          split
          · exact trivial
          · exact fine_alloc j.1 (k.2.1.trans j.2) rfl (by show 0 < 8; decide)
  | .struct fs, s, h, hc, hn => by
    rw [parse]
    have k := parseFields_fine fs s .empty h hc (accOk_empty s) hn
    split
    · rename_i e he; rw [he] at k; exact k
    · rename_i a s1 he
      rw [he] at k
      refine fine_alloc k.1 k.2.1 rfl ?_
      exact k.2.2.pos
  | .iface ms, s, h, hc, hn => by
    rw [parse]
    have k := parseMethods_fine ms s [] h hc hn
    split
    · rename_i e he; rw [he] at k; exact k
    · rename_i l s1 he
      rw [he] at k
      exact fine_alloc k.1 k.2.1 rfl (by show 0 < 8; decide)
  | .fn st, s, h, hc, hn => by
    rw [parse]
    have k := parseSig_fine st s h hc hn
    split
    · rename_i e he; rw [he] at k; exact k
    · rename_i sig s1 he
      rw [he] at k
      exact fine_alloc k.1 k.2.1 rfl (by show 0 < 8; decide)
theorem parseFields_fine : ∀ (fs : Flds) (s : State) (a : Acc), Inv s → Clean s → AccOk s a →
    NamesOk s (needsFields fs) → FineWith s (mentionsFields fs) (resultsFields fs) AccOk (parseFields true fs s a)
  | .nil, s, a, h, hc, ha, hn => by
    rw [parseFields]
    exact ⟨hc, .refl _ _ _, ha⟩
  | .cons xs t rest, s, a, h, hc, ha, hn => by
    rw [parseFields]
    have k := parse_fine t s h hc hn.left
    split
    · rename_i e he; rw [he] at k; exact k
    · rename_i i s1 he
      obtain ⟨k1, _⟩ := parse_post true t s s1 i h he
      rw [he] at k
      split
      · rename_i e he2
        exact addFields_fine k.1 k1.inv.ok k.2.2 he2
      · rename_i a1 he2
        obtain ⟨j1, _⟩ := addFields_ok k1.inv.ok (ha.mono k1.ext.keeps) he2
        have m := parseFields_fine rest s1 a1 k1.inv k.1 j1 (hn.right.ext k1.ext)
        unfold FineWith at m ⊢
        split
        · rename_i e he3; rw [he3] at m; exact m
        · rename_i a2 s2 he3
          rw [he3] at m
          exact ⟨m.1, k.2.1.trans m.2.1, m.2.2⟩
theorem parseParams_fine : ∀ (fs : Flds) (s : State) (a : List (Name × Id)), Inv s → Clean s →
    NamesOk s (needsParams fs) → FineWith s (mentionsFields fs) (resultsFields fs) (fun _ _ => True) (parseParams true fs s a)
  | .nil, s, a, h, hc, hn => by
    rw [parseParams]
    exact ⟨hc, .refl _ _ _, trivial⟩
  | .cons xs t rest, s, a, h, hc, hn => by
    rw [parseParams]
    have k := orForward_fine (rbs := false) h hc hn.left (fun hn' => parse_fine t s h hc hn')
    split
    · rename_i e he; rw [he] at k; exact k
    · rename_i i s1 he
      obtain ⟨k1, _⟩ := orForward_post h (fun i s' hr => parse_post true t s s' i h hr) he
      rw [he] at k
      split
      · rename_i e he2
        exact addParams_fine he2
      · rename_i a1 he2
        have m := parseParams_fine rest s1 a1 k1.inv k.1 (hn.right.ext k1.ext)
        unfold FineWith at m ⊢
        split
        · rename_i e he3; rw [he3] at m; exact m
        · rename_i a2 s2 he3
          rw [he3] at m
          exact ⟨m.1, k.2.trans m.2.1, m.2.2⟩
theorem parseSig_fine : ∀ (st : SigT) (s : State), Inv s → Clean s → NamesOk s (needsSig st) →
    FineWith s (mentionsSig st) (resultsSig st) (fun _ _ => True) (parseSig true st s)
  | .mk ps r, s, h, hc, hn => by
    rw [parseSig]
    have k := parseParams_fine ps s [] h hc hn.left
    split
    · rename_i e he; rw [he] at k; exact k
    · rename_i l s1 he
      obtain ⟨k1, _⟩ := parseParams_post true ps s s1 [] l h he
      rw [he] at k
      have j := parseResult_fine r s1 k1.inv k.1 (hn.right.ext k1.ext)
      split
      · rename_i e he2; rw [he2] at j; exact j
      · rename_i res s2 he2
        rw [he2] at j
        split
        · rename_i e he3; exact mkSig_fine he3
        · exact ⟨j.1, k.2.1.trans j.2.1, trivial⟩
theorem parseResult_fine : ∀ (r : ResT) (s : State), Inv s → Clean s → NamesOk s (needsResult r) →
    FineWith s (mentionsResult r) (resultsResult r) (fun _ _ => True) (parseResult true r s)
  | .none, s, h, hc, hn => by
    rw [parseResult]
    exact ⟨hc, .refl _ _ _, trivial⟩
  | .single t, s, h, hc, hn => by
    rw [parseResult]
    have k := orForward_fine (rbs := true) h hc hn (fun hn' => parse_fine t s h hc hn')
    split
    · rename_i e he; rw [he] at k; exact k
    · rename_i i s1 he
      rw [he] at k
      exact ⟨k.1, k.2, trivial⟩
  | .list ts, s, h, hc, hn => by
    rw [parseResult]
    have k := parseFields_fine ts s .empty h hc (accOk_empty s) hn
    split
    · rename_i e he; rw [he] at k; exact k
    · rename_i a s1 he
      rw [he] at k
      unfold listResult
      split
      · exact ⟨k.1, k.2.1, trivial⟩
      · exact ⟨clean_alloc k.1 (fun _ => k.2.2.pos), k.2.1.alloc (fun h => (nomatch h)), trivial⟩
theorem parseMethods_fine : ∀ (ms : Meths) (s : State) (a : List (Name × Sig)), Inv s → Clean s →
    NamesOk s (needsMethods ms) → FineWith s (mentionsMethods ms) (resultsMethods ms) (fun _ _ => True) (parseMethods true ms s a)
  | .nil, s, a, h, hc, hn => by
    rw [parseMethods]
    exact ⟨hc, .refl _ _ _, trivial⟩
  | .method x st rest, s, a, h, hc, hn => by
    rw [parseMethods]
    have k := parseSig_fine st s h hc hn.left
    split
    · rename_i e he; rw [he] at k; exact k
    · rename_i sig s1 he
      obtain ⟨k1, _⟩ := parseSig_post true st s s1 sig h he
      rw [he] at k
      split
      · rename_i e he2; exact addMethods_fine he2
      · rename_i a1 he2
        have m := parseMethods_fine rest s1 a1 k1.inv k.1 (hn.right.ext k1.ext)
        unfold FineWith at m ⊢
        split
        · rename_i e he3; rw [he3] at m; exact m
        · rename_i a2 s2 he3
          rw [he3] at m
          exact ⟨m.1, k.2.1.trans m.2.1, m.2.2⟩
  | .embed x rest, s, a, h, hc, hn => by
    rw [parseMethods]
    obtain ⟨b, h1, h2⟩ := hn x (List.mem_cons_self ..)
    have hn2 : NamesOk s (needsMethods rest) := fun y hy => hn y (List.mem_cons_of_mem _ hy)
    rw [h1]
    cases b with
    | other => exact trivial
    | type i =>
      dsimp only
      split
      · split
        · rename_i e he2; exact addMethods_fine he2
        · rename_i a1 he2
          have m := parseMethods_fine rest s a1 h hc hn2
          unfold FineWith at m ⊢
          split
          · rename_i e he3; rw [he3] at m; exact m
          · rename_i a2 s2 he3
            rw [he3] at m
            exact ⟨m.1, (NewIn.trans (NewIn.refl s [x] []) m.2.1), m.2.2⟩
      · exact trivial
end

theorem means_structured {g : Graph} {ref : Name → Id → Prop} {t : TE} {i : Id} (hm : Means g ref t i)
    (hn : structured (g i) = false) : writtenStructured t = false := by
  cases t with
  | name x => rfl
  | ptr w t => rfl
  | dyn w t => obtain ⟨b, h1, _⟩ := hm; rw [h1] at hn; cases hn
  | arr w t => obtain ⟨b, h1, _⟩ := hm; rw [h1] at hn; cases hn
  | map k t => obtain ⟨a, b, h1, _⟩ := hm; rw [h1] at hn; cases hn
  | struct t => obtain ⟨b, h1, _⟩ := hm; rw [h1] at hn; cases hn
  | iface t => obtain ⟨b, h1, _⟩ := hm; rw [h1] at hn; cases hn
  | fn t => obtain ⟨b, h1, _⟩ := hm; rw [h1] at hn; cases hn

/-- The name was used for the result of a function. -/
def MustBe (s : State) (x : Name) : Prop := ∃ k, find s.cur x = some (.type k) ∧ (s.get k).body = .forward true

def ItemFine (s : State) (x : Name) (t : TE) (r : Res State) : Prop :=
  match r with
  | .error e => Benign e ∨ (e = .mustBeStructured x ∧ writtenStructured t = false ∧ (x ∈ results t ∨ MustBe s x))
  | .ok s' => Clean s' ∧ NewIn s s' (x :: mentions t) (results t) ∧
      ∃ e, find s'.cur x = some (.type e) ∧ isForward (s'.get e).body = false

theorem declItem_fine {s : State} {x : Name} {t : TE} (h : Inv s) (hc : Clean s) (hn : NamesOk s (needs t)) :
    ItemFine s x t (declItem s x t) := by
  have k := parse_fine t s h hc hn
  unfold declItem
  split
  · rename_i e he; rw [he] at k; exact .inl k
  rename_i i s1 he
  obtain ⟨k1, k2, k3⟩ := parse_post true t s s1 i h he
  rw [he] at k
  obtain ⟨c1, n1, f1⟩ := k
  dsimp only
  have c2 := clean_alloc c1 (n := s1.get i) (fun hf => c1 i hf)
  have n2 := n1.alloc (n := s1.get i) (fun hh => by rw [hh] at f1; cases f1)
  have hnew := get_alloc_new (s := s1) (n := s1.get i)
  generalize hs2 : s1.alloc (s1.get i) = p at c2 n2 hnew
  obtain ⟨j, s2⟩ := p
  dsimp only at c2 n2 hnew
  have hcur2 : s2.cur = s1.cur := (congrArg (fun p => p.2.cur) hs2).symm
  have hlen2 : s2.nodes.length = s1.nodes.length + 1 := by
    rw [← congrArg (fun p => p.2.nodes.length) hs2]
    show (s1.nodes ++ [_]).length = _
    simp
  have hj : j = s1.nodes.length := (congrArg Prod.fst hs2).symm
  unfold addType
  split
  · rename_i hx
    refine ⟨fun k hk => c2 k hk, ⟨?_, ?_⟩, j, ?_, ?_⟩
    · intro y hy
      have hy : (if x = y then some (Bind.type j) else find s2.cur y) ≠ none := hy
      split at hy
      · rename_i e; exact .inr (by rw [e]; exact List.mem_cons_self ..)
      · exact (n2.1 y hy).imp_right (List.mem_cons_of_mem _)
    · intro y k hy hk
      have hy : (if x = y then some (Bind.type j) else find s2.cur y) = some (.type k) := hy
      have hk : (s2.get k).body = .forward true := hk
      split at hy
      · injection hy with hy
        injection hy with hy
        rw [← hy, hnew] at hk
        rw [hk] at f1; cases f1
      · exact n2.2 y k hy hk
    · show (if x = x then some (Bind.type j) else find s2.cur x) = _
      rw [if_pos rfl]
    · show isForward (s2.get j).body = false
      rw [hnew]; exact f1
  · rename_i e hx
    split
    · rename_i rbs hrbs
      rw [if_neg (by rw [hnew, f1]; simp)]
      split
      · rename_i hst
        simp only [Bool.and_eq_true, Bool.not_eq_true'] at hst
        obtain ⟨h1, h2⟩ := hst
        rw [h1] at hrbs
        refine .inr ⟨rfl, ?_, ?_⟩
        · rw [hnew] at h2
          exact means_structured k3 h2
        · rcases n2.2 x e hx hrbs with h | h
          · exact .inr ⟨e, h⟩
          · exact .inl h
      · have helt : e < s2.nodes.length := by
          have := k1.inv.curLt x e (by rw [← hcur2]; exact hx)
          rw [hlen2]; exact Nat.lt_succ_of_lt this
        have hget := fun k => get_set (s := s2) (k := k) (n := s2.get j) helt
        refine ⟨?_, ⟨?_, ?_⟩, e, hx, ?_⟩
        · intro k hk
          rw [hget] at hk ⊢
          split at hk
          · rename_i e1; rw [if_pos e1]; exact c2 j hk
          · rename_i e1; rw [if_neg e1]; exact c2 k hk
        · intro y hy
          exact (n2.1 y hy).imp_right (List.mem_cons_of_mem _)
        · intro y k hy hk
          rw [hget] at hk
          split at hk
          · rw [hnew] at hk; rw [hk] at f1; cases f1
          · exact n2.2 y k hy hk
        · rw [hget, if_pos rfl, hnew]; exact f1
    · exact .inl trivial
  · exact .inl trivial

theorem NamesOk.item {s s' : State} {x : Name} {t : TE} {ns : List Name} (h : NamesOk s ns)
    (hp : ItemPost s x t s') {e : Id} (h1 : find s'.cur x = some (.type e))
    (h2 : isForward (s'.get e).body = false) : NamesOk s' (ns ++ [x]) := by
  intro y hy
  by_cases hyx : y = x
  · subst hyx
    exact ⟨_, lookup_of_cur h1, fun i hi => by injection hi with hi; rw [← hi]; exact h2⟩
  · have hy : y ∈ ns := by
      rcases List.mem_append.mp hy with hy | hy
      · exact hy
      · exact absurd (List.mem_singleton.mp hy) hyx
    obtain ⟨b, m1, m2⟩ := h y hy
    refine ⟨b, ?_, fun i hi => by rw [hp.keeps i (m2 i hi)]; exact m2 i hi⟩
    unfold State.lookup at m1 ⊢
    cases hc : find s.cur y with
    | some c => rw [hc] at m1; rw [hp.cur y c hc]; exact m1
    | none =>
      rw [hc] at m1
      cases hc' : find s'.cur y with
      | none => dsimp only at m1 ⊢; rw [hp.outer]; exact m1
      | some c =>
        rcases hp.new y hc (by rw [hc']; exact fun hh => (nomatch hh)) with hh | ⟨hh, _⟩
        · exact absurd hh hyx
        · dsimp only at m1; rw [hh] at m1; cases m1

/-- All names that are mentioned. -/
def groupMentions (g : List (Name × TE)) : List Name := g.flatMap (fun p => p.1 :: mentions p.2)

def ItemsFine (s : State) (D : List Name) (g : List (Name × TE)) (r : Res State) : Prop :=
  match r with
  | .error e => Benign e ∨ ∃ pre x t post, g = pre ++ (x, t) :: post ∧ e = .mustBeStructured x ∧
      writtenStructured t = false ∧ (MustBe s x ∨ ∃ p ∈ pre ++ [(x, t)], x ∈ results p.2)
  | .ok s' => Clean s' ∧ NewIn s s' (groupMentions g) (g.flatMap (fun p => results p.2)) ∧
      NamesOk s' (D ++ g.map Prod.fst)

theorem declItems_fine : ∀ (g : List (Name × TE)) (s : State) (D : List Name), Inv s → Clean s → NamesOk s D →
    (∀ pre x t post, g = pre ++ (x, t) :: post → ∀ y ∈ needs t, y ∈ D ∨ y ∈ pre.map Prod.fst) →
    ItemsFine s D g (declItems s g)
  | [], s, D, h, hc, hn, hg => by
    refine ⟨hc, .refl _ _ _, ?_⟩
    rw [List.map_nil, List.append_nil]; exact hn
  | (x, t) :: rest, s, D, h, hc, hn, hg => by
    have hn1 : NamesOk s (needs t) := by
      intro y hy
      rcases hg [] x t rest rfl y hy with h | h
      · exact hn y h
      · cases h
    have k := declItem_fine (x := x) h hc hn1
    unfold declItems
    split
    · rename_i e he
      rw [he] at k
      rcases k with k | ⟨k1, k2, k3⟩
      · exact .inl k
      · refine .inr ⟨[], x, t, rest, rfl, k1, k2, ?_⟩
        rcases k3 with k3 | k3
        · exact .inr ⟨(x, t), List.mem_singleton.mpr rfl, k3⟩
        · exact .inl k3
    · rename_i s1 he
      have p := declItem_post h he
      rw [he] at k
      obtain ⟨c1, n1, e, e1, e2⟩ := k
      have m := declItems_fine rest s1 (D ++ [x]) p.inv c1 (hn.item p e1 e2) (by
        intro pre x' t' post hh y hy
        rcases hg ((x, t) :: pre) x' t' post (by rw [hh]; rfl) y hy with h | h
        · exact .inl (List.mem_append_left _ h)
        · rcases List.mem_cons.mp h with h | h
          · exact .inl (List.mem_append_right _ (List.mem_singleton.mpr h))
          · exact .inr h)
      unfold ItemsFine at m ⊢
      split
      · rename_i er her
        rw [her] at m
        rcases m with m | ⟨pre, x', t', post, m1, m2, m3, m4⟩
        · exact .inl m
        · refine .inr ⟨(x, t) :: pre, x', t', post, by rw [m1]; rfl, m2, m3, ?_⟩
          rcases m4 with ⟨k, q1, q2⟩ | ⟨q, q1, q2⟩
          · rcases n1.2 x' k q1 q2 with h | h
            · exact .inl ⟨k, h⟩
            · exact .inr ⟨(x, t), List.mem_cons_self .., h⟩
          · exact .inr ⟨q, List.mem_cons_of_mem _ q1, q2⟩
      · rename_i s2 her
        rw [her] at m
        refine ⟨m.1, ?_, ?_⟩
        · have := n1.trans m.2.1
          exact this
        · have := m.2.2
          rw [List.append_assoc] at this
          exact this

/-- If every name that must be declared before its use is, the list is refused only for other reasons:
a mentioned name is not declared at all, or a type that is the result of a function mentioned before
is not a structured type. -/
theorem group_errors {s : State} {g : List (Name × TE)} {e : Err} (h : Ready s) (hc : Clean s)
    (hg : ∀ pre x t post, g = pre ++ (x, t) :: post → ∀ y ∈ needs t, s.lookup y ≠ none ∨ y ∈ pre.map Prod.fst)
    (he : declGroup s g = .error e) :
    Benign e ∨
    (e = .unresolvedForward ∧ ∃ p ∈ g, ∃ y ∈ mentions p.2, s.lookup y = none ∧ y ∉ g.map Prod.fst) ∨
    (∃ pre x t post, g = pre ++ (x, t) :: post ∧ e = .mustBeStructured x ∧ writtenStructured t = false ∧
      ∃ p ∈ pre ++ [(x, t)], x ∈ results p.2) := by
  let D := (g.flatMap (fun p => needs p.2)).filter (fun y => (s.lookup y).isSome)
  have hD : NamesOk s D := by
    intro y hy
    have hy := (List.mem_filter.mp hy).2
    obtain ⟨b, hb⟩ := Option.isSome_iff_exists.mp hy
    refine ⟨b, hb, ?_⟩
    intro i hi
    have : i < s.nodes.length := by
      subst hi
      exact h.inv.lookupLt hb
    exact h.complete i this
  have k := declItems_fine g s D h.inv hc hD (by
    intro pre x t post hh y hy
    rcases hg pre x t post hh y hy with h | h
    · refine .inl (List.mem_filter.mpr ⟨List.mem_flatMap.mpr ⟨(x, t), ?_, hy⟩, ?_⟩)
      · rw [hh]; exact List.mem_append_right _ (List.mem_cons_self ..)
      · exact Option.isSome_iff_ne_none.mpr h
    · exact .inr h)
  have notMust : ∀ x, ¬ MustBe s x := by
    rintro x ⟨k, q1, q2⟩
    have := h.complete k (h.inv.curLt x k q1)
    rw [q2] at this; cases this
  unfold declGroup at he
  split at he
  · rename_i er her
    injection he with he
    subst he
    rw [her] at k
    rcases k with k | ⟨pre, x, t, post, k1, k2, k3, k4⟩
    · exact .inl k
    · refine .inr (.inr ⟨pre, x, t, post, k1, k2, k3, ?_⟩)
      rcases k4 with k4 | k4
      · exact absurd k4 (notMust x)
      · exact k4
  · rename_i s1 her
    split at he
    · rename_i hany
      injection he with he
      refine .inr (.inl ⟨he.symm, ?_⟩)
      have p := declItems_post g s s1 h.inv her
      rw [her] at k
      obtain ⟨n, hn1, hn2⟩ := List.any_eq_true.mp hany
      obtain ⟨i, hi, hin⟩ := List.getElem_of_mem hn1
      have hget : s1.get i = n := by
        unfold State.get
        rw [List.getD_eq_getElem?_getD, List.getElem?_eq_getElem hi, hin]; rfl
      obtain ⟨y, hy⟩ := p.inv.bound i hi (by rw [hget]; exact hn2)
      have hnot : y ∉ g.map Prod.fst := by
        intro hh
        obtain ⟨b, m1, m2⟩ := k.2.2 y (List.mem_append_right _ hh)
        rw [lookup_of_cur hy] at m1
        injection m1 with m1
        have := m2 i m1.symm
        rw [hget, hn2] at this; cases this
      have hcur : find s.cur y = none := by
        cases hc : find s.cur y with
        | none => rfl
        | some b =>
          have := p.cur y b hc
          rw [hy] at this
          injection this with this
          subst this
          have hf := h.complete i (h.inv.curLt y i hc)
          have := p.keeps i hf
          rw [this] at hget
          rw [hget, hn2] at hf; cases hf
      rcases k.2.1.1 y (by rw [hy]; exact fun hh => (nomatch hh)) with q | q
      · exact absurd hcur q
      · obtain ⟨pq, q1, q2⟩ := List.mem_flatMap.mp q
        rcases List.mem_cons.mp q2 with q2 | q2
        · exact absurd (List.mem_map.mpr ⟨pq, q1, q2.symm⟩) hnot
        · refine ⟨pq, q1, y, q2, ?_, hnot⟩
          rcases p.new y hcur (by rw [hy]; exact fun hh => (nomatch hh)) with q | q
          · exact absurd q hnot
          · unfold State.lookup
            rw [hcur]
            exact q.1
    · cases he

end Umka.TypeDecl
