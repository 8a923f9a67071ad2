import Verif.Syntax.Gen
/-
Lists: items with semicolons, identifiers with export marks.
-/
namespace Umka.Syntax
open Spec Spec.EBNF

section
variable {g : NT → EBNF} {t : NT → Bool} {f : NT → List Tok} {p q : P} {a b : EBNF} {k : Nat} {l li : List Tok}

theorem eatSemi_some {ts rest : List Tok} :
    eatSemi ts = some rest ↔ (at_ [.rpar, .rbrace] ts = true ∧ ts = rest) ∨ ts = .semi :: rest := by
  unfold eatSemi
  split
  · next h =>
    constructor
    · intro h'; cases h'; exact .inl ⟨h, rfl⟩
    · rintro (⟨_, rfl⟩ | rfl)
      · rfl
      · cases h
  · next h =>
    rw [eat_some]
    exact ⟨.inr, fun h' => h'.elim (fun h' => absurd h'.1 h) id⟩

theorem manyN_stop {n : Nat} {ts : List Tok} (h : Free l ts) : manyN l p n ts = some ts := by
  cases n <;> (unfold manyN; rw [if_neg (by rw [h]; exact Bool.false_ne_true)])

/-- The items of a list, one after the other. -/
theorem items_sound (h : Sound g p b) (hl : ∀ x ∈ [Tok.rpar, .rbrace], x ∉ l) : ∀ (n : Nat) (ts rest : List Tok),
    manyN l (p ⟫ eatSemi) n ts = some rest → ∃ pre, ts = pre ++ rest ∧
      (pre = [] ∨ Derives g (b ⬝ star (tok .semi ⬝ b) ⬝ opt (tok .semi)) pre)
  | 0, ts, rest, h' => by
    unfold manyN at h'
    split at h'
    · cases h'
    · cases h'; exact ⟨[], rfl, .inl rfl⟩
  | n + 1, ts, rest, h' => by
    unfold manyN at h'
    split at h'
    · obtain ⟨m, h1, h2⟩ := Option.bind_eq_some_iff.mp h'
      obtain ⟨m', h1, h3⟩ := then_some.mp h1
      obtain ⟨x, rfl, hx⟩ := h _ _ h1
      rcases eatSemi_some.mp h3 with ⟨h4, rfl⟩ | rfl
      · have : Free l m' := by
          obtain ⟨c, r, rfl, hc⟩ := at_iff.mp h4
          exact free_cons.mpr (hl c hc)
        rw [manyN_stop this] at h2
        cases h2
        refine ⟨x, rfl, .inr ?_⟩
        have := Derives.seq hx (.seq (.starNil (a := tok .semi ⬝ b)) (.optNone (a := tok .semi)))
        rwa [List.append_nil, List.append_nil] at this
      · obtain ⟨y, rfl, hy⟩ := items_sound h hl n _ _ h2
        refine ⟨x ++ .semi :: y, by rw [List.append_assoc]; rfl, .inr ?_⟩
        rcases hy with rfl | hy
        · exact .seq hx (.seq (xs := []) .starNil (.optSome .tok))
        · obtain ⟨u, v, rfl, hu, hv⟩ := d_seq.mp hy
          obtain ⟨v, w, rfl, hv, hw⟩ := d_seq.mp hv
          refine .seq hx ?_
          have : Tok.semi :: (u ++ (v ++ w)) = ((Tok.semi :: u) ++ v) ++ w := by simp
          rw [this]
          exact .seq (.starCons (.cons hu) hv) hw
    · cases h'; exact ⟨[], rfl, .inl rfl⟩

theorem sound_items (h : Sound g p b) (hl : ∀ x ∈ [Tok.rpar, .rbrace], x ∉ l) :
    Sound g (many l (p ⟫ eatSemi)) (Spec.items b b) := by
  intro ts rest h'
  obtain ⟨pre, e, h'⟩ := items_sound h hl _ _ _ h'
  exact ⟨pre, e, d_opt.mpr h'⟩

/-- The same where the first item is different. -/
theorem sound_items2 (h1 : Sound g q a) (h : Sound g p b) (hl : ∀ x ∈ [Tok.rpar, .rbrace], x ∉ l) :
    Sound g (ifAt l (q ⟫ eatSemi ⟫ many l (p ⟫ eatSemi)) skip) (Spec.items a b) := by
  apply Sound.opt
  intro ts rest h0
  obtain ⟨m, h2, h5⟩ := then_some.mp h0
  obtain ⟨x, rfl, hx⟩ := h1 _ _ h2
  obtain ⟨m', h3, h'⟩ := then_some.mp h5
  rcases eatSemi_some.mp h3 with ⟨h4, rfl⟩ | rfl
  · have : Free l m := by
      obtain ⟨c, r, rfl, hc⟩ := at_iff.mp h4
      exact free_cons.mpr (hl c hc)
    rw [show many l (p ⟫ eatSemi) m = some m from manyN_stop this] at h'
    cases h'
    refine ⟨x, rfl, ?_⟩
    have := Derives.seq hx (.seq (.starNil (a := tok .semi ⬝ b)) (.optNone (a := tok .semi)))
    rwa [List.append_nil, List.append_nil] at this
  · obtain ⟨y, rfl, hy⟩ := items_sound h hl _ _ _ h'
    refine ⟨x ++ .semi :: y, by rw [List.append_assoc]; rfl, ?_⟩
    rcases hy with rfl | hy
    · exact .seq hx (.seq (xs := []) .starNil (.optSome .tok))
    · obtain ⟨u, v, rfl, hu, hv⟩ := d_seq.mp hy
      obtain ⟨v, w, rfl, hv, hw⟩ := d_seq.mp hv
      refine .seq hx ?_
      have : Tok.semi :: (u ++ (v ++ w)) = ((Tok.semi :: u) ++ v) ++ w := by simp
      rw [this]
      exact .seq (.starCons (.cons hu) hv) hw

theorem items_free {c : Tok} {s w rest : List Tok} (hs : Tok.semi ∉ li) (hcli : c ∉ li) (hs' : Derives g (star (tok .semi ⬝ b)) s)
    (hw : Derives g (opt (tok .semi)) w) : Free li (s ++ (w ++ c :: rest)) := by
  rcases d_star.mp hs' with rfl | ⟨u, v, rfl, hu, hv⟩
  · rcases d_opt.mp hw with rfl | hw
    · exact free_cons.mpr hcli
    · rw [d_tok.mp hw]; exact free_cons.mpr hs
  · obtain ⟨z, rfl, _⟩ := d_cons.mp hu
    exact free_cons.mpr hs

/-- The rest of a list, after its first item. -/
theorem items_comp (H : Tables g t f) (h : Comp g k p b li) {c : Tok} (hc : c ∈ [Tok.rpar, .rbrace]) (hcl : c ∉ l)
    (hb : ∀ x ∈ first t f b, x ∈ l) (hnb : nullable t b = false) (hs : Tok.semi ∉ li) (hcli : c ∉ li)
    {s : List Tok} (hd : Derives g (star (tok .semi ⬝ b)) s) : ∀ (w rest : List Tok), Derives g (opt (tok .semi)) w →
      s.length ≤ k → ∃ m, eatSemi (s ++ (w ++ c :: rest)) = some m ∧
        ∀ n, s.length ≤ n → manyN l (p ⟫ eatSemi) n m = some (c :: rest) := by
  have hcf : ∀ r, Free l (c :: r) := fun r => free_cons.mpr hcl
  have hat : ∀ r, at_ [Tok.rpar, .rbrace] (c :: r) = true := fun r => at_cons.mpr hc
  generalize e : star (tok .semi ⬝ b) = e' at hd
  induction hd with
  | starNil =>
    cases e
    intro w rest hw _
    rcases d_opt.mp hw with rfl | hw
    · exact ⟨c :: rest, eatSemi_some.mpr (.inl ⟨hat _, rfl⟩), fun _ _ => manyN_stop (hcf _)⟩
    · rw [d_tok.mp hw]
      exact ⟨c :: rest, eatSemi_some.mpr (.inr rfl), fun _ _ => manyN_stop (hcf _)⟩
  | @starCons a' xs ys hx hy _ ih =>
    cases e
    intro w rest hw hk
    obtain ⟨y, rfl, hy'⟩ := d_cons.mp hx
    rw [List.length_append, List.length_cons] at hk
    refine ⟨y ++ (ys ++ (w ++ c :: rest)), eatSemi_some.mpr (.inr (by simp)), fun n hn => ?_⟩
    rw [List.length_append, List.length_cons] at hn
    cases n with
    | zero => omega
    | succ n =>
      unfold manyN
      rw [if_pos (at_of H hy' hb hnb)]
      have hfree : Free li (ys ++ (w ++ c :: rest)) := items_free hs hcli hy hw
      obtain ⟨m, h1, h2⟩ := ih rfl w rest hw (by omega)
      rw [then_some.mpr ⟨_, h y _ (by omega) hy' hfree, h1⟩]
      exact h2 n (by omega)
  | _ => cases e

theorem comp_items2 (H : Tables g t f) (h1 : Comp g k q a li) (h : Comp g k p b li) {c : Tok} (hc : c ∈ [Tok.rpar, .rbrace])
    (hcl : c ∉ l) (ha : ∀ x ∈ first t f a, x ∈ l) (hna : nullable t a = false) (hb : ∀ x ∈ first t f b, x ∈ l)
    (hnb : nullable t b = false) (hs : Tok.semi ∉ li) (hcli : c ∉ li) :
    Comp g k (ifAt l (q ⟫ eatSemi ⟫ many l (p ⟫ eatSemi)) skip ⟫ eat c) (Spec.items a b ⬝ tok c) [] := by
  intro pre rest hk hd _
  obtain ⟨x, y, rfl, hx, hy⟩ := d_seq.mp hd
  rw [d_tok.mp hy] at *
  refine then_some.mpr ⟨c :: rest, ?_, eat_some.mpr rfl⟩
  rw [List.append_assoc]
  show (if at_ l (x ++ c :: rest) then (q ⟫ eatSemi ⟫ many l (p ⟫ eatSemi)) (x ++ c :: rest) else some (x ++ c :: rest)) = _
  rcases d_opt.mp hx with rfl | hx0
  · rw [List.nil_append, if_neg (by rw [show Free l (c :: rest) from free_cons.mpr hcl]; exact Bool.false_ne_true)]
  · obtain ⟨x, s0, rfl, hx1, hs0⟩ := d_seq.mp hx0
    obtain ⟨s, w, rfl, hs', hw⟩ := d_seq.mp hs0
    rw [List.append_assoc, List.append_assoc, if_pos (at_of H hx1 ha hna)]
    rw [List.length_append, List.length_append, List.length_append] at hk
    obtain ⟨m, h2, h3⟩ := items_comp H h hc hcl hb hnb hs hcli hs' w rest hw (by omega)
    refine then_some.mpr ⟨_, h1 x _ (by omega) hx1 (items_free hs hcli hs' hw), then_some.mpr ⟨m, h2, h3 _ ?_⟩⟩
    rcases eatSemi_some.mp h2 with ⟨_, e⟩ | e <;>
      (have := congrArg List.length e; simp only [List.length_append, List.length_cons] at this; omega)

theorem comp_items (H : Tables g t f) (h : Comp g k p b li) {c : Tok} (hc : c ∈ [Tok.rpar, .rbrace])
    (hcl : c ∉ l) (hb : ∀ x ∈ first t f b, x ∈ l) (hnb : nullable t b = false) (hs : Tok.semi ∉ li) (hcli : c ∉ li) :
    Comp g k (many l (p ⟫ eatSemi) ⟫ eat c) (Spec.items b b ⬝ tok c) [] := by
  intro pre rest hk hd _
  obtain ⟨x, y, rfl, hx, hy⟩ := d_seq.mp hd
  rw [d_tok.mp hy] at *
  refine then_some.mpr ⟨c :: rest, ?_, eat_some.mpr rfl⟩
  rw [List.append_assoc]
  show manyN l (p ⟫ eatSemi) (x ++ c :: rest).length (x ++ c :: rest) = _
  rcases d_opt.mp hx with rfl | hx0
  · exact manyN_stop (free_cons.mpr hcl)
  · obtain ⟨x, s0, rfl, hx1, hs0⟩ := d_seq.mp hx0
    obtain ⟨s, w, rfl, hs', hw⟩ := d_seq.mp hs0
    rw [List.append_assoc, List.append_assoc]
    rw [List.length_append, List.length_append, List.length_append] at hk
    obtain ⟨m, h2, h3⟩ := items_comp H h hc hcl hb hnb hs hcli hs' w rest hw (by omega)
    have hlen : (x ++ (s ++ (w ++ c :: rest))).length = (x.length + s.length + w.length + rest.length) + 1 := by
      simp only [List.length_append, List.length_cons]; omega
    rw [hlen]
    unfold manyN
    rw [if_pos (at_of H hx1 hb hnb), then_some.mpr ⟨_, h x _ (by omega) hx1 (items_free hs hcli hs' hw), h2⟩]
    exact h3 _ (by omega)

end

/-! ### Identifiers with export marks -/

/-- The text of a list of identifiers with the given marks. -/
def idents : List Bool → List Tok
  | [] => []
  | [m] => .ident :: if m then [.mul] else []
  | m :: ms => .ident :: ((if m then [.mul] else []) ++ .comma :: idents ms)

theorem idents_cons {m : Bool} {ms : List Bool} (h : ms ≠ []) :
    idents (m :: ms) = .ident :: ((if m then [.mul] else []) ++ .comma :: idents ms) := by
  cases ms with
  | nil => exact absurd rfl h
  | cons _ _ => rfl

theorem identList_some : ∀ {ts : List Tok} {ms : List Bool} {rest : List Tok}, parseIdentList ts = some (ms, rest) →
    ms ≠ [] ∧ ts = idents ms ++ rest := by
  intro ts
  induction ts using parseIdentList.induct with
  | case1 ts ih =>
    intro ms rest h
    rw [parseIdentList] at h
    obtain ⟨⟨ms', r'⟩, h1, h2⟩ := Option.map_eq_some_iff.mp h
    cases h2
    obtain ⟨h3, h4⟩ := ih h1
    exact ⟨nofun, by rw [idents_cons h3, h4]; simp⟩
  | case2 ts h0 =>
    intro ms rest h
    rw [parseIdentList] at h
    · cases h; exact ⟨nofun, rfl⟩
    · exact h0
  | case3 ts ih =>
    intro ms rest h
    rw [parseIdentList] at h
    obtain ⟨⟨ms', r'⟩, h1, h2⟩ := Option.map_eq_some_iff.mp h
    cases h2
    obtain ⟨h3, h4⟩ := ih h1
    exact ⟨nofun, by rw [idents_cons h3, h4]; simp⟩
  | case4 ts h0 h1 h2 =>
    intro ms rest h
    rw [parseIdentList] at h
    · cases h; exact ⟨nofun, rfl⟩
    · exact h0
    · exact h1
    · exact h2
  | case5 ts h0 h1 h2 h3 =>
    intro ms rest h
    rw [parseIdentList] at h
    · cases h
    all_goals assumption

theorem identList_idents {rest : List Tok} (hr : Free [.mul, .comma] rest) : ∀ {ms : List Bool}, ms ≠ [] →
    parseIdentList (idents ms ++ rest) = some (ms, rest)
  | [], h => absurd rfl h
  | [true], _ => by
    cases rest with
    | nil => rfl
    | cons x xs =>
      rw [free_cons] at hr
      show parseIdentList (.ident :: .mul :: x :: xs) = _
      rw [parseIdentList]
      intro ts h; cases h; exact hr (by decide)
  | [false], _ => by
    cases rest with
    | nil => rfl
    | cons x xs =>
      rw [free_cons] at hr
      show parseIdentList (.ident :: x :: xs) = _
      rw [parseIdentList]
      all_goals (intro ts h; cases h; exact hr (by decide))
  | m :: m' :: ms, _ => by
    have ih := identList_idents hr (ms := m' :: ms) nofun
    rw [idents_cons (List.cons_ne_nil _ _)]
    cases m
    · show parseIdentList (.ident :: .comma :: (idents (m' :: ms) ++ rest)) = _
      rw [parseIdentList, ih]; rfl
    · show parseIdentList (.ident :: .mul :: .comma :: (idents (m' :: ms) ++ rest)) = _
      rw [parseIdentList, ih]; rfl

/-! The same as texts of the rules. -/

theorem d_mark {ts : List Tok} : Derives accepted (nt .exportMark) ts ↔ ∃ m : Bool, ts = if m then [Tok.mul] else [] := by
  rw [d_nt]
  show Derives accepted (opt (tok .mul)) ts ↔ _
  rw [d_opt, d_tok]
  exact ⟨fun h => h.elim (fun h => ⟨false, h⟩) (fun h => ⟨true, h⟩), fun ⟨m, h⟩ => by cases m <;> simp_all⟩

theorem d_identList {ts : List Tok} : Derives accepted (nt .identList) ts ↔ ∃ ms, ms ≠ [] ∧ ts = idents ms := by
  have tail : ∀ {s : List Tok}, Derives accepted (star (tok .comma ⬝ tok .ident ⬝ nt .exportMark)) s →
      ∀ m : Bool, ∃ ms, ms ≠ [] ∧ Tok.ident :: ((if m then [.mul] else []) ++ s) = idents ms := by
    intro s hs
    generalize e : star (tok .comma ⬝ tok .ident ⬝ nt .exportMark) = e' at hs
    induction hs with
    | starNil => intro m; exact ⟨[m], nofun, by simp [idents]⟩
    | starCons h1 _ _ ih =>
      cases e
      intro m
      obtain ⟨_, rfl, h5⟩ := d_cons.mp h1
      obtain ⟨_, rfl, h6⟩ := d_cons.mp h5
      obtain ⟨m', rfl⟩ := d_mark.mp h6
      obtain ⟨ms, h2, h3⟩ := ih rfl m'
      refine ⟨m :: ms, nofun, ?_⟩
      rw [idents_cons h2, ← h3]; simp
    | _ => cases e
  constructor
  · intro h
    obtain ⟨_, rfl, h3⟩ := d_cons.mp (d_nt.mp h)
    obtain ⟨_, _, rfl, h1, h2⟩ := d_seq.mp h3
    obtain ⟨m, rfl⟩ := d_mark.mp h1
    exact tail h2 m
  · rintro ⟨ms, h, rfl⟩
    refine .nt ?_
    show Derives accepted (tok .ident ⬝ nt .exportMark ⬝ star (tok .comma ⬝ tok .ident ⬝ nt .exportMark)) _
    have : ∀ ms : List Bool, ms ≠ [] → ∃ (m : Bool) (s : List Tok), idents ms = Tok.ident :: ((if m then [.mul] else []) ++ s) ∧
        Derives accepted (star (tok .comma ⬝ tok .ident ⬝ nt .exportMark)) s := by
      intro ms
      induction ms with
      | nil => intro h; exact absurd rfl h
      | cons m ms ih =>
        intro _
        cases ms with
        | nil => exact ⟨m, [], by simp [idents], .starNil⟩
        | cons m' ms =>
          obtain ⟨m2, s, h1, h2⟩ := ih nofun
          refine ⟨m, .comma :: idents (m' :: ms), rfl, ?_⟩
          rw [h1]
          exact .starCons (xs := .comma :: .ident :: (if m2 then [.mul] else [])) (.cons (.cons (d_mark.mpr ⟨m2, rfl⟩))) h2
    obtain ⟨m, s, h1, h2⟩ := this ms h
    rw [h1]
    exact .cons (.seq (d_mark.mpr ⟨m, rfl⟩) h2)

theorem d_names {ts : List Tok} : Derives accepted (nt .names) ts ↔ ∃ ms, ms ≠ [] ∧ ms.any id = false ∧ ts = idents ms := by
  constructor
  · intro h
    obtain ⟨s, rfl, hs⟩ := d_cons.mp (d_nt.mp h)
    clear h
    generalize e : star (tok .comma ⬝ tok .ident) = e' at hs
    induction hs with
    | starNil => exact ⟨[false], nofun, rfl, rfl⟩
    | starCons h1 _ _ ih =>
      cases e
      obtain ⟨_, rfl, h5⟩ := d_cons.mp h1
      rw [d_tok.mp h5]
      obtain ⟨ms, h2, h3, h4⟩ := ih rfl
      exact ⟨false :: ms, nofun, h3, by rw [idents_cons h2, ← h4]; simp⟩
    | _ => cases e
  · rintro ⟨ms, h, h', rfl⟩
    refine .nt ?_
    show Derives accepted (tok .ident ⬝ star (tok .comma ⬝ tok .ident)) _
    induction ms with
    | nil => exact absurd rfl h
    | cons m ms ih =>
      cases m with
      | true => cases h'
      | false =>
        cases ms with
        | nil => exact .cons .starNil
        | cons m' ms =>
          obtain ⟨s, h1, h2⟩ := d_cons.mp (ih nofun h')
          rw [idents_cons (List.cons_ne_nil _ _), h1]
          exact .cons (.starCons (xs := [.comma, .ident]) (.cons .tok) h2)

end Umka.Syntax
