import Verif.Paths.Spec

namespace Umka.Paths

/-! ## Running over a name -/

/-- A text that leaves its dots in the output. -/
def good : Nat → List Char → Bool
  | d, [] => d == 0
  | d, c :: cs =>
    if slash c then false
    else if c == '.' then good (d + 1) cs
    else (d == 0 || !blank c) && good 0 cs

theorem run_append (s : St) (a b : List Char) : run s (a ++ b) = (run s a).bind (run · b) := by
  induction a generalizing s with
  | nil => rfl
  | cons c cs ih =>
    rw [List.cons_append, run, run]
    cases stepChar s c with
    | none => rfl
    | some s' => exact ih s'

theorem run_good (w : List Char) : ∀ (out : List Char) (seps : List Nat) (d : Nat), good d w = true →
    run ⟨out, seps, d⟩ w = some ⟨out ++ List.replicate d '.' ++ w, seps, 0⟩ := by
  induction w with
  | nil =>
    intro out seps d h
    have : d = 0 := by simpa [good] using h
    subst this
    simp [run]
  | cons c cs ih =>
    intro out seps d h
    rw [good] at h
    rw [run, stepChar]
    by_cases hs : slash c = true
    · simp [hs] at h
    · by_cases hd : (c == '.') = true
      · have hc : c = '.' := by simpa using hd
        simp only [hs, hd, if_true] at h ⊢
        have h : good (d + 1) cs = true := by simpa using h
        simp only [Bool.false_eq_true, if_false]
        rw [ih _ _ _ h, hc]
        simp [List.replicate_succ']
      · simp only [hs, hd, if_false, Bool.and_eq_true, Bool.or_eq_true, beq_iff_eq, Bool.not_eq_true', Bool.false_eq_true]
          at h ⊢
        rw [ih _ _ _ h.2]
        by_cases hb : blank c = true
        · have : d = 0 := by
            rcases h.1 with h | h
            · exact h
            · rw [hb] at h; cases h
          subst this
          simp [hb]
        · simp [hb]

theorem good_of {w : List Char} : ∀ {d : Nat}, (∀ c ∈ w, ¬ slash c) → (w = [] → d = 0) → w.getLast? ≠ some '.' →
    (∀ c b, w = c :: b → d > 0 → ¬ blank c) → (∀ a c b, w = a ++ '.' :: c :: b → ¬ blank c) → good d w = true := by
  induction w with
  | nil =>
    intro d _ h _ _ _
    simp [good, h rfl]
  | cons c cs ih =>
    intro d hsl _ hlast hhead hin
    rw [good]
    have hc : ¬ slash c = true := hsl c (by simp)
    simp only [hc, if_false, Bool.false_eq_true]
    have hsl' : ∀ x ∈ cs, ¬ slash x = true := fun x hx => hsl x (by simp [hx])
    have hin' : ∀ a x b, cs = a ++ '.' :: x :: b → ¬ blank x = true := fun a x b h => hin (c :: a) x b (by simp [h])
    by_cases hd : (c == '.') = true
    · have hc' : c = '.' := by simpa using hd
      simp only [hd, if_true]
      apply ih hsl'
      · intro e; subst e; subst hc'; simp at hlast
      · intro e
        apply hlast
        cases cs with
        | nil => simp at e
        | cons y ys => rw [List.getLast?_cons_cons]; exact e
      · intro x b e _
        exact hin [] x b (by simp [e, hc'])
      · exact hin'
    · simp only [hd, if_false, Bool.and_eq_true, Bool.or_eq_true, beq_iff_eq, Bool.not_eq_true', Bool.false_eq_true]
      refine ⟨?_, ?_⟩
      · by_cases h0 : d = 0
        · exact Or.inl h0
        · right
          have := hhead c cs rfl (by omega)
          simpa using this
      · apply ih hsl'
        · intro _; rfl
        · intro e
          apply hlast
          cases cs with
          | nil => simp at e
          | cons y ys => rw [List.getLast?_cons_cons]; exact e
        · intro x b _ h; omega
        · exact hin'

theorem blank_iff {c : Char} : blank c = true ↔ c = ' ' ∨ c = '\t' := by simp [blank]

theorem slash_iff {c : Char} : slash c = true ↔ c = '/' ∨ c = '\\' := by simp [slash]

theorem Ordinary.ne_nil {w : List Char} (h : Ordinary w) : w ≠ [] := by
  obtain ⟨⟨c, hc, _⟩, _⟩ := h
  intro e; subst e; simp at hc

theorem Ordinary.good {w : List Char} (h : Ordinary w) (hs : ∀ c ∈ w, ¬ slash c = true) : Paths.good 0 w = true := by
  obtain ⟨h1, h2, h3⟩ := h
  exact good_of hs (fun _ => rfl) h2 (fun _ _ _ h => absurd h (by omega))
    (fun a c b e hb => h3 a c b e (blank_iff.mp hb))

/-! ## Components -/

theorem components_ne_nil (p : List Char) : components p ≠ [] := by
  cases p with
  | nil => simp [components]
  | cons c cs =>
    rw [components]
    split
    · simp
    · split <;> simp

theorem components_split (p : List Char) : ∀ (w : List Char) (ws : List (List Char)), components p = w :: ws →
    (∀ c ∈ w, ¬ slash c = true) ∧
    ((ws = [] ∧ p = w) ∨ (∃ s p', slash s = true ∧ p = w ++ s :: p' ∧ components p' = ws)) := by
  induction p with
  | nil =>
    intro w ws h
    simp only [components, List.cons.injEq] at h
    obtain ⟨h1, h2⟩ := h
    subst h1; subst h2
    simp
  | cons c cs ih =>
    intro w ws h
    rw [components] at h
    split at h
    · rename_i hc
      simp only [List.cons.injEq] at h
      obtain ⟨h1, h2⟩ := h
      subst h1
      exact ⟨by simp, Or.inr ⟨c, cs, slash_iff.mpr hc, rfl, h2⟩⟩
    · rename_i hc
      split at h
      · rename_i e; exact absurd e (components_ne_nil cs)
      · rename_i v vs e
        simp only [List.cons.injEq] at h
        obtain ⟨h1, h2⟩ := h
        subst h1; subst h2
        obtain ⟨i1, i2⟩ := ih v vs e
        refine ⟨?_, ?_⟩
        · intro x hx
          rcases List.mem_cons.mp hx with hx | hx
          · subst hx; rw [slash_iff]; exact hc
          · exact i1 x hx
        · rcases i2 with ⟨i2, i3⟩ | ⟨s, p', i2, i3, i4⟩
          · exact Or.inl ⟨i2, by rw [i3]⟩
          · exact Or.inr ⟨s, p', i2, by rw [i3]; rfl, i4⟩

/-! ## The main loop against the specification -/

/-- The positions of the slashes in `spell F ++ "/"`. -/
def sepsOf : Nat → List (List Char) → List Nat
  | k, [] => [k]
  | k, w :: ws => k :: sepsOf (k + 1 + w.length) ws

theorem sepsOf_length (k : Nat) (F : List (List Char)) : (sepsOf k F).length = F.length + 1 := by
  induction F generalizing k with
  | nil => rfl
  | cons w ws ih => simp [sepsOf, ih]

theorem spell_append (F G : List (List Char)) : spell (F ++ G) = spell F ++ spell G := by
  induction F with
  | nil => rfl
  | cons w ws ih => simp [spell, ih]

theorem sepsOf_snoc (k : Nat) (F : List (List Char)) (w : List Char) :
    sepsOf k (F ++ [w]) = sepsOf k F ++ [k + (spell F).length + 1 + w.length] := by
  induction F generalizing k with
  | nil => simp [sepsOf, spell]
  | cons v vs ih =>
    simp only [List.cons_append, sepsOf, ih, spell, List.length_append, List.length_cons]
    congr 3
    omega

theorem sepsOf_last (k : Nat) (F : List (List Char)) (j : Nat) :
    (sepsOf k F).getD ((sepsOf k F).length - 1) j = k + (spell F).length := by
  induction F generalizing k with
  | nil => simp [sepsOf, spell]
  | cons v vs ih =>
    have := ih (k + 1 + v.length)
    rw [sepsOf_length] at this
    simp only [sepsOf, List.length_cons, sepsOf_length, spell, List.length_append]
    simp only [Nat.add_sub_cancel] at this ⊢
    rw [List.getD_cons_succ, this]
    omega

/-- The state after the folder `F`. -/
def at_ (F : List (List Char)) : St := ⟨spell F ++ ['/'], sepsOf 0 F, 0⟩

theorem step_down {F : List (List Char)} {w : List Char} {s : Char} (hs : slash s = true) :
    stepChar ⟨spell F ++ ['/'] ++ w, sepsOf 0 F, 0⟩ s = some (at_ (F ++ [w])) := by
  rw [stepChar]
  simp only [hs, if_true]
  rw [if_neg (by decide), if_neg (by decide)]
  simp only [at_, sepsOf_snoc, spell_append, spell, List.length_append, List.length_cons, List.length_nil]
  simp

theorem step_here {F : List (List Char)} {s : Char} (hs : slash s = true) :
    run (at_ F) ['.', s] = some (at_ F) := by
  simp [run, stepChar, at_, hs, show slash '.' = false from rfl]

theorem step_up {F : List (List Char)} {s : Char} (hs : slash s = true) :
    run (at_ F) ['.', '.', s] = if F = [] then none else some (at_ F.dropLast) := by
  rcases List.eq_nil_or_concat F with h | ⟨G, w, h⟩
  · subst h
    simp [run, stepChar, at_, hs, show slash '.' = false from rfl, sepsOf]
  · subst h
    have h1 : (sepsOf 0 (G ++ [w])).length = G.length + 2 := by rw [sepsOf_length]; simp
    have h2 : (sepsOf 0 (G ++ [w])).take (G.length + 1) = sepsOf 0 G := by
      rw [sepsOf_snoc, List.take_append_of_le_length (by rw [sepsOf_length]; exact Nat.le_refl _), ← sepsOf_length 0 G,
        List.take_length]
    simp only [run, stepChar, at_, hs, if_true, List.concat_eq_append]
    simp only [show slash '.' = false from rfl, Bool.false_eq_true, if_false, beq_self_eq_true, if_true]
    simp only [Nat.zero_add, Nat.reduceAdd, Nat.reduceEqDiff, if_false, if_true]
    rw [if_neg (by omega), h1]
    simp only [show G.length + 2 - 1 = G.length + 1 from rfl, h2, sepsOf_last, spell_append, spell]
    simp only [List.append_eq_nil_iff, List.cons_ne_nil, and_false, if_false, List.dropLast_concat, Nat.zero_add]
    have e : spell G ++ ('/' :: w ++ []) ++ ['/'] = (spell G ++ ['/']) ++ (w ++ ['/']) := by simp
    rw [e]
    congr 2
    exact List.take_left' (by simp)

theorem run_components (ws : List (List Char)) : ∀ (p : List Char) (F : List (List Char)), components p = ws →
    (∀ w ∈ ws, Ordinary w ∨ w = ['.'] ∨ w = ['.', '.']) → (∃ vs v, ws = vs ++ [v] ∧ Ordinary v) →
    (run (at_ F) p).map (fun s => (s.out, s.dots)) = (follow F ws).map (fun G => (spell G, 0)) := by
  induction ws with
  | nil => intro p F h; exact absurd h (components_ne_nil p)
  | cons w ws ih =>
    intro p F hp hall hlast
    obtain ⟨hns, hsplit⟩ := components_split p w ws hp
    rcases hsplit with ⟨hnil, hpw⟩ | ⟨s, p', hs, hpw, hp'⟩
    · subst hnil; subst hpw
      have ho : Ordinary p := by
        obtain ⟨vs, v, e, hv⟩ := hlast
        cases vs with
        | nil => simp at e; rw [e]; exact hv
        | cons => simp at e
      rw [at_, run_good p _ _ _ (ho.good hns), follow]
      rw [if_neg, if_neg, follow]
      · simp [spell_append, spell]
      · intro e; rw [e] at ho; exact ho.2.1 rfl
      · rintro (e | e)
        · exact ho.ne_nil e
        · rw [e] at ho; exact ho.2.1 rfl
    · subst hpw
      have hall' : ∀ w ∈ ws, Ordinary w ∨ w = ['.'] ∨ w = ['.', '.'] := fun x hx => hall x (by simp [hx])
      have hlast' : ∃ vs v, ws = vs ++ [v] ∧ Ordinary v := by
        obtain ⟨vs, v, e, hv⟩ := hlast
        cases vs with
        | nil =>
          simp at e
          exact absurd (hp'.trans e.2) (components_ne_nil p')
        | cons x xs => simp at e; exact ⟨xs, v, e.2, hv⟩
      have hsplit : w ++ s :: p' = (w ++ [s]) ++ p' := by simp
      rw [hsplit, run_append, follow]
      rcases hall w (by simp) with ho | ho | ho
      · rw [if_neg, if_neg]
        · have : run (at_ F) (w ++ [s]) = some (at_ (F ++ [w])) := by
            rw [run_append, at_, run_good w _ _ _ (ho.good hns)]
            have := step_down (F := F) (w := w) hs
            simp only [Option.bind_some, List.replicate_zero, List.append_nil, run]
            rw [this]
          rw [this]
          exact ih p' _ hp' hall' hlast'
        · intro e; rw [e] at ho; exact ho.2.1 rfl
        · rintro (e | e)
          · exact ho.ne_nil e
          · rw [e] at ho; exact ho.2.1 rfl
      · subst ho
        rw [if_pos (Or.inr rfl), List.cons_append, List.nil_append, step_here hs]
        exact ih p' _ hp' hall' hlast'
      · subst ho
        rw [if_neg (by decide), if_pos rfl, List.cons_append, List.cons_append, List.nil_append, step_up hs]
        split
        · rfl
        · exact ih p' _ hp' hall' hlast'

theorem regularize_eq {text : List Char} (ho : OrdinaryPath text) :
    (match run ⟨[], [], 0⟩ ('/' :: text) with
      | none => none
      | some s => if s.dots > 0 then none else some s.out) = (denotes ('/' :: text)).map spell := by
  have h0 : run ⟨[], [], 0⟩ ('/' :: text) = run (at_ []) text := by
    rw [run]; simp [stepChar, slash, at_, spell, sepsOf]
  have h1 : denotes ('/' :: text) = follow [] (components text) := by
    rw [denotes, components, if_pos (Or.inl rfl), follow, if_pos (Or.inl rfl)]
  have h2 := run_components (components text) text [] rfl ho.1 ho.2
  rw [h0, h1]
  cases hr : run (at_ []) text with
  | none =>
    rw [hr] at h2
    cases hf : follow [] (components text) with
    | none => rfl
    | some G => rw [hf] at h2; cases h2
  | some s =>
    rw [hr] at h2
    cases hf : follow [] (components text) with
    | none => rw [hf] at h2; cases h2
    | some G =>
      rw [hf] at h2
      simp only [Option.map_some, Option.some.injEq, Prod.mk.injEq] at h2
      simp [h2.1, h2.2]

/-! ## Absolute paths -/

theorem isAbsolute_of_word {w rest : List Char} (hs : ∀ c ∈ w, ¬ slash c = true) (hb : ∃ c ∈ w, ¬ blank c = true) :
    isAbsolute (w ++ rest) = false := by
  induction w with
  | nil => obtain ⟨c, hc, _⟩ := hb; simp at hc
  | cons c cs ih =>
    rw [List.cons_append, isAbsolute]
    split
    · rename_i h
      apply ih (fun x hx => hs x (by simp [hx]))
      obtain ⟨x, hx, hx'⟩ := hb
      rcases List.mem_cons.mp hx with e | hx
      · subst e; exact absurd h hx'
      · exact ⟨x, hx, hx'⟩
    · have := hs c (by simp)
      rw [slash_iff] at this
      simp
      intro e; exact this (Or.inl e)

theorem OrdinaryPath.relative {p : List Char} (h : OrdinaryPath p) : isAbsolute p = false := by
  cases hc : components p with
  | nil => exact absurd hc (components_ne_nil p)
  | cons w ws =>
    obtain ⟨h1, h2⟩ := components_split p w ws hc
    have hb : ∃ c ∈ w, ¬ blank c = true := by
      rcases h.1 w (by rw [hc]; simp) with ho | e | e
      · obtain ⟨⟨c, hm, hn⟩, _⟩ := ho
        exact ⟨c, hm, fun hb => hn (blank_iff.mp hb)⟩
      · subst e; exact ⟨'.', by simp, by decide⟩
      · subst e; exact ⟨'.', by simp, by decide⟩
    rcases h2 with ⟨_, e⟩ | ⟨s, p', _, e, _⟩
    · rw [e]; have := isAbsolute_of_word (rest := []) h1 hb; simpa using this
    · rw [e]; exact isAbsolute_of_word h1 hb

/-! ## Normal forms -/

/-- The number of dots after a normal text. -/
def scan : Nat → List Char → Option Nat
  | d, [] => some d
  | d, c :: cs =>
    if slash c then if c == '/' && d == 0 then scan 0 cs else none
    else if c == '.' then scan (d + 1) cs
    else if d == 0 || !blank c then scan 0 cs else none

theorem scan_append (d : Nat) (a b : List Char) : scan d (a ++ b) = (scan d a).bind (scan · b) := by
  induction a generalizing d with
  | nil => rfl
  | cons c cs ih =>
    simp only [List.cons_append, scan]
    split
    · split
      · exact ih _
      · rfl
    · split
      · exact ih _
      · split
        · exact ih _
        · rfl

theorem scan_dots (d k : Nat) : scan d (List.replicate k '.') = some (d + k) := by
  induction k generalizing d with
  | zero => rfl
  | succ k ih =>
    rw [List.replicate_succ, scan, if_neg (by decide), if_pos (by decide), ih]
    congr 1; omega

theorem run_scan (l : List Char) : ∀ (out : List Char) (seps : List Nat) (d e : Nat), scan d l = some e →
    ∃ seps', (run ⟨out, seps, d⟩ l).map (fun s => (s.out ++ List.replicate s.dots '.', s.seps, s.dots)) =
      some (out ++ List.replicate d '.' ++ l, seps', e) := by
  induction l with
  | nil =>
    intro out seps d e h
    simp only [scan, Option.some.injEq] at h
    subst h
    exact ⟨seps, by simp [run]⟩
  | cons c cs ih =>
    intro out seps d e h
    rw [scan] at h
    rw [run, stepChar]
    split at h
    · rename_i hs
      split at h
      · rename_i hd
        simp only [Bool.and_eq_true, beq_iff_eq] at hd
        obtain ⟨hc, hd⟩ := hd
        subst hc; subst hd
        simp only [hs, if_true]
        rw [if_neg (by decide), if_neg (by decide)]
        obtain ⟨s', h'⟩ := ih (out ++ ['/']) (seps ++ [out.length]) 0 e h
        exact ⟨s', by simpa using h'⟩
      · cases h
    · rename_i hs
      simp only [hs, if_false, Bool.false_eq_true]
      split at h
      · rename_i hc
        simp only [hc, if_true]
        have hc' : c = '.' := by simpa using hc
        obtain ⟨s', h'⟩ := ih out seps (d + 1) e h
        exact ⟨s', by rw [h', hc']; simp [List.replicate_succ']⟩
      · rename_i hc
        simp only [hc, if_false, Bool.false_eq_true]
        split at h
        · rename_i hb
          obtain ⟨s', h'⟩ := ih (out ++ List.replicate (if blank c = true then 0 else d) '.' ++ [c]) seps 0 e h
          refine ⟨s', ?_⟩
          rw [h']
          simp only [Bool.or_eq_true, beq_iff_eq, Bool.not_eq_true'] at hb
          by_cases hbc : blank c = true
          · have : d = 0 := by
              rcases hb with h | h
              · exact h
              · rw [hbc] at h; cases h
            subst this
            simp [hbc]
          · simp [hbc]
        · cases h

/-- What holds in each state of the loop. -/
structure Inv (s : St) : Prop where
  clean : scan 0 s.out = some 0
  slashes : ∀ i ∈ s.seps, s.out[i]? = some '/'
  sorted : s.seps.Pairwise (· < ·)

theorem le_last {l : List Nat} (h : l.Pairwise (· < ·)) : ∀ {i : Nat}, i ∈ l → i ≤ l.getD (l.length - 1) 0 := by
  induction l with
  | nil => intro i hi; simp at hi
  | cons a l ih =>
    intro i hi
    rw [List.pairwise_cons] at h
    cases l with
    | nil => simp at hi; subst hi; simp
    | cons b m =>
      have hlast : (a :: b :: m).getD ((a :: b :: m).length - 1) 0 = (b :: m).getD ((b :: m).length - 1) 0 := by
        simp only [List.length_cons, Nat.add_sub_cancel, List.getD_cons_succ]
      rw [hlast]
      rcases List.mem_cons.mp hi with e | hi
      · subst e
        have h1 := h.1 b (by simp)
        have h2 := ih h.2 (i := b) (by simp)
        omega
      · exact ih h.2 hi

theorem scan_take {l : List Char} {i : Nat} (h : scan 0 l = some 0) (hi : l[i]? = some '/') :
    scan 0 (l.take (i + 1)) = some 0 := by
  have hlt : i < l.length := by
    by_cases h : i < l.length
    · exact h
    · rw [List.getElem?_eq_none (by omega)] at hi; cases hi
  have e : l.take (i + 1) = l.take i ++ ['/'] := by
    rw [List.take_add_one, hi]; rfl
  have e2 : l = l.take (i + 1) ++ l.drop (i + 1) := (List.take_append_drop _ _).symm
  rw [e2, scan_append] at h
  cases hd : scan 0 (l.take (i + 1)) with
  | none => rw [hd] at h; cases h
  | some d =>
    rw [e, scan_append] at hd
    cases hx : scan 0 (l.take i) with
    | none => rw [hx] at hd; cases hd
    | some x =>
      rw [hx] at hd
      simp only [Option.bind_some, scan, show slash '/' = true from rfl, if_true, beq_self_eq_true, Bool.true_and] at hd
      split at hd
      · exact congrArg some (Option.some.inj hd).symm
      · cases hd

theorem inv_step {s s' : St} {c : Char} (hi : Inv s) (h : stepChar s c = some s') :
    Inv s' ∧ s'.out.length + s'.dots ≤ s.out.length + s.dots + 1 ∧ s'.seps.length ≤ s.seps.length + 1 := by
  rw [stepChar] at h
  split at h
  · split at h
    · cases h
      exact ⟨⟨hi.1, hi.2, hi.3⟩, by dsimp only; omega, by dsimp only; omega⟩
    · split at h
      · split at h
        · cases h
        · rename_i hlen
          simp only [Option.some.injEq] at h
          subst h
          have hl : (s.seps.take (s.seps.length - 1)).length = s.seps.length - 1 := by
            rw [List.length_take]; omega
          have hget : (s.seps.take (s.seps.length - 1)).getD ((s.seps.take (s.seps.length - 1)).length - 1) 0 ∈ s.seps := by
            rw [hl, List.getD_eq_getElem?_getD, List.getElem?_take, if_pos (by omega),
              List.getElem?_eq_getElem (by omega)]
            exact List.getElem_mem _
          refine ⟨⟨scan_take hi.1 (hi.2 _ hget), ?_, ?_⟩, ?_, ?_⟩
          · intro i hm
            dsimp only at hm ⊢
            rw [List.getElem?_take]
            split
            · exact hi.2 i (List.mem_of_mem_take hm)
            · rename_i hlt
              have := le_last (hi.3.sublist (List.take_sublist _ _)) hm
              omega
          · exact hi.3.sublist (List.take_sublist _ _)
          · dsimp only; rw [List.length_take]; omega
          · dsimp only; rw [List.length_take]; omega
      · cases h
        refine ⟨⟨?_, ?_, ?_⟩, ?_, ?_⟩
        · rw [scan_append, hi.1]; rfl
        · intro i hm
          rcases List.mem_append.mp hm with hm | hm
          · have := hi.2 i hm
            have hlt : i < s.out.length := by
              by_cases h : i < s.out.length
              · exact h
              · rw [List.getElem?_eq_none (by omega)] at this; cases this
            rw [List.getElem?_append_left hlt]; exact this
          · simp only [List.mem_singleton] at hm
            subst hm
            simp
        · rw [List.pairwise_append]
          refine ⟨hi.3, by simp, ?_⟩
          intro a ha b hb
          simp only [List.mem_singleton] at hb
          subst hb
          have := hi.2 a ha
          by_cases h : a < s.out.length
          · exact h
          · rw [List.getElem?_eq_none (by omega)] at this; cases this
        · simp
        · simp
  · rename_i hs
    split at h
    · cases h
      exact ⟨⟨hi.1, hi.2, hi.3⟩, by dsimp only; omega, by dsimp only; omega⟩
    · rename_i hc
      simp only [Option.some.injEq] at h
      subst h
      refine ⟨⟨?_, ?_, hi.3⟩, ?_, by dsimp only; omega⟩
      · dsimp only
        rw [scan_append, scan_append, hi.1, Option.bind_some, scan_dots, Option.bind_some, scan]
        simp only [hs, hc, if_false, Bool.false_eq_true]
        by_cases hb : blank c = true
        · simp [hb, scan]
        · simp [hb, scan]
      · intro i hm
        have := hi.2 i hm
        have hlt : i < s.out.length := by
          by_cases h : i < s.out.length
          · exact h
          · rw [List.getElem?_eq_none (by omega)] at this; cases this
        dsimp only
        rw [List.append_assoc, List.getElem?_append_left hlt]; exact this
      · dsimp only
        simp only [List.length_append, List.length_replicate, List.length_cons, List.length_nil]
        split <;> omega

theorem inv_run (l : List Char) : ∀ {s s' : St}, Inv s → run s l = some s' →
    Inv s' ∧ s'.out.length + s'.dots ≤ s.out.length + s.dots + l.length ∧ s'.seps.length ≤ s.seps.length + l.length := by
  induction l with
  | nil =>
    intro s s' hi h
    simp only [run, Option.some.injEq] at h
    subst h
    exact ⟨hi, by simp, by simp⟩
  | cons c cs ih =>
    intro s s' hi h
    rw [run] at h
    cases hs : stepChar s c with
    | none => rw [hs] at h; cases h
    | some t =>
      rw [hs] at h
      obtain ⟨h1, h2, h3⟩ := inv_step hi hs
      obtain ⟨i1, i2, i3⟩ := ih h1 h
      exact ⟨i1, by simp only [List.length_cons]; omega, by simp only [List.length_cons]; omega⟩

theorem inv_init : Inv ⟨[], [], 0⟩ := ⟨rfl, by simp, by simp⟩

/-! ## The result is absolute -/

/-- The part of the output up to the first slash is kept. -/
structure Rooted (b : List Char) (s : St) : Prop where
  pre : ∃ r, s.out = b ++ '/' :: r
  le : ∀ i ∈ s.seps, b.length ≤ i
  some : s.seps ≠ []

theorem isAbsolute_blanks {b r : List Char} (hb : ∀ c ∈ b, blank c = true) : isAbsolute (b ++ '/' :: r) = true := by
  induction b with
  | nil => simp [isAbsolute, blank]
  | cons c cs ih =>
    rw [List.cons_append, isAbsolute, if_pos (hb c (by simp))]
    exact ih (fun x hx => hb x (by simp [hx]))

theorem absolute_split {l : List Char} (h : isAbsolute l = true) : ∃ b r, (∀ c ∈ b, blank c = true) ∧ l = b ++ '/' :: r := by
  induction l with
  | nil => simp [isAbsolute] at h
  | cons c cs ih =>
    rw [isAbsolute] at h
    split at h
    · rename_i hc
      obtain ⟨b, r, h1, h2⟩ := ih h
      refine ⟨c :: b, r, ?_, by rw [h2]; rfl⟩
      intro x hx
      rcases List.mem_cons.mp hx with e | hx
      · subst e; exact hc
      · exact h1 x hx
    · have : c = '/' := by simpa using h
      exact ⟨[], cs, by simp, by rw [this]; rfl⟩

theorem rooted_step {b : List Char} {s s' : St} {c : Char} (hi : Rooted b s) (h : stepChar s c = some s') : Rooted b s' := by
  obtain ⟨⟨r, hr⟩, h2, h3⟩ := hi
  have hlen : b.length < s.out.length := by rw [hr]; simp
  rw [stepChar] at h
  split at h
  · split at h
    · cases h; exact ⟨⟨r, hr⟩, h2, h3⟩
    · split at h
      · split at h
        · cases h
        · rename_i hl
          simp only [Option.some.injEq] at h
          subst h
          have hl2 : (s.seps.take (s.seps.length - 1)).length = s.seps.length - 1 := by
            rw [List.length_take]; omega
          have hget : (s.seps.take (s.seps.length - 1)).getD ((s.seps.take (s.seps.length - 1)).length - 1) 0 ∈ s.seps := by
            rw [hl2, List.getD_eq_getElem?_getD, List.getElem?_take, if_pos (by omega),
              List.getElem?_eq_getElem (by omega)]
            exact List.getElem_mem _
          have hle := h2 _ hget
          refine ⟨?_, ?_, ?_⟩
          · dsimp only
            generalize (s.seps.take (s.seps.length - 1)).getD ((s.seps.take (s.seps.length - 1)).length - 1) 0 = k at hle ⊢
            refine ⟨r.take (k - b.length), ?_⟩
            rw [hr, List.take_append, List.take_of_length_le (by omega),
              show k + 1 - b.length = (k - b.length) + 1 by omega, List.take_succ_cons]
          · intro i hi
            exact h2 i (List.mem_of_mem_take hi)
          · intro e
            dsimp only at e
            rw [e] at hl2
            simp at hl2
            omega
      · cases h
        refine ⟨⟨r ++ ['/'], by simp [hr]⟩, ?_, by simp⟩
        intro i hi
        rcases List.mem_append.mp hi with hi | hi
        · exact h2 i hi
        · simp only [List.mem_singleton] at hi; omega
  · split at h
    · cases h; exact ⟨⟨r, hr⟩, h2, h3⟩
    · simp only [Option.some.injEq] at h
      subst h
      exact ⟨⟨_, by dsimp only; rw [hr, List.append_assoc, List.append_assoc, List.cons_append]⟩, h2, h3⟩

theorem rooted_run {b : List Char} (l : List Char) : ∀ {s s' : St}, Rooted b s → run s l = some s' → Rooted b s' := by
  induction l with
  | nil => intro s s' hi h; simp only [run, Option.some.injEq] at h; subst h; exact hi
  | cons c cs ih =>
    intro s s' hi h
    rw [run] at h
    cases hs : stepChar s c with
    | none => rw [hs] at h; cases h
    | some t => rw [hs] at h; exact ih (rooted_step hi hs) h

theorem run_blanks {b : List Char} (hb : ∀ c ∈ b, blank c = true) : ∀ (out : List Char),
    run ⟨out, [], 0⟩ b = some ⟨out ++ b, [], 0⟩ := by
  induction b with
  | nil => intro out; simp [run]
  | cons c cs ih =>
    intro out
    have hc := hb c (by simp)
    have h1 : slash c = false := by
      rcases blank_iff.mp hc with e | e <;> subst e <;> rfl
    have h2 : (c == '.') = false := by
      rcases blank_iff.mp hc with e | e <;> subst e <;> rfl
    rw [run, stepChar]
    simp only [h1, h2, Bool.false_eq_true, if_false, hc, if_true]
    rw [ih (fun x hx => hb x (by simp [hx]))]
    simp

theorem absolute_result {l : List Char} {s : St} (h : isAbsolute l = true) (hr : run ⟨[], [], 0⟩ l = some s) :
    isAbsolute s.out = true := by
  obtain ⟨b, r, hb, e⟩ := absolute_split h
  subst e
  rw [run_append, run_blanks hb, Option.bind_some, run] at hr
  have hst : stepChar ⟨[] ++ b, [], 0⟩ '/' = some ⟨b ++ ['/'], [b.length], 0⟩ := by
    simp [stepChar, slash]
  rw [hst] at hr
  have : Rooted b ⟨b ++ ['/'], [b.length], 0⟩ := ⟨⟨[], rfl⟩, by simp, by simp⟩
  obtain ⟨⟨t, ht⟩, _, _⟩ := rooted_run r this hr
  rw [ht]
  exact isAbsolute_blanks hb

theorem regularize_fix {r cur : List Char} {size : Nat} (ha : isAbsolute r = true) (hl : r.length < size)
    (hs : scan 0 r = some 0) : regularize r cur size = some r := by
  have h0 : absolutePath r cur size = r := by
    rw [absolutePath, ha, if_pos rfl, List.nil_append, List.take_of_length_le (by omega)]
  rw [regularize, h0]
  obtain ⟨seps', h⟩ := run_scan r [] [] 0 0 hs
  cases hr : run ⟨[], [], 0⟩ r with
  | none => rw [hr] at h; cases h
  | some s =>
    rw [hr] at h
    simp only [Option.map_some, Option.some.injEq, Prod.mk.injEq, List.nil_append, List.replicate_zero] at h
    obtain ⟨h1, _, h3⟩ := h
    rw [h3] at h1
    simp at h1
    simp [h3, h1]

/-! ## Different files have different names -/

theorem components_noSlash (p : List Char) : ∀ w ∈ components p, ∀ c ∈ w, ¬ slash c = true := by
  induction p with
  | nil => simp [components]
  | cons c cs ih =>
    rw [components]
    split
    · intro w hw
      rcases List.mem_cons.mp hw with e | hw
      · subst e; simp
      · exact ih w hw
    · rename_i hc
      split
      · rename_i e; exact absurd e (components_ne_nil cs)
      · rename_i v vs e
        intro w hw
        rcases List.mem_cons.mp hw with e' | hw
        · subst e'
          intro x hx
          rcases List.mem_cons.mp hx with e' | hx
          · subst e'; rw [slash_iff]; exact hc
          · exact ih v (by rw [e]; simp) x hx
        · exact ih w (by rw [e]; simp [hw])

theorem follow_noSlash (ws : List (List Char)) (hws : ∀ w ∈ ws, ∀ c ∈ w, ¬ slash c = true) : ∀ (F G : List (List Char)),
    follow F ws = some G → (∀ w ∈ F, ∀ c ∈ w, ¬ slash c = true) → ∀ w ∈ G, ∀ c ∈ w, ¬ slash c = true := by
  induction ws with
  | nil => intro F G h hF; simp only [follow, Option.some.injEq] at h; subst h; exact hF
  | cons w ws ih =>
    intro F G h hF
    have ih := ih (fun x hx => hws x (by simp [hx]))
    rw [follow] at h
    split at h
    · exact ih F G h hF
    · split at h
      · split at h
        · cases h
        · exact ih _ G h (fun x hx => hF x (List.dropLast_subset _ hx))
      · refine ih _ G h ?_
        intro x hx
        rcases List.mem_append.mp hx with hx | hx
        · exact hF x hx
        · simp only [List.mem_singleton] at hx
          subst hx
          exact hws x (by simp)

theorem append_slash_inj {w v : List Char} {a b : List Char} (hw : ∀ c ∈ w, ¬ slash c = true) (hv : ∀ c ∈ v, ¬ slash c = true)
    (ha : a = [] ∨ ∃ r, a = '/' :: r) (hb : b = [] ∨ ∃ r, b = '/' :: r) (h : w ++ a = v ++ b) : w = v ∧ a = b := by
  induction w generalizing v with
  | nil =>
    cases v with
    | nil => exact ⟨rfl, h⟩
    | cons x xs =>
      exfalso
      rcases ha with e | ⟨r, e⟩
      · subst e; simp at h
      · subst e
        simp only [List.nil_append, List.cons_append, List.cons.injEq] at h
        exact hv x (by simp) (by rw [← h.1]; rfl)
  | cons y ys ih =>
    cases v with
    | nil =>
      exfalso
      rcases hb with e | ⟨r, e⟩
      · subst e; simp at h
      · subst e
        simp only [List.nil_append, List.cons_append, List.cons.injEq] at h
        exact hw y (by simp) (by rw [h.1]; rfl)
    | cons x xs =>
      simp only [List.cons_append, List.cons.injEq] at h
      obtain ⟨h1, h2⟩ := ih (fun c hc => hw c (by simp [hc])) (fun c hc => hv c (by simp [hc])) h.2
      exact ⟨by rw [h.1, h1], h2⟩

theorem spell_head (F : List (List Char)) : spell F = [] ∨ ∃ r, spell F = '/' :: r := by
  cases F with
  | nil => exact Or.inl rfl
  | cons w ws => exact Or.inr ⟨w ++ spell ws, rfl⟩

theorem spell_inj : ∀ (F G : List (List Char)), (∀ w ∈ F, ∀ c ∈ w, ¬ slash c = true) →
    (∀ w ∈ G, ∀ c ∈ w, ¬ slash c = true) → spell F = spell G → F = G
  | [], [], _, _, _ => rfl
  | [], _ :: _, _, _, h => by simp [spell] at h
  | _ :: _, [], _, _, h => by simp [spell] at h
  | w :: ws, v :: vs, hF, hG, h => by
    simp only [spell, List.cons_append, List.cons.injEq, true_and] at h
    obtain ⟨h1, h2⟩ := append_slash_inj (hF w (by simp)) (hG v (by simp)) (spell_head ws) (spell_head vs) h
    rw [h1, spell_inj ws vs (fun x hx => hF x (by simp [hx])) (fun x hx => hG x (by simp [hx])) h2]

/-! ## Names -/

theorem afterLast_le (p : Char → Bool) (l : List Char) : afterLast p l ≤ l.length := by
  induction l with
  | nil => simp [afterLast]
  | cons c cs ih =>
    rw [afterLast]
    split
    · simp; exact ih
    · split <;> simp

theorem afterLast_spec (p : Char → Bool) (l : List Char) :
    (∀ c ∈ l.drop (afterLast p l), p c = false) ∧
    (afterLast p l > 0 → ∃ c, l[afterLast p l - 1]? = some c ∧ p c = true) := by
  induction l with
  | nil => simp [afterLast]
  | cons c cs ih =>
    rw [afterLast]
    split
    · rename_i h
      refine ⟨?_, ?_⟩
      · rw [List.drop_succ_cons]; exact ih.1
      · intro _
        obtain ⟨x, hx, hp⟩ := ih.2 h
        refine ⟨x, ?_, hp⟩
        rw [Nat.add_sub_cancel]
        have : afterLast p cs = (afterLast p cs - 1) + 1 := by omega
        rw [this, List.getElem?_cons_succ]; exact hx
    · rename_i h
      have h0 : afterLast p cs = 0 := by omega
      rw [h0, List.drop_zero] at ih
      split
      · rename_i hc
        exact ⟨by simpa using ih.1, fun _ => ⟨c, rfl, hc⟩⟩
      · rename_i hc
        refine ⟨?_, fun h => absurd h (by omega)⟩
        intro x hx
        rw [List.drop_zero] at hx
        rcases List.mem_cons.mp hx with e | hx
        · subst e; simpa using hc
        · exact ih.1 x hx

end Umka.Paths
