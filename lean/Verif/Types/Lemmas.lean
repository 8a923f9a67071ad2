import Verif.Types.Spec
import Mathlib.Data.Fintype.Card
import Mathlib.Data.Fintype.Prod
/-! # Types: lemmas -/

namespace Umka.Types

/-! ## Short-circuit evaluation -/

theorem both_true {a b : Option Bool} : both a b = some true ↔ a = some true ∧ b = some true := by
  cases a with
  | none => simp [both]
  | some a => cases a <;> simp [both]

theorem both_not_false {a b : Option Bool} (ha : a ≠ some false) (hb : b ≠ some false) : both a b ≠ some false := by
  cases a with
  | none => simp [both]
  | some a =>
    cases a
    · exact absurd rfl ha
    · exact hb

theorem both_some {a b : Option Bool} (ha : a.isSome = true) (hb : b.isSome = true) : (both a b).isSome = true := by
  cases a with
  | none => cases ha
  | some a =>
    cases a
    · rfl
    · exact hb

theorem equivFields_true {n : Nat} {eq : Fin n → Fin n → Option Bool} : ∀ {fs fs' : List (Field n)},
    fs.length = fs'.length → (equivFields eq fs fs' = some true ↔
      ∀ (i : Nat) (f f' : Field n), fs[i]? = some f → fs'[i]? = some f' → f.name = f'.name ∧ eq f.type f'.type = some true)
  | [], [], _ => by simp [equivFields]
  | f :: fs, f' :: fs', h => by
    have ih := equivFields_true (eq := eq) (fs := fs) (fs' := fs') (by simpa using h)
    rw [equivFields]
    constructor
    · intro h
      split at h
      · cases h
      · next hn =>
        obtain ⟨h1, h2⟩ := both_true.mp h
        intro i a a' ha ha'
        cases i with
        | zero => cases ha; cases ha'; exact ⟨by simpa using hn, h1⟩
        | succ i => exact ih.mp h2 i a a' ha ha'
    · intro h
      have h0 := h 0 f f' rfl rfl
      rw [if_neg (by simp [h0.1]), both_true]
      exact ⟨h0.2, ih.mpr fun i a a' ha ha' => h (i + 1) a a' ha ha'⟩

theorem equivFields_not_false {n : Nat} {eq : Fin n → Fin n → Option Bool} : ∀ {fs fs' : List (Field n)},
    (∀ (i : Nat) (f f' : Field n), fs[i]? = some f → fs'[i]? = some f' → f.name = f'.name ∧ eq f.type f'.type ≠ some false) →
    equivFields eq fs fs' ≠ some false
  | [], fs', _ => by cases fs' <;> simp [equivFields]
  | f :: fs, [], _ => by simp [equivFields]
  | f :: fs, f' :: fs', h => by
    have h0 := h 0 f f' rfl rfl
    rw [equivFields, if_neg (by simp [h0.1])]
    exact both_not_false h0.2 (equivFields_not_false fun i a a' ha ha' => h (i + 1) a a' ha ha')

theorem equivFields_some {n : Nat} {eq : Fin n → Fin n → Option Bool} (h : ∀ a b, (eq a b).isSome = true) :
    ∀ {fs fs' : List (Field n)}, (equivFields eq fs fs').isSome = true
  | [], fs' => by cases fs' <;> rfl
  | f :: fs, [] => rfl
  | f :: fs, f' :: fs' => by
    rw [equivFields]
    split
    · rfl
    · exact both_some (h _ _) (equivFields_some h)

theorem equivParams_true {n : Nat} {eq : Fin n → Fin n → Option Bool} {dflt : Nat → Nat → Bool} {sk : Bool} {fd : Int} :
    ∀ {ps ps' : List (Param n)} {k : Nat}, ps.length = ps'.length → (equivParams eq dflt sk fd k ps ps' = some true ↔
      ∀ (i : Nat) (p p' : Param n), ps[i]? = some p → ps'[i]? = some p' → ¬ (i + k = 0 ∧ sk = true) →
        eq p.type p'.type = some true ∧ (fd ≤ (i + k : Nat) → dflt p.default p'.default = true))
  | [], [], k, _ => by simp [equivParams]
  | p :: ps, p' :: ps', k, h => by
    have ih := equivParams_true (eq := eq) (dflt := dflt) (sk := sk) (fd := fd) (ps := ps) (ps' := ps') (k := k + 1)
      (by simpa using h)
    have hsh : (∀ (i : Nat) (q q' : Param n), (p :: ps)[i]? = some q → (p' :: ps')[i]? = some q' → ¬ (i + k = 0 ∧ sk = true) →
        eq q.type q'.type = some true ∧ (fd ≤ (i + k : Nat) → dflt q.default q'.default = true)) ↔
        (¬ (k = 0 ∧ sk = true) → eq p.type p'.type = some true ∧ (fd ≤ (k : Nat) → dflt p.default p'.default = true)) ∧
        ∀ (i : Nat) (q q' : Param n), ps[i]? = some q → ps'[i]? = some q' → ¬ (i + (k + 1) = 0 ∧ sk = true) →
          eq q.type q'.type = some true ∧ (fd ≤ (i + (k + 1) : Nat) → dflt q.default q'.default = true) := by
      constructor
      · intro h
        refine ⟨fun hk => ?_, fun i q q' hq hq' hi => ?_⟩
        · have := h 0 p p' rfl rfl (by rw [Nat.zero_add]; exact hk)
          rw [Nat.zero_add] at this; exact this
        · have e : i + 1 + k = i + (k + 1) := by omega
          have := h (i + 1) q q' hq hq' (by rw [e]; exact hi)
          rw [e] at this; exact this
      · rintro ⟨h0, h1⟩ i q q' hq hq' hi
        cases i with
        | zero =>
          cases hq; cases hq'
          rw [Nat.zero_add] at hi ⊢
          exact h0 hi
        | succ i =>
          have e : i + 1 + k = i + (k + 1) := by omega
          rw [e] at hi ⊢
          exact h1 i q q' hq hq' hi
    rw [hsh, equivParams, ← ih]
    by_cases hk : k = 0 ∧ sk = true
    · rw [if_pos hk]; simp [hk]
    · rw [if_neg hk, both_true]
      by_cases hd : (k : Int) ≥ fd ∧ dflt p.default p'.default = false
      · rw [if_pos hd]
        constructor
        · rintro ⟨_, h⟩; cases h
        · rintro ⟨h, _⟩
          have := (h hk).2 hd.1
          rw [hd.2] at this; cases this
      · rw [if_neg hd]
        have hd' : fd ≤ (k : Nat) → dflt p.default p'.default = true := by
          intro h
          cases hb : dflt p.default p'.default with
          | true => rfl
          | false => exact absurd ⟨h, hb⟩ hd
        constructor
        · rintro ⟨h1, h2⟩; exact ⟨fun _ => ⟨h1, hd'⟩, h2⟩
        · rintro ⟨h1, h2⟩; exact ⟨(h1 hk).1, h2⟩

theorem equivParams_not_false {n : Nat} {eq : Fin n → Fin n → Option Bool} {dflt : Nat → Nat → Bool} {sk : Bool}
    {fd : Int} : ∀ {ps ps' : List (Param n)} {k : Nat},
      (∀ (i : Nat) (p p' : Param n), ps[i]? = some p → ps'[i]? = some p' → ¬ (i + k = 0 ∧ sk = true) →
        eq p.type p'.type ≠ some false ∧ (fd ≤ (i + k : Nat) → dflt p.default p'.default = true)) →
      equivParams eq dflt sk fd k ps ps' ≠ some false
  | [], ps', k, _ => by cases ps' <;> simp [equivParams]
  | p :: ps, [], k, _ => by simp [equivParams]
  | p :: ps, p' :: ps', k, h => by
    have ih : equivParams eq dflt sk fd (k + 1) ps ps' ≠ some false := equivParams_not_false fun i q q' hq hq' hi => by
      have e : i + 1 + k = i + (k + 1) := by omega
      have := h (i + 1) q q' hq hq' (by rw [e]; exact hi)
      rw [e] at this; exact this
    rw [equivParams]
    by_cases hk : k = 0 ∧ sk = true
    · rw [if_pos hk]; exact ih
    · rw [if_neg hk]
      have h0 := h 0 p p' rfl rfl (by rw [Nat.zero_add]; exact hk)
      rw [Nat.zero_add] at h0
      refine both_not_false h0.1 ?_
      rw [if_neg]
      · exact ih
      · rintro ⟨h1, h2⟩
        rw [h0.2 h1] at h2; cases h2

theorem equivParams_some {n : Nat} {eq : Fin n → Fin n → Option Bool} (h : ∀ a b, (eq a b).isSome = true)
    {dflt : Nat → Nat → Bool} {sk : Bool} {fd : Int} :
    ∀ {ps ps' : List (Param n)} {k : Nat}, (equivParams eq dflt sk fd k ps ps').isSome = true
  | [], ps', k => by cases ps' <;> rfl
  | p :: ps, [], k => rfl
  | p :: ps, p' :: ps', k => by
    rw [equivParams]
    split
    · exact equivParams_some h
    · refine both_some (h _ _) ?_
      split
      · rfl
      · exact equivParams_some h

/-! ## One step of the comparison -/

instance {g : Graph} {t : Fin g.n} : Decidable (Named g t) := inferInstanceAs (Decidable (_ = true))

theorem equivRec_succ (g : Graph) (depth : Nat) (visited : List (Fin g.n × Fin g.n)) (l r : Fin g.n) :
    equivRec g (depth + 1) visited l r =
      if visited.contains (l, r) then some true
      else if l = r then some true
      else if Named g l ∧ Named g r then
        some (decide ((g.node l).typeIdent = (g.node r).typeIdent) && decide ((g.node l).block = (g.node r).block))
      else look g (equivRec g depth ((l, r) :: visited)) l r := by
  rw [equivRec]
  split
  · rfl
  · split
    · rfl
    · split
      · next a b hl hr => rw [if_pos (by simp [Named, hl, hr]), hl, hr]; simp [beq_eq_decide]
      · next h =>
        rw [if_neg]
        · rintro ⟨h1, h2⟩
          obtain ⟨a, ha⟩ := Option.isSome_iff_exists.mp h1
          obtain ⟨b, hb⟩ := Option.isSome_iff_exists.mp h2
          exact h a b ha hb

theorem enum_kind {n : Nat} {t : Node n} (h : t.kind.integerOrEnum = false) : t.enum = false := by
  simp [Node.enum, h]

theorem look_true {g : Graph} {eq : Fin g.n → Fin g.n → Option Bool} {l r : Fin g.n} :
    look g eq l r = some true ↔ Alike g (fun a b => eq a b = some true) l r := by
  unfold look Alike
  dsimp only
  by_cases hk : (g.node l).kind = (g.node r).kind
  · rw [if_neg (by simp [hk])]
    have hr : (g.node r).kind = (g.node l).kind := hk.symm
    cases h : (g.node l).kind <;>
      simp only [h, hr, reduceCtorEq, or_self, or_false, false_or, true_or, or_true, if_false, if_true, true_and,
        ne_eq, enum_kind, Kind.integerOrEnum, Bool.or_self, Bool.false_eq_true, not_false_eq_true, and_self]
    case array => by_cases hn : (g.node l).numItems = (g.node r).numItems <;> simp [hn]
    case map => rw [both_true]
    case struct | interface | closure =>
      by_cases hn : (g.node l).fields.length = (g.node r).fields.length
      · rw [if_neg (by simp [hn]), equivFields_true hn]; simp [hn]
      · simp [hn]
    case fn =>
      by_cases hn : (g.node l).sig.params.length = (g.node r).sig.params.length
      · rw [if_neg (by simp [hn])]
        by_cases hd : (g.node l).sig.numDefault = (g.node r).sig.numDefault
        · rw [if_neg (by simp [hd])]
          by_cases hm : (g.node l).sig.isMethod = (g.node r).sig.isMethod
          · rw [if_neg (by simp [hm]), both_true, equivParams_true hn]
            have e : ∀ i : Nat, ((g.node l).sig.params.length - (g.node l).sig.numDefault : Int) ≤ (i + 0 : Nat) ↔
              (g.node l).sig.params.length ≤ i + (g.node l).sig.numDefault := by intro i; omega
            simp only [Nat.add_zero] at e ⊢
            simp only [e]
            constructor
            · rintro ⟨h1, h2⟩; exact ⟨hn, hd, hm, h2, h1⟩
            · rintro ⟨_, _, _, h2, h1⟩; exact ⟨h1, h2⟩
          · simp [hm]
        · simp [hd]
      · simp [hn]
    all_goals
      cases (g.node l).enum <;> cases (g.node r).enum <;> simp
  · simp [hk]

theorem look_not_false {g : Graph} {eq : Fin g.n → Fin g.n → Option Bool} {l r : Fin g.n}
    (h : Alike g (fun a b => eq a b ≠ some false) l r) : look g eq l r ≠ some false := by
  unfold Alike at h
  obtain ⟨hk, h⟩ := h
  unfold look
  dsimp only
  rw [if_neg (by simp [hk])]
  have hr : (g.node r).kind = (g.node l).kind := hk.symm
  cases hl : (g.node l).kind <;> rw [hl] at h <;> rw [hl] at hr <;>
    simp only [hl, hr, reduceCtorEq, or_self, or_false, true_or, or_true, if_false, if_true,
      ne_eq, enum_kind, Kind.integerOrEnum, Bool.or_self, Bool.false_eq_true, not_false_eq_true]
  case ptr | weakptr | dynarray => exact h
  case array => rw [if_neg (by simp [h.1])]; exact h.2
  case map => exact both_not_false h.1 h.2
  case struct | interface | closure => rw [if_neg (by simp [h.1])]; exact equivFields_not_false h.2
  case fn =>
    obtain ⟨hn, hd, hm, h2, h1⟩ := h
    rw [if_neg (by simp [hn]), if_neg (by simp [hd]), if_neg (by simp [hm])]
    refine both_not_false (equivParams_not_false fun i p p' hp hp' hi => ?_) h2
    obtain ⟨h3, h4⟩ := h1 i p p' hp hp' hi
    exact ⟨h3, fun hf => h4 (by omega)⟩
  all_goals simp [h.1, h.2]

theorem look_some {g : Graph} {eq : Fin g.n → Fin g.n → Option Bool} {l r : Fin g.n}
    (h : ∀ a b, (eq a b).isSome = true) : (look g eq l r).isSome = true := by
  unfold look
  dsimp only
  by_cases hk : (g.node l).kind = (g.node r).kind
  · rw [if_neg (by simp [hk])]
    have hr : (g.node r).kind = (g.node l).kind := hk.symm
    cases hl : (g.node l).kind <;>
      simp only [hl, hr, reduceCtorEq, or_self, or_false, true_or, or_true, if_false, if_true,
        ne_eq, enum_kind, Kind.integerOrEnum, Bool.or_self, Bool.false_eq_true]
    case ptr | weakptr | dynarray => exact h _ _
    case array =>
      split
      · rfl
      · exact h _ _
    case map => exact both_some (h _ _) (h _ _)
    case struct | interface | closure =>
      split
      · rfl
      · exact equivFields_some h
    case fn =>
      split
      · rfl
      · split
        · rfl
        · split
          · rfl
          · exact both_some (equivParams_some h) (h _ _)
    all_goals first
      | rfl
      | (split <;> rfl)
  · rw [if_pos hk]; rfl

theorem alike_mono {g : Graph} {R S : Fin g.n → Fin g.n → Prop} (hRS : ∀ a b, R a b → S a b) {l r : Fin g.n}
    (h : Alike g R l r) : Alike g S l r := by
  unfold Alike at h ⊢
  obtain ⟨hk, h⟩ := h
  refine ⟨hk, ?_⟩
  cases hl : (g.node l).kind <;> rw [hl] at h <;> dsimp only at h ⊢
  case ptr | weakptr | dynarray => exact hRS _ _ h
  case array => exact ⟨h.1, hRS _ _ h.2⟩
  case map => exact ⟨hRS _ _ h.1, hRS _ _ h.2⟩
  case struct | interface | closure =>
    exact ⟨h.1, fun i f f' hf hf' => ⟨(h.2 i f f' hf hf').1, hRS _ _ (h.2 i f f' hf hf').2⟩⟩
  case fn =>
    obtain ⟨hn, hd, hm, h2, h1⟩ := h
    exact ⟨hn, hd, hm, hRS _ _ h2, fun i p p' hp hp' hi => ⟨hRS _ _ (h1 i p p' hp hp' hi).1, (h1 i p p' hp hp' hi).2⟩⟩
  all_goals exact h

theorem alike_all {g : Graph} {R : Nat → Fin g.n → Fin g.n → Prop} {l r : Fin g.n}
    (h : ∀ k, Alike g (R k) l r) : Alike g (fun a b => ∀ k, R k a b) l r := by
  have h0 := (h 0).1
  refine ⟨h0, ?_⟩
  have h : ∀ k, _ := fun k => (h k).2
  cases hl : (g.node l).kind <;> rw [hl] at h <;> dsimp only at h ⊢
  case ptr | weakptr | dynarray => exact h
  case array => exact ⟨(h 0).1, fun k => (h k).2⟩
  case map => exact ⟨fun k => (h k).1, fun k => (h k).2⟩
  case struct | interface | closure =>
    exact ⟨(h 0).1, fun i f f' hf hf' => ⟨((h 0).2 i f f' hf hf').1, fun k => ((h k).2 i f f' hf hf').2⟩⟩
  case fn =>
    obtain ⟨hn, hd, hm, h2, h1⟩ := h 0
    exact ⟨hn, hd, hm, fun k => (h k).2.2.2.1,
      fun i p p' hp hp' hi => ⟨fun k => ((h k).2.2.2.2 i p p' hp hp' hi).1, (h1 i p p' hp hp' hi).2⟩⟩
  all_goals exact h 0

/-! ## The comparison decides equivalence -/

/-- Types that cannot be told apart by looking `k` levels deep. -/
def Approx (g : Graph) : Nat → Fin g.n → Fin g.n → Prop
  | 0, _, _ => True
  | k + 1, l, r =>
    l = r ∨ (Named g l ∧ Named g r ∧ SameName g l r) ∨ (¬ (Named g l ∧ Named g r) ∧ Alike g (Approx g k) l r)

theorem approx_pred {g : Graph} : ∀ {k : Nat} {l r : Fin g.n}, Approx g (k + 1) l r → Approx g k l r
  | 0, _, _, _ => trivial
  | k + 1, l, r, h => by
    rcases h with h | h | ⟨h1, h2⟩
    · exact Or.inl h
    · exact Or.inr (Or.inl h)
    · exact Or.inr (Or.inr ⟨h1, alike_mono (fun _ _ => approx_pred) h2⟩)

theorem approx_consistent {g : Graph} : Consistent g (fun l r => ∀ k, Approx g k l r) := by
  intro l r h
  by_cases he : l = r
  · exact Or.inl he
  · by_cases hn : Named g l ∧ Named g r
    · rcases h 1 with h | h | h
      · exact absurd h he
      · exact Or.inr (Or.inl h)
      · exact absurd hn h.1
    · refine Or.inr (Or.inr ⟨hn, alike_all fun k => ?_⟩)
      rcases h (k + 1) with h | h | h
      · exact absurd h he
      · exact absurd ⟨h.1, h.2.1⟩ hn
      · exact h.2

theorem sameName_iff {g : Graph} {l r : Fin g.n} :
    some (decide ((g.node l).typeIdent = (g.node r).typeIdent) && decide ((g.node l).block = (g.node r).block)) =
      some true ↔ SameName g l r := by
  unfold SameName; simp

theorem equivRec_approx {g : Graph} : ∀ {k depth : Nat} {vis : List (Fin g.n × Fin g.n)} {l r : Fin g.n},
    (∀ p ∈ vis, Approx g k p.1 p.2) → equivRec g depth vis l r = some true → Approx g k l r
  | 0, _, _, _, _, _, _ => trivial
  | k + 1, 0, vis, l, r, _, h => by cases h
  | k + 1, depth + 1, vis, l, r, hv, h => by
    have hk : Approx g k l r := equivRec_approx (depth := depth + 1) (fun p hp => approx_pred (hv p hp)) h
    rw [equivRec_succ] at h
    split at h
    · next hc => exact hv (l, r) (by simpa using hc)
    · split at h
      · next he => exact Or.inl he
      · split at h
        · next hn => exact Or.inr (Or.inl ⟨hn.1, hn.2, sameName_iff.mp h⟩)
        · next hn =>
          refine Or.inr (Or.inr ⟨hn, alike_mono (fun a b hab => ?_) (look_true.mp h)⟩)
          refine equivRec_approx (fun p hp => ?_) hab
          rcases List.mem_cons.mp hp with rfl | hp
          · exact hk
          · exact approx_pred (hv p hp)

theorem equivRec_sound {g : Graph} {depth : Nat} {l r : Fin g.n} (h : equivRec g depth [] l r = some true) :
    Equivalent g l r :=
  ⟨_, approx_consistent, fun _ => equivRec_approx (fun p hp => by cases hp) h⟩

theorem equivRec_not_false {g : Graph} {R : Fin g.n → Fin g.n → Prop} (hR : Consistent g R) :
    ∀ {depth : Nat} {vis : List (Fin g.n × Fin g.n)} {l r : Fin g.n}, R l r → equivRec g depth vis l r ≠ some false
  | 0, _, _, _, _ => by simp [equivRec]
  | depth + 1, vis, l, r, h => by
    rw [equivRec_succ]
    split
    · simp
    · split
      · simp
      · next he =>
        rcases hR l r h with h | h | h
        · exact absurd h he
        · rw [if_pos ⟨h.1, h.2.1⟩, sameName_iff.mpr h.2.2]; simp
        · rw [if_neg h.1]
          exact look_not_false (alike_mono (fun a b hab => equivRec_not_false hR hab) h.2)

theorem equivRec_some {g : Graph} : ∀ {depth : Nat} {vis : List (Fin g.n × Fin g.n)} {l r : Fin g.n}, vis.Nodup →
    g.n * g.n < depth + vis.length → (equivRec g depth vis l r).isSome = true
  | 0, vis, l, r, hn, hd => by
    have := hn.length_le_card
    rw [Fintype.card_prod, Fintype.card_fin] at this
    omega
  | depth + 1, vis, l, r, hn, hd => by
    rw [equivRec_succ]
    split
    · rfl
    · next hc =>
      split
      · rfl
      · split
        · rfl
        · refine look_some fun a b => equivRec_some ?_ ?_
          · exact List.nodup_cons.mpr ⟨by simpa using hc, hn⟩
          · rw [List.length_cons]; omega

/-! ## Symmetry, transitivity -/

theorem consistent_equivalent (g : Graph) : Consistent g (Equivalent g) := by
  rintro l r ⟨R, hR, h⟩
  rcases hR l r h with h | h | h
  · exact Or.inl h
  · exact Or.inr (Or.inl h)
  · exact Or.inr (Or.inr ⟨h.1, alike_mono (fun a b hab => ⟨R, hR, hab⟩) h.2⟩)

theorem equivalent_refl (g : Graph) (t : Fin g.n) : Equivalent g t t := ⟨Eq, fun _ _ h => Or.inl h, rfl⟩

/-- The pairs of related parts of alike types: parts of the one and the other. -/
theorem alike_children {g : Graph} {R : Fin g.n → Fin g.n → Prop} {l r : Fin g.n} (h : Alike g R l r) :
    Alike g (fun a b => R a b ∧ a ∈ children g l ∧ b ∈ children g r) l r := by
  have hk := h.1
  unfold Alike at h ⊢
  refine ⟨hk, ?_⟩
  have h := h.2
  have hr := hk.symm
  unfold children
  cases hl : (g.node l).kind <;> rw [hl] at h hr <;> simp only [hr] <;> dsimp only at h ⊢
  case ptr | weakptr | dynarray => exact ⟨h, by simp, by simp⟩
  case array => exact ⟨h.1, h.2, by simp, by simp⟩
  case map => exact ⟨⟨h.1, by simp, by simp⟩, h.2, by simp, by simp⟩
  case struct | interface | closure =>
    exact ⟨h.1, fun i f f' hf hf' => ⟨(h.2 i f f' hf hf').1, (h.2 i f f' hf hf').2,
      List.mem_map_of_mem (List.mem_of_getElem? hf), List.mem_map_of_mem (List.mem_of_getElem? hf')⟩⟩
  case fn =>
    obtain ⟨hn, hd, hm, h2, h1⟩ := h
    exact ⟨hn, hd, hm, ⟨h2, by simp, by simp⟩,
      fun i p p' hp hp' hi => ⟨⟨(h1 i p p' hp hp' hi).1,
        List.mem_cons_of_mem _ (List.mem_map_of_mem (List.mem_of_getElem? hp)),
        List.mem_cons_of_mem _ (List.mem_map_of_mem (List.mem_of_getElem? hp'))⟩, (h1 i p p' hp hp' hi).2⟩⟩
  all_goals exact h

/-- Both are methods of interfaces, or none is. -/
def SameFlag (g : Graph) (l r : Fin g.n) : Prop :=
  (g.node l).kind = .fn → (g.node r).kind = .fn → (g.node l).sig.isInterfaceMethod = (g.node r).sig.isInterfaceMethod

/-- The flags of corresponding parts agree. -/
theorem flags {g : Graph} (w : WellFormed g) {l r : Fin g.n} (hk : (g.node l).kind = (g.node r).kind) {a b : Fin g.n}
    (ha : a ∈ children g l) (hb : b ∈ children g r) : SameFlag g a b := by
  intro ka kb
  by_cases hi : (g.node l).kind = .interface
  · have hi' : (g.node r).kind = .interface := hk ▸ hi
    unfold children at ha hb
    rw [hi] at ha
    rw [hi'] at hb
    obtain ⟨f, hf, rfl⟩ := List.mem_map.mp ha
    obtain ⟨f', hf', rfl⟩ := List.mem_map.mp hb
    rw [w.methods l hi f hf ka, w.methods r hi' f' hf' kb]
  · have hi' : (g.node r).kind ≠ .interface := hk ▸ hi
    rw [w.noMethods l hi a ha ka, w.noMethods r hi' b hb kb]

theorem alike_symm {g : Graph} (w : WellFormed g) {R : Fin g.n → Fin g.n → Prop} {l r : Fin g.n} (hf : SameFlag g l r)
    (h : Alike g R l r) : Alike g (fun a b => R b a) r l := by
  have hk := h.1
  unfold Alike at h ⊢
  refine ⟨hk.symm, ?_⟩
  have h := h.2
  have hr := hk.symm
  cases hl : (g.node l).kind <;> rw [hl] at h hr <;> simp only [hr] <;> dsimp only at h ⊢
  case ptr | weakptr | dynarray => exact h
  case array => exact ⟨h.1.symm, h.2⟩
  case map => exact h
  case struct | interface | closure =>
    exact ⟨h.1.symm, fun i f f' hf hf' => ⟨(h.2 i f' f hf' hf).1.symm, (h.2 i f' f hf' hf).2⟩⟩
  case fn =>
    obtain ⟨hn, hd, hm, h2, h1⟩ := h
    refine ⟨hn.symm, hd.symm, hm.symm, h2, fun i p p' hp hp' hi => ?_⟩
    have := h1 i p' p hp' hp (by rw [hf hl hr]; exact hi)
    exact ⟨this.1, fun hle => w.dflt_symm _ _ (this.2 (by omega))⟩
  all_goals exact ⟨h.2, h.1⟩

theorem equivalent_symm {g : Graph} (w : WellFormed g) {l r : Fin g.n} (hl : Proper g l) (hr : Proper g r)
    (h : Equivalent g l r) : Equivalent g r l := by
  refine ⟨fun a b => Equivalent g b a ∧ SameFlag g b a, ?_, h, fun h1 h2 => by rw [hl h1, hr h2]⟩
  rintro a b ⟨h, hf⟩
  rcases consistent_equivalent g b a h with h | h | h
  · exact Or.inl h.symm
  · exact Or.inr (Or.inl ⟨h.2.1, h.1, h.2.2.1.symm, h.2.2.2.symm⟩)
  · refine Or.inr (Or.inr ⟨fun hn => h.1 hn.symm, ?_⟩)
    refine alike_mono ?_ (alike_symm w hf (alike_children h.2))
    rintro x y ⟨h1, h2, h3⟩
    exact ⟨h1, flags w h.2.1 h2 h3⟩

theorem alike_trans {g : Graph} (w : WellFormed g) {R S : Fin g.n → Fin g.n → Prop} {a b c : Fin g.n}
    (hf : SameFlag g a b) (h1 : Alike g R a b) (h2 : Alike g S b c) :
    Alike g (fun x z => ∃ y, R x y ∧ S y z) a c := by
  have k1 := h1.1
  have k2 := h2.1
  unfold Alike at h1 h2 ⊢
  refine ⟨k1.trans k2, ?_⟩
  have h1 := h1.2
  have h2 := h2.2
  have hb := k1.symm
  cases ha : (g.node a).kind <;> rw [ha] at h1 hb <;> rw [hb] at h2 <;> dsimp only at h1 h2 ⊢
  case ptr | weakptr | dynarray => exact ⟨_, h1, h2⟩
  case array => exact ⟨h1.1.trans h2.1, _, h1.2, h2.2⟩
  case map => exact ⟨⟨_, h1.1, h2.1⟩, _, h1.2, h2.2⟩
  case struct | interface | closure =>
    refine ⟨h1.1.trans h2.1, fun i f f' hf hf' => ?_⟩
    have hi : i < (g.node b).fields.length := by
      rw [← h1.1]; exact (List.getElem?_eq_some_iff.mp hf).1
    have e := List.getElem?_eq_getElem hi
    obtain ⟨n1, r1⟩ := h1.2 i _ _ hf e
    obtain ⟨n2, r2⟩ := h2.2 i _ _ e hf'
    exact ⟨n1.trans n2, _, r1, r2⟩
  case fn =>
    obtain ⟨hn, hd, hm, r1, p1⟩ := h1
    obtain ⟨hn', hd', hm', r2, p2⟩ := h2
    refine ⟨hn.trans hn', hd.trans hd', hm.trans hm', ⟨_, r1, r2⟩, fun i p p' hp hp' hi => ?_⟩
    have hlt : i < (g.node b).sig.params.length := by
      rw [← hn]; exact (List.getElem?_eq_some_iff.mp hp).1
    have e := List.getElem?_eq_getElem hlt
    obtain ⟨q1, d1⟩ := p1 i _ _ hp e hi
    obtain ⟨q2, d2⟩ := p2 i _ _ e hp' (by rw [← hf ha hb]; exact hi)
    exact ⟨⟨_, q1, q2⟩, fun hle => w.dflt_trans _ _ _ (d1 hle) (d2 (by omega))⟩
  all_goals exact ⟨h1.1, h2.2⟩

theorem alike_of_node {g : Graph} {R : Fin g.n → Fin g.n → Prop} (hR : ∀ t, R t t) (w : WellFormed g) {a b : Fin g.n}
    (h : g.node a = g.node b) (he : (g.node a).enum = false) : Alike g R a b := by
  have hm : mapKey g a = mapKey g b := by unfold mapKey; rw [h]
  unfold Alike
  rw [← h]
  refine ⟨rfl, ?_⟩
  cases hk : (g.node a).kind <;> dsimp only
  case ptr | weakptr | dynarray => exact hR _
  case array => exact ⟨rfl, hR _⟩
  case map => rw [← hm]; exact ⟨hR _, hR _⟩
  case struct | interface | closure =>
    refine ⟨rfl, fun i f f' hf hf' => ?_⟩
    rw [hf] at hf'; cases hf'; exact ⟨rfl, hR _⟩
  case fn =>
    refine ⟨rfl, rfl, rfl, hR _, fun i p p' hp hp' _ => ?_⟩
    rw [hp] at hp'; cases hp'; exact ⟨hR _, fun _ => w.dflt_refl _⟩
  all_goals exact ⟨he, he⟩

theorem alike_enum {g : Graph} {R : Fin g.n → Fin g.n → Prop} {a b : Fin g.n} (h : Alike g R a b) :
    (g.node a).enum = false := by
  have h := h.2
  cases hk : (g.node a).kind <;> rw [hk] at h <;> first | exact h.1 | exact enum_kind (by rw [hk]; rfl)

/-- Two parts that are equivalent to a third one. -/
def Comp (g : Graph) (a c x z : Fin g.n) : Prop :=
  (∃ y, Equivalent g x y ∧ Equivalent g y z ∧ SameFlag g x y ∧ SameFlag g y z) ∧ x ∈ children g a ∧ z ∈ children g c

theorem comp_alike {g : Graph} (w : WellFormed g) {a b c : Fin g.n} (h1 : Equivalent g a b) (h2 : Equivalent g b c)
    (f1 : SameFlag g a b) (hn : ¬ (Named g a ∧ Named g c)) : a = c ∨ Alike g (Comp g a c) a c := by
  have both : Alike g (Equivalent g) a b → Alike g (Equivalent g) b c → Alike g (Comp g a c) a c := by
    intro ha hb
    refine alike_mono ?_ (alike_trans w f1 (alike_children ha) (alike_children hb))
    rintro x z ⟨y, ⟨e1, x1, y1⟩, e2, y2, z2⟩
    exact ⟨⟨y, e1, e2, flags w ha.1 x1 y1, flags w hb.1 y2 z2⟩, x1, z2⟩
  rcases consistent_equivalent g a b h1 with rfl | h1 | h1
  · rcases consistent_equivalent g a c h2 with rfl | h2 | h2
    · exact Or.inl rfl
    · exact absurd ⟨h2.1, h2.2.1⟩ hn
    · refine Or.inr (alike_mono ?_ (alike_children h2.2))
      rintro x z ⟨e, x1, z1⟩
      exact ⟨⟨x, equivalent_refl g x, e, fun _ _ => rfl, flags w h2.2.1 x1 z1⟩, x1, z1⟩
  · have hc : ¬ Named g c := fun hc => hn ⟨h1.1, hc⟩
    rcases consistent_equivalent g b c h2 with rfl | h2 | h2
    · exact absurd h1.2.1 hc
    · exact absurd h2.2.1 hc
    · have e := w.names _ _ h1.1 h1.2.1 h1.2.2
      refine Or.inr (both (alike_of_node (equivalent_refl g) w e ?_) h2.2)
      rw [e]; exact alike_enum h2.2
  · rcases consistent_equivalent g b c h2 with rfl | h2 | h2
    · refine Or.inr (alike_mono ?_ (alike_children h1.2))
      rintro x z ⟨e, x1, z1⟩
      exact ⟨⟨z, e, equivalent_refl g z, flags w h1.2.1 x1 z1, fun _ _ => rfl⟩, x1, z1⟩
    · have e := w.names _ _ h2.1 h2.2.1 h2.2.2
      refine Or.inr (both h1.2 (alike_of_node (equivalent_refl g) w e ?_))
      have hk := h1.2.1
      have h1 := h1.2.2
      cases hka : (g.node a).kind <;> rw [hka] at h1 hk <;>
        first | exact h1.2 | exact enum_kind (by rw [← hk]; rfl)
    · exact Or.inr (both h1.2 h2.2)

theorem equivalent_trans {g : Graph} (w : WellFormed g) {a b c : Fin g.n} (ha : Proper g a) (hb : Proper g b)
    (hc : Proper g c)
    (hn : (∀ t, Occurs g t a → ¬ Named g t) ∨ (∀ t, Occurs g t c → ¬ Named g t))
    (h1 : Equivalent g a b) (h2 : Equivalent g b c) : Equivalent g a c := by
  have pf : ∀ {x y : Fin g.n}, Proper g x → Proper g y → SameFlag g x y := fun hx hy h1 h2 => by rw [hx h1, hy h2]
  refine ⟨fun x z => (∃ y, Equivalent g x y ∧ Equivalent g y z ∧ SameFlag g x y ∧ SameFlag g y z) ∧
    ((∀ t, Occurs g t x → ¬ Named g t) ∨ (∀ t, Occurs g t z → ¬ Named g t)), ?_, ⟨b, h1, h2, pf ha hb, pf hb hc⟩, hn⟩
  rintro x z ⟨⟨y, e1, e2, f1, f2⟩, hn⟩
  have hnn : ¬ (Named g x ∧ Named g z) := by
    rintro ⟨hx, hz⟩
    rcases hn with hn | hn
    · exact hn x .refl hx
    · exact hn z .refl hz
  rcases comp_alike w e1 e2 f1 hnn with h | h
  · exact Or.inl h
  · refine Or.inr (Or.inr ⟨hnn, alike_mono ?_ h⟩)
    rintro u v ⟨h, hu, hv⟩
    refine ⟨h, ?_⟩
    rcases hn with hn | hn
    · exact Or.inl fun t ht => hn t (.step hu ht)
    · exact Or.inr fun t ht => hn t (.step hv ht)

/-! ## Comparable types -/

theorem comparableFields_true {n : Nat} {cmp : Fin n → Option Bool} : ∀ {fs : List (Field n)},
    comparableFields cmp fs = some true ↔ ∀ f ∈ fs, cmp f.type = some true
  | [] => by simp [comparableFields]
  | f :: fs => by rw [comparableFields, both_true, comparableFields_true]; simp

theorem comparableFields_not_false {n : Nat} {cmp : Fin n → Option Bool} : ∀ {fs : List (Field n)},
    (∀ f ∈ fs, cmp f.type ≠ some false) → comparableFields cmp fs ≠ some false
  | [], _ => by simp [comparableFields]
  | f :: fs, h => both_not_false (h f (by simp)) (comparableFields_not_false fun f hf => h f (by simp [hf]))

theorem comparableFields_some {n : Nat} {cmp : Fin n → Option Bool} (h : ∀ t, (cmp t).isSome = true) :
    ∀ {fs : List (Field n)}, (comparableFields cmp fs).isSome = true
  | [] => rfl
  | _ :: _ => both_some (h _) (comparableFields_some h)

/-- The kinds for which the comparison looks no further. -/
theorem scalar_iff {g : Graph} {t : Fin g.n} :
    ((g.node t).ordinal || (g.node t).real || (g.node t).kind == .ptr || (g.node t).kind == .weakptr ||
      (g.node t).kind == .str) = true ↔
    BasicOrArrayOrStruct g t ∧ (g.node t).kind ≠ .array ∧ (g.node t).kind ≠ .dynarray ∧ (g.node t).kind ≠ .struct := by
  unfold BasicOrArrayOrStruct Node.ordinal Node.real
  generalize (g.node t).kind = k
  cases k <;> decide

/-- The parts up to `k` levels deep can be compared. -/
def CompApprox (g : Graph) : Nat → Fin g.n → Prop
  | 0, _ => True
  | k + 1, t => BasicOrArrayOrStruct g t ∧
    ((g.node t).kind = .array ∨ (g.node t).kind = .dynarray → CompApprox g k (g.node t).base) ∧
    ((g.node t).kind = .struct → ∀ f ∈ (g.node t).fields, CompApprox g k f.type)

theorem compApprox_pred {g : Graph} : ∀ {k : Nat} {t : Fin g.n}, CompApprox g (k + 1) t → CompApprox g k t
  | 0, _, _ => trivial
  | _ + 1, _, ⟨h1, h2, h3⟩ => ⟨h1, fun h => compApprox_pred (h2 h), fun h f hf => compApprox_pred (h3 h f hf)⟩

theorem compApprox_parts {g : Graph} {s t : Fin g.n} (hp : Part g s t) (h : ∀ k, CompApprox g k t) :
    BasicOrArrayOrStruct g s := by
  induction hp with
  | refl => exact (h 1).1
  | item hk _ ih => exact ih fun k => (h (k + 1)).2.1 hk
  | field hk hf _ ih => exact ih fun k => (h (k + 1)).2.2 hk _ hf

theorem comparableRec_approx {g : Graph} : ∀ {k depth : Nat} {vis : List (Fin g.n)} {t : Fin g.n},
    (∀ v ∈ vis, CompApprox g k v) → comparableRec g depth vis t = some true → CompApprox g k t
  | 0, _, _, _, _, _ => trivial
  | k + 1, 0, _, _, _, h => by cases h
  | k + 1, depth + 1, vis, t, hv, h => by
    have hk : CompApprox g k t := comparableRec_approx (depth := depth + 1) (fun v hv' => compApprox_pred (hv v hv')) h
    have hv' : ∀ v ∈ t :: vis, CompApprox g k v := by
      intro v h
      rcases List.mem_cons.mp h with rfl | h
      · exact hk
      · exact compApprox_pred (hv v h)
    rw [comparableRec] at h
    dsimp only at h
    split at h
    · next hc => exact hv t (by simpa using hc)
    · split at h
      · next hs =>
        obtain ⟨h1, h2, h3, h4⟩ := scalar_iff.mp hs
        exact ⟨h1, fun h => by rcases h with h | h <;> contradiction, fun h => absurd h h4⟩
      · split at h
        · next ha =>
          refine ⟨?_, fun _ => comparableRec_approx hv' h, fun hs => ?_⟩
          · unfold BasicOrArrayOrStruct
            rcases ha with ha | ha <;> rw [ha] <;> decide
          · rcases ha with ha | ha <;> rw [ha] at hs <;> cases hs
        · next ha =>
          split at h
          · next hs =>
            refine ⟨?_, fun h => absurd h ha, fun _ f hf => ?_⟩
            · unfold BasicOrArrayOrStruct; rw [hs]; decide
            · exact comparableRec_approx hv' (comparableFields_true.mp h f hf)
          · cases h

theorem comparableRec_not_false {g : Graph} : ∀ {depth : Nat} {vis : List (Fin g.n)} {t : Fin g.n},
    (∀ s, Part g s t → BasicOrArrayOrStruct g s) → comparableRec g depth vis t ≠ some false
  | 0, _, _, _ => by simp [comparableRec]
  | depth + 1, vis, t, h => by
    rw [comparableRec]
    dsimp only
    split
    · simp
    · split
      · simp
      · next hs =>
        split
        · next ha => exact comparableRec_not_false fun s hs => h s (.item ha hs)
        · next ha =>
          split
          · next hk => exact comparableFields_not_false fun f hf => comparableRec_not_false fun s hs => h s (.field hk hf hs)
          · next hk =>
            refine absurd (scalar_iff.mpr ⟨h t .refl, fun h => ha (Or.inl h), fun h => ha (Or.inr h), hk⟩) hs

theorem comparableRec_some {g : Graph} : ∀ {depth : Nat} {vis : List (Fin g.n)} {t : Fin g.n}, vis.Nodup →
    g.n < depth + vis.length → (comparableRec g depth vis t).isSome = true
  | 0, vis, t, hn, hd => by
    have := hn.length_le_card
    rw [Fintype.card_fin] at this
    omega
  | depth + 1, vis, t, hn, hd => by
    rw [comparableRec]
    dsimp only
    split
    · rfl
    · next hc =>
      have ih : ∀ s, (comparableRec g depth (t :: vis) s).isSome = true := fun s =>
        comparableRec_some (List.nodup_cons.mpr ⟨by simpa using hc, hn⟩) (by rw [List.length_cons]; omega)
      split
      · rfl
      · split
        · exact ih _
        · split
          · exact comparableFields_some ih
          · rfl

end Umka.Types
