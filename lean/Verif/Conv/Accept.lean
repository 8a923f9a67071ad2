import Verif.Conv.Lemmas
/-! # Type conversions: what is accepted -/

namespace Umka.Conv

open Umka.Types (Graph Kind Node Field Equivalent WellFormed)
open Umka.Iface (Compatible Declared IsPtrTo equiv_iff equiv_false equivalent_cases equivalent_kind compat_compatible)

/-- The compiler goes on. -/
theorem assertImplicit_conv {w : World} {imp : w.T → w.T → Conv w} {S T : w.T} {c : Code w.e.g.n} (h : imp T S = .ok (c, T)) :
    w.assertImplicit imp T S = .ok (c, T) := by
  unfold World.assertImplicit
  rw [h]
  exact if_pos (compat_iff.mpr (compatible_refl w T))

theorem assertImplicit_error {w : World} {imp : w.T → w.T → Conv w} {S T : w.T} (h : imp T S = .error) : w.assertImplicit imp T S = .error := by
  unfold World.assertImplicit
  rw [h]
  rfl

theorem assertImplicit_skip {w : World} {imp : w.T → w.T → Conv w} {S T : w.T} {c : Code w.e.g.n} (h : imp T S = .ok (c, S)) :
    (Compatible w.e.g T S ∧ w.assertImplicit imp T S = .ok (c, S)) ∨ (¬ Compatible w.e.g T S ∧ w.assertImplicit imp T S = .error) := by
  unfold World.assertImplicit
  rw [h]
  by_cases hc : w.e.compat T S = true
  · exact Or.inl ⟨compat_iff.mp hc, if_pos hc⟩
  · exact Or.inr ⟨fun h => hc (compat_iff.mpr h), if_neg hc⟩

theorem list_expr {w : World} {t : w.T} (h : w.exprListStruct t = true) : w.exprList t = true := by
  unfold World.exprListStruct at h
  simp only [Bool.and_eq_true] at h
  exact h.1.2

theorem field_proper {w : World} (ok : w.Ok) {t : w.T} (h : w.exprList t = true) {f : Field w.e.g.n} (hf : f ∈ (w.node t).fields) : Proper w f.type :=
  ⟨(ok.flat t h f hf).2, fun hk => ok.env.types.noMethods t (fun hi => by rw [show (w.e.g.node t).kind = .struct from ok.lists t h] at hi; cases hi) _
    (by unfold Types.children; rw [show (w.e.g.node t).kind = .struct from ok.lists t h]; exact List.mem_map.mpr ⟨f, hf, rfl⟩) hk⟩

/-- Items that are not lists. -/
theorem give_item {w : World} (ok : w.Ok) (depth : Nat) {S T : w.T} (hS : Proper w S) (hl : w.exprList S = false ∨ w.exprList T = false) :
    ((∃ c t, w.give false (depth + 1) T S = .ok (c, t)) ∧ (Implicit w false S T ∨ Confused w S T)) ∨
    (w.give false (depth + 1) T S = .error ∧ ¬ Implicit w false S T ∧ ¬ Confused w S T) := by
  unfold World.give
  cases implicitEx_cases ok depth false false (T := T) hS with
  | conv c h hi => exact Or.inl ⟨⟨c, T, assertImplicit_conv h⟩, hi.imp_right (·.2)⟩
  | refuse h hk hi =>
    refine Or.inr ⟨assertImplicit_error h, hi, ?_⟩
    rintro ⟨_, h | h⟩
    · rw [hk] at h; cases h.1
    · rw [hk] at h; cases h.1
  | skip h hi hc =>
    rcases assertImplicit_skip h with ⟨h1, h2⟩ | ⟨h1, h2⟩
    · exact Or.inl ⟨⟨_, _, h2⟩, Or.inl (.compatible h1)⟩
    · refine Or.inr ⟨h2, fun h => h1 (hi h), hc.resolve_right (by simp)⟩
  | list _ h1 h2 =>
    rcases hl with h | h
    · rw [list_expr h1] at h; cases h
    · rw [list_expr h2] at h; cases h

theorem convFields_ok {w : World} {imp : w.T → w.T → Conv w} : ∀ {ds ss : List (Field w.e.g.n)}, ds.length = ss.length →
    (∀ (i : Nat) (d s : Field w.e.g.n), ds[i]? = some d → ss[i]? = some s → ∃ x, w.assertImplicit imp d.type s.type = .ok x) →
    ∃ cs, w.convFields imp ds ss = .ok cs ∧ cs.length = ds.length ∧
      ∀ (i : Nat) (d s : Field w.e.g.n), ds[i]? = some d → ss[i]? = some s →
        ∃ c t, cs[i]? = some c ∧ w.assertImplicit imp d.type s.type = .ok (c, t)
  | [], [], _, _ => ⟨[], rfl, rfl, fun i d s h => by cases h⟩
  | d :: ds, s :: ss, hl, h => by
    obtain ⟨x, hx⟩ := h 0 d s rfl rfl
    obtain ⟨cs, h1, h2, h3⟩ := convFields_ok (ds := ds) (ss := ss) (by simpa using hl) (fun i d s a b => h (i + 1) d s a b)
    refine ⟨x.1 :: cs, ?_, by simp [h2], ?_⟩
    · rw [World.convFields, hx]
      change Out.bind (World.convFields w imp ds ss) _ = _
      rw [h1]
      rfl
    · intro i d' s' a b
      cases i with
      | zero =>
        simp only [List.getElem?_cons_zero, Option.some.injEq] at a b
        subst a b
        exact ⟨x.1, x.2, rfl, hx⟩
      | succ i => exact h3 i d' s' a b
  | [], _ :: _, h, _ => by cases h
  | _ :: _, [], h, _ => by cases h

theorem convFields_error {w : World} {imp : w.T → w.T → Conv w} : ∀ {ds ss : List (Field w.e.g.n)}, ds.length = ss.length →
    (∀ (i : Nat) (d s : Field w.e.g.n), ds[i]? = some d → ss[i]? = some s →
      (∃ x, w.assertImplicit imp d.type s.type = .ok x) ∨ w.assertImplicit imp d.type s.type = .error) →
    (∃ (i : Nat) (d s : Field w.e.g.n), ds[i]? = some d ∧ ss[i]? = some s ∧ w.assertImplicit imp d.type s.type = .error) →
    w.convFields imp ds ss = .error
  | [], [], _, _, ⟨i, d, s, h, _⟩ => by cases h
  | d :: ds, s :: ss, hl, hok, ⟨i, d', s', h1, h2, h3⟩ => by
    rw [World.convFields]
    rcases hok 0 d s rfl rfl with ⟨x, hx⟩ | hx
    · rw [hx]
      cases i with
      | zero =>
        simp only [List.getElem?_cons_zero, Option.some.injEq] at h1 h2
        subst h1 h2
        rw [hx] at h3
        cases h3
      | succ i =>
        change Out.bind (World.convFields w imp ds ss) _ = _
        rw [convFields_error (by simpa using hl) (fun i d s a b => hok (i + 1) d s a b) ⟨i, d', s', h1, h2, h3⟩]
        rfl
    · rw [hx]; rfl
  | [], _ :: _, h, _, _ => by cases h
  | _ :: _, [], h, _, _ => by cases h

theorem give_cases {w : World} (ok : w.Ok) (depth : Nat) {S T : w.T} (hS : Proper w S) (hc : Clear w S T) :
    ((∃ x, w.give false (depth + 2) T S = .ok x) ∧ Implicit w false S T) ∨
    (w.give false (depth + 2) T S = .error ∧ ¬ Implicit w false S T) := by
  by_cases hl : w.exprList S = false ∨ w.exprList T = false
  · rcases give_item ok (depth + 1) hS hl with ⟨⟨c, t, h1⟩, h2 | h2⟩ | ⟨h1, h2, _⟩
    · exact Or.inl ⟨⟨_, h1⟩, h2⟩
    · exact absurd h2 hc.1
    · exact Or.inr ⟨h1, h2⟩
  · have hlS : w.exprList S = true := by
      cases h : w.exprList S with
      | true => rfl
      | false => exact absurd (Or.inl h) hl
    have hlT : w.exprList T = true := by
      cases h : w.exprList T with
      | true => rfl
      | false => exact absurd (Or.inr h) hl
    unfold World.give
    cases implicitEx_cases ok (depth + 1) false false (T := T) hS with
    | conv c h hi => exact Or.inl ⟨⟨_, assertImplicit_conv h⟩, hi.resolve_right fun h => hc.1 h.2⟩
    | refuse h hk hi => exact Or.inr ⟨assertImplicit_error h, hi⟩
    | skip h hi _ =>
      rcases assertImplicit_skip h with ⟨h1, h2⟩ | ⟨h1, h2⟩
      · exact Or.inl ⟨⟨_, h2⟩, .compatible h1⟩
      · exact Or.inr ⟨h2, fun h => h1 (hi h)⟩
    | list _ h1 h2 h3 h4 h =>
      have hit : ∀ (i : Nat) (d s : Field w.e.g.n), (w.node T).fields[i]? = some d → (w.node S).fields[i]? = some s →
          ((∃ x, w.assertImplicit (w.implicitEx false (depth + 1) false false) d.type s.type = .ok x) ∧ Implicit w false s.type d.type) ∨
          (w.assertImplicit (w.implicitEx false (depth + 1) false false) d.type s.type = .error ∧ ¬ Implicit w false s.type d.type) := by
        intro i d s a b
        have hf := ok.flat S hlS s (List.mem_of_getElem? b)
        rcases give_item ok depth (field_proper ok hlS (List.mem_of_getElem? b)) (Or.inl hf.1) (T := d.type) with ⟨⟨c, t, h1⟩, h2 | h2⟩ | ⟨h1, h2, _⟩
        · exact Or.inl ⟨⟨_, h1⟩, h2⟩
        · exact absurd h2 (hc.2 hlS hlT i s d b a)
        · exact Or.inr ⟨h1, h2⟩
      by_cases hall : ∀ (i : Nat) (d s : Field w.e.g.n), (w.node T).fields[i]? = some d → (w.node S).fields[i]? = some s →
          Implicit w false s.type d.type
      · obtain ⟨cs, h5, _⟩ := convFields_ok h4 (imp := w.implicitEx false (depth + 1) false false)
          (fun i d s a b => ((hit i d s a b).resolve_right fun h => h.2 (hall i d s a b)).1)
        rw [h5] at h
        exact Or.inl ⟨⟨_, assertImplicit_conv h⟩, .lists h1 h2 h4.symm fun i s t a b => hall i t s b a⟩
      · obtain ⟨i, hall⟩ := Classical.not_forall.mp hall
        obtain ⟨d, hall⟩ := Classical.not_forall.mp hall
        obtain ⟨s, hall⟩ := Classical.not_forall.mp hall
        simp only [Classical.not_imp] at hall
        obtain ⟨a, b, hn⟩ := hall
        have h5 := convFields_error h4 (imp := w.implicitEx false (depth + 1) false false)
          (fun i d s a b => (hit i d s a b).imp (·.1) (·.1)) ⟨i, d, s, a, b, ((hit i d s a b).resolve_left fun h => hn h.2).1⟩
        rw [h5] at h
        refine Or.inr ⟨assertImplicit_error h, fun hi => ?_⟩
        have hTk : w.kind T = .struct := ok.lists T hlT
        have hSk : w.kind S = .struct := ok.lists S hlS
        cases hi with
        | compatible hcomp =>
          rcases not_compatible ok hcomp with ⟨h, _⟩ | ⟨h, _⟩ | ⟨h, _⟩
          · exact h3 h
          · have := integer_kind h; rw [hTk] at this; cases this
          · have := real_kind h; rw [hTk] at this; rcases this with h | h <;> cases h
        | intReal h =>
          have := integer_kind h; rw [hSk] at this; cases this
        | lists _ _ _ h => exact hn (h i s d b a)
        | _ => simp_all

/-! ## Casts -/

theorem hasPtrFields_spec {n : Nat} {f : Fin n → Option Bool} {P : Fin n → Prop} : ∀ {fs : List (Field n)},
    (∀ x ∈ fs, (f x.type = some true ∧ P x.type) ∨ (f x.type = some false ∧ ¬ P x.type)) →
    (hasPtrFields f fs = some true ∧ ∃ x ∈ fs, P x.type) ∨ (hasPtrFields f fs = some false ∧ ¬ ∃ x ∈ fs, P x.type)
  | [], _ => Or.inr ⟨rfl, by simp⟩
  | x :: xs, h => by
    rw [hasPtrFields]
    rcases h x (List.mem_cons_self) with ⟨h1, h2⟩ | ⟨h1, h2⟩
    · rw [h1]
      exact Or.inl ⟨rfl, x, List.mem_cons_self, h2⟩
    · rw [h1]
      rcases hasPtrFields_spec (fs := xs) (fun y hy => h y (List.mem_cons_of_mem _ hy)) with ⟨h3, y, hy, h4⟩ | ⟨h3, h4⟩
      · exact Or.inl ⟨h3, y, List.mem_cons_of_mem _ hy, h4⟩
      · refine Or.inr ⟨h3, ?_⟩
        rintro ⟨y, hy, h5⟩
        rcases List.mem_cons.mp hy with rfl | hy
        · exact h2 h5
        · exact h4 ⟨y, hy, h5⟩

theorem hasPtr_spec {w : World} {rank : w.T → Nat} (hr : ∀ t, (w.kind t = .array → rank (w.base t) < rank t) ∧
    (w.kind t = .struct → ∀ f ∈ (w.node t).fields, rank f.type < rank t)) : ∀ (depth : Nat) (t : w.T), rank t < depth →
    (w.hasPtr depth t = some true ∧ Contains w t) ∨ (w.hasPtr depth t = some false ∧ ¬ Contains w t)
  | 0, _, h => absurd h (Nat.not_lt_zero _)
  | depth + 1, t, h => by
    rw [World.hasPtr]
    have hnot : w.kind t ∉ [.ptr, .weakptr, .str, .map, .dynarray, .interface, .closure, .fiber] → w.kind t ≠ .array → w.kind t ≠ .struct →
        ¬ Contains w t := by
      intro h1 h2 h3 hc
      cases hc with
      | pointer h => exact h1 h
      | item h => exact h2 h
      | field h => exact h3 h
    cases hk : w.kind t with
    | array =>
      dsimp only
      by_cases h0 : (w.node t).numItems = 0
      · rw [if_pos h0]
        refine Or.inr ⟨rfl, fun hc => ?_⟩
        cases hc with
        | pointer h => simp [hk] at h
        | item _ h => omega
        | field h => rw [hk] at h; cases h
      · rw [if_neg h0]
        have := (hr t).1 hk
        rcases hasPtr_spec hr depth (w.base t) (by omega) with ⟨h1, h2⟩ | ⟨h1, h2⟩
        · exact Or.inl ⟨h1, .item hk (by omega) h2⟩
        · refine Or.inr ⟨h1, fun hc => ?_⟩
          cases hc with
          | pointer h => simp [hk] at h
          | item _ _ h => exact h2 h
          | field h => rw [hk] at h; cases h
    | struct =>
      dsimp only
      rcases hasPtrFields_spec (f := w.hasPtr depth) (P := Contains w) (fs := (w.node t).fields)
        (fun x hx => hasPtr_spec hr depth x.type (by have := (hr t).2 hk x hx; omega)) with ⟨h1, x, h2, h3⟩ | ⟨h1, h2⟩
      · exact Or.inl ⟨h1, .field hk h2 h3⟩
      · refine Or.inr ⟨h1, fun hc => ?_⟩
        cases hc with
        | pointer h => simp [hk] at h
        | item h => rw [hk] at h; cases h
        | field _ h3 h4 => exact h2 ⟨_, h3, h4⟩
    | ptr | str | map | dynarray | interface | closure | fiber | weakptr => exact Or.inl ⟨rfl, .pointer (by simp [hk])⟩
    | _ => exact Or.inr ⟨rfl, hnot (by simp [hk]) (by simp [hk]) (by simp [hk])⟩

theorem explicitBase_iff {w : World} (ok : w.Ok) {l r : w.T} :
    w.explicitBase l r = true ↔ w.e.size l ≤ w.e.size r ∧ ¬ Contains w l ∧ ¬ Contains w r := by
  obtain ⟨rank, hr⟩ := ok.finite
  have h := fun t => hasPtr_spec (rank := rank) (fun t => (hr t).2) w.e.g.n t (hr t).1
  have key : ∀ t, (w.hasPtr w.e.g.n t == some false) = true ↔ ¬ Contains w t := by
    intro t
    rcases h t with ⟨h1, h2⟩ | ⟨h1, h2⟩
    · rw [h1]; simp [h2]
    · rw [h1]; simp [h2]
  unfold World.explicitBase
  simp only [Bool.and_eq_true, decide_eq_true_eq, key, and_assoc]

theorem confused_ordinal {w : World} {S T : w.T} (h : Confused w S T) : (w.node S).ordinal = true ∧ (w.node T).ordinal = true := by
  have hk : ∀ t, (w.kind t).integerOrEnum = true → (w.node t).ordinal = true := by
    intro t ht
    unfold World.node Types.Node.ordinal
    rw [show (w.e.g.node t).kind.integerOrEnum = true from ht]
    rfl
  rcases h.2 with ⟨h1, h2⟩ | ⟨h1, h2⟩
  · exact ⟨hk S (signed_integerOrEnum h2), hk T (by rw [h1]; rfl)⟩
  · exact ⟨hk S (by rw [h2]; rfl), hk T (signed_integerOrEnum h1)⟩

end Umka.Conv
