import Verif.Syntax.Gen
/-
Whether a text is derived from a grammar without left recursion, by computation: used for the examples only.
-/
namespace Umka.Syntax
open Spec Spec.EBNF

/-- What may be left of the text after a text of the rule, by trying everything; `n` bounds the depth. -/
def rests (g : NT → EBNF) : Nat → EBNF → List Tok → List (List Tok)
  | 0, _, _ => []
  | n + 1, e, ts =>
    match e with
    | .tok t => match ts with
      | x :: r => if x = t then [r] else []
      | [] => []
    | .one l => match ts with
      | x :: r => if x ∈ l then [r] else []
      | [] => []
    | .never => []
    | .nt m => rests g n (g m) ts
    | .seq a b => (rests g n a ts).flatMap (rests g n b)
    | .alt a b => rests g n a ts ++ rests g n b ts
    | .opt a => ts :: rests g n a ts
    | .star a => ts :: (rests g n a ts).flatMap fun r => if r.length < ts.length then rests g n (.star a) r else []

theorem rests_sound {g : NT → EBNF} : ∀ {n : Nat} {e : EBNF} {ts r : List Tok}, r ∈ rests g n e ts →
    ∃ pre, ts = pre ++ r ∧ Derives g e pre := by
  intro n
  induction n with
  | zero => intro e ts r h; cases h
  | succ n ih =>
    intro e ts r h
    cases e with
    | tok t =>
      cases ts with
      | nil => cases h
      | cons x xs =>
        simp only [rests] at h
        split at h
        · next h0 => rw [h0, List.mem_singleton.mp h]; exact ⟨[t], rfl, .tok⟩
        · cases h
    | one l =>
      cases ts with
      | nil => cases h
      | cons x xs =>
        simp only [rests] at h
        split at h
        · next h0 => rw [List.mem_singleton.mp h]; exact ⟨[x], rfl, .one h0⟩
        · cases h
    | never => cases h
    | nt m =>
      obtain ⟨x, e, hx⟩ := ih (show r ∈ rests g n (g m) ts from h)
      exact ⟨x, e, .nt hx⟩
    | seq a b =>
      obtain ⟨m, h1, h2⟩ := List.mem_flatMap.mp (show r ∈ (rests g n a ts).flatMap (rests g n b) from h)
      obtain ⟨x, rfl, hx⟩ := ih h1
      obtain ⟨y, rfl, hy⟩ := ih h2
      exact ⟨x ++ y, (List.append_assoc ..).symm, .seq hx hy⟩
    | alt a b =>
      rcases List.mem_append.mp (show r ∈ rests g n a ts ++ rests g n b ts from h) with h | h
      · obtain ⟨x, e, hx⟩ := ih h; exact ⟨x, e, .left hx⟩
      · obtain ⟨x, e, hx⟩ := ih h; exact ⟨x, e, .right hx⟩
    | opt a =>
      rcases List.mem_cons.mp (show r ∈ ts :: rests g n a ts from h) with rfl | h
      · exact ⟨[], rfl, .optNone⟩
      · obtain ⟨x, e, hx⟩ := ih h; exact ⟨x, e, .optSome hx⟩
    | star a =>
      rcases List.mem_cons.mp (show r ∈ ts :: (rests g n a ts).flatMap fun r => if r.length < ts.length then rests g n (.star a) r else []
        from h) with rfl | h
      · exact ⟨[], rfl, .starNil⟩
      · obtain ⟨m, h1, h2⟩ := List.mem_flatMap.mp h
        split at h2
        · obtain ⟨x, rfl, hx⟩ := ih h1
          obtain ⟨y, rfl, hy⟩ := ih h2
          exact ⟨x ++ y, (List.append_assoc ..).symm, .starCons hx hy⟩
        · cases h2

/-- The depth that is needed before a token is taken. -/
def weight (w : NT → Nat) (t : NT → Bool) : EBNF → Nat
  | .tok _ | .one _ | .never => 1
  | .nt n => 1 + w n
  | .seq a b => 1 + if nullable t a then max (weight w t a) (weight w t b) else weight w t a
  | .alt a b => 1 + max (weight w t a) (weight w t b)
  | .opt a | .star a => 1 + weight w t a

/-- The same for every part. -/
def small (w : NT → Nat) (t : NT → Bool) (k : Nat) : EBNF → Bool
  | .tok t' => weight w t (.tok t') ≤ k
  | .one l => weight w t (.one l) ≤ k
  | .never => weight w t .never ≤ k
  | .nt n => weight w t (.nt n) ≤ k
  | .seq a b => weight w t (.seq a b) ≤ k && small w t k a && small w t k b
  | .alt a b => weight w t (.alt a b) ≤ k && small w t k a && small w t k b
  | .opt a => weight w t (.opt a) ≤ k && small w t k a
  | .star a => weight w t (.star a) ≤ k && small w t k a

theorem small_weight {w : NT → Nat} {t : NT → Bool} {k : Nat} {e : EBNF} (h : small w t k e = true) : weight w t e ≤ k := by
  cases e <;> simp only [small, Bool.and_eq_true, decide_eq_true_eq] at h <;> simp_all

theorem weight_pos {w : NT → Nat} {t : NT → Bool} {e : EBNF} : 1 ≤ weight w t e := by
  cases e <;> simp only [weight] <;> omega

theorem rests_complete {g : NT → EBNF} {t : NT → Bool} {f : NT → List Tok} (H : Tables g t f) {w : NT → Nat} {k : Nat}
    (hw : ∀ n, weight w t (g n) ≤ w n ∧ small w t k (g n) = true) {e : EBNF} {pre : List Tok} (hd : Derives g e pre) :
    small w t k e = true → ∀ (n : Nat) (rest : List Tok), pre.length * k + weight w t e ≤ n → rest ∈ rests g n e (pre ++ rest) := by
  induction hd with
  | tok =>
    intro _ n rest hn
    obtain ⟨n, rfl⟩ : ∃ m, n = m + 1 := ⟨n - 1, by simp only [weight] at hn; omega⟩
    simp [rests]
  | one h =>
    intro _ n rest hn
    obtain ⟨n, rfl⟩ : ∃ m, n = m + 1 := ⟨n - 1, by simp only [weight] at hn; omega⟩
    simp [rests, h]
  | @nt m ts _ ih =>
    intro _ n rest hn
    simp only [weight] at hn
    obtain ⟨n, rfl⟩ : ∃ m, n = m + 1 := ⟨n - 1, by omega⟩
    have := (hw m).1
    exact ih (hw m).2 n rest (by omega)
  | @seq a b xs ys h1 h2 ih1 ih2 =>
    intro hs n rest hn
    simp only [small, Bool.and_eq_true, decide_eq_true_eq] at hs
    obtain ⟨⟨_, hs1⟩, hs2⟩ := hs
    simp only [weight, List.length_append, Nat.add_mul] at hn
    obtain ⟨n, rfl⟩ : ∃ m, n = m + 1 := ⟨n - 1, by omega⟩
    have ha : weight w t a ≤ (if nullable t a then max (weight w t a) (weight w t b) else weight w t a) := by split <;> omega
    rw [List.append_assoc]
    refine List.mem_flatMap.mpr ⟨ys ++ rest, ih1 hs1 n _ (by omega), ih2 hs2 n rest ?_⟩
    by_cases hnull : nullable t a = true
    · rw [if_pos hnull] at hn; omega
    · have : xs.length ≠ 0 := fun h0 => hnull ((h1.start H).1 (List.length_eq_zero_iff.mp h0))
      have : 1 * k ≤ xs.length * k := Nat.mul_le_mul_right _ (by omega)
      have := small_weight hs2
      omega
  | @left a b ts _ ih =>
    intro hs n rest hn
    simp only [small, Bool.and_eq_true, decide_eq_true_eq] at hs
    simp only [weight] at hn
    obtain ⟨n, rfl⟩ : ∃ m, n = m + 1 := ⟨n - 1, by omega⟩
    exact List.mem_append_left _ (ih hs.1.2 n rest (by omega))
  | @right a b ts _ ih =>
    intro hs n rest hn
    simp only [small, Bool.and_eq_true, decide_eq_true_eq] at hs
    simp only [weight] at hn
    obtain ⟨n, rfl⟩ : ∃ m, n = m + 1 := ⟨n - 1, by omega⟩
    exact List.mem_append_right _ (ih hs.2 n rest (by omega))
  | optNone =>
    intro _ n rest hn
    simp only [weight] at hn
    obtain ⟨n, rfl⟩ : ∃ m, n = m + 1 := ⟨n - 1, by omega⟩
    exact List.mem_cons_self
  | optSome _ ih =>
    intro hs n rest hn
    simp only [small, Bool.and_eq_true, decide_eq_true_eq] at hs
    simp only [weight] at hn
    obtain ⟨n, rfl⟩ : ∃ m, n = m + 1 := ⟨n - 1, by omega⟩
    exact List.mem_cons_of_mem _ (ih hs.2 n rest (by omega))
  | starNil =>
    intro _ n rest hn
    simp only [weight] at hn
    obtain ⟨n, rfl⟩ : ∃ m, n = m + 1 := ⟨n - 1, by omega⟩
    exact List.mem_cons_self
  | @starCons a xs ys h1 h2 ih1 ih2 =>
    intro hs n rest hn
    by_cases h0 : xs.length = 0
    · have := List.length_eq_zero_iff.mp h0
      subst this
      exact ih2 hs n rest hn
    · have hwt := small_weight hs
      have hs' := hs
      simp only [small, Bool.and_eq_true, decide_eq_true_eq] at hs'
      simp only [weight, List.length_append, Nat.add_mul] at hn hwt
      obtain ⟨n, rfl⟩ : ∃ m, n = m + 1 := ⟨n - 1, by omega⟩
      have : 1 * k ≤ xs.length * k := Nat.mul_le_mul_right _ (by omega)
      rw [List.append_assoc]
      refine List.mem_cons_of_mem _ (List.mem_flatMap.mpr ⟨ys ++ rest, ih1 hs'.2 n _ (by omega), ?_⟩)
      rw [if_pos (by simp only [List.length_append]; omega)]
      exact ih2 hs n rest (by simp only [weight]; omega)

end Umka.Syntax
