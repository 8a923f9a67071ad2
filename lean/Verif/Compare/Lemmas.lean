import Verif.Compare.Spec

/-! # Comparison: lemmas -/

namespace Umka.Compare

open Spec

theorem sign_strcmp (a : List Nat) : ∀ b, sign (strcmp a b) = cmpBytes a b := by
  induction a with
  | nil => intro b; cases b <;> rfl
  | cons x a ih =>
    intro b
    cases b with
    | nil => rfl
    | cons y b =>
      by_cases h : x = y
      · subst h
        simp only [strcmp, if_true, cmpBytes, Nat.lt_irrefl, if_false]
        exact ih b
      · simp only [strcmp, if_neg h, cmpBytes, sign]
        by_cases hlt : x < y
        · rw [if_pos hlt, if_pos (by omega)]
        · rw [if_neg hlt, if_neg (by omega), if_pos (by omega), if_pos (by omega)]

theorem sign_sub (a b : Int) : sign (a - b) = cmpInt a b := by
  unfold sign cmpInt
  by_cases h1 : a < b
  · rw [if_pos h1, if_pos (by omega)]
  · rw [if_neg h1, if_neg (by omega)]
    by_cases h2 : b < a
    · rw [if_pos h2, if_pos (by omega)]
    · rw [if_neg h2, if_neg (by omega)]

/-- The comparison of two items agrees with the order of the values they denote. -/
def Agree (r : Res) (o : Ordering) : Prop := ∃ d, r = .ok d ∧ sign d = o

theorem sign_eq_iff (d : Int) : sign d = .eq ↔ d = 0 := by
  unfold sign; grind

theorem compareItems_agree {α : Type} (item : α → Nat × Nat) (c : Nat → Nat → Res)
    (f g : α → Option Value)
    (h : ∀ a v w, f a = some v → g a = some w → Agree (c (item a).1 (item a).2) (cmp v w)) :
    ∀ (l : List α) (vs ws : List Value), decodeList f l = some vs → decodeList g l = some ws →
      Agree (compareItems c (l.map item)) (cmpList vs ws) := by
  intro l
  induction l with
  | nil =>
    intro vs ws h1 h2
    cases h1; cases h2
    exact ⟨0, rfl, rfl⟩
  | cons a l ih =>
    intro vs ws h1 h2
    simp only [decodeList] at h1 h2
    split at h1
    · rename_i v vs' e1 e2
      split at h2
      · rename_i w ws' e3 e4
        cases h1; cases h2
        obtain ⟨d, hd, hs⟩ := h a v w e1 e3
        simp only [List.map_cons, compareItems, hd, cmpList]
        by_cases h0 : d = 0
        · have : cmp v w = .eq := by rw [← hs, h0]; rfl
          rw [this]
          simp only [h0, ne_eq, not_true_eq_false, if_false]
          exact ih vs' ws' e2 e4
        · simp only [ne_eq, h0, not_false_eq_true, if_true]
          refine ⟨d, rfl, ?_⟩
          have : cmp v w ≠ .eq := by
            rw [← hs]
            intro hh
            exact h0 ((sign_eq_iff d).1 hh)
          rw [hs]
          split
          · contradiction
          · rfl
      · cases h2
    · cases h1

/-- Items `i, i+1, ..., n-1`. -/
theorem range'_cons (i n : Nat) (h : i < n) :
    List.range' i (n - i) = i :: List.range' (i + 1) (n - (i + 1)) := by
  rw [show n - i = (n - (i + 1)) + 1 by omega, List.range'_succ]

theorem compareDyn_agree (c : Nat → Res) (ll rl : Nat) (f g : Nat → Option Value)
    (h : ∀ i v w, f i = some v → g i = some w → Agree (c i) (cmp v w)) :
    ∀ (i : Nat) (vs ws : List Value),
      decodeList f (List.range' i (ll - i)) = some vs →
      decodeList g (List.range' i (rl - i)) = some ws →
      Agree (compareDyn c ll rl i) (cmpList vs ws) := by
  intro i
  induction hk : ll - i generalizing i with
  | zero =>
    intro vs ws h1 h2
    have h1 : vs = [] := by cases h1; rfl
    subst h1
    rw [compareDyn]
    by_cases hr : i ≥ rl
    · have : rl - i = 0 := by omega
      rw [this] at h2
      cases h2
      rw [if_pos ⟨by omega, hr⟩]
      exact ⟨0, rfl, rfl⟩
    · rw [if_neg (by omega), dif_pos (by omega)]
      rw [range'_cons i rl (by omega)] at h2
      simp only [decodeList] at h2
      split at h2
      · cases h2
        exact ⟨-1, rfl, by simp [cmpList, sign]⟩
      · cases h2
  | succ k ih =>
    intro vs ws h1 h2
    rw [compareDyn, if_neg (by omega), dif_neg (by omega)]
    rw [← hk, range'_cons i ll (by omega)] at h1
    simp only [decodeList] at h1
    split at h1
    · rename_i v vs' e1 e2
      cases h1
      by_cases hr : i ≥ rl
      · rw [if_pos hr]
        have : rl - i = 0 := by omega
        rw [this] at h2
        cases h2
        exact ⟨1, rfl, by simp [cmpList, sign]⟩
      · rw [if_neg hr]
        rw [range'_cons i rl (by omega)] at h2
        simp only [decodeList] at h2
        split at h2
        · rename_i w ws' e3 e4
          cases h2
          obtain ⟨d, hd, hs⟩ := h i v w e1 e3
          simp only [hd, cmpList]
          by_cases h0 : d = 0
          · have : cmp v w = .eq := by rw [← hs, h0]; rfl
            rw [this]
            simp only [h0, ne_eq, not_true_eq_false, if_false]
            have hk' : ll - (i + 1) = k := by omega
            rw [hk'] at e2
            exact ih (i + 1) hk' vs' ws' e2 e4
          · simp only [ne_eq, h0, not_false_eq_true, if_true]
            refine ⟨d, rfl, ?_⟩
            have : cmp v w ≠ .eq := by
              rw [← hs]
              intro hh
              exact h0 ((sign_eq_iff d).1 hh)
            rw [hs]
            split
            · contradiction
            · rfl
        · cases h2
    · cases h1

theorem weakDiff_small (a b : Nat) (ha : a < 2 ^ 63) (hb : b < 2 ^ 63) : weakDiff a b = a - b := by
  unfold weakDiff
  rw [Int.bmod_def]
  omega

theorem doCompare_agree (env : Env) (m : Mem) : ∀ (n t : Nat) (l r : Slot) (v w : Value),
    decode env m n t l = some v → decode env m n t r = some w →
    Agree (doCompare env m n t l r) (cmp v w) := by
  intro n
  induction n with
  | zero => intro t l r v w h; cases h
  | succ n ih =>
    intro t l r v w h1 h2
    simp only [decode] at h1 h2
    simp only [doCompare]
    cases ht : env t <;> rw [ht] at h1 h2 <;> cases l <;> (try simp only [reduceCtorEq] at h1) <;>
      cases r <;> (try simp only [reduceCtorEq] at h2)
    · rename_i a b
      split at h1
      · split at h2
        · cases h1; cases h2
          refine ⟨a - b, ?_, sign_sub a b⟩
          simp only [intDiff]
          rw [if_pos (by omega)]
        · cases h2
      · cases h1
    · rename_i a b
      cases h1; cases h2
      refine ⟨_, rfl, ?_⟩
      simp only [cmp, cmpInt]
      by_cases h : a = b
      · subst h; simp [sign]
      · rw [if_neg h]
        by_cases h' : a > b
        · rw [if_pos h', if_neg (by omega), if_pos (by omega)]; rfl
        · rw [if_neg h', if_pos (by omega)]; rfl
    · rename_i a b
      cases a <;> simp only [reduceCtorEq] at h1
      cases b <;> simp only [reduceCtorEq] at h2
      rename_i a b
      cases h1; cases h2
      refine ⟨_, rfl, ?_⟩
      simp only [realDiff, cmp, cmpInt]
      by_cases h : a < b
      · rw [if_pos h, if_neg (by omega), if_neg (by omega)]; rfl
      · rw [if_neg h]
        by_cases h' : b < a
        · rw [if_pos h', if_neg (by omega), if_pos (by omega)]; rfl
        · rw [if_neg h', if_pos (by omega)]; rfl
    · rename_i a b
      split at h1
      · split at h2
        · cases h1; cases h2
          refine ⟨(a : Int) - b, ?_, sign_sub a b⟩
          simp only [intDiff]
          rw [if_pos (by omega)]
        · cases h2
      · cases h1
    · rename_i a b
      split at h1
      · split at h2
        · rename_i ha hb
          cases h1; cases h2
          refine ⟨_, rfl, ?_⟩
          rw [weakDiff_small a b ha hb]
          exact sign_sub a b
        · cases h2
      · cases h1
    · rename_i a b
      cases h1; cases h2
      exact ⟨_, rfl, sign_strcmp _ _⟩
    · rename_i k base size a b
      simp only [Option.map_eq_some_iff] at h1 h2
      obtain ⟨vs, e1, rfl⟩ := h1
      obtain ⟨ws, e2, rfl⟩ := h2
      exact compareItems_agree (fun i => (i * size, base)) _ _ _
        (fun i v w hv hw => ih base _ _ v w hv hw) _ vs ws e1 e2
    · rename_i fields a b
      simp only [Option.map_eq_some_iff] at h1 h2
      obtain ⟨vs, e1, rfl⟩ := h1
      obtain ⟨ws, e2, rfl⟩ := h2
      have := compareItems_agree (fun f : Nat × Nat => f)
        (fun offset t => doCompare env m n t (derefItem m (env t) (a + offset)) (derefItem m (env t) (b + offset)))
        _ _ (fun f v w hv hw => ih f.2 _ _ v w hv hw) _ vs ws e1 e2
      rw [List.map_id'] at this
      exact this
    · rename_i base size a b
      simp only [Option.map_eq_some_iff] at h1 h2
      obtain ⟨vs, e1, rfl⟩ := h1
      obtain ⟨ws, e2, rfl⟩ := h2
      rw [List.range_eq_range'] at e1 e2
      exact compareDyn_agree _ _ _ _ _ (fun i v w hv hw => ih base _ _ v w hv hw) 0 vs ws e1 e2

/-! ## Order laws -/

theorem cmpBytes_eq (a : List Nat) : ∀ b, cmpBytes a b = .eq ↔ a = b := by
  induction a with
  | nil => intro b; cases b <;> simp [cmpBytes]
  | cons x a ih =>
    intro b
    cases b with
    | nil => simp [cmpBytes]
    | cons y b =>
      simp only [cmpBytes, List.cons.injEq]
      by_cases h : x < y
      · simp [h]; omega
      · by_cases h' : y < x
        · simp [h, h']; omega
        · have : x = y := by omega
          simp [this, ih b]

theorem cmpBytes_swap (a : List Nat) : ∀ b, cmpBytes b a = (cmpBytes a b).swap := by
  induction a with
  | nil => intro b; cases b <;> rfl
  | cons x a ih =>
    intro b
    cases b with
    | nil => rfl
    | cons y b =>
      simp only [cmpBytes]
      by_cases h : x < y
      · rw [if_pos h, if_neg (by omega), if_pos h]; rfl
      · by_cases h' : y < x
        · rw [if_pos h', if_neg h, if_pos h']; rfl
        · rw [if_neg h, if_neg h', if_neg h', if_neg h]; exact ih b

theorem cmpBytes_trans (a : List Nat) : ∀ b c, cmpBytes a b = .lt → cmpBytes b c = .lt →
    cmpBytes a c = .lt := by
  induction a with
  | nil =>
    intro b c h1 h2
    cases b with
    | nil => cases h1
    | cons y b =>
      cases c with
      | nil => cases h2
      | cons z c => rfl
  | cons x a ih =>
    intro b c h1 h2
    cases b with
    | nil => cases h1
    | cons y b =>
      cases c with
      | nil => cases h2
      | cons z c =>
        simp only [cmpBytes] at h1 h2 ⊢
        by_cases hxy : x < y
        · by_cases hyz : y < z
          · rw [if_pos (by omega)]
          · rw [if_neg hyz] at h2
            by_cases hzy : z < y
            · rw [if_pos hzy] at h2; cases h2
            · rw [if_pos (by omega)]
        · rw [if_neg hxy] at h1
          by_cases hyx : y < x
          · rw [if_pos hyx] at h1; cases h1
          · rw [if_neg hyx] at h1
            have : x = y := by omega
            subst this
            by_cases hyz : x < z
            · rw [if_pos hyz]
            · rw [if_neg hyz] at h2 ⊢
              by_cases hzy : z < x
              · rw [if_pos hzy] at h2; cases h2
              · rw [if_neg hzy] at h2 ⊢
                exact ih b c h1 h2

theorem cmpInt_eq (a b : Int) : cmpInt a b = .eq ↔ a = b := by unfold cmpInt; grind
theorem cmpInt_swap (a b : Int) : cmpInt b a = (cmpInt a b).swap := by
  unfold cmpInt
  by_cases h : a < b
  · rw [if_pos h, if_neg (by omega), if_pos h]; rfl
  · by_cases h' : b < a
    · rw [if_pos h', if_neg h, if_pos h']; rfl
    · rw [if_neg h, if_neg h', if_neg h', if_neg h]; rfl
theorem cmpInt_trans (a b c : Int) : cmpInt a b = .lt → cmpInt b c = .lt → cmpInt a c = .lt := by
  unfold cmpInt; grind

mutual
theorem cmp_eq : ∀ a b, cmp a b = .eq ↔ a = b
  | .int a, b => by cases b <;> simp [cmp, cmpInt_eq]
  | .real a, b => by cases b <;> simp [cmp, cmpInt_eq]
  | .str a, b => by cases b <;> simp [cmp, cmpBytes_eq]
  | .seq a, b => by cases b <;> simp [cmp, cmpList_eq a]
theorem cmpList_eq : ∀ a b, cmpList a b = .eq ↔ a = b
  | [], b => by cases b <;> simp [cmpList]
  | x :: a, b => by
    cases b with
    | nil => simp [cmpList]
    | cons y b =>
      have h1 := cmp_eq x y
      have h2 := cmpList_eq a b
      simp only [cmpList, List.cons.injEq]
      split
      · rename_i h; rw [h2]; simp [h1.1 h]
      · rename_i h
        constructor
        · intro h'; exact absurd h' h
        · rintro ⟨rfl, _⟩; exact absurd (h1.2 rfl) h
end

mutual
theorem cmp_swap : ∀ a b, cmp b a = (cmp a b).swap
  | .int a, b => by cases b <;> first | rfl | exact cmpInt_swap _ _
  | .real a, b => by cases b <;> first | rfl | exact cmpInt_swap _ _
  | .str a, b => by cases b <;> first | rfl | exact cmpBytes_swap _ _
  | .seq a, b => by cases b <;> first | rfl | (simp only [cmp]; exact cmpList_swap a _)
theorem cmpList_swap : ∀ a b, cmpList b a = (cmpList a b).swap
  | [], b => by cases b <;> rfl
  | x :: a, b => by
    cases b with
    | nil => rfl
    | cons y b =>
      have h1 := cmp_swap x y
      have h2 := cmpList_swap a b
      simp only [cmpList, h1]
      cases cmp x y
      · rfl
      · exact h2
      · rfl
end

mutual
theorem cmp_trans : ∀ a b c, cmp a b = .lt → cmp b c = .lt → cmp a c = .lt
  | .int a, b, c => by
    cases b <;> cases c <;> simp only [cmp, reduceCtorEq, false_implies, implies_true]
    exact cmpInt_trans _ _ _
  | .real a, b, c => by
    cases b <;> cases c <;> simp only [cmp, reduceCtorEq, false_implies, implies_true]
    exact cmpInt_trans _ _ _
  | .str a, b, c => by
    cases b <;> cases c <;> simp only [cmp, reduceCtorEq, false_implies, implies_true]
    exact cmpBytes_trans _ _ _
  | .seq a, b, c => by
    cases b <;> cases c <;> simp only [cmp, reduceCtorEq, false_implies, implies_true]
    exact cmpList_trans a _ _
theorem cmpList_trans : ∀ a b c, cmpList a b = .lt → cmpList b c = .lt → cmpList a c = .lt
  | [], b, c => by
    intro h1 h2
    cases b with
    | nil => cases h1
    | cons y b =>
      cases c with
      | nil => cases h2
      | cons z c => rfl
  | x :: a, b, c => by
    intro h1 h2
    cases b with
    | nil => cases h1
    | cons y b =>
      cases c with
      | nil => cases h2
      | cons z c =>
        have ht := cmp_trans x y z
        have hl := cmpList_trans a b c
        have e1 := cmp_eq x y
        have e2 := cmp_eq y z
        simp only [cmpList] at h1 h2 ⊢
        cases hxy : cmp x y <;> rw [hxy] at h1
        · cases hyz : cmp y z <;> rw [hyz] at h2
          · rw [ht hxy hyz]
          · rw [← e2.1 hyz, hxy]
          · cases h2
        · cases hyz : cmp y z <;> rw [hyz] at h2
          · rw [e1.1 hxy, hyz]
          · rw [e1.1 hxy, hyz]
            exact hl h1 h2
          · cases h2
        · cases h1
end

end Umka.Compare
