import Verif.Sort.Model
import Verif.Sort.Spec

/-! # Sorting: helper lemmas -/

namespace Umka.Sort

variable {α : Type}

/-- `P` holds of the items at positions `lo ≤ k < hi`. -/
def On (P : α → Prop) (a : Array α) (lo hi : Nat) : Prop :=
  ∀ k x, lo ≤ k → k < hi → a[k]? = some x → P x

/-- `b` is `a` with the items of the segment `[lo, hi)` permuted among themselves. -/
structure SegPerm (lo hi : Nat) (a b : Array α) : Prop where
  size : b.size = a.size
  perm : b.Perm a
  out : ∀ k, k < lo ∨ hi ≤ k → b[k]? = a[k]?
  pres : ∀ P : α → Prop, On P a lo hi → On P b lo hi

theorem SegPerm.refl (lo hi : Nat) (a : Array α) : SegPerm lo hi a a :=
  ⟨rfl, .refl _, fun _ _ => rfl, fun _ h => h⟩

theorem SegPerm.trans {lo hi : Nat} {a b c : Array α} (h1 : SegPerm lo hi a b)
    (h2 : SegPerm lo hi b c) : SegPerm lo hi a c :=
  ⟨h2.size.trans h1.size, h2.perm.trans h1.perm, fun k hk => (h2.out k hk).trans (h1.out k hk),
    fun P h => h2.pres P (h1.pres P h)⟩

theorem SegPerm.mono {lo hi lo' hi' : Nat} {a b : Array α} (h : SegPerm lo' hi' a b)
    (hl : lo ≤ lo') (hh : hi' ≤ hi) : SegPerm lo hi a b := by
  refine ⟨h.size, h.perm, fun k hk => h.out k (by omega), ?_⟩
  intro P hP k x h1 h2 hx
  by_cases hin : lo' ≤ k ∧ k < hi'
  · refine h.pres P ?_ k x hin.1 hin.2 hx
    intro k' x' h1' h2' hx'
    exact hP k' x' (by omega) (by omega) hx'
  · rw [h.out k (by omega)] at hx
    exact hP k x h1 h2 hx

theorem swapAt_ok {a : Array α} {i j : Nat} (hi : i < a.size) (hj : j < a.size) :
    swapAt a i j = .ok (a.swap i j hi hj) := by
  simp [swapAt, hi, hj]

theorem segPerm_swap {lo hi : Nat} {a : Array α} {i j : Nat} (hi1 : i < a.size) (hj1 : j < a.size)
    (h : lo ≤ i ∧ i < hi ∧ lo ≤ j ∧ j < hi) : SegPerm lo hi a (a.swap i j hi1 hj1) := by
  refine ⟨by simp, Array.swap_perm hi1 hj1, ?_, ?_⟩
  · intro k hk
    rw [Array.getElem?_swap, if_neg (by omega), if_neg (by omega)]
  · intro P hP k x h1 h2 hx
    rw [Array.getElem?_swap] at hx
    split at hx
    · exact hP i x h.1 h.2.1 (by simpa [hi1] using hx)
    · split at hx
      · exact hP j x h.2.2.1 h.2.2.2 (by simpa [hj1] using hx)
      · exact hP k x h1 h2 hx

theorem scanUp_spec {cmp : α → α → Int} {a : Array α} {pivot last i : Nat} {p : α}
    (hi : i ≤ last) (hl : last < a.size) (hp : a[pivot]? = some p) :
    ∃ i', scanUp cmp a pivot last i = .ok i' ∧ i ≤ i' ∧ i' ≤ last ∧
      (∀ k x, i ≤ k → k < i' → a[k]? = some x → cmp x p ≤ 0) ∧
      (i' = last ∨ ∃ x, a[i']? = some x ∧ cmp x p > 0) := by
  fun_induction scanUp cmp a pivot last i with
  | case1 i x p' hp' hx hc ih =>
    rw [hp'] at hp; cases hp
    obtain ⟨i', h1, h2, h3, h4, h5⟩ := ih (by omega)
    refine ⟨i', h1, by omega, h3, ?_, h5⟩
    intro k y hk1 hk2 hy
    by_cases hki : k = i
    · subst hki; rw [hx] at hy; cases hy; exact hc.1
    · exact h4 k y (by omega) hk2 hy
  | case2 i x p' hp' hx hc =>
    rw [hp'] at hp; cases hp
    refine ⟨i, rfl, Nat.le_refl _, hi, by intros; omega, ?_⟩
    by_cases h : i = last
    · exact .inl h
    · exact .inr ⟨x, hx, by omega⟩
  | case3 i hno =>
    exact absurd hp (hno a[i] p (by simp))

theorem scanDown_spec {cmp : α → α → Int} {a : Array α} {pivot first j : Nat} {p : α}
    (hj : first ≤ j) (hl : j < a.size) (hp : a[pivot]? = some p) :
    ∃ j', scanDown cmp a pivot first j = .ok j' ∧ first ≤ j' ∧ j' ≤ j ∧
      (∀ k x, j' < k → k ≤ j → a[k]? = some x → cmp x p > 0) ∧
      (j' = first ∨ ∃ x, a[j']? = some x ∧ cmp x p ≤ 0) := by
  fun_induction scanDown cmp a pivot first j with
  | case1 j x p' hp' hx hc ih =>
    rw [hp'] at hp; cases hp
    obtain ⟨j', h1, h2, h3, h4, h5⟩ := ih (by omega) (by omega)
    refine ⟨j', h1, h2, by omega, ?_, h5⟩
    intro k y hk1 hk2 hy
    by_cases hki : k = j
    · subst hki; rw [hx] at hy; cases hy; exact hc.1
    · exact h4 k y hk1 (by omega) hy
  | case2 j x p' hp' hx hc =>
    rw [hp'] at hp; cases hp
    refine ⟨j, rfl, hj, Nat.le_refl _, by intros; omega, ?_⟩
    by_cases h : j = first
    · exact .inl h
    · exact .inr ⟨x, hx, by omega⟩
  | case3 j hno =>
    exact absurd hp (hno a[j] p (by simp))

/-- Whatever the comparison function, the partition loop stays inside the segment and only permutes
it. -/
theorem partLoop_safe (cmp : α → α → Int) (first last : Nat) (fuel : Nat) (a : Array α) (i j : Nat)
    (h1 : first ≤ i) (h2 : i ≤ last) (h3 : first ≤ j) (h4 : j ≤ last) (hl : last < a.size) :
    partLoop cmp first last fuel a i j = .error .fuel ∨
    ∃ a' j', partLoop cmp first last fuel a i j = .ok (a', j') ∧
      SegPerm first (last + 1) a a' ∧ first ≤ j' ∧ j' ≤ last := by
  induction fuel generalizing a i j with
  | zero => exact .inl rfl
  | succ fuel ih =>
    simp only [partLoop]
    by_cases hij : i < j
    · rw [if_pos hij]
      have hp : a[first]? = some a[first] := by simp
      obtain ⟨i', e1, u1, u2, _, _⟩ := scanUp_spec (cmp := cmp) (pivot := first) h2 hl hp
      obtain ⟨j', e2, d1, d2, _, _⟩ := scanDown_spec (cmp := cmp) (pivot := first) h3
        (by omega : j < a.size) hp
      rw [e1, e2]
      simp only
      by_cases hij' : i' < j'
      · rw [if_pos hij', swapAt_ok (by omega : i' < a.size) (by omega : j' < a.size)]
        simp only
        have hsw := segPerm_swap (lo := first) (hi := last + 1) (a := a) (i := i') (j := j')
          (by omega) (by omega) (by omega)
        rcases ih (a.swap i' j' (by omega) (by omega)) i' j' (by omega) u2 d1 (by omega) (by simpa using hl) with h | ⟨a', j'', h, hs, hb⟩
        · exact .inl h
        · exact .inr ⟨a', j'', h, hsw.trans hs, hb⟩
      · rw [if_neg hij']
        exact ih a i' j' (by omega) u2 d1 (by omega) hl
    · rw [if_neg hij]
      exact .inr ⟨a, j, rfl, SegPerm.refl _ _ _, h3, h4⟩

/-- The partition loop for a comparison function that does not put an item after itself: it ends,
and separates the segment. -/
theorem partLoop_spec {cmp : α → α → Int} (hrefl : ∀ x, cmp x x ≤ 0) (first last : Nat) (fuel : Nat)
    (a : Array α) (i j : Nat) (p : α) (hp : a[first]? = some p)
    (h1 : first ≤ i) (h2 : i ≤ last) (h3 : first ≤ j) (h4 : j ≤ last) (hl : last < a.size)
    (hlo : ∀ k x, first ≤ k → k < i → a[k]? = some x → cmp x p ≤ 0)
    (hhi : ∀ k x, j < k → k ≤ last → a[k]? = some x → cmp x p > 0)
    -- either the loop goes on, and the item at `i` will be passed, or it is over
    (hstate : (i < j ∧ ∃ x, a[i]? = some x ∧ cmp x p ≤ 0) ∨
      (j ≤ i ∧ ∃ x, a[j]? = some x ∧ cmp x p ≤ 0))
    (hfuel : j - i + 2 ≤ fuel) :
    ∃ a' j', partLoop cmp first last fuel a i j = .ok (a', j') ∧
      SegPerm first (last + 1) a a' ∧ first ≤ j' ∧ j' ≤ last ∧ a'[first]? = some p ∧
      (∀ k x, first ≤ k → k ≤ j' → a'[k]? = some x → cmp x p ≤ 0) ∧
      (∀ k x, j' < k → k ≤ last → a'[k]? = some x → cmp x p > 0) := by
  induction fuel generalizing a i j with
  | zero => omega
  | succ fuel ih =>
    simp only [partLoop]
    rcases hstate with ⟨hij, x0, hx0, hc0⟩ | ⟨hji, x0, hx0, hc0⟩
    · rw [if_pos hij]
      obtain ⟨i', e1, u1, u2, u3, u4⟩ := scanUp_spec (cmp := cmp) (pivot := first) h2 hl hp
      obtain ⟨j', e2, d1, d2, d3, d4⟩ := scanDown_spec (cmp := cmp) (pivot := first) h3
        (by omega : j < a.size) hp
      -- the item at `i` is passed
      have hadv : i < i' := by
        rcases Nat.lt_or_ge i i' with h | h
        · exact h
        · have hii : i' = i := by omega
          rcases u4 with h | ⟨x, hx, hc⟩
          · omega
          · rw [hii, hx0] at hx; cases hx; omega
      have hj'le : ∃ x, a[j']? = some x ∧ cmp x p ≤ 0 := by
        rcases d4 with h | h
        · subst h; exact ⟨p, hp, hrefl p⟩
        · exact h
      have hlo' : ∀ k x, first ≤ k → k < i' → a[k]? = some x → cmp x p ≤ 0 := by
        intro k x hk1 hk2 hx
        by_cases hk : k < i
        · exact hlo k x hk1 hk hx
        · exact u3 k x (by omega) hk2 hx
      have hhi' : ∀ k x, j' < k → k ≤ last → a[k]? = some x → cmp x p > 0 := by
        intro k x hk1 hk2 hx
        by_cases hk : j < k
        · exact hhi k x hk hk2 hx
        · exact d3 k x hk1 (by omega) hx
      rw [e1, e2]
      simp only
      by_cases hij' : i' < j'
      · have hi's : i' < a.size := by omega
        have hj's : j' < a.size := by omega
        rw [if_pos hij', swapAt_ok hi's hj's]
        simp only
        have hsw := segPerm_swap (lo := first) (hi := last + 1) (a := a) (i := i') (j := j')
          hi's hj's (by omega)
        obtain ⟨xj, hxj, hcj⟩ := hj'le
        obtain ⟨xi, hxi, hci⟩ : ∃ x, a[i']? = some x ∧ cmp x p > 0 := by
          rcases u4 with h | h
          · omega
          · exact h
        have hget : ∀ k, (a.swap i' j' hi's hj's)[k]? =
            if j' = k then a[i']? else if i' = k then a[j']? else a[k]? := by
          intro k; rw [Array.getElem?_swap]; simp [hi's, hj's]
        obtain ⟨a', j'', h, hs, r1, r2, r3, r4, r5⟩ := ih (a.swap i' j' hi's hj's) i' j'
          (by rw [hget, if_neg (by omega), if_neg (by omega)]; exact hp)
          (by omega) u2 d1 (by omega) (by simpa using hl)
          (by
            intro k x hk1 hk2 hx
            rw [hget, if_neg (by omega), if_neg (by omega)] at hx
            exact hlo' k x hk1 hk2 hx)
          (by
            intro k x hk1 hk2 hx
            rw [hget, if_neg (by omega), if_neg (by omega)] at hx
            exact hhi' k x hk1 hk2 hx)
          (.inl ⟨hij', xj, by rw [hget, if_neg (by omega), if_pos rfl]; exact hxj, hcj⟩)
          (by omega)
        exact ⟨a', j'', h, hsw.trans hs, r1, r2, r3, r4, r5⟩
      · rw [if_neg hij']
        have hf : j' - i' + 2 ≤ fuel := by clear hj'le u4 d4; omega
        exact ih a i' j' hp (by omega) u2 d1 (by omega) hl hlo' hhi' (.inr ⟨by omega, hj'le⟩) hf
    · rw [if_neg (by omega)]
      refine ⟨a, j, rfl, SegPerm.refl _ _ _, h3, h4, hp, ?_, hhi⟩
      intro k x hk1 hk2 hx
      by_cases hk : k = j
      · subst hk; rw [hx0] at hx; cases hx; exact hc0
      · exact hlo k x hk1 (by omega) hx

theorem partition_safe (cmp : α → α → Int) (fuel : Nat) (a : Array α) (first last : Nat)
    (h : first ≤ last) (hl : last < a.size) :
    partition cmp fuel a first last = .error .fuel ∨
    ∃ a' j', partition cmp fuel a first last = .ok (a', j') ∧
      SegPerm first (last + 1) a a' ∧ first ≤ j' ∧ j' ≤ last := by
  rcases partLoop_safe cmp first last fuel a first last (Nat.le_refl _) h h (Nat.le_refl _) hl with
    h1 | ⟨a', j', h1, hs, hj1, hj2⟩
  · exact .inl (by simp [partition, h1])
  · refine .inr ⟨_, j', ?_, hs.trans (segPerm_swap (a := a') (i := first) (j := j') ?_ ?_ ?_), hj1, hj2⟩
    · simp only [partition, h1]
      rw [swapAt_ok]
    · rw [hs.size]; omega
    · rw [hs.size]; omega
    · omega

theorem partition_spec {cmp : α → α → Int} (hrefl : ∀ x, cmp x x ≤ 0) (fuel : Nat) (a : Array α)
    (first last : Nat) (h : first < last) (hl : last < a.size) (hfuel : last - first + 2 ≤ fuel) :
    ∃ a' j' p, partition cmp fuel a first last = .ok (a', j') ∧
      SegPerm first (last + 1) a a' ∧ first ≤ j' ∧ j' ≤ last ∧ a'[j']? = some p ∧
      On (fun x => cmp x p ≤ 0) a' first j' ∧ On (fun x => cmp x p > 0) a' (j' + 1) (last + 1) := by
  have hp : a[first]? = some a[first] := by simp
  obtain ⟨a', j', h1, hs, hj1, hj2, hp', hlo, hhi⟩ := partLoop_spec hrefl first last fuel a first last
    a[first] hp (Nat.le_refl _) (by omega) (by omega) (Nat.le_refl _) hl (by intros; omega)
    (by intros; omega) (.inl ⟨h, _, hp, hrefl _⟩) hfuel
  have s1 : first < a'.size := by rw [hs.size]; omega
  have s2 : j' < a'.size := by rw [hs.size]; omega
  have hget : ∀ k, (a'.swap first j' s1 s2)[k]? =
      if j' = k then a'[first]? else if first = k then a'[j']? else a'[k]? := by
    intro k; rw [Array.getElem?_swap]; simp [s1, s2]
  refine ⟨a'.swap first j' s1 s2, j', a[first], ?_, hs.trans (segPerm_swap s1 s2 (by omega)), hj1, hj2,
    ?_, ?_, ?_⟩
  · simp only [partition, h1]
    rw [swapAt_ok]
  · rw [hget, if_pos rfl]; exact hp'
  · intro k x hk1 hk2 hx
    rw [hget, if_neg (by omega)] at hx
    split at hx
    · exact hlo j' x hj1 (Nat.le_refl _) hx
    · exact hlo k x hk1 (by omega) hx
  · intro k x hk1 hk2 hx
    rw [hget, if_neg (by omega), if_neg (by omega)] at hx
    exact hhi k x (by omega) (by omega) hx

theorem qsortEx_safe (cmp : α → α → Int) (fuel : Nat) (a : Array α) (first stop : Nat)
    (hs : stop ≤ a.size) :
    qsortEx cmp fuel a first stop = .error .fuel ∨
    ∃ b, qsortEx cmp fuel a first stop = .ok b ∧ SegPerm first stop a b := by
  induction fuel generalizing a first stop with
  | zero => exact .inl rfl
  | succ fuel ih =>
    simp only [qsortEx]
    by_cases h : first + 1 ≥ stop
    · rw [if_pos h]; exact .inr ⟨a, rfl, SegPerm.refl _ _ _⟩
    · rw [if_neg h]
      rcases partition_safe cmp (fuel + 1) a first (stop - 1) (by omega) (by omega) with
        h1 | ⟨a1, p, h1, hsp, hp1, hp2⟩
      · rw [h1]; exact .inl rfl
      · rw [h1]
        simp only
        have hsp : SegPerm first stop a a1 := hsp.mono (Nat.le_refl _) (by omega)
        rcases ih a1 first p (by rw [hsp.size]; omega) with h2 | ⟨a2, h2, hs2⟩
        · rw [h2]; exact .inl rfl
        · rw [h2]
          simp only
          have hs2' := hs2.mono (lo := first) (hi := stop) (Nat.le_refl _) (by omega)
          rcases ih a2 (p + 1) stop (by rw [hs2.size, hsp.size]; omega) with h3 | ⟨a3, h3, hs3⟩
          · exact .inl h3
          · exact .inr ⟨a3, h3, (hsp.trans hs2').trans (hs3.mono (by omega) (Nat.le_refl _))⟩

/-- Sortedness of a segment. -/
def SegSorted (cmp : α → α → Int) (a : Array α) (lo hi : Nat) : Prop :=
  ∀ k l x y, lo ≤ k → k < l → l < hi → a[k]? = some x → a[l]? = some y → cmp x y ≤ 0

theorem qsortEx_spec {cmp : α → α → Int} (hrefl : ∀ x, cmp x x ≤ 0) (fuel : Nat) (a : Array α)
    (first stop : Nat) (hs : stop ≤ a.size) (hfuel : stop - first + 1 ≤ fuel) :
    ∃ b, qsortEx cmp fuel a first stop = .ok b ∧ SegPerm first stop a b ∧
      (Spec.TotalPreorder cmp → SegSorted cmp b first stop) := by
  induction fuel generalizing a first stop with
  | zero => omega
  | succ fuel ih =>
    simp only [qsortEx]
    by_cases h : first + 1 ≥ stop
    · rw [if_pos h]
      refine ⟨a, rfl, SegPerm.refl _ _ _, ?_⟩
      intro _ k l x y h1 h2 h3; omega
    · rw [if_neg h]
      obtain ⟨a1, p, pv, h1, hsp, hp1, hp2, hpv, hle, hgt⟩ := partition_spec hrefl (fuel + 1) a first
        (stop - 1) (by omega) (by omega) (by omega)
      have hsp : SegPerm first stop a a1 := hsp.mono (Nat.le_refl _) (by omega)
      have hgt : On (fun x => cmp x pv > 0) a1 (p + 1) stop := by
        intro k x k1 k2 hx; exact hgt k x k1 (by omega) hx
      rw [h1]
      simp only
      obtain ⟨a2, h2, hs2, so2⟩ := ih a1 first p (by rw [hsp.size]; omega) (by omega)
      rw [h2]
      simp only
      obtain ⟨a3, h3, hs3, so3⟩ := ih a2 (p + 1) stop (by rw [hs2.size, hsp.size]; omega) (by omega)
      refine ⟨a3, h3, ?_, ?_⟩
      · exact (hsp.trans (hs2.mono (Nat.le_refl _) (by omega))).trans
          (hs3.mono (by omega) (Nat.le_refl _))
      · intro ht
        have so2 := so2 ht
        have so3 := so3 ht
        -- the pivot and the separation survive the recursive calls
        have hpv3 : a3[p]? = some pv := by
          rw [hs3.out p (by omega), hs2.out p (by omega), hpv]
        have hle3 : On (fun x => cmp x pv ≤ 0) a3 first p := by
          intro k x k1 k2 hx
          rw [hs3.out k (by omega)] at hx
          exact hs2.pres _ hle k x k1 k2 hx
        have hgt3 : On (fun x => cmp x pv > 0) a3 (p + 1) stop := by
          refine hs3.pres _ ?_
          intro k x k1 k2 hx
          rw [hs2.out k (by omega)] at hx
          exact hgt k x k1 k2 hx
        intro k l x y k1 kl l2 hx hy
        rcases Nat.lt_trichotomy k p with hk | hk | hk
        · rcases Nat.lt_trichotomy l p with hl | hl | hl
          · rw [hs3.out k (by omega)] at hx
            rw [hs3.out l (by omega)] at hy
            exact so2 k l x y k1 kl hl hx hy
          · subst hl; rw [hpv3] at hy; cases hy
            exact hle3 k x k1 hk hx
          · exact ht.trans _ _ _ (hle3 k x k1 hk hx) (ht.total _ _ (hgt3 l y (by omega) l2 hy))
        · subst hk; rw [hpv3] at hx; cases hx
          exact ht.total _ _ (hgt3 l y (by omega) l2 hy)
        · exact so3 k l x y (by omega) kl l2 hx hy

end Umka.Sort
