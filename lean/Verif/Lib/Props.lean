import Verif.Lib.Lemmas

/-!
# Lib: properties C44, C45, C51
-/

namespace Umka.Lib.Props

deriving instance DecidableEq for Except

/-! ## C45: random numbers -/

/-- **C45.**  Whatever the program calls, and with whichever seeds: every random number is in `0..randMax`, and the state of the generator
is never zero (which it would never leave). -/
theorem C45_rand (ops : List RandOp) (hops : ∀ seed, .srand seed ∈ ops → -2 ^ 63 ≤ seed ∧ seed < 2 ^ 63) :
    (∀ x ∈ (randRun 1 ops).1, 0 ≤ x ∧ x ≤ 0x7FFFFFFF) ∧ (randRun 1 ops).2 ≠ 0#64 := by
  have hr : ∀ s : Seed, 0 ≤ (rand s).1 ∧ (rand s).1 ≤ 0x7FFFFFFF := by
    intro s
    rw [rand]
    dsimp only
    have h1 : (randStep s &&& randMax).toNat ≤ 0x7FFFFFFF := by
      rw [BitVec.toNat_and]
      exact Nat.and_le_right
    rw [BitVec.toInt_eq_toNat_cond]
    rw [if_pos (by omega)]
    omega
  have gen : ∀ (ops : List RandOp) (s : Seed), (∀ seed, .srand seed ∈ ops → -2 ^ 63 ≤ seed ∧ seed < 2 ^ 63) → s ≠ 0#64 →
      (∀ x ∈ (randRun s ops).1, 0 ≤ x ∧ x ≤ 0x7FFFFFFF) ∧ (randRun s ops).2 ≠ 0#64 := by
    intro ops
    induction ops with
    | nil => intro s _ hs; exact ⟨by simp [randRun], hs⟩
    | cons op ops ih =>
      intro s ho hs
      have ho' := fun seed hm => ho seed (List.mem_cons_of_mem _ hm)
      cases op with
      | rand =>
        rw [randRun]
        obtain ⟨h1, h2⟩ := ih (rand s).2 ho' (randStep_ne hs)
        refine ⟨?_, h2⟩
        intro x hx
        rcases List.mem_cons.mp hx with e | hx
        · rw [e]; exact hr s
        · exact h1 x hx
      | srand seed =>
        rw [randRun]
        apply ih _ ho'
        rw [srand]
        split
        · rename_i hpos
          apply randStep_ne
          intro h0
          have hb := ho seed List.mem_cons_self
          have h1 := BitVec.toInt_ofInt_eq_self (w := 64) (by decide) (by simpa using hb.1) (by simpa using hb.2)
          rw [h0] at h1
          simp at h1
          omega
        · exact hs
  exact gen ops 1 hops (by decide)

/-- **C45, no state is lost.**  Different states have different successors: the generator runs through a cycle and comes back to every
state; it cannot get stuck. -/
theorem C45_injective (a b : Seed) (h : (rand a).2 = (rand b).2) : a = b := randStep_inj h

example : (randRun 1 [.rand, .srand 5, .rand, .srand (-3), .rand]).1 = [1082269761, 1006716231, 1151006221] := by decide +kernel

/-! ## C51: trimming and functional tools -/

/-- **C51, trimming.**  Exactly the blank and control characters at the left, at the right or on both sides are removed. -/
theorem C51_trim (s : List Nat) : TrimOf true false s (ltrim s) ∧ TrimOf false true s (rtrim s) ∧ TrimOf true true s (trim s) := by
  refine ⟨?_, ?_, ?_⟩
  · obtain ⟨a, h1, h2, h3⟩ := ltrim_spec s
    exact ⟨a, [], by simpa using h1, h2, by simp, by simp, by simp, fun _ => h3, by simp⟩
  · obtain ⟨b, h1, h2, h3⟩ := rtrim_spec s
    exact ⟨[], b, by simpa using h1, by simp, h2, by simp, by simp, by simp, fun _ => h3⟩
  · obtain ⟨b, h1, h2, h3⟩ := rtrim_spec s
    obtain ⟨a, h4, h5, h6⟩ := ltrim_spec (rtrim s)
    refine ⟨a, b, ?_, h5, h2, by simp, by simp, fun _ => h6, ?_⟩
    · rw [trim, ← h4, ← h1]
    · intro _ c hc
      rw [trim] at hc
      apply h3 c
      cases hl : ltrim (rtrim s) with
      | nil => rw [hl] at hc; cases hc
      | cons x xs => rw [h4, List.getLast?_append, hc]; rfl

theorem blanks_unique {a a' x x' : List Nat} (h : a ++ x = a' ++ x') (ha : ∀ c ∈ a, Blank c) (ha' : ∀ c ∈ a', Blank c)
    (hx : ∀ c, x.head? = some c → ¬ Blank c) (hx' : ∀ c, x'.head? = some c → ¬ Blank c) : x = x' := by
  rcases List.append_eq_append_iff.mp h with ⟨d, h1, h2⟩ | ⟨d, h1, h2⟩
  · cases d with
    | nil => simpa using h2
    | cons c d => exact absurd (ha' c (by rw [h1]; simp)) (hx c (by rw [h2]; rfl))
  · cases d with
    | nil => simpa using h2.symm
    | cons c d => exact absurd (ha c (by rw [h1]; simp)) (hx' c (by rw [h2]; rfl))

/-- The specification determines the result: `TrimOf` is not satisfied by anything else. -/
theorem C51_trim_unique {l r : Bool} {s t u : List Nat} (h : TrimOf l r s t) (h' : TrimOf l r s u) : t = u := by
  have left : ∀ {s t u : List Nat}, TrimOf l false s t → TrimOf l false s u → t = u := by
    intro s t u ⟨a, b, h1, h2, h3, h4, h5, h6, h7⟩ ⟨a', b', g1, g2, g3, g4, g5, g6, g7⟩
    rw [h5 rfl, List.append_nil] at h1
    rw [g5 rfl, List.append_nil] at g1
    cases l with
    | false => rw [h4 rfl] at h1; rw [g4 rfl] at g1; rw [List.nil_append] at h1 g1; rw [← h1, ← g1]
    | true => exact blanks_unique (h1.symm.trans g1) h2 g2 (h6 rfl) (g6 rfl)
  cases r with
  | false => exact left h h'
  | true =>
    obtain ⟨a, b, h1, h2, h3, h4, h5, h6, h7⟩ := h
    obtain ⟨a', b', g1, g2, g3, g4, g5, g6, g7⟩ := h'
    have hd : ∀ {t : List Nat} (b : List Nat), (∀ c, t.head? = some c → ¬ Blank c) → t ≠ [] → ∀ c, (t ++ b).head? = some c → ¬ Blank c := by
      intro t b h hne c hc
      cases t with
      | nil => exact absurd rfl hne
      | cons x t => exact h c hc
    by_cases ht : t = []
    · -- then everything is blank (if the left side is trimmed) or everything right of it
      subst ht
      cases u with
      | nil => rfl
      | cons c u =>
        exfalso
        have hall : ∀ c ∈ s, Blank c := by
          rw [h1]; intro c hc
          rcases List.mem_append.mp hc with hc | hc
          · exact h2 c (by simpa using hc)
          · exact h3 c hc
        have hlast : ∃ z, (c :: u).getLast? = some z := ⟨_, List.getLast?_eq_some_getLast (by simp)⟩
        obtain ⟨z, hz⟩ := hlast
        exact g7 rfl z hz (hall z (by
          rw [g1]; simp only [List.mem_append]
          exact Or.inl (Or.inr (List.mem_of_getLast? hz))))
    · by_cases hu : u = []
      · subst hu
        exfalso
        have hall : ∀ c ∈ s, Blank c := by
          rw [g1]; intro c hc
          rcases List.mem_append.mp hc with hc | hc
          · exact g2 c (by simpa using hc)
          · exact g3 c hc
        obtain ⟨z, hz⟩ : ∃ z, t.getLast? = some z := ⟨_, List.getLast?_eq_some_getLast ht⟩
        exact h7 rfl z hz (hall z (by
          rw [h1]; simp only [List.mem_append]
          exact Or.inl (Or.inr (List.mem_of_getLast? hz))))
      · -- the right side first, on the reversed string
        have hrev : (b.reverse ++ (a ++ t).reverse) = (b'.reverse ++ (a' ++ u).reverse) := by
          rw [← List.reverse_append, ← List.reverse_append, ← h1, ← g1]
        have hl : ∀ {a t : List Nat}, t ≠ [] → (∀ c, t.getLast? = some c → ¬ Blank c) →
            ∀ c, ((a ++ t).reverse).head? = some c → ¬ Blank c := by
          intro a t hne h c hc
          rw [List.head?_reverse, List.getLast?_append, List.getLast?_eq_some_getLast hne] at hc
          exact h c (by rw [List.getLast?_eq_some_getLast hne]; simpa using hc)
        have := blanks_unique hrev (fun c hc => h3 c (List.mem_reverse.mp hc)) (fun c hc => g3 c (List.mem_reverse.mp hc))
          (hl ht (h7 rfl)) (hl hu (g7 rfl))
        have e : a ++ t = a' ++ u := List.reverse_inj.mp this
        exact left (s := a ++ t) ⟨a, [], by simp, h2, by simp, h4, by simp, h6, by simp⟩
          ⟨a', [], by simp [e], g2, by simp, g4, by simp, g6, by simp⟩

example : trim [32, 9, 65, 32, 66, 10, 32] = [65, 32, 66] := by
  simp [trim, ltrim, rtrim, rtrimFind, ltrimFind]

/-- **C51, transform** (partial: see `C51_transform_violated`).  For a function that leaves the array alone, `transform` calls it once for every item, from the first to the last,
and returns the results in this order. -/
theorem C51_transform_partial {σ α β : Type} (dflt : β) (arr : σ → List α) (f : α → σ → β × σ) (hf : ∀ x w, arr (f x w).2 = arr w)
    (w : σ) (n : Nat) (hn : (arr w).length < n) :
    transform dflt arr f n w = some (.ok (mapInOrder f (arr w) w)) := by
  have := transformLoop_ok hf (arr w) [] (List.replicate (arr w).length dflt) w n rfl (by simp) hn
  rw [transform]
  simpa using this

/-- **C51, filter.**  Likewise: the items for which the function returns true, in order. -/
theorem C51_filter_partial {σ α : Type} (arr : σ → List α) (f : α → σ → Bool × σ) (hf : ∀ x w, arr (f x w).2 = arr w)
    (w : σ) (n : Nat) (hn : (arr w).length < n) : filter arr f n w = some (.ok (filterInOrder f (arr w) w)) := by
  have := filterLoop_ok hf (arr w) [] [] w n rfl hn
  rw [filter]
  simpa using this

/-- **C51, reduce.**  Likewise: the left fold of a non-empty array; an empty one is an index error. -/
theorem C51_reduce_partial {σ α : Type} (arr : σ → List α) (f : α → α → σ → α × σ) (hf : ∀ x y w, arr (f x y w).2 = arr w)
    (w : σ) (n : Nat) (hn : (arr w).length < n) :
    reduce arr f n w =
      match arr w with
      | [] => some (.error .index)
      | x :: xs => some (.ok (foldInOrder f x xs w)) := by
  rw [reduce]
  cases ha : arr w with
  | nil => rfl
  | cons x xs =>
    have := reduceLoop_ok hf xs [x] x w n ha (by rw [ha] at hn; simp at hn; omega)
    simpa using this

/-- For functions without side effects these are `map`, `filter` and `foldl`. -/
theorem C51_pure {α β : Type} (f : α → β) (p : α → Bool) (g : α → α → α) (a : α) (xs : List α) :
    (mapInOrder (fun x (w : Unit) => (f x, w)) xs ()).1 = xs.map f ∧
    (filterInOrder (fun x (w : Unit) => (p x, w)) xs ()).1 = xs.filter p ∧
    (foldInOrder (fun x y (w : Unit) => (g x y, w)) a xs ()).1 = xs.foldl g a := by
  refine ⟨?_, ?_, ?_⟩
  · induction xs with
    | nil => rfl
    | cons x xs ih => rw [mapInOrder, List.map_cons]; simp [ih]
  · induction xs with
    | nil => rfl
    | cons x xs ih => rw [filterInOrder, List.filter_cons]; simp [ih]
  · induction xs generalizing a with
    | nil => rfl
    | cons x xs ih => rw [foldInOrder, List.foldl_cons, ← ih]

/-- A function with a side effect: it counts its calls. -/
example : transform 0 (fun _ => [3, 4, 5]) (fun x (w : Nat) => (x * 10 + w, w + 1)) 4 0 = some (.ok ([30, 41, 52], 3)) := by decide
example : filter (fun _ => [3, 4, 5]) (fun x (w : Nat) => (decide (x ≠ 4), w + 1)) 4 0 = some (.ok ([3, 5], 3)) := by decide
example : reduce (fun _ => [3, 4, 5]) (fun x y (w : Nat) => (x * 10 + y, w + 1)) 4 0 = some (.ok (345, 2)) := by decide

/-- The claim needs its hypothesis: a function that appends to the array while it is transformed causes an index error. -/
theorem C51_transform_violated : ∃ (f : Nat → List Nat → Nat × List Nat),
    transform 0 id f 4 [1, 2] = some (.error .index) :=
  ⟨fun x w => (x, w ++ [0]), by decide⟩

/-! ## C44: UTF-8 -/

/-- **C44, encoding.**  `encode` produces the UTF-8 encoding of all characters but NUL. -/
theorem C44_encode (rs : List Nat) (h : ∀ r ∈ rs, Valid r) : encode (rs.map Int.ofNat) = .ok (rs.flatMap utf8) :=
  encode_eq rs h

/-- **C44, round trip** (partial: the replacement character U+FFFD is excluded, see `C44_replacement_violated`). -/
theorem C44_round_trip_partial (rs : List Nat) (h : ∀ r ∈ rs, Valid r ∧ r ≠ 0xFFFD) :
    ∃ s, encode (rs.map Int.ofNat) = .ok s ∧
      ∀ n, s.length < n → decode n s = some (.ok (rs.map Int.ofNat)) ∧ runeCount n s = some (.ok rs.length) := by
  refine ⟨_, encode_eq rs (fun r hr => (h r hr).1), ?_⟩
  intro n hn
  have h1 : decode n (rs.flatMap utf8) = some (.ok (rs.map Int.ofNat)) := by
    have := decodeLoop_utf8 rs [] [] n h hn
    simpa [decode] using this
  refine ⟨h1, ?_⟩
  have := countLoop_eq (rs.flatMap utf8) n 0 []
  rw [runeCount]
  rw [decode] at h1
  rw [h1] at this
  rw [show (0 : Nat) = ([] : List Int).length from rfl, this]
  simp [Except.map]

example : encode [0x41, 0xE9, 0x20AC, 0x1F600] = .ok [0x41, 0xC3, 0xA9, 0xE2, 0x82, 0xAC, 0xF0, 0x9F, 0x98, 0x80] ∧
    decode 11 [0x41, 0xC3, 0xA9, 0xE2, 0x82, 0xAC, 0xF0, 0x9F, 0x98, 0x80] = some (.ok [0x41, 0xE9, 0x20AC, 0x1F600]) := by
  decide +kernel

/-- **C44, invalid strings.**  What `decode` returns for a string that becomes invalid at some place are the characters up to this place. -/
theorem C44_invalid (rs : List Nat) (h : ∀ r ∈ rs, Valid r ∧ r ≠ 0xFFFD) (t : List Nat) (ht : BadStart t)
    (n : Nat) (hn : (rs.flatMap utf8).length < n) : decode n (rs.flatMap utf8 ++ t) = some (.ok (rs.map Int.ofNat)) := by
  have hne : t ≠ [] := by
    obtain ⟨_, _, e, _⟩ := ht
    rw [e]; simp
  have := decodeLoop_post t (fun pre => ⟨hne, decodeRune_bad ht pre⟩) rs [] [] n h hn
  simpa [decode] using this

/-- A truncated character after "A"; a continuation byte. -/
example : BadStart [0xE2, 0x82] ∧ BadStart [0x80] ∧ BadStart [0xC3, 0x41] :=
  ⟨⟨_, _, rfl, by decide, .inr ⟨1, by decide, by simp⟩⟩, ⟨_, _, rfl, by decide, .inl (by decide)⟩,
   ⟨_, _, rfl, by decide, .inr ⟨0, by decide, by simp⟩⟩⟩

/-- **C44 is false** for the replacement character: it ends the decoding, and so do all invalid bytes. -/
theorem C44_replacement_violated : ∃ s, encode [0x41, 0xFFFD, 0x42] = .ok s ∧ decode 100 s = some (.ok [0x41]) :=
  ⟨[0x41, 0xEF, 0xBF, 0xBD, 0x42], by decide +kernel, by decide +kernel⟩

/-- **C44 is false**: NUL has an empty encoding. -/
theorem C44_nul_violated : encode [0x41, 0, 0x42] = .ok [0x41, 0x42] := by decide +kernel

/-- **C44, termination is false**: a four-byte sequence beyond U+10FFFF makes `decode` step back, so it never ends. -/
theorem C44_terminates_violated : ∃ s : List Nat, ∀ n, decode n s = none := by
  refine ⟨[0x41, 0xF7, 0xBF, 0xBF, 0xBF], ?_⟩
  have h0 : decodeRune [0x41, 0xF7, 0xBF, 0xBF, 0xBF] 0 = .ok 0x41 := by decide +kernel
  have h1 : decodeRune [0x41, 0xF7, 0xBF, 0xBF, 0xBF] 1 = .ok 0x1FFFFF := by decide +kernel
  have key : ∀ n acc, decodeLoop [0x41, 0xF7, 0xBF, 0xBF, 0xBF] n 0 acc = none ∧
      decodeLoop [0x41, 0xF7, 0xBF, 0xBF, 0xBF] n 1 acc = none := by
    intro n
    induction n with
    | zero => intro acc; exact ⟨rfl, rfl⟩
    | succ n ih =>
      intro acc
      constructor
      · rw [decodeLoop, if_pos (by decide), h0]
        dsimp only
        rw [if_neg (by decide)]
        exact (ih _).2
      · rw [decodeLoop, if_pos (by decide), h1]
        dsimp only
        rw [if_neg (by decide)]
        exact (ih _).1
  intro n
  exact (key n []).1

/-- **C44 is false**: such a sequence at the beginning makes `decode` read before the first character. -/
theorem C44_index_violated : decode 3 [0xF7, 0xBF, 0xBF, 0xBF] = some (.error .index) := by decide +kernel

/-- **C44, termination** (partial: strings without byte patterns beyond U+10FFFF, valid or not): `decode` and `runeCount` end after at most
one round per byte and agree. -/
theorem C44_terminates_partial (s : List Nat) (h : NoBig s) :
    ∃ rs : List Int, ∀ n, s.length < n → decode n s = some (.ok rs) ∧ runeCount n s = some (.ok rs.length) := by
  obtain ⟨rs, hr⟩ := decodeLoop_terminates h (s.length + 1) 0 [] (by omega) (by omega)
  refine ⟨rs, ?_⟩
  intro n hn
  have h1 := hr n (by omega)
  refine ⟨h1, ?_⟩
  have := countLoop_eq s n 0 []
  rw [runeCount, show (0 : Nat) = ([] : List Int).length from rfl, this]
  rw [show ((0 : Nat) : Int) = 0 from rfl] at h1
  rw [h1]
  rfl

example : decode 5 [0xC0, 0x80, 0xFF] = some (.ok [0]) := by decide +kernel

end Umka.Lib.Props
