import Verif.Printf.Spec

/-! # Printf: the two passes of `%v` -/

namespace Umka.Printf

/-- The code `w` (indexed by `maxLen`) prints exactly `t`: it measures it, and in a large enough buffer it writes it and touches at most
the next character, with a NUL. -/
structure Emits (w : Nat → Wr) (t : List Char) : Prop where
  measure : ∀ pos, w 0 none pos = some (none, t.length)
  fill : ∀ ml mem pos, t.length < ml → pos + t.length + 1 ≤ mem.length →
    ∃ mem', w ml (some mem) pos = some (some mem', t.length) ∧ mem'.length = mem.length ∧
      mem'.take (pos + t.length) = mem.take pos ++ t ∧
      (mem'[pos + t.length]? = some nul ∨ mem'[pos + t.length]? = mem[pos + t.length]?) ∧
      ∀ q, pos + t.length < q → mem'[q]? = mem[q]?

theorem emits_nothing : Emits (fun _ => Wr.nothing) [] := by
  refine ⟨fun pos => rfl, fun ml mem pos _ _ => ⟨mem, rfl, rfl, ?_, .inr rfl, fun _ _ => rfl⟩⟩
  simp

theorem emits_snp (t : List Char) : Emits (fun ml => snp ml t) t := by
  refine ⟨fun pos => by simp [snp], fun ml mem pos h1 h2 => ?_⟩
  have ht : t.take (ml - 1) = t := List.take_of_length_le (by omega)
  refine ⟨mem.take pos ++ (t ++ [nul]) ++ mem.drop (pos + (t ++ [nul]).length), ?_, ?_, ?_, ?_, ?_⟩
  · unfold snp
    rw [if_neg (by omega)]
    dsimp only
    rw [ht, writeAt, if_pos (by rw [List.length_append, List.length_singleton]; omega)]
    rfl
  · simp only [List.length_append, List.length_take, List.length_drop, List.length_singleton]; omega
  · have : pos + t.length = (mem.take pos ++ t).length := by rw [List.length_append, List.length_take]; omega
    rw [this, ← List.append_assoc, List.append_assoc, List.take_left]
  · refine .inl ?_
    rw [List.append_assoc, List.append_assoc, List.getElem?_append_right (by rw [List.length_take]; omega),
      List.getElem?_append_right (by rw [List.length_take]; omega), List.length_take]
    have : pos + t.length - min pos mem.length - t.length = 0 := by omega
    rw [this]; rfl
  · intro q hq
    rw [List.getElem?_append_right (by
      simp only [List.length_append, List.length_take, List.length_singleton]; omega), List.getElem?_drop]
    congr 1
    simp only [List.length_append, List.length_take, List.length_singleton]; omega

theorem emits_andThen {a b : Nat → Wr} {ta tb : List Char} (ha : Emits a ta) (hb : Emits b tb) :
    Emits (fun ml => (a ml).andThen (b ml)) (ta ++ tb) := by
  refine ⟨fun pos => ?_, fun ml mem pos h1 h2 => ?_⟩
  · simp only [Wr.andThen, ha.measure, hb.measure, List.length_append]
  · rw [List.length_append] at h1 h2
    obtain ⟨m1, e1, l1, t1, n1, q1⟩ := ha.fill ml mem pos (by omega) (by omega)
    obtain ⟨m2, e2, l2, t2, n2, q2⟩ := hb.fill ml m1 (pos + ta.length) (by omega) (by omega)
    refine ⟨m2, ?_, by omega, ?_, ?_, ?_⟩
    · simp only [Wr.andThen, e1, e2, List.length_append]
    · rw [List.length_append, ← Nat.add_assoc, t2, t1, List.append_assoc]
    · rw [List.length_append, ← Nat.add_assoc]
      rcases n2 with n2 | n2
      · exact .inl n2
      · rw [n2]
        by_cases h : tb.length = 0
        · rw [h]; exact n1
        · exact .inr (q1 _ (by omega))
    · intro q hq
      rw [List.length_append] at hq
      rw [q2 q (by omega), q1 q (by omega)]

theorem emits_cons {a : Nat → Wr} {ws : Nat → List Wr} {ta tb : List Char} (ha : Emits a ta)
    (hb : Emits (fun ml => Wr.seq (ws ml)) tb) : Emits (fun ml => Wr.seq (a ml :: ws ml)) (ta ++ tb) := emits_andThen ha hb

theorem emits_nil : Emits (fun _ => Wr.seq []) [] := emits_nothing

theorem emits_two {a b : Nat → Wr} {ta tb : List Char} (ha : Emits a ta) (hb : Emits b tb) :
    Emits (fun ml => Wr.seq [a ml, b ml]) (ta ++ tb) := by
  have := emits_cons ha (emits_cons hb emits_nil)
  rwa [List.append_nil] at this

theorem emits_three {a b c : Nat → Wr} {ta tb tc : List Char} (ha : Emits a ta) (hb : Emits b tb) (hc : Emits c tc) :
    Emits (fun ml => Wr.seq [a ml, b ml, c ml]) (ta ++ tb ++ tc) := by
  rw [List.append_assoc]; exact emits_cons ha (emits_two hb hc)

theorem emits_ite {c : Prop} [Decidable c] {a b : Nat → Wr} {ta tb : List Char} (ha : c → Emits a ta) (hb : ¬ c → Emits b tb) :
    Emits (fun ml => if c then a ml else b ml) (if c then ta else tb) := by
  by_cases h : c
  · simp only [if_pos h]; exact ha h
  · simp only [if_neg h]; exact hb h

theorem emits_open (d : Nat) (p : Bool) {c : Char} (hc : c = '(' ∨ c = '[' ∨ c = '{') :
    Emits (fun ml => printIndented ml d p c) (Spec.opening p d c) := by
  unfold printIndented Spec.opening
  simp only [if_pos hc]
  cases p with
  | false => exact emits_two (emits_snp [c]) emits_nothing
  | true =>
    have := emits_two (emits_snp [c]) (emits_snp (newlineIndent (4 * (d + 1))))
    have e : newlineIndent (4 * (d + 1)) = Spec.indent (4 * (d + 1)) := by
      rw [newlineIndent, Spec.indent, Nat.max_eq_left (by omega)]
    rw [e] at this
    rw [if_pos (by rfl)]
    simp only [if_pos]
    rw [← e]
    rw [← e] at this
    exact this

theorem emits_close (d : Nat) (p : Bool) {c : Char} (hc : c = ')' ∨ c = ']' ∨ c = '}') :
    Emits (fun ml => printIndented ml d p c) (Spec.closing p d c) := by
  unfold printIndented Spec.closing
  have hn : ¬ (c = '(' ∨ c = '[' ∨ c = '{') := by
    rcases hc with h | h | h <;> subst h <;> decide
  simp only [if_neg hn, if_pos hc]
  cases p with
  | false => exact emits_two emits_nothing (emits_snp [c])
  | true =>
    rw [if_pos (by rfl)]
    simp only [if_pos]
    by_cases hd : d = 0
    · subst hd
      simp only [if_neg (Nat.lt_irrefl 0), if_pos]
      exact emits_two (emits_snp ['\n']) (emits_snp [c])
    · have hd' : d > 0 := by omega
      simp only [if_pos hd', if_neg hd]
      have e : newlineIndent (4 * d) = Spec.indent (4 * d) := by
        rw [newlineIndent, Spec.indent, Nat.max_eq_left (by omega)]
      rw [← e]
      exact emits_two (emits_snp (newlineIndent (4 * d))) (emits_snp [c])

theorem emits_between (d : Nat) (p : Bool) : Emits (fun ml => printIndented ml d p ' ') (Spec.between p d) := by
  unfold printIndented Spec.between
  simp only [show ¬ (' ' = '(' ∨ ' ' = '[' ∨ ' ' = '{') by decide, show ¬ (' ' = ')' ∨ ' ' = ']' ∨ ' ' = '}') by decide, if_false, if_true]
  cases p with
  | false => exact emits_snp [' ']
  | true =>
    simp only [if_true]
    have e : newlineIndent (4 * (d + 1)) = Spec.indent (4 * (d + 1)) := by
      rw [newlineIndent, Spec.indent, Nat.max_eq_left (by omega)]
    rw [← e]
    exact emits_snp _

theorem intercalate_cons_cons (sep a b : List Char) (l : List (List Char)) :
    List.intercalate sep (a :: b :: l) = a ++ sep ++ List.intercalate sep (b :: l) := by
  simp [List.intercalate, List.intersperse]

/-- The loops over items: the separator follows every item but the last. -/
theorem emits_items {α : Type} (sep : List Char) (t : α → List Char) : ∀ (xs : List α) (w : Nat → Nat → α → Wr),
    (∀ i x, x ∈ xs → Emits (fun ml => w ml i x) (t x ++ if i + 1 < xs.length then sep else [])) →
    Emits (fun ml => Wr.seq (xs.mapIdx fun i x => w ml i x)) (List.intercalate sep (xs.map t)) := by
  intro xs
  induction xs with
  | nil => intro w _; exact emits_nothing
  | cons x xs ih =>
    intro w h
    simp only [List.mapIdx_cons, List.map_cons]
    have h0 := h 0 x List.mem_cons_self
    have hr := ih (fun ml i x => w ml (i + 1) x) (fun i y hy => by
      have := h (i + 1) y (List.mem_cons_of_mem _ hy)
      simpa only [List.length_cons, Nat.add_lt_add_iff_right] using this)
    have := emits_cons h0 hr
    cases xs with
    | nil => simpa [List.intercalate] using this
    | cons y ys =>
      rw [List.map_cons, intercalate_cons_cons]
      rw [List.length_cons, List.length_cons, if_pos (by omega), List.map_cons] at this
      exact this

theorem hexDigit_eq {n : Nat} (h : n < 16) : hexDigit n = Spec.hexChars.getD n '?' := by
  have : n = 0 ∨ n = 1 ∨ n = 2 ∨ n = 3 ∨ n = 4 ∨ n = 5 ∨ n = 6 ∨ n = 7 ∨ n = 8 ∨ n = 9 ∨ n = 10 ∨ n = 11 ∨ n = 12 ∨ n = 13 ∨ n = 14
      ∨ n = 15 := by omega
  rcases this with h | h | h | h | h | h | h | h | h | h | h | h | h | h | h | h <;> subst h <;> decide

theorem charText_eq {c : Nat} (h : c < 256) : charText c = Spec.charRepr c := by
  unfold charText Spec.charRepr
  by_cases h1 : c < 32
  · rw [if_neg (by omega), if_pos h1, hexDigit_eq (by omega), hexDigit_eq (by omega)]
    rfl
  · rw [if_pos (by omega), if_neg h1]

theorem emits_fill {g : Nat → Shape} (hg : ∀ n, Spec.ShapeOk (g n)) (pretty deref : Bool) : ∀ (left node : Nat), left ≤ 20 →
    Emits (fun ml => fillRepr g pretty deref ml left node) (Spec.repr g pretty deref left (20 - left) node) := by
  intro left
  induction left with
  | zero => intro node _; exact emits_snp _
  | succ left ih =>
    intro node hl
    have ih' : ∀ n, Emits (fun ml => fillRepr g pretty deref ml left n) (Spec.repr g pretty deref left (20 - (left + 1) + 1) n) := by
      intro n
      have := ih n (by omega)
      rwa [show 20 - left = 20 - (left + 1) + 1 by omega] at this
    have hok := hg node
    simp only [fillRepr, Spec.repr, maxDepth]
    cases hs : g node with
    | void => exact emits_snp _
    | int i => exact emits_snp _
    | bool b => cases b <;> exact emits_snp _
    | char c =>
      rw [hs] at hok
      dsimp only
      rw [charText_eq hok]
      exact emits_snp _
    | str s => exact emits_snp _
    | «opaque» t => exact emits_snp _
    | ptr t target =>
      cases target with
      | none => cases deref <;> exact emits_snp _
      | some n =>
        cases deref with
        | false => exact emits_snp _
        | true =>
          dsimp only
          have := emits_cons (emits_snp t) (emits_cons (emits_snp " -> ".toList)
            (emits_three (emits_open (20 - (left + 1)) pretty (c := '(') (.inl rfl)) (ih' n)
              (emits_close (20 - (left + 1)) pretty (c := ')') (.inl rfl))))
          simpa only [List.append_assoc] using this
    | array items =>
      dsimp only
      refine emits_three (emits_open _ _ (.inr (.inl rfl))) ?_ (emits_close _ _ (.inr (.inl rfl)))
      exact emits_items _ _ _ _ fun i x _ => emits_two (ih' x) (emits_ite (fun _ => emits_between _ _) fun _ => emits_nothing)
    | map entries =>
      dsimp only
      refine emits_three (emits_open _ _ (.inr (.inr rfl))) ?_ (emits_close _ _ (.inr (.inr rfl)))
      refine emits_items _ (fun e => _) _ _ fun i x _ => ?_
      have := emits_cons (ih' x.1) (emits_cons (emits_snp ": ".toList) (emits_two (ih' x.2)
        (emits_ite (c := i + 1 < entries.length) (fun _ => emits_between (20 - (left + 1)) pretty) fun _ => emits_nothing)))
      simpa only [List.append_assoc] using this
    | struct fields skipNames =>
      dsimp only
      refine emits_three (emits_open _ _ (.inr (.inr rfl))) ?_ (emits_close _ _ (.inr (.inr rfl)))
      refine emits_items _ (fun e => _) _ _ fun i x _ => ?_
      exact emits_three (emits_ite (fun _ => emits_nothing) fun _ => emits_snp _) (ih' x.2)
        (emits_ite (c := i + 1 < fields.length) (fun _ => emits_between (20 - (left + 1)) pretty) fun _ => emits_nothing)
    | iface self =>
      cases self with
      | none => exact emits_snp _
      | some p =>
        obtain ⟨t, n⟩ := p
        dsimp only
        cases pretty with
        | false =>
          have := emits_three emits_nothing (ih' n) emits_nothing
          simpa using this
        | true =>
          simp only [if_true]
          exact emits_three (emits_two (emits_snp t) (emits_open _ _ (.inl rfl))) (ih' n) (emits_close _ _ (.inl rfl))

/-- The two passes make the specified text, exactly filling the buffer. -/
theorem makeRepr_eq {g : Nat → Shape} (hg : ∀ n, Spec.ShapeOk (g n)) (root : Nat) (pretty deref : Bool) (junk : Char) :
    makeRepr g root pretty deref junk =
      some (Spec.reprOf g root pretty deref ++ [nul], (Spec.reprOf g root pretty deref).length) := by
  have h := emits_fill hg pretty deref 20 root (Nat.le_refl _)
  rw [Nat.sub_self] at h
  change Emits _ (Spec.reprOf g root pretty deref) at h
  generalize Spec.reprOf g root pretty deref = t at *
  unfold makeRepr
  have h1 := h.measure 0
  rw [maxDepth, h1]
  dsimp only
  have e : writeAt (List.replicate (t.length + 1) junk) t.length [nul] = some (List.replicate t.length junk ++ [nul]) := by
    rw [writeAt, if_pos (by simp)]
    simp [List.take_replicate, List.drop_replicate]
  rw [e]
  dsimp only
  obtain ⟨m, e1, l1, t1, n1, _⟩ := h.fill (t.length + 1) (List.replicate t.length junk ++ [nul]) 0 (by omega) (by simp)
  rw [e1]
  dsimp only
  rw [Nat.zero_add] at t1 n1
  have hl : m.length = t.length + 1 := by simpa using l1
  have hlast : m[t.length]? = some nul := by
    rcases n1 with h | h
    · exact h
    · rw [h, List.getElem?_append_right (by simp)]; simp
  have hm : m = t ++ [nul] := by
    have h3 : m.drop t.length = [nul] := by
      obtain ⟨hlt, he⟩ := List.getElem?_eq_some_iff.mp hlast
      rw [List.drop_eq_getElem_cons hlt, he, List.drop_of_length_le (by omega)]
    rw [← List.take_append_drop t.length m, h3, t1]
    simp
  rw [hm]

theorem noNul_append {a b : List Char} (ha : Spec.noNul a) (hb : Spec.noNul b) : Spec.noNul (a ++ b) := by
  intro c hc
  rcases List.mem_append.mp hc with h | h
  · exact ha c h
  · exact hb c h

theorem noNul_intercalate {sep : List Char} (hs : Spec.noNul sep) : ∀ {l : List (List Char)}, (∀ t ∈ l, Spec.noNul t) →
    Spec.noNul (List.intercalate sep l) := by
  intro l
  induction l with
  | nil => intro _ c hc; simp [List.intercalate] at hc
  | cons a l ih =>
    intro h
    cases l with
    | nil =>
      have : List.intercalate sep [a] = a := by simp [List.intercalate]
      rw [this]; exact h a List.mem_cons_self
    | cons b l =>
      rw [intercalate_cons_cons]
      exact noNul_append (noNul_append (h a List.mem_cons_self) hs) (ih fun t ht => h t (List.mem_cons_of_mem _ ht))

theorem noNul_indent (n : Nat) : Spec.noNul (Spec.indent n) := by
  intro c hc
  rcases List.mem_cons.mp hc with rfl | h
  · decide
  · rw [(List.mem_replicate.mp h).2]; decide

theorem noNul_singleton {c : Char} (h : c ≠ Char.ofNat 0) : Spec.noNul [c] := by
  intro x hx
  rw [List.mem_singleton] at hx
  rw [hx]; exact h

theorem noNul_cons {c : Char} {t : List Char} (h : c ≠ Char.ofNat 0) (ht : Spec.noNul t) : Spec.noNul (c :: t) :=
  noNul_append (noNul_singleton h) ht

theorem noNul_open (p : Bool) (d : Nat) {c : Char} (h : c ≠ Char.ofNat 0) : Spec.noNul (Spec.opening p d c) := by
  unfold Spec.opening
  cases p
  · exact noNul_singleton h
  · exact noNul_cons h (noNul_indent _)

theorem noNul_close (p : Bool) (d : Nat) {c : Char} (h : c ≠ Char.ofNat 0) : Spec.noNul (Spec.closing p d c) := by
  unfold Spec.closing
  cases p
  · exact noNul_singleton h
  · rw [if_pos (by rfl)]
    by_cases hd : d = 0
    · rw [if_pos hd]; exact noNul_cons (by decide) (noNul_singleton h)
    · rw [if_neg hd]; exact noNul_append (noNul_indent _) (noNul_singleton h)

theorem noNul_between (p : Bool) (d : Nat) : Spec.noNul (Spec.between p d) := by
  unfold Spec.between
  cases p
  · exact noNul_singleton (by decide)
  · exact noNul_indent _

theorem noNul_toString_nat (n : Nat) : Spec.noNul (toString n).toList := by
  intro c hc
  have : (toString n).toList = Nat.toDigits 10 n := by
    show (Nat.repr n).toList = _
    rw [Nat.repr]; simp
  rw [this] at hc
  have := Nat.isDigit_of_mem_toDigits (b := 10) (by decide) (by decide) hc
  rintro rfl
  exact absurd this (by decide)

theorem noNul_toString_int (i : Int) : Spec.noNul (toString i).toList := by
  cases i with
  | ofNat n => exact noNul_toString_nat n
  | negSucc n =>
    have : (toString (Int.negSucc n)).toList = '-' :: (toString (n + 1)).toList := by
      show ("-" ++ toString (n + 1)).toList = _
      rw [String.toList_append]; rfl
    rw [this]
    exact noNul_cons (by decide) (noNul_toString_nat _)

theorem charOf_ne_nul {c : Nat} (h0 : 0 < c) (h : c < 256) : Char.ofNat c ≠ Char.ofNat 0 := by
  intro e
  have h1 : (Char.ofNat c).toNat = c := by
    have hv : Nat.isValidChar c := .inl (by omega)
    rw [Char.ofNat, dif_pos hv]; rfl
  rw [e] at h1
  have : (Char.ofNat 0).toNat = 0 := rfl
  omega

theorem noNul_char {c : Nat} (h : c < 256) : Spec.noNul (Spec.charRepr c) := by
  unfold Spec.charRepr
  by_cases h1 : c < 32
  · rw [if_pos h1, ← hexDigit_eq (by omega), ← hexDigit_eq (by omega)]
    have hx : ∀ n, n < 16 → hexDigit n ≠ Char.ofNat 0 := by
      intro n hn
      unfold hexDigit
      split
      · exact charOf_ne_nul (by omega) (by omega)
      · exact charOf_ne_nul (by omega) (by omega)
    refine noNul_append (noNul_cons (by decide) (noNul_singleton (by decide))) (noNul_cons (hx _ (by omega)) (noNul_singleton (hx _ (by omega))))
  · rw [if_neg h1]
    exact noNul_cons (by decide) (noNul_cons (charOf_ne_nul (by omega) h) (noNul_singleton (by decide)))

theorem noNul_lit {s : List Char} (h : s.all (· != Char.ofNat 0) = true) : Spec.noNul s := by
  intro c hc
  have := List.all_eq_true.mp h c hc
  simpa using this

theorem noNul_repr {g : Nat → Shape} (hg : ∀ n, Spec.ShapeOk (g n)) (pretty deref : Bool) : ∀ (limit depth node : Nat),
    Spec.noNul (Spec.repr g pretty deref limit depth node) := by
  intro limit
  induction limit with
  | zero => intro _ _; exact noNul_lit (s := "...".toList) (by decide)
  | succ limit ih =>
    intro depth node
    have hok := hg node
    simp only [Spec.repr]
    cases hs : g node with
    | void => exact noNul_lit (s := "void".toList) (by decide)
    | int i => exact noNul_toString_int i
    | bool b =>
      cases b
      · exact noNul_lit (s := "false".toList) (by decide)
      · exact noNul_lit (s := "true".toList) (by decide)
    | char c => rw [hs] at hok; exact noNul_char hok
    | str s =>
      rw [hs] at hok
      exact noNul_append (noNul_append (noNul_singleton (by decide)) hok) (noNul_singleton (by decide))
    | «opaque» t => rw [hs] at hok; exact hok
    | ptr t target =>
      rw [hs] at hok
      cases target with
      | none => cases deref <;> exact hok
      | some n =>
        cases deref with
        | false => exact hok
        | true =>
          exact noNul_append (noNul_append (noNul_append (noNul_append hok (noNul_lit (s := " -> ".toList) (by decide))) (noNul_open _ _ (by decide))) (ih _ _))
            (noNul_close _ _ (by decide))
    | array items =>
      refine noNul_append (noNul_append (noNul_open _ _ (by decide)) (noNul_intercalate (noNul_between _ _) fun t ht => ?_))
        (noNul_close _ _ (by decide))
      obtain ⟨n, _, rfl⟩ := List.mem_map.mp ht
      exact ih _ _
    | map entries =>
      refine noNul_append (noNul_append (noNul_open _ _ (by decide)) (noNul_intercalate (noNul_between _ _) fun t ht => ?_))
        (noNul_close _ _ (by decide))
      obtain ⟨e, _, rfl⟩ := List.mem_map.mp ht
      exact noNul_append (noNul_append (ih _ _) (noNul_lit (s := ": ".toList) (by decide))) (ih _ _)
    | struct fields skipNames =>
      rw [hs] at hok
      refine noNul_append (noNul_append (noNul_open _ _ (by decide)) (noNul_intercalate (noNul_between _ _) fun t ht => ?_))
        (noNul_close _ _ (by decide))
      obtain ⟨f, hf, rfl⟩ := List.mem_map.mp ht
      refine noNul_append ?_ (ih _ _)
      cases skipNames
      · exact noNul_append (hok f hf) (noNul_lit (s := ": ".toList) (by decide))
      · exact noNul_lit (s := []) (by decide)
    | iface self =>
      rw [hs] at hok
      cases self with
      | none => exact noNul_lit (s := "null".toList) (by decide)
      | some p =>
        obtain ⟨t, n⟩ := p
        dsimp only
        cases pretty with
        | false => exact ih _ _
        | true => exact noNul_append (noNul_append (noNul_append hok (noNul_open _ _ (by decide))) (ih _ _)) (noNul_close _ _ (by decide))

theorem cstr_repr {t : List Char} (h : Spec.noNul t) : cstr (t ++ [nul]) = t := by
  unfold cstr
  induction t with
  | nil => rfl
  | cons c t ih =>
    have hc : c ≠ Char.ofNat 0 := h c List.mem_cons_self
    rw [List.cons_append, List.takeWhile_cons_of_pos (by simp [nul, hc]), ih fun x hx => h x (List.mem_cons_of_mem _ hx)]

end Umka.Printf
