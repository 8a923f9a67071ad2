import Verif.Lexer.Progress
import Verif.Lexer.Spec
/-! # Lexer: operators are found by longest match -/

namespace Umka.Lexer
open Spec

/-- The spelling of an operator. -/
def spell (k : Kind) : List Char := ((opTable.find? (fun p => p.2 = k)).map (·.1)).getD []

theorem prefix_cons_cons {q : List Char} {a b : Char} {l : List Char} (h : q <+: a :: b :: l)
    (h2 : 2 ≤ q.length) : ∃ t, q = a :: b :: t ∧ t <+: l := by
  obtain ⟨s, hs⟩ := h
  match q, h2 with
  | x :: y :: t, _ =>
    simp only [List.cons_append] at hs
    injection hs with h1 hs; injection hs with h3 hs
    exact ⟨t, by rw [h1, h3], ⟨s, hs⟩⟩

/-- No operator is longer than one character if the next character continues none. -/
theorem longest1 (c : Char) (l : List Char)
    (h : ∀ q ∈ opTable, ∀ d ∈ q.1[1]?, q.1.head? = some c → l.head? ≠ some d) :
    ∀ q ∈ opTable, q.1 <+: c :: l → q.1.length ≤ 1 := by
  intro q hq hp
  rcases Nat.lt_or_ge 1 q.1.length with hl | hl
  · exfalso
    cases l with
    | nil => have := hp.length_le; simp at this; omega
    | cons d l =>
      obtain ⟨t, ht, _⟩ := prefix_cons_cons hp hl
      have := h q hq d (by rw [ht]; simp) (by rw [ht]; simp)
      simp at this
  · exact hl

theorem longest2 (a b : Char) (l : List Char)
    (h : ∀ q ∈ opTable, ∀ d ∈ q.1[2]?, q.1.head? = some a → q.1[1]? = some b → l.head? ≠ some d) :
    ∀ q ∈ opTable, q.1 <+: a :: b :: l → q.1.length ≤ 2 := by
  intro q hq hp
  rcases Nat.lt_or_ge 2 q.1.length with hl | hl
  · exfalso
    obtain ⟨t, ht, hp'⟩ := prefix_cons_cons hp (by omega)
    cases t with
    | nil => rw [ht] at hl; simp at hl
    | cons d t =>
      obtain ⟨s, hs⟩ := hp'
      have := h q hq d (by rw [ht]; simp) (by rw [ht]; simp) (by rw [ht]; simp)
      rw [← hs] at this
      simp at this
  · exact hl

theorem longest3 (l : List Char) : ∀ q ∈ opTable, q.1 <+: l → q.1.length ≤ 3 := by
  have : ∀ q ∈ opTable, q.1.length ≤ 3 := by decide
  intro q hq _; exact this q hq

theorem head_ne {l : List Char} {d : Char} (h : ∀ l', l = d :: l' → False) : l.head? ≠ some d := by
  cases l with
  | nil => simp
  | cons c l =>
    intro hh
    simp at hh
    subst hh
    exact h l rfl

/-- The second characters of the operators that start with `c`. -/
def seconds (c : Char) : List Char :=
  opTable.filterMap fun q => match q.1 with
    | a :: b :: _ => if a = c then some b else none
    | _ => none

/-- The third characters of the operators that start with `a` and `b`. -/
def thirds (a b : Char) : List Char :=
  opTable.filterMap fun q => match q.1 with
    | a' :: b' :: d :: _ => if a' = a ∧ b' = b then some d else none
    | _ => none

theorem longest_mk {l r : List Char} {k : Kind} (n : Nat) (h1 : (spell k, k) ∈ opTable)
    (hn : (spell k).length = n) (h2 : l = spell k ++ r)
    (h3 : ∀ q ∈ opTable, q.1 <+: l → q.1.length ≤ n) : LongestOp l k r :=
  ⟨spell k, h1, h2, fun q hq hp => hn ▸ h3 q hq hp⟩

theorem longest_mk1 {r : List Char} {c : Char} {k : Kind} (ds : List Char)
    (h1 : (spell k, k) ∈ opTable) (hn : spell k = [c]) (hds : seconds c = ds)
    (h : ∀ d ∈ ds, ∀ r', r = d :: r' → False) : LongestOp (c :: r) k r := by
  refine longest_mk 1 h1 (by rw [hn]; rfl) (by rw [hn]; rfl) (longest1 c r ?_)
  intro q hq d hd hc
  refine head_ne (h d ?_)
  rw [← hds]
  refine List.mem_filterMap.2 ⟨q, hq, ?_⟩
  match hqq : q.1, hd, hc with
  | a :: b :: t, hd, hc =>
    simp at hd hc
    simp [hd, hc]

theorem longest_mk2 {r : List Char} {a b : Char} {k : Kind} (ds : List Char)
    (h1 : (spell k, k) ∈ opTable) (hn : spell k = [a, b]) (hds : thirds a b = ds)
    (h : ∀ d ∈ ds, ∀ r', r = d :: r' → False) : LongestOp (a :: b :: r) k r := by
  refine longest_mk 2 h1 (by rw [hn]; rfl) (by rw [hn]; rfl) (longest2 a b r ?_)
  intro q hq d hd ha hb
  refine head_ne (h d ?_)
  rw [← hds]
  refine List.mem_filterMap.2 ⟨q, hq, ?_⟩
  match hqq : q.1, hd, ha, hb with
  | x :: y :: z :: t, hd, ha, hb =>
    simp at hd ha hb
    simp [hd, ha, hb]

theorem operator_some {l r : List Char} {k : Kind} (h : operator l = some (k, r)) :
    LongestOp l k r := by
  unfold operator at h
  split at h
  all_goals (repeat' split at h)
  all_goals first
    | cases h; done
    | skip
  all_goals (injection h with h; injection h with hk h; subst hk; subst h)
  all_goals first
    | exact longest_mk1 [] (by decide) rfl rfl (by simp)
    | exact longest_mk2 [] (by decide) rfl rfl (by simp)
    | (refine longest_mk1 ['='] (by decide) rfl rfl ?_
       intro d hd; simp at hd; subst hd; assumption)
    | (refine longest_mk2 ['='] (by decide) rfl rfl ?_
       intro d hd; simp at hd; subst hd; assumption)
    | (refine longest_mk1 [_, _] (by decide) rfl rfl ?_
       intro d hd; simp at hd; rcases hd with hd | hd <;> subst hd <;> assumption)
    | (refine longest_mk1 [_, _, _] (by decide) rfl rfl ?_
       intro d hd; simp at hd; rcases hd with hd | hd <;> subst hd <;> assumption)
    | exact longest_mk1 ['.'] (by decide) rfl rfl (by
        intro d hd; simp at hd; subst hd; assumption)
    | exact longest_mk 3 (by decide) (by decide) rfl (longest3 _)

theorem opTable_spell : ∀ q ∈ opTable, q.1 = spell q.2 := by decide

/-- The longest operator is unique. -/
theorem longest_unique {l r r' : List Char} {k k' : Kind} (h : LongestOp l k r)
    (h' : LongestOp l k' r') : k = k' ∧ r = r' := by
  obtain ⟨sp, hm, hl, hx⟩ := h
  obtain ⟨sp', hm', hl', hx'⟩ := h'
  have h1 := hx _ hm' ⟨r', hl'.symm⟩
  have h2 := hx' _ hm ⟨r, hl.symm⟩
  have h3 : sp.length = sp'.length := by dsimp only at h1 h2; omega
  rw [hl] at hl'
  obtain ⟨e, er⟩ := List.append_inj hl' h3
  refine ⟨?_, er⟩
  subst e
  have : ∀ q ∈ opTable, ∀ q' ∈ opTable, q.1 = q'.1 → q.2 = q'.2 := by decide
  exact this _ hm _ hm' rfl

theorem operator_none {l : List Char} (h : operator l = none) : ∀ q ∈ opTable, ¬q.1 <+: l := by
  intro q hq hp
  have hne : q.1 ≠ [] := by
    have : ∀ q ∈ opTable, q.1 ≠ [] := by decide
    exact this q hq
  obtain ⟨c, t, hct⟩ := List.exists_cons_of_ne_nil hne
  rw [hct] at hp
  obtain ⟨s, hs⟩ := hp
  have hc : c ∈ opTable.filterMap (fun q => q.1.head?) :=
    List.mem_filterMap.2 ⟨q, hq, by rw [hct]; rfl⟩
  have hfirst : ∀ c ∈ opTable.filterMap (fun q => q.1.head?),
      c ∈ ['+', '-', '*', '/', '%', '&', '|', '~', '<', '>', '=', '?', '!', '(', ')', '[', ']', '{',
        '}', '^', ',', ';', ':', '.'] := by decide
  have := hfirst c hc
  have key : ∀ c ∈ ['+', '-', '*', '/', '%', '&', '|', '~', '<', '>', '=', '?', '!', '(', ')', '[',
      ']', '{', '}', '^', ',', ';', ':', '.'], ∀ l, operator (c :: l) ≠ none := by
    intro c hc l hh
    simp only [List.mem_cons, List.not_mem_nil, or_false] at hc
    rcases hc with h | h | h | h | h | h | h | h | h | h | h | h | h | h | h | h | h | h | h | h | h |
      h | h | h <;> subst h <;> simp only [operator] at hh <;> (repeat' split at hh) <;> cases hh
  rw [← hs] at h
  exact key c this _ h

theorem operator_iff (l r : List Char) (k : Kind) :
    operator l = some (k, r) ↔ LongestOp l k r := by
  constructor
  · exact operator_some
  · intro h
    cases ho : operator l with
    | none =>
      obtain ⟨sp, hm, hl, _⟩ := h
      exact absurd ⟨r, hl.symm⟩ (operator_none ho _ hm)
    | some p =>
      obtain ⟨k', r'⟩ := p
      obtain ⟨e1, e2⟩ := longest_unique (operator_some ho) h
      rw [e1, e2]

end Umka.Lexer
