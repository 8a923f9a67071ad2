import Verif.Scope.Spec
/-! # Identifiers and blocks: the compiler's list represents the nest of scopes -/

namespace Umka.Scope

open Spec

def Ident.entry (i : Ident) : Entry := ⟨i.tag, i.name, i.what, i.rcv, i.module, i.exported⟩

def Name.isPlain : Name → Bool
  | .plain _ => true
  | .temp _ => false

def entries (is : List Ident) : List Entry := (is.filter (·.name.isPlain)).map Ident.entry

/-- The list of identifiers consists of the identifiers of the blocks, the innermost first.  Before the identifier noted
at the entry of a block there are only temporary variables of the enclosing block. -/
def Rep : List Block → List Ident → List Scope → Prop
  | [], is, ss => is = [] ∧ ss = []
  | b :: bs, is, ss => ∃ seg rest s ss', is = seg ++ rest ∧ ss = s :: ss' ∧
      (∀ i ∈ seg, i.block = b.num) ∧ s.entries = entries seg ∧ s.fn = b.fn ∧
      (∀ b' ∈ bs, b'.num < b.num) ∧ (bs = [] → b.num = 0) ∧
      (∀ b' ∈ bs.head?, ∃ ts rest0, rest = ts ++ rest0 ∧
        (∀ t ∈ ts, t.name.isPlain = false ∧ t.block = b'.num) ∧ rest0.head?.map (·.id) = b.succ) ∧
      Rep bs rest ss'

structure Inv (E : Env) (S : State) : Prop where
  rep : Rep E.blocks E.idents S.scopes
  module : S.module = E.module
  imports : S.imports = E.imports
  ids : ∀ i ∈ E.idents, i.id < E.nextId
  nodup : (E.idents.map (·.id)).Nodup
  temps : ∀ i ∈ E.idents, ∀ n, i.name = .temp n → n < E.temps
  nums : ∀ b ∈ E.blocks, b.num < E.numBlocks
  nonempty : E.blocks ≠ []

theorem rep_length : ∀ {bs is ss}, Rep bs is ss → ss.length = bs.length
  | [], _, _, ⟨_, h⟩ => by simp [h]
  | b :: bs, is, ss, ⟨seg, rest, s, ss', _, h2, _, _, _, _, _, _, h⟩ => by
    subst h2; simp [rep_length h]

theorem rep_block : ∀ {bs is ss}, Rep bs is ss → ∀ i ∈ is, ∃ b ∈ bs, i.block = b.num
  | [], _, _, ⟨h, _⟩, i, hi => by simp [h] at hi
  | b :: bs, is, ss, ⟨seg, rest, s, ss', h1, _, h3, _, _, _, _, _, h⟩, i, hi => by
    subst h1
    rcases List.mem_append.mp hi with hi | hi
    · exact ⟨b, by simp, h3 i hi⟩
    · obtain ⟨b', hb, e⟩ := rep_block h i hi
      exact ⟨b', by simp [hb], e⟩

theorem matches_eq (C : Compat) (cur : Nat) (imports : List (Nat × Nat)) (S : State) (hm : S.module = cur)
    (hi : S.imports = imports) (q : Query) (i : Ident) : i.matches C cur imports q = denotes C S q i.entry := by
  subst hm; subst hi
  rw [Bool.eq_iff_iff]
  obtain ⟨qm, qn, qr, qM⟩ := q
  obtain ⟨id, tag, name, what, rcv, mod, block, exp⟩ := i
  unfold denotes
  rw [decide_eq_true_eq]
  unfold Ident.matches Answers Visible Ident.entry
  cases qr <;> cases rcv <;> cases qM <;> simp <;> grind

theorem denotes_plain {C : Compat} {S : State} {q : Query} {i : Ident} (hq : q.name.isPlain = true)
    (h : denotes C S q i.entry = true) : i.name.isPlain = true := by
  have h := decide_eq_true_eq.mp h
  have : i.name = q.name := h.1.1
  rw [this]; exact hq

theorem find_entries (C : Compat) (S : State) (q : Query) (hq : q.name.isPlain = true) :
    ∀ is : List Ident, (entries is).find? (denotes C S q) =
      (is.find? fun i => denotes C S q i.entry).map Ident.entry
  | [] => rfl
  | i :: is => by
    have ih := find_entries C S q hq is
    simp only [List.find?]
    cases h : denotes C S q i.entry
    · simp only [entries, List.filter] at ih ⊢
      cases hp : i.name.isPlain
      · exact ih
      · simp [h, ih]
    · have hp := denotes_plain hq h
      simp [entries, List.filter, hp, h]

theorem outerLoop_none (k : Nat) : ∀ (bs : List Block) (found : Bool), (∀ b ∈ bs, b.num ≠ k) →
    outerLoop k bs found = false
  | [], _, _ => rfl
  | b :: bs, found, h => by
    rw [outerLoop, if_neg (fun hc => h b (by simp) hc.1)]
    exact outerLoop_none k bs _ (fun b' hb => h b' (by simp [hb]))

theorem rep_zero : ∀ {bs is ss}, Rep bs is ss → ∀ b bs', bs = b :: bs' → (b.num = 0 ↔ bs' = [])
  | b :: bs, is, ss, ⟨seg, rest, s, ss', _, _, _, _, _, h6, h7, _, h⟩, b0, bs', e => by
    cases e
    refine ⟨fun h0 => ?_, h7⟩
    cases bs with
    | nil => rfl
    | cons c cs => have := h6 c (by simp); omega

theorem meaning_rep {C : Compat} {S : State} {q : Query} (hq : q.name.isPlain = true) :
    ∀ {bs is ss}, Rep bs is ss → ∀ crossed, meaningIn C S q ss crossed =
      (is.find? fun i => denotes C S q i.entry).map fun i =>
        (i.entry, if i.what ≠ .var ∨ i.block = 0 then false else outerLoop i.block bs crossed)
  | [], is, ss, ⟨h, h'⟩, _ => by subst h; subst h'; rfl
  | b :: bs, is, ss, hR@⟨seg, rest, s, ss', h1, h2, h3, h4, h5, h6, h7, h8, h⟩, crossed => by
    have hz := rep_zero hR b bs rfl
    subst h1; subst h2
    rw [meaningIn, h4, find_entries C S q hq, List.find?_append]
    cases hf : seg.find? fun i => denotes C S q i.entry with
    | some i =>
      have hb := h3 i (List.mem_of_find?_eq_some hf)
      simp only [Option.map_some, Option.some_or]
      congr 2
      have hlen := rep_length h
      have hout : outerLoop i.block (b :: bs) crossed = crossed := by
        rw [outerLoop]
        cases crossed
        · rw [if_neg (by simp)]
          exact outerLoop_none _ _ _ (fun b' hb' => by have := h6 b' hb'; omega)
        · rw [if_pos ⟨hb.symm, rfl⟩]
      rw [hout]
      have hne : ss'.isEmpty = true ↔ i.block = 0 := by
        rw [hb, hz, List.isEmpty_iff]
        constructor
        · intro hs; subst hs; exact List.length_eq_zero_iff.mp (by simpa using hlen.symm)
        · intro hs; subst hs; exact List.length_eq_zero_iff.mp (by simpa using hlen)
      show (crossed && i.what == .var && !ss'.isEmpty) = _
      by_cases hv : i.what = .var <;> by_cases h0 : i.block = 0
      · simp [hv, h0, hne.mpr h0]
      · have : ss'.isEmpty = false := by cases hs : ss'.isEmpty; rfl; exact absurd (hne.mp hs) h0
        simp [hv, h0, this]
      · simp [hv]
      · simp [hv]
    | none =>
      simp only [Option.map_none, Option.none_or]
      rw [meaning_rep hq h, h5]
      cases hf' : rest.find? fun i => denotes C S q i.entry with
      | none => rfl
      | some i =>
        simp only [Option.map_some]
        congr 2
        obtain ⟨b', hb', e⟩ := rep_block h i (List.mem_of_find?_eq_some hf')
        have := h6 b' hb'
        have e' : outerLoop i.block (b :: bs) crossed = outerLoop i.block bs (crossed || b.fn) := by
          rw [outerLoop, if_neg (by omega)]
        rw [e']

/-- The first identifier found is in the current block iff the innermost scope has it. -/
theorem find_top {C : Compat} {S : State} {q : Query} {b : Block} {bs : List Block} {seg rest : List Ident} {ss' : List Scope}
    (h3 : ∀ i ∈ seg, i.block = b.num) (h6 : ∀ b' ∈ bs, b'.num < b.num) (h : Rep bs rest ss') (e : Ident)
    (he : (seg ++ rest).find? (fun i => denotes C S q i.entry) = some e) :
    (e.block = b.num ∧ seg.find? (fun i => denotes C S q i.entry) = some e) ∨
    (e.block ≠ b.num ∧ seg.find? (fun i => denotes C S q i.entry) = none) := by
  rw [List.find?_append] at he
  cases hf : seg.find? fun i => denotes C S q i.entry with
  | some i =>
    rw [hf] at he; cases he
    exact Or.inl ⟨h3 _ (List.mem_of_find?_eq_some hf), rfl⟩
  | none =>
    rw [hf] at he
    obtain ⟨b', hb', e'⟩ := rep_block h e (List.mem_of_find?_eq_some he)
    have := h6 b' hb'
    exact Or.inr ⟨by omega, rfl⟩

end Umka.Scope
