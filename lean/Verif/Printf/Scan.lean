import Verif.Printf.Spec

/-! # Printf: the scanner and the grammar -/

namespace Umka.Printf

open Spec (Directive Piece Want sizeText precText flagChars digitChars)

theorem skip_eq (p : Char → Bool) : ∀ s i, skip p s i = (s.dropWhile p, i + (s.takeWhile p).length) := by
  intro s
  induction s with
  | nil => intro i; rfl
  | cons c s ih =>
    intro i
    rw [skip]
    by_cases h : p c = true
    · rw [if_pos h, ih, List.dropWhile_cons_of_pos h, List.takeWhile_cons_of_pos h, List.length_cons]
      rw [Nat.add_assoc, Nat.add_comm 1]
    · rw [if_neg h, List.dropWhile_cons_of_neg h, List.takeWhile_cons_of_neg h]; rfl

theorem isFlag_iff (c : Char) : isFlag c = true ↔ c ∈ flagChars := by
  simp [isFlag, flagChars, or_assoc]

theorem isDigit_iff (c : Char) : isDigit c = true ↔ c ∈ digitChars := by
  constructor
  · intro h
    have h' : (48 : Nat) ≤ c.toNat ∧ c.toNat ≤ 57 := by
      simp only [isDigit, Bool.and_eq_true, decide_eq_true_eq] at h
      exact h
    have hc : c = Char.ofNat c.toNat := (Char.ofNat_toNat c).symm
    have : c.toNat = 48 ∨ c.toNat = 49 ∨ c.toNat = 50 ∨ c.toNat = 51 ∨ c.toNat = 52 ∨ c.toNat = 53 ∨ c.toNat = 54 ∨ c.toNat = 55
        ∨ c.toNat = 56 ∨ c.toNat = 57 := by omega
    rw [hc]
    rcases this with h | h | h | h | h | h | h | h | h | h <;> rw [h] <;> decide
  · intro h
    simp only [digitChars, List.mem_cons, List.not_mem_nil, or_false] at h
    rcases h with h | h | h | h | h | h | h | h | h | h <;> subst h <;> decide

/-- A character that ends a directive. -/
structure Term (c : Char) : Prop where
  flag : isFlag c = false
  digit : isDigit c = false
  dot : c ≠ '.'
  h : c ≠ 'h'
  l : c ≠ 'l'

theorem term_percent : Term '%' := ⟨by decide, by decide, by decide, by decide, by decide⟩

theorem takeWhile_append_stop {p : Char → Bool} {a b : List Char} (ha : ∀ c ∈ a, p c = true)
    (hb : ∀ c, b.head? = some c → p c = false) : (a ++ b).takeWhile p = a ∧ (a ++ b).dropWhile p = b := by
  induction a with
  | nil =>
    cases b with
    | nil => exact ⟨rfl, rfl⟩
    | cons c b =>
      have := hb c rfl
      exact ⟨List.takeWhile_cons_of_neg (by simp [this]), List.dropWhile_cons_of_neg (by simp [this])⟩
  | cons x a ih =>
    have hx := ha x List.mem_cons_self
    have := ih fun c hc => ha c (List.mem_cons_of_mem _ hc)
    exact ⟨by rw [List.cons_append, List.takeWhile_cons_of_pos hx, this.1],
           by rw [List.cons_append, List.dropWhile_cons_of_pos hx, this.2]⟩

/-- The text of a directive after the percent sign, followed by `s`. -/
def body (d : Directive) (s : List Char) : List Char :=
  d.flags ++ (d.width ++ (precText d.prec ++ (sizeText d.size ++ d.conv :: s)))

theorem dtext (d : Directive) (s : List Char) : d.text ++ s = '%' :: body d s := by
  simp [Directive.text, body, List.append_assoc]

theorem dtext_length (d : Directive) :
    d.text.length = 1 + d.flags.length + d.width.length + (precText d.prec).length + (sizeText d.size).length + 1 := by
  simp [Directive.text]; omega

/-- What is left after the flags, after the width, after the precision, after the length. -/
structure Parsed (s : List Char) (d : Directive) (rest : List Char) : Prop where
  flags : s.takeWhile isFlag = d.flags
  width : (s.dropWhile isFlag).takeWhile isDigit = d.width
  prec : (match (s.dropWhile isFlag).dropWhile isDigit with | '.' :: t => some (t.takeWhile isDigit) | _ => none) = d.prec
  rest : (match (s.dropWhile isFlag).dropWhile isDigit with
          | '.' :: t => t.dropWhile isDigit | _ => (s.dropWhile isFlag).dropWhile isDigit) = sizeText d.size ++ d.conv :: rest

theorem headSize {d : Directive} (h1 : isDigit d.conv = false) (h2 : d.conv ≠ '.') (s : List Char) :
    ∀ c, (sizeText d.size ++ d.conv :: s).head? = some c → (isFlag d.conv = false → isFlag c = false) ∧ isDigit c = false ∧ c ≠ '.' := by
  intro c hc
  cases hs : d.size <;> rw [hs] at hc <;> simp only [sizeText, List.nil_append, List.cons_append, List.head?_cons, Option.some.injEq] at hc
    <;> subst hc
  case normal => exact ⟨id, h1, h2⟩
  all_goals exact ⟨fun _ => by decide, by decide, by decide⟩

theorem headPrec {d : Directive} (h1 : isDigit d.conv = false) (h2 : d.conv ≠ '.') (s : List Char) :
    ∀ c, (precText d.prec ++ (sizeText d.size ++ d.conv :: s)).head? = some c →
      (isFlag d.conv = false ∨ d.prec ≠ none → isFlag c = false) ∧ isDigit c = false := by
  intro c hc
  cases hp : d.prec with
  | none =>
    rw [hp] at hc
    have := headSize h1 h2 s c hc
    exact ⟨fun h => h.elim this.1 (fun h => absurd rfl h), this.2.1⟩
  | some p =>
    rw [hp] at hc
    simp only [precText, List.cons_append, List.head?_cons, Option.some.injEq] at hc
    subst hc; exact ⟨fun _ => by decide, by decide⟩

theorem headWidth {d : Directive} (hd : d.Shaped) (h1 : isDigit d.conv = false) (h2 : d.conv ≠ '.')
    (hf : isFlag d.conv = false ∨ d.width ≠ [] ∨ d.prec ≠ none) (s : List Char) :
    ∀ c, (d.width ++ (precText d.prec ++ (sizeText d.size ++ d.conv :: s))).head? = some c → isFlag c = false := by
  intro c hc
  cases hw : d.width with
  | nil =>
    rw [hw] at hc
    refine (headPrec h1 h2 s c hc).1 ?_
    rcases hf with h | h | h
    · exact .inl h
    · exact absurd hw h
    · exact .inr h
  | cons x w =>
    rw [hw] at hc
    simp only [List.cons_append, List.head?_cons, Option.some.injEq] at hc
    subst hc
    have h1 := hd.2.1 x (by rw [hw]; exact List.mem_cons_self)
    have h2 := hd.2.2.1
    rw [hw] at h2
    simp only [List.head?_cons, ne_eq, Option.some.injEq] at h2
    simp only [digitChars, List.mem_cons, List.not_mem_nil, or_false] at h1
    rcases h1 with h | h | h | h | h | h | h | h | h | h <;> subst h <;> first | (exact absurd rfl h2) | decide

theorem parsed_body' {d : Directive} (hd : d.Shaped) (h1 : isDigit d.conv = false) (h2 : d.conv ≠ '.')
    (hf : isFlag d.conv = false ∨ d.width ≠ [] ∨ d.prec ≠ none) (s : List Char) : Parsed (body d s) d s := by
  have f := takeWhile_append_stop (p := isFlag) (a := d.flags) (fun c hc => (isFlag_iff c).mpr (hd.1 c hc)) (headWidth hd h1 h2 hf s)
  have w := takeWhile_append_stop (p := isDigit) (a := d.width) (fun c hc => (isDigit_iff c).mpr (hd.2.1 c hc))
    (fun c hc => (headPrec h1 h2 s c hc).2)
  have hb : body d s = d.flags ++ (d.width ++ (precText d.prec ++ (sizeText d.size ++ d.conv :: s))) := rfl
  refine ⟨by rw [hb]; exact f.1, by rw [hb, f.2]; exact w.1, ?_, ?_⟩
  · rw [hb, f.2, w.2]
    cases hp : d.prec with
    | none =>
      simp only [precText, List.nil_append]
      split
      · next t e =>
        have := (headSize h1 h2 s '.' (by rw [e]; rfl)).2.2
        exact absurd rfl this
      · rfl
    | some p =>
      simp only [precText, List.cons_append]
      congr 1
      exact (takeWhile_append_stop (fun c hc => (isDigit_iff c).mpr (hd.2.2.2 p hp c hc)) (fun c hc => (headSize h1 h2 s c hc).2.1)).1
  · rw [hb, f.2, w.2]
    cases hp : d.prec with
    | none =>
      simp only [precText, List.nil_append]
      split
      · next t e =>
        have := (headSize h1 h2 s '.' (by rw [e]; rfl)).2.2
        exact absurd rfl this
      · rfl
    | some p =>
      simp only [precText, List.cons_append]
      exact (takeWhile_append_stop (fun c hc => (isDigit_iff c).mpr (hd.2.2.2 p hp c hc)) (fun c hc => (headSize h1 h2 s c hc).2.1)).2

theorem parsed_body {d : Directive} (hd : d.Shaped) (ht : Term d.conv) (s : List Char) : Parsed (body d s) d s :=
  parsed_body' hd ht.digit ht.dot (.inl ht.flag) s

theorem skipLength_size {c : Char} (sz : Size) (ht : Term c) (s : List Char) (i : Nat) :
    skipLength (sizeText sz ++ c :: s) i = (sz, c :: s, i + (sizeText sz).length) := by
  have h1 := ht.h
  have h2 := ht.l
  cases sz <;> simp only [sizeText, List.nil_append, List.cons_append, List.length_cons, List.length_nil]
  · rfl
  · unfold skipLength; split
    · next e => simp only [List.cons.injEq] at e; exact absurd e.2.1 h1
    · next e => simp only [List.cons.injEq] at e; obtain ⟨_, rfl⟩ := e; rfl
    · next e => simp at e
    · next e => simp at e
    · next a1 a2 a3 a4 => first | exact absurd rfl (a2 _) | exact absurd rfl (a4 _)
  · unfold skipLength; split
    · next e => simp only [List.cons.injEq] at e; exact absurd e.1 h1
    · next e => simp only [List.cons.injEq] at e; exact absurd e.1 h1
    · next e => simp only [List.cons.injEq] at e; exact absurd e.1 h2
    · next e => simp only [List.cons.injEq] at e; exact absurd e.1 h2
    · rfl
  · unfold skipLength; split
    · next e => simp at e
    · next e => simp at e
    · next e => simp only [List.cons.injEq] at e; exact absurd e.2.1 h2
    · next e => simp only [List.cons.injEq] at e; obtain ⟨_, rfl⟩ := e; rfl
    · next a1 a2 a3 a4 => first | exact absurd rfl (a2 _) | exact absurd rfl (a4 _)
  · rfl

theorem cLength_size {c : Char} (sz : Size) (ht : Term c) (s : List Char) :
    cLength (sizeText sz ++ c :: s) = (sz, c :: s) := by
  have h1 := ht.h
  have h2 := ht.l
  cases sz <;> simp only [sizeText, List.nil_append, List.cons_append]
  · rfl
  · unfold cLength; split
    · next e => simp only [List.cons.injEq] at e; exact absurd e.2.1 h1
    · next e => simp only [List.cons.injEq] at e; obtain ⟨_, rfl⟩ := e; rfl
    · next e => simp at e
    · next e => simp at e
    · next a1 a2 a3 a4 => first | exact absurd rfl (a2 _) | exact absurd rfl (a4 _)
  · unfold cLength; split
    · next e => simp only [List.cons.injEq] at e; exact absurd e.1 h1
    · next e => simp only [List.cons.injEq] at e; exact absurd e.1 h1
    · next e => simp only [List.cons.injEq] at e; exact absurd e.1 h2
    · next e => simp only [List.cons.injEq] at e; exact absurd e.1 h2
    · rfl
  · unfold cLength; split
    · next e => simp at e
    · next e => simp at e
    · next e => simp only [List.cons.injEq] at e; exact absurd e.2.1 h2
    · next e => simp only [List.cons.injEq] at e; obtain ⟨_, rfl⟩ := e; rfl
    · next a1 a2 a3 a4 => first | exact absurd rfl (a2 _) | exact absurd rfl (a4 _)
  · rfl

/-! ## The scanner on a format made of pieces -/

theorem scanLoop_lit {c : Char} (hc : c ≠ '%') (f : Nat) (s : List Char) (i : Nat) (pos : Option Nat) (k : Kind) (sz : Size) :
    scanLoop (f + 1) (c :: s) i pos k sz = scanLoop (f + 1) s (i + 1) pos .void .normal := by
  have hb : (c != '%') = true := by simp [hc]
  have e : skip (· != '%') (c :: s) i = skip (· != '%') s (i + 1) := by rw [skip, if_pos hb]
  rw [scanLoop.eq_def, scanLoop.eq_def]
  dsimp only
  rw [e]
  cases s with
  | nil => rfl
  | cons x s => rfl

/-- The state of the scanner after a percent sign and a directive's middle part. -/
theorem scanLoop_dir {d : Directive} (hd : d.Shaped) (ht : Term d.conv) (f : Nat) (s : List Char) (i : Nat) (pos : Option Nat)
    (k : Kind) (sz : Size) :
    scanLoop (f + 1) (d.text ++ s) i pos k sz =
      if d.conv == '%' then scanLoop f s (i + d.text.length) (some (i + d.text.length - 1)) .void d.size
      else (letterKind d.conv d.size).map fun k => ⟨i + d.text.length, some (i + d.text.length - 1), k, d.size⟩ := by
  have hp := parsed_body hd ht s
  rw [dtext, scanLoop.eq_def]
  dsimp only
  have e0 : skip (· != '%') ('%' :: body d s) i = ('%' :: body d s, i) := by rw [skip, if_neg (by simp)]
  rw [e0]
  dsimp only [List.isEmpty_cons]
  rw [if_neg (by simp)]
  rw [skip_eq isFlag, hp.flags]
  dsimp only
  rw [skip_eq isDigit, hp.width]
  dsimp only
  have e1 : skipPrecision (((body d s).dropWhile isFlag).dropWhile isDigit) (i + 1 + d.flags.length + d.width.length)
      = (sizeText d.size ++ d.conv :: s, i + 1 + d.flags.length + d.width.length + (precText d.prec).length) := by
    have h1 := hp.prec
    have h2 := hp.rest
    cases hr : ((body d s).dropWhile isFlag).dropWhile isDigit with
    | nil =>
      rw [hr] at h2
      cases hs : d.size <;> rw [hs] at h2 <;> simp [sizeText] at h2
    | cons x t =>
      rw [hr] at h1 h2
      rw [skipPrecision]
      by_cases hx : x = '.'
      · subst hx
        have h1 : some (t.takeWhile isDigit) = d.prec := h1
        have h2 : t.dropWhile isDigit = sizeText d.size ++ d.conv :: s := h2
        rw [if_pos (by rfl), skip_eq, h2, ← h1]
        simp only [precText, List.length_cons]
        rw [Nat.add_assoc (i + 1 + d.flags.length + d.width.length), Nat.add_comm 1]
      · rw [if_neg (by simp [hx])]
        split at h2
        · next e => simp only [List.cons.injEq] at e; exact absurd e.1 hx
        split at h1
        · next e => simp only [List.cons.injEq] at e; exact absurd e.1 hx
        rw [h2, ← h1]; rfl
  rw [e1]
  dsimp only
  rw [skipLength_size d.size ht]
  dsimp only
  have hl : i + 1 + d.flags.length + d.width.length + (precText d.prec).length + (sizeText d.size).length + 1 = i + d.text.length := by
    rw [dtext_length]; omega
  have hl' : i + 1 + d.flags.length + d.width.length + (precText d.prec).length + (sizeText d.size).length = i + d.text.length - 1 := by
    omega
  rw [hl, hl']

theorem letterKind_want (c : Char) (sz : Size) : (letterKind c sz).isSome = (Spec.want c sz).isSome := by
  unfold letterKind Spec.want
  simp only [beq_iff_eq, Bool.or_eq_true, List.mem_cons, List.not_mem_nil, or_false]
  by_cases h1 : c = 'd' ∨ c = 'i'
  · rw [if_pos h1, if_pos h1]; cases sz <;> rfl
  rw [if_neg h1, if_neg h1]
  by_cases h2 : c = 'u' ∨ c = 'x' ∨ c = 'X'
  · rw [if_pos (by simpa only [or_assoc] using h2), if_pos h2]; cases sz <;> rfl
  rw [if_neg (by simpa only [or_assoc] using h2), if_neg h2]
  by_cases h3 : c = 'f' ∨ c = 'F' ∨ c = 'e' ∨ c = 'E' ∨ c = 'g' ∨ c = 'G'
  · rw [if_pos (by simpa only [or_assoc] using h3), if_pos h3]; cases sz <;> rfl
  rw [if_neg (by simpa only [or_assoc] using h3), if_neg h3]
  by_cases h4 : c = 's'
  · subst h4; cases sz <;> rfl
  by_cases h5 : c = 'c'
  · subst h5; cases sz <;> rfl
  rw [if_neg (by simp [h4, h5]), if_neg h4, if_neg h5]
  by_cases h6 : c = 'v'
  · subst h6; rfl
  rw [if_neg h6, if_neg h6]; rfl

theorem want_term {c : Char} {sz : Size} (h : (Spec.want c sz).isSome) : Term c ∧ c ≠ '%' := by
  unfold Spec.want at h
  simp only [List.mem_cons, List.not_mem_nil, or_false] at h
  have : c = 'd' ∨ c = 'i' ∨ c = 'u' ∨ c = 'x' ∨ c = 'X' ∨ c = 'f' ∨ c = 'F' ∨ c = 'e' ∨ c = 'E' ∨ c = 'g' ∨ c = 'G' ∨ c = 's' ∨ c = 'c'
      ∨ c = 'v' := by grind
  rcases this with h | h | h | h | h | h | h | h | h | h | h | h | h | h <;> subst h <;>
    exact ⟨⟨by decide, by decide, by decide, by decide, by decide⟩, by decide⟩

/-- Literal characters and percent signs only. -/
def NoDir (ps : List Piece) : Prop := ∀ p ∈ ps, p.Valid ∧ ∀ d, p ≠ .dir d

theorem text_cons (p : Piece) (ps : List Piece) : Spec.text (p :: ps) = p.text ++ Spec.text ps := by simp [Spec.text]
theorem text_append (ps qs : List Piece) : Spec.text (ps ++ qs) = Spec.text ps ++ Spec.text qs := by simp [Spec.text]

theorem dtext_pos (d : Directive) : 0 < d.text.length := by rw [dtext_length]; omega

/-- The scanner runs over literal pieces. -/
theorem scanLoop_noDir {ps : List Piece} (h : NoDir ps) (rest : List Char) : ∀ (f i : Nat) (pos : Option Nat) (sz : Size),
    (Spec.text ps ++ rest).length < f → ∃ (pos' : Option Nat) (sz' : Size) (f' : Nat), rest.length < f' ∧
      scanLoop f (Spec.text ps ++ rest) i pos .void sz = scanLoop f' rest (i + (Spec.text ps).length) pos' .void sz' := by
  induction ps with
  | nil => intro f i pos sz hf; exact ⟨pos, sz, f, hf, rfl⟩
  | cons p ps ih =>
    intro f i pos sz hf
    have hp := h p List.mem_cons_self
    have ih := ih fun q hq => h q (List.mem_cons_of_mem _ hq)
    rw [text_cons, List.append_assoc] at hf ⊢
    obtain ⟨f, rfl⟩ : ∃ g, f = g + 1 := ⟨f - 1, by omega⟩
    cases p with
    | dir d => exact absurd rfl (hp.2 d)
    | lit c =>
      have hc : c ≠ '%' := hp.1
      simp only [Piece.text, List.cons_append, List.nil_append] at hf ⊢
      rw [scanLoop_lit hc]
      obtain ⟨pos', sz', f', h1, h2⟩ := ih (f + 1) (i + 1) pos .normal (by simp only [List.length_cons] at hf; omega)
      refine ⟨pos', sz', f', h1, h2.trans ?_⟩
      rw [List.length_cons, Nat.add_assoc, Nat.add_comm 1]
    | percent d =>
      obtain ⟨hs, hc⟩ : d.Shaped ∧ d.conv = '%' := hp.1
      simp only [Piece.text] at hf ⊢
      rw [scanLoop_dir hs (by rw [hc]; exact term_percent), if_pos (by simp [hc])]
      have := dtext_pos d
      obtain ⟨pos', sz', f', h1, h2⟩ := ih f (i + d.text.length) (some (i + d.text.length - 1)) d.size
        (by rw [List.length_append] at hf; omega)
      refine ⟨pos', sz', f', h1, h2.trans ?_⟩
      rw [List.length_append, Nat.add_assoc]

/-- A format without directives: everything is consumed and no argument is expected. -/
theorem scan_noDir {ps : List Piece} (h : NoDir ps) :
    ∃ pos sz, scan (Spec.text ps) = some ⟨(Spec.text ps).length, pos, .void, sz⟩ := by
  obtain ⟨pos, sz, f, h1, h2⟩ := scanLoop_noDir h [] ((Spec.text ps).length + 1) 0 none .normal (by simp)
  rw [List.append_nil, Nat.zero_add] at h2
  obtain ⟨f, rfl⟩ : ∃ g, f = g + 1 := ⟨f - 1, by simp at h1; omega⟩
  refine ⟨pos, sz, ?_⟩
  rw [scan, h2]; rfl

/-- A format with a directive: it is consumed up to and including the first directive. -/
theorem scan_dir {ps : List Piece} (h : NoDir ps) {d : Directive} (hd : d.Valid) (rest : List Char) :
    scan (Spec.text ps ++ (d.text ++ rest)) = (letterKind d.conv d.size).map fun k =>
      ⟨(Spec.text ps).length + d.text.length, some ((Spec.text ps).length + d.text.length - 1), k, d.size⟩ := by
  obtain ⟨pos, sz, f, h1, h2⟩ := scanLoop_noDir h (d.text ++ rest) ((Spec.text ps ++ (d.text ++ rest)).length + 1) 0 none .normal (by omega)
  obtain ⟨f, rfl⟩ : ∃ g, f = g + 1 := ⟨f - 1, by omega⟩
  have ht := want_term hd.2
  rw [scan, h2, scanLoop_dir hd.1 ht.1, if_neg (by simp [ht.2]), Nat.zero_add]

/-! ## What an accepted format looks like -/

theorem takeWhile_mem {p : Char → Bool} {s : List Char} : ∀ c ∈ s.takeWhile p, p c = true := by
  intro c hc
  exact List.all_eq_true.mp List.all_takeWhile c hc

theorem dropWhile_head {p : Char → Bool} {s : List Char} {c : Char} {t : List Char} (h : s.dropWhile p = c :: t) : p c = false := by
  have := List.head?_dropWhile_not p s
  rw [h] at this
  simpa using this

theorem skipLength_split (s : List Char) (i : Nat) :
    s = sizeText (skipLength s i).1 ++ (skipLength s i).2.1 ∧ (skipLength s i).2.2 = i + (sizeText (skipLength s i).1).length := by
  unfold skipLength
  split <;> exact ⟨rfl, rfl⟩

theorem skipPrecision_split (s : List Char) (i : Nat) : ∃ p, s = precText p ++ (skipPrecision s i).1 ∧
    (skipPrecision s i).2 = i + (precText p).length ∧ ∀ q, p = some q → ∀ c ∈ q, c ∈ digitChars := by
  cases s with
  | nil => exact ⟨none, rfl, rfl, fun q hq => by cases hq⟩
  | cons c s =>
    rw [skipPrecision]
    by_cases hc : c = '.'
    · subst hc
      rw [if_pos (by rfl), skip_eq]
      refine ⟨some (s.takeWhile isDigit), ?_, ?_, ?_⟩
      · simp [precText, List.takeWhile_append_dropWhile]
      · simp only [precText, List.length_cons]; omega
      · intro q hq c hc
        cases hq
        exact (isDigit_iff c).mp (takeWhile_mem c hc)
    · rw [if_neg (by simp [hc])]
      exact ⟨none, rfl, rfl, fun q hq => by cases hq⟩

theorem scanLoop_sound : ∀ (f : Nat) (s : List Char) (i : Nat) (pos : Option Nat) (sz : Size) (sc : Scan),
    scanLoop f s i pos .void sz = some sc →
    ∃ ps, NoDir ps ∧ (s = Spec.text ps ∨ ∃ (d : Directive) (rest : List Char), d.Valid ∧ s = Spec.text ps ++ (d.text ++ rest)) := by
  intro f
  induction f with
  | zero => intro s i pos sz sc h; simp [scanLoop] at h
  | succ f ihf =>
    intro s
    induction s with
    | nil => intro i pos sz sc _; exact ⟨[], fun p hp => (by cases hp), .inl rfl⟩
    | cons c s ih =>
      intro i pos sz sc h
      by_cases hc : c = '%'
      · subst hc
        rw [scanLoop.eq_def] at h
        dsimp only at h
        have e0 : skip (· != '%') ('%' :: s) i = ('%' :: s, i) := by rw [skip, if_neg (by simp)]
        rw [e0] at h
        dsimp only [List.isEmpty_cons] at h
        rw [if_neg (by simp), skip_eq isFlag] at h
        dsimp only at h
        rw [skip_eq isDigit] at h
        dsimp only at h
        obtain ⟨p, hp1, hp2, hp3⟩ := skipPrecision_split ((s.dropWhile isFlag).dropWhile isDigit)
          (i + 1 + (s.takeWhile isFlag).length + ((s.dropWhile isFlag).takeWhile isDigit).length)
        generalize skipPrecision ((s.dropWhile isFlag).dropWhile isDigit)
          (i + 1 + (s.takeWhile isFlag).length + ((s.dropWhile isFlag).takeWhile isDigit).length) = q at *
        obtain ⟨s5, i5⟩ := q
        dsimp only at h hp1 hp2
        have hl := skipLength_split s5 i5
        generalize skipLength s5 i5 = r at *
        obtain ⟨z, s6, i6⟩ := r
        dsimp only at h hl
        cases s6 with
        | nil => simp at h
        | cons x s7 =>
          dsimp only at h
          have hs : s = body ⟨s.takeWhile isFlag, (s.dropWhile isFlag).takeWhile isDigit, p, z, x⟩ s7 := by
            unfold body
            dsimp only
            rw [← hl.1, ← hp1, List.takeWhile_append_dropWhile, List.takeWhile_append_dropWhile]
          have hsh : Directive.Shaped ⟨s.takeWhile isFlag, (s.dropWhile isFlag).takeWhile isDigit, p, z, x⟩ := by
            refine ⟨fun c hc => (isFlag_iff c).mp (takeWhile_mem c hc), fun c hc => (isDigit_iff c).mp (takeWhile_mem c hc), ?_, hp3⟩
            intro h0
            dsimp only at h0
            cases hd : s.dropWhile isFlag with
            | nil => rw [hd] at h0; simp at h0
            | cons y t =>
              have hy := dropWhile_head hd
              rw [hd, List.takeWhile_cons] at h0
              split at h0
              · simp only [List.head?_cons, Option.some.injEq] at h0
                subst h0
                simp [isFlag] at hy
              · simp at h0
          have hs' : '%' :: s = Directive.text ⟨s.takeWhile isFlag, (s.dropWhile isFlag).takeWhile isDigit, p, z, x⟩ ++ s7 := by
            rw [dtext, ← hs]
          by_cases hx : x = '%'
          · rw [if_pos (by simp [hx])] at h
            obtain ⟨ps, hps, hor⟩ := ihf s7 _ _ _ _ h
            refine ⟨.percent ⟨s.takeWhile isFlag, (s.dropWhile isFlag).takeWhile isDigit, p, z, x⟩ :: ps, ?_, ?_⟩
            · intro q hq
              rcases List.mem_cons.mp hq with rfl | hq
              · exact ⟨⟨hsh, hx⟩, fun d hd => by cases hd⟩
              · exact hps q hq
            · rcases hor with h1 | ⟨d, rest, hd, h1⟩
              · refine .inl ?_
                rw [hs', text_cons, h1]
                rfl
              · refine .inr ⟨d, rest, hd, ?_⟩
                rw [hs', text_cons, h1, List.append_assoc]
                rfl
          · rw [if_neg (by simp [hx])] at h
            refine ⟨[], fun p hp => (by cases hp), .inr ⟨_, s7, ⟨hsh, ?_⟩, hs'⟩⟩
            rw [← letterKind_want]
            dsimp only
            cases hk : letterKind x z with
            | none => rw [hk] at h; simp at h
            | some k => rfl
      · rw [scanLoop_lit hc] at h
        obtain ⟨ps, hps, hor⟩ := ih _ _ _ _ h
        refine ⟨.lit c :: ps, ?_, ?_⟩
        · intro q hq
          rcases List.mem_cons.mp hq with rfl | hq
          · exact ⟨hc, fun d hd => by cases hd⟩
          · exact hps q hq
        · rcases hor with h1 | ⟨d, rest, hd, h1⟩
          · exact .inl (by rw [text_cons, h1]; rfl)
          · exact .inr ⟨d, rest, hd, by rw [text_cons, h1]; rfl⟩

theorem scan_sound {s : List Char} {sc : Scan} (h : scan s = some sc) :
    ∃ ps, NoDir ps ∧ (s = Spec.text ps ∨ ∃ (d : Directive) (rest : List Char), d.Valid ∧ s = Spec.text ps ++ (d.text ++ rest)) :=
  scanLoop_sound _ _ _ _ _ _ h

end Umka.Printf
