import Verif.Scanf.Numbers
import Verif.Arith.Lemmas

/-! # Scanf: the C function, one step, the whole call -/

namespace Umka.Scanf

open Umka.Printf (Kind Size nul scan isDigit cLength takeWhile_append_stop NoDir Term want_term scan_dir scan_noDir letterKind body dtext text_cons
  text_append headSize cLength_size isDigit_iff)
open Umka.Printf.Spec (Directive Piece Want want InBits dirs plainPercent PlainPercents sizeText)
open Umka.Arith (Mem writeBytes)
open Spec

/-! ## Literal text -/

theorem cScanf_lits {L : CLib} {hasDest file : Bool} {ps' : List Piece} : ∀ {P : List Piece}, NoDir P → PlainPercents P →
    ∀ {inp vs rest}, Reads L file (P ++ ps') inp vs rest →
    ∃ pre inp', inp = pre ++ inp' ∧ Reads L file ps' inp' vs rest ∧
      ∀ (f : List Char) (fuel taken : Nat) (store : Option (Nat × Nat)), (Printf.Spec.text P ++ f).length < fuel →
        ∃ fuel', f.length < fuel' ∧
          cScanf L hasDest fuel (Printf.Spec.text P ++ f) inp taken store = cScanf L hasDest fuel' f inp' (taken + pre.length) store := by
  intro P
  induction P with
  | nil =>
    intro _ _ inp vs rest hr
    exact ⟨[], inp, rfl, hr, fun f fuel taken store hf => ⟨fuel, hf, rfl⟩⟩
  | cons p P ih =>
    intro hP hpp inp vs rest hr
    have hP' : NoDir P := fun q hq => hP q (List.mem_cons_of_mem _ hq)
    have hpp' : PlainPercents P := fun d hd => hpp d (List.mem_cons_of_mem _ hd)
    rw [List.cons_append] at hr
    cases hr with
    | blank hc hsp hnb hr =>
      rename_i c sp text
      obtain ⟨pre, inp', e, hr', hs⟩ := ih hP' hpp' hr
      refine ⟨sp ++ pre, inp', by rw [e, List.append_assoc], hr', ?_⟩
      intro f fuel taken store hf
      obtain ⟨fuel, rfl⟩ : ∃ g, fuel = g + 1 := ⟨fuel - 1, by omega⟩
      rw [text_cons] at hf
      have hf' : (Printf.Spec.text P ++ f).length < fuel := by
        simp only [Piece.text, List.cons_append, List.nil_append, List.length_cons] at hf; omega
      obtain ⟨fuel', h1, h2⟩ := hs f fuel (taken + sp.length) store hf'
      refine ⟨fuel', h1, ?_⟩
      rw [text_cons]
      simp only [Piece.text, List.cons_append, List.nil_append]
      obtain ⟨s1, s2⟩ := blank_split hsp hnb
      rw [cScanf.eq_def]
      dsimp only
      rw [if_pos ((isSpace_iff c).mpr hc), s1, s2, h2, List.length_append, Nat.add_assoc]
    | lit hc hr =>
      rename_i c text
      obtain ⟨pre, inp', e, hr', hs⟩ := ih hP' hpp' hr
      refine ⟨c :: pre, inp', by rw [e, List.cons_append], hr', ?_⟩
      intro f fuel taken store hf
      obtain ⟨fuel, rfl⟩ : ∃ g, fuel = g + 1 := ⟨fuel - 1, by omega⟩
      rw [text_cons] at hf
      have hf' : (Printf.Spec.text P ++ f).length < fuel := by
        simp only [Piece.text, List.cons_append, List.nil_append, List.length_cons] at hf; omega
      obtain ⟨fuel', h1, h2⟩ := hs f fuel (taken + 1) store hf'
      refine ⟨fuel', h1, ?_⟩
      rw [text_cons]
      simp only [Piece.text, List.cons_append, List.nil_append]
      have hne : c ≠ '%' := (hP (.lit c) (by simp)).1
      rw [cScanf.eq_def]
      dsimp only
      rw [if_neg (by rw [isSpace_false hc]; decide), if_pos hne, if_pos rfl, h2, List.length_cons, Nat.add_assoc, Nat.add_comm 1]
    | percent hsp hr =>
      rename_i d sp text
      have hd := hpp d (by simp)
      subst hd
      obtain ⟨pre, inp', e, hr', hs⟩ := ih hP' hpp' hr
      refine ⟨sp ++ '%' :: pre, inp', by rw [e, List.append_assoc, List.cons_append], hr', ?_⟩
      intro f fuel taken store hf
      obtain ⟨fuel, rfl⟩ : ∃ g, fuel = g + 1 := ⟨fuel - 1, by omega⟩
      rw [text_cons] at hf
      have ht : Piece.text (.percent plainPercent) = ['%', '%'] := rfl
      have hf' : (Printf.Spec.text P ++ f).length < fuel := by
        rw [ht] at hf
        simp only [List.cons_append, List.nil_append, List.length_cons] at hf; omega
      obtain ⟨fuel', h1, h2⟩ := hs f fuel (taken + sp.length + 1) store hf'
      refine ⟨fuel', h1, ?_⟩
      rw [text_cons, ht]
      simp only [List.cons_append, List.nil_append]
      obtain ⟨s1, s2⟩ := blank_split (text := '%' :: text) hsp (fun c hc => by injection hc with hc; subst hc; decide)
      rw [cScanf.eq_def]
      dsimp only
      rw [if_neg (by decide), if_neg (by decide)]
      have e1 : ('%' :: (Printf.Spec.text P ++ f)).takeWhile isDigit = [] := by simp only [List.takeWhile]; rfl
      have e2 : ('%' :: (Printf.Spec.text P ++ f)).dropWhile isDigit = '%' :: (Printf.Spec.text P ++ f) := by simp only [List.dropWhile]; rfl
      have e3 : cLength ('%' :: (Printf.Spec.text P ++ f)) = (.normal, '%' :: (Printf.Spec.text P ++ f)) := by
        exact cLength_size .normal Printf.term_percent _
      rw [e1, e2, e3]
      dsimp only
      rw [if_neg (by decide), if_pos rfl, if_pos ⟨rfl, rfl⟩, s2, s1]
      dsimp only
      rw [if_pos rfl, h2]
      simp only [List.length_append, List.length_cons]
      congr 1
      omega
    | int hw _ _ _ _ _ => exact absurd rfl ((hP _ (List.mem_cons_self)).2 _)
    | real hw _ _ _ _ _ _ => exact absurd rfl ((hP _ (List.mem_cons_self)).2 _)
    | char hw _ => exact absurd rfl ((hP _ (List.mem_cons_self)).2 _)
    | str hw _ _ _ _ _ => exact absurd rfl ((hP _ (List.mem_cons_self)).2 _)
    | strEnd hw _ _ _ _ _ => exact absurd rfl ((hP _ (List.mem_cons_self)).2 _)

/-- `%n` at the end. -/
theorem cScanf_n {L : CLib} {hasDest : Bool} {fuel : Nat} (hf : 2 < fuel) (inp : List Char) (taken : Nat) (store : Option (Nat × Nat)) :
    cScanf L hasDest fuel ['%', 'n'] inp taken store = .done (assigned store) taken (some taken) store := by
  obtain ⟨fuel, rfl⟩ : ∃ g, fuel = g + 1 := ⟨fuel - 1, by omega⟩
  rw [cScanf.eq_def]
  dsimp only
  rw [if_neg (by decide), if_neg (by decide)]
  rfl

theorem term_supported {L : CLib} {d : Directive} (hd : d.Valid) (hs : Supported L d) (f : List Char) :
    d.text ++ f = '%' :: (d.width ++ (sizeText d.size ++ d.conv :: f)) ∧
    (d.width ++ (sizeText d.size ++ d.conv :: f)).takeWhile isDigit = d.width ∧
    (d.width ++ (sizeText d.size ++ d.conv :: f)).dropWhile isDigit = sizeText d.size ++ d.conv :: f ∧
    cLength (sizeText d.size ++ d.conv :: f) = (d.size, d.conv :: f) := by
  obtain ⟨ht, _⟩ := want_term hd.2
  have w := takeWhile_append_stop (p := isDigit) (a := d.width) (b := sizeText d.size ++ d.conv :: f)
    (fun c hc => (isDigit_iff c).mpr (hd.1.2.1 c hc)) (fun c hc => (headSize ht.digit ht.dot f c hc).2.1)
  refine ⟨?_, w.1, w.2, cLength_size _ ht f⟩
  rw [dtext, body, hs.1, hs.2.1]
  rfl

/-- A specifier for which the conversion succeeds. -/
theorem cScanf_dir {L : CLib} {d : Directive} (hd : d.Valid) (hs : Supported L d) {inp : List Char} {k n b : Nat}
    (hc : cConv L (widthOf d) d.size d.conv inp = .ok k n b) {fuel : Nat} (hf : (d.text ++ ['%', 'n']).length < fuel) (taken : Nat) :
    cScanf L true fuel (d.text ++ ['%', 'n']) inp taken none = .done 1 (taken + k) (some (taken + k)) (some (n, b)) := by
  obtain ⟨e1, e2, e3, e4⟩ := term_supported hd hs ['%', 'n']
  obtain ⟨fuel, rfl⟩ : ∃ g, fuel = g + 1 := ⟨fuel - 1, by omega⟩
  have hf' : 2 < fuel := by
    have := Printf.dtext_pos d
    simp only [List.length_append, List.length_cons, List.length_nil] at hf; omega
  obtain ⟨ht, hne⟩ := want_term hd.2
  have hnn : d.conv ≠ 'n' := by
    intro h
    have := hd.2
    rw [h] at this
    cases hz : d.size <;> rw [hz] at this <;> revert this <;> decide
  rw [e1, cScanf.eq_def]
  dsimp only
  rw [if_neg (by decide), if_neg (by decide), e2, e3, e4]
  dsimp only
  rw [if_neg hnn, if_neg hne]
  have hw : widthOf d = (if d.width = [] then none else some (numeral 10 0 d.width)) := rfl
  rw [← hw, if_neg (by
    intro h
    rcases h with h | h | h
    · exact widthOf_pos hd.1 h
    · cases h
    · cases h), hc]
  dsimp only
  rw [cScanf_n hf']
  rfl

/-! ## Streams -/

/-- The stream is at the text. -/
def At (file : Bool) (stream : Stream) (inp slack : List Char) : Prop :=
  match file with
  | true => stream = .file inp
  | false => ∃ before, stream = .str (before ++ (inp ++ nul :: slack)) before.length

theorem At.notNull {file : Bool} {stream : Stream} {inp slack : List Char} (h : At file stream inp slack) : stream ≠ .null := by
  cases file with
  | true => intro e; rw [h] at e; cases e
  | false => obtain ⟨b, h⟩ := h; intro e; rw [h] at e; cases e

theorem At.input {file : Bool} {stream : Stream} {inp slack : List Char} (h : At file stream inp slack) (hn : nul ∉ inp) :
    stream.input = some inp := by
  cases file with
  | true => rw [h]; rfl
  | false =>
    obtain ⟨b, h⟩ := h
    rw [h]
    dsimp only [Stream.input]
    rw [List.drop_left, if_pos (by simp)]
    congr 1
    exact (takeWhile_append_stop (fun c hc => by
      rw [bne_iff_ne]
      intro e
      exact hn (e ▸ hc)) (fun c hc => by injection hc with hc; subst hc; decide)).1

theorem At.advance {file : Bool} {stream : Stream} {pre inp slack : List Char} (h : At file stream (pre ++ inp) slack) :
    At file (stream.advance pre.length pre.length) inp slack := by
  cases file with
  | true =>
    have h : stream = .file (pre ++ inp) := h
    subst h
    show Stream.file ((pre ++ inp).drop pre.length) = Stream.file inp
    rw [List.drop_left]
  | false =>
    obtain ⟨b, h⟩ := h
    subst h
    refine ⟨b ++ pre, ?_⟩
    show Stream.str _ _ = Stream.str _ _
    rw [List.length_append]
    congr 1
    simp only [List.append_assoc]

theorem sgn_map {s : List Char} (h : ∀ c ∈ s, c.toNat ≠ 255) :
    s.map (fun c => if c.toNat = 255 then none else some c) = s.map some := by
  apply List.map_congr_left
  intro c hc
  rw [if_neg (h c hc)]

theorem blank_255 {c : Char} (h : c ∈ blanks) : c.toNat ≠ 255 := by
  simp only [blanks, List.mem_cons, List.not_mem_nil, or_false] at h
  rcases h with h | h | h | h | h | h <;> subst h <;> decide

/-- A word followed by a blank. -/
theorem At.word {file : Bool} {stream : Stream} {sp word text slack : List Char} {b : Char} (h : At file stream (sp ++ (word ++ b :: text)) slack)
    (hsp : Blank sp) (hne : word ≠ []) (hw : ∀ c ∈ word, c ∉ blanks ∧ (file = false → c.toNat ≠ 255)) (hb : b ∈ blanks)
    (hn : nul ∉ word) : fsscanfString stream.chars = some (word, sp.length + word.length + 1) := by
  have hw' : ∀ c ∈ word, c ∉ blanks ∧ c ≠ nul := fun c hc => ⟨(hw c hc).1, fun e => hn (e ▸ hc)⟩
  cases file with
  | true =>
    have h : stream = .file (sp ++ (word ++ b :: text)) := h
    rw [h]
    dsimp only [Stream.chars]
    rw [List.map_append, List.map_append, List.map_cons, List.append_assoc, List.append_assoc, List.cons_append]
    exact fsscanfString_eq hsp hne hw' (fun c hc => by injection hc with hc; subst hc; exact .inr hb) _
  | false =>
    obtain ⟨pre, h⟩ := h
    rw [h]
    dsimp only [Stream.chars]
    rw [List.drop_left, List.append_assoc, List.append_assoc, List.cons_append, List.map_append, List.map_append, List.map_cons,
      sgn_map (fun c hc => blank_255 (hsp c hc)), sgn_map (fun c hc => (hw c hc).2 rfl), if_neg (blank_255 hb)]
    exact fsscanfString_eq hsp hne hw' (fun c hc => by injection hc with hc; subst hc; exact .inr hb) _

/-- A word at the end of a file. -/
theorem At.wordEnd {stream : Stream} {sp word slack : List Char} (h : At true stream (sp ++ word) slack)
    (hsp : Blank sp) (hne : word ≠ []) (hw : ∀ c ∈ word, c ∉ blanks) (hn : nul ∉ word) :
    fsscanfString stream.chars = some (word, sp.length + word.length + 1) := by
  have h : stream = .file (sp ++ word) := h
  rw [h]
  dsimp only [Stream.chars]
  rw [List.map_append, List.append_assoc]
  exact fsscanfString_eq hsp hne (fun c hc => ⟨hw c hc, fun e => hn (e ▸ hc)⟩) (fun c hc => by cases hc) _

end Umka.Scanf
