import Verif.Printf.Conv

/-! # Printf: one call, and all the calls -/

namespace Umka.Printf

open Spec (Directive Piece Want sizeText precText flagChars digitChars ArgOk Fits InBits intValue kindBits TooWide BrokenV Hazard
  NoHazard PlainPercents dirText outText Matches dirs)

theorem conv_int {R} {L : CLib R} (hL : L.longBits = 32 ∨ L.longBits = 64) {d : Directive} {a : Arg R} (ha : ArgOk a) (b : Bool)
    (hc : if b then d.conv ∈ ['d', 'i'] else d.conv ∈ ['u', 'x', 'X']) (hf : Fits L (.int b (Spec.intBits d.size)) a) :
    ∃ c, slotArg a.kind a.val = some (some c) ∧
      (TooWide L d a → cConv L d.flags d.width d.prec d.size d.conv c = none) ∧
      (¬ TooWide L d a → cConv L d.flags d.width d.prec d.size d.conv c = some (dirText L d a)) := by
  obtain ⟨hk, i, hv, hb⟩ := hf
  refine ⟨_, slotArg_int ha hv hk, ?_⟩
  have hmem : d.conv ∈ ['d', 'i', 'u', 'x', 'X'] := by
    cases b <;> simp only [if_true, Bool.false_eq_true, if_false, List.mem_cons, List.not_mem_nil, or_false] at hc ⊢ <;> grind
  have hnv : d.conv ≠ 'v' := by
    rintro h; rw [h] at hmem; simp at hmem
  have hbits : (cIntBits L d.size).1 = 32 ∨ (cIntBits L d.size).1 = 64 := by
    cases d.size <;> simp [cIntBits, hL]
  have hwide : TooWide L d a ↔ (if a.kind = .int ∨ a.kind = .uint then 64 else 32) < (cIntBits L d.size).1 := by
    unfold TooWide
    simp only [hmem, true_and]
    by_cases hk : a.kind = .int ∨ a.kind = .uint
    · rw [if_pos hk]
      constructor
      · rintro ⟨_, h1, h2⟩; rcases hk with h | h; exact absurd h h1; exact absurd h h2
      · intro h; rcases hbits with h' | h' <;> omega
    · rw [if_neg hk]
      rw [not_or] at hk
      simp only [hk, ne_eq, not_false_eq_true, and_true]
      rcases hL with h | h <;> cases d.size <;> simp [cIntBits, h]
  have hkeep : ∀ v : Int, InBits b (Spec.intBits d.size) v → InBits b (cIntBits L d.size).2 v := by
    intro v hv
    rcases hL with h | h <;> cases hs : d.size <;> rw [hs] at hv <;> simp only [cIntBits, h, Spec.intBits] at hv ⊢ <;>
      first
      | exact hv
      | (cases b <;> simp only [InBits, if_true, Bool.false_eq_true, if_false] at hv ⊢ <;> omega)
  have hpos : 0 < (cIntBits L d.size).2 := by
    rcases hL with h | h <;> cases d.size <;> simp [cIntBits, h]
  have hkept := hkeep _ hb
  have htext : dirText L d a = L.render d.flags d.width d.prec d.conv (.inl (intValue a.kind i)) := by
    rw [dirText, if_neg hnv, hv]
  cases b with
  | true =>
    simp only [if_true, List.mem_cons, List.not_mem_nil, or_false] at hc
    simp only [InBits, if_true] at hkept
    rw [htext, hwide]
    unfold cConv
    rw [if_pos hc]
    dsimp only
    rw [bmod_self hpos hkept.1 hkept.2]
    exact ⟨fun h => if_pos h, fun h => if_neg h⟩
  | false =>
    simp only [Bool.false_eq_true, if_false, List.mem_cons, List.not_mem_nil, or_false] at hc
    simp only [InBits, Bool.false_eq_true, if_false] at hkept
    have hnd : ¬ (d.conv = 'd' ∨ d.conv = 'i') := by
      rcases hc with h | h | h <;> rw [h] <;> decide
    rw [htext, hwide]
    unfold cConv
    rw [if_neg hnd, if_pos hc]
    dsimp only
    rw [Int.emod_eq_of_lt hkept.1 (by push_cast; exact hkept.2)]
    exact ⟨fun h => if_pos h, fun h => if_neg h⟩

theorem conv_eq {R} {L : CLib R} (hL : L.longBits = 32 ∨ L.longBits = 64) {d : Directive} {a : Arg R} (ha : ArgOk a) {w : Want}
    (hw : Spec.want d.conv d.size = some w) (hv : d.conv ≠ 'v') (hf : Fits L w a) :
    ∃ c, slotArg a.kind a.val = some (some c) ∧
      (TooWide L d a → cConv L d.flags d.width d.prec d.size d.conv c = none) ∧
      (¬ TooWide L d a → cConv L d.flags d.width d.prec d.size d.conv c = some (dirText L d a)) := by
  rcases want_cases hw with ⟨hc, rfl⟩ | ⟨hc, rfl⟩ | ⟨hc, h⟩ | ⟨hc, hs, rfl⟩ | ⟨hc, hs, rfl⟩ | ⟨hc, rfl⟩
  · exact conv_int hL ha true hc hf
  · exact conv_int hL ha false hc hf
  · have hnw : ¬ TooWide L d a := by
      rintro ⟨h, _⟩
      simp only [List.mem_cons, List.not_mem_nil, or_false] at hc h
      rcases hc with hc | hc | hc | hc | hc | hc <;> rw [hc] at h <;> revert h <;> decide
    have hk : (a.kind = .real32 ∨ a.kind = .real) ∧ ∃ r, a.val = .real r := by
      rcases h with ⟨_, rfl⟩ | ⟨_, rfl⟩
      · exact ⟨hf.1, hf.2.imp fun _ h => h.1⟩
      · exact ⟨hf.1, hf.2.imp fun _ h => h.1⟩
    obtain ⟨hk, r, hr⟩ := hk
    refine ⟨.dbl r, ?_, fun h => absurd h hnw, fun _ => ?_⟩
    · rw [hr]; rcases hk with hk | hk <;> rw [hk] <;> rfl
    · rw [dirText, if_neg hv, hr]
      have hs : d.size = .normal ∨ d.size = .long := by
        rcases h with ⟨h, _⟩ | ⟨h, _⟩
        · exact .inl h
        · exact .inr h
      simp only [List.mem_cons, List.not_mem_nil, or_false] at hc
      unfold cConv
      have h1 : ¬ (d.conv = 'd' ∨ d.conv = 'i') := by
        rcases hc with hc | hc | hc | hc | hc | hc <;> rw [hc] <;> decide
      have h2 : ¬ (d.conv = 'u' ∨ d.conv = 'x' ∨ d.conv = 'X') := by
        rcases hc with hc | hc | hc | hc | hc | hc <;> rw [hc] <;> decide
      rw [if_neg h1, if_neg h2, if_pos hc]
      rcases hs with hs | hs <;> rw [hs]
  · have hnw : ¬ TooWide L d a := by
      rintro ⟨h, _⟩; rw [hc] at h; revert h; decide
    obtain ⟨s, hs', _⟩ := ha.2.2.2.2.1 hf
    refine ⟨.str s, ?_, fun h => absurd h hnw, fun _ => ?_⟩
    · rw [hs', show a.kind = .str from hf]; rfl
    · rw [dirText, if_neg hv, hs', hc, hs]; rfl
  · have hnw : ¬ TooWide L d a := by
      rintro ⟨h, _⟩; rw [hc] at h; revert h; decide
    obtain ⟨i, hi, h1, h2, h3⟩ := slotArg_char ha hf
    refine ⟨.int 32 i, h3, fun h => absurd h hnw, fun _ => ?_⟩
    rw [dirText, if_neg hv, hi, hc, hs, show a.kind = .char from hf]
    have e : intValue .char i = i := by simp [intValue]
    simp only [e]
    have e' : i % 256 = i := Int.emod_eq_of_lt h1 h2
    unfold cConv
    simp only [Char.reduceEq, or_self, if_false, if_true, e']
  · exact absurd hc hv

/-! ## `%v` -/

/-- `%v` without length: the letter becomes `s`. -/
theorem set_last (xs : List Char) (c x : Char) : (xs ++ [c]).set xs.length x = xs ++ [x] := by
  induction xs with
  | nil => rfl
  | cons y xs ih => simp only [List.cons_append, List.length_cons, List.set_cons_succ, ih]

theorem set_mid (xs ys : List Char) (c x : Char) : (xs ++ c :: ys).set xs.length x = xs ++ x :: ys := by
  induction xs with
  | nil => rfl
  | cons y xs ih => simp only [List.cons_append, List.length_cons, List.set_cons_succ, ih]

/-- The blanks that replace the length letters. -/
def blanks (sz : Size) : List Char := List.replicate (sizeText sz).length ' '

theorem patch_eq (pre : List Char) (d : Directive) :
    patchFormat (pre ++ d.text) (pre.length + d.text.length - 1) d.size =
      pre ++ '%' :: (d.flags ++ d.width ++ precText d.prec ++ (blanks d.size ++ ['s'])) := by
  have e : pre ++ d.text = (pre ++ '%' :: (d.flags ++ d.width ++ precText d.prec)) ++ (sizeText d.size ++ [d.conv]) := by
    simp [Directive.text, List.append_assoc]
  have hl : pre.length + d.text.length - 1 = (pre ++ '%' :: (d.flags ++ d.width ++ precText d.prec)).length + (sizeText d.size).length := by
    rw [dtext_length]; simp; omega
  have e2 : pre ++ '%' :: (d.flags ++ d.width ++ precText d.prec ++ (blanks d.size ++ ['s']))
      = (pre ++ '%' :: (d.flags ++ d.width ++ precText d.prec)) ++ (blanks d.size ++ ['s']) := by simp [List.append_assoc]
  rw [e, hl, e2]
  generalize (pre ++ '%' :: (d.flags ++ d.width ++ precText d.prec)) = q
  cases d.size
  · show patchFormat (q ++ ['h', 'h', d.conv]) (q.length + 2) _ = q ++ [' ', ' ', 's']
    have s1 : (q ++ ['h', 'h', d.conv]).set (q.length + 2) 's' = q ++ ['h', 'h', 's'] := by
      have := set_mid (q ++ ['h', 'h']) [] d.conv 's'
      simpa using this
    have s2 : (q ++ ['h', 'h', 's']).set (q.length + 2 - 1) ' ' = q ++ ['h', ' ', 's'] := by
      have := set_mid (q ++ ['h']) ['s'] 'h' ' '
      simpa using this
    have s3 : (q ++ ['h', ' ', 's']).set (q.length + 2 - 2) ' ' = q ++ [' ', ' ', 's'] := set_mid q [' ', 's'] 'h' ' '
    unfold patchFormat
    dsimp only
    rw [s1, if_pos (c := _ ∧ q.length + 2 ≥ 2) ⟨.inr rfl, by omega⟩, if_pos (c := _ ∧ q.length + 2 ≥ 1) ⟨by decide, by omega⟩, s2, s3]
  · show patchFormat (q ++ ['h', d.conv]) (q.length + 1) _ = q ++ [' ', 's']
    have s1 : (q ++ ['h', d.conv]).set (q.length + 1) 's' = q ++ ['h', 's'] := by
      have := set_mid (q ++ ['h']) [] d.conv 's'
      simpa using this
    have s2 : (q ++ ['h', 's']).set (q.length + 1 - 1) ' ' = q ++ [' ', 's'] := set_mid q ['s'] 'h' ' '
    unfold patchFormat
    dsimp only
    rw [s1, if_neg (c := _ ∧ q.length + 1 ≥ 2) (by simp), if_pos (c := _ ∧ q.length + 1 ≥ 1) ⟨by decide, by omega⟩, s2]
  · show patchFormat (q ++ [d.conv]) q.length _ = q ++ ['s']
    unfold patchFormat
    dsimp only
    rw [set_mid q [] d.conv 's', if_neg (c := _ ∧ q.length ≥ 2) (by simp), if_neg (c := _ ∧ q.length ≥ 1) (by simp)]
  · show patchFormat (q ++ ['l', d.conv]) (q.length + 1) _ = q ++ [' ', 's']
    have s1 : (q ++ ['l', d.conv]).set (q.length + 1) 's' = q ++ ['l', 's'] := by
      have := set_mid (q ++ ['l']) [] d.conv 's'
      simpa using this
    have s2 : (q ++ ['l', 's']).set (q.length + 1 - 1) ' ' = q ++ [' ', 's'] := set_mid q ['s'] 'l' ' '
    unfold patchFormat
    dsimp only
    rw [s1, if_neg (c := _ ∧ q.length + 1 ≥ 2) (by simp), if_pos (c := _ ∧ q.length + 1 ≥ 1) ⟨by decide, by omega⟩, s2]
  · show patchFormat (q ++ ['l', 'l', d.conv]) (q.length + 2) _ = q ++ [' ', ' ', 's']
    have s1 : (q ++ ['l', 'l', d.conv]).set (q.length + 2) 's' = q ++ ['l', 'l', 's'] := by
      have := set_mid (q ++ ['l', 'l']) [] d.conv 's'
      simpa using this
    have s2 : (q ++ ['l', 'l', 's']).set (q.length + 2 - 1) ' ' = q ++ ['l', ' ', 's'] := by
      have := set_mid (q ++ ['l']) ['s'] 'l' ' '
      simpa using this
    have s3 : (q ++ ['l', ' ', 's']).set (q.length + 2 - 2) ' ' = q ++ [' ', ' ', 's'] := set_mid q [' ', 's'] 'l' ' '
    unfold patchFormat
    dsimp only
    rw [s1, if_pos (c := _ ∧ q.length + 2 ≥ 2) ⟨.inl rfl, by omega⟩, if_pos (c := _ ∧ q.length + 2 ≥ 1) ⟨by decide, by omega⟩, s2, s3]

theorem compat_void {c : Char} {sz : Size} {w : Want} (hw : Spec.want c sz = some w) : compatiblePrintf (wantKind w) .void true = false := by
  rcases want_cases hw with ⟨_, rfl⟩ | ⟨_, rfl⟩ | ⟨_, h⟩ | ⟨_, _, rfl⟩ | ⟨_, _, rfl⟩ | ⟨_, rfl⟩
  · cases sz <;> rfl
  · cases sz <;> rfl
  · rcases h with ⟨_, rfl⟩ | ⟨_, rfl⟩ <;> rfl
  · rfl
  · rfl
  · rfl

theorem term_s : Term 's' := ⟨by decide, by decide, by decide, by decide, by decide⟩

/-- `%v` after the patch, given to the C function. -/
theorem cPrintf_v {R} {L : CLib R} (hb : Spec.BlankHarmless L) {d : Directive} (hd : d.Shaped) (hv : d.conv = 'v') (f : Nat) (s : List Char) :
    (BrokenV d → cPrintf L (f + 1) ('%' :: (d.flags ++ d.width ++ precText d.prec ++ (blanks d.size ++ ['s']))) (some (.str s)) = none) ∧
    (¬ BrokenV d → 0 < f → cPrintf L (f + 1) ('%' :: (d.flags ++ d.width ++ precText d.prec ++ (blanks d.size ++ ['s']))) (some (.str s))
      = some (L.render d.flags d.width d.prec 's' (.inr (.inr s)))) := by
  constructor
  · rintro ⟨_, hsz, hwp⟩
    obtain ⟨t, ht⟩ : ∃ t, blanks d.size ++ ['s'] = ' ' :: t := by
      unfold blanks
      cases hs : d.size <;> first | exact absurd hs hsz | exact ⟨_, rfl⟩
    have hsp : isDigit ' ' = false ∧ ' ' ≠ '.' ∧ ' ' ≠ 'h' ∧ ' ' ≠ 'l' ∧ ' ' ≠ '%' := by decide
    let e : Directive := ⟨d.flags, d.width, d.prec, .normal, ' '⟩
    have he : e.text ++ t = '%' :: (d.flags ++ d.width ++ precText d.prec ++ (blanks d.size ++ ['s'])) := by
      rw [ht]; simp [e, Directive.text, sizeText, List.append_assoc]
    rw [← he, cPrintf_spec L f (parsed_body' (d := e) hd hsp.1 hsp.2.1 (.inr hwp) t) hsp.2.2.1 hsp.2.2.2.1]
    rw [if_neg hsp.2.2.2.2]
    rfl
  · intro hnb hf
    by_cases hsz : d.size = .normal
    · let e : Directive := ⟨d.flags, d.width, d.prec, .normal, 's'⟩
      have he : e.text ++ [] = '%' :: (d.flags ++ d.width ++ precText d.prec ++ (blanks d.size ++ ['s'])) := by
        rw [hsz]; simp [e, Directive.text, sizeText, blanks, List.append_assoc]
      rw [← he, cPrintf_spec L f (parsed_body (d := e) hd term_s []) term_s.h term_s.l, if_neg (show ¬ 's' = '%' by decide)]
      show (cPrintf L f [] none).map _ = _
      rw [cPrintf_nil L hf]
      simp [e]
    · have hwp : d.width = [] ∧ d.prec = none := by
        constructor
        · exact Classical.byContradiction fun h => hnb ⟨hv, hsz, .inl h⟩
        · exact Classical.byContradiction fun h => hnb ⟨hv, hsz, .inr h⟩
      let e : Directive := ⟨d.flags ++ blanks d.size, [], none, .normal, 's'⟩
      have he : e.text ++ [] = '%' :: (d.flags ++ d.width ++ precText d.prec ++ (blanks d.size ++ ['s'])) := by
        rw [hwp.1, hwp.2]; simp [e, Directive.text, sizeText, precText, List.append_assoc]
      have hesh : e.Shaped := by
        refine ⟨?_, by simp [e], by simp [e], by simp [e]⟩
        intro c hc
        rcases List.mem_append.mp hc with h | h
        · exact hd.1 c h
        · rw [(List.mem_replicate.mp h).2]; decide
      rw [← he, cPrintf_spec L f (parsed_body (d := e) hesh term_s []) term_s.h term_s.l, if_neg (show ¬ 's' = '%' by decide)]
      show (cPrintf L f [] none).map _ = _
      rw [cPrintf_nil L hf]
      simp only [Option.map_some, List.append_nil, hwp.1, hwp.2]
      exact congrArg some (hb d.flags _ [] none _)

/-! ## The text of one call -/

theorem append_take_text (pre : List Char) (d : Directive) (rest : List Char) :
    (pre ++ (d.text ++ rest)).take (pre.length + d.text.length) = pre ++ d.text := by
  rw [← List.append_assoc, ← List.length_append, List.take_left]

theorem callText_dir {R} {L : CLib R} (hL : L.longBits = 32 ∨ L.longBits = 64) (hbl : Spec.BlankHarmless L) (junk : Char) {ps : List Piece} (hps : NoDir ps) {d : Directive} (hd : d.Valid)
    (rest : List Char) {a : Arg R} (ha : ArgOk a) {w : Want} (hw : Spec.want d.conv d.size = some w) (hf : Fits L w a) :
    (litOut ps = none ∨ Hazard L d a → callText L junk (Spec.text ps ++ (d.text ++ rest))
      ⟨(Spec.text ps).length + d.text.length, some ((Spec.text ps).length + d.text.length - 1), wantKind w, d.size⟩ a = none) ∧
    (∀ t, litOut ps = some t → ¬ Hazard L d a → callText L junk (Spec.text ps ++ (d.text ++ rest))
      ⟨(Spec.text ps).length + d.text.length, some ((Spec.text ps).length + d.text.length - 1), wantKind w, d.size⟩ a
        = some (some (t ++ dirText L d a))) := by
  have hterm := want_term hd.2
  have hpos := dtext_pos d
  by_cases hv : d.conv = 'v'
  · -- %v
    have hwk : wantKind w = .interface := by
      rcases want_cases hw with ⟨h, _⟩ | ⟨h, _⟩ | ⟨h, _⟩ | ⟨h, _⟩ | ⟨h, _⟩ | ⟨_, rfl⟩
      · rw [hv] at h; exact absurd h (by decide)
      · rw [hv] at h; exact absurd h (by decide)
      · rw [hv] at h; exact absurd h (by decide)
      · rw [hv] at h; exact absurd h (by decide)
      · rw [hv] at h; exact absurd h (by decide)
      · rfl
    have hhaz : Hazard L d a ↔ BrokenV d := by
      constructor
      · rintro (⟨h, _⟩ | h)
        · rw [hv] at h; exact absurd h (by decide)
        · exact h
      · exact .inr
    let rep := Spec.reprOf a.graph a.root (decide (d.size = .longLong)) (decide (d.size = .long ∨ d.size = .longLong))
    have hrep : Spec.noNul rep := noNul_repr ha.2.2.2.2.2 _ _ _ _ _
    have key : ∀ x : Option (List Char),
        cPrintf L ((Spec.text ps ++ d.text).length + 1) (patchFormat (Spec.text ps ++ d.text) ((Spec.text ps).length + d.text.length - 1) d.size)
          (some (.str rep)) = x →
        callText L junk (Spec.text ps ++ (d.text ++ rest))
          ⟨(Spec.text ps).length + d.text.length, some ((Spec.text ps).length + d.text.length - 1), wantKind w, d.size⟩ a = x.map some := by
      intro x hx
      unfold callText
      dsimp only
      rw [hwk, append_take_text]
      dsimp only
      rw [if_pos (by omega), makeRepr_eq ha.2.2.2.2.2]
      dsimp only
      rw [cstr_repr hrep, hx]
    obtain ⟨f, hf1, hf2⟩ := cPrintf_noDir L hps ('%' :: (d.flags ++ d.width ++ precText d.prec ++ (blanks d.size ++ ['s']))) (some (.str rep))
      ((Spec.text ps ++ d.text).length + 1) (by
        have : ('%' :: (d.flags ++ d.width ++ precText d.prec ++ (blanks d.size ++ ['s']))).length = d.text.length := by
          rw [dtext_length]; simp [blanks]; omega
        rw [List.length_append, this, List.length_append]; omega)
    obtain ⟨f, rfl⟩ : ∃ g, f = g + 1 := ⟨f - 1, by omega⟩
    have hcv := cPrintf_v hbl hd.1 hv f rep
    rw [hhaz]
    constructor
    · intro h
      refine key none ?_
      rw [patch_eq, hf2]
      rcases h with h | h
      · rw [h]; rfl
      · rw [hcv.1 h]; cases litOut ps <;> rfl
    · intro t ht hnb
      refine key (some (t ++ dirText L d a)) ?_
      rw [patch_eq, hf2, ht, hcv.2 hnb (by simp at hf1; omega), dirText, if_pos hv]
      rfl
  · -- other letters
    have hwk : wantKind w ≠ .interface := by
      rcases want_cases hw with ⟨_, rfl⟩ | ⟨_, rfl⟩ | ⟨_, h⟩ | ⟨_, _, rfl⟩ | ⟨_, _, rfl⟩ | ⟨h, _⟩
      · cases d.size <;> decide
      · cases d.size <;> decide
      · rcases h with ⟨_, rfl⟩ | ⟨_, rfl⟩ <;> decide
      · decide
      · decide
      · exact absurd h hv
    have hhaz : Hazard L d a ↔ TooWide L d a := by
      constructor
      · rintro (h | h)
        · exact h
        · exact absurd h.1 hv
      · exact .inl
    obtain ⟨c, hc, hc1, hc2⟩ := conv_eq hL ha hw hv hf
    have hcall : callText L junk (Spec.text ps ++ (d.text ++ rest))
          ⟨(Spec.text ps).length + d.text.length, some ((Spec.text ps).length + d.text.length - 1), wantKind w, d.size⟩ a =
        (cPrintf L ((Spec.text ps ++ d.text).length + 1) (Spec.text ps ++ d.text) (some c)).map some := by
      unfold callText
      dsimp only
      rw [append_take_text, hc]
      split
      · next h _ => exact absurd h hwk
      · rfl
    obtain ⟨f, hf1, hf2⟩ := cPrintf_noDir L hps d.text (some c) ((Spec.text ps ++ d.text).length + 1) (by omega)
    obtain ⟨f, rfl⟩ : ∃ g, f = g + 1 := ⟨f - 1, by omega⟩
    have hsp := cPrintf_spec L f (parsed_body hd.1 hterm.1 []) hterm.1.h hterm.1.l (some c)
    rw [List.append_nil, if_neg hterm.2] at hsp
    rw [hcall, hf2, hhaz]
    constructor
    · rintro (h | h)
      · rw [h]; rfl
      · rw [hsp]
        dsimp only
        rw [hc1 h]; cases litOut ps <;> rfl
    · intro t ht hnw
      rw [hsp]
      dsimp only
      rw [hc2 hnw, ht, cPrintf_nil L (by omega)]
      simp

theorem callText_void {R} (L : CLib R) (junk : Char) {ps : List Piece} (hps : NoDir ps) (pos : Option Nat) (sz : Size) :
    callText L junk (Spec.text ps) ⟨(Spec.text ps).length, pos, .void, sz⟩ voidArg = (litOut ps).map some := by
  have hcall : callText L junk (Spec.text ps) ⟨(Spec.text ps).length, pos, .void, sz⟩ voidArg
      = (cPrintf L ((Spec.text ps).length + 1) (Spec.text ps) none).map some := by
    unfold callText
    dsimp only
    rw [List.take_length]
    rfl
  rw [hcall]
  obtain ⟨f, hf1, hf2⟩ := cPrintf_noDir L hps [] none ((Spec.text ps).length + 1) (by simp)
  rw [List.append_nil] at hf2
  rw [hf2, cPrintf_nil L (by simpa using hf1)]
  cases litOut ps with
  | none => rfl
  | some t => simp

/-! ## The destination -/

/-- The destination holds the text `out` (and, for a string, its length and its terminating NUL). -/
def Holds : Dest → List Char → Prop
  | .file o, out => o = out
  | .str s, out => s.len = out.length ∧ s.bytes.take out.length = out ∧ s.bytes[out.length]? = some nul
  | .null, _ => False

def SameKind : Dest → Dest → Prop
  | .file _, .file _ => True
  | .str _, .str _ => True
  | .null, .null => True
  | _, _ => False

theorem writeAt_holds {b out text : List Char} (h : b.take out.length = out) (hl : out.length + text.length + 1 ≤ b.length) :
    ∃ b', writeAt b out.length (text ++ [nul]) = some b' ∧ b'.take (out ++ text).length = out ++ text ∧
      b'[(out ++ text).length]? = some nul := by
  refine ⟨b.take out.length ++ (text ++ [nul]) ++ b.drop (out.length + (text ++ [nul]).length), ?_, ?_, ?_⟩
  · rw [writeAt, if_pos (by rw [List.length_append, List.length_singleton]; omega)]
  · rw [h, List.append_assoc, List.append_assoc, ← List.append_assoc out, List.take_left]
  · rw [h, List.append_assoc, List.append_assoc, ← List.append_assoc out, List.getElem?_append_right (Nat.le_refl _), Nat.sub_self]
    rfl

theorem output_holds {dest : Dest} {out : List Char} (h : Holds dest out) (text : List Char) :
    ∃ dest', output dest out.length text = some dest' ∧ Holds dest' (out ++ text) ∧ SameKind dest dest' := by
  cases dest with
  | null => exact absurd h id
  | file o => exact ⟨_, rfl, by rw [show o = out from h]; rfl, trivial⟩
  | str s =>
    obtain ⟨h1, h2, h3⟩ := h
    have hcap : out.length < s.bytes.length := (List.getElem?_eq_some_iff.mp h3).1
    unfold output
    dsimp only
    rw [List.take_length]
    by_cases hin : s.bytes.length ≥ out.length + text.length + 1
    · rw [if_pos hin]
      obtain ⟨b', e1, e2, e3⟩ := writeAt_holds (text := text) h2 hin
      refine ⟨.str { s with bytes := b', len := out.length + text.length }, ?_, ⟨by rw [List.length_append], e2, e3⟩, trivial⟩
      show (writeAt s.bytes out.length (text ++ [nul])).map _ = _
      rw [e1]; rfl
    · rw [if_neg hin]
      let n := allocStr (out.length + text.length)
      have hn : n.bytes.length = 2 * (out.length + text.length + 1) := by simp [n, allocStr]
      have w1 : writeAt n.bytes 0 (s.bytes.take out.length) = some (out ++ n.bytes.drop out.length) := by
        rw [h2, writeAt, if_pos (by omega)]; simp
      have hl1 : (out ++ n.bytes.drop out.length).length = n.bytes.length := by
        rw [List.length_append, List.length_drop]; omega
      have w2 : writeAt (out ++ n.bytes.drop out.length) out.length [nul] = some (out ++ [nul] ++ n.bytes.drop (out.length + 1)) := by
        rw [writeAt, if_pos (by rw [hl1, List.length_singleton]; omega), List.take_left]
        congr 2
        rw [List.drop_append, List.drop_of_length_le (by simp), List.nil_append, List.drop_drop, List.length_singleton]
        congr 1
        omega
      have hl2 : (out ++ [nul] ++ n.bytes.drop (out.length + 1)).length = n.bytes.length := by
        simp only [List.length_append, List.length_drop, List.length_singleton]; omega
      obtain ⟨b', e1, e2, e3⟩ := writeAt_holds (b := out ++ [nul] ++ n.bytes.drop (out.length + 1)) (out := out) (text := text)
        (by rw [List.append_assoc, List.take_left]) (by rw [hl2, hn]; omega)
      refine ⟨.str { n with bytes := b' }, ?_, ⟨by simp [n, allocStr], e2, e3⟩, trivial⟩
      show Option.bind (Option.bind (writeAt n.bytes 0 (s.bytes.take out.length)) _) _ = _
      rw [w1, Option.bind_some, w2, Option.map_some, Option.bind_some]
      dsimp only
      rw [e1]; rfl

/-! ## One step -/

/-- The state before or after a call: the destination holds what was printed, the count is its length. -/
structure Inv (s : State) (fmt : List Char) (out : List Char) : Prop where
  format : s.format = fmt
  count : s.count = out.length
  dest : Holds s.dest out

theorem holds_not_null {d : Dest} {out : List Char} (h : Holds d out) : d ≠ .null := by rintro rfl; exact h

theorem step_dir {R} {L : CLib R} (hL : L.longBits = 32 ∨ L.longBits = 64) (hbl : Spec.BlankHarmless L) (junk : Char) {ps : List Piece} (hps : NoDir ps)
    {d : Directive} (hd : d.Valid) {s : State} {out rest : List Char} (h : Inv s (Spec.text ps ++ (d.text ++ rest)) out) {a : Arg R} (ha : ArgOk a) {w : Want}
    (hw : Spec.want d.conv d.size = some w) :
    (¬ Fits L w a → (compatiblePrintf (wantKind w) a.kind true = false ∧ step L junk s a = .fail (.incompatible (wantKind w) a.kind) s) ∨
      (compatiblePrintf (wantKind w) a.kind true = true ∧ step L junk s a = .fail (.overflow (wantKind w)) s)) ∧
    (Fits L w a → litOut ps = none ∨ Hazard L d a → step L junk s a = .undef) ∧
    (Fits L w a → ∀ t, litOut ps = some t → ¬ Hazard L d a →
      ∃ s', step L junk s a = .done s' ∧ Inv s' rest (out ++ (t ++ dirText L d a)) ∧ SameKind s.dest s'.dest) := by
  have hfmt : s.format = Spec.text ps ++ (d.text ++ rest) := h.format
  have hscan := scan_dir hps hd rest
  rw [letterKind_eq hw] at hscan
  have hkv : wantKind w ≠ .void := by
    rcases want_cases hw with ⟨_, rfl⟩ | ⟨_, rfl⟩ | ⟨_, h⟩ | ⟨_, _, rfl⟩ | ⟨_, _, rfl⟩ | ⟨_, rfl⟩
    · cases d.size <;> decide
    · cases d.size <;> decide
    · rcases h with ⟨_, rfl⟩ | ⟨_, rfl⟩ <;> decide
    · decide
    · decide
    · decide
  have hck := checks_iff (L := L) hw ha
  have hstep : step L junk s a =
      if !compatiblePrintf (wantKind w) a.kind true then .fail (.incompatible (wantKind w) a.kind) s
      else if wantKind w ≠ .void ∧ convOverflow L (wantKind w) a.kind a.val = true then .fail (.overflow (wantKind w)) s
      else
        match callText L junk s.format
          ⟨(Spec.text ps).length + d.text.length, some ((Spec.text ps).length + d.text.length - 1), wantKind w, d.size⟩ a with
        | none => .undef
        | some none => .fail .illegalType s
        | some (some text) =>
          match output s.dest s.count text with
          | none => .undef
          | some dest => .done ⟨s.format.drop ((Spec.text ps).length + d.text.length), s.count + text.length, dest⟩ := by
    unfold step
    rw [if_neg (holds_not_null h.dest), hfmt, hscan]
    rfl
  refine ⟨?_, ?_, ?_⟩
  · intro hn
    rw [hstep]
    by_cases hc : compatiblePrintf (wantKind w) a.kind true = true
    · rw [hc, if_neg (by simp)]
      have ho : convOverflow L (wantKind w) a.kind a.val = true := by
        cases ho : convOverflow L (wantKind w) a.kind a.val with
        | true => rfl
        | false => exact absurd (hck.mp ⟨hc, ho⟩) hn
      rw [if_pos ⟨hkv, ho⟩]
      exact .inr ⟨rfl, rfl⟩
    · rw [if_pos (by simpa using hc)]
      exact .inl ⟨by simpa using hc, rfl⟩
  · intro hf hh
    obtain ⟨h1, h2⟩ := hck.mpr hf
    rw [hstep, h1, h2, if_neg (by simp), if_neg (by simp), hfmt, (callText_dir hL hbl junk hps hd _ ha hw hf).1 hh]
  · intro hf t ht hh
    obtain ⟨h1, h2⟩ := hck.mpr hf
    obtain ⟨dest', e1, e2, e3⟩ := output_holds h.dest (t ++ dirText L d a)
    rw [hstep, h1, h2, if_neg (by simp), if_neg (by simp), hfmt, (callText_dir hL hbl junk hps hd _ ha hw hf).2 t ht hh]
    dsimp only
    rw [h.count, e1]
    refine ⟨_, rfl, ⟨?_, ?_, e2⟩, e3⟩
    · dsimp only
      rw [← List.append_assoc, ← List.length_append, List.drop_left]
    · dsimp only; rw [List.length_append (as := out)]

theorem step_noDir {R} {L : CLib R} (junk : Char) {ps : List Piece} (hps : NoDir ps) {s : State} {out : List Char} (h : Inv s (Spec.text ps) out) :
    (∀ a : Arg R, ArgOk a → step L junk s a = .fail (.incompatible .void a.kind) s) ∧
    (litOut ps = none → step L junk s voidArg = .undef) ∧
    (∀ t, litOut ps = some t → ∃ s', step L junk s voidArg = .done s' ∧ Inv s' [] (out ++ t) ∧ SameKind s.dest s'.dest) := by
  obtain ⟨pos, sz, hscan⟩ := scan_noDir hps
  refine ⟨?_, ?_, ?_⟩
  · intro a ha
    unfold step
    rw [if_neg (holds_not_null h.dest), h.format, hscan]
    dsimp only
    have hc : compatiblePrintf .void a.kind true = false := by
      have h1 := ha.2.1
      revert h1
      cases a.kind <;> simp [compatiblePrintf, Kind.isInt, Kind.isReal]
    rw [hc, if_pos (by rfl)]
  · intro hl
    unfold step
    rw [if_neg (holds_not_null h.dest), h.format, hscan]
    dsimp only
    rw [callText_void L junk hps, hl]
    rfl
  · intro t ht
    obtain ⟨dest', e1, e2, e3⟩ := output_holds h.dest t
    unfold step
    rw [if_neg (holds_not_null h.dest), h.format, hscan]
    dsimp only
    rw [callText_void L junk hps, ht, h.count]
    dsimp only [Option.map_some]
    rw [e1]
    refine ⟨⟨_, _, _⟩, rfl, ⟨?_, ?_, e2⟩, e3⟩
    · dsimp only; rw [List.drop_length]
    · dsimp only; rw [List.length_append]

theorem step_dir_void {R} {L : CLib R} (junk : Char) {ps : List Piece} (hps : NoDir ps)
    {d : Directive} (hd : d.Valid) {s : State} {out rest : List Char} (h : Inv s (Spec.text ps ++ (d.text ++ rest)) out) :
    ∃ k, step (R := R) L junk s voidArg = .fail (.incompatible k .void) s := by
  obtain ⟨w, hw⟩ := Option.isSome_iff_exists.mp hd.2
  have hfmt : s.format = Spec.text ps ++ (d.text ++ rest) := h.format
  have hscan := scan_dir hps hd rest
  rw [letterKind_eq hw] at hscan
  unfold step
  rw [if_neg (holds_not_null h.dest), hfmt, hscan]
  dsimp only [Option.map_some]
  have hc : compatiblePrintf (wantKind w) (voidArg (R := R)).kind true = false := compat_void hw
  rw [hc, if_pos (by rfl)]
  exact ⟨_, rfl⟩

/-! ## Pieces -/

theorem split_pieces : ∀ {ps : List Piece}, (∀ p ∈ ps, p.Valid) →
    NoDir ps ∨ ∃ (ls : List Piece) (d : Directive) (qs : List Piece), ps = ls ++ .dir d :: qs ∧ NoDir ls ∧ d.Valid ∧ ∀ p ∈ qs, p.Valid := by
  intro ps
  induction ps with
  | nil => intro _; exact .inl fun p hp => by cases hp
  | cons p ps ih =>
    intro h
    have hp := h p List.mem_cons_self
    have hr : ∀ q ∈ ps, q.Valid := fun q hq => h q (List.mem_cons_of_mem _ hq)
    have cons : (∀ d, p ≠ .dir d) → (NoDir (p :: ps) ∨ ∃ (ls : List Piece) (d : Directive) (qs : List Piece),
        p :: ps = ls ++ .dir d :: qs ∧ NoDir ls ∧ d.Valid ∧ ∀ p ∈ qs, p.Valid) := by
      intro hnd
      have add : ∀ {ls}, NoDir ls → NoDir (p :: ls) := by
        intro ls hls q hq
        rcases List.mem_cons.mp hq with rfl | hq
        · exact ⟨hp, hnd⟩
        · exact hls q hq
      rcases ih hr with h1 | ⟨ls, d, qs, rfl, h1, h2, h3⟩
      · exact .inl (add h1)
      · exact .inr ⟨p :: ls, d, qs, rfl, add h1, h2, h3⟩
    cases p with
    | lit c => exact cons fun d hd => by cases hd
    | percent d => exact cons fun d hd => by cases hd
    | dir d => exact .inr ⟨[], d, ps, rfl, fun q hq => (by cases hq), hp, hr⟩

theorem dirs_noDir {ps : List Piece} (h : NoDir ps) : dirs ps = [] := by
  induction ps with
  | nil => rfl
  | cons p ps ih =>
    have ih := ih fun q hq => h q (List.mem_cons_of_mem _ hq)
    cases p with
    | lit c => exact ih
    | percent d => exact ih
    | dir d => exact absurd rfl ((h _ List.mem_cons_self).2 d)

theorem dirs_append {ps : List Piece} (h : NoDir ps) (d : Directive) (qs : List Piece) : dirs (ps ++ .dir d :: qs) = d :: dirs qs := by
  induction ps with
  | nil => rfl
  | cons p ps ih =>
    have ih := ih fun q hq => h q (List.mem_cons_of_mem _ hq)
    cases p with
    | lit c => exact ih
    | percent d => exact ih
    | dir d => exact absurd rfl ((h _ List.mem_cons_self).2 d)

theorem litOut_iff {ps : List Piece} (h : NoDir ps) : PlainPercents ps ↔ ∃ t, litOut ps = some t := by
  induction ps with
  | nil => exact ⟨fun _ => ⟨[], rfl⟩, fun _ d hd => by cases hd⟩
  | cons p ps ih =>
    have ih := ih fun q hq => h q (List.mem_cons_of_mem _ hq)
    cases p with
    | dir d => exact absurd rfl ((h _ List.mem_cons_self).2 d)
    | lit c =>
      rw [litOut]
      have : PlainPercents (.lit c :: ps) ↔ PlainPercents ps := by simp [PlainPercents]
      rw [this, ih]
      cases litOut ps <;> simp
    | percent d =>
      rw [litOut]
      have : PlainPercents (.percent d :: ps) ↔ d = Spec.plainPercent ∧ PlainPercents ps := by
        simp only [PlainPercents, List.mem_cons, Piece.percent.injEq]
        constructor
        · intro h; exact ⟨h d (.inl rfl), fun e he => h e (.inr he)⟩
        · rintro ⟨h1, h2⟩ e (rfl | he)
          · exact h1
          · exact h2 e he
      rw [this, ih]
      by_cases hd : d = Spec.plainPercent
      · rw [if_pos hd]; cases litOut ps <;> simp [hd]
      · rw [if_neg hd]; simp [hd]

theorem plain_append {ps qs : List Piece} {d : Directive} : PlainPercents (ps ++ .dir d :: qs) ↔ PlainPercents ps ∧ PlainPercents qs := by
  simp only [PlainPercents, List.mem_append, List.mem_cons, reduceCtorEq, false_or]
  constructor
  · intro h; exact ⟨fun e he => h e (.inl he), fun e he => h e (.inr he)⟩
  · rintro ⟨h1, h2⟩ e (he | he)
    · exact h1 e he
    · exact h2 e he

theorem outText_lits {R} (L : CLib R) {ps : List Piece} (h : NoDir ps) {t : List Char} (ht : litOut ps = some t) (as : List (Arg R))
    (qs : List Piece) : outText L (ps ++ qs) as = t ++ outText L qs as := by
  induction ps generalizing t with
  | nil => cases ht; rfl
  | cons p ps ih =>
    have ih := @ih fun q hq => h q (List.mem_cons_of_mem _ hq)
    cases p with
    | dir d => exact absurd rfl ((h _ List.mem_cons_self).2 d)
    | lit c =>
      rw [litOut] at ht
      cases hl : litOut ps with
      | none => rw [hl] at ht; cases ht
      | some u =>
        rw [hl] at ht; cases ht
        rw [List.cons_append, outText, ih hl]; rfl
    | percent d =>
      rw [litOut] at ht
      by_cases hd : d = Spec.plainPercent
      · rw [if_pos hd] at ht
        cases hl : litOut ps with
        | none => rw [hl] at ht; cases ht
        | some u =>
          rw [hl] at ht; cases ht
          rw [List.cons_append, outText, ih hl]; rfl
      · rw [if_neg hd] at ht; cases ht

theorem text_dir (ls : List Piece) (d : Directive) (qs : List Piece) :
    Spec.text (ls ++ .dir d :: qs) = Spec.text ls ++ (d.text ++ Spec.text qs) := by
  rw [text_append, text_cons]; rfl

/-! ## All the calls -/

structure Result (s : State) (o : Outcome) (good : Prop) (calm : Prop) (out : List Char) : Prop where
  ok : good → ∃ s', o = .done s' ∧ Inv s' [] out ∧ SameKind s.dest s'.dest
  only : (∃ s', o = .done s') → good
  undef : o = .undef → ¬ calm

theorem sameKind_trans {a b c : Dest} (h1 : SameKind a b) (h2 : SameKind b c) : SameKind a c := by
  cases a <;> cases b <;> cases c <;> simp_all [SameKind]

theorem run_result {R} {L : CLib R} (hL : L.longBits = 32 ∨ L.longBits = 64) (hbl : Spec.BlankHarmless L) (junk : Char) : ∀ (as : List (Arg R)) (ps : List Piece)
    (s : State) (out : List Char), (∀ p ∈ ps, p.Valid) → (∀ a ∈ as, ArgOk a) → Inv s (Spec.text ps) out →
    Result s (runArgs L junk as s) (Matches L (dirs ps) as ∧ NoHazard L (dirs ps) as ∧ PlainPercents ps)
      (NoHazard L (dirs ps) as ∧ PlainPercents ps) (out ++ outText L ps as) := by
  intro as
  induction as with
  | nil =>
    intro ps s out hps has hinv
    rw [runArgs]
    rcases split_pieces hps with hnd | ⟨ls, d, qs, rfl, hls, hd, hqs⟩
    · obtain ⟨_, h2, h3⟩ := step_noDir (R := R) (L := L) junk hnd hinv
      have hlit := litOut_iff hnd
      rw [dirs_noDir hnd]
      cases hl : litOut ps with
      | none =>
        have hnp : ¬ PlainPercents ps := by rw [hlit, hl]; simp
        rw [h2 hl]
        exact ⟨fun h => absurd h.2.2 hnp, (fun ⟨s', h⟩ => by cases h), fun _ h => hnp h.2⟩
      | some t =>
        obtain ⟨s', e1, e2, e3⟩ := h3 t hl
        have ho := outText_lits L hnd hl ([] : List (Arg R)) []
        rw [List.append_nil] at ho
        rw [e1]
        refine ⟨fun _ => ⟨s', rfl, ?_, e3⟩, fun _ => ⟨trivial, trivial, hlit.mpr ⟨t, hl⟩⟩, fun h => by cases h⟩
        rw [ho]
        simpa [outText] using e2
    · rw [text_dir] at hinv
      obtain ⟨e, he⟩ := step_dir_void (R := R) (L := L) junk hls hd hinv
      rw [he, dirs_append hls]
      exact ⟨fun h => absurd h.1 id, (fun ⟨s', h⟩ => by cases h), fun h => by cases h⟩
  | cons a as ih =>
    intro ps s out hps has hinv
    have ha := has a List.mem_cons_self
    have has' : ∀ b ∈ as, ArgOk b := fun b hb => has b (List.mem_cons_of_mem _ hb)
    rw [runArgs]
    rcases split_pieces hps with hnd | ⟨ls, d, qs, rfl, hls, hd, hqs⟩
    · obtain ⟨h1, _, _⟩ := step_noDir (R := R) (L := L) junk hnd hinv
      rw [h1 a ha, dirs_noDir hnd]
      exact ⟨fun h => absurd h.1 id, (fun ⟨s', h⟩ => by cases h), fun h => by cases h⟩
    · obtain ⟨w, hw⟩ := Option.isSome_iff_exists.mp hd.2
      rw [text_dir] at hinv
      obtain ⟨h1, h2, h3⟩ := step_dir hL hbl junk hls hd hinv ha hw
      rw [dirs_append hls, plain_append]
      have hM : Matches L (d :: dirs qs) (a :: as) ↔ Fits L w a ∧ Matches L (dirs qs) as := by
        rw [Matches, hw]
        simp only [Option.some.injEq, exists_eq_left']
      rw [hM]
      have hH : NoHazard L (d :: dirs qs) (a :: as) ↔ ¬ Hazard L d a ∧ NoHazard L (dirs qs) as := Iff.rfl
      rw [hH]
      by_cases hf : Fits L w a
      · by_cases hh : litOut ls = none ∨ Hazard L d a
        · rw [h2 hf hh]
          have hno : ¬ (¬ Hazard L d a ∧ PlainPercents ls) := by
            rintro ⟨h4, h5⟩
            rcases hh with h | h
            · obtain ⟨t, ht⟩ := (litOut_iff hls).mp h5
              rw [h] at ht; cases ht
            · exact h4 h
          exact ⟨fun h => absurd ⟨h.2.1.1, h.2.2.1⟩ hno, (fun ⟨s', h⟩ => by cases h), fun _ h => hno ⟨h.1.1, h.2.1⟩⟩
        · rw [not_or] at hh
          obtain ⟨t, ht⟩ := Option.ne_none_iff_exists'.mp hh.1
          obtain ⟨s', e1, e2, e3⟩ := h3 hf t ht hh.2
          rw [e1]
          have hr := ih qs s' _ hqs has' e2
          have hpl := (litOut_iff hls).mpr ⟨t, ht⟩
          have hout : out ++ (t ++ dirText L d a) ++ outText L qs as = out ++ outText L (ls ++ .dir d :: qs) (a :: as) := by
            rw [outText_lits L hls ht, outText]; simp [List.append_assoc]
          rw [hout] at hr
          refine ⟨fun h => ?_, fun h => ?_, fun h => ?_⟩
          · obtain ⟨s'', f1, f2, f3⟩ := hr.ok ⟨h.1.2, h.2.1.2, h.2.2.2⟩
            exact ⟨s'', f1, f2, sameKind_trans e3 f3⟩
          · have := hr.only h
            exact ⟨⟨hf, this.1⟩, ⟨hh.2, this.2.1⟩, hpl, this.2.2⟩
          · intro hc
            exact hr.undef h ⟨hc.1.2, hc.2.2⟩
      · rcases h1 hf with ⟨_, he⟩ | ⟨_, he⟩ <;> rw [he] <;>
        exact ⟨fun h => absurd h.1.1 hf, (fun ⟨s', h⟩ => by cases h), fun h => by cases h⟩

/-- A format that is not made of pieces is never accepted. -/
theorem run_parses {R} {L : CLib R} (junk : Char) : ∀ (as : List (Arg R)) (s s' : State), (∀ a ∈ as, ArgOk a) →
    runArgs L junk as s = .done s' → ∃ ps, (∀ p ∈ ps, p.Valid) ∧ s.format = Spec.text ps := by
  have stepDone : ∀ {s s' : State} {a : Arg R}, step L junk s a = .done s' → ∃ sc, scan s.format = some sc ∧
      s'.format = s.format.drop sc.formatLen ∧ compatiblePrintf sc.kind a.kind true = true := by
    intro s s' a h
    unfold step at h
    by_cases hd : s.dest = .null
    · rw [if_pos hd] at h; cases h
    rw [if_neg hd] at h
    cases hsc : scan s.format with
    | none => rw [hsc] at h; cases h
    | some sc =>
      rw [hsc] at h
      dsimp only at h
      by_cases hc : (!compatiblePrintf sc.kind a.kind true) = true
      · rw [if_pos hc] at h; cases h
      rw [if_neg hc] at h
      by_cases ho : sc.kind ≠ .void ∧ convOverflow L sc.kind a.kind a.val = true
      · rw [if_pos ho] at h; cases h
      rw [if_neg ho] at h
      refine ⟨sc, rfl, ?_, by simpa using hc⟩
      cases hct : callText L junk s.format sc a with
      | none => rw [hct] at h; cases h
      | some x =>
        rw [hct] at h
        cases x with
        | none => cases h
        | some text =>
          dsimp only at h
          cases hout : output s.dest s.count text with
          | none => rw [hout] at h; cases h
          | some dest => rw [hout] at h; cases h; rfl
  intro as
  induction as with
  | nil =>
    intro s s' _ h
    rw [runArgs] at h
    obtain ⟨sc, h1, _, h3⟩ := stepDone h
    obtain ⟨ps, hps, hor⟩ := scan_sound h1
    rcases hor with h4 | ⟨d, rest, hd, h4⟩
    · exact ⟨ps, fun p hp => (hps p hp).1, h4⟩
    · rw [h4, scan_dir hps hd] at h1
      obtain ⟨w, hw⟩ := Option.isSome_iff_exists.mp hd.2
      rw [letterKind_eq hw] at h1
      cases h1
      exfalso
      have h5 : compatiblePrintf (wantKind w) .void true = true := h3
      rw [compat_void hw] at h5
      cases h5
  | cons a as ih =>
    intro s s' has h
    rw [runArgs] at h
    have ha := has a List.mem_cons_self
    cases hst : step L junk s a with
    | undef => rw [hst] at h; cases h
    | fail e s1 => rw [hst] at h; cases h
    | done s1 =>
      rw [hst] at h
      obtain ⟨qs, hq1, hq2⟩ := ih s1 s' (fun b hb => has b (List.mem_cons_of_mem _ hb)) h
      obtain ⟨sc, h1, h2, h3⟩ := stepDone hst
      obtain ⟨ps, hps, hor⟩ := scan_sound h1
      rcases hor with h4 | ⟨d, rest, hd, h4⟩
      · rw [h4] at h1
        obtain ⟨pos, sz, h5⟩ := scan_noDir hps
        rw [h5] at h1
        cases h1
        exfalso
        have hv := ha.2.1
        revert h3 hv
        cases a.kind <;> simp [compatiblePrintf, Kind.isInt, Kind.isReal]
      · rw [h4, scan_dir hps hd] at h1
        obtain ⟨w, hw⟩ := Option.isSome_iff_exists.mp hd.2
        rw [letterKind_eq hw] at h1
        cases h1
        rw [h4] at h2
        dsimp only at h2
        rw [← List.append_assoc, ← List.length_append, List.drop_left] at h2
        refine ⟨ps ++ .dir d :: qs, ?_, ?_⟩
        · intro p hp
          rcases List.mem_append.mp hp with hp | hp
          · exact (hps p hp).1
          · rcases List.mem_cons.mp hp with rfl | hp
            · exact hd
            · exact hq1 p hp
        · rw [h4, text_append, text_cons, ← hq2, h2]; rfl

/-- Undefined behaviour of a call comes from a percent sign with something in between or from one of the hazards, in the part of the format
that was reached. -/
theorem run_undef {R} {L : CLib R} (hL : L.longBits = 32 ∨ L.longBits = 64) (hbl : Spec.BlankHarmless L) (junk : Char) : ∀ (as : List (Arg R))
    (s : State) (out : List Char), (∀ a ∈ as, ArgOk a) → Inv s s.format out → runArgs L junk as s = .undef →
    ∃ (ps : List Piece) (rest : List Char), (∀ p ∈ ps, p.Valid) ∧ s.format = Spec.text ps ++ rest ∧
      ¬ (NoHazard L (dirs ps) as ∧ PlainPercents ps) := by
  have noScan : ∀ {s : State} {out : List Char} {a : Arg R}, Inv s s.format out → scan s.format = none → step L junk s a ≠ .undef := by
    intro s out a h hs
    unfold step
    rw [if_neg (holds_not_null h.dest), hs]
    simp
  intro as
  induction as with
  | nil =>
    intro s out _ hinv h
    rw [runArgs] at h
    cases hsc : scan s.format with
    | none => exact absurd h (noScan hinv hsc)
    | some sc =>
      obtain ⟨ps, hps, hor⟩ := scan_sound hsc
      rcases hor with h4 | ⟨d, rest, hd, h4⟩
      · rw [h4] at hinv
        obtain ⟨_, _, h3⟩ := step_noDir (R := R) (L := L) junk hps hinv
        refine ⟨ps, [], fun p hp => (hps p hp).1, by rw [List.append_nil]; exact h4, fun hc => ?_⟩
        obtain ⟨t, ht⟩ := (litOut_iff hps).mp hc.2
        obtain ⟨s', e, _⟩ := h3 t ht
        rw [e] at h; cases h
      · rw [h4] at hinv
        obtain ⟨k, hk⟩ := step_dir_void (R := R) (L := L) junk hps hd hinv
        rw [hk] at h; cases h
  | cons a as ih =>
    intro s out has hinv h
    rw [runArgs] at h
    have ha := has a List.mem_cons_self
    cases hsc : scan s.format with
    | none =>
      have := noScan (a := a) hinv hsc
      cases hst : step L junk s a with
      | undef => exact absurd hst this
      | fail e s1 => rw [hst] at h; cases h
      | done s1 =>
        unfold step at hst
        rw [if_neg (holds_not_null hinv.dest), hsc] at hst
        cases hst
    | some sc =>
      obtain ⟨ps, hps, hor⟩ := scan_sound hsc
      rcases hor with h4 | ⟨d, rest, hd, h4⟩
      · rw [h4] at hinv
        obtain ⟨h1, _, _⟩ := step_noDir (R := R) (L := L) junk hps hinv
        rw [h1 a ha] at h; cases h
      · rw [h4] at hinv
        obtain ⟨w, hw⟩ := Option.isSome_iff_exists.mp hd.2
        obtain ⟨h1, h2, h3⟩ := step_dir hL hbl junk hps hd hinv ha hw
        have hval : ∀ p ∈ ps ++ [Piece.dir d], p.Valid := by
          intro p hp
          rcases List.mem_append.mp hp with hp | hp
          · exact (hps p hp).1
          · rw [List.mem_singleton] at hp; subst hp; exact hd
        by_cases hf : Fits L w a
        · by_cases hh : litOut ps = none ∨ Hazard L d a
          · refine ⟨ps ++ [.dir d], rest, hval, ?_, ?_⟩
            · rw [text_dir, h4]; simp [Spec.text, List.append_assoc]
            · rw [dirs_append hps, plain_append]
              rintro ⟨hz, hpl, _⟩
              rcases hh with h5 | h5
              · obtain ⟨t, ht⟩ := (litOut_iff hps).mp hpl
                rw [h5] at ht; cases ht
              · exact hz.1 h5
          · rw [not_or] at hh
            obtain ⟨t, ht⟩ := Option.ne_none_iff_exists'.mp hh.1
            obtain ⟨s', e1, e2, _⟩ := h3 hf t ht hh.2
            rw [e1] at h
            have e2' : Inv s' s'.format (out ++ (t ++ dirText L d a)) := ⟨rfl, e2.count, e2.dest⟩
            obtain ⟨qs, rest', hq1, hq2, hq3⟩ := ih s' _ (fun b hb => has b (List.mem_cons_of_mem _ hb)) e2' h
            refine ⟨ps ++ .dir d :: qs, rest', ?_, ?_, ?_⟩
            · intro p hp
              rcases List.mem_append.mp hp with hp | hp
              · exact (hps p hp).1
              · rcases List.mem_cons.mp hp with rfl | hp
                · exact hd
                · exact hq1 p hp
            · rw [text_dir, h4, ← e2.format, hq2]; simp [List.append_assoc]
            · rw [dirs_append hps, plain_append]
              rintro ⟨hz, _, hpl⟩
              exact hq3 ⟨hz.2, hpl⟩
        · rcases h1 hf with ⟨_, he⟩ | ⟨_, he⟩ <;> rw [he] at h <;> cases h

/-- The compile-time check of a literal format and the run-time checks. -/
theorem run_literal {R} {L : CLib R} (hL : L.longBits = 32 ∨ L.longBits = 64) (hbl : Spec.BlankHarmless L) (junk : Char) : ∀ (as : List (Arg R))
    (s : State) (out : List Char), (∀ a ∈ as, ArgOk a) → Inv s s.format out →
    (checkLiteral s.format (as.map (·.kind)) = true → ∀ e s', runArgs L junk as s = .fail e s' → ∃ k, e = .overflow k) ∧
    (checkLiteral s.format (as.map (·.kind)) = false → ∀ s', runArgs L junk as s ≠ .done s') := by
  intro as
  induction as with
  | nil =>
    intro s out _ hinv
    rw [List.map_nil, checkLiteral, runArgs]
    cases hsc : scan s.format with
    | none =>
      refine ⟨fun h => (by cases h), fun _ s' h => ?_⟩
      unfold step at h
      rw [if_neg (holds_not_null hinv.dest), hsc] at h
      cases h
    | some sc =>
      obtain ⟨ps, hps, hor⟩ := scan_sound hsc
      rcases hor with h4 | ⟨d, rest, hd, h4⟩
      · rw [h4] at hsc hinv
        obtain ⟨pos, sz, h5⟩ := scan_noDir hps
        rw [h5] at hsc; cases hsc
        obtain ⟨_, h2, h3⟩ := step_noDir (R := R) (L := L) junk hps hinv
        refine ⟨fun _ e s' h => ?_, fun h => absurd (show (true : Bool) = false from h) (by decide)⟩
        cases hl : litOut ps with
        | none => rw [h2 hl] at h; cases h
        | some t => obtain ⟨s', e1, _⟩ := h3 t hl; rw [e1] at h; cases h
      · rw [h4] at hsc hinv
        obtain ⟨w, hw⟩ := Option.isSome_iff_exists.mp hd.2
        rw [scan_dir hps hd, letterKind_eq hw] at hsc; cases hsc
        obtain ⟨k, hk⟩ := step_dir_void (R := R) (L := L) junk hps hd hinv
        dsimp only
        rw [compat_void hw, hk]
        exact ⟨fun h => (by cases h), fun _ s' h => (by cases h)⟩
  | cons a as ih =>
    intro s out has hinv
    have ha := has a List.mem_cons_self
    rw [List.map_cons, checkLiteral, runArgs]
    cases hsc : scan s.format with
    | none =>
      refine ⟨fun h => (by cases h), fun _ s' h => ?_⟩
      have : step L junk s a = .fail .invalidFormat s := by
        unfold step
        rw [if_neg (holds_not_null hinv.dest), hsc]
      rw [this] at h; cases h
    | some sc =>
      have hav : ∀ k, compatiblePrintf k a.kind false = compatiblePrintf k a.kind true := by
        intro k
        unfold compatiblePrintf
        have : (a.kind == Kind.void) = false := by simp [ha.2.1]
        rw [this]; rfl
      dsimp only
      rw [hav]
      obtain ⟨ps, hps, hor⟩ := scan_sound hsc
      rcases hor with h4 | ⟨d, rest, hd, h4⟩
      · rw [h4] at hsc hinv
        obtain ⟨pos, sz, h5⟩ := scan_noDir hps
        rw [h5] at hsc; cases hsc
        obtain ⟨h1, _, _⟩ := step_noDir (R := R) (L := L) junk hps hinv
        rw [h1 a ha]
        have hc : compatiblePrintf .void a.kind true = false := by
          have h1 := ha.2.1
          revert h1
          cases a.kind <;> simp [compatiblePrintf, Kind.isInt, Kind.isReal]
        dsimp only
        rw [hc]
        exact ⟨fun h => (by cases h), fun _ s' h => (by cases h)⟩
      · rw [h4] at hsc hinv
        obtain ⟨w, hw⟩ := Option.isSome_iff_exists.mp hd.2
        rw [scan_dir hps hd, letterKind_eq hw] at hsc; cases hsc
        obtain ⟨h1, h2, h3⟩ := step_dir hL hbl junk hps hd hinv ha hw
        dsimp only
        by_cases hf : Fits L w a
        · have hc := ((checks_iff (L := L) hw ha).mpr hf).1
          rw [hc, Bool.true_and]
          by_cases hh : litOut ps = none ∨ Hazard L d a
          · rw [h2 hf hh]
            exact ⟨fun _ e s' h => (by cases h), fun _ s' h => (by cases h)⟩
          · rw [not_or] at hh
            obtain ⟨t, ht⟩ := Option.ne_none_iff_exists'.mp hh.1
            obtain ⟨s', e1, e2, _⟩ := h3 hf t ht hh.2
            rw [e1]
            have e2' : Inv s' s'.format (out ++ (t ++ dirText L d a)) := ⟨rfl, e2.count, e2.dest⟩
            have := ih s' _ (fun b hb => has b (List.mem_cons_of_mem _ hb)) e2'
            have hdrop : s.format.drop ((Spec.text ps).length + d.text.length) = s'.format := by
              rw [h4, ← List.append_assoc, ← List.length_append, List.drop_left]; exact e2.format.symm
            rw [hdrop]
            exact this
        · rcases h1 hf with ⟨hc, he⟩ | ⟨hc, he⟩ <;> rw [he, hc]
          · exact ⟨fun h => (by cases h), fun _ s' h => (by cases h)⟩
          · exact ⟨fun _ e s' h => (by cases h; exact ⟨_, rfl⟩), fun _ s' h => (by cases h)⟩

end Umka.Printf
