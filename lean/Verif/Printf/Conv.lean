import Verif.Printf.Scan
import Verif.Printf.Repr

/-! # Printf: one conversion -/

namespace Umka.Printf

open Spec (Directive Piece Want sizeText precText flagChars digitChars ArgOk Fits InBits intValue kindBits)

/-! ## The C function on pieces -/

/-- What literal pieces print; `none` if a percent sign is not written `%%`. -/
def litOut : List Piece → Option (List Char)
  | [] => some []
  | .lit c :: ps => (litOut ps).map (c :: ·)
  | .percent d :: ps => if d = Spec.plainPercent then (litOut ps).map ('%' :: ·) else none
  | .dir _ :: _ => none

theorem cPrintf_nil {R} (L : CLib R) {f : Nat} (h : 0 < f) (arg : Option (CArg R)) : cPrintf L f [] arg = some [] := by
  obtain ⟨f, rfl⟩ : ∃ g, f = g + 1 := ⟨f - 1, by omega⟩
  rw [cPrintf]

/-- The C function at a specification. -/
theorem cPrintf_spec {R} (L : CLib R) {d : Directive} (f : Nat) {s : List Char} (hp : Parsed (body d s) d s)
    (hc : d.conv ≠ 'h') (hc' : d.conv ≠ 'l') (arg : Option (CArg R)) :
    cPrintf L (f + 1) (d.text ++ s) arg =
      if d.conv = '%' then
        if d.flags = [] ∧ d.width = [] ∧ d.prec = none ∧ d.size = .normal then (cPrintf L f s arg).map ('%' :: ·) else none
      else match arg with
        | none => none
        | some a =>
          match cConv L d.flags d.width d.prec d.size d.conv a with
          | none => none
          | some text => (cPrintf L f s none).map (text ++ ·) := by
  rw [dtext, cPrintf.eq_def]
  dsimp only
  rw [if_neg (by simp)]
  simp only [hp.flags, hp.width]
  have e1 := hp.prec
  have e2 := hp.rest
  have e3 : cLength (sizeText d.size ++ d.conv :: s) = (d.size, d.conv :: s) := by
    have h1 := hc
    have h2 := hc'
    cases d.size <;> simp only [sizeText, List.nil_append, List.cons_append]
    · rfl
    · unfold cLength; split
      · next e => simp only [List.cons.injEq] at e; exact absurd e.2.1 h1
      · next e => simp only [List.cons.injEq] at e; obtain ⟨_, rfl⟩ := e; rfl
      · next e => simp at e
      · next e => simp at e
      · next a1 a2 a3 a4 => first | exact absurd rfl (a2 _) | exact absurd rfl (a4 _)
    · unfold cLength; split
      · next e => simp only [List.cons.injEq] at e; exact absurd e.1 h1
      · next e => simp only [List.cons.injEq] at e; exact absurd e.1 h1
      · next e => simp only [List.cons.injEq] at e; exact absurd e.1 h2
      · next e => simp only [List.cons.injEq] at e; exact absurd e.1 h2
      · rfl
    · unfold cLength; split
      · next e => simp at e
      · next e => simp at e
      · next e => simp only [List.cons.injEq] at e; exact absurd e.2.1 h2
      · next e => simp only [List.cons.injEq] at e; obtain ⟨_, rfl⟩ := e; rfl
      · next a1 a2 a3 a4 => first | exact absurd rfl (a2 _) | exact absurd rfl (a4 _)
    · rfl
  have key : ∀ (pr : Option (List Char)) (s3 : List Char), pr = d.prec → s3 = sizeText d.size ++ d.conv :: s →
      (match (cLength s3).2 with
        | [] => none
        | conv :: s5 =>
          if conv = '%' then
            if d.flags = [] ∧ d.width = [] ∧ pr = none ∧ (cLength s3).1 = .normal then (cPrintf L f s5 arg).map ('%' :: ·) else none
          else match arg with
            | none => none
            | some a =>
              match cConv L d.flags d.width pr (cLength s3).1 conv a with
              | none => none
              | some text => (cPrintf L f s5 none).map (text ++ ·)) =
      if d.conv = '%' then
        if d.flags = [] ∧ d.width = [] ∧ d.prec = none ∧ d.size = .normal then (cPrintf L f s arg).map ('%' :: ·) else none
      else match arg with
        | none => none
        | some a =>
          match cConv L d.flags d.width d.prec d.size d.conv a with
          | none => none
          | some text => (cPrintf L f s none).map (text ++ ·) := by
    intro pr s3 h1 h2
    subst h1 h2
    rw [e3]
  exact key _ _ e1 e2

theorem cPrintf_noDir {R} (L : CLib R) {ps : List Piece} (h : NoDir ps) (rest : List Char) (arg : Option (CArg R)) : ∀ f : Nat,
    (Spec.text ps ++ rest).length < f →
    ∃ f', rest.length < f' ∧
      cPrintf L f (Spec.text ps ++ rest) arg = (litOut ps).bind fun t => (cPrintf L f' rest arg).map (t ++ ·) := by
  induction ps with
  | nil =>
    intro f hf
    refine ⟨f, hf, ?_⟩
    show cPrintf L f rest arg = (cPrintf L f rest arg).map ([] ++ ·)
    cases cPrintf L f rest arg <;> rfl
  | cons p ps ih =>
    intro f hf
    have hp := h p List.mem_cons_self
    have ih := ih fun q hq => h q (List.mem_cons_of_mem _ hq)
    rw [text_cons, List.append_assoc] at hf ⊢
    obtain ⟨f, rfl⟩ : ∃ g, f = g + 1 := ⟨f - 1, by omega⟩
    cases p with
    | dir d => exact absurd rfl (hp.2 d)
    | lit c =>
      have hc : c ≠ '%' := hp.1
      simp only [Piece.text, List.cons_append, List.nil_append] at hf ⊢
      obtain ⟨f', h1, h2⟩ := ih f (by simp only [List.length_cons] at hf; omega)
      refine ⟨f', h1, ?_⟩
      rw [cPrintf.eq_def]
      dsimp only
      rw [if_pos hc, h2, litOut]
      cases litOut ps with
      | none => rfl
      | some t =>
        show Option.map _ (Option.map _ (cPrintf L f' rest arg)) = Option.map _ (cPrintf L f' rest arg)
        cases cPrintf L f' rest arg <;> rfl
    | percent d =>
      obtain ⟨hs, hc⟩ : d.Shaped ∧ d.conv = '%' := hp.1
      simp only [Piece.text] at hf ⊢
      have ht : Term d.conv := by rw [hc]; exact term_percent
      have := dtext_pos d
      obtain ⟨f', h1, h2⟩ := ih f (by rw [List.length_append] at hf; omega)
      refine ⟨f', h1, ?_⟩
      rw [cPrintf_spec L f (parsed_body hs ht _) ht.h ht.l, if_pos hc, litOut]
      have hiff : (d.flags = [] ∧ d.width = [] ∧ d.prec = none ∧ d.size = .normal) ↔ d = Spec.plainPercent := by
        constructor
        · rintro ⟨h1, h2, h3, h4⟩
          cases d; simp_all [Spec.plainPercent]
        · rintro rfl; exact ⟨rfl, rfl, rfl, rfl⟩
      by_cases hpl : d = Spec.plainPercent
      · rw [if_pos (hiff.mpr hpl), if_pos hpl, h2]
        cases litOut ps with
        | none => rfl
        | some t =>
          show Option.map _ (Option.map _ (cPrintf L f' rest arg)) = Option.map _ (cPrintf L f' rest arg)
          cases cPrintf L f' rest arg <;> rfl
      · rw [if_neg (fun h => hpl (hiff.mp h)), if_neg hpl]; rfl

/-! ## Integers -/

theorem bmod_self {v : Int} {n : Nat} (hn : 0 < n) (h1 : -(2 ^ (n - 1) : Int) ≤ v) (h2 : v < 2 ^ (n - 1)) : v.bmod (2 ^ n : Nat) = v := by
  obtain ⟨m, rfl⟩ : ∃ m, n = m + 1 := ⟨n - 1, by omega⟩
  simp only [Nat.add_sub_cancel] at h1 h2
  have e : ((2 ^ (m + 1) : Nat) : Int) = 2 * (2 ^ m : Int) := by
    rw [Nat.pow_succ]; push_cast; omega
  refine Int.bmod_eq_of_le_mul_two ?_ ?_
  · rw [e]; omega
  · rw [e]; omega

/-- The integer that is passed is the value of the argument. -/
theorem slotArg_int {R} {a : Arg R} (ha : ArgOk a) {i : Int} (hv : a.val = .int i) (hk : a.kind ∈ Spec.intKinds) :
    slotArg a.kind a.val = some (some (.int (if a.kind = .int ∨ a.kind = .uint then 64 else 32) (intValue a.kind i))) := by
  have h3 := ha.2.2.1
  rw [hv] at h3 ⊢
  simp only [Spec.intKinds, List.mem_cons, List.not_mem_nil, or_false] at hk
  rcases hk with hk | hk | hk | hk | hk | hk | hk | hk <;> rw [hk] at h3 ⊢ <;>
    obtain ⟨j, hj, h1, h2, hb⟩ := h3 _ rfl <;> cases hj <;>
    simp only [InBits, intValue, reduceCtorEq, false_and, if_false, true_and, if_true, slotArg, Option.some.injEq, CArg.int.injEq,
      or_self, or_true, true_or, Bool.false_eq_true] at hb ⊢
  · exact bmod_self (n := 8) (by decide) hb.1 hb.2
  · exact bmod_self (n := 16) (by decide) hb.1 hb.2
  · exact bmod_self (n := 32) (by decide) hb.1 hb.2
  · omega
  · omega
  · omega
  · split <;> omega

theorem slotArg_char {R} {a : Arg R} (ha : ArgOk a) (hk : a.kind = .char) :
    ∃ i, a.val = .int i ∧ 0 ≤ i ∧ i < 256 ∧ slotArg a.kind a.val = some (some (.int 32 i)) := by
  have h3 := ha.2.2.1
  rw [hk] at h3
  obtain ⟨j, hj, h1, h2, hb⟩ := h3 _ rfl
  simp only [InBits, intValue, reduceCtorEq, false_and, if_false, Bool.false_eq_true] at hb
  refine ⟨j, hj, hb.1, hb.2, ?_⟩
  rw [hk, hj, slotArg, Int.emod_eq_of_lt hb.1 (by omega)]

/-! ## The checks -/

theorem want_cases {c : Char} {sz : Size} {w : Want} (h : Spec.want c sz = some w) :
    (c ∈ ['d', 'i'] ∧ w = .int true (Spec.intBits sz)) ∨ (c ∈ ['u', 'x', 'X'] ∧ w = .int false (Spec.intBits sz)) ∨
    (c ∈ ['f', 'F', 'e', 'E', 'g', 'G'] ∧ (sz = .normal ∧ w = .real 32 ∨ sz = .long ∧ w = .real 64)) ∨
    (c = 's' ∧ sz = .normal ∧ w = .str) ∨ (c = 'c' ∧ sz = .normal ∧ w = .char) ∨ (c = 'v' ∧ w = .any) := by
  unfold Spec.want at h
  by_cases h1 : c ∈ ['d', 'i']
  · rw [if_pos h1] at h; cases h; exact .inl ⟨h1, rfl⟩
  rw [if_neg h1] at h
  by_cases h2 : c ∈ ['u', 'x', 'X']
  · rw [if_pos h2] at h; cases h; exact .inr (.inl ⟨h2, rfl⟩)
  rw [if_neg h2] at h
  by_cases h3 : c ∈ ['f', 'F', 'e', 'E', 'g', 'G']
  · rw [if_pos h3] at h
    refine .inr (.inr (.inl ⟨h3, ?_⟩))
    cases sz <;> simp at h <;> subst h
    · exact .inl ⟨rfl, rfl⟩
    · exact .inr ⟨rfl, rfl⟩
  rw [if_neg h3] at h
  by_cases h4 : c = 's'
  · rw [if_pos h4] at h
    cases sz <;> simp at h
    exact .inr (.inr (.inr (.inl ⟨h4, rfl, h.symm⟩)))
  rw [if_neg h4] at h
  by_cases h5 : c = 'c'
  · rw [if_pos h5] at h
    cases sz <;> simp at h
    exact .inr (.inr (.inr (.inr (.inl ⟨h5, rfl, h.symm⟩))))
  rw [if_neg h5] at h
  by_cases h6 : c = 'v'
  · rw [if_pos h6] at h
    cases h
    exact .inr (.inr (.inr (.inr (.inr ⟨h6, rfl⟩))))
  rw [if_neg h6] at h
  cases h

/-- The kind that the scanner reports for each wanted value. -/
def wantKind : Want → Kind
  | .int true 8 => .int8
  | .int true 16 => .int16
  | .int true 32 => .int32
  | .int true _ => .int
  | .int false 8 => .uint8
  | .int false 16 => .uint16
  | .int false 32 => .uint32
  | .int false _ => .uint
  | .real 32 => .real32
  | .real _ => .real
  | .str => .str
  | .char => .char
  | .any => .interface

theorem letterKind_eq {c : Char} {sz : Size} {w : Want} (h : Spec.want c sz = some w) : letterKind c sz = some (wantKind w) := by
  rcases want_cases h with ⟨hc, rfl⟩ | ⟨hc, rfl⟩ | ⟨hc, h⟩ | ⟨rfl, rfl, rfl⟩ | ⟨rfl, rfl, rfl⟩ | ⟨rfl, rfl⟩
  · simp only [List.mem_cons, List.not_mem_nil, or_false] at hc
    rcases hc with rfl | rfl <;> cases sz <;> rfl
  · simp only [List.mem_cons, List.not_mem_nil, or_false] at hc
    rcases hc with rfl | rfl | rfl <;> cases sz <;> rfl
  · simp only [List.mem_cons, List.not_mem_nil, or_false] at hc
    rcases h with ⟨rfl, rfl⟩ | ⟨rfl, rfl⟩ <;> rcases hc with rfl | rfl | rfl | rfl | rfl | rfl <;> rfl
  · rfl
  · rfl
  · rfl

theorem not_int_slot {R} {a : Arg R} (ha : ArgOk a) (hk : a.kind ∈ Spec.intKinds) :
    ∃ i, a.val = .int i ∧ -(2 ^ 63 : Int) ≤ i ∧ i < 2 ^ 63 ∧ (i < 0 → a.kind.isSigned = true ∨ a.kind = .uint) := by
  have h3 := ha.2.2.1
  simp only [Spec.intKinds, List.mem_cons, List.not_mem_nil, or_false] at hk
  rcases hk with hk | hk | hk | hk | hk | hk | hk | hk <;> rw [hk] at h3 ⊢ <;>
    obtain ⟨j, hj, h1, h2, hb⟩ := h3 _ rfl <;> refine ⟨j, hj, h1, h2, fun hn => ?_⟩ <;>
    simp only [InBits, intValue, reduceCtorEq, false_and, if_false, Bool.false_eq_true] at hb
  · exact .inl rfl
  · exact .inl rfl
  · exact .inl rfl
  · exact .inl rfl
  · omega
  · omega
  · omega
  · exact .inr rfl

theorem compat_str (k : Kind) (h : compatiblePrintf .str k true = true) : k = .str := by
  revert h; cases k <;> decide

theorem compat_char (k : Kind) (h : compatiblePrintf .char k true = true) : k = .char := by
  revert h; cases k <;> decide

theorem compat_real (k e : Kind) (he : e = .real32 ∨ e = .real) (h : compatiblePrintf e k true = true) : k = .real32 ∨ k = .real := by
  rcases he with rfl | rfl <;> revert h <;> cases k <;> decide

theorem compat_int (k : Kind) (b : Bool) (n : Nat) (hn : n = 8 ∨ n = 16 ∨ n = 32 ∨ n = 64)
    (h : compatiblePrintf (wantKind (.int b n)) k true = true) : k ∈ Spec.intKinds := by
  rcases hn with rfl | rfl | rfl | rfl <;> cases b <;> revert h <;> cases k <;> decide

theorem compat_int' (k : Kind) (b : Bool) (n : Nat) (hn : n = 8 ∨ n = 16 ∨ n = 32 ∨ n = 64) (h : k ∈ Spec.intKinds) :
    compatiblePrintf (wantKind (.int b n)) k true = true := by
  rcases hn with rfl | rfl | rfl | rfl <;> cases b <;> revert h <;> cases k <;> decide

theorem checks_int {R} {L : CLib R} {a : Arg R} (ha : ArgOk a) (b : Bool) (n : Nat) (hn : n = 8 ∨ n = 16 ∨ n = 32 ∨ n = 64) :
    (compatiblePrintf (wantKind (.int b n)) a.kind true = true ∧ convOverflow L (wantKind (.int b n)) a.kind a.val = false) ↔
      Fits L (.int b n) a := by
  by_cases hk : a.kind ∈ Spec.intKinds
  · obtain ⟨i, hv, hi1, hi2, hi3⟩ := not_int_slot ha hk
    have hcomp := compat_int' a.kind b n hn hk
    simp only [hcomp, true_and, Fits, hk, hv, Val.int.injEq, exists_eq_left']
    clear hcomp hk ha hv
    unfold intValue
    by_cases hu : a.kind = .uint
    · have hs : a.kind.isSigned = false := by rw [hu]; rfl
      simp only [hu, hs, true_and] at hi3 ⊢
      by_cases hneg : i < 0
      · rw [if_pos hneg]
        rcases hn with rfl | rfl | rfl | rfl <;> cases b <;>
          simp only [wantKind, convOverflow, InBits, Kind.isSigned, Bool.or_eq_false_iff, Bool.and_eq_false_iff, decide_eq_false_iff_not,
            beq_self_eq_true, Bool.true_eq_false, or_false, if_true, Bool.false_eq_true, if_false, or_true, true_iff] <;> omega
      · rw [if_neg hneg]
        rcases hn with rfl | rfl | rfl | rfl <;> cases b <;>
          simp only [wantKind, convOverflow, InBits, Kind.isSigned, Bool.or_eq_false_iff, Bool.and_eq_false_iff, decide_eq_false_iff_not,
            beq_self_eq_true, Bool.true_eq_false, or_false, if_true, Bool.false_eq_true, if_false, or_true, true_iff] <;> omega
    · have hb : (a.kind == Kind.uint) = false := by simp [hu]
      simp only [hu, false_and, if_false, or_false] at hi3 ⊢
      cases hs : a.kind.isSigned with
      | true =>
        rcases hn with rfl | rfl | rfl | rfl <;> cases b <;>
          simp only [wantKind, convOverflow, InBits, hs, hb, Bool.or_eq_false_iff, Bool.and_eq_false_iff, decide_eq_false_iff_not,
            Bool.true_eq_false, or_false, if_true, Bool.false_eq_true, if_false, or_true, true_iff, and_true] <;> omega
      | false =>
        rw [hs] at hi3
        have hi4 : ¬ i < 0 := fun h => by simpa using hi3 h
        rcases hn with rfl | rfl | rfl | rfl <;> cases b <;>
          simp only [wantKind, convOverflow, InBits, hs, hb, Bool.or_eq_false_iff, Bool.and_eq_false_iff, decide_eq_false_iff_not,
            Bool.true_eq_false, or_false, if_true, Bool.false_eq_true, if_false, or_true, true_iff, and_true] <;> omega
  · exact ⟨fun h => absurd (compat_int _ b n hn h.1) hk, fun h => absurd h.1 hk⟩

/-- The run-time checks accept exactly the arguments that fit. -/
theorem checks_iff {R} {L : CLib R} {c : Char} {sz : Size} {w : Want} (hw : Spec.want c sz = some w) {a : Arg R} (ha : ArgOk a) :
    (compatiblePrintf (wantKind w) a.kind true = true ∧ convOverflow L (wantKind w) a.kind a.val = false) ↔ Fits L w a := by
  have hbits : ∀ s : Size, Spec.intBits s = 8 ∨ Spec.intBits s = 16 ∨ Spec.intBits s = 32 ∨ Spec.intBits s = 64 := by
    intro s; cases s <;> simp [Spec.intBits]
  rcases want_cases hw with ⟨hc, rfl⟩ | ⟨hc, rfl⟩ | ⟨hc, h⟩ | ⟨rfl, rfl, rfl⟩ | ⟨rfl, rfl, rfl⟩ | ⟨rfl, rfl⟩
  · exact checks_int ha _ _ (hbits sz)
  · exact checks_int ha _ _ (hbits sz)
  · have hr : a.kind = .real32 ∨ a.kind = .real → ∃ r, a.val = .real r := ha.2.2.2.1
    have key : ∀ n, n = 32 ∨ n = 64 → ((compatiblePrintf (wantKind (.real n)) a.kind true = true ∧
        convOverflow L (wantKind (.real n)) a.kind a.val = false) ↔ Fits L (.real n) a) := by
      intro n hn
      by_cases hk : a.kind = .real32 ∨ a.kind = .real
      · obtain ⟨r, hr⟩ := hr hk
        have hcomp : compatiblePrintf (wantKind (.real n)) a.kind true = true := by
          rcases hn with rfl | rfl <;> rcases hk with hk | hk <;> rw [hk] <;> rfl
        simp only [hcomp, true_and, Fits, hk, hr, Val.real.injEq, exists_eq_left']
        rcases hn with rfl | rfl <;> simp [wantKind, convOverflow]
      · refine ⟨fun h => absurd (compat_real a.kind _ ?_ h.1) hk, fun h => absurd h.1 hk⟩
        rcases hn with rfl | rfl
        · exact .inl rfl
        · exact .inr rfl
    rcases h with ⟨_, rfl⟩ | ⟨_, rfl⟩
    · exact key 32 (.inl rfl)
    · exact key 64 (.inr rfl)
  · refine ⟨fun h => compat_str _ h.1, fun h => ?_⟩
    rw [show a.kind = .str from h]
    exact ⟨rfl, by cases a.val <;> rfl⟩
  · refine ⟨fun h => compat_char _ h.1, fun h => ?_⟩
    obtain ⟨i, hv, h3, h4, _⟩ := slotArg_char ha h
    rw [show a.kind = .char from h, hv]
    refine ⟨rfl, ?_⟩
    simp only [wantKind, convOverflow, Bool.or_eq_false_iff, decide_eq_false_iff_not]
    omega
  · simp only [wantKind, Fits, iff_true]
    refine ⟨?_, by cases a.val <;> rfl⟩
    simp [compatiblePrintf, ha.2.1]

end Umka.Printf
