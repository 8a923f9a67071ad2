import Verif.Scanf.Lemmas
import Verif.Printf.Run

/-! # Scanf: one destination, the whole call -/

namespace Umka.Scanf

open Umka.Printf (Kind Size nul scan isDigit cLength takeWhile_append_stop NoDir Term want_term scan_dir scan_noDir letterKind body dtext text_cons
  text_append headSize cLength_size isDigit_iff)
open Umka.Printf.Spec (Directive Piece Want want InBits dirs plainPercent PlainPercents sizeText)
open Umka.Arith (Mem writeBytes readBytes readSigned readUnsigned)
open Spec

/-! ## Memory -/

theorem pow_256 (n : Nat) : 256 ^ n = 2 ^ (8 * n) := by
  rw [Nat.pow_mul]

theorem read_signed {n : Nat} (hn : 0 < n) {v : Int} (h : InBits true (8 * n) v) (mem : Mem) (a : Nat) :
    readSigned (writeBytes mem a n (v % (2 ^ (8 * n) : Nat)).toNat) a n = BitVec.ofInt 64 v := by
  unfold InBits at h
  rw [if_pos rfl] at h
  unfold readSigned
  rw [Arith.read_write, pow_256]
  have hp : 0 < 2 ^ (8 * n) := Nat.pow_pos (by decide)
  have h1 : 0 ≤ v % (2 ^ (8 * n) : Nat) := Int.emod_nonneg _ (by omega)
  have h2 : v % (2 ^ (8 * n) : Nat) < (2 ^ (8 * n) : Nat) := Int.emod_lt_of_pos _ (by omega)
  rw [Nat.mod_eq_of_lt (by omega), Int.toNat_of_nonneg h1, Int.emod_bmod]
  have hh : 2 ^ (8 * n) = 2 * 2 ^ (8 * n - 1) := by
    rw [← Nat.pow_succ']
    congr 1
    omega
  congr 1
  have e : ((2 ^ (8 * n - 1) : Nat) : Int) = 2 ^ (8 * n - 1) := by rw [Int.natCast_pow]; rfl
  rw [← e] at h
  apply Int.bmod_eq_of_le <;> omega

theorem read_unsigned {n : Nat} {v : Int} (h : InBits false (8 * n) v) (mem : Mem) (a : Nat) :
    readUnsigned (writeBytes mem a n (v % (2 ^ (8 * n) : Nat)).toNat) a n = BitVec.ofInt 64 v := by
  unfold InBits at h
  rw [if_neg (by decide)] at h
  have e : ((2 ^ (8 * n) : Nat) : Int) = 2 ^ (8 * n) := by rw [Int.natCast_pow]; rfl
  rw [← e] at h
  unfold readUnsigned
  rw [Arith.read_write, pow_256, Int.emod_eq_of_lt h.1 h.2, Nat.mod_eq_of_lt (by omega)]
  rw [← BitVec.ofInt_natCast, Int.toNat_of_nonneg h.1]

theorem want_bits {conv : Char} {sz : Size} {signed : Bool} {bits : Nat} (h : want conv sz = some (.int signed bits)) :
    bits = Printf.Spec.intBits sz ∧ conv ∈ ['d', 'i', 'u', 'x', 'X'] ∧
    (signed = true ∧ (conv = 'd' ∨ conv = 'i') ∨ signed = false ∧ (conv = 'u' ∨ conv = 'x' ∨ conv = 'X')) := by
  unfold want at h
  simp only [List.mem_cons, List.not_mem_nil, or_false] at h
  by_cases h1 : conv = 'd' ∨ conv = 'i'
  · rw [if_pos h1] at h
    injection h with h
    injection h with h2 h3
    refine ⟨h3.symm, by rcases h1 with h | h <;> subst h <;> decide, .inl ⟨h2.symm, h1⟩⟩
  rw [if_neg h1] at h
  by_cases h2 : conv = 'u' ∨ conv = 'x' ∨ conv = 'X'
  · rw [if_pos h2] at h
    injection h with h
    injection h with h3 h4
    refine ⟨h4.symm, by rcases h2 with h | h | h <;> subst h <;> decide, .inr ⟨h3.symm, h2⟩⟩
  rw [if_neg h2] at h
  split at h
  · split at h
    · cases h
    · split at h <;> cases h
  · split at h
    · split at h <;> cases h
    · split at h
      · split at h <;> cases h
      · split at h <;> cases h

theorem holds_int {conv : Char} {sz : Size} {signed : Bool} {bits : Nat} (h : want conv sz = some (.int signed bits)) {kind : Kind}
    (hk : wantKind (.int signed bits) = some kind) {v : Int} (hv : InBits signed bits v) (mem : Mem) (strs : Nat → List Char) {a : Nat} (ha : a ≠ 0) :
    bits = 8 * size kind ∧ Holds (writeBytes mem a (size kind) (v % (2 ^ (8 * size kind) : Nat)).toNat) strs (kind, a) (.int v) := by
  obtain ⟨hb, _, _⟩ := want_bits h
  cases signed <;> cases sz <;> simp only [Printf.Spec.intBits] at hb <;> subst hb <;> injection hk with hk <;> subst hk <;>
    refine ⟨rfl, _, rfl, ?_⟩ <;> (unfold Arith.doDeref; rw [if_neg ha]; dsimp only)
  all_goals first
    | exact congrArg _ (read_signed (by decide) hv mem a)
    | exact congrArg _ (read_unsigned hv mem a)

/-! ## Conversions -/

theorem cConv_int {L : CLib} {d : Directive} (hs : Supported L d) {signed : Bool} {bits : Nat} (h : want d.conv d.size = some (.int signed bits))
    (inp : List Char) : cConv L (widthOf d) d.size d.conv inp = cConvInt (radix d.conv) signed (bits / 8) (widthOf d) inp := by
  obtain ⟨hb, hm, hc⟩ := want_bits h
  have hn : cIntBytes L d.size = bits / 8 := by
    rw [hb]
    have := hs.2.2.2 hm
    cases hz : d.size <;> rw [hz] at this <;> first | rfl | exact this rfl
  unfold cConv
  rw [hn]
  rcases hc with ⟨h1, hc⟩ | ⟨h1, hc⟩ <;> subst h1
  · rcases hc with hc | hc <;> rw [hc] <;> rfl
  · rcases hc with hc | hc | hc <;> rw [hc] <;> rfl

theorem want_real {conv : Char} {sz : Size} {bits : Nat} (h : want conv sz = some (.real bits)) :
    (sz = .normal ∧ bits = 32 ∨ sz = .long ∧ bits = 64) ∧
      (conv = 'f' ∨ conv = 'F' ∨ conv = 'e' ∨ conv = 'E' ∨ conv = 'g' ∨ conv = 'G') := by
  unfold want at h
  simp only [List.mem_cons, List.not_mem_nil, or_false] at h
  split at h
  · cases h
  · split at h
    · cases h
    · split at h
      · rename_i hc
        refine ⟨?_, hc⟩
        split at h
        · rename_i hz; injection h with h; injection h with h; exact .inl ⟨hz, h.symm⟩
        · split at h
          · rename_i hz; injection h with h; injection h with h; exact .inr ⟨hz, h.symm⟩
          · cases h
      · split at h
        · split at h <;> cases h
        · split at h
          · split at h <;> cases h
          · split at h <;> cases h

theorem want_char {conv : Char} {sz : Size} (h : want conv sz = some .char) : conv = 'c' ∧ sz = .normal := by
  unfold want at h
  simp only [List.mem_cons, List.not_mem_nil, or_false] at h
  split at h
  · cases h
  · split at h
    · cases h
    · split at h
      · split at h
        · cases h
        · split at h <;> cases h
      · split at h
        · split at h <;> cases h
        · split at h
          · rename_i hc
            split at h
            · rename_i hz; exact ⟨hc, hz⟩
            · cases h
          · split at h <;> cases h

theorem want_str {conv : Char} {sz : Size} (h : want conv sz = some .str) : conv = 's' ∧ sz = .normal := by
  unfold want at h
  simp only [List.mem_cons, List.not_mem_nil, or_false] at h
  split at h
  · cases h
  · split at h
    · cases h
    · split at h
      · split at h
        · cases h
        · split at h <;> cases h
      · split at h
        · rename_i hc
          split at h
          · rename_i hz; exact ⟨hc, hz⟩
          · cases h
        · split at h
          · split at h <;> cases h
          · split at h <;> cases h

/-- A scalar conversion of a text that has the right form. -/
theorem conv_reads {L : CLib} (hL : L.Ok) {file : Bool} {d : Directive} (hd : d.Valid) (hs : Supported L d) {ps : List Piece} {inp : List Char}
    {vs : List Value} {rest : List Char} (hr : Reads L file (.dir d :: ps) inp vs rest) (hb : ∀ c ∈ inp, c.toNat < 256) {w : Want} {kind : Kind}
    (hw : want d.conv d.size = some w) (hk : wantKind w = some kind) (hstr : kind ≠ .str) {a : Nat} (ha : a ≠ 0) :
    ∃ k b v vs', vs = v :: vs' ∧ k ≤ inp.length ∧ cConv L (widthOf d) d.size d.conv inp = .ok k (size kind) b ∧
      Reads L file ps (inp.drop k) vs' rest ∧ ∀ mem strs, Holds (writeBytes mem a (size kind) b) strs (kind, a) v := by
  cases hr with
  | int hw' hsp hn hv he hr =>
    rename_i signed bits sp t v text vs
    rw [hw] at hw'
    injection hw' with hw'
    subst hw'
    have hh := holds_int hw hk hv
    have hbits := (hh (fun _ => 0) (fun _ => []) ha).1
    refine ⟨sp.length + t.length, _, .int v, vs, rfl, by simp only [List.length_append]; omega, ?_, ?_, fun mem strs => (hh mem strs ha).2⟩
    · rw [cConv_int hs hw, hbits, Nat.mul_div_cancel_left _ (by decide)]
      rw [hbits] at hv
      exact convInt_ok hd.1 hsp hn hv he
    · rw [← List.append_assoc, ← List.length_append, List.drop_left]
      exact hr
  | real hw' hsp hnb hne hwd hre hr =>
    rename_i bits sp text k b vs
    rw [hw] at hw'
    injection hw' with hw'
    subst hw'
    obtain ⟨hz, hc⟩ := want_real hw
    have hlen := (hL (bits / 8) text).1
    have hlt := (hL (bits / 8) text).2 b (by rw [hre])
    rw [hre] at hlen
    dsimp only at hlen
    have hsz : size kind = bits / 8 ∧ (kind = .real32 ∨ kind = .real) := by
      rcases hz with ⟨_, hz⟩ | ⟨_, hz⟩ <;> subst hz <;> injection hk with hk <;> subst hk <;> decide
    refine ⟨sp.length + k, b, .real b, vs, rfl, by simp only [List.length_append]; omega, ?_, ?_, ?_⟩
    · have hcc : cConv L (widthOf d) d.size d.conv (sp ++ text) = cConvReal L (bits / 8) (widthOf d) (sp ++ text) := by
        unfold cConv
        rcases hz with ⟨hz, hz2⟩ | ⟨hz, hz2⟩ <;> rw [hz, hz2] <;> rcases hc with hc | hc | hc | hc | hc | hc <;> rw [hc] <;> rfl
      rw [hcc, hsz.1]
      obtain ⟨s1, s2⟩ := blank_split hsp hnb
      have hw0 : widthOf d = none := if_pos hwd
      unfold cConvReal
      dsimp only
      rw [s1, s2, if_neg hne, hw0, limit, hre]
    · rw [List.drop_append, List.drop_of_length_le (by omega), List.nil_append, Nat.add_sub_cancel_left]
      exact hr
    · intro mem strs
      refine ⟨hsz.2, ?_⟩
      show readBytes _ a (size kind) = b
      rw [Arith.read_write, hsz.1, Nat.mod_eq_of_lt hlt]
  | char hw' hr =>
    rename_i c text vs
    rw [hw] at hw'
    injection hw' with hw'
    subst hw'
    obtain ⟨hc, hz⟩ := want_char hw
    injection hk with hk
    subst hk
    have hwd : d.width = [] := hs.2.2.1 (by rw [hc]; decide)
    refine ⟨1, charsValue [c], .char c, vs, rfl, by simp, ?_, hr, ?_⟩
    · rw [hc, hz, show widthOf d = none from if_pos hwd]
      rfl
    · intro mem strs
      refine ⟨rfl, ?_⟩
      have hcb := hb c (by simp)
      unfold Arith.doDeref
      rw [if_neg ha]
      dsimp only
      unfold readUnsigned
      show Arith.Res.ok (BitVec.ofNat 64 (readBytes (writeBytes mem a 1 _) a 1)) = _
      rw [Arith.read_write]
      congr 2
      simp only [charsValue]
      omega
  | str hw' _ _ _ _ _ =>
    rw [hw] at hw'
    injection hw' with hw'
    subst hw'
    injection hk with hk
    exact absurd hk.symm hstr
  | strEnd hw' _ _ _ _ _ =>
    rw [hw] at hw'
    injection hw' with hw'
    subst hw'
    injection hk with hk
    exact absurd hk.symm hstr

theorem letter_kind {conv : Char} {sz : Size} {w : Want} {kind : Kind} (hw : want conv sz = some w) (hk : wantKind w = some kind) :
    letterKind conv sz = some kind ∧ compatibleScanf kind kind true = true ∧ kind ≠ .void := by
  have hc := (want_term (c := conv) (sz := sz) (by rw [hw]; rfl))
  have : conv = 'd' ∨ conv = 'i' ∨ conv = 'u' ∨ conv = 'x' ∨ conv = 'X' ∨ conv = 'f' ∨ conv = 'F' ∨ conv = 'e' ∨ conv = 'E' ∨ conv = 'g' ∨ conv = 'G'
      ∨ conv = 's' ∨ conv = 'c' ∨ conv = 'v' := by
    unfold want at hw
    simp only [List.mem_cons, List.not_mem_nil, or_false] at hw
    grind
  rcases this with h | h | h | h | h | h | h | h | h | h | h | h | h | h <;> subst h <;> cases sz <;>
    first
    | (cases hw; done)
    | (injection hw with hw; subst hw; first | (cases hk; done) | (injection hk with hk; subst hk; decide))

/-! ## Formats -/

theorem words_false {d : Directive} (hc : d.conv = 's') {ps : List Piece} : ∀ {P : List Piece}, NoDir P → ¬ WordsAlone false (P ++ .dir d :: ps)
  | [], _, h => by have := h.1 hc; cases this
  | .lit c :: P, hP, h => words_false hc (P := P) (fun q hq => hP q (List.mem_cons_of_mem _ hq)) (by
      rw [List.cons_append] at h
      unfold WordsAlone at h
      rwa [Bool.false_and] at h)
  | .percent _ :: P, hP, h => words_false hc (P := P) (fun q hq => hP q (List.mem_cons_of_mem _ hq)) h
  | .dir e :: P, hP, _ => (hP _ List.mem_cons_self).2 e rfl

theorem words_true {d : Directive} (hc : d.conv = 's') {ps : List Piece} : ∀ {P : List Piece}, NoDir P → WordsAlone true (P ++ .dir d :: ps) →
    ∀ p ∈ P, ∃ c, c ∈ blanks ∧ p = .lit c
  | [], _, _, p, hp => by cases hp
  | .lit c :: P, hP, h, p, hp => by
    have hP' : NoDir P := fun q hq => hP q (List.mem_cons_of_mem _ hq)
    rw [List.cons_append] at h
    unfold WordsAlone at h
    rw [Bool.true_and] at h
    cases hb : blanks.contains c with
    | false => rw [hb] at h; exact absurd h (words_false hc hP')
    | true =>
      rw [hb] at h
      rcases List.mem_cons.mp hp with rfl | hp
      · exact ⟨c, List.contains_iff_mem.mp hb, rfl⟩
      · exact words_true hc hP' h p hp
  | .percent _ :: P, hP, h, p, hp => absurd h (words_false hc (P := P) (fun q hq => hP q (List.mem_cons_of_mem _ hq)))
  | .dir e :: P, hP, _, _, _ => absurd rfl ((hP _ List.mem_cons_self).2 e)

theorem words_rest {d : Directive} {ps : List Piece} : ∀ {P : List Piece} {ok : Bool}, NoDir P → WordsAlone ok (P ++ .dir d :: ps) → WordsAlone true ps
  | [], _, _, h => h.2
  | .lit c :: P, ok, hP, h => words_rest (P := P) (ok := ok && blanks.contains c) (fun q hq => hP q (List.mem_cons_of_mem _ hq)) h
  | .percent _ :: P, _, hP, h => words_rest (P := P) (ok := false) (fun q hq => hP q (List.mem_cons_of_mem _ hq)) h
  | .dir e :: P, _, hP, _ => absurd rfl ((hP _ List.mem_cons_self).2 e)

theorem dirs_split {d : Directive} {ps : List Piece} : ∀ {P : List Piece}, NoDir P → dirs (P ++ .dir d :: ps) = d :: dirs ps
  | [], _ => rfl
  | .lit c :: P, hP => dirs_split (P := P) fun q hq => hP q (List.mem_cons_of_mem _ hq)
  | .percent _ :: P, hP => dirs_split (P := P) fun q hq => hP q (List.mem_cons_of_mem _ hq)
  | .dir e :: P, hP => absurd rfl ((hP _ List.mem_cons_self).2 e)

theorem dirs_noDir : ∀ {P : List Piece}, NoDir P → dirs P = []
  | [], _ => rfl
  | .lit c :: P, hP => dirs_noDir (P := P) fun q hq => hP q (List.mem_cons_of_mem _ hq)
  | .percent _ :: P, hP => dirs_noDir (P := P) fun q hq => hP q (List.mem_cons_of_mem _ hq)
  | .dir e :: P, hP => absurd rfl ((hP _ List.mem_cons_self).2 e)

theorem mem_dirs {d : Directive} : ∀ {ps : List Piece}, d ∈ dirs ps ↔ .dir d ∈ ps
  | [] => by simp [dirs]
  | .lit c :: P => by simp only [dirs, List.mem_cons, mem_dirs (ps := P), reduceCtorEq, false_or]
  | .percent _ :: P => by simp only [dirs, List.mem_cons, mem_dirs (ps := P), reduceCtorEq, false_or]
  | .dir e :: P => by simp only [dirs, List.mem_cons, mem_dirs (ps := P), Piece.dir.injEq]

theorem reads_blanks {L : CLib} {file : Bool} {ps : List Piece} {vs : List Value} {rest : List Char} : ∀ {P : List Piece} {inp : List Char},
    (∀ p ∈ P, ∃ c, c ∈ blanks ∧ p = .lit c) → Reads L file (P ++ ps) inp vs rest →
    ∃ sp inp', Blank sp ∧ inp = sp ++ inp' ∧ Reads L file ps inp' vs rest
  | [], inp, _, h => ⟨[], inp, fun c hc => (nomatch hc), rfl, h⟩
  | p :: P, inp, hP, h => by
    obtain ⟨c, hc, rfl⟩ := hP p List.mem_cons_self
    rw [List.cons_append] at h
    cases h with
    | blank hc0 hsp hnb hr =>
      rename_i sp text
      obtain ⟨sp', inp', h1, rfl, h3⟩ := reads_blanks (fun q hq => hP q (List.mem_cons_of_mem _ hq)) hr
      refine ⟨sp ++ sp', inp', ?_, by rw [List.append_assoc], h3⟩
      intro x hx
      rcases List.mem_append.mp hx with hx | hx
      · exact hsp x hx
      · exact h1 x hx
    | lit hc' _ => exact absurd hc hc'

/-! ## One step -/

theorem step_eq {L : CLib} {s : State} (h : s.stream ≠ .null) (kind : Kind) (dest : Nat) {sc : Printf.Scan} (hs : scan s.format = some sc)
    (hc : compatibleScanf sc.kind kind true = true) :
    step L s kind dest =
        let cur := s.format.take sc.formatLen ++ ['%', 'n']
        let next := { s with format := s.format.drop sc.formatLen }
        if kind = .void then
          match s.stream.input with
          | none => .undef
          | some inp =>
            match cScanf L false (cur.length + 1) cur inp 0 none with
            | .undef => .undef
            | .done ret taken len _ => .done { next with count := s.count + ret, stream := s.stream.advance taken (len.getD 0) }
        else if dest = 0 then .fail .destinationNull
        else if kind = .str then
          match fsscanfString s.stream.chars with
          | none => .undef
          | some (str, len) =>
            .done { next with count := s.count + (if str = [] then 0 else 1), stream := s.stream.advance len len,
                              strs := fun a => if a = dest then str else s.strs a }
        else
          match s.stream.input with
          | none => .undef
          | some inp =>
            match cScanf L true (cur.length + 1) cur inp 0 none with
            | .undef => .undef
            | .done ret taken len store =>
              .done { next with count := s.count + ret, stream := s.stream.advance taken (len.getD 0),
                                mem := match store with | none => s.mem | some (n, b) => writeBytes s.mem dest n b } := by
  obtain ⟨f, c, st, m, ss⟩ := s
  unfold step
  dsimp only at h hs ⊢
  cases st with
  | null => exact absurd rfl h
  | str b p =>
    dsimp only
    rw [hs]
    dsimp only
    rw [if_neg (by rw [hc]; decide)]
    all_goals rfl
  | file r =>
    dsimp only
    rw [hs]
    dsimp only
    rw [if_neg (by rw [hc]; decide)]
    all_goals rfl

theorem step_scalar {L : CLib} (hL : L.Ok) {file : Bool} {stream : Stream} {inp slack : List Char} (hat : At file stream inp slack) (hn : nul ∉ inp)
    (hb : ∀ c ∈ inp, c.toNat < 256) {P ps : List Piece} {d : Directive} (hP : NoDir P) (hpp : PlainPercents P) (hd : d.Valid) (hs : Supported L d)
    {vs : List Value} {rest : List Char} (hr : Reads L file (P ++ .dir d :: ps) inp vs rest) {w : Want} {kind : Kind}
    (hw : want d.conv d.size = some w) (hk : wantKind w = some kind) (hstr : kind ≠ .str) {a : Nat} (ha : a ≠ 0) :
    ∃ pre inp' v vs' b stream', vs = v :: vs' ∧ inp = pre ++ inp' ∧ Reads L file ps inp' vs' rest ∧ At file stream' inp' slack ∧
      (∀ count mem strs, step L ⟨Printf.Spec.text (P ++ .dir d :: ps), count, stream, mem, strs⟩ kind a =
        .done ⟨Printf.Spec.text ps, count + 1, stream', writeBytes mem a (size kind) b, strs⟩) ∧
      ∀ mem strs, Holds (writeBytes mem a (size kind) b) strs (kind, a) v := by
  obtain ⟨pre, inp1, e1, hr1, hc⟩ := cScanf_lits (hasDest := true) hP hpp hr
  have hb1 : ∀ c ∈ inp1, c.toNat < 256 := fun c hc => hb c (by rw [e1]; exact List.mem_append_right _ hc)
  obtain ⟨k, b, v, vs', e2, hk1, hconv, hr2, hh⟩ := conv_reads hL hd hs hr1 hb1 hw hk hstr ha
  obtain ⟨l1, l2, l3⟩ := letter_kind hw hk
  have e3 : inp = (pre ++ inp1.take k) ++ inp1.drop k := by rw [List.append_assoc, List.take_append_drop, e1]
  have hlen : (pre ++ inp1.take k).length = pre.length + k := by rw [List.length_append, List.length_take]; omega
  have hat' : At file (stream.advance (pre.length + k) (pre.length + k)) (inp1.drop k) slack := by
    rw [← hlen]
    rw [e3] at hat
    exact hat.advance
  refine ⟨pre ++ inp1.take k, inp1.drop k, v, vs', b, _, e2, e3, hr2, hat', ?_, hh⟩
  intro count mem strs
  have ht : Printf.Spec.text (P ++ .dir d :: ps) = Printf.Spec.text P ++ (d.text ++ Printf.Spec.text ps) := by
    rw [text_append, text_cons]; rfl
  rw [ht]
  have hscan := scan_dir hP hd (Printf.Spec.text ps)
  rw [l1] at hscan
  rw [step_eq hat.notNull kind a hscan l2]
  dsimp only
  rw [if_neg l3, if_neg ha, if_neg hstr, hat.input hn]
  dsimp only
  have etake : (Printf.Spec.text P ++ (d.text ++ Printf.Spec.text ps)).take ((Printf.Spec.text P).length + d.text.length) =
      Printf.Spec.text P ++ d.text := by
    rw [← List.append_assoc, ← List.length_append, List.take_left]
  have edrop : (Printf.Spec.text P ++ (d.text ++ Printf.Spec.text ps)).drop ((Printf.Spec.text P).length + d.text.length) =
      Printf.Spec.text ps := by
    rw [← List.append_assoc, ← List.length_append, List.drop_left]
  rw [etake, edrop, List.append_assoc]
  obtain ⟨fuel', f1, f2⟩ := hc (d.text ++ ['%', 'n']) ((Printf.Spec.text P ++ (d.text ++ ['%', 'n'])).length + 1) 0 none (Nat.lt_succ_self _)
  rw [f2, cScanf_dir hd hs hconv f1]
  simp only [Option.getD_some, Nat.zero_add]

theorem step_string {L : CLib} {file : Bool} {stream : Stream} {inp slack : List Char} (hat : At file stream inp slack) (hn : nul ∉ inp)
    {P ps : List Piece} {d : Directive} (hP : NoDir P) (hd : d.Valid) (hwa : WordsAlone true (P ++ .dir d :: ps))
    {vs : List Value} {rest : List Char} (hr : Reads L file (P ++ .dir d :: ps) inp vs rest) 
    (hw : want d.conv d.size = some .str) {a : Nat} (ha : a ≠ 0) :
    ∃ pre inp' v vs' str stream', vs = v :: vs' ∧ inp = pre ++ inp' ∧ Reads L file ps inp' vs' rest ∧ At file stream' inp' slack ∧
      (∀ count mem strs, step L ⟨Printf.Spec.text (P ++ .dir d :: ps), count, stream, mem, strs⟩ .str a =
        .done ⟨Printf.Spec.text ps, count + 1, stream', mem, fun x => if x = a then str else strs x⟩) ∧
      v = .str str := by
  obtain ⟨l1, l2, l3⟩ := letter_kind hw (kind := .str) rfl
  obtain ⟨sp0, inp1, hsp0, e1, hr1⟩ := reads_blanks (words_true (want_str hw).1 hP hwa) hr
  have key : ∃ (word inp' : List Char) (vs' : List Value) (pre : List Char) (len : Nat), vs = .str word :: vs' ∧ inp = pre ++ inp' ∧ word ≠ [] ∧
      Reads L file ps inp' vs' rest ∧ At file (stream.advance len len) inp' slack ∧ fsscanfString stream.chars = some (word, len) := by
    have blank_app : ∀ {sp : List Char}, Blank sp → Blank (sp0 ++ sp) := fun hsp x hx => by
      rcases List.mem_append.mp hx with hx | hx
      · exact hsp0 x hx
      · exact hsp x hx
    cases hr1 with
    | str hw0 hsp hne hword hbl hr2 =>
      rename_i sp word b text vs'
      have e2 : inp = (sp0 ++ sp) ++ (word ++ b :: text) := by rw [e1, List.append_assoc]
      have e3 : inp = (sp0 ++ sp ++ word ++ [b]) ++ text := by rw [e1]; simp only [List.append_assoc, List.cons_append, List.nil_append]
      refine ⟨word, text, vs', sp0 ++ sp ++ word ++ [b], (sp0 ++ sp).length + word.length + 1, rfl, e3, hne, hr2, ?_, ?_⟩
      · rw [e3] at hat
        have := hat.advance
        rw [List.length_append, List.length_append] at this
        exact this
      · rw [e2] at hat
        exact hat.word (blank_app hsp) hne hword hbl (fun hm => hn (by rw [e2]; simp [hm]))
    | strEnd hw0 hfile hsp hne hword hr2 =>
      rename_i sp word vs'
      subst hfile
      have e2 : inp = (sp0 ++ sp) ++ word := by rw [e1, List.append_assoc]
      refine ⟨word, [], vs', inp, (sp0 ++ sp).length + word.length + 1, rfl, by rw [List.append_nil], hne, hr2, ?_, ?_⟩
      · have h : stream = .file inp := hat
        rw [h]
        show Stream.file (inp.drop _) = Stream.file []
        rw [List.drop_of_length_le (by rw [e2, List.length_append]; omega)]
      · rw [e2] at hat
        exact hat.wordEnd (blank_app hsp) hne hword (fun hm => hn (by rw [e2]; simp [hm]))
    | int hw' => rw [hw] at hw'; cases hw'
    | real hw' => rw [hw] at hw'; cases hw'
    | char hw' => rw [hw] at hw'; cases hw'
  obtain ⟨word, inp', vs', pre, len, e2, e3, hne, hr2, hat', hf⟩ := key
  refine ⟨pre, inp', .str word, vs', word, _, e2, e3, hr2, hat', ?_, rfl⟩
  intro count mem strs
  have ht : Printf.Spec.text (P ++ .dir d :: ps) = Printf.Spec.text P ++ (d.text ++ Printf.Spec.text ps) := by
    rw [text_append, text_cons]; rfl
  rw [ht]
  have hscan := scan_dir hP hd (Printf.Spec.text ps)
  rw [l1] at hscan
  rw [step_eq hat.notNull .str a hscan l2]
  dsimp only
  rw [if_neg l3, if_neg ha, if_pos rfl, hf]
  dsimp only
  have edrop : (Printf.Spec.text P ++ (d.text ++ Printf.Spec.text ps)).drop ((Printf.Spec.text P).length + d.text.length) =
      Printf.Spec.text ps := by
    rw [← List.append_assoc, ← List.length_append, List.drop_left]
  rw [edrop, if_neg hne]

theorem step_last {L : CLib} {file : Bool} {stream : Stream} {inp slack : List Char} (hat : At file stream inp slack) (hn : nul ∉ inp)
    {P : List Piece} (hP : NoDir P) (hpp : PlainPercents P) {vs : List Value} {rest : List Char} (hr : Reads L file P inp vs rest) :
    ∃ stream', vs = [] ∧ At file stream' rest slack ∧
      ∀ count mem strs, step L ⟨Printf.Spec.text P, count, stream, mem, strs⟩ .void 0 = .done ⟨[], count, stream', mem, strs⟩ := by
  rw [← List.append_nil P] at hr
  obtain ⟨pre, inp1, e1, hr1, hc⟩ := cScanf_lits (hasDest := false) hP hpp hr
  cases hr1
  subst e1
  refine ⟨_, rfl, hat.advance, ?_⟩
  intro count mem strs
  obtain ⟨pos, sz, hscan⟩ := scan_noDir hP
  rw [step_eq hat.notNull .void 0 hscan rfl]
  dsimp only
  rw [if_pos rfl, hat.input hn]
  dsimp only
  rw [List.take_length, List.drop_length]
  obtain ⟨fuel', f1, f2⟩ := hc ['%', 'n'] ((Printf.Spec.text P ++ ['%', 'n']).length + 1) 0 none (Nat.lt_succ_self _)
  rw [f2, cScanf_n f1]
  simp only [Option.getD_some, Nat.zero_add, assigned, Option.isSome, Bool.false_eq_true, if_false, Int.add_zero]

/-! ## The whole call -/

theorem holds_frame {mem mem' : Mem} {strs strs' : Nat → List Char} {var : Kind × Nat} {v : Value} (h : Holds mem strs var v)
    (hm : ∀ x, In var x → mem' x = mem x) (hs : var.1 = .str → strs' var.2 = strs var.2) : Holds mem' strs' var v := by
  obtain ⟨kind, a⟩ := var
  have hread : ∀ n, n = size kind → readBytes mem' a n = readBytes mem a n := by
    intro n hn
    exact Arith.read_congr n _ _ _ fun b h1 h2 => hm b ⟨h1, by rw [← hn]; exact h2⟩
  cases v with
  | int v =>
    obtain ⟨k, h1, h2⟩ := h
    refine ⟨k, h1, ?_⟩
    rw [← h2]
    dsimp only at h1 ⊢
    unfold Arith.doDeref
    split
    · rfl
    · cases kind <;> first | (cases h1; done) | (injection h1 with h1; subst h1; dsimp only; simp only [readSigned, readUnsigned]; first | rw [hread 1 rfl] | rw [hread 2 rfl] | rw [hread 4 rfl] | rw [hread 8 rfl])
  | char c =>
    obtain ⟨h1, h2⟩ := h
    dsimp only at h1 h2
    subst h1
    refine ⟨rfl, ?_⟩
    rw [← h2]
    dsimp only
    unfold Arith.doDeref
    simp only [readUnsigned]
    rw [hread 1 rfl]
  | real b => exact ⟨h.1, (hread _ rfl).trans h.2⟩
  | str s => exact ⟨h.1, (hs h.1).trans h.2⟩

/-- The variables get their values and nothing else changes. -/
theorem run_reads {L : CLib} (hL : L.Ok) {file : Bool} {slack : List Char} {rest : List Char} : ∀ {vars : List (Kind × Nat)} {ps : List Piece}
    {inp : List Char} {vs : List Value} {stream : Stream}, At file stream inp slack → nul ∉ inp → (∀ c ∈ inp, c.toNat < 256) → (∀ p ∈ ps, p.Valid) →
    PlainPercents ps → (∀ d ∈ dirs ps, Supported L d) → WordsAlone true ps → Spec.Matches (dirs ps) vars → vars.Pairwise Separate → (∀ v ∈ vars, v.2 ≠ 0) →
    Reads L file ps inp vs rest → ∀ (count : Int) (mem : Mem) (strs : Nat → List Char),
    ∃ s', run L vars ⟨Printf.Spec.text ps, count, stream, mem, strs⟩ = .done s' ∧ s'.count = count + vars.length ∧ AllHold s'.mem s'.strs vars vs ∧
      (∀ a, (∀ v ∈ vars, ¬ In v a) → s'.mem a = mem a) ∧ (∀ a, (∀ v ∈ vars, v.1 = .str → v.2 ≠ a) → s'.strs a = strs a) ∧
      At file s'.stream rest slack := by
  intro vars
  induction vars with
  | nil =>
    intro ps inp vs stream hat hn hb hv hpp hs hwa hm hsep h0 hr count mem strs
    have hP : NoDir ps := by
      rcases Printf.split_pieces hv with h | ⟨ls, d, qs, rfl, h1, _, _⟩
      · exact h
      · rw [dirs_split h1] at hm; exact hm.elim
    obtain ⟨stream', e, hat', hstep⟩ := step_last hat hn hP hpp hr
    subst e
    exact ⟨_, hstep count mem strs, by simp, trivial, fun _ _ => rfl, fun _ _ => rfl, hat'⟩
  | cons var vars ih =>
    intro ps inp vs stream hat hn hb hv hpp hs hwa hm hsep h0 hr count mem strs
    rcases Printf.split_pieces hv with h | ⟨P, d, qs, rfl, hP, hd, hqs⟩
    · rw [dirs_noDir h] at hm; exact hm.elim
    · obtain ⟨kind, a⟩ := var
      rw [dirs_split hP] at hm hs
      obtain ⟨⟨w, hw, hk⟩, hm'⟩ := hm
      dsimp only at hk
      have ha : a ≠ 0 := h0 _ List.mem_cons_self
      have hppP : PlainPercents P := fun e he => hpp e (List.mem_append_left _ he)
      have hppq : PlainPercents qs := fun e he => hpp e (List.mem_append_right _ (List.mem_cons_of_mem _ he))
      have hs' : ∀ e ∈ dirs qs, Supported L e := fun e he => hs e (List.mem_cons_of_mem _ he)
      have hsep' := List.pairwise_cons.mp hsep
      have h0' : ∀ v ∈ vars, v.2 ≠ 0 := fun v hv => h0 v (List.mem_cons_of_mem _ hv)
      by_cases hstr : kind = .str
      · subst hstr
        have hw' : want d.conv d.size = some .str := by
          rw [hw]
          congr 1
          unfold wantKind at hk
          split at hk <;> first | rfl | (cases hk; done)
        obtain ⟨pre, inp', v, vs', str, stream', e1, e2, hr', hat', hstep, e3⟩ := step_string hat hn hP hd hwa hr hw' ha
        subst e1 e2 e3
        obtain ⟨s', r1, r2, r3, r4, r5, r6⟩ := ih hat' (fun h => hn (List.mem_append_right _ h)) (fun c hc => hb c (List.mem_append_right _ hc)) hqs hppq
          hs' (words_rest hP hwa) hm' hsep'.2 h0' hr' (count + 1) mem (fun x => if x = a then str else strs x)
        refine ⟨s', ?_, ?_, ⟨⟨rfl, ?_⟩, r3⟩, ?_, ?_, r6⟩
        · rw [run, hstep]; exact r1
        · rw [r2, List.length_cons]; omega
        · rw [r5 a (fun v hv h2 h3 => (hsep'.1 v hv).2 rfl h2 h3.symm), if_pos rfl]
        · intro x hx
          exact r4 x fun v hv => hx v (List.mem_cons_of_mem _ hv)
        · intro x hx
          rw [r5 x fun v hv => hx v (List.mem_cons_of_mem _ hv)]
          exact if_neg fun h => hx (.str, a) List.mem_cons_self rfl h.symm
      · obtain ⟨pre, inp', v, vs', b, stream', e1, e2, hr', hat', hstep, hh⟩ :=
          step_scalar hL hat hn hb hP hppP hd (hs d List.mem_cons_self) hr hw hk hstr ha
        subst e1 e2
        obtain ⟨s', r1, r2, r3, r4, r5, r6⟩ := ih hat' (fun h => hn (List.mem_append_right _ h)) (fun c hc => hb c (List.mem_append_right _ hc)) hqs hppq
          hs' (words_rest hP hwa) hm' hsep'.2 h0' hr' (count + 1) (writeBytes mem a (size kind) b) strs
        refine ⟨s', ?_, ?_, ⟨?_, r3⟩, ?_, ?_, r6⟩
        · rw [run, hstep]; exact r1
        · rw [r2, List.length_cons]; omega
        · refine holds_frame (hh mem strs) (fun x hx => r4 x fun v hv hi => (hsep'.1 v hv).1 x ⟨hx, hi⟩) (fun h => absurd h hstr)
        · intro x hx
          rw [r4 x fun v hv => hx v (List.mem_cons_of_mem _ hv)]
          refine Arith.write_frame _ _ _ _ _ ?_
          have := hx (kind, a) List.mem_cons_self
          unfold In at this
          dsimp only at this
          omega
        · intro x hx
          exact r5 x fun v hv => hx v (List.mem_cons_of_mem _ hv)

/-! ## Any input -/

/-- What a call of the C function can have done: nothing is stored before the specifier. -/
theorem cScanf_lits_any {L : CLib} {hasDest : Bool} : ∀ {P : List Piece}, NoDir P → PlainPercents P →
    ∀ {f inp : List Char} {fuel taken : Nat} {store : Option (Nat × Nat)} {ret : Int} {t : Nat} {l : Option Nat} {store' : Option (Nat × Nat)},
      cScanf L hasDest fuel (Printf.Spec.text P ++ f) inp taken store = .done ret t l store' →
      (store' = store ∧ -1 ≤ ret ∧ ret ≤ assigned store) ∨ ∃ fuel' inp' taken', cScanf L hasDest fuel' f inp' taken' store = .done ret t l store' := by
  intro P
  induction P with
  | nil =>
    intro _ _ f inp fuel taken store ret t l store' h
    exact .inr ⟨fuel, inp, taken, h⟩
  | cons p P ih =>
    intro hP hpp f inp fuel taken store ret t l store' h
    have hP' : NoDir P := fun q hq => hP q (List.mem_cons_of_mem _ hq)
    have hpp' : PlainPercents P := fun d hd => hpp d (List.mem_cons_of_mem _ hd)
    have hpos : (0 : Int) ≤ assigned store := by unfold assigned; split <;> decide
    have hfail : ∀ k, inputFailure k store = .done ret t l store' → store' = store ∧ -1 ≤ ret ∧ ret ≤ assigned store := by
      intro k h
      unfold inputFailure at h
      injection h with h1 h2 h3 h4
      refine ⟨h4.symm, ?_⟩
      unfold assigned
      split at h1 <;> split <;> omega
    have hstop : ∀ k, CRes.done (assigned store) k none store = .done ret t l store' → store' = store ∧ -1 ≤ ret ∧ ret ≤ assigned store := by
      intro k h
      injection h with h1 h2 h3 h4
      exact ⟨h4.symm, by omega, by omega⟩
    cases fuel with
    | zero => rw [cScanf.eq_def] at h; cases h
    | succ fuel =>
      cases p with
      | lit c =>
        rw [text_cons] at h
        simp only [Piece.text, List.cons_append, List.nil_append] at h
        have hne : c ≠ '%' := (hP (.lit c) List.mem_cons_self).1
        rw [cScanf.eq_def] at h
        dsimp only at h
        by_cases hc : isSpace c = true
        · rw [if_pos hc] at h
          exact ih hP' hpp' h
        · rw [if_neg hc, if_pos hne] at h
          cases inp with
          | nil => exact .inl (hfail _ h)
          | cons x inp =>
            dsimp only at h
            by_cases hx : x = c
            · rw [if_pos hx] at h; exact ih hP' hpp' h
            · rw [if_neg hx] at h; exact .inl (hstop _ h)
      | percent d =>
        have hd := hpp d List.mem_cons_self
        subst hd
        have ht : Piece.text (.percent plainPercent) = ['%', '%'] := rfl
        rw [text_cons, ht] at h
        simp only [List.cons_append, List.nil_append] at h
        rw [cScanf.eq_def] at h
        dsimp only at h
        rw [if_neg (by decide), if_neg (by decide)] at h
        have e1 : ('%' :: (Printf.Spec.text P ++ f)).takeWhile isDigit = [] := by simp only [List.takeWhile]; rfl
        have e2 : ('%' :: (Printf.Spec.text P ++ f)).dropWhile isDigit = '%' :: (Printf.Spec.text P ++ f) := by simp only [List.dropWhile]; rfl
        have e3 : cLength ('%' :: (Printf.Spec.text P ++ f)) = (.normal, '%' :: (Printf.Spec.text P ++ f)) := by
          exact cLength_size .normal Printf.term_percent _
        rw [e1, e2, e3] at h
        dsimp only at h
        rw [if_neg (by decide), if_pos rfl, if_pos ⟨rfl, rfl⟩] at h
        cases hdw : inp.dropWhile isSpace with
        | nil => rw [hdw] at h; exact .inl (hfail _ h)
        | cons x inp' =>
          rw [hdw] at h
          dsimp only at h
          by_cases hx : x = '%'
          · rw [if_pos hx] at h; exact ih hP' hpp' h
          · rw [if_neg hx] at h; exact .inl (hstop _ h)
      | dir d => exact absurd rfl ((hP _ List.mem_cons_self).2 d)

theorem cScanf_n_any {L : CLib} {hasDest : Bool} {fuel : Nat} {inp : List Char} {taken : Nat} {store : Option (Nat × Nat)} {ret : Int} {t : Nat}
    {l : Option Nat} {store' : Option (Nat × Nat)} (h : cScanf L hasDest fuel ['%', 'n'] inp taken store = .done ret t l store') :
    store' = store ∧ ret = assigned store := by
  cases fuel with
  | zero => rw [cScanf.eq_def] at h; cases h
  | succ fuel =>
    rw [cScanf.eq_def] at h
    dsimp only at h
    rw [if_neg (by decide), if_neg (by decide)] at h
    have h : CRes.done (assigned store) taken (some taken) store = .done ret t l store' := h
    injection h with h1 h2 h3 h4
    exact ⟨h4.symm, h1.symm⟩

/-- A conversion stores no more than the variable holds. -/
theorem conv_bytes {L : CLib} {d : Directive} (hs : Supported L d) {w : Want} {kind : Kind} (hw : want d.conv d.size = some w)
    (hk : wantKind w = some kind) {inp : List Char} {k n b : Nat} (hc : cConv L (widthOf d) d.size d.conv inp = .ok k n b) : n = size kind := by
  have hint : ∀ {radix : Option Nat} {signed : Bool} {m : Nat} {width : Option Nat}, cConvInt radix signed m width inp = .ok k n b → n = m := by
    intro radix signed m width h
    unfold cConvInt at h
    dsimp only at h
    split at h
    · cases h
    · split at h
      · cases h
      · split at h
        · cases h
        · injection h with _ h _; exact h.symm
  have hreal : ∀ {m : Nat} {width : Option Nat}, cConvReal L m width inp = .ok k n b → n = m := by
    intro m width h
    unfold cConvReal at h
    dsimp only at h
    split at h
    · cases h
    · split at h
      · cases h
      · injection h with _ h _; exact h.symm
  cases w with
  | int signed bits =>
    rw [cConv_int hs hw] at hc
    rw [hint hc]
    obtain ⟨hb, _, _⟩ := want_bits hw
    cases signed <;> cases hz : d.size <;> rw [hz] at hb <;> simp only [Printf.Spec.intBits] at hb <;> subst hb <;> injection hk with hk <;> subst hk <;> rfl
  | real bits =>
    obtain ⟨hz, hcv⟩ := want_real hw
    have hcc : cConv L (widthOf d) d.size d.conv inp = cConvReal L (bits / 8) (widthOf d) inp := by
      unfold cConv
      rcases hz with ⟨hz, hz2⟩ | ⟨hz, hz2⟩ <;> rw [hz, hz2] <;> rcases hcv with hcv | hcv | hcv | hcv | hcv | hcv <;> rw [hcv] <;> rfl
    rw [hcc] at hc
    rw [hreal hc]
    rcases hz with ⟨_, hz⟩ | ⟨_, hz⟩ <;> subst hz <;> injection hk with hk <;> subst hk <;> rfl
  | char =>
    obtain ⟨hcv, hz⟩ := want_char hw
    injection hk with hk
    subst hk
    have hwd : d.width = [] := hs.2.2.1 (by rw [hcv]; decide)
    have hcc : cConv L (widthOf d) d.size d.conv inp = cConvChar none inp := by
      rw [hcv, hz, show widthOf d = none from if_pos hwd]; rfl
    rw [hcc] at hc
    unfold cConvChar at hc
    cases inp with
    | nil => cases hc
    | cons c inp =>
      dsimp only [Option.getD] at hc
      rw [if_neg (by simp)] at hc
      injection hc with _ h _
      rw [← h]
      rfl
  | str =>
    have hcv := want_str hw
    have hcc : cConv L (widthOf d) d.size d.conv inp = .undef := by rw [hcv.1]; rfl
    rw [hcc] at hc; cases hc
  | any => cases hk

theorem cScanf_dir_any {L : CLib} {d : Directive} (hd : d.Valid) (hs : Supported L d) {w : Want} {kind : Kind} (hw : want d.conv d.size = some w)
    (hk : wantKind w = some kind) {fuel taken : Nat} {inp : List Char} {ret : Int} {t : Nat} {l : Option Nat} {store : Option (Nat × Nat)}
    (h : cScanf L true fuel (d.text ++ ['%', 'n']) inp taken none = .done ret t l store) :
    -1 ≤ ret ∧ ret ≤ 1 ∧ ∀ n b, store = some (n, b) → n = size kind := by
  obtain ⟨e1, e2, e3, e4⟩ := term_supported hd hs ['%', 'n']
  cases fuel with
  | zero => rw [cScanf.eq_def] at h; cases h
  | succ fuel =>
    obtain ⟨ht, hne⟩ := want_term hd.2
    have hnn : d.conv ≠ 'n' := by
      intro h
      have := hd.2
      rw [h] at this
      cases hz : d.size <;> rw [hz] at this <;> revert this <;> decide
    rw [e1, cScanf.eq_def] at h
    dsimp only at h
    rw [if_neg (by decide), if_neg (by decide), e2, e3, e4] at h
    dsimp only at h
    rw [if_neg hnn, if_neg hne] at h
    have hwd : widthOf d = (if d.width = [] then none else some (numeral 10 0 d.width)) := rfl
    rw [← hwd, if_neg (by
      intro h
      rcases h with h | h | h
      · exact widthOf_pos hd.1 h
      · cases h
      · cases h)] at h
    cases hc : cConv L (widthOf d) d.size d.conv inp with
    | undef => rw [hc] at h; cases h
    | eof k =>
      rw [hc] at h
      dsimp only [inputFailure] at h
      injection h with h1 h2 h3 h4
      subst h4
      simp only [Option.isSome, Bool.false_eq_true, if_false] at h1
      exact ⟨by omega, by omega, fun _ _ h => nomatch h⟩
    | mismatch k =>
      rw [hc] at h
      dsimp only [assigned] at h
      injection h with h1 h2 h3 h4
      subst h4
      simp only [Option.isSome, Bool.false_eq_true, if_false] at h1
      exact ⟨by omega, by omega, fun _ _ h => nomatch h⟩
    | ok k n b =>
      rw [hc] at h
      dsimp only at h
      obtain ⟨h1, h2⟩ := cScanf_n_any h
      subst h1
      rw [h2]
      refine ⟨show (-1 : Int) ≤ 1 by decide, show (1 : Int) ≤ 1 by decide, ?_⟩
      intro n' b' he
      injection he with he
      injection he with he1 he2
      rw [← he1]
      exact conv_bytes hs hw hk hc

theorem step_any {L : CLib} {P ps : List Piece} {d : Directive} (hP : NoDir P) (hpp : PlainPercents P) (hd : d.Valid) (hs : Supported L d)
    {w : Want} {kind : Kind} (hw : want d.conv d.size = some w) (hk : wantKind w = some kind) {a : Nat} {s s' : State}
    (hf : s.format = Printf.Spec.text (P ++ .dir d :: ps)) (h : step L s kind a = .done s') :
    s'.format = Printf.Spec.text ps ∧ s.count - 1 ≤ s'.count ∧ s'.count ≤ s.count + 1 ∧ (∀ x, ¬ In (kind, a) x → s'.mem x = s.mem x) ∧
      ∀ x, (kind = .str → a ≠ x) → s'.strs x = s.strs x := by
  obtain ⟨l1, l2, l3⟩ := letter_kind hw hk
  have ht : s.format = Printf.Spec.text P ++ (d.text ++ Printf.Spec.text ps) := by
    rw [hf, text_append, text_cons]; rfl
  have hscan := scan_dir hP hd (Printf.Spec.text ps)
  rw [l1, ← ht] at hscan
  have hnull : s.stream ≠ .null := by
    intro e
    obtain ⟨f, c, st, m, ss⟩ := s
    dsimp only at e
    subst e
    cases h
  rw [step_eq hnull kind a hscan l2] at h
  dsimp only at h
  have edrop : s.format.drop ((Printf.Spec.text P).length + d.text.length) = Printf.Spec.text ps := by
    rw [ht, ← List.append_assoc, ← List.length_append, List.drop_left]
  have etake : s.format.take ((Printf.Spec.text P).length + d.text.length) = Printf.Spec.text P ++ d.text := by
    rw [ht, ← List.append_assoc, ← List.length_append, List.take_left]
  rw [etake, edrop, if_neg l3] at h
  split at h
  · cases h
  · split at h
    · rename_i hstr
      split at h
      · cases h
      · injection h with h
        subst h
        refine ⟨rfl, ?_, ?_, fun _ _ => rfl, ?_⟩
        · dsimp only; split <;> omega
        · dsimp only; split <;> omega
        · intro x hx
          exact if_neg fun e => hx hstr e.symm
    · rename_i hstr
      split at h
      · cases h
      · rename_i inp hinp
        split at h
        · cases h
        · rename_i ret taken len store hc
          injection h with h
          subst h
          rw [List.append_assoc] at hc
          have key : -1 ≤ ret ∧ ret ≤ 1 ∧ ∀ n b, store = some (n, b) → n = size kind := by
            rcases cScanf_lits_any hP hpp hc with ⟨h1, h2, h3⟩ | ⟨fuel', inp', taken', h1⟩
            · subst h1
              simp only [assigned, Option.isSome, Bool.false_eq_true, if_false] at h3
              exact ⟨h2, by omega, fun _ _ h => nomatch h⟩
            · exact cScanf_dir_any hd hs hw hk h1
          refine ⟨rfl, by dsimp only; omega, by dsimp only; omega, ?_, fun _ _ => rfl⟩
          intro x hx
          cases store with
          | none => rfl
          | some nb =>
            obtain ⟨n, b⟩ := nb
            have hn := key.2.2 n b rfl
            subst hn
            refine Arith.write_frame _ _ _ _ _ ?_
            unfold In at hx
            dsimp only at hx
            omega

theorem step_last_any {L : CLib} {P : List Piece} (hP : NoDir P) (hpp : PlainPercents P) {s s' : State} (hf : s.format = Printf.Spec.text P)
    (h : step L s .void 0 = .done s') : s.count - 1 ≤ s'.count ∧ s'.count ≤ s.count ∧ s'.mem = s.mem ∧ s'.strs = s.strs := by
  obtain ⟨pos, sz, hscan⟩ := scan_noDir hP
  rw [← hf] at hscan
  have hnull : s.stream ≠ .null := by
    intro e
    obtain ⟨f, c, st, m, ss⟩ := s
    dsimp only at e
    subst e
    cases h
  rw [step_eq hnull .void 0 hscan rfl] at h
  dsimp only at h
  rw [if_pos rfl] at h
  split at h
  · cases h
  · split at h
    · cases h
    · rename_i ret taken len store hc
      injection h with h
      subst h
      rw [List.take_length, hf] at hc
      have key : -1 ≤ ret ∧ ret ≤ 0 := by
        rcases cScanf_lits_any hP hpp hc with ⟨h1, h2, h3⟩ | ⟨fuel', inp', taken', h1⟩
        · simp only [assigned, Option.isSome, Bool.false_eq_true, if_false] at h3
          exact ⟨h2, h3⟩
        · have := (cScanf_n_any h1).2
          simp only [assigned, Option.isSome, Bool.false_eq_true, if_false] at this
          omega
      exact ⟨by dsimp only; omega, by dsimp only; omega, rfl, rfl⟩

theorem run_any {L : CLib} : ∀ {vars : List (Kind × Nat)} {ps : List Piece}, (∀ p ∈ ps, p.Valid) → PlainPercents ps → (∀ d ∈ dirs ps, Supported L d) →
    Spec.Matches (dirs ps) vars → ∀ {s s' : State}, s.format = Printf.Spec.text ps → run L vars s = .done s' →
    s.count - (vars.length + 1) ≤ s'.count ∧ s'.count ≤ s.count + vars.length ∧ (∀ a, (∀ v ∈ vars, ¬ In v a) → s'.mem a = s.mem a) ∧
      ∀ a, (∀ v ∈ vars, v.1 = .str → v.2 ≠ a) → s'.strs a = s.strs a := by
  intro vars
  induction vars with
  | nil =>
    intro ps hv hpp hs hm s s' hf h
    have hP : NoDir ps := by
      rcases Printf.split_pieces hv with h | ⟨ls, d, qs, rfl, h1, _, _⟩
      · exact h
      · rw [dirs_split h1] at hm; exact hm.elim
    obtain ⟨h1, h2, h3, h4⟩ := step_last_any hP hpp hf h
    exact ⟨by simp only [List.length_nil]; omega, by simp only [List.length_nil]; omega, fun a _ => by rw [h3], fun a _ => by rw [h4]⟩
  | cons var vars ih =>
    intro ps hv hpp hs hm s s' hf h
    rcases Printf.split_pieces hv with hP | ⟨P, d, qs, rfl, hP, hd, hqs⟩
    · rw [dirs_noDir hP] at hm; exact hm.elim
    · obtain ⟨kind, a⟩ := var
      rw [dirs_split hP] at hm hs
      obtain ⟨⟨w, hw, hk⟩, hm'⟩ := hm
      rw [run] at h
      dsimp only at h
      cases hstep : step L s kind a with
      | undef => rw [hstep] at h; cases h
      | fail e => rw [hstep] at h; cases h
      | done s1 =>
        rw [hstep] at h
        dsimp only at h
        obtain ⟨k1, k2, k3, k4, k5⟩ := step_any hP (fun e he => hpp e (List.mem_append_left _ he)) hd (hs d List.mem_cons_self) hw hk hf hstep
        obtain ⟨i1, i2, i3, i4⟩ := ih hqs (fun e he => hpp e (List.mem_append_right _ (List.mem_cons_of_mem _ he)))
          (fun e he => hs e (List.mem_cons_of_mem _ he)) hm' k1 h
        refine ⟨by simp only [List.length_cons]; omega, by simp only [List.length_cons]; omega, ?_, ?_⟩
        · intro x hx
          rw [i3 x fun v hv => hx v (List.mem_cons_of_mem _ hv)]
          exact k4 x (hx _ List.mem_cons_self)
        · intro x hx
          rw [i4 x fun v hv => hx v (List.mem_cons_of_mem _ hv)]
          exact k5 x (hx _ List.mem_cons_self)

/-! ## Literal formats -/

theorem compat_void {expected kind : Kind} (h : compatibleScanf expected kind false = true) : compatibleScanf expected kind true = true := by
  revert h
  cases kind <;> cases expected <;> decide

theorem step_checked {L : CLib} {s : State} {kind : Kind} {dest : Nat} {sc : Printf.Scan} (hs : scan s.format = some sc)
    (hc : compatibleScanf sc.kind kind true = true) :
    (∀ e, step L s kind dest = .fail e → e = .sourceNull ∨ e = .destinationNull ∧ kind ≠ .void) ∧
    (∀ s', step L s kind dest = .done s' → s'.format = s.format.drop sc.formatLen) := by
  by_cases hn : s.stream = .null
  · obtain ⟨f, c, st, m, ss⟩ := s
    dsimp only at hn
    subst hn
    exact ⟨fun e h => by injection h with h; exact .inl h.symm, fun s' h => nomatch h⟩
  · rw [step_eq hn kind dest hs hc]
    dsimp only
    constructor
    · intro e h
      split at h
      · split at h
        · cases h
        · split at h <;> cases h
      · rename_i hk
        split at h
        · injection h with h; exact .inr ⟨h.symm, hk⟩
        · split at h
          · split at h <;> cases h
          · split at h
            · cases h
            · split at h <;> cases h
    · intro s' h
      split at h
      · split at h
        · cases h
        · split at h
          · cases h
          · injection h with h; rw [← h]
      · split at h
        · cases h
        · split at h
          · split at h
            · cases h
            · injection h with h; rw [← h]
          · split at h
            · cases h
            · split at h
              · cases h
              · injection h with h; rw [← h]

theorem run_checked {L : CLib} : ∀ {vars : List (Kind × Nat)} {s : State} {e : Err}, checkLiteral s.format (vars.map (·.1)) = true →
    run L vars s = .fail e → e = .sourceNull ∨ e = .destinationNull
  | [], s, e, h, hr => by
    rw [List.map_nil, checkLiteral] at h
    cases hs : scan s.format with
    | none => rw [hs] at h; cases h
    | some sc =>
      rw [hs] at h
      rcases (step_checked hs h).1 e hr with h | h
      · exact .inl h
      · exact .inr h.1
  | v :: vars, s, e, h, hr => by
    rw [List.map_cons, checkLiteral] at h
    cases hs : scan s.format with
    | none => rw [hs] at h; cases h
    | some sc =>
      rw [hs] at h
      dsimp only at h
      rw [Bool.and_eq_true] at h
      have hk := step_checked (L := L) (dest := v.2) hs (compat_void h.1)
      rw [run] at hr
      cases hst : step L s v.1 v.2 with
      | undef => rw [hst] at hr; cases hr
      | fail e' =>
        rw [hst] at hr
        injection hr with hr
        subst hr
        rcases hk.1 e' hst with h | h
        · exact .inl h
        · exact .inr h.1
      | done s' =>
        rw [hst] at hr
        exact run_checked (by rw [hk.2 s' hst]; exact h.2) hr

/-! ## Types -/

theorem compat_eq {expected kind : Kind} {allowVoid : Bool} (h : compatibleScanf expected kind allowVoid = true) :
    expected = .none ∨ kind = expected := by
  revert h
  cases allowVoid <;> cases kind <;> cases expected <;> decide

theorem step_compat {L : CLib} {s s' : State} {kind : Kind} {dest : Nat} {sc : Printf.Scan} (hs : scan s.format = some sc)
    (h : step L s kind dest = .done s') : compatibleScanf sc.kind kind true = true := by
  cases hc : compatibleScanf sc.kind kind true with
  | true => rfl
  | false =>
    exfalso
    unfold step at h
    split at h
    · cases h
    · rw [hs] at h
      dsimp only at h
      rw [hc] at h
      cases h

theorem kind_ne_none {conv : Char} {sz : Size} {w : Want} {kind : Kind} (hw : want conv sz = some w) (hk : wantKind w = some kind) :
    kind ≠ .none ∧ kind ≠ .void := by
  refine ⟨?_, (letter_kind hw hk).2.2⟩
  intro h
  subst h
  unfold wantKind at hk
  split at hk <;> simp at hk

theorem run_types {L : CLib} : ∀ {vars : List (Kind × Nat)} {ps : List Piece}, (∀ p ∈ ps, p.Valid) → (∀ v ∈ vars, v.1 ≠ .void) →
    (∀ d ∈ dirs ps, ∃ w k, want d.conv d.size = some w ∧ wantKind w = some k) →
    ∀ {s s' : State}, s.format = Printf.Spec.text ps → run L vars s = .done s' → Spec.Matches (dirs ps) vars := by
  intro vars
  induction vars with
  | nil =>
    intro ps hv _ hw s s' hf h
    rcases Printf.split_pieces hv with hP | ⟨P, d, qs, rfl, hP, hd, _⟩
    · rw [dirs_noDir hP]; exact trivial
    · exfalso
      rw [dirs_split hP] at hw
      obtain ⟨w, k, h1, h2⟩ := hw d List.mem_cons_self
      have hscan := scan_dir hP hd (Printf.Spec.text qs)
      rw [(letter_kind h1 h2).1, show Printf.Spec.text P ++ (d.text ++ Printf.Spec.text qs) = s.format by
        rw [hf, text_append, text_cons]; rfl] at hscan
      rcases compat_eq (step_compat hscan h) with h3 | h3
      · exact (kind_ne_none h1 h2).1 h3
      · exact (kind_ne_none h1 h2).2 h3.symm
  | cons var vars ih =>
    intro ps hv hnv hw s s' hf h
    rw [run] at h
    cases hstep : step L s var.1 var.2 with
    | undef => rw [hstep] at h; cases h
    | fail e => rw [hstep] at h; cases h
    | done s1 =>
      rw [hstep] at h
      dsimp only at h
      rcases Printf.split_pieces hv with hP | ⟨P, d, qs, rfl, hP, hd, hqs⟩
      · exfalso
        obtain ⟨pos, sz, hscan⟩ := scan_noDir hP
        rw [← hf] at hscan
        rcases compat_eq (step_compat hscan hstep) with h3 | h3
        · cases h3
        · exact hnv _ List.mem_cons_self h3
      · rw [dirs_split hP] at hw ⊢
        obtain ⟨w, k, h1, h2⟩ := hw d List.mem_cons_self
        have hfm : Printf.Spec.text P ++ (d.text ++ Printf.Spec.text qs) = s.format := by
          rw [hf, text_append, text_cons]; rfl
        have hscan := scan_dir hP hd (Printf.Spec.text qs)
        rw [(letter_kind h1 h2).1, hfm] at hscan
        have hc := step_compat hscan hstep
        refine ⟨⟨w, h1, ?_⟩, ih hqs (fun v hv => hnv v (List.mem_cons_of_mem _ hv)) (fun e he => hw e (List.mem_cons_of_mem _ he)) ?_ h⟩
        · rcases compat_eq hc with h3 | h3
          · exact absurd h3 (kind_ne_none h1 h2).1
          · rw [h2, h3]
        · rw [(step_checked (L := L) (dest := var.2) hscan hc).2 s1 hstep, ← hfm, ← List.append_assoc]
          show List.drop ((Printf.Spec.text P).length + d.text.length) _ = _
          rw [← List.length_append, List.drop_left]

theorem literal_types : ∀ {vars : List (Kind × Nat)} {ps : List Piece}, (∀ p ∈ ps, p.Valid) →
    (∀ d ∈ dirs ps, ∃ w k, want d.conv d.size = some w ∧ wantKind w = some k) →
    checkLiteral (Printf.Spec.text ps) (vars.map (·.1)) = true → Spec.Matches (dirs ps) vars := by
  intro vars
  induction vars with
  | nil =>
    intro ps hv hw h
    rcases Printf.split_pieces hv with hP | ⟨P, d, qs, rfl, hP, hd, _⟩
    · rw [dirs_noDir hP]; exact trivial
    · exfalso
      rw [dirs_split hP] at hw
      obtain ⟨w, k, h1, h2⟩ := hw d List.mem_cons_self
      have hscan := scan_dir hP hd (Printf.Spec.text qs)
      rw [(letter_kind h1 h2).1, show Printf.Spec.text P ++ (d.text ++ Printf.Spec.text qs) = Printf.Spec.text (P ++ .dir d :: qs) by
        rw [text_append, text_cons]; rfl] at hscan
      rw [List.map_nil, checkLiteral, hscan] at h
      rcases compat_eq h with h3 | h3
      · exact (kind_ne_none h1 h2).1 h3
      · exact (kind_ne_none h1 h2).2 h3.symm
  | cons var vars ih =>
    intro ps hv hw h
    rw [List.map_cons, checkLiteral] at h
    rcases Printf.split_pieces hv with hP | ⟨P, d, qs, rfl, hP, hd, hqs⟩
    · exfalso
      obtain ⟨pos, sz, hscan⟩ := scan_noDir hP
      rw [hscan] at h
      dsimp only at h
      rw [Bool.and_eq_true] at h
      have := h.1
      revert this
      cases var.1 <;> decide
    · rw [dirs_split hP] at hw ⊢
      obtain ⟨w, k, h1, h2⟩ := hw d List.mem_cons_self
      have hfm : Printf.Spec.text P ++ (d.text ++ Printf.Spec.text qs) = Printf.Spec.text (P ++ .dir d :: qs) := by
        rw [text_append, text_cons]; rfl
      have hscan := scan_dir hP hd (Printf.Spec.text qs)
      rw [(letter_kind h1 h2).1, hfm] at hscan
      rw [hscan] at h
      rw [Option.map_some] at h
      replace h := (Bool.and_eq_true _ _).mp h
      refine ⟨⟨w, h1, ?_⟩, ih hqs (fun e he => hw e (List.mem_cons_of_mem _ he)) ?_⟩
      · rcases compat_eq h.1 with h3 | h3
        · exact absurd h3 (kind_ne_none h1 h2).1
        · rw [h2, h3]
      · have h4 := h.2
        rw [← hfm, ← List.append_assoc, ← List.length_append, List.drop_left] at h4
        exact h4

end Umka.Scanf
