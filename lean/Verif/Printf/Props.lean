import Verif.Printf.Run

/-!
# Printf: the properties

C47: the format of `printf`, `fprintf` and `sprintf` against their arguments.  C52: the measured length of what is printed.
The C library is a parameter: `render` is any function; `long` has 32 or 64 bits; the flag `' '` does not change `%s`.
-/

namespace Umka.Printf.Props

open Umka.Printf
open Umka.Printf.Spec (Piece Directive ArgOk Matches NoHazard PlainPercents outText dirs reprOf)

deriving instance DecidableEq for Except

/-! ## A concrete C library and concrete arguments for the examples -/

/-- A library with a 64-bit `long` that ignores flags, width and precision. -/
def tinyLib : CLib Int where
  render := fun _ _ _ _ v => match v with
    | .inl i => (toString i).toList
    | .inr (.inl r) => (toString r).toList
    | .inr (.inr s) => s
  overFlt := fun r => decide (r > 1000)
  overDbl := fun _ => false
  longBits := 64

theorem tiny_blank : Spec.BlankHarmless tinyLib := fun _ _ _ _ _ => rfl

def int8Arg (i : Int) : Arg Int := ⟨.int8, .int i, fun _ => .int i, 0⟩
def intArg (i : Int) : Arg Int := ⟨.int, .int i, fun _ => .int i, 0⟩
def strArg (s : List Char) : Arg Int := ⟨.str, .str s, fun _ => .str s, 0⟩

/-- `struct {next: ^T; xs: []int}` whose first field points back to itself. -/
def ring : Nat → Shape
  | 0 => .struct [("next".toList, 1), ("xs".toList, 2)] false
  | 1 => .ptr "^T".toList (some 0)
  | 2 => .array [3, 3]
  | _ => .int 7

def ringArg : Arg Int := ⟨.struct, .other, ring, 0⟩

theorem ok_int8 : ArgOk (int8Arg (-1)) := by
  refine ⟨by decide, by decide, ?_, ?_, ?_, fun _ => trivial⟩
  · intro sb h
    simp only [int8Arg, Spec.kindBits, Option.some.injEq] at h
    subst h
    exact ⟨-1, rfl, by decide, by decide, by simp only [Spec.InBits, Spec.intValue]; decide⟩
  · intro h; exact absurd h (by decide)
  · intro h; exact absurd h (by decide)

theorem ok_int : ArgOk (intArg 42) := by
  refine ⟨by decide, by decide, ?_, ?_, ?_, fun _ => trivial⟩
  · intro sb h
    simp only [intArg, Spec.kindBits, Option.some.injEq] at h
    subst h
    exact ⟨42, rfl, by decide, by decide, by simp only [Spec.InBits, Spec.intValue]; decide⟩
  · intro h; exact absurd h (by decide)
  · intro h; exact absurd h (by decide)

theorem ok_str : ArgOk (strArg "ab".toList) := by
  have hn : Spec.noNul "ab".toList := by
    intro c hc
    have : c = 'a' ∨ c = 'b' := by simpa using hc
    rcases this with rfl | rfl <;> decide
  refine ⟨by decide, by decide, ?_, ?_, ?_, fun _ => hn⟩
  · intro sb h
    simp [strArg, Spec.kindBits] at h
  · intro h; exact absurd h (by decide)
  · intro _; exact ⟨_, rfl, hn⟩

theorem ok_ring_shape : ∀ n, Spec.ShapeOk (ring n) := by
  intro n
  have all : ∀ t : List Char, (t.all (· != Char.ofNat 0)) = true → Spec.noNul t := by
    intro t h c hc
    have := List.all_eq_true.mp h c hc
    simpa using this
  match n with
  | 0 =>
    intro f hf
    have : f = ("next".toList, 1) ∨ f = ("xs".toList, 2) := by simpa using hf
    rcases this with rfl | rfl <;> exact all _ (by decide)
  | 1 => exact all _ (by decide)
  | 2 => exact trivial
  | _ + 3 => exact trivial

theorem ok_ring : ArgOk ringArg := by
  refine ⟨by decide, by decide, ?_, ?_, ?_, ok_ring_shape⟩
  · intro sb h
    simp [ringArg, Spec.kindBits] at h
  · intro h; exact absurd h (by decide)
  · intro h; exact absurd h (by decide)

def dDir : Directive := ⟨[], ['5'], none, .normal, 'd'⟩
def sDir : Directive := ⟨['-'], [], some ['3'], .normal, 's'⟩
def vDir : Directive := ⟨[], [], none, .longLong, 'v'⟩
/-- `a%5d%%%-.3s%llv` -/
def demo : List Piece := [.lit 'a', .dir dDir, .percent Spec.plainPercent, .dir sDir, .dir vDir]

theorem digits_of {p : List Char} (h : (p.all (· ∈ Spec.digitChars)) = true) : ∀ c ∈ p, c ∈ Spec.digitChars := by
  intro c hc
  simpa using List.all_eq_true.mp h c hc

theorem shaped_of {d : Directive} (h1 : (d.flags.all (· ∈ Spec.flagChars)) = true) (h2 : (d.width.all (· ∈ Spec.digitChars)) = true)
    (h3 : d.width.head? ≠ some '0') (h4 : ((d.prec.getD []).all (· ∈ Spec.digitChars)) = true) : d.Shaped := by
  refine ⟨fun c hc => by simpa using List.all_eq_true.mp h1 c hc, digits_of h2, h3, ?_⟩
  intro p hp
  rw [hp] at h4
  exact digits_of h4

theorem demo_valid : ∀ p ∈ demo, p.Valid := by
  intro p hp
  have : p = .lit 'a' ∨ p = .dir dDir ∨ p = .percent Spec.plainPercent ∨ p = .dir sDir ∨ p = .dir vDir := by simpa [demo] using hp
  rcases this with rfl | rfl | rfl | rfl | rfl
  · exact (by decide : 'a' ≠ '%')
  · exact ⟨shaped_of (by decide) (by decide) (by decide) (by decide), by decide⟩
  · exact ⟨shaped_of (by decide) (by decide) (by decide) (by decide), rfl⟩
  · exact ⟨shaped_of (by decide) (by decide) (by decide) (by decide), by decide⟩
  · exact ⟨shaped_of (by decide) (by decide) (by decide) (by decide), by decide⟩

def demoArgs : List (Arg Int) := [intArg 42, strArg "ab".toList, ringArg]

theorem demo_ok : ∀ a ∈ demoArgs, ArgOk a := by
  intro a ha
  have : a = intArg 42 ∨ a = strArg "ab".toList ∨ a = ringArg := by simpa [demoArgs] using ha
  rcases this with rfl | rfl | rfl
  · exact ok_int
  · exact ok_str
  · exact ok_ring

theorem demo_matches : Matches tinyLib (dirs demo) demoArgs := by
  refine ⟨⟨.int true 32, by decide, by decide, 42, rfl, ?_⟩, ⟨.str, by decide, rfl⟩, ⟨.any, by decide, trivial⟩, trivial⟩
  simp only [Spec.InBits, Spec.intValue]; decide

theorem demo_calm : NoHazard tinyLib (dirs demo) demoArgs := by
  have h : ∀ d : Directive, d.size = .normal → ∀ a, ¬ Spec.Hazard tinyLib d a := by
    intro d hd a hz
    rcases hz with ⟨_, h, _⟩ | ⟨_, h, _⟩
    · rw [hd] at h
      rcases h with h | ⟨h, _⟩ <;> cases h
    · exact h hd
  refine ⟨h _ rfl _, h _ rfl _, ?_, trivial⟩
  rintro (⟨h, _⟩ | ⟨_, _, h | h⟩)
  · exact absurd h (by decide)
  · exact h rfl
  · exact h rfl

theorem demo_plain : PlainPercents demo := by
  intro d hd
  simpa [demo] using hd

/-! ## C47 -/

/-- **C47.**  A call with a documented format succeeds exactly if the number, the kinds and the ranges of the arguments match the specifiers
(and the C library is not called outside its contract); then it writes the text the specification gives, and returns its length. -/
theorem C47_success_iff_arguments_match {R : Type} (L : CLib R) (hL : L.longBits = 32 ∨ L.longBits = 64) (hbl : Spec.BlankHarmless L)
    (junk : Char) (ps : List Piece) (args : List (Arg R)) (hps : ∀ p ∈ ps, p.Valid) (has : ∀ a ∈ args, ArgOk a) :
    ((∃ s, printf L junk (Spec.text ps) args = .done s) ↔ Matches L (dirs ps) args ∧ NoHazard L (dirs ps) args ∧ PlainPercents ps) ∧
    ∀ s, printf L junk (Spec.text ps) args = .done s → s = ⟨[], (outText L ps args).length, .file (outText L ps args)⟩ := by
  have hr := run_result hL hbl junk args ps ⟨Spec.text ps, 0, .file []⟩ [] hps has ⟨rfl, rfl, rfl⟩
  rw [List.nil_append] at hr
  constructor
  · constructor
    · exact hr.only
    · intro h
      obtain ⟨s, hs, _⟩ := hr.ok h
      exact ⟨s, hs⟩
  · intro s hs
    obtain ⟨s', h1, h2, h3⟩ := hr.ok (hr.only ⟨s, hs⟩)
    have : s = s' := by
      have := hs.symm.trans h1
      cases this; rfl
    subst this
    obtain ⟨fmt, count, dest⟩ := s
    have h4 := h2.format
    have h5 := h2.count
    have h6 := h2.dest
    cases dest with
    | file o =>
      have h4 : fmt = [] := h4
      have h5 : count = _ := h5
      have h6 : o = _ := h6
      subst h4 h5 h6; rfl
    | str _ => exact absurd h3 id
    | null => exact absurd h3 id

example : (∃ s, printf tinyLib '?' (Spec.text demo) demoArgs = .done s) :=
  ((C47_success_iff_arguments_match tinyLib (.inr rfl) tiny_blank '?' demo demoArgs demo_valid demo_ok).1).mpr
    ⟨demo_matches, demo_calm, demo_plain⟩

/-- **C47.**  A mismatch of number, kinds or ranges of the arguments is a run-time error. -/
theorem C47_mismatch_is_error {R : Type} (L : CLib R) (hL : L.longBits = 32 ∨ L.longBits = 64) (hbl : Spec.BlankHarmless L) (junk : Char)
    (ps : List Piece) (args : List (Arg R)) (hps : ∀ p ∈ ps, p.Valid) (has : ∀ a ∈ args, ArgOk a)
    (hm : ¬ Matches L (dirs ps) args) (hz : NoHazard L (dirs ps) args) (hpp : PlainPercents ps) :
    ∃ e s, printf L junk (Spec.text ps) args = .fail e s := by
  have hr := run_result hL hbl junk args ps ⟨Spec.text ps, 0, .file []⟩ [] hps has ⟨rfl, rfl, rfl⟩
  have h1 := (C47_success_iff_arguments_match L hL hbl junk ps args hps has).1
  cases h : printf L junk (Spec.text ps) args with
  | done s => exact absurd (h1.mp ⟨s, h⟩).1 hm
  | fail e s => exact ⟨e, s, rfl⟩
  | undef => exact absurd ⟨hz, hpp⟩ (hr.undef h)

/-- Too few arguments, too many, and one of a wrong kind. -/
example : printf tinyLib '?' "%d %s".toList [intArg 42] = .fail (.incompatible .str .void) ⟨" %s".toList, 2, .file "42".toList⟩ := by rfl
example : printf tinyLib '?' "x".toList [intArg 42] = .fail (.incompatible .void .int) ⟨"x".toList, 0, .file []⟩ := by rfl
example : printf tinyLib '?' "%s".toList [intArg 42] = .fail (.incompatible .str .int) ⟨"%s".toList, 0, .file []⟩ := by rfl
example : printf tinyLib '?' "%hhu".toList [intArg 256] = .fail (.overflow .uint8) ⟨"%hhu".toList, 0, .file []⟩ := by rfl

/-- **C47.**  A format that is not made of characters, percent signs and documented specifiers is never accepted. -/
theorem C47_undocumented_format_never_succeeds {R : Type} (L : CLib R) (junk : Char) (format : List Char) (args : List (Arg R))
    (has : ∀ a ∈ args, ArgOk a) (hf : ¬ ∃ ps : List Piece, (∀ p ∈ ps, p.Valid) ∧ format = Spec.text ps) (s : State) :
    printf L junk format args ≠ .done s := fun h => hf (run_parses junk args _ s has h)

example : printf tinyLib '?' "%lc".toList [intArg 42] = .fail .invalidFormat ⟨"%lc".toList, 0, .file []⟩ := by rfl

theorem literal_of_pieces : ∀ (n : Nat) (ps : List Piece), ps.length ≤ n → (∀ p ∈ ps, p.Valid) →
    ∃ ks, Kind.void ∉ ks ∧ checkLiteral (Spec.text ps) ks = true := by
  intro n
  induction n with
  | zero =>
    intro ps hn _
    have : ps = [] := List.eq_nil_of_length_eq_zero (by omega)
    subst this
    exact ⟨[], by simp, by rfl⟩
  | succ n ih =>
    intro ps hn hps
    rcases split_pieces hps with hnd | ⟨ls, d, qs, rfl, hls, hd, hqs⟩
    · obtain ⟨pos, sz, h⟩ := scan_noDir hnd
      exact ⟨[], by simp, by rw [checkLiteral, h]; rfl⟩
    · have hlen : qs.length ≤ n := by simp at hn; omega
      obtain ⟨ks, hk1, hk2⟩ := ih qs hlen hqs
      obtain ⟨w, hw⟩ := Option.isSome_iff_exists.mp hd.2
      have hk : ∃ k, k ≠ Kind.void ∧ compatiblePrintf (wantKind w) k false = true := by
        rcases want_cases hw with ⟨_, rfl⟩ | ⟨_, rfl⟩ | ⟨_, h⟩ | ⟨_, _, rfl⟩ | ⟨_, _, rfl⟩ | ⟨_, rfl⟩
        · exact ⟨.int, by decide, by cases d.size <;> rfl⟩
        · exact ⟨.int, by decide, by cases d.size <;> rfl⟩
        · exact ⟨.real, by decide, by rcases h with ⟨_, rfl⟩ | ⟨_, rfl⟩ <;> rfl⟩
        · exact ⟨.str, by decide, by rfl⟩
        · exact ⟨.char, by decide, by rfl⟩
        · exact ⟨.int, by decide, by rfl⟩
      obtain ⟨k, hkv, hkc⟩ := hk
      refine ⟨k :: ks, by simp [hk1, Ne.symm hkv], ?_⟩
      rw [checkLiteral, text_dir, scan_dir hls hd, letterKind_eq hw]
      dsimp only [Option.map_some]
      rw [hkc, Bool.true_and, ← List.append_assoc, ← List.length_append, List.drop_left]
      exact hk2

theorem pieces_of_literal : ∀ (ks : List Kind) (fmt : List Char), checkLiteral fmt ks = true →
    ∃ ps : List Piece, (∀ p ∈ ps, p.Valid) ∧ fmt = Spec.text ps := by
  intro ks
  induction ks with
  | nil =>
    intro fmt h
    rw [checkLiteral] at h
    cases hs : scan fmt with
    | none => rw [hs] at h; cases h
    | some sc =>
      rw [hs] at h
      obtain ⟨ps, hps, h4 | ⟨d, rest, hd, h4⟩⟩ := scan_sound hs
      · exact ⟨ps, fun p hp => (hps p hp).1, h4⟩
      · obtain ⟨w, hw⟩ := Option.isSome_iff_exists.mp hd.2
        rw [h4, scan_dir hps hd, letterKind_eq hw] at hs
        cases hs
        dsimp only at h
        rw [compat_void hw] at h; cases h
  | cons k ks ih =>
    intro fmt h
    rw [checkLiteral] at h
    cases hs : scan fmt with
    | none => rw [hs] at h; cases h
    | some sc =>
      rw [hs] at h
      dsimp only at h
      obtain ⟨ps, hps, h4 | ⟨d, rest, hd, h4⟩⟩ := scan_sound hs
      · exact ⟨ps, fun p hp => (hps p hp).1, h4⟩
      · obtain ⟨w, hw⟩ := Option.isSome_iff_exists.mp hd.2
        rw [h4, scan_dir hps hd, letterKind_eq hw] at hs
        cases hs
        rw [Bool.and_eq_true] at h
        have h5 := h.2
        dsimp only at h5
        rw [h4, ← List.append_assoc, ← List.length_append, List.drop_left] at h5
        obtain ⟨qs, hq1, hq2⟩ := ih rest h5
        refine ⟨ps ++ .dir d :: qs, ?_, by rw [text_dir, h4, hq2]⟩
        intro p hp
        rcases List.mem_append.mp hp with hp | hp
        · exact (hps p hp).1
        · rcases List.mem_cons.mp hp with rfl | hp
          · exact hd
          · exact hq1 p hp

/-- **C47.**  The compiler takes a literal format for some argument types exactly if it is made of characters, percent signs and documented
specifiers (a percent sign may carry flags, width, precision and length: see `C47_percent_with_width_violated`). -/
theorem C47_scanner_accepts_exactly_documented_partial (format : List Char) :
    (∃ kinds, Kind.void ∉ kinds ∧ checkLiteral format kinds = true) ↔ ∃ ps : List Piece, (∀ p ∈ ps, p.Valid) ∧ format = Spec.text ps := by
  constructor
  · rintro ⟨ks, _, h⟩; exact pieces_of_literal ks format h
  · rintro ⟨ps, h, rfl⟩; exact literal_of_pieces _ ps (Nat.le_refl _) h

example : checkLiteral "a%5d%%%-.3s%llv".toList [.uint8, .str, .map] = true := by rfl
example : checkLiteral "%5.d%hs".toList [.int, .str] = false := by rfl

/-- **C47.**  A call that compiles with a literal format can only fail at run time because a number is out of range; a call that the compiler
rejects would never have succeeded. -/
theorem C47_literal_format_checked_at_compile_time {R : Type} (L : CLib R) (hL : L.longBits = 32 ∨ L.longBits = 64)
    (hbl : Spec.BlankHarmless L) (junk : Char) (format : List Char) (args : List (Arg R)) (has : ∀ a ∈ args, ArgOk a) :
    (checkLiteral format (args.map (·.kind)) = true → ∀ e s, printf L junk format args = .fail e s → ∃ k, e = .overflow k) ∧
    (checkLiteral format (args.map (·.kind)) = false → ∀ s, printf L junk format args ≠ .done s) :=
  run_literal hL hbl junk args ⟨format, 0, .file []⟩ [] has ⟨rfl, rfl, rfl⟩

example : checkLiteral "%hhu".toList ([intArg 256].map (·.kind)) = true := by rfl

/-- **C47.**  Undefined behaviour has one of three causes, in the part of the format that was scanned: a percent sign with something in
between, a 64-bit conversion of an argument passed in 32 bits, `%v` with a length and a width or precision.  Missing for the full property:
these causes are not errors (see the `_violated` theorems). -/
theorem C47_undefined_only_by_hazard_partial {R : Type} (L : CLib R) (hL : L.longBits = 32 ∨ L.longBits = 64) (hbl : Spec.BlankHarmless L)
    (junk : Char) (format : List Char) (args : List (Arg R)) (has : ∀ a ∈ args, ArgOk a) (h : printf L junk format args = .undef) :
    ∃ (ps : List Piece) (rest : List Char), (∀ p ∈ ps, p.Valid) ∧ format = Spec.text ps ++ rest ∧
      ¬ (NoHazard L (dirs ps) args ∧ PlainPercents ps) :=
  run_undef hL hbl junk args ⟨format, 0, .file []⟩ [] has ⟨rfl, rfl, rfl⟩ h

/-- **C47, violated.**  `printf("%5%")` passes the checks; the C library is then called with `%5%`. -/
theorem C47_percent_with_width_violated :
    checkLiteral "%5%".toList [] = true ∧ printf tinyLib '?' "%5%".toList [] = .undef := by constructor <;> rfl

/-- **C47, violated.**  `printf("%lld", int8(-1))` passes the checks; C is then asked for a 64-bit argument and was given a 32-bit one. -/
theorem C47_long_long_of_small_integer_violated :
    ArgOk (int8Arg (-1)) ∧ checkLiteral "%lld".toList [.int8] = true ∧ printf tinyLib '?' "%lld".toList [int8Arg (-1)] = .undef :=
  ⟨ok_int8, by rfl, by rfl⟩

/-- **C47, violated.**  `printf("%5llv", 42)` passes the checks; the C library is then called with `%5  s`. -/
theorem C47_value_with_width_and_length_violated :
    ArgOk (intArg 42) ∧ checkLiteral "%5llv".toList [.int] = true ∧ printf tinyLib '?' "%5llv".toList [intArg 42] = .undef :=
  ⟨ok_int, by rfl, by rfl⟩

/-! ## C52 -/

/-- **C52.**  The text of a value (`%v`, `%lv`, `%llv`): whatever the memory held before, the block allocated after the measuring pass is filled
exactly with the text and its terminating NUL, in bounds, and the measured length is the length of the text.  Values can be cyclic. -/
theorem C52_repr_buffer_exact (g : Nat → Shape) (hg : ∀ n, Spec.ShapeOk (g n)) (root : Nat) (pretty dereferenced : Bool) (junk : Char) :
    makeRepr g root pretty dereferenced junk =
      some (reprOf g root pretty dereferenced ++ [nul], (reprOf g root pretty dereferenced).length) := makeRepr_eq hg root pretty dereferenced junk

example : makeRepr ring 0 false false '?' = some ("{next: ^T xs: [7 7]}".toList ++ [nul], 20) := by rfl
example := C52_repr_buffer_exact ring ok_ring_shape 0 true true '?'

/-- **C52.**  A successful `sprintf` has written the whole text, nothing else, inside the string it returns: its length is the length of the
text and a NUL follows. -/
theorem C52_sprintf_exact {R : Type} (L : CLib R) (hL : L.longBits = 32 ∨ L.longBits = 64) (hbl : Spec.BlankHarmless L)
    (junk : Char) (ps : List Piece) (args : List (Arg R)) (hps : ∀ p ∈ ps, p.Valid) (has : ∀ a ∈ args, ArgOk a) (s : State)
    (h : sprintf L junk (Spec.text ps) args = .done s) :
    s.count = (outText L ps args).length ∧ ∃ b : StrBuf, s.dest = .str b ∧ b.len = (outText L ps args).length ∧
      b.bytes.take b.len = outText L ps args ∧ b.bytes[b.len]? = some (Char.ofNat 0) := by
  have hr := run_result hL hbl junk args ps ⟨Spec.text ps, 0, .str emptyStr⟩ [] hps has ⟨rfl, rfl, rfl, rfl, rfl⟩
  rw [List.nil_append] at hr
  obtain ⟨s', h1, h2, h3⟩ := hr.ok (hr.only ⟨s, h⟩)
  have : s = s' := by
    have := h.symm.trans h1
    cases this; rfl
  subst this
  refine ⟨h2.count, ?_⟩
  have h6 := h2.dest
  cases hd : s.dest with
  | str b =>
    rw [hd] at h6
    obtain ⟨e1, e2, e3⟩ := h6
    refine ⟨b, rfl, e1, ?_, ?_⟩
    · rw [e1]; exact e2
    · rw [e1]; exact e3
  | file _ => rw [hd] at h3; exact absurd h3 id
  | null => rw [hd] at h3; exact absurd h3 id

/-- **C52.**  `sprintf` succeeds whenever the arguments match, however long the result: it is never out of bounds and never truncated. -/
theorem C52_sprintf_never_out_of_bounds {R : Type} (L : CLib R) (hL : L.longBits = 32 ∨ L.longBits = 64) (hbl : Spec.BlankHarmless L)
    (junk : Char) (ps : List Piece) (args : List (Arg R)) (hps : ∀ p ∈ ps, p.Valid) (has : ∀ a ∈ args, ArgOk a)
    (hm : Matches L (dirs ps) args) (hz : NoHazard L (dirs ps) args) (hpp : PlainPercents ps) :
    ∃ s, sprintf L junk (Spec.text ps) args = .done s := by
  have hr := run_result hL hbl junk args ps ⟨Spec.text ps, 0, .str emptyStr⟩ [] hps has ⟨rfl, rfl, rfl, rfl, rfl⟩
  obtain ⟨s, hs, _⟩ := hr.ok ⟨hm, hz, hpp⟩
  exact ⟨s, hs⟩

example : ∃ s, sprintf tinyLib '?' (Spec.text demo) demoArgs = .done s :=
  C52_sprintf_never_out_of_bounds tinyLib (.inr rfl) tiny_blank '?' demo demoArgs demo_valid demo_ok demo_matches demo_calm demo_plain

end Umka.Printf.Props
