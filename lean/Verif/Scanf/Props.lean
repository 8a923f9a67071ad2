import Verif.Scanf.Run

/-!
# Scanf: properties

C63: a text that has the form of the format is read, and its values are in the variables.
-/

namespace Umka.Scanf.Props

open Umka.Printf (Kind Size)
open Umka.Printf.Spec (Directive Piece Want want InBits dirs plainPercent PlainPercents)
open Umka.Arith (Mem)
open Spec

/-- **C63**, texts that match.  Let the source contain a text of the form that the format describes, and let the variables be of the types that the
specifiers ask for.  Then the call returns the number of variables, each variable has the value that the text contains for it, nothing else in
memory has changed, and a file is left right after what has been read.

Partial, since `Reads` and `Supported` exclude: a word at the end of a source string, other text in front of a `%s`, `%ld` where `long` has
64 bits, a width of `%c` and `%s`, flags and precision, numbers that the variable cannot hold.  For each of them see the theorems that follow. -/
theorem C63_values_partial {L : CLib} (hL : L.Ok) {file : Bool} {inp slack rest : List Char} (hb : Bytes inp) {ps : List Piece} (hv : ∀ p ∈ ps, p.Valid)
    (hpp : PlainPercents ps) (hs : ∀ d ∈ dirs ps, Supported L d) (hwa : WordsAlone true ps) {vars : List (Kind × Nat)}
    (hm : Spec.Matches (dirs ps) vars) (hsep : vars.Pairwise Separate) (h0 : ∀ v ∈ vars, v.2 ≠ 0) {vs : List Value}
    (hr : Reads L file ps inp vs rest) (mem : Mem) (strs : Nat → List Char) :
    ∃ s', scanf L (source file inp slack) (Printf.Spec.text ps) vars mem strs = .done s' ∧ s'.count = vars.length ∧ AllHold s'.mem s'.strs vars vs ∧
      (∀ a, (∀ v ∈ vars, ¬ In v a) → s'.mem a = mem a) ∧ (∀ a, (∀ v ∈ vars, v.1 = .str → v.2 ≠ a) → s'.strs a = strs a) ∧
      (file = true → s'.stream = .file rest) := by
  have hat : At file (source file inp slack) inp slack := by
    cases file with
    | true => rfl
    | false => exact ⟨[], rfl⟩
  obtain ⟨s', h1, h2, h3, h4, h5, h6⟩ := run_reads hL hat (fun h => (hb _ h).1 rfl) (fun c hc => (hb c hc).2) hv hpp hs hwa hm hsep h0 hr 0 mem strs
  refine ⟨s', h1, ?_, h3, h4, h5, ?_⟩
  · rw [h2, Int.zero_add]
  · intro hf
    subst hf
    exact h6

/-- **C63**, any source.  Whatever the source contains: if the call returns, it has changed nothing but the variables, and the number it returns
is at most the number of variables.  (The number can be negative: each call of the C function may return -1.) -/
theorem C63_writes_partial {L : CLib} {stream : Stream} {ps : List Piece} (hv : ∀ p ∈ ps, p.Valid) (hpp : PlainPercents ps)
    (hs : ∀ d ∈ dirs ps, Supported L d) {vars : List (Kind × Nat)} (hm : Spec.Matches (dirs ps) vars) {mem : Mem} {strs : Nat → List Char} {s' : State}
    (h : scanf L stream (Printf.Spec.text ps) vars mem strs = .done s') :
    -(vars.length + 1 : Int) ≤ s'.count ∧ s'.count ≤ vars.length ∧ (∀ a, (∀ v ∈ vars, ¬ In v a) → s'.mem a = mem a) ∧
      ∀ a, (∀ v ∈ vars, v.1 = .str → v.2 ≠ a) → s'.strs a = strs a := by
  obtain ⟨h1, h2, h3, h4⟩ := run_any hv hpp hs hm rfl h
  dsimp only at h1 h2
  exact ⟨by omega, by omega, h3, h4⟩

/-- **C63.**  A literal format compiles only if its specifiers and the types of the variables match; then a call never fails with the error that they
do not. -/
theorem C63_literal {fmt : List Char} {vars : List (Kind × Nat)} (h : checkLiteral fmt (vars.map (·.1)) = true) (L : CLib) (stream : Stream) (mem : Mem)
    (strs : Nat → List Char) (e : Err) (hr : scanf L stream fmt vars mem strs = .fail e) : e = .sourceNull ∨ e = .destinationNull := by
  exact run_checked (L := L) h hr

/-- **C63**, types.  A call returns only if number and types of the variables are those that the specifiers ask for; with any others it fails before
it has written to the wrong one.  (`%v` asks for no type and is excluded.) -/
theorem C63_types {L : CLib} {stream : Stream} {ps : List Piece} (hv : ∀ p ∈ ps, p.Valid) {vars : List (Kind × Nat)} (hnv : ∀ v ∈ vars, v.1 ≠ .void)
    (hw : ∀ d ∈ dirs ps, ∃ w k, want d.conv d.size = some w ∧ wantKind w = some k) {mem : Mem} {strs : Nat → List Char} {s' : State}
    (h : scanf L stream (Printf.Spec.text ps) vars mem strs = .done s') : Spec.Matches (dirs ps) vars :=
  run_types hv hnv hw rfl h

/-- **C63**, types of variables of a literal format: otherwise the call does not compile. -/
theorem C63_literal_types {ps : List Piece} (hv : ∀ p ∈ ps, p.Valid) {vars : List (Kind × Nat)}
    (hw : ∀ d ∈ dirs ps, ∃ w k, want d.conv d.size = some w ∧ wantKind w = some k)
    (h : checkLiteral (Printf.Spec.text ps) (vars.map (·.1)) = true) : Spec.Matches (dirs ps) vars :=
  literal_types hv hw h

/-! ## An example -/

def dir (size : Size) (conv : Char) : Directive := ⟨[], [], none, size, conv⟩

theorem digit {base d : Nat} {c : Char} (h : d < base) (hc : lower[d]? = some c) : IsDigit base c d := ⟨h, .inl hc⟩

/-- `%lld %s%c%%%hd` -/
def pieces : List Piece :=
  [.dir (dir .longLong 'd'), .lit ' ', .dir (dir .normal 's'), .dir (dir .normal 'c'), .percent plainPercent, .dir (dir .short 'd')]

def variables : List (Kind × Nat) := [(.int, 1000), (.str, 2000), (.char, 3000), (.int16, 4000)]

theorem not_digit_blank : ∀ k, ¬ IsDigit 10 ' ' k := by
  intro k h
  have : k < 10 := h.1
  have h2 := h.2
  revert h2
  match k, this with
  | 0, _ | 1, _ | 2, _ | 3, _ | 4, _ | 5, _ | 6, _ | 7, _ | 8, _ | 9, _ => decide

theorem no_width {size : Size} {conv : Char} {w : Nat} : ¬ Width (dir size conv) w := fun h => by
  have : ∀ {s : List Char} {n : Nat}, Digits 10 s n → s ≠ [] := fun h => by cases h <;> simp
  exact this h rfl

theorem reads_pieces (L : CLib) : Reads L false pieces "12 abc z%-7".toList [.int 12, .str "abc".toList, .char 'z', .int (-7)] [] := by
  have h1 : Reads L false [.dir (dir .short 'd')] ([] ++ (['-', '7'] ++ [])) [.int (-7)] [] :=
    .int (signed := true) (bits := 16) rfl (fun c hc => nomatch hc)
      (.minus (n := 7) (.decimal (by decide) (.one (digit (by decide) rfl)))) (by unfold InBits; decide)
      ⟨fun w hw => absurd hw no_width, .inr fun c hc => nomatch hc⟩ .done
  have h2 : Reads L false [.percent plainPercent, .dir (dir .short 'd')] ([] ++ '%' :: ['-', '7']) _ [] :=
    .percent (fun c hc => nomatch hc) h1
  have h3 : Reads L false [.dir (dir .normal 'c'), .percent plainPercent, .dir (dir .short 'd')] ('z' :: ['%', '-', '7']) _ [] :=
    .char rfl h2
  have h4 := Reads.str (L := L) (file := false) (d := dir .normal 's') (sp := []) (word := ['a', 'b', 'c']) (b := ' ') rfl (fun c hc => nomatch hc)
    (by decide) (by decide) (by decide) h3
  have h5 := Reads.blank (L := L) (file := false) (c := ' ') (sp := [' ']) (by decide) (by unfold Blank; decide)
    (fun c hc => by injection hc with hc; subst hc; decide) h4
  exact Reads.int (L := L) (file := false) (d := dir .longLong 'd') (sp := []) (t := ['1', '2']) (v := 12) (signed := true) (bits := 64) rfl
    (fun c hc => nomatch hc)
    (.plain (n := 12) (.decimal (by decide) (.more (s := ['1']) (n := 1) (d := 2) (.one (digit (by decide) rfl)) (digit (by decide) rfl))))
    (by unfold InBits; decide)
    ⟨fun w hw => absurd hw no_width, .inr fun c hc => by
      injection hc with hc; subst hc; exact ⟨not_digit_blank, fun h => absurd (by decide) h⟩⟩ h5

theorem pieces_ok (L : CLib) : (∀ p ∈ pieces, p.Valid) ∧ PlainPercents pieces ∧ (∀ d ∈ dirs pieces, Supported L d) ∧ WordsAlone true pieces ∧
    Spec.Matches (dirs pieces) variables ∧ variables.Pairwise Separate ∧ ∀ v ∈ variables, v.2 ≠ 0 := by
  have hd : ∀ d ∈ dirs pieces, d = dir .longLong 'd' ∨ d = dir .normal 's' ∨ d = dir .normal 'c' ∨ d = dir .short 'd' := by
    intro d hd
    simpa [pieces, dirs] using hd
  refine ⟨?_, ?_, ?_, ?_, ?_, ?_, by decide⟩
  · intro p hp
    simp only [pieces, List.mem_cons, List.not_mem_nil, or_false] at hp
    rcases hp with h | h | h | h | h | h <;> subst h
    · exact ⟨⟨by decide, by decide, by decide, by decide⟩, rfl⟩
    · exact (by decide : (' ' : Char) ≠ '%')
    · exact ⟨⟨by decide, by decide, by decide, by decide⟩, rfl⟩
    · exact ⟨⟨by decide, by decide, by decide, by decide⟩, rfl⟩
    · exact ⟨⟨by decide, by decide, by decide, by decide⟩, rfl⟩
    · exact ⟨⟨by decide, by decide, by decide, by decide⟩, rfl⟩
  · intro d hd
    simp only [pieces, List.mem_cons, List.not_mem_nil, or_false, reduceCtorEq, false_or, Piece.percent.injEq] at hd
    exact hd
  · intro d h
    rcases hd d h with h | h | h | h <;> subst h <;>
      exact ⟨rfl, rfl, fun _ => rfl, fun _ h => by first | (cases h; done) | (revert h; decide)⟩
  · exact ⟨by decide, by decide, by decide, by decide, trivial⟩
  · exact ⟨⟨_, rfl, rfl⟩, ⟨_, rfl, rfl⟩, ⟨_, rfl, rfl⟩, ⟨_, rfl, rfl⟩, trivial⟩
  · have sep : ∀ {v w : Kind × Nat}, v.2 + 8 ≤ w.2 → size v.1 ≤ 8 → Separate v w := by
      intro v w h1 h2
      refine ⟨fun a ⟨⟨a1, a2⟩, a3, a4⟩ => by omega, fun _ _ => by omega⟩
    simp only [variables, List.pairwise_cons, List.mem_cons, List.not_mem_nil, or_false, forall_eq_or_imp, forall_eq, List.Pairwise.nil, and_true,
      false_implies, implies_true]
    refine ⟨⟨sep (by decide) (by decide), sep (by decide) (by decide), sep (by decide) (by decide)⟩,
      ⟨sep (by decide) (by decide), sep (by decide) (by decide)⟩, sep (by decide) (by decide)⟩

/-- `sscanf("12 abc z%-7", "%lld %s%c%%%hd", &i, &s, &c, &j)` returns 4. -/
example {L : CLib} (hL : L.Ok) (mem : Mem) (strs : Nat → List Char) :
    ∃ s', scanf L (.str ("12 abc z%-7".toList ++ [Char.ofNat 0]) 0) "%lld %s%c%%%hd".toList variables mem strs = .done s' ∧ s'.count = 4 ∧
      s'.strs 2000 = "abc".toList ∧ Arith.doDeref .int16 s'.mem 4000 = .ok (BitVec.ofInt 64 (-7)) := by
  obtain ⟨h1, h2, h3, h4, h5, h6, h7⟩ := pieces_ok L
  obtain ⟨s', r1, r2, r3, _⟩ := C63_values_partial (slack := []) hL (by unfold Bytes; decide) h1 h2 h3 h4 h5 h6 h7 (reads_pieces L) mem strs
  obtain ⟨_, ⟨_, r4⟩, _, ⟨k, k1, k2⟩, _⟩ := r3
  injection k1 with k1
  subst k1
  exact ⟨s', r1, r2, r4, k2⟩

example : checkLiteral "%lld %s%c%%%hd".toList (variables.map (·.1)) = true ∧ checkLiteral "%lld".toList [.int32] = false ∧
    checkLiteral "%lld".toList [.int, .int] = false ∧ checkLiteral "%lld%d".toList [.int] = false := ⟨rfl, rfl, rfl, rfl⟩

/-- The hypotheses of `C63_types` hold of the example, for which the call returns; of `C63_literal_types` too. -/
example {L : CLib} (hL : L.Ok) (mem : Mem) (strs : Nat → List Char) : Spec.Matches (dirs pieces) variables := by
  obtain ⟨h1, h2, h3, h4, h5, h6, h7⟩ := pieces_ok L
  obtain ⟨s', r1, _⟩ := C63_values_partial (slack := []) hL (by unfold Bytes; decide) h1 h2 h3 h4 h5 h6 h7 (reads_pieces L) mem strs
  have hw : ∀ d ∈ dirs pieces, ∃ w k, want d.conv d.size = some w ∧ wantKind w = some k := by
    intro d hd
    have : dirs pieces = [dir .longLong 'd', dir .normal 's', dir .normal 'c', dir .short 'd'] := rfl
    rw [this] at hd
    simp only [List.mem_cons, List.not_mem_nil, or_false] at hd
    rcases hd with h | h | h | h <;> subst h <;> exact ⟨_, _, rfl, rfl⟩
  have := C63_literal_types (vars := variables) h1 hw rfl
  exact C63_types h1 (by intro v hv; revert hv; revert v; decide) hw r1

theorem mismatch (L : CLib) (mem : Mem) (strs : Nat → List Char) :
    ∃ s', scanf L (.file "12+".toList) "%lld;".toList [(.int, 1000)] mem strs = .done s' ∧ s'.count = 1 := ⟨_, rfl, rfl⟩

/-- A text that does not match: `C63_writes_partial` applies to the call. -/
example (L : CLib) (mem : Mem) (strs : Nat → List Char) :
    ∃ s', scanf L (.file "12+".toList) "%lld;".toList [(.int, 1000)] mem strs = .done s' ∧ s'.count = 1 ∧ s'.mem 1008 = mem 1008 := by
  obtain ⟨s', h6, h7⟩ := mismatch L mem strs
  refine ⟨s', h6, h7, (C63_writes_partial (ps := [.dir (dir .longLong 'd'), .lit ';']) (vars := [(.int, 1000)]) ?_ ?_ ?_ ⟨⟨_, rfl, rfl⟩, trivial⟩ h6).2.2.1 1008 ?_⟩
  · intro p hp
    simp only [List.mem_cons, List.not_mem_nil, or_false] at hp
    rcases hp with h | h <;> subst h
    · exact ⟨⟨by decide, by decide, by decide, by decide⟩, rfl⟩
    · exact (by decide : (';' : Char) ≠ '%')
  · intro d hd
    simp only [List.mem_cons, List.not_mem_nil, or_false, reduceCtorEq] at hd
  · intro d hd
    simp only [dirs, List.mem_cons, List.not_mem_nil, or_false] at hd
    subst hd
    exact ⟨rfl, rfl, fun _ => rfl, fun _ h => nomatch h⟩
  · unfold In; decide

/-! ## What does not hold -/

/-- **C63** is false for the number returned: `sscanf("1", "%lld%lld", &x, &y)` stores 1 in `x` and returns 0, since the -1 of the C function for `y`
is added to it. -/
theorem C63_count_violated (L : CLib) (mem : Mem) (strs : Nat → List Char) :
    ∃ s', scanf L (source false "1".toList []) "%lld%lld".toList [(.int, 1000), (.int, 2000)] mem strs = .done s' ∧ s'.count = 0 ∧
      Holds s'.mem s'.strs (.int, 1000) (.int 1) := by
  refine ⟨_, rfl, rfl, ⟨.int, rfl, ?_⟩⟩
  exact (holds_int (conv := 'd') (sz := .longLong) (signed := true) (bits := 64) rfl (kind := .int) rfl (v := 1) (by unfold InBits; decide) mem strs
    (a := 1000) (by decide)).2.elim fun k ⟨h1, h2⟩ => by injection h1 with h1; subst h1; exact h2

/-- **C63** is false for the number returned, as text after the last value is read by a call of its own: `sscanf("42", "%lld;", &x)` stores 42 and
returns 0. -/
theorem C63_tail_violated (L : CLib) (mem : Mem) (strs : Nat → List Char) :
    ∃ s', scanf L (source false "42".toList []) "%lld;".toList [(.int, 1000)] mem strs = .done s' ∧ s'.count = 0 ∧
      Holds s'.mem s'.strs (.int, 1000) (.int 42) := by
  refine ⟨_, rfl, rfl, ⟨.int, rfl, ?_⟩⟩
  exact (holds_int (conv := 'd') (sz := .longLong) (signed := true) (bits := 64) rfl (kind := .int) rfl (v := 42) (by unfold InBits; decide) mem strs
    (a := 1000) (by decide)).2.elim fun k ⟨h1, h2⟩ => by injection h1 with h1; subst h1; exact h2

/-- **C63** is false for `%ld` where `long` has 64 bits: it asks for an `int32` and stores eight bytes.  `sscanf("-1", "%ld", &x)` changes the four bytes
after `x`. -/
theorem C63_long_violated (strs : Nat → List Char) :
    ∃ s', scanf ⟨8, fun _ _ => (0, none)⟩ (source false "-1".toList []) "%ld".toList [(.int32, 1000)] (fun _ => 0) strs = .done s' ∧
      ¬ In (.int32, 1000) 1004 ∧ s'.mem 1004 = 255 :=
  ⟨_, rfl, by unfold In; decide, rfl⟩

/-- **C63** is false for `%c` with a width: `sscanf("abc", "%3c", &x)` stores three bytes in a `char`. -/
theorem C63_width_violated (L : CLib) (strs : Nat → List Char) :
    ∃ s', scanf L (source false "abc".toList []) "%3c".toList [(.char, 1000)] (fun _ => 0) strs = .done s' ∧
      ¬ In (.char, 1000) 1002 ∧ s'.mem 1002 = 99 :=
  ⟨_, rfl, by unfold In; decide, rfl⟩

/-- **C63** is false for a word at the end of a string: reading goes on after the terminating NUL.  `sscanf("abc", "%s", &s)` is undefined if the block
ends there. -/
theorem C63_word_violated (L : CLib) (mem : Mem) (strs : Nat → List Char) :
    scanf L (source false "abc".toList []) "%s".toList [(.str, 1000)] mem strs = .undef := rfl

/-- **C63** is false for text in front of `%s`, which is not compared: `sscanf("y=5 ", "x=%s", &s)` reads the word `y=5` and returns 1. -/
theorem C63_literal_violated (L : CLib) (mem : Mem) (strs : Nat → List Char) :
    ∃ s', scanf L (source false "y=5 ".toList []) "x=%s".toList [(.str, 1000)] mem strs = .done s' ∧ s'.count = 1 ∧ s'.strs 1000 = "y=5".toList :=
  ⟨_, rfl, rfl, rfl⟩

set_option maxRecDepth 8000 in
/-- **C63** is false for numbers that do not fit: `sscanf("300", "%hhd", &x)` is undefined, it is not an error. -/
theorem C63_range_violated (L : CLib) (mem : Mem) (strs : Nat → List Char) :
    scanf L (source false "300".toList []) "%hhd".toList [(.int8, 1000)] mem strs = .undef := rfl

/-- **C63** is false for formats with a flag, which the compiler accepts: `sscanf("5", "%+lld", &x)` is undefined. -/
theorem C63_flags_violated (L : CLib) (mem : Mem) (strs : Nat → List Char) : checkLiteral "%+lld".toList [.int] = true ∧
    scanf L (source false "5".toList []) "%+lld".toList [(.int, 1000)] mem strs = .undef := ⟨rfl, rfl⟩

/-- **C63** is false after a failed conversion: the others are still tried.  `sscanf("x 7", "%lld%c%lld", &a, &c, &b)` reads nothing for `a`, but
stores `x` in `c` and 7 in `b`. -/
theorem C63_stop_violated (L : CLib) (mem : Mem) (strs : Nat → List Char) :
    ∃ s', scanf L (source false "x 7".toList []) "%lld%c%lld".toList [(.int, 1000), (.char, 2000), (.int, 3000)] mem strs = .done s' ∧
      s'.count = 2 ∧ Holds s'.mem s'.strs (.int, 3000) (.int 7) := by
  refine ⟨_, rfl, rfl, ?_⟩
  exact (holds_int (conv := 'd') (sz := .longLong) (signed := true) (bits := 64) rfl (kind := .int) rfl (v := 7) (by unfold InBits; decide)
    (Arith.writeBytes mem 2000 1 120) strs (a := 3000) (by decide)).2

end Umka.Scanf.Props
