import Verif.Cmd.Lemmas
/-! # The command line: C100 -/

namespace Umka.Cmd.Props

open Spec

/-- C100: a command line written as the usage text says is understood: all parameters are obeyed, in any order and number, the last stack size counts, and
everything after the file name is left to the script, whatever it looks like. -/
theorem C100_usage {ps : List Param} {sz : Word → Int} {name : Word} (args : List Word) (hs : ∀ t ∈ stacks ps, Size t (sz t)) (hn : name ∉ keywords) :
    ∃ c, parse {} (ps.flatMap Param.words ++ name :: args) = .file c name args ∧ Asked sz ps c := by
  refine ⟨apply {} ps, ?_, ?_⟩
  · rw [parse_params ps {} _ (fun t ht => by rw [size_ok (hs t ht)]; obtain ⟨_, _, _, _, _, h, _⟩ := hs t ht; exact h), parse_name _ _ hn]
  · obtain ⟨h1, h2, h3, h4, h5⟩ := asked ps
    refine ⟨?_, h2, h3, h4, h5⟩
    rw [h1, List.map_congr_left fun t ht => size_ok (hs t ht)]

/-- C100: conversely, if a file is compiled, then the command line was parameters, that file and the parameters of the script.  (What the texts of stack sizes
mean is left open here: see `C100_stack_violated`.) -/
theorem C100_only {ws : List Word} {c : Config} {name : Word} {args : List Word} (h : parse {} ws = .file c name args) :
    ∃ ps sz, ws = ps.flatMap Param.words ++ name :: args ∧ name ∉ keywords ∧ Asked sz ps c ∧ 0 < c.stackSize ∧ c.stackSize < 2 ^ 31 ∧
      ∀ t n, Size t n → sz t = n := by
  obtain ⟨ps, tail, h1, h2, h3⟩ := parse_ends ws.length {} ws (Nat.le_refl _)
  rw [h] at h3
  have key : c = apply {} ps ∧ tail = name :: args ∧ name ∉ keywords := by
    match tail, h3 with
    | [w], h3 => obtain ⟨rfl, rfl, rfl, hk⟩ := h3; exact ⟨rfl, rfl, hk⟩
    | w :: v :: ws, h3 => obtain ⟨rfl, rfl, rfl, hk⟩ := h3; exact ⟨rfl, rfl, hk⟩
  obtain ⟨rfl, rfl, hk⟩ := key
  have ha := asked ps
  have hpos : 0 < (apply {} ps).stackSize ∧ (apply {} ps).stackSize < 2 ^ 31 := by
    rw [ha.stack]
    cases hl : ((stacks ps).map size).getLast? with
    | none => decide
    | some v =>
      obtain ⟨t, ht, rfl⟩ := List.mem_map.mp (List.mem_of_getLast? hl)
      exact ⟨h2 t ht, (toInt_range _).2⟩
  exact ⟨ps, size, h1, hk, ha, hpos.1, hpos.2, fun t n => size_ok⟩

/-- C100: nothing is compiled only if the file name or a stack size is missing, or if a stack size is illegal. -/
theorem C100_refused {ws : List Word} {p : Parsed} (h : parse {} ws = p) (hf : ∀ c n as, p ≠ .file c n as) :
    ∃ ps : List Param, (p = .help ∧ ws = ps.flatMap Param.words) ∨ (p = .noStackSize ∧ ws = ps.flatMap Param.words ++ ["-stack".toList]) ∨
      (p = .illegalStackSize ∧ ∃ t rest, ws = ps.flatMap Param.words ++ "-stack".toList :: t :: rest ∧ ∀ n, ¬ Size t n) := by
  obtain ⟨ps, tail, h1, -, h3⟩ := parse_ends ws.length {} ws (Nat.le_refl _)
  rw [h] at h3
  refine ⟨ps, ?_⟩
  cases p with
  | file c n as => exact absurd rfl (hf c n as)
  | help =>
    cases tail with
    | nil => exact .inl ⟨rfl, by rw [h1, List.append_nil]⟩
    | cons w ws => cases ws <;> exact absurd h3 (by simp [EndsAt])
  | noStackSize =>
    match tail, h3 with
    | [w], h3 => exact .inr (.inl ⟨rfl, by rw [h1, show w = _ from h3]⟩)
  | illegalStackSize =>
    match tail, h3 with
    | w :: t :: rest, h3 =>
      refine .inr (.inr ⟨rfl, t, rest, by rw [h1, h3.1], fun n hn => ?_⟩)
      have := h3.2
      rw [size_ok hn] at this
      obtain ⟨_, _, _, _, _, hp, _⟩ := hn
      omega

/-- C100: the interpreter gets what was asked for; the sandbox denies both the file system and native libraries; the script gets the file name and its
parameters, unchanged. -/
theorem C100_script (I : Interp) {ws : List Word} {c : Config} {name : Word} {args : List Word} (h : parse {} ws = .file c name args) :
    ∃ i, .init i ∈ (main I ws).1 ∧ (∀ j, .init j ∈ (main I ws).1 → j = i) ∧ i.fileName = name ∧ i.stackSize = c.stackSize ∧
      (i.fileSystem = true ↔ c.isSandbox = false) ∧ (i.implLibs = true ↔ c.isSandbox = false) ∧ (i.warnings = true ↔ c.printWarnings = true) ∧
      argc i = args.length + 1 ∧ argv i 0 = some name ∧ ∀ k, argv i (k + 1) = args[k]? := by
  rw [main, h]
  refine ⟨⟨name, c.stackSize, name :: args, !c.isSandbox, !c.isSandbox, c.printWarnings⟩, ?_, ?_, rfl, rfl, by simp, by simp, by simp, rfl, rfl, fun _ => rfl⟩
  · simp only [session]
    split <;> simp
  · intro j hj
    simp only [session, printRuntimeError] at hj
    repeat' split at hj
    all_goals simp_all

/-- C100: the script is executed, once, exactly if the file compiles, executing was not ruled out by `-check`, and the listing, if asked for, was written. -/
theorem C100_runs (I : Interp) (ws : List Word) :
    (.run ∈ (main I ws).1 ↔ ∃ c name args, parse {} ws = .file c name args ∧ I.init = true ∧ I.compile = true ∧ (c.writeAsm = true → I.asm = true) ∧
      c.compileOnly = false) ∧ (main I ws).1.count .run ≤ 1 := by
  rw [main]
  cases hp : parse {} ws with
  | file c name args =>
    obtain ⟨i1, i2, i3, e⟩ := I
    obtain ⟨st, a, b, w, s⟩ := c
    have hpr : ∀ l, Act.run ∉ printRuntimeError l := by intro l; unfold printRuntimeError; split <;> simp
    constructor
    · constructor
      · intro hm
        refine ⟨_, _, _, rfl, ?_⟩
        cases i1 <;> cases i2 <;> cases i3 <;> cases a <;> cases b <;> simp_all [session]
      · rintro ⟨c', name', args', he, h1, h2, h3, h4⟩
        cases he
        cases i1 <;> cases i2 <;> cases i3 <;> cases a <;> cases b <;> simp_all [session]
    · have hc : ∀ l, (printRuntimeError l).count .run = 0 := fun l => List.count_eq_zero.mpr (hpr l)
      cases i1 <;> cases i2 <;> cases i3 <;> cases a <;> cases b <;> simp [session] <;> split <;> simp [hc]
  | help | noStackSize | illegalStackSize => simp

/-- C100: the exit status.  If the script is executed: 0 if it ends normally, the code given to `exit` if it is from 0 to 255, 255 after a run-time error.
Otherwise: 0 if this is what was asked for, else 1. -/
theorem C100_exit_partial (I : Interp) (ws : List Word) :
    (.run ∈ (main I ws).1 → (I.ending = .normal → status (main I ws).2 = 0) ∧ (∀ m, I.ending = .error m → status (main I ws).2 = 255) ∧
      (∀ n m, I.ending = .exit n m → 0 ≤ n → n < 256 → status (main I ws).2 = n)) ∧
    (.run ∉ (main I ws).1 → (status (main I ws).2 = 0 ∨ status (main I ws).2 = 1) ∧ (status (main I ws).2 = 0 ↔
      I.init = true ∧ I.compile = true ∧ (∃ c name args, parse {} ws = .file c name args ∧ (c.writeAsm = true → I.asm = true)))) := by
  have hr := (C100_runs I ws).1
  have hpr : ∀ l, Act.run ∉ printRuntimeError l := by intro l; unfold printRuntimeError; split <;> simp
  constructor
  · intro hm
    obtain ⟨c, name, args, hp, h1, h2, h3, h4⟩ := hr.mp hm
    have hcode : (main I ws).2 = umkaRun I.ending := by
      rw [main, hp]
      cases ha : c.writeAsm <;> simp_all [session]
    rw [hcode]
    refine ⟨fun e => by rw [e]; rfl, fun m e => by rw [e]; rfl, fun n m e k1 k2 => ?_⟩
    rw [e, umkaRun, toInt_small (by omega) (by omega), status]
    omega
  · intro hm
    rw [hr] at hm
    rw [main]
    cases hp : parse {} ws with
    | file c name args =>
      obtain ⟨i1, i2, i3, e⟩ := I
      obtain ⟨st, a, b, w, s⟩ := c
      have hm : ¬ (i1 = true ∧ i2 = true ∧ (a = true → i3 = true) ∧ b = false) := fun h => hm ⟨_, _, _, hp, h⟩
      have hex : (∃ c name' args', Parsed.file ⟨st, a, b, w, s⟩ name args = .file c name' args' ∧ (c.writeAsm = true → i3 = true)) ↔ (a = true → i3 = true) :=
        ⟨fun ⟨c, _, _, e, h⟩ => by cases e; exact h, fun h => ⟨_, _, _, rfl, h⟩⟩
      simp only [hex]
      cases i1 <;> cases i2 <;> cases i3 <;> cases a <;> cases b <;> simp_all [session, status]
    | help | noStackSize | illegalStackSize => simp [status]

/-- C100: if the script ends with a code other than 0 and with a message, the message is shown; a compilation that fails is reported; nothing else is. -/
theorem C100_messages (I : Interp) (ws : List Word) :
    (∀ m, .runtimeError m ∈ (main I ws).1 ↔ .run ∈ (main I ws).1 ∧ I.ending.msg = m ∧ m ≠ [] ∧ (main I ws).2 ≠ 0) ∧
    (.compileError ∈ (main I ws).1 ↔ (∃ c name args, parse {} ws = .file c name args) ∧ (I.init = false ∨ I.compile = false)) := by
  rw [main]
  cases hp : parse {} ws with
  | file c name args =>
    obtain ⟨i1, i2, i3, e⟩ := I
    obtain ⟨st, a, b, w, s⟩ := c
    have h1 : ∀ l m, Act.runtimeError m ∈ printRuntimeError l ↔ l = m ∧ m ≠ [] := by
      intro l m
      unfold printRuntimeError
      split
      · rename_i h
        simp only [h, List.not_mem_nil, false_iff, not_and]
        exact fun h => fun h2 => h2 h.symm
      · rename_i h
        simp only [List.mem_cons, Act.runtimeError.injEq, List.not_mem_nil, or_false]
        exact ⟨fun e => ⟨e.symm, e ▸ h⟩, fun e => e.1.symm⟩
    have h2 : ∀ l, Act.compileError ∉ printRuntimeError l := by intro l; unfold printRuntimeError; split <;> simp
    have h3 : ∀ l, Act.run ∉ printRuntimeError l := by intro l; unfold printRuntimeError; split <;> simp
    by_cases h0 : umkaRun e = 0
    · cases i1 <;> cases i2 <;> cases i3 <;> cases a <;> cases b <;> simp [session, h0]
    · cases i1 <;> cases i2 <;> cases i3 <;> cases a <;> cases b <;> simp [session, h0, h1, h2, h3]
  | help | noStackSize | illegalStackSize => simp

/-! ## What is false -/

def ok (e : Ending) : Interp := ⟨true, true, true, e⟩

/-- The place of a step in the usual order. -/
def place : Act → Nat
  | .complain _ => 0
  | .init _ => 1
  | .compile => 2
  | .asm => 3
  | .run => 4
  | .compileError => 5
  | .runtimeError _ => 5

/-- C100: the script is compiled if and only if the interpreter could be initialized; the assembly listing is written if and only if it was asked for and the
script was compiled; and the steps are taken in the usual order, each at most once. -/
theorem C100_steps (I : Interp) {ws : List Word} {c : Config} {name : Word} {args : List Word} (h : parse {} ws = .file c name args) :
    (.compile ∈ (main I ws).1 ↔ I.init = true) ∧
    (.asm ∈ (main I ws).1 ↔ I.init = true ∧ I.compile = true ∧ c.writeAsm = true) ∧
    ((main I ws).1.map place).Pairwise (· < ·) := by
  rw [main, h]
  obtain ⟨i1, i2, i3, e⟩ := I
  obtain ⟨st, a, b, w, s⟩ := c
  simp only [session, printRuntimeError]
  by_cases h1 : umkaRun e = 0 <;> by_cases h2 : e.msg = [] <;> cases i1 <;> cases i2 <;> cases i3 <;> cases a <;> cases b <;>
    simp [place, h1, h2]

example : (main ⟨true, true, true, .error "m".toList⟩ ["-asm".toList, "a.um".toList]).1.map place = [1, 2, 3, 4, 5] := by decide +kernel

/-- C100 is false of codes beyond 255: a script that ends with `exit(256, "failed")` prints its message as that of an error, and the shell sees success; for
`exit(4294967296, "failed")`, `umkaRun` itself returns 0 and not even the message is shown. -/
theorem C100_exit_violated :
    ((main (ok (.exit 256 "failed".toList)) ["a.um".toList]).1.contains (.runtimeError "failed".toList) = true ∧
      status (main (ok (.exit 256 "failed".toList)) ["a.um".toList]).2 = 0) ∧
    umkaRun (.exit 4294967296 "failed".toList) = 0 ∧
    (main (ok (.exit 4294967296 "failed".toList)) ["a.um".toList]).1.contains (.runtimeError "failed".toList) = false := by decide +kernel

/-- C100 is false of stack sizes that are not numbers in the range of `int`: some are taken for other sizes. -/
theorem C100_stack_violated :
    parse {} ["-stack".toList, "4294967297".toList, "a.um".toList] = .file { stackSize := 1 } "a.um".toList [] ∧
    parse {} ["-stack".toList, "64k".toList, "a.um".toList] = .file { stackSize := 64 } "a.um".toList [] ∧
    parse {} ["-stack".toList, "4294967296".toList, "a.um".toList] = .illegalStackSize := by decide +kernel

/-- C100 is false of misspelled parameters: they are taken for the name of the file. -/
theorem C100_unknown_violated : parse {} ["-sandbx".toList, "a.um".toList] = .file {} "-sandbx".toList ["a.um".toList] := by decide +kernel

/-! ## Concrete cases -/

/-- The hypotheses of `C100_usage` hold of `-warn -stack 0x400 -asm -stack 2000 a.um -check x`. -/
example : ∃ (ps : List Param) (sz : Word → Int), (∀ t ∈ stacks ps, Size t (sz t)) ∧ "a.um".toList ∉ keywords ∧
    ps.flatMap Param.words = ["-warn".toList, "-stack".toList, "0x400".toList, "-asm".toList, "-stack".toList, "2000".toList] := by
  refine ⟨[.warn, .stack "0x400".toList, .asm, .stack "2000".toList], fun t => if t = "2000".toList then 2000 else 1024, ?_, by decide, by decide⟩
  have d : ∀ {base : Nat} {c : Char} (k : Nat), k < base → Scanf.Spec.lower[k]? = some c → Scanf.Spec.IsDigit base c k := fun k h1 h2 => ⟨h1, .inl h2⟩
  intro t ht
  have ht : t = "0x400".toList ∨ t = "2000".toList := by simpa [stacks] using ht
  rcases ht with rfl | rfl
  · refine ⟨[], _, rfl, fun _ h => (nomatch h), ?_, by decide, by decide⟩
    have : Scanf.Spec.Digits 16 ((['4'] ++ ['0']) ++ ['0']) (16 * (16 * 4 + 0) + 0) := .more (.more (.one (d 4 (by decide) rfl)) (d 0 (by decide) rfl)) (d 0 (by decide) rfl)
    exact .plain (.prefixed (x := 'x') (by decide) (by decide) this)
  · refine ⟨[], _, rfl, fun _ h => (nomatch h), ?_, by decide, by decide⟩
    have : Scanf.Spec.Digits 10 (((['2'] ++ ['0']) ++ ['0']) ++ ['0']) (10 * (10 * (10 * 2 + 0) + 0) + 0) :=
      .more (.more (.more (.one (d 2 (by decide) rfl)) (d 0 (by decide) rfl)) (d 0 (by decide) rfl)) (d 0 (by decide) rfl)
    exact .plain (.auto (by decide) this)

example : parse {} (["-warn", "-stack", "0x400", "-asm", "-stack", "2000", "a.um", "-check", "x"].map String.toList) =
    .file { stackSize := 2000, writeAsm := true, printWarnings := true } "a.um".toList ["-check".toList, "x".toList] := by decide +kernel

example : parse {} ["-asm".toList] = .help ∧ parse {} ["-asm".toList, "-stack".toList] = .noStackSize ∧ parse {} ["-stack".toList, "0".toList, "a.um".toList] = .illegalStackSize := by
  decide +kernel

example : (main (ok (.exit 3 "bad".toList)) ["a.um".toList]).1 = [.init ⟨"a.um".toList, 1048576, ["a.um".toList], true, true, false⟩, .compile, .run, .runtimeError "bad".toList] ∧
    status (main (ok (.exit 3 "bad".toList)) ["a.um".toList]).2 = 3 ∧ (main ⟨true, false, true, .normal⟩ ["a.um".toList]).1.contains .compileError = true := by decide +kernel

end Umka.Cmd.Props
