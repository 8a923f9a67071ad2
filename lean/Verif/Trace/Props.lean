import Verif.Trace.Marks
import Verif.Trace.Dyn
import Verif.Trace.Erase
import Verif.Peephole.Props

/-!
# Source locations and the call stack: properties

C88: the report of a run-time error names the file, the function and a line of the code that failed.
C89: the call stack lists the calls that have not returned.
-/

namespace Umka.Trace.Props
open Umka.Frame (Program VM Ptr Compiled Valid Entry)
open Umka.Peephole (Instr R Env)

variable {ω : Type}

/-! ## A sample program

```
 1  fn f(x: int): int        // a prototype
 2  import "b.um"            // with one function, at lines 1 to 3
 3  fn main() {
 4      f(1)
 5      g := fn () {
 6          f(2)
 7      }
 8      for ... { break }
 9  }
10  fn f(x: int): int {
11      return ...
12  }
    fn ext()                 // an external function
```
-/

def lit : Code := .tok 6 (.op (.push (.ord .int) 2) (.call (.tok 7 .nil)))

def mainBody : Code :=
  .tok 4 (.op (.push (.ord .int) 1) (.call (.tok 5 (.lit 5 8 lit .nil
    (.tok 8 (.scope .brk (.block true 0 (.exit .brk .nil) .nil) (.tok 9 .nil)))))))

def fBody : Code := .tok 11 (.op (.pushLocalPtr 16) (.op (.deref (.ord .int)) (.exit .ret (.tok 12 .nil))))

def program : Decls :=
  .tok 1 (.proto "f" (.tok 2 (.import "b.um" (.fn "h" "h" 1 4 (.tok 2 (.op .dup (.tok 3 .nil))) .nil .nil)
    (.fn "main" "main" 3 10 mainBody .nil (.fn "f" "f" 10 13 fBody .nil (.proto "ext" .nil))))))

/-- The state of the compiler at the end of a program. -/
def result (file : String) (ds : Decls) : St :=
  match compileProgram Peephole.Props.sampleEnv file ds with
  | .ok s => s
  | _ => ⟨⟨[], 0, ⟨"", "", 0⟩⟩, fun _ => none, [], []⟩

def isOk : R St → Bool
  | .ok _ => true
  | _ => false

theorem result_ok {file : String} {ds : Decls} (h : isOk (compileProgram Peephole.Props.sampleEnv file ds) = true) :
    compileProgram Peephole.Props.sampleEnv file ds = .ok (result file ds) := by
  unfold result
  cases hc : compileProgram Peephole.Props.sampleEnv file ds with
  | ok s => rfl
  | err e => rw [hc] at h; cases h
  | ub => rw [hc] at h; cases h

def sample : St := result "a.um" program

theorem sample_ok : compileProgram Peephole.Props.sampleEnv "a.um" program = .ok sample := result_ok (by decide +kernel)

/-! ## C88: locations -/

/-- Every instruction of a function is located in the file and in the function it was written in, at the line of a
token of that function.  (For external functions, only the file and the line.) -/
theorem C88_location_partial (e : Env ω) {file : String} {ds : Decls} {s : St} (h : compileProgram e file ds = .ok s)
    {ip : Nat} {c : Cell} {f : Fn} (hc : s.gen.code[ip]? = some c) (ho : owner s.table ip = some f) :
    errorAt s.gen.code ip = some c.debug ∧ c.debug.file = f.file ∧ c.debug.line ∈ f.lines ∧ (f.ext = false → c.debug.fn = f.name) := by
  obtain ⟨hm, -⟩ := program_mod e h
  obtain ⟨h1, h2, h3⟩ := hm.own ip c f hc ho
  exact ⟨by simp [errorAt, hc], h1, h3, h2⟩

/-- The functions are those of the program, in the order of their closing braces. -/
theorem C88_functions (e : Env ω) {file : String} {ds : Decls} {s : St} (h : compileProgram e file ds = .ok s) :
    (s.table.filter (fun f => !f.ext)).map (fun f => Source.mk f.file f.name f.lines) = ds.functions file :=
  (program_mod e h).2

/-- Their code begins with setting up the frame and ends with returning; the code of two functions is apart, or the first
is a literal inside the second. -/
theorem C88_ranges (e : Env ω) {file : String} {ds : Decls} {s : St} (h : compileProgram e file ds = .ok s) :
    (∀ f ∈ s.table, f.start < f.stop ∧ f.stop ≤ s.gen.code.length ∧ (∃ d, s.gen.code[f.start]? = some ⟨.enter, d⟩) ∧
      ∃ d, s.gen.code[f.stop - 1]? = some ⟨.ret, d⟩) ∧
    ∀ (i j : Nat) (a b : Fn), i < j → s.table[i]? = some a → s.table[j]? = some b →
      (a.stop ≤ b.start ∨ b.stop ≤ a.start) ∨ (b.start < a.start ∧ a.stop < b.stop) := by
  obtain ⟨hm, -⟩ := program_mod e h
  have op : ∀ {ip : Nat} {o : Op}, opAt s.gen.code ip = some o → ∃ d, s.gen.code[ip]? = some ⟨o, d⟩ := by
    intro ip o ho
    unfold opAt at ho
    cases hc : s.gen.code[ip]? with
    | none => rw [hc] at ho; cases ho
    | some c => rw [hc] at ho; cases ho; exact ⟨c.debug, rfl⟩
  refine ⟨fun f hf => ⟨(hm.ends f hf).lt, hm.stops f hf, op (hm.ends f hf).enter, op (hm.ends f hf).ret⟩, ?_⟩
  intro i j a b hij ha hb
  obtain ⟨hi, ha⟩ := List.getElem?_eq_some_iff.mp ha
  obtain ⟨hj, hb⟩ := List.getElem?_eq_some_iff.mp hb
  have := List.pairwise_iff_getElem.mp hm.nest i j hi hj hij
  rw [ha, hb] at this
  rcases this with h | h | h
  · exact .inl (.inl h)
  · exact .inl (.inr h)
  · exact .inr h

/-- Every call of a function is an instruction of a function, and so is the instruction after it, of the same one. -/
theorem C88_calls (e : Env ω) {file : String} {ds : Decls} {s : St} (h : compileProgram e file ds = .ok s) {ip : Nat} {d : Debug}
    (hc : s.gen.code[ip]? = some ⟨.call, d⟩) : ∃ f, owner s.table ip = some f ∧ owner s.table (ip + 1) = some f := by
  obtain ⟨hm, -⟩ := program_mod e h
  exact call_next hm (by simp [opAt, hc])

/-- Locations do not change what is generated: without them, it is the code of the optimizer of `Verif/Peephole`. -/
theorem C88_same_code (e : Env ω) (g : Gen) (i : Instr) : eraseR (gen e g i) = Peephole.gen e (erase g) i := erase_gen e g i

/-- The sample: two calls, in `main` and in the literal, with the locations of the instructions. -/
example : sample.table.map (fun f => (f.start, f.stop, f.name, f.ext)) =
      [(2, 6, "h", false), (10, 15, "<unknown>", false), (6, 19, "main", false), (19, 24, "f", false), (25, 29, "ext", true)] ∧
    (sample.table.map (·.lines)) = [[1, 2, 3], [5, 6, 7], [3, 4, 5, 8, 8, 9], [10, 11, 12], [13]] ∧
    (owner sample.table 12).map (·.name) = some "<unknown>" ∧ (owner sample.table 8).map (·.name) = some "main" ∧
    errorAt sample.gen.code 3 = some ⟨"b.um", "h", 2⟩ ∧ errorAt sample.gen.code 8 = some ⟨"a.um", "main", 4⟩ ∧
    errorAt sample.gen.code 12 = some ⟨"a.um", "<unknown>", 6⟩ ∧ errorAt sample.gen.code 17 = some ⟨"a.um", "main", 9⟩ := by
  decide +kernel

/-- The instructions that can fail are, in this order, those of the source code without those that the compiler has evaluated;
each is located in the file and the function it was written in, at the line of the last token before it.  Calls, indexing
of dynamic arrays and maps, assertions and most built-in functions are never evaluated by the compiler. -/
theorem C88_lines (e : Env ω) {file : String} {ds : Decls} {s : St} (h : compileProgram e file ds = .ok s) :
    (marks s.gen.code).Sublist (ds.marks file) ∧
    (marks s.gen.code).filter (fun x => x.1.always) = (ds.marks file).filter (fun x => x.1.always) := by
  have := program_marks e h
  exact ⟨this.sub, this.all⟩

/-- `fn main() {`, at line 2 `a[i]`, at line 3 `2 + 3`, which is evaluated, and a call with an indirect result at line 4. -/
def indexing : Decls :=
  .fn "main" "main" 1 6 (.tok 2 (.op (.pushLocalPtr 16) (.op .getDynArrayPtr (.op (.deref (.ord .int))
    (.tok 3 (.op (.push (.ord .int) 2) (.op (.push (.ord .int) 3) (.op (.binary .plus (.ord .int))
    (.tok 4 (.call (.op .dup (.op (.other 7) (.tok 5 .nil))))))))))))) .nil .nil

example : compileProgram Peephole.Props.sampleEnv "a.um" indexing = .ok (result "a.um" indexing) ∧
    (marks (result "a.um" indexing).gen.code).map (·.2) = [⟨"a.um", "main", 2⟩, ⟨"a.um", "main", 4⟩, ⟨"a.um", "main", 4⟩] ∧
    (indexing.marks "a.um").map (·.2) =
      [⟨"a.um", "main", 2⟩, ⟨"a.um", "main", 2⟩, ⟨"a.um", "main", 3⟩, ⟨"a.um", "main", 4⟩, ⟨"a.um", "main", 4⟩] ∧
    (program.marks "a.um").map (·.2) = [⟨"a.um", "main", 4⟩, ⟨"a.um", "<unknown>", 6⟩, ⟨"a.um", "f", 11⟩] :=
  ⟨result_ok (by decide +kernel), by decide +kernel, by decide +kernel, by decide +kernel⟩

/-- A stack overflow on entering a function is reported at the line of its closing brace, and so is the call hook:
here the header of `main` is at line 3. -/
theorem C88_entry_line_violated : ∃ (ds : Decls) (s : St) (f : Fn), compileProgram Peephole.Props.sampleEnv "a.um" ds = .ok s ∧
    f ∈ s.table ∧ f.name = "main" ∧ f.lines.head? = some 3 ∧ errorAt s.gen.code f.start = some ⟨"a.um", "main", 9⟩ :=
  ⟨program, sample, sample.table[2]'(by decide +kernel), sample_ok, List.getElem_mem _, by decide +kernel, by decide +kernel,
    by decide +kernel⟩

/-- An error in an external function is reported in no function, at the last line of the module: here, the prototype of
`ext` is at line 1, and the module ends at line 7. -/
theorem C88_external_violated : ∃ (ds : Decls) (s : St) (f : Fn), compileProgram Peephole.Props.sampleEnv "a.um" ds = .ok s ∧
    ds = .tok 1 (.proto "ext" (.tok 7 .nil)) ∧ f ∈ s.table ∧ f.name = "ext" ∧ f.ext = true ∧
    errorAt s.gen.code (f.start + 1) = some ⟨"a.um", "<unknown>", 7⟩ :=
  ⟨_, result "a.um" (.tok 1 (.proto "ext" (.tok 7 .nil))), (result "a.um" (.tok 1 (.proto "ext" (.tok 7 .nil)))).table[0]'(by decide +kernel),
    result_ok (by decide +kernel), rfl, List.getElem_mem _, by decide +kernel, by decide +kernel, by decide +kernel⟩

/-! ## C89: the call stack -/

variable {p : Program} {vm : VM} {P : List Ptr} {h : Nat → List Call}

/-- The first entry of the call stack is the running instruction; the following ones are behind the calls that have not
returned, innermost first, up to the one that was made from outside; there are no more. -/
theorem C89_callers_partial (c : Compiled p) (H : History p vm P h) {n : Nat} (hb : c.body (vm.fiber vm.cur).ip n) (d : Nat) :
    callStack vm 0 = some (vm.fiber vm.cur).ip ∧
    callStack vm (d + 1) = ((callers (h vm.cur))[d]?).map (· + 1) := by
  obtain ⟨g, hI, hg⟩ := history_inv c H
  have hF := hI.fib vm.cur hI.cur hI.alive
  have hp := Frame.body_not_pend hF hb
  refine ⟨rfl, ?_⟩
  rw [hg vm.cur hI.cur hI.alive]
  have := hF.frames
  rw [Frame.entered_run hp] at this
  exact callStackFrom_frames (ip := (vm.fiber vm.cur).ip) this

/-- The calls in progress are calls of the program. -/
theorem calls_from (H : History p vm P h) : ∀ (k : Nat) (ip : Int), .from ip ∈ h k →
    (∃ e, p.code ip = .call e) ∨ ∃ m, p.code ip = .callIndirect m := by
  induction H with
  | start => intro k ip hm; simp at hm
  | @step vm vm' P h H hv hs ih =>
    intro k ip hm
    have put : ∀ {h : Nat → List Call} {j : Nat} {l : List Call}, .from ip ∈ putCalls h j l k → .from ip ∈ l ∨ .from ip ∈ h k := by
      intro h j l hm
      simp only [putCalls] at hm
      split at hm
      · exact .inl hm
      · exact .inr hm
    simp only [nextCalls] at hm
    cases hi : p.code (vm.fiber vm.loc).ip with
    | call e =>
      rw [hi] at hm
      rcases put hm with hm | hm
      · rcases List.mem_cons.mp hm with e' | hm
        · cases e'; exact .inl ⟨e, hi⟩
        · exact ih _ _ hm
      · exact ih _ _ hm
    | callIndirect m =>
      rw [hi] at hm
      rcases put hm with hm | hm
      · rcases List.mem_cons.mp hm with e' | hm
        · cases e'; exact .inr ⟨m, hi⟩
        · exact ih _ _ hm
      · exact ih _ _ hm
    | ext t next =>
      rw [hi] at hm
      simp only at hm
      split at hm
      · rcases put hm with hm | hm
        · rcases List.mem_cons.mp hm with e' | hm
          · cases e'
          · exact ih _ _ hm
        · exact ih _ _ hm
      · exact ih _ _ hm
    | ret n =>
      rw [hi] at hm
      rcases put hm with hm | hm
      · exact ih _ _ (List.mem_of_mem_tail hm)
      · exact ih _ _ hm
    | spawn =>
      rw [hi] at hm
      rcases put hm with hm | hm
      · simp at hm
      · exact ih _ _ hm
    | _ => rw [hi] at hm; exact ih _ _ hm

theorem callers_mem : ∀ {l : List Call} {ip : Int}, ip ∈ callers l → .from ip ∈ l
  | .from i :: l, ip, h => by
    rcases List.mem_cons.mp h with e | h
    · rw [e]; simp
    · exact List.mem_cons_of_mem _ (callers_mem h)
  | .outside :: _, _, h => by simp [callers] at h
  | [], _, h => by simp [callers] at h

/-- The machine runs the code of the compiler, as far as calls are concerned. -/
def Runs (p : Program) (code : List Cell) : Prop :=
  ∀ ip, ((∃ e, p.code ip = .call e) ∨ ∃ m, p.code ip = .callIndirect m) → ∃ (n : Nat) (d : Debug), ip = n ∧ code[n]? = some ⟨.call, d⟩

/-- Every entry of the call stack but the first names the file and the function that the call in progress was written in,
and a line of that function. -/
theorem C89_locations_partial (e : Env ω) {file : String} {ds : Decls} {s : St} (hs : compileProgram e file ds = .ok s)
    (hr : Runs p s.gen.code) (c : Compiled p) (H : History p vm P h) {n : Nat} (hb : c.body (vm.fiber vm.cur).ip n) (d : Nat) :
    match (callers (h vm.cur))[d]? with
    | none => callStackDebug s.gen.code vm (d + 1) = none
    | some ip => ∃ f loc, owner s.table ip.toNat = some f ∧ callStackDebug s.gen.code vm (d + 1) = some loc ∧
        loc.file = f.file ∧ loc.line ∈ f.lines ∧ (f.ext = false → loc.fn = f.name) := by
  have h1 := (C89_callers_partial c H hb d).2
  cases hc : (callers (h vm.cur))[d]? with
  | none => rw [hc] at h1; simp only [callStackDebug, h1]; rfl
  | some ip =>
    rw [hc] at h1
    obtain ⟨m, dd, rfl, hcell⟩ := hr ip (calls_from H vm.cur ip (callers_mem (List.mem_of_getElem? hc)))
    obtain ⟨f, ho, ho'⟩ := C88_calls e hs hcell
    obtain ⟨hm, -⟩ := program_mod e hs
    obtain ⟨hf, hlo, hhi⟩ := owner_some ho'
    have hlt := hm.stops f hf
    have hget : s.gen.code[m + 1]? = some (s.gen.code[m + 1]'(by omega)) := List.getElem?_eq_getElem _
    have := C88_location_partial e hs hget ho'
    refine ⟨f, _, ho, ?_, this.2.1, this.2.2.1, this.2.2.2⟩
    simp only [callStackDebug, h1, Option.map_some, Option.bind_some]
    rw [if_neg (by omega), show ((m : Int) + 1).toNat = m + 1 by omega]
    exact this.1

/-! A sample: `main` calls `g`, which calls `f`.

```
 1  fn f(n: int) {
 2      ...
 3  }
 4  fn g() {
 5      f(1)
 6      ...
 7  }
 8  fn main() {
 9      g()
10      ...
11  }
```
-/

def source : Decls :=
  .fn "f" "f" 1 4 (.tok 2 (.op .dup (.tok 3 .nil))) .nil
    (.fn "g" "g" 4 8 (.tok 5 (.op (.push (.ord .int) 1) (.call (.tok 6 (.op .dup (.tok 7 .nil)))))) .nil
      (.fn "main" "main" 8 12 (.tok 9 (.op .dup (.call (.tok 10 (.op .dup (.tok 11 .nil)))))) .nil .nil))

/-- The same program, for the machine; `locals`: slots of local variables of `f`. -/
def table : List (Int × Frame.Instr) :=
  [ (1, .enter 0), (2, .data 0 (fun _ => [3]) (fun _ => [])), (3, .leave), (4, .ret 1),
    (5, .enter 1), (6, .data 0 (fun _ => [1]) (fun _ => [])), (7, .call 1), (8, .data 0 (fun _ => []) (fun _ => [])), (9, .leave), (10, .ret 0),
    (11, .enter 1), (12, .data 0 (fun _ => []) (fun _ => [])), (13, .call 5), (14, .data 0 (fun _ => []) (fun _ => [])), (15, .leave), (16, .ret 0) ]

def layouts (locals : Nat) : List Frame.Layout := [⟨1, locals⟩, ⟨0, 0⟩]

def machine (locals : Nat) : Program := Frame.mk table (layouts locals)

def bodies : List (Int × Nat) := [(2, 1), (3, 1), (6, 0), (7, 0), (8, 0), (9, 0), (12, 0), (13, 0), (14, 0), (15, 0)]

def compiled0 : Compiled (machine 0) := Frame.compiled table (layouts 0) bodies (by decide +kernel)

/-- Executing instructions, with the calls in progress. -/
def go (locals : Nat) : Nat → VM × List Ptr × (Nat → List Call) → Option (VM × List Ptr × (Nat → List Call))
  | 0, x => some x
  | n + 1, (vm, P, h) =>
    if Frame.validB table (layouts locals) vm P && Frame.isOk (Frame.step (machine locals) vm) then
      go locals n (Frame.nextVM (machine locals) vm, Frame.pointers (machine locals) vm P, nextCalls (machine locals) vm h)
    else none

theorem go_ok {locals : Nat} : ∀ {n : Nat} {x y : VM × List Ptr × (Nat → List Call)}, go locals n x = some y →
    History (machine locals) x.1 x.2.1 x.2.2 → History (machine locals) y.1 y.2.1 y.2.2
  | 0, _, _, h, H => by cases h; exact H
  | n + 1, (vm, P, h), y, hg, H => by
    simp only [go] at hg
    split at hg
    · rename_i hv
      rw [Bool.and_eq_true] at hv
      exact go_ok hg (.step H (Frame.validB_ok hv.1) (Frame.isOk_ok hv.2))
    · cases hg

/-- The state after `n` instructions of `main`, on a stack of 2000 slots. -/
def at_ (locals n : Nat) : VM × List Ptr × (Nat → List Call) :=
  match Frame.start 2000 11 [] with
  | .ok vm => (go locals n (vm, [], fun _ => [.outside])).getD (vm, [], fun _ => [.outside])
  | .error _ => (⟨fun _ => ⟨0, fun _ => 0, 0, 0, 0, false, none⟩, 0, 0, 0, []⟩, [], fun _ => [])

theorem at_history (locals n : Nat) (hn : (match Frame.start 2000 11 [] with
    | .ok vm => (go locals n (vm, [], fun _ => [.outside])).isSome
    | .error _ => false) = true) : History (machine locals) (at_ locals n).1 (at_ locals n).2.1 (at_ locals n).2.2 := by
  unfold at_
  cases hs : Frame.start 2000 11 [] with
  | error e => rw [hs] at hn; cases hn
  | ok vm =>
    rw [hs] at hn
    obtain ⟨y, hy⟩ := Option.isSome_iff_exists.mp hn
    simp only [hy, Option.getD_some]
    exact go_ok hy (.start (params := []) hs (.enter (l := 1) rfl))

def compiledSource : St := result "a.um" source

theorem source_ok : compileProgram Peephole.Props.sampleEnv "a.um" source = .ok compiledSource := result_ok (by decide +kernel)

theorem source_runs (locals : Nat) : Runs (machine locals) compiledSource.gen.code := by
  have key : ∀ ip, ((∃ e, (machine locals).code ip = .call e) ∨ ∃ m, (machine locals).code ip = .callIndirect m) → ip = 7 ∨ ip = 13 := by
    intro ip h
    have : ∀ (T : List (Int × Frame.Instr)), ((∃ e, (T.lookup ip).getD .halt = .call e) ∨ ∃ m, (T.lookup ip).getD .halt = .callIndirect m) →
        ∃ x ∈ T, x.1 = ip ∧ (match x.2 with | .call _ | .callIndirect _ => true | _ => false) = true := by
      intro T h
      cases hl : T.lookup ip with
      | none => rw [hl] at h; rcases h with ⟨e, h⟩ | ⟨e, h⟩ <;> cases h
      | some i =>
        rw [hl] at h
        refine ⟨(ip, i), Frame.lookup_mem hl, rfl, ?_⟩
        rcases h with ⟨e, h⟩ | ⟨e, h⟩ <;> (simp only [Option.getD_some] at h; subst h; rfl)
    obtain ⟨x, hx, rfl, hc⟩ := this table h
    simp only [table, List.mem_cons, List.not_mem_nil, or_false] at hx
    rcases hx with rfl | rfl | rfl | rfl | rfl | rfl | rfl | rfl | rfl | rfl | rfl | rfl | rfl | rfl | rfl | rfl <;> first | exact .inl rfl | exact .inr rfl | (exact absurd hc (by decide))
  intro ip h
  rcases key ip h with rfl | rfl
  · exact ⟨7, ⟨"a.um", "g", 5⟩, rfl, rfl⟩
  · exact ⟨13, ⟨"a.um", "main", 9⟩, rfl, rfl⟩

/-- In `f`: two calls in progress. -/
example : History (machine 0) (at_ 0 7).1 (at_ 0 7).2.1 (at_ 0 7).2.2 ∧
    compiled0.body ((at_ 0 7).1.fiber (at_ 0 7).1.cur).ip 1 ∧ callers ((at_ 0 7).2.2 (at_ 0 7).1.cur) = [7, 13] ∧
    callStack (at_ 0 7).1 0 = some 2 ∧ callStack (at_ 0 7).1 1 = some 8 ∧ callStack (at_ 0 7).1 2 = some 14 ∧ callStack (at_ 0 7).1 3 = none ∧
    callStackDebug compiledSource.gen.code (at_ 0 7).1 0 = some ⟨"a.um", "f", 2⟩ ∧
    (owner compiledSource.table 7).map (·.name) = some "g" ∧ (owner compiledSource.table 13).map (·.name) = some "main" :=
  ⟨at_history 0 7 (by decide +kernel), show _ ∈ bodies by decide +kernel, by decide +kernel, by decide +kernel, by decide +kernel,
    by decide +kernel, by decide +kernel, by decide +kernel, by decide +kernel, by decide +kernel⟩

/-- The line of a call in the call stack is that of the instruction after the call: here line 6, although `g` calls
`f` at line 5. -/
theorem C89_line_violated : ∃ (p : Program) (s : St) (vm : VM) (P : List Ptr) (h : Nat → List Call),
    compileProgram Peephole.Props.sampleEnv "a.um" source = .ok s ∧ Runs p s.gen.code ∧ History p vm P h ∧
    (callers (h vm.cur)).head? = some 7 ∧ errorAt s.gen.code 7 = some ⟨"a.um", "g", 5⟩ ∧
    callStackDebug s.gen.code vm 1 = some ⟨"a.um", "g", 6⟩ :=
  ⟨machine 0, compiledSource, (at_ 0 7).1, (at_ 0 7).2.1, (at_ 0 7).2.2, source_ok, source_runs 0, at_history 0 7 (by decide +kernel),
    by decide +kernel, by decide +kernel, by decide +kernel⟩

/-- When there is no room for the variables of a function, the caller is missing from the call stack: `g` called `f`, but the
entry after `f` is that of `main`. -/
theorem C89_overflow_violated : ∃ (p : Program) (s : St) (vm : VM) (P : List Ptr) (h : Nat → List Call),
    compileProgram Peephole.Props.sampleEnv "a.um" source = .ok s ∧ Runs p s.gen.code ∧ History p vm P h ∧
    callers (h vm.cur) = [7, 13] ∧ Frame.step p vm = .err .overflow ∧
    callStackDebug s.gen.code vm 0 = some ⟨"a.um", "f", 3⟩ ∧ callStackDebug s.gen.code vm 1 = some ⟨"a.um", "main", 10⟩ ∧
    callStackDebug s.gen.code vm 2 = none :=
  ⟨machine 5000, compiledSource, (at_ 5000 6).1, (at_ 5000 6).2.1, (at_ 5000 6).2.2, source_ok, source_runs 5000,
    at_history 5000 6 (by decide +kernel), by decide +kernel, Frame.errOf_ok (by decide +kernel), by decide +kernel, by decide +kernel,
    by decide +kernel⟩

end Umka.Trace.Props
