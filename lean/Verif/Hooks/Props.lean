import Verif.Hooks.Lemmas
import Verif.Frame.Props
import Verif.Trace.Props
/-! # Debug hooks: C99 -/

namespace Umka.Hooks.Props

open Umka.Frame
open Umka.Trace (Call nextCalls)

variable {p : Program} {c : Compiled p} {vm vm' : VM} {P : List Ptr} {h : Nat → List Call} {log : List Ev} {κ : Type} [DecidableEq κ] {fn : Int → κ}

/-- C99: the reports from each fiber are nested: whenever a return is reported, it is that of the innermost function that has been reported as called and not
as returned.  While a function runs, it is this innermost one, and there are as many of them as calls in progress; one less at the beginning and at the end
of a function, when it has no frame.  A fiber that has ended has reported all returns. -/
theorem C99_nested_partial (F : Functions c fn) (H : Logged p vm P h log) {k : Nat} (hk : k < vm.num) :
    ∃ o, pending fn (of k log) = some o ∧
      ((vm.fiber k).alive = true → (∀ n, c.body (vm.fiber k).ip n → o.head? = some (fn (vm.fiber k).ip) ∧ o.length = (h k).length) ∧
        ((∀ n, ¬ c.body (vm.fiber k).ip n) → o.length + 1 = (h k).length)) ∧
      ((vm.fiber k).alive = false → o = []) := by
  obtain ⟨g, hI, hc, hr, -⟩ := logged_holds F H
  obtain ⟨o, h1, h2, h3⟩ := hr k hk
  refine ⟨o, h1, fun ha => ⟨fun n hb => ?_, fun hn => ?_⟩, h3⟩
  · obtain ⟨o', rfl, hl⟩ := good_body hb (h2 ha)
    refine ⟨rfl, ?_⟩
    rw [hc k hk ha, ← rets_length, hl.length, List.length_cons]
  · rcases h2 ha with ⟨n, _, hb, -⟩ | ⟨-, hl⟩
    · exact absurd hb (hn n)
    · rw [hc k hk ha, ← rets_length, hl.length]

/-- C99: reports of a fiber that has not been made yet do not exist. -/
theorem C99_fresh (F : Functions c fn) (H : Logged p vm P h log) {k : Nat} (hk : vm.num ≤ k) : of k log = [] := by
  obtain ⟨g, -, -, -, hn⟩ := logged_holds F H
  exact hn k hk

/-- C99: when the call by the host ends, all returns of the fiber that ends it have been reported. -/
theorem C99_done (F : Functions c fn) (H : Logged p vm P h log) (hs : step p vm = .done vm') : pending fn (of vm.loc (log ++ hook p vm)) = some [] := by
  obtain ⟨g, hI, hc, hr, -⟩ := logged_holds F H
  obtain ⟨o, h1, h2, -⟩ := hr vm.loc hI.loc_lt
  have hg := h2 hI.loc_alive
  have hof : ∀ {r : Except Err VM}, Res.of r ≠ .done vm' := by intro r; cases r <;> exact fun h => (nomatch h)
  have hov : ¬ (vm.fiber vm.loc).top < minFree := by
    intro hlt
    rw [step, if_pos hlt] at hs
    cases hs
  obtain ⟨a, as, ha⟩ := hI.acts
  cases hi : p.code (vm.fiber vm.loc).ip with
  | data => simp only [step, hi, if_neg hov] at hs; exact absurd hs hof
  | block =>
    simp only [step, hi, if_neg hov] at hs
    split at hs
    · cases hs
    · exact absurd hs hof
  | jump => simp only [step, hi, if_neg hov] at hs; exact absurd hs hof
  | call => simp only [step, hi, if_neg hov] at hs; exact absurd hs hof
  | callIndirect => simp only [step, hi, if_neg hov] at hs; exact absurd hs hof
  | enter => simp only [step, hi, if_neg hov] at hs; exact absurd hs hof
  | leave => simp only [step, hi, if_neg hov] at hs; exact absurd hs hof
  | ref =>
    simp only [step, hi, if_neg hov] at hs
    split at hs
    · cases hs
    · exact absurd hs hof
  | spawn => simp only [step, hi, if_neg hov] at hs; exact absurd hs hof
  | resume => simp only [step, hi, if_neg hov, hI.loc_alive, Bool.true_eq_false, if_false] at hs; cases hs
  | ext t next =>
    simp only [step, hi, if_neg hov] at hs
    split at hs
    · cases hs
    · split at hs
      · exact absurd hs hof
      · split at hs
        · cases hs
        · split at hs
          · cases hs
          · exact absurd hs hof
  | halt =>
    have hb := hI.run.run (hI.in_body (by simp [hi]) (by simp [hi]) (by simp [hi])) a as ha
    have := c.next hb
    simp only [hi] at this
  | ret n =>
    have hhook : hook p vm = [] := by simp only [hook, hi]
    have hloops : vm.loops = [] := by
      have ex : ∀ {v : VM}, exitLoop v = .done vm' → v.loops = [] := by
        intro v hv
        unfold exitLoop at hv
        split at hv
        · assumption
        · cases hv
      simp only [step, hi, if_neg hov] at hs
      split at hs
      · split at hs
        · exact (have := ex hs; this)
        · split at hs
          · exact (have := ex hs; this)
          · cases hs
      · split at hs
        · exact (have := ex hs; this)
        · cases hs
    have hpend : (g vm.loc).pend = true := by
      cases hp : (g vm.loc).pend with
      | true => rfl
      | false =>
        have := c.next (hI.run.run hp a as ha)
        simp only [hi] at this
    have hl : Links c fn (rets (g vm.loc)) o := by
      rcases hg with ⟨_, _, hb, -⟩ | ⟨-, hl⟩
      · have := c.next hb
        simp only [hi] at this
      · exact hl
    obtain ⟨-, hval, -, -, hok⟩ := hI.run.pend hpend a as ha
    have hcb := hI.calls vm.loc hI.loc_lt hI.loc_alive
    rw [hloops, ha] at hcb
    rw [hhook, List.append_nil, h1]
    have hr : rets (g vm.loc) = a.ret :: rets { pend := false, acts := as } := by simp only [rets, keys, ha, List.map_cons]; rfl
    rw [hr] at hl
    generalize rets { pend := false, acts := as } = rs at hl
    cases hret : a.ret with
    | host => rw [hret] at hl; cases hl; rfl
    | fiber => rw [hret] at hl; cases hl; rfl
    | callback ip t =>
      have : callbacks (a :: as) = (ip, t) :: callbacks as := by simp only [callbacks, List.filterMap_cons, hret]
      rw [this] at hcb
      split at hcb <;> cases hcb
    | code ip =>
      rw [hret] at hl hval
      cases hl with
      | code hb _ =>
        have hnn := c.nonneg hb
        have hval : (vm.fiber vm.loc).stack (vm.fiber vm.loc).top = ip := hval
        have h1 : ¬ ip = retFiber := by unfold retFiber; omega
        have h2 : ¬ ip = retVM := by unfold retVM; omega
        simp only [step, hi, if_neg hov, hval, if_neg h1, hI.loc_alive, h2, Bool.true_eq_false, or_false, if_false] at hs
        cases hs

/-- C99: a report names the file and the function that the instruction was written in, and one of its lines; so a report of a return names the same
function as the report of the call. -/
theorem C99_reports {ω : Type} (e : Peephole.Env ω) {file : String} {ds : Trace.Decls} {s : Trace.St} (hs : Trace.compileProgram e file ds = .ok s)
    {ev : Ev} {f : Trace.Fn} (ho : Trace.owner s.table ev.ip.toNat = some f) :
    ∃ d, report s.gen.code ev = some (ev.call, d) ∧ d.file = f.file ∧ d.line ∈ f.lines ∧ (f.ext = false → d.fn = f.name) := by
  obtain ⟨hf, hlo, hhi⟩ := Trace.owner_some ho
  have hstop := ((Trace.Props.C88_ranges e hs).1 f hf).2.1
  have hget : s.gen.code[ev.ip.toNat]? = some (s.gen.code[ev.ip.toNat]'(by omega)) := List.getElem?_eq_getElem _
  have := Trace.Props.C88_location_partial e hs hget ho
  exact ⟨_, by rw [report, hget]; rfl, this.2.1, this.2.2.1, this.2.2.2⟩

/-! ## Concrete cases -/

def functionsB (T : List (Int × Instr)) (layouts : List Layout) (L : List (Int × Nat)) (fn : Int → Int) : Bool :=
  (T.all fun x => match x.2 with
    | .enter _ => fn (x.1 + 1) == fn x.1
    | _ => true) &&
  (L.all fun x => match (mk T layouts).code x.1 with
    | .jump _ => false
    | .leave | .enter _ | .ret _ | .halt => true
    | _ => fn (x.1 + 1) == fn x.1)

theorem functionsB_ok {T : List (Int × Instr)} {layouts : List Layout} {L : List (Int × Nat)} {fn : Int → Int} {hc : compiledB T layouts L = true}
    (h : functionsB T layouts L fn = true) : Functions (compiled T layouts L hc) fn := by
  simp only [functionsB, Bool.and_eq_true, List.all_eq_true] at h
  constructor
  · intro ip l hc
    have hm : (ip, Instr.enter l) ∈ T := by
      simp only [mk] at hc
      cases hl : T.lookup ip with
      | none => rw [hl] at hc; cases hc
      | some x => rw [hl] at hc; simp at hc; rw [hc] at hl; exact lookup_mem hl
    simpa using h.1 _ hm
  · intro ip n hb
    have := h.2 (ip, n) hb
    cases hi : (mk T layouts).code ip <;> simp only [hi] at this ⊢ <;> first | trivial | (simpa using this) | cases this

/-- Executing instructions, with calls in progress and reports. -/
def run (T : List (Int × Instr)) (layouts : List Layout) : Nat → VM × List Ptr × (Nat → List Call) × List Ev → Option (VM × List Ptr × (Nat → List Call) × List Ev)
  | 0, x => some x
  | n + 1, (vm, P, h, log) =>
    if validB T layouts vm P && isOk (step (mk T layouts) vm) then
      run T layouts n (nextVM (mk T layouts) vm, pointers (mk T layouts) vm P, nextCalls (mk T layouts) vm h, log ++ hook (mk T layouts) vm)
    else none

theorem run_ok {T : List (Int × Instr)} {layouts : List Layout} : ∀ {n : Nat} {x y : VM × List Ptr × (Nat → List Call) × List Ev}, run T layouts n x = some y →
    Logged (mk T layouts) x.1 x.2.1 x.2.2.1 x.2.2.2 → Logged (mk T layouts) y.1 y.2.1 y.2.2.1 y.2.2.2
  | 0, _, _, h, H => by cases h; exact H
  | n + 1, (vm, P, h, log), y, hg, H => by
    simp only [run] at hg
    split at hg
    · rename_i hv
      rw [Bool.and_eq_true] at hv
      exact run_ok hg (.step H (validB_ok hv.1) (isOk_ok hv.2))
    · cases hg

/-- The sample program of `Frame`: calls, a callback and a fiber. -/
def at_ (n : Nat) : VM × List Ptr × (Nat → List Call) × List Ev :=
  match start 2000 1 [] with
  | .ok vm => (run Frame.Props.code Frame.Props.layouts n (vm, [], fun _ => [.outside], [])).getD (vm, [], fun _ => [.outside], [])
  | .error _ => (⟨fun _ => ⟨0, fun _ => 0, 0, 0, 0, false, none⟩, 0, 0, 0, []⟩, [], fun _ => [], [])

theorem at_logged (n : Nat) (hn : (match start 2000 1 [] with
    | .ok vm => (run Frame.Props.code Frame.Props.layouts n (vm, [], fun _ => [.outside], [])).isSome
    | .error _ => false) = true) : Logged (mk Frame.Props.code Frame.Props.layouts) (at_ n).1 (at_ n).2.1 (at_ n).2.2.1 (at_ n).2.2.2 := by
  unfold at_
  cases hs : start 2000 1 [] with
  | error e => rw [hs] at hn; cases hn
  | ok vm =>
    rw [hs] at hn
    obtain ⟨y, hy⟩ := Option.isSome_iff_exists.mp hn
    simp only [hy, Option.getD_some]
    exact run_ok hy (.start (params := []) hs (.enter (l := 0) rfl))

/-- The functions of the sample: the main function (1), a function (20) and the function of a fiber (40). -/
def sampleFn (ip : Int) : Int := if ip < 20 then 1 else if ip < 40 then 20 else 40

theorem sample_functions : Functions Frame.Props.sample sampleFn := functionsB_ok (by decide +kernel)

/-- The sample runs to its end; the reports of the main function are nested. -/
example : (at_ 28).2.2.2 = [⟨0, true, 1⟩, ⟨0, true, 20⟩, ⟨0, false, 22⟩, ⟨0, true, 20⟩, ⟨0, false, 22⟩, ⟨1, true, 40⟩, ⟨1, false, 43⟩, ⟨0, false, 14⟩] ∧
    pending sampleFn (of 0 (at_ 28).2.2.2) = some [] := ⟨by decide +kernel, by decide +kernel⟩

example : Logged (mk Frame.Props.code Frame.Props.layouts) (at_ 28).1 (at_ 28).2.1 (at_ 28).2.2.1 (at_ 28).2.2.2 ∧ (at_ 28).1.num = 2 ∧
    (match step (mk Frame.Props.code Frame.Props.layouts) (at_ 28).1 with | .done _ => true | _ => false) = true :=
  ⟨at_logged 28 (by decide +kernel), by decide +kernel, by decide +kernel⟩

/-- In the middle of the callback, two calls are open. -/
example : pending sampleFn (of 0 (at_ 11).2.2.2) = some [20, 1] ∧ ((at_ 11).2.2.1 0).length = 2 ∧ ((at_ 11).1.fiber 0).alive = true := ⟨by decide +kernel, by decide +kernel, by decide +kernel⟩

/-- The call and the return of `g` in the sample of `Trace`. -/
example : Trace.compileProgram Peephole.Props.sampleEnv "a.um" Trace.Props.source = .ok Trace.Props.compiledSource ∧
    (Trace.owner Trace.Props.compiledSource.table 5).map (·.name) = some "g" ∧
    report Trace.Props.compiledSource.gen.code ⟨0, true, 5⟩ = some (true, ⟨"a.um", "g", 7⟩) ∧
    report Trace.Props.compiledSource.gen.code ⟨0, false, 9⟩ = some (false, ⟨"a.um", "g", 7⟩) :=
  ⟨Trace.Props.result_ok (by decide +kernel), by decide +kernel, by decide +kernel, by decide +kernel⟩

/-! ### All fibers together

A main function that returns while the fiber it has made is suspended. -/

def code2 : List (Int × Instr) :=
  [ (1, .enter 0), (2, .block 0 (fun _ => [7, 8])), (3, .spawn 0 (fun _ => 40) (fun _ => (0, 0))), (4, .data 0 (fun _ => [1]) (fun _ => [])), (5, .resume (fun _ => some 1)),
    (6, .leave), (7, .ret 0),
    (40, .enter 2), (41, .data 0 (fun _ => [0]) (fun _ => [])), (42, .resume (fun _ => none)), (43, .leave), (44, .ret 2) ]

def bodies2 : List (Int × Nat) := [ (2, 0), (3, 0), (4, 0), (5, 0), (6, 0), (41, 2), (42, 2), (43, 2) ]

def sample2 : Compiled (mk code2 Frame.Props.layouts) := compiled code2 Frame.Props.layouts bodies2 (by decide +kernel)

def at2 (n : Nat) : VM × List Ptr × (Nat → List Call) × List Ev :=
  match start 2000 1 [] with
  | .ok vm => (run code2 Frame.Props.layouts n (vm, [], fun _ => [.outside], [])).getD (vm, [], fun _ => [.outside], [])
  | .error _ => (⟨fun _ => ⟨0, fun _ => 0, 0, 0, 0, false, none⟩, 0, 0, 0, []⟩, [], fun _ => [], [])

/-- C99 is false of all fibers together, and a report does not tell the fiber it comes from: the return of the main function is reported while the function
of the fiber is the last one that has been reported as called. -/
theorem C99_fibers_violated : ∃ (p : Program) (c : Compiled p) (vm : VM) (P : List Ptr) (h : Nat → List Call) (log : List Ev),
    Functions c sampleFn ∧ Logged p vm P h log ∧ log = [⟨0, true, 1⟩, ⟨1, true, 40⟩, ⟨0, false, 6⟩] ∧ pending sampleFn log = none := by
  refine ⟨_, sample2, (at2 9).1, (at2 9).2.1, (at2 9).2.2.1, (at2 9).2.2.2, functionsB_ok (by decide +kernel), ?_, by decide +kernel, by decide +kernel⟩
  have hn : (match start 2000 1 [] with
    | .ok vm => (run code2 Frame.Props.layouts 9 (vm, [], fun _ => [.outside], [])).isSome
    | .error _ => false) = true := by decide +kernel
  unfold at2
  cases hs : start 2000 1 [] with
  | error e => rw [hs] at hn; cases hn
  | ok vm =>
    rw [hs] at hn
    obtain ⟨y, hy⟩ := Option.isSome_iff_exists.mp hn
    simp only [hy, Option.getD_some]
    exact run_ok hy (.start (params := []) hs (.enter (l := 0) rfl))

end Umka.Hooks.Props
