import Verif.Api.Lemmas

/-!
# Api: property C54
-/

namespace Umka.Api.Props

/-- What the host sees of a history. -/
def seen (s : St) (ops : List Op) : Option (List Int × Bool × Int × List Int × Nat) :=
  (session s ops).map (fun x => (x.1, umkaAlive x.2, x.2.code, x.2.faults, x.2.steps))

/-- **C54, dead for ever.**  No history of API calls makes a dead interpreter alive. -/
theorem C54_dead (s : St) (h : umkaAlive s = false) (ops : List Op) (rs : List Int) (s' : St) (hs : session s ops = some (rs, s')) :
    umkaAlive s' = false := by
  induction ops generalizing s rs with
  | nil => rw [session] at hs; cases hs; exact h
  | cons op ops ih =>
    rw [session] at hs
    have hd := step_dead op h
    revert hs hd
    cases step s op with
    | ok r s1 =>
      intro hs hd
      dsimp only at hs
      cases h1 : session s1 ops with
      | none => rw [h1] at hs; cases hs
      | some x =>
        rw [h1] at hs
        cases hs
        exact ih s1 hd x.1 (by rw [h1])
    | jump f s1 => intro hs; cases hs
    | ub => intro hs; cases hs

example : seen init [.compile true true, .run (.error (-1))] = some ([1, -1], false, -1, [-1], 1) := rfl

/-- What a call returns that does not fail. -/
def success : Op → Int
  | .compile _ _ => 1
  | _ => 0

/-- What a call returns that fails with the given code. -/
def failure (c : Int) : Op → Int
  | .compile _ _ => 0
  | _ => c

/-- **C54, the first failure.**  Take any history of API calls and any program, with external functions that call back into the program
with `umkaCall` to any depth.  Either no call fails: then all calls report success, and the interpreter is alive.  Or there is a first call
in which an error occurs or `exit` is called, at whatever depth: then all calls before it have reported success; nothing undefined happens;
control returns to the host from the outermost call at once (there is no second failure); this call returns the code of the error; and the
interpreter is dead and reports this error. -/
theorem C54_first_failure (ops : List Op) (h : All NoRun ops) :
    (∃ s, session init ops = some (ops.map success, s) ∧ Healthy s) ∨
    (∃ pre op post s s' c, ops = pre ++ op :: post ∧ session init pre = some (pre.map success, s) ∧ Healthy s ∧
      step s op = .ok (failure c op) s' ∧ Failed s' c) := by
  have one : ∀ (s : St) (op : Op), Healthy s → s.nesting = 0 → All NoRun [op] →
      (∃ s', step s op = .ok (success op) s' ∧ Healthy s' ∧ s'.nesting = 0) ∨ (∃ c s', step s op = .ok (failure c op) s' ∧ Failed s' c) := by
    intro s op hs h0 ha
    cases op with
    | compile ok hm =>
      cases ok with
      | true => exact .inl ⟨_, rfl, hs, h0⟩
      | false =>
        refine .inr ⟨1, _, rfl, ?_, setAlive_self s.alive main false, rfl⟩
        show s.faults ++ [1] = [1]
        rw [hs.1]; rfl
    | run a =>
      rcases outer_good (isRun := true) (d := true) (ha _ List.mem_cons_self a (.inl rfl)) hs h0 with ⟨s', e, h1, h2, _⟩ | ⟨c, s', e, h1, _⟩
      · exact .inl ⟨s', e, h1, h2⟩
      · exact .inr ⟨c, s', e, h1⟩
    | call d a =>
      rcases outer_good (isRun := false) (d := d) (ha _ List.mem_cons_self a (.inr ⟨d, rfl⟩)) hs h0 with ⟨s', e, h1, h2, _⟩ | ⟨c, s', e, h1, _⟩
      · exact .inl ⟨s', e, h1, h2⟩
      · exact .inr ⟨c, s', e, h1⟩
  have gen : ∀ (ops : List Op) (s0 : St), Healthy s0 → s0.nesting = 0 → All NoRun ops →
      (∃ s, session s0 ops = some (ops.map success, s) ∧ Healthy s) ∨
      (∃ pre op post s s' c, ops = pre ++ op :: post ∧ session s0 pre = some (pre.map success, s) ∧ Healthy s ∧
        step s op = .ok (failure c op) s' ∧ Failed s' c) := by
    intro ops
    induction ops with
    | nil => intro s0 hs _ _; exact .inl ⟨s0, rfl, hs⟩
    | cons op ops ih =>
      intro s0 hs h0 ha
      rcases one s0 op hs h0 (fun o ho => ha o (by rw [List.mem_singleton] at ho; subst ho; exact List.mem_cons_self)) with
        ⟨s1, e, h1, h2⟩ | ⟨c, s1, e, h1⟩
      · rcases ih s1 h1 h2 (fun o ho => ha o (List.mem_cons_of_mem _ ho)) with ⟨s, es, hh⟩ | ⟨pre, o, post, s, s', c, e1, e2, e3, e4, e5⟩
        · exact .inl ⟨s, by rw [session, e]; dsimp only; rw [es]; rfl, hh⟩
        · exact .inr ⟨op :: pre, o, post, s, s', c, by rw [e1]; rfl, by rw [session, e]; dsimp only; rw [e2]; rfl, e3, e4, e5⟩
      · exact .inr ⟨[], op, ops, s0, s1, c, rfl, rfl, hs, e, h1⟩
  exact gen ops init ⟨rfl, rfl, rfl⟩ rfl h

/-- An error inside a call inside a call. -/
example : seen init [.compile true true, .run .done, .call true (.host false true (.host false true (.error 7) .done) (.error 8))] =
    some ([1, 0, 7], false, 7, [7], 4) := rfl
example : All NoRun [.compile true true, .run .done, .call true (.host false true (.host false true (.error 7) .done) (.error 8))] := by
  intro op hop a ha
  simp only [List.mem_cons, List.not_mem_nil, or_false] at hop
  rcases hop with rfl | rfl | rfl
  · rcases ha with h | ⟨_, h⟩ <;> cases h
  · rcases ha with h | ⟨_, h⟩ <;> cases h; trivial
  · rcases ha with h | ⟨_, h⟩ <;> cases h; exact ⟨rfl, ⟨rfl, trivial, trivial⟩, trivial⟩

/-- **C54, nothing runs afterwards** (partial: `umkaRun` only, and if the current fiber is dead; `C54_call_violated` and
`C54_fiber_violated` show that both restrictions are needed).  However often the host calls `umkaRun` on a dead interpreter, no instruction
is executed, and each call returns the code of a run-time error (or 0 if there is no `main`). -/
theorem C54_no_code_partial (s : St) (h : umkaAlive s = false) (hc : s.alive s.cur = false) (as : List Act) :
    ∃ s', session s (as.map .run) = some (as.map (fun _ => if s.hasMain then -1 else 0), s') ∧ s'.steps = s.steps ∧ umkaAlive s' = false := by
  induction as generalizing s with
  | nil => exact ⟨s, rfl, rfl, h⟩
  | cons a as ih =>
    obtain ⟨s1, e, h1, h2, h3, h4⟩ := run_dead hc h a
    obtain ⟨s2, e', g1, g2⟩ := ih s1 h3 h2
    refine ⟨s2, ?_, g1.trans h1, g2⟩
    rw [List.map_cons, session, e]
    dsimp only
    rw [e', h4]
    rfl

/-- The current fiber is dead after the failure of a program without fibers... -/
theorem C54_no_fibers (s : St) (hs : s.cur = main) (op : Op) (h : All NoFibers [op]) (r : Int) (s' : St) (he : step s op = .ok r s')
    (hd : umkaAlive s' = false) : s'.cur = main ∧ s'.alive s'.cur = false := by
  have key : s'.cur = main := by
    cases op with
    | compile ok hm =>
      cases ok with
      | true => cases he; rfl
      | false => cases he; exact hs
    | run a =>
      have := apiCall_cur (isRun := true) (d := true) (active := []) hs (body := fun active s => exec a s.cur active s)
        (fun active s hh => exec_cur a (h _ List.mem_cons_self a (.inl rfl)) _ _ _ hh)
      rw [step] at he
      rw [he] at this
      exact this
    | call d a =>
      have := apiCall_cur (isRun := false) (d := d) (active := []) hs (body := fun active s => exec a s.cur active s)
        (fun active s hh => exec_cur a (h _ List.mem_cons_self a (.inr ⟨d, rfl⟩)) _ _ _ hh)
      rw [step] at he
      rw [he] at this
      exact this
  exact ⟨key, by rw [key]; exact hd⟩

/-- ... and after `exit` in any fiber (if external functions do not call the API). -/
theorem C54_exit (s : St) (hs : Healthy s) (h0 : s.nesting = 0) (hl : s.alive s.cur = true) (hm : s.hasMain = true) (a : Act)
    (hh : NoHost a) (he : NoError a) (r : Int) (s' : St) (e : step s (.run a) = .ok r s') (hd : umkaAlive s' = false) :
    s'.alive s'.cur = false := by
  rw [step, apiCall] at e
  dsimp only at e
  rw [if_pos rfl, if_pos hm, vmCall, if_neg (by show ¬ (!s.alive s.cur) = true; rw [hl]; decide), if_neg (by decide)] at e
  have hx := exec_exit a hh he s.cur [s.next] { s with next := s.next + 1, jumper := if (true || s.nesting == 0) = true then s.next else s.jumper, nesting := s.nesting + 1 } rfl
  have nr : NoRun a := by
    clear e hx
    induction a with
    | done => trivial
    | error => trivial
    | exit => trivial
    | spawn f k ih => exact ih hh he
    | resume f k ih => exact ih hh he
    | yield f k ih => exact ih hh he
    | finish f k ih => exact ih hh he
    | host => exact hh.elim
  have hg := exec_good a nr s.cur [s.next] { s with next := s.next + 1, jumper := if (true || s.nesting == 0) = true then s.next else s.jumper, nesting := s.nesting + 1 }
    ⟨hs.1, Nat.succ_pos _, by simp, by intro f hf; rw [List.mem_singleton] at hf; show f < s.next + 1; omega, hs.2.1⟩
  revert e hx hg
  generalize exec a s.cur [s.next] _ = x
  intro e hx hg
  rcases hg with ⟨ret, s1, e1, c1, c2, c3, c4, c5, c6, c7⟩ | ⟨c, s1, e1, _⟩
  · rw [e1] at e
    cases e
    have : s1.alive main = false := hd
    rw [c5] at this
    cases this
  · rw [e1] at e hx
    simp only [Bool.true_or, if_true] at e
    cases e
    exact hx

example : seen init [.compile true true, .run (.spawn 0 (.resume 1 (.exit 5))), .run .done] = some ([1, 5, -1], false, -1, [5, -1], 3) := rfl

/-- **C54 is false**: a run-time error in another fiber leaves this fiber current and alive.  `umkaAlive` is false, but the next
`umkaRun` executes the program again. -/
theorem C54_fiber_violated : ∃ s s' r,
    session init [.compile true true, .run (.spawn 0 (.resume 1 (.error (-1))))] = some (r, s) ∧ umkaAlive s = false ∧
    step s (.run .done) = .ok 0 s' ∧ s.steps < s'.steps :=
  ⟨_, _, _, rfl, rfl, rfl, by decide⟩

/-- **C54 is false**: the report is that of the last call, not that of the first error. -/
theorem C54_report_violated : ∃ s r, session init [.compile true true, .run (.exit 5), .run .done] = some (r, s) ∧
    s.faults = [5, -1] ∧ s.code = -1 :=
  ⟨_, _, rfl, rfl, rfl⟩

/-- **C54 is false**: `umkaCall` after a failed `umkaRun` or `umkaCall` is undefined behaviour: a jump into a function that has returned. -/
theorem C54_call_violated (a : Act) : ∃ s r, session init [.compile true true, .run (.error (-1))] = some (r, s) ∧ umkaAlive s = false ∧
    step s (.call true a) = .ub :=
  ⟨_, _, rfl, rfl, rfl⟩

/-- `C54_first_failure` needs its hypothesis: after an `umkaRun` inside an external function, any error is undefined behaviour. -/
theorem C54_nested_run_violated : session init [.compile true true, .call true (.host true true .done (.error (-1)))] = none := rfl

end Umka.Api.Props
