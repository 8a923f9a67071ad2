import Verif.Api.Spec

/-!
# Api: lemmas
-/

namespace Umka.Api

/-! ## Dead interpreters stay dead -/

def OutDead : Out → Prop
  | .ok _ s => s.alive main = false
  | .jump _ s => s.alive main = false
  | .ub => True

theorem setAlive_ne {alive : FiberId → Bool} {f g : FiberId} {b : Bool} (h : g ≠ f) : setAlive alive f b g = alive g := if_neg h

theorem setAlive_self (alive : FiberId → Bool) (f : FiberId) (b : Bool) : setAlive alive f b f = b := if_pos rfl

theorem fault_dead (code : Int) (active : List Nat) (s : St) : OutDead (fault code active s) := by
  rw [fault]
  dsimp only
  split
  · exact setAlive_self s.alive main false
  · trivial

theorem vmCall_dead {d : Bool} {body : List Nat → St → Out} {active : List Nat} {s : St}
    (hb : ∀ active s, s.alive main = false → OutDead (body active s)) (h : s.alive main = false) : OutDead (vmCall d body active s) := by
  rw [vmCall]
  split
  · exact fault_dead _ _ _
  · split
    · exact fault_dead _ _ _
    · exact hb _ _ h

theorem apiCall_dead {isRun d : Bool} {body : List Nat → St → Out} {active : List Nat} {s : St}
    (hb : ∀ active s, s.alive main = false → OutDead (body active s)) (h : s.alive main = false) :
    OutDead (apiCall isRun d body active s) := by
  rw [apiCall]
  dsimp only
  generalize hr : (if isRun = true then _ else _ : Out) = r
  have hd : OutDead r := by
    rw [← hr]
    split
    · split
      · exact vmCall_dead hb h
      · exact h
    · exact vmCall_dead hb h
  cases r with
  | ok _ s => exact hd
  | jump f s =>
    dsimp only
    split
    · exact hd
    · exact hd
  | ub => trivial

theorem setAlive_dead {alive : FiberId → Bool} {f : FiberId} (h : alive main = false) : setAlive alive f false main = false := by
  rw [setAlive]; split
  · rfl
  · exact h

theorem exec_dead (a : Act) : ∀ (fiber : FiberId) (active : List Nat) (s : St), s.alive main = false → OutDead (exec a fiber active s) := by
  induction a with
  | done => intro fiber active s h; exact h
  | error c => intro fiber active s h; exact fault_dead _ _ _
  | exit c => intro fiber active s h; exact fault_dead _ _ _
  | spawn f k ih =>
    intro fiber active s h
    rw [exec]
    apply ih
    show setAlive s.alive (f + 1) true main = false
    rw [setAlive_ne (by simp [main])]
    exact h
  | resume f k ih => intro fiber active s h; rw [exec]; exact ih _ _ _ h
  | yield p k ih => intro fiber active s h; rw [exec]; exact ih _ _ _ h
  | finish p k ih =>
    intro fiber active s h
    rw [exec]
    split
    · exact h
    · dsimp only
      split
      · exact ih _ _ _ (setAlive_dead h)
      · exact setAlive_dead h
  | host isRun d a k iha ihk =>
    intro fiber active s h
    rw [exec]
    have := apiCall_dead (isRun := isRun) (d := d) (active := active) (body := fun active s => exec a s.cur active s)
      (fun active s h => iha _ _ _ h) (s := tick s) h
    revert this
    generalize apiCall isRun d _ active (tick s) = r
    intro hd
    cases r with
    | ok _ s' => exact ihk _ _ _ hd
    | jump f s' => exact hd
    | ub => trivial

theorem step_dead {s : St} (op : Op) (h : s.alive main = false) : OutDead (step s op) := by
  cases op with
  | compile ok hm =>
    cases ok with
    | true => exact h
    | false => exact setAlive_self s.alive main false
  | run a => exact apiCall_dead (fun _ _ h => exec_dead _ _ _ _ h) h
  | call d a => exact apiCall_dead (fun _ _ h => exec_dead _ _ _ _ h) h

/-! ## Up to the first failure -/

/-- What is unchanged by a call that does not fail. -/
def Same (s s' : St) : Prop :=
  s'.faults = [] ∧ s'.nesting = s.nesting ∧ s'.jumper = s.jumper ∧ s.next ≤ s'.next ∧ s'.alive main = true ∧ s'.hasMain = s.hasMain ∧
  s'.code = s.code

/-- A run in progress. -/
def Running (active : List Nat) (s : St) : Prop :=
  s.faults = [] ∧ 0 < s.nesting ∧ s.jumper ∈ active ∧ (∀ f ∈ active, f < s.next) ∧ s.alive main = true

def Good (s : St) (r : Out) : Prop :=
  (∃ ret s', r = .ok ret s' ∧ Same s s') ∨ (∃ c s', r = .jump s.jumper s' ∧ Failed s' c ∧ s'.hasMain = s.hasMain ∧ s.nesting ≤ s'.nesting)

theorem fault_good {c : Int} {active : List Nat} {s : St} (h1 : s.faults = []) (h3 : s.jumper ∈ active) :
    ∃ s', fault c active s = .jump s.jumper s' ∧ Failed s' c ∧ s'.hasMain = s.hasMain ∧ s.nesting ≤ s'.nesting := by
  rw [fault]
  dsimp only
  rw [if_pos h3]
  exact ⟨_, rfl, ⟨by rw [h1]; rfl, setAlive_self s.alive main false, rfl⟩, rfl, Nat.le_refl _⟩

theorem Same.refl {s : St} (h1 : s.faults = []) (h2 : s.alive main = true) : Same s s := ⟨h1, rfl, rfl, Nat.le_refl _, h2, rfl, rfl⟩

theorem Same.trans {a b c : St} (h : Same a b) (h' : Same b c) : Same a c := by
  obtain ⟨a1, a2, a3, a4, a5, a6, a7⟩ := h
  obtain ⟨b1, b2, b3, b4, b5, b6, b7⟩ := h'
  exact ⟨b1, b2.trans a2, b3.trans a3, Nat.le_trans a4 b4, b5, b6.trans a6, b7.trans a7⟩

theorem vmCall_good {d : Bool} {body : List Nat → St → Out} {active : List Nat} {s : St} (h : Running active s)
    (hb : ∀ s, Running active s → Good s (body active s)) : Good s (vmCall d body active s) := by
  obtain ⟨h1, h2, h3, h4, h5⟩ := h
  rw [vmCall]
  split
  · obtain ⟨s', e, f⟩ := fault_good (c := -1) h1 h3
    exact .inr ⟨_, s', e, f⟩
  · split
    · obtain ⟨s', e, f⟩ := fault_good (c := -1) h1 h3
      exact .inr ⟨_, s', e, f⟩
    · exact hb _ ⟨h1, h2, h3, h4, h5⟩

/-- A nested `umkaCall`. -/
theorem nested_good {d : Bool} {body : List Nat → St → Out} {active : List Nat} {s : St} (h : Running active s)
    (hb : ∀ active s, Running active s → Good s (body active s)) : Good s (apiCall false d body active s) := by
  obtain ⟨h1, h2, h3, h4, h5⟩ := h
  have hlt : s.jumper < s.next := h4 _ h3
  rw [apiCall]
  dsimp only
  have hn : (false || s.nesting == 0) = false := by simp; omega
  rw [hn, if_neg (by decide), if_neg (by decide)]
  have hr : Running (s.next :: active) { s with next := s.next + 1, jumper := s.jumper, nesting := s.nesting + 1 } := by
    refine ⟨h1, by show 0 < s.nesting + 1; omega, List.mem_cons_of_mem _ h3, ?_, h5⟩
    intro f hf
    rcases List.mem_cons.mp hf with e | hf
    · show f < s.next + 1; omega
    · have := h4 f hf; show f < s.next + 1; omega
  rcases vmCall_good (d := d) hr (hb _) with ⟨ret, s', e, c1, c2, c3, c4, c5, c6, c7⟩ | ⟨c, s', e, hf, hm, hn⟩
  · rw [e]
    exact .inl ⟨_, _, rfl, c1, by show s'.nesting - 1 = _; rw [c2]; rfl, c3, by show s.next ≤ s'.next; exact Nat.le_of_succ_le c4, c5, c6, c7⟩
  · rw [e]
    dsimp only
    rw [if_neg (by omega)]
    exact .inr ⟨c, s', rfl, hf, hm, by have : s.nesting + 1 ≤ s'.nesting := hn; omega⟩

theorem exec_good (a : Act) (hnr : NoRun a) : ∀ (fiber : FiberId) (active : List Nat) (s : St), Running active s →
    Good s (exec a fiber active s) := by
  induction a with
  | done => intro fiber active s h; exact .inl ⟨_, _, rfl, h.1, rfl, rfl, Nat.le_refl _, h.2.2.2.2, rfl, rfl⟩
  | error c =>
    intro fiber active s h
    obtain ⟨s', e, f⟩ := fault_good (c := c) (s := tick s) h.1 h.2.2.1
    exact .inr ⟨_, s', e, f⟩
  | exit c =>
    intro fiber active s h
    obtain ⟨s', e, f⟩ := fault_good (c := c) (s := { tick s with alive := setAlive s.alive fiber false }) h.1 h.2.2.1
    exact .inr ⟨_, s', e, f⟩
  | spawn f k ih =>
    intro fiber active s ⟨h1, h2, h3, h4, h5⟩
    rw [exec]
    exact ih hnr _ _ _ ⟨h1, h2, h3, h4, by show setAlive s.alive (f + 1) true main = true; rw [setAlive_ne (by simp [main])]; exact h5⟩
  | resume f k ih => intro fiber active s h; rw [exec]; exact ih hnr _ _ _ h
  | yield p k ih => intro fiber active s h; rw [exec]; exact ih hnr _ _ _ h
  | finish p k ih =>
    intro fiber active s ⟨h1, h2, h3, h4, h5⟩
    rw [exec]
    split
    · exact .inl ⟨_, _, rfl, h1, rfl, rfl, Nat.le_refl _, h5, rfl, rfl⟩
    · rename_i hne
      have ha : setAlive s.alive fiber false main = true := by rw [setAlive_ne (fun e => hne e.symm)]; exact h5
      dsimp only
      split
      · exact ih hnr _ _ _ ⟨h1, h2, h3, h4, ha⟩
      · exact .inl ⟨_, _, rfl, h1, rfl, rfl, Nat.le_refl _, ha, rfl, rfl⟩
  | host isRun d a k iha ihk =>
    intro fiber active s h
    obtain ⟨e, na, nk⟩ := hnr
    subst e
    rw [exec]
    rcases nested_good (d := d) (s := tick s) (active := active) h (body := fun active s => exec a s.cur active s)
      (fun active s h => iha na _ _ _ h) with ⟨ret, s', e, hs⟩ | ⟨c, s', e, hf⟩
    · rw [e]
      dsimp only
      obtain ⟨c1, c2, c3, c4, c5, c6, c7⟩ := hs
      obtain ⟨h1, h2, h3, h4, h5⟩ := h
      have h2' : 0 < s'.nesting := by rw [c2]; exact h2
      have h3' : s'.jumper ∈ active := by rw [c3]; exact h3
      have h4' : ∀ f ∈ active, f < s'.next := fun f hf => Nat.lt_of_lt_of_le (h4 f hf) c4
      rcases ihk nk fiber active s' ⟨c1, h2', h3', h4', c5⟩ with ⟨r, s'', e', hs'⟩ | ⟨c, s'', e', hf, hm, hn⟩
      · exact .inl ⟨r, s'', e', Same.trans (b := s') ⟨c1, c2, c3, c4, c5, c6, c7⟩ hs'⟩
      · exact .inr ⟨c, s'', by rw [e', c3]; rfl, hf, hm.trans c6, by rw [c2] at hn; exact hn⟩
    · rw [e]
      exact .inr ⟨c, s', rfl, hf⟩

/-- An outermost call. -/
theorem outer_good {isRun d : Bool} {a : Act} (hnr : NoRun a) {s : St} (hs : Healthy s) (h0 : s.nesting = 0) :
    (∃ s', apiCall isRun d (fun active s => exec a s.cur active s) [] s = .ok 0 s' ∧ Healthy s' ∧ s'.nesting = 0 ∧ s'.hasMain = s.hasMain) ∨
    (∃ c s', apiCall isRun d (fun active s => exec a s.cur active s) [] s = .ok c s' ∧ Failed s' c ∧ 0 < s'.nesting ∧
      s'.hasMain = s.hasMain) := by
  obtain ⟨h1, h2, h3⟩ := hs
  rw [apiCall]
  dsimp only
  have hn : (isRun || s.nesting == 0) = true := by rw [h0]; simp
  rw [hn, if_pos rfl]
  have hr : Running [s.next] { s with next := s.next + 1, jumper := s.next, nesting := s.nesting + 1 } := by
    refine ⟨h1, by show 0 < s.nesting + 1; omega, by simp, ?_, h2⟩
    intro f hf
    rw [List.mem_singleton] at hf
    show f < s.next + 1
    omega
  have key : ∀ d, Good { s with next := s.next + 1, jumper := s.next, nesting := s.nesting + 1 }
      (vmCall d (fun active s => exec a s.cur active s) [s.next] { s with next := s.next + 1, jumper := s.next, nesting := s.nesting + 1 }) :=
    fun d => vmCall_good hr (fun s h => exec_good a hnr _ _ _ h)
  have fin : ∀ r, Good { s with next := s.next + 1, jumper := s.next, nesting := s.nesting + 1 } r →
      (∃ s', (match r with
        | .ok _ s => Out.ok 0 { s with nesting := s.nesting - 1 }
        | .jump f s_1 => if f = s.next then .ok s_1.code s_1 else .jump f s_1
        | .ub => .ub) = .ok 0 s' ∧ Healthy s' ∧ s'.nesting = 0 ∧ s'.hasMain = s.hasMain) ∨
      (∃ c s', (match r with
        | .ok _ s => Out.ok 0 { s with nesting := s.nesting - 1 }
        | .jump f s_1 => if f = s.next then .ok s_1.code s_1 else .jump f s_1
        | .ub => .ub) = .ok c s' ∧ Failed s' c ∧ 0 < s'.nesting ∧ s'.hasMain = s.hasMain) := by
    intro r hg
    rcases hg with ⟨ret, s', e, c1, c2, c3, c4, c5, c6, c7⟩ | ⟨c, s', e, hf, hm, hn⟩
    · rw [e]
      exact .inl ⟨_, rfl, ⟨c1, c5, c7.trans h3⟩, by show s'.nesting - 1 = 0; rw [c2]; show s.nesting + 1 - 1 = 0; omega, c6⟩
    · rw [e]
      dsimp only
      rw [if_pos rfl]
      exact .inr ⟨c, s', by rw [hf.2.2], hf, by have : s.nesting + 1 ≤ s'.nesting := hn; omega, hm⟩
  cases isRun with
  | false =>
    rw [if_neg (by decide)]
    exact fin _ (key d)
  | true =>
    rw [if_pos rfl]
    by_cases hh : s.hasMain = true
    · rw [if_pos hh]
      exact fin _ (key true)
    · rw [if_neg hh]
      exact .inl ⟨_, rfl, ⟨h1, h2, h3⟩, by show s.nesting + 1 - 1 = 0; omega, rfl⟩

/-! ## After a failure -/

theorem run_dead {s : St} (h : s.alive s.cur = false) (hm : s.alive main = false) (a : Act) :
    ∃ s', step s (.run a) = .ok (if s.hasMain then -1 else 0) s' ∧ s'.steps = s.steps ∧ s'.alive s'.cur = false ∧ s'.alive main = false ∧
      s'.hasMain = s.hasMain := by
  rw [step, apiCall]
  dsimp only
  rw [if_pos rfl]
  by_cases hh : s.hasMain = true
  · rw [if_pos hh, if_pos hh]
    rw [vmCall, if_pos (by show (!s.alive s.cur) = true; rw [h]; rfl), fault]
    dsimp only
    rw [if_pos (by simp)]
    dsimp only
    rw [if_pos (by simp)]
    exact ⟨_, rfl, rfl, by show setAlive s.alive main false s.cur = false; rw [setAlive]; split <;> first | rfl | exact h, setAlive_self s.alive main false, rfl⟩
  · rw [if_neg hh, if_neg hh]
    exact ⟨_, rfl, rfl, h, hm, rfl⟩

/-! ## The current fiber at a failure -/

def CurDead : Out → Prop
  | .ok _ s => s.cur = main
  | .jump _ s => s.cur = main ∧ s.alive main = false
  | .ub => True

theorem fault_cur {c : Int} {active : List Nat} {s : St} (h : s.cur = main) : CurDead (fault c active s) := by
  rw [fault]
  dsimp only
  split
  · exact ⟨h, setAlive_self s.alive main false⟩
  · trivial

theorem apiCall_cur {isRun d : Bool} {body : List Nat → St → Out} {active : List Nat} {s : St} (h : s.cur = main)
    (hb : ∀ active s, s.cur = main → CurDead (body active s)) : CurDead (apiCall isRun d body active s) := by
  have hv : ∀ d active s, s.cur = main → CurDead (vmCall d body active s) := by
    intro d active s h
    rw [vmCall]
    split
    · exact fault_cur h
    · split
      · exact fault_cur h
      · exact hb _ _ h
  rw [apiCall]
  dsimp only
  generalize hr : (if isRun = true then _ else _ : Out) = r
  have hd : CurDead r := by
    rw [← hr]
    split
    · split
      · exact hv _ _ _ h
      · exact h
    · exact hv _ _ _ h
  cases r with
  | ok _ s => exact hd
  | jump f s =>
    dsimp only
    split
    · exact hd.1
    · exact hd
  | ub => trivial

theorem exec_cur (a : Act) (hnf : NoFibers a) : ∀ (fiber : FiberId) (active : List Nat) (s : St), s.cur = main → CurDead (exec a fiber active s) := by
  induction a with
  | done => intro fiber active s h; exact h
  | error c => intro fiber active s h; exact fault_cur h
  | exit c => intro fiber active s h; exact fault_cur h
  | spawn f k ih => exact hnf.elim
  | resume f k ih => exact hnf.elim
  | yield f k ih => exact hnf.elim
  | finish f k ih => exact hnf.elim
  | host isRun d a k iha ihk =>
    intro fiber active s h
    rw [exec]
    have := apiCall_cur (isRun := isRun) (d := d) (active := active) (s := tick s) h (body := fun active s => exec a s.cur active s)
      (fun active s h => iha hnf.1 _ _ _ h)
    revert this
    generalize apiCall isRun d _ active (tick s) = r
    intro hd
    cases r with
    | ok _ s' => exact ihk hnf.2 _ _ _ hd
    | jump f s' => exact hd
    | ub => trivial

/-- Scripts without nested calls: the local variable `fiber` is the current fiber, and `exit` kills it. -/
def ExitDead : Out → Prop
  | .jump _ s => s.alive s.cur = false
  | _ => True

theorem exec_exit (a : Act) (hh : NoHost a) (he : NoError a) : ∀ (fiber : FiberId) (active : List Nat) (s : St), s.cur = fiber →
    ExitDead (exec a fiber active s) := by
  induction a with
  | done => intro fiber active s h; trivial
  | error c => exact he.elim
  | exit c =>
    intro fiber active s h
    rw [exec, fault]
    dsimp only
    split
    · show setAlive (setAlive s.alive fiber false) main false s.cur = false
      rw [h, setAlive, setAlive]
      split
      · rfl
      · rw [if_pos rfl]
    · trivial
  | spawn f k ih => intro fiber active s h; rw [exec]; exact ih hh he _ _ _ h
  | resume f k ih => intro fiber active s h; rw [exec]; exact ih hh he _ _ _ rfl
  | yield p k ih => intro fiber active s h; rw [exec]; exact ih hh he _ _ _ rfl
  | finish p k ih =>
    intro fiber active s h
    rw [exec]
    split
    · trivial
    · dsimp only
      split
      · exact ih hh he _ _ _ rfl
      · trivial
  | host => exact hh.elim

end Umka.Api
