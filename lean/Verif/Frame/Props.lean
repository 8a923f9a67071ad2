import Verif.Frame.Final
import Verif.Frame.Check
import Verif.Frame.Overflow

/-!
# Stack frames and fibers: properties
-/

namespace Umka.Frame.Props

open Umka.Frame

variable {p : Program} {vm vm' : VM} {P : List Ptr}

/-! ## A sample program

The main function (address 1) calls `f` (20), copies and drops a pointer to a local variable, calls an external
function that calls `f` back, makes a fiber (40), and resumes it twice. -/

def layouts : List Layout := [⟨0, 4⟩, ⟨2, 1⟩, ⟨2, 0⟩]

def code : List (Int × Instr) :=
  [ (1, .enter 0), (2, .block 0 (fun _ => [7, 8])), (3, .call 20),
    (4, .ref (fun _ => some (0, 1993)) 1), (5, .ref (fun _ => some (0, 1993)) (-1)),
    (6, .ext 5 (fun vm => if (vm.fiber 0).stack 1994 = 1 then some (20, [1, 2]) else none)),
    (7, .spawn 0 (fun _ => 40) (fun _ => (0, 0))), (8, .data 0 (fun _ => [1]) (fun _ => [])), (9, .resume (fun _ => some 1)),
    (10, .data 0 (fun _ => [1]) (fun _ => [])), (11, .resume (fun _ => some 1)),
    (12, .data 0 (fun _ => [1]) (fun _ => [])), (13, .resume (fun _ => some 1)), (14, .leave), (15, .ret 0),
    (20, .enter 1), (21, .data 0 (fun _ => []) (fun vm => [((0, 1994), (vm.fiber 0).stack 1994 + 1)])), (22, .leave), (23, .ret 2),
    (40, .enter 2), (41, .data 0 (fun _ => [0]) (fun _ => [])), (42, .resume (fun _ => none)), (43, .leave), (44, .ret 2) ]

def bodies : List (Int × Nat) :=
  [ (2, 0), (3, 0), (4, 0), (5, 0), (6, 0), (7, 0), (8, 0), (9, 0), (10, 0), (11, 0), (12, 0), (13, 0), (14, 0),
    (21, 2), (22, 2), (41, 2), (42, 2), (43, 2) ]

/-- The state of the sample program after `n` instructions. -/
def at_ (n : Nat) : VM × List Ptr := final code layouts true 2000 n

def sample : Compiled (mk code layouts) := compiled code layouts bodies (by decide +kernel)

theorem sample_reach (n : Nat) (h : (exec code layouts true 2000 n).isSome = true) : Reach (mk code layouts) (at_ n).1 (at_ n).2 :=
  final_reach (by decide +kernel) h

/-! ## C33: calls and returns are balanced -/

/-- When a call returns, the frame of the caller is current again, the parameters are removed, and the caller goes on
behind the call; after a call from an external function, the external function goes on with the stack it had. -/
theorem C33_balanced_partial (c : Compiled p) (h : Reach p vm P) {k : Nat} (hk : k < vm.num)
    (hka : (vm.fiber k).alive = true) (hr : Returned p k (vm, P) vm') :
    (vm'.fiber k).alive = true ∧ (vm'.fiber k).base = (vm.fiber k).base ∧
    (∀ n, callParams p vm n → (vm'.fiber k).top = (vm.fiber k).top + n ∧ (vm'.fiber k).ip = (vm.fiber k).ip + 1) ∧
    (∀ t next, p.code (vm.fiber k).ip = .ext t next →
      (vm'.fiber k).top = (vm.fiber k).top ∧ (vm'.fiber k).ip = (vm.fiber k).ip) := by
  obtain ⟨g, hI⟩ := reach_inv c h
  exact returned_ok hI hk hka hr

/-- The call of `f`, and the call of `f` by the external function. -/
example : ∃ vm', Returned (mk code layouts) 0 (at_ 2) vm' ∧ (vm'.fiber 0).top = ((at_ 2).1.fiber 0).top + 2 ∧ (vm'.fiber 0).ip = 4 := by
  obtain ⟨vm', h1, h2⟩ := returnB_ok (T := code) (layouts := layouts) (k := 0) (s := at_ 2) (n := 3) (by decide +kernel)
  refine ⟨vm', h2, ?_⟩
  have h := C33_balanced_partial sample (sample_reach 2 (by decide +kernel)) (k := 0) (by decide +kernel) (by decide +kernel) h2
  have hip : ((at_ 2).1.fiber 0).ip = 3 := by decide +kernel
  have hloc : (at_ 2).1.loc = 0 := by decide +kernel
  have := h.2.2.1 2 (by simp only [callParams, hloc, hip]; exact .enter (l := 1) rfl)
  rw [hip] at this
  exact ⟨this.1, this.2⟩

example : ∃ vm', Returned (mk code layouts) 0 (at_ 9) vm' ∧ (vm'.fiber 0).top = ((at_ 9).1.fiber 0).top ∧ (vm'.fiber 0).ip = 6 := by
  obtain ⟨vm', h1, h2⟩ := returnB_ok (T := code) (layouts := layouts) (k := 0) (s := at_ 9) (n := 3) (by decide +kernel)
  refine ⟨vm', h2, ?_⟩
  have h := C33_balanced_partial sample (sample_reach 9 (by decide +kernel)) (k := 0) (by decide +kernel) (by decide +kernel) h2
  have hip : ((at_ 9).1.fiber 0).ip = 6 := by decide +kernel
  have := h.2.2.2 5 _ (by rw [hip]; rfl)
  rw [hip] at this
  exact this

/-- When the outermost function returns to the host program, the stack is empty, as it was before. -/
theorem C33_host_return_partial (c : Compiled p) (h : Reach p vm P) {n : Nat} (hi : p.code (vm.fiber vm.loc).ip = .ret n)
    (hb : (vm.fiber vm.loc).base = (vm.fiber vm.loc).size - 1) (hp : (vm.fiber vm.loc).parent = none)
    (ht : minFree ≤ (vm.fiber vm.loc).top) :
    ∃ vm', step p vm = .done vm' ∧ (vm'.fiber vm.loc).top = (vm.fiber vm.loc).size - 1 ∧
      (vm'.fiber vm.loc).base = (vm.fiber vm.loc).size - 1 ∧ (vm'.fiber vm.loc).alive = true := by
  obtain ⟨g, hI⟩ := reach_inv c h
  obtain ⟨r, h1, h2, h3, h4⟩ := outermost hI hi hb
  rcases h4 with ⟨-, rfl⟩ | ⟨h4, -⟩
  · simp only [step, hi, if_neg (show ¬ (vm.fiber vm.loc).top < minFree by omega), h1]
    rw [if_neg (by decide), if_pos (.inr trivial)]
    refine ⟨_, by simp only [exitLoop, VM.set, h3]; rfl, ?_, ?_, ?_⟩
    · show (if vm.loc = vm.loc then _ else vm.fiber vm.loc : Fiber).top = _
      rw [if_pos rfl]; exact h2
    · show (if vm.loc = vm.loc then _ else vm.fiber vm.loc : Fiber).base = _
      rw [if_pos rfl]; exact hb
    · show (if vm.loc = vm.loc then _ else vm.fiber vm.loc : Fiber).alive = _
      rw [if_pos rfl]; exact hI.loc_alive
  · exact absurd hp h4

example : (mk code layouts).code ((at_ 28).1.fiber 0).ip = .ret 0 ∧ (at_ 28).1.loc = 0 ∧
    ((at_ 28).1.fiber 0).base = ((at_ 28).1.fiber 0).size - 1 ∧ ((at_ 28).1.fiber 0).parent = none ∧
    minFree ≤ ((at_ 28).1.fiber 0).top ∧ Reach (mk code layouts) (at_ 28).1 (at_ 28).2 :=
  ⟨by rw [show ((at_ 28).1.fiber 0).ip = 15 by decide +kernel]; rfl, by decide +kernel, by decide +kernel, by decide +kernel,
    by decide +kernel, sample_reach 28 (by decide +kernel)⟩

/-! ### Switching fibers in a callback

The main function (1) makes a fiber (20) and resumes it; the fiber calls an external function, which calls back a
function (30), which resumes the main function; the main function returns. -/

def nestedCode : List (Int × Instr) :=
  [ (1, .enter 0), (2, .spawn 0 (fun _ => 20) (fun _ => (0, 0))), (3, .resume (fun _ => some 1)), (4, .leave), (5, .ret 0),
    (20, .enter 1), (21, .ext 0 (fun _ => some (30, []))), (22, .leave), (23, .ret 2),
    (30, .enter 2), (31, .data 0 (fun _ => [0]) (fun _ => [])), (32, .resume (fun _ => none)), (33, .leave), (34, .ret 0) ]

def nestedLayouts : List Layout := [⟨0, 0⟩, ⟨2, 0⟩, ⟨0, 0⟩]

def nested : Compiled (mk nestedCode nestedLayouts) :=
  compiled nestedCode nestedLayouts [(2, 0), (3, 0), (4, 0), (21, 2), (22, 2), (31, 0), (32, 0), (33, 0)] (by decide +kernel)

def nestedAt (n : Nat) : VM := (final nestedCode nestedLayouts false 2000 n).1

/-- If the callback of an external function resumes another fiber, that fiber runs inside the external function.
When its outermost function returns, the external function goes on although its callback has not returned: the stack of
its fiber has changed, and the machine takes another fiber for the current one. -/
theorem C33_nested_violated : ∃ (p : Program) (_ : Compiled p) (vm vm' : VM) (P P' : List Ptr) (k : Nat),
    ReachAny p vm P ∧ ReachAny p vm' P' ∧ vm.loc = k ∧ vm'.loc = k ∧ vm.loops = [] ∧ vm'.loops = [] ∧
    (∃ t next, p.code (vm.fiber k).ip = .ext t next) ∧ (vm'.fiber k).ip = (vm.fiber k).ip ∧
    (vm'.fiber k).top ≠ (vm.fiber k).top ∧ (vm'.fiber k).base ≠ (vm.fiber k).base ∧ vm'.cur ≠ k :=
  ⟨_, nested, nestedAt 4, nestedAt 10, _, _, 1, final_reachAny (by decide +kernel) (by decide +kernel),
    final_reachAny (by decide +kernel) (by decide +kernel), by decide +kernel, by decide +kernel, by decide +kernel,
    by decide +kernel, ⟨0, _, by rw [show ((nestedAt 4).fiber 1).ip = 21 by decide +kernel]; rfl⟩, by decide +kernel,
    by decide +kernel, by decide +kernel, by decide +kernel⟩

/-! ## C34: stack overflow is detected -/

/-- No instruction writes outside the stack, if external functions and `sort` reserve at most what is kept free. -/
theorem C34_no_fault_partial (c : Compiled p) (h : Reach p vm P) (hv : Valid p vm P)
    (hext : ∀ t next, p.code (vm.fiber vm.loc).ip = .ext t next →
      (t : Int) ≤ minFree ∧ ∀ e ps, next vm = some (e, ps) → (t : Int) + ps.length + 1 ≤ minFree) :
    step p vm ≠ .err .fault ∧ step p vm ≠ .err .fuel := by
  obtain ⟨g, hI⟩ := reach_inv c h
  have := step_no_fault hI hv.old (reach_room c h) hext
  exact ⟨fun e => this (.inl e), fun e => this (.inr e)⟩

/-- The stack pointer of every fiber is inside its stack. -/
theorem C34_top_in_stack_partial (c : Compiled p) (h : Reach p vm P) {k : Nat} (hk : k < vm.num)
    (hka : (vm.fiber k).alive = true) : 0 ≤ (vm.fiber k).top ∧ (vm.fiber k).top < (vm.fiber k).size := by
  obtain ⟨g, hI⟩ := reach_inv c h
  have := top_lt_size (hI.fib k hk hka)
  exact ⟨reach_room c h k hk hka, by omega⟩

example : step (mk code layouts) (at_ 9).1 ≠ .err .fault ∧ step (mk code layouts) (at_ 9).1 ≠ .err .fuel := by
  have h9 : (mk code layouts).code ((at_ 9).1.fiber (at_ 9).1.loc).ip =
      .ext 5 (fun vm => if (vm.fiber 0).stack 1994 = 1 then some (20, [1, 2]) else none) := by
    rw [show ((at_ 9).1.fiber (at_ 9).1.loc).ip = 6 by decide +kernel]; rfl
  refine C34_no_fault_partial sample (sample_reach 9 (by decide +kernel)) (validB_ok (by decide +kernel)) ?_
  intro t next ht
  rw [h9] at ht; cases ht
  refine ⟨by decide, fun e ps hp => ?_⟩
  have hp : (if ((at_ 9).1.fiber 0).stack 1994 = 1 then some ((20 : Int), [(1 : Int), 2]) else none) = some (e, ps) := hp
  split at hp <;> cases hp
  decide

/-- A recursive function: the stack overflows, which is detected. -/
def recCode : List (Int × Instr) := [(1, .enter 0), (2, .call 1), (3, .leave), (4, .ret 0)]

example : errOf (step (mk recCode [⟨0, 100⟩]) (final recCode [⟨0, 100⟩] true 2000 18).1) = some .overflow := by decide +kernel

/-- `sort` keeps two items on the stack while it compares: items larger than the free stack are written outside. -/
def sortCode : List (Int × Instr) :=
  [(1, .enter 0), (2, .ext 3000 (fun _ => some (10, [0, 0]))), (3, .leave), (4, .ret 0), (10, .enter 1), (11, .leave), (12, .ret 2)]

theorem C34_sort_violated : ∃ (p : Program) (_ : Compiled p) (vm : VM) (P : List Ptr),
    Reach p vm P ∧ Valid p vm P ∧ step p vm = .err .fault :=
  ⟨_, compiled sortCode [⟨0, 0⟩, ⟨2, 0⟩] [(2, 0), (3, 0), (11, 2)] (by decide +kernel), _, _,
    final_reach (size := 2000) (n := 1) (by decide +kernel) (by decide +kernel), validB_ok (by decide +kernel),
    errOf_ok (by decide +kernel)⟩

/-- A program is stopped for stack overflow exactly if fewer than 1024 slots are free before an instruction, or would be free after one that enters
a function with its local variables or copies a structure to the stack. -/
theorem C34_overflow (p : Program) (vm : VM) : step p vm = .err .overflow ↔
    (vm.fiber vm.loc).top < 1024 ∨
    (∃ l, p.code (vm.fiber vm.loc).ip = .enter l ∧ (vm.fiber vm.loc).top - (p.layout l).locals < 1024) ∨
    (∃ pop vals, p.code (vm.fiber vm.loc).ip = .block pop vals ∧ (vm.fiber vm.loc).top + pop - (vals vm).length < 1024) := step_overflow

/-- The host program calls a function: its parameters are pushed without a check. -/
theorem C34_host_violated : start 3 1 [1, 2, 3] = .error .fault := rfl

/-! ## C35: pointers to local variables do not escape -/

/-- Every pointer to a stack that exists points to a variable of a function that has not returned. -/
theorem C35_no_dangling_partial (c : Compiled p) (h : Reach p vm P) : ∀ q ∈ P, IsVar p vm q := by
  obtain ⟨g, hI⟩ := reach_inv c h
  intro q hq
  exact owned_isVar hI (hI.ptrs q hq)

/-- A function is stopped when it leaves its frame exactly if there is a pointer to one of its variables. -/
theorem C35_escape_partial (c : Compiled p) (h : Reach p vm P) (hi : p.code (vm.fiber vm.loc).ip = .leave)
    (ht : minFree ≤ (vm.fiber vm.loc).top) :
    step p vm = .err .escapes ↔ ∃ q ∈ P, q.1 = vm.loc ∧ InFrame p (vm.fiber vm.loc) (vm.fiber vm.loc).base q.2 := by
  obtain ⟨g, hI⟩ := reach_inv c h
  rw [← leave_iff hI hi]
  simp only [step, hi, if_neg (show ¬ (vm.fiber vm.loc).top < minFree by omega), leaveFrame]
  split
  · rename_i hc; exact ⟨fun _ => hc, fun _ => rfl⟩
  · rename_i hc; exact ⟨fun e => (by cases e), fun e => absurd e hc⟩

/-- The function at 20 keeps a pointer to its parameter. -/
def escCode : List (Int × Instr) :=
  [(1, .enter 0), (2, .data 0 (fun _ => [7]) (fun _ => [])), (3, .call 20), (4, .leave), (5, .ret 0),
   (20, .enter 1), (21, .ref (fun _ => some (0, 1992)) 1), (22, .ref (fun _ => some (0, 1994)) 1), (23, .leave), (24, .ret 1)]

def escLayouts : List Layout := [⟨0, 2⟩, ⟨1, 0⟩]

example : (at_ 8).2 = [(0, 1993)] ∧ isVarB (mk code layouts) (at_ 8).1 (0, 1993) = true := by decide +kernel

example : step (mk escCode escLayouts) (final escCode escLayouts true 2000 6).1 = .err .escapes := by
  have hr : Reach (mk escCode escLayouts) (final escCode escLayouts true 2000 6).1 (final escCode escLayouts true 2000 6).2 :=
    final_reach (by decide +kernel) (by decide +kernel)
  have hi : (mk escCode escLayouts).code ((final escCode escLayouts true 2000 6).1.fiber (final escCode escLayouts true 2000 6).1.loc).ip = .leave := by
    rw [show ((final escCode escLayouts true 2000 6).1.fiber (final escCode escLayouts true 2000 6).1.loc).ip = 23 by decide +kernel]; rfl
  refine (C35_escape_partial (compiled escCode escLayouts [(2, 0), (3, 0), (4, 0), (21, 1), (22, 1), (23, 1)] (by decide +kernel))
    hr hi (by decide +kernel)).mpr ⟨(0, 1992), ?_, ?_, ?_⟩ <;> decide +kernel

/-- A pointer to a variable of a fiber that has suspended itself is not counted when another fiber, not its
descendant, copies it.  The function returns, and the pointer dangles. -/
def suspCode : List (Int × Instr) :=
  [ (1, .enter 0), (2, .spawn 0 (fun _ => 20) (fun _ => (0, 0))), (3, .resume (fun _ => some 1)),
    (4, .ref (fun _ => some (1, 1988)) 1), (5, .data 0 (fun _ => [0]) (fun _ => [])), (6, .resume (fun _ => some 1)), (7, .leave), (8, .ret 0),
    (20, .enter 1), (21, .call 30), (22, .data 0 (fun _ => [0]) (fun _ => [])), (23, .resume (fun _ => none)), (24, .leave), (25, .ret 2),
    (30, .enter 2), (31, .ref (fun _ => some (1, 1988)) 1), (32, .data 0 (fun _ => [0]) (fun _ => [])), (33, .resume (fun _ => none)),
    (34, .ref (fun _ => some (1, 1988)) (-1)), (35, .leave), (36, .ret 0) ]

def suspLayouts : List Layout := [⟨0, 1⟩, ⟨2, 0⟩, ⟨0, 1⟩]

def susp : Compiled (mk suspCode suspLayouts) := compiled suspCode suspLayouts
  [(2, 0), (3, 0), (4, 0), (5, 0), (6, 0), (7, 0), (21, 2), (22, 2), (23, 2), (24, 2), (31, 0), (32, 0), (33, 0), (34, 0), (35, 0)]
  (by decide +kernel)

def suspAt : VM × List Ptr := final suspCode suspLayouts false 2000 15

theorem C35_suspended_violated : ∃ (p : Program) (_ : Compiled p) (vm : VM) (P : List Ptr) (q : Ptr),
    ReachAny p vm P ∧ q ∈ P ∧ ¬ IsVar p vm q := by
  refine ⟨_, susp, suspAt.1, suspAt.2, (1, 1988), final_reachAny (by decide +kernel) (by decide +kernel), by decide +kernel, ?_⟩
  rintro ⟨-, -, b, hb, hi⟩
  have hall : ∀ b, Active (suspAt.1.fiber 1) b → b = 1995 := by
    intro b hb
    induction hb with
    | cur _ => decide +kernel
    | up _ hn ih => subst ih; exact absurd (by decide +kernel) hn
  rw [hall b hb] at hi
  revert hi
  decide +kernel

/-! ## C59: the check does not stop other programs -/

/-- Outside callbacks of external functions, copying or dropping a pointer never stops the program. -/
theorem C59_no_false_alarm_partial (c : Compiled p) (h : Reach p vm P) (hv : Valid p vm P) {ptr delta}
    (hi : p.code (vm.fiber vm.loc).ip = .ref ptr delta) (hl : vm.loops = []) (ht : minFree ≤ (vm.fiber vm.loc).top) :
    ∃ vm', step p vm = .ok vm' := by
  obtain ⟨g, hI⟩ := reach_inv c h
  have h1 := ref_found hI hv.old hi hl
  have h2 := C34_no_fault_partial c h hv (by intro t next ht; rw [hi] at ht; cases ht)
  cases hs : step p vm with
  | ok vm' => exact ⟨vm', rfl⟩
  | done vm' =>
    simp only [step, hi, if_neg (show ¬ (vm.fiber vm.loc).top < minFree by omega)] at hs
    split at hs
    · cases hs
    · simp only [Res.of] at hs; split at hs <;> cases hs
  | err e =>
    exfalso
    simp only [step, hi, if_neg (show ¬ (vm.fiber vm.loc).top < minFree by omega)] at hs h1 h2
    cases hq : ptr vm with
    | none => rw [hq] at hs; cases hs
    | some q =>
      rw [hq] at hs h1 h2
      simp only at hs h1 h2
      obtain ⟨o1, o2, o3⟩ := ref_pointers hI hi hv.old hq
      have hanc : Ancestor vm vm.cur q.1 := by
        have hv' := hv.old; simp only [Valid', hi] at hv'; exact (hv' q hq).1
      have hsame : ∀ k, ((vm.set vm.loc { vm.fiber vm.loc with ip := (vm.fiber vm.loc).ip + 1 }).fiber k).alive = (vm.fiber k).alive ∧
          ((vm.set vm.loc { vm.fiber vm.loc with ip := (vm.fiber vm.loc).ip + 1 }).fiber k).parent = (vm.fiber k).parent := by
        intro k; rw [set_fiber]; split
        · rename_i e; subst e; exact ⟨rfl, rfl⟩
        · exact ⟨rfl, rfl⟩
      have key := refCnt_inv (ref_next hI hi) (ancestor_congr hanc fun j => (hsame j).2) ⟨o1.1, (hsame _).1.trans o1.2.1, o1.2.2⟩ o2 o3
      rcases key with ⟨e', he, rfl⟩ | ⟨vm1, he, -⟩
      · have he : refCnt p q delta vm.num (vm.set vm.loc { vm.fiber vm.loc with ip := (vm.fiber vm.loc).ip + 1 }) vm.cur = .error .illegalStack := he
        rw [he] at h1; exact h1 rfl
      · have he : refCnt p q delta vm.num (vm.set vm.loc { vm.fiber vm.loc with ip := (vm.fiber vm.loc).ip + 1 }) vm.cur = .ok vm1 := he
        rw [he] at hs; cases hs

example : ∃ vm', step (mk code layouts) (at_ 8).1 = .ok vm' := by
  have hi : (mk code layouts).code ((at_ 8).1.fiber (at_ 8).1.loc).ip = .ref (fun _ => some (0, 1993)) (-1) := by
    rw [show ((at_ 8).1.fiber (at_ 8).1.loc).ip = 5 by decide +kernel]; rfl
  exact C59_no_false_alarm_partial sample (sample_reach 8 (by decide +kernel)) (validB_ok (by decide +kernel)) hi
    (by decide +kernel) (by decide +kernel)

/-- A callback of an external function that copies a pointer to a variable of the function that called the external
function is stopped with "Illegal stack pointer", although the variable exists. -/
def cbCode : List (Int × Instr) :=
  [ (1, .enter 0), (2, .ext 0 (fun _ => some (20, []))), (3, .leave), (4, .ret 0),
    (20, .enter 1), (21, .ref (fun _ => some (0, 1994)) 1), (22, .leave), (23, .ret 0) ]

theorem C59_callback_violated : ∃ (p : Program) (_ : Compiled p) (vm : VM) (P : List Ptr) (q : Ptr),
    Reach p vm P ∧ Valid p vm P ∧ p.code (vm.fiber vm.loc).ip = .ref (fun _ => some q) 1 ∧ IsVar p vm q ∧
    step p vm = .err .illegalStack :=
  ⟨_, compiled cbCode [⟨0, 1⟩, ⟨0, 0⟩] [(2, 0), (3, 0), (21, 0), (22, 0)] (by decide +kernel), _, _, (0, 1994),
    final_reach (size := 2000) (n := 3) (by decide +kernel) (by decide +kernel), validB_ok (by decide +kernel),
    by rw [show ((final cbCode [⟨0, 1⟩, ⟨0, 0⟩] true 2000 3).1.fiber (final cbCode [⟨0, 1⟩, ⟨0, 0⟩] true 2000 3).1.loc).ip = 21 by decide +kernel]; rfl,
    isVarB_ok (by decide +kernel), errOf_ok (by decide +kernel)⟩

/-! ## C36: fibers -/

/-- `resume(f)` runs `f` if it is alive, otherwise the current fiber goes on; `resume()` runs the fiber that made the
current one. -/
theorem C36_resume_partial (c : Compiled p) (h : Reach p vm P) {who} (hi : p.code (vm.fiber vm.loc).ip = .resume who)
    (ht : minFree ≤ (vm.fiber vm.loc).top) :
    ∃ vm', step p vm = .ok vm' ∧ vm'.loc = vm'.cur ∧
      (∀ k, who vm = some k → (vm.fiber k).alive = true → vm'.cur = k) ∧
      (∀ k, who vm = some k → (vm.fiber k).alive = false → vm'.cur = vm.cur) ∧
      (who vm = none → ∀ j, (vm.fiber vm.cur).parent = some j → vm'.cur = j) ∧
      (who vm = none → (vm.fiber vm.cur).parent = none → vm'.cur = vm.cur) ∧
      (∀ k, k ≠ vm.cur → vm'.fiber k = vm.fiber k) ∧
      vm'.fiber vm.cur = { vm.fiber vm.cur with top := (vm.fiber vm.cur).top + 1, ip := (vm.fiber vm.cur).ip + 1 } := by
  obtain ⟨g, hI⟩ := reach_inv c h
  have hl := hI.loc
  simp only [step, hi, if_neg (show ¬ (vm.fiber vm.loc).top < minFree by omega),
    if_neg (show ¬ (vm.fiber vm.loc).alive = false by rw [hI.loc_alive]; simp)]
  refine ⟨_, rfl, rfl, ?_, ?_, ?_, ?_, ?_, ?_⟩
  · intro k hk hka
    simp only [VM.switch, hk, hka]; rfl
  · intro k hk hka
    simp only [VM.switch, hk, hka]
    exact hl
  · intro hw j hj
    simp only [VM.switch, hw, hl, hj]
  · intro hw hj
    simp only [VM.switch, hw, hl, hj]
  · intro k hk
    show (vm.set vm.loc _).fiber k = _
    rw [set_fiber, if_neg (by rw [hl]; exact hk)]
  · show (vm.set vm.loc _).fiber vm.cur = _
    rw [set_fiber, if_pos hl.symm, hl]

example : (mk code layouts).code ((at_ 17).1.fiber (at_ 17).1.loc).ip = .resume (fun _ => some 1) ∧
    ((at_ 17).1.fiber 1).alive = true ∧ (at_ 17).1.cur = 0 ∧ (at_ 18).1.cur = 1 ∧ (at_ 21).1.cur = 0 ∧
    Reach (mk code layouts) (at_ 17).1 (at_ 17).2 ∧ minFree ≤ ((at_ 17).1.fiber (at_ 17).1.loc).top :=
  ⟨by rw [show ((at_ 17).1.fiber (at_ 17).1.loc).ip = 9 by decide +kernel]; rfl, by decide +kernel, by decide +kernel,
    by decide +kernel, by decide +kernel, sample_reach 17 (by decide +kernel), by decide +kernel⟩

theorem away_inv (c : Compiled p) {k : Nat} {s s' : VM × List Ptr} (ha : Away p k s s') (h : ∃ g, Inv c g s.1 s.2)
    (hk : k < s.1.num) :
    (∃ g, Inv c g s'.1 s'.2) ∧ k < s'.1.num ∧ ctl (s'.1.fiber k) = ctl (s.1.fiber k) := by
  induction ha with
  | nil => exact ⟨h, hk, rfl⟩
  | cons _ hl hv hs ih =>
    obtain ⟨⟨g, hI⟩, h2, h3⟩ := ih h hk
    obtain ⟨g', hI', hn, -⟩ := step_inv hI hv hs
    exact ⟨⟨g', hI'⟩, Nat.lt_of_lt_of_le h2 hn, (step_other hI hv.old hs h2 (Ne.symm hl)).1.trans h3⟩

/-- A fiber that is resumed later goes on behind its `resume`, with its stack as it was. -/
theorem C36_continue_partial (c : Compiled p) (h : Reach p vm P) (hv : Valid p vm P) {who}
    (hi : p.code (vm.fiber vm.loc).ip = .resume who) {vm1 : VM} (hs : step p vm = .ok vm1) {P2 : List Ptr}
    (ha : Away p vm.loc (vm1, pointers p vm P) (vm', P2)) :
    (vm'.fiber vm.loc).ip = (vm.fiber vm.loc).ip + 1 ∧ (vm'.fiber vm.loc).top = (vm.fiber vm.loc).top + 1 ∧
    (vm'.fiber vm.loc).base = (vm.fiber vm.loc).base ∧ (vm'.fiber vm.loc).alive = true := by
  obtain ⟨g, hI⟩ := reach_inv c h
  have ht : minFree ≤ (vm.fiber vm.loc).top := by
    simp only [step] at hs
    split at hs
    · cases hs
    · omega
  obtain ⟨v, hv1, -, -, -, -, -, -, hf⟩ := C36_resume_partial c h hi ht
  rw [hs] at hv1; cases hv1
  obtain ⟨g', hI', hn, -⟩ := step_inv hI hv hs
  have := (away_inv c ha ⟨g', hI'⟩ (Nat.lt_of_lt_of_le hI.loc_lt hn)).2.2
  simp only [ctl, Prod.mk.injEq] at this
  rw [← hI.loc] at hf
  rw [hf] at this
  obtain ⟨-, t, b, i, a, -⟩ := this
  exact ⟨i, t, b, a.trans hI.loc_alive⟩

/-- The main function resumes the fiber, which runs three instructions and comes back. -/
example : ∃ vm' P', Away (mk code layouts) 0 (nextVM (mk code layouts) (at_ 17).1, pointers (mk code layouts) (at_ 17).1 (at_ 17).2) (vm', P') ∧
    vm'.cur = 0 ∧ (vm'.fiber 0).ip = 10 := by
  have h3 : (awayB code layouts 0 (nextVM (mk code layouts) (at_ 17).1, pointers (mk code layouts) (at_ 17).1 (at_ 17).2) 3).isSome = true := by
    decide +kernel
  obtain ⟨⟨vm', P'⟩, hx⟩ := Option.isSome_iff_exists.mp h3
  refine ⟨vm', P', awayB_ok hx, ?_⟩
  have h4 : ((awayB code layouts 0 (nextVM (mk code layouts) (at_ 17).1, pointers (mk code layouts) (at_ 17).1 (at_ 17).2) 3).map
    fun s => (s.1.cur, (s.1.fiber 0).ip)) = some (0, 10) := by decide +kernel
  rw [hx] at h4
  simp at h4
  exact h4

/-- An instruction of one fiber keeps the position, the stack pointers and the variables of all others, except the
variables that it stores to through a pointer. -/
theorem C36_others_partial (c : Compiled p) (h : Reach p vm P) (hv : Valid p vm P) (hs : step p vm = .ok vm') {k : Nat}
    (hk : k < vm.num) (hkl : k ≠ vm.cur) :
    (vm'.fiber k).ip = (vm.fiber k).ip ∧ (vm'.fiber k).top = (vm.fiber k).top ∧ (vm'.fiber k).base = (vm.fiber k).base ∧
    (vm'.fiber k).alive = (vm.fiber k).alive ∧
    ∀ i, IsVar p vm (k, i) →
      (∀ pop vals writes, p.code (vm.fiber vm.loc).ip = .data pop vals writes → ∀ w ∈ writes vm, w.1 ≠ (k, i)) →
      (vm'.fiber k).stack i = (vm.fiber k).stack i := by
  obtain ⟨g, hI⟩ := reach_inv c h
  obtain ⟨h1, -, h3⟩ := step_other hI hv.old hs hk (by rw [hI.loc]; exact hkl)
  simp only [ctl, Prod.mk.injEq] at h1
  exact ⟨h1.2.2.2.1, h1.2.1, h1.2.2.1, h1.2.2.2.2.1, h3⟩

/-- The fiber runs, and the main function waits with its variable. -/
example : Valid (mk code layouts) (at_ 19).1 (at_ 19).2 ∧ (at_ 19).1.cur = 1 ∧ IsVar (mk code layouts) (at_ 19).1 (0, 1994) ∧
    ((at_ 20).1.fiber 0).stack 1994 = 2 ∧ Reach (mk code layouts) (at_ 19).1 (at_ 19).2 :=
  ⟨validB_ok (by decide +kernel), by decide +kernel, isVarB_ok (by decide +kernel), by decide +kernel,
    sample_reach 19 (by decide +kernel)⟩

/-- When the function of a fiber returns, the fiber is dead, and the fiber that made it goes on. -/
theorem C36_finish_partial (c : Compiled p) (h : Reach p vm P) {n j : Nat} (hi : p.code (vm.fiber vm.loc).ip = .ret n)
    (hb : (vm.fiber vm.loc).base = (vm.fiber vm.loc).size - 1) (hp : (vm.fiber vm.loc).parent = some j)
    (hj : (vm.fiber j).alive = true) (ht : minFree ≤ (vm.fiber vm.loc).top) :
    ∃ vm', step p vm = .ok vm' ∧ vm'.cur = j ∧ vm'.loc = j ∧ (vm'.fiber vm.cur).alive = false ∧
      ∀ k, k ≠ vm.cur → vm'.fiber k = vm.fiber k := by
  obtain ⟨g, hI⟩ := reach_inv c h
  obtain ⟨r, h1, h2, h3, h4⟩ := outermost hI hi hb
  have hjl := hI.parent _ hI.loc_lt j hp
  rcases h4 with ⟨h4, -⟩ | ⟨-, rfl⟩
  · rw [hp] at h4; cases h4
  · simp only [step, hi, if_neg (show ¬ (vm.fiber vm.loc).top < minFree by omega), h1, if_pos, hp, VM.switch]
    have hfj : (vm.set vm.loc { vm.fiber vm.loc with top := (vm.fiber vm.loc).top + 1, alive := false, parent := some j }).fiber j = vm.fiber j := by
      rw [set_fiber, if_neg (by omega)]
    have hipj := hI.ip j (by have := hI.loc_lt; omega) (by rw [← hI.loc]; omega) hj
    have hcond : ¬ ((vm.fiber j).alive = false ∨ (vm.fiber j).ip = retVM) := by
      rw [hj]; simp only [retVM]; simp; omega
    split
    · rename_i hc
      exfalso
      apply hcond
      have e : ∀ f : Fiber, (vm.set vm.loc f).fiber j = vm.fiber j := by intro f; rw [set_fiber, if_neg (by omega)]
      rw [e] at hc
      exact hc
    · refine ⟨_, rfl, rfl, rfl, ?_, ?_⟩
      · show ((vm.set vm.loc _).fiber vm.cur).alive = false
        rw [set_fiber, if_pos hI.loc.symm]
      · intro k hk
        show (vm.set vm.loc _).fiber k = _
        rw [set_fiber, if_neg (by rw [hI.loc]; exact hk)]

example : (mk code layouts).code ((at_ 24).1.fiber (at_ 24).1.loc).ip = .ret 2 ∧ (at_ 24).1.loc = 1 ∧
    ((at_ 24).1.fiber 1).base = ((at_ 24).1.fiber 1).size - 1 ∧ ((at_ 24).1.fiber 1).parent = some 0 ∧
    ((at_ 24).1.fiber 0).alive = true ∧ minFree ≤ ((at_ 24).1.fiber 1).top ∧ Reach (mk code layouts) (at_ 24).1 (at_ 24).2 ∧
    (at_ 25).1.cur = 0 ∧ ((at_ 25).1.fiber 1).alive = false ∧ (at_ 27).1.cur = 0 :=
  ⟨by rw [show ((at_ 24).1.fiber (at_ 24).1.loc).ip = 44 by decide +kernel]; rfl, by decide +kernel, by decide +kernel,
    by decide +kernel, by decide +kernel, by decide +kernel, sample_reach 24 (by decide +kernel), by decide +kernel,
    by decide +kernel, by decide +kernel⟩

/-- A fiber that is dead stays dead, and never runs again. -/
theorem C36_dead_forever_partial (c : Compiled p) (h : Reach p vm P) {k : Nat} (hk : k < vm.num)
    (hd : (vm.fiber k).alive = false) {P' : List Ptr} (hr : Run p (Valid p) (vm, P) (vm', P')) :
    vm'.fiber k = vm.fiber k ∧ vm'.cur ≠ k := by
  obtain ⟨g, hI⟩ := reach_inv c h
  have key : ∀ {s s' : VM × List Ptr}, Run p (Valid p) s s' → (∃ g, Inv c g s.1 s.2) → k < s.1.num →
      (s.1.fiber k).alive = false → (∃ g, Inv c g s'.1 s'.2) ∧ k < s'.1.num ∧ s'.1.fiber k = s.1.fiber k := by
    intro s s' hr h hk hd
    induction hr with
    | nil => exact ⟨h, hk, rfl⟩
    | cons _ hv hs ih =>
      obtain ⟨⟨g, hI⟩, h2, h3⟩ := ih h hk hd
      obtain ⟨g', hI', hn, -⟩ := step_inv hI hv hs
      refine ⟨⟨g', hI'⟩, Nat.lt_of_lt_of_le h2 hn, ?_⟩
      rw [← h3] at hd ⊢
      refine (step_other hI hv.old hs h2 ?_).2.1 hd
      intro e
      rw [e, hI.loc_alive] at hd; cases hd
  obtain ⟨⟨g', hI'⟩, h2, h3⟩ := key hr ⟨g, hI⟩ hk hd
  refine ⟨h3, fun e => ?_⟩
  have := hI'.alive
  simp only at h3
  rw [e, h3, hd] at this; cases this

example : ((at_ 25).1.fiber 1).alive = false ∧ 1 < (at_ 25).1.num ∧ Reach (mk code layouts) (at_ 25).1 (at_ 25).2 ∧
    Run (mk code layouts) (Valid (mk code layouts)) (at_ 25) (nextVM (mk code layouts) (at_ 25).1, pointers (mk code layouts) (at_ 25).1 (at_ 25).2) :=
  ⟨by decide +kernel, by decide +kernel, sample_reach 25 (by decide +kernel),
    .cons .nil (validB_ok (by decide +kernel)) (isOk_ok (by decide +kernel))⟩

/-- Fiber A (20) makes fiber B (30) and returns; the main function resumes B. -/
def orphanCode : List (Int × Instr) :=
  [ (1, .enter 0), (2, .spawn 0 (fun _ => 20) (fun _ => (0, 0))), (3, .resume (fun _ => some 1)), (4, .data 0 (fun _ => [0]) (fun _ => [])),
    (5, .resume (fun _ => some 2)), (6, .leave), (7, .ret 0),
    (20, .enter 1), (21, .spawn 0 (fun _ => 30) (fun _ => (0, 0))), (22, .leave), (23, .ret 2),
    (30, .enter 2), (31, .leave), (32, .ret 2) ]

def orphanLayouts : List Layout := [⟨0, 0⟩, ⟨2, 0⟩, ⟨2, 0⟩]

def orphan : Compiled (mk orphanCode orphanLayouts) :=
  compiled orphanCode orphanLayouts [(2, 0), (3, 0), (4, 0), (5, 0), (6, 0), (21, 2), (22, 2), (31, 2)] (by decide +kernel)

def orphanAt : VM × List Ptr := final orphanCode orphanLayouts true 2000 11

/-- If the fiber that made a fiber is dead when the latter returns, the whole program ends, although the main function
has not returned. -/
theorem C36_orphan_violated : ∃ (p : Program) (_ : Compiled p) (vm vm' : VM) (P : List Ptr),
    Reach p vm P ∧ Valid p vm P ∧ vm.loc ≠ 0 ∧ (vm.fiber 0).alive = true ∧ Active (vm.fiber 0) (vm.fiber 0).base ∧
    step p vm = .done vm' :=
  ⟨_, orphan, orphanAt.1, nextVM (mk orphanCode orphanLayouts) orphanAt.1, orphanAt.2,
    final_reach (by decide +kernel) (by decide +kernel), validB_ok (by decide +kernel), by decide +kernel, by decide +kernel,
    .cur (by decide +kernel), isDone_ok (by decide +kernel)⟩

/-- A fiber made by a dead fiber that calls `resume()` runs the dead fiber. -/
def orphan2Code : List (Int × Instr) :=
  [ (1, .enter 0), (2, .spawn 0 (fun _ => 20) (fun _ => (0, 0))), (3, .resume (fun _ => some 1)), (4, .data 0 (fun _ => [0]) (fun _ => [])),
    (5, .resume (fun _ => some 2)), (6, .leave), (7, .ret 0),
    (20, .enter 1), (21, .spawn 0 (fun _ => 30) (fun _ => (0, 0))), (22, .leave), (23, .ret 2),
    (30, .enter 2), (31, .data 0 (fun _ => [0]) (fun _ => [])), (32, .resume (fun _ => none)), (33, .leave), (34, .ret 2) ]

theorem C36_dead_parent_violated : ∃ (p : Program) (_ : Compiled p) (vm : VM) (P : List Ptr),
    ReachAny p vm P ∧ (vm.fiber vm.cur).alive = false :=
  ⟨_, compiled orphan2Code orphanLayouts [(2, 0), (3, 0), (4, 0), (5, 0), (6, 0), (21, 2), (22, 2), (31, 2), (32, 2), (33, 2)] (by decide +kernel),
    _, _, final_reachAny (size := 2000) (n := 12) (by decide +kernel) (by decide +kernel), by decide +kernel⟩

end Umka.Frame.Props
