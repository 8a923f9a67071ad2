import Verif.Trace.Spec
import Verif.Frame.Props

/-! # The call stack and the calls in progress -/

namespace Umka.Trace
open Umka.Frame

variable {p : Program} {vm vm' : VM} {P : List Ptr}

def site : Ret → Call
  | .code ip => .from (ip - 1)
  | _ => .outside

def sites (g : Calls) : List Call := g.acts.map fun a => site a.ret

theorem sites_keys {g : Calls} : sites g = (keys g).map fun x => site x.2.2 := by simp [sites, keys, Act.key]

/-- The call stack that is read from the frames. -/
theorem callStackFrom_frames {c : Compiled p} {f : Fiber} : ∀ {as : List Act} {b ip : Int} {d : Nat},
    Frames c f.stack f.size b as → callStackFrom f (d + 1) (b, ip) = ((callers (as.map fun a => site a.ret))[d]?).map (· + 1)
  | [], b, ip, d, h => by
    have h : b = f.size - 1 := h
    simp [callStackFrom, unwind, h, callers]
  | a :: as, b, ip, d, h => by
    have hl := h.low_le a (by simp)
    have hl' := a.low_le
    obtain ⟨h1, h2, -, -, h5, h6⟩ := h
    have hb : b ≠ f.size - 1 := by omega
    cases hr : a.ret with
    | code i =>
      rw [hr] at h2 h5
      obtain ⟨a', rest, -, hbody⟩ := h5
      have hi := c.nonneg hbody
      have h2 : f.stack (b + 1) = i := h2
      have hu : unwind f b = some (f.stack b, i) := by
        simp only [unwind, if_neg hb, h2]
        rw [if_neg (by simp only [retFiber, retVM]; omega)]
      simp only [callStackFrom, hu, List.map_cons, hr]
      rw [show site (.code i) = .from (i - 1) from rfl, callers]
      cases d with
      | zero => simp [callStackFrom]
      | succ d => rw [callStackFrom_frames h6]; simp
    | host =>
      rw [hr] at h2
      have h2 : f.stack (b + 1) = retVM := h2
      simp [callStackFrom, unwind, hb, h2, hr, site, callers]
    | fiber =>
      rw [hr] at h2
      have h2 : f.stack (b + 1) = retFiber := h2
      simp [callStackFrom, unwind, hb, h2, hr, site, callers]
    | callback i t =>
      rw [hr] at h2
      have h2 : f.stack (b + 1) = retVM := h2
      simp [callStackFrom, unwind, hb, h2, hr, site, callers]

/-- A new fiber. -/
theorem fresh {c : Compiled p} {k : Nat} {f : Fiber} {g : Calls} (h : Fib c P k f g) (hb : f.base = f.size - 1) :
    sites g = [.outside] := by
  have hf := h.frames
  have he : g.entered = [] := by
    cases ha : g.entered with
    | nil => rfl
    | cons a as =>
      rw [ha] at hf
      have h1 := hf.low_le a (by simp)
      have h2 := a.low_le
      have := hf.1
      omega
  cases hp : g.pend with
  | false => rw [entered_run hp] at he; exact absurd he h.ne
  | true =>
    obtain ⟨a, as, ha⟩ := cons_of_ne h.ne
    have has : as = [] := by simpa [Calls.entered, hp, ha] using he
    subst has
    obtain ⟨-, -, -, -, h5⟩ := h.pend hp a [] ha
    simp only [sites, ha, List.map_cons, List.map_nil]
    cases hr : a.ret with
    | code i => rw [hr] at h5; obtain ⟨_, _, e, -⟩ := h5; cases e
    | callback i t => rw [hr] at h5; obtain ⟨_, _, _, e, -⟩ := h5; cases e
    | host => rfl
    | fiber => rfl

theorem writeAll_num : ∀ {ws : List (Ptr × Int)} {vm vm' : VM}, writeAll vm ws = .ok vm' → vm'.num = vm.num
  | [], _, _, h => by cases h; rfl
  | ((k, i), v) :: ws, vm, vm', h => by
    simp only [writeAll] at h
    split at h
    · cases h
    · exact (writeAll_num h).trans rfl

theorem refCnt_num {q : Ptr} {d : Int} : ∀ {n : Nat} {vm vm' : VM} {k : Nat}, refCnt p q d n vm k = .ok vm' → vm'.num = vm.num
  | 0, _, _, _, h => by cases h
  | n + 1, vm, vm', k, h => by
    have key : ∀ {v : VM}, v.num = vm.num → (match (v.fiber k).parent with
        | none => (.ok v : Except Err VM)
        | some j => refCnt p q d n v j) = .ok vm' → vm'.num = vm.num := by
      intro v hn h
      split at h
      · cases h; exact hn
      · exact (refCnt_num h).trans hn
    simp only [refCnt, bind, Except.bind, pure, Except.pure] at h
    split at h
    · cases hf : frameRefCnt p (vm.fiber k) q.2 d with
      | error e => rw [hf] at h; cases h
      | ok f => rw [hf] at h; exact key (v := vm.set k f) rfl h
    · exact key rfl h

theorem exitLoop_num (h : exitLoop vm = .ok vm') : vm'.num = vm.num := by
  simp only [exitLoop] at h
  split at h
  · cases h
  · cases h; rfl

theorem with1_num {r : Except Err Fiber} (h : with1 vm r = .ok vm') : vm'.num = vm.num := by
  cases r with
  | error e => cases h
  | ok f => cases h; rfl

/-- Fibers are only made by `spawn`. -/
theorem step_num (hs : step p vm = .ok vm') :
    vm'.num = vm.num ∨ ∃ pop e up, p.code (vm.fiber vm.loc).ip = .spawn pop e up ∧ vm'.num = vm.num + 1 ∧
      (vm.loc < vm.num → (vm'.fiber vm.num).base = (vm'.fiber vm.num).size - 1) := by
  simp only [step] at hs
  split at hs
  · cases hs
  · cases hi : p.code (vm.fiber vm.loc).ip with
    | data pop vals writes =>
      left
      rw [hi] at hs
      have hs := ok_of_res hs
      simp only [bind, Except.bind] at hs
      split at hs
      · cases hs
      · exact (writeAll_num hs).trans rfl
    | block pop vals =>
      left
      rw [hi] at hs
      simp only at hs
      split at hs
      · cases hs
      · exact with1_num hs
    | jump t => left; rw [hi] at hs; exact with1_num hs
    | call e => left; rw [hi] at hs; exact with1_num hs
    | callIndirect m => left; rw [hi] at hs; exact with1_num hs
    | enter l => left; rw [hi] at hs; exact with1_num hs
    | leave => left; rw [hi] at hs; exact with1_num hs
    | ret n =>
      left
      rw [hi] at hs
      simp only at hs
      split at hs
      · split at hs
        · exact (exitLoop_num hs).trans rfl
        · split at hs
          · exact (exitLoop_num hs).trans rfl
          · cases hs; rfl
      · split at hs
        · exact (exitLoop_num hs).trans rfl
        · cases hs; rfl
    | ref ptr d =>
      left
      rw [hi] at hs
      simp only at hs
      split at hs
      · cases hs; rfl
      · exact (refCnt_num (ok_of_res hs)).trans rfl
    | spawn pop e up =>
      right
      rw [hi] at hs
      have hs := ok_of_res hs
      simp only [bind, Except.bind, pure, Except.pure] at hs
      split at hs
      · cases hs
      · rename_i child hc
        split at hs
        · cases hs
        · cases hs
          obtain ⟨-, h2, -, h4, -⟩ := newFiber_ok hc
          refine ⟨_, _, _, rfl, rfl, fun hlt => ?_⟩
          simp only [set_fiber, if_true]
          rw [h2, h4]
    | resume who =>
      left
      rw [hi] at hs
      simp only at hs
      split at hs
      · exact (exitLoop_num hs).trans rfl
      · cases hs; rfl
    | ext temp next =>
      left
      rw [hi] at hs
      simp only at hs
      split at hs
      · cases hs
      · split at hs
        · exact with1_num hs
        · split at hs
          · cases hs
          · split at hs
            · cases hs
            · have hs := ok_of_res hs
              simp only [bind, Except.bind, pure, Except.pure] at hs
              split at hs
              · cases hs
              · cases hs; rfl
    | halt => left; rw [hi] at hs; exact (exitLoop_num hs).trans rfl

theorem nextCalls_zero {h : Nat → List Call} {k : Nat} (he : event p k vm = 0) (hk : k < vm.num) : nextCalls p vm h k = h k := by
  unfold event at he
  simp only [nextCalls]
  cases hi : p.code (vm.fiber vm.loc).ip with
  | call e => rw [hi] at he; simp only at he; split at he; · cases he
              · rename_i hne; simp [putCalls, Ne.symm hne]
  | callIndirect e => rw [hi] at he; simp only at he; split at he; · cases he
                      · rename_i hne; simp [putCalls, Ne.symm hne]
  | ext t next =>
    rw [hi] at he; simp only at he; split at he
    · cases he
    · rename_i hne
      simp only
      split
      · rename_i hsome
        have : vm.cur ≠ k := fun e => hne ⟨hsome, e⟩
        simp [putCalls, Ne.symm this]
      · rfl
  | ret n => rw [hi] at he; simp only at he; split at he; · cases he
             · rename_i hne; simp [putCalls, Ne.symm hne]
  | spawn => simp only [putCalls]; rw [if_neg (by omega)]
  | _ => rfl

/-- The calls in progress are those that the machine keeps frames for. -/
theorem history_inv (c : Compiled p) {h : Nat → List Call} (H : History p vm P h) :
    ∃ g, Inv c g vm P ∧ ∀ k, k < vm.num → (vm.fiber k).alive = true → h k = sites (g k) := by
  induction H with
  | @start size entry params vm hs he =>
    obtain ⟨g, hI⟩ := start_inv c hs he
    refine ⟨g, hI, fun k hk ha => ?_⟩
    refine (fresh (hI.fib k hk ha) ?_).symm
    simp only [Frame.start, bind, Except.bind, pure, Except.pure, throw, throwThe, MonadExceptOf.throw] at hs
    split at hs
    · cases hs
    · split at hs
      · cases hs
      · rename_i f hf
        obtain ⟨h1, h2, h3, h4, h5, h6, h7⟩ := pushAll_ok hf
        cases hs
        have h2 : f.size = (size : Int) := h2
        have h3 : f.base = (size : Int) - 1 := h3
        show f.base = f.size - 1
        rw [h2, h3]
  | @step vm vm' P h H hv hs ih =>
    obtain ⟨g, hI, hg⟩ := ih
    obtain ⟨g', hI', hn, hev⟩ := step_inv hI hv hs
    refine ⟨g', hI', fun k hk ha => ?_⟩
    by_cases hlt : k < vm.num
    · cases hka : (vm.fiber k).alive with
      | false =>
        have hne : k ≠ vm.loc := by intro e; rw [e, hI.loc_alive] at hka; cases hka
        have := (step_other hI hv.old hs hlt hne).2.1 hka
        rw [this, hka] at ha; cases ha
      | true =>
        obtain ⟨-, e0, e1, e2⟩ := hev k hlt hka
        have hold := hg k hlt hka
        rw [sites_keys] at hold ⊢
        rcases event_cases p k vm with he | he | he
        · obtain ⟨x, hx, -, hx'⟩ := e1 he
          rw [hx, List.map_cons, ← hold]
          obtain ⟨hloc, -⟩ := call_loc hI he
          subst hloc
          rcases hx' with ⟨hr, -, hnot⟩ | ⟨t, ⟨next, hi⟩, hr, -⟩
          · rw [hr, show site (.code ((vm.fiber vm.loc).ip + 1)) = .from ((vm.fiber vm.loc).ip + 1 - 1) from rfl, Int.add_sub_cancel]
            simp only [event] at he
            simp only [nextCalls]
            cases hi : p.code (vm.fiber vm.loc).ip with
            | ext t next => exact absurd hi (hnot t next)
            | call | callIndirect => simp only [putCalls, if_true]
            | ret => rw [hi] at he; simp at he
            | _ => rw [hi] at he; simp at he
          · rw [hr, show site (.callback (vm.fiber vm.loc).ip t) = .outside from rfl]
            simp only [event, hi] at he
            split at he
            · rename_i hh
              simp only [nextCalls, hi, if_pos hh.1, putCalls, hh.2, if_true]
            · cases he
        · rw [nextCalls_zero he hlt, (e0 he).1]; exact hold
        · obtain ⟨x, hx, -⟩ := e2 he
          rw [hx] at hold
          unfold event at he
          simp only [nextCalls]
          cases hi : p.code (vm.fiber vm.loc).ip <;> rw [hi] at he <;> simp only at he
          all_goals (try split at he) <;> (try cases he)
          rename_i hloc
          subst hloc
          simp only [putCalls, if_true]
          rw [hold]; rfl
    · rcases step_num hs with e | ⟨pop, e, up, hi, en, hb⟩
      · rw [e] at hk; exact absurd hk hlt
      · have hkn : k = vm.num := by omega
        subst hkn
        rw [fresh (hI'.fib _ hk ha) (hb hI.loc_lt)]
        simp only [nextCalls, hi, putCalls, if_true]

end Umka.Trace
