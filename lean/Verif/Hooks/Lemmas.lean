import Verif.Hooks.Spec
import Verif.Trace.Dyn
/-! # Debug hooks: lemmas -/

namespace Umka.Hooks

open Umka.Frame
open Umka.Trace (Call nextCalls step_num nextCalls_zero)

variable {p : Program} {c : Compiled p} {g : Nat → Calls} {vm vm' : VM} {P : List Ptr}

theorem frameRefCnt_ctl {f f' : Fiber} {i d : Int} (h : frameRefCnt p f i d = .ok f') : f'.ip = f.ip ∧ f'.alive = f.alive := by
  simp only [frameRefCnt] at h
  split at h
  · split at h
    · cases h; exact ⟨rfl, rfl⟩
    · simp only [bind, Except.bind, pure, Except.pure] at h
      split at h
      · cases h
      · cases h; exact ⟨rfl, rfl⟩
  · cases h; exact ⟨rfl, rfl⟩

theorem refCnt_ctl {q : Ptr} {d : Int} : ∀ {n : Nat} {vm vm' : VM} {k : Nat}, refCnt p q d n vm k = .ok vm' → ∀ j, (vm'.fiber j).ip = (vm.fiber j).ip
  | 0, _, _, _, h, _ => by cases h
  | n + 1, vm, vm', k, h, j => by
    have rest : ∀ {vm1 : VM}, (vm1.fiber j).ip = (vm.fiber j).ip →
        (match (vm1.fiber k).parent with | none => (Except.ok vm1 : Except Err VM) | some j => refCnt p q d n vm1 j) = .ok vm' → (vm'.fiber j).ip = (vm.fiber j).ip := by
      intro vm1 e h
      cases hp : (vm1.fiber k).parent with
      | none => rw [hp] at h; cases h; exact e
      | some i => rw [hp] at h; rw [refCnt_ctl h j, e]
    simp only [refCnt, bind, Except.bind] at h
    split at h
    · cases hf : frameRefCnt p (vm.fiber k) q.2 d with
      | error e => rw [hf] at h; cases h
      | ok f =>
        rw [hf] at h
        refine rest (vm1 := vm.set k f) ?_ h
        rw [set_fiber]
        split
        · rename_i e; rw [(frameRefCnt_ctl hf).1, e]
        · rfl
    · exact rest rfl h

/-- Where the running fiber goes on. -/
theorem step_ip (h : Inv c g vm P) (hs : step p vm = .ok vm') :
    match p.code (vm.fiber vm.loc).ip with
    | .data .. | .block .. | .ref .. | .spawn .. | .resume _ | .enter _ | .leave => (vm'.fiber vm.loc).ip = (vm.fiber vm.loc).ip + 1
    | .ext _ next => (next vm = none → (vm'.fiber vm.loc).ip = (vm.fiber vm.loc).ip + 1) ∧ ∀ e ps, next vm = some (e, ps) → (vm'.fiber vm.loc).ip = e
    | .jump t => (vm'.fiber vm.loc).ip = t vm
    | .call e => (vm'.fiber vm.loc).ip = e
    | .callIndirect n => (vm'.fiber vm.loc).ip = (vm.fiber vm.loc).stack ((vm.fiber vm.loc).top + n) ∧ (vm.fiber vm.loc).stack ((vm.fiber vm.loc).top + n) ≠ 0
    | .ret _ | .halt => True := by
  have w1 : ∀ {r : Except Err Fiber}, with1 vm r = .ok vm' → ∃ f, r = .ok f ∧ vm'.fiber vm.loc = f := by
    intro r hr
    obtain ⟨f, hf, rfl⟩ := ok_of_with1 hr
    exact ⟨f, hf, by rw [set_fiber, if_pos rfl]⟩
  have hov : ¬ (vm.fiber vm.loc).top < minFree := by
    intro hlt
    rw [step, if_pos hlt] at hs
    cases hs
  cases hi : p.code (vm.fiber vm.loc).ip with
  | data pop vals writes =>
    simp only [step, hi, if_neg hov] at hs ⊢
    have hs := ok_of_res hs
    simp only [bind, Except.bind] at hs
    split at hs
    · cases hs
    · rename_i f hf
      obtain ⟨-, -, -, -, h5⟩ := writeAll_ctl hs
      have := (h5 vm.loc).1
      simp only [ctl, Prod.mk.injEq, set_fiber, if_true] at this
      rw [this.2.2.2.1, (pushAll_ok hf).2.2.2.1]
  | block pop vals =>
    simp only [step, hi, if_neg hov] at hs ⊢
    split at hs
    · cases hs
    · obtain ⟨f, hf, e⟩ := w1 hs
      rw [e, (pushAll_ok hf).2.2.2.1]
  | jump t =>
    simp only [step, hi, if_neg hov] at hs ⊢
    obtain ⟨f, hf, e⟩ := w1 hs
    rw [e]; cases hf; rfl
  | call e =>
    simp only [step, hi, if_neg hov, bind, Except.bind, pure, Except.pure] at hs ⊢
    obtain ⟨f, hf, e⟩ := w1 hs
    split at hf
    · cases hf
    · rw [e]; cases hf; rfl
  | callIndirect n =>
    simp only [step, hi, if_neg hov, bind, Except.bind, pure, Except.pure, throw, throwThe, MonadExceptOf.throw] at hs ⊢
    obtain ⟨f, hf, e⟩ := w1 hs
    split at hf
    · cases hf
    · rename_i hne
      split at hf
      · cases hf
      · rw [e]; cases hf; exact ⟨rfl, hne⟩
  | enter l =>
    simp only [step, hi, if_neg hov] at hs ⊢
    obtain ⟨f, hf, e⟩ := w1 hs
    rw [e]
    simp only [enterFrame, bind, Except.bind, pure, Except.pure, throw, throwThe, MonadExceptOf.throw] at hf
    split at hf
    · cases hf
    · split at hf
      · cases hf
      · rename_i f1 h1
        split at hf
        · cases hf
        · rename_i f2 h2
          split at hf
          · cases hf
          · rename_i f3 h3
            split at hf
            · cases hf
            · cases hf
              obtain ⟨rfl, -⟩ := push_ok h1
              obtain ⟨rfl, -⟩ := push_ok h2
              obtain ⟨rfl, -⟩ := push_ok h3
              rfl
  | leave =>
    simp only [step, hi, if_neg hov] at hs ⊢
    obtain ⟨f, hf, e⟩ := w1 hs
    rw [e]
    simp only [leaveFrame] at hf
    split at hf
    · cases hf
    · cases hf; rfl
  | ret n => trivial
  | ref ptr d =>
    simp only [step, hi, if_neg hov] at hs ⊢
    split at hs
    · cases hs; rw [set_fiber, if_pos rfl]
    · have hs := ok_of_res hs
      rw [refCnt_ctl hs, set_fiber, if_pos rfl]
  | spawn pop entry up =>
    simp only [step, hi, if_neg hov, bind, Except.bind, pure, Except.pure] at hs ⊢
    have hs := ok_of_res hs
    split at hs
    · cases hs
    · split at hs
      · cases hs
      · rename_i f hf
        cases hs
        obtain ⟨rfl, -⟩ := push_ok hf
        have : vm.loc ≠ vm.num := by have := h.loc_lt; omega
        simp only [set_fiber, if_neg this, if_true]
  | resume who =>
    simp only [step, hi, if_neg hov, h.loc_alive] at hs ⊢
    simp only [Bool.true_eq_false, if_false] at hs
    cases hs
    simp only [VM.switch, set_fiber, if_true]
  | ext t next =>
    simp only [step, hi, if_neg hov] at hs ⊢
    split at hs
    · cases hs
    · cases hn : next vm with
      | none =>
        rw [hn] at hs
        obtain ⟨f, hf, e⟩ := w1 hs
        refine ⟨fun _ => by rw [e]; cases hf; rfl, fun _ _ h => by cases h⟩
      | some x =>
        obtain ⟨e, ps⟩ := x
        rw [hn] at hs
        refine ⟨fun h => by (cases h), fun e' ps' h' => ?_⟩
        cases h'
        simp only at hs
        split at hs
        · cases hs
        · split at hs
          · cases hs
          · have hs := ok_of_res hs
            simp only [bind, Except.bind, pure, Except.pure] at hs
            split at hs
            · cases hs
            · cases hs
              simp only [h.loc, set_fiber, if_true]
  | halt => trivial

/-! ## The invariant -/

variable {κ : Type}

/-- Calls in progress and the functions that have been reported for their callers. -/
inductive Links (c : Compiled p) (fn : Int → κ) : List Ret → List κ → Prop
  | host : Links c fn [.host] []
  | fiber : Links c fn [.fiber] []
  | code {ip : Int} {n : Nat} {rs : List Ret} {o : List κ} : c.body ip n → Links c fn rs o → Links c fn (.code ip :: rs) (fn ip :: o)
  | callback {ip : Int} {t n : Nat} {rs : List Ret} {o : List κ} : c.body ip n → Links c fn rs o → Links c fn (.callback ip t :: rs) (fn ip :: o)

theorem Links.length {fn : Int → κ} {rs : List Ret} {o : List κ} (h : Links c fn rs o) : rs.length = o.length + 1 := by
  induction h with
  | host | fiber => rfl
  | code _ _ ih | callback _ _ ih => simp only [List.length_cons, ih]

def rets (g : Calls) : List Ret := (keys g).map fun x => x.2.2

theorem rets_length (g : Calls) : (rets g).length = g.acts.length := by simp [rets, keys]

/-- What has been reported of a fiber that is alive. -/
def Good (c : Compiled p) (fn : Int → κ) (ip : Int) (rs : List Ret) (o : List κ) : Prop :=
  (∃ n o', c.body ip n ∧ o = fn ip :: o' ∧ Links c fn rs o') ∨ ((∀ n, ¬ c.body ip n) ∧ Links c fn rs o)

variable [DecidableEq κ]

theorem pending_append {fn : Int → κ} (l l' : List Ev) : pending fn (l ++ l') = l'.foldl (follow fn) (pending fn l) := by
  rw [pending, pending, List.foldl_append]

theorem of_append (k : Nat) (l l' : List Ev) : of k (l ++ l') = of k l ++ of k l' := List.filter_append ..

theorem of_hook_other {k : Nat} (hk : k ≠ vm.loc) : of k (hook p vm) = [] := by
  unfold hook of
  split
  · rw [List.filter_cons, if_neg (by simpa using fun e => hk e.symm)]; rfl
  · rw [List.filter_cons, if_neg (by simpa using fun e => hk e.symm)]; rfl
  · rfl

theorem fresh_rets {k : Nat} {f : Fiber} {g : Calls} (h : Fib c P k f g) (hb : f.base = f.size - 1) : rets g = [.host] ∨ rets g = [.fiber] := by
  have := Trace.fresh h hb
  rw [Trace.sites_keys] at this
  have hl := congrArg List.length this
  rw [List.length_map] at hl
  match hk : keys g, hl with
  | [x], _ =>
    have hr : rets g = [x.2.2] := by rw [rets, hk]; rfl
    rw [hr]
    obtain ⟨a, as, ha⟩ := cons_of_ne h.ne
    have has : as = [] := by
      have := congrArg List.length hk
      rw [keys, List.length_map, ha, List.length_cons] at this
      exact List.length_eq_zero_iff.mp (by simpa using this)
    subst has
    have hx : x.2.2 = a.ret := by
      have : keys g = [a.key] := by rw [keys, ha]; rfl
      rw [hk] at this
      rw [List.singleton_inj.mp this]; rfl
    have hok : RetOk c a.ret [] (a.ctop = f.size - 1) := by
      cases hp : g.pend with
      | true => exact (h.pend hp a [] ha).2.2.2.2
      | false =>
        have hf := h.frames
        rw [entered_run hp, ha] at hf
        exact hf.2.2.2.2.1
    rw [hx]
    cases hret : a.ret with
    | host => exact .inl rfl
    | fiber => exact .inr rfl
    | code i => rw [hret] at hok; obtain ⟨_, _, e, -⟩ := hok; cases e
    | callback i t => rw [hret] at hok; obtain ⟨_, _, _, e, -⟩ := hok; cases e


theorem nextCalls_length {h : Nat → List Call} {k : Nat} :
    (event p k vm = 1 → (nextCalls p vm h k).length = (h k).length + 1) ∧ (event p k vm = -1 → (nextCalls p vm h k).length = (h k).length - 1) := by
  unfold event nextCalls Trace.putCalls
  cases hc : p.code (vm.fiber vm.loc).ip with
  | call e | callIndirect e =>
    by_cases hl : vm.loc = k
    · simp [hl]
    · simp [hl]
  | ret n =>
    by_cases hl : vm.loc = k
    · simp [hl]
    · simp [hl]
  | ext t next =>
    by_cases hl : (next vm).isSome ∧ vm.cur = k
    · obtain ⟨h1, h2⟩ := hl
      simp [h1, h2]
    · refine ⟨fun he => ?_, fun he => ?_⟩
      · simp only [if_neg hl] at he; cases he
      · simp only [if_neg hl] at he; cases he
  | _ => exact ⟨fun he => (nomatch he), fun he => (nomatch he)⟩

/-- The invariant. -/
structure Holds (c : Compiled p) (fn : Int → κ) (g : Nat → Calls) (vm : VM) (P : List Ptr) (h : Nat → List Call) (log : List Ev) : Prop where
  inv : Inv c g vm P
  calls : ∀ k, k < vm.num → (vm.fiber k).alive = true → (h k).length = (g k).acts.length
  reports : ∀ k, k < vm.num → ∃ o, pending fn (of k log) = some o ∧
    ((vm.fiber k).alive = true → Good c fn (vm.fiber k).ip (rets (g k)) o) ∧ ((vm.fiber k).alive = false → o = [])
  new : ∀ k, vm.num ≤ k → of k log = []

omit [DecidableEq κ] in
theorem entry_good {fn : Int → κ} {ip : Int} {n : Nat} {rs : List Ret} {o : List κ} (he : Entry p ip n) (hl : Links c fn rs o) : Good c fn ip rs o :=
  .inr ⟨fun _ hb => body_not_entry hb he, hl⟩

omit [DecidableEq κ] in
theorem good_body {fn : Int → κ} {ip : Int} {n : Nat} {rs : List Ret} {o : List κ} (hb : c.body ip n) (hg : Good c fn ip rs o) :
    ∃ o', o = fn ip :: o' ∧ Links c fn rs o' := by
  rcases hg with ⟨_, o', -, h1, h2⟩ | ⟨h, -⟩
  · exact ⟨o', h1, h2⟩
  · exact absurd hb (h n)

/-- The running fiber. -/
theorem step_running {fn : Int → κ} (F : Functions c fn) {g' : Nat → Calls} (hI : Inv c g vm P) (hv : Valid p vm P) (hs : step p vm = .ok vm')
    (hev : Evolve p vm vm' g g' vm.loc) {o : List κ} (hg : Good c fn (vm.fiber vm.loc).ip (rets (g vm.loc)) o) :
    ∃ o', (of vm.loc (hook p vm)).foldl (follow fn) (some o) = some o' ∧
      ((vm'.fiber vm.loc).alive = true → Good c fn (vm'.fiber vm.loc).ip (rets (g' vm.loc)) o') ∧ ((vm'.fiber vm.loc).alive = false → o' = []) := by
  obtain ⟨-, e0, e1, e2⟩ := hev
  have hip := step_ip hI hs
  obtain ⟨a, as, ha⟩ := hI.acts
  have hbody : (g vm.loc).pend = false → c.body (vm.fiber vm.loc).ip a.params := fun hp => hI.run.run hp a as ha
  have hsound := hv.1
  -- instructions within a function
  have stay : ∀ {n : Nat}, hook p vm = [] → event p vm.loc vm = 0 → c.body (vm.fiber vm.loc).ip n → c.body (vm'.fiber vm.loc).ip n →
      fn (vm'.fiber vm.loc).ip = fn (vm.fiber vm.loc).ip →
      ∃ o', (of vm.loc (hook p vm)).foldl (follow fn) (some o) = some o' ∧
        ((vm'.fiber vm.loc).alive = true → Good c fn (vm'.fiber vm.loc).ip (rets (g' vm.loc)) o') ∧ ((vm'.fiber vm.loc).alive = false → o' = []) := by
    intro n hh he hb hb' hfn
    obtain ⟨o', rfl, hl⟩ := good_body hb hg
    obtain ⟨hk, hal⟩ := e0 he
    refine ⟨_, by rw [hh]; rfl, fun _ => .inl ⟨n, o', hb', by rw [hfn], by rw [rets, hk]; exact hl⟩, fun hd => ?_⟩
    rw [hal] at hd; cases hd
  -- calls
  have called : ∀ {m : Nat}, hook p vm = [] → event p vm.loc vm = 1 → c.body (vm.fiber vm.loc).ip a.params → Entry p (vm'.fiber vm.loc).ip m →
      (∀ t next, p.code (vm.fiber vm.loc).ip = .ext t next ∨ c.body ((vm.fiber vm.loc).ip + 1) a.params ∧ fn ((vm.fiber vm.loc).ip + 1) = fn (vm.fiber vm.loc).ip) →
      ∃ o', (of vm.loc (hook p vm)).foldl (follow fn) (some o) = some o' ∧
        ((vm'.fiber vm.loc).alive = true → Good c fn (vm'.fiber vm.loc).ip (rets (g' vm.loc)) o') ∧ ((vm'.fiber vm.loc).alive = false → o' = []) := by
    intro m hh he hb hen hn
    obtain ⟨o', rfl, hl⟩ := good_body hb hg
    obtain ⟨x, hk, hal, hx⟩ := e1 he
    refine ⟨_, by rw [hh]; rfl, fun _ => entry_good hen ?_, fun hd => by rw [hal] at hd; cases hd⟩
    rw [rets, hk, List.map_cons]
    rcases hx with ⟨hr, -, hnot⟩ | ⟨t, -, hr, -⟩
    · rw [hr]
      rcases hn 0 (fun _ => none) with e | ⟨h1, h2⟩
      · exact absurd e (hnot _ _)
      · rw [← h2]; exact .code h1 hl
    · rw [hr]; exact .callback hb hl
  cases hi : p.code (vm.fiber vm.loc).ip with
  | data | block | ref | spawn | resume =>
    have hb := hbody (hI.in_body (by simp [hi]) (by simp [hi]) (by simp [hi]))
    have h1 := c.next hb
    have h2 := F.next hb
    simp only [hi] at hip h1 h2
    exact stay (by simp only [hook, hi]) (by simp only [event, hi]) hb (by rw [hip]; exact h1) (by rw [hip]; exact h2)
  | jump t =>
    simp only [hi] at hip
    cases hp : (g vm.loc).pend with
    | false =>
      have hb := hbody hp
      have h1 := c.next hb
      have h2 := F.next hb
      simp only [hi] at h1 h2
      exact stay (by simp only [hook, hi]) (by simp only [event, hi]) hb (by rw [hip]; exact h1 vm) (by rw [hip]; exact h2 vm)
    | true =>
      have hen : Entry p (vm.fiber vm.loc).ip a.params := by
        rcases (hI.run.pend hp a as ha).1 with e | e
        · exact e
        · rw [hi] at e; cases e
      have hen' : Entry p (vm'.fiber vm.loc).ip a.params := by
        generalize a.params = m at hen
        cases hen with
        | enter h => rw [hi] at h; cases h
        | proto h1 h2 h3 =>
          rw [hi] at h1
          cases h1
          rw [hip, h2 vm]; exact h3
      obtain ⟨hk, hal⟩ := e0 (by simp only [event, hi])
      have hl : Links c fn (rets (g vm.loc)) o := by
        rcases hg with ⟨_, _, hb, -⟩ | ⟨-, hl⟩
        · exact absurd hen (body_not_entry hb)
        · exact hl
      refine ⟨o, by simp only [hook, hi]; rfl, fun _ => entry_good hen' (by rw [rets, hk]; exact hl), fun hd => by rw [hal] at hd; cases hd⟩
  | call e =>
    have hb := hbody (hI.in_body (by simp [hi]) (by simp [hi]) (by simp [hi]))
    have h1 := c.next hb
    have h2 := F.next hb
    simp only [hi] at hip h1 h2
    obtain ⟨⟨m, hen⟩, h1⟩ := h1
    exact called (by simp only [hook, hi]) (by simp only [event, hi, if_true]) hb (by rw [hip]; exact hen) fun _ _ => .inr ⟨h1, h2⟩
  | callIndirect m =>
    have hb := hbody (hI.in_body (by simp [hi]) (by simp [hi]) (by simp [hi]))
    have h1 := c.next hb
    have h2 := F.next hb
    simp only [hi] at hip h1 h2
    simp only [Sound, hi] at hsound
    have hen := hsound.2.resolve_left hip.2
    exact called (by simp only [hook, hi]) (by simp only [event, hi, if_true]) hb (by rw [hip.1]; exact hen) fun _ _ => .inr ⟨h1, h2⟩
  | ext t next =>
    have hb := hbody (hI.in_body (by simp [hi]) (by simp [hi]) (by simp [hi]))
    have h1 := c.next hb
    have h2 := F.next hb
    simp only [hi] at hip h1 h2
    cases hn : next vm with
    | none =>
      have := hip.1 hn
      exact stay (by simp only [hook, hi]) (by simp [event, hi, hn]) hb (by rw [this]; exact h1) (by rw [this]; exact h2)
    | some x =>
      obtain ⟨e, ps⟩ := x
      simp only [Sound, hi] at hsound
      have hen := hsound e ps hn
      rw [← hip.2 e ps hn] at hen
      exact called (by simp only [hook, hi]) (by simp only [event, hi, hn]; exact if_pos ⟨rfl, hI.loc.symm⟩) hb hen fun _ _ => .inr ⟨h1, h2⟩
  | enter l =>
    simp only [hi] at hip
    have hnb : ∀ n, ¬ c.body (vm.fiber vm.loc).ip n := fun n hb => by have := c.next hb; simp only [hi] at this
    have hl : Links c fn (rets (g vm.loc)) o := by
      rcases hg with ⟨_, _, hb, -⟩ | ⟨-, hl⟩
      · exact absurd hb (hnb _)
      · exact hl
    obtain ⟨hk, hal⟩ := e0 (by simp only [event, hi])
    refine ⟨fn (vm.fiber vm.loc).ip :: o, ?_, fun _ => .inl ⟨_, o, by rw [hip]; exact c.enter hi, by rw [hip, F.enter hi], by rw [rets, hk]; exact hl⟩, fun hd => by rw [hal] at hd; cases hd⟩
    simp only [hook, hi, of, List.filter_cons, beq_self_eq_true, if_true, List.filter_nil, List.foldl_cons, List.foldl_nil, follow]
  | leave =>
    have hb := hbody (hI.in_body (by simp [hi]) (by simp [hi]) (by simp [hi]))
    have h1 := c.next hb
    simp only [hi] at hip h1
    obtain ⟨o', rfl, hl⟩ := good_body hb hg
    obtain ⟨hk, hal⟩ := e0 (by simp only [event, hi])
    have hnb : ∀ n, ¬ c.body (vm'.fiber vm.loc).ip n := by
      intro n hb
      rw [hip] at hb
      have h2 := c.next hb
      rw [h1] at h2
      exact h2
    refine ⟨o', ?_, fun _ => .inr ⟨hnb, by rw [rets, hk]; exact hl⟩, fun hd => by rw [hal] at hd; cases hd⟩
    simp only [hook, hi, of, List.filter_cons, beq_self_eq_true, if_true, List.filter_nil, List.foldl_cons, List.foldl_nil, follow]
  | ret n =>
    have hnb : ∀ n, ¬ c.body (vm.fiber vm.loc).ip n := fun n hb => by have := c.next hb; simp only [hi] at this
    have hl : Links c fn (rets (g vm.loc)) o := by
      rcases hg with ⟨_, _, hb, -⟩ | ⟨-, hl⟩
      · exact absurd hb (hnb _)
      · exact hl
    obtain ⟨x, hk, hx⟩ := e2 (by simp only [event, hi, if_true])
    refine ⟨o, by simp only [hook, hi]; rfl, ?_⟩
    have hr : rets (g vm.loc) = x.2.2 :: rets (g' vm.loc) := by rw [rets, hk]; rfl
    rw [hr] at hl
    generalize x.2.2 = r at hl hx
    generalize rets (g' vm.loc) = rs at hl
    cases hl with
    | host => exact hx.elim
    | fiber => exact ⟨fun hal => (by rw [show (vm'.fiber vm.loc).alive = false from hx] at hal; cases hal), fun _ => rfl⟩
    | code hb hl =>
      obtain ⟨hal, hip', -⟩ := hx
      exact ⟨fun _ => .inl ⟨_, _, by rw [hip']; exact hb, by rw [hip'], hl⟩, fun hd => by rw [hal] at hd; cases hd⟩
    | callback hb hl =>
      obtain ⟨hal, hip', -⟩ := hx
      exact ⟨fun _ => .inl ⟨_, _, by rw [hip']; exact hb, by rw [hip'], hl⟩, fun hd => by rw [hal] at hd; cases hd⟩
  | halt =>
    have hb := hbody (hI.in_body (by simp [hi]) (by simp [hi]) (by simp [hi]))
    have h1 := c.next hb
    simp only [hi] at h1

theorem start_fresh {size : Nat} {entry : Int} {params : List Int} (hs : Frame.start size entry params = .ok vm) :
    vm.num = 1 ∧ (vm.fiber 0).alive = true ∧ (vm.fiber 0).ip = entry ∧ (vm.fiber 0).base = (vm.fiber 0).size - 1 := by
  simp only [Frame.start, bind, Except.bind, pure, Except.pure, throw, throwThe, MonadExceptOf.throw] at hs
  split at hs
  · cases hs
  · split at hs
    · cases hs
    · rename_i f hf
      obtain ⟨h1, h2, h3, h4, h5, h6, h7⟩ := pushAll_ok hf
      cases hs
      refine ⟨rfl, h5, rfl, ?_⟩
      have h2 : f.size = (size : Int) := h2
      have h3 : f.base = (size : Int) - 1 := h3
      show f.base = f.size - 1
      rw [h2, h3]

/-- A new fiber starts at its function. -/
theorem spawn_ip {pop : Nat} {e : VM → Int} {up : VM → Int × Int} (hi : p.code (vm.fiber vm.loc).ip = .spawn pop e up) (hs : step p vm = .ok vm') :
    (vm'.fiber vm.num).ip = e vm := by
  simp only [step, hi] at hs
  split at hs
  · cases hs
  · have hs := ok_of_res hs
    simp only [bind, Except.bind, pure, Except.pure] at hs
    split at hs
    · cases hs
    · rename_i child hc
      split at hs
      · cases hs
      · cases hs
        simp only [set_fiber, if_true]
        simp only [newFiber, bind, Except.bind, pure, Except.pure, throw, throwThe, MonadExceptOf.throw] at hc
        split at hc
        · cases hc
        · split at hc
          · cases hc
          · cases hc; rfl

theorem logged_holds {fn : Int → κ} (F : Functions c fn) {h : Nat → List Call} {log : List Ev} (H : Logged p vm P h log) :
    ∃ g, Holds c fn g vm P h log := by
  induction H with
  | @start size entry params vm hs he =>
    obtain ⟨g, hI⟩ := start_inv c hs he
    obtain ⟨hn, hal, hip, hb⟩ := start_fresh hs
    have hk0 : ∀ k, k < vm.num → k = 0 := fun k hk => by omega
    have hr := fresh_rets (hI.fib 0 (by omega) hal) hb
    refine ⟨g, hI, fun k hk ha => ?_, fun k hk => ⟨[], rfl, fun _ => ?_, fun _ => rfl⟩, fun k hk => rfl⟩
    · rw [hk0 k hk, ← rets_length]
      rcases hr with hr | hr <;> rw [hr] <;> rfl
    · rw [hk0 k hk, hip]
      refine entry_good he ?_
      rcases hr with hr | hr <;> rw [hr]
      · exact .host
      · exact .fiber
  | @step vm vm' P h log H hv hs ih =>
    obtain ⟨g, hI, hc, hr, hnew⟩ := ih
    obtain ⟨g', hI', hn, hev⟩ := step_inv hI hv hs
    have hold : ∀ k, k < vm.num → (vm.fiber k).alive = false → vm'.fiber k = vm.fiber k := by
      intro k hk hd
      have hne : k ≠ vm.loc := by intro e; rw [e, hI.loc_alive] at hd; cases hd
      exact (step_other hI hv.old hs hk hne).2.1 hd
    have hnum : ∀ k, k < vm'.num → k < vm.num ∨ k = vm.num ∧ ∃ pop e up, p.code (vm.fiber vm.loc).ip = .spawn pop e up ∧
        (vm'.fiber vm.num).base = (vm'.fiber vm.num).size - 1 := by
      intro k hk
      rcases step_num hs with e | ⟨pop, e, up, hi, en, hb⟩
      · left; omega
      · by_cases hlt : k < vm.num
        · exact .inl hlt
        · exact .inr ⟨by omega, pop, e, up, hi, hb hI.loc_lt⟩
    refine ⟨g', hI', fun k hk ha => ?_, fun k hk => ?_, fun k hk => ?_⟩
    · rcases hnum k hk with hlt | ⟨rfl, pop, e, up, hi, hb⟩
      · cases hka : (vm.fiber k).alive with
        | false => rw [hold k hlt hka, hka] at ha; cases ha
        | true =>
          obtain ⟨-, e0, e1, e2⟩ := hev k hlt hka
          have := hc k hlt hka
          have hl : ∀ g : Calls, (keys g).length = g.acts.length := fun g => by simp [keys]
          rcases event_cases p k vm with he | he | he
          · obtain ⟨x, hx, -⟩ := e1 he
            have hx := congrArg List.length hx
            rw [List.length_cons, hl, hl] at hx
            rw [(nextCalls_length (k := k)).1 he, this, hx]
          · have hx := congrArg List.length (e0 he).1
            rw [hl, hl] at hx
            rw [nextCalls_zero he hlt, this, hx]
          · obtain ⟨x, hx, -⟩ := e2 he
            have hx := congrArg List.length hx
            rw [List.length_cons, hl, hl] at hx
            rw [(nextCalls_length (k := k)).2 he, this, hx, Nat.add_sub_cancel]
      · rw [← rets_length]
        rcases fresh_rets (hI'.fib _ hk ha) hb with hr | hr <;> rw [hr] <;> simp only [nextCalls, hi, Trace.putCalls, if_true, List.length_cons, List.length_nil]
    · rcases hnum k hk with hlt | ⟨rfl, pop, e, up, hi, hb⟩
      · obtain ⟨o, ho, hal, hdead⟩ := hr k hlt
        by_cases hkl : k = vm.loc
        · subst hkl
          obtain ⟨o', h1, h2⟩ := step_running F hI hv hs (hev _ hlt hI.loc_alive) (hal hI.loc_alive)
          exact ⟨o', by rw [of_append, pending_append, ho]; exact h1, h2⟩
        · refine ⟨o, by rw [of_append, of_hook_other hkl, List.append_nil]; exact ho, fun ha => ?_, fun hd => ?_⟩
          · cases hka : (vm.fiber k).alive with
            | false => rw [hold k hlt hka, hka] at ha; cases ha
            | true =>
              have hctl := (step_other hI hv.old hs hlt hkl).1
              simp only [ctl, Prod.mk.injEq] at hctl
              rw [hctl.2.2.2.1]
              have he : event p k vm = 0 := by
                have := Ne.symm hkl
                have := hI.loc ▸ this
                unfold event
                split <;> simp_all
              have := ((hev k hlt hka).2.1 he).1
              rw [rets, this]
              exact hal hka
          · have hctl := (step_other hI hv.old hs hlt hkl).1
            simp only [ctl, Prod.mk.injEq] at hctl
            exact hdead (hctl.2.2.2.2.1 ▸ hd)
      · refine ⟨[], ?_, fun ha => ?_, fun _ => rfl⟩
        · rw [of_append, hnew _ (Nat.le_refl _), of_hook_other (by have := hI.loc_lt; omega)]; rfl
        · have hsound := hv.1
          simp only [Sound, hi] at hsound
          refine entry_good (n := 2) (by rw [spawn_ip hi hs]; exact hsound.2) ?_
          rcases fresh_rets (hI'.fib _ hk ha) hb with hr | hr <;> rw [hr]
          · exact .host
          · exact .fiber
    · rw [of_append, hnew k (Nat.le_trans hn hk), of_hook_other (by have := hI.loc_lt; omega)]; rfl

end Umka.Hooks
