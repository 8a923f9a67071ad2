import Verif.Frame.Step

/-!
# Stack frames and fibers: frames, returns, pointers and fibers
-/

namespace Umka.Frame

variable {p : Program} {c : Compiled p} {g : Nat → Calls} {vm vm' : VM} {P : List Ptr}

theorem enterFrame_ok {f f' : Fiber} {l : Int} (h : enterFrame p f l = .ok f') :
    f'.top = f.top - 3 - (p.layout l).locals ∧ f'.base = f.top - 1 ∧ f'.size = f.size ∧ f'.ip = f.ip + 1 ∧
    f'.alive = f.alive ∧ f'.parent = f.parent ∧ f'.stack (f.top - 1) = f.base ∧ f'.stack (f.top - 2) = 0 ∧
    f'.stack (f.top - 3) = l ∧ ∀ i, f.top ≤ i → f'.stack i = f.stack i := by
  simp only [enterFrame, bind, Except.bind, pure, Except.pure, throw, throwThe, MonadExceptOf.throw] at h
  split at h
  · cases h
  · split at h
    · cases h
    · rename_i v1 q1
      split at h
      · cases h
      · rename_i v2 q2
        split at h
        · cases h
        · rename_i v3 q3
          split at h
          · cases h
          · obtain ⟨rfl, -⟩ := push_ok q1
            obtain ⟨rfl, -⟩ := push_ok q2
            obtain ⟨rfl, -⟩ := push_ok q3
            cases h
            refine ⟨by simp only; omega, rfl, rfl, rfl, rfl, rfl, ?_, ?_, ?_, ?_⟩
            · simp only [zeroSlots, setSlot]; rw [if_neg (by omega), if_neg (by omega), if_neg (by omega), if_pos trivial]
            · simp only [zeroSlots, setSlot]; rw [if_neg (by omega), if_neg (by omega), if_pos (by omega)]
            · simp only [zeroSlots, setSlot]; rw [if_neg (by omega), if_pos (by omega)]
            · intro i hi
              simp only [zeroSlots, setSlot]; rw [if_neg (by omega), if_neg (by omega), if_neg (by omega), if_neg (by omega)]

theorem count_zero {k : Nat} {a : Act} (h : ∀ q ∈ P, q.1 = k → ¬ a.inVars q.2) : count P k a = 0 := by
  simp only [count, List.countP_eq_zero, decide_eq_true_eq]
  intro q hq hc; exact h q hq hc.1 hc.2

theorem step_enter (h : Inv c g vm P) {l} (hi : p.code (vm.fiber vm.loc).ip = .enter l)
    (hs : step p vm = .ok vm') : Preserved c g vm vm' P := by
  simp only [step, hi] at hs
  split at hs
  · cases hs
  · obtain ⟨f', hf', rfl⟩ := ok_of_with1 hs
    obtain ⟨e1, e2, e3, e4, e5, e6, e7, e8, e9, e10⟩ := enterFrame_ok hf'
    obtain ⟨a, as, ha⟩ := h.acts
    have hb := h.run
    cases hp : (g vm.loc).pend with
    | false =>
      have := c.next (hb.run hp a as ha)
      simp only [hi] at this
    | true =>
      obtain ⟨he, h2, h3, h4, h5⟩ := hb.pend hp a as ha
      have hn : a.params = (p.layout l).params := by
        rcases he with he | he
        · generalize a.params = n at he
          cases he with
          | enter e => rw [hi] at e; cases e; rfl
          | proto e _ _ => rw [hi] at e; cases e
        · rw [hi] at he; cases he
      have hen : (g vm.loc).entered = as := by simp [Calls.entered, hp, ha]
      have hfr := hb.frames
      rw [hen] at hfr
      let act : Act := { a with locals := (p.layout l).locals }
      have hbase : act.base = (vm.fiber vm.loc).top - 1 := by
        show a.ctop - a.params - 2 = _; omega
      have hown : ∀ q ∈ P, q.1 = vm.loc → Owned (g vm.loc) q.2 := fun q hq e => e ▸ (h.ptrs q hq).2.2
      have hfree : ∀ q ∈ P, q.1 = vm.loc → ¬ act.inVars q.2 := by
        intro q hq e hc
        have := (hb.owned_ge (hown q hq e)).1
        rw [hen] at this
        have := (Act.vars_range hc).2
        have : act.ctop = a.ctop := rfl
        omega
      have hf : Fib c P vm.loc f' ⟨false, act :: as⟩ := by
        refine ⟨?_, ?_, by simp, ?_, by simp, ?_⟩
        · show Frames c f'.stack f'.size f'.base (act :: as)
          refine ⟨by rw [e2, hbase], ?_, ?_, by rw [e3]; exact h4, by rw [e3]; exact h5, ?_⟩
          · rw [e2, show (vm.fiber vm.loc).top - 1 + 1 = (vm.fiber vm.loc).top by omega, e10 _ (by omega)]; exact h2
          · rw [e2, show (vm.fiber vm.loc).top - 1 - 2 = (vm.fiber vm.loc).top - 3 by omega, e9]
            show p.layout l = ⟨a.params, (p.layout l).locals⟩
            rw [hn]
          · rw [e2, e7, e3]
            exact hfr.below fun i hi => e10 i (by omega)
        · show f'.top ≤ act.low
          simp only [Act.low]
          have : act.locals = (p.layout l).locals := rfl
          rw [hbase, e1, this]; omega
        · intro _ x xs hx
          cases hx
          rw [e4]; show c.body _ a.params; rw [hn]; exact c.enter hi
        · intro x hx
          change x ∈ act :: as at hx
          cases hx with
          | head =>
            rw [hbase, show (vm.fiber vm.loc).top - 1 - 1 = (vm.fiber vm.loc).top - 2 by omega, e8, count_zero hfree]; rfl
          | tail _ hx =>
            have := hfr.low_le x hx
            have := x.low_le
            rw [e10 _ (by omega)]
            exact hb.rc x (by rw [hen]; exact hx)
      have hcb : callbacks (act :: as) = vm.loops.map (·.2) := by
        rw [← h.loc_calls, ha]; simp only [callbacks, act, List.filterMap_cons]
      refine ⟨_, h.update (e5.trans h.loc_alive) e6 hf hcb ?_ ?_, Nat.le_refl _, ?_⟩
      · intro q hq e
        obtain ⟨x, hx, hxi⟩ := hown q hq e
        rw [hen] at hx
        exact ⟨x, List.mem_cons_of_mem _ hx, hxi⟩
      · intro x hx
        left
        cases hx with
        | head => exact ⟨a, by simp [ha], rfl⟩
        | tail _ hx => exact ⟨x, by rw [ha]; exact List.mem_cons_of_mem _ hx, rfl⟩
      · intro k hk hka
        have h0 : event p k vm = 0 := by simp only [event, hi]
        by_cases e : k = vm.loc
        · subst e
          refine ⟨by rw [set_fiber, if_pos rfl, e3], fun _ => ⟨?_, ?_⟩, ?_, ?_⟩
          · simp [keys, upd, ha, act, Act.key]
          · rw [set_fiber, if_pos rfl]; exact e5.trans h.loc_alive
          · rw [h0]; intro h; cases h
          · rw [h0]; intro h; cases h
        · exact evolve_other e hka h0

theorem step_leave (h : Inv c g vm P) (hi : p.code (vm.fiber vm.loc).ip = .leave)
    (hs : step p vm = .ok vm') : Preserved c g vm vm' P := by
  have hr := h.in_body (by simp [hi]) (by simp [hi]) (by simp [hi])
  obtain ⟨a, as, ha⟩ := h.acts
  have hb := h.run
  have hn := c.next (hb.run hr a as ha)
  simp only [hi] at hn
  simp only [step, hi] at hs
  split at hs
  · cases hs
  · obtain ⟨f', hf', rfl⟩ := ok_of_with1 hs
    simp only [leaveFrame] at hf'
    split at hf'
    · cases hf'
    · rename_i hrc
      cases hf'
      have hen : (g vm.loc).entered = a :: as := by rw [entered_run hr, ha]
      have hfr := hb.frames
      rw [hen] at hfr
      obtain ⟨f1, f2, f3, f4, f5, f6⟩ := hfr
      have hc0 : count P vm.loc a = 0 := by
        have := hb.rc a (by simp [hen])
        rw [← f1] at this
        simp only [ne_eq, Decidable.not_not] at hrc
        omega
      have hf : Fib c P vm.loc { vm.fiber vm.loc with top := (vm.fiber vm.loc).base + 1, base := (vm.fiber vm.loc).stack (vm.fiber vm.loc).base, ip := (vm.fiber vm.loc).ip + 1 } ⟨true, a :: as⟩ := by
        refine ⟨f6, ?_, by simp, by simp, ?_, ?_⟩
        · show (vm.fiber vm.loc).base + 1 ≤ lowOf (vm.fiber vm.loc).size as
          have := a.low_le; omega
        · intro _ x xs hx
          cases hx
          refine ⟨.inr hn, f2, ?_, f4, f5⟩
          show (vm.fiber vm.loc).base + 1 = _
          rw [f1]; simp only [Act.base]; omega
        · intro x hx
          exact hb.rc x (by rw [hen]; exact List.mem_cons_of_mem _ hx)
      refine ⟨_, h.update h.loc_alive rfl hf (by rw [← h.loc_calls, ha]) ?_
        (fun x hx => .inl ⟨x, by rw [ha]; exact hx, rfl⟩), Nat.le_refl _, ?_⟩
      · intro q hq e
        have ho := (h.ptrs q hq).2.2
        rw [e] at ho
        obtain ⟨x, hx, hxi⟩ := ho
        rw [hen] at hx
        cases hx with
        | head =>
          simp only [count, List.countP_eq_zero, decide_eq_true_eq] at hc0
          exact absurd ⟨e, hxi⟩ (hc0 q hq)
        | tail _ hx => exact ⟨x, hx, hxi⟩
      · intro k hk hka
        have h0 : event p k vm = 0 := by simp only [event, hi]
        by_cases e : k = vm.loc
        · subst e
          refine ⟨by rw [set_fiber, if_pos rfl], fun _ => ⟨?_, ?_⟩, ?_, ?_⟩
          · simp [keys, upd, ha]
          · rw [set_fiber, if_pos rfl]; exact h.loc_alive
          · rw [h0]; intro h; cases h
          · rw [h0]; intro h; cases h
        · exact evolve_other e hka h0

/-- The stack after a return. -/
theorem Fib.return {k : Nat} {f f' : Fiber} {gl : Calls} {a : Act} {as : List Act} (h : Fib c P k f gl)
    (hp : gl.pend = true) (ha : gl.acts = a :: as) (hne : as ≠ []) (hs : f'.size = f.size) (hb : f'.base = f.base)
    (hst : f'.stack = f.stack) (ht : f'.top = a.ctop + a.ret.temp)
    (hip : ∀ x xs, as = x :: xs → c.body f'.ip x.params) : Fib c P k f' ⟨false, as⟩ := by
  have hen : gl.entered = as := by simp [Calls.entered, hp, ha]
  obtain ⟨-, -, -, h4, -⟩ := h.pend hp a as ha
  have hfr := h.frames
  rw [hen] at hfr
  refine ⟨?_, ?_, hne, fun _ => hip, by simp, ?_⟩
  · show Frames c f'.stack f'.size f'.base as
    rw [hs, hb, hst]; exact hfr
  · show f'.top ≤ lowOf f'.size as
    rw [ht, hs]; exact h4
  · intro x hx
    rw [hst]
    exact h.rc x (by rw [hen]; exact hx)

theorem set_set {vm : VM} {k : Nat} {f f' : Fiber} : (vm.set k f).set k f' = vm.set k f' := by
  simp only [VM.set]
  congr 1
  funext j
  split <;> rfl

theorem step_ret (h : Inv c g vm P) {n} (hi : p.code (vm.fiber vm.loc).ip = .ret n)
    (hs : step p vm = .ok vm') : Preserved c g vm vm' P := by
  obtain ⟨a, as, ha⟩ := h.acts
  have hb := h.run
  have hal := h.loc_alive
  simp only [step, hi] at hs
  split at hs
  · cases hs
  · cases hp : (g vm.loc).pend with
    | false =>
      have := c.next (hb.run hp a as ha)
      simp only [hi] at this
    | true =>
      obtain ⟨he, h2, h3, h4, h5⟩ := hb.pend hp a as ha
      have hn : n = a.params := by
        rcases he with he | he
        · generalize a.params = m at he
          cases he with
          | enter e => rw [hi] at e; cases e
          | proto e _ _ => rw [hi] at e; cases e
        · rw [hi] at he; cases he; rfl
      have hen : (g vm.loc).entered = as := by simp [Calls.entered, hp, ha]
      have hown : ∀ q ∈ P, q.1 = vm.loc → Owned ⟨false, as⟩ q.2 := by
        intro q hq e
        have := (h.ptrs q hq).2.2
        rw [e] at this
        obtain ⟨x, hx, hxi⟩ := this
        rw [hen] at hx
        exact ⟨x, hx, hxi⟩
      have hcb := h.loc_calls
      rw [ha] at hcb
      have hev : ∀ k, event p k vm = if vm.loc = k then -1 else 0 := fun k => by simp only [event, hi]
      have htop : (vm.fiber vm.loc).top + 1 + (n : Int) = a.ctop := by omega
      cases hret : a.ret with
      | host =>
        rw [hret] at h2 h5
        have h2 : (vm.fiber vm.loc).stack (vm.fiber vm.loc).top = retVM := h2
        have h5 : as = [] := h5.1
        subst h5
        have hl0 : vm.loops = [] := by
          simp only [callbacks, List.filterMap_cons, hret, List.filterMap_nil] at hcb
          cases hl : vm.loops with
          | nil => rfl
          | cons x xs => rw [hl] at hcb; cases hcb
        rw [if_neg (by rw [h2]; decide)] at hs
        simp only [h2, or_true, if_true, exitLoop, VM.set, hl0] at hs
        cases hs
      | fiber =>
        rw [hret] at h2 h5
        have h2 : (vm.fiber vm.loc).stack (vm.fiber vm.loc).top = retFiber := h2
        have h5 : as = [] := h5.1
        subst h5
        have hl0 : vm.loops = [] := by
          simp only [callbacks, List.filterMap_cons, hret, List.filterMap_nil] at hcb
          cases hl : vm.loops with
          | nil => rfl
          | cons x xs => rw [hl] at hcb; cases hcb
        rw [if_pos h2] at hs
        split at hs
        · simp only [exitLoop, VM.set, hl0] at hs
          cases hs
        · rename_i j hpar
          have hjl := h.parent _ h.loc_lt j hpar
          split at hs
          · simp only [exitLoop, VM.switch, VM.set, hl0] at hs
            cases hs
          · rename_i hj
            cases hs
            have hjne : j ≠ vm.loc := Nat.ne_of_lt hjl
            have fib : ∀ k, (((vm.set vm.loc { vm.fiber vm.loc with top := (vm.fiber vm.loc).top + 1, alive := false }).switch j).fiber k) =
                if k = vm.loc then { vm.fiber vm.loc with top := (vm.fiber vm.loc).top + 1, alive := false } else vm.fiber k :=
              fun k => rfl
            have hnot : ∀ k, (((vm.set vm.loc { vm.fiber vm.loc with top := (vm.fiber vm.loc).top + 1, alive := false }).switch j).fiber k).alive = true →
                k ≠ vm.loc ∧ (vm.fiber k).alive = true := by
              intro k hk
              rw [fib] at hk
              by_cases e : k = vm.loc
              · rw [if_pos e] at hk; simp at hk
              · rw [if_neg e] at hk; exact ⟨e, hk⟩
            rw [fib j, if_neg hjne] at hj
            have hja : (vm.fiber j).alive = true := by
              cases hx : (vm.fiber j).alive with
              | true => rfl
              | false => exact absurd (.inl hx) hj
            refine ⟨upd g vm.loc ⟨false, []⟩, ⟨rfl, ?_, ?_, ?_, ?_, ?_, ?_, ?_, ?_, ?_⟩, Nat.le_refl _, ?_⟩
            · exact Nat.lt_trans hjl h.loc_lt
            · show (((vm.set vm.loc _).switch j).fiber j).alive = true
              rw [fib, if_neg hjne]; exact hja
            · intro k hk hka
              obtain ⟨e, hka⟩ := hnot k hka
              rw [fib, if_neg e, upd, if_neg e]
              exact h.fib k hk hka
            · intro k hk i hi'
              rw [fib] at hi'
              by_cases e : k = vm.loc
              · subst e; rw [if_pos rfl] at hi'; exact h.parent _ hk i hi'
              · rw [if_neg e] at hi'; exact h.parent k hk i hi'
            · intro k hk _ hka
              obtain ⟨e, hka⟩ := hnot k hka
              rw [fib, if_neg e]
              exact h.ip k hk (by rw [← h.loc]; exact e) hka
            · intro k hk hka
              obtain ⟨e, hka⟩ := hnot k hka
              rw [upd, if_neg e, h.calls k hk hka, if_neg (by rw [← h.loc]; exact e)]
              show [] = if k = j then vm.loops.map (·.2) else []
              rw [hl0]; simp
            · intro l hl
              have hl : l ∈ vm.loops := hl
              rw [hl0] at hl; cases hl
            · intro q hq
              have e : q.1 ≠ vm.loc := by
                intro e
                obtain ⟨x, hx, -⟩ := hown q hq e
                cases hx
              obtain ⟨q1, q2, q3⟩ := h.ptrs q hq
              rw [fib, if_neg e, upd, if_neg e]
              exact ⟨q1, q2, q3⟩
            · intro k hk hka
              obtain ⟨e, hka⟩ := hnot k hka
              rw [fib, if_neg e, upd, if_neg e]
              exact h.outer k hk hka
            · intro k hk hka
              by_cases e : k = vm.loc
              · subst e
                refine ⟨by rw [fib, if_pos rfl], ?_, ?_, ?_⟩
                · rw [hev, if_pos rfl]; intro h; cases h
                · rw [hev, if_pos rfl]; intro h; cases h
                · intro _
                  refine ⟨a.key, by simp [keys, upd, ha], ?_⟩
                  simp only [Act.key, hret]
                  rw [fib, if_pos rfl]
              · refine ⟨by rw [fib, if_neg e], ?_, ?_, ?_⟩
                · intro _
                  refine ⟨by rw [upd, if_neg e], ?_⟩
                  rw [fib, if_neg e]; exact hka
                · rw [hev, if_neg (Ne.symm e)]; intro h; cases h
                · rw [hev, if_neg (Ne.symm e)]; intro h; cases h
      | callback ip0 t =>
        rw [hret] at h2 h5
        have h2 : (vm.fiber vm.loc).stack (vm.fiber vm.loc).top = retVM := h2
        obtain ⟨a', rest, next, h5, h6, h7⟩ := h5
        rw [if_neg (by rw [h2]; decide)] at hs
        simp only [h2, or_true, if_true, exitLoop] at hs
        have hl1 : ∃ l rest, vm.loops = (vm.loc, ip0, t) :: rest ∧ callbacks as = rest.map (·.2) ∧ l = vm.loc := by
          simp only [callbacks, List.filterMap_cons, hret] at hcb
          cases hl : vm.loops with
          | nil => rw [hl] at hcb; cases hcb
          | cons x xs =>
            rw [hl] at hcb
            simp only [List.map_cons, List.cons.injEq] at hcb
            have := h.loops x (by simp [hl])
            rw [← h.loc] at this
            exact ⟨vm.loc, xs, by rw [hcb.1, ← this], hcb.2, rfl⟩
        obtain ⟨_, rest', hl1, hl2, -⟩ := hl1
        simp only [show (vm.set vm.loc _).loops = vm.loops from rfl, hl1, set_set, Res.ok.injEq] at hs
        simp only [set_fiber, if_true] at hs
        rw [htop] at hs
        have hf := hb.return (f' := { vm.fiber vm.loc with top := a.ctop + t, ip := ip0 }) hp ha (by rw [h5]; simp) rfl rfl
          rfl (by rw [hret]; rfl) (fun x xs hx => by rw [h5] at hx; cases hx; exact h6)
        have hI := h.update' (f' := { vm.fiber vm.loc with top := a.ctop + t, ip := ip0 }) hal rfl hf hl2
          (fun l hl => h.loops l (by rw [hl1]; exact List.mem_cons_of_mem _ hl)) hown (fun x hx => .inl ⟨x, by rw [ha]; exact List.mem_cons_of_mem _ hx, rfl⟩)
        have e : vm' = { vm.set vm.loc { vm.fiber vm.loc with top := a.ctop + t, ip := ip0 } with loops := rest' } := by
          rw [← hs]; rfl
        rw [e]
        refine ⟨_, hI, Nat.le_refl _, fun k hk hka => ?_⟩
        by_cases e : k = vm.loc
        · subst e
          refine ⟨by show ((vm.set vm.loc _).fiber vm.loc).size = _; rw [set_fiber, if_pos rfl], ?_, ?_, ?_⟩
          · rw [hev, if_pos rfl]; intro h; cases h
          · rw [hev, if_pos rfl]; intro h; cases h
          · intro _
            refine ⟨a.key, by simp [keys, upd, ha], ?_⟩
            simp only [Act.key, hret]
            show ((vm.set vm.loc _).fiber vm.loc).alive = true ∧ ((vm.set vm.loc _).fiber vm.loc).ip = ip0 ∧
              ((vm.set vm.loc _).fiber vm.loc).top = _
            rw [set_fiber, if_pos rfl]
            exact ⟨hal, rfl, rfl⟩
        · exact evolve_other e hka (by rw [hev, if_neg (Ne.symm e)])
      | code ip0 =>
        rw [hret] at h2 h5
        have h2 : (vm.fiber vm.loc).stack (vm.fiber vm.loc).top = ip0 := h2
        obtain ⟨a', rest, h5, h6⟩ := h5
        have hnn := c.nonneg h6
        rw [if_neg (by rw [h2]; simp only [retFiber]; omega)] at hs
        simp only [h2, hal, false_or, Bool.true_eq_false] at hs
        rw [if_neg (by simp only [retVM]; omega)] at hs
        simp only [Res.ok.injEq] at hs
        rw [htop] at hs
        have hf := hb.return (f' := { vm.fiber vm.loc with top := a.ctop, ip := ip0 }) hp ha (by rw [h5]; simp) rfl rfl
          rfl (by rw [hret]; simp [Ret.temp]) (fun x xs hx => by rw [h5] at hx; cases hx; exact h6)
        have hcb' : callbacks as = vm.loops.map (·.2) := by
          rw [← hcb]; simp [callbacks, hret]
        have hI := h.update (f' := { vm.fiber vm.loc with top := a.ctop, ip := ip0 }) hal rfl hf hcb' hown
          (fun x hx => .inl ⟨x, by rw [ha]; exact List.mem_cons_of_mem _ hx, rfl⟩)
        have e : vm' = vm.set vm.loc { vm.fiber vm.loc with top := a.ctop, ip := ip0 } := by
          rw [← hs, ← hal]
        rw [e]
        refine ⟨_, hI, Nat.le_refl _, fun k hk hka => ?_⟩
        by_cases e : k = vm.loc
        · subst e
          refine ⟨by rw [set_fiber, if_pos rfl], ?_, ?_, ?_⟩
          · rw [hev, if_pos rfl]; intro h; cases h
          · rw [hev, if_pos rfl]; intro h; cases h
          · intro _
            refine ⟨a.key, by simp [keys, upd, ha], ?_⟩
            simp only [Act.key, hret]
            rw [set_fiber, if_pos rfl]
            exact ⟨hal, rfl, rfl⟩
        · exact evolve_other e hka (by rw [hev, if_neg (Ne.symm e)])

end Umka.Frame
