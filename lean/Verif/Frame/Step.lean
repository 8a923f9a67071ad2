import Verif.Frame.Inv

/-!
# Stack frames and fibers: each instruction preserves the invariant
-/

namespace Umka.Frame

variable {p : Program}

/-- What one step does to the invariant. -/
def Preserved (c : Compiled p) (g : Nat → Calls) (vm vm' : VM) (P' : List Ptr) : Prop :=
  ∃ g', Inv c g' vm' P' ∧ vm.num ≤ vm'.num ∧
    ∀ k, k < vm.num → (vm.fiber k).alive = true → Evolve p vm vm' g g' k

theorem ok_of_res {r : Except Err VM} {vm : VM} (h : Res.of r = .ok vm) : r = .ok vm := by
  cases r with
  | ok v => simp only [Res.of, Res.ok.injEq] at h; rw [h]
  | error e => simp [Res.of] at h

theorem ok_of_with1 {vm vm' : VM} {r : Except Err Fiber} (h : with1 vm r = .ok vm') :
    ∃ f, r = .ok f ∧ vm' = vm.set vm.loc f := by
  have := ok_of_res h
  cases r with
  | ok f => exact ⟨f, rfl, by simp only [Except.map, Except.ok.injEq] at this; exact this.symm⟩
  | error e => simp [Except.map] at this

theorem cons_of_ne {α : Type} {l : List α} (h : l ≠ []) : ∃ a as, l = a :: as := by
  cases l with
  | nil => exact absurd rfl h
  | cons a as => exact ⟨a, as, rfl⟩

theorem upd_self {g : Nat → Calls} {k : Nat} : upd g k (g k) = g := by
  funext j; simp only [upd]; split
  · rename_i e; rw [e]
  · rfl

section
variable {c : Compiled p} {g : Nat → Calls} {vm vm' : VM} {P : List Ptr}

theorem Inv.run (h : Inv c g vm P) : Fib c P vm.loc (vm.fiber vm.loc) (g vm.loc) := by
  rw [h.loc]; exact h.fib _ h.cur h.alive

theorem Inv.loc_lt (h : Inv c g vm P) : vm.loc < vm.num := by rw [h.loc]; exact h.cur

theorem Inv.loc_alive (h : Inv c g vm P) : (vm.fiber vm.loc).alive = true := by rw [h.loc]; exact h.alive

theorem Inv.loc_calls (h : Inv c g vm P) : callbacks (g vm.loc).acts = vm.loops.map (·.2) := by
  have := h.calls _ h.loc_lt h.loc_alive
  rw [if_pos h.loc] at this; exact this

/-- The calls of the running fiber. -/
theorem Inv.acts (h : Inv c g vm P) : ∃ a as, (g vm.loc).acts = a :: as := cons_of_ne h.run.ne

/-- Instructions other than jumps, `enter` and `ret` are executed in the body of a function. -/
theorem Inv.in_body (h : Inv c g vm P) (h1 : ∀ l, p.code (vm.fiber vm.loc).ip ≠ .enter l)
    (h2 : ∀ t, p.code (vm.fiber vm.loc).ip ≠ .jump t) (h3 : ∀ n, p.code (vm.fiber vm.loc).ip ≠ .ret n) :
    (g vm.loc).pend = false := by
  cases hp : (g vm.loc).pend with
  | false => rfl
  | true =>
    obtain ⟨a, as, ha⟩ := h.acts
    obtain ⟨e, -⟩ := h.run.pend hp a as ha
    rcases e with e | e
    · generalize a.params = n at e
      cases e with
      | enter e => exact absurd e (h1 _)
      | proto e _ _ => exact absurd e (h2 _)
    · exact absurd e (h3 _)

/-- Steps that keep the calls of the running fiber. -/
theorem preserved_same (h : Inv c g vm P) {f' : Fiber} (h0 : ∀ k, event p k vm = 0)
    (hs : f'.size = (vm.fiber vm.loc).size) (ha : f'.alive = true) (hp : f'.parent = (vm.fiber vm.loc).parent)
    (hf : Fib c P vm.loc f' (g vm.loc)) : Preserved c g vm (vm.set vm.loc f') P := by
  have hI := h.update ha hp hf h.loc_calls (fun q hq e => e ▸ (h.ptrs q hq).2.2) (fun a ha => .inl ⟨a, ha, rfl⟩)
  rw [upd_self] at hI
  refine ⟨g, hI, Nat.le_refl _, fun k hk hka => ?_⟩
  by_cases e : k = vm.loc
  · subst e
    refine ⟨by rw [set_fiber, if_pos rfl, hs], fun _ => ⟨rfl, by rw [set_fiber, if_pos rfl]; exact ha⟩, ?_, ?_⟩
    · rw [h0]; intro h; cases h
    · rw [h0]; intro h; cases h
  · have := evolve_other (g := g) (f' := f') (gl := g vm.loc) e hka (h0 k)
    rw [upd_self] at this; exact this

theorem step_data (h : Inv c g vm P) {pop vals writes} (hi : p.code (vm.fiber vm.loc).ip = .data pop vals writes)
    (hv : Valid' p vm P) (hs : step p vm = .ok vm') : Preserved c g vm vm' P := by
  have hr := h.in_body (by simp [hi]) (by simp [hi]) (by simp [hi])
  obtain ⟨a, as, ha⟩ := h.acts
  have hn := c.next (h.run.run hr a as ha)
  simp only [hi] at hn
  simp only [Valid', hi] at hv
  obtain ⟨hv1, hv2, hv3⟩ := hv
  simp only [step, hi] at hs
  split at hs
  · cases hs
  · have hs := ok_of_res hs
    simp only [bind, Except.bind] at hs
    split at hs
    · cases hs
    · rename_i f' hf'
      rw [low_eq h.run hr] at hv1
      have hb := h.run.pushes hr hv1 hf' (fun x xs hx => by rw [ha] at hx; cases hx; exact hn)
      obtain ⟨h1, h2, h3, h4, h5, h6, h7⟩ := pushAll_ok hf'
      have hI := h.update (h5.trans h.loc_alive) h6 hb h.loc_calls (fun q hq e => e ▸ (h.ptrs q hq).2.2) (fun a ha => .inl ⟨a, ha, rfl⟩)
      rw [upd_self] at hI
      have hal : ∀ j, (vm.fiber j).alive = true → ((vm.set vm.loc f').fiber j).alive = true := by
        intro j hj; rw [set_fiber]; split
        · exact h5.trans h.loc_alive
        · exact hj
      have hw : ∀ w ∈ writes vm, w.1.1 < (vm.set vm.loc f').num ∧ ((vm.set vm.loc f').fiber w.1.1).alive = true ∧
          Owned (g w.1.1) w.1.2 := by
        intro w hw
        have hvar := hv3 w hw
        exact ⟨hvar.1, hal _ hvar.2.1, isVar_owned (h.fib _ hvar.1 hvar.2.1) hvar⟩
      obtain ⟨hI', hnum, hcur, hloops, hsame⟩ := writeAll_inv hI hw hs
      have h0 : ∀ k, event p k vm = 0 := fun k => by simp only [event, hi]
      refine ⟨g, hI', Nat.le_of_eq hnum.symm, fun k hk hka => ?_⟩
      obtain ⟨e1, e2, -⟩ := hsame k
      refine ⟨?_, fun _ => ⟨rfl, e1.trans (hal k hka)⟩, ?_, ?_⟩
      · rw [e2, set_fiber]; split
        · rename_i e; subst e; exact h2
        · rfl
      · rw [h0]; intro h; cases h
      · rw [h0]; intro h; cases h

theorem step_block (h : Inv c g vm P) {pop vals} (hi : p.code (vm.fiber vm.loc).ip = .block pop vals)
    (hv : Valid' p vm P) (hs : step p vm = .ok vm') : Preserved c g vm vm' P := by
  have hr := h.in_body (by simp [hi]) (by simp [hi]) (by simp [hi])
  obtain ⟨a, as, ha⟩ := h.acts
  have hn := c.next (h.run.run hr a as ha)
  simp only [hi] at hn
  simp only [Valid', hi] at hv
  simp only [step, hi] at hs
  split at hs
  · cases hs
  · split at hs
    · cases hs
    · obtain ⟨f', hf', rfl⟩ := ok_of_with1 hs
      rw [low_eq h.run hr] at hv
      obtain ⟨h1, h2, h3, h4, h5, h6, h7⟩ := pushAll_ok hf'
      exact preserved_same h (fun k => by simp only [event, hi]) h2 (h5.trans h.loc_alive) h6
        (h.run.pushes hr hv hf' (fun x xs hx => by rw [ha] at hx; cases hx; exact hn))

theorem step_jump (h : Inv c g vm P) {t} (hi : p.code (vm.fiber vm.loc).ip = .jump t)
    (hs : step p vm = .ok vm') : Preserved c g vm vm' P := by
  simp only [step, hi] at hs
  split at hs
  · cases hs
  · obtain ⟨f', hf', rfl⟩ := ok_of_with1 hs
    cases hf'
    refine preserved_same h (fun k => by simp only [event, hi]) rfl h.loc_alive rfl ?_
    have hb := h.run
    refine ⟨hb.frames, hb.room, hb.ne, ?_, ?_, hb.rc⟩
    · intro hr a as ha
      have hn := c.next (h.run.run hr a as ha)
      simp only [hi] at hn
      exact hn vm
    · intro hr a as ha
      obtain ⟨e, h2, h3, h4, h5⟩ := hb.pend hr a as ha
      refine ⟨?_, h2, h3, h4, h5⟩
      rcases e with e | e
      · generalize hip : (vm.fiber vm.loc).ip = ip at *
        generalize hpar : a.params = n at *
        cases e with
        | enter e => rw [hi] at e; cases e
        | proto e ht e' => rw [hi] at e; cases e; left; show Entry p (t vm) _; rw [ht]; exact e'
      · rw [hi] at e; cases e

/-- The beginning of a call. -/
theorem Fib.call {k : Nat} {f f' : Fiber} {gl : Calls} (h : Fib c P k f gl) (hr : gl.pend = false) {a : Act}
    (hct : f'.top = a.ctop - a.params - 1) (hroom : a.ctop + a.ret.temp ≤ lowOf f.size gl.entered)
    (hret : RetOk c a.ret gl.acts (a.ctop = f'.size - 1)) (hs : f'.size = f.size) (hb : f'.base = f.base)
    (hst : ∀ i, lowOf f.size gl.entered ≤ i → f'.stack i = f.stack i) (htop : f'.stack f'.top = a.ret.val)
    (he : Entry p f'.ip a.params) : Fib c P k f' ⟨true, a :: gl.acts⟩ := by
  have hen : (⟨true, a :: gl.acts⟩ : Calls).entered = gl.acts := rfl
  have hen' := entered_run hr
  rw [hen'] at hroom hst
  have hfr := h.frames
  rw [hen'] at hfr
  refine ⟨?_, ?_, by simp, by simp, ?_, ?_⟩
  · rw [hen, hs, hb]; exact hfr.below hst
  · rw [hen, hs]; omega
  · intro _ x xs hx
    cases hx
    exact ⟨.inl he, htop, hct, by rw [hs]; exact hroom, hret⟩
  · intro x hx
    rw [hen] at hx
    have := hfr.low_le x hx
    have := x.low_le
    rw [hst _ (by omega)]
    exact h.rc x (by rw [hen']; exact hx)

theorem preserved_call (h : Inv c g vm P) (hr : (g vm.loc).pend = false) {f' : Fiber} {n : Nat}
    (hev : ∀ k, event p k vm = if vm.loc = k then 1 else 0) (hn : ∀ m, callParams p vm m → m = n)
    (hne : ∀ t next, p.code (vm.fiber vm.loc).ip ≠ .ext t next)
    (hs : f'.size = (vm.fiber vm.loc).size) (ha : f'.alive = (vm.fiber vm.loc).alive)
    (hp : f'.parent = (vm.fiber vm.loc).parent) (hb : f'.base = (vm.fiber vm.loc).base)
    (ht : f'.top = (vm.fiber vm.loc).top - 1)
    (hst : f'.stack = setSlot (vm.fiber vm.loc).stack ((vm.fiber vm.loc).top - 1) ((vm.fiber vm.loc).ip + 1))
    (he : Entry p f'.ip n) (hroom : (vm.fiber vm.loc).top + n ≤ lowOf (vm.fiber vm.loc).size (g vm.loc).entered)
    (hbody : ∀ a as, (g vm.loc).acts = a :: as → c.body ((vm.fiber vm.loc).ip + 1) a.params) :
    Preserved c g vm (vm.set vm.loc f') P := by
  let act : Act := ⟨(vm.fiber vm.loc).top + n, n, 0, .code ((vm.fiber vm.loc).ip + 1)⟩
  have hf : Fib c P vm.loc f' ⟨true, act :: (g vm.loc).acts⟩ := by
    obtain ⟨a, as, hacts⟩ := h.acts
    refine h.run.call hr (by rw [ht]; simp only [act]; omega) (by simp only [act, Ret.temp]; omega) ?_ hs hb ?_ ?_ he
    · exact ⟨a, as, hacts, hbody a as hacts⟩
    · intro i hi
      rw [hst]
      simp only [setSlot, if_neg (show i ≠ (vm.fiber vm.loc).top - 1 by omega)]
    · rw [hst, ht]; simp [setSlot, act, Ret.val]
  have hown : ∀ q ∈ P, q.1 = vm.loc → Owned ⟨true, act :: (g vm.loc).acts⟩ q.2 := by
    intro q hq e
    have := (h.ptrs q hq).2.2
    rw [e] at this
    obtain ⟨x, hx, hxi⟩ := this
    rw [entered_run hr] at hx
    exact ⟨x, hx, hxi⟩
  refine ⟨_, h.update (ha.trans h.loc_alive) hp hf (by simpa [callbacks, act] using h.loc_calls) hown
    (by intro x hx; cases hx with
        | head => exact .inr ⟨by simp [act], by simp [act]⟩
        | tail _ hx => exact .inl ⟨x, hx, rfl⟩), Nat.le_refl _, ?_⟩
  intro k hk hka
  by_cases e : k = vm.loc
  · subst e
    refine ⟨by rw [set_fiber, if_pos rfl, hs], ?_, ?_, ?_⟩
    · rw [hev, if_pos rfl]; intro h; cases h
    · intro _
      refine ⟨act.key, ?_, ?_, .inl ⟨rfl, ?_, hne⟩⟩
      · simp [keys, upd]
      · rw [set_fiber, if_pos rfl]; exact ha.trans h.loc_alive
      · intro m hm; rw [hn m hm]; rfl
    · rw [hev, if_pos rfl]; intro h; cases h
  · exact evolve_other e hka (by rw [hev, if_neg (Ne.symm e)])

theorem step_call (h : Inv c g vm P) {e} (hi : p.code (vm.fiber vm.loc).ip = .call e) (hv : Valid' p vm P)
    (hs : step p vm = .ok vm') : Preserved c g vm vm' P := by
  have hr := h.in_body (by simp [hi]) (by simp [hi]) (by simp [hi])
  obtain ⟨a, as, ha⟩ := h.acts
  have hn := c.next (h.run.run hr a as ha)
  simp only [hi] at hn
  obtain ⟨⟨m, hm⟩, hn⟩ := hn
  simp only [Valid', hi] at hv
  have hv := hv m hm
  rw [low_eq h.run hr] at hv
  simp only [step, hi] at hs
  split at hs
  · cases hs
  · obtain ⟨f', hf', rfl⟩ := ok_of_with1 hs
    simp only [bind, Except.bind] at hf'
    split at hf'
    · cases hf'
    · rename_i f1 hf1
      obtain ⟨rfl, -⟩ := push_ok hf1
      cases hf'
      refine preserved_call h hr (n := m) (fun k => by simp only [event, hi]) ?_ (by simp [hi]) rfl rfl rfl rfl rfl rfl hm hv ?_
      · intro k hk; simp only [callParams, hi] at hk; exact hk.unique hm
      · intro x xs hx; rw [ha] at hx; cases hx; exact hn

theorem step_callIndirect (h : Inv c g vm P) {m} (hi : p.code (vm.fiber vm.loc).ip = .callIndirect m)
    (hv : Valid' p vm P) (hs : step p vm = .ok vm') : Preserved c g vm vm' P := by
  have hr := h.in_body (by simp [hi]) (by simp [hi]) (by simp [hi])
  obtain ⟨a, as, ha⟩ := h.acts
  have hn := c.next (h.run.run hr a as ha)
  simp only [hi] at hn
  simp only [Valid', hi] at hv
  obtain ⟨hv, he⟩ := hv
  rw [low_eq h.run hr] at hv
  simp only [step, hi] at hs
  split at hs
  · cases hs
  · obtain ⟨f', hf', rfl⟩ := ok_of_with1 hs
    simp only [bind, Except.bind] at hf'
    split at hf'
    · cases hf'
    · rename_i h0
      split at hf'
      · cases hf'
      · rename_i f1 hf1
        obtain ⟨rfl, -⟩ := push_ok hf1
        cases hf'
        refine preserved_call h hr (n := m) (fun k => by simp only [event, hi]) ?_ (by simp [hi]) rfl rfl rfl rfl rfl rfl
          (he.resolve_left h0) (by omega) ?_
        · intro k hk; simp only [callParams, hi] at hk; exact hk
        · intro x xs hx; rw [ha] at hx; cases hx; exact hn

end

end Umka.Frame
