import Verif.Frame.Step3

/-!
# Stack frames and fibers: other fibers, and room on the stack
-/

namespace Umka.Frame

variable {p : Program} {c : Compiled p} {g : Nat → Calls} {vm vm' : VM} {P : List Ptr}

/-- The control state of a fiber. -/
def ctl (f : Fiber) : Int × Int × Int × Int × Bool × Option Nat := (f.size, f.top, f.base, f.ip, f.alive, f.parent)

theorem writeAll_ctl : ∀ {ws : List (Ptr × Int)} {vm vm' : VM}, writeAll vm ws = .ok vm' → vm'.num = vm.num ∧
    vm'.cur = vm.cur ∧ vm'.loc = vm.loc ∧ vm'.loops = vm.loops ∧
    ∀ k, ctl (vm'.fiber k) = ctl (vm.fiber k) ∧ ((∀ w ∈ ws, w.1.1 ≠ k) → vm'.fiber k = vm.fiber k)
  | [], vm, vm', h => by cases h; exact ⟨rfl, rfl, rfl, rfl, fun k => ⟨rfl, fun _ => rfl⟩⟩
  | ((k, i), v) :: ws, vm, vm', h => by
    simp only [writeAll] at h
    split at h
    · cases h
    · obtain ⟨h1, h2, h3, h4, h5⟩ := writeAll_ctl h
      refine ⟨h1, h2, h3, h4, fun j => ⟨(h5 j).1.trans ?_, fun hw => ((h5 j).2 fun w hm => hw w (by simp [hm])).trans ?_⟩⟩
      · rw [set_fiber]; split
        · rename_i e; subst e; rfl
        · rfl
      · have hjk : k ≠ j := hw ((k, i), v) (by simp)
        rw [set_fiber, if_neg (Ne.symm hjk)]

theorem exitLoop_ctl (hl : ∀ l ∈ vm.loops, l.1 = vm.loc) (h : exitLoop vm = .ok vm') :
    vm'.num = vm.num ∧ vm'.loc = vm.loc ∧ vm'.cur = vm.cur ∧ (∀ k, k ≠ vm.loc → vm'.fiber k = vm.fiber k) ∧
    ∃ ip t, vm'.fiber vm.loc = { vm.fiber vm.loc with ip := ip, top := (vm.fiber vm.loc).top + ((t : Nat) : Int) } := by
  simp only [exitLoop] at h
  split at h
  · cases h
  · rename_i k ip t rest hls
    have hk : k = vm.loc := hl (k, ip, t) (by simp [hls])
    subst hk
    cases h
    refine ⟨rfl, rfl, rfl, fun k hk => ?_, ip, t, ?_⟩
    · show (vm.set vm.loc _).fiber k = _
      rw [set_fiber, if_neg hk]
    · show (vm.set vm.loc _).fiber vm.loc = _
      rw [set_fiber, if_pos rfl]

/-- The variables of a fiber are kept, unless the instruction stores to them. -/
def Kept (p : Program) (vm vm' : VM) (k : Nat) : Prop :=
  ∀ i, IsVar p vm (k, i) →
    (∀ pop vals writes, p.code (vm.fiber vm.loc).ip = .data pop vals writes → ∀ w ∈ writes vm, w.1 ≠ (k, i)) →
    (vm'.fiber k).stack i = (vm.fiber k).stack i

theorem other_of_eq {k : Nat} (h : vm'.fiber k = vm.fiber k) : ctl (vm'.fiber k) = ctl (vm.fiber k) ∧
    ((vm.fiber k).alive = false → vm'.fiber k = vm.fiber k) ∧ Kept p vm vm' k :=
  ⟨by rw [h], fun _ => h, fun _ _ _ => by rw [h]⟩

theorem writeAll_slot {k : Nat} {i : Int} : ∀ {ws : List (Ptr × Int)} {vm vm' : VM}, writeAll vm ws = .ok vm' →
    (∀ w ∈ ws, w.1 ≠ (k, i)) → (vm'.fiber k).stack i = (vm.fiber k).stack i
  | [], vm, vm', h, _ => by cases h; rfl
  | ((j, x), v) :: ws, vm, vm', h, hw => by
    simp only [writeAll] at h
    split at h
    · cases h
    · rw [writeAll_slot h fun w hm => hw w (by simp [hm]), set_fiber]
      split
      · rename_i e
        subst e
        have hne : i ≠ x := by
          intro e
          exact hw ((k, x), v) (by simp) (by rw [e])
        simp only [setSlot, if_neg hne]
      · rfl

/-- An instruction does not change the control state of other fibers, and nothing in fibers that are dead. -/
theorem step_other (h : Inv c g vm P) (hv : Valid' p vm P) (hs : step p vm = .ok vm') {k : Nat} (hk : k < vm.num)
    (hkl : k ≠ vm.loc) :
    ctl (vm'.fiber k) = ctl (vm.fiber k) ∧ ((vm.fiber k).alive = false → vm'.fiber k = vm.fiber k) ∧
    Kept p vm vm' k := by
  have hls : ∀ l ∈ vm.loops, l.1 = vm.loc := fun l hl => by rw [h.loc]; exact h.loops l hl
  have w1 : ∀ {r : Except Err Fiber}, with1 vm r = .ok vm' →
      ctl (vm'.fiber k) = ctl (vm.fiber k) ∧ ((vm.fiber k).alive = false → vm'.fiber k = vm.fiber k) ∧
    Kept p vm vm' k := by
    intro r hr
    obtain ⟨f, -, rfl⟩ := ok_of_with1 hr
    exact other_of_eq (by rw [set_fiber, if_neg hkl])
  cases hi : p.code (vm.fiber vm.loc).ip with
  | data pop vals writes =>
    simp only [step, hi] at hs
    split at hs
    · cases hs
    · have hs := ok_of_res hs
      simp only [bind, Except.bind] at hs
      split at hs
      · cases hs
      · rename_i f' hf'
        obtain ⟨h1, h2, h3, h4, h5⟩ := writeAll_ctl hs
        refine ⟨(h5 k).1.trans (by rw [set_fiber, if_neg hkl]), fun hd => ((h5 k).2 ?_).trans (by rw [set_fiber, if_neg hkl]),
          fun i _ hi' => (writeAll_slot hs (hi' _ _ _ hi)).trans (by rw [set_fiber, if_neg hkl])⟩
        intro w hw e
        simp only [Valid', hi] at hv
        have := (hv.2.2 w hw).2.1
        rw [e, hd] at this; cases this
  | block pop vals =>
    simp only [step, hi] at hs
    split at hs
    · cases hs
    · split at hs
      · cases hs
      · exact w1 hs
  | jump | call | callIndirect | enter | leave =>
    simp only [step, hi] at hs
    split at hs
    · cases hs
    · exact w1 hs
  | ret n =>
    simp only [step, hi] at hs
    split at hs
    · cases hs
    · split at hs
      · rename_i htop
        split at hs
        · obtain ⟨-, -, -, h4, -⟩ := exitLoop_ctl (vm := vm.set vm.loc _) hls hs
          exact other_of_eq (by rw [h4 k hkl, set_fiber, if_neg hkl])
        · rename_i j hj
          split at hs
          · have hl0 : vm.loops = [] ∨ vm.loops ≠ [] := Classical.em _
            rcases hl0 with hl0 | hl0
            · simp only [exitLoop, VM.switch, VM.set, hl0] at hs; cases hs
            · exfalso
              -- the running fiber has calls from external functions, so this is not its outermost call
              obtain ⟨a, as, ha⟩ := h.acts
              cases hp : (g vm.loc).pend with
              | false =>
                have := c.next (h.run.run hp a as ha)
                simp only [hi] at this
              | true =>
                obtain ⟨-, e2, -, -, e5⟩ := h.run.pend hp a as ha
                rw [htop] at e2
                have hcb := h.loc_calls
                cases hret : a.ret with
                | host => rw [hret] at e2; simp [Ret.val, retFiber, retVM] at e2
                | fiber =>
                  rw [hret] at e5
                  have e5 : as = [] := e5.1
                  rw [ha, e5] at hcb
                  simp only [callbacks, List.filterMap_cons, hret, List.filterMap_nil] at hcb
                  cases hl : vm.loops with
                  | nil => exact hl0 hl
                  | cons x xs => rw [hl] at hcb; cases hcb
                | callback ip t => rw [hret] at e2; simp [Ret.val, retFiber, retVM] at e2
                | code ip =>
                  rw [hret] at e2 e5
                  obtain ⟨a', rest, -, hb⟩ := e5
                  have := c.nonneg hb
                  simp only [Ret.val, retFiber] at e2; omega
          · cases hs
            refine other_of_eq ?_; show (vm.set vm.loc _).fiber k = _
            rw [set_fiber, if_neg hkl]
      · split at hs
        · obtain ⟨-, -, -, h4, -⟩ := exitLoop_ctl (vm := vm.set vm.loc _) hls hs
          exact other_of_eq (by rw [h4 k hkl, set_fiber, if_neg hkl])
        · cases hs; exact other_of_eq (by rw [set_fiber, if_neg hkl])
  | ref ptr delta =>
    have hI := ref_next h hi
    simp only [step, hi] at hs
    split at hs
    · cases hs
    · cases hq : ptr vm with
      | none =>
        simp only [hq, Res.ok.injEq] at hs
        subst hs
        exact other_of_eq (by rw [set_fiber, if_neg hkl])
      | some q =>
        simp only [hq] at hs
        have hs := ok_of_res hs
        obtain ⟨⟨q1, q2, a, ha, hai⟩, -, -⟩ := ref_pointers h hi hv hq
        have hanc : Ancestor vm vm.cur q.1 := by
          have hv' := hv; simp only [Valid', hi] at hv'; exact (hv' q hq).1
        generalize hv1 : vm.set vm.loc { vm.fiber vm.loc with ip := (vm.fiber vm.loc).ip + 1 } = v1 at hs hI
        have hsame : ∀ j, (v1.fiber j).parent = (vm.fiber j).parent ∧ (v1.fiber j).alive = (vm.fiber j).alive := by
          intro j; rw [← hv1, set_fiber]; split
          · rename_i e; subst e; exact ⟨rfl, rfl⟩
          · exact ⟨rfl, rfl⟩
        have hres := frameRefCnt_ok (delta := delta) (hI.fib q.1 (by rw [← hv1]; exact q1) ((hsame _).2.trans q2)) ha hai
        have hnum : vm.num = v1.num := by rw [← hv1]; rfl
        have hcur : vm.cur = v1.cur := by rw [← hv1]; rfl
        rw [hnum, hcur, refCnt_eq hI.parent hI.cur hI.cur (by rw [← hcur]; exact ancestor_congr hanc fun j => (hsame j).1) ?_] at hs
        · rcases hres with e | e
          · rw [e] at hs
            cases hs
            have hvk : v1.fiber k = vm.fiber k := by rw [← hv1, set_fiber, if_neg hkl]
            by_cases e : k = q.1
            · subst e
              refine ⟨?_, fun hd => ?_, fun i hvar _ => ?_⟩
              · rw [set_fiber, if_pos rfl, hvk]; rfl
              · rw [hd] at q2; cases q2
              · rw [set_fiber, if_pos rfl, hvk]
                have hfib := h.fib q.1 hk q2
                obtain ⟨y, hy, hyi⟩ := isVar_owned (q := (q.1, i)) hfib hvar
                have hyi : y.inVars i := hyi
                show setSlot (vm.fiber q.1).stack (a.base - 1) _ i = _
                have hne : i ≠ a.base - 1 := by
                  have hyr := Act.vars_range hyi
                  have h1 := a.low_le
                  have h2 := y.low_le
                  rcases hfib.frames.sep y hy a ha with e | e | e
                  · rw [e] at hyi; simp only [Act.inVars] at hyi; omega
                  · simp only [Act.base] at *; omega
                  · simp only [Act.base] at *; omega
                simp only [setSlot, if_neg hne]
            · exact other_of_eq (by rw [set_fiber, if_neg e, hvk])
          · rw [e] at hs; cases hs
        · intro f' hf'
          rcases hres with e | e
          · rw [e] at hf'; cases hf'; rfl
          · rw [e] at hf'; cases hf'
  | spawn pop entry up =>
    simp only [step, hi] at hs
    split at hs
    · cases hs
    · have hs := ok_of_res hs
      simp only [bind, Except.bind, pure, Except.pure] at hs
      split at hs
      · cases hs
      · split at hs
        · cases hs
        · cases hs
          refine other_of_eq ?_; show ((vm.set vm.loc _).set vm.num _).fiber k = _
          rw [set_fiber, if_neg (Nat.ne_of_lt hk), set_fiber, if_neg hkl]
  | resume who =>
    simp only [step, hi] at hs
    split at hs
    · cases hs
    · rw [if_neg (by rw [h.loc_alive]; simp)] at hs
      cases hs
      refine other_of_eq ?_; show (vm.set vm.loc _).fiber k = _
      rw [set_fiber, if_neg hkl]
  | ext temp next =>
    simp only [step, hi] at hs
    split at hs
    · cases hs
    · split at hs
      · cases hs
      · split at hs
        · exact w1 hs
        · split at hs
          · cases hs
          · split at hs
            · cases hs
            · have hs := ok_of_res hs
              simp only [bind, Except.bind, pure, Except.pure] at hs
              split at hs
              · cases hs
              · cases hs
                refine other_of_eq ?_; show (vm.set vm.cur _).fiber k = _
                rw [set_fiber, if_neg (by rw [← h.loc]; exact hkl)]
  | halt =>
    have hr := h.in_body (by simp [hi]) (by simp [hi]) (by simp [hi])
    obtain ⟨a, as, ha⟩ := h.acts
    have hn := c.next (h.run.run hr a as ha)
    simp only [hi] at hn

/-! ## Room on the stack -/

def Room (vm : VM) : Prop := ∀ k, k < vm.num → (vm.fiber k).alive = true → 0 ≤ (vm.fiber k).top

theorem pushAll_top : ∀ {vs : List Int} {f f' : Fiber}, pushAll f vs = .ok f' → 0 ≤ f.top → 0 ≤ f'.top
  | [], f, f', h, h0 => by cases h; exact h0
  | v :: vs, f, f', h, h0 => by
    simp only [pushAll, bind, Except.bind] at h
    split at h
    · cases h
    · rename_i f1 hf1
      obtain ⟨rfl, h1⟩ := push_ok hf1
      exact pushAll_top h (by show 0 ≤ f.top - 1; omega)

theorem enterFrame_top {f f' : Fiber} {l : Int} (h : enterFrame p f l = .ok f') : 0 ≤ f'.top := by
  simp only [enterFrame, bind, Except.bind, pure, Except.pure, throw, throwThe, MonadExceptOf.throw] at h
  split at h
  · cases h
  · split at h
    · cases h
    · split at h
      · cases h
      · split at h
        · cases h
        · split at h
          · cases h
          · rename_i hn
            cases h
            exact Int.not_lt.mp hn

theorem base_ge {k : Nat} {f : Fiber} {gl : Calls} (h : Fib c P k f gl) : f.top ≤ f.base := by
  have := h.frames.base_eq
  have hr := h.room
  cases he : gl.entered with
  | nil => rw [he] at this hr; simp only [baseOf, lowOf] at *; omega
  | cons a as => rw [he] at this hr; have := a.low_le; simp only [baseOf, lowOf] at *; omega

theorem step_room (h : Inv c g vm P) (hv : Valid' p vm P) (hr : Room vm) (hs : step p vm = .ok vm') : Room vm' := by
  have h0 : 0 ≤ (vm.fiber vm.loc).top := hr _ h.loc_lt h.loc_alive
  have hls : ∀ l ∈ vm.loops, l.1 = vm.loc := fun l hl => by rw [h.loc]; exact h.loops l hl
  -- it is enough to consider the running fiber, unless a fiber is created
  have main : vm'.num = vm.num → 0 ≤ (vm'.fiber vm.loc).top → Room vm' := by
    intro hn ht k hk hka
    by_cases e : k = vm.loc
    · rw [e]; exact ht
    · rw [hn] at hk
      have := (step_other h hv hs hk e).1
      simp only [ctl, Prod.mk.injEq] at this
      rw [this.2.1]
      exact hr k hk (this.2.2.2.2.1 ▸ hka)
  have w1 : ∀ {r : Except Err Fiber}, with1 vm r = .ok vm' → (∀ f, r = .ok f → 0 ≤ f.top) → Room vm' := by
    intro r hr hf
    obtain ⟨f, hf', rfl⟩ := ok_of_with1 hr
    refine main rfl ?_
    rw [set_fiber, if_pos rfl]; exact hf f hf'
  have ex : ∀ {v : VM}, v.num = vm.num → v.loc = vm.loc → v.loops = vm.loops → 0 ≤ (v.fiber vm.loc).top →
      exitLoop v = .ok vm' → Room vm' := by
    intro v e1 e2 e3 e4 e5
    obtain ⟨x1, -, -, -, ip, t, x5⟩ := exitLoop_ctl (vm := v) (by rw [e3, e2]; exact hls) e5
    refine main (x1.trans e1) ?_
    rw [e2] at x5
    rw [x5]; simp only; omega
  have hs0 := hs
  cases hi : p.code (vm.fiber vm.loc).ip with
  | data pop vals writes =>
    simp only [step, hi] at hs
    split at hs
    · cases hs
    · have hs := ok_of_res hs
      simp only [bind, Except.bind] at hs
      split at hs
      · cases hs
      · rename_i f' hf'
        obtain ⟨h1, h2, h3, h4, h5⟩ := writeAll_ctl hs
        refine main h1 ?_
        have := (h5 vm.loc).1
        simp only [ctl, Prod.mk.injEq, set_fiber] at this
        rw [this.2.1]
        exact pushAll_top hf' (by show 0 ≤ (vm.fiber vm.loc).top + (pop : Int); omega)
  | block pop vals =>
    simp only [step, hi] at hs
    split at hs
    · cases hs
    · split at hs
      · cases hs
      · exact w1 hs fun f hf => pushAll_top hf (by show 0 ≤ (vm.fiber vm.loc).top + (pop : Int); omega)
  | jump =>
    simp only [step, hi] at hs
    split at hs
    · cases hs
    · exact w1 hs fun f hf => by cases hf; exact h0
  | call =>
    simp only [step, hi] at hs
    split at hs
    · cases hs
    · refine w1 hs fun f hf => ?_
      simp only [bind, Except.bind] at hf
      split at hf
      · cases hf
      · rename_i f1 hf1
        obtain ⟨rfl, h1⟩ := push_ok hf1
        cases hf
        show 0 ≤ (vm.fiber vm.loc).top - 1; omega
  | callIndirect =>
    simp only [step, hi] at hs
    split at hs
    · cases hs
    · refine w1 hs fun f hf => ?_
      simp only [bind, Except.bind] at hf
      split at hf
      · cases hf
      · split at hf
        · cases hf
        · rename_i f1 hf1
          obtain ⟨rfl, h1⟩ := push_ok hf1
          cases hf
          show 0 ≤ (vm.fiber vm.loc).top - 1; omega
  | enter =>
    simp only [step, hi] at hs
    split at hs
    · cases hs
    · exact w1 hs fun f hf => enterFrame_top hf
  | leave =>
    simp only [step, hi] at hs
    split at hs
    · cases hs
    · refine w1 hs fun f hf => ?_
      simp only [leaveFrame] at hf
      split at hf
      · cases hf
      · cases hf
        have := base_ge h.run
        show 0 ≤ (vm.fiber vm.loc).base + 1; omega
  | ret n =>
    simp only [step, hi] at hs
    split at hs
    · cases hs
    · split at hs
      · split at hs
        · exact ex (v := vm.set vm.loc _) rfl rfl rfl
            (by rw [set_fiber, if_pos rfl]; show 0 ≤ (vm.fiber vm.loc).top + 1; omega) hs
        · rename_i j hj
          have hjl := h.parent _ h.loc_lt j hj
          have hrest : ∀ v, v.num = vm.num → v.loops = vm.loops → v.loc = j → v.fiber = (vm.set vm.loc { vm.fiber vm.loc with top := (vm.fiber vm.loc).top + 1, alive := false }).fiber →
              exitLoop v = .ok vm' → Room vm' := by
            intro v e1 e2 e3 e4 e5
            simp only [exitLoop] at e5
            split at e5
            · cases e5
            · rename_i k ip t rest hl
              have hk : k = vm.loc := hls (k, ip, t) (by rw [← e2, hl]; simp)
              subst hk
              cases e5
              refine main e1 ?_
              show 0 ≤ ((v.set vm.loc _).fiber vm.loc).top
              rw [set_fiber, if_pos rfl, e4, set_fiber, if_pos rfl]
              show 0 ≤ (vm.fiber vm.loc).top + 1 + (t : Int); omega
          split at hs
          · exact hrest (VM.switch (vm.set vm.loc _) j) rfl rfl rfl rfl hs
          · cases hs
            refine main rfl ?_
            show 0 ≤ ((vm.set vm.loc _).fiber vm.loc).top
            rw [set_fiber, if_pos rfl]; show 0 ≤ (vm.fiber vm.loc).top + 1; omega
      · split at hs
        · exact ex (v := vm.set vm.loc _) rfl rfl rfl
            (by rw [set_fiber, if_pos rfl]; show 0 ≤ (vm.fiber vm.loc).top + 1 + (n : Int); omega) hs
        · cases hs
          refine main rfl ?_
          rw [set_fiber, if_pos rfl]; show 0 ≤ (vm.fiber vm.loc).top + 1 + (n : Int); omega
  | ref ptr delta =>
    have hb := step_ref h hi hv hs
    have hI := ref_next h hi
    simp only [step, hi] at hs
    split at hs
    · cases hs
    · cases hq : ptr vm with
      | none =>
        simp only [hq, Res.ok.injEq] at hs
        subst hs
        refine main rfl ?_
        rw [set_fiber, if_pos rfl]; exact h0
      | some q =>
        simp only [hq] at hs
        have hs := ok_of_res hs
        obtain ⟨⟨q1, q2, a, ha, hai⟩, -, -⟩ := ref_pointers h hi hv hq
        have hanc : Ancestor vm vm.cur q.1 := by
          have hv' := hv; simp only [Valid', hi] at hv'; exact (hv' q hq).1
        generalize hv1 : vm.set vm.loc { vm.fiber vm.loc with ip := (vm.fiber vm.loc).ip + 1 } = v1 at hs hI
        have hsame : ∀ j, (v1.fiber j).parent = (vm.fiber j).parent ∧ (v1.fiber j).alive = (vm.fiber j).alive := by
          intro j; rw [← hv1, set_fiber]; split
          · rename_i e; subst e; exact ⟨rfl, rfl⟩
          · exact ⟨rfl, rfl⟩
        have hres := frameRefCnt_ok (delta := delta) (hI.fib q.1 (by rw [← hv1]; exact q1) ((hsame _).2.trans q2)) ha hai
        have hnum : vm.num = v1.num := by rw [← hv1]; rfl
        have hcur : vm.cur = v1.cur := by rw [← hv1]; rfl
        have hvl : (v1.fiber vm.loc).top = (vm.fiber vm.loc).top := by rw [← hv1, set_fiber, if_pos rfl]
        rw [hnum, hcur, refCnt_eq hI.parent hI.cur hI.cur (by rw [← hcur]; exact ancestor_congr hanc fun j => (hsame j).1) ?_] at hs
        · rcases hres with e | e
          · rw [e] at hs
            cases hs
            refine main hnum.symm ?_
            rw [set_fiber]; split
            · rename_i e; rw [← e]; show 0 ≤ (v1.fiber vm.loc).top; rw [hvl]; exact h0
            · rw [hvl]; exact h0
          · rw [e] at hs; cases hs
        · intro f' hf'
          rcases hres with e | e
          · rw [e] at hf'; cases hf'; rfl
          · rw [e] at hf'; cases hf'
  | spawn pop entry up =>
    simp only [step, hi] at hs
    split at hs
    · cases hs
    · rename_i hmin
      have hs := ok_of_res hs
      simp only [bind, Except.bind, pure, Except.pure] at hs
      split at hs
      · cases hs
      · rename_i child hchild
        split at hs
        · cases hs
        · rename_i f' hf'
          obtain ⟨rfl, h1⟩ := push_ok hf'
          obtain ⟨c0, c1, c2, -⟩ := newFiber_ok hchild
          have hroom := h.run.room
          have hsz : (vm.fiber vm.loc).top ≤ (vm.fiber vm.loc).size - 1 := by
            have := base_ge h.run
            have hb := h.run.frames.base_eq
            cases he : (g vm.loc).entered with
            | nil => rw [he] at hb; simp only [baseOf] at hb; omega
            | cons a as => have := h.run.low_le (a := a) (by simp [he]); have := a.low_le; omega
          cases hs
          intro k hk hka
          by_cases e : k = vm.num
          · show 0 ≤ (((vm.set vm.loc _).set vm.num child).fiber k).top
            rw [set_fiber, if_pos e, c2]
            simp only [minFree] at hmin; omega
          · have hk : k < vm.num + 1 := hk
            by_cases e' : k = vm.loc
            · show 0 ≤ (((vm.set vm.loc _).set vm.num child).fiber k).top
              rw [set_fiber, if_neg e, set_fiber, if_pos e']
              have h1 : 0 < (vm.fiber vm.loc).top + (pop : Int) := h1
              show 0 ≤ (vm.fiber vm.loc).top + (pop : Int) - 1; omega
            · have := (step_other h hv hs0 (k := k) (by omega) e').1
              simp only [ctl, Prod.mk.injEq] at this
              rw [this.2.1]
              exact hr k (by omega) (this.2.2.2.2.1 ▸ hka)
  | resume who =>
    simp only [step, hi] at hs
    split at hs
    · cases hs
    · rw [if_neg (by rw [h.loc_alive]; simp)] at hs
      cases hs
      refine main rfl ?_
      show 0 ≤ ((vm.set vm.loc _).fiber vm.loc).top
      rw [set_fiber, if_pos rfl]; show 0 ≤ (vm.fiber vm.loc).top + 1; omega
  | ext temp next =>
    simp only [step, hi] at hs
    split at hs
    · cases hs
    · split at hs
      · cases hs
      · rename_i htemp
        split at hs
        · exact w1 hs fun f hf => by cases hf; exact h0
        · split at hs
          · cases hs
          · split at hs
            · cases hs
            · have hs := ok_of_res hs
              simp only [bind, Except.bind, pure, Except.pure] at hs
              split at hs
              · cases hs
              · rename_i f' hf'
                cases hs
                refine main rfl ?_
                show 0 ≤ ((vm.set vm.cur _).fiber vm.loc).top
                rw [set_fiber, if_pos h.loc]
                show 0 ≤ f'.top
                refine pushAll_top hf' ?_
                show 0 ≤ (vm.fiber vm.cur).top - (temp : Int)
                rw [← h.loc]; omega
  | halt =>
    have hr := h.in_body (by simp [hi]) (by simp [hi]) (by simp [hi])
    obtain ⟨a, as, ha⟩ := h.acts
    have hn := c.next (h.run.run hr a as ha)
    simp only [hi] at hn

theorem run_room {s s' : VM × List Ptr} (hr : Run p (Valid p) s s') (h : ∃ g, Inv c g s.1 s.2) (h0 : Room s.1) : Room s'.1 := by
  induction hr with
  | nil => exact h0
  | cons hr hv hs ih =>
    obtain ⟨g, hg⟩ := run_inv hr h
    exact step_room hg hv.old (ih h h0) hs

theorem reach_room (c : Compiled p) (h : Reach p vm P) : Room vm := by
  obtain ⟨size, entry, params, vm0, hs, he, hr⟩ := h
  refine run_room hr (start_inv c hs he) ?_
  simp only [start, bind, Except.bind, pure, Except.pure, throw, throwThe, MonadExceptOf.throw] at hs
  split at hs
  · cases hs
  · split at hs
    · cases hs
    · rename_i f hf
      cases hs
      intro k _ _
      show 0 ≤ f.top
      cases size with
      | zero =>
        cases params with
        | nil => simp [pushAll, push, bind, Except.bind] at hf
        | cons v vs => simp [pushAll, push, bind, Except.bind] at hf
      | succ n => exact pushAll_top hf (by show 0 ≤ ((n + 1 : Nat) : Int) - 1; omega)

end Umka.Frame
