import Verif.Frame.Calls

/-!
# Stack frames and fibers: no faults, outermost calls, pointers
-/

namespace Umka.Frame

variable {p : Program} {c : Compiled p} {g : Nat → Calls} {vm vm' : VM} {P : List Ptr}

theorem top_lt_size {k : Nat} {f : Fiber} {gl : Calls} (h : Fib c P k f gl) : f.top ≤ f.size - 1 := by
  have hr := h.room
  cases he : gl.entered with
  | nil => rw [he] at hr; exact hr
  | cons a as =>
    have := h.low_le (a := a) (by simp [he])
    have := a.low_le
    omega

theorem writeAll_nofault : ∀ {ws : List (Ptr × Int)} {vm : VM},
    (∀ w ∈ ws, 0 ≤ w.1.2 ∧ w.1.2 < (vm.fiber w.1.1).size) → ∃ vm', writeAll vm ws = .ok vm'
  | [], vm, _ => ⟨vm, rfl⟩
  | ((k, i), v) :: ws, vm, h => by
    have h1 := h ((k, i), v) (by simp)
    have h1 : 0 ≤ i ∧ i < (vm.fiber k).size := h1
    simp only [writeAll, if_neg (show ¬ (i < 0 ∨ (vm.fiber k).size ≤ i) by omega)]
    refine writeAll_nofault fun w hw => ?_
    have := h w (by simp [hw])
    rw [set_fiber]
    split
    · rename_i e; rw [e] at this; exact this
    · exact this

def Bad (r : Res) : Prop := r = .err .fault ∨ r = .err .fuel

theorem bad_with1 {r : Except Err Fiber} (h : ∀ e, r = .error e → e ≠ .fault ∧ e ≠ .fuel) : ¬ Bad (with1 vm r) := by
  cases r with
  | ok f => intro hb; rcases hb with hb | hb <;> cases hb
  | error e =>
    obtain ⟨h1, h2⟩ := h e rfl
    intro hb
    rcases hb with hb | hb <;> (cases hb; simp at h1 h2)

theorem bad_exit : ¬ Bad (exitLoop vm) := by
  simp only [exitLoop]
  intro hb
  split at hb <;> rcases hb with hb | hb <;> cases hb

theorem push_fine {f : Fiber} {v : Int} (h : 0 < f.top) :
    push f v = .ok { f with top := f.top - 1, stack := setSlot f.stack (f.top - 1) v } := by
  simp only [push, if_neg (show ¬ f.top ≤ 0 by omega)]

theorem step_no_fault (h : Inv c g vm P) (hv : Valid' p vm P) (hr : Room vm)
    (hext : ∀ t next, p.code (vm.fiber vm.loc).ip = .ext t next →
      (t : Int) ≤ minFree ∧ ∀ e ps, next vm = some (e, ps) → (t : Int) + ps.length + 1 ≤ minFree) : ¬ Bad (step p vm) := by
  have hov : ¬ Bad (.err .overflow) := by intro hb; rcases hb with hb | hb <;> cases hb
  have hsz := top_lt_size h.run
  cases hi : p.code (vm.fiber vm.loc).ip with
  | data pop vals writes =>
    simp only [step, hi]
    split
    · exact hov
    · rename_i hmin
      simp only [minFree] at hmin
      simp only [Valid', hi] at hv
      obtain ⟨f', hf'⟩ := pushAll_fault (f := { vm.fiber vm.loc with top := (vm.fiber vm.loc).top + pop, ip := (vm.fiber vm.loc).ip + 1 })
        (vs := vals vm) (by show ((vals vm).length : Int) ≤ (vm.fiber vm.loc).top + pop; omega)
      have hf1 : f'.size = (vm.fiber vm.loc).size := (pushAll_ok hf').2.1
      obtain ⟨vm', hw⟩ := writeAll_nofault (vm := vm.set vm.loc f') (ws := writes vm) fun w hw => by
        have hvar := hv.2.2 w hw
        have := (h.fib _ hvar.1 hvar.2.1).owned_ge (isVar_owned (h.fib _ hvar.1 hvar.2.1) hvar)
        have := (h.fib _ hvar.1 hvar.2.1).room
        have := hr _ hvar.1 hvar.2.1
        rw [set_fiber]
        split
        · rename_i e; rw [hf1, ← e]; omega
        · omega
      simp only [hf', bind, Except.bind, hw, Res.of]
      intro hb; rcases hb with hb | hb <;> cases hb
  | block pop vals =>
    simp only [step, hi]
    split
    · exact hov
    · split
      · exact hov
      · rename_i hmin
        simp only [minFree] at hmin
        obtain ⟨f', hf'⟩ := pushAll_fault (f := { vm.fiber vm.loc with top := (vm.fiber vm.loc).top + pop, ip := (vm.fiber vm.loc).ip + 1 })
          (vs := vals vm) (by show ((vals vm).length : Int) ≤ (vm.fiber vm.loc).top + pop; omega)
        rw [hf']
        exact bad_with1 (by intro e he; cases he)
  | jump =>
    simp only [step, hi]
    split
    · exact hov
    · exact bad_with1 (by intro e he; cases he)
  | call =>
    simp only [step, hi]
    split
    · exact hov
    · rename_i hmin
      simp only [minFree] at hmin
      rw [push_fine (by omega)]
      exact bad_with1 (by intro e he; cases he)
  | callIndirect =>
    simp only [step, hi]
    split
    · exact hov
    · rename_i hmin
      simp only [minFree] at hmin
      rw [push_fine (by omega)]
      refine bad_with1 ?_
      intro e he
      simp only [bind, Except.bind, throw, throwThe, MonadExceptOf.throw] at he
      split at he
      · cases he; simp
      · cases he
  | enter l =>
    simp only [step, hi]
    split
    · exact hov
    · refine bad_with1 ?_
      intro e he
      simp only [enterFrame, bind, Except.bind, pure, Except.pure, throw, throwThe, MonadExceptOf.throw] at he
      split at he
      · cases he; simp
      · rename_i hmin
        simp only [minFree] at hmin
        rw [push_fine (by omega)] at he
        simp only at he
        rw [push_fine (by show 0 < (vm.fiber vm.loc).top - 1; omega)] at he
        simp only at he
        rw [push_fine (by show 0 < (vm.fiber vm.loc).top - 1 - 1; omega)] at he
        simp only at he
        rw [if_neg (by omega)] at he
        cases he
  | leave =>
    simp only [step, hi]
    split
    · exact hov
    · refine bad_with1 ?_
      intro e he
      simp only [leaveFrame] at he
      split at he <;> cases he
      simp
  | ret n =>
    simp only [step, hi]
    split
    · exact hov
    · have ok : ∀ v, ¬ Bad (.ok v) := by intro v hb; rcases hb with hb | hb <;> cases hb
      split
      · split
        · exact bad_exit
        · split
          · exact bad_exit
          · exact ok _
      · split
        · exact bad_exit
        · exact ok _
  | ref ptr delta =>
    have hI := ref_next h hi
    have hs : ∀ vm', step p vm = .ok vm' → True := fun _ _ => trivial
    simp only [step, hi]
    split
    · exact hov
    · cases hq : ptr vm with
      | none => intro hb; rcases hb with hb | hb <;> cases hb
      | some q =>
        simp only
        obtain ⟨h1, h2, h3⟩ := ref_pointers h hi hv hq
        have hanc : Ancestor vm vm.cur q.1 := by
          have hv' := hv; simp only [Valid', hi] at hv'; exact (hv' q hq).1
        have hsame : ∀ k, ((vm.set vm.loc { vm.fiber vm.loc with ip := (vm.fiber vm.loc).ip + 1 }).fiber k).alive = (vm.fiber k).alive ∧
            ((vm.set vm.loc { vm.fiber vm.loc with ip := (vm.fiber vm.loc).ip + 1 }).fiber k).parent = (vm.fiber k).parent := by
          intro k; rw [set_fiber]; split
          · rename_i e; subst e; exact ⟨rfl, rfl⟩
          · exact ⟨rfl, rfl⟩
        rcases refCnt_inv hI (ancestor_congr hanc fun j => (hsame j).2) ⟨h1.1, (hsame _).1.trans h1.2.1, h1.2.2⟩ h2 h3 with
          ⟨e, he, rfl⟩ | ⟨vm1, he, -⟩
        · rw [show vm.num = (vm.set vm.loc { vm.fiber vm.loc with ip := (vm.fiber vm.loc).ip + 1 }).num from rfl,
            show vm.cur = (vm.set vm.loc { vm.fiber vm.loc with ip := (vm.fiber vm.loc).ip + 1 }).cur from rfl, he]
          intro hb; rcases hb with hb | hb <;> cases hb
        · rw [show vm.num = (vm.set vm.loc { vm.fiber vm.loc with ip := (vm.fiber vm.loc).ip + 1 }).num from rfl,
            show vm.cur = (vm.set vm.loc { vm.fiber vm.loc with ip := (vm.fiber vm.loc).ip + 1 }).cur from rfl, he]
          intro hb; rcases hb with hb | hb <;> cases hb
  | spawn pop entry up =>
    simp only [step, hi]
    split
    · exact hov
    · rename_i hmin
      simp only [minFree] at hmin
      simp only [newFiber, bind, Except.bind, pure, Except.pure, throw, throwThe, MonadExceptOf.throw]
      split
      · rename_i e he
        split at he
        · cases he; intro hb; rcases hb with hb | hb <;> cases hb
        · obtain ⟨f', hf'⟩ := pushAll_fault (f := { vm.fiber vm.loc with stack := fun _ => 0, top := (vm.fiber vm.loc).size - 1, base := (vm.fiber vm.loc).size - 1, parent := some vm.loc })
            (vs := [(up vm).2, (up vm).1, retFiber]) (by show ((3 : Nat) : Int) ≤ (vm.fiber vm.loc).size - 1; omega)
          rw [hf'] at he; cases he
      · rw [push_fine (by show 0 < (vm.fiber vm.loc).top + (pop : Int); omega)]
        intro hb; rcases hb with hb | hb <;> cases hb
  | resume who =>
    simp only [step, hi]
    split
    · exact hov
    · rw [if_neg (by rw [h.loc_alive]; simp)]
      intro hb; rcases hb with hb | hb <;> cases hb
  | ext temp next =>
    obtain ⟨x1, x2⟩ := hext temp next hi
    simp only [step, hi]
    split
    · exact hov
    · rename_i hmin
      simp only [minFree] at hmin x1 x2
      rw [if_neg (by omega)]
      split
      · exact bad_with1 (by intro e he; cases he)
      · rename_i e ps hn
        split
        · intro hb; rcases hb with hb | hb <;> cases hb
        · split
          · intro hb; rcases hb with hb | hb <;> cases hb
          · have := x2 e ps hn
            obtain ⟨f', hf'⟩ := pushAll_fault (f := { vm.fiber vm.cur with top := (vm.fiber vm.cur).top - temp })
              (vs := ps ++ [retVM]) (by
                show ((ps ++ [retVM]).length : Int) ≤ (vm.fiber vm.cur).top - temp
                rw [← h.loc]; simp; omega)
            simp only [hf', bind, Except.bind, pure, Except.pure, Res.of]
            intro hb; rcases hb with hb | hb <;> cases hb
  | halt =>
    have hr := h.in_body (by simp [hi]) (by simp [hi]) (by simp [hi])
    obtain ⟨a, as, ha⟩ := h.acts
    have hn := c.next (h.run.run hr a as ha)
    simp only [hi] at hn

/-! ## The outermost call of a fiber -/

theorem outermost (h : Inv c g vm P) {n : Nat} (hi : p.code (vm.fiber vm.loc).ip = .ret n)
    (hb : (vm.fiber vm.loc).base = (vm.fiber vm.loc).size - 1) :
    ∃ r, (vm.fiber vm.loc).stack (vm.fiber vm.loc).top = r ∧ (vm.fiber vm.loc).top + 1 + n = (vm.fiber vm.loc).size - 1 ∧
      vm.loops = [] ∧ (((vm.fiber vm.loc).parent = none ∧ r = retVM) ∨ ((vm.fiber vm.loc).parent ≠ none ∧ r = retFiber)) := by
  obtain ⟨a, as, ha⟩ := h.acts
  have hp : (g vm.loc).pend = true := by
    cases hp : (g vm.loc).pend with
    | true => rfl
    | false => have := c.next (h.run.run hp a as ha); simp only [hi] at this
  obtain ⟨he, h2, h3, h4, h5⟩ := h.run.pend hp a as ha
  have hn : n = a.params := by
    rcases he with he | he
    · generalize a.params = m at he
      cases he with
      | enter e => rw [hi] at e; cases e
      | proto e _ _ => rw [hi] at e; cases e
    · rw [hi] at he; cases he; rfl
  have hen : (g vm.loc).entered = as := by simp [Calls.entered, hp, ha]
  have has : as = [] := by
    have hf := h.run.frames
    rw [hen] at hf
    cases as with
    | nil => rfl
    | cons y ys =>
      have := hf.base_eq
      have := hf.low_le y (by simp)
      have := y.low_le
      simp only [baseOf] at *; omega
  have hout := h.outer _ h.loc_lt h.loc_alive a (by simp [ha])
  have hcb := h.loc_calls
  rw [ha, has] at hcb
  have hl0 : a.ret = .host ∨ a.ret = .fiber → vm.loops = [] := by
    intro hr
    have : callbacks [a] = [] := by
      rcases hr with hr | hr <;> simp only [callbacks, List.filterMap_cons, hr, List.filterMap_nil]
    rw [this] at hcb
    cases hl : vm.loops with
    | nil => rfl
    | cons x xs => rw [hl] at hcb; cases hcb
  cases hret : a.ret with
  | host =>
    rw [hret] at h2 h5
    exact ⟨_, h2, by have := h5.2; omega, hl0 (.inl hret), .inl ⟨hout.1 hret, rfl⟩⟩
  | fiber =>
    rw [hret] at h2 h5
    exact ⟨_, h2, by have := h5.2; omega, hl0 (.inr hret), .inr ⟨hout.2 hret, rfl⟩⟩
  | callback ip t => rw [hret, has] at h5; obtain ⟨_, _, _, h5, -⟩ := h5; cases h5
  | code ip => rw [hret, has] at h5; obtain ⟨_, _, h5, -⟩ := h5; cases h5

/-! ## Pointers -/

theorem owned_isVar (h : Inv c g vm P) {q : Ptr} (hq : q.1 < vm.num ∧ (vm.fiber q.1).alive = true ∧ Owned (g q.1) q.2) :
    IsVar p vm q := by
  obtain ⟨h1, h2, a, ha, hai⟩ := hq
  have hf := h.fib _ h1 h2
  have hact := hf.frames.active (f := vm.fiber q.1) rfl rfl (by
    by_cases e : (vm.fiber q.1).base = (vm.fiber q.1).size - 1
    · exact .inl e
    · exact .inr (.cur e)) a ha
  refine ⟨h1, h2, a.base, hact, ?_⟩
  obtain ⟨a', pre, post, he, hb, hfr⟩ := active_mem hf.frames hact
  -- frames with the same base are the same
  have : a' = a := by
    rcases hf.frames.sep a' (by rw [he]; simp) a ha with e | e | e
    · exact e
    · have := a.low_le; have := a'.low_le; omega
    · have := a.low_le; have := a'.low_le; omega
  rw [this] at hfr
  exact (inFrame_iff hfr).mpr hai

/-- The current frame, in terms of pointers. -/
theorem leave_iff (h : Inv c g vm P) (hi : p.code (vm.fiber vm.loc).ip = .leave) :
    (vm.fiber vm.loc).stack ((vm.fiber vm.loc).base - 1) ≠ 0 ↔
    ∃ q ∈ P, q.1 = vm.loc ∧ InFrame p (vm.fiber vm.loc) (vm.fiber vm.loc).base q.2 := by
  have hr := h.in_body (by simp [hi]) (by simp [hi]) (by simp [hi])
  obtain ⟨a, as, ha⟩ := h.acts
  have hf := h.run.frames
  have hen := entered_run hr
  rw [hen, ha] at hf
  have hb := hf.1
  have hrc := h.run.rc a (by rw [hen, ha]; simp)
  rw [hb, hrc, ← hb]
  have : ∀ i, InFrame p (vm.fiber vm.loc) (vm.fiber vm.loc).base i ↔ a.inVars i := fun i => inFrame_iff hf
  simp only [this]
  constructor
  · intro hc
    have : 0 < count P vm.loc a := by omega
    simp only [count, List.countP_pos_iff, decide_eq_true_eq] at this
    obtain ⟨q, hq, h1, h2⟩ := this
    exact ⟨q, hq, h1, h2⟩
  · rintro ⟨q, hq, h1, h2⟩
    have : 0 < count P vm.loc a := by
      simp only [count, List.countP_pos_iff, decide_eq_true_eq]
      exact ⟨q, hq, h1, h2⟩
    omega

theorem callbacks_nil {a : Act} {as : List Act} (h : callbacks (a :: as) = []) : (∀ ip t, a.ret ≠ .callback ip t) ∧ callbacks as = [] := by
  cases hr : a.ret with
  | callback ip t => simp only [callbacks, List.filterMap_cons, hr] at h; cases h
  | host => simp only [callbacks, List.filterMap_cons, hr] at h; exact ⟨by simp, h⟩
  | fiber => simp only [callbacks, List.filterMap_cons, hr] at h; exact ⟨by simp, h⟩
  | code => simp only [callbacks, List.filterMap_cons, hr] at h; exact ⟨by simp, h⟩

/-- Without calls from external functions, the frame of a pointer is found. -/
theorem findFrame_found {f : Fiber} {a : Act} {i : Int} (hi : a.inVars i) :
    ∀ {n : Nat} {b : Int} {as : List Act}, Frames c f.stack f.size b as → a ∈ as → as.length ≤ n → callbacks as = [] →
    findFrame p f i n b = .ok a.base
  | _, _, [], _, ha, _, _ => by cases ha
  | 0, _, _ :: _, _, _, hn, _ => by simp at hn
  | n + 1, b, y :: as, h, ha, hn, hcb => by
    obtain ⟨hy0, hcb'⟩ := callbacks_nil hcb
    have hlow := h.low_le y (by simp)
    have h1 := h.1
    have h2 := h.2.1
    have h3 := h.2.2.1
    have h4 := h.2.2.2.1
    have h5 := h.2.2.2.2.1
    have h6 := h.2.2.2.2.2
    have hr := Act.vars_range hi
    have hl := y.low_le
    have hy : y.base + 2 + (y.params : Int) = y.ctop := by simp only [Act.base]; omega
    simp only [findFrame, h3]
    cases ha with
    | head => rw [if_neg (by omega)]; rw [h1]
    | tail _ ha =>
      have := h6.low_le a ha
      rw [if_pos (by omega)]
      have hcode : ∃ ip, y.ret = .code ip := by
        cases hret : y.ret with
        | host => rw [hret] at h5; rw [h5.1] at ha; cases ha
        | fiber => rw [hret] at h5; rw [h5.1] at ha; cases ha
        | callback ip t => exact absurd hret (hy0 ip t)
        | code ip => exact ⟨ip, rfl⟩
      obtain ⟨ip, hret⟩ := hcode
      rw [hret] at h2 h5
      obtain ⟨_, _, _, hbody⟩ := h5
      have := c.nonneg hbody
      simp only [Ret.val] at h2
      have hu : unwind f b = some (f.stack b) := by
        simp only [unwind]
        rw [if_neg (by omega), if_neg (by rw [h2]; simp only [retFiber, retVM]; omega)]
      rw [hu]
      exact findFrame_found hi h6 ha (by simp at hn; omega) hcb'

theorem callbacks_entered {gl : Calls} (h : callbacks gl.acts = []) : callbacks gl.entered = [] := by
  simp only [Calls.entered]
  split
  · cases ha : gl.acts with
    | nil => rfl
    | cons a as => rw [ha] at h; exact (callbacks_nil h).2
  · exact h

theorem frameRefCnt_found {k : Nat} {f : Fiber} {gl : Calls} (h : Fib c P k f gl) {a : Act} (ha : a ∈ gl.entered)
    {i delta : Int} (hi : a.inVars i) (hcb : callbacks gl.acts = []) :
    frameRefCnt p f i delta ≠ .error .illegalStack := by
  have hr := Act.vars_range hi
  have hl := h.low_le ha
  have hb : f.base ≠ f.size - 1 := by
    have := h.frames.base_eq
    cases he : gl.entered with
    | nil => rw [he] at ha; cases ha
    | cons y ys =>
      rw [he] at this
      have := h.low_le (a := y) (by simp [he])
      have := y.low_le
      simp only [baseOf] at *; omega
  have hlen := h.frames.length_le
  simp only [frameRefCnt, if_pos (show f.top ≤ i ∧ i < f.size by omega), if_neg hb]
  rw [findFrame_found (n := (f.size - f.base).toNat) hi h.frames ha (by omega) (callbacks_entered hcb)]
  intro hx; cases hx

theorem ref_found (h : Inv c g vm P) (hv : Valid' p vm P) {ptr : VM → Option Ptr} {delta : Int}
    (hi : p.code (vm.fiber vm.loc).ip = .ref ptr delta) (hl : vm.loops = []) : step p vm ≠ .err .illegalStack := by
  have hI := ref_next h hi
  simp only [step, hi]
  split
  · simp
  · cases hq : ptr vm with
    | none => simp
    | some q =>
      simp only
      obtain ⟨⟨q1, q2, a, ha, hai⟩, -, -⟩ := ref_pointers h hi hv hq
      have hanc : Ancestor vm vm.cur q.1 := by
        have hv' := hv; simp only [Valid', hi] at hv'; exact (hv' q hq).1
      generalize hv1 : vm.set vm.loc { vm.fiber vm.loc with ip := (vm.fiber vm.loc).ip + 1 } = v1 at hI ⊢
      have hsame : ∀ j, (v1.fiber j).parent = (vm.fiber j).parent ∧ (v1.fiber j).alive = (vm.fiber j).alive := by
        intro j; rw [← hv1, set_fiber]; split
        · rename_i e; subst e; exact ⟨rfl, rfl⟩
        · exact ⟨rfl, rfl⟩
      have hnum : vm.num = v1.num := by rw [← hv1]; rfl
      have hcur : vm.cur = v1.cur := by rw [← hv1]; rfl
      have hfib := hI.fib q.1 (by rw [← hnum]; exact q1) ((hsame _).2.trans q2)
      have hcb : callbacks (g q.1).acts = [] := by
        rw [hI.calls q.1 (by rw [← hnum]; exact q1) ((hsame _).2.trans q2), ← hv1]
        show (if q.1 = vm.cur then vm.loops.map (·.2) else []) = []
        rw [hl]; simp
      have hres := frameRefCnt_ok (delta := delta) hfib ha hai
      have hnot := frameRefCnt_found (delta := delta) hfib ha hai hcb
      have e := hres.resolve_right hnot
      rw [hnum, hcur, refCnt_eq hI.parent hI.cur hI.cur (by rw [← hcur]; exact ancestor_congr hanc fun j => (hsame j).1) ?_]
      · rw [e]; simp [Except.map, Res.of]
      · intro f' hf'
        rw [e] at hf'; cases hf'; rfl

end Umka.Frame
