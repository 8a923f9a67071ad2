import Verif.Frame.Step2

/-!
# Stack frames and fibers: pointers, fibers and external functions
-/

namespace Umka.Frame

variable {p : Program} {c : Compiled p} {g : Nat → Calls} {vm vm' : VM} {P : List Ptr}

/-! ## Pointers -/

theorem ancestor_le (hp : ∀ k, k < vm.num → ∀ j, (vm.fiber k).parent = some j → j < k) {k i : Nat}
    (h : Ancestor vm k i) (hk : k < vm.num) : i ≤ k := by
  induction h with
  | refl => exact Nat.le_refl _
  | parent h _ ih =>
    have := hp _ hk _ h
    have := ih (by omega)
    omega

/-- The loop over the ancestors does nothing if the pointer does not refer to one of them. -/
theorem refCnt_none {q : Ptr} {d : Int} {N : Nat} : ∀ {n k : Nat} {vm : VM},
    (∀ k, k < N → ∀ j, (vm.fiber k).parent = some j → j < k) → k < N → k < n → k < q.1 →
    refCnt p q d n vm k = .ok vm
  | 0, k, _, _, _, hn, _ => by omega
  | n + 1, k, vm, hp, hk, hn, hq => by
    simp only [refCnt, if_neg (show q.1 ≠ k by omega)]
    simp only [bind, Except.bind, pure, Except.pure]
    cases hpar : (vm.fiber k).parent with
    | none => rfl
    | some j =>
      have := hp k hk j hpar
      exact refCnt_none hp (by omega) (by omega) (by omega)

theorem refCnt_eq {q : Ptr} {d : Int} : ∀ {n k : Nat} {vm : VM},
    (∀ k, k < vm.num → ∀ j, (vm.fiber k).parent = some j → j < k) → k < vm.num → k < n → Ancestor vm k q.1 →
    (∀ f', frameRefCnt p (vm.fiber q.1) q.2 d = .ok f' → f'.parent = (vm.fiber q.1).parent) →
    refCnt p q d n vm k = (frameRefCnt p (vm.fiber q.1) q.2 d).map (vm.set q.1)
  | 0, k, _, _, _, hn, _, _ => by omega
  | n + 1, k, vm, hp, hk, hn, ha, hf => by
    simp only [refCnt]
    by_cases e : q.1 = k
    · simp only [if_pos e]
      subst e
      simp only [bind, Except.bind]
      cases hr : frameRefCnt p (vm.fiber q.1) q.2 d with
      | error e => rfl
      | ok f' =>
        simp only [pure, Except.pure, Except.map]
        have hpar' := hf f' hr
        have hfib : ((vm.set q.1 f').fiber q.1).parent = (vm.fiber q.1).parent := by
          rw [set_fiber, if_pos rfl, hpar']
        rw [hfib]
        cases hpar : (vm.fiber q.1).parent with
        | none => rfl
        | some j =>
          have := hp _ hk j hpar
          refine refCnt_none (N := vm.num) ?_ (by omega) (by omega) (by omega)
          intro i hi j' hj'
          rw [set_fiber] at hj'
          by_cases e : i = q.1
          · subst e; rw [if_pos rfl, hpar'] at hj'; exact hp _ hi j' hj'
          · rw [if_neg e] at hj'; exact hp i hi j' hj'
    · simp only [if_neg e]
      simp only [bind, Except.bind, pure, Except.pure]
      cases ha with
      | refl => exact absurd rfl e
      | parent hpar ha =>
        rw [hpar]
        have := hp k hk _ hpar
        exact refCnt_eq hp (by omega) (by omega) ha hf

theorem ancestor_congr {k i : Nat} (h : Ancestor vm k i) (hs : ∀ j, (vm'.fiber j).parent = (vm.fiber j).parent) :
    Ancestor vm' k i := by
  induction h with
  | refl => exact .refl
  | parent h _ ih => exact .parent (by rw [hs]; exact h) ih

/-- What counting a pointer does. -/
theorem refCnt_inv (h : Inv c g vm P) {q : Ptr} {delta : Int} {P' : List Ptr} (hanc : Ancestor vm vm.cur q.1)
    (hq : q.1 < vm.num ∧ (vm.fiber q.1).alive = true ∧ Owned (g q.1) q.2)
    (hP : ∀ k (x : Act), (count P' k x : Int) = count P k x + if q.1 = k ∧ x.inVars q.2 then delta else 0)
    (hptr : ∀ q' ∈ P', q' = q ∨ q' ∈ P) :
    (∃ e, refCnt p q delta vm.num vm vm.cur = .error e ∧ e = .illegalStack) ∨
    ∃ vm', refCnt p q delta vm.num vm vm.cur = .ok vm' ∧ Inv c g vm' P' ∧ vm'.num = vm.num ∧ vm'.loc = vm.loc ∧
      ∀ k, (vm'.fiber k).size = (vm.fiber k).size ∧ (vm'.fiber k).alive = (vm.fiber k).alive := by
  obtain ⟨hq1, hq2, a, ha, hai⟩ := hq
  have hfib := h.fib _ hq1 hq2
  have hres := frameRefCnt_ok (delta := delta) hfib ha hai
  have hpar : ∀ f', frameRefCnt p (vm.fiber q.1) q.2 delta = .ok f' → f'.parent = (vm.fiber q.1).parent := by
    intro f' hf'
    rcases hres with e | e
    · rw [e] at hf'; cases hf'; rfl
    · rw [e] at hf'; cases hf'
  rw [refCnt_eq h.parent h.cur h.cur hanc hpar]
  rcases hres with e | e
  · right
    rw [e]
    refine ⟨_, rfl, ?_, rfl, rfl, ?_⟩
    · have key := hfib.count (P' := P') (delta := delta) ha hai (fun x => by rw [hP]; simp)
      refine ⟨h.loc, h.cur, ?_, ?_, ?_, ?_, ?_, h.loops, ?_, ?_⟩
      · show ((vm.set q.1 _).fiber vm.cur).alive = true
        rw [set_fiber]; split
        · exact hq2
        · exact h.alive
      · intro k hk hka
        rw [set_fiber] at *
        by_cases e : k = q.1
        · rw [if_pos e]; subst e; exact key
        · rw [if_neg e] at *
          refine (h.fib k hk hka).ptrs fun x => ?_
          have := hP k x
          rw [if_neg (by intro hc; exact e hc.1.symm)] at this
          omega
      · intro k hk j hj
        rw [set_fiber] at hj
        by_cases e : k = q.1
        · rw [if_pos e] at hj; subst e; exact h.parent _ hk j hj
        · rw [if_neg e] at hj; exact h.parent k hk j hj
      · intro k hk hkc hka
        have hkc : k ≠ vm.cur := hkc
        rw [set_fiber] at *
        by_cases e : k = q.1
        · rw [if_pos e] at *; subst e; exact h.ip _ hk hkc hka
        · rw [if_neg e] at *; exact h.ip k hk hkc hka
      · intro k hk hka
        rw [set_fiber] at hka
        by_cases e : k = q.1
        · subst e; exact h.calls _ hk hq2
        · rw [if_neg e] at hka; exact h.calls k hk hka
      · intro q' hq'
        have hq0 : q'.1 < vm.num ∧ (vm.fiber q'.1).alive = true ∧ Owned (g q'.1) q'.2 := by
          rcases hptr q' hq' with rfl | hm
          · exact ⟨hq1, hq2, a, ha, hai⟩
          · exact h.ptrs q' hm
        refine ⟨hq0.1, ?_, hq0.2.2⟩
        rw [set_fiber]; split
        · exact hq2
        · exact hq0.2.1
      · intro k hk hka
        rw [set_fiber] at hka
        rw [set_fiber]
        by_cases e : k = q.1
        · rw [if_pos e]; subst e; exact h.outer _ hk hq2
        · rw [if_neg e] at *; exact h.outer k hk hka
    · intro k
      rw [set_fiber]
      split
      · rename_i e; subst e; exact ⟨rfl, rfl⟩
      · exact ⟨rfl, rfl⟩
  · left
    rw [e]
    exact ⟨_, rfl, rfl⟩

/-- The state in which the pointer of a `ref` instruction is counted. -/
theorem ref_next (h : Inv c g vm P) {ptr delta} (hi : p.code (vm.fiber vm.loc).ip = .ref ptr delta) :
    Inv c g (vm.set vm.loc { vm.fiber vm.loc with ip := (vm.fiber vm.loc).ip + 1 }) P := by
  have hr := h.in_body (by simp [hi]) (by simp [hi]) (by simp [hi])
  obtain ⟨a, as, ha⟩ := h.acts
  have hb := h.run
  have hn := c.next (hb.run hr a as ha)
  simp only [hi] at hn
  have hf : Fib c P vm.loc { vm.fiber vm.loc with ip := (vm.fiber vm.loc).ip + 1 } (g vm.loc) :=
    ⟨hb.frames, hb.room, hb.ne, fun _ x xs hx => by rw [ha] at hx; cases hx; exact hn,
      fun hp => (by rw [hr] at hp; cases hp), hb.rc⟩
  have := h.update (f' := { vm.fiber vm.loc with ip := (vm.fiber vm.loc).ip + 1 }) h.loc_alive rfl hf h.loc_calls
    (fun q hq e => e ▸ (h.ptrs q hq).2.2) (fun a ha => .inl ⟨a, ha, rfl⟩)
  rw [upd_self] at this
  exact this

theorem ref_pointers (h : Inv c g vm P) {ptr delta} (hi : p.code (vm.fiber vm.loc).ip = .ref ptr delta)
    (hv : Valid' p vm P) {q : Ptr} (hq : ptr vm = some q) :
    (q.1 < vm.num ∧ (vm.fiber q.1).alive = true ∧ Owned (g q.1) q.2) ∧
    (∀ k (x : Act), (count (pointers p vm P) k x : Int) = count P k x + if q.1 = k ∧ x.inVars q.2 then delta else 0) ∧
    (∀ q' ∈ pointers p vm P, q' = q ∨ q' ∈ P) := by
  simp only [Valid', hi] at hv
  obtain ⟨-, hv'⟩ := hv q hq
  clear hv
  simp only [pointers, hi, hq]
  rcases hv' with ⟨rfl, hv⟩ | ⟨rfl, hv⟩
  · refine ⟨⟨hv.1, hv.2.1, isVar_owned (h.fib _ hv.1 hv.2.1) hv⟩, ?_, ?_⟩
    · intro k x; rw [if_pos rfl, count_cons]; split <;> simp
    · intro q' hq'; rw [if_pos rfl] at hq'; simpa using hq'
  · refine ⟨h.ptrs q hv, ?_, ?_⟩
    · intro k x; rw [if_neg (by decide), count_erase (P := P) (q := q) hv]; split <;> omega
    · intro q' hq'; rw [if_neg (by decide)] at hq'; exact .inr (List.mem_of_mem_erase hq')

theorem step_ref (h : Inv c g vm P) {ptr delta} (hi : p.code (vm.fiber vm.loc).ip = .ref ptr delta)
    (hv : Valid' p vm P) (hs : step p vm = .ok vm') : Preserved c g vm vm' (pointers p vm P) := by
  have hI := ref_next h hi
  have h0 : ∀ k, event p k vm = 0 := fun k => by simp only [event, hi]
  have hsame : ∀ k, ((vm.set vm.loc { vm.fiber vm.loc with ip := (vm.fiber vm.loc).ip + 1 }).fiber k).size = (vm.fiber k).size ∧
      ((vm.set vm.loc { vm.fiber vm.loc with ip := (vm.fiber vm.loc).ip + 1 }).fiber k).alive = (vm.fiber k).alive ∧
      ((vm.set vm.loc { vm.fiber vm.loc with ip := (vm.fiber vm.loc).ip + 1 }).fiber k).parent = (vm.fiber k).parent := by
    intro k; rw [set_fiber]; split
    · rename_i e; subst e; exact ⟨rfl, rfl, rfl⟩
    · exact ⟨rfl, rfl, rfl⟩
  simp only [step, hi] at hs
  split at hs
  · cases hs
  · cases hq : ptr vm with
    | none =>
      simp only [hq, Res.ok.injEq] at hs
      subst hs
      refine ⟨g, by simp only [pointers, hi, hq]; exact hI, Nat.le_refl _, fun k hk hka => ?_⟩
      refine ⟨(hsame k).1, fun _ => ⟨rfl, (hsame k).2.1.trans hka⟩, ?_, ?_⟩
      · rw [h0]; intro h; cases h
      · rw [h0]; intro h; cases h
    | some q =>
      simp only [hq] at hs
      have hs := ok_of_res hs
      obtain ⟨h1, h2, h3⟩ := ref_pointers h hi hv hq
      have hanc : Ancestor vm vm.cur q.1 := by
        have hv' := hv; simp only [Valid', hi] at hv'; exact (hv' q hq).1
      rcases refCnt_inv hI (ancestor_congr hanc fun j => (hsame j).2.2) ⟨h1.1, (hsame _).2.1.trans h1.2.1, h1.2.2⟩ h2 h3 with
        ⟨e, he, -⟩ | ⟨vm1, he, hI', hnum, hloc, hs'⟩
      · rw [show vm.num = (vm.set vm.loc { vm.fiber vm.loc with ip := (vm.fiber vm.loc).ip + 1 }).num from rfl,
          show vm.cur = (vm.set vm.loc { vm.fiber vm.loc with ip := (vm.fiber vm.loc).ip + 1 }).cur from rfl, he] at hs
        cases hs
      · rw [show vm.num = (vm.set vm.loc { vm.fiber vm.loc with ip := (vm.fiber vm.loc).ip + 1 }).num from rfl,
          show vm.cur = (vm.set vm.loc { vm.fiber vm.loc with ip := (vm.fiber vm.loc).ip + 1 }).cur from rfl, he] at hs
        cases hs
        refine ⟨g, hI', Nat.le_of_eq hnum.symm, fun k hk hka => ?_⟩
        refine ⟨(hs' k).1.trans (hsame k).1, fun _ => ⟨rfl, (hs' k).2.trans ((hsame k).2.1.trans hka)⟩, ?_, ?_⟩
        · rw [h0]; intro h; cases h
        · rw [h0]; intro h; cases h

/-! ## Fibers -/

theorem newFiber_ok {f f' : Fiber} {k : Nat} {e : Int} {up : Int × Int} (h : newFiber f k e up = .ok f') :
    0 < e ∧ f'.size = f.size ∧ f'.top = f.size - 4 ∧ f'.base = f.size - 1 ∧ f'.ip = e ∧ f'.alive = f.alive ∧
    f'.parent = some k ∧ f'.stack f'.top = retFiber := by
  simp only [newFiber, bind, Except.bind, pure, Except.pure, throw, throwThe, MonadExceptOf.throw] at h
  split at h
  · cases h
  · split at h
    · cases h
    · rename_i h0 x hx
      have h1 := pushAll_snoc (vs := [up.2, up.1]) hx
      obtain ⟨e1, e2, e3, e4, e5, e6, -⟩ := pushAll_ok hx
      cases h
      refine ⟨by omega, e2, ?_, e3, rfl, e5, e6, h1⟩
      show x.top = _
      rw [e1]; simp; omega

theorem step_spawn (h : Inv c g vm P) {pop entry up} (hi : p.code (vm.fiber vm.loc).ip = .spawn pop entry up)
    (hv : Valid' p vm P) (hs : step p vm = .ok vm') : Preserved c g vm vm' P := by
  have hr := h.in_body (by simp [hi]) (by simp [hi]) (by simp [hi])
  obtain ⟨a, as, ha⟩ := h.acts
  have hb := h.run
  have hn := c.next (hb.run hr a as ha)
  simp only [hi] at hn
  simp only [Valid', hi] at hv
  obtain ⟨hv1, hv2⟩ := hv
  rw [low_eq hb hr] at hv1
  simp only [step, hi] at hs
  split at hs
  · cases hs
  · have hs := ok_of_res hs
    simp only [bind, Except.bind, pure, Except.pure] at hs
    split at hs
    · cases hs
    · rename_i child hchild
      split at hs
      · cases hs
      · rename_i f' hf'
        obtain ⟨c0, c1, c2, c3, c4, c5, c6, c7⟩ := newFiber_ok hchild
        have hf' : pushAll { vm.fiber vm.loc with top := (vm.fiber vm.loc).top + pop, ip := (vm.fiber vm.loc).ip + 1 }
            [(vm.num : Int)] = .ok f' := by simp only [pushAll, hf', bind, Except.bind]
        obtain ⟨h1, h2, h3, h4, h5, h6, h7⟩ := pushAll_ok hf'
        have hf := hb.pushes hr hv1 hf' (fun x xs hx => by rw [ha] at hx; cases hx; exact hn)
        have hI := h.update (h5.trans h.loc_alive) h6 hf h.loc_calls (fun q hq e => e ▸ (h.ptrs q hq).2.2) (fun a ha => .inl ⟨a, ha, rfl⟩)
        rw [upd_self] at hI
        cases hs
        have hne : ∀ k, k < vm.num → k ≠ vm.num := fun k hk => Nat.ne_of_lt hk
        have fib : ∀ k, ({ (vm.set vm.loc f').set vm.num child with num := vm.num + 1 } : VM).fiber k =
            if k = vm.num then child else (vm.set vm.loc f').fiber k := fun k => rfl
        have hca : child.alive = true := c5.trans h.loc_alive
        refine ⟨upd g vm.num ⟨true, [⟨(vm.fiber vm.loc).size - 1, 2, 0, .fiber⟩]⟩, ⟨h.loc, ?_, ?_, ?_, ?_, ?_, ?_, h.loops, ?_, ?_⟩,
          Nat.le_succ _, ?_⟩
        · exact Nat.lt_succ_of_lt h.cur
        · have := fib vm.cur
          rw [if_neg (hne _ h.cur)] at this
          show (VM.fiber _ vm.cur).alive = true
          rw [this]; exact hI.alive
        · intro k hk hka
          rw [fib] at *
          by_cases e : k = vm.num
          · rw [if_pos e, upd, if_pos e]
            refine ⟨?_, ?_, by simp, by simp, ?_, ?_⟩
            · show child.base = child.size - 1
              rw [c3, c1]
            · show child.top ≤ child.size - 1
              rw [c2, c1]; omega
            · intro _ x xs hx
              cases hx
              refine ⟨.inl (by rw [c4]; exact hv2), c7, ?_, ?_, rfl, by rw [c1]⟩
              · rw [c2]; show _ = (vm.fiber vm.loc).size - 1 - (2 : Nat) - 1; omega
              · show (vm.fiber vm.loc).size - 1 + (0 : Nat) ≤ child.size - 1; rw [c1]; omega
            · intro x hx; cases hx
          · rw [if_neg e] at *; rw [upd, if_neg e]
            have hk : k < vm.num + 1 := hk
            exact hI.fib k (by show k < vm.num; omega) hka
        · intro k hk j hj
          rw [fib] at hj
          by_cases e : k = vm.num
          · rw [if_pos e, c6] at hj; cases hj; rw [e]; exact h.loc_lt
          · rw [if_neg e] at hj
            have hk : k < vm.num + 1 := hk
            exact hI.parent k (by show k < vm.num; omega) j hj
        · intro k hk hkc hka
          rw [fib] at *
          by_cases e : k = vm.num
          · rw [if_pos e, c4]; omega
          · rw [if_neg e] at *
            have hk : k < vm.num + 1 := hk
            exact hI.ip k (by show k < vm.num; omega) hkc hka
        · intro k hk hka
          rw [fib] at hka
          by_cases e : k = vm.num
          · subst e
            show callbacks (upd g vm.num _ vm.num).acts = if vm.num = vm.cur then _ else []
            rw [upd, if_pos rfl, if_neg (Ne.symm (hne _ h.cur))]; rfl
          · rw [if_neg e] at hka; rw [upd, if_neg e]
            have hk : k < vm.num + 1 := hk
            exact hI.calls k (by show k < vm.num; omega) hka
        · intro q hq
          obtain ⟨q1, q2, q3⟩ := hI.ptrs q hq
          have q1 : q.1 < vm.num := q1
          refine ⟨Nat.lt_succ_of_lt q1, ?_, ?_⟩
          · rw [fib, if_neg (hne _ q1)]; exact q2
          · rw [upd, if_neg (hne _ q1)]; exact q3
        · intro k hk hka
          rw [fib] at *
          by_cases e : k = vm.num
          · rw [if_pos e, upd, if_pos e, c6]
            intro x hx
            cases hx with
            | head => exact ⟨by simp, by simp⟩
            | tail _ hx => cases hx
          · rw [if_neg e] at *; rw [upd, if_neg e]
            have hk : k < vm.num + 1 := hk
            exact hI.outer k (by show k < vm.num; omega) hka
        · intro k hk hka
          have h0 : event p k vm = 0 := by simp only [event, hi]
          have hsz : ((vm.set vm.loc f').fiber k).size = (vm.fiber k).size ∧ ((vm.set vm.loc f').fiber k).alive = (vm.fiber k).alive := by
            rw [set_fiber]; split
            · rename_i e; subst e; exact ⟨h2, h5⟩
            · exact ⟨rfl, rfl⟩
          refine ⟨by rw [fib, if_neg (hne k hk)]; exact hsz.1, fun _ => ⟨?_, ?_⟩, ?_, ?_⟩
          · rw [upd, if_neg (hne k hk)]
          · rw [fib, if_neg (hne k hk), hsz.2]; exact hka
          · rw [h0]; intro h; cases h
          · rw [h0]; intro h; cases h

/-- The fiber that `resume` continues with. -/
def resumed (vm : VM) (who : Option Nat) : Nat :=
  match who with
  | some k => if (vm.fiber k).alive then k else vm.loc
  | none => match (vm.fiber vm.loc).parent with | some j => j | none => vm.loc

theorem step_resume (h : Inv c g vm P) {who} (hi : p.code (vm.fiber vm.loc).ip = .resume who)
    (hv : Valid' p vm P) (hs : step p vm = .ok vm') : Preserved c g vm vm' P := by
  have hr := h.in_body (by simp [hi]) (by simp [hi]) (by simp [hi])
  obtain ⟨a, as, ha⟩ := h.acts
  have hb := h.run
  have hn := c.next (hb.run hr a as ha)
  simp only [hi] at hn
  simp only [Valid', hi] at hv
  obtain ⟨hv1, hv2, hv3⟩ := hv
  rw [low_eq hb hr] at hv1
  have hf : Fib c P vm.loc { vm.fiber vm.loc with top := (vm.fiber vm.loc).top + 1, ip := (vm.fiber vm.loc).ip + 1 } (g vm.loc) :=
    ⟨hb.frames, hv1, hb.ne, fun _ x xs hx => by rw [ha] at hx; cases hx; exact hn,
      fun hp => (by rw [hr] at hp; cases hp), hb.rc⟩
  have hI := h.update (f' := { vm.fiber vm.loc with top := (vm.fiber vm.loc).top + 1, ip := (vm.fiber vm.loc).ip + 1 })
    h.loc_alive rfl hf h.loc_calls (fun q hq e => e ▸ (h.ptrs q hq).2.2) (fun a ha => .inl ⟨a, ha, rfl⟩)
  rw [upd_self] at hI
  have hnext : resumed vm (who vm) < vm.num ∧ (vm.fiber (resumed vm (who vm))).alive = true := by
    simp only [resumed]
    cases hw : who vm with
    | some k =>
      simp only [hw] at hv3 ⊢
      split
      · rename_i hk; exact ⟨hv3, hk⟩
      · exact ⟨h.loc_lt, h.loc_alive⟩
    | none =>
      simp only [hw] at hv3 ⊢
      cases hpar : (vm.fiber vm.loc).parent with
      | none => exact ⟨h.loc_lt, h.loc_alive⟩
      | some j => exact ⟨Nat.lt_trans (h.parent _ h.loc_lt j hpar) h.loc_lt, hv3 j hpar⟩
  have hs : vm' = (vm.set vm.loc { vm.fiber vm.loc with top := (vm.fiber vm.loc).top + 1, ip := (vm.fiber vm.loc).ip + 1 }).switch
      (resumed vm (who vm)) := by
    simp only [step, hi] at hs
    split at hs
    · cases hs
    · rw [if_neg (by rw [h.loc_alive]; simp)] at hs
      cases hs; rfl
  generalize resumed vm (who vm) = j at *
  subst hs
  have hal : ∀ k, ((vm.set vm.loc { vm.fiber vm.loc with top := (vm.fiber vm.loc).top + 1, ip := (vm.fiber vm.loc).ip + 1 }).fiber k).alive = (vm.fiber k).alive := by
    intro k; rw [set_fiber]; split
    · rename_i e; subst e; rfl
    · rfl
  refine ⟨g, ⟨rfl, hnext.1, ?_, hI.fib, hI.parent, ?_, ?_, ?_, hI.ptrs, hI.outer⟩, Nat.le_refl _, ?_⟩
  · exact (hal j).trans hnext.2
  · intro k hk hkc hka
    by_cases e : k = vm.loc
    · show 0 ≤ ((vm.set vm.loc _).fiber k).ip
      rw [set_fiber, if_pos e]
      exact c.nonneg hn
    · exact hI.ip k hk (by show k ≠ vm.cur; rw [← h.loc]; exact e) hka
  · intro k hk hka
    rw [hI.calls k hk hka]
    show (if k = vm.cur then vm.loops.map (·.2) else []) = if k = j then vm.loops.map (·.2) else []
    rw [hv2]; simp
  · intro l hl
    have hl : l ∈ vm.loops := hl
    rw [hv2] at hl; cases hl
  · intro k hk hka
    have h0 : event p k vm = 0 := by simp only [event, hi]
    refine ⟨?_, fun _ => ⟨rfl, (hal k).trans hka⟩, ?_, ?_⟩
    · show ((vm.set vm.loc _).fiber k).size = _
      rw [set_fiber]; split
      · rename_i e; subst e; rfl
      · rfl
    · rw [h0]; intro h; cases h
    · rw [h0]; intro h; cases h

/-! ## External functions -/

theorem step_ext (h : Inv c g vm P) {temp next} (hi : p.code (vm.fiber vm.loc).ip = .ext temp next)
    (hv : Valid' p vm P) (hs : step p vm = .ok vm') : Preserved c g vm vm' P := by
  have hr := h.in_body (by simp [hi]) (by simp [hi]) (by simp [hi])
  obtain ⟨a, as, ha⟩ := h.acts
  have hb := h.run
  have hbody := hb.run hr a as ha
  have hn := c.next hbody
  simp only [hi] at hn
  simp only [Valid', hi] at hv
  simp only [step, hi] at hs
  split at hs
  · cases hs
  · split at hs
    · cases hs
    · cases hx : next vm with
      | none =>
        simp only [hx] at hs
        obtain ⟨f', hf', rfl⟩ := ok_of_with1 hs
        cases hf'
        have h0 : ∀ k, event p k vm = 0 := fun k => by simp [event, hi, hx]
        exact preserved_same h h0 rfl h.loc_alive rfl ⟨hb.frames, hb.room, hb.ne,
          fun _ x xs hx => by rw [ha] at hx; cases hx; exact hn, fun hp => (by rw [hr] at hp; cases hp), hb.rc⟩
      | some ep =>
        obtain ⟨e, ps⟩ := ep
        have hev : ∀ k, event p k vm = if vm.loc = k then 1 else 0 := fun k => by simp only [event, hi, hx, ← h.loc]; simp
        have hent := hv e ps hx
        have hlc := h.loc
        simp only [hx] at hs
        split at hs
        · cases hs
        · split at hs
          · cases hs
          · have hs := ok_of_res hs
            simp only [bind, Except.bind, pure, Except.pure] at hs
            split at hs
            · cases hs
            · rename_i f' hf'
              have h1' := pushAll_snoc hf'
              obtain ⟨h1, h2, h3, h4, h5, h6, h7⟩ := pushAll_ok hf'
              rw [← hlc] at *
              have h1 : f'.top = (vm.fiber vm.loc).top - temp - (ps.length + 1) := by
                rw [h1]; simp
              have h7 : ∀ i, (vm.fiber vm.loc).top - temp ≤ i → f'.stack i = (vm.fiber vm.loc).stack i := h7
              let act : Act := ⟨(vm.fiber vm.loc).top - temp, ps.length, 0, .callback (vm.fiber vm.loc).ip temp⟩
              have hf : Fib c P vm.loc { f' with ip := e } ⟨true, act :: (g vm.loc).acts⟩ := by
                have hroom := hb.room
                refine hb.call hr (by show f'.top = _; rw [h1]; simp only [act]; omega) ?_ ?_ h2 h3 ?_ h1' hent
                · show (vm.fiber vm.loc).top - temp + (temp : Int) ≤ _; omega
                · exact ⟨a, as, next, ha, hbody, hi⟩
                · intro i hi; exact h7 i (by omega)
              have hcb : callbacks (act :: (g vm.loc).acts) = (((vm.loc, (vm.fiber vm.loc).ip, temp) : Nat × Int × Nat) :: vm.loops).map (·.2) := by
                rw [List.map_cons, ← h.loc_calls]
                simp [callbacks, act]
              have hI := h.update' (f' := { f' with ip := e }) (gl := ⟨true, act :: (g vm.loc).acts⟩)
                (h5.trans h.loc_alive) h6 hf hcb ?_ ?_
                (by intro x hx; cases hx with
                    | head => exact .inr ⟨by simp [act], by simp [act]⟩
                    | tail _ hx => exact .inl ⟨x, hx, rfl⟩)
              · have e' : vm' = { vm.set vm.loc { f' with ip := e } with
                    loops := (vm.loc, (vm.fiber vm.loc).ip, temp) :: vm.loops } := by
                  cases hs; rfl
                rw [e']
                refine ⟨_, hI, Nat.le_refl _, fun k hk hka => ?_⟩
                by_cases e : k = vm.loc
                · subst e
                  refine ⟨by show ((vm.set vm.loc _).fiber vm.loc).size = _; rw [set_fiber, if_pos rfl]; exact h2, ?_, ?_, ?_⟩
                  · rw [hev, if_pos rfl]; intro h; cases h
                  · intro _
                    refine ⟨act.key, by simp [keys, upd], ?_, .inr ⟨temp, ⟨next, hi⟩, rfl, ?_⟩⟩
                    · show ((vm.set vm.loc _).fiber vm.loc).alive = true
                      rw [set_fiber, if_pos rfl]; exact h5.trans h.loc_alive
                    · show (vm.fiber vm.loc).top - temp + (temp : Int) = _; omega
                  · rw [hev, if_pos rfl]; intro h; cases h
                · exact evolve_other e hka (by rw [hev, if_neg (Ne.symm e)])
              · intro l hl
                cases hl with
                | head => exact h.loc
                | tail _ hl => exact h.loops l hl
              · intro q hq e
                have := (h.ptrs q hq).2.2
                rw [e] at this
                obtain ⟨x, hx, hxi⟩ := this
                rw [entered_run hr] at hx
                exact ⟨x, hx, hxi⟩

/-! ## All instructions -/

theorem step_inv (h : Inv c g vm P) (hv0 : Valid p vm P) (hs : step p vm = .ok vm') :
    Preserved c g vm vm' (pointers p vm P) := by
  have hv := hv0.old
  cases hi : p.code (vm.fiber vm.loc).ip with
  | data => simp only [pointers, hi]; exact step_data h hi hv hs
  | block => simp only [pointers, hi]; exact step_block h hi hv hs
  | jump => simp only [pointers, hi]; exact step_jump h hi hs
  | call => simp only [pointers, hi]; exact step_call h hi hv hs
  | callIndirect => simp only [pointers, hi]; exact step_callIndirect h hi hv hs
  | enter => simp only [pointers, hi]; exact step_enter h hi hs
  | leave => simp only [pointers, hi]; exact step_leave h hi hs
  | ret => simp only [pointers, hi]; exact step_ret h hi hs
  | ref => exact step_ref h hi hv hs
  | spawn => simp only [pointers, hi]; exact step_spawn h hi hv hs
  | resume => simp only [pointers, hi]; exact step_resume h hi hv hs
  | ext => simp only [pointers, hi]; exact step_ext h hi hv hs
  | halt =>
    have hr := h.in_body (by simp [hi]) (by simp [hi]) (by simp [hi])
    obtain ⟨a, as, ha⟩ := h.acts
    have hn := c.next (h.run.run hr a as ha)
    simp only [hi] at hn

theorem start_inv {size : Nat} {entry : Int} {params : List Int} {vm : VM} (c : Compiled p)
    (h : start size entry params = .ok vm) (he : Entry p entry params.length) :
    ∃ g, Inv c g vm [] := by
  simp only [start, bind, Except.bind, pure, Except.pure, throw, throwThe, MonadExceptOf.throw] at h
  split at h
  · cases h
  · split at h
    · cases h
    · rename_i f hf
      have h0 := pushAll_snoc hf
      obtain ⟨h1, h2, h3, h4, h5, h6, h7⟩ := pushAll_ok hf
      cases h
      have h2 : f.size = (size : Int) := h2
      have h3 : f.base = (size : Int) - 1 := h3
      have h1 : f.top = (size : Int) - 1 - (params.length + 1) := by rw [h1]; simp
      refine ⟨fun _ => ⟨true, [⟨size - 1, params.length, 0, .host⟩]⟩, ⟨rfl, by simp, h5, ?_, ?_, ?_, ?_, by simp, by simp, ?_⟩⟩
      · intro k hk _
        refine ⟨?_, ?_, by simp, by simp, ?_, ?_⟩
        · show f.base = f.size - 1; rw [h2, h3]
        · show f.top ≤ f.size - 1; rw [h1, h2]; omega
        · intro _ x xs hx
          cases hx
          refine ⟨.inl he, h0, ?_, ?_, rfl, by show (size : Int) - 1 = f.size - 1; rw [h2]⟩
          · show f.top = (size : Int) - 1 - params.length - 1; omega
          · show (size : Int) - 1 + (0 : Nat) ≤ f.size - 1; omega
        · intro x hx; cases hx
      · intro k _ j hj; rw [show ({ f with ip := entry } : Fiber).parent = f.parent from rfl, h6] at hj; cases hj
      · intro k hk hkc
        have hk : k < 1 := hk
        have hkc : k ≠ 0 := hkc
        omega
      · intro k hk _
        have hk : k < 1 := hk
        show callbacks [_] = if k = 0 then [] else []
        simp [callbacks]
      · intro k _ _ x hx
        cases hx with
        | head => exact ⟨fun _ => h6, by simp⟩
        | tail _ hx => cases hx

theorem run_inv {s s' : VM × List Ptr} (hr : Run p (Valid p) s s') (h : ∃ g, Inv c g s.1 s.2) : ∃ g, Inv c g s'.1 s'.2 := by
  induction hr with
  | nil => exact h
  | cons _ hv hs ih =>
    obtain ⟨g, hg⟩ := ih h
    obtain ⟨g', hg', -⟩ := step_inv hg hv hs
    exact ⟨g', hg'⟩

theorem reach_inv (c : Compiled p) (h : Reach p vm P) : ∃ g, Inv c g vm P := by
  obtain ⟨size, entry, params, vm0, hs, he, hr⟩ := h
  exact run_inv hr (start_inv c hs he)

end Umka.Frame
