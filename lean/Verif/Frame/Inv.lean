import Verif.Frame.Lemmas

/-!
# Stack frames and fibers: the invariant
-/

namespace Umka.Frame

variable {p : Program}

/-! ## The search for the frame of a pointer -/

theorem Frames.length_le {c : Compiled p} {s : Int → Int} {size : Int} : ∀ {b : Int} {as : List Act},
    Frames c s size b as → (as.length : Int) ≤ size - 1 - b
  | _, [], h => by simp only [Frames] at h; simp [h]
  | b, a :: as, h => by
    have ih := Frames.length_le h.2.2.2.2.2
    have hb := h.2.2.2.2.2.base_eq
    have h4 := h.2.2.2.1
    have h1 := h.1
    have hl := a.low_le
    have : lowOf size as ≤ baseOf size as := by
      cases as with
      | nil => simp [lowOf, baseOf]
      | cons y ys => have := y.low_le; simp only [lowOf, baseOf]; omega
    rw [hb] at ih
    simp only [List.length_cons]
    omega

theorem findFrame_ok {c : Compiled p} {f : Fiber} {a : Act} {i : Int} (hi : a.inVars i) :
    ∀ {n : Nat} {b : Int} {as : List Act}, Frames c f.stack f.size b as → a ∈ as → as.length ≤ n →
    findFrame p f i n b = .ok a.base ∨ findFrame p f i n b = .error .illegalStack
  | _, _, [], _, ha, _ => by cases ha
  | 0, _, _ :: _, _, _, hn => by simp at hn
  | n + 1, b, y :: as, h, ha, hn => by
    have h1 := h.1
    have h3 := h.2.2.1
    have h4 := h.2.2.2.1
    have h6 := h.2.2.2.2.2
    have hr := Act.vars_range hi
    have hl := y.low_le
    have hy : y.base + 2 + (y.params : Int) = y.ctop := by simp only [Act.base]; omega
    simp only [findFrame, h3]
    cases ha with
    | head => rw [if_neg (by omega)]; left; rw [h1]
    | tail _ ha =>
      have := h6.low_le a ha
      rw [if_pos (by omega)]
      simp only [unwind]
      split
      · right; rfl
      · rename_i b' hb'
        split at hb'
        · cases hb'
        · split at hb'
          · cases hb'
          · cases hb'
            exact findFrame_ok hi h6 ha (by simp at hn; omega)

theorem frameRefCnt_ok {c : Compiled p} {P : List Ptr} {k : Nat} {f : Fiber} {g : Calls} (h : Fib c P k f g) {a : Act}
    (ha : a ∈ g.entered) {i delta : Int} (hi : a.inVars i) :
    frameRefCnt p f i delta =
      .ok { f with stack := setSlot f.stack (a.base - 1) (f.stack (a.base - 1) + delta) } ∨
    frameRefCnt p f i delta = .error .illegalStack := by
  have hr := Act.vars_range hi
  have hl := h.low_le ha
  have hb : f.base ≠ f.size - 1 := by
    have := h.frames.base_eq
    cases he : g.entered with
    | nil => rw [he] at ha; cases ha
    | cons y ys =>
      rw [he] at this
      have := h.low_le (a := y) (by simp [he])
      have := y.low_le
      simp only [baseOf] at *; omega
  have hlen := h.frames.length_le
  simp only [frameRefCnt, if_pos (show f.top ≤ i ∧ i < f.size by omega), if_neg hb]
  rcases findFrame_ok (n := (f.size - f.base).toNat) hi h.frames ha (by omega) with e | e
  · left; simp only [e]; rfl
  · right; simp only [e]; rfl

/-- The count of a pointer in the fiber's calls. -/
theorem count_cons {P : List Ptr} {k : Nat} {a : Act} {q : Ptr} :
    count (q :: P) k a = count P k a + (if q.1 = k ∧ a.inVars q.2 then 1 else 0) := by
  simp only [count, List.countP_cons, decide_eq_true_eq]

theorem count_erase {P : List Ptr} {k : Nat} {a : Act} {q : Ptr} (h : q ∈ P) :
    count P k a = count (P.erase q) k a + (if q.1 = k ∧ a.inVars q.2 then 1 else 0) := by
  have hp := (List.perm_cons_erase h)
  rw [← count_cons]
  simp only [count]
  exact hp.countP_eq _

/-- A pointer is counted in the frame it points to, and in no other. -/
theorem Fib.count {c : Compiled p} {P P' : List Ptr} {k : Nat} {f : Fiber} {g : Calls} (h : Fib c P k f g) {a : Act}
    (ha : a ∈ g.entered) {i delta : Int} (hi : a.inVars i)
    (hP : ∀ x : Act, (Frame.count P' k x : Int) = Frame.count P k x + if x.inVars i then delta else 0) :
    Fib c P' k { f with stack := setSlot f.stack (a.base - 1) (f.stack (a.base - 1) + delta) } g := by
  refine ⟨h.frames.write ha (.inr rfl) _, h.room, h.ne, h.run, ?_, ?_⟩
  · intro hp x as hx
    obtain ⟨h1, h2, h3, h4, h5⟩ := h.pend hp x as hx
    refine ⟨h1, ?_, h3, h4, h5⟩
    have : g.entered = as := by simp [Calls.entered, hp, hx]
    rw [this] at ha
    have hf := h.frames
    rw [this] at hf
    have := hf.low_le a ha
    have := a.low_le
    simp only [setSlot, if_neg (show f.top ≠ a.base - 1 by omega)]; exact h2
  · intro x hx
    simp only [setSlot]
    rcases h.frames.sep a ha x hx with rfl | hs | hs
    · rw [if_pos rfl, hP, if_pos hi, h.rc a ha]
    · have := x.low_le
      have := a.low_le
      have := Act.vars_range hi
      have hn : ¬ x.inVars i := fun hc => by have := Act.vars_range hc; omega
      rw [if_neg (by omega), hP, if_neg hn, h.rc x hx]; simp
    · have := x.low_le
      have := a.low_le
      have := Act.vars_range hi
      have hn : ¬ x.inVars i := fun hc => by have := Act.vars_range hc; omega
      rw [if_neg (by omega), hP, if_neg hn, h.rc x hx]; simp

/-- A change of the pointers to other fibers. -/
theorem Fib.ptrs {c : Compiled p} {P P' : List Ptr} {k : Nat} {f : Fiber} {g : Calls} (h : Fib c P k f g)
    (hP : ∀ x, Frame.count P' k x = Frame.count P k x) : Fib c P' k f g :=
  ⟨h.frames, h.room, h.ne, h.run, h.pend, fun a ha => by rw [hP]; exact h.rc a ha⟩

/-! ## The invariant -/

def callbacks (as : List Act) : List (Int × Nat) :=
  as.filterMap fun a => match a.ret with | .callback ip t => some (ip, t) | _ => none

structure Inv (c : Compiled p) (g : Nat → Calls) (vm : VM) (P : List Ptr) : Prop where
  loc : vm.loc = vm.cur
  cur : vm.cur < vm.num
  alive : (vm.fiber vm.cur).alive = true
  fib : ∀ k, k < vm.num → (vm.fiber k).alive = true → Fib c P k (vm.fiber k) (g k)
  parent : ∀ k, k < vm.num → ∀ j, (vm.fiber k).parent = some j → j < k
  ip : ∀ k, k < vm.num → k ≠ vm.cur → (vm.fiber k).alive = true → 0 ≤ (vm.fiber k).ip
  calls : ∀ k, k < vm.num → (vm.fiber k).alive = true →
    callbacks (g k).acts = if k = vm.cur then vm.loops.map (·.2) else []
  loops : ∀ l ∈ vm.loops, l.1 = vm.cur
  ptrs : ∀ q ∈ P, q.1 < vm.num ∧ (vm.fiber q.1).alive = true ∧ Owned (g q.1) q.2
  outer : ∀ k, k < vm.num → (vm.fiber k).alive = true → ∀ a ∈ (g k).acts,
    (a.ret = .host → (vm.fiber k).parent = none) ∧ (a.ret = .fiber → (vm.fiber k).parent ≠ none)

def Act.key (a : Act) : Int × Nat × Ret := (a.ctop, a.params, a.ret)

def keys (g : Calls) : List (Int × Nat × Ret) := g.acts.map Act.key

/-- How the calls of fiber `k` change in a step. -/
def Evolve (p : Program) (vm vm' : VM) (g g' : Nat → Calls) (k : Nat) : Prop :=
  (vm'.fiber k).size = (vm.fiber k).size ∧
  (event p k vm = 0 → keys (g' k) = keys (g k) ∧ (vm'.fiber k).alive = true) ∧
  (event p k vm = 1 → ∃ x, keys (g' k) = x :: keys (g k) ∧ (vm'.fiber k).alive = true ∧
    (x.2.2 = .code ((vm.fiber k).ip + 1) ∧ (∀ n, callParams p vm n → x.1 = (vm.fiber k).top + n) ∧
       (∀ t next, p.code (vm.fiber k).ip ≠ .ext t next) ∨
     ∃ t, (∃ next, p.code (vm.fiber k).ip = .ext t next) ∧ x.2.2 = .callback (vm.fiber k).ip t ∧
       x.1 + t = (vm.fiber k).top)) ∧
  (event p k vm = -1 → ∃ x, keys (g k) = x :: keys (g' k) ∧
    match x.2.2 with
    | .host => False
    | .fiber => (vm'.fiber k).alive = false
    | .callback ip t => (vm'.fiber k).alive = true ∧ (vm'.fiber k).ip = ip ∧ (vm'.fiber k).top = x.1 + t
    | .code ip => (vm'.fiber k).alive = true ∧ (vm'.fiber k).ip = ip ∧ (vm'.fiber k).top = x.1)

theorem set_fiber {vm : VM} {k j : Nat} {f : Fiber} : (vm.set k f).fiber j = if j = k then f else vm.fiber j := rfl

def upd (g : Nat → Calls) (k : Nat) (x : Calls) : Nat → Calls := fun j => if j = k then x else g j

/-- A step of the running fiber that does not affect others. -/
theorem Inv.update' {c : Compiled p} {g : Nat → Calls} {vm : VM} {P : List Ptr} (h : Inv c g vm P) {f' : Fiber}
    {gl : Calls} {ls : List (Nat × Int × Nat)} (ha : f'.alive = true) (hp : f'.parent = (vm.fiber vm.loc).parent)
    (hf : Fib c P vm.loc f' gl) (hc : callbacks gl.acts = ls.map (·.2)) (hls : ∀ l ∈ ls, l.1 = vm.cur)
    (ho : ∀ q ∈ P, q.1 = vm.loc → Owned gl q.2)
    (hou : ∀ a ∈ gl.acts, (∃ b ∈ (g vm.loc).acts, b.ret = a.ret) ∨ (a.ret ≠ .host ∧ a.ret ≠ .fiber)) :
    Inv c (upd g vm.loc gl) { vm.set vm.loc f' with loops := ls } P := by
  have hl := h.loc
  refine ⟨h.loc, h.cur, ?_, ?_, ?_, ?_, ?_, hls, ?_, ?_⟩
  · show ((vm.set vm.loc f').fiber vm.cur).alive = true
    rw [set_fiber, if_pos hl.symm]; exact ha
  · intro k hk hka
    have hka : ((vm.set vm.loc f').fiber k).alive = true := hka
    show Fib c P k ((vm.set vm.loc f').fiber k) _
    rw [set_fiber] at *
    by_cases e : k = vm.loc
    · rw [if_pos e, upd, if_pos e, e]; exact hf
    · rw [if_neg e] at *; rw [upd, if_neg e]; exact h.fib k hk hka
  · intro k hk j hj
    change ((vm.set vm.loc f').fiber k).parent = some j at hj
    rw [set_fiber] at hj
    by_cases e : k = vm.loc
    · rw [if_pos e, hp] at hj; subst e; exact h.parent _ hk j hj
    · rw [if_neg e] at hj; exact h.parent k hk j hj
  · intro k hk hkc hka
    have hkc : k ≠ vm.cur := hkc
    have e : k ≠ vm.loc := by rw [hl]; exact hkc
    have hka : ((vm.set vm.loc f').fiber k).alive = true := hka
    show 0 ≤ ((vm.set vm.loc f').fiber k).ip
    rw [set_fiber, if_neg e] at *
    exact h.ip k hk hkc hka
  · intro k hk hka
    have hka : ((vm.set vm.loc f').fiber k).alive = true := hka
    rw [set_fiber] at hka
    show callbacks (upd g vm.loc gl k).acts = if k = vm.cur then ls.map (·.2) else []
    by_cases e : k = vm.loc
    · rw [upd, if_pos e, if_pos (e.trans hl)]; exact hc
    · rw [if_neg e] at hka
      rw [upd, if_neg e, h.calls k hk hka]
      have : k ≠ vm.cur := by rw [← hl]; exact e
      rw [if_neg this, if_neg this]
  · intro q hq
    obtain ⟨h1, h2, h3⟩ := h.ptrs q hq
    refine ⟨h1, ?_, ?_⟩
    · show ((vm.set vm.loc f').fiber q.1).alive = true
      rw [set_fiber]; split
      · exact ha
      · exact h2
    · rw [upd]; split
      · rename_i e; exact ho q hq e
      · exact h3
  · intro k hk hka a ha'
    change ((vm.set vm.loc f').fiber k).alive = true at hka
    show (_ → ((vm.set vm.loc f').fiber k).parent = none) ∧ (_ → ((vm.set vm.loc f').fiber k).parent ≠ none)
    rw [set_fiber] at *
    by_cases e : k = vm.loc
    · rw [if_pos e, hp]
      rw [upd, if_pos e] at ha'
      have hal : (vm.fiber vm.loc).alive = true := by rw [hl]; exact h.alive
      rcases hou a ha' with ⟨b, hb, hbr⟩ | ⟨h1, h2⟩
      · rw [← hbr]; exact h.outer _ (e ▸ hk) hal b hb
      · exact ⟨fun e => absurd e h1, fun e => absurd e h2⟩
    · rw [if_neg e] at *
      rw [upd, if_neg e] at ha'
      exact h.outer k hk hka a ha'

theorem Inv.update {c : Compiled p} {g : Nat → Calls} {vm : VM} {P : List Ptr} (h : Inv c g vm P) {f' : Fiber}
    {gl : Calls} (ha : f'.alive = true) (hp : f'.parent = (vm.fiber vm.loc).parent)
    (hf : Fib c P vm.loc f' gl) (hc : callbacks gl.acts = vm.loops.map (·.2))
    (ho : ∀ q ∈ P, q.1 = vm.loc → Owned gl q.2)
    (hou : ∀ a ∈ gl.acts, (∃ b ∈ (g vm.loc).acts, b.ret = a.ret) ∨ (a.ret ≠ .host ∧ a.ret ≠ .fiber)) :
    Inv c (upd g vm.loc gl) (vm.set vm.loc f') P := h.update' ha hp hf hc h.loops ho hou

theorem evolve_other {vm : VM} {g : Nat → Calls} {k : Nat} {f' : Fiber} {gl : Calls} (e : k ≠ vm.loc)
    (ha : (vm.fiber k).alive = true) (h0 : event p k vm = 0) :
    Evolve p vm (vm.set vm.loc f') g (upd g vm.loc gl) k := by
  refine ⟨by rw [set_fiber, if_neg e], fun _ => ⟨by rw [upd, if_neg e], by rw [set_fiber, if_neg e]; exact ha⟩, ?_, ?_⟩
  · rw [h0]; intro h; cases h
  · rw [h0]; intro h; cases h

theorem writeAll_inv {c : Compiled p} {g : Nat → Calls} {P : List Ptr} : ∀ {ws : List (Ptr × Int)} {vm vm' : VM},
    Inv c g vm P → (∀ w ∈ ws, w.1.1 < vm.num ∧ (vm.fiber w.1.1).alive = true ∧ Owned (g w.1.1) w.1.2) →
    writeAll vm ws = .ok vm' → Inv c g vm' P ∧ vm'.num = vm.num ∧ vm'.cur = vm.cur ∧ vm'.loops = vm.loops ∧
      ∀ k, (vm'.fiber k).alive = (vm.fiber k).alive ∧ (vm'.fiber k).size = (vm.fiber k).size ∧
        (vm'.fiber k).ip = (vm.fiber k).ip ∧ (vm'.fiber k).top = (vm.fiber k).top ∧
        (vm'.fiber k).base = (vm.fiber k).base ∧ (vm'.fiber k).parent = (vm.fiber k).parent
  | [], vm, vm', hI, _, h => by cases h; exact ⟨hI, rfl, rfl, rfl, fun k => ⟨rfl, rfl, rfl, rfl, rfl, rfl⟩⟩
  | ((k, i), v) :: ws, vm, vm', hI, hw, h => by
    simp only [writeAll] at h
    split at h
    · cases h
    · obtain ⟨hk, hka, ho⟩ := hw ((k, i), v) (by simp)
      have same : ∀ j, ((vm.set k { vm.fiber k with stack := setSlot (vm.fiber k).stack i v }).fiber j).alive = (vm.fiber j).alive ∧
          ((vm.set k { vm.fiber k with stack := setSlot (vm.fiber k).stack i v }).fiber j).size = (vm.fiber j).size ∧
          ((vm.set k { vm.fiber k with stack := setSlot (vm.fiber k).stack i v }).fiber j).ip = (vm.fiber j).ip ∧
          ((vm.set k { vm.fiber k with stack := setSlot (vm.fiber k).stack i v }).fiber j).top = (vm.fiber j).top ∧
          ((vm.set k { vm.fiber k with stack := setSlot (vm.fiber k).stack i v }).fiber j).base = (vm.fiber j).base ∧
          ((vm.set k { vm.fiber k with stack := setSlot (vm.fiber k).stack i v }).fiber j).parent = (vm.fiber j).parent := by
        intro j; rw [set_fiber]; split
        · rename_i e; subst e; simp
        · simp
      have hI' : Inv c g (vm.set k { vm.fiber k with stack := setSlot (vm.fiber k).stack i v }) P := by
        refine ⟨hI.loc, hI.cur, ?_, ?_, ?_, ?_, ?_, hI.loops, ?_, ?_⟩
        · exact (same vm.cur).1.trans hI.alive
        · intro j hj hja
          rw [(same j).1] at hja
          rw [set_fiber]; split
          · rename_i e; subst e; exact (hI.fib j hj hja).write ho v
          · exact hI.fib j hj hja
        · intro j hj x hx; rw [(same j).2.2.2.2.2] at hx; exact hI.parent j hj x hx
        · intro j hj hjc hja; rw [(same j).1] at hja; rw [(same j).2.2.1]; exact hI.ip j hj hjc hja
        · intro j hj hja; rw [(same j).1] at hja; exact hI.calls j hj hja
        · intro q hq; rw [(same q.1).1]; exact hI.ptrs q hq
        · intro j hj hja; rw [(same j).1] at hja; rw [(same j).2.2.2.2.2]; exact hI.outer j hj hja
      obtain ⟨h1, h2, h3, h4, h5⟩ := writeAll_inv hI' (fun w hw' => by
        rw [(same w.1.1).1]; exact hw w (by simp [hw'])) h
      refine ⟨h1, h2, h3, h4, fun j => ?_⟩
      obtain ⟨a1, a2, a3, a4, a5, a6⟩ := h5 j
      obtain ⟨b1, b2, b3, b4, b5, b6⟩ := same j
      exact ⟨a1.trans b1, a2.trans b2, a3.trans b3, a4.trans b4, a5.trans b5, a6.trans b6⟩

/-- Pushing slots in the body of a function. -/
theorem Fib.pushes {c : Compiled p} {P : List Ptr} {k : Nat} {f f' : Fiber} {g : Calls} (h : Fib c P k f g)
    (hr : g.pend = false) {pop : Nat} {vals : List Int} {ip : Int} (hpop : f.top + pop ≤ lowOf f.size g.entered)
    (hp : pushAll { f with top := f.top + pop, ip := ip } vals = .ok f') (hip : ∀ a as, g.acts = a :: as → c.body ip a.params) :
    Fib c P k f' g := by
  obtain ⟨h1, h2, h3, h4, h5, h6, h7⟩ := pushAll_ok hp
  have h1 : f'.top = f.top + pop - vals.length := h1
  have h2 : f'.size = f.size := h2
  have h3 : f'.base = f.base := h3
  have h7 : ∀ i, f.top + pop ≤ i → f'.stack i = f.stack i := h7
  refine ⟨?_, ?_, h.ne, ?_, ?_, ?_⟩
  · rw [h2, h3]
    exact h.frames.below fun i hi => h7 i (by omega)
  · rw [h1, h2]; omega
  · intro _ a as ha; rw [h4]; exact hip a as ha
  · intro hp; rw [hr] at hp; cases hp
  · intro a ha
    have := h.frames.low_le a ha
    have := a.low_le
    rw [h7 _ (by omega)]
    exact h.rc a ha

theorem low_eq {c : Compiled p} {P : List Ptr} {k : Nat} {f : Fiber} {g : Calls} (h : Fib c P k f g)
    (hr : g.pend = false) : low p f = lowOf f.size g.entered := by
  have hf := h.frames
  have hn := h.ne
  have he := entered_run hr
  rw [he] at hf ⊢
  cases ha : g.acts with
  | nil => exact absurd ha hn
  | cons a as =>
    rw [ha] at hf
    obtain ⟨h1, -, h3, -⟩ := hf
    simp only [low, h3, lowOf, Act.low]; rw [h1]

end Umka.Frame
