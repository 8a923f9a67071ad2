import Verif.Frame.Spec

/-!
# Stack frames and fibers: the representation of calls on the stack
-/

namespace Umka.Frame

/-- `Valid`, instruction by instruction. -/
def Valid' (p : Program) (vm : VM) (P : List Ptr) : Prop :=
  let f := vm.fiber vm.loc
  match p.code f.ip with
  | .data pop vals writes =>
    f.top + pop ≤ low p f ∧ (vals vm).length ≤ pop + 1 ∧ ∀ w ∈ writes vm, IsVar p vm w.1
  | .block pop _ => f.top + pop ≤ low p f
  | .call e => ∀ n, Entry p e n → f.top + n ≤ low p f
  | .callIndirect n => f.top + n < low p f ∧ (f.stack (f.top + n) = 0 ∨ Entry p (f.stack (f.top + n)) n)
  | .ref ptr delta =>
    ∀ q, ptr vm = some q → Ancestor vm vm.cur q.1 ∧ (delta = 1 ∧ IsVar p vm q ∨ delta = -1 ∧ q ∈ P)
  | .spawn pop entry _ => f.top + pop ≤ low p f ∧ Entry p (entry vm) 2
  | .resume who =>
    f.top + 1 ≤ low p f ∧ vm.loops = [] ∧
    match who vm with
    | some k => k < vm.num
    | none => ∀ j, f.parent = some j → (vm.fiber j).alive = true
  | .ext _ next => ∀ e ps, next vm = some (e, ps) → Entry p e ps.length
  | .jump _ | .enter _ | .leave | .ret _ | .halt => True

theorem Valid.old {p : Program} {vm : VM} {P : List Ptr} (h : Valid p vm P) : Valid' p vm P := by
  obtain ⟨h1, h2⟩ := h
  simp only [Sound, Tame, Valid'] at *
  cases hi : p.code (vm.fiber vm.loc).ip with
  | data => simp only [hi] at *; exact h1
  | block => simp only [hi] at *; exact h1
  | jump => trivial
  | call => simp only [hi] at *; exact h1
  | callIndirect => simp only [hi] at *; exact h1
  | enter => trivial
  | leave => trivial
  | ret => trivial
  | ref => simp only [hi] at *; exact fun q hq => ⟨h2 q hq, h1 q hq⟩
  | spawn => simp only [hi] at *; exact h1
  | resume who =>
    simp only [hi] at *
    refine ⟨h1.1, h2.1, ?_⟩
    cases hw : who vm with
    | some k => exact h1.2 k hw
    | none => exact h2.2 hw
  | ext => simp only [hi] at *; exact h1
  | halt => trivial

theorem Entry.unique {p : Program} {e : Int} {n m : Nat} (h : Entry p e n) (h' : Entry p e m) : n = m := by
  induction h generalizing m with
  | enter h1 =>
    cases h' with
    | enter h2 => rw [h1] at h2; cases h2; rfl
    | proto h2 => rw [h1] at h2; cases h2
  | proto h1 ht _ ih =>
    cases h' with
    | enter h2 => rw [h1] at h2; cases h2
    | proto h2 ht' h3 =>
      rw [h1] at h2; cases h2
      exact ih (by rw [← ht ⟨fun _ => ⟨0, fun _ => 0, 0, 0, 0, true, none⟩, 0, 0, 0, []⟩, ht']; exact h3)

/-- Where a call returns to. -/
inductive Ret
  | host | fiber
  | callback (ip : Int) (temp : Nat)
  | code (ip : Int)

def Ret.val : Ret → Int
  | .host => retVM
  | .fiber => retFiber
  | .callback _ _ => retVM
  | .code ip => ip

def Ret.temp : Ret → Nat
  | .callback _ t => t
  | _ => 0

/-- A call in progress.  `ctop`: the end of its parameters. -/
structure Act where
  ctop : Int
  params : Nat
  locals : Nat
  ret : Ret

def Act.base (a : Act) : Int := a.ctop - a.params - 2
def Act.low (a : Act) : Int := a.base - 2 - a.locals
def Act.inVars (a : Act) (i : Int) : Prop := a.low ≤ i ∧ i < a.base - 2 ∨ a.base + 2 ≤ i ∧ i < a.ctop

instance (a : Act) (i : Int) : Decidable (a.inVars i) := by unfold Act.inVars; infer_instance

def lowOf (size : Int) : List Act → Int
  | [] => size - 1
  | a :: _ => a.low

def baseOf (size : Int) : List Act → Int
  | [] => size - 1
  | a :: _ => a.base

variable {p : Program}

def RetOk (c : Compiled p) (r : Ret) (as : List Act) (outer : Prop) : Prop :=
  match r with
  | .host | .fiber => as = [] ∧ outer
  | .callback ip t => ∃ a rest next, as = a :: rest ∧ c.body ip a.params ∧ p.code ip = .ext t next
  | .code ip => ∃ a rest, as = a :: rest ∧ c.body ip a.params

/-- The frames of calls, innermost first. -/
def Frames (c : Compiled p) (s : Int → Int) (size : Int) : Int → List Act → Prop
  | b, [] => b = size - 1
  | b, a :: as =>
    b = a.base ∧ s (b + 1) = a.ret.val ∧ p.layout (s (b - 2)) = ⟨a.params, a.locals⟩ ∧
      a.ctop + a.ret.temp ≤ lowOf size as ∧ RetOk c a.ret as (a.ctop = size - 1) ∧ Frames c s size (s b) as

theorem Frames.base_eq {c : Compiled p} {s : Int → Int} {size b : Int} {as : List Act} (h : Frames c s size b as) :
    b = baseOf size as := by
  cases as with
  | nil => exact h
  | cons a as => exact h.1

theorem Act.low_le (a : Act) : a.low + 2 ≤ a.base ∧ a.base + 2 ≤ a.ctop := by
  simp only [Act.low, Act.base]; omega

theorem Act.vars_range {a : Act} {i : Int} (h : a.inVars i) : a.low ≤ i ∧ i < a.ctop := by
  have := a.low_le
  rcases h with h | h <;> omega

theorem Frames.low_le {c : Compiled p} {s : Int → Int} {size : Int} : ∀ {b : Int} {as : List Act},
    Frames c s size b as → ∀ a ∈ as, lowOf size as ≤ a.low ∧ a.ctop ≤ size - 1
  | _, [], _, a, ha => by cases ha
  | _, a :: as, h, x, hx => by
    have h4 := h.2.2.2.1
    have ih := Frames.low_le h.2.2.2.2.2
    have hl := a.low_le
    cases hx with
    | head =>
      refine ⟨Int.le_refl _, ?_⟩
      cases as with
      | nil => simp only [lowOf] at h4; omega
      | cons y ys =>
        have := ih y (by simp); have := y.low_le
        simp only [lowOf] at h4; omega
    | tail _ hx => obtain ⟨h1, h2⟩ := ih x hx; simp only [lowOf] at *; exact ⟨by omega, h2⟩

theorem Frames.congr {c : Compiled p} {s s' : Int → Int} {size : Int} : ∀ {b : Int} {as : List Act},
    Frames c s size b as →
    (∀ a ∈ as, s' (a.base + 1) = s (a.base + 1) ∧ s' a.base = s a.base ∧ s' (a.base - 2) = s (a.base - 2)) →
    Frames c s' size b as
  | _, [], h, _ => h
  | b, a :: as, h, hs => by
    obtain ⟨h1, h2, h3, h4, h5, h6⟩ := h
    subst h1
    obtain ⟨e1, e2, e3⟩ := hs a (by simp)
    refine ⟨rfl, by rw [e1]; exact h2, by rw [e3]; exact h3, h4, h5, ?_⟩
    rw [e2]
    exact h6.congr fun x hx => hs x (by simp [hx])

/-- Two calls have separate frames. -/
theorem Frames.sep {c : Compiled p} {s : Int → Int} {size : Int} : ∀ {b : Int} {as : List Act},
    Frames c s size b as → ∀ a ∈ as, ∀ a' ∈ as, a = a' ∨ a.ctop ≤ a'.low ∨ a'.ctop ≤ a.low
  | _, [], _, a, ha, _, _ => by cases ha
  | _, y :: as, h, a, ha, a', ha' => by
    have ih := Frames.sep h.2.2.2.2.2
    have hl := Frames.low_le h.2.2.2.2.2
    have h4 := h.2.2.2.1
    cases ha with
    | head =>
      cases ha' with
      | head => exact .inl rfl
      | tail _ ha' => have := hl a' ha'; exact .inr (.inl (by omega))
    | tail _ ha =>
      cases ha' with
      | head => have := hl a ha; exact .inr (.inr (by omega))
      | tail _ ha' => exact ih a ha a' ha'

/-- Writing a variable, or a reference count, does not change the frames. -/
theorem Frames.write {c : Compiled p} {s : Int → Int} {size b : Int} {as : List Act} (h : Frames c s size b as)
    {a : Act} (ha : a ∈ as) {i : Int} (hi : a.inVars i ∨ i = a.base - 1) (v : Int) :
    Frames c (setSlot s i v) size b as := by
  refine h.congr fun x hx => ?_
  have hl := a.low_le
  have hl' := x.low_le
  have hr : i ≠ x.base + 1 ∧ i ≠ x.base ∧ i ≠ x.base - 2 := by
    rcases h.sep a ha x hx with rfl | hs | hs
    · simp only [Act.inVars] at hi; omega
    · rcases hi with hi | hi
      · have := Act.vars_range hi; omega
      · omega
    · rcases hi with hi | hi
      · have := Act.vars_range hi; omega
      · omega
  simp only [setSlot]
  refine ⟨if_neg (Ne.symm hr.1), if_neg (Ne.symm hr.2.1), if_neg (Ne.symm hr.2.2)⟩

/-- Writing below the frames does not change them. -/
theorem Frames.below {c : Compiled p} {s s' : Int → Int} {size b : Int} {as : List Act} (h : Frames c s size b as)
    (hs : ∀ i, lowOf size as ≤ i → s' i = s i) : Frames c s' size b as := by
  refine h.congr fun x hx => ?_
  have := (h.low_le x hx).1
  have := x.low_le
  exact ⟨hs _ (by omega), hs _ (by omega), hs _ (by omega)⟩

theorem Frames.active {c : Compiled p} {s : Int → Int} {size : Int} : ∀ {b : Int} {as : List Act},
    Frames c s size b as → ∀ {f : Fiber}, f.stack = s → f.size = size → (b = size - 1 ∨ Active f b) → 
    (∀ a ∈ as, Active f a.base)
  | _, [], _, _, _, _, _ => by simp
  | b, a :: as, h, f, hs, hz, hb => by
    have hl := h.low_le a (by simp)
    have hl' := a.low_le
    obtain ⟨h1, h2, h3, h4, h5, h6⟩ := h
    have hact : Active f b := by
      rcases hb with hb | hb
      · omega
      · exact hb
    intro x hx
    cases hx with
    | head => rw [← h1]; exact hact
    | tail _ hx =>
      refine h6.active hs hz ?_ x hx
      by_cases hn : s b = size - 1
      · exact .inl hn
      · right
        have := Active.up hact (by rw [hs, hz]; exact hn)
        rw [hs] at this; exact this

theorem active_mem {c : Compiled p} {f : Fiber} {as : List Act} (h : Frames c f.stack f.size f.base as) {b : Int}
    (hb : Active f b) : ∃ a pre post, as = pre ++ a :: post ∧ a.base = b ∧ Frames c f.stack f.size b (a :: post) := by
  induction hb with
  | cur hn =>
    cases as with
    | nil => exact absurd h hn
    | cons a as => exact ⟨a, [], as, rfl, h.1.symm, h⟩
  | up _ hn ih =>
    obtain ⟨a, pre, post, he, hab, hf⟩ := ih
    have h6 := hf.2.2.2.2.2
    cases post with
    | nil => exact absurd h6 hn
    | cons y ys => exact ⟨y, pre ++ [a], ys, by simp [he], h6.1.symm, h6⟩

/-- The variables of frames, in terms of calls. -/
theorem inFrame_iff {c : Compiled p} {f : Fiber} {b : Int} {a : Act} {as : List Act}
    (h : Frames c f.stack f.size b (a :: as)) {i : Int} : InFrame p f b i ↔ a.inVars i := by
  obtain ⟨h1, h2, h3, -⟩ := h
  have e : a.base + 2 + (a.params : Int) = a.ctop := by simp only [Act.base]; omega
  subst h1
  simp only [InFrame, h3, Act.inVars, Act.low, e]

/-! ## Fibers -/

/-- The calls of a fiber; when `pend`, the innermost one has no frame yet, or no longer. -/
structure Calls where
  pend : Bool
  acts : List Act

def Calls.entered (g : Calls) : List Act := if g.pend then g.acts.tail else g.acts

/-- Counted pointers to variables of a call. -/
def count (P : List Ptr) (k : Nat) (a : Act) : Nat := P.countP fun q => decide (q.1 = k ∧ a.inVars q.2)

/-- The stack of a fiber that is alive. -/
structure Fib (c : Compiled p) (P : List Ptr) (k : Nat) (f : Fiber) (g : Calls) : Prop where
  frames : Frames c f.stack f.size f.base g.entered
  room : f.top ≤ lowOf f.size g.entered
  ne : g.acts ≠ []
  run : g.pend = false → ∀ a as, g.acts = a :: as → c.body f.ip a.params
  pend : g.pend = true → ∀ a as, g.acts = a :: as →
    (Entry p f.ip a.params ∨ p.code f.ip = .ret a.params) ∧ f.stack f.top = a.ret.val ∧
    f.top = a.ctop - a.params - 1 ∧ a.ctop + a.ret.temp ≤ lowOf f.size as ∧ RetOk c a.ret as (a.ctop = f.size - 1)
  rc : ∀ a ∈ g.entered, f.stack (a.base - 1) = count P k a

/-- A pointer to a variable of a call. -/
def Owned (g : Calls) (i : Int) : Prop := ∃ a ∈ g.entered, a.inVars i

theorem Fib.low_le {c : Compiled p} {P : List Ptr} {k : Nat} {f : Fiber} {g : Calls} (h : Fib c P k f g) {a : Act}
    (ha : a ∈ g.entered) : f.top ≤ a.low ∧ a.ctop ≤ f.size - 1 := by
  have := h.frames.low_le a ha
  have := h.room
  omega

theorem Fib.owned_ge {c : Compiled p} {P : List Ptr} {k : Nat} {f : Fiber} {g : Calls} (h : Fib c P k f g) {i : Int}
    (ho : Owned g i) : lowOf f.size g.entered ≤ i ∧ i < f.size := by
  obtain ⟨a, ha, hi⟩ := ho
  have := h.frames.low_le a ha
  have := Act.vars_range hi
  omega

theorem entered_run {g : Calls} (hp : g.pend = false) : g.entered = g.acts := by simp [Calls.entered, hp]

/-- Storing to a variable. -/
theorem Fib.write {c : Compiled p} {P : List Ptr} {k : Nat} {f : Fiber} {g : Calls} (h : Fib c P k f g) {i : Int}
    (ho : Owned g i) (v : Int) : Fib c P k { f with stack := setSlot f.stack i v } g := by
  have hge := h.owned_ge ho
  obtain ⟨a, ha, hi⟩ := ho
  refine ⟨h.frames.write ha (.inl hi) v, h.room, h.ne, h.run, ?_, ?_⟩
  · intro hp x as hx
    obtain ⟨h1, h2, h3, h4, h5⟩ := h.pend hp x as hx
    refine ⟨h1, ?_, h3, h4, h5⟩
    have : g.entered = as := by simp [Calls.entered, hp, hx]
    rw [this] at hge
    have : f.top ≠ i := by omega
    simp only [setSlot, if_neg this]; exact h2
  · intro x hx
    have hr : x.base - 1 ≠ i := by
      have := x.low_le
      have := a.low_le
      rcases h.frames.sep a ha x hx with rfl | hs | hs
      · simp only [Act.inVars] at hi; omega
      · have := Act.vars_range hi; omega
      · have := Act.vars_range hi; omega
    simp only [setSlot, if_neg hr]; exact h.rc x hx

theorem isVar_owned {c : Compiled p} {P : List Ptr} {vm : VM} {q : Ptr} {g : Calls}
    (h : Fib c P q.1 (vm.fiber q.1) g) (hv : IsVar p vm q) : Owned g q.2 := by
  obtain ⟨-, -, b, hb, hi⟩ := hv
  obtain ⟨a, pre, post, he, hab, hf⟩ := active_mem h.frames hb
  exact ⟨a, by simp [he], (inFrame_iff hf).mp hi⟩

theorem push_ok {f f' : Fiber} {v : Int} (h : push f v = .ok f') :
    f' = { f with top := f.top - 1, stack := setSlot f.stack (f.top - 1) v } ∧ 0 < f.top := by
  simp only [push] at h
  split at h
  · cases h
  · cases h; exact ⟨rfl, by omega⟩

theorem pushAll_ok : ∀ {vs : List Int} {f f' : Fiber}, pushAll f vs = .ok f' →
    f'.top = f.top - vs.length ∧ f'.size = f.size ∧ f'.base = f.base ∧ f'.ip = f.ip ∧ f'.alive = f.alive ∧
    f'.parent = f.parent ∧ ∀ i, f.top ≤ i → f'.stack i = f.stack i
  | [], f, f', h => by cases h; simp
  | v :: vs, f, f', h => by
    simp only [pushAll, bind, Except.bind] at h
    split at h
    · cases h
    · rename_i f1 hf1
      obtain ⟨rfl, -⟩ := push_ok hf1
      obtain ⟨h1, h2, h3, h4, h5, h6, h7⟩ := pushAll_ok h
      refine ⟨by simp only [h1, List.length_cons]; omega, h2, h3, h4, h5, h6, fun i hi => ?_⟩
      have hi' : f.top ≤ i := hi
      rw [h7 i (by show f.top - 1 ≤ i; omega)]
      simp only [setSlot, if_neg (show i ≠ f.top - 1 by omega)]

theorem pushAll_snoc : ∀ {vs : List Int} {v : Int} {f f' : Fiber}, pushAll f (vs ++ [v]) = .ok f' → f'.stack f'.top = v
  | [], v, f, f', h => by
    simp only [List.nil_append, pushAll, bind, Except.bind] at h
    split at h
    · cases h
    · rename_i f1 hf1
      obtain ⟨rfl, -⟩ := push_ok hf1
      cases h; simp [setSlot]
  | w :: vs, v, f, f', h => by
    simp only [List.cons_append, pushAll, bind, Except.bind] at h
    split at h
    · cases h
    · exact pushAll_snoc h

theorem pushAll_fault : ∀ {vs : List Int} {f : Fiber}, (vs.length : Int) ≤ f.top → ∃ f', pushAll f vs = .ok f'
  | [], f, _ => ⟨f, rfl⟩
  | v :: vs, f, h => by
    simp only [List.length_cons] at h
    simp only [pushAll, push, if_neg (show ¬ f.top ≤ 0 by omega), bind, Except.bind]
    exact pushAll_fault (by show (vs.length : Int) ≤ f.top - 1; omega)

end Umka.Frame
