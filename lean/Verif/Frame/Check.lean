import Verif.Frame.Spec

/-!
# Stack frames and fibers: running concrete programs

Executable sufficient conditions for the specification, for the examples.
-/

namespace Umka.Frame

theorem lookup_mem {α : Type} {i : Int} {x : α} : ∀ {T : List (Int × α)}, T.lookup i = some x → (i, x) ∈ T
  | [], h => by cases h
  | (j, y) :: T, h => by
    simp only [List.lookup] at h
    split at h
    · rename_i e; cases h; simp at e; simp [e]
    · exact List.mem_cons_of_mem _ (lookup_mem h)

/-- A program given by a table. -/
def mk (T : List (Int × Instr)) (layouts : List Layout) : Program :=
  { code := fun ip => (T.lookup ip).getD .halt, layout := fun l => (layouts[l.toNat]?).getD ⟨0, 0⟩ }

/-- Entry points, with the number of parameter slots. -/
def sig (T : List (Int × Instr)) (layouts : List Layout) (ip : Int) : Option Nat :=
  match (mk T layouts).code ip with
  | .enter l => some ((mk T layouts).layout l).params
  | _ => none

theorem sig_entry {T : List (Int × Instr)} {layouts : List Layout} {ip : Int} {n : Nat} (h : sig T layouts ip = some n) :
    Entry (mk T layouts) ip n := by
  simp only [sig] at h
  split at h
  · rename_i l hl; cases h; exact .enter hl
  · cases h

/-- `L`: the bodies of the functions. -/
def compiledB (T : List (Int × Instr)) (layouts : List Layout) (L : List (Int × Nat)) : Bool :=
  (T.all fun x => match x.2 with
    | .enter l => decide ((x.1 + 1, ((mk T layouts).layout l).params) ∈ L)
    | _ => true) &&
  (L.all fun x => decide (0 ≤ x.1) && match (mk T layouts).code x.1 with
    | .data .. | .block .. | .callIndirect _ | .ref .. | .spawn .. | .resume _ | .ext .. => decide ((x.1 + 1, x.2) ∈ L)
    | .call e => (sig T layouts e).isSome && decide ((x.1 + 1, x.2) ∈ L)
    | .leave => match (mk T layouts).code (x.1 + 1) with | .ret n => n == x.2 | _ => false
    | .enter _ | .ret _ | .halt | .jump _ => false)

def compiled (T : List (Int × Instr)) (layouts : List Layout) (L : List (Int × Nat)) (h : compiledB T layouts L = true) :
    Compiled (mk T layouts) where
  body ip n := (ip, n) ∈ L
  enter := by
    intro ip l hc
    simp only [compiledB, Bool.and_eq_true, List.all_eq_true] at h
    have hm : (ip, Instr.enter l) ∈ T := by
      simp only [mk] at hc
      cases hl : T.lookup ip with
      | none => rw [hl] at hc; cases hc
      | some x => rw [hl] at hc; simp at hc; rw [hc] at hl; exact lookup_mem hl
    have := h.1 _ hm
    simpa using this
  nonneg := by
    intro ip n hc
    simp only [compiledB, Bool.and_eq_true, List.all_eq_true] at h
    have := (h.2 _ hc).1
    simpa using this
  next := by
    intro ip n hc
    simp only [compiledB, Bool.and_eq_true, List.all_eq_true] at h
    have := (h.2 _ hc).2
    simp only at this
    cases hi : (mk T layouts).code ip with
    | data | block | callIndirect | ref | spawn | resume | ext => rw [hi] at this; simpa using this
    | call e =>
      rw [hi] at this
      simp only [Bool.and_eq_true, decide_eq_true_eq, Option.isSome_iff_exists] at this
      obtain ⟨⟨m, hm⟩, h2⟩ := this
      exact ⟨⟨m, sig_entry hm⟩, h2⟩
    | leave =>
      rw [hi] at this
      simp only at this
      split at this
      · rename_i n' hn; simp at this; subst this; exact hn
      · cases this
    | enter | ret | halt | jump => rw [hi] at this; cases this

/-! ## Executions -/

instance (p : Program) (f : Fiber) (b i : Int) : Decidable (InFrame p f b i) := by
  unfold InFrame; infer_instance

def basesFrom (f : Fiber) : Nat → Int → List Int
  | 0, _ => []
  | n + 1, b => if b = f.size - 1 then [] else b :: basesFrom f n (f.stack b)

theorem basesFrom_active {f : Fiber} : ∀ {n : Nat} {b : Int}, (b ≠ f.size - 1 → Active f b) → ∀ x ∈ basesFrom f n b, Active f x
  | 0, _, _, x, hx => by cases hx
  | n + 1, b, h, x, hx => by
    simp only [basesFrom] at hx
    split at hx
    · cases hx
    · rename_i hb
      cases hx with
      | head => exact h hb
      | tail _ hx => exact basesFrom_active (fun hn => .up (h hb) hn) x hx

def isVarB (p : Program) (vm : VM) (q : Ptr) : Bool :=
  decide (q.1 < vm.num) && (vm.fiber q.1).alive &&
    (basesFrom (vm.fiber q.1) 20 (vm.fiber q.1).base).any fun b => decide (InFrame p (vm.fiber q.1) b q.2)

theorem isVarB_ok {p : Program} {vm : VM} {q : Ptr} (h : isVarB p vm q = true) : IsVar p vm q := by
  simp only [isVarB, Bool.and_eq_true, decide_eq_true_eq, List.any_eq_true] at h
  obtain ⟨⟨h1, h2⟩, b, hb, hi⟩ := h
  exact ⟨h1, h2, b, basesFrom_active (fun hn => .cur hn) b hb, hi⟩

def ancB (vm : VM) : Nat → Nat → Nat → Bool
  | 0, _, _ => false
  | n + 1, k, i => k == i || match (vm.fiber k).parent with | some j => ancB vm n j i | none => false

theorem ancB_ok {vm : VM} : ∀ {n k i : Nat}, ancB vm n k i = true → Ancestor vm k i
  | 0, _, _, h => by cases h
  | n + 1, k, i, h => by
    simp only [ancB, Bool.or_eq_true, beq_iff_eq] at h
    rcases h with rfl | h
    · exact .refl
    · split at h
      · rename_i j hj; exact .parent hj (ancB_ok h)
      · cases h

def soundB (T : List (Int × Instr)) (layouts : List Layout) (vm : VM) (P : List Ptr) : Bool :=
  let p := mk T layouts
  let f := vm.fiber vm.loc
  match p.code f.ip with
  | .data pop vals writes =>
    decide (f.top + pop ≤ low p f) && decide ((vals vm).length ≤ pop + 1) && (writes vm).all fun w => isVarB p vm w.1
  | .block pop _ => decide (f.top + pop ≤ low p f)
  | .call e => match sig T layouts e with | some n => decide (f.top + n ≤ low p f) | none => false
  | .callIndirect n =>
    decide (f.top + n < low p f) && (decide (f.stack (f.top + n) = 0) || decide (sig T layouts (f.stack (f.top + n)) = some n))
  | .ref ptr delta =>
    match ptr vm with
    | none => true
    | some q => decide (delta = 1) && isVarB p vm q || decide (delta = -1) && decide (q ∈ P)
  | .spawn pop entry _ => decide (f.top + pop ≤ low p f) && decide (sig T layouts (entry vm) = some 2)
  | .resume who => decide (f.top + 1 ≤ low p f) && match who vm with | some k => decide (k < vm.num) | none => true
  | .ext _ next => match next vm with | some (e, ps) => decide (sig T layouts e = some ps.length) | none => true
  | .jump _ | .enter _ | .leave | .ret _ | .halt => true

theorem unique {p : Program} {e : Int} {n m : Nat} {l : Int} (h1 : p.code e = .enter l) (hn : n = (p.layout l).params)
    (h' : Entry p e m) : m = n := by
  cases h' with
  | enter h2 => rw [h1] at h2; cases h2; exact hn.symm
  | proto h2 => rw [h1] at h2; cases h2

theorem soundB_ok {T : List (Int × Instr)} {layouts : List Layout} {vm : VM} {P : List Ptr} (h : soundB T layouts vm P = true) :
    Sound (mk T layouts) vm P := by
  simp only [soundB] at h
  simp only [Sound]
  cases hi : (mk T layouts).code (vm.fiber vm.loc).ip with
  | data pop vals writes =>
    simp only [hi, Bool.and_eq_true, decide_eq_true_eq, List.all_eq_true] at h
    exact ⟨h.1.1, h.1.2, fun w hw => isVarB_ok (h.2 w hw)⟩
  | block => simp only [hi, decide_eq_true_eq] at h; exact h
  | call e =>
    simp only [hi] at h
    intro n hn
    cases hs : sig T layouts e with
    | none => rw [hs] at h; cases h
    | some m =>
      rw [hs] at h
      simp only [sig] at hs
      split at hs
      · rename_i l hl
        cases hs
        have := unique hl rfl hn
        subst this
        simpa using h
      · cases hs
  | callIndirect n =>
    simp only [hi, Bool.and_eq_true, Bool.or_eq_true, decide_eq_true_eq] at h
    exact ⟨h.1, h.2.imp id sig_entry⟩
  | ref ptr delta =>
    simp only [hi] at h
    intro q hq
    simp only [hq, Bool.or_eq_true, Bool.and_eq_true, decide_eq_true_eq] at h
    exact h.imp (fun x => ⟨x.1, isVarB_ok x.2⟩) id
  | spawn =>
    simp only [hi, Bool.and_eq_true, decide_eq_true_eq] at h
    exact ⟨h.1, sig_entry h.2⟩
  | resume who =>
    simp only [hi, Bool.and_eq_true, decide_eq_true_eq] at h
    refine ⟨h.1, fun k hk => ?_⟩
    have := h.2
    rw [hk] at this; simpa using this
  | ext temp next =>
    simp only [hi] at h
    intro e ps hn
    rw [hn] at h
    simp only [decide_eq_true_eq] at h
    exact sig_entry h
  | jump | enter | leave | ret | halt => trivial

def tameB (p : Program) (vm : VM) : Bool :=
  let f := vm.fiber vm.loc
  match p.code f.ip with
  | .ref ptr _ => match ptr vm with | none => true | some q => ancB vm 20 vm.cur q.1
  | .resume who => vm.loops.isEmpty && (match who vm with
      | none => match f.parent with | some j => (vm.fiber j).alive | none => true
      | some _ => true)
  | _ => true

theorem tameB_ok {p : Program} {vm : VM} (h : tameB p vm = true) : Tame p vm := by
  simp only [tameB] at h
  simp only [Tame]
  cases hi : p.code (vm.fiber vm.loc).ip with
  | ref ptr delta =>
    simp only [hi] at h
    intro q hq
    rw [hq] at h
    exact ancB_ok h
  | resume who =>
    simp only [hi, Bool.and_eq_true, List.isEmpty_iff] at h
    refine ⟨h.1, fun hw j hj => ?_⟩
    have := h.2
    rw [hw, hj] at this; exact this
  | data | block | jump | call | callIndirect | enter | leave | ret | spawn | ext | halt => trivial

def runB (p : Program) (V : VM → List Ptr → Bool) : Nat → VM × List Ptr → Option (VM × List Ptr)
  | 0, s => some s
  | n + 1, s =>
    match runB p V n s with
    | some (vm, P) => if V vm P then match step p vm with | .ok vm' => some (vm', pointers p vm P) | _ => none else none
    | none => none

theorem runB_ok {p : Program} {VB : VM → List Ptr → Bool} {V : VM → List Ptr → Prop}
    (hV : ∀ vm P, VB vm P = true → V vm P) {s : VM × List Ptr} : ∀ {n : Nat} {s' : VM × List Ptr},
    runB p VB n s = some s' → Run p V s s'
  | 0, s', h => by cases h; exact .nil
  | n + 1, s', h => by
    simp only [runB] at h
    split at h
    · rename_i vm P hr
      split at h
      · rename_i hv
        split at h
        · rename_i vm' hs
          cases h
          exact .cons (runB_ok hV hr) (hV _ _ hv) hs
        · cases h
      · cases h
    · cases h

/-- The state after the first `n` instructions of the function at address 1, on a stack of `size` slots. -/
def exec (T : List (Int × Instr)) (layouts : List Layout) (tame : Bool) (size : Nat) (n : Nat) : Option (VM × List Ptr) :=
  match start size 1 [] with
  | .ok vm => runB (mk T layouts) (fun vm P => soundB T layouts vm P && (!tame || tameB (mk T layouts) vm)) n (vm, [])
  | .error _ => none

theorem exec_reach {T : List (Int × Instr)} {layouts : List Layout} {size n : Nat} {vm : VM} {P : List Ptr}
    (hs : sig T layouts 1 = some 0) (h : exec T layouts true size n = some (vm, P)) : Reach (mk T layouts) vm P := by
  simp only [exec] at h
  split at h
  · rename_i vm0 h0
    refine ⟨size, 1, [], vm0, h0, sig_entry hs, runB_ok ?_ h⟩
    intro v P hv
    simp only [Bool.not_true, Bool.false_or, Bool.and_eq_true] at hv
    exact ⟨soundB_ok hv.1, tameB_ok hv.2⟩
  · cases h

theorem exec_reachAny {T : List (Int × Instr)} {layouts : List Layout} {size n : Nat} {vm : VM} {P : List Ptr}
    (hs : sig T layouts 1 = some 0) (h : exec T layouts false size n = some (vm, P)) : ReachAny (mk T layouts) vm P := by
  simp only [exec] at h
  split at h
  · rename_i vm0 h0
    refine ⟨size, 1, [], vm0, h0, sig_entry hs, runB_ok ?_ h⟩
    intro v P hv
    simp only [Bool.and_eq_true] at hv
    exact soundB_ok hv.1
  · cases h

/-- The result, if there is one. -/
def final (T : List (Int × Instr)) (layouts : List Layout) (tame : Bool) (size n : Nat) : VM × List Ptr :=
  (exec T layouts tame size n).getD (⟨fun _ => ⟨0, fun _ => 0, 0, 0, 0, false, none⟩, 0, 0, 0, []⟩, [])

theorem final_reach {T : List (Int × Instr)} {layouts : List Layout} {size n : Nat} (hs : sig T layouts 1 = some 0)
    (h : (exec T layouts true size n).isSome = true) :
    Reach (mk T layouts) (final T layouts true size n).1 (final T layouts true size n).2 := by
  obtain ⟨⟨vm, P⟩, hx⟩ := Option.isSome_iff_exists.mp h
  simp only [final, hx, Option.getD_some]
  exact exec_reach hs hx

theorem final_reachAny {T : List (Int × Instr)} {layouts : List Layout} {size n : Nat} (hs : sig T layouts 1 = some 0)
    (h : (exec T layouts false size n).isSome = true) :
    ReachAny (mk T layouts) (final T layouts false size n).1 (final T layouts false size n).2 := by
  obtain ⟨⟨vm, P⟩, hx⟩ := Option.isSome_iff_exists.mp h
  simp only [final, hx, Option.getD_some]
  exact exec_reachAny hs hx

def validB (T : List (Int × Instr)) (layouts : List Layout) (vm : VM) (P : List Ptr) : Bool :=
  soundB T layouts vm P && tameB (mk T layouts) vm

theorem validB_ok {T : List (Int × Instr)} {layouts : List Layout} {vm : VM} {P : List Ptr} (h : validB T layouts vm P = true) :
    Valid (mk T layouts) vm P := by
  simp only [validB, Bool.and_eq_true] at h
  exact ⟨soundB_ok h.1, tameB_ok h.2⟩

def errOf : Res → Option Err
  | .err e => some e
  | _ => none

theorem errOf_ok {r : Res} {e : Err} (h : errOf r = some e) : r = .err e := by
  cases r <;> simp_all [errOf]

def nextVM (p : Program) (vm : VM) : VM := match step p vm with | .ok vm' => vm' | .done vm' => vm' | .err _ => vm

def isOk : Res → Bool
  | .ok _ => true
  | _ => false

def isDone : Res → Bool
  | .done _ => true
  | _ => false

theorem isOk_ok {p : Program} {vm : VM} (h : isOk (step p vm) = true) : step p vm = .ok (nextVM p vm) := by
  simp only [nextVM]
  cases hs : step p vm <;> simp_all [isOk]

theorem isDone_ok {p : Program} {vm : VM} (h : isDone (step p vm) = true) : step p vm = .done (nextVM p vm) := by
  simp only [nextVM]
  cases hs : step p vm <;> simp_all [isDone]

/-- Runs a call in fiber `k`, up to the step that ends it. -/
def callB (T : List (Int × Instr)) (layouts : List Layout) (k : Nat) (s : VM × List Ptr) : Nat → Option (Int × VM × List Ptr)
  | 0 =>
    if validB T layouts s.1 s.2 ∧ event (mk T layouts) k s.1 = 1 ∧ isOk (step (mk T layouts) s.1) then
      some (1, nextVM (mk T layouts) s.1, pointers (mk T layouts) s.1 s.2)
    else none
  | n + 1 =>
    match callB T layouts k s n with
    | some (d, vm, P) =>
      if validB T layouts vm P ∧ 0 < d + event (mk T layouts) k vm ∧ isOk (step (mk T layouts) vm) then
        some (d + event (mk T layouts) k vm, nextVM (mk T layouts) vm, pointers (mk T layouts) vm P)
      else none
    | none => none

theorem callB_ok {T : List (Int × Instr)} {layouts : List Layout} {k : Nat} {s : VM × List Ptr} :
    ∀ {n : Nat} {d : Int} {s' : VM × List Ptr}, callB T layouts k s n = some (d, s') → InCall (mk T layouts) k s d s'
  | 0, d, s', h => by
    simp only [callB] at h
    split at h
    · rename_i hc; cases h; exact .begin (validB_ok hc.1) hc.2.1 (isOk_ok hc.2.2)
    · cases h
  | n + 1, d, s', h => by
    simp only [callB] at h
    split at h
    · rename_i d0 vm P hr
      split at h
      · rename_i hc; cases h; exact .step (callB_ok hr) (validB_ok hc.1) (isOk_ok hc.2.2) hc.2.1
      · cases h
    · cases h

/-- The state after the call. -/
def returnB (T : List (Int × Instr)) (layouts : List Layout) (k : Nat) (s : VM × List Ptr) (n : Nat) : Option VM :=
  match callB T layouts k s n with
  | some (d, vm, P) =>
    if validB T layouts vm P ∧ d + event (mk T layouts) k vm = 0 ∧ isOk (step (mk T layouts) vm) then
      some (nextVM (mk T layouts) vm) else none
  | none => none

theorem returnB_ok {T : List (Int × Instr)} {layouts : List Layout} {k : Nat} {s : VM × List Ptr} {n : Nat}
    (h : (returnB T layouts k s n).isSome = true) : ∃ vm', returnB T layouts k s n = some vm' ∧ Returned (mk T layouts) k s vm' := by
  obtain ⟨vm', hv⟩ := Option.isSome_iff_exists.mp h
  refine ⟨vm', hv, ?_⟩
  simp only [returnB] at hv
  split at hv
  · rename_i d vm P hr
    split at hv
    · rename_i hc; cases hv
      exact ⟨d, vm, P, callB_ok hr, validB_ok hc.1, hc.2.1, isOk_ok hc.2.2⟩
    · cases hv
  · cases hv

/-- Runs while fiber `k` does not. -/
def awayB (T : List (Int × Instr)) (layouts : List Layout) (k : Nat) (s : VM × List Ptr) : Nat → Option (VM × List Ptr)
  | 0 => some s
  | n + 1 =>
    match awayB T layouts k s n with
    | some (vm, P) =>
      if vm.loc ≠ k ∧ validB T layouts vm P ∧ isOk (step (mk T layouts) vm) then
        some (nextVM (mk T layouts) vm, pointers (mk T layouts) vm P) else none
    | none => none

theorem awayB_ok {T : List (Int × Instr)} {layouts : List Layout} {k : Nat} {s : VM × List Ptr} :
    ∀ {n : Nat} {s' : VM × List Ptr}, awayB T layouts k s n = some s' → Away (mk T layouts) k s s'
  | 0, s', h => by cases h; exact .nil
  | n + 1, s', h => by
    simp only [awayB] at h
    split at h
    · rename_i vm P hr
      split at h
      · rename_i hc; cases h; exact .cons (awayB_ok hr) hc.1 (validB_ok hc.2.1) (isOk_ok hc.2.2)
      · cases h
    · cases h

end Umka.Frame
