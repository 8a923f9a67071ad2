import Verif.Call.Closures

/-!
# C68–C72: calls, composite literals and closures
-/

namespace Umka.Call.Props
open Spec

variable {τ : Type} {cal : Int → Callee}

/-! ## C68: arguments and parameters -/

/-- **C68**, what a called function sees: the function is determined first, the arguments are evaluated from left to right, and the function finds its
parameters with the values the arguments had at their evaluation (or the default values, or an array of the remaining arguments); what comes with the
function, such as the receiver, is its first parameter; for a structured result there is a zeroed variable that only this call uses.  When the function
returns, the stack is as before, with its result on it. -/
theorem C68_call {env : Env τ} {rcv : Option String} {gs : List (Group τ)} {result : Option Ty} {sig : Sig τ} (hsig : parseSignature rcv gs result = .ok sig)
    {target : Target} (hm : isMethod target = rcv.isSome) {args : List (Arg τ)} {top top' : Nat} {code : List Instr}
    (hg : genCall env top sig target args = .ok (code, top')) (hok : ∀ a ∈ args, ArgOk env top top' a) (htok : TargetOk target) (w : World)
    (hb : top' ≤ w.brk) (stack : List Int) :
    ∃ ss, sources env (formals gs) args = some ss ∧ ∀ w1 e wss, evalCall env target ss w = some (w1, e, wss) →
      ∃ w2 slots, SameOutside top top' w1 w2 ∧ (∀ i ws, wss[i]? = some ws → paramAt env sig slots i = ws) ∧
        (∀ k, result = some (.struct k) → ∃ a, top ≤ a ∧ a + k ≤ top' ∧ paramAt env sig slots wss.length = [(a : Int)] ∧
          readWords w2.mem a k = List.replicate k 0) ∧
        (e = 0 → run cal code ⟨w, stack⟩ = none) ∧
        (e ≠ 0 → cal e w2 slots = none → run cal code ⟨w, stack⟩ = none) ∧
        (e ≠ 0 → ∀ w3 v, cal e w2 slots = some (w3, v) →
          run cal code ⟨w, stack⟩ = some ⟨{ w3 with result := v }, if result = none then stack else v :: stack⟩) := by
  obtain ⟨hres, _, tail, hs⟩ := parseSignature_ok hsig
  obtain ⟨ss, h1, _, h3⟩ := call_run (cal := cal) hs hm hg hok htok w hb stack
  refine ⟨ss, h1, fun w1 e wss he => ?_⟩
  obtain ⟨w2, slots, hrun, hso, hpar, hrv⟩ := h3 w1 e wss he
  refine ⟨w2, slots, hso, hpar, fun k hk => hrv k (hres.trans hk), fun h0 => ?_, fun h0 hn => ?_, fun h0 w3 v hc => ?_⟩
  · rw [hrun, invoke, if_pos h0]
  · rw [hrun, invoke, if_neg h0, hn]; rfl
  · rw [hrun, invoke, if_neg h0, hc, hres]
    cases result <;> rfl

/-- **C68**, errors: if the evaluation of what is called or of an argument fails, the function is not entered. -/
theorem C68_error {env : Env τ} {rcv : Option String} {gs : List (Group τ)} {result : Option Ty} {sig : Sig τ} (hsig : parseSignature rcv gs result = .ok sig)
    {target : Target} (hm : isMethod target = rcv.isSome) {args : List (Arg τ)} {top top' : Nat} {code : List Instr}
    (hg : genCall env top sig target args = .ok (code, top')) (hok : ∀ a ∈ args, ArgOk env top top' a) (htok : TargetOk target) (w : World)
    (hb : top' ≤ w.brk) (stack : List Int) {ss : List (Source τ)} (hss : sources env (formals gs) args = some ss) (he : evalCall env target ss w = none) :
    ∀ cal, run cal code ⟨w, stack⟩ = none := by
  intro cal
  obtain ⟨_, _, tail, hs⟩ := parseSignature_ok hsig
  obtain ⟨ss', h1, h2, _⟩ := call_run (cal := cal) hs hm hg hok htok w hb stack
  rw [hss] at h1
  injection h1 with h1
  subst h1
  exact h2 he

/-! ### Non-vacuity -/

/-- Types: `false` is a scalar, `true` a structure of two words. -/
def demoEnv : Env Bool where
  shape t := if t then .struct 2 else .scalar
  conv t a := if t = a then some fun w v => some (w, v) else none
  spread _ _ := false
  empty := 900

/-- `fn f(a: int, p: P, b: int = 7, xs: ..int): P` would be refused for the default value; this is `fn f(a: int, p: P, xs: ..int): P`. -/
def demoGroups : List (Group Bool) := [⟨["a"], false, false, true, none⟩, ⟨["p"], true, false, false, none⟩, ⟨["xs"], false, true, false, none⟩]

def demoArg (v : Int) : Arg Bool := ⟨fun w => some (w, v), false⟩

/-- A variable with two words at address 10. -/
def demoVar : Arg Bool := ⟨fun w => some (w, 10), true⟩

def demoWorld : World := ⟨fun a => if a = 10 then 5 else if a = 11 then 6 else 0, 1000, 0, 0⟩

/-- `f(1, p, 2, 3)`: what the function sees, where 104 is the address of the dynamic array in the stack frame and 108 that of the result; the data of the
array are in the heap at 1000. -/
example : ∃ sig code top', parseSignature none demoGroups (some (.struct 2)) = .ok sig ∧
    genCall demoEnv 100 sig (.fn 1) [demoArg 1, demoVar, demoArg 2, demoArg 3] = .ok (code, top') ∧ top' ≤ demoWorld.brk ∧
    (run (fun _ w slots => some (w, slots.sum + w.mem 1000 * 10000 + w.mem 1001 * 100000)) code ⟨demoWorld, [42]⟩).map (fun m => m.stack) =
      some [0 + 0 + 1 + 5 + 6 + 1000 + 2 + 104 + 20000 + 300000, 42] :=
  ⟨_, _, _, rfl, rfl, by decide, by decide +kernel⟩

example : ArgOk demoEnv 100 200 demoVar ∧ ArgOk demoEnv 100 200 (demoArg 1) := by
  constructor <;> intro t w w' v h <;> cases t <;> simp [evalArg, demoVar, demoArg, demoEnv] at h ⊢
  · obtain ⟨rfl, rfl⟩ := h
    exact ⟨Nat.le_refl _, .inl (by decide)⟩
  · rw [h.1]; exact Nat.le_refl _

/-! ## C69: number and types of arguments -/

/-- **C69**, refusal: a call that is accepted has as many arguments as the signature allows, of types that fit, and calls something that is defined. -/
theorem C69_refused {env : Env τ} {rcv : Option String} {gs : List (Group τ)} {result : Option Ty} {sig : Sig τ} (hsig : parseSignature rcv gs result = .ok sig)
    {target : Target} {args : List (Arg τ)} {top : Nat}
    (h : sources env (formals gs) args = none ∨ (∃ ss, sources env (formals gs) args = some ss ∧ ∃ s ∈ ss, ¬ Typed env s) ∨ ¬ Defined target) :
    ∃ e, genCall env top sig target args = .error e := by
  obtain ⟨_, _, tail, hs⟩ := parseSignature_ok hsig
  cases hg : genCall env top sig target args with
  | error e => exact ⟨e, rfl⟩
  | ok r =>
    exfalso
    obtain ⟨h1, h2⟩ := call_typed hs hg
    rcases h with h | ⟨ss, hss, s, hmem, hn⟩ | h
    · exact call_sources hs hg h
    · exact hn (h2 ss hss s hmem)
    · exact h h1

/-- **C69**, acceptance, except for one case: a function with a structured result and a parameter `..T` for which there is no argument. -/
theorem C69_accepted_partial {env : Env τ} {rcv : Option String} {gs : List (Group τ)} {result : Option Ty} {sig : Sig τ}
    (hsig : parseSignature rcv gs result = .ok sig) {target : Target} (hd : Defined target) {args : List (Arg τ)} {ss : List (Source τ)}
    (hsrc : sources env (formals gs) args = some ss) (hty : ∀ s ∈ ss, Typed env s)
    (hx : ∀ k, result = some (.struct k) → (formals gs).length ≤ args.length ∨ ∀ f ∈ formals gs, f.variadic = false) (top : Nat) :
    ∃ code top', genCall env top sig target args = .ok (code, top') := by
  obtain ⟨hres, _, tail, hs⟩ := parseSignature_ok hsig
  refine call_accept hs hd hsrc hty (fun hr => ?_) top
  rw [hres] at hr
  cases result with
  | none => cases hr
  | some ty =>
    cases ty with
    | scalar => cases hr
    | struct k => exact hx k rfl

/-- **C69**, the exception: `fn f(xs: ..int): P` cannot be called as `f()`, although `fn f(xs: ..int): int` can. -/
theorem C69_variadic_violated : ∃ (env : Env Bool) (sig sig' : Sig Bool) (gs : List (Group Bool)) (ss : List (Source Bool)),
    parseSignature none gs (some (.struct 2)) = .ok sig ∧ parseSignature none gs (some .scalar) = .ok sig' ∧ sources env (formals gs) [] = some ss ∧
    (∀ s ∈ ss, Typed env s) ∧ genCall env 100 sig (.fn 1) [] = .error .tooFewActual ∧ ∃ r, genCall env 100 sig' (.fn 1) [] = .ok r :=
  ⟨demoEnv, _, _, [⟨["xs"], false, true, false, none⟩], [.const (.struct 2) 900], rfl, rfl, rfl,
    fun s hs => by rw [List.mem_singleton.1 hs]; trivial, rfl, _, rfl⟩

/-- Default values: `fn f(a: int, b: int = 7)` called as `f(1)` and `f()`. -/
example : ∃ sig : Sig Bool, parseSignature none [⟨["a"], false, false, true, none⟩, ⟨["b"], false, false, true, some 7⟩] (some .scalar) = .ok sig ∧
    (∃ code top', genCall demoEnv 100 sig (.fn 1) [demoArg 1] = .ok (code, top') ∧
      (run (fun _ w slots => some (w, slots.sum)) code ⟨demoWorld, []⟩).map (fun m => m.stack) = some [8]) ∧
    genCall demoEnv 100 sig (.fn 1) [] = .error .tooFewActual ∧
    genCall demoEnv 100 sig (.fn 1) [demoArg 1, demoArg 2, demoArg 3] = .error .tooManyActual ∧
    genCall demoEnv 100 sig (.fn 1) [demoVar] = .error .incompatible :=
  ⟨_, rfl, ⟨_, _, rfl, by decide +kernel⟩, rfl, rfl, rfl⟩

/-! ## C70: array and structure literals -/

/-- **C70**, value: each item or field of the literal has the value its expression had when it was evaluated, in the order of the text, and the other
fields are zero. -/
theorem C70_value {env : Env τ} {tmp top' : Nat} {lit : LitTy τ} {items : List (Item τ)} {code : List Instr}
    (h : genLiteral env tmp lit items = .ok (code, top')) (hbl : ∀ it ∈ items, Blind env tmp top' it.arg) :
    ∃ ps, Placed lit items ps ∧ ∀ (w : World) (st : List Int),
      (evalEach env ps w = none → run cal code ⟨w, st⟩ = none) ∧
      ∀ w1 vs, evalEach env ps w = some (w1, vs) → ∃ w2, run cal code ⟨w, st⟩ = some ⟨w2, (tmp : Int) :: st⟩ ∧ SameOutside tmp top' w1 w2 ∧
        readWords w2.mem tmp (lit.size env) = (List.range lit.numItems).flatMap (fieldWords env lit vs) := by
  obtain ⟨_, ps, h1, _, h2⟩ := genLiteral_run (cal := cal) h hbl
  exact ⟨ps, h1, h2⟩

/-- **C70**, acceptance: a literal whose expressions have a place and types that fit is accepted, if no two fields have the same name. -/
theorem C70_accepted {env : Env τ} {tmp : Nat} {lit : LitTy τ} {items : List (Item τ)} {ps : List (Nat × τ × Arg τ)} (h : Placed lit items ps)
    (hty : ∀ p ∈ ps, env.conv p.2.1 p.2.2.ty ≠ none) (hd : ∀ fs, lit = .struct fs → (fs.map fun f => f.name).Nodup) :
    ∃ r, genLiteral env tmp lit items = .ok r :=
  genLiteral_accept h hty hd

/-- **C70**, refusal: without such places (an unknown or repeated field, some expressions with a name and some without, too many or too few items), or with
types that do not fit, the literal is refused. -/
theorem C70_refused {env : Env τ} {tmp : Nat} {lit : LitTy τ} {items : List (Item τ)}
    (h : ∀ ps, Placed lit items ps → ∃ p ∈ ps, env.conv p.2.1 p.2.2.ty = none) : ∃ e, genLiteral env tmp lit items = .error e := by
  cases hg : genLiteral env tmp lit items with
  | error e => exact ⟨e, rfl⟩
  | ok r =>
    exfalso
    obtain ⟨ps, h1, h2⟩ := genLiteral_placed hg
    obtain ⟨p, hp, hn⟩ := h ps h1
    exact h2 p hp hn

def demoStruct : LitTy Bool := .struct [⟨"x", false⟩, ⟨"p", true⟩, ⟨"y", false⟩]

example : ∃ code top', genLiteral demoEnv 100 demoStruct [⟨some "y", demoArg 3⟩, ⟨some "p", demoVar⟩] = .ok (code, top') ∧
    (run (fun _ _ _ => none) code ⟨demoWorld, []⟩).map (fun m => readWords m.w.mem 100 4) = some [0, 5, 6, 3] :=
  ⟨_, _, rfl, by decide +kernel⟩

example : genLiteral demoEnv 100 demoStruct [⟨some "y", demoArg 3⟩, ⟨some "y", demoArg 3⟩] = .error .dupField ∧
    genLiteral demoEnv 100 (.array 3 false) [⟨none, demoArg 3⟩, ⟨none, demoArg 4⟩] = .error .tooFewItems ∧
    genLiteral demoEnv 100 demoStruct [⟨some "y", demoArg 3⟩, ⟨none, demoVar⟩] = .error .syntax ∧
    genLiteral demoEnv 100 (.array 2 false) [⟨none, demoArg 1⟩, ⟨none, demoArg 2⟩, ⟨none, demoArg 3⟩] = .error .tooManyItems := ⟨rfl, rfl, rfl, rfl⟩

/-- Without names. -/
example : Placed demoStruct [⟨none, demoArg 1⟩, ⟨none, demoVar⟩, ⟨none, demoArg 2⟩] [(0, false, demoArg 1), (1, true, demoVar), (2, false, demoArg 2)] := by
  refine ⟨rfl, fun p hp => ?_, .inr ⟨fun it hit => ?_, rfl, fun i n h => ?_⟩⟩
  · simp only [List.mem_cons, List.not_mem_nil, or_false] at hp
    rcases hp with rfl | rfl | rfl <;> rfl
  · simp only [List.mem_cons, List.not_mem_nil, or_false] at hit
    rcases hit with rfl | rfl | rfl <;> rfl
  · obtain ⟨f, hf, rfl⟩ := Option.map_eq_some_iff.1 h
    have hm := List.mem_of_getElem? hf
    simp only [List.mem_cons, List.not_mem_nil, or_false] at hm
    rcases hm with rfl | rfl | rfl <;> decide +kernel

/-- A variable outside the literal meets the condition. -/
theorem demoVar_blind : Blind demoEnv 100 104 demoVar := by
  intro t w w' hs
  cases t
  · simp [evalArg, demoVar, demoEnv]
  · simp only [evalArg, demoVar, demoEnv, Option.bind_eq_bind, Option.bind_some, if_true]
    refine ⟨fun h => (nomatch h), fun u v h => ?_⟩
    injection h with h
    injection h with h1 h2
    subst h1 h2
    refine ⟨fun k hk => .inl ?_, w', rfl, hs, fun _ _ _ => rfl⟩
    injection hk with hk
    subst hk
    decide

/-! ## C71: dynamic arrays -/

/-- **C71**, the part that holds: the items of a dynamic array literal (and the items of `..T`, see C68) have the values their expressions had when they
were evaluated, if what they refer to does not change until the last one has been evaluated. -/
theorem C71_items_partial {env : Env τ} {top top' : Nat} {t : τ} {as : List (Arg τ)} (hne : as ≠ []) {code : List Instr}
    (h : genDynLiteral env top t as = .ok (code, top')) (hok : ∀ a ∈ as, ArgOk env top top' a) (w : World) (hb : top' ≤ w.brk)
    (hu : Undisturbed env t as w) (st : List Int) :
    (evalEach env (as.zipIdx.map fun q => (q.2, t, q.1)) w = none → run cal code ⟨w, st⟩ = none) ∧
    ∀ w1 us, evalEach env (as.zipIdx.map fun q => (q.2, t, q.1)) w = some (w1, us) →
      ∃ w2 res, run cal code ⟨w, st⟩ = some ⟨w2, (res : Nat) :: st⟩ ∧ SameOutside top top' (newArray w1 as.length (us.flatMap fun u => u.2)).1 w2 ∧
        readWords w2.mem res 2 = (newArray w1 as.length (us.flatMap fun u => u.2)).2 := by
  have hl : genList env top t as = .ok (code, top') := by
    unfold genDynLiteral at h
    rw [if_pos (List.length_pos_iff.2 hne)] at h
    exact h
  obtain ⟨r1, r2⟩ := genList_run (cal := cal) hl (Nat.le_refl _) hok w hb st
  obtain ⟨h1, h2⟩ := evalEach_items (n := 0) hu
  refine ⟨fun hn => r1 (h1.1 hn), fun w1 us he => ?_⟩
  cases hi : evalItems env t as w with
  | none => rw [h1.2 hi] at he; cases he
  | some q =>
    obtain ⟨us', hus, hc⟩ := h2 q.1 q.2 hi
    rw [hus] at he
    injection he with he
    injection he with e1 e2
    subst e1 e2
    obtain ⟨w2, res, a1, a2, a3, _⟩ := r2 q.1 q.2 hi
    rw [hc] at a2 a3
    exact ⟨w2, res, a1, a2, a3⟩

/-- **C71** for scalar items: always. -/
theorem C71_scalar {env : Env τ} {top top' : Nat} {t : τ} (ht : env.shape t = .scalar) {as : List (Arg τ)} (hne : as ≠ []) {code : List Instr}
    (h : genDynLiteral env top t as = .ok (code, top')) (hok : ∀ a ∈ as, ArgOk env top top' a) (w : World) (hb : top' ≤ w.brk) (st : List Int) :
    ∀ w1 us, evalEach env (as.zipIdx.map fun q => (q.2, t, q.1)) w = some (w1, us) →
      ∃ w2 res, run cal code ⟨w, st⟩ = some ⟨w2, (res : Nat) :: st⟩ ∧ SameOutside top top' (newArray w1 as.length (us.flatMap fun u => u.2)).1 w2 ∧
        readWords w2.mem res 2 = (newArray w1 as.length (us.flatMap fun u => u.2)).2 :=
  (C71_items_partial hne h hok w hb (undisturbed_scalar ht as w) st).2

/-- **C71**, the empty literal. -/
theorem C71_empty (env : Env τ) (top : Nat) (t : τ) (w : World) (st : List Int) : ∃ code top', genDynLiteral env top t [] = .ok (code, top') ∧
    ∃ w2, run cal code ⟨w, st⟩ = some ⟨w2, (top : Int) :: st⟩ ∧ SameOutside top top' w w2 ∧ readWords w2.mem top 2 = [0, 0] := by
  refine ⟨_, _, rfl, _, rfl, ⟨rfl, rfl, rfl, fun a ha => if_neg ha⟩, ?_⟩
  simp [readWords, List.range_succ]

/-- An assignment to the first word of the variable at 10, such as a call of a function that makes it, followed by the variable. -/
def demoSet : Arg Bool := ⟨fun w => some ({ w with mem := fun a => if a = 10 then 77 else w.mem a }, 10), true⟩

/-- **C71**, violation: in `[]P{p, f()}`, where `f` changes `p`, the first item has the changed value; in the array `[2]P{p, f()}` it has the value before
the change. -/
theorem C71_late_copy_violated : ∃ code top' code2 top2, genDynLiteral demoEnv 100 true [demoVar, demoSet] = .ok (code, top') ∧
    genLiteral demoEnv 100 (.array 2 true) [⟨none, demoVar⟩, ⟨none, demoSet⟩] = .ok (code2, top2) ∧
    (evalEach demoEnv [(0, true, demoVar), (1, true, demoSet)] demoWorld).map (fun q => q.2) = some [(0, [5, 6]), (1, [77, 6])] ∧
    (run (fun _ _ _ => none) code ⟨demoWorld, []⟩).map (fun m => readWords m.w.mem 1000 4) = some [77, 6, 77, 6] ∧
    (run (fun _ _ _ => none) code2 ⟨demoWorld, []⟩).map (fun m => readWords m.w.mem 100 4) = some [5, 6, 77, 6] :=
  ⟨_, _, _, _, rfl, rfl, by decide +kernel, by decide +kernel, by decide +kernel⟩

/-! ## C72: closures -/

/-- **C72**, creation: the value of a closure literal refers to its function and to copies, in new memory, of the captured variables as they are when the
literal is evaluated; nothing else changes. -/
theorem C72_creation {env : Env τ} {top top' : Nat} {entry id : Int} {cs : List (Capture τ)} {code : List Instr}
    (h : genClosure env top entry id (some cs) = .ok (code, top')) (hout : ∀ c ∈ cs, c.addr + (env.shape c.ty).size ≤ top ∨ top' ≤ c.addr) (w : World)
    (hb : top' ≤ w.brk) (st : List Int) :
    ∃ w2, run cal code ⟨w, st⟩ = some ⟨w2, (top : Int) :: st⟩ ∧ readWords w2.mem top 3 = [entry, (w.brk : Int), id] ∧
      SameOutside top top' { w with mem := write w.mem w.brk (captured env w.mem cs), brk := w.brk + (captured env w.mem cs).length } w2 := by
  obtain ⟨_, _, w2, h1, h2, h3⟩ := genClosure_run (cal := cal) h hout w hb st
  exact ⟨w2, h1, h2, by rw [captured_length]; exact h3⟩

/-- **C72**, without captured variables. -/
theorem C72_plain (env : Env τ) (top : Nat) (entry id : Int) (w : World) (st : List Int) :
    ∃ code top', genClosure env top entry id none = .ok (code, top') ∧ ∃ w2, run cal code ⟨w, st⟩ = some ⟨w2, (top : Int) :: st⟩ ∧
      readWords w2.mem top 3 = [entry, 0, 0] ∧ SameOutside top top' w w2 := by
  refine ⟨_, _, rfl, _, rfl, ?_, ⟨rfl, rfl, rfl, fun a ha => ?_⟩⟩
  · have e0 : (((top : Nat) : Int) + ((0 : Nat) : Int)).toNat = top := by omega
    simp only [readWords, List.range_succ, List.range_zero, List.nil_append, List.map_cons, List.map_nil, List.cons_append, store, e0]
    simp
  · have e0 : (((top : Nat) : Int) + ((0 : Nat) : Int)).toNat = top := by omega
    simp only [store, e0]
    rw [if_neg (by omega), if_neg ha]

/-- **C72**, calls: whenever the closure is called, and however often, its function begins with variables that have the values the captured variables had
when the literal was evaluated (in the world `w0`), as long as nothing has overwritten the copies; it changes no other memory, and in particular not the
copies, so the next call begins with the same values. -/
theorem C72_call {env : Env τ} {id : Int} {cs : List (Capture τ)} {vars : Nat → Nat} {param p : Nat} (mem0 : Nat → Int) (w : World)
    (hparam : readWords w.mem param 2 = [(p : Int), id]) (hcopy : readWords w.mem p (captured env mem0 cs).length = captured env mem0 cs)
    (hvars : ∀ i j c d, cs[i]? = some c → cs[j]? = some d → i < j → vars i + (env.shape c.ty).size ≤ vars j ∨ vars j + (env.shape d.ty).size ≤ vars i)
    (hheap : ∀ i c, cs[i]? = some c → vars i + (env.shape c.ty).size ≤ p ∨ p + (captured env mem0 cs).length ≤ vars i) (st : List Int) :
    ∃ mem', run cal (genProlog env id cs vars param) ⟨w, st⟩ = some ⟨{ w with mem := mem' }, st⟩ ∧
      (∀ i c, cs[i]? = some c → readWords mem' (vars i) (env.shape c.ty).size = readWords mem0 c.addr (env.shape c.ty).size) ∧
      (∀ a, (∀ i c, cs[i]? = some c → ¬ (vars i ≤ a ∧ a < vars i + (env.shape c.ty).size)) → mem' a = w.mem a) ∧
      readWords mem' p (captured env mem0 cs).length = captured env mem0 cs := by
  have hlen := captured_length (env := env) mem0 cs
  have hp0 : w.mem param = (p : Int) ∧ w.mem (param + 1) = id := by
    simp only [readWords, List.range_succ, List.range_zero, List.nil_append, List.map_cons, List.map_nil, List.cons_append, List.cons.injEq,
      and_true, Nat.add_zero] at hparam
    exact hparam
  rw [hlen] at hheap hcopy ⊢
  obtain ⟨mem', h1, h2, h3⟩ := genUpvalues_run (cal := cal) (env := env) (all := cs) (vars := vars) (p := p) w.mem hvars hheap (cs := cs) (i := 0)
    (fun j => by rw [Nat.zero_add]) w st (fun _ _ _ => rfl)
  have hkeep : ∀ a, (∀ i c, cs[i]? = some c → ¬ (vars i ≤ a ∧ a < vars i + (env.shape c.ty).size)) → mem' a = w.mem a :=
    fun a ha => h2 a fun j c _ hc => ha j c hc
  refine ⟨mem', ?_, fun i c hc => ?_, hkeep, ?_⟩
  · unfold genProlog
    simp only [List.cons_append, List.nil_append, run, step, Option.bind_some, deref, Int.toNat_natCast]
    rw [hp0.1, if_pos hp0.2]
    simp only [Option.bind_some]
    rw [run_append, h1]
    rfl
  · have := h3 i c hc
    rw [Nat.zero_add] at this
    rw [this]
    have hi := (List.getElem?_eq_some_iff.1 hc).1
    have e1 := captureOffset_succ (env := env) hc
    have e2 := captureOffset_size (env := env) (cs := cs) (i := i + 1) (by omega)
    rw [readWords_sub hcopy (by omega)]
    exact captured_at mem0 cs i c hc
  · rw [← hcopy]
    refine readWords_congr fun x hx1 hx2 => hkeep x fun i c hc hx => ?_
    have := hheap i c hc
    omega

/-- **C72**, acceptance: a closure is refused exactly if a variable is captured twice. -/
theorem C72_accepted (env : Env τ) (top : Nat) (entry id : Int) (cs : List (Capture τ)) :
    (∃ r, genClosure env top entry id (some cs) = .ok r) ↔ (cs.map fun c => c.name).Nodup := by
  constructor
  · rintro ⟨r, hr⟩
    unfold genClosure at hr
    dsimp only at hr
    cases hck : checkCaptures cs [] with
    | error e => rw [hck] at hr; cases hr
    | ok u => exact (checkCaptures_ok hck).1
  · intro h
    unfold genClosure
    dsimp only
    rw [checkCaptures_accept h fun _ _ => List.not_mem_nil]
    exact ⟨_, rfl⟩

/-- `|x, p|` with `x` at 12 and `p` at 10: the closure is created, `p` is changed, and the closure is called: the function has its variables at 300 and 301. -/
example : ∃ code top', genClosure demoEnv 100 55 9 (some [⟨"x", false, 12⟩, ⟨"p", true, 10⟩]) = .ok (code, top') ∧
    (run (fun _ _ _ => none) (code ++ [.pop, .pushLocal 10, .push 99, .assign .scalar, .zero 200 2, .pushLocal 200, .push 101, .assign (.struct 2)] ++
      genProlog demoEnv 9 [⟨"x", false, 12⟩, ⟨"p", true, 10⟩] (fun i => 300 + i) 200) ⟨demoWorld, []⟩).map
        (fun m => (readWords m.w.mem 300 3, m.w.mem 10, m.stack)) = some ([0, 5, 6], 99, []) :=
  ⟨_, _, rfl, by decide +kernel⟩

end Umka.Call.Props
