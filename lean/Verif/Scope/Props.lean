import Verif.Scope.Refine
/-!
# Identifiers and blocks: properties

* C37: a name denotes the innermost visible declaration; leaving a block restores the earlier meaning of every name; a
  second declaration in the same block is rejected.
-/

namespace Umka.Scope.Props

open Spec

/-- C37.  For every sequence of scopes entered and left, declarations and uses of names, in all modules: the compiler
accepts it iff the nest of scopes does, reports the same error, and every use of a name finds the same declaration. -/
theorem C37_meaning (C : Compat) (ops : List Op) (hops : ∀ op ∈ ops, op.plain) :
    (run C init ops).map (·.2) = (Spec.run C Spec.init ops).map (·.2) := by
  have h := run_rel (C := C) init_inv hops
  revert h
  cases run C init ops with
  | error e =>
    cases Spec.run C Spec.init ops with
    | error e' => intro h; cases h; rfl
    | ok p => obtain ⟨_, _⟩ := p; exact False.elim
  | ok p =>
    obtain ⟨E, o⟩ := p
    cases Spec.run C Spec.init ops with
    | error e' => exact False.elim
    | ok p => obtain ⟨S, o'⟩ := p; rintro ⟨_, rfl⟩; rfl

/-! ## Leaving a block -/

theorem spec_step_other {C : Compat} {S S' : State} {op : Op} {o : Out} {inner outer : List Scope} {depth : Nat}
    (hs : S.scopes = inner ++ outer) (hlen : inner.length = depth + 1) (hout : outer ≠ [])
    (hstep : Spec.step C S op = .ok (S', o)) (rest : List Op) (hbal : balanced (op :: rest) depth = true) :
    S'.module = S.module ∧ S'.imports = S.imports ∧
    ∃ inner' depth', S'.scopes = inner' ++ outer ∧ inner'.length = depth' + 1 ∧ balanced rest depth' = true := by
  have hol : 0 < outer.length := List.length_pos_iff.mpr hout
  have hl : ¬S.scopes.length ≤ 1 := by rw [hs, List.length_append]; omega
  cases inner with
  | nil => simp at hlen
  | cons s inner =>
  cases op with
  | enter fn =>
    unfold Spec.step at hstep
    dsimp only at hstep
    split at hstep
    · cases hstep
    · cases hstep
      exact ⟨rfl, rfl, ⟨fn, []⟩ :: s :: inner, depth + 1, by rw [hs]; rfl, by simp at hlen ⊢; omega, hbal⟩
  | leave =>
    unfold Spec.step at hstep
    dsimp only at hstep
    rw [if_neg hl] at hstep
    cases hstep
    simp only [balanced, Bool.and_eq_true, bne_iff_ne, ne_eq] at hbal
    exact ⟨rfl, rfl, inner, depth - 1, by rw [hs]; rfl, by simp at hlen; omega, hbal.2⟩
  | declare d =>
    unfold Spec.step Spec.declare at hstep
    rw [hs] at hstep
    simp only [List.cons_append] at hstep
    split at hstep
    · split at hstep
      · cases hstep
        exact ⟨rfl, rfl, _ :: inner, depth, rfl, by simpa using hlen, hbal⟩
      · cases hstep
    · split at hstep
      · cases hstep
      · cases hstep
        exact ⟨rfl, rfl, _ :: inner, depth, rfl, by simpa using hlen, hbal⟩
  | temp => cases hstep; exact ⟨rfl, rfl, _, depth, hs, hlen, hbal⟩
  | tempOutside => cases hstep; exact ⟨rfl, rfl, _, depth, hs, hlen, hbal⟩
  | lookup q => cases hstep; exact ⟨rfl, rfl, _, depth, hs, hlen, hbal⟩
  | switchModule m =>
    unfold Spec.step at hstep
    dsimp only at hstep
    rw [if_neg hl] at hstep
    cases hstep; exact ⟨rfl, rfl, _, depth, hs, hlen, hbal⟩
  | imported m =>
    unfold Spec.step at hstep
    dsimp only at hstep
    rw [if_neg hl] at hstep
    cases hstep; exact ⟨rfl, rfl, _, depth, hs, hlen, hbal⟩

theorem spec_run_outer {C : Compat} : ∀ {ops : List Op} {S S' : State} {o : List Out} {inner outer : List Scope}
    {depth : Nat}, S.scopes = inner ++ outer → inner.length = depth + 1 → outer ≠ [] →
    Spec.run C S ops = .ok (S', o) → balanced ops depth = true →
    S'.module = S.module ∧ S'.imports = S.imports ∧ ∃ s, S'.scopes = s :: outer
  | [], S, S', o, inner, outer, depth, hs, hlen, _, hrun, hbal => by
    cases hrun
    simp only [balanced, beq_iff_eq] at hbal
    subst hbal
    cases inner with
    | nil => simp at hlen
    | cons s inner =>
      cases inner with
      | nil => exact ⟨rfl, rfl, s, hs⟩
      | cons => simp at hlen
  | op :: ops, S, S', o, inner, outer, depth, hs, hlen, hout, hrun, hbal => by
    rw [Spec.run] at hrun
    cases h1 : Spec.step C S op with
    | error e => rw [h1] at hrun; cases hrun
    | ok p =>
      obtain ⟨S1, o1⟩ := p
      rw [h1] at hrun
      have hrun : (Spec.run C S1 ops).bind (fun p => .ok (p.1, o1 :: p.2)) = .ok (S', o) := hrun
      cases h2 : Spec.run C S1 ops with
      | error e => rw [h2] at hrun; cases hrun
      | ok p =>
        obtain ⟨S2, o2⟩ := p
        rw [h2] at hrun
        cases hrun
        obtain ⟨a, b, inner', depth', c, d, e⟩ := spec_step_other hs hlen hout h1 ops hbal
        obtain ⟨a', b', f⟩ := spec_run_outer c d hout h2 e
        exact ⟨a'.trans a, b'.trans b, f⟩

theorem spec_run_append {C : Compat} : ∀ {ops ops' : List Op} {S S' : State} {o : List Out},
    Spec.run C S (ops ++ ops') = .ok (S', o) → ∃ S1 o1 o2, Spec.run C S ops = .ok (S1, o1) ∧
      Spec.run C S1 ops' = .ok (S', o2)
  | [], _, S, S', o, h => ⟨S, [], o, rfl, h⟩
  | op :: ops, ops', S, S', o, h => by
    rw [List.cons_append, Spec.run] at h
    rw [Spec.run]
    cases h1 : Spec.step C S op with
    | error e => rw [h1] at h; cases h
    | ok p =>
      obtain ⟨S1, o1⟩ := p
      rw [h1] at h
      have h : (Spec.run C S1 (ops ++ ops')).bind (fun p => .ok (p.1, o1 :: p.2)) = .ok (S', o) := h
      cases h2 : Spec.run C S1 (ops ++ ops') with
      | error e => rw [h2] at h; cases h
      | ok p =>
        obtain ⟨S2, o2⟩ := p
        rw [h2] at h
        cases h
        obtain ⟨S3, o3, o4, e1, e2⟩ := spec_run_append h2
        refine ⟨S3, o1 :: o3, o4, ?_, e2⟩
        show (Spec.run C S1 ops).bind (fun p => .ok (p.1, o1 :: p.2)) = _
        rw [e1]; rfl

theorem reach_inv {C : Compat} {E : Env} {S : State} {ops : List Op} {E' : Env} {o : List Out} (h : Inv E S)
    (hops : ∀ op ∈ ops, op.plain) (hr : run C E ops = .ok (E', o)) :
    ∃ S', Spec.run C S ops = .ok (S', o) ∧ Inv E' S' := by
  have := run_rel (C := C) h hops
  rw [hr] at this
  cases hs : Spec.run C S ops with
  | error e => rw [hs] at this; exact this.elim
  | ok p =>
    obtain ⟨S', o'⟩ := p
    rw [hs] at this
    obtain ⟨a, rfl⟩ := this
    exact ⟨S', rfl, a⟩

/-- What a use of a name finds. -/
def uses (C : Compat) (E : Env) (q : Query) : Except Err Out := (step C E (.lookup q)).map (·.2)

theorem uses_eq {C : Compat} {E : Env} {S : State} (h : Inv E S) (q : Query) (hq : ∃ s, q.name = .plain s) :
    uses C E q = .ok (.found ((meaning C S q).map fun (e, outer) => (e.tag, e.what, outer))) := by
  have := step_rel (C := C) h (.lookup q) hq
  unfold uses
  obtain ⟨_, h2⟩ := this
  show Except.ok _ = Except.ok _
  exact congrArg _ h2

/-- C37.  After a block, whatever has been declared in it, every name means what it meant before. -/
theorem C37_restored (C : Compat) (before body : List Op) (fn : Bool) (E E' : Env) (o o' : List Out)
    (hp : ∀ op ∈ before, op.plain) (hp' : ∀ op ∈ body, op.plain) (hE : run C init before = .ok (E, o))
    (hbal : balanced body 0 = true) (hE' : run C E (.enter fn :: body ++ [.leave]) = .ok (E', o'))
    (q : Query) (hq : ∃ s, q.name = .plain s) : uses C E' q = uses C E q := by
  obtain ⟨S, _, hI⟩ := reach_inv init_inv hp hE
  obtain ⟨S', hS', hI'⟩ := reach_inv hI (by
    intro op hop
    rcases List.mem_append.mp hop with hop | hop
    · rcases List.mem_cons.mp hop with hop | hop
      · rw [hop]; trivial
      · exact hp' op hop
    · simp at hop; rw [hop]; trivial) hE'
  rw [uses_eq hI q hq, uses_eq hI' q hq]
  obtain ⟨S1, o1, o2, e1, e2⟩ := spec_run_append hS'
  rw [Spec.run] at e1
  have hlen : S.scopes ≠ [] := by
    intro hc
    have := rep_length hI.rep
    rw [hc] at this
    exact hI.nonempty (List.length_eq_zero_iff.mp this.symm)
  cases hs : Spec.step C S (.enter fn) with
  | error e => rw [hs] at e1; cases e1
  | ok p =>
    obtain ⟨S0, o0⟩ := p
    rw [hs] at e1
    have e1 : (Spec.run C S0 body).bind (fun p => .ok (p.1, o0 :: p.2)) = .ok (S1, o1) := e1
    cases h2 : Spec.run C S0 body with
    | error e => rw [h2] at e1; cases e1
    | ok p =>
      obtain ⟨S2, o3⟩ := p
      rw [h2] at e1
      have hS21 : S2 = S1 := by cases e1; rfl
      subst hS21
      unfold Spec.step at hs
      dsimp only at hs
      split at hs
      · cases hs
      · cases hs
        obtain ⟨a, b, s, c⟩ := spec_run_outer (inner := [⟨fn, []⟩]) (outer := S.scopes) (depth := 0) rfl rfl hlen h2 hbal
        rw [Spec.run] at e2
        have hl : ¬S2.scopes.length ≤ 1 := by
          rw [c, List.length_cons]
          have := List.length_pos_iff.mpr hlen
          omega
        have e2 : (Spec.step C S2 .leave).bind (fun p => (Spec.run C p.1 []).bind fun q => .ok (q.1, p.2 :: q.2)) =
          .ok (S', o2) := e2
        unfold Spec.step at e2
        dsimp only at e2
        rw [if_neg hl] at e2
        cases e2
        have : ({ S2 with scopes := S2.scopes.tail } : State) = S := by
          obtain ⟨sc, m, im⟩ := S
          simp only [State.mk.injEq]
          exact ⟨by rw [c]; rfl, a, b⟩
        rw [this]

/-! ## Declaring a name twice -/

theorem replaceFirst_find {p p' : Entry → Bool} {e e' : Entry} : ∀ {es : List Entry}, es.find? p = some e →
    (∀ x, p' x = p x) → p' e' = true → (replaceFirst p e' es).find? p' = some e'
  | x :: es, h, hp, he => by
    simp only [List.find?] at h
    cases hx : p x
    · simp only [hx] at h
      rw [replaceFirst, if_neg (by simp [hx]), List.find?, hp, hx]
      exact replaceFirst_find h hp he
    · rw [replaceFirst, if_pos hx, List.find?, he]

/-- C37.  A name that has just been declared (as a variable, constant, type, function with a body, or module) cannot be
declared again in the same block. -/
theorem C37_duplicate (C : Compat) (before : List Op) (E E1 : Env) (o : List Out) (d d' : Decl)
    (hp : ∀ op ∈ before, op.plain) (hE : run C init before = .ok (E, o))
    (hd : ∃ s, d.name = .plain s) (hname : d'.name = d.name) (hr : d.rcv = none) (hr' : d'.rcv = none)
    (hkind : d'.what = .module ↔ d.what = .module) (hf : d.what ≠ .forward) (hpr : ∀ s, d.what ≠ .proto s)
    (h1 : declare C E d = .ok E1) : declare C E1 d' = .error .duplicate := by
  obtain ⟨S, _, hI⟩ := reach_inv init_inv hp hE
  have hrel := declare_rel (C := C) hI d (plain_isPlain hd)
  rw [h1] at hrel
  cases hS : Spec.declare C S d with
  | error e => rw [hS] at hrel; exact hrel.elim
  | ok S1 =>
    rw [hS] at hrel
    have hrel2 := declare_rel (C := C) hrel d' (plain_isPlain (by rw [hname]; exact hd))
    suffices hsuf : Spec.declare C S1 d' = .error .duplicate by
      rw [hsuf] at hrel2
      cases hh : declare C E1 d' with
      | error e => rw [hh] at hrel2; cases hrel2; rfl
      | ok E2 => rw [hh] at hrel2; exact hrel2.elim
    have hlen : S.scopes ≠ [] := by
      intro hc
      have := rep_length hI.rep
      rw [hc] at this
      exact hI.nonempty (List.length_eq_zero_iff.mp this.symm)
    cases hsc : S.scopes with
    | nil => exact absurd hsc hlen
    | cons s outer =>
      have hown : ∀ (T : State), T.module = S.module → T.imports = S.imports → ∀ x,
          denotes C T ⟨T.module, d'.name, d'.rcv, d'.what == .module⟩ x =
          denotes C S ⟨S.module, d.name, d.rcv, d.what == .module⟩ x := by
        intro T hm hi x
        have : (d'.what == .module) = (d.what == .module) := by
          rw [Bool.eq_iff_iff, beq_iff_eq, beq_iff_eq]; exact hkind
        unfold denotes
        rw [hm, hi, hname, hr, hr', this]
      unfold Spec.declare at hS
      rw [hsc] at hS
      dsimp only at hS
      cases hfnd : s.entries.find? (denotes C S ⟨S.module, d.name, d.rcv, d.what == .module⟩) with
      | some e =>
        rw [hfnd] at hS
        dsimp only at hS
        cases hcomp : complete C e d with
        | none => rw [hcomp] at hS; cases hS
        | some e' =>
          rw [hcomp] at hS
          obtain ⟨hsc1, hm1, hi1⟩ : S1.scopes = { s with entries := replaceFirst (denotes C S
              ⟨S.module, d.name, d.rcv, d.what == .module⟩) e' s.entries } :: outer ∧ S1.module = S.module ∧
              S1.imports = S.imports := by cases hS; exact ⟨rfl, rfl, rfl⟩
          have he := List.find?_some hfnd
          have he' : denotes C S ⟨S.module, d.name, d.rcv, d.what == .module⟩ e' = true ∧
              (∀ x, complete C e' d' = some x → False) := by
            unfold complete at hcomp
            split at hcomp
            · rename_i w1 w2
              cases hcomp
              have hx := decide_eq_true_eq.mp he
              refine ⟨decide_eq_true_eq.mpr ⟨⟨hx.1.1, ?_, hx.1.2.2⟩, ?_⟩, ?_⟩
              · have := hx.1.2.1
                rw [w1] at this
                simp at this ⊢
                exact this
              · rcases hx.2 with hv | hv | hv
                · exact Or.inl hv
                · exact Or.inr (Or.inl hv)
                · exact Or.inr (Or.inl ⟨hv.1, rfl⟩)
              · intro x hc
                simp [complete] at hc
            · rename_i w1 w2
              split at hcomp
              · cases hcomp
                have hx := decide_eq_true_eq.mp he
                refine ⟨decide_eq_true_eq.mpr ⟨⟨hx.1.1, ?_, hx.1.2.2⟩, ?_⟩, ?_⟩
                · have := hx.1.2.1
                  rw [w1] at this
                  simp at this ⊢
                  exact this
                · exact hx.2
                · intro x hc
                  simp [complete] at hc
              · cases hcomp
            · rename_i w1 w2
              exact absurd w2 (hpr _)
            · cases hcomp
          unfold Spec.declare
          rw [hsc1]
          dsimp only
          rw [replaceFirst_find hfnd (hown S1 hm1 hi1) (by rw [hown S1 hm1 hi1]; exact he'.1)]
          dsimp only
          cases hc : complete C e' d' with
          | none => rfl
          | some x => exact (he'.2 x hc).elim
      | none =>
        rw [hfnd] at hS
        dsimp only at hS
        split at hS
        · cases hS
        · obtain ⟨hsc1, hm1, hi1⟩ : S1.scopes = { s with
              entries := ⟨d.tag, d.name, d.what, d.rcv, S.module, d.exported⟩ :: s.entries } :: outer ∧
              S1.module = S.module ∧ S1.imports = S.imports := by cases hS; exact ⟨rfl, rfl, rfl⟩
          unfold Spec.declare
          rw [hsc1]
          dsimp only
          rw [List.find?, hown S1 hm1 hi1]
          have : denotes C S ⟨S.module, d.name, d.rcv, d.what == .module⟩
              ⟨d.tag, d.name, d.what, d.rcv, S.module, d.exported⟩ = true := by
            refine decide_eq_true_eq.mpr ⟨⟨rfl, by simp, ?_⟩, Or.inr (Or.inl ⟨rfl, rfl⟩)⟩
            rw [hr]; trivial
          rw [this]
          dsimp only
          have : complete C ⟨d.tag, d.name, d.what, d.rcv, S.module, d.exported⟩ d' = none := by
            unfold complete
            split
            · rename_i w _; exact absurd w hf
            · rename_i w _; exact absurd w (hpr _)
            · rename_i w _; exact absurd w (hpr _)
            · rfl
          rw [this]

/-- C37.  A name that has just been declared means that declaration, whatever the enclosing blocks declare. -/
theorem C37_shadows (C : Compat) (before : List Op) (E E1 : Env) (o : List Out) (d : Decl)
    (hp : ∀ op ∈ before, op.plain) (hE : run C init before = .ok (E, o)) (hd : ∃ s, d.name = .plain s)
    (hr : d.rcv = none) (hnew : uses C E ⟨E.module, d.name, none, d.what == .module⟩ = .ok (.found none) ∨
      E.idents.all (fun i => i.block != E.cur))
    (h1 : declare C E d = .ok E1) :
    uses C E1 ⟨E.module, d.name, none, d.what == .module⟩ = .ok (.found (some (d.tag, d.what, false))) := by
  obtain ⟨S, _, hI⟩ := reach_inv init_inv hp hE
  have hfind : ∀ e, find C E ⟨E.module, d.name, none, d.what == .module⟩ = some e → e.block ≠ E.cur := by
    intro e he
    rcases hnew with h | h
    · unfold uses step at h
      dsimp only at h
      rw [he] at h
      cases h
    · have := List.all_eq_true.mp h e (List.mem_of_find?_eq_some he)
      simpa using this
  have hadd : E1 = { E with
      idents := ⟨E.nextId, d.tag, d.name, d.what, d.rcv, E.module, E.cur, d.exported⟩ :: E.idents, nextId := E.nextId + 1 } := by
    unfold declare at h1
    dsimp only at h1
    rw [hr] at h1 ⊢
    cases hf : find C E ⟨E.module, d.name, none, d.what == .module⟩ with
    | none =>
      rw [hf] at h1
      dsimp only at h1
      split at h1 <;> cases h1
      rfl
    | some e =>
      rw [hf] at h1
      dsimp only at h1
      rw [if_neg (hfind e hf)] at h1
      split at h1 <;> cases h1
      rfl
  have hrel := declare_rel (C := C) hI d (plain_isPlain hd)
  rw [h1] at hrel
  cases hS : Spec.declare C S d with
  | error e => rw [hS] at hrel; exact hrel.elim
  | ok S1 =>
    subst hadd
    unfold uses step
    dsimp only
    unfold find
    rw [List.find?]
    have hm : Ident.matches C E.module E.imports ⟨E.module, d.name, none, d.what == .module⟩
        ⟨E.nextId, d.tag, d.name, d.what, d.rcv, E.module, E.cur, d.exported⟩ = true := by
      unfold Ident.matches
      rw [hr]
      simp
    dsimp only
    rw [hm]
    show Except.ok (Out.found (some (d.tag, d.what, _))) = _
    congr 5
    unfold isOuterLocal
    split
    · rfl
    · cases hb : E.blocks with
      | nil => exact absurd hb hI.nonempty
      | cons b bs =>
        have hrep := hI.rep
        rw [hb] at hrep
        obtain ⟨seg, rest, s, ss', g1, g2, g3, g4, g5, g6, g7, g8, gR⟩ := hrep
        rw [outerLoop, if_neg (by simp)]
        rw [cur_cons hb]
        exact outerLoop_none b.num _ _ (fun b' hb' => by have := g6 b' hb'; omega)

/-! ## Examples -/

section Examples

def noCompat : Compat := ⟨fun a b => a == b, fun a b => a == b⟩
def x : Name := .plain "x"
def f : Name := .plain "f"
def askX : Op := .lookup ⟨1, x, none, false⟩

deriving instance DecidableEq for Except

/-- In module 1: `var x; fn f { x; var x; { var x; x }; closure { x }; x }; x`, with temporary variables. -/
def sample : List Op :=
  [.switchModule 1, .declare ⟨10, x, .var, none, true⟩, .declare ⟨11, f, .proto 0, none, false⟩,
   .declare ⟨12, f, .fn 0, none, false⟩, .enter true, askX, .declare ⟨13, x, .var, none, false⟩, .temp, .enter false,
   .temp, .tempOutside, .declare ⟨14, x, .var, none, false⟩, askX, .leave, .enter true, askX, .leave, askX, .leave,
   askX, .lookup ⟨1, f, none, false⟩]

example : (run noCompat init sample).map (·.2.filter (· ≠ .unit)) = .ok
    [.found (some (10, .var, false)), .found (some (14, .var, false)), .found (some (13, .var, true)),
     .found (some (13, .var, false)), .found (some (10, .var, false)), .found (some (11, .fn 0, false))] := by
  decide +kernel

example : ∀ op ∈ sample, op.plain := by
  intro op h
  simp [sample, askX, x, f] at h
  rcases h with rfl | rfl | rfl | rfl | rfl | rfl | rfl | rfl | rfl | rfl | rfl | rfl | rfl | rfl | rfl | rfl | rfl | rfl |
    rfl | rfl | rfl <;> simp [Op.plain]

/-- Errors. -/
example : (run noCompat init [.declare ⟨0, x, .var, none, false⟩, .declare ⟨1, x, .type, none, false⟩]).map (·.2) =
    .error .duplicate := by decide +kernel
example : (run noCompat init [.enter true, .declare ⟨0, x, .var, none, true⟩]).map (·.2) = .error .exportedLocal := by
  decide +kernel
example : (run noCompat init (List.replicate 100 (.enter false))).map (·.2) = .error .tooDeep := by decide +kernel

/-- Other modules: exported names of imported modules only. -/
example : (run noCompat init [.switchModule 1, .declare ⟨5, x, .var, none, true⟩, .declare ⟨6, f, .var, none, false⟩,
    .switchModule 2, askX, .imported 1, askX, .lookup ⟨1, f, none, false⟩]).map (·.2.filter (· ≠ .unit)) =
    .ok [.found none, .found (some (5, .var, false)), .found none] := by decide +kernel

/-- A block within the sample meets the hypotheses of `C37_restored`. -/
example : balanced [.declare ⟨13, x, .var, none, false⟩, .enter false, .tempOutside, .leave, askX] 0 = true ∧
    ∃ E o E' o', run noCompat init (sample.take 4) = .ok (E, o) ∧
      run noCompat E (.enter true :: [.declare ⟨13, x, .var, none, false⟩, .enter false, .tempOutside, .leave, askX] ++
        [.leave]) = .ok (E', o') :=
  ⟨by decide, _, _, _, _, rfl, rfl⟩

end Examples

end Umka.Scope.Props
