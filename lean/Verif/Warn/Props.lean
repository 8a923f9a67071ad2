import Verif.Warn.Shadow
/-! # Warnings: the properties -/

namespace Umka.Warn.Props

open Umka.Scope (Compat Decl Name Query)
open Spec

/-- C95.  When a module ends, a declaration made in it has been reported as not used exactly if nobody referred to it and it is not one that nobody
needs to refer to; the report says "module" exactly for a module.  Nothing is reported twice, and only declarations of the text are reported. -/
theorem C95_unused (C : Compat) (mainSig : Nat → Bool) {ops : List Op} {s : State} {outs : List Scope.Out} (hops : ∀ op ∈ ops, op.plain)
    (htags : ((made ops).map (·.decl.tag)).Nodup) (hr : run C mainSig init ops = .ok (s, outs)) (hend : (position ops).1 ∉ ended ops) :
    ∃ s', step C mainSig s .endModule = .ok (s', .unit) ∧
      (∀ m ∈ made ops, m.module = (position ops).1 → New ops m → ∀ b, Warning.unused b m.decl.tag ∈ s'.warns ↔
        (b = (m.decl.what == .module) ∧ ¬ Exempt mainSig m ∧ ¬ Referred outs m.decl.tag)) ∧
      (reported s'.warns).Nodup ∧ ∀ t ∈ reported s'.warns, ∃ m ∈ made ops, m.decl.tag = t := by
  have h := K_run (C := C) (K_init mainSig) hops htags hr
  rw [List.nil_append, List.nil_append] at h
  have hL : (s.env.idents.filter (·.module == s.env.module)).Sublist s.env.idents := List.filter_sublist
  refine ⟨endModule s, rfl, ?_, once_fold h hL, ?_⟩
  · intro m hm hmod hnew
    by_cases hl : ∃ i ∈ live s.env, i.tag = m.decl.tag
    · obtain ⟨i, hi, et⟩ := hl
      obtain ⟨m', al⟩ := h.decl i hi
      have e : m' = m := made_inj htags al.mem hm (al.tag.trans et)
      subst e
      have hiL : i ∈ s.env.idents.filter (·.module == s.env.module) := by
        refine List.mem_filter.mpr ⟨(mem_live.mp hi).1, ?_⟩
        rw [← al.module, hmod, h.pos]
        exact beq_self_eq_true _
      refine correct_fold h hL hiL (mem_live.mp hi).2 al fun hw => hend ?_
      rw [← hmod, al.module]
      exact al.warned hw
    · rcases h.old m hm with h1 | (h1 | h1) | h1
      · exact absurd h1 hl
      · exact absurd (hmod ▸ h1) hend
      · intro b
        have := old_fold h hL hl h1 b
        rw [referred_unit] at this
        exact this
      · exact absurd hnew h1
  · intro t ht
    obtain ⟨b, hb⟩ := mem_reported.mp ht
    exact warned_made h hL hb

/-- The warnings about shadowed identifiers. -/
def shadows (ws : List Warning) : List Nat := ws.filterMap fun w => match w with
  | .shadowed tag => some tag
  | .unused _ _ => none

theorem shadows_fold (L : List Scope.Ident) : ∀ s : State, shadows (L.foldl warnIfUnused s).warns = shadows s.warns := by
  induction L with
  | nil => intro s; rfl
  | cons i L ih =>
    intro s
    rw [List.foldl_cons, ih]
    unfold warnIfUnused
    split
    · rfl
    · split
      · rfl
      · show shadows (s.warns ++ [_]) = _
        unfold shadows
        rw [List.filterMap_append]
        exact List.append_nil _

/-- The declaration made by an operation. -/
def declared : Op → Option Decl
  | .scope (.declare d) => some d
  | .declareUsed d => some d
  | _ => none

/-- C95.  A declaration is reported as shadowing exactly if it hides a declaration of an enclosing block of the same function; nothing else
is reported so.  What hides what is told by the scopes of the program text alone. -/
theorem C95_shadowed (C : Compat) (mainSig : Nat → Bool) {ops : List Op} {s : State} {outs : List Scope.Out} (hops : ∀ op ∈ ops, op.plain)
    (hr : run C mainSig init ops = .ok (s, outs)) :
    ∃ S os, Scope.Spec.run C Scope.Spec.init (names ops) = .ok (S, os) ∧
      ∀ op s' o, op.plain → step C mainSig s op = .ok (s', o) →
        (∀ d, declared op = some d → Hides C S d → shadows s'.warns = shadows s.warns ++ [d.tag]) ∧
        ((∀ d, declared op = some d → ¬ Hides C S d) → shadows s'.warns = shadows s.warns) := by
  obtain ⟨S, os, h1, hI⟩ := run_names (C := C) (mainSig := mainSig) (s := init) Scope.init_inv hops hr
  refine ⟨S, os, h1, ?_⟩
  have hdecl : ∀ (d : Decl) (told : Bool) (s' : State), (∃ n, d.name = .plain n) → declare C mainSig s d told = .ok s' →
      (Hides C S d → shadows s'.warns = shadows s.warns ++ [d.tag]) ∧ (¬ Hides C S d → shadows s'.warns = shadows s.warns) := by
    intro d told s' hd hE
    unfold declare at hE
    cases hE' : Scope.declare C s.env d with
    | error e => rw [hE'] at hE; cases hE
    | ok E =>
      rw [hE'] at hE
      cases hE
      obtain ⟨g1, g2⟩ := shadow_iff (C := C) hI d hd
      dsimp only
      refine ⟨fun h => ?_, fun h => ?_⟩
      · rw [g1 h]; unfold shadows; rw [List.filterMap_append]; rfl
      · rw [g2 h, List.append_nil]
  intro op s' o hp hs
  cases op with
  | endModule => cases hs; exact ⟨fun _ e => (nomatch e), fun _ => shadows_fold _ _⟩
  | declareUsed d =>
    change (declare C mainSig s d true >>= _) = _ at hs
    cases hE : declare C mainSig s d true with
    | error e => rw [hE] at hs; cases hs
    | ok s1 =>
      rw [hE] at hs; cases hs
      obtain ⟨g1, g2⟩ := hdecl d true _ hp hE
      exact ⟨fun d' e h => by cases e; exact g1 h, fun h => g2 (h d rfl)⟩
  | scope sop =>
    cases sop with
    | declare d =>
      change (declare C mainSig s d false >>= _) = _ at hs
      cases hE : declare C mainSig s d false with
      | error e => rw [hE] at hs; cases hs
      | ok s1 =>
        rw [hE] at hs; cases hs
        obtain ⟨g1, g2⟩ := hdecl d false _ hp hE
        exact ⟨fun d' e h => by cases e; exact g1 h, fun h => g2 (h d rfl)⟩
    | leave =>
      cases hs
      refine ⟨fun _ e => (nomatch e), fun _ => ?_⟩
      split
      · rfl
      · exact shadows_fold _ _
    | lookup q =>
      cases hs
      refine ⟨fun _ e => (nomatch e), fun _ => ?_⟩
      unfold markUsed
      split <;> rfl
    | enter fn =>
      change (Scope.step C s.env (.enter fn) >>= _) = _ at hs
      cases hE : Scope.step C s.env (.enter fn) with
      | error e => rw [hE] at hs; cases hs
      | ok x => rw [hE] at hs; cases hs; exact ⟨fun _ e => (nomatch e), fun _ => rfl⟩
    | temp =>
      change (Scope.step C s.env .temp >>= _) = _ at hs
      cases hE : Scope.step C s.env .temp with
      | error e => rw [hE] at hs; cases hs
      | ok x => rw [hE] at hs; cases hs; exact ⟨fun _ e => (nomatch e), fun _ => rfl⟩
    | tempOutside =>
      change (Scope.step C s.env .tempOutside >>= _) = _ at hs
      cases hE : Scope.step C s.env .tempOutside with
      | error e => rw [hE] at hs; cases hs
      | ok x => rw [hE] at hs; cases hs; exact ⟨fun _ e => (nomatch e), fun _ => rfl⟩
    | switchModule m => cases hs; exact ⟨fun _ e => (nomatch e), fun _ => rfl⟩
    | imported m => cases hs; exact ⟨fun _ e => (nomatch e), fun _ => rfl⟩

/-! ## Examples -/

section Examples

def noCompat : Compat := ⟨fun a b => a == b, fun a b => a == b⟩
def x : Name := .plain "x"
def y : Name := .plain "y"
def f : Name := .plain "f"
def main : Name := .plain "main"
def noParams : Nat → Bool := (· == 0)
def use (n : Name) : Op := .scope (.lookup ⟨1, n, none, false⟩)
def var (t : Nat) (n : Name) : Op := .scope (.declare ⟨t, n, .var, none, false⟩)

/-- In module 1: `import "std.um"; var x; fn f(y) { var x; { var x; var y; x } }; fn main() { var _; var y }`. -/
def sample : List Op :=
  [.scope (.switchModule 1), .scope (.declare ⟨9, .plain "std", .module, none, false⟩), var 10 x,
   .scope (.declare ⟨11, f, .fn 5, none, false⟩), .scope (.enter true), .declareUsed ⟨12, y, .var, none, false⟩, var 13 x, .scope .temp,
   .scope (.enter false), var 14 x, var 15 y, use x, .scope .leave, .scope .leave,
   .scope (.declare ⟨16, main, .fn 0, none, false⟩), .scope (.enter true), var 17 (.plain "_"), var 18 y, .scope .leave]

/-- `x` of the module, `f` and its unused variables are reported; `x` and `y` of the inner block shadow those of the function. -/
example : (run noCompat noParams init (sample ++ [.endModule])).toOption.map (·.1.warns) =
    some [.shadowed 14, .shadowed 15, .unused false 15, .unused false 13, .unused false 18, .unused false 11, .unused false 10, .unused true 9] := by
  decide +kernel

/-- The hypotheses of the theorems. -/
example : (∀ op ∈ sample, op.plain) ∧ ((made sample).map (·.decl.tag)).Nodup ∧ (position sample).1 ∉ ended sample ∧
    ∃ r, run noCompat noParams init sample = .ok r := by
  refine ⟨?_, by decide, by decide, _, rfl⟩
  intro op h
  simp only [sample, List.mem_cons, List.not_mem_nil, or_false] at h
  rcases h with rfl | rfl | rfl | rfl | rfl | rfl | rfl | rfl | rfl | rfl | rfl | rfl | rfl | rfl | rfl | rfl | rfl | rfl | rfl <;>
    first | exact trivial | exact ⟨_, rfl⟩

/-- Declarations of the sample that are new ones: all of them. -/
example : ∀ m ∈ made sample, New sample m := by
  intro m hm
  refine .inr fun m' hm' _ _ => ?_
  have : ∀ m' ∈ made sample, m'.decl.what ≠ .forward ∧ ∀ s, m'.decl.what ≠ .proto s := by
    intro m' hm'
    simp only [made, sample, madeFrom, var, List.mem_cons, List.not_mem_nil, or_false, use, advance] at hm'
    rcases hm' with rfl | rfl | rfl | rfl | rfl | rfl | rfl | rfl | rfl | rfl <;> exact ⟨by simp, by simp⟩
  exact this m' hm'

end Examples

end Umka.Warn.Props
