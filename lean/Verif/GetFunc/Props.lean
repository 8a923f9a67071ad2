import Verif.GetFunc.Lemmas
import Verif.Paths.Props
/-!
# Looking up a function for the host: properties

C97: the host finds exactly the functions that the program declares.
-/

namespace Umka.GetFunc.Props

open Scope GetFunc.Spec

theorem isFn_iff {e : Scope.Spec.Entry} : isFn e.what = true ↔ IsFn e := by
  unfold isFn IsFn
  cases e.what <;> simp

/-- All that is left is one scope. -/
theorem one_scope {C : Compat} {ops : List Op} {S : Scope.Spec.State} {H : Host} (h : Compiled C ops S H) :
    ∃ s, S.scopes = [s] ∧ Inv H.env S ∧ glob S = s.entries ∧ Tidy S := by
  obtain ⟨o, hr⟩ := h.run
  obtain ⟨o', hs⟩ := h.spec
  obtain ⟨S', hS', hI⟩ := Scope.Props.reach_inv init_inv h.plain hr
  rw [hs] at hS'
  cases hS'
  have hl := rep_length hI.rep
  rw [h.left] at hl
  obtain ⟨s, hsc⟩ := List.length_eq_one_iff.mp hl
  exact ⟨s, hsc, hI, by unfold glob; rw [hsc]; rfl, run_tidy init_tidy h.universe' hs⟩

theorem global_iff {S : Scope.Spec.State} {s : Scope.Spec.Scope} (h : S.scopes = [s]) (e : Scope.Spec.Entry) : Global S e ↔ e ∈ s.entries := by
  unfold Global
  rw [h]
  simp

theorem getFuncIn_iff {C : Compat} {ops : List Op} {S : Scope.Spec.State} {H : Host} (h : Compiled C ops S H) (m : Nat) (name : String) (tag : Nat) :
    getFuncIn C H.env m name = .found tag ↔
      ∃ e, Declares S e m name ∧ e.tag = tag ∧ (m = 1 ∨ e.exported = true ∧ (1, m) ∈ S.imports) := by
  obtain ⟨s, hsc, hI, hg, hT⟩ := one_scope h
  have hmod : S.module = 1 := hI.module.trans h.main
  have hu := Scope.Props.uses_eq (C := C) hI ⟨m, .plain name, none, false⟩ ⟨name, rfl⟩
  have hu : (Except.ok (Out.found ((find C H.env ⟨m, .plain name, none, false⟩).map fun i => (i.tag, i.what, isOuterLocal H.env i))) : Except Err Out) = _ := hu
  have hu := Out.found.inj (Except.ok.inj hu)
  have hm : Scope.Spec.meaning C S ⟨m, .plain name, none, false⟩ =
      (s.entries.find? (Scope.Spec.denotes C S ⟨m, .plain name, none, false⟩)).map fun e => (e, false) := by
    unfold Scope.Spec.meaning
    rw [hsc, Scope.Spec.meaningIn]
    cases s.entries.find? (Scope.Spec.denotes C S ⟨m, .plain name, none, false⟩) <;> rfl
  rw [hm, Option.map_map] at hu
  have hden : ∀ e, Scope.Spec.denotes C S ⟨m, .plain name, none, false⟩ e = true ↔
      (e.name = .plain name ∧ e.what ≠ .module ∧ e.rcv = none) ∧
        ((e.module = 0 ∧ m = 1) ∨ (e.module = m ∧ m = 1) ∨ (e.module = m ∧ e.exported = true ∧ (1, m) ∈ S.imports)) := by
    intro e
    unfold Scope.Spec.denotes
    rw [decide_eq_true_eq]
    unfold Scope.Spec.Answers Scope.Spec.Visible
    rw [hmod]
    dsimp only
    refine and_congr (and_congr_right fun _ => and_congr ?_ ?_) (or_congr Iff.rfl (or_congr Iff.rfl ?_))
    · simp
    · cases e.rcv <;> simp
    · constructor
      · rintro ⟨h1, h2, h3⟩
        exact ⟨h1, h2, h3.elim (fun h => absurd rfl h) fun h => h1 ▸ h⟩
      · rintro ⟨h1, h2, h3⟩
        exact ⟨h1, h2, .inr (h1 ▸ h3)⟩
  have hun : ∀ e e', e ∈ s.entries → e' ∈ s.entries → Clash (key e) (key e') → e = e' := by
    intro e e' he he' hc
    have hp := hT.unique
    rw [hg, List.pairwise_map] at hp
    exact (pairwise_same (fun a b hab hc => hab (clash_symm hc)) hp he he').elim id fun hn => absurd hc hn
  have hin : getFuncIn C H.env m name = .found tag ↔
      ∃ e, s.entries.find? (Scope.Spec.denotes C S ⟨m, .plain name, none, false⟩) = some e ∧ isFn e.what = true ∧ e.tag = tag := by
    unfold getFuncIn
    cases hf : find C H.env ⟨m, .plain name, none, false⟩ with
    | none =>
      rw [hf] at hu
      cases hx : s.entries.find? (Scope.Spec.denotes C S ⟨m, .plain name, none, false⟩) with
      | none => simp
      | some e => rw [hx] at hu; cases hu
    | some i =>
      rw [hf] at hu
      cases hx : s.entries.find? (Scope.Spec.denotes C S ⟨m, .plain name, none, false⟩) with
      | none => rw [hx] at hu; cases hu
      | some e =>
        rw [hx] at hu
        have hu := Option.some.inj hu
        have ht : i.tag = e.tag := congrArg (·.1) hu
        have hw : i.what = e.what := congrArg (·.2.1) hu
        dsimp only
        rw [ht, hw]
        constructor
        · intro hfn
          split at hfn
          · rename_i hfn'
            exact ⟨e, rfl, hfn', Answer.found.inj hfn⟩
          · cases hfn
        · rintro ⟨e', he', hfn, htag⟩
          cases he'
          rw [if_pos hfn, htag]
  rw [hin]
  constructor
  · rintro ⟨e, hf, hfn, htag⟩
    have hmem := List.mem_of_find?_eq_some hf
    obtain ⟨⟨h1, _, h3⟩, h4⟩ := (hden e).mp (List.find?_some hf)
    have hGl := (global_iff hsc e).mpr hmem
    have hF := isFn_iff.mp hfn
    rcases h4 with h4 | h4 | h4
    · exact absurd hF (h.predeclared e hGl h4.1)
    · exact ⟨e, ⟨hGl, h4.1, h1, hF, h3⟩, htag, .inl h4.2⟩
    · exact ⟨e, ⟨hGl, h4.1, h1, hF, h3⟩, htag, .inr h4.2⟩
  · rintro ⟨e, hD, htag, hv⟩
    have hmem := (global_iff hsc e).mp hD.global
    have hnm : e.what ≠ .module := by
      rcases hD.fn with ⟨sig, hf⟩ | ⟨sig, hf⟩ <;> rw [hf] <;> exact fun e => (nomatch e)
    have hde : Scope.Spec.denotes C S ⟨m, .plain name, none, false⟩ e = true :=
      (hden e).mpr ⟨⟨hD.name, hnm, hD.noMethod⟩, hv.elim (fun h1 => .inr (.inl ⟨hD.module, h1⟩)) fun h2 => .inr (.inr ⟨hD.module, h2⟩)⟩
    refine ⟨e, ?_, isFn_iff.mpr hD.fn, htag⟩
    cases hx : s.entries.find? (Scope.Spec.denotes C S ⟨m, .plain name, none, false⟩) with
    | none => exact absurd hde (List.find?_eq_none.mp hx e hmem)
    | some e' =>
      have hmem' := List.mem_of_find?_eq_some hx
      obtain ⟨⟨h1, h2, h3⟩, h4⟩ := (hden e').mp (List.find?_some hx)
      refine congrArg some (hun e' e hmem' hmem ⟨h1.trans hD.name.symm, h3, hD.noMethod, ?_, ?_⟩)
      · show (e'.what == .module) = (e.what == .module)
        rw [beq_eq_false_iff_ne.mpr h2, beq_eq_false_iff_ne.mpr hnm]
      · show e'.module = e.module ∨ e'.module = 0 ∨ e.module = 0
        rw [hD.module]
        rcases h4 with h4 | h4 | h4
        · exact .inr (.inl h4.1)
        · exact .inl h4.1
        · exact .inl h4.1

theorem moduleFind_iff {paths : List (List Char)} (h : paths.Nodup) (path : List Char) (m : Nat) : moduleFind paths path = some m ↔ paths[m]? = some path := by
  unfold moduleFind
  rw [List.findIdx?_eq_some_iff_getElem]
  constructor
  · rintro ⟨hlt, h1, _⟩
    rw [List.getElem?_eq_getElem hlt, beq_iff_eq.mp h1]
  · intro h1
    obtain ⟨hlt, h2⟩ := List.getElem?_eq_some_iff.mp h1
    refine ⟨hlt, beq_iff_eq.mpr h2, fun j hj hb => ?_⟩
    have : paths[j] = paths[m] := (beq_iff_eq.mp hb).trans h2.symm
    exact List.pairwise_iff_getElem.mp h j m _ hlt hj this

/-- **C97, as far as the main module sees it**: the host gets a function iff the module declares one of that name at its top level, and the module is the main module,
or the function is exported and the main module imports its module; and it is that function.  Methods, variables, types, local and built-in functions of that name
are never taken for it.  Missing: functions of other modules (`C97_indirect_violated`), module names that are no paths (`C97_path_violated`). -/
theorem C97_found_partial {C : Compat} {ops : List Op} {S : Scope.Spec.State} {H : Host} (h : Compiled C ops S H) (module : Option (List Char)) (name : String)
    (tag : Nat) :
    getFunc C H module name = .found tag ↔
      ∃ m e, Names H module m ∧ Declares S e m name ∧ e.tag = tag ∧ (m = 1 ∨ e.exported = true ∧ (1, m) ∈ S.imports) := by
  cases module with
  | none =>
    show getFuncIn C H.env 1 name = .found tag ↔ _
    rw [getFuncIn_iff h]
    constructor
    · rintro ⟨e, h1⟩; exact ⟨1, e, rfl, h1⟩
    · rintro ⟨m, e, rfl, h1⟩; exact ⟨e, h1⟩
  | some p =>
    unfold getFunc Names
    dsimp only
    cases hp : Paths.regularize p H.folder pathSize with
    | none => simp
    | some path =>
      dsimp only
      cases hm : moduleFind H.paths path with
      | none =>
        dsimp only
        constructor
        · intro hc; cases hc
        · rintro ⟨m, e, ⟨path', he, hi⟩, _⟩
          cases he
          rw [(moduleFind_iff h.paths path m).mpr hi] at hm
          cases hm
      | some m =>
        dsimp only
        rw [getFuncIn_iff h]
        constructor
        · rintro ⟨e, h1⟩
          exact ⟨m, e, ⟨path, rfl, (moduleFind_iff h.paths path m).mp hm⟩, h1⟩
        · rintro ⟨m', e, ⟨path', he, hi⟩, h1⟩
          cases he
          rw [(moduleFind_iff h.paths path m').mpr hi] at hm
          cases hm
          exact ⟨e, h1⟩

/-- **C97**: in the main module every function is found, exported or not, and no name has two. -/
theorem C97_main {C : Compat} {ops : List Op} {S : Scope.Spec.State} {H : Host} (h : Compiled C ops S H) (name : String) (tag : Nat) :
    getFunc C H none name = .found tag ↔ ∃ e, Declares S e 1 name ∧ e.tag = tag := by
  rw [C97_found_partial h]
  constructor
  · rintro ⟨m, e, rfl, h1, h2, _⟩; exact ⟨e, h1, h2⟩
  · rintro ⟨e, h1, h2⟩; exact ⟨1, e, rfl, h1, h2, .inl rfl⟩

/-- **C97**: it does not matter how the path of the module is written, as long as it names the same file. -/
theorem C97_spelling {C : Compat} (H : Host) (p p' : List Char) (name : String) (hp : Paths.OrdinaryPath p) (hp' : Paths.OrdinaryPath p')
    (hl : p.length + 1 < 256) (hl' : p'.length + 1 < 256) (h : Paths.denotes ('/' :: p) = Paths.denotes ('/' :: p')) :
    getFunc C H (some ('/' :: p)) name = getFunc C H (some ('/' :: p')) name := by
  have := (Paths.Props.C40_same_file p p' H.folder 256 hp hp' hl hl').mpr h
  unfold getFunc pathSize
  dsimp only
  rw [this]

/-- **C97**: unless the name of the module is no path, the answer is defined. -/
theorem C97_defined {C : Compat} (H : Host) (module : Option (List Char)) (name : String)
    (h : ∀ p, module = some p → Paths.regularize p H.folder pathSize ≠ none) : getFunc C H module name ≠ .undefined := by
  have hin : ∀ m, getFuncIn C H.env m name ≠ .undefined := by
    intro m
    unfold getFuncIn
    cases find C H.env ⟨m, .plain name, none, false⟩ with
    | none => exact fun e => (nomatch e)
    | some i =>
      dsimp only
      split <;> exact fun e => (nomatch e)
  cases module with
  | none => exact hin 1
  | some p =>
    unfold getFunc
    dsimp only
    cases hp : Paths.regularize p H.folder pathSize with
    | none => exact absurd hp (h p rfl)
    | some path =>
      dsimp only
      cases moduleFind H.paths path with
      | none => exact fun e => (nomatch e)
      | some m => exact hin m

/-- **C97 is violated**: for a module name that leads up from the root the interpreter jumps to a function that has returned, for every program. -/
theorem C97_path_violated (C : Compat) (H : Host) (name : String) : getFunc C H (some "/../lib.um".toList) name = .undefined := by
  have hp : Paths.regularize "/../lib.um".toList H.folder pathSize = none := by
    have ha : Paths.absolutePath "/../lib.um".toList H.folder pathSize = "/../lib.um".toList := by
      unfold Paths.absolutePath
      rw [if_pos (by decide)]
      decide
    unfold Paths.regularize
    rw [ha]
    decide +kernel
  unfold getFunc
  dsimp only
  rw [hp]

/-! ## Example -/

/-- Types are compatible iff equal. -/
def strict : Compat := ⟨(· == ·), (· == ·)⟩

/-- The main module imports `a.um` (2), which imports `b.um` (3).  Functions: `run` of the main module (at 20), with a method (21) and a local variable (22) of the
same name; `open` of `a.um`, exported (10), and `helper`, not exported (11); `deep` of `b.um`, exported (5). -/
def exampleOps : List Op :=
  [.declare ⟨0, .plain "printf", .other, none, true⟩, .switchModule 1, .switchModule 2, .switchModule 3, .declare ⟨5, .plain "deep", .fn 0, none, true⟩,
   .switchModule 2, .imported 3, .declare ⟨6, .plain "b", .module, none, false⟩, .declare ⟨10, .plain "open", .fn 0, none, true⟩,
   .declare ⟨11, .plain "helper", .fn 0, none, false⟩, .switchModule 1, .imported 2, .declare ⟨12, .plain "a", .module, none, false⟩,
   .declare ⟨21, .plain "run", .fn 0, some 4, false⟩, .declare ⟨20, .plain "run", .fn 0, none, false⟩, .enter true,
   .declare ⟨22, .plain "run", .var, none, false⟩, .leave]

def exampleEnv : Env := match run strict Scope.init exampleOps with
  | .ok (E, _) => E
  | .error _ => Scope.init

def exampleState : Scope.Spec.State := match Scope.Spec.run strict Scope.Spec.init exampleOps with
  | .ok (S, _) => S
  | .error _ => Scope.Spec.init

def exampleHost : Host := ⟨exampleEnv, "/home/".toList, ["#universe".toList, "/home/main.um".toList, "/home/a.um".toList, "/home/b.um".toList]⟩

def exampleEntries : List Scope.Spec.Entry :=
  [⟨20, .plain "run", .fn 0, none, 1, false⟩, ⟨21, .plain "run", .fn 0, some 4, 1, false⟩, ⟨12, .plain "a", .module, none, 1, false⟩,
   ⟨11, .plain "helper", .fn 0, none, 2, false⟩, ⟨10, .plain "open", .fn 0, none, 2, true⟩, ⟨6, .plain "b", .module, none, 2, false⟩,
   ⟨5, .plain "deep", .fn 0, none, 3, true⟩, ⟨0, .plain "printf", .other, none, 0, true⟩]

theorem exampleState_eq : exampleState = ⟨[⟨false, exampleEntries⟩], 1, [(1, 2), (2, 3)]⟩ := rfl

theorem example_global (e : Scope.Spec.Entry) : Global exampleState e ↔ e ∈ exampleEntries := by
  rw [exampleState_eq]
  exact global_iff (s := ⟨false, exampleEntries⟩) rfl e

theorem example_compiled : Compiled strict exampleOps exampleState exampleHost where
  plain := by
    intro op hop
    simp only [exampleOps, List.mem_cons, List.not_mem_nil, or_false] at hop
    rcases hop with rfl | rfl | rfl | rfl | rfl | rfl | rfl | rfl | rfl | rfl | rfl | rfl | rfl | rfl | rfl | rfl | rfl | rfl <;>
      first | trivial | exact ⟨_, rfl⟩
  run := ⟨List.replicate 18 .unit, rfl⟩
  left := rfl
  main := rfl
  spec := ⟨List.replicate 18 .unit, rfl⟩
  universe' := by
    intro op hop
    simp only [exampleOps, List.mem_cons, List.not_mem_nil, or_false] at hop
    rcases hop with rfl | rfl | rfl | rfl | rfl | rfl | rfl | rfl | rfl | rfl | rfl | rfl | rfl | rfl | rfl | rfl | rfl | rfl <;> exact fun e => (nomatch e)
  predeclared := by
    intro e he hm hf
    rw [example_global] at he
    simp only [exampleEntries, List.mem_cons, List.not_mem_nil, or_false] at he
    rcases he with rfl | rfl | rfl | rfl | rfl | rfl | rfl | rfl <;> first | exact absurd hm (by decide) | (rcases hf with ⟨_, hf⟩ | ⟨_, hf⟩ <;> exact nomatch hf)
  paths := by decide

/-- The function `run` of the main module, the exported function of `a.um`, nothing else. -/
example : getFunc strict exampleHost none "run" = .found 20 :=
  (C97_main example_compiled "run" 20).mpr ⟨⟨20, .plain "run", .fn 0, none, 1, false⟩, ⟨(example_global _).mpr (List.mem_cons_self ..), rfl, rfl, .inl ⟨0, rfl⟩, rfl⟩, rfl⟩

example : getFunc strict exampleHost (some "./a.um".toList) "open" = .found 10 := by decide +kernel
example : getFunc strict exampleHost (some "a.um".toList) "helper" = .none := by decide +kernel
example : getFunc strict exampleHost none "printf" = .none := by decide +kernel
example : getFunc strict exampleHost none "open" = .none := by decide +kernel
example : getFunc strict exampleHost (some "c.um".toList) "open" = .none := by decide +kernel

/-- `/lib/./a/../std.um` is `/lib/std.um`. -/
theorem plainOrdinary : Paths.OrdinaryPath "lib/std.um".toList := by
  have hin : ∀ (l : List Char), ' ' ∉ l → '\t' ∉ l → ∀ a c b, l = a ++ '.' :: c :: b → ¬ (c = ' ' ∨ c = '\t') := by
    intro l h1 h2 a c b e hc
    subst e
    rcases hc with hc | hc <;> subst hc
    · exact h1 (by simp)
    · exact h2 (by simp)
  have h1 : Paths.Ordinary ['l', 'i', 'b'] := ⟨⟨'l', by simp, by decide⟩, by decide, hin _ (by decide) (by decide)⟩
  have h2 : Paths.Ordinary ['s', 't', 'd', '.', 'u', 'm'] := ⟨⟨'s', by simp, by decide⟩, by decide, hin _ (by decide) (by decide)⟩
  have hc : Paths.components "lib/std.um".toList = [['l', 'i', 'b'], ['s', 't', 'd', '.', 'u', 'm']] := by decide
  refine ⟨?_, [['l', 'i', 'b']], _, hc, h2⟩
  rw [hc]
  intro w hw
  simp only [List.mem_cons, List.not_mem_nil, or_false] at hw
  rcases hw with rfl | rfl
  · exact .inl h1
  · exact .inl h2

example : getFunc strict exampleHost (some "/lib/./a/../std.um".toList) "open" = getFunc strict exampleHost (some "/lib/std.um".toList) "open" :=
  C97_spelling exampleHost _ _ "open" Paths.Props.exampleOrdinary plainOrdinary (by decide) (by decide) (by decide +kernel)

example : getFunc strict exampleHost (some "a.um".toList) "open" ≠ .undefined :=
  C97_defined exampleHost _ _ fun p hp => by cases hp; decide +kernel

/-- **C97 is violated**: an exported function of a module that the program consists of is not found, if the main module does not import that module itself. -/
theorem C97_indirect_violated :
    ∃ C ops S H module name m e, Compiled C ops S H ∧ Names H module m ∧ Declares S e m name ∧ e.exported = true ∧ getFunc C H module name = .none := by
  refine ⟨strict, exampleOps, exampleState, exampleHost, some "b.um".toList, "deep", 3, ⟨5, .plain "deep", .fn 0, none, 3, true⟩, example_compiled, ?_, ?_, rfl, ?_⟩
  · exact ⟨"/home/b.um".toList, by decide +kernel, rfl⟩
  · refine ⟨(example_global _).mpr ?_, rfl, rfl, .inl ⟨0, rfl⟩, rfl⟩
    simp [exampleEntries]
  · decide +kernel

end Umka.GetFunc.Props
