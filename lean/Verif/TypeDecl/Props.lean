import Verif.TypeDecl.Hist

/-!
# Type declarations: property theorems (C77-C80)

`run init ops = .ok s` says that `s` is what the compiler knows after the first operations of a program.
-/

namespace Umka.TypeDecl.Props
open Spec

/-! ## For examples -/

/-- What the compiler knows after the operations. -/
def after (ops : List Op) : State :=
  match run init ops with
  | .ok s => s
  | .error _ => init

def errorOf {α : Type} : Res α → Option Err
  | .ok _ => none
  | .error e => some e

theorem run_after {ops : List Op} (h : errorOf (run init ops) = none) : run init ops = .ok (after ops) := by
  unfold after
  cases hr : run init ops with
  | ok s => rfl
  | error e => rw [hr] at h; cases h

theorem of_errorOf {α : Type} {r : Res α} {e : Err} (h : errorOf r = some e) : r = .error e := by
  cases r with
  | ok s => cases h
  | error e' => injection h with h; rw [h]

theorem group_after {g : List (Name × TE)} (h : errorOf (run init [.types g]) = none) :
    declGroup init g = .ok (after [.types g]) := by
  have := run_after h
  rw [run] at this
  split at this
  · cases this
  · rename_i s1 h1
    rw [run] at this
    injection this with this
    rw [← this]; exact h1

theorem ok_of_errorOf {α : Type} {r : Res α} (h : errorOf r = none) : ∃ s, r = .ok s := by
  cases r with
  | ok s => exact ⟨s, rfl⟩
  | error e' => cases h

/-! ## C77: declared types mean what is written -/

/-- **C77**: after an accepted list `type (...; x = t; ...)` the name `x` is a type that is as `t` says, for names that are
declared before, later, or outside of the block. -/
theorem C77_declared_type_is_as_written {ops : List Op} {s s' : State} {pre post : List (Name × TE)} {x : Name} {t : TE}
    (hr : run init ops = .ok s) (hg : declGroup s (pre ++ (x, t) :: post) = .ok s') (hx : x ∉ post.map Prod.fst) :
    ∃ e, find s'.cur x = some (.type e) ∧ isForward (s'.get e).body = false ∧
      Declares (graph s') (Refers (fun y => find s.cur y ≠ none ∨ y ∈ pre.map Prod.fst) (find s'.cur)
        (findOuter s.outer)) t e :=
  group_means (run_ready init_ready hr) hg hx

/-- **C77**: a type that is written anywhere else is as it says, all names being those visible there. -/
theorem C77_used_type_is_as_written {ops : List Op} {s s' : State} {t : TE} {i : Id} (hr : run init ops = .ok s)
    (hp : parse false t s = .ok (i, s')) :
    Means (graph s') (fun x j => s.lookup x = some (.type j)) t i := by
  obtain ⟨_, _, k⟩ := parse_post false t s s' i (run_ready init_ready hr).inv hp
  have hs := (parse_uses t s s' i hp).1
  exact Means.mono (fun _ _ => rfl) (fun x j hx => by rw [← hs.lookup]; exact hx) t i k

/-- **C77**: whatever the program does later, a type stays what it is. -/
theorem C77_types_stay {ops ops' : List Op} {s s' : State} (hr : run init ops = .ok s) (hr' : run s ops' = .ok s')
    {i : Id} (hi : i < s.nodes.length) : s'.get i = s.get i :=
  run_keeps (run_ready init_ready hr) hr' i hi

/-- **C77** (partial): functions have a hidden parameter for the result exactly if the result is of a structured type.  This holds
of programs in which the names that are used for results of functions before they are declared, in the same list,
are names of structured types; see the violation. -/
theorem C77_result_parameter_partial {ops : List Op} {s : State} (hr : run init ops = .ok s)
    (ha : Along ResultsStructured init ops) (i : Id) (sig : Sig) (hs : sig ∈ signatures (s.get i).body) :
    ResultParamOk (graph s) sig :=
  (run_sigs init_ready sigs_init ha hr i sig hs).spec

/-- `type (P = ^B; F = fn (): B; B = int)` -/
def lateResult : List (Name × TE) :=
  [("P", .ptr false (.name "B")), ("F", .fn (.mk .nil (.single (.name "B")))), ("B", .name "int")]

/-- **C77** (violated): `type (P = ^B; F = fn (): B; B = int)` is accepted, and functions of type `F` have a hidden parameter
for a result of type `int`, unlike functions of type `fn (): int`. -/
theorem C77_result_parameter_violated :
    ∃ s f sig r, run init [.types lateResult] = .ok s ∧ find s.cur "F" = some (.type f) ∧
      (s.get f).body = .closure sig ∧ sig.result = some r ∧ (s.get r).body = .scalar "int" 8 ∧ sig.resultParam = true := by
  refine ⟨_, 20, ⟨[], some 16, true⟩, 16, run_after (ops := [.types lateResult]) (by decide +kernel), ?_, ?_, rfl, ?_, rfl⟩ <;> decide +kernel

/-- `type (List = struct {head: ^Item; n: int}; Item = struct {next: ^Item; list: ^List}; Find = fn (l: ^List, x: str): Item)` -/
def lists : List (Name × TE) :=
  [("List", .struct (.cons ["head"] (.ptr false (.name "Item")) (.cons ["n"] (.name "int") .nil))),
   ("Item", .struct (.cons ["next"] (.ptr false (.name "Item")) (.cons ["list"] (.ptr true (.name "List")) .nil))),
   ("Find", .fn (.mk (.cons ["l"] (.ptr false (.name "List")) (.cons ["x"] (.name "str") .nil)) (.single (.name "Item"))))]

/-- The hypotheses can be met: a list of declarations with types that refer to each other. -/
example : ∃ s, run init [.types lists] = .ok s ∧
    find s.cur "List" = some (.type 19) ∧ (s.get 19).body = .struct [("head", 17), ("n", 4)] ∧
    (s.get 17).body = .ptr false 16 ∧ find s.cur "Item" = some (.type 16) ∧
    (s.get 16).body = .struct [("next", 20), ("list", 21)] ∧ (s.get 20).body = .ptr false 16 ∧
    (s.get 21).body = .ptr true 19 := by
  refine ⟨_, run_after (by decide +kernel), ?_, ?_, ?_, ?_, ?_, ?_, ?_⟩ <;> decide +kernel

example : ∃ s, run init [.types lists] = .ok s ∧ Along ResultsStructured init [.types lists] ∧
    ∃ i sig, sig ∈ signatures (s.get i).body ∧ sig.resultParam = true := by
  refine ⟨_, run_after (by decide +kernel), ?_, 25, ⟨[("l", 24), ("x", 13)], some 16, true⟩, by decide +kernel, rfl⟩
  intro s' hs
  refine ⟨?_, trivial⟩
  intro pre x t post hop hx e he
  have hs : after [.types lists] = s' := by
    have := group_after (g := lists) (by decide +kernel)
    have hs : declGroup init lists = .ok s' := hs
    rw [this] at hs
    injection hs
  have hmem : x ∈ ["List", "Item", "Find"] := by
    injection hop with hop
    have : x ∈ lists.map Prod.fst := by
      rw [hop, List.map_append]
      exact List.mem_append_right _ (List.mem_cons_self ..)
    exact this
  have key : ∀ y ∈ ["List", "Item", "Find"], (match find s'.cur y with
      | some (.type e) => structured (s'.get e).body | _ => false) = true := by
    rw [← hs]; decide +kernel
  have := key x hmem
  rw [he] at this
  exact structured_iff.mp this

/-! ## C78: declared types are complete, finite and of the right size -/

/-- **C78**: between declarations no type is left undeclared, and every type has the size and the alignment of its layout, or
it is an array of no items and has size 0. -/
theorem C78_complete_and_sized {ops : List Op} {s : State} (hr : run init ops = .ok s) {i : Id} (hi : i < s.nodes.length) :
    isForward (s.get i).body = false ∧
    ∃ sz al : Nat, (s.get i).size = sz ∧ (s.get i).alignment = al ∧
      ((0 < al ∧ HasLayout (graph s) i sz al) ∨ (sz = 0 ∧ al = 0 ∧ Spec.Empty (graph s) i)) := by
  have h := run_ready init_ready hr
  exact ⟨h.complete i hi, (h.inv.ok.good i (h.complete i hi)).1⟩

/-- **C78**: no type contains itself, at any depth. -/
theorem C78_finite {ops : List Op} {s : State} (hr : run init ops = .ok s) (i : Id) :
    ¬ ContainsDeep (graph s) i i := by
  by_cases hi : i < s.nodes.length
  · exact acc_irrefl ((run_ready init_ready hr).acc hi)
  · have : graph s i = .forward false := by
      unfold graph State.get
      rw [List.getD_eq_getElem?_getD, List.getElem?_eq_none (Nat.le_of_not_lt hi)]; rfl
    intro hc
    have no : ∀ {j}, ¬ Contains (graph s) i j := by
      intro j hj
      cases hj with
      | item h1 _ => rw [this] at h1; cases h1
      | field h1 _ => rw [this] at h1; cases h1
    cases hc with
    | one h => exact no h
    | more h _ => exact no h

/-- **C78**: if the values of a type hold references, at any depth, it is marked as such (so that they are counted). -/
theorem C78_references_marked {ops : List Op} {s : State} (hr : run init ops = .ok s) {i : Id} (hi : i < s.nodes.length)
    (hh : HoldsRef (graph s) i) : (s.get i).gc = true := by
  have h := run_ready init_ready hr
  rcases hh with hh | ⟨j, h1, h2⟩
  · exact ref_marked h.inv.ok (h.complete i hi) hh
  · obtain ⟨a, b⟩ := deep_marked h.inv.ok h1 (h.complete i hi)
    exact b (ref_marked h.inv.ok a h2)

/-- **C78**: in programs that keep the documented rule (`KeepsOrder`) all types can be used for fields: sizes and alignments are those of
the layout. -/
theorem C78_layout_partial {ops : List Op} {s : State} (hr : run init ops = .ok s) (ha : Along KeepsOrder init ops)
    {i : Id} (hi : i < s.nodes.length) :
    ∃ sz al : Nat, (s.get i).size = sz ∧ (s.get i).alignment = al ∧ 0 < al ∧ HasLayout (graph s) i sz al := by
  have h := run_ready init_ready hr
  obtain ⟨hf, sz, al, h1, h2, h3⟩ := C78_complete_and_sized hr hi
  have hc := run_clean init_ready init_clean ha hr i hf
  rcases h3 with h3 | h3
  · exact ⟨sz, al, h1, h2, h3⟩
  · rw [h2, h3.2.1] at hc; exact absurd hc (by decide)

/-- **C78**: fields, methods and parameters have different names, fields are not void, functions have no more than 16 parameters
(with the hidden ones). -/
theorem C78_tidy {ops : List Op} {s : State} (hr : run init ops = .ok s) (i : Id) : Tidy (graph s) (s.get i).body :=
  run_tidy init_ready init_tidy hr i

/-- `type (P = ^B; Z = [0]B; B = int)` -/
def lateItems : List (Name × TE) :=
  [("P", .ptr false (.name "B")), ("Z", .arr 0 (.name "B")), ("B", .name "int")]

/-- **C78** (violated): after `type (P = ^B; Z = [0]B; B = int)` the alignment of `Z` is 0, and `struct {z: Z}` is refused ("illegal type"); after `type (B = int; Z = [0]B)` it is
accepted. -/
theorem C78_layout_violated :
    (∃ s z, run init [.types lateItems] = .ok s ∧ find s.cur "Z" = some (.type z) ∧ (s.get z).alignment = 0 ∧
      parse false (.struct (.cons ["z"] (.name "Z") .nil)) s = .error .illegalType) ∧
    (∃ s i s', run init [.types [("B", .name "int"), ("Z", .arr 0 (.name "B"))]] = .ok s ∧
      parse false (.struct (.cons ["z"] (.name "Z") .nil)) s = .ok (i, s')) := by
  refine ⟨⟨_, 20, run_after (ops := [.types lateItems]) (by decide +kernel), by decide +kernel, by decide +kernel,
    of_errorOf (by decide +kernel)⟩, ?_⟩
  obtain ⟨⟨i, s'⟩, h⟩ := ok_of_errorOf (r := parse false (.struct (.cons ["z"] (.name "Z") .nil))
    (after [.types [("B", .name "int"), ("Z", .arr 0 (.name "B"))]])) (by decide +kernel)
  exact ⟨_, i, s', run_after (by decide +kernel), h⟩

/-- `type (P = ^V; A = []V; V = void)` -/
def lateVoid : List (Name × TE) := [("A", .dyn false (.name "V")), ("V", .name "void")]

/-- **C78** (violated): arrays of `void` items are refused, unless the name of the item type is declared later. -/
theorem C78_void_items_violated :
    (∀ s, run init [.types [("V", .name "void")]] = .ok s → parse false (.dyn false (.name "V")) s = .error .voidItems) ∧
    (∃ s a v, run init [.types lateVoid] = .ok s ∧ find s.cur "A" = some (.type a) ∧ (s.get a).body = .dyn false v ∧
      (s.get v).body = .void) := by
  refine ⟨?_, _, 18, 16, run_after (ops := [.types lateVoid]) (by decide +kernel), ?_, ?_, ?_⟩
  · intro s hs
    rw [run_after (by decide +kernel)] at hs
    injection hs with hs
    rw [← hs]
    exact of_errorOf (by decide +kernel)
  all_goals decide +kernel

/-- `type (A = struct {b: bool; items: [3]^A; x: real32})` -/
def nested : List (Name × TE) :=
  [("A", .struct (.cons ["b"] (.name "bool") (.cons ["items"] (.arr 3 (.ptr false (.name "A")))
    (.cons ["x"] (.name "real32") .nil))))]

/-- The hypotheses can be met: a type that refers to itself, with a layout and a reference inside. -/
example : ∃ s, run init [.types nested] = .ok s ∧ find s.cur "A" = some (.type 16) ∧ (s.get 16).size = 40 ∧
    (s.get 16).alignment = 8 ∧ (s.get 16).gc = true ∧ HoldsRef (graph s) 16 ∧ 16 < s.nodes.length := by
  refine ⟨_, run_after (by decide +kernel), ?_, ?_, ?_, ?_, ?_, ?_⟩
  · decide +kernel
  · decide +kernel
  · decide +kernel
  · decide +kernel
  · refine .inr ⟨17, .more (j := 18) (.field (fs := [("b", 9), ("items", 18), ("x", 11)]) (x := "items") ?_ ?_)
      (.one (.item (n := 3) ?_ (by decide))), ?_⟩
    · decide +kernel
    · decide +kernel
    · decide +kernel
    · show IsRef (.ptr false 16); trivial
  · decide +kernel

/-- A structure cannot contain itself: the declaration is refused. -/
example : run init [.types [("P", .ptr false (.name "A")), ("A", .struct (.cons ["a"] (.name "A") .nil))]] =
    .error (.forwardField "a") := of_errorOf (by decide +kernel)

/-! ## C79: types used before they are declared -/

/-- **C79** (partial): in an accepted list, names of types of fields and of items of result lists, items of arrays that have items, keys of maps and
embedded interfaces (at any depth) are visible before the list or declared earlier in it.  Not covered: items of arrays without items and names that are whole
declarations (`x = y`), which need not be. -/
theorem C79_declared_before_partial {ops : List Op} {s s' : State} {pre post : List (Name × TE)} {x : Name} {t : TE}
    (hr : run init ops = .ok s) (hg : declGroup s (pre ++ (x, t) :: post) = .ok s') {y : Name} (hy : y ∈ strict t) :
    s.lookup y ≠ none ∨ y ∈ pre.map Prod.fst :=
  group_strict (run_ready init_ready hr) (declGroup_ok hg).1 hy

/-- **C79**: outside of lists of declarations, all names must be visible. -/
theorem C79_elsewhere_declared_before {s s' : State} {t : TE} (hu : step s (.use t) = .ok s') :
    ∀ y ∈ mentions t, s.lookup y ≠ none := by
  rw [step] at hu
  split at hu
  · cases hu
  · rename_i i s1 h1
    exact (parse_uses t s s1 i h1).2

/-- **C79** (partial): a program in which every list of declarations keeps the documented rule, `InOrder`, is never refused because of the order of
declarations: if the list `g` is refused, it is for another reason, or a type that it mentions is nowhere declared, or - the part in which the rule is
violated - a type that was used for the result of a function is declared by a name or as a pointer. -/
theorem C79_in_order_accepted_partial {ops : List Op} {s : State} {g : List (Name × TE)} {e : Err}
    (hr : run init ops = .ok s) (ha : Along KeepsOrder init ops) (hg : InOrder (fun y => s.lookup y ≠ none) g)
    (he : declGroup s g = .error e) :
    (∀ y, e ≠ .unknownIdent y) ∧ (∀ y, e ≠ .forwardField y) ∧ e ≠ .illegalType ∧
    (e = .unresolvedForward → ∃ p ∈ g, ∃ y ∈ mentions p.2, s.lookup y = none ∧ y ∉ g.map Prod.fst) ∧
    (∀ x, e = .mustBeStructured x → ∃ pre t post, g = pre ++ (x, t) :: post ∧ writtenStructured t = false ∧
      ∃ p ∈ pre ++ [(x, t)], x ∈ results p.2) := by
  have h := run_ready init_ready hr
  rcases group_errors h (run_clean init_ready init_clean ha hr) hg he with k | ⟨k1, k2⟩ | ⟨pre, x, t, post, k1, k2, k3, k4⟩
  · refine ⟨fun y hh => ?_, fun y hh => ?_, fun hh => ?_, fun hh => ?_, fun y hh => ?_⟩ <;> subst hh <;> exact False.elim k
  · subst k1
    exact ⟨fun y hh => (nomatch hh), fun y hh => (nomatch hh), fun hh => (nomatch hh), fun _ => k2, fun y hh => (nomatch hh)⟩
  · subst k2
    refine ⟨fun y hh => (nomatch hh), fun y hh => (nomatch hh), fun hh => (nomatch hh), fun hh => (nomatch hh), fun y hh => ?_⟩
    injection hh with hh
    subst hh
    exact ⟨pre, t, post, k1, k3, k4⟩

/-- **C79**: in such a program a type all names of which are visible is never refused because of the order of declarations. -/
theorem C79_elsewhere_accepted {ops : List Op} {s : State} {t : TE} {e : Err}
    (hr : run init ops = .ok s) (ha : Along KeepsOrder init ops) (hv : ∀ y ∈ mentions t, s.lookup y ≠ none)
    (he : step s (.use t) = .error e) :
    (∀ y, e ≠ .unknownIdent y) ∧ (∀ y, e ≠ .forwardField y) ∧ e ≠ .illegalType ∧ e ≠ .unresolvedForward ∧
    (∀ x, e ≠ .mustBeStructured x) := by
  have h := run_ready init_ready hr
  have k := use_fine h (run_clean init_ready init_clean ha hr) hv
  rw [step] at he
  split at he
  · rename_i e' h1
    injection he with he
    subst he
    rw [h1] at k
    refine ⟨fun y hh => ?_, fun y hh => ?_, fun hh => ?_, fun hh => ?_, fun y hh => ?_⟩ <;> subst hh <;> exact False.elim k
  · cases he

/-- **C79** (violated): `type (F = fn (): B; B = int)` keeps the documented rule (`B` is used only as the type of a returned value), and is
refused. -/
theorem C79_late_result_violated :
    InOrder (fun y => init.lookup y ≠ none) [("F", .fn (.mk .nil (.single (.name "B")))), ("B", .name "int")] ∧
    declGroup init [("F", .fn (.mk .nil (.single (.name "B")))), ("B", .name "int")] = .error (.mustBeStructured "B") := by
  refine ⟨?_, of_errorOf (by decide +kernel)⟩
  intro pre x t post hh y hy
  match pre with
  | [] =>
    injection hh with h1 h2
    injection h1 with _ h1
    subst h1
    rw [show needs (.fn (.mk .nil (.single (.name "B")))) = [] by decide] at hy
    cases hy
  | [p] =>
    injection hh with _ hh
    injection hh with h1 _
    injection h1 with _ h1
    subst h1
    rw [List.mem_singleton.mp hy]
    exact .inl (by decide)
  | p :: q :: pre =>
    injection hh with _ hh
    injection hh with _ hh
    exact absurd hh (by cases pre <;> exact fun h => (nomatch h))

/-- **C79** (violated): `type (M = map[[]B]int; B = int)` uses `B` only as the base type of a dynamic array, and is refused; it is accepted with the
declarations in the other order. -/
theorem C79_late_key_violated :
    declGroup init [("M", .map (.dyn false (.name "B")) (.name "int")), ("B", .name "int")] = .error .keyNotComparable ∧
    needs (.map (.dyn false (.name "B")) (.name "int")) = [] ∧
    ∃ s, declGroup init [("B", .name "int"), ("M", .map (.dyn false (.name "B")) (.name "int"))] = .ok s := by
  refine ⟨of_errorOf (by decide +kernel), by decide, ok_of_errorOf (by decide +kernel)⟩

/-- **C79** (violated): `type (P = ^B; Z = [0]B; C = B; B = int)` uses `B` as the item type of an array and as a whole declaration before it
is declared, and is accepted. -/
theorem C79_early_use_violated :
    (∃ s, declGroup init [("P", .ptr false (.name "B")), ("Z", .arr 0 (.name "B")), ("B", .name "int")] = .ok s) ∧
    "B" ∈ needs (.arr 0 (.name "B")) ∧ init.lookup "B" = none ∧
    (∃ s c b, declGroup init [("P", .ptr false (.name "B")), ("C", .name "B"), ("B", .name "int"), ("C", .name "B")] = .ok s ∧
      find s.cur "C" = some (.type c) ∧ find s.cur "B" = some (.type b)) := by
  refine ⟨ok_of_errorOf (by decide +kernel), by decide, by decide,
    ⟨_, 19, 16, group_after (by decide +kernel), by decide +kernel, by decide +kernel⟩⟩

/-- The hypotheses can be met: a name in a strict position that is declared earlier in the list. -/
example : (∃ s, declGroup init ([("A", .name "int")] ++ ("S", .struct (.cons ["a"] (.name "A") .nil)) :: []) = .ok s) ∧
    "A" ∈ strict (.struct (.cons ["a"] (.name "A") .nil)) := ⟨ok_of_errorOf (by decide +kernel), by decide⟩

/-- A use before the declaration that is refused. -/
example : declGroup init [("S", .struct (.cons ["a"] (.name "A") .nil)), ("A", .name "int")] = .error (.unknownIdent "A") :=
  of_errorOf (by decide +kernel)

/-- The hypotheses can be met: a list in order that is refused because a name is not declared. -/
example : InOrder (fun y => init.lookup y ≠ none) [("P", .ptr false (.name "Q"))] ∧
    declGroup init [("P", .ptr false (.name "Q"))] = .error .unresolvedForward ∧ Along KeepsOrder init [] := by
  refine ⟨?_, of_errorOf (by decide +kernel), trivial⟩
  intro pre x t post hh y hy
  match pre with
  | [] =>
    injection hh with h1 h2
    injection h1 with _ h1
    subst h1
    rw [show needs (.ptr false (.name "Q")) = [] by decide] at hy
    cases hy
  | p :: pre =>
    injection hh with _ hh
    exact absurd hh (by cases pre <;> exact fun h => (nomatch h))

/-! ## C80: no name is declared twice -/

/-- **C80**: a name that is declared in the block (as a type or otherwise) is not declared in it again: the list or the other declaration
is refused. -/
theorem C80_redeclaration_refused {ops : List Op} {s : State} {x : Name} {b : Bind} (hr : run init ops = .ok s)
    (hx : find s.cur x = some b) :
    (∀ g, x ∈ g.map Prod.fst → ∃ e, step s (.types g) = .error e) ∧ step s (.other x) = .error (.duplicateIdent x) := by
  constructor
  · intro g hg
    cases hs : step s (.types g) with
    | error e => exact ⟨e, rfl⟩
    | ok s' =>
      exfalso
      obtain ⟨h1, _⟩ := declGroup_ok hs
      obtain ⟨p, hp, hpx⟩ := List.mem_map.mp hg
      obtain ⟨pre, post, hh⟩ := List.append_of_mem hp
      obtain ⟨y, t⟩ := p
      dsimp only at hpx
      subst hpx
      rw [hh] at h1
      rw [item_fresh (run_ready init_ready hr) h1] at hx
      cases hx
  · rw [step, hx]

/-- **C80**: until its block ends, a name stays what it was declared to be. -/
theorem C80_declaration_stays {ops : List Op} {s s' : State} {op : Op} {x : Name} {b : Bind} (hr : run init ops = .ok s)
    (hx : find s.cur x = some b) (hs : step s op = .ok s') (ho : op ≠ .enter ∧ op ≠ .leave) : find s'.cur x = some b := by
  have h := run_ready init_ready hr
  cases op with
  | types g => exact (declItems_post g s s' h.inv (declGroup_ok hs).1).cur x b hx
  | use t =>
    rw [step] at hs
    split at hs
    · cases hs
    rename_i i s1 h1
    injection hs with hs
    rw [← hs, (parse_uses t s s1 i h1).1.1]; exact hx
  | other y =>
    rw [step] at hs
    split at hs
    · cases hs
    · rename_i hn
      injection hs with hs
      rw [← hs]
      show (if y = x then _ else find s.cur x) = _
      rw [if_neg (fun e => by rw [e, hx] at hn; cases hn)]; exact hx
  | enter => exact absurd rfl ho.1
  | leave => exact absurd rfl ho.2

/-- **C80**: entering a block hides no name and declares none; leaving it, whatever was declared in it, makes the names what they were. -/
theorem C80_blocks {s s1 s' : State} (he : step s .enter = .ok s1) {s2 : State} (h2 : s2.outer = s1.outer)
    (hl : step s2 .leave = .ok s') : (∀ x, s1.lookup x = s.lookup x) ∧ ∀ x, s'.lookup x = s.lookup x := by
  injection he with he
  subst he
  have h2 : s2.outer = s.cur :: s.outer := h2
  constructor
  · intro x
    show findOuter (s.cur :: s.outer) x = s.lookup x
    rw [findOuter, State.lookup]

  · intro x
    rw [step, h2] at hl
    injection hl with hl
    rw [← hl]; rfl

/-- **C80** (partial): if a name is declared twice in an accepted list, the first declaration is by the name of a type that was not
declared at that point. -/
theorem C80_twice_in_list_partial {ops : List Op} {s s' : State} {pre mid post : List (Name × TE)} {x : Name} {t t' : TE}
    (hr : run init ops = .ok s) (hg : declGroup s (pre ++ (x, t) :: (mid ++ (x, t') :: post)) = .ok s') :
    ∃ y, t = .name y ∧ (s.lookup y = none ∨ y ∈ pre.map Prod.fst) :=
  twice (run_ready init_ready hr) (declGroup_ok hg).1

/-- **C80** (violated): `type (P = ^A; B = A; A = int; B = real)` declares `B` twice and is accepted; `B` is `real`. -/
theorem C80_twice_in_list_violated :
    ∃ s b, declGroup init [("P", .ptr false (.name "A")), ("B", .name "A"), ("A", .name "int"), ("B", .name "real")] = .ok s ∧
      find s.cur "B" = some (.type b) ∧ (s.get b).body = .scalar "real" 8 := by
  refine ⟨_, 19, group_after (by decide +kernel), ?_, ?_⟩ <;> decide +kernel

/-- The hypotheses can be met, and a list that declares a name twice is refused. -/
example : (∃ s, run init [.types lists] = .ok s ∧ find s.cur "Item" = some (.type 16)) ∧
    declGroup init [("A", .name "int"), ("A", .name "real")] = .error (.duplicateIdent "A") := by
  exact ⟨⟨_, run_after (by decide +kernel), by decide +kernel⟩, of_errorOf (by decide +kernel)⟩

/-- A name of an outer block can be declared again in an inner one. -/
example : ∃ s i, run init [.types [("A", .name "int")], .enter, .types [("A", .name "real")]] = .ok s ∧
    s.lookup "A" = some (.type i) ∧ (s.get i).body = .scalar "real" 8 := by
  refine ⟨_, 17, run_after (by decide +kernel), ?_, ?_⟩ <;> decide +kernel

end Umka.TypeDecl.Props
