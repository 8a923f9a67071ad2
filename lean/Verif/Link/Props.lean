import Verif.Link.Lemmas

/-!
# Link: properties C41, C42, C61
-/

namespace Umka.Link.Props

deriving instance DecidableEq for Except

/-! ## C61: a call reaches the body -/

/-- **C61** (partial: no function has two prototypes; otherwise false, see `C61_violated`).  In the code of every program, every
function has one entry; every call of a function `g` in every body, before or after the body of `g` and across modules, leads to the
entry of `g`, directly or by one jump; and a function with a prototype and no body calls the C function bound to it. -/
theorem C61_calls_partial {Ms : List Module} {E : List External} {s : St} (hn : (protos 1 Ms).Nodup)
    (hs : program Ms E = .ok s) : ∃ entry : Fn → Nat,
    (∀ (f : Fn) (e : Nat), s.code[e]? = some (.enter f) → e = entry f) ∧
    (∀ f calls, (f, calls) ∈ bodies 1 Ms →
      s.code[entry f]? = some (.enter f) ∧
      (∀ (k : Nat) (g : Fn), calls[k]? = some g →
        ∃ dest, s.code[entry f + 1 + k]? = some (.call dest) ∧ Reaches s.code dest g (entry g)) ∧
      s.code[entry f + 1 + calls.length]? = some .ret) ∧
    (∀ (k : Nat) (M : Module) (f : Fn), Ms[k]? = some M → f ∈ protos (1 + k) [M] →
      f ∉ (bodies (1 + k) [M]).map (·.1) →
      ∃ x, bound E M f.name = some x ∧ s.code[entry f]? = some (.enter f) ∧ s.code[entry f + 1]? = some (.callExtern x) ∧
        s.code[entry f + 2]? = some .ret) := by
  rw [program] at hs
  cases hm : modules 1 Ms ⟨[.nop], [], E⟩ with
  | error e => rw [hm] at hs; cases hs
  | ok s1 =>
    rw [hm] at hs
    simp only [Except.ok.injEq] at hs
    have h0 : Inv 1 1 ⟨[.nop], [], E⟩ [] :=
      ⟨by simp, by
        intro e f he
        match e, he with
        | 0, he => simp at he
        | e + 1, he => simp at he, by
        intro e e' f he _
        match e, he with
        | 0, he => simp at he
        | e + 1, he => simp at he, by simp, by simp, by simp, by simp, rfl⟩
    obtain ⟨C, n, b1, b2, _, _, b5, b6, _⟩ := modules_ok Ms h0 (by intro i hi; cases hi) (by intro i hi; cases hi) hn hm
    have hle : Le s1.code s.code := by
      rw [← hs]
      exact (le_set b1.start).trans (le_append _ _)
    have huniq : ∀ (e e' : Nat) (f : Fn), s.code[e]? = some (.enter f) → s.code[e']? = some (.enter f) → e = e' := by
      have hback : ∀ (e : Nat) (f : Fn), s.code[e]? = some (.enter f) → s1.code[e]? = some (.enter f) := by
        intro e f he
        rw [← hs] at he
        dsimp only at he
        by_cases hl : e < s1.code.length
        · rw [List.getElem?_append_left (by rw [entryPoint, List.length_set]; exact hl), entryPoint] at he
          by_cases h0 : (0 : Nat) = e
          · subst h0
            rw [List.getElem?_set_self hl] at he
            cases he
          · rw [List.getElem?_set_ne h0] at he
            exact he
        · rw [List.getElem?_append_right (by rw [entryPoint, List.length_set]; omega)] at he
          have := List.mem_of_getElem? he
          simp at this
      intro e e' f he he'
      exact b1.uniq e e' f (hback e f he) (hback e' f he')
    refine ⟨fun f => open Classical in if h : ∃ e : Nat, s.code[e]? = some (.enter f) then h.choose else 0, ?_⟩
    have hent : ∀ (f : Fn) (e : Nat), s.code[e]? = some (.enter f) →
        e = (open Classical in if h : ∃ e : Nat, s.code[e]? = some (.enter f) then h.choose else 0) := by
      intro f e he
      have hex : ∃ e : Nat, s.code[e]? = some (.enter f) := ⟨e, he⟩
      rw [dif_pos hex]
      exact huniq _ _ f he hex.choose_spec
    refine ⟨hent, ?_, ?_⟩
    · intro f calls hb
      obtain ⟨e, h1, h2, h3⟩ := b5 _ hb
      have h1' := hle _ _ (by simp) h1
      dsimp only
      rw [← hent f e h1']
      refine ⟨h1', ?_, hle _ _ (by simp) h3⟩
      intro k g hk
      obtain ⟨off, h4, h5⟩ := h2 k g hk
      refine ⟨off, hle _ _ (by simp) h4, ?_⟩
      rcases h5 with ⟨h6, i, hi, h7, _⟩ | ⟨e', h6⟩
      · exact absurd (by rw [← h7]; exact b2 i hi) h6
      · have h7 := hle.reaches h6
        rw [← hent g e' h7.1]
        exact h7
    · intro k M f hk hf hnb
      obtain ⟨x, ⟨e, h1, h2, h3⟩, h4⟩ := b6 k M f hk hf hnb
      have h1' := hle _ _ (by simp) h1
      dsimp only
      rw [← hent f e h1']
      exact ⟨x, h4, h1', hle _ _ (by simp) h2, hle _ _ (by simp) h3⟩

/-- A module registered as a string, without an implementation library. -/
def strModule (items : List Item) : Module := ⟨true, false, fun _ => none, items⟩

def f1 : Fn := ⟨1, none, ['f']⟩
def g1 : Fn := ⟨1, none, ['g']⟩
def h1 : Fn := ⟨1, none, ['h']⟩

/-- Mutual recursion by a prototype, and an external function of the host. -/
def sample : List Module :=
  [strModule [.proto none ['f'], .proto none ['h'], .fn none ['g'] [f1, h1], .fn none ['f'] [g1]],
   strModule [.fn none ['m'] [f1, h1]]]

example : (protos 1 sample).Nodup ∧
    program sample [⟨['h'], some (.host 7), false, false⟩] = .ok
      ⟨[.goto 17, .goto 7, .goto 10, .enter g1, .call 1, .call 2, .ret, .enter f1, .call 3, .ret,
        .enter h1, .callExtern (.host 7), .ret, .enter ⟨2, none, ['m']⟩, .call 7, .call 2, .ret, .halt],
       [⟨⟨2, none, ['m']⟩, 13, none⟩, ⟨g1, 3, none⟩, ⟨h1, 2, some 2⟩, ⟨f1, 7, none⟩],
       [⟨['h'], some (.host 7), false, true⟩]⟩ := by decide +kernel

/-- **C61 is false** for a function with two prototypes: the first placeholder is forgotten and stays `OP_NOP`, which the
interpreter reports as an illegal instruction (`umka_vm.c:4144`). -/
theorem C61_violated : ∃ (Ms : List Module) (s : St), program Ms [] = .ok s ∧ bodies 1 Ms = [(g1, [f1]), (f1, [])] ∧
    ∃ e dest : Nat, s.code[e]? = some (.enter g1) ∧ s.code[e + 1]? = some (.call dest) ∧ s.code[dest]? = some .nop := by
  exact ⟨[strModule [.proto none ['f'], .fn none ['g'] [f1], .proto none ['f'], .fn none ['f'] []]],
    ⟨[.goto 8, .nop, .enter g1, .call 1, .ret, .goto 6, .enter f1, .ret, .halt], [⟨g1, 2, none⟩, ⟨f1, 6, none⟩], []⟩,
    by decide +kernel, by decide +kernel, 2, 1, rfl, rfl, rfl⟩

/-! ## C42: external functions -/

/-- The names of the runtime library. -/
theorem find_runtime (fs : Bool) (n : List Char) (b : Bool) (h : (n, b) ∈ runtimeFuncs) :
    externalFind (declareExternals fs) n = some ⟨n, some (if b && !fs then .stub n else .rtl n), true, false⟩ := by
  have : ∀ fs : Bool, ∀ f ∈ runtimeFuncs,
      externalFind (declareExternals fs) f.1 = some ⟨f.1, some (if f.2 && !fs then .stub f.1 else .rtl f.1), true, false⟩ := by
    decide +kernel
  exact this fs (n, b) h

theorem find_not_runtime (fs : Bool) (n : List Char) (h : n ∉ runtimeFuncs.map (·.1)) :
    externalFind (declareExternals fs) n = none := by
  have e : (declareExternals fs).map (·.name) = (runtimeFuncs.map (·.1)).reverse := by cases fs <;> decide +kernel
  rw [externalFind, List.find?_eq_none]
  intro x hx hn
  apply h
  rw [← List.mem_reverse, ← e]
  exact List.mem_map.mpr ⟨x, hx, by simpa using hn⟩

theorem find_addFuncs (hs : List (List Char × Option Nat)) : ∀ (E : List External), (∀ h ∈ hs, h.1.length ≤ 255) → ∀ n,
    externalFind (addFuncs E hs).1 n =
      match externalFind E n with
      | some e => some e
      | none => (hs.find? (fun h => h.1 = n)).map (fun h => ⟨n, h.2.map .host, false, false⟩) := by
  induction hs with
  | nil => intro E _ n; rw [addFuncs]; cases externalFind E n <;> rfl
  | cons h hs ih =>
    intro E hl n
    rw [addFuncs]
    dsimp only
    rw [ih _ (fun h hh => hl h (List.mem_cons_of_mem _ hh)), addFunc]
    cases hf : externalFind E h.1 with
    | some e =>
      dsimp only
      cases hn : externalFind E n with
      | some e' => rfl
      | none =>
        have : h.1 ≠ n := fun e => by rw [e, hn] at hf; cases hf
        simp only [List.find?_cons, this, decide_false]
    | none =>
      dsimp only
      have ht : h.1.take defaultStrLen = h.1 := List.take_of_length_le (hl h List.mem_cons_self)
      by_cases e : h.1 = n
      · subst e
        rw [externalAdd, ht, hf]
        simp [externalFind]
      · have hx : externalFind (externalAdd E h.1 (h.2.map .host) false) n = externalFind E n := by
          have e' : (h.1 == n) = false := by simpa using e
          rw [externalAdd, ht, externalFind, externalFind, List.find?_cons, e']
        rw [hx]
        simp only [List.find?_cons, e, decide_false]

/-- **C42, duplicates.**  In every sequence of registrations (names of at most 255 characters) after the runtime library,
`umkaAddFunc` accepts a function if and only if its name belongs neither to the runtime library nor to an earlier one. -/
theorem C42_duplicates (fs : Bool) (hs : List (List Char × Option Nat)) (hl : ∀ h ∈ hs, h.1.length ≤ 255) (k : Nat)
    (n : List Char) (x : Option Nat) (hk : hs[k]? = some (n, x)) :
    (addFuncs (declareExternals fs) hs).2[k]? =
      some (decide (n ∉ runtimeFuncs.map (·.1) ∧ n ∉ (hs.take k).map (·.1))) := by
  have gen : ∀ (hs : List (List Char × Option Nat)) (E : List External) (k : Nat), (∀ h ∈ hs, h.1.length ≤ 255) →
      hs[k]? = some (n, x) →
      (addFuncs E hs).2[k]? = some (decide (externalFind E n = none ∧ n ∉ (hs.take k).map (·.1))) := by
    intro hs
    induction hs with
    | nil => intro E k _ hk; simp at hk
    | cons h hs ih =>
      intro E k hl hk
      rw [addFuncs]
      dsimp only
      cases k with
      | zero =>
        simp only [List.getElem?_cons_zero, Option.some.injEq] at hk
        subst hk
        rw [List.getElem?_cons_zero, addFunc]
        cases hf : externalFind E n <;> simp [hf]
      | succ k =>
        rw [List.getElem?_cons_succ] at hk
        rw [List.getElem?_cons_succ, ih _ k (fun h hh => hl h (List.mem_cons_of_mem _ hh)) hk]
        congr 1
        rw [decide_eq_decide]
        have h1 := find_addFuncs [h] E (fun h' hh => by
          rw [List.mem_singleton] at hh; rw [hh]; exact hl h List.mem_cons_self) n
        simp only [addFuncs] at h1
        rw [h1]
        cases hf : externalFind E n with
        | some e => simp
        | none =>
          by_cases e : h.1 = n
          · simp [e]
          · have e' : n ≠ h.1 := fun h => e h.symm
            simp only [List.find?_cons, e, decide_false, List.find?_nil, Option.map_none, true_and, List.take_succ_cons,
              List.map_cons, List.mem_cons, e', false_or]
  rw [gen hs (declareExternals fs) k hl hk]
  congr 1
  rw [decide_eq_decide]
  apply and_congr_left
  intro _
  constructor
  · intro h hm
    obtain ⟨⟨n', b⟩, hf, e⟩ := List.mem_map.mp hm
    dsimp only at e
    subst e
    rw [find_runtime fs _ b hf] at h
    cases h
  · intro h; exact find_not_runtime fs n h

/-- **C42, first registration.**  After every sequence of registrations, a name stands for the function of the runtime library, else
for the function it was first registered with. -/
theorem C42_first (fs : Bool) (hs : List (List Char × Option Nat)) (hl : ∀ h ∈ hs, h.1.length ≤ 255) (n : List Char) :
    (externalFind (addFuncs (declareExternals fs) hs).1 n).map (fun e => (e.entry, e.resolveInTrusted)) =
      match runtimeFuncs.find? (fun f => f.1 = n) with
      | some f => some (some (if f.2 && !fs then .stub n else .rtl n), true)
      | none => (hs.find? (fun h => h.1 = n)).map (fun h => (h.2.map .host, false)) := by
  rw [find_addFuncs hs _ hl]
  cases hr : runtimeFuncs.find? (fun f => f.1 = n) with
  | some f =>
    obtain ⟨n', b⟩ := f
    have h1 := List.find?_some hr
    simp only [decide_eq_true_eq] at h1
    subst h1
    rw [find_runtime fs n' b (List.mem_of_find?_eq_some hr)]
    rfl
  | none =>
    rw [find_not_runtime fs n]
    · cases hs.find? (fun h => h.1 = n) <;> rfl
    · intro hm
      obtain ⟨f, hf, e⟩ := List.mem_map.mp hm
      rw [List.find?_eq_none] at hr
      exact hr f hf (by simp [e])

example : (addFuncs (declareExternals true) [(['f'], some 1), (['g'], some 2), (['f'], some 3), ("rtltime".toList, some 4)]).2 =
    [true, true, false, false] := by decide +kernel

/-- **C42 is false** for names of more than 255 characters: the name is cut in the table and the duplicate is not found. -/
theorem C42_long_violated : ∃ n : List Char,
    (addFuncs (declareExternals true) [(n, some 1), (n, some 2)]).2 = [true, true] :=
  ⟨List.replicate 256 'a', by decide +kernel⟩

/-- **C42, binding of a prototype.**  A prototype without a body is bound to the C function `x` if and only if: the name is registered,
the module is a string, a function of the runtime library only in a trusted module, it is not yet bound and not null; or the name is not
registered and the library of the module has it.  Everything else is an error. -/
theorem C42_choose (M : Module) (E : List External) (name : List Char) (x : Entry) :
    (∃ E', chooseExtern M E name = .ok (x, E')) ↔
      (∃ e, E.find? (fun e => e.name = name) = some e ∧ e.resolved = false ∧ M.hasSourceString = true ∧
        (e.resolveInTrusted = true → M.trusted = true) ∧ e.entry = some x) ∨
      (E.find? (fun e => e.name = name) = none ∧ ∃ n, M.lib name = some n ∧ x = .lib n) := by
  rw [chooseExtern, find_eq]
  cases hf : E.find? (fun e => e.name = name) with
  | none =>
    cases hl : M.lib name with
    | none => simp
    | some n =>
      constructor
      · rintro ⟨E', h⟩
        simp only [Except.ok.injEq, Prod.mk.injEq] at h
        exact Or.inr ⟨rfl, n, rfl, h.1.symm⟩
      · rintro (⟨e, he, _⟩ | ⟨_, n', h1, h2⟩)
        · cases he
        · simp only [Option.some.injEq] at h1
          subst h1; subst h2
          exact ⟨E, rfl⟩
  | some e =>
    dsimp only
    constructor
    · rintro ⟨E', h⟩
      left
      refine ⟨e, rfl, ?_⟩
      split at h
      · cases h
      · rename_i hres
        split at h
        · cases h
        · rename_i hc
          simp only [Bool.or_eq_true, Bool.not_eq_true', Bool.and_eq_true, not_or, not_and, Bool.not_eq_false] at hc
          cases he : e.entry with
          | none => rw [he] at h; cases h
          | some fn =>
            rw [he] at h
            simp only [Except.ok.injEq, Prod.mk.injEq] at h
            refine ⟨by simpa using hres, hc.1, hc.2, by rw [h.1]⟩
    · rintro (⟨e', he, h1, h2, h3, h4⟩ | ⟨h1, _⟩)
      · simp only [Option.some.injEq] at he
        subst he
        refine ⟨markResolved E name, ?_⟩
        rw [if_neg (by simp [h1]), if_neg, h4]
        simp only [Bool.or_eq_true, Bool.not_eq_true', Bool.and_eq_true, not_or, not_and, Bool.not_eq_false]
        exact ⟨h2, h3⟩
      · cases h1

example : ∃ E', chooseExtern (strModule []) [⟨['h'], some (.host 7), false, false⟩] ['h'] = .ok (.host 7, E') :=
  ⟨[⟨['h'], some (.host 7), false, true⟩], by decide +kernel⟩

/-- **C42, the documented priority is not followed** for a module in a file: there the registered function does not apply
(`doc/lang.md:625`), so the library of the module should be used; it is an error instead. -/
theorem C42_priority_violated : ∃ (M : Module) (E : List External), M.hasSourceString = false ∧ M.lib ['h'] = some 3 ∧
    chooseExtern M E ['h'] = .error .cannotResolve :=
  ⟨⟨false, false, fun _ => some 3, []⟩, [⟨['h'], some (.host 7), false, false⟩], rfl, rfl, by decide +kernel⟩

/-- **C42, unresolved prototypes.**  A program in which a prototype without a body has no C function does not compile. -/
theorem C42_unresolved {Ms : List Module} {E : List External} {k : Nat} {M : Module} {f : Fn} (hn : (protos 1 Ms).Nodup)
    (hk : Ms[k]? = some M) (hf : f ∈ protos (1 + k) [M]) (hb : f ∉ (bodies (1 + k) [M]).map (·.1))
    (hx : bound E M f.name = none) : ∃ e, program Ms E = .error e := by
  cases hs : program Ms E with
  | error e => exact ⟨e, rfl⟩
  | ok s =>
    obtain ⟨entry, _, _, h⟩ := C61_calls_partial hn hs
    obtain ⟨x, h1, _⟩ := h k M f hk hf hb
    rw [hx] at h1
    cases h1

example : program sample [] = .error .unresolved := by decide +kernel

/-- **C42, no sharing.**  In a program that compiles, two different prototypes without a body never share a registered function. -/
theorem C42_once {Ms : List Module} {E : List External} {s : St} (hn : (protos 1 Ms).Nodup) (hs : program Ms E = .ok s)
    {k k' : Nat} {M M' : Module} {f f' : Fn} (hk : Ms[k]? = some M) (hf : f ∈ protos (1 + k) [M])
    (hb : f ∉ (bodies (1 + k) [M]).map (·.1)) (hk' : Ms[k']? = some M') (hf' : f' ∈ protos (1 + k') [M'])
    (hb' : f' ∉ (bodies (1 + k') [M']).map (·.1)) (hname : f.name = f'.name) :
    f = f' ∨ E.find? (fun e => e.name = f.name) = none := by
  rw [program] at hs
  cases hm : modules 1 Ms ⟨[.nop], [], E⟩ with
  | error e => rw [hm] at hs; cases hs
  | ok s1 =>
    have h0 : Inv 1 1 ⟨[.nop], [], E⟩ [] :=
      ⟨by simp, by
        intro e f he
        match e, he with
        | 0, he => simp at he
        | e + 1, he => simp at he, by
        intro e e' f he _
        match e, he with
        | 0, he => simp at he
        | e + 1, he => simp at he, by simp, by simp, by simp, by simp, rfl⟩
    obtain ⟨C, n, _, _, _, b4, _, _, b7⟩ := modules_ok Ms h0 (by intro i hi; cases hi) (by intro i hi; cases hi) hn hm
    obtain ⟨D, d1, _, d3⟩ := b7 [] ⟨by simp, by simp⟩
    rcases d1.inj f (d3 k M f hk hf hb) f' (d3 k' M' f' hk' hf' hb') hname with h | h
    · exact Or.inl h
    · right
      have := same_find b4 f.name
      rw [h] at this
      dsimp only at this
      cases hE : E.find? (fun e => e.name = f.name) with
      | none => rfl
      | some e => rw [hE] at this; cases this

example : program [strModule [.proto none ['h']], strModule [.proto none ['h']]] [⟨['h'], some (.host 7), false, false⟩] =
    .error .alreadyResolved := by decide +kernel

/-! ## C41: the sandbox -/

theorem mem_addFuncs {Q : External → Prop} (hQ : ∀ (n : List Char) (x : Option Nat), Q ⟨n, x.map .host, false, false⟩) (hs : List (List Char × Option Nat)) :
    ∀ {E : List External}, (∀ e ∈ E, Q e) → ∀ e ∈ (addFuncs E hs).1, Q e := by
  induction hs with
  | nil => intro E h; exact h
  | cons h hs ih =>
    intro E hE
    rw [addFuncs]
    dsimp only
    apply ih
    rw [addFunc]
    cases externalFind E h.1 with
    | some e => exact hE
    | none =>
      intro e he
      rw [externalAdd] at he
      rcases List.mem_cons.mp he with he | he
      · rw [he]; exact hQ _ _
      · exact hE e he

/-- **C41.**  In the code of every program, for all registrations of the host and all libraries, if the file system is disabled there is
no call of a function of the runtime library that touches files, the environment or the command processor. -/
theorem C41_sandbox {Ms : List Module} {hs : List (List Char × Option Nat)} {s : St}
    (h : program Ms (addFuncs (declareExternals false) hs).1 = .ok s) :
    ∀ n ∈ touchesOutside, Instr.callExtern (.rtl n) ∉ s.code := by
  intro n hn hc
  have := program_calls (P := fun x => ∀ n ∈ touchesOutside, x ≠ .rtl n)
    (Q := fun e => ∀ x, e.entry = some x → ∀ n ∈ touchesOutside, x ≠ .rtl n)
    (fun e h => h) (fun k n _ => by simp) (fun M _ e x he hx _ _ => he x hx)
    (mem_addFuncs (fun m x y hy n _ => by
      cases x with
      | none => cases hy
      | some k => simp only [Option.map_some, Option.some.injEq] at hy; rw [← hy]; simp) hs
      (by
        have : ∀ e ∈ declareExternals false, ∀ n ∈ touchesOutside, e.entry ≠ some (.rtl n) := by decide +kernel
        intro e he x hx n hn e'
        exact this e he n hn (by rw [hx, e'])))
    h (.rtl n) hc n hn
  exact this rfl

/-- A trusted module, like those of the standard library. -/
def stdModule : Module := ⟨true, true, fun _ => none, [.proto none "rtlsystem".toList, .proto none "rtltime".toList]⟩

example : (program [stdModule] (addFuncs (declareExternals false) []).1).toOption.map (·.code) =
    some [.goto 9, .goto 6, .goto 3, .enter ⟨1, none, "rtltime".toList⟩, .callExtern (.rtl "rtltime".toList), .ret,
      .enter ⟨1, none, "rtlsystem".toList⟩, .callExtern (.stub "rtlsystem".toList), .ret, .halt] := by decide +kernel

/-- The switch matters: with the file system enabled the original is called. -/
example : (program [stdModule] (addFuncs (declareExternals true) []).1).toOption.map (·.code) =
    some [.goto 9, .goto 6, .goto 3, .enter ⟨1, none, "rtltime".toList⟩, .callExtern (.rtl "rtltime".toList), .ret,
      .enter ⟨1, none, "rtlsystem".toList⟩, .callExtern (.rtl "rtlsystem".toList), .ret, .halt] := by decide +kernel

/-- **C41, the replacements.**  Every such function has a replacement under its name; the replacement fails with a fixed value and
changes nothing outside, whatever the other functions do. -/
theorem C41_replaced (n : List Char) (hn : n ∈ touchesOutside) :
    (∀ hs : List (List Char × Option Nat), (∀ h ∈ hs, h.1.length ≤ 255) →
      (externalFind (addFuncs (declareExternals false) hs).1 n).bind (·.entry) = some (.stub n)) ∧
    (stubResult n = .ptr none ∨ stubResult n = .int 0 ∨ stubResult n = .int (-1)) ∧
    (∀ (World : Type) (other : Entry → World → Val × World) (w : World), callEntry other (.stub n) w = (stubResult n, w)) := by
  refine ⟨?_, ?_, fun _ _ _ => rfl⟩
  · intro hs hl
    rw [find_addFuncs hs _ hl]
    have : ∀ n ∈ touchesOutside, (n, true) ∈ runtimeFuncs := by decide +kernel
    rw [find_runtime false n true (this n hn)]
    rfl
  · revert n; decide +kernel

/-- The failure value of each function in the documentation of the C library: no file, nothing read, an error. -/
theorem C41_failures : touchesOutside.map (fun n => (String.ofList n, stubResult n)) =
    [("rtlfopen", .ptr none), ("rtlfclose", .int (-1)), ("rtlfread", .int 0), ("rtlfwrite", .int 0), ("rtlfseek", .int (-1)),
     ("rtlftell", .int (-1)), ("rtlremove", .int (-1)), ("rtlfeof", .int (-1)), ("rtlgetenv", .ptr none), ("rtlsystem", .int (-1))] := by
  decide +kernel

/-- **C41, user modules.**  Modules that are not trusted (all modules but those of the standard library) never call a function
of the runtime library directly, whatever prototypes they declare, with and without the file system. -/
theorem C41_untrusted {Ms : List Module} {fs : Bool} {hs : List (List Char × Option Nat)} {s : St}
    (hM : ∀ M ∈ Ms, M.trusted = false) (h : program Ms (addFuncs (declareExternals fs) hs).1 = .ok s) :
    ∀ n, Instr.callExtern (.rtl n) ∉ s.code ∧ Instr.callExtern (.stub n) ∉ s.code := by
  have := program_calls (P := fun x => ∀ n, x ≠ .rtl n ∧ x ≠ .stub n)
    (Q := fun e => e.resolveInTrusted = true ∨ ∀ x, e.entry = some x → ∀ n, x ≠ .rtl n ∧ x ≠ .stub n)
    (fun e h => h) (fun k n => by simp)
    (fun M hm e x he hx _ ht => by
      rcases he with he | he
      · have := ht he; rw [hM M hm] at this; cases this
      · exact he x hx)
    (mem_addFuncs (fun m x => by
      right
      intro y hy n
      cases x with
      | none => cases hy
      | some k => simp only [Option.map_some, Option.some.injEq] at hy; rw [← hy]; simp) hs
      (by
        have : ∀ fs : Bool, ∀ e ∈ declareExternals fs, e.resolveInTrusted = true := by decide +kernel
        intro e he
        exact Or.inl (this fs e he)))
    h
  intro n
  exact ⟨fun hc => (this _ hc n).1 rfl, fun hc => (this _ hc n).2 rfl⟩

example : program [strModule [.proto none "rtltime".toList]] (addFuncs (declareExternals true) []).1 = .error .cannotResolve := by
  decide +kernel

/-- **C41, formatted input and output.**  However a program creates fibers and from whichever fiber it prints or scans, no file is
used if the file system is disabled. -/
theorem C41_streams (as : List Act) : Stream.file ∉ acts [false] as := by
  have gen : ∀ (as : List Act) (flags : List Bool), (∀ b ∈ flags, b = false) → Stream.file ∉ acts flags as := by
    intro as
    induction as with
    | nil => intro flags _; simp [acts]
    | cons a as ih =>
      intro flags hf hm
      rw [acts] at hm
      rcases List.mem_append.mp hm with hm | hm
      · cases a with
        | spawn p =>
          rw [act] at hm
          cases hg : flags[p]? with
          | none => rw [hg] at hm; cases hm
          | some b => rw [hg] at hm; cases hm
        | io fiber c s u =>
          rw [act] at hm
          cases hg : flags[fiber]? with
          | none => rw [hg] at hm; simp at hm
          | some b =>
            rw [hg] at hm
            have := hf b (List.mem_of_getElem? hg)
            subst this
            dsimp only at hm
            clear hf hg ih
            revert hm
            cases c <;> cases s <;> cases u <;> decide
      · refine ih _ ?_ hm
        cases a with
        | spawn p =>
          rw [act]
          cases hg : flags[p]? with
          | none => exact hf
          | some b =>
            intro b' hb'
            rcases List.mem_append.mp hb' with hb' | hb'
            · exact hf b' hb'
            · rw [List.mem_singleton] at hb'
              rw [hb']; exact hf b (List.mem_of_getElem? hg)
        | io fiber c s u =>
          rw [act]
          cases flags[fiber]? <;> exact hf
  exact gen as [false] (by simp)

/-- **C41, what the switch leaves.**  Strings and the console are used in all fibers as asked for, and an open file exactly if the fiber may use the file
system. -/
theorem C41_stream_kinds (flags : List Bool) (k : Nat) (f c s u : Bool) (h : flags[k]? = some f) : ∃ x,
    act flags (.io k c s u) = (flags, some x) ∧ (x = .string ↔ s = true) ∧ (x = .console ↔ s = false ∧ c = true) ∧
      (x = .file ↔ s = false ∧ c = false ∧ f = true ∧ u = true) := by
  refine ⟨stream f c s u, by rw [act, h], ?_⟩
  cases f <;> cases c <;> cases s <;> cases u <;> decide

example : acts [false] [.spawn 0, .spawn 1, .io 2 false false true, .io 2 false true false, .io 0 true false false] =
    [.nowhere, .string, .console] := by decide

/-- The switch matters here too. -/
example : acts [true] [.spawn 0, .io 1 false false true] = [.file] := by decide

end Umka.Link.Props
