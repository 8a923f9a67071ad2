import Verif.Static.Stay
/-!
# Static storage: properties
-/

namespace Umka.Static
open Spec

/-! ## Blocks of variables -/

mutual

theorem arrays_sub {P Q : Nat → Prop} {mem : Mem} {b : Nat} : ∀ {ty : Ty} {ws : List Word} {v : Val}, Rep P Q mem ty ws v → b ∈ arrays mem ty ws → P b
  | .int _, _, _, _, hb => by simp [arrays] at hb
  | .char, _, _, _, hb => by simp [arrays] at hb
  | .str, _, _, _, hb => by simp [arrays] at hb
  | .array n base, ws, _, h, hb => by
    obtain ⟨vs, _, hl, _, h⟩ := h
    rw [arrays] at hb
    obtain ⟨i, hi, hb⟩ := List.mem_flatMap.mp hb
    obtain ⟨x, hx⟩ := getElem?_some (l := vs) (i := i) (by rw [hl]; exact List.mem_range.mp hi)
    exact arrays_sub (h i x hx) hb
  | .dyn base, ws, _, h, hb => by
    obtain ⟨vs, _, ⟨t, s, rfl, _⟩ | ⟨d, blk, rfl, hd, hm, _, hl, _, _, h⟩⟩ := h
    · simp [arrays] at hb
    · rw [arrays, hm] at hb
      rcases List.mem_cons.mp hb with rfl | hb
      · exact hd
      · obtain ⟨i, hi, hb⟩ := List.mem_flatMap.mp hb
        obtain ⟨x, hx⟩ := getElem?_some (l := vs) (i := i) (by rw [← hl]; exact List.mem_range.mp hi)
        exact arrays_sub (h i x hx) hb
  | .struct fs, ws, _, h, hb => by
    obtain ⟨vs, _, _, h⟩ := h
    rw [arrays] at hb
    exact arraysFields_sub h hb

theorem arraysFields_sub {P Q : Nat → Prop} {mem : Mem} {b : Nat} : ∀ {fs : Fields} {ws : List Word} {off : Nat} {vs : List Val}, RepFields P Q mem fs ws off vs →
    b ∈ arraysFields mem fs ws off → P b
  | .nil, _, _, _, _, hb => by simp [arraysFields] at hb
  | .cons _ _ _, _, _, _, h, hb => by
    obtain ⟨x, xs, _, h1, h2⟩ := h
    rw [arraysFields] at hb
    rcases List.mem_append.mp hb with hb | hb
    · exact arrays_sub h1 hb
    · exact arraysFields_sub h2 hb

end

theorem var_read {P Q : Nat → Prop} {mem : Mem} {ty : Ty} {b : Nat} {ws : List Word} {v : Val} (h1 : mem[b]? = some ⟨.plain, 0, 0, ws⟩)
    (h2 : Rep P Q mem ty ws v) : valueOf mem (ty, b) = some v := by
  show Spec.read mem ty (peek mem b 0 ty.size) = _
  rw [peek_some h1]
  show Spec.read mem ty (slice ws 0 ty.size) = _
  rw [slice, List.drop_zero, ← h2.length, List.take_length]
  exact h2.read

theorem VarOK.read {mem : Mem} {x : Var} (h : VarOK mem x) : valueOf mem (x.ty, x.b) = some x.v := by
  obtain ⟨⟨ws, h1, h2⟩, _⟩ := h
  exact var_read h1 h2

theorem VarOK.blocks {mem : Mem} {x : Var} (h : VarOK mem x) {b : Nat} (hb : b ∈ blocks mem (x.ty, x.b)) :
    (b = x.b ∧ ∃ blk, mem[b]? = some blk ∧ blk.use = .plain) ∨ (x.lo ≤ b ∧ b < x.hi ∧ ∃ blk, mem[b]? = some blk ∧ blk.use = .items) := by
  obtain ⟨⟨ws, h1, h2⟩, _⟩ := h
  rcases List.mem_cons.mp hb with rfl | hb
  · exact .inl ⟨rfl, _, h1, rfl⟩
  · have : slice ws 0 x.ty.size = ws := by rw [slice, List.drop_zero, ← h2.length, List.take_length]
    rw [peek_some h1] at hb
    simp only [this] at hb
    have := arrays_sub h2.uses hb
    exact .inr ⟨this.1.1, this.1.2, this.2⟩

/-- Values that do not use any of the blocks that change stay the same. -/
theorem Rep.outside {lo hi : Nat} {mem mem' : Mem} {ty : Ty} {ws : List Word} {v : Val} (h : Rep (Between lo hi) Any mem ty ws v) {bs : List Nat}
    (hs : ∀ b : Nat, b ∉ bs → mem'[b]? = mem[b]?)
    (hb : ∀ b ∈ bs, ∃ blk, mem[b]? = some blk ∧ (blk.use = .plain ∨ (blk.use = .items ∧ ¬ (lo ≤ b ∧ b < hi)))) : Rep (Between lo hi) Any mem' ty ws v := by
  refine h.uses.move (fun i _ hi => ⟨hi.1, hs i fun hib => ?_⟩) fun i _ hi => ⟨trivial, hs i fun hib => ?_⟩
  · obtain ⟨hp, blk, h1, h2⟩ := hi
    obtain ⟨blk', h3, h4⟩ := hb i hib
    rw [h1] at h3
    cases h3
    rcases h4 with h4 | ⟨_, h4⟩
    · rw [h2] at h4; cases h4
    · exact h4 hp
  · obtain ⟨_, blk, h1, h2⟩ := hi
    obtain ⟨blk', h3, h4⟩ := hb i hib
    rw [h1] at h3
    cases h3
    rcases h4 with h4 | ⟨h4, _⟩ <;> (rw [h2] at h4; cases h4)

theorem EntOK.read {mem : Mem} {x : Ent} (h : EntOK mem x) : constOf mem (x.ty, x.w) = some x.v := h.rep.read

theorem ConstsOK.read {Q : Nat → Prop} {mem : Mem} {consts : Consts} {env : List (CTy × Val)} (h : ConstsOK Q mem consts env) :
    consts.map (fun c => (c.1, constOf mem (c.1.ty, c.2))) = env.map fun c => (c.1, some c.2) := by
  refine List.ext_getElem? fun i => ?_
  rw [List.getElem?_map, List.getElem?_map]
  cases hc : consts[i]? with
  | none =>
    have : env[i]? = none := by
      rw [List.getElem?_eq_none_iff, ← h.length]
      exact List.getElem?_eq_none_iff.mp hc
    rw [this]
    rfl
  | some c =>
    obtain ⟨v, h1, h2, _⟩ := h.rep i c.1 c.2 hc
    rw [h1]
    have hs : c.1.ty.structured = false := by cases c.1 <;> rfl
    simp only [Option.map_some, constOf, wordsOf, hs, Bool.false_eq_true, if_false, h2.read]

/-- The values of a parameter that got no argument: the place that the call has added. -/
def argument (m : Machine) : Option Val := m.places.getLast?.bind fun p => read m.mem p.1 (peek m.mem p.2.1 p.2.2 p.1.size)

namespace Props

/-- A program without two fields of the same name in a structure. -/
def Valid (ds : List Decl) : Prop := ∀ d ∈ ds, ∀ ty ∈ Decl.types d, WF ty

/-- **C86.** Global variables, constants, default values and empty lists have the values of their initializers when the program starts; programs with
initializers that are not of the declared types are refused, and no others are. -/
theorem C86_initial (ds : List Decl) (hw : Valid ds) :
    match compile ds init with
    | .ok st => ∃ s, program ds ⟨[], [], []⟩ = some s ∧ Holds st s
    | .error _ => program ds ⟨[], [], []⟩ = none := by
  have h := compile_spec ds inv_init hw
  cases hc : compile ds init with
  | error e => rw [hc] at h; exact h
  | ok st =>
    rw [hc] at h
    obtain ⟨s, G, D, hp, hi⟩ := h
    refine ⟨s, hp, ?_, hi.consts.read, ?_⟩
    · rw [hi.globals, hi.values, List.map_map, List.map_map]
      exact List.map_congr_left fun x hx => by simp only [Function.comp, (hi.gok x hx).read]
    · rw [hi.defaults, hi.dvalues, List.map_map, List.map_map]
      exact List.map_congr_left fun x hx => by simp only [Function.comp, (hi.dok x hx).read]

theorem inv_of {ds : List Decl} (hw : Valid ds) {st : State} (hc : compile ds init = .ok st) : ∃ s G D, program ds ⟨[], [], []⟩ = some s ∧ Inv st s G D := by
  have h := compile_spec ds inv_init hw
  rw [hc] at h
  exact h

/-- **C86.** Global variables do not share data that can be changed: whatever happens to one of them and to the items of its arrays, the others keep their values. -/
theorem C86_apart {ds : List Decl} (hw : Valid ds) {st : State} (hc : compile ds init = .ok st) {i j : Nat} {g g' : Ty × Nat} (hij : i ≠ j)
    (hi : st.globals[i]? = some g) (hj : st.globals[j]? = some g') {mem' : Mem} (hm : ∀ b : Nat, b ∉ blocks st.mem g → mem'[b]? = st.mem[b]?) :
    valueOf mem' g' = valueOf st.mem g' ∧ valueOf st.mem g' ≠ none := by
  obtain ⟨s, G, D, _, h⟩ := inv_of hw hc
  rw [h.globals, List.getElem?_map] at hi hj
  obtain ⟨x, hx, rfl⟩ := Option.map_eq_some_iff.mp hi
  obtain ⟨y, hy, rfl⟩ := Option.map_eq_some_iff.mp hj
  have hxm := h.gok x (List.mem_of_getElem? hx)
  have hym := h.gok y (List.mem_of_getElem? hy)
  have hsep : (x.hi ≤ y.lo ∧ x.b < y.b) ∨ (y.hi ≤ x.lo ∧ y.b < x.b) := by
    obtain ⟨hxl, hx'⟩ := List.getElem?_eq_some_iff.mp hx
    obtain ⟨hyl, hy'⟩ := List.getElem?_eq_some_iff.mp hy
    rw [← hx', ← hy']
    rcases Nat.lt_or_gt_of_ne hij with hlt | hlt
    · exact .inl (List.pairwise_iff_getElem.mp h.gsep i j hxl hyl hlt)
    · exact .inr (List.pairwise_iff_getElem.mp h.gsep j i hyl hxl hlt)
  have hok : valueOf mem' (y.ty, y.b) = some y.v := by
    obtain ⟨⟨ws, h1, h2⟩, h3⟩ := hym
    refine var_read (ws := ws) ?_ (h2.outside hm fun b hb => ?_)
    · rw [hm y.b fun hb => ?_, h1]
      rcases hxm.blocks hb with ⟨h, _⟩ | ⟨_, _, blk, hb, hu⟩
      · omega
      · rw [h1] at hb
        cases hb
        cases hu
    · rcases hxm.blocks hb with ⟨_, blk, h4, h5⟩ | ⟨h4, h5, blk, h6, h7⟩
      · exact ⟨blk, h4, .inl h5⟩
      · exact ⟨blk, h6, .inr ⟨h7, by omega⟩⟩
  rw [hok, hym.read]
  exact ⟨rfl, by simp⟩

/-- **C86.** Neither do they share such data with the default values of parameters. -/
theorem C86_apart_defaults {ds : List Decl} (hw : Valid ds) {st : State} (hc : compile ds init = .ok st) {g : Ty × Nat} {c : Ty × Word}
    (hg : g ∈ st.globals) (hd : c ∈ st.defaults) {mem' : Mem} (hm : ∀ b : Nat, b ∉ blocks st.mem g → mem'[b]? = st.mem[b]?) :
    constOf mem' c = constOf st.mem c ∧ constOf st.mem c ≠ none := by
  obtain ⟨s, G, D, _, h⟩ := inv_of hw hc
  rw [h.globals] at hg
  rw [h.defaults] at hd
  obtain ⟨x, hx, rfl⟩ := List.mem_map.mp hg
  obtain ⟨y, hy, rfl⟩ := List.mem_map.mp hd
  have hxm := h.gok x hx
  have hym := h.dok y hy
  have hsep := h.sep x hx y hy
  have hws : wordsOf mem' y.ty y.w = wordsOf st.mem y.ty y.w := by
    rw [wordsOf.eq_def, wordsOf.eq_def]
    cases hs : y.ty.structured with
    | false => rfl
    | true =>
      obtain ⟨b, hb, h1, h2⟩ := hym.ptr hs
      obtain ⟨blk, h3, h4⟩ := hym.own hs b hb
      rw [hb]
      simp only [if_true, peek]
      rw [hm b fun hmem => ?_]
      rcases hxm.blocks hmem with ⟨h, _⟩ | ⟨_, _, blk', h5, h6⟩
      · omega
      · rw [h3] at h5
        cases h5
        rw [h4] at h6
        cases h6
  have : constOf mem' (y.ty, y.w) = some y.v := by
    show read mem' y.ty (wordsOf mem' y.ty y.w) = _
    rw [hws]
    refine (hym.rep.outside hm fun b hb => ?_).read
    rcases hxm.blocks hb with ⟨_, blk, h4, h5⟩ | ⟨h4, h5, blk, h6, h7⟩
    · exact ⟨blk, h4, .inl h5⟩
    · exact ⟨blk, h6, .inr ⟨h7, by omega⟩⟩
  rw [this, hym.read]
  exact ⟨rfl, by simp⟩

/-! ### A program -/

/-- A structure with a name, a small number and a list. -/
def item : Ty := .struct (.cons "name" .str (.cons "count" (.int .uint8) (.cons "tags" (.dyn (.int .int)) .nil)))

/-- `const C = 7`, `const S = "ab"`, `var x, y: int = C, 2`, `var a: [2]Item = {{S, 1, {5}}, {count: 255}}`, `b, c := []char("hi"), 'x'`,
`fn f(p: Item = {"n", 0, {1, 2}})`, and a call without arguments for `..int`. -/
def sample : List Decl := [
  .const (.int .int) (.num 7),
  .const .str (.str [97, 98]),
  .varList (.int .int) 2 [.const 0, .num 2],
  .var (.array 2 item) (.comp [.comp [.const 1, .num 1, .comp [.num 5]], .named [("count", .num 255)]]),
  .shortList [(.dyn .char, .str [104, 105]), (.str, .chr 120)],
  .vars item 1,
  .default item (.comp [.str [110], .num 0, .comp [.num 1, .num 2]]),
  .emptyList (.int .int)]

def sampleDecls : Decls where
  globals := [(.int .int, .num 7), (.int .int, .num 2),
    (.array 2 item, .list [.list [.text [97, 98], .num 1, .list [.num 5]], .list [.text [], .num 255, .list []]]),
    (.dyn .char, .list [.num 104, .num 105]), (.str, .text [120]), (item, .list [.text [], .num 0, .list []])]
  consts := [(.int .int, .num 7), (.str, .text [97, 98])]
  defaults := [(item, .list [.text [110], .num 0, .list [.num 1, .num 2]]), (.dyn (.int .int), .list [])]

theorem sample_valid : Valid sample := by
  intro d hd ty ht
  simp only [sample, List.mem_cons, List.not_mem_nil, or_false] at hd
  rcases hd with rfl | rfl | rfl | rfl | rfl | rfl | rfl | rfl <;>
    simp [Decl.types, item] at ht <;> (try rcases ht with rfl | rfl) <;> simp_all [WF, WFFields, names]

/-- The program is accepted, with the values that one expects. -/
example : program sample ⟨[], [], []⟩ = some sampleDecls := rfl

example : ∃ st, compile sample init = .ok st ∧ Holds st sampleDecls := by
  have h := C86_initial sample sample_valid
  have hp : program sample ⟨[], [], []⟩ = some sampleDecls := rfl
  cases hc : compile sample init with
  | error e => rw [hc, hp] at h; cases h
  | ok st =>
    rw [hc, hp] at h
    obtain ⟨s, hs, h⟩ := h
    cases hs
    exact ⟨st, rfl, h⟩

/-- A number that does not fit, too many items and a field that does not exist are refused. -/
example : (compile [.var (.int .uint8) (.num 256)] init).isOk = false ∧ (compile [.var (.array 1 .char) (.comp [.chr 1, .chr 2])] init).isOk = false ∧
    (compile [.var item (.named [("x", .num 1)])] init).isOk = false := ⟨rfl, rfl, rfl⟩

/-! ## C87 -/

/-- **C87**, as it should be: a parameter without an argument has its declared default value in every call, whatever the program has done before. -/
def DefaultsKept : Prop :=
  ∀ (ds : List Decl) (st : State) (s : Decls) (ops : List Op) (m m' : Machine) (i : Nat) (ty : Ty) (v : Val),
    Valid ds → compile ds init = .ok st → program ds ⟨[], [], []⟩ = some s → s.defaults[i]? = some (ty, v) →
    run st.defaults ops (start st) = some m → step st.defaults m (.call i) = some m' → argument m' = some v

def intArray : Ty := .dyn (.int .int)

/-- `fn f(a: []int = {}) { a = append(a, 0) }`: the first call appends to the array of the second one. -/
theorem C87_append_violated : ¬ DefaultsKept := by
  intro h
  have := h [.default intArray (.comp [])] _ _ [.call 0, .new (.int .int), .append 0 1 0] _ _ 0 intArray (.list [])
    (by intro d hd ty ht; cases List.mem_singleton.mp hd; cases List.mem_singleton.mp ht; trivial) rfl rfl rfl rfl rfl
  cases this

/-- The same with `fn f(a: ..int)` and the call `f()`. -/
theorem C87_variadic_violated : ¬ DefaultsKept := by
  intro h
  have := h [.emptyList (.int .int)] _ _ [.call 0, .new (.int .int), .append 0 1 0] _ _ 0 intArray (.list [])
    (by intro d hd ty ht; cases List.mem_singleton.mp hd; cases List.mem_singleton.mp ht; trivial) rfl rfl rfl rfl rfl
  cases this

/-- `fn f(a: []int = {1, 2}) { a[0] = 7 }`. -/
theorem C87_item_violated : ¬ DefaultsKept := by
  intro h
  have := h [.default intArray (.comp [.num 1, .num 2])] _ _ [.call 0, .select 0 0, .num 1 7] _ _ 0 intArray (.list [.num 1, .num 2])
    (by intro d hd ty ht; cases List.mem_singleton.mp hd; cases List.mem_singleton.mp ht; trivial) rfl rfl rfl rfl rfl
  cases this

/-- **C87**, for types without dynamic arrays. -/
theorem C87_default_partial {ds : List Decl} {st : State} {s : Decls} {ops : List Op} {m m' : Machine} {i : Nat} {ty : Ty} {v : Val} (hw : Valid ds)
    (hc : compile ds init = .ok st) (hp : program ds ⟨[], [], []⟩ = some s) (hd : s.defaults[i]? = some (ty, v)) (hf : Fixed ty)
    (hr : run st.defaults ops (start st) = some m) (hs : step st.defaults m (.call i) = some m') : argument m' = some v := by
  obtain ⟨s', G, D, hp', h⟩ := inv_of hw hc
  rw [hp] at hp'
  cases hp'
  let F : Nat → Prop := fun b => (∃ s, st.mem[b]? = some (textBlock s)) ∨ ∃ x ∈ D, x.ty.structured = true ∧ x.w = .ptr b 0
  have hF : Frozen F st.mem := by
    refine ⟨fun b hb => ?_⟩
    rcases hb with ⟨s, hb⟩ | ⟨x, hx, h1, h2⟩
    · exact ⟨_, hb, .inr ⟨s, rfl⟩⟩
    · obtain ⟨blk, h3, h4⟩ := (h.dok x hx).own h1 b h2
      exact ⟨blk, h3, .inl h4⟩
  have h0 : Runs F st.mem (start st) := by
    refine ⟨⟨fun _ _ => rfl⟩, fun p hpm hFp => ?_⟩
    rw [start, h.globals, List.map_map] at hpm
    obtain ⟨x, hx, rfl⟩ := List.mem_map.mp hpm
    obtain ⟨⟨ws, h1, _⟩, _⟩ := h.gok x hx
    rcases hFp with ⟨s, hb⟩ | ⟨y, hy, h2, h3⟩
    · simp only [Function.comp] at hb
      rw [h1] at hb
      cases hb
    · obtain ⟨b, h4, h5, h6⟩ := (h.dok y hy).ptr h2
      rw [h3] at h4
      cases h4
      have := (h.sep x hx y hy).2
      simp only [Function.comp] at h5 h6
      omega
  have hm := run_runs hF ops h0 hr
  rw [h.dvalues, List.getElem?_map] at hd
  obtain ⟨x, hx, he⟩ := Option.map_eq_some_iff.mp hd
  cases he
  have hxD := List.mem_of_getElem? hx
  have hok := h.dok x hxD
  have hdi : st.defaults[i]? = some (x.ty, x.w) := by rw [h.defaults, List.getElem?_map, hx]; rfl
  have hws : wordsOf m.mem x.ty x.w = wordsOf st.mem x.ty x.w := by
    rw [wordsOf.eq_def, wordsOf.eq_def]
    cases hst : x.ty.structured with
    | false => rfl
    | true =>
      obtain ⟨b, hb, _, _⟩ := hok.ptr hst
      rw [hb]
      simp only [if_true, peek]
      rw [hm.stays.same b (.inr ⟨x, hxD, hst, hb⟩)]
  have hm' : m' = ⟨m.mem ++ [⟨.plain, 0, 0, wordsOf m.mem x.ty x.w⟩], m.places ++ [(x.ty, m.mem.length, 0)]⟩ := by
    simp only [step, hdi, Option.some.injEq] at hs
    rw [← hs]
    congr 4
    cases hst : x.ty.structured with
    | false => rw [wordsOf.eq_def, hst]; rfl
    | true =>
      obtain ⟨b, hb, _, _⟩ := hok.ptr hst
      rw [hb, wordsOf.eq_def, hst]
      rfl
  have hst := hm.stays.push hF ⟨.plain, 0, 0, wordsOf m.mem x.ty x.w⟩
  have hrep : Rep None' (fun b => ∃ s, st.mem[b]? = some (textBlock s)) m'.mem x.ty (wordsOf m.mem x.ty x.w) x.v := by
    have h1 : Rep None' (fun b => ∃ s, st.mem[b]? = some (textBlock s)) st.mem x.ty (wordsOf m.mem x.ty x.w) x.v := by
      rw [hws]
      exact hok.rep.texts.fixed hf
    rw [hm']
    exact h1.move (fun _ _ (h : False) => h.elim) fun b _ hb => ⟨hb, hst.same b (.inl hb)⟩
  have := var_read (b := m.mem.length) (by rw [hm']; simp) hrep
  rw [hm'] at this ⊢
  simp only [argument, List.getLast?_concat, Option.bind_some]
  exact this

/-- `fn f(a: struct {s: str; n: [2]int} = {"ab", {1, 2}})`. -/
def record : Ty := .struct (.cons "s" .str (.cons "n" (.array 2 (.int .int)) .nil))

/-- Calls, then `a.s += a.s`, `a.n[1] = 9`, and another call. -/
example : ∃ st m m', compile [.default record (.comp [.str [97, 98], .comp [.num 1, .num 2]])] init = .ok st ∧
    run st.defaults [.call 0, .select 0 0, .concat 1 1, .select 0 1, .select 2 1, .num 3 9] (start st) = some m ∧
    read m.mem record (peek m.mem 3 0 3) = some (.list [.text [97, 98, 97, 98], .list [.num 1, .num 9]]) ∧
    step st.defaults m (.call 0) = some m' ∧ argument m' = some (.list [.text [97, 98], .list [.num 1, .num 2]]) := by
  refine ⟨_, _, _, rfl, rfl, ?_, rfl, ?_⟩
  · rfl
  · exact C87_default_partial (ds := [.default record (.comp [.str [97, 98], .comp [.num 1, .num 2]])]) (i := 0)
      (ops := [.call 0, .select 0 0, .concat 1 1, .select 0 1, .select 2 1, .num 3 9])
      (by intro d hd ty ht; cases List.mem_singleton.mp hd; cases List.mem_singleton.mp ht; simp [record, WF, WFFields, names]) rfl rfl rfl
      (by simp [record, Fixed, FixedFields]) rfl rfl

end Props
end Umka.Static
