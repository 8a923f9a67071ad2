import Verif.Static.Decls
/-!
# Static storage: programs
-/

namespace Umka.Static
open Spec

/-- A global variable, its value and the blocks that belong to it. -/
structure Var where
  ty : Ty
  b : Nat
  v : Val
  lo : Nat
  hi : Nat

structure VarOK (mem : Mem) (x : Var) : Prop where
  rep : ∃ ws, mem[x.b]? = some ⟨.plain, 0, 0, ws⟩ ∧ Rep (Between x.lo x.hi) Any mem x.ty ws x.v
  hi : x.hi ≤ mem.length

theorem VarOK.keep {mem mem' : Mem} {x : Var} (h : VarOK mem x) (hk : Keep None' mem mem') : VarOK mem' x := by
  obtain ⟨⟨ws, h1, h2⟩, h3⟩ := h
  exact ⟨⟨ws, hk.get h1 fun h => h, h2.plain (hk.plain fun _ _ _ h => h.elim)⟩, Nat.le_trans h3 hk.length⟩

theorem VarOK.lt {mem : Mem} {x : Var} (h : VarOK mem x) : x.b < mem.length := by
  obtain ⟨⟨ws, h1, _⟩, _⟩ := h
  exact getElem?_lt h1

/-- Memory holds the declared values, and nothing that can be changed is shared. -/
structure Inv (st : State) (s : Decls) (G : List Var) (D : List Ent) : Prop where
  consts : ConstsOK (All st.mem) st.mem st.consts s.consts
  globals : st.globals = G.map fun x => (x.ty, x.b)
  values : s.globals = G.map fun x => (x.ty, x.v)
  gok : ∀ x ∈ G, VarOK st.mem x
  gsep : G.Pairwise fun x y => x.hi ≤ y.lo ∧ x.b < y.b
  defaults : st.defaults = D.map fun x => (x.ty, x.w)
  dvalues : s.defaults = D.map fun x => (x.ty, x.v)
  dok : ∀ x ∈ D, EntOK st.mem x
  dsep : D.Pairwise fun x y => x.hi ≤ y.lo
  sep : ∀ x ∈ G, ∀ y ∈ D, (x.hi ≤ y.lo ∨ y.hi ≤ x.lo) ∧ (x.b < y.lo ∨ y.hi ≤ x.b)

theorem inv_init : Inv init ⟨[], [], []⟩ [] [] := by
  refine ⟨⟨rfl, fun i c w h => ?_, fun _ h => h⟩, rfl, rfl, by simp, by simp, rfl, rfl, by simp, by simp, by simp⟩
  simp [init] at h

variable {st : State} {s : Decls} {G : List Var} {D : List Ent}

theorem Inv.addGlobals (h : Inv st s G D) {mem' : Mem} (hk : Keep None' st.mem mem') {N : List Var}
    (hN : ∀ x ∈ N, VarOK mem' x ∧ st.mem.length ≤ x.lo ∧ st.mem.length ≤ x.b) (hp : N.Pairwise fun x y => x.hi ≤ y.lo ∧ x.b < y.b) :
    Inv { st with mem := mem', globals := st.globals ++ N.map fun x => (x.ty, x.b) } { s with globals := s.globals ++ N.map fun x => (x.ty, x.v) }
      (G ++ N) D where
  consts := h.consts.all hk
  globals := by rw [List.map_append, ← h.globals]
  values := by rw [List.map_append, ← h.values]
  gok x hx := by
    rcases List.mem_append.mp hx with hx | hx
    · exact (h.gok x hx).keep hk
    · exact (hN x hx).1
  gsep := by
    rw [List.pairwise_append]
    refine ⟨h.gsep, hp, fun x hx y hy => ?_⟩
    have h1 := (h.gok x hx).hi
    have h2 := (h.gok x hx).lt
    have h3 := (hN y hy).2
    omega
  defaults := h.defaults
  dvalues := h.dvalues
  dok x hx := (h.dok x hx).keep hk
  dsep := h.dsep
  sep x hx y hy := by
    rcases List.mem_append.mp hx with hx | hx
    · exact h.sep x hx y hy
    · have h1 := (h.dok y hy).hi
      have h2 := (hN x hx).2
      omega

theorem Inv.addDefault (h : Inv st s G D) {mem' : Mem} (hk : Keep None' st.mem mem') {x : Ent} (hx : EntOK mem' x) (hl : st.mem.length ≤ x.lo) :
    Inv { st with mem := mem', defaults := st.defaults ++ [(x.ty, x.w)] } { s with defaults := s.defaults ++ [(x.ty, x.v)] } G (D ++ [x]) where
  consts := h.consts.all hk
  globals := h.globals
  values := h.values
  gok y hy := (h.gok y hy).keep hk
  gsep := h.gsep
  defaults := by rw [List.map_append, ← h.defaults]; rfl
  dvalues := by rw [List.map_append, ← h.dvalues]; rfl
  dok y hy := by
    rcases List.mem_append.mp hy with hy | hy
    · exact (h.dok y hy).keep hk
    · cases List.mem_singleton.mp hy
      exact hx
  dsep := by
    rw [List.pairwise_append]
    refine ⟨h.dsep, by simp, fun y hy z hz => ?_⟩
    cases List.mem_singleton.mp hz
    exact Nat.le_trans (h.dok y hy).hi hl
  sep y hy z hz := by
    rcases List.mem_append.mp hz with hz | hz
    · exact h.sep y hy z hz
    · cases List.mem_singleton.mp hz
      have h1 := (h.gok y hy).hi
      have h2 := (h.gok y hy).lt
      omega

theorem Inv.addConst (h : Inv st s G D) {mem' : Mem} {c : CTy} {w : Word} {v : Val} (hg : Good (All st.mem) st.mem mem' c.ty w v) :
    Inv { st with mem := mem', consts := st.consts ++ [(c, w)] } { s with consts := s.consts ++ [(c, v)] } G D where
  consts := by
    have hc := h.consts.all hg.keep
    have hs : c.ty.structured = false := by cases c <;> rfl
    refine ⟨by simp [hc.length], fun i c' w' hi => ?_, fun _ h => h⟩
    rw [List.getElem?_append] at hi
    by_cases hl : i < st.consts.length
    · rw [if_pos hl] at hi
      obtain ⟨v', h1, h2⟩ := hc.rep i c' w' hi
      exact ⟨v', by rw [List.getElem?_append, if_pos (by rw [← hc.length]; exact hl)]; exact h1, h2⟩
    · rw [if_neg hl] at hi
      have hi0 : i - st.consts.length = 0 := by
        have := getElem?_lt hi
        simp at this
        omega
      rw [hi0, List.getElem?_cons_zero] at hi
      cases hi
      refine ⟨v, ?_, ?_, fun hc' => ?_⟩
      · rw [List.getElem?_append, if_neg (by rw [← hc.length]; exact hl), ← hc.length, hi0]
        rfl
      · have hr := hg.rep
        rw [wordsOf.eq_def, hs] at hr
        simp only [Bool.false_eq_true, if_false] at hr
        cases c with
        | int k => exact hr
        | char => exact hr
        | str =>
          obtain ⟨s, hv, hb, h | ⟨b, h1, _, h3⟩⟩ := hr
          · exact ⟨s, hv, hb, .inl h⟩
          · exact ⟨s, hv, hb, .inr ⟨b, h1, getElem?_lt h3, h3⟩⟩
      · cases hc'
        exact hg.text rfl
  globals := h.globals
  values := h.values
  gok y hy := (h.gok y hy).keep hg.keep
  gsep := h.gsep
  defaults := h.defaults
  dvalues := h.dvalues
  dok y hy := (h.dok y hy).keep hg.keep
  dsep := h.dsep
  sep := h.sep

/-! ## Lists of variables -/

theorem pairwise_zipIdx {α : Type} {R : α → α → Prop} : ∀ (l : List α) (k : Nat), l.Pairwise R →
    (l.zipIdx k).Pairwise fun p q => R p.1 q.1 ∧ p.2 < q.2
  | [], _, _ => .nil
  | a :: l, k, h => by
    rw [List.pairwise_cons] at h
    rw [List.zipIdx_cons, List.pairwise_cons]
    refine ⟨fun p hp => ?_, pairwise_zipIdx l _ h.2⟩
    obtain ⟨h1, _, h3⟩ := List.mem_zipIdx hp
    exact ⟨by rw [h3]; exact h.1 _ (List.getElem_mem _), h1⟩

theorem places_fst : ∀ (E : List Ent) (off : Nat), (places E off).map Prod.fst = E
  | [], _ => rfl
  | x :: E, off => by rw [places, List.map_cons, places_fst E]

theorem places_length (E : List Ent) (off : Nat) : (places E off).length = E.length := by
  rw [← List.length_map (f := Prod.fst), places_fst]

/-- The variables of a list, in blocks that start with `base`. -/
def varsOf (E : List Ent) (base : Nat) : List Var := ((places E 0).zipIdx).map fun p => ⟨p.1.1.ty, base + p.2, p.1.1.v, p.1.1.lo, p.1.1.hi⟩

theorem varsOf_values (E : List Ent) (base : Nat) : (varsOf E base).map (fun x => (x.ty, x.v)) = E.map fun x => (x.ty, x.v) := by
  have : (varsOf E base).map (fun x => (x.ty, x.v)) = (((places E 0).zipIdx.map Prod.fst).map Prod.fst).map fun x => (x.ty, x.v) := by
    rw [varsOf, List.map_map, List.map_map, List.map_map]
    rfl
  rw [this, List.zipIdx_map_fst, places_fst]

theorem varsOf_pairwise {E : List Ent} {base : Nat} (h : E.Pairwise fun x y => x.hi ≤ y.lo) :
    (varsOf E base).Pairwise fun x y => x.hi ≤ y.lo ∧ x.b < y.b := by
  rw [varsOf, List.pairwise_map]
  have h1 : (places E 0).Pairwise fun p q => p.1.hi ≤ q.1.lo := by
    rw [← places_fst E 0, List.pairwise_map] at h
    exact h
  refine (pairwise_zipIdx _ 0 h1).imp fun {p q} hpq => ?_
  exact ⟨hpq.1, Nat.add_lt_add_left hpq.2 base⟩

theorem varsOf_ok {E : List Ent} {base : Nat} {mem₁ mem' : Mem} {ws' : List Word} (hE : ∀ x ∈ E, EntOK mem₁ x) (hpl : PlainOnly mem₁ mem')
    (hln : mem₁.length ≤ mem'.length) (hw : ∀ p ∈ places E 0, slice ws' p.2 p.1.ty.size = wordsOf mem₁ p.1.ty p.1.w)
    (hm : ∀ (i : Nat) p, (places E 0)[i]? = some p → mem'[base + i]? = some ⟨.plain, 0, 0, slice ws' p.2 p.1.ty.size⟩) :
    ∀ x ∈ varsOf E base, VarOK mem' x ∧ base ≤ x.b ∧ ∃ e ∈ E, x.lo = e.lo := by
  intro x hx
  rw [varsOf] at hx
  obtain ⟨⟨p, i⟩, hp, rfl⟩ := List.mem_map.mp hx
  have hi := List.mem_zipIdx_iff_getElem?.mp hp
  simp only at hi
  have hp' := List.mem_of_getElem? hi
  have he := (places_bound E 0 p hp').1
  refine ⟨⟨⟨_, hm i p hi, ?_⟩, Nat.le_trans (hE _ he).hi hln⟩, Nat.le_add_right _ _, _, he, rfl⟩
  rw [hw p hp']
  exact (hE _ he).rep.plain hpl

theorem zip_offsets : ∀ (E : List Ent) (k off base : Nat), ((E.zipIdx k).map fun p => (p.1.ty, base + p.2)).zip (offsets (E.map Ent.ty) off) =
    ((places E off).zipIdx k).map fun p => ((p.1.1.ty, base + p.2), p.1.2)
  | [], _, _, _ => rfl
  | x :: E, k, off, base => by
    simp only [List.zipIdx_cons, List.map_cons, offsets, places, List.zip_cons_cons, zip_offsets E]

theorem zip_offsets' : ∀ (E : List Ent) (off : Nat), (E.map Ent.ty).zip (offsets (E.map Ent.ty) off) = (places E off).map fun p => (p.1.ty, p.2)
  | [], _ => rfl
  | x :: E, off => by
    simp only [List.map_cons, offsets, places, List.zip_cons_cons, zip_offsets' E]

theorem mapM_tag {α β : Type} (ty : Ty) (f : Ty → α → Option β) : ∀ es : List α,
    (es.map fun e => (ty, e)).mapM (fun x => (f x.1 x.2).map fun v => (x.1, v)) = (es.mapM (f ty)).map fun vs => vs.map fun v => (ty, v)
  | [] => rfl
  | e :: es => by
    have ih := mapM_tag ty f es
    simp only [List.map_cons, List.mapM_cons, ih]
    cases f ty e <;> cases es.mapM (f ty) <;> rfl

/-! ## Declarations -/

/-- The result of a declaration. -/
def Declared (G : List Var) (D : List Ent) (r : Except Err State) (d : Option Decls) : Prop :=
  match r with
  | .ok st' => ∃ s' N M, d = some s' ∧ Inv st' s' (G ++ N) (D ++ M)
  | .error _ => d = none

theorem declare_vars (h : Inv st s G D) (ty : Ty) (n : Nat) : Declared G D (declare st (.vars ty n)) (meaning s (.vars ty n)) := by
  obtain ⟨h1, h2, h3, h4⟩ := allocVars_spec ty n st.mem
  let N : List Var := (List.range n).map fun i => ⟨ty, st.mem.length + i, zero ty, st.mem.length + n, st.mem.length + n⟩
  have hi := h.addGlobals h2 (N := N)
    (by
      intro x hx
      obtain ⟨i, hi, rfl⟩ := List.mem_map.mp hx
      exact ⟨⟨⟨_, h4 i (List.mem_range.mp hi), Rep.zero _ _ _ ty⟩, Nat.le_of_eq h3.symm⟩, Nat.le_add_right _ _, Nat.le_add_right _ _⟩)
    (by
      rw [List.pairwise_map]
      exact List.pairwise_lt_range.imp fun hab => ⟨Nat.le_refl _, Nat.add_lt_add_left hab _⟩)
  refine ⟨_, N, [], rfl, ?_⟩
  rw [List.append_nil]
  have e1 : (allocVars ty n st.mem).2 = N.map fun x => (x.ty, x.b) := by
    rw [h1, List.map_map]
    rfl
  have e2 : List.replicate n (ty, zero ty) = N.map fun x => (x.ty, x.v) := by
    rw [List.map_map]
    refine List.ext_getElem (by simp) fun i _ _ => by simp
  show Inv { st with mem := (allocVars ty n st.mem).1, globals := st.globals ++ (allocVars ty n st.mem).2 } _ _ _
  rw [e1, e2]
  exact hi

theorem splice_all {old new : List Word} (h : new.length = old.length) : splice old 0 new = new := by
  rw [splice, List.take_zero, List.nil_append, List.drop_eq_nil_of_le (by omega), List.append_nil]

/-- Storing the value of an expression in a new variable. -/
theorem store_var {mem : Mem} {x : Ent} {v : Nat} {old : List Word} (he : EntOK mem x) (hv : mem[v]? = some ⟨.plain, 0, 0, old⟩) (ho : old.length = x.ty.size) :
    ∃ mem', constAssign mem v 0 x.ty x.w = .ok mem' ∧ Keep (· = v) mem mem' ∧ VarOK mem' ⟨x.ty, v, x.v, x.lo, x.hi⟩ := by
  refine ⟨_, constAssign_ok v 0 he.rep (fun hs => ?_), .poke fun _ => rfl, ⟨_, poke_words hv, ?_⟩, by rw [poke_length]; exact he.hi⟩
  · obtain ⟨b, h1, _⟩ := he.ptr hs
    exact ⟨b, 0, h1⟩
  · show Rep _ _ _ x.ty (splice old 0 _) x.v
    rw [splice_all (by rw [he.rep.length, ho])]
    exact he.rep.plain (plainOnly_poke fun blk hb => by rw [hv] at hb; cases hb; rfl)

theorem declare_var (h : Inv st s G D) (ty : Ty) (e : Expr) (hw : WF ty) : Declared G D (declare st (.var ty e)) (meaning s (.var ty e)) := by
  rw [declare, meaning]
  let mem₀ := (storageAdd st.mem ty.size).1
  have hk : Keep None' st.mem mem₀ := .append _ _ _
  have hln : mem₀.length = st.mem.length + 1 := by simp [mem₀, storageAdd]
  have hev := eval_spec ty hw e mem₀ (h.consts.all hk)
  show Declared G D ((eval st.consts ty e mem₀).bind _) _
  rw [Outcome.eq_def] at hev
  cases h1 : eval st.consts ty e mem₀ with
  | error er =>
    rw [h1] at hev
    simp only at hev
    rw [hev]
    rfl
  | ok p =>
    obtain ⟨mem₁, w⟩ := p
    rw [h1] at hev
    obtain ⟨v, hv, hg⟩ := hev
    have hl := hg.keep.length
    obtain ⟨mem', h2, h3, h4⟩ := store_var hg.ent (hg.keep.get (storageAdd_get st.mem ty.size) fun h => h) (by simp)
    simp only [Except.bind, hv]
    show Declared G D ((constAssign mem₁ st.mem.length 0 ty w).bind _) _
    simp only at h2
    rw [h2]
    have hk' : Keep None' st.mem mem' := ⟨by have := h3.length; omega, fun i hi _ => by
      rw [h3.same i (by omega) (by omega), hg.keep.same i (by omega) (fun h => h), hk.same i hi fun h => h]⟩
    have := h.addGlobals hk' (N := [⟨ty, st.mem.length, v, mem₀.length, mem₁.length⟩])
      (by
        intro x hx
        cases List.mem_singleton.mp hx
        exact ⟨h4, by show st.mem.length ≤ mem₀.length; omega, Nat.le_refl _⟩) (by simp)
    exact ⟨_, [⟨ty, st.mem.length, v, mem₀.length, mem₁.length⟩], [], rfl, by rw [List.append_nil]; exact this⟩

theorem declare_short (h : Inv st s G D) (ty : Ty) (e : Expr) (hw : WF ty) : Declared G D (declare st (.short ty e)) (meaning s (.short ty e)) := by
  rw [declare, meaning]
  have hev := eval_spec ty hw e st.mem h.consts
  show Declared G D ((eval st.consts ty e st.mem).bind _) _
  rw [Outcome.eq_def] at hev
  cases h1 : eval st.consts ty e st.mem with
  | error er =>
    rw [h1] at hev
    simp only at hev
    rw [hev]
    rfl
  | ok p =>
    obtain ⟨mem₁, w⟩ := p
    rw [h1] at hev
    obtain ⟨v, hv, hg⟩ := hev
    have hl := hg.keep.length
    have hk : Keep None' mem₁ (storageAdd mem₁ ty.size).1 := .append _ _ _
    have hln : (storageAdd mem₁ ty.size).1.length = mem₁.length + 1 := by simp [storageAdd]
    obtain ⟨mem', h2, h3, h4⟩ := store_var (hg.ent.keep hk) (storageAdd_get mem₁ ty.size) (by simp)
    simp only [Except.bind, hv]
    show Declared G D ((constAssign (storageAdd mem₁ ty.size).1 mem₁.length 0 ty w).bind _) _
    simp only at h2
    rw [h2]
    have hk' : Keep None' st.mem mem' := ⟨by have := h3.length; omega, fun i hi _ => by
      rw [h3.same i (by omega) (by omega), hk.same i (by omega) (fun h => h), hg.keep.same i hi fun h => h]⟩
    have := h.addGlobals hk' (N := [⟨ty, mem₁.length, v, st.mem.length, mem₁.length⟩])
      (by
        intro x hx
        cases List.mem_singleton.mp hx
        exact ⟨h4, Nat.le_refl _, hl⟩) (by simp)
    exact ⟨_, [⟨ty, mem₁.length, v, st.mem.length, mem₁.length⟩], [], rfl, by rw [List.append_nil]; exact this⟩

theorem declare_const (h : Inv st s G D) (ty : CTy) (e : Expr) : Declared G D (declare st (.const ty e)) (meaning s (.const ty e)) := by
  rw [declare, meaning]
  have hev := eval_spec ty.ty (by cases ty <;> trivial) e st.mem h.consts
  show Declared G D ((eval st.consts ty.ty e st.mem).bind _) _
  rw [Outcome.eq_def] at hev
  cases h1 : eval st.consts ty.ty e st.mem with
  | error er =>
    rw [h1] at hev
    simp only at hev
    rw [hev]
    rfl
  | ok p =>
    obtain ⟨mem₁, w⟩ := p
    rw [h1] at hev
    obtain ⟨v, hv, hg⟩ := hev
    simp only [Except.bind, hv]
    exact ⟨_, [], [], rfl, by rw [List.append_nil, List.append_nil]; exact h.addConst hg⟩

theorem declare_default (h : Inv st s G D) (ty : Ty) (e : Expr) (hw : WF ty) : Declared G D (declare st (.default ty e)) (meaning s (.default ty e)) := by
  rw [declare, meaning]
  have hev := eval_spec ty hw e st.mem h.consts
  show Declared G D ((eval st.consts ty e st.mem).bind _) _
  rw [Outcome.eq_def] at hev
  cases h1 : eval st.consts ty e st.mem with
  | error er =>
    rw [h1] at hev
    simp only at hev
    rw [hev]
    rfl
  | ok p =>
    obtain ⟨mem₁, w⟩ := p
    rw [h1] at hev
    obtain ⟨v, hv, hg⟩ := hev
    simp only [Except.bind, hv]
    exact ⟨_, [], [_], rfl, by rw [List.append_nil]; exact h.addDefault hg.keep hg.ent (Nat.le_refl _)⟩

theorem declare_emptyList (h : Inv st s G D) (base : Ty) : Declared G D (declare st (.emptyList base)) (meaning s (.emptyList base)) := by
  have hg := dyn_rep (Q := All st.mem) (base := base) (vs := []) (ws := []) (.refl None' st.mem) (by simp) (by simp) (fun _ h => h)
  have hp : ∀ mem : Mem, ∀ b : Nat, poke mem b 0 [] = mem := by
    intro mem b
    refine List.ext_getElem? fun i => ?_
    rw [poke_get]
    by_cases hi : b = i
    · rw [if_pos hi, ← hi]
      cases mem[b]? with
      | none => rfl
      | some blk => simp [splice]
    · rw [if_neg hi]
  rw [hp] at hg
  exact ⟨_, [], [_], rfl, by rw [List.append_nil]; exact h.addDefault hg.keep hg.ent (Nat.le_refl _)⟩

theorem declare_shortList (h : Inv st s G D) (es : List (Ty × Expr)) (hw : ∀ x ∈ es, WF x.1) :
    Declared G D (declare st (.shortList es)) (meaning s (.shortList es)) := by
  rw [declare, meaning]
  have hev := evalList_spec es st.mem hw h.consts
  show Declared G D ((evalList st.consts es st.mem).bind _) _
  cases h1 : evalList st.consts es st.mem with
  | error er =>
    rw [h1] at hev
    simp only at hev
    rw [hev]
    rfl
  | ok p =>
    obtain ⟨mem₁, ws⟩ := p
    rw [h1] at hev
    obtain ⟨E, e1, e2, e3, e4, e5, e6⟩ := hev
    have hl := e4.length
    obtain ⟨mem₂, ws', m1, m2, m3, m4, m5, m6⟩ := makeList_spec (E := E) fun x hx => (e5 x hx).1
    obtain ⟨mem', vs, n1, n2, n3, n4, n5⟩ := spreadNew_spec (P := All mem₁) (Q := Any) (b := mem₁.length) (ws := ws')
      ((places E 0).map fun p => (p.1.ty, p.2)) mem₂ m4 (by
        intro x hx
        obtain ⟨p, hp, rfl⟩ := List.mem_map.mp hx
        have hb := places_bound E 0 p hp
        refine ⟨by show p.2 + p.1.ty.size ≤ _; omega, p.1.v, ?_⟩
        show Rep _ _ _ p.1.ty (slice ws' p.2 p.1.ty.size) _
        rw [m6 p hp]
        exact ((e5 _ hb.1).1.rep.widen (fun _ hl _ => hl) fun _ h => h).plain (m2.plain fun _ _ _ h => h.elim))
    simp only [Except.bind, e3, e1, e2]
    show Declared G D ((makeList (E.map Ent.ty) (E.map Ent.w) mem₁).bind _) _
    rw [m1]
    show Declared G D ((spreadNew mem₁.length ((E.map Ent.ty).zip (offsets (E.map Ent.ty) 0)) mem₂).bind _) _
    rw [zip_offsets', n1]
    have hk : Keep None' mem₁ mem' := m2.trans n2
    have hok := varsOf_ok (base := mem₂.length) (fun x hx => (e5 x hx).1) (hk.plain fun _ _ _ h => h.elim) hk.length m6 (fun i p hi => n5 i p.1.ty p.2 (by
      rw [List.getElem?_map, hi]
      rfl))
    have := h.addGlobals (e4.trans hk) (N := varsOf E mem₂.length)
      (by
        intro x hx
        obtain ⟨h1, h2, e, he, h3⟩ := hok x hx
        exact ⟨h1, by rw [h3]; exact (e5 e he).2, by omega⟩) (varsOf_pairwise e6)
    have ev : vs = (varsOf E mem₂.length).map fun x => (x.ty, x.b) := by
      rw [n3, varsOf, List.map_map, List.zipIdx_map, List.map_map]
      rfl
    refine ⟨_, varsOf E mem₂.length, [], rfl, ?_⟩
    rw [List.append_nil]
    rw [varsOf_values, ← ev] at this
    exact this

theorem declare_varList (h : Inv st s G D) (ty : Ty) (n : Nat) (es : List Expr) (hw : WF ty) :
    Declared G D (declare st (.varList ty n es)) (meaning s (.varList ty n es)) := by
  rw [declare, meaning]
  obtain ⟨a1, a2, a3, a4⟩ := allocVars_spec ty n st.mem
  let mem₀ := (allocVars ty n st.mem).1
  have hev := evalList_spec (es.map fun e => (ty, e)) mem₀ (by
    intro x hx
    obtain ⟨e, _, rfl⟩ := List.mem_map.mp hx
    exact hw) (h.consts.all a2)
  rw [mapM_tag ty (denote s.consts) es] at hev
  show Declared G D ((evalList st.consts (es.map fun e => (ty, e)) mem₀).bind _) _
  cases h1 : evalList st.consts (es.map fun e => (ty, e)) mem₀ with
  | error er =>
    rw [h1] at hev
    simp only [Option.map_eq_none_iff] at hev
    show (if _ then _ else _) = none
    rw [hev]
    split <;> rfl
  | ok p =>
    obtain ⟨mem₁, ws⟩ := p
    rw [h1] at hev
    obtain ⟨E, e1, e2, e3, e4, e5, e6⟩ := hev
    have hl := e4.length
    have hl₀ : mem₀.length = st.mem.length + n := a3
    have e1' : es.map (fun _ => ty) = E.map Ent.ty := by
      rw [← e1, List.map_map]
      rfl
    have hEl : E.length = es.length := by
      have := congrArg List.length e1'
      simpa using this.symm
    obtain ⟨mem₂, ws', m1, m2, m3, m4, m5, m6⟩ := makeList_spec (E := E) fun x hx => (e5 x hx).1
    simp only [Except.bind, e1', e2]
    show Declared G D ((makeList (E.map Ent.ty) (E.map Ent.w) mem₁).bind _) _
    rw [m1]
    by_cases hn : es.length = n
    · have evs : (allocVars ty n st.mem).2 = E.zipIdx.map fun p => (p.1.ty, st.mem.length + p.2) := by
        rw [a1]
        refine List.ext_getElem (by simp; omega) fun i h1 h2 => ?_
        have hi : i < E.length := by simpa using h2
        have : (E.map Ent.ty)[i]'(by simpa using hi) = ty := by
          have hj : (E.map Ent.ty)[i]? = some ty := by
            rw [← e1', List.getElem?_map, List.getElem?_eq_getElem (by omega)]
            rfl
          have := List.getElem?_eq_getElem (l := E.map Ent.ty) (i := i) (by simpa using hi)
          rw [hj] at this
          exact (Option.some.inj this).symm
        simp only [List.getElem_map, List.getElem_range, List.getElem_zipIdx, Nat.zero_add] at this ⊢
        rw [this]
      have hty : ∀ (i : Nat) p, (places E 0)[i]? = some p → i < n ∧ p.1.ty = ty := by
        intro i p hp
        have hl := getElem?_lt hp
        rw [places_length] at hl
        have hm := (places_bound E 0 p (List.mem_of_getElem? hp)).1
        have : p.1.ty ∈ es.map fun _ => ty := by
          rw [e1']
          exact List.mem_map_of_mem hm
        obtain ⟨_, _, h⟩ := List.mem_map.mp this
        exact ⟨by omega, h.symm⟩
      obtain ⟨mem', n1, n2, n3, n4⟩ := spread_spec (P := All mem₁) (Q := Any) (mem := mem₂) (b := mem₁.length) (ws := ws') m4
        ((places E 0).zipIdx.map fun p => ((p.1.1.ty, st.mem.length + p.2), p.1.2)) (by
          intro x hx
          obtain ⟨⟨p, i⟩, hp, rfl⟩ := List.mem_map.mp hx
          have hi := List.mem_zipIdx_iff_getElem?.mp hp
          simp only at hi
          have hp' := List.mem_of_getElem? hi
          have hb := places_bound E 0 p hp'
          obtain ⟨hin, hpt⟩ := hty i p hi
          refine ⟨by show p.2 + p.1.ty.size ≤ _; omega, ⟨p.1.v, ?_⟩, by show st.mem.length + i ≠ _; omega, List.replicate ty.size (.int 0), ?_, ?_⟩
          · show Rep _ _ _ p.1.ty (slice ws' p.2 p.1.ty.size) _
            rw [m6 p hp']
            exact ((e5 _ hb.1).1.rep.widen (fun _ hl _ => hl) fun _ h => h).plain (m2.plain fun _ _ _ h => h.elim)
          · exact (e4.trans m2).get (a4 i hin) fun h => h
          · show _ = p.1.ty.size
            rw [List.length_replicate, hpt])
        (by
          rw [List.pairwise_map]
          refine (pairwise_zipIdx _ 0 (places_pairwise E 0)).imp fun {p q} hpq => ?_
          have := hpq.2
          show st.mem.length + p.2 ≠ st.mem.length + q.2
          omega)
      have hlt : (if es.length = n then Option.map (fun vs => { s with globals := s.globals ++ vs.map fun v => (ty, v) }) (es.mapM fun e => denote s.consts ty e)
          else none) = some { s with globals := s.globals ++ E.map fun x => (x.ty, x.v) } := by
        rw [if_pos hn]
        cases hd : es.mapM (denote s.consts ty) with
        | none => rw [hd] at e3; cases e3
        | some vs =>
          rw [hd] at e3
          simp only [Option.map_some, Option.some.injEq] at e3 ⊢
          rw [e3]
      rw [hlt]
      show Declared G D (if es.length ≠ n then _ else _) _
      rw [if_neg (not_not_intro hn)]
      show Declared G D ((spread mem₁.length ((allocVars ty n st.mem).2.zip (offsets (E.map Ent.ty) 0)) mem₂).bind _) _
      rw [evs, zip_offsets, n1]
      have hxp : ∀ i blk, mem₂[i]? = some blk → (∃ p ∈ (places E 0).zipIdx.map fun p => ((p.1.1.ty, st.mem.length + p.2), p.1.2), i = p.1.2) →
          blk.use = .plain := by
        intro i blk hb ⟨p, hp, he⟩
        obtain ⟨⟨p, j⟩, hp', rfl⟩ := List.mem_map.mp hp
        have hj := List.mem_zipIdx_iff_getElem?.mp hp'
        simp only at hj he
        have := (e4.trans m2).get (a4 j (hty j p hj).1) fun h => h
        rw [← he, hb] at this
        cases this
        rfl
      have hpl : PlainOnly mem₁ mem' := fun i blk hb hu => n3.plain hxp i blk (m2.plain (fun _ _ _ h => h.elim) i blk hb hu) hu
      have hk : Keep None' st.mem mem' := by
        refine ⟨by omega, fun i hi _ => ?_⟩
        rw [n3.same i (by omega), m2.same i (by omega) (fun h => h), e4.same i (by omega) (fun h => h), a2.same i hi fun h => h]
        rintro ⟨p, hp, he⟩
        obtain ⟨⟨p, j⟩, hp, rfl⟩ := List.mem_map.mp hp
        simp only at he
        omega
      have hok := varsOf_ok (base := st.mem.length) (fun x hx => (e5 x hx).1) hpl (by omega) m6 (fun i p hi =>
        n4 ((p.1.ty, st.mem.length + i), p.2) (List.mem_map.mpr ⟨(p, i), List.mem_zipIdx_iff_getElem?.mpr hi, rfl⟩))
      have := h.addGlobals hk (N := varsOf E st.mem.length)
        (by
          intro x hx
          obtain ⟨h1, h2, e, he, h3⟩ := hok x hx
          have := (e5 e he).2
          exact ⟨h1, by omega, h2⟩) (varsOf_pairwise e6)
      have ev : (E.zipIdx.map fun p => (p.1.ty, st.mem.length + p.2)) = (varsOf E st.mem.length).map fun x => (x.ty, x.b) := by
        rw [varsOf, List.map_map]
        have : E.zipIdx = (places E 0).zipIdx.map fun p => (p.1.1, p.2) := by
          have := List.zipIdx_map (f := Prod.fst) (l := places E 0) (k := 0)
          rw [places_fst] at this
          rw [this]
          rfl
        rw [this, List.map_map]
        rfl
      refine ⟨_, varsOf E st.mem.length, [], rfl, ?_⟩
      rw [List.append_nil]
      rw [varsOf_values, ← ev] at this
      exact this
    · show Declared G D (if es.length ≠ n then _ else _) _
      rw [if_pos hn, if_neg hn]
      rfl

theorem declare_spec (h : Inv st s G D) (d : Decl) (hw : ∀ ty ∈ Decl.types d, WF ty) : Declared G D (declare st d) (meaning s d) := by
  cases d with
  | vars ty n => exact declare_vars h ty n
  | var ty e => exact declare_var h ty e (hw ty (by simp [Decl.types]))
  | varList ty n es => exact declare_varList h ty n es (hw ty (by simp [Decl.types]))
  | short ty e => exact declare_short h ty e (hw ty (by simp [Decl.types]))
  | shortList es => exact declare_shortList h es fun x hx => hw x.1 (List.mem_map_of_mem hx)
  | const ty e => exact declare_const h ty e
  | default ty e => exact declare_default h ty e (hw ty (by simp [Decl.types]))
  | emptyList base => exact declare_emptyList h base

theorem compile_spec : ∀ (ds : List Decl) {st : State} {s : Decls} {G : List Var} {D : List Ent}, Inv st s G D → (∀ d ∈ ds, ∀ ty ∈ Decl.types d, WF ty) →
    match compile ds st with
    | .ok st' => ∃ s' G' D', program ds s = some s' ∧ Inv st' s' G' D'
    | .error _ => program ds s = none
  | [], _, s, G, D, h, _ => ⟨s, G, D, rfl, h⟩
  | d :: ds, st, s, G, D, h, hw => by
    have hd := declare_spec h d (hw d List.mem_cons_self)
    rw [compile, program]
    cases h1 : declare st d with
    | error er =>
      rw [h1] at hd
      show (meaning s d).bind _ = none
      rw [show meaning s d = none from hd]
      rfl
    | ok st' =>
      rw [h1] at hd
      obtain ⟨s', N, M, hm, hi⟩ := hd
      rw [hm]
      exact compile_spec ds hi fun d hd => hw d (List.mem_cons_of_mem _ hd)

end Umka.Static
