import Verif.Static.Structs
/-!
# Static storage: declarations
-/

namespace Umka.Static
open Spec

variable {consts : Consts} {env : List (CTy × Val)}

/-! ## Blocks in use -/

mutual

/-- The data of dynamic arrays and strings are in blocks of their own kinds. -/
theorem Rep.uses {P Q : Nat → Prop} {mem : Mem} : ∀ {ty : Ty} {ws : List Word} {v : Val}, Rep P Q mem ty ws v →
    Rep (fun i => P i ∧ ∃ blk, mem[i]? = some blk ∧ blk.use = .items) (fun i => Q i ∧ ∃ blk, mem[i]? = some blk ∧ blk.use = .text) mem ty ws v
  | .int _, _, _, h => h
  | .char, _, _, h => h
  | .str, _, _, h => by
    obtain ⟨s, hv, hc, h | ⟨b, hw, hb, hm⟩⟩ := h
    · exact ⟨s, hv, hc, .inl h⟩
    · exact ⟨s, hv, hc, .inr ⟨b, hw, ⟨hb, _, hm, rfl⟩, hm⟩⟩
  | .array _ base, _, _, h => by
    obtain ⟨vs, hv, hl, hw, h⟩ := h
    exact ⟨vs, hv, hl, hw, fun i x hi => Rep.uses (h i x hi)⟩
  | .dyn base, _, _, h => by
    obtain ⟨vs, hv, h | ⟨b, blk, hw, hb, hm, h1, h2, h3, h4, h⟩⟩ := h
    · exact ⟨vs, hv, .inl h⟩
    · exact ⟨vs, hv, .inr ⟨b, blk, hw, ⟨hb, _, hm, h1⟩, hm, h1, h2, h3, h4, fun i x hi => Rep.uses (h i x hi)⟩⟩
  | .struct fs, _, _, h => by
    obtain ⟨vs, hv, hl, h⟩ := h
    exact ⟨vs, hv, hl, RepFields.uses h⟩

theorem RepFields.uses {P Q : Nat → Prop} {mem : Mem} : ∀ {fs : Fields} {ws : List Word} {off : Nat} {vs : List Val}, RepFields P Q mem fs ws off vs →
    RepFields (fun i => P i ∧ ∃ blk, mem[i]? = some blk ∧ blk.use = .items) (fun i => Q i ∧ ∃ blk, mem[i]? = some blk ∧ blk.use = .text) mem fs ws off vs
  | .nil, _, _, _, h => h
  | .cons _ _ _, _, _, _, h => by
    obtain ⟨x, xs, hv, h1, h2⟩ := h
    exact ⟨x, xs, hv, Rep.uses h1, RepFields.uses h2⟩

end

/-- Only plain blocks change. -/
def PlainOnly (mem mem' : Mem) : Prop := ∀ (i : Nat) (blk : Block), mem[i]? = some blk → blk.use ≠ .plain → mem'[i]? = some blk

/-- Values do not depend on the contents of plain blocks. -/
theorem Rep.plain {P Q : Nat → Prop} {mem mem' : Mem} {ty : Ty} {ws : List Word} {v : Val} (h : Rep P Q mem ty ws v) (hm : PlainOnly mem mem') :
    Rep P Q mem' ty ws v := by
  refine h.uses.move (fun i _ hi => ?_) fun i _ hi => ?_
  · obtain ⟨hp, blk, hb, hu⟩ := hi
    exact ⟨hp, by rw [hb, hm i blk hb (by rw [hu]; decide)]⟩
  · obtain ⟨hp, blk, hb, hu⟩ := hi
    exact ⟨hp, by rw [hb, hm i blk hb (by rw [hu]; decide)]⟩

theorem plainOnly_poke {mem : Mem} {b off : Nat} {new : List Word} (h : ∀ blk, mem[b]? = some blk → blk.use = .plain) : PlainOnly mem (poke mem b off new) := by
  intro i blk hb hu
  rw [poke_get, if_neg, hb]
  rintro rfl
  exact hu (h blk hb)

theorem Keep.plain {X : Nat → Prop} {mem mem' : Mem} (h : Keep X mem mem') (hx : ∀ i blk, mem[i]? = some blk → X i → blk.use = .plain) : PlainOnly mem mem' := by
  intro i blk hb hu
  exact h.get hb fun hi => hu (hx i blk hb hi)

theorem Rep.widen {P Q P' Q' : Nat → Prop} {mem : Mem} {ty : Ty} {ws : List Word} {v : Val} (h : Rep P Q mem ty ws v)
    (hp : ∀ i, i < mem.length → P i → P' i) (hq : ∀ i, Q i → Q' i) : Rep P' Q' mem ty ws v :=
  h.move (fun i hl hi => ⟨hp i hl hi, rfl⟩) fun i _ hi => ⟨hq i hi, rfl⟩

/-! ## Lists of expressions -/

/-- A constant and the blocks that belong to it. -/
structure Ent where
  ty : Ty
  w : Word
  v : Val
  lo : Nat
  hi : Nat

abbrev Any : Nat → Prop := fun _ => True

abbrev Between (lo hi : Nat) : Nat → Prop := fun i => lo ≤ i ∧ i < hi

structure EntOK (mem : Mem) (x : Ent) : Prop where
  rep : Rep (Between x.lo x.hi) Any mem x.ty (wordsOf mem x.ty x.w) x.v
  ptr : x.ty.structured = true → ∃ b, x.w = .ptr b 0 ∧ x.lo ≤ b ∧ b < x.hi
  hi : x.hi ≤ mem.length
  own : x.ty.structured = true → ∀ b, x.w = .ptr b 0 → ∃ blk, mem[b]? = some blk ∧ blk.use = .plain

theorem EntOK.keep {mem mem' : Mem} {x : Ent} (h : EntOK mem x) (hk : Keep None' mem mem') : EntOK mem' x := by
  refine ⟨?_, h.ptr, Nat.le_trans h.hi hk.length, fun hs b hb => (h.own hs b hb).imp fun blk h => ⟨hk.get h.1 fun h => h, h.2⟩⟩
  rw [wordsOf_keep hk fun hs => by
    obtain ⟨b, h1, _, h3⟩ := h.ptr hs
    exact ⟨b, 0, h1, Nat.lt_of_lt_of_le h3 h.hi, fun h => h⟩]
  exact h.rep.plain (hk.plain fun _ _ _ h => h.elim)

/-- What an expression leaves. -/
theorem Good.ent {Q : Nat → Prop} {mem mem' : Mem} {ty : Ty} {w : Word} {v : Val} (h : Good Q mem mem' ty w v) :
    EntOK mem' ⟨ty, w, v, mem.length, mem'.length⟩ :=
  ⟨h.rep.widen (fun _ hl hi => ⟨hi, hl⟩) fun _ _ => trivial, h.ptr, Nat.le_refl _, h.own⟩

/-- All blocks that exist. -/
abbrev All (mem : Mem) : Nat → Prop := fun i => i < mem.length

theorem ConstsOK.all {mem mem' : Mem} (h : ConstsOK (All mem) mem consts env) (hk : Keep None' mem mem') : ConstsOK (All mem') mem' consts env := by
  have h' := h.keep hk fun _ _ h => h
  refine ⟨h.length, fun i c w hi => ?_, fun _ h => h⟩
  obtain ⟨v, h1, h2, h3⟩ := h'.rep i c w hi
  exact ⟨v, h1, h2.widen (fun _ _ h => h) fun _ hi => Nat.lt_of_lt_of_le hi hk.length, h3⟩

theorem evalList_spec : ∀ (es : List (Ty × Expr)) (mem : Mem), (∀ x ∈ es, WF x.1) → ConstsOK (All mem) mem consts env →
    match evalList consts es mem with
    | .ok (mem', ws) => ∃ E : List Ent, es.map Prod.fst = E.map Ent.ty ∧ ws = E.map Ent.w ∧
        es.mapM (fun x => (denote env x.1 x.2).map fun v => (x.1, v)) = some (E.map fun x => (x.ty, x.v)) ∧ Keep None' mem mem' ∧
        (∀ x ∈ E, EntOK mem' x ∧ mem.length ≤ x.lo) ∧ E.Pairwise fun x y => x.hi ≤ y.lo
    | .error _ => es.mapM (fun x => (denote env x.1 x.2).map fun v => (x.1, v)) = none
  | [], mem, _, _ => by
    rw [evalList]
    exact ⟨[], rfl, rfl, rfl, .refl _ _, by simp, by simp⟩
  | (ty, e) :: es, mem, hw, hc => by
    rw [evalList]
    have h := eval_spec ty (hw (ty, e) List.mem_cons_self) e mem hc
    rw [Outcome.eq_def] at h
    simp only [bind, Except.bind, pure, Except.pure]
    cases h1 : eval consts ty e mem with
    | error er =>
      rw [h1] at h
      simp only [List.mapM_cons, h]
      rfl
    | ok p =>
      obtain ⟨mem₁, w⟩ := p
      rw [h1] at h
      obtain ⟨v, hv, hg⟩ := h
      have ih := evalList_spec es mem₁ (fun x hx => hw x (List.mem_cons_of_mem _ hx)) (hc.all hg.keep)
      simp only
      cases h3 : evalList consts es mem₁ with
      | error er =>
        rw [h3] at ih
        simp only [List.mapM_cons, hv, ih]
        rfl
      | ok p =>
        obtain ⟨mem', ws⟩ := p
        rw [h3] at ih
        obtain ⟨E, h4, h5, h6, h7, h8, h9⟩ := ih
        refine ⟨⟨ty, w, v, mem.length, mem₁.length⟩ :: E, by rw [List.map_cons, List.map_cons, h4], by rw [List.map_cons, h5], ?_, hg.keep.trans h7, ?_, ?_⟩
        · simp only [List.mapM_cons, hv, h6]
          rfl
        · intro x hx
          rcases List.mem_cons.mp hx with rfl | hx
          · exact ⟨hg.ent.keep h7, Nat.le_refl _⟩
          · exact ⟨(h8 x hx).1, Nat.le_trans hg.keep.length (h8 x hx).2⟩
        · rw [List.pairwise_cons]
          exact ⟨fun x hx => (h8 x hx).2, h9⟩

/-- Constants with their places in a list. -/
def places : List Ent → Nat → List (Ent × Nat)
  | [], _ => []
  | x :: E, off => (x, off) :: places E (off + x.ty.size)

theorem places_zip : ∀ (E : List Ent) (off : Nat), (E.map Ent.ty).zip ((offsets (E.map Ent.ty) off).zip (E.map Ent.w)) =
    (places E off).map fun p => (p.1.ty, p.2, p.1.w)
  | [], _ => rfl
  | x :: E, off => by
    simp only [List.map_cons, offsets, places, List.zip_cons_cons, places_zip E]

theorem places_bound : ∀ (E : List Ent) (off : Nat) (p : Ent × Nat), p ∈ places E off →
    p.1 ∈ E ∧ off ≤ p.2 ∧ p.2 + p.1.ty.size ≤ off + ((E.map Ent.ty).map Ty.size).sum
  | [], _, _, h => by cases h
  | x :: E, off, p, h => by
    rw [places] at h
    simp only [List.map_cons, List.sum_cons]
    rcases List.mem_cons.mp h with rfl | h
    · exact ⟨List.mem_cons_self, Nat.le_refl _, by show off + x.ty.size ≤ _; omega⟩
    · have := places_bound E _ p h
      exact ⟨List.mem_cons_of_mem _ this.1, by omega, by omega⟩

theorem places_pairwise : ∀ (E : List Ent) (off : Nat), (places E off).Pairwise fun p q => p.2 + p.1.ty.size ≤ q.2
  | [], _ => .nil
  | x :: E, off => by
    rw [places, List.pairwise_cons]
    exact ⟨fun p hp => (places_bound E _ p hp).2.1, places_pairwise E _⟩

/-- The structure of a list of expressions has their words. -/
theorem makeList_spec {mem : Mem} {E : List Ent} (h : ∀ x ∈ E, EntOK mem x) :
    ∃ mem' ws', makeList (E.map Ent.ty) (E.map Ent.w) mem = .ok (mem', mem.length) ∧ Keep None' mem mem' ∧ mem'.length = mem.length + 1 ∧
      mem'[mem.length]? = some ⟨.plain, 0, 0, ws'⟩ ∧ ws'.length = ((E.map Ent.ty).map Ty.size).sum ∧
      ∀ p ∈ places E 0, slice ws' p.2 p.1.ty.size = wordsOf mem p.1.ty p.1.w := by
  let mem₁ := (storageAdd mem ((E.map Ent.ty).map Ty.size).sum).1
  have hk : Keep None' mem mem₁ := .append _ _ _
  have hln : mem₁.length = mem.length + 1 := by simp [mem₁, storageAdd]
  have hwk : ∀ x ∈ E, wordsOf mem₁ x.ty x.w = wordsOf mem x.ty x.w := fun x hx => wordsOf_keep hk fun hs => by
    obtain ⟨b, h1, _, h3⟩ := (h x hx).ptr hs
    exact ⟨b, 0, h1, Nat.lt_of_lt_of_le h3 (h x hx).hi, fun h => h⟩
  obtain ⟨mem', ws', h1, h2, h3, h4, h5, h6⟩ := assignList_spec (P := All mem) (Q := All mem) (mem := mem₁) (b := mem.length)
    (Nat.lt_irrefl _) (Nat.lt_irrefl _) (storageAdd_get ..) ((places E 0).map fun p => (p.1.ty, p.2, p.1.w))
    (by
      intro x hx
      obtain ⟨p, hp, rfl⟩ := List.mem_map.mp hx
      have hE := (places_bound E 0 p hp).1
      refine ⟨p.1.v, ?_, fun hs => ?_⟩
      · show Rep _ _ mem₁ p.1.ty (wordsOf mem₁ p.1.ty p.1.w) _
        rw [hwk _ hE]
        exact (h _ hE).rep.move (fun i hl hi => ⟨hl, hk.same i hl fun h => h⟩) fun i hl _ => ⟨hl, hk.same i hl fun h => h⟩
      · obtain ⟨b, h1, _, h3⟩ := (h _ hE).ptr hs
        have := (h _ hE).hi
        exact ⟨b, 0, h1, by omega, by omega⟩)
    (by
      intro x hx
      obtain ⟨p, hp, rfl⟩ := List.mem_map.mp hx
      show p.2 + p.1.ty.size ≤ (List.replicate _ _).length
      rw [List.length_replicate]
      have := (places_bound E 0 p hp).2.2
      omega)
    (by
      rw [List.pairwise_map]
      exact places_pairwise E 0)
  refine ⟨mem', ws', ?_, ⟨by omega, fun i hi _ => ?_⟩, by omega, h4, by rw [h5]; simp, fun p hp => ?_⟩
  · rw [makeList, places_zip]
    show (assignList mem.length _ mem₁).bind _ = _
    rw [h1]
    rfl
  · rw [h2.same i (by omega) (by omega), hk.same i hi fun h => h]
  · rw [h6 _ (List.mem_map_of_mem hp)]
    exact hwk _ (places_bound E 0 p hp).1

/-! ## Storing lists in variables -/

/-- A field of a list, as a constant. -/
theorem deref_words {mem : Mem} {b off : Nat} {ty : Ty} {ws : List Word} (hb : mem[b]? = some ⟨.plain, 0, 0, ws⟩) (hl : off + ty.size ≤ ws.length) :
    wordsOf mem ty (constDeref mem ty b off) = slice ws off ty.size := by
  cases hs : ty.structured with
  | true => simp only [wordsOf, constDeref, hs, if_true, peek_some hb]
  | false =>
    have h1 : ty.size = 1 := by
      cases ty <;> first | rfl | (simp [Ty.structured] at hs)
    simp only [wordsOf, constDeref, hs, Bool.false_eq_true, if_false, peek_some hb]
    rw [h1] at hl ⊢
    refine List.ext_getElem? fun j => ?_
    rw [slice_get]
    cases j with
    | zero =>
      rw [if_pos (by omega), slice_get, if_pos (by omega), List.getElem?_cons_zero, Nat.add_zero, List.getElem?_eq_getElem (by omega)]
      rfl
    | succ j =>
      rw [List.getElem?_cons_succ, List.getElem?_nil, slice_get, if_neg (by omega)]

/-- One variable of a list. -/
theorem assign_var {P Q : Nat → Prop} {mem : Mem} {v b off : Nat} {ty : Ty} {ws : List Word} {x : Val} {old : List Word}
    (hb : mem[b]? = some ⟨.plain, 0, 0, ws⟩) (hl : off + ty.size ≤ ws.length) (hr : Rep P Q mem ty (slice ws off ty.size) x)
    (hv : mem[v]? = some ⟨.plain, 0, 0, old⟩) (ho : old.length = ty.size) :
    ∃ mem', constAssign mem v 0 ty (constDeref mem ty b off) = .ok mem' ∧ Keep (· = v) mem mem' ∧ mem'.length = mem.length ∧
      mem'[v]? = some ⟨.plain, 0, 0, slice ws off ty.size⟩ := by
  have hw := deref_words hb hl
  refine ⟨_, constAssign_ok v 0 (v := x) (by rw [hw]; exact hr) (fun hs => ?_), .poke fun _ => rfl, poke_length .., ?_⟩
  · rw [constDeref, if_pos hs]
    exact ⟨_, _, rfl⟩
  · rw [poke_words hv, hw]
    have hsl := slice_length hl
    have : splice old 0 (slice ws off ty.size) = slice ws off ty.size := by
      rw [splice, List.take_zero, List.nil_append, List.drop_eq_nil_of_le (by omega), List.append_nil]
    show some (Block.mk _ _ _ (splice old 0 _)) = _
    rw [this]

theorem spread_spec {P Q : Nat → Prop} {mem : Mem} {b : Nat} {ws : List Word} (hb : mem[b]? = some ⟨.plain, 0, 0, ws⟩) :
    ∀ L : List ((Ty × Nat) × Nat), (∀ p ∈ L, p.2 + p.1.1.size ≤ ws.length ∧ (∃ x, Rep P Q mem p.1.1 (slice ws p.2 p.1.1.size) x) ∧ p.1.2 ≠ b ∧
      ∃ old, mem[p.1.2]? = some ⟨.plain, 0, 0, old⟩ ∧ old.length = p.1.1.size) → L.Pairwise (fun p q => p.1.2 ≠ q.1.2) →
    ∃ mem', spread b L mem = .ok mem' ∧ mem'.length = mem.length ∧ Keep (fun i => ∃ p ∈ L, i = p.1.2) mem mem' ∧
      ∀ p ∈ L, mem'[p.1.2]? = some ⟨.plain, 0, 0, slice ws p.2 p.1.1.size⟩
  | [], _, _ => ⟨mem, rfl, rfl, .refl _ _, by simp⟩
  | ((ty, v), off) :: L, h, hp => by
    rw [List.pairwise_cons] at hp
    obtain ⟨mem₁, h1, h2, h3, h4⟩ := spread_spec hb L (fun p hp => h p (List.mem_cons_of_mem _ hp)) hp.2
    obtain ⟨hl, ⟨x, hr⟩, hvb, old, hv, ho⟩ := h _ List.mem_cons_self
    simp only at hl hr hvb hv ho
    have hb₁ : mem₁[b]? = some ⟨.plain, 0, 0, ws⟩ := h3.get hb fun ⟨p, hp, he⟩ => (h p (List.mem_cons_of_mem _ hp)).2.2.1 he.symm
    have hv₁ : mem₁[v]? = some ⟨.plain, 0, 0, old⟩ := h3.get hv fun ⟨p, hp', he⟩ => hp.1 p hp' he
    have hpo : PlainOnly mem mem₁ := h3.plain fun i blk hi ⟨p, hp, he⟩ => by
      obtain ⟨_, _, _, old, ho, _⟩ := h p (List.mem_cons_of_mem _ hp)
      rw [he, ho] at hi
      cases hi
      rfl
    obtain ⟨mem', h5, h6, h7, h8⟩ := assign_var hb₁ hl (hr.plain hpo) hv₁ ho
    refine ⟨mem', ?_, by omega, ?_, fun p hp' => ?_⟩
    · rw [spread, h1]
      exact h5
    · refine (h3.weaken fun i _ ⟨p, hp, he⟩ => ⟨p, List.mem_cons_of_mem _ hp, he⟩).trans (h6.weaken fun i _ he => ⟨_, List.mem_cons_self, he⟩)
    · rcases List.mem_cons.mp hp' with rfl | hp'
      · exact h8
      · exact h6.get (h4 p hp') fun he => hp.1 p hp' he.symm

theorem spreadNew_spec {P Q : Nat → Prop} {b : Nat} {ws : List Word} : ∀ (L : List (Ty × Nat)) (mem : Mem), mem[b]? = some ⟨.plain, 0, 0, ws⟩ →
    (∀ p ∈ L, p.2 + p.1.size ≤ ws.length ∧ ∃ x, Rep P Q mem p.1 (slice ws p.2 p.1.size) x) →
    ∃ mem' vs, spreadNew b L mem = .ok (mem', vs) ∧ Keep None' mem mem' ∧ vs = L.zipIdx.map (fun p => (p.1.1, mem.length + p.2)) ∧
      mem'.length = mem.length + L.length ∧
      ∀ (i : Nat) ty off, L[i]? = some (ty, off) → mem'[mem.length + i]? = some ⟨.plain, 0, 0, slice ws off ty.size⟩
  | [], mem, _, _ => ⟨mem, [], rfl, .refl _ _, rfl, rfl, fun i ty off h => by simp at h⟩
  | (ty, off) :: L, mem, hb, h => by
    obtain ⟨hl, x, hr⟩ := h _ List.mem_cons_self
    simp only at hl hr
    let mem₁ := (storageAdd mem ty.size).1
    have hk : Keep None' mem mem₁ := .append _ _ _
    have hln : mem₁.length = mem.length + 1 := by simp [mem₁, storageAdd]
    have hbl := getElem?_lt hb
    obtain ⟨mem₂, h1, h2, h3, h4⟩ := assign_var (mem := mem₁) (v := mem.length) (hk.get hb fun h => h) hl
      (hr.plain (hk.plain fun _ _ _ h => h.elim)) (storageAdd_get ..) (by simp)
    have hk₂ : Keep None' mem mem₂ := ⟨by omega, fun i hi _ => by rw [h2.same i (by omega) (by omega), hk.same i hi fun h => h]⟩
    obtain ⟨mem', vs, h5, h6, h7, h8, h9⟩ := spreadNew_spec L mem₂ (hk₂.get hb fun h => h) fun p hp => by
      obtain ⟨hl, x, hr⟩ := h p (List.mem_cons_of_mem _ hp)
      exact ⟨hl, x, hr.plain (hk₂.plain fun _ _ _ h => h.elim)⟩
    refine ⟨mem', (ty, mem.length) :: vs, ?_, hk₂.trans h6, ?_, by rw [List.length_cons]; omega, fun i ty' off' hi => ?_⟩
    · rw [spreadNew]
      show (constAssign mem₁ mem.length 0 ty (constDeref mem₁ ty b off)).bind _ = _
      rw [h1]
      show (spreadNew b L mem₂).bind _ = _
      rw [h5]
      rfl
    · rw [h7, List.zipIdx_cons, List.map_cons, List.zipIdx_succ, List.map_map]
      simp only [Nat.add_zero, List.cons.injEq, true_and]
      refine List.map_congr_left fun p _ => ?_
      simp only [Function.comp]
      rw [h3, hln]
      congr 1
      omega
    · cases i with
      | zero =>
        simp only [List.getElem?_cons_zero, Option.some.injEq, Prod.mk.injEq] at hi
        obtain ⟨rfl, rfl⟩ := hi
        rw [Nat.add_zero]
        exact h6.get h4 fun h => h
      | succ i =>
        rw [List.getElem?_cons_succ] at hi
        have := h9 i ty' off' hi
        rw [h3, hln] at this
        rw [← this]
        congr 1
        omega

theorem allocVars_spec (ty : Ty) : ∀ (n : Nat) (mem : Mem), (allocVars ty n mem).2 = (List.range n).map (fun i => (ty, mem.length + i)) ∧
    Keep None' mem (allocVars ty n mem).1 ∧ (allocVars ty n mem).1.length = mem.length + n ∧
    ∀ i, i < n → (allocVars ty n mem).1[mem.length + i]? = some ⟨.plain, 0, 0, List.replicate ty.size (.int 0)⟩
  | 0, mem => ⟨rfl, .refl _ _, rfl, fun _ h => absurd h (Nat.not_lt_zero _)⟩
  | n + 1, mem => by
    let mem₁ := (storageAdd mem ty.size).1
    have hk : Keep None' mem mem₁ := .append _ _ _
    have hln : mem₁.length = mem.length + 1 := by simp [mem₁, storageAdd]
    obtain ⟨h1, h2, h3, h4⟩ := allocVars_spec ty n mem₁
    refine ⟨?_, hk.trans h2, ?_, fun i hi => ?_⟩
    · show (ty, mem.length) :: (allocVars ty n mem₁).2 = _
      rw [h1, List.range_succ_eq_map, List.map_cons, List.map_map, hln]
      simp only [Nat.add_zero, List.cons.injEq, true_and]
      refine List.map_congr_left fun i _ => ?_
      simp only [Function.comp]
      congr 1
      omega
    · show (allocVars ty n mem₁).1.length = _
      omega
    · show (allocVars ty n mem₁).1[_]? = _
      cases i with
      | zero => exact h2.get (storageAdd_get ..) fun h => h
      | succ i =>
        rw [← h4 i (by omega), hln]
        congr 1
        omega

end Umka.Static
