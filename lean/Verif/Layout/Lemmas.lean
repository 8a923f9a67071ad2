import Verif.Layout.Model
/-! # Layout: lemmas -/

namespace Umka.Layout
open Spec

theorem bind_ok {ε β γ : Type} (x : β) (f : β → Except ε γ) :
    ((Except.ok x : Except ε β) >>= f) = f x := rfl

theorem bind_eq_ok {ε β γ : Type} {m : Except ε β} {f : β → Except ε γ} {y : γ}
    (h : (m >>= f) = .ok y) : ∃ x, m = .ok x ∧ f x = .ok y := by
  cases m with
  | error e => cases h
  | ok x => exact ⟨x, rfl, h⟩

theorem checked_ok {x y : Int} (h : checked x = .ok y) : y = x ∧ -2147483648 ≤ x ∧ x ≤ intMax := by
  unfold checked at h
  split at h
  · next hx => injection h with h; exact ⟨h.symm, hx⟩
  · cases h

theorem typeSize_ok {l : Lay} {y : Int} (h : typeSize l = .ok y) : y = l.size ∧ 0 ≤ l.size := by
  unfold typeSize at h
  split at h
  · cases h
  · next hx => injection h with h; exact ⟨h.symm, by omega⟩

/-- Possible alignments. -/
def IsAl (a : Int) : Prop := a = 1 ∨ a = 2 ∨ a = 4 ∨ a = 8

theorem align_eq {x a : Int} (hx : 0 ≤ x) (ha : IsAl a) : align x a = (x + (a - 1)) / a * a := by
  unfold align
  rw [Int.tdiv_eq_ediv_of_nonneg]
  rcases ha with rfl | rfl | rfl | rfl <;> omega

theorem align_ge {x a : Int} (hx : 0 ≤ x) (ha : IsAl a) :
    x ≤ align x a ∧ align x a < x + a ∧ align x a % a = 0 := by
  rw [align_eq hx ha]
  rcases ha with rfl | rfl | rfl | rfl <;> omega

theorem toInt_id {x : Int} (h : -2147483648 ≤ x ∧ x ≤ 2147483647) : toInt x = x := by
  unfold toInt; omega

theorem toInt_neg_or {x : Int} (h0 : 0 ≤ x) (h : x < 4294967296) :
    toInt x < 0 ∨ (toInt x = x ∧ x ≤ 2147483647) := by
  unfold toInt; omega

theorem isAl_max {a b : Int} (ha : IsAl a) (hb : IsAl b) : IsAl (if a < b then b else a) := by
  split <;> assumption

/-- Invariant of a structure under construction. -/
structure Good (s : Struct) : Prop where
  al : IsAl s.alignment
  als : ∀ f ∈ s.fields, IsAl f.alignment ∧ f.alignment ≤ s.alignment
  pos : ∀ f ∈ s.fields, 0 ≤ f.offset ∧ 0 ≤ f.size
  aligned : ∀ f ∈ s.fields, f.offset % f.alignment = 0
  order : s.fields.Pairwise fun a b => a.offset + a.size ≤ b.offset
  last : ∀ l, s.fields.getLast? = some l → ∀ f ∈ s.fields, f.offset + f.size ≤ l.offset + l.size
  inside : 0 ≤ s.size → ∀ f ∈ s.fields, f.offset + f.size ≤ s.size
  multiple : 0 ≤ s.size → s.size % s.alignment = 0
  bound : s.size ≤ intMax
  empty : s.fields = [] → s.size = 0

theorem isAl_dvd {a b : Int} (ha : IsAl a) (hb : IsAl b) (h : a ≤ b) : b % a = 0 := by
  rcases ha with rfl | rfl | rfl | rfl <;> rcases hb with rfl | rfl | rfl | rfl <;> omega

theorem good_empty : Good emptyStruct where
  al := Or.inl rfl
  als := by simp [emptyStruct]
  pos := by simp [emptyStruct]
  aligned := by simp [emptyStruct]
  order := by simp [emptyStruct]
  last := by simp [emptyStruct]
  inside := by simp [emptyStruct]
  multiple := by simp [emptyStruct]
  bound := by simp [emptyStruct, intMax]
  empty := by simp [emptyStruct]

/-- The offset of the last field did not fit into `int`: no field can follow, and the type cannot be
used. -/
structure Bad (s : Struct) : Prop where
  al : IsAl s.alignment
  size : s.size < 0
  last : ∃ l, s.fields.getLast? = some l ∧ l.offset + l.size < 0

theorem addField_bad {s s' : Struct} {f : Lay} (hs : Bad s) (h : addField s f = .ok s') : False := by
  obtain ⟨l, hl, hneg⟩ := hs.last
  unfold addField at h
  obtain ⟨minNext, hm, h⟩ := bind_eq_ok h
  obtain ⟨size, hz, h⟩ := bind_eq_ok h
  obtain ⟨room, hr, h⟩ := bind_eq_ok h
  rw [hl] at hm
  obtain ⟨rfl, hc1, hc2⟩ := checked_ok hm
  obtain ⟨rfl, hc1, hc2⟩ := checked_ok hr
  unfold intMax at hc2
  omega

theorem addField_good {s s' : Struct} {f : Lay} (hs : Good s) (hf : IsAl f.alignment)
    (h : addField s f = .ok s') :
    (Good s' ∨ Bad s') ∧ 0 ≤ f.size ∧ ∃ o, s'.fields = s.fields ++ [⟨o, f.size, f.alignment⟩] := by
  unfold addField at h
  obtain ⟨minNext, hm, h⟩ := bind_eq_ok h
  obtain ⟨size, hz, h⟩ := bind_eq_ok h
  obtain ⟨rfl, hz0⟩ := typeSize_ok hz
  obtain ⟨room, hr, h⟩ := bind_eq_ok h
  obtain ⟨rfl, _, _⟩ := checked_ok hr
  split at h
  · cases h
  next hroom =>
  obtain ⟨stop, hstop, h⟩ := bind_eq_ok h
  injection h with h
  obtain ⟨rfl, hs1, hs2⟩ := checked_ok hstop
  unfold intMax at *
  -- minNext is the end of the last field
  have hmin : 0 ≤ minNext ∧ minNext ≤ 2147483647 ∧
      ∀ g ∈ s.fields, g.offset + g.size ≤ minNext := by
    split at hm
    · next hl =>
      injection hm with hm
      rw [List.getLast?_eq_none_iff] at hl
      subst hm
      exact ⟨by omega, by omega, by rw [hl]; simp⟩
    · next last hl =>
      obtain ⟨rfl, hc1, hc2⟩ := checked_ok hm
      unfold intMax at hc2
      have := hs.pos last (List.mem_of_getLast? hl)
      exact ⟨by omega, hc2, hs.last last hl⟩
  obtain ⟨hm0, hm1, hmf⟩ := hmin
  obtain ⟨ha1, ha2, ha3⟩ := align_ge hm0 hf
  have hal := isAl_max hs.al hf
  refine ⟨?_, hz0, toInt (align minNext f.alignment), by rw [← h]⟩
  generalize hA : align minNext f.alignment = A at *
  by_cases hAw : A ≤ 2147483647
  · left
    rw [toInt_id ⟨by omega, hAw⟩] at *
    generalize hM : (if s.alignment < f.alignment then f.alignment else s.alignment) = M at *
    have hM1 : s.alignment ≤ M ∧ f.alignment ≤ M := by rw [← hM]; split <;> omega
    obtain ⟨hb1, hb2, hb3⟩ := align_ge (x := A + f.size) (by omega) hal
    generalize hB : align (A + f.size) M = B at *
    have hB' : toInt B < 0 ∨ (toInt B = B ∧ B ≤ 2147483647) :=
      toInt_neg_or (by omega) (by rcases hal with h | h | h | h <;> omega)
    subst h
    constructor
    · exact hal
    · intro g hg
      rcases List.mem_append.1 hg with hg | hg
      · exact ⟨(hs.als g hg).1, Int.le_trans (hs.als g hg).2 hM1.1⟩
      · rw [List.mem_singleton] at hg; subst hg; exact ⟨hf, hM1.2⟩
    · intro g hg
      rcases List.mem_append.1 hg with hg | hg
      · exact hs.pos g hg
      · rw [List.mem_singleton] at hg; subst hg; exact ⟨by dsimp only; omega, hz0⟩
    · intro g hg
      rcases List.mem_append.1 hg with hg | hg
      · exact hs.aligned g hg
      · rw [List.mem_singleton] at hg; subst hg; exact ha3
    · refine List.pairwise_append.2 ⟨hs.order, List.pairwise_singleton .., ?_⟩
      intro a ha b hb
      rw [List.mem_singleton] at hb; subst hb
      have := hmf a ha
      dsimp only; omega
    · intro l hl g hg
      dsimp only at hl
      rw [List.getLast?_append] at hl
      simp only [List.getLast?_singleton, Option.some_or, Option.some.injEq] at hl
      subst hl
      rcases List.mem_append.1 hg with hg | hg
      · have := hmf g hg; dsimp only; omega
      · rw [List.mem_singleton] at hg; subst hg; exact Int.le_refl _
    · dsimp only
      intro h0 g hg
      rcases hB' with hB' | ⟨hB', _⟩
      · omega
      rcases List.mem_append.1 hg with hg | hg
      · have := hmf g hg; omega
      · rw [List.mem_singleton] at hg; subst hg; dsimp only; omega
    · dsimp only
      intro h0
      rcases hB' with hB' | ⟨hB', _⟩
      · omega
      · rw [hB']; exact hb3
    · dsimp only; unfold intMax; omega
    · intro hnil; simp at hnil
  · right
    have hA2 : A ≤ 2147483654 := by rcases hf with h | h | h | h <;> omega
    have hT : toInt A = A - 4294967296 := by unfold toInt; omega
    have hsz : f.size ≤ 7 := by rcases hf with h | h | h | h <;> omega
    subst h
    constructor
    · exact hal
    · dsimp only
      rw [hT]
      generalize (if s.alignment < f.alignment then f.alignment else s.alignment) = M at *
      generalize hy : A - 4294967296 + f.size = y
      have hyb : -2147483648 ≤ y ∧ y ≤ -2147483600 := by omega
      have : align y M ≤ 0 - 2147483000 ∧ -2147483648 ≤ align y M := by
        unfold align
        rcases hal with h | h | h | h <;> subst h
        all_goals
          rw [show ∀ k : Int, Int.tdiv (y + (k - 1)) k = Int.tdiv (-(-(y + (k - 1)))) k from
            fun k => by rw [Int.neg_neg], Int.neg_tdiv, Int.tdiv_eq_ediv_of_nonneg (by omega)]
          omega
      unfold toInt; omega
    · refine ⟨⟨toInt A, f.size, f.alignment⟩, by simp, ?_⟩
      dsimp only; omega

/-- The layouts of the fields. -/
def fieldLays (s : Struct) : List Lay := s.fields.map fun f => ⟨f.size, f.alignment⟩

def layouts : Fields → Res (List Lay)
  | .none => .ok []
  | .add fs t => do
    let ls ← layouts fs
    let l ← layout t
    return ls ++ [l]

/-- What holds of the layout of every type. -/
def GoodLay (l : Lay) : Prop :=
  IsAl l.alignment ∧ l.size ≤ intMax ∧ (0 ≤ l.size → l.size % l.alignment = 0)

theorem primLayout_good (p : Prim) : GoodLay (primLayout p) := by
  cases p <;> simp [GoodLay, primLayout, IsAl, intMax]

theorem resizeArray_good {b l : Lay} {n : Nat} (hb : GoodLay b) (h : resizeArray b n = .ok l) :
    GoodLay l ∧ 0 ≤ b.size ∧ l = ⟨n * b.size, b.alignment⟩ := by
  unfold resizeArray at h
  split at h
  · cases h
  obtain ⟨size, hz, h⟩ := bind_eq_ok h
  obtain ⟨rfl, hz0⟩ := typeSize_ok hz
  split at h
  · cases h
  obtain ⟨total, ht, h⟩ := bind_eq_ok h
  injection h with h
  obtain ⟨rfl, h1, h2⟩ := checked_ok ht
  subst h
  refine ⟨⟨hb.1, h2, fun _ => ?_⟩, hz0, rfl⟩
  have := hb.2.2 hz0
  dsimp only
  rw [Int.mul_emod, this]; simp

mutual
theorem layout_good : ∀ (t : Ty) (l : Lay), layout t = .ok l → GoodLay l
  | .prim p, l, h => by
    rw [layout] at h; injection h with h; subst h; exact primLayout_good p
  | .array n base, l, h => by
    rw [layout] at h
    obtain ⟨b, hb, h⟩ := bind_eq_ok h
    exact (resizeArray_good (layout_good base b hb) h).1
  | .struct fs, l, h => by
    rw [layout] at h
    obtain ⟨s, hs, h⟩ := bind_eq_ok h
    injection h with h; subst h
    have := (structLayout_good fs s hs).1
    refine ⟨this.1, this.2.1, this.2.2⟩
theorem structLayout_good : ∀ (fs : Fields) (s : Struct), structLayout fs = .ok s →
    GoodLay ⟨s.size, s.alignment⟩ ∧ (Good s ∨ Bad s) ∧ layouts fs = .ok (fieldLays s)
  | .none, s, h => by
    rw [structLayout] at h; injection h with h; subst h
    refine ⟨⟨Or.inl rfl, ?_, ?_⟩, Or.inl good_empty, rfl⟩ <;> simp [emptyStruct, intMax]
  | .add fs t, s, h => by
    rw [structLayout] at h
    obtain ⟨s0, hs0, h⟩ := bind_eq_ok h
    obtain ⟨l, hl, h⟩ := bind_eq_ok h
    obtain ⟨_, hg | hb, hls⟩ := structLayout_good fs s0 hs0
    · obtain ⟨hgb, hz, o, ho⟩ := addField_good hg (layout_good t l hl).1 h
      have hlays : layouts (.add fs t) = .ok (fieldLays s) := by
        rw [layouts, hls, bind_ok, hl, bind_ok]
        simp only [fieldLays, ho, List.map_append, List.map_cons, List.map_nil]
        rfl
      refine ⟨?_, hgb, hlays⟩
      rcases hgb with hg | hb
      · exact ⟨hg.al, hg.bound, hg.multiple⟩
      · have := hb.size
        refine ⟨hb.al, ?_, ?_⟩ <;> dsimp only <;> unfold intMax at * <;> omega
    · exact (addField_bad hb h).elim
end

theorem good_sound {s : Struct} (h : Good s) (h0 : 0 ≤ s.size) :
    SoundStruct s.fields s.size s.alignment where
  disjoint := by
    refine h.order.imp ?_
    intro a b hab x
    omega
  aligned := h.aligned
  within f hf := ⟨(h.pos f hf).1, h.inside h0 f hf⟩
  multiple := h.multiple h0
  divides f hf := isAl_dvd (h.als f hf).1 h.al (h.als f hf).2

/-! ## Parameters -/

theorem align8 (z : Nat) : align (z : Int) 8 = 8 * (slots z : Int) := by
  rw [align_eq (by omega) (by unfold IsAl; omega)]
  unfold slots; omega

theorem foldl_slots (zs : List Nat) (k : Nat) (h : 8 * (k + (zs.map slots).sum) ≤ 2147483647) :
    zs.foldl (fun (size : Int) (z : Nat) => toInt (size + align (z : Int) 8)) (8 * (k : Int)) =
      8 * ((k + (zs.map slots).sum : Nat) : Int) := by
  induction zs generalizing k with
  | nil => simp
  | cons z zs ih =>
    simp only [List.map_cons, List.sum_cons] at h
    rw [List.foldl_cons, align8, toInt_id (by omega)]
    have := ih (k + slots z) (by omega)
    rw [show (8 * (k : Int) + 8 * (slots z : Int)) = 8 * ((k + slots z : Nat) : Int) by omega, this]
    simp only [List.map_cons, List.sum_cons]
    omega

theorem sum_take_drop (zs : List Nat) (n : Nat) :
    ((zs.take n).map slots).sum + ((zs.drop n).map slots).sum = (zs.map slots).sum := by
  rw [← List.sum_append, ← List.map_append, List.take_append_drop]

theorem paramSizeUpTo_eq (zs : List Nat) (n : Nat) (h : 8 * (zs.map slots).sum ≤ 2147483647) :
    paramSizeUpTo zs n = 8 * (((zs.take n).map slots).sum : Int) := by
  have := sum_take_drop zs n
  have h' := foldl_slots (zs.take n) 0 (by omega)
  unfold paramSizeUpTo
  simpa using h'

theorem paramOffset_eq (zs : List Nat) (i : Nat) (h : 8 * (zs.map slots).sum ≤ 2147483600) :
    paramOffset zs i = .ok (8 * (slotsAfter zs i : Int) + 16) := by
  have hs := sum_take_drop zs (i + 1)
  unfold paramOffset paramSizeTotal
  rw [paramSizeUpTo_eq _ _ (by omega), paramSizeUpTo_eq _ _ (by omega), List.take_length]
  unfold checked intMax
  rw [if_pos (by omega), bind_ok]
  rw [toInt_id (by omega)]
  unfold slotsAfter
  show Except.ok _ = _
  congr 1
  omega

theorem mapM_ok {α β : Type} (f : α → Res β) (g : α → β) (l : List α) (h : ∀ a ∈ l, f a = .ok (g a)) :
    l.mapM f = .ok (l.map g) := by
  induction l with
  | nil => rfl
  | cons a l ih =>
    rw [List.mapM_cons, h a (by simp), bind_ok, ih (fun b hb => h b (by simp [hb])), bind_ok]
    rfl

theorem makeParamLayout_eq (zs : List Nat) (r : Bool) (h : 8 * (zs.map slots).sum ≤ 2147483600) :
    makeParamLayout zs r = .ok ⟨zs.length, if r then 1 else 0, (zs.map slots).sum,
      (List.range zs.length).map fun i => (slotsAfter zs i : Int)⟩ := by
  unfold makeParamLayout
  rw [mapM_ok _ (fun i => (slotsAfter zs i : Int))]
  · rw [bind_ok]
    show Except.ok _ = _
    congr 2
    unfold paramSizeTotal toSize
    rw [paramSizeUpTo_eq _ _ (by omega), List.take_length]
    omega
  · intro i _
    have := sum_take_drop zs (i + 1)
    rw [paramOffset_eq _ _ h, bind_ok]
    show Except.ok _ = _
    unfold toSize slotsAfter
    congr 1
    omega

theorem slotsAfter_step (zs : List Nat) (i : Nat) (h : i < zs.length) :
    slotsAfter zs i + slots zs[i] = ((zs.drop i).map slots).sum := by
  unfold slotsAfter
  rw [List.drop_eq_getElem_cons h]
  simp only [List.map_cons, List.sum_cons]
  omega

theorem drop_sum_le (zs : List Nat) (i j : Nat) (h : i ≤ j) :
    ((zs.drop j).map slots).sum ≤ ((zs.drop i).map slots).sum := by
  obtain ⟨d, rfl⟩ := Nat.exists_eq_add_of_le h
  have := sum_take_drop (zs.drop i) d
  rw [List.drop_drop] at this
  omega

/-! ## Local variables -/

/-- Bytes that a list of operations may need: each variable with its padding. -/
def bytes (ops : List Op) : Int :=
  (ops.map fun | .alloc l => l.size + 7 | _ => 0).sum

/-- The invariant of the compiler, with at most `n` bytes used in each frame. -/
structure Inv (s : State) (n : Int) : Prop where
  blockSize : ∀ b ∈ s.blocks, 0 ≤ b.localVarSize ∧ b.localVarSize ≤ n
  blockFn : ∀ b ∈ s.blocks, ∀ fn, b.fn = some fn → fn < s.numFns
  frameFn : ∀ p ∈ s.frames, p.1 < s.numFns
  varFn : ∀ v ∈ s.vars, v.fn < s.numFns
  varSize : ∀ v ∈ s.vars, 0 ≤ v.part.size
  aligned : ∀ v ∈ s.vars, v.part.offset % v.part.alignment = 0
  /-- functions in progress are distinct from each other and from the complete ones -/
  distinct : (s.blocks.filterMap Block.fn).Nodup
  notDone : ∀ b ∈ s.blocks, ∀ fn, b.fn = some fn → ∀ p ∈ s.frames, p.1 ≠ fn
  inBlock : ∀ v ∈ s.vars, ∀ b ∈ s.blocks, b.fn = some v.fn →
    -16 - b.localVarSize ≤ v.part.offset ∧ v.part.offset + v.part.size ≤ -16
  inFrame : ∀ v ∈ s.vars, ∀ p ∈ s.frames, p.1 = v.fn →
    -16 - 8 * p.2 ≤ v.part.offset ∧ v.part.offset + v.part.size ≤ -16
  disjoint : s.vars.Pairwise fun v w => v.fn = w.fn → v.part.offset + v.part.size ≤ w.part.offset

theorem inv_init : Inv init 0 := by
  constructor <;> simp [init]

theorem allocStack_spec {l : Lay} {bs bs' : List Block} {fn : Nat} {o n : Int}
    (hl : IsAl l.alignment) (hz : 0 ≤ l.size) (hb : ∀ b ∈ bs, 0 ≤ b.localVarSize ∧ b.localVarSize ≤ n)
    (hn : n + l.size + 7 ≤ 2147483600)
    (h : allocStack l bs = .ok (bs', fn, o)) :
    ∃ pre b post L, bs = pre ++ b :: post ∧ b.fn = some fn ∧
      bs' = pre ++ { b with localVarSize := L } :: post ∧
      b.localVarSize + l.size ≤ L ∧ L ≤ b.localVarSize + l.size + 7 ∧ L % l.alignment = 0 ∧
      o = -16 - L := by
  induction bs generalizing bs' with
  | nil => cases h
  | cons b bs ih =>
    cases bs with
    | nil => cases h
    | cons b2 bs =>
      rw [allocStack.eq_def] at h
      dsimp only at h
      split at h
      · next f hf =>
        obtain ⟨size, hs, h⟩ := bind_eq_ok h
        obtain ⟨rfl, _⟩ := typeSize_ok hs
        obtain ⟨room, hr, h⟩ := bind_eq_ok h
        split at h
        · cases h
        injection h with h
        injection h with h1 h2
        injection h2 with h2 h3
        have hb0 := hb b (by simp)
        obtain ⟨a1, a2, a3⟩ := align_ge (x := b.localVarSize + l.size) (by omega) hl
        have a4 : align (b.localVarSize + l.size) l.alignment ≤ b.localVarSize + l.size + 7 := by
          rcases hl with h | h | h | h <;> omega
        rw [toInt_id (x := align _ _) (by omega)] at h1 h3
        rw [toInt_id (by omega)] at h3
        exact ⟨[], b, b2 :: bs, _, rfl, by rw [hf, h2], h1.symm, a1, a4, a3, h3.symm⟩
      · next hf =>
        obtain ⟨⟨bs1, fn1, o1⟩, h1, h⟩ := bind_eq_ok h
        injection h with h
        injection h with e1 e2
        injection e2 with e2 e3
        subst e2 e3
        obtain ⟨pre, b', post, L, e, hfn, e', r⟩ := ih (fun x hx => hb x (by simp [hx])) h1
        refine ⟨b :: pre, b', post, L, by rw [e]; rfl, hfn, by rw [← e1, e']; rfl, r⟩

theorem inv_mono {s : State} {n m : Int} (h : Inv s n) (hnm : n ≤ m) : Inv s m :=
  { h with blockSize := fun b hb => ⟨(h.blockSize b hb).1, by have := (h.blockSize b hb).2; omega⟩ }

/-- What is required of the operations: the variables have layouts that exist. -/
def GoodOp : Op → Prop
  | .alloc l => IsAl l.alignment ∧ 0 ≤ l.size
  | _ => True

theorem step_inv {s s' : State} {op : Op} {n : Int} (hs : Inv s n) (hop : GoodOp op)
    (hn0 : 0 ≤ n) (hn : n + bytes [op] ≤ 2147483600) (h : step s op = .ok s') :
    Inv s' (n + bytes [op]) := by
  cases op with
  | enter =>
    injection h with h; subst h
    simp only [bytes, List.map_cons, List.map_nil, List.sum_cons, List.sum_nil, Int.add_zero]
    constructor
    · intro b hb
      rcases List.mem_cons.1 hb with rfl | hb
      · exact ⟨Int.le_refl _, hn0⟩
      · exact hs.blockSize b hb
    · intro b hb fn hf
      rcases List.mem_cons.1 hb with rfl | hb
      · cases hf
      · exact hs.blockFn b hb fn hf
    · exact hs.frameFn
    · exact hs.varFn
    · exact hs.varSize
    · exact hs.aligned
    · exact hs.distinct
    · intro b hb fn hf
      rcases List.mem_cons.1 hb with rfl | hb
      · cases hf
      · exact hs.notDone b hb fn hf
    · intro v hv b hb hf
      rcases List.mem_cons.1 hb with rfl | hb
      · cases hf
      · exact hs.inBlock v hv b hb hf
    · exact hs.inFrame
    · exact hs.disjoint
  | enterFn =>
    injection h with h; subst h
    simp only [bytes, List.map_cons, List.map_nil, List.sum_cons, List.sum_nil, Int.add_zero]
    constructor
    · intro b hb
      rcases List.mem_cons.1 hb with rfl | hb
      · exact ⟨Int.le_refl _, hn0⟩
      · exact hs.blockSize b hb
    · intro b hb fn hf
      dsimp only
      rcases List.mem_cons.1 hb with rfl | hb
      · injection hf with hf; omega
      · have := hs.blockFn b hb fn hf; omega
    · intro p hp; have := hs.frameFn p hp; dsimp only; omega
    · intro v hv; have := hs.varFn v hv; dsimp only; omega
    · exact hs.varSize
    · exact hs.aligned
    · dsimp only
      rw [List.filterMap_cons_some (f := Block.fn) (b := s.numFns) rfl, List.nodup_cons]
      refine ⟨?_, hs.distinct⟩
      intro hmem
      obtain ⟨b, hb, hf⟩ := List.mem_filterMap.1 hmem
      have := hs.blockFn b hb _ hf
      omega
    · intro b hb fn hf p hp
      rcases List.mem_cons.1 hb with rfl | hb
      · injection hf with hf
        have := hs.frameFn p hp
        omega
      · exact hs.notDone b hb fn hf p hp
    · intro v hv b hb hf
      rcases List.mem_cons.1 hb with rfl | hb
      · injection hf with hf
        have := hs.varFn v hv
        omega
      · exact hs.inBlock v hv b hb hf
    · exact hs.inFrame
    · exact hs.disjoint
  | leave =>
    simp only [bytes, List.map_cons, List.map_nil, List.sum_cons, List.sum_nil, Int.add_zero] at hn ⊢
    rw [step.eq_def] at h
    dsimp only at h
    split at h
    case h_2 => cases h
    next b b' bs hbs =>
    have hsub : ∀ x ∈ b' :: bs, x ∈ s.blocks := by intro x hx; rw [hbs]; simp [hx]
    have hdist := hs.distinct
    rw [hbs] at hdist
    split at h
    · next fn hfn =>
      injection h with h; subst h
      rw [List.filterMap_cons_some hfn, List.nodup_cons] at hdist
      have hother : ∀ x ∈ b' :: bs, ∀ f, x.fn = some f → fn ≠ f := by
        intro x hx f hf e
        exact hdist.1 (List.mem_filterMap.2 ⟨x, hx, by rw [hf, e]⟩)
      have hbm : b ∈ s.blocks := by rw [hbs]; simp
      constructor
      · exact fun x hx => hs.blockSize x (hsub x hx)
      · exact fun x hx => hs.blockFn x (hsub x hx)
      · intro p hp
        rcases List.mem_cons.1 hp with rfl | hp
        · exact hs.blockFn b hbm fn hfn
        · exact hs.frameFn p hp
      · exact hs.varFn
      · exact hs.varSize
      · exact hs.aligned
      · exact hdist.2
      · intro x hx f hf p hp
        rcases List.mem_cons.1 hp with rfl | hp
        · exact hother x hx f hf
        · exact hs.notDone x (hsub x hx) f hf p hp
      · exact fun v hv x hx => hs.inBlock v hv x (hsub x hx)
      · intro v hv p hp hpv
        rcases List.mem_cons.1 hp with rfl | hp
        · dsimp only at hpv ⊢
          have h1 := hs.inBlock v hv b hbm (by rw [hfn, hpv])
          have h2 := hs.blockSize b hbm
          obtain ⟨a1, a2, a3⟩ := align_ge (x := b.localVarSize) h2.1 (a := 8) (by unfold IsAl; omega)
          unfold toSize
          omega
        · exact hs.inFrame v hv p hp hpv
      · exact hs.disjoint
    · next hfn =>
      injection h with h; subst h
      rw [List.filterMap_cons_none hfn] at hdist
      exact { hs with
        blockSize := fun x hx => hs.blockSize x (hsub x hx)
        blockFn := fun x hx => hs.blockFn x (hsub x hx)
        distinct := hdist
        notDone := fun x hx => hs.notDone x (hsub x hx)
        inBlock := fun v hv x hx => hs.inBlock v hv x (hsub x hx) }
  | alloc l =>
    simp only [bytes, List.map_cons, List.map_nil, List.sum_cons, List.sum_nil, Int.add_zero] at hn ⊢
    obtain ⟨⟨bs', fn, o⟩, ha, h⟩ := bind_eq_ok h
    injection h with h; subst h
    obtain ⟨hal, hz⟩ := hop
    obtain ⟨pre, b, post, L, hbs, hfn, hbs', hL1, hL2, hL3, ho⟩ :=
      allocStack_spec hal hz hs.blockSize (by omega) ha
    have hbm : b ∈ s.blocks := by rw [hbs]; simp
    have hb0 := hs.blockSize b hbm
    have hold : ∀ x ∈ bs', (x = { b with localVarSize := L }) ∨ (x ∈ s.blocks ∧ x.fn ≠ some fn ∨
        x ∈ s.blocks ∧ x.fn = none) := by
      intro x hx
      rw [hbs'] at hx
      have hd := hs.distinct
      rw [hbs, List.filterMap_append, List.filterMap_cons_some hfn, List.nodup_append] at hd
      obtain ⟨_, hd2, hd3⟩ := hd
      rw [List.nodup_cons] at hd2
      rcases List.mem_append.1 hx with hx | hx
      · refine Or.inr (Or.inl ⟨by rw [hbs]; simp [hx], fun e => ?_⟩)
        exact hd3 fn (List.mem_filterMap.2 ⟨x, hx, e⟩) fn (by simp) rfl
      · rcases List.mem_cons.1 hx with hx | hx
        · exact Or.inl hx
        · refine Or.inr (Or.inl ⟨by rw [hbs]; simp [hx], fun e => ?_⟩)
          exact hd2.1 (List.mem_filterMap.2 ⟨x, hx, e⟩)
    have hmem : ∀ x ∈ bs', (x.fn = some fn ∧ x.localVarSize = L) ∨
        (x ∈ s.blocks ∧ x.fn ≠ some fn) := by
      intro x hx
      rcases hold x hx with rfl | ⟨h1, h2⟩ | ⟨h1, h2⟩
      · exact Or.inl ⟨hfn, rfl⟩
      · exact Or.inr ⟨h1, h2⟩
      · exact Or.inr ⟨h1, by rw [h2]; simp⟩
    have hfns : bs'.filterMap Block.fn = s.blocks.filterMap Block.fn := by
      rw [hbs', hbs, List.filterMap_append, List.filterMap_append, List.filterMap_cons_some hfn,
        List.filterMap_cons_some (b := fn) (by exact hfn)]
    constructor
    · intro x hx
      rcases hmem x hx with ⟨_, h2⟩ | ⟨h1, _⟩
      · omega
      · have := hs.blockSize x h1; omega
    · intro x hx f hf
      rcases hmem x hx with ⟨h1, _⟩ | ⟨h1, _⟩
      · rw [h1] at hf; injection hf with hf; subst hf; exact hs.blockFn b hbm fn hfn
      · exact hs.blockFn x h1 f hf
    · exact hs.frameFn
    · intro v hv
      rcases List.mem_cons.1 hv with rfl | hv
      · exact hs.blockFn b hbm fn hfn
      · exact hs.varFn v hv
    · intro v hv
      rcases List.mem_cons.1 hv with rfl | hv
      · exact hz
      · exact hs.varSize v hv
    · intro v hv
      rcases List.mem_cons.1 hv with rfl | hv
      · dsimp only
        subst ho
        rcases hal with h | h | h | h <;> rw [h] at hL3 ⊢ <;> omega
      · exact hs.aligned v hv
    · dsimp only; rw [hfns]; exact hs.distinct
    · intro x hx f hf
      rcases hmem x hx with ⟨h1, _⟩ | ⟨h1, _⟩
      · rw [h1] at hf; injection hf with hf; subst hf; exact hs.notDone b hbm fn hfn
      · exact hs.notDone x h1 f hf
    · intro v hv x hx hf
      rcases hmem x hx with ⟨h1, h2⟩ | ⟨h1, h2⟩
      · rcases List.mem_cons.1 hv with rfl | hv
        · dsimp only; omega
        · rw [h1] at hf; injection hf with hf
          have := hs.inBlock v hv b hbm (by rw [hfn, hf])
          omega
      · rcases List.mem_cons.1 hv with rfl | hv
        · exact absurd hf h2
        · exact hs.inBlock v hv x h1 hf
    · intro v hv p hp hpv
      rcases List.mem_cons.1 hv with rfl | hv
      · exact absurd hpv (hs.notDone b hbm fn hfn p hp)
      · exact hs.inFrame v hv p hp hpv
    · refine List.pairwise_cons.2 ⟨?_, hs.disjoint⟩
      intro w hw hf
      have := hs.inBlock w hw b hbm (by rw [hfn]; exact congrArg some hf)
      dsimp only
      omega

theorem bytes_cons (op : Op) (ops : List Op) : bytes (op :: ops) = bytes [op] + bytes ops := by
  unfold bytes; simp

theorem bytes_nonneg (ops : List Op) (h : ∀ op ∈ ops, GoodOp op) : 0 ≤ bytes ops := by
  induction ops with
  | nil => simp [bytes]
  | cons op ops ih =>
    rw [bytes_cons]
    have h1 := ih fun o ho => h o (by simp [ho])
    have h2 := h op (by simp)
    have : 0 ≤ bytes [op] := by
      cases op with
      | alloc l => have := h2.2; simp [bytes]; omega
      | _ => simp [bytes]
    omega

theorem run_inv {s s' : State} {ops : List Op} {n : Int} (hs : Inv s n)
    (hops : ∀ op ∈ ops, GoodOp op) (hn0 : 0 ≤ n) (hn : n + bytes ops ≤ 2147483600)
    (h : run s ops = .ok s') : Inv s' (n + bytes ops) := by
  induction ops generalizing s n with
  | nil => injection h with h; subst h; simpa [bytes] using hs
  | cons op ops ih =>
    rw [run] at h
    obtain ⟨s1, h1, h⟩ := bind_eq_ok h
    rw [bytes_cons] at hn ⊢
    have hb1 := bytes_nonneg [op] (by simpa using hops op (by simp))
    have hb2 := bytes_nonneg ops (fun o ho => hops o (by simp [ho]))
    have := step_inv hs (hops op (by simp)) hn0 (by omega) h1
    have := ih this (fun o ho => hops o (by simp [ho])) (by omega) (by omega) h
    rwa [Int.add_assoc] at this

end Umka.Layout
