import Verif.Desig.Lemmas

/-!
# Designators and assignments: what is refused; paths inside a variable
-/

namespace Umka.Desig
open Spec

variable {σ : Type}

def refused {α : Type} (r : Except CErr α) : Prop := ∃ e, r = .error e

theorem pointer_refused (pre : List (Instr σ)) (t : Ty) (h : pointee t = none) : refused (genPointer pre t) := by
  cases t
  case ptr b => cases b <;> first | exact ⟨_, rfl⟩ | cases h
  case weak b => cases b <;> first | exact ⟨_, rfl⟩ | cases h
  all_goals exact ⟨_, rfl⟩

theorem deref_refused (D : D) (c : Cat) (v : Bool) (hr : Rep D c v) (h : pointee c.ty = none) : refused (genDerefSel (σ := σ) D) := by
  rw [genDerefSel, hr.isVar, hr.ty]
  cases c with
  | value t => exact pointer_refused _ t h
  | place t =>
    simp only [isPlace, if_true, repTy]
    cases hs : t.structured && !v with
    | false => exact pointer_refused _ t h
    | true => cases t <;> first | exact ⟨_, rfl⟩ | cases hs

theorem item_refused (pre : List (Instr σ)) (e : Code σ) (t : Ty) (h : itemCat t = none) : refused (genItem pre e t) := by
  cases t <;> first | exact ⟨_, rfl⟩ | cases h

theorem index_refused (D : D) (c : Cat) (v : Bool) (e : Code σ) (hr : Rep D c v) (h : itemCat (through c.ty) = none)
    (ho : odd c (.index e) = false) : refused (genIndexSel D e) := by
  rw [genIndexSel, hr.ty]
  apply item_refused
  have key : ∀ b pre, itemCat b = none → itemCat (genCollection (σ := σ) pre (.ptr b)).2 = none := by
    intro b pre hb
    cases b <;> first | rfl | cases hb
  cases c with
  | value t =>
    cases t
    case ptr b =>
      have : genImplicit (σ := σ) (repTy (.value (.ptr b)) v) = ([], .ptr b) := by
        cases b <;> first | rfl | cases ho
      rw [this]
      exact key b _ h
    case weak b => cases ho
    all_goals first | rfl | cases h
  | place t =>
    cases t
    case ptr b =>
      have : genImplicit (σ := σ) (repTy (.place (.ptr b)) v) = ([.deref (.ptr b)], .ptr b) := rfl
      rw [this]
      exact key b _ h
    case weak b =>
      have : genImplicit (σ := σ) (repTy (.place (.weak b)) v) = ([.deref (.weak b), .strengthen], .ptr b) := rfl
      rw [this]
      exact key b _ h
    all_goals first
      | (cases v <;> rfl)
      | cases h

theorem fieldOf_refused (pre : List (Instr σ)) (x : Nat) (t : Ty) (h : fieldCat x t = none) : refused (genFieldOf pre x t) := by
  cases t
  case struct fs =>
    rw [genFieldOf]
    cases hf : fs.find x with
    | none => exact ⟨_, rfl⟩
    | some q => rw [fieldCat, hf] at h; cases h
  all_goals exact ⟨_, rfl⟩

theorem field_refused (D : D) (c : Cat) (v : Bool) (x : Nat) (hr : Rep D c v) (h : fieldCat x (through c.ty) = none)
    (ho : odd c (.field (σ := σ) x) = false) : refused (genFieldSel (σ := σ) D x) := by
  rw [genFieldSel, hr.ty]
  cases c with
  | value t =>
    cases t
    case ptr b =>
      have : genImplicit (σ := σ) (repTy (.value (.ptr b)) v) = ([], .ptr b) := by
        cases b <;> first | rfl | cases ho
      simp only [this]
      exact fieldOf_refused _ x b h
    case weak b => cases ho
    all_goals first
      | exact ⟨_, rfl⟩
      | exact fieldOf_refused _ x _ h
  | place t =>
    cases t
    case ptr b => exact fieldOf_refused _ x b h
    case weak b => exact fieldOf_refused _ x b h
    all_goals
      cases v <;> exact fieldOf_refused (σ := σ) [] x _ h

theorem sel_refused (D : D) (c : Cat) (v : Bool) (s : Sel σ) (hr : Rep D c v) (h : selCat c s = none) (ho : odd c s = false) :
    refused (genSel D s) := by
  cases s with
  | deref =>
    apply deref_refused D c v hr
    rw [selCat] at h
    cases hp : pointee c.ty with
    | none => rfl
    | some b => rw [hp] at h; cases h
  | index e => exact index_refused D c v e hr h ho
  | field x => exact field_refused D c v x hr h ho

theorem sels_refused : ∀ (ss : List (Sel σ)) (pre : List (Instr σ)) (D : D) (c : Cat) (v : Bool), Rep D c v → selsCat c ss = none → selsEven c ss →
    refused (genSels pre D ss)
  | [], _, _, _, _, _, h, _ => nomatch h
  | s :: ss, pre, D, c, v, hr, h, hev => by
    rw [genSels]
    cases hs : selCat c s with
    | none =>
      obtain ⟨e, he⟩ := sel_refused D c v s hr hs hev.1
      rw [he]
      exact ⟨e, rfl⟩
    | some c1 =>
      obtain ⟨code, D1, h1, h2, _⟩ := sel_ok D c c1 v s hr hs hev.1
      rw [selsCat, hs] at h
      rw [h1]
      exact sels_refused ss (pre ++ code) D1 c1 (isDeref s) h2 h (hev.2 c1 hs)

theorem designator_refused (d : Designator σ) (h : cat d = none) (hev : Even d) : refused (genDesignator d) :=
  sels_refused d.sels _ _ _ false (rep_base d.base) h hev

/-! ## Paths -/

theorem fields_find : ∀ (fs : Fields) (x : Nat) (q : Nat × Ty), fs.find x = some q → q.1 + q.2.size ≤ fs.size
  | .nil, _, _, h => nomatch h
  | .cons n t r, x, q, h => by
    rw [Fields.find] at h
    split at h
    · cases h
      simp only [Fields.size]
      omega
    · cases hr : r.find x with
      | none => rw [hr] at h; cases h
      | some q' =>
        rw [hr] at h
        cases h
        have := fields_find r x q' hr
        simp only [Fields.size]
        omega

theorem fields_apart : ∀ (fs : Fields) (x y : Nat) (q r : Nat × Ty), x ≠ y → fs.find x = some q → fs.find y = some r →
    q.1 + q.2.size ≤ r.1 ∨ r.1 + r.2.size ≤ q.1
  | .nil, _, _, _, _, _, h, _ => nomatch h
  | .cons n t rest, x, y, q, r, hxy, hx, hy => by
    rw [Fields.find] at hx hy
    by_cases h1 : n = x
    · rw [if_pos h1] at hx
      rw [if_neg (by omega)] at hy
      cases hx
      cases hr : rest.find y with
      | none => rw [hr] at hy; cases hy
      | some r' =>
        rw [hr] at hy
        cases hy
        left
        show 0 + t.size ≤ t.size + r'.1
        omega
    · rw [if_neg h1] at hx
      cases hq : rest.find x with
      | none => rw [hq] at hx; cases hx
      | some q' =>
        rw [hq] at hx
        cases hx
        by_cases h2 : n = y
        · rw [if_pos h2] at hy
          cases hy
          right
          show 0 + t.size ≤ t.size + q'.1
          omega
        · rw [if_neg h2] at hy
          cases hr : rest.find y with
          | none => rw [hr] at hy; cases hy
          | some r' =>
            rw [hr] at hy
            cases hy
            have := fields_apart rest x y q' r' hxy hq hr
            show t.size + q'.1 + q'.2.size ≤ t.size + r'.1 ∨ t.size + r'.1 + r'.2.size ≤ t.size + q'.1
            omega

/-- Where a fixed path leads: an offset and a type. -/
def target : Ty → List Step → Nat × Ty
  | t, [] => (0, t)
  | .struct fs, .field x :: ss =>
    match fs.find x with
    | some q => (q.1 + (target q.2 ss).1, (target q.2 ss).2)
    | none => (0, .void)
  | .array _ t, .item i :: ss => (t.size * i + (target t ss).1, (target t ss).2)
  | t, _ => (0, t)

theorem target_in : ∀ (ss : List Step) (t : Ty), Fixed t ss → (target t ss).1 + (target t ss).2.size ≤ t.size
  | [], t, _ => by simp only [target]; omega
  | s :: ss, t, h => by
    cases t
    case struct fs =>
      cases s with
      | item i => exact absurd h (by simp [Fixed])
      | field x =>
        obtain ⟨q, hq, hf⟩ := h
        have h1 := target_in ss q.2 hf
        have h2 := fields_find fs x q hq
        simp only [target, hq, Ty.size]
        omega
    case array n t =>
      cases s with
      | field x => exact absurd h (by simp [Fixed])
      | item i =>
        obtain ⟨hi, hf⟩ := h
        have h1 := target_in ss t hf
        simp only [target, Ty.size]
        have h2 : t.size * (i + 1) ≤ t.size * n := Nat.mul_le_mul_left _ hi
        rw [Nat.mul_add, Nat.mul_one] at h2
        rw [Nat.mul_comm n]
        omega
    all_goals exact absurd h (by simp [Fixed])

theorem target_apart : ∀ (ss ss' : List Step) (t : Ty), Fixed t ss → Fixed t ss' → Part ss ss' →
    (target t ss).1 + (target t ss).2.size ≤ (target t ss').1 ∨ (target t ss').1 + (target t ss').2.size ≤ (target t ss).1
  | [], ss', t, _, _, hp => absurd hp (by cases ss' <;> simp [Part])
  | s :: ss, [], t, _, _, hp => absurd hp (by simp [Part])
  | s :: ss, s' :: ss', t, h, h', hp => by
    cases t
    case struct fs =>
      cases s with
      | item i => exact absurd h (by simp [Fixed])
      | field x =>
        cases s' with
        | item i => exact absurd h' (by simp [Fixed])
        | field y =>
          obtain ⟨q, hq, hf⟩ := h
          obtain ⟨r, hr, hf'⟩ := h'
          have a1 := target_in ss q.2 hf
          have a2 := target_in ss' r.2 hf'
          simp only [target, hq, hr]
          by_cases hxy : x = y
          · subst hxy
            rw [hq] at hr
            cases hr
            have hp' : Part ss ss' := by
              cases hp with
              | inl h => exact absurd rfl h
              | inr h => exact h
            have := target_apart ss ss' q.2 hf hf' hp'
            omega
          · have := fields_apart fs x y q r hxy hq hr
            omega
    case array n t =>
      cases s with
      | field x => exact absurd h (by simp [Fixed])
      | item i =>
        cases s' with
        | field x => exact absurd h' (by simp [Fixed])
        | item j =>
          obtain ⟨hi, hf⟩ := h
          obtain ⟨hj, hf'⟩ := h'
          have a1 := target_in ss t hf
          have a2 := target_in ss' t hf'
          simp only [target]
          by_cases hij : i = j
          · subst hij
            have hp' : Part ss ss' := by
              cases hp with
              | inl h => exact absurd rfl h
              | inr h => exact h
            have := target_apart ss ss' t hf hf' hp'
            omega
          · rcases Nat.lt_or_gt_of_ne hij with hlt | hgt
            · have h2 : t.size * (i + 1) ≤ t.size * j := Nat.mul_le_mul_left _ hlt
              rw [Nat.mul_add, Nat.mul_one] at h2
              omega
            · have h2 : t.size * (j + 1) ≤ t.size * i := Nat.mul_le_mul_left _ hgt
              rw [Nat.mul_add, Nat.mul_one] at h2
              omega
    all_goals exact absurd h (by simp [Fixed])

theorem path_cat : ∀ (ss : List Step) (t : Ty), Fixed t ss → selsCat (σ := σ) (.place t) (ss.map Step.sel) = some (.place (target t ss).2)
  | [], t, _ => rfl
  | s :: ss, t, h => by
    cases t
    case struct fs =>
      cases s with
      | item i => exact absurd h (by simp [Fixed])
      | field x =>
        obtain ⟨q, hq, hf⟩ := h
        simp only [List.map_cons, Step.sel, selsCat, selCat, Cat.ty, through, fieldCat, hq, Option.map_some, Option.bind_some, target]
        exact path_cat ss q.2 hf
    case array n t =>
      cases s with
      | field x => exact absurd h (by simp [Fixed])
      | item i =>
        simp only [List.map_cons, Step.sel, selsCat, selCat, Cat.ty, through, itemCat, Option.bind_some, target]
        exact path_cat ss t h.2
    all_goals exact absurd h (by simp [Fixed])

theorem path_even : ∀ (ss : List Step) (t : Ty), Fixed t ss → selsEven (σ := σ) (.place t) (ss.map Step.sel)
  | [], t, _ => trivial
  | s :: ss, t, h => by
    cases t
    case struct fs =>
      cases s with
      | item i => exact absurd h (by simp [Fixed])
      | field x =>
        obtain ⟨q, hq, hf⟩ := h
        refine ⟨rfl, fun c' hc => ?_⟩
        simp only [Step.sel, selCat, Cat.ty, through, fieldCat, hq, Option.map_some] at hc
        cases hc
        exact path_even ss q.2 hf
    case array n t =>
      cases s with
      | field x => exact absurd h (by simp [Fixed])
      | item i =>
        refine ⟨rfl, fun c' hc => ?_⟩
        cases hc
        exact path_even ss t h.2
    all_goals exact absurd h (by simp [Fixed])

theorem path_den (ops : Ops σ) (w : World σ) : ∀ (ss : List Step) (t : Ty) (a : Int), 0 < a → Fixed t ss →
    selsDen ops w (.place a t) (ss.map Step.sel) = .ok (w, .place (a + (target t ss).1) (target t ss).2)
  | [], t, a, _, _ => by simp [target, selsDen]
  | s :: ss, t, a, ha, h => by
    cases t
    case struct fs =>
      cases s with
      | item i => exact absurd h (by simp [Fixed])
      | field x =>
        obtain ⟨q, hq, hf⟩ := h
        have := path_den ops w ss q.2 (a + q.1) (by omega) hf
        simp only [List.map_cons, Step.sel, selsDen, selDen, follow, Res.bind_ok, Den.cat, Cat.ty, Den.slot, field, hq]
        rw [if_neg (by omega)]
        simp only [Res.map_ok, Res.bind_ok, this, target, hq]
        congr 3
        omega
    case array n t =>
      cases s with
      | field x => exact absurd h (by simp [Fixed])
      | item i =>
        obtain ⟨hi, hf⟩ := h
        have hnn : (0 : Int) ≤ (t.size : Int) * i := Int.mul_nonneg (by omega) (by omega)
        have := path_den ops w ss t (a + t.size * i) (by omega) hf
        simp only [List.map_cons, Step.sel, selsDen, selDen, follow, fetch, Res.bind_ok, Den.cat, Cat.ty, Den.slot, item]
        rw [if_neg (by omega), if_pos (by omega)]
        simp only [Res.bind_ok, this, target]
        congr 3
        rw [Int.natCast_add, Int.natCast_mul]
        omega
    all_goals exact absurd h (by simp [Fixed])

end Umka.Desig
