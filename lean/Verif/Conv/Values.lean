import Verif.Conv.Cast
/-! # Type conversions: values -/

namespace Umka.Conv

open Umka.Types (Graph Kind Node Field Equivalent WellFormed)
open Umka.Iface (Compatible Declared IsPtrTo equiv_iff equiv_false)

/-- All items are converted, the last one first; the result is the list of converted items or the first error. -/
def convertDown {B E : Type} (conv : Val B → Res (Val B) E) : List (Val B) → Res (List (Val B)) E
  | [] => .ok []
  | v :: vs => (convertDown conv vs).bind fun xs => (conv v).bind fun x => .ok (x :: xs)

/-- Each item is converted in its own way, the first one first. -/
def convertUp {B E : Type} : List (Val B → Res (Val B) E) → List (Val B) → Res (List (Val B)) E
  | [], _ => .ok []
  | _ :: _, [] => .stuck
  | c :: cs, v :: vs => (c v).bind fun x => (convertUp cs vs).bind fun xs => .ok (x :: xs)

theorem Res.bind_assoc {α β γ E : Type} (r : Res α E) (f : α → Res β E) (g : β → Res γ E) : (r.bind f).bind g = r.bind fun a => (f a).bind g := by
  cases r <;> rfl

theorem Res.bind_ok {α E : Type} (r : Res α E) : r.bind .ok = r := by cases r <;> rfl

theorem convertDown_append {B E : Type} (conv : Val B → Res (Val B) E) (v : Val B) : ∀ (vs : List (Val B)),
    convertDown conv (vs ++ [v]) = (conv v).bind fun x => (convertDown conv vs).bind fun xs => .ok (xs ++ [x])
  | [] => by
    simp only [List.nil_append, convertDown]
    cases conv v <;> rfl
  | u :: us => by
    simp only [List.cons_append, convertDown, convertDown_append conv v us, Res.bind_assoc]
    rfl

theorem itemsLoop_eq {B E : Type} (conv : Val B → Res (Val B) E) (src : List (Val B)) : ∀ (i : Nat) (dest : List (Val B)),
    i ≤ src.length → dest.length = src.length →
    itemsLoop conv src i dest = (convertDown conv (src.take i)).bind fun ys => .ok (ys ++ dest.drop i)
  | 0, dest, _, _ => by simp [itemsLoop, convertDown, Res.bind]
  | i + 1, dest, h, hl => by
    rw [itemsLoop, List.getElem?_eq_getElem (by omega)]
    rw [List.take_add_one, List.getElem?_eq_getElem (by omega : i < src.length), Option.toList_some, convertDown_append, Res.bind_assoc]
    show Res.bind _ _ = _
    congr; funext x
    rw [if_pos (by omega), itemsLoop_eq conv src i _ (by omega) (by simpa using hl), Res.bind_assoc]
    congr; funext ys
    simp only [Res.bind, List.append_assoc]
    congr 2
    rw [List.drop_set, if_neg (by omega), Nat.sub_self, List.drop_eq_getElem_cons (by omega : i < dest.length), List.set_cons_zero]
    rfl

theorem exec_items {n : Nat} {B E : Type} (prim : Code n → Val B → Res (Val B) E) (zero : Val B) (c : Code n) (xs : List (Val B)) :
    exec prim zero (.items c) (.array xs) = (convertDown (exec prim zero c) xs).bind fun ys => .ok (.array ys) := by
  rw [exec]
  show Res.bind (itemsLoop _ xs xs.length _) _ = _
  rw [itemsLoop_eq _ _ _ _ (Nat.le_refl _) (by simp), Res.bind_assoc]
  simp only [List.take_length]
  congr; funext ys
  simp [Res.bind]

theorem execFields_eq {n : Nat} {B E : Type} (prim : Code n → Val B → Res (Val B) E) (zero : Val B) : ∀ (cs : List (Code n)) (src : List (Val B))
    (i : Nat) (dest : List (Val B)), i + cs.length ≤ dest.length →
    execFields prim zero cs src i dest =
      (convertUp (cs.map (exec prim zero)) (src.drop i)).bind fun ys => .ok (dest.take i ++ ys ++ dest.drop (i + cs.length))
  | [], src, i, dest, h => by
    rw [execFields]
    simp [convertUp, Res.bind]
  | c :: cs, src, i, dest, h => by
    rw [execFields]
    simp only [List.length_cons] at h
    by_cases hi : i < src.length
    · rw [List.getElem?_eq_getElem hi, List.drop_eq_getElem_cons hi, List.map_cons, convertUp, Res.bind_assoc]
      show Res.bind _ _ = _
      congr; funext x
      rw [execFields_eq prim zero cs src (i + 1) _ (by simp; omega), Res.bind_assoc]
      congr; funext ys
      simp only [Res.bind]
      congr 1
      rw [List.drop_set, if_pos (by omega), List.take_set, List.take_add_one, List.getElem?_eq_getElem (by omega : i < dest.length),
        Option.toList_some, List.set_append, if_neg (by simp)]
      simp only [List.length_take]
      rw [Nat.min_eq_left (by omega), Nat.sub_self, List.set_cons_zero, List.length_cons]
      simp only [List.append_assoc, List.singleton_append, List.cons_append, List.nil_append]
      rw [show i + 1 + cs.length = i + (cs.length + 1) by omega]
    · rw [List.getElem?_eq_none (by omega), List.drop_eq_nil_of_le (by omega : src.length ≤ i)]
      rfl

theorem exec_fields {n : Nat} {B E : Type} (prim : Code n → Val B → Res (Val B) E) (zero : Val B) (cs : List (Code n)) (xs : List (Val B)) :
    exec prim zero (.fields cs) (.list xs) = (convertUp (cs.map (exec prim zero)) xs).bind fun ys => .ok (.list ys) := by
  rw [exec]
  show Res.bind (execFields _ _ cs xs 0 _) _ = _
  rw [execFields_eq _ _ _ _ _ _ (by simp), Res.bind_assoc]
  congr; funext ys
  simp [Res.bind]

theorem convertDown_ok {B E : Type} {conv : Val B → Res (Val B) E} : ∀ {xs ys : List (Val B)}, convertDown conv xs = .ok ys ↔
    ys.length = xs.length ∧ ∀ (i : Nat) (x y : Val B), xs[i]? = some x → ys[i]? = some y → conv x = .ok y
  | [], ys => by
    simp only [convertDown]
    constructor
    · intro h; cases h; exact ⟨rfl, fun i x y h => by simp at h⟩
    · intro h
      rw [List.eq_nil_of_length_eq_zero (l := ys) (by simpa using h.1)]
  | v :: vs, ys => by
    rw [convertDown]
    cases hd : convertDown conv vs with
    | ok us =>
      have ih := convertDown_ok.mp hd
      cases hc : conv v with
      | ok u =>
        simp only [Res.bind]
        constructor
        · intro h; cases h
          refine ⟨by simp [ih.1], fun i x y hx hy => ?_⟩
          cases i with
          | zero => simp at hx hy; subst hx hy; exact hc
          | succ i => simp at hx hy; exact ih.2 i x y hx hy
        · rintro ⟨hl, h⟩
          cases ys with
          | nil => simp at hl
          | cons y ys =>
            have h0 := h 0 v y rfl rfl
            rw [hc] at h0; cases h0
            have := (convertDown_ok (conv := conv) (xs := vs) (ys := ys)).mpr ⟨by simpa using hl, fun i x y hx hy => h (i + 1) x y (by simpa using hx) (by simpa using hy)⟩
            rw [hd] at this; cases this
            rfl
      | err e =>
        simp only [Res.bind]
        constructor
        · intro h; cases h
        · rintro ⟨hl, h⟩
          cases ys with
          | nil => simp at hl
          | cons y ys => have h0 := h 0 v y rfl rfl; rw [hc] at h0; cases h0
      | stuck =>
        simp only [Res.bind]
        constructor
        · intro h; cases h
        · rintro ⟨hl, h⟩
          cases ys with
          | nil => simp at hl
          | cons y ys => have h0 := h 0 v y rfl rfl; rw [hc] at h0; cases h0
    | _ =>
      simp only [Res.bind]
      constructor
      · intro h; cases h
      · rintro ⟨hl, h⟩
        cases ys with
        | nil => simp at hl
        | cons y ys =>
          have := (convertDown_ok (conv := conv) (xs := vs) (ys := ys)).mpr ⟨by simpa using hl, fun i x y hx hy => h (i + 1) x y (by simpa using hx) (by simpa using hy)⟩
          rw [hd] at this; cases this

/-- The error is the one of the last item that has an error. -/
theorem convertDown_err {B E : Type} {conv : Val B → Res (Val B) E} {e : E} : ∀ {xs : List (Val B)}, convertDown conv xs = .err e ↔
    ∃ (i : Nat) (x : Val B), xs[i]? = some x ∧ conv x = .err e ∧ ∀ (j : Nat) (x : Val B), i < j → xs[j]? = some x → ∃ y, conv x = .ok y
  | [] => by simp [convertDown]
  | v :: vs => by
    rw [convertDown]
    have fwd : (∃ (i : Nat) (x : Val B), vs[i]? = some x ∧ conv x = .err e ∧ ∀ (j : Nat) (x : Val B), i < j → vs[j]? = some x → ∃ y, conv x = .ok y) →
        ∃ (i : Nat) (x : Val B), (v :: vs)[i]? = some x ∧ conv x = .err e ∧ ∀ (j : Nat) (x : Val B), i < j → (v :: vs)[j]? = some x → ∃ y, conv x = .ok y := by
      rintro ⟨i, x, h1, h2, h3⟩
      refine ⟨i + 1, x, by simpa using h1, h2, fun j x hj hx => ?_⟩
      cases j with
      | zero => omega
      | succ j => exact h3 j x (by omega) (by simpa using hx)
    have bwd : ∀ (i : Nat) (x : Val B), (v :: vs)[i + 1]? = some x → conv x = .err e → (∀ (j : Nat) (x : Val B), i + 1 < j → (v :: vs)[j]? = some x → ∃ y, conv x = .ok y) →
        convertDown conv vs = .err e := by
      intro i x h1 h2 h3
      exact convertDown_err.mpr ⟨i, x, by simpa using h1, h2, fun j x hj hx => h3 (j + 1) x (by omega) (by simpa using hx)⟩
    have zero : (∀ (j : Nat) (x : Val B), 0 < j → (v :: vs)[j]? = some x → ∃ y, conv x = .ok y) → ∃ us, convertDown conv vs = .ok us := by
      intro h'
      have h : ∀ x ∈ vs, ∃ y, conv x = .ok y := by
        intro x hx
        obtain ⟨j, hj⟩ := List.getElem?_of_mem hx
        exact h' (j + 1) x (by omega) (by simpa using hj)
      clear fwd bwd h'
      induction vs with
      | nil => exact ⟨[], rfl⟩
      | cons u us ih =>
        obtain ⟨ys, hy⟩ := ih (fun x hx => h x (List.mem_cons_of_mem _ hx))
        obtain ⟨y, hu⟩ := h u List.mem_cons_self
        exact ⟨y :: ys, by rw [convertDown, hy]; show Res.bind (conv u) _ = _; rw [hu]; rfl⟩
    cases hd : convertDown conv vs with
    | ok us =>
      show (Res.bind (conv v) _) = _ ↔ _
      constructor
      · intro h
        refine ⟨0, v, rfl, ?_, fun j x hj hx => ?_⟩
        · cases hc : conv v with
          | ok u => rw [hc] at h; cases h
          | err e' => rw [hc] at h; cases h; rfl
          | stuck => rw [hc] at h; cases h
        · cases j with
          | zero => omega
          | succ j =>
            have := convertDown_ok.mp hd
            have hx' : vs[j]? = some x := by simpa using hx
            have hlt : j < vs.length := (List.getElem?_eq_some_iff.mp hx').1
            exact ⟨us[j]'(by omega), this.2 j x _ hx' (List.getElem?_eq_getElem (by omega))⟩
      · rintro ⟨i, x, h1, h2, h3⟩
        cases i with
        | zero => simp at h1; subst h1; rw [h2]; rfl
        | succ i => rw [bwd i x h1 h2 h3] at hd; cases hd
    | err e' =>
      show Res.err e' = _ ↔ _
      constructor
      · intro h; cases h; exact fwd (convertDown_err.mp hd)
      · rintro ⟨i, x, h1, h2, h3⟩
        cases i with
        | zero => obtain ⟨us, hu⟩ := zero h3; rw [hu] at hd; cases hd
        | succ i => rw [bwd i x h1 h2 h3] at hd; cases hd; rfl
    | stuck =>
      show Res.stuck = _ ↔ _
      constructor
      · intro h; cases h
      · rintro ⟨i, x, h1, h2, h3⟩
        cases i with
        | zero => obtain ⟨us, hu⟩ := zero h3; rw [hu] at hd; cases hd
        | succ i => rw [bwd i x h1 h2 h3] at hd; cases hd

theorem convertUp_ok {B E : Type} : ∀ {cs : List (Val B → Res (Val B) E)} {xs ys : List (Val B)}, xs.length = cs.length → (convertUp cs xs = .ok ys ↔
    ys.length = xs.length ∧ ∀ (i : Nat) (c : Val B → Res (Val B) E) (x y : Val B), cs[i]? = some c → xs[i]? = some x → ys[i]? = some y → c x = .ok y)
  | [], [], ys, _ => by
    simp only [convertUp]
    constructor
    · intro h; cases h; exact ⟨rfl, fun i c x y h => by simp at h⟩
    · intro h
      rw [List.eq_nil_of_length_eq_zero (l := ys) (by simpa using h.1)]
  | c :: cs, v :: vs, ys, hl => by
    rw [convertUp]
    have hl : vs.length = cs.length := by simpa using hl
    have tail : ∀ {y : Val B} {ys : List (Val B)}, (∀ (i : Nat) (c' : Val B → Res (Val B) E) (x y' : Val B), (c :: cs)[i]? = some c' → (v :: vs)[i]? = some x → (y :: ys)[i]? = some y' → c' x = .ok y') →
        (y :: ys).length = (v :: vs).length → convertUp cs vs = .ok ys := fun h h2 =>
      (convertUp_ok hl).mpr ⟨by simpa using h2, fun i c x y h0 h1 h2 => h (i + 1) c x y (by simpa using h0) (by simpa using h1) (by simpa using h2)⟩
    cases hc : c v with
    | ok u =>
      simp only [Res.bind]
      cases hd : convertUp cs vs with
      | ok us =>
        have ih := (convertUp_ok hl).mp hd
        simp only [Res.bind]
        constructor
        · intro h; cases h
          refine ⟨by simp [ih.1], fun i c' x y h0 hx hy => ?_⟩
          cases i with
          | zero => simp at h0 hx hy; subst h0 hx hy; exact hc
          | succ i => simp at h0 hx hy; exact ih.2 i c' x y h0 hx hy
        · rintro ⟨h1, h⟩
          cases ys with
          | nil => simp at h1
          | cons y ys =>
            have h0 := h 0 c v y rfl rfl rfl
            rw [hc] at h0; cases h0
            have := tail h h1
            rw [hd] at this; cases this
            rfl
      | _ =>
        simp only [Res.bind]
        constructor
        · intro h; cases h
        · rintro ⟨h1, h⟩
          cases ys with
          | nil => simp at h1
          | cons y ys => have := tail h h1; rw [hd] at this; cases this
    | _ =>
      simp only [Res.bind]
      constructor
      · intro h; cases h
      · rintro ⟨hl, h⟩
        cases ys with
        | nil => simp at hl
        | cons y ys => have h0 := h 0 c v y rfl rfl rfl; rw [hc] at h0; cases h0

/-- The error is the one of the first item that has an error. -/
theorem convertUp_err {B E : Type} {e : E} : ∀ {cs : List (Val B → Res (Val B) E)} {xs : List (Val B)}, xs.length = cs.length →
    (convertUp cs xs = .err e ↔ ∃ (i : Nat) (c : Val B → Res (Val B) E) (x : Val B), cs[i]? = some c ∧ xs[i]? = some x ∧ c x = .err e ∧
      ∀ (j : Nat) (c : Val B → Res (Val B) E) (x : Val B), j < i → cs[j]? = some c → xs[j]? = some x → ∃ y, c x = .ok y)
  | [], [], _ => by simp [convertUp]
  | c :: cs, v :: vs, hl => by
    rw [convertUp]
    have hl : vs.length = cs.length := by simpa using hl
    have ih := convertUp_err (e := e) hl
    cases hc : c v with
    | ok u =>
      simp only [Res.bind]
      have : ((convertUp cs vs).bind fun xs => Res.ok (u :: xs)) = .err e ↔ convertUp cs vs = .err e := by
        cases convertUp cs vs <;> simp [Res.bind]
      refine this.trans (ih.trans ?_)
      constructor
      · rintro ⟨i, c', x, h0, h1, h2, h3⟩
        refine ⟨i + 1, c', x, by simpa using h0, by simpa using h1, h2, fun j c'' x hj hcj hx => ?_⟩
        cases j with
        | zero => simp at hcj hx; subst hcj hx; exact ⟨u, hc⟩
        | succ j => exact h3 j c'' x (by omega) (by simpa using hcj) (by simpa using hx)
      · rintro ⟨i, c', x, h0, h1, h2, h3⟩
        cases i with
        | zero => simp at h0 h1; subst h0 h1; rw [hc] at h2; cases h2
        | succ i =>
          exact ⟨i, c', x, by simpa using h0, by simpa using h1, h2, fun j c'' x hj hcj hx => h3 (j + 1) c'' x (by omega) (by simpa using hcj) (by simpa using hx)⟩
    | err e' =>
      simp only [Res.bind]
      constructor
      · intro h; cases h
        exact ⟨0, c, v, rfl, rfl, hc, fun j _ _ h => absurd h (Nat.not_lt_zero _)⟩
      · rintro ⟨i, c', x, h0, h1, h2, h3⟩
        cases i with
        | zero => simp at h0 h1; subst h0 h1; rw [hc] at h2; cases h2; rfl
        | succ i => obtain ⟨y, hy⟩ := h3 0 c v (by omega) rfl rfl; rw [hc] at hy; cases hy
    | stuck =>
      simp only [Res.bind]
      constructor
      · intro h; cases h
      · rintro ⟨i, c', x, h0, h1, h2, h3⟩
        cases i with
        | zero => simp at h0 h1; subst h0 h1; rw [hc] at h2; cases h2
        | succ i => obtain ⟨y, hy⟩ := h3 0 c v (by omega) rfl rfl; rw [hc] at hy; cases hy

/-! ## Dynamic arrays -/

theorem implicitEx_dyn (w : World) (const : Bool) (depth : Nat) {S T : w.T} (hS : w.kind S = .dynarray) (hT : w.kind T = .dynarray) :
    w.implicitEx const (depth + 1) false false T S = .ok (.skip, S) := by
  have hi : ∀ {t : w.T}, w.kind t = .dynarray → (w.node t).real = false := by
    intro t ht
    cases h : (w.node t).real with
    | false => rfl
    | true => have := real_kind h; rw [ht] at this; rcases this with h | h <;> cases h
  rw [World.implicitEx]
  simp [hS, hT, hi hT, signed, World.exprListStruct]

theorem cast_dyn (w : World) (const : Bool) (depth : Nat) {S T : w.T} (hS : w.kind S = .dynarray) (hT : w.kind T = .dynarray)
    (hs : w.sameAs T ≠ w.sameAs S) :
    w.cast const (depth + 1) T S = w.noConst const ((w.cast const depth (w.base T) (w.base S)).bind fun r => .ok (.items r.1, T)) := by
  have ho : ∀ {t : w.T}, w.kind t = .dynarray → (w.node t).ordinal = false := by
    intro t ht
    cases h : (w.node t).ordinal with
    | false => rfl
    | true => exact absurd (ordinal_not ht h (by simp)) id
  have hi : ∀ {t : w.T}, w.kind t = .dynarray → (w.node t).real = false := by
    intro t ht
    cases h : (w.node t).real with
    | false => rfl
    | true => have := real_kind h; rw [ht] at this; rcases this with h | h <;> cases h
  unfold World.cast
  rw [World.explicit, implicitEx_dyn w const depth hS hT]
  simp only [Out.bind, hS, hT, ho hT, hi hT, beq_iff_eq, hs, if_false]
  cases const with
  | true => simp [World.noConst]
  | false =>
    simp only [World.noConst]
    cases w.explicit false depth (w.base T) (w.base S) with
    | ok r =>
      simp
      by_cases he : w.e.equiv (w.base T) r.2 = true
      · simp [he, equiv_iff.mpr (Types.equivalent_refl _ T)]
      · simp [he]
    | _ => simp

theorem cast_same (w : World) (const : Bool) (depth : Nat) {S T : w.T} (hS : w.kind S = .dynarray) (hT : w.kind T = .dynarray)
    (hs : w.sameAs T = w.sameAs S) : w.cast const (depth + 1) T S = .ok (.skip, T) := by
  unfold World.cast
  rw [World.explicit, implicitEx_dyn w const depth hS hT]
  simp [Out.bind, hs, equiv_iff.mpr (Types.equivalent_refl _ T)]

/-! ## Lists -/

theorem give_list (w : World) (depth : Nat) {S T : w.T} (hS : w.exprListStruct S = true) (hT : w.exprListStruct T = true)
    (hl : (w.node T).fields.length = (w.node S).fields.length) (he : ¬ Equivalent w.e.g T S) :
    w.give false (depth + 1) T S =
      (w.convFields (w.implicitEx false depth false false) (w.node T).fields (w.node S).fields).bind fun cs => .ok (.fields cs, T) := by
  have kT : w.kind T = .struct := by unfold World.exprListStruct at hT; simp at hT; exact hT.1.1
  have kS : w.kind S = .struct := by unfold World.exprListStruct at hS; simp at hS; exact hS.1.1
  have hr : (w.node T).real = false := by
    cases h : (w.node T).real with
    | false => rfl
    | true => have := real_kind h; rw [kT] at this; rcases this with h | h <;> cases h
  have he : w.e.equiv T S = false := by
    cases h : w.e.equiv T S with
    | false => rfl
    | true => exact absurd (equiv_iff.mp h) he
  unfold World.give World.assertImplicit
  rw [World.implicitEx]
  simp only [kT, kS, hr, hS, hT, hl, he, signed, World.noConst]
  simp
  cases w.convFields (w.implicitEx false depth false false) (w.node T).fields (w.node S).fields with
  | ok cs =>
    simp only [Out.bind]
    rw [if_pos (compat_iff.mpr (compatible_refl w T))]
  | _ => rfl

theorem convFields_codes {w : World} {imp : w.T → w.T → Conv w} : ∀ {ds ss : List (Field w.e.g.n)} {cs : List (Code w.e.g.n)}, ds.length = ss.length →
    w.convFields imp ds ss = .ok cs → cs.length = ds.length ∧ ∀ (i : Nat) (d s : Field w.e.g.n), ds[i]? = some d → ss[i]? = some s →
      ∃ c t, cs[i]? = some c ∧ w.assertImplicit imp d.type s.type = .ok (c, t)
  | [], [], cs, _, h => by
    cases h
    exact ⟨rfl, fun i d s h => by simp at h⟩
  | d :: ds, s :: ss, cs, hl, h => by
    rw [World.convFields] at h
    cases h1 : w.assertImplicit imp d.type s.type with
    | ok r =>
      rw [h1] at h
      simp only [Out.bind] at h
      cases h2 : w.convFields imp ds ss with
      | ok cs' =>
        rw [h2] at h
        cases h
        have ih := convFields_codes (by simpa using hl) h2
        refine ⟨by simp [ih.1], fun i d' s' hd hs => ?_⟩
        cases i with
        | zero => simp at hd hs; subst hd hs; exact ⟨r.1, r.2, rfl, h1⟩
        | succ i => simpa using ih.2 i d' s' (by simpa using hd) (by simpa using hs)
      | _ => rw [h2] at h; cases h
    | _ => rw [h1] at h; cases h

end Umka.Conv
