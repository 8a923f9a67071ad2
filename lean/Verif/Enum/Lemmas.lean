import Verif.Enum.Spec
import Verif.Arith.Lemmas

/-!
# Enum: lemmas
-/

namespace Umka.Enum

open Umka.Arith (Kind Slot typeOverflow)
open Umka.Arith.Spec (InRange value lo hi)

/-- All numbers are below `2 ^ 63`, and not negative in the case of an enumeration based on `uint`. -/
def Plain (k : Kind) (prev : Int) (items : List Item) : Prop :=
  (∀ item ∈ items, ∀ e, item.expr = some e → e.number < 2 ^ 63) ∧
  (k = .int ∨ k = .uint → ∀ v ∈ numbers prev items, v < 2 ^ 63) ∧
  (k = .uint → ∀ v ∈ numbers prev items, 0 ≤ v)

theorem toInt_lt (s : Slot) : s.toInt < 2 ^ 63 ∧ -2 ^ 63 ≤ s.toInt := by
  have := s.isLt
  rw [BitVec.toInt_eq_toNat_cond]
  split <;> omega

theorem number_toInt {e : Expr} (h : e.number < 2 ^ 63) : e.val.toInt = e.number := by
  rw [Expr.number] at *
  split at h
  · rw [value] at *
    by_cases hk : ‹Kind› = Kind.uint
    · rw [if_pos hk] at *
      rw [BitVec.toInt_eq_toNat_cond, if_pos (by omega)]
    · rw [if_neg hk]
  · rfl

theorem incr_ok {c : Slot} (h : c.toInt + 1 < 2 ^ 63) : incr c = .ok (c + 1) ∧ (c + 1).toInt = c.toInt + 1 := by
  have hb := toInt_lt c
  refine ⟨?_, ?_⟩
  · rw [incr, if_neg (by omega)]
  · rw [BitVec.toInt_add]
    show Int.bmod (c.toInt + 1) (2 ^ 64) = _
    rw [Int.bmod_def]
    omega

theorem overflow_iff (k : Kind) (s : Slot) (h : k = .uint → 0 ≤ s.toInt) : typeOverflow k s = true ↔ ¬ InRange k s.toInt := by
  by_cases hk : k = .uint
  · subst hk
    have := toInt_lt s
    have h := h rfl
    constructor
    · intro ho; simp [typeOverflow, Umka.Arith.typeConvOverflow, Umka.Arith.kindSigned] at ho
    · intro ho
      exact absurd ⟨by simpa [lo] using h, by simp only [hi]; omega⟩ ho
  · exact Umka.Arith.typeOverflow_iff k s hk

theorem find_isSome (cs : List (Name × Slot)) (n : Name) : (find cs n).isSome = true ↔ n ∈ cs.map (·.1) := by
  rw [find, List.find?_isSome]
  constructor
  · rintro ⟨c, hc, he⟩
    exact List.mem_map.mpr ⟨c, hc, beq_iff_eq.mp he⟩
  · intro h
    obtain ⟨c, hc, he⟩ := List.mem_map.mp h
    exact ⟨c, hc, beq_iff_eq.mpr he⟩

theorem findByVal_isSome (cs : List (Name × Slot)) (v : Slot) :
    (findByVal cs v).isSome = true ↔ v.toInt ∈ cs.map (fun c => c.2.toInt) := by
  rw [findByVal, List.find?_isSome]
  constructor
  · rintro ⟨c, hc, he⟩
    exact List.mem_map.mpr ⟨c, hc, by rw [beq_iff_eq.mp he]⟩
  · intro h
    obtain ⟨c, hc, he⟩ := List.mem_map.mp h
    exact ⟨c, hc, beq_iff_eq.mpr (BitVec.eq_of_toInt_eq he)⟩

def GoodFrom (k : Kind) (cs : List (Name × Slot)) (prev : Int) (items : List Item) : Prop :=
  (∀ item ∈ items, ∀ e, item.expr = some e → ∃ k, e.type = .integer k) ∧
  (∀ v ∈ numbers prev items, InRange k v) ∧
  (cs.map (·.1) ++ items.map (·.name)).Nodup ∧ (cs.map (fun c => c.2.toInt) ++ numbers prev items).Nodup

theorem hi_narrow {k : Kind} (h : ¬ (k = .int ∨ k = .uint)) : hi k < 2 ^ 63 - 1 := by
  cases k <;> simp [hi] at * 

theorem itemValue_cases (k : Kind) (item : Item) (items : List Item) (c : Slot) (hp : Plain k c.toInt (item :: items))
    (hprev : c.toInt = -1 ∨ InRange k c.toInt) :
    (∃ v, itemValue item c = .ok v ∧ numbers c.toInt (item :: items) = v.toInt :: numbers v.toInt items ∧
      (∀ e, item.expr = some e → ∃ k, e.type = .integer k) ∧ (k = .uint → 0 ≤ v.toInt)) ∨
    (∃ e, itemValue item c = .err e ∧ ∃ x, item.expr = some x ∧ ¬ ∃ k, x.type = .integer k) := by
  obtain ⟨h1, h2, h3⟩ := hp
  rw [itemValue]
  cases he : item.expr with
  | none =>
    left
    have hlt : c.toInt + 1 < 2 ^ 63 := by
      by_cases hk : k = .int ∨ k = .uint
      · exact h2 hk _ (by rw [numbers, he]; exact List.mem_cons_self)
      · have := hi_narrow hk
        rcases hprev with h | h
        · omega
        · have := h.2; omega
    obtain ⟨a, b⟩ := incr_ok hlt
    refine ⟨_, a, ?_, by simp, ?_⟩
    · rw [numbers, he, b]
    · intro hk
      rw [b]
      exact h3 hk _ (by rw [numbers, he]; exact List.mem_cons_self)
  | some e =>
    dsimp only
    have hn := number_toInt (h1 item List.mem_cons_self e he)
    cases ht : e.type with
    | integer kk =>
      left
      refine ⟨e.val, rfl, by rw [numbers, he, hn], ?_, ?_⟩
      · intro e' h'; cases h'; exact ⟨kk, ht⟩
      · intro hk
        rw [hn]
        exact h3 hk _ (by rw [numbers, he]; exact List.mem_cons_self)
    | _ => right; exact ⟨_, rfl, e, rfl, by rw [ht]; rintro ⟨_, h⟩; cases h⟩

theorem parseEnumItems_spec (k : Kind) (items : List Item) : ∀ (cs : List (Name × Slot)) (c : Slot),
    Plain k c.toInt items → (c.toInt = -1 ∨ InRange k c.toInt) →
    (GoodFrom k cs c.toInt items → ∃ l, parseEnumItems k items cs c = .ok (cs ++ l) ∧ l.map (·.1) = items.map (·.name) ∧
      l.map (fun c => c.2.toInt) = numbers c.toInt items) ∧
    (¬ GoodFrom k cs c.toInt items → (cs.map (·.1)).Nodup → (cs.map (fun c => c.2.toInt)).Nodup → ∃ e, parseEnumItems k items cs c = .err e) := by
  induction items with
  | nil =>
    intro cs c _ _
    refine ⟨fun _ => ⟨[], by simp [parseEnumItems], rfl, rfl⟩, ?_⟩
    intro hb h1 h2
    exact absurd ⟨by simp, by simp [numbers], by simpa using h1, by simpa [numbers] using h2⟩ hb
  | cons item items ih =>
    intro cs c hp hprev
    rw [parseEnumItems, parseEnumItem]
    rcases itemValue_cases k item items c hp hprev with ⟨v, hv, hnum, hty, hu⟩ | ⟨e, he, x, hx, hbad⟩
    · rw [hv]
      dsimp only
      have hov := overflow_iff k v hu
      by_cases ho : typeOverflow k v = true
      · rw [if_pos ho]
        refine ⟨fun hg => ?_, fun _ _ _ => ⟨_, rfl⟩⟩
        exact absurd (hg.2.1 v.toInt (by rw [hnum]; exact List.mem_cons_self)) (hov.mp ho)
      · rw [if_neg ho]
        have hin : InRange k v.toInt := Decidable.byContradiction (fun h => ho (hov.mpr h))
        rw [addConst]
        by_cases hn : (find cs item.name).isSome = true
        · rw [if_pos hn]
          refine ⟨fun hg => ?_, fun _ _ _ => ⟨_, rfl⟩⟩
          have := (List.nodup_append.mp hg.2.2.1).2.2 item.name ((find_isSome _ _).mp hn) item.name (by simp)
          exact absurd rfl this
        · rw [if_neg hn]
          by_cases hd : (findByVal cs v).isSome = true
          · rw [if_pos hd]
            refine ⟨fun hg => ?_, fun _ _ _ => ⟨_, rfl⟩⟩
            have := (List.nodup_append.mp hg.2.2.2).2.2 v.toInt ((findByVal_isSome _ _).mp hd) v.toInt (by rw [hnum]; simp)
            exact absurd rfl this
          · rw [if_neg hd]
            dsimp only
            have hp' : Plain k v.toInt items := by
              obtain ⟨h1, h2, h3⟩ := hp
              rw [hnum] at h2 h3
              exact ⟨fun i hi => h1 i (List.mem_cons_of_mem _ hi), fun hk x hx => h2 hk x (List.mem_cons_of_mem _ hx),
                fun hk x hx => h3 hk x (List.mem_cons_of_mem _ hx)⟩
            have hgood : GoodFrom k cs c.toInt (item :: items) ↔ GoodFrom k (cs ++ [(item.name, v)]) v.toInt items := by
              rw [GoodFrom, GoodFrom, hnum]
              simp only [List.map_append, List.map_cons, List.map_nil, List.append_assoc, List.singleton_append, List.mem_cons, forall_eq_or_imp]
              constructor
              · rintro ⟨a, b, c⟩
                exact ⟨a.2, b.2, c⟩
              · rintro ⟨a, b, c⟩
                exact ⟨⟨hty, a⟩, ⟨hin, b⟩, c⟩
            obtain ⟨i1, i2⟩ := ih (cs ++ [(item.name, v)]) v hp' (.inr hin)
            refine ⟨fun hg => ?_, fun hb h1 h2 => ?_⟩
            · obtain ⟨l, e1, e2, e3⟩ := i1 (hgood.mp hg)
              refine ⟨(item.name, v) :: l, ?_, ?_, ?_⟩
              · rw [e1]; simp
              · simp [e2]
              · rw [hnum]; simp [e3]
            · apply i2 (fun h => hb (hgood.mpr h))
              · rw [List.map_append, List.nodup_append]
                refine ⟨h1, by simp, ?_⟩
                intro a ha b hb
                simp at hb
                subst hb
                intro e; subst e
                exact hn ((find_isSome _ _).mpr ha)
              · rw [List.map_append, List.nodup_append]
                refine ⟨h2, by simp, ?_⟩
                intro a ha b hb
                simp at hb
                subst hb
                intro e; subst e
                exact hd ((findByVal_isSome _ _).mpr ha)
    · rw [he]
      refine ⟨fun hg => ?_, fun _ _ _ => ⟨_, rfl⟩⟩
      exact absurd (hg.1 item List.mem_cons_self x hx) hbad

/-! ## Constants -/

theorem parseConstItems_spec (items : List Item) : ∀ (prev : Option (CType × Slot)) (c : Slot),
    (∀ item ∈ items, ∀ e k, item.expr = some e → e.type = .integer k → InRange k e.number ∧ e.number + items.length < 2 ^ 63) →
    (∀ t v, prev = some (t, v) → c = v ∧ ∀ k, t = .integer k → InRange k v.toInt ∧ v.toInt + items.length < 2 ^ 63) →
    match constNumbers (prev.map (fun p => (p.1, p.2.toInt))) items with
    | some l => ∃ cs, parseConstItems items (prev.map (·.1)) c = .ok cs ∧ cs.map (fun x => (x.1, x.2.1, x.2.2.toInt)) = l
    | none => ∃ e, parseConstItems items (prev.map (·.1)) c = .err e := by
  induction items with
  | nil => intro prev c _ _; exact ⟨[], rfl, rfl⟩
  | cons item items ih =>
    intro prev c hp hprev
    have step : ∀ (t : CType) (v : Slot), parseConstDeclItem (prev.map (·.1)) c item = .ok (t, v) →
        constNumber (prev.map (fun p => (p.1, p.2.toInt))) item = some (t, v.toInt) →
        (∀ k, t = .integer k → InRange k v.toInt ∧ v.toInt + items.length < 2 ^ 63) →
        match constNumbers (prev.map (fun p => (p.1, p.2.toInt))) (item :: items) with
        | some l => ∃ cs, parseConstItems (item :: items) (prev.map (·.1)) c = .ok cs ∧ cs.map (fun x => (x.1, x.2.1, x.2.2.toInt)) = l
        | none => ∃ e, parseConstItems (item :: items) (prev.map (·.1)) c = .err e := by
      intro t v h1 h2 h3
      rw [parseConstItems, h1, constNumbers, h2]
      dsimp only
      have := ih (some (t, v)) v (fun i hi e k he ht => by
          obtain ⟨a, b⟩ := hp i (List.mem_cons_of_mem _ hi) e k he ht
          rw [List.length_cons] at b
          exact ⟨a, by omega⟩) (by
        intro t' v' e
        cases e
        exact ⟨rfl, h3⟩)
      simp only [Option.map_some] at this
      revert this
      cases constNumbers (some (t, v.toInt)) items with
      | none => intro ⟨e, he⟩; rw [he]; exact ⟨e, rfl⟩
      | some l => intro ⟨cs, he, hl⟩; rw [he]; exact ⟨_, rfl, by simp [hl]⟩
    have stepErr : ∀ e, parseConstDeclItem (prev.map (·.1)) c item = .err e →
        constNumber (prev.map (fun p => (p.1, p.2.toInt))) item = none →
        match constNumbers (prev.map (fun p => (p.1, p.2.toInt))) (item :: items) with
        | some l => ∃ cs, parseConstItems (item :: items) (prev.map (·.1)) c = .ok cs ∧ cs.map (fun x => (x.1, x.2.1, x.2.2.toInt)) = l
        | none => ∃ e, parseConstItems (item :: items) (prev.map (·.1)) c = .err e := by
      intro e h1 h2
      rw [parseConstItems, h1, constNumbers, h2]
      exact ⟨e, rfl⟩
    cases hx : item.expr with
    | some e =>
      have hpc : parseConstDeclItem (prev.map (·.1)) c item = if e.type.allowed then .ok (e.type, e.val) else .err .badConstType := by
        rw [parseConstDeclItem.eq_def, hx]
        cases prev with
        | none => rfl
        | some p => obtain ⟨t, v⟩ := p; cases t <;> rfl
      have hnum : e.val.toInt = e.number := by
        cases ht : e.type with
        | integer k =>
          have := (hp item List.mem_cons_self e k hx ht).2
          exact number_toInt (by rw [List.length_cons] at this; omega)
        | _ => rw [Expr.number, ht]
      cases ha : e.type.allowed with
      | true =>
        rw [ha, if_pos rfl] at hpc
        refine step _ _ hpc ?_ ?_
        · rw [constNumber.eq_def, hx]
          dsimp only
          rw [if_neg (by intro h; rw [h] at ha; cases ha), hnum]
        · intro k hk
          obtain ⟨a, b⟩ := hp item List.mem_cons_self e k hx hk
          rw [hnum]
          rw [List.length_cons] at b
          exact ⟨a, by omega⟩
      | false =>
        rw [ha, if_neg (by decide)] at hpc
        refine stepErr _ hpc ?_
        rw [constNumber.eq_def, hx]
        dsimp only
        rw [if_pos]
        revert ha
        cases e.type <;> simp [CType.allowed]
    | none =>
      cases prev with
      | none => exact stepErr _ (by rw [parseConstDeclItem.eq_def, hx]; rfl) (by rw [constNumber.eq_def, hx]; rfl)
      | some p =>
        obtain ⟨t, v⟩ := p
        obtain ⟨hc, hk⟩ := hprev t v rfl
        subst hc
        cases t with
        | integer k =>
          obtain ⟨h1, h2⟩ := hk k rfl
          rw [List.length_cons] at h2
          obtain ⟨i1, i2⟩ := incr_ok (c := c) (by omega)
          have hov := overflow_iff k (c + 1) (by
            intro e
            rw [i2]
            have := h1.1
            rw [e, lo] at this
            · omega
            all_goals simp)
          have hpc : parseConstDeclItem (some (CType.integer k)) c item =
              if typeOverflow k (c + 1) then .err (.overflow k) else .ok (.integer k, c + 1) := by
            rw [parseConstDeclItem.eq_def, hx]
            dsimp only
            rw [i1]
          have hsp : constNumber (some (CType.integer k, c.toInt)) item =
              if InRange k (c.toInt + 1) then some (.integer k, c.toInt + 1) else none := by
            rw [constNumber.eq_def, hx]
          rw [← i2] at hsp
          by_cases ho : typeOverflow k (c + 1) = true
          · rw [if_pos ho] at hpc
            rw [if_neg (hov.mp ho)] at hsp
            exact stepErr _ hpc hsp
          · rw [if_neg ho] at hpc
            have hin : InRange k (c + 1).toInt := Decidable.byContradiction (fun h => ho (hov.mpr h))
            rw [if_pos hin] at hsp
            refine step _ _ hpc hsp ?_
            intro k' e
            cases e
            exact ⟨hin, by rw [i2]; omega⟩
        | _ => exact stepErr _ (by rw [parseConstDeclItem.eq_def, hx]; rfl) (by rw [constNumber.eq_def, hx]; rfl)

end Umka.Enum
