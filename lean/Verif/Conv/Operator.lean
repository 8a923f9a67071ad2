import Verif.Conv.Accept
/-! # Type conversions: operands of operators; constants -/

namespace Umka.Conv

open Umka.Types (Graph Kind Node Field Equivalent WellFormed Part)
open Umka.Iface (Compatible Declared IsPtrTo equiv_iff equiv_false equivalent_cases equivalent_kind compat_compatible)

theorem validOperator_iff {w : World} {t : w.T} {op : Op} : w.validOperator t op = true ↔ Applies w t op := by
  cases op with
  | plus => simp [World.validOperator, Applies, or_assoc]
  | arith => simp [World.validOperator, Applies]
  | bits => simp [World.validOperator, Applies]
  | logic => simp [World.validOperator, Applies]
  | compare =>
    have h := (Types.Props.C60_comparable w.e.g (w.e.g.n + 1) (Nat.lt_succ_self _) t).1
    simp only [World.validOperator, Applies, beq_iff_eq]
    exact h

/-! ## Operators do not distinguish compatible types -/

theorem part_equivalent {g : Graph} (wf : WellFormed g) {s r : Fin g.n} (h : Part g s r) : ∀ {l : Fin g.n}, Equivalent g l r →
    ∃ s', Part g s' l ∧ Equivalent g s' s := by
  induction h with
  | refl => exact fun h => ⟨_, .refl, h⟩
  | @item r hk _ ih =>
    intro l he
    have hkl := equivalent_kind wf he
    have hb : Equivalent g (g.node l).base (g.node r).base := by
      rcases equivalent_cases wf he with h | h
      · rw [h]; exact Types.equivalent_refl _ _
      · have h2 := h.2
        rcases hk with hk | hk
        · rw [hkl, hk] at h2; exact h2.2
        · rw [hkl, hk] at h2; exact h2
    obtain ⟨s', h1, h2⟩ := ih hb
    exact ⟨s', .item (by rw [hkl]; exact hk) h1, h2⟩
  | @field r f hk hf _ ih =>
    intro l he
    have hkl := equivalent_kind wf he
    have hb : ∃ f' ∈ (g.node l).fields, Equivalent g f'.type f.type := by
      rcases equivalent_cases wf he with h | h
      · rw [h]; exact ⟨f, hf, Types.equivalent_refl _ _⟩
      · have h2 := h.2
        rw [hkl, hk] at h2
        obtain ⟨i, hi⟩ := List.getElem?_of_mem hf
        have hlt : i < (g.node l).fields.length := by
          rw [h2.1]
          exact (List.getElem?_eq_some_iff.mp hi).1
        exact ⟨(g.node l).fields[i], List.getElem_mem hlt, (h2.2 i _ f (List.getElem?_eq_getElem hlt) hi).2⟩
    obtain ⟨f', hf', he'⟩ := hb
    obtain ⟨s', h1, h2⟩ := ih he'
    exact ⟨s', .field (by rw [hkl]; exact hk) hf' h1, h2⟩

theorem equivalent_integer {w : World} (ok : w.Ok) {l r : w.T} (h : Equivalent w.e.g l r) : (w.node l).integer = true ↔ (w.node r).integer = true := by
  have hk := equivalent_kind ok.env.types h
  rcases equivalent_cases ok.env.types h with h | h
  · unfold World.node; rw [h]
  · have h2 := h.2
    unfold World.node Types.Node.integer
    cases hl : (w.e.g.node l).kind <;> rw [hl] at hk h2 <;> rw [← hk] <;>
      first
        | (simp [Types.Kind.integerOrEnum]; done)
        | (simp only [Types.Node.enum] at h2
           rw [hl, ← hk] at h2
           simp only [Types.Kind.integerOrEnum, Bool.true_and] at h2 ⊢
           simp [h2.1, h2.2])

theorem equivalent_real {w : World} (ok : w.Ok) {l r : w.T} (h : Equivalent w.e.g l r) : (w.node l).real = (w.node r).real := by
  unfold World.node Types.Node.real
  rw [equivalent_kind ok.env.types h]

theorem applies_equivalent {w : World} (ok : w.Ok) {l r : w.T} (h : Equivalent w.e.g l r) {op : Op} (ha : Applies w l op) : Applies w r op := by
  have hi := equivalent_integer ok h
  have hr := equivalent_real ok h
  have hk : w.kind l = w.kind r := equivalent_kind ok.env.types h
  cases op with
  | plus => simpa only [Applies, hi, hr, hk] using ha
  | arith => simpa only [Applies, hi, hr] using ha
  | bits => simpa only [Applies, hi] using ha
  | logic => simpa only [Applies, hk] using ha
  | compare =>
    intro s hs
    obtain ⟨s', h1, h2⟩ := part_equivalent ok.env.types hs h
    have := ha s' h1
    unfold Types.BasicOrArrayOrStruct at this ⊢
    rw [← equivalent_kind ok.env.types h2]
    exact this

theorem applies_leaf {w : World} {t : w.T} (hk : w.kind t ≠ .array) (h1 : w.kind t ≠ .dynarray) (h2 : w.kind t ≠ .struct)
    (hb : Types.BasicOrArrayOrStruct w.e.g t) : Applies w t .compare := by
  intro s hs
  cases hs with
  | refl => exact hb
  | item h => exact absurd h (by rintro (h | h); exact hk h; exact h1 h)
  | field h => exact absurd h h2

theorem integer_leaf {w : World} {t : w.T} (h : (w.node t).integer = true) : Applies w t .compare := by
  have hk := integer_kind h
  refine applies_leaf ?_ ?_ ?_ ?_
  · intro h; rw [h] at hk; cases hk
  · intro h; rw [h] at hk; cases hk
  · intro h; rw [h] at hk; cases hk
  · unfold Types.BasicOrArrayOrStruct
    change w.kind t ∈ _
    generalize w.kind t = k at hk
    cases k <;> first | (simp; done) | cases hk

theorem real_leaf {w : World} {t : w.T} (h : (w.node t).real = true) : Applies w t .compare := by
  have hk := real_kind h
  refine applies_leaf ?_ ?_ ?_ ?_
  · intro h; rw [h] at hk; rcases hk with h | h <;> cases h
  · intro h; rw [h] at hk; rcases hk with h | h <;> cases h
  · intro h; rw [h] at hk; rcases hk with h | h <;> cases h
  · unfold Types.BasicOrArrayOrStruct
    change w.kind t ∈ _
    rcases hk with h | h <;> rw [h] <;> simp

theorem applies_compatible {w : World} (ok : w.Ok) {l r : w.T} (h : Compatible w.e.g l r) {op : Op} (ha : Applies w l op) : Applies w r op := by
  rcases h with h | ⟨h1, h2⟩ | ⟨h1, h2⟩
  · exact applies_equivalent ok h ha
  · cases op with
    | plus => exact Or.inl h2
    | arith => exact Or.inl h2
    | bits => exact h2
    | logic => have := integer_kind h1; rw [show w.kind l = .bool from ha] at this; cases this
    | compare => exact integer_leaf h2
  · cases op with
    | plus => exact Or.inr (Or.inl h2)
    | arith => exact Or.inr h2
    | bits =>
      have h3 := real_kind h1
      have h4 := integer_kind (show (w.node l).integer = true from ha)
      rcases h3 with h3 | h3 <;> rw [h3] at h4 <;> cases h4
    | logic =>
      have h3 := real_kind h1
      rw [show w.kind l = .bool from ha] at h3
      rcases h3 with h3 | h3 <;> cases h3
    | compare => exact real_leaf h2

theorem compatible_symm {w : World} (ok : w.Ok) {l r : w.T} (hl : Proper w l) (hr : Proper w r) (h : Compatible w.e.g l r) :
    Compatible w.e.g r l := by
  rcases h with h | h | h
  · exact Or.inl (Types.equivalent_symm ok.env.types hl.2 hr.2 h)
  · exact Or.inr (Or.inl h.symm)
  · exact Or.inr (Or.inr h.symm)

/-! ## Conversions in both directions -/

/-- The kinds of types between which operands are converted. -/
def Kinds (s t : Kind) : Prop :=
  (s.integerOrEnum = true ∧ (t = .real32 ∨ t = .real)) ∨ (s = .char ∧ t = .str) ∨ (s = .dynarray ∧ t = .str) ∨ (s = .dynarray ∧ t = .array) ∨
  t = .interface ∨ (s = .ptr ∧ t = .ptr) ∨ (s = .weakptr ∧ t = .ptr) ∨ (s = .fn ∧ t = .closure)

theorem implicit_kinds {w : World} {S T : w.T} (h : Implicit w true S T) : Compatible w.e.g T S ∨ Kinds (w.kind S) (w.kind T) := by
  cases h with
  | compatible h => exact Or.inl h
  | intReal h1 h2 => exact Or.inr (Or.inl ⟨integer_kind h1, real_kind h2⟩)
  | charStr h1 h2 => right; simp [Kinds, h1, h2]
  | charsStr h1 _ h2 => right; simp [Kinds, h1, h2]
  | dynArray h1 h2 => right; simp [Kinds, h1, h2]
  | valueInterface h => right; simp [Kinds, h]
  | ptrInterface h => right; simp [Kinds, h]
  | interfaces h => right; simp [Kinds, h]
  | pointers h1 h2 => right; simp [Kinds, h1, h2]
  | strong h1 h2 => right; simp [Kinds, h1, h2]
  | closure h1 h2 => right; simp [Kinds, h1, h2]

theorem kinds_both {s t : Kind} (h1 : Kinds s t) (h2 : Kinds t s) : (s = .ptr ∧ t = .ptr) ∨ (s = .interface ∧ t = .interface) := by
  unfold Kinds at h1 h2
  cases s <;> cases t <;> simp [Types.Kind.integerOrEnum] at h1 h2 ⊢

theorem not_interface {w : World} {t : w.T} (hk : w.kind t = .interface) {op : Op} (h : Applies w t op) : False := by
  have hi : (w.node t).integer = true → False := fun h => by have := integer_kind h; rw [hk] at this; cases this
  have hr : (w.node t).real = true → False := fun h => by have := real_kind h; rw [hk] at this; rcases this with h | h <;> cases h
  cases op with
  | plus => rcases h with h | h | h; exact hi h; exact hr h; rw [hk] at h; cases h
  | arith => rcases h with h | h; exact hi h; exact hr h
  | bits => exact hi h
  | logic => rw [show w.kind t = .bool from h] at hk; cases hk
  | compare =>
    have := h t .refl
    unfold Types.BasicOrArrayOrStruct at this
    rw [show (w.e.g.node t).kind = .interface from hk] at this
    simp at this

theorem ptr_compare {w : World} {t : w.T} (hk : w.kind t = .ptr) {op : Op} (h : Applies w t op) : op = .compare := by
  have hi : (w.node t).integer = true → False := fun h => by have := integer_kind h; rw [hk] at this; cases this
  have hr : (w.node t).real = true → False := fun h => by have := real_kind h; rw [hk] at this; rcases this with h | h <;> cases h
  cases op with
  | plus => rcases h with h | h | h; exact (hi h).elim; exact (hr h).elim; rw [hk] at h; cases h
  | arith => rcases h with h | h; exact (hi h).elim; exact (hr h).elim
  | bits => exact (hi h).elim
  | logic => rw [show w.kind t = .bool from h] at hk; cases hk
  | compare => rfl

theorem applies_both {w : World} (ok : w.Ok) {l r : w.T} (hl : Proper w l) (hr : Proper w r) (h1 : Implicit w true r l) (h2 : Implicit w true l r)
    {op : Op} (ha : Applies w r op) : Applies w l op := by
  rcases implicit_kinds h2 with h2 | h2
  · exact applies_compatible ok h2 ha
  · rcases implicit_kinds h1 with h1 | h1
    · exact applies_compatible ok (compatible_symm ok hl hr h1) ha
    · rcases kinds_both h1 h2 with ⟨h3, h4⟩ | ⟨h3, h4⟩
      · rw [ptr_compare h3 ha]
        refine applies_leaf (by simp [h4]) (by simp [h4]) (by simp [h4]) ?_
        unfold Types.BasicOrArrayOrStruct
        rw [show (w.e.g.node l).kind = .ptr from h4]
        simp
      · exact (not_interface h3 ha).elim

/-! ## The operator -/

theorem implicitEx_self {w : World} (ok : w.Ok) (depth : Nat) {t : w.T} (ht : Proper w t) :
    ∃ c, w.implicitEx false (depth + 1) true false t t = .ok (c, t) := by
  cases implicitEx_cases ok depth true false (T := t) ht with
  | conv c h _ => exact ⟨c, h⟩
  | refuse _ _ h => exact absurd (.compatible (compatible_refl w t)) h
  | skip h _ _ => exact ⟨_, h⟩
  | list h => cases h

/-- What `doApplyOperator` does. -/
inductive OpCases (w : World) (op : Op) (l r : w.T) (res : Out (Code w.e.g.n × Code w.e.g.n × w.T)) : Prop
  | right (cl cr : Code w.e.g.n) : Implicit w true r l → Applies w l op → res = .ok (cl, cr, l) → OpCases w op l r res
  | left (cl cr : Code w.e.g.n) : Implicit w true l r → Applies w r op → res = .ok (cl, cr, r) → OpCases w op l r res
  | none : ¬ (Implicit w true r l ∧ Applies w l op) → ¬ (Implicit w true l r ∧ Applies w r op) → res = .error → OpCases w op l r res

theorem operator_cases {w : World} (ok : w.Ok) (depth : Nat) (op : Op) {l r : w.T} (hl : Proper w l) (hr : Proper w r) : OpCases w op l r (w.operator false (depth + 1) true op l r) := by
  unfold World.operator
  cases implicitEx_cases ok depth false true (T := l) hr with
  | conv cr h hi =>
    have hi : Implicit w true r l := hi.resolve_right (by simp)
    rw [h]
    obtain ⟨cl, hc⟩ := implicitEx_self ok depth hl
    change OpCases w op l r (Out.bind (if true = true then w.implicitEx false (depth + 1) true false l l else _) _)
    rw [if_pos rfl, hc]
    change OpCases w op l r (if _ then _ else _)
    by_cases ha : Applies w l op
    · exact .right cl cr hi ha (if_pos (by simp [compat_iff.mpr (compatible_refl w l), validOperator_iff.mpr ha]))
    · refine .none (fun h => ha h.2) (fun h => ha (applies_both ok hl hr hi h.1 h.2)) (if_neg ?_)
      rw [Bool.and_eq_true, validOperator_iff]
      exact fun h => ha h.2
  | refuse h hk hi =>
    rw [h]
    refine .none (fun h => hi h.1) (fun h => ?_) rfl
    rcases implicit_kinds h.1 with h1 | h1
    · exact hi (.compatible (compatible_symm ok hr hl h1))
    · rw [hk] at h1
      have : w.kind r = .interface := by simpa [Kinds, Types.Kind.integerOrEnum] using h1
      exact not_interface this h.2
  | list h => cases h
  | skip h hi _ =>
    have hi : Implicit w true r l → Compatible w.e.g l r := hi
    rw [h]
    change OpCases w op l r (Out.bind (if true = true then w.implicitEx false (depth + 1) true false r l else _) _)
    rw [if_pos rfl]
    cases implicitEx_cases ok depth true false (T := r) hl with
    | conv cl h hi2 =>
      have hi2 : Implicit w true l r := hi2.resolve_right (by simp)
      rw [h]
      change OpCases w op l r (if _ then _ else _)
      by_cases ha : Applies w r op
      · exact .left cl _ hi2 ha (if_pos (by simp [compat_iff.mpr (compatible_refl w r), validOperator_iff.mpr ha]))
      · refine .none (fun h => ha (applies_compatible ok (hi h.1) h.2)) (fun h => ha h.2) (if_neg ?_)
        rw [Bool.and_eq_true, validOperator_iff]
        exact fun h => ha h.2
    | refuse h hk hi2 =>
      rw [h]
      refine .none (fun h => ?_) (fun h => hi2 h.1) rfl
      exact hi2 (.compatible (compatible_symm ok hl hr (hi h.1)))
    | list h => cases h
    | skip h hi2 _ =>
      rw [h]
      change OpCases w op l r (if _ then _ else _)
      by_cases hc : Compatible w.e.g l r ∧ Applies w l op
      · exact .right _ _ (.compatible hc.1) hc.2 (if_pos (by simp [compat_iff.mpr hc.1, validOperator_iff.mpr hc.2]))
      · refine .none (fun h => hc ⟨hi h.1, h.2⟩) (fun h => ?_) (if_neg ?_)
        · have h1 : Compatible w.e.g l r := compatible_symm ok hr hl (hi2 h.1)
          exact hc ⟨h1, applies_compatible ok (compatible_symm ok hl hr h1) h.2⟩
        · rw [Bool.and_eq_true, validOperator_iff, compat_iff]
          exact hc

/-- `op=`: only the right operand is converted. -/
theorem short_cases {w : World} (ok : w.Ok) (depth : Nat) (op : Op) {l r : w.T} (hr : Proper w r) :
    ((∃ cr, w.operator false (depth + 1) false op l r = .ok (.skip, cr, l)) ∧ Implicit w true r l ∧ Applies w l op) ∨
    (w.operator false (depth + 1) false op l r = .error ∧ ¬ (Implicit w true r l ∧ Applies w l op)) := by
  unfold World.operator
  cases implicitEx_cases ok depth false true (T := l) hr with
  | conv cr h hi =>
    have hi : Implicit w true r l := hi.resolve_right (by simp)
    rw [h]
    by_cases ha : Applies w l op
    · exact Or.inl ⟨⟨cr, if_pos (by simp [compat_iff.mpr (compatible_refl w l), validOperator_iff.mpr ha])⟩, hi, ha⟩
    · refine Or.inr ⟨if_neg ?_, fun h => ha h.2⟩
      rw [Bool.and_eq_true, validOperator_iff]
      exact fun h => ha h.2
  | refuse h _ hi =>
    rw [h]
    exact Or.inr ⟨rfl, fun h => hi h.1⟩
  | list h => cases h
  | skip h hi _ =>
    have hi : Implicit w true r l → Compatible w.e.g l r := hi
    rw [h]
    by_cases hc : Compatible w.e.g l r ∧ Applies w l op
    · exact Or.inl ⟨⟨.skip, if_pos (by simp [compat_iff.mpr hc.1, validOperator_iff.mpr hc.2])⟩, .compatible hc.1, hc.2⟩
    · refine Or.inr ⟨if_neg ?_, fun h => hc ⟨hi h.1, h.2⟩⟩
      rw [Bool.and_eq_true, validOperator_iff, compat_iff]
      exact hc

/-! ## Which operand is converted -/

def SideOk (w : World) (lhs : Bool) (T : w.T) (r : Conv w) : Prop :=
  ∀ c t, r = .ok (c, t) → c.side = none ∨ c.side = some (if lhs then .left else .right) ∨ (t = T ∧ c.side = some .right ∧ (w.kind T = .interface ∨ w.kind T = .closure))

theorem SideOk.ite {w : World} {lhs : Bool} {T : w.T} {c : Prop} [Decidable c] {a b : Conv w} (h1 : c → SideOk w lhs T a)
    (h2 : ¬ c → SideOk w lhs T b) : SideOk w lhs T (if c then a else b) := by
  split
  · next h => exact h1 h
  · next h => exact h2 h

theorem SideOk.side {w : World} {lhs : Bool} {T t : w.T} {c : Code w.e.g.n} (h : c.side = some (if lhs then .left else .right)) :
    SideOk w lhs T (.ok (c, t)) := fun c' t' h' => by cases h'; exact Or.inr (Or.inl h)

theorem SideOk.skip {w : World} {lhs : Bool} {T t : w.T} : SideOk w lhs T (.ok (.skip, t)) := fun c' t' h' => by cases h'; exact Or.inl rfl

theorem SideOk.kind {w : World} {lhs : Bool} {T : w.T} {c : Code w.e.g.n} (h : w.kind T = .interface ∨ w.kind T = .closure)
    (hs : c.side = some .right) : SideOk w lhs T (.ok (c, T)) := fun c' t' h' => by cases h'; exact Or.inr (Or.inr ⟨rfl, hs, h⟩)

theorem SideOk.error {w : World} {lhs : Bool} {T : w.T} : SideOk w lhs T .error := fun c' t' h' => by cases h'

theorem implicitEx_side {w : World} (depth : Nat) {lhs rhs : Bool} (ho : (lhs || rhs) = true) (S T : w.T) :
    SideOk w lhs T (w.implicitEx false (depth + 1) lhs rhs T S) := by
  have hno : ∀ {b : Bool}, (!true && b) = true → False := by simp
  have hno2 : ∀ {a b : Bool}, (!true && a && b) = true → False := by simp
  have hno3 : ∀ {a b c : Bool}, (!true && a && b && c) = true → False := by simp
  rw [World.implicitEx, ho]
  refine .ite (fun h => (hno h).elim) (fun _ => ?_)
  refine .ite (fun _ => .side rfl) (fun _ => ?_)
  refine .ite (fun _ => .side rfl) (fun _ => ?_)
  refine .ite (fun _ => .side rfl) (fun _ => ?_)
  refine .ite (fun h => (hno3 h).elim) (fun _ => ?_)
  refine .ite (fun _ => .side rfl) (fun _ => ?_)
  refine .ite (fun h => (hno3 h).elim) (fun _ => ?_)
  refine .ite (fun hT => ?_) (fun _ => ?_)
  · simp only [beq_iff_eq] at hT
    refine .ite (fun _ => .ite (fun _ => ?_) (fun _ => .skip)) (fun _ => .ite (fun _ => .ite (fun _ => .error) (fun _ => ?_)) (fun _ => .ite (fun _ => ?_) (fun _ => .skip)))
    · unfold World.interfaceToInterface
      rw [ite_const]
      exact .ite (fun _ => .kind (Or.inl hT) rfl) (fun _ => .error)
    · unfold World.ptrToInterface
      rw [if_neg (by simp)]
      exact .ite (fun _ => .kind (Or.inl hT) rfl) (fun _ => .error)
    · unfold World.valueToInterface World.ptrToInterface
      rw [ite_const, if_neg (by simp)]
      by_cases h : (((w.node T).fields.drop 2).all fun f => (Iface.methodEntry w.e (w.ptrTo S) f).isSome) = true
      · rw [if_pos h]; exact .kind (Or.inl hT) rfl
      · rw [if_neg h]; exact .error
  refine .ite (fun _ => .skip) (fun _ => ?_)
  refine .ite (fun h => (hno3 h).elim) (fun _ => ?_)
  refine .ite (fun _ => .side rfl) (fun _ => ?_)
  refine .ite (fun h => .kind (Or.inr ?_) rfl) (fun _ => ?_)
  · simp only [Bool.and_eq_true, beq_iff_eq] at h
    exact h.1.1
  refine .ite (fun h => ?_) (fun _ => .skip)
  exfalso
  simp at h

theorem not_closure {w : World} {t : w.T} (hk : w.kind t = .closure) {op : Op} (h : Applies w t op) : False := by
  have hi : (w.node t).integer = true → False := fun h => by have := integer_kind h; rw [hk] at this; cases this
  have hr : (w.node t).real = true → False := fun h => by have := real_kind h; rw [hk] at this; rcases this with h | h <;> cases h
  cases op with
  | plus => rcases h with h | h | h; exact hi h; exact hr h; rw [hk] at h; cases h
  | arith => rcases h with h | h; exact hi h; exact hr h
  | bits => exact hi h
  | logic => rw [show w.kind t = .bool from h] at hk; cases hk
  | compare =>
    have := h t .refl
    unfold Types.BasicOrArrayOrStruct at this
    rw [show (w.e.g.node t).kind = .closure from hk] at this
    simp at this

theorem operator_sides {w : World} (depth : Nat) (conv : Bool) (op : Op) {l r t : w.T} {cl cr : Code w.e.g.n}
    (h : w.operator false (depth + 1) conv op l r = .ok (cl, cr, t)) :
    (cl.side = none ∨ cl.side = some .left) ∧ (cr.side = none ∨ cr.side = some .right) := by
  unfold World.operator at h
  cases h1 : w.implicitEx false (depth + 1) false true l r with
  | error => rw [h1] at h; cases h
  | endless => rw [h1] at h; cases h
  | ok x =>
    obtain ⟨c1, r'⟩ := x
    rw [h1] at h
    have s1 := implicitEx_side depth (lhs := false) rfl r l c1 r' h1
    change (Out.bind (if conv = true then w.implicitEx false (depth + 1) true false r' l else .ok (.skip, l)) _) = _ at h
    have key : ∀ (c2 : Code w.e.g.n) (l' : w.T), (if conv = true then w.implicitEx false (depth + 1) true false r' l else .ok (.skip, l)) = .ok (c2, l') →
        c2.side = none ∨ c2.side = some .left ∨ (l' = r' ∧ c2.side = some .right ∧ (w.kind r' = .interface ∨ w.kind r' = .closure)) := by
      intro c2 l' h2
      cases conv with
      | true => exact implicitEx_side depth (lhs := true) rfl l r' c2 l' h2
      | false => cases h2; exact Or.inl rfl
    cases h2 : (if conv = true then w.implicitEx false (depth + 1) true false r' l else .ok (.skip, l)) with
    | error => rw [h2] at h; cases h
    | endless => rw [h2] at h; cases h
    | ok x =>
      obtain ⟨c2, l'⟩ := x
      have s2 := key c2 l' h2
      rw [h2] at h
      change (if (w.e.compat l' r' && w.validOperator l' op) = true then _ else _) = _ at h
      split at h
      · next hv =>
        simp only [Bool.and_eq_true, validOperator_iff] at hv
        injection h with h
        injection h with e1 h
        injection h with e2 e3
        subst e1 e2 e3
        constructor
        · rcases s2 with s2 | s2 | ⟨rfl, _, s2 | s2⟩
          · exact Or.inl s2
          · exact Or.inr s2
          · exact (not_interface s2 hv.2).elim
          · exact (not_closure s2 hv.2).elim
        · rcases s1 with s1 | s1 | ⟨_, s1, _⟩
          · exact Or.inl s1
          · exact Or.inr s1
          · exact Or.inr s1
      · cases h

/-! ## Constants -/

def ConstOk {α : Type} (a b : Out α) : Prop := ∀ x, a = .ok x → b = .ok x

theorem ConstOk.ite {α : Type} {c : Prop} [Decidable c] {a b a' b' : Out α} (h1 : c → ConstOk a a') (h2 : ¬ c → ConstOk b b') :
    ConstOk (if c then a else b) (if c then a' else b') := by
  by_cases h : c
  · rw [if_pos h, if_pos h]; exact h1 h
  · rw [if_neg h, if_neg h]; exact h2 h

theorem ConstOk.refl {α : Type} (a : Out α) : ConstOk a a := fun _ h => h

theorem ConstOk.no {w : World} (a : Conv w) (b : Conv w) : ConstOk (w.noConst true a) b := fun _ h => by cases h

theorem ConstOk.bind {α β : Type} {a a' : Out α} {f f' : α → Out β} (h1 : ConstOk a a') (h2 : ∀ x, ConstOk (f x) (f' x)) :
    ConstOk (a.bind f) (a'.bind f') := by
  intro x h
  cases a with
  | ok y => rw [h1 y rfl]; exact h2 y x h
  | error => cases h
  | endless => cases h

theorem ptrToInterface_const (w : World) (T S : w.T) : ConstOk (w.ptrToInterface true T S) (w.ptrToInterface false T S) := by
  unfold World.ptrToInterface
  simp only [if_true, Bool.false_eq_true, if_false]
  intro x h
  split at h
  · next hc =>
    simp only [Bool.and_eq_true, decide_eq_true_eq] at hc
    rw [List.drop_eq_nil_of_le (by omega)]
    exact h
  · cases h

theorem implicitEx_const (w : World) (depth : Nat) (lhs rhs : Bool) (T S : w.T) :
    ConstOk (w.implicitEx true depth lhs rhs T S) (w.implicitEx false depth lhs rhs T S) := by
  cases depth with
  | zero => exact .refl _
  | succ depth =>
    rw [World.implicitEx, World.implicitEx]
    refine .ite (fun _ => .refl _) (fun _ => ?_)
    refine .ite (fun _ => .refl _) (fun _ => ?_)
    refine .ite (fun _ => .refl _) (fun _ => ?_)
    refine .ite (fun _ => .no _ _) (fun _ => ?_)
    refine .ite (fun _ => .refl _) (fun _ => ?_)
    refine .ite (fun _ => .no _ _) (fun _ => ?_)
    refine .ite (fun _ => .refl _) (fun _ => ?_)
    refine .ite (fun _ => ?_) (fun _ => ?_)
    · refine .ite (fun _ => .ite (fun _ => ?_) (fun _ => .refl _)) (fun _ => .ite (fun _ => .ite (fun _ => .refl _) (fun _ => ptrToInterface_const w T S))
        (fun _ => .ite (fun _ => ?_) (fun _ => .refl _)))
      · exact .no _ _
      · exact .no _ _
    refine .ite (fun _ => .refl _) (fun _ => ?_)
    refine .ite (fun _ => .no _ _) (fun _ => ?_)
    refine .ite (fun _ => .no _ _) (fun _ => ?_)
    refine .ite (fun _ => .no _ _) (fun _ => ?_)
    exact .ite (fun _ => .no _ _) (fun _ => .refl _)

theorem explicit_const (w : World) : ∀ (depth : Nat) (T S : w.T), ConstOk (w.explicit true depth T S) (w.explicit false depth T S)
  | 0, _, _ => .refl _
  | depth + 1, T, S => by
    rw [World.explicit, World.explicit]
    refine .bind (implicitEx_const w _ false false T S) fun x => ?_
    refine .ite (fun _ => .refl _) (fun _ => ?_)
    refine .ite (fun _ => .refl _) (fun _ => ?_)
    refine .ite (fun _ => .refl _) (fun _ => ?_)
    refine .ite (fun _ => .no _ _) (fun _ => ?_)
    refine .ite (fun _ => .no _ _) (fun _ => ?_)
    refine .ite (fun _ => .refl _) (fun _ => ?_)
    exact .ite (fun _ => .no _ _) (fun _ => .refl _)

end Umka.Conv
