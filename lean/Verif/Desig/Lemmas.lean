import Verif.Desig.Spec

/-!
# Designators and assignments: lemmas
-/

namespace Umka.Desig
open Spec

variable {σ : Type}

/-! ## Results -/

@[simp] theorem Res.bind_ok {α β : Type} (a : α) (f : α → Res β) : (Res.ok a).bind f = f a := rfl
@[simp] theorem Res.bind_error {α β : Type} (e : Err) (f : α → Res β) : (Res.error e).bind f = .error e := rfl
@[simp] theorem Res.bind_crash {α β : Type} (f : α → Res β) : (Res.crash).bind f = .crash := rfl
@[simp] theorem Res.map_ok {α β : Type} (a : α) (f : α → β) : (Res.ok a).map f = .ok (f a) := rfl
@[simp] theorem Res.map_error {α β : Type} (e : Err) (f : α → β) : (Res.error e).map f = .error e := rfl
@[simp] theorem Res.map_crash {α β : Type} (f : α → β) : (Res.crash).map f = .crash := rfl

theorem Res.bind_assoc {α β γ : Type} (r : Res α) (f : α → Res β) (g : β → Res γ) : (r.bind f).bind g = r.bind fun a => (f a).bind g := by
  cases r <;> rfl

theorem Res.map_bind {α β γ : Type} (r : Res α) (f : α → β) (g : β → Res γ) : (r.map f).bind g = r.bind fun a => g (f a) := by
  cases r <;> rfl

theorem Res.bind_map {α β γ : Type} (r : Res α) (f : α → Res β) (g : β → γ) : (r.bind f).map g = r.bind fun a => (f a).map g := by
  cases r <;> rfl

theorem run_append (ops : Ops σ) : ∀ (c1 c2 : List (Instr σ)) (m : M σ), run ops (c1 ++ c2) m = (run ops c1 m).bind (run ops c2)
  | [], _, _ => rfl
  | i :: is, c2, m => by
    rw [List.cons_append, run, run, Res.bind_assoc]
    congr 1
    exact funext fun m => run_append ops is c2 m

theorem run_one (ops : Ops σ) (i : Instr σ) (m : M σ) : run ops [i] m = step ops m i := by
  simp only [run]
  cases step ops m i <;> rfl

/-! ## How the compiler represents places and values -/

/-- The compile-time type of a designator: a pointer for a place, except for structured types unless `^` came last. -/
def repTy (c : Cat) (viaDeref : Bool) : Ty :=
  match c with
  | .place t => if t.structured && !viaDeref then t else .ptr t
  | .value t => t

def isPlace : Cat → Bool
  | .place _ => true
  | .value _ => false

structure Rep (D : D) (c : Cat) (v : Bool) : Prop where
  ty : D.ty = repTy c v
  isVar : D.isVar = isPlace c

theorem rep_loc (t : Ty) (a b : Bool) : Rep ⟨locTy t, true, a, b⟩ (.place t) false :=
  ⟨by simp only [locTy, repTy, Bool.not_false, Bool.and_true], rfl⟩

theorem repTy_value (t : Ty) (v : Bool) : repTy (.value t) v = t := rfl

theorem rep_base (b : Base σ) : Rep (genBase b).2 (baseCat b) false := by
  cases b with
  | var a t => exact rep_loc t _ _
  | value f c t =>
    cases f
    · exact ⟨rfl, rfl⟩
    all_goals first
      | exact ⟨rfl, rfl⟩
      | (cases h : t.structured
         · exact ⟨by simp only [genBase, baseCat, h, Bool.false_eq_true, if_false, repTy], by simp only [genBase, baseCat, h, Bool.false_eq_true, if_false, isPlace]⟩
         · exact ⟨by simp only [genBase, baseCat, h, if_true, repTy, Bool.not_false, Bool.and_true], by simp only [genBase, baseCat, h, if_true, isPlace]⟩)

theorem run_base (ops : Ops σ) (b : Base σ) (w : World σ) (st : List Int) :
    run ops (genBase b).1 ⟨w, st⟩ = (baseDen b w).map fun q => ⟨q.1, q.2.slot :: st⟩ := by
  cases b with
  | var a t => rfl
  | value f c t =>
    have key : ∀ g : World σ × Int → World σ × Den, (∀ q, (g q).1 = q.1 ∧ (g q).2.slot = q.2) →
        run ops [.user c] ⟨w, st⟩ = ((c w).map g).map fun q => ⟨q.1, q.2.slot :: st⟩ := by
      intro g hg
      rw [run_one, step]
      cases c w with
      | ok q => rw [Res.map_ok, Res.map_ok, Res.map_ok, (hg q).1, (hg q).2]
      | error e => rfl
      | crash => rfl
    have h2 : ∀ q : World σ × Int, (if t.structured = true then Den.place q.2 t else Den.value q.2 t).slot = q.2 := by
      intro q
      split <;> rfl
    cases f
    · exact key _ fun q => ⟨rfl, rfl⟩
    · exact key _ fun q => ⟨rfl, h2 q⟩
    · exact key _ fun q => ⟨rfl, h2 q⟩
    · exact key _ fun q => ⟨rfl, rfl⟩
    · exact key _ fun q => ⟨rfl, h2 q⟩

theorem cat_base (b : Base σ) (w : World σ) (q : World σ × Den) (h : baseDen b w = .ok q) : q.2.cat = baseCat b := by
  cases b with
  | var a t => cases h; rfl
  | value f c t =>
    cases f <;> simp only [baseDen] at h <;> cases hc : c w with
    | error e => rw [hc] at h; cases h
    | crash => rw [hc] at h; cases h
    | ok r =>
      rw [hc] at h
      cases h
      first
        | rfl
        | (simp only [baseCat]
           cases ht : t.structured <;> simp only [if_true, if_false, Bool.false_eq_true] <;> rfl)

/-! ## Pointers -/

/-- `X` is neither a pointer nor a weak pointer. -/
def plain : Ty → Bool
  | .ptr _ | .weak _ => false
  | _ => true

theorem implicit_run (c : Cat) (v : Bool) (s : Sel σ) (ho : odd c s = false) (hs : s = .deref → False) (hp : plain (through c.ty) = true) :
    ∃ c1 v1, (genImplicit (σ := σ) (repTy c v)).2 = repTy c1 v1 ∧ c1.ty = through c.ty ∧ ∀ (ops : Ops σ) (w : World σ) (d : Den) (st : List Int),
      d.cat = c → run ops (genImplicit (repTy c v)).1 ⟨w, d.slot :: st⟩ = (follow ops w d).map (fun d => ⟨w, d.slot :: st⟩) ∧
        ∀ d', follow ops w d = .ok d' → d'.cat = c1 := by
  cases c with
  | value t =>
    cases t
    case ptr b =>
      refine ⟨.place b, true, ?_, rfl, ?_⟩
      · cases b <;> first | rfl | (exact absurd hp (by simp [Cat.ty, through, plain])) | simp [repTy, genImplicit]
      · intro ops w d st hd
        cases d with
        | place p t' => cases hd
        | value x t' =>
          cases hd
          refine ⟨?_, fun d' h => by cases h; rfl⟩
          cases b <;> first | rfl | (exact absurd hp (by simp [Cat.ty, through, plain]))
    case weak b =>
      cases s <;> first | exact absurd rfl hs | (cases ho)
    all_goals
      refine ⟨.value _, v, rfl, rfl, ?_⟩
      intro ops w d st hd
      cases d with
      | place p t' => cases hd
      | value x t' =>
        cases hd
        exact ⟨rfl, fun d' h => by cases h; rfl⟩
  | place t =>
    cases t
    case ptr b =>
      refine ⟨.place b, true, ?_, rfl, ?_⟩
      · simp [repTy, genImplicit, Ty.structured]
      · intro ops w d st hd
        cases d with
        | value x t' => cases hd
        | place p t' =>
          cases hd
          simp only [repTy, genImplicit, Ty.structured, Bool.false_and, Bool.false_eq_true, if_false, run_one, step, follow, load, derefSlot, Den.slot]
          by_cases h0 : p = 0
          · simp only [h0, if_true, Res.map_error]
            exact ⟨trivial, fun d' h => nomatch h⟩
          · simp only [h0, if_false, Res.map_ok]
            exact ⟨trivial, fun d' h => by cases h; rfl⟩
    case weak b =>
      refine ⟨.place b, true, ?_, rfl, ?_⟩
      · simp [repTy, genImplicit, Ty.structured]
      · intro ops w d st hd
        cases d with
        | value x t' => cases hd
        | place p t' =>
          cases hd
          simp only [repTy, genImplicit, Ty.structured, Bool.false_and, Bool.false_eq_true, if_false, run, step, follow, load, derefSlot, Den.slot]
          by_cases h0 : p = 0
          · simp only [h0, if_true, Res.map_error, Res.bind_error]
            exact ⟨trivial, fun d' h => nomatch h⟩
          · simp only [h0, if_false, Res.map_ok, Res.bind_ok]
            cases ops.strengthen w (w.mem p) with
            | ok x => exact ⟨rfl, fun d' h => by cases h; rfl⟩
            | error e => exact ⟨rfl, fun d' h => nomatch h⟩
            | crash => exact ⟨rfl, fun d' h => nomatch h⟩
    all_goals
      refine ⟨.place _, v, ?_, rfl, ?_⟩
      · cases v <;> rfl
      · intro ops w d st hd
        cases d with
        | value x t' => cases hd
        | place p t' =>
          cases hd
          refine ⟨?_, fun d' h => by cases h; rfl⟩
          cases v <;> rfl

theorem through_item {t : Ty} {c : Cat} (h : itemCat (through t) = some c) : plain (through t) = true := by
  cases hx : through t <;> first | rfl | (rw [hx] at h; cases h)

theorem through_field {t : Ty} {x : Nat} {c : Cat} (h : fieldCat x (through t) = some c) : plain (through t) = true := by
  cases hx : through t <;> first | rfl | (rw [hx] at h; cases h)

/-- What a selector does, compiled: the code leaves what the specification says. -/
def Does (code : List (Instr σ)) (c c' : Cat) (f : Ops σ → World σ → Den → Res (World σ × Den)) : Prop :=
  ∀ (ops : Ops σ) (w : World σ) (d : Den) (st : List Int), d.cat = c → f ops w d ≠ .crash →
    run ops code ⟨w, d.slot :: st⟩ = (f ops w d).map (fun q => ⟨q.1, q.2.slot :: st⟩) ∧ ∀ q, f ops w d = .ok q → q.2.cat = c'

theorem pointer_run (pre : List (Instr σ)) (t b : Ty) (h : pointee t = some b) :
    ∃ post : List (Instr σ), genPointer pre t = .ok (pre ++ post, ⟨.ptr b, true, false, false⟩) ∧ ∀ (ops : Ops σ) (w : World σ) (v : Int) (st : List Int),
      run ops post ⟨w, v :: st⟩ = (follow ops w (.value v t)).map (fun d => ⟨w, d.slot :: st⟩) ∧
        ∀ d', follow ops w (.value v t) = .ok d' → d'.cat = .place b := by
  cases t
  case ptr b' =>
    have : b' = b := by cases b' <;> first | (cases h; rfl) | cases h
    subst this
    refine ⟨[], ?_, fun ops w v st => ⟨rfl, fun d' h => by cases h; rfl⟩⟩
    rw [List.append_nil]
    cases b' <;> first | rfl | cases h
  case weak b' =>
    have : b' = b := by cases b' <;> first | (cases h; rfl) | cases h
    subst this
    refine ⟨[.strengthen], ?_, fun ops w v st => ?_⟩
    · cases b' <;> first | rfl | cases h
    · simp only [run_one, step, follow]
      cases ops.strengthen w v with
      | ok x => exact ⟨rfl, fun d' h => by cases h; rfl⟩
      | error e => exact ⟨rfl, fun d' h => nomatch h⟩
      | crash => exact ⟨rfl, fun d' h => nomatch h⟩
  all_goals cases h

theorem deref_sel (D : D) (c : Cat) (v : Bool) (b : Ty) (hr : Rep D c v) (h : pointee c.ty = some b) :
    ∃ code : List (Instr σ), genDerefSel D = .ok (code, ⟨.ptr b, true, false, false⟩) ∧
      Does code c (.place b) (fun ops w d => selDen ops w d .deref) := by
  cases c with
  | value t =>
    obtain ⟨post, h1, h2⟩ := pointer_run (σ := σ) [] t b h
    refine ⟨post, ?_, ?_⟩
    · rw [genDerefSel, hr.isVar, hr.ty]
      exact h1
    · intro ops w d st hd _
      cases d with
      | place p t' => cases hd
      | value x t' =>
        cases hd
        obtain ⟨h3, h4⟩ := h2 ops w x st
        refine ⟨?_, ?_⟩
        · simp only [Den.slot, h3, selDen]
          cases follow ops w (.value x t) <;> rfl
        · intro q hq
          simp only [selDen] at hq
          cases hf : follow ops w (.value x t) with
          | ok d' => rw [hf] at hq; cases hq; exact h4 d' hf
          | error e => rw [hf] at hq; cases hq
          | crash => rw [hf] at hq; cases hq
  | place t =>
    obtain ⟨post, h1, h2⟩ := pointer_run (σ := σ) [.deref t] t b h
    have hns : t.structured = false := by cases t <;> first | rfl | cases h
    refine ⟨[.deref t] ++ post, ?_, ?_⟩
    · rw [genDerefSel, hr.isVar, hr.ty, repTy, hns]
      exact h1
    · intro ops w d st hd _
      cases d with
      | value p t' => cases hd
      | place p t' =>
        cases hd
        have key : follow ops w (.place p t) = (load w p).bind fun x => follow ops w (.value x t) := by
          cases t
          case ptr b' => simp only [follow, load]; split <;> rfl
          case weak b' => simp only [follow, load]
          all_goals cases h
        have hdr : derefSlot w t p = load w p := by
          cases t <;> first | rfl | cases h
        rw [run_append, run_one, step, Den.slot]
        simp only [hdr]
        rw [selDen, key]
        cases load w p with
        | error e => exact ⟨rfl, fun q h => nomatch h⟩
        | crash => exact ⟨rfl, fun q h => nomatch h⟩
        | ok x =>
          obtain ⟨h3, h4⟩ := h2 ops w x st
          simp only [Res.map_ok, Res.bind_ok, h3]
          refine ⟨?_, ?_⟩
          · cases follow ops w (.value x t) <;> rfl
          · intro q hq
            cases hf : follow ops w (.value x t) with
            | ok d' => rw [hf] at hq; cases hq; exact h4 d' hf
            | error e => rw [hf] at hq; cases hq
            | crash => rw [hf] at hq; cases hq

theorem field_sel (D : D) (c c' : Cat) (v : Bool) (x : Nat) (hr : Rep D c v) (h : fieldCat x (through c.ty) = some c')
    (ho : odd c (.field (σ := σ) x) = false) :
    ∃ (code : List (Instr σ)) (D' : Desig.D), genFieldSel D x = .ok (code, D') ∧ Rep D' c' false ∧ D'.isCall = false ∧ D'.isLit = false ∧
      Does code c c' (fun ops w d => selDen ops w d (.field x)) := by
  obtain ⟨c1, v1, h1, h2, h3⟩ := implicit_run c v (.field (σ := σ) x) ho (fun h => nomatch h) (through_field h)
  rw [← h2] at h
  cases hx : c1.ty
  case struct fs =>
    rw [hx, fieldCat] at h
    cases hf : fs.find x with
    | none => rw [hf] at h; cases h
    | some q =>
      rw [hf] at h
      cases h
      refine ⟨(genImplicit (repTy c v)).1 ++ [.getField q.1], ⟨locTy q.2, true, false, false⟩, ?_, rep_loc _ _ _, rfl, rfl, ?_⟩
      · rw [genFieldSel, hr.ty]
        simp only [h1]
        have : (repTy c1 v1 = .ptr (.struct fs)) ∨ repTy c1 v1 = .struct fs := by
          cases c1 with
          | value t => exact .inr hx
          | place t => cases hx; cases v1 <;> simp [repTy, Ty.structured]
        cases this with
        | inl h => rw [h]; simp only [genFieldOf, hf]
        | inr h => rw [h]; simp only [Ty.structured, if_true, genFieldOf, hf]
      · intro ops w d st hd hc
        obtain ⟨h4, h5⟩ := h3 ops w d st hd
        rw [run_append, h4]
        simp only [selDen] at hc ⊢
        cases hfo : follow ops w d with
        | error e => exact ⟨rfl, fun q h => nomatch h⟩
        | crash => exact ⟨rfl, fun q h => nomatch h⟩
        | ok d' =>
          have h6 := h5 d' hfo
          simp only [Res.map_ok, Res.bind_ok, run_one, step, h6, hx, field, hf]
          split
          · exact ⟨rfl, fun q h => nomatch h⟩
          · exact ⟨rfl, fun q h => by cases h; rfl⟩
  all_goals (rw [hx] at h; cases h)

/-- The code that takes a string out of its place. -/
def fetchCode : Ty → List (Instr σ)
  | .ptr .str => [.deref .str]
  | _ => []

theorem fetch_run (c1 : Cat) (v1 : Bool) (X : Ty) (hX : c1.ty = X) (hi : (itemCat X).isSome) (pre : List (Instr σ)) :
    genCollection pre (repTy c1 v1) = (pre ++ fetchCode (repTy c1 v1), X) ∧ ∀ (ops : Ops σ) (w : World σ) (d : Den) (st : List Int), d.cat = c1 →
      run ops (fetchCode (repTy c1 v1)) ⟨w, d.slot :: st⟩ = (fetch w d).map (fun d => ⟨w, d.slot :: st⟩) ∧
        ∀ d', fetch w d = .ok d' → d'.cat.ty = X := by
  subst hX
  cases c1 with
  | value t =>
    refine ⟨?_, ?_⟩
    · cases t <;> first | (simp [Cat.ty, itemCat] at hi; done) | simp [repTy, genCollection, fetchCode, Cat.ty]
    · intro ops w d st hd
      cases d with
      | place p t' => cases hd
      | value x t' =>
        cases hd
        refine ⟨?_, fun d' h => by cases h; rfl⟩
        cases t <;> first | (simp [Cat.ty, itemCat] at hi; done) | rfl
  | place t =>
    refine ⟨?_, ?_⟩
    · cases t <;> cases v1 <;> first | (simp [Cat.ty, itemCat] at hi; done) | simp [repTy, genCollection, fetchCode, Cat.ty, Ty.structured]
    · intro ops w d st hd
      cases d with
      | value p t' => cases hd
      | place p t' =>
        cases hd
        cases t
        case str =>
          have : repTy (.place .str) v1 = .ptr .str := by cases v1 <;> rfl
          simp only [this, fetchCode, run_one, step, derefSlot, fetch, load, Den.slot]
          split
          · exact ⟨rfl, fun d' h => nomatch h⟩
          · exact ⟨rfl, fun d' h => by cases h; rfl⟩
        all_goals first
          | (simp [Cat.ty, itemCat] at hi; done)
          | (refine ⟨?_, fun d' h => by cases h; rfl⟩
             cases v1 <;> rfl)

theorem item_run (X : Ty) (c' : Cat) (h : itemCat X = some c') (pre : List (Instr σ)) (e : Code σ) :
    ∃ (post : List (Instr σ)) (D' : D), genItem pre e X = .ok (pre ++ (.user e :: post), D') ∧ Rep D' c' false ∧ D'.isCall = false ∧ D'.isLit = false ∧
      ∀ (ops : Ops σ) (w : World σ) (i p : Int) (st : List Int), item ops w i X p ≠ .crash →
        run ops post ⟨w, i :: p :: st⟩ = (item ops w i X p).map (fun q => ⟨q.1, q.2.slot :: st⟩) ∧ ∀ q, item ops w i X p = .ok q → q.2.cat = c' := by
  cases X
  case array n t =>
    cases h
    refine ⟨[.getArray t.size n], _, rfl, rep_loc _ _ _, rfl, rfl, ?_⟩
    intro ops w i p st _
    simp only [run_one, step, getArraySlot, item]
    rw [if_pos (by omega)]
    by_cases h0 : p = 0
    · simp only [h0, if_true]
      exact ⟨rfl, fun q h => nomatch h⟩
    · simp only [h0, if_false]
      by_cases h1 : 0 ≤ i ∧ i < n
      · rw [if_neg (by omega), if_pos h1]
        exact ⟨rfl, fun q h => by cases h; rfl⟩
      · rw [if_pos (by omega), if_neg h1]
        exact ⟨rfl, fun q h => nomatch h⟩
  case dynArray t =>
    cases h
    refine ⟨[.getDyn], _, rfl, rep_loc _ _ _, rfl, rfl, ?_⟩
    intro ops w i p st hc
    simp only [run_one, step, getDynSlot, item] at hc ⊢
    by_cases h0 : p = 0
    · simp only [h0, if_true, true_or]
      exact ⟨rfl, fun q h => nomatch h⟩
    · by_cases hd : w.mem (p + 2) = 0
      · simp only [h0, hd, if_true, if_false, or_true]
        exact ⟨rfl, fun q h => nomatch h⟩
      · simp only [h0, hd, if_false, or_false] at hc ⊢
        by_cases hs : w.mem (p + 1) ≠ t.size
        · rw [if_pos hs] at hc
          exact absurd rfl hc
        · rw [if_neg hs]
          have hs' : w.mem (p + 1) = t.size := Decidable.not_not.mp hs
          by_cases h1 : 0 ≤ i ∧ i < w.mem (w.mem (p + 2) - 2)
          · rw [if_neg (by omega), if_pos h1, hs']
            exact ⟨rfl, fun q h => by cases h; rfl⟩
          · rw [if_pos (by omega), if_neg h1]
            exact ⟨rfl, fun q h => nomatch h⟩
  case map k t =>
    cases h
    refine ⟨[.getMap k t], _, rfl, rep_loc _ _ _, rfl, rfl, ?_⟩
    intro ops w i p st hc
    simp only [run_one, step, item] at hc ⊢
    by_cases h0 : p = 0
    · simp only [h0, if_true]
      exact ⟨rfl, fun q h => nomatch h⟩
    · simp only [h0, if_false]
      cases ops.mapItem k t w p i with
      | ok q => exact ⟨rfl, fun q h => by cases h; rfl⟩
      | error e => exact ⟨rfl, fun q h => nomatch h⟩
      | crash => exact ⟨rfl, fun q h => nomatch h⟩
  case str =>
    cases h
    refine ⟨[.getArray 1 (-1), .deref (.scalar .char)], _, rfl, ⟨rfl, rfl⟩, rfl, rfl, ?_⟩
    intro ops w i p st hc
    simp only [run, step, getArraySlot, item] at hc ⊢
    rw [if_neg (by omega)]
    generalize (if p = 0 then 0 else w.mem (p - 2)) = n at hc ⊢
    by_cases h1 : 0 ≤ i ∧ i < n
    · rw [if_neg (by omega), if_pos h1]
      simp only [Res.map_ok, Res.bind_ok, derefSlot, load]
      rw [show p + ((1 : Nat) : Int) * i = p + i by omega]
      split
      · exact ⟨rfl, fun q h => nomatch h⟩
      · exact ⟨rfl, fun q h => by cases h; rfl⟩
    · rw [if_pos (by omega), if_neg h1]
      exact ⟨rfl, fun q h => nomatch h⟩
  all_goals cases h

theorem index_sel (D : D) (c c' : Cat) (v : Bool) (e : Code σ) (hr : Rep D c v) (h : itemCat (through c.ty) = some c')
    (ho : odd c (.index e) = false) :
    ∃ (code : List (Instr σ)) (D' : Desig.D), genIndexSel D e = .ok (code, D') ∧ Rep D' c' false ∧ D'.isCall = false ∧ D'.isLit = false ∧
      Does code c c' (fun ops w d => selDen ops w d (.index e)) := by
  obtain ⟨c1, v1, h1, h2, h3⟩ := implicit_run c v (.index e) ho (fun h => nomatch h) (through_item h)
  obtain ⟨h4, h5⟩ := fetch_run c1 v1 (through c.ty) h2 (by rw [h]; rfl) (genImplicit (σ := σ) (repTy c v)).1
  obtain ⟨post, D', h6, h7, h8, h9, h10⟩ := item_run (through c.ty) c' h ((genImplicit (σ := σ) (repTy c v)).1 ++ fetchCode (repTy c1 v1)) e
  refine ⟨(genImplicit (σ := σ) (repTy c v)).1 ++ fetchCode (repTy c1 v1) ++ (.user e :: post), D', ?_, h7, h8, h9, ?_⟩
  · rw [genIndexSel, hr.ty]
    simp only [h1, h4, h6]
  · intro ops w d st hd hc
    obtain ⟨k1, k2⟩ := h3 ops w d st hd
    simp only [selDen] at hc ⊢
    rw [run_append, run_append, k1]
    cases hf : follow ops w d with
    | error e => exact ⟨rfl, fun q h => nomatch h⟩
    | crash => exact ⟨rfl, fun q h => nomatch h⟩
    | ok d1 =>
      obtain ⟨k3, k4⟩ := h5 ops w d1 st (k2 d1 hf)
      rw [hf] at hc
      simp only [Res.map_ok, Res.bind_ok, k3] at hc ⊢
      cases hg : fetch w d1 with
      | error e => exact ⟨rfl, fun q h => nomatch h⟩
      | crash => exact ⟨rfl, fun q h => nomatch h⟩
      | ok d2 =>
        have k5 := k4 d2 hg
        rw [hg] at hc
        simp only [Res.map_ok, Res.bind_ok, run, step] at hc ⊢
        cases he : e w with
        | error e => exact ⟨rfl, fun q h => nomatch h⟩
        | crash => exact ⟨rfl, fun q h => nomatch h⟩
        | ok r =>
          rw [he] at hc
          simp only [Res.map_ok, Res.bind_ok, k5] at hc ⊢
          exact h10 ops r.1 r.2 d2.slot st hc

def isDeref : Sel σ → Bool
  | .deref => true
  | _ => false

theorem sel_ok (D : D) (c c' : Cat) (v : Bool) (s : Sel σ) (hr : Rep D c v) (h : selCat c s = some c') (ho : odd c s = false) :
    ∃ (code : List (Instr σ)) (D' : Desig.D), genSel D s = .ok (code, D') ∧ Rep D' c' (isDeref s) ∧ D'.isCall = false ∧ D'.isLit = false ∧
      Does code c c' (fun ops w d => selDen ops w d s) := by
  cases s with
  | deref =>
    rw [selCat] at h
    cases hb : pointee c.ty with
    | none => rw [hb] at h; cases h
    | some b =>
      rw [hb] at h
      cases h
      obtain ⟨code, h1, h2⟩ := deref_sel (σ := σ) D c v b hr hb
      exact ⟨code, _, h1, ⟨by simp [repTy, isDeref], rfl⟩, rfl, rfl, h2⟩
  | index e => exact index_sel D c c' v e hr h ho
  | field x => exact field_sel D c c' v x hr h ho

/-- The flag `viaDeref` after the selectors. -/
def lastDeref (v : Bool) : List (Sel σ) → Bool
  | [] => v
  | s :: ss => lastDeref (isDeref s) ss

theorem sels_ok : ∀ (ss : List (Sel σ)) (pre : List (Instr σ)) (D : D) (c c' : Cat) (v : Bool), Rep D c v → selsCat c ss = some c' → selsEven c ss →
    ∃ (code : List (Instr σ)) (D' : Desig.D), genSels pre D ss = .ok (pre ++ code, D') ∧ Rep D' c' (lastDeref v ss) ∧
      (ss = [] → D' = D) ∧ (ss ≠ [] → D'.isCall = false ∧ D'.isLit = false) ∧ Does code c c' (fun ops w d => selsDen ops w d ss)
  | [], pre, D, c, c', v, hr, h, _ => by
    cases h
    refine ⟨[], D, by rw [List.append_nil]; rfl, hr, fun _ => rfl, fun h => absurd rfl h, ?_⟩
    intro ops w d st hd _
    exact ⟨rfl, fun q h => by cases h; exact hd⟩
  | s :: ss, pre, D, c, c', v, hr, h, hev => by
    rw [selsCat] at h
    cases hs : selCat c s with
    | none => rw [hs] at h; cases h
    | some c1 =>
      rw [hs] at h
      obtain ⟨code, D1, h1, h2, h3, h4, h5⟩ := sel_ok D c c1 v s hr hs hev.1
      obtain ⟨code', D', k1, k2, k3, k4, k5⟩ := sels_ok ss (pre ++ code) D1 c1 c' (isDeref s) h2 h (hev.2 c1 hs)
      refine ⟨code ++ code', D', ?_, k2, fun h => (nomatch h), fun _ => ?_, ?_⟩
      · rw [genSels, h1]
        simp only []
        rw [k1, List.append_assoc]
      · by_cases hss : ss = []
        · rw [k3 hss]
          exact ⟨h3, h4⟩
        · exact k4 hss
      · intro ops w d st hd hc
        simp only [selsDen] at hc ⊢
        cases hq : selDen ops w d s with
        | crash => rw [hq] at hc; exact absurd rfl hc
        | error e =>
          obtain ⟨m1, m2⟩ := h5 ops w d st hd (by simp only [hq]; exact fun h => nomatch h)
          rw [run_append, m1]
          simp only [hq]
          exact ⟨rfl, fun q h => nomatch h⟩
        | ok q =>
          obtain ⟨m1, m2⟩ := h5 ops w d st hd (by simp only [hq]; exact fun h => nomatch h)
          rw [run_append, m1]
          rw [hq] at hc
          simp only [hq, Res.map_ok, Res.bind_ok] at hc ⊢
          exact k5 ops q.1 q.2 st (m2 q hq) hc

/-- The main lemma: well-formed designators are compiled, and the code does what the designator denotes. -/
theorem designator_ok (d : Designator σ) (c : Cat) (h : cat d = some c) (hev : Even d) :
    ∃ (code : List (Instr σ)) (D : D), genDesignator d = .ok (code, D) ∧ Rep D c (lastDeref false d.sels) ∧
      (d.sels = [] → D = (genBase d.base).2) ∧ (d.sels ≠ [] → D.isCall = false ∧ D.isLit = false) ∧
      ∀ (ops : Ops σ) (w : World σ) (st : List Int), den ops d w ≠ .crash →
        run ops code ⟨w, st⟩ = (den ops d w).map (fun q => ⟨q.1, q.2.slot :: st⟩) ∧ ∀ q, den ops d w = .ok q → q.2.cat = c := by
  obtain ⟨code, D, h1, h2, h3, h4, h5⟩ := sels_ok d.sels (genBase d.base).1 (genBase d.base).2 (baseCat d.base) c false (rep_base d.base) h hev
  refine ⟨_, D, h1, h2, h3, h4, ?_⟩
  intro ops w st hc
  rw [run_append, run_base]
  simp only [den] at hc ⊢
  cases hb : baseDen d.base w with
  | crash => exact ⟨rfl, fun q h => nomatch h⟩
  | error e => exact ⟨rfl, fun q h => nomatch h⟩
  | ok q =>
    rw [hb] at hc
    simp only [Res.map_ok, Res.bind_ok] at hc ⊢
    exact h5 ops q.1 q.2 st (cat_base d.base w q hb) hc

end Umka.Desig
