import Verif.Warn.Spec
import Verif.Scope.Refine
/-! # Warnings: the state reached agrees with the text -/

namespace Umka.Warn

open Umka.Scope (Compat Env Ident Decl Name What Query Inv)
open Spec

/-! ## The text -/

theorem madeFrom_append (p : Nat × Nat) (a b : List Op) : madeFrom p (a ++ b) = madeFrom p a ++ madeFrom (a.foldl advance p) b := by
  induction a generalizing p with
  | nil => rfl
  | cons op a ih =>
    cases op with
    | scope op => cases op <;> first | exact ih _ | (exact congrArg (List.cons _) (ih _))
    | declareUsed d => exact congrArg (List.cons _) (ih _)
    | endModule => exact ih _

theorem endedFrom_append (p : Nat × Nat) (a b : List Op) : endedFrom p (a ++ b) = endedFrom p a ++ endedFrom (a.foldl advance p) b := by
  induction a generalizing p with
  | nil => rfl
  | cons op a ih =>
    cases op with
    | scope op => exact ih _
    | declareUsed d => exact ih _
    | endModule => exact congrArg (List.cons _) (ih _)

theorem made_snoc (ops : List Op) (op : Op) : made (ops ++ [op]) = made ops ++ madeFrom (position ops) [op] := madeFrom_append _ _ _

theorem ended_snoc (ops : List Op) (op : Op) : ended (ops ++ [op]) = ended ops ++ endedFrom (position ops) [op] := endedFrom_append _ _ _

theorem position_snoc (ops : List Op) (op : Op) : position (ops ++ [op]) = advance (position ops) op := by
  rw [position, List.foldl_append]; rfl

/-! ## The declarations alive -/

/-- The identifiers alive that are declared in the text. -/
def live (E : Env) : List Ident := E.idents.filter (·.name.isPlain)

def warning (i : Ident) : Warning := .unused (i.what == .module) i.tag

theorem fold_warn (L : List Ident) : ∀ s : State, (L.map (·.id)).Nodup →
    (L.foldl warnIfUnused s).env = s.env ∧
    (L.foldl warnIfUnused s).warns = s.warns ++ (L.filter fun i => i.name.isPlain && !s.used.contains i.id).map warning ∧
    ∀ k, k ∈ (L.foldl warnIfUnused s).used ↔ k ∈ s.used ∨ ∃ i ∈ L, i.name.isPlain = true ∧ i.id = k := by
  induction L with
  | nil => intro s _; exact ⟨rfl, (List.append_nil _).symm, fun k => ⟨.inl, fun h => h.elim id fun ⟨i, hi, _⟩ => (nomatch hi)⟩⟩
  | cons i L ih =>
    intro s hnd
    obtain ⟨hi, hnd⟩ := List.nodup_cons.mp hnd
    rw [List.foldl_cons]
    obtain ⟨h1, h2, h3⟩ := ih (warnIfUnused s i) hnd
    cases hn : i.name with
    | temp n =>
      have e : warnIfUnused s i = s := by rw [warnIfUnused, hn]
      rw [e] at h1 h2 h3
      rw [e]
      refine ⟨h1, ?_, fun k => ?_⟩
      · rw [h2, List.filter_cons, if_neg (by rw [hn]; simp [Name.isPlain])]
      · rw [h3]
        refine or_congr Iff.rfl ⟨fun ⟨j, hj, h⟩ => ⟨j, List.mem_cons_of_mem _ hj, h⟩, fun ⟨j, hj, hp, h⟩ => ?_⟩
        rcases List.mem_cons.mp hj with rfl | hj
        · rw [hn] at hp; cases hp
        · exact ⟨j, hj, hp, h⟩
    | plain n =>
      have hp : i.name.isPlain = true := by rw [hn]; rfl
      by_cases hu : s.used.contains i.id = true
      · have e : warnIfUnused s i = s := by rw [warnIfUnused, hn]; exact if_pos hu
        rw [e] at h1 h2 h3
        rw [e]
        refine ⟨h1, ?_, fun k => ?_⟩
        · rw [h2, List.filter_cons, if_neg (by rw [hu]; simp)]
        · rw [h3]
          constructor
          · rintro (h | ⟨j, hj, h⟩)
            · exact .inl h
            · exact .inr ⟨j, List.mem_cons_of_mem _ hj, h⟩
          · rintro (h | ⟨j, hj, hp, h⟩)
            · exact .inl h
            · rcases List.mem_cons.mp hj with rfl | hj
              · exact .inl (h ▸ List.contains_iff_mem.mp hu)
              · exact .inr ⟨j, hj, hp, h⟩
      · have e : warnIfUnused s i = { s with warns := s.warns ++ [warning i], used := i.id :: s.used } := by rw [warnIfUnused, hn]; exact if_neg hu
        rw [e] at h1 h2 h3
        rw [e]
        refine ⟨h1, ?_, fun k => ?_⟩
        · rw [h2, List.filter_cons, if_pos (by rw [hp]; simpa using hu)]
          dsimp only
          rw [List.map_cons, List.append_assoc, List.singleton_append]
          congr 3
          apply List.filter_congr
          intro j hj
          have : j.id ≠ i.id := fun e => hi (List.mem_map.mpr ⟨j, hj, e⟩)
          simp [this]
        · rw [h3]
          dsimp only
          rw [List.mem_cons]
          constructor
          · rintro ((h | h) | ⟨j, hj, h⟩)
            · exact .inr ⟨i, List.mem_cons_self .., hp, h.symm⟩
            · exact .inl h
            · exact .inr ⟨j, List.mem_cons_of_mem _ hj, h⟩
          · rintro (h | ⟨j, hj, hp, h⟩)
            · exact .inl (.inr h)
            · rcases List.mem_cons.mp hj with rfl | hj
              · exact .inl (.inl h.symm)
              · exact .inr ⟨j, hj, hp, h⟩

/-- What `declare` does with the identifiers. -/
theorem declare_cases {C : Compat} {E E' : Env} {d : Decl} (h : Scope.declare C E d = .ok E') :
    (E' = { E with idents := ⟨E.nextId, d.tag, d.name, d.what, d.rcv, E.module, E.cur, d.exported⟩ :: E.idents, nextId := E.nextId + 1 } ∧
      (∀ e, Scope.find C E ⟨E.module, d.name, d.rcv, d.what == .module⟩ = some e → e.block ≠ E.cur)) ∨
    (∃ e e', Scope.find C E ⟨E.module, d.name, d.rcv, d.what == .module⟩ = some e ∧ e.block = E.cur ∧ Scope.resolve C e d = some e' ∧
      E' = { E with idents := E.idents.map fun i => if i.id = e.id then e' else i }) := by
  unfold Scope.declare at h
  dsimp only at h
  split at h
  · rename_i hf
    split at h
    · cases h
    · injection h with h
      exact .inl ⟨h.symm, fun e he => by rw [hf] at he; cases he⟩
  · rename_i e hf
    split at h
    · rename_i hb
      split at h
      · rename_i e' hr
        injection h with h
        exact .inr ⟨e, e', hf, hb, hr, h.symm⟩
      · cases h
    · rename_i hb
      split at h
      · cases h
      · injection h with h
        exact .inl ⟨h.symm, fun e' he => by rw [hf] at he; cases he; exact hb⟩

theorem resolve_facts {C : Compat} {e e' : Ident} {d : Decl} (h : Scope.resolve C e d = some e') :
    (e.what = .forward ∧ e'.what = .type ∧ d.what = .type ∨ ∃ s s', e.what = .proto s ∧ (e'.what = .fn s' ∧ d.what = .fn s' ∨ e'.what = .proto s' ∧ d.what = .proto s')) ∧
    e'.id = e.id ∧ e'.tag = e.tag ∧ e'.name = e.name ∧ e'.module = e.module := by
  unfold Scope.resolve at h
  split at h
  · rename_i h1 h2
    cases h
    exact ⟨.inl ⟨h1, rfl, h2⟩, rfl, rfl, rfl, rfl⟩
  · rename_i s s' h1 h2
    split at h
    · cases h
      exact ⟨.inr ⟨s, s', h1, .inl ⟨rfl, h2⟩⟩, rfl, rfl, rfl, rfl⟩
    · cases h
  · rename_i s s' h1 h2
    split at h
    · cases h
      exact ⟨.inr ⟨s, s', h1, .inr ⟨rfl, h2⟩⟩, rfl, rfl, rfl, rfl⟩
    · cases h
  · cases h

theorem find_name {C : Compat} {E : Env} {q : Query} {e : Ident} (h : Scope.find C E q = some e) : e ∈ E.idents ∧ e.name = q.name := by
  refine ⟨List.mem_of_find?_eq_some h, ?_⟩
  have := List.find?_some h
  unfold Scope.Ident.matches at this
  simp only [Bool.and_eq_true, beq_iff_eq] at this
  exact this.1.1.2

theorem exempt_iff (mainSig : Nat → Bool) (m : Made) (hp : ∃ s, m.decl.name = .plain s) :
    Exempt mainSig m ↔ (m.told = true ∨ usedAtOnce mainSig m.module m.decl = true) := by
  obtain ⟨n, hn⟩ := hp
  unfold Exempt usedAtOnce
  simp only [Bool.or_eq_true, or_assoc, beq_iff_eq]
  refine or_congr Iff.rfl (or_congr Iff.rfl (or_congr Iff.rfl ?_))
  have h1 : m.decl.name = .plain "_" ↔ isPlaceholder m.decl.name = true := by
    rw [hn]
    simp only [isPlaceholder, beq_iff_eq, Name.plain.injEq]
    constructor
    · rintro rfl; rfl
    · intro h; exact String.ext h
  have h2 : (∃ s, m.decl.name = .plain s ∧ ∃ t, s.toList = '#' :: t) ↔ isHidden m.decl.name = true := by
    rw [hn]
    simp only [isHidden, beq_iff_eq]
    constructor
    · rintro ⟨s, e, t, ht⟩
      cases e
      rw [ht]; rfl
    · intro h
      refine ⟨n, rfl, ?_⟩
      cases hl : n.toList with
      | nil => rw [hl] at h; cases h
      | cons c t => rw [hl] at h; cases h; exact ⟨t, rfl⟩
  have h3 : (m.decl.name = .plain "main" ∧ m.decl.rcv = none ∧ ∃ s, mainSig s = true ∧ (m.decl.what = .fn s ∨ m.decl.what = .proto s)) ↔
      isMain mainSig m.decl.name m.decl.rcv m.decl.what = true := by
    cases m.decl.what <;> cases m.decl.rcv <;> simp [isMain, and_comm]
  rw [h1, h2, h3]
  constructor
  · rintro (h | h | h)
    · exact .inr (.inl h)
    · exact .inl h
    · exact .inr (.inr h)
  · rintro (h | h | h)
    · exact .inr (.inl h)
    · exact .inl h
    · exact .inr (.inr h)

end Umka.Warn
