import Verif.Conv.Accept
/-! # Type conversions: casts -/

namespace Umka.Conv

open Umka.Types (Graph Kind Node Field Equivalent WellFormed)
open Umka.Iface (Compatible Declared IsPtrTo equiv_iff equiv_false equivalent_cases equivalent_kind compat_compatible)

theorem array_proper {w : World} (ok : w.Ok) {t : w.T} (h : w.kind t = .dynarray) : Proper w (w.base t) :=
  ⟨(ok.arrays t h).2, fun hk => ok.env.types.noMethods t (fun hi => by rw [show (w.e.g.node t).kind = .dynarray from h] at hi; cases hi) _
    (by unfold Types.children; rw [show (w.e.g.node t).kind = .dynarray from h]; exact List.mem_singleton.mpr rfl) hk⟩

/-- The result of a cast agrees with the rules. -/
def Agree (w : World) (S T : w.T) (r : Conv w) : Prop :=
  ((∃ c, r = .ok (c, T)) ∧ Explicit w S T) ∨ (r = .error ∧ ¬ Explicit w S T)

/-- The check at the end of a cast (`umka_expr.c:1987-1991`, 323-327). -/
def World.check (w : World) (T : w.T) (r : Conv w) : Conv w :=
  r.bind fun r => if w.e.equiv T r.2 then .ok (r.1, T) else .error

theorem cast_eq (w : World) (const : Bool) (depth : Nat) (T S : w.T) : w.cast const depth T S = w.check T (w.explicit const depth T S) := rfl

theorem check_ok {w : World} {T : w.T} (c : Code w.e.g.n) : w.check T (.ok (c, T)) = .ok (c, T) :=
  if_pos (equiv_iff.mpr (Types.equivalent_refl _ T))

theorem Agree.ok {w : World} {S T : w.T} (c : Code w.e.g.n) (h : Explicit w S T) : Agree w S T (w.check T (.ok (c, T))) :=
  Or.inl ⟨⟨c, check_ok c⟩, h⟩

theorem Agree.ite {w : World} {S T : w.T} {c : Prop} [Decidable c] {a b : Conv w} (h1 : c → Agree w S T (w.check T a))
    (h2 : ¬ c → Agree w S T (w.check T b)) : Agree w S T (w.check T (if c then a else b)) := by
  split
  · next h => exact h1 h
  · next h => exact h2 h

theorem equivalent_base {w : World} (ok : w.Ok) {S T : w.T} (h : Equivalent w.e.g T S) (hk : w.kind T = .dynarray) :
    Equivalent w.e.g (w.base T) (w.base S) := by
  rcases equivalent_cases ok.env.types h with h | h
  · unfold World.base
    rw [h]
    exact Types.equivalent_refl _ _
  · have h2 := h.2
    rw [show (w.e.g.node T).kind = .dynarray from hk] at h2
    exact h2

theorem not_ordinal {w : World} {t : w.T} (h : (w.node t).ordinal = true) :
    (w.kind t).integerOrEnum = true ∨ w.kind t = .char ∨ w.kind t = .bool := by
  unfold World.node Types.Node.ordinal at h
  simp only [Bool.or_eq_true, beq_iff_eq, or_assoc] at h
  exact h

theorem ordinal_not {w : World} {t : w.T} {k : Kind} (hk : w.kind t = k) (h : (w.node t).ordinal = true)
    (hn : k ∈ [.ptr, .weakptr, .str, .map, .dynarray, .interface, .closure, .fiber, .array, .struct]) : False := by
  have := not_ordinal h
  rw [hk] at this
  clear hk h
  cases k <;> simp [Types.Kind.integerOrEnum] at hn this

theorem cast_cases {w : World} (ok : w.Ok) : ∀ (k : Nat) (S T : w.T), NoByteEnums w S T → (w.kind (w.itemType k S) ≠ .dynarray ∨ w.kind (w.itemType k T) ≠ .dynarray) →
    Proper w S → w.exprList T = false → ∀ depth, k < depth → Agree w S T (w.cast false depth T S)
  | k, S, T, nb, hk, hS, hT, 0, hd => absurd hd (Nat.not_lt_zero _)
  | k, S, T, nb, hk, hS, hT, depth + 1, hd => by
    rw [cast_eq, World.explicit]
    cases implicitEx_cases ok depth false false (T := T) hS with
    | conv c h hi =>
      rw [show (false || false) = false from rfl] at hi
      rw [h]
      change Agree w S T (w.check T (if _ then _ else _))
      rw [if_pos (by simp)]
      refine .ok c ?_
      rcases hi with hi | ⟨_, hi⟩
      · exact .implicit hi
      · exact .ordinal (confused_ordinal hi).1 (confused_ordinal hi).2
    | refuse h hki hi =>
      rw [h]
      refine Or.inr ⟨rfl, fun he => ?_⟩
      cases he with
      | implicit h => exact hi h
      | sameAs h =>
        obtain ⟨h1, h2, h3, h4⟩ := ok.sameAs S T h
        refine hi (.interfaces hki (h1.trans hki) fun f hf => ⟨f, ?_, rfl, compatible_refl w _⟩)
        rw [h3]
        exact List.mem_of_mem_drop hf
      | ordinal _ h => exact ordinal_not hki h (by simp)
      | _ => simp_all
    | list _ _ h2 =>
      rw [list_expr h2] at hT
      cases hT
    | skip h hi hconf =>
      rw [h]
      change Agree w S T (w.check T (if _ then _ else _))
      refine .ite (fun h => ?_) (fun n1 => ?_)
      · simp only [beq_iff_eq] at h
        exact .ok _ (.sameAs h.symm)
      refine .ite (fun h => ?_) (fun n2 => ?_)
      · simp only [Bool.or_eq_true, Bool.and_eq_true] at h
        rcases h with h | h
        · exact .ok _ (.ordinal h.1 h.2)
        · exact .ok _ (.implicit (.compatible (Or.inr (Or.inr h.symm))))
      refine .ite (fun h => ?_) (fun n3 => ?_)
      · simp only [Bool.and_eq_true, beq_iff_eq, explicitBase_iff ok] at h
        exact .ok _ (.pointers h.1.2 h.1.1 h.2.1 h.2.2.2 h.2.2.1)
      refine .ite (fun h => ?_) (fun n4 => ?_)
      · simp only [Bool.and_eq_true, beq_iff_eq, bne_iff_ne] at h
        rw [ite_const]
        exact .ite (fun _ => .ok _ (.interface h.1 h.2)) (fun _ => .ok _ (.interface h.1 h.2))
      refine .ite (fun h => ?_) (fun n5 => ?_)
      · simp only [Bool.and_eq_true, beq_iff_eq] at h
        rw [ite_const]
        exact .ok _ (.bytesStr h.1.1 h.1.2 (nb 0 S (by simp [World.itemType]) h.1.1 h.1.2) h.2)
      refine .ite (fun h => ?_) (fun n6 => ?_)
      · simp only [Bool.and_eq_true, beq_iff_eq] at h
        exact .ok _ (.strBytes h.1.1 h.1.2 h.2 (nb 0 T (by simp [World.itemType]) h.1.2 h.2))
      refine .ite (fun h => ?_) (fun n7 => ?_)
      · simp only [Bool.and_eq_true, beq_iff_eq] at h
        rw [ite_const]
        cases k with
        | zero => exact absurd h (fun h => hk.elim (fun x => x h.1) (fun x => x h.2))
        | succ k =>
          have ha := ok.arrays S h.1
          have hb := ok.arrays T h.2
          have ih := cast_cases ok k (w.base S) (w.base T) (fun j t ht => nb (j + 1) t ht) hk (array_proper ok h.1) hb.1 depth (by omega)
          rw [cast_eq] at ih
          have hrel : Explicit w S T → Explicit w (w.base S) (w.base T) := by
            intro he
            cases he with
            | implicit hx =>
              rcases not_compatible ok (hi hx) with ⟨hx, _⟩ | ⟨hx, _⟩ | ⟨hx, _⟩
              · exact .implicit (.compatible (Or.inl (equivalent_base ok hx h.2)))
              · have := integer_kind hx; rw [h.2] at this; cases this
              · have := real_kind hx; rw [h.2] at this; rcases this with h | h <;> cases h
            | sameAs hx =>
              rw [(ok.sameAs S T hx).2.1]
              exact .implicit (.compatible (compatible_refl w _))
            | ordinal _ hx => exact absurd (ordinal_not h.2 hx (by simp)) id
            | items _ _ hx => exact hx
            | _ => simp_all
          cases hx : w.explicit false depth (w.base T) (w.base S) with
          | ok r =>
            rw [hx] at ih
            unfold World.check Out.bind at ih
            dsimp only at ih
            change Agree w S T (w.check T (if _ then _ else _))
            by_cases he : w.e.equiv (w.base T) r.2 = true
            · rw [if_pos he] at ih ⊢
              refine .ok _ (.items h.1 h.2 ?_)
              rcases ih with ih | ih
              · exact ih.2
              · cases ih.1
            · rw [if_neg he] at ih ⊢
              refine Or.inr ⟨rfl, fun hy => ?_⟩
              rcases ih with ⟨⟨c, ih⟩, _⟩ | ih
              · cases ih
              · exact ih.2 (hrel hy)
          | error =>
            rw [hx] at ih
            refine Or.inr ⟨rfl, fun hy => ?_⟩
            rcases ih with ⟨⟨c, ih⟩, _⟩ | ih
            · cases ih
            · exact ih.2 (hrel hy)
          | endless =>
            rw [hx] at ih
            rcases ih with ⟨⟨c, ih⟩, _⟩ | ih
            · cases ih
            · cases ih.1
      by_cases he : Equivalent w.e.g T S
      · refine Or.inl ⟨⟨.skip, if_pos (equiv_iff.mpr he)⟩, .implicit (.compatible (Or.inl he))⟩
      · refine Or.inr ⟨if_neg (fun h => he (equiv_iff.mp h)), fun hx => ?_⟩
        cases hx with
        | implicit hx =>
          rcases not_compatible ok (hi hx) with ⟨hx, _⟩ | hx | hx
          · exact he hx
          · have h1 : (w.node S).ordinal = true := by
              unfold World.node Types.Node.ordinal
              rw [show (w.e.g.node S).kind.integerOrEnum = true from integer_kind hx.2]; rfl
            have h2 : (w.node T).ordinal = true := by
              unfold World.node Types.Node.ordinal
              rw [show (w.e.g.node T).kind.integerOrEnum = true from integer_kind hx.1]; rfl
            exact n2 (by simp [h1, h2])
          · exact n2 (by simp [hx.1, hx.2])
        | sameAs hx => exact n1 (by simp [hx])
        | ordinal h1 h2 => exact n2 (by simp [h1, h2])
        | pointers h1 h2 h3 h4 h5 => exact n3 (by simp [h1, h2, (explicitBase_iff ok).mpr ⟨h3, h5, h4⟩])
        | interface h1 h2 => exact n4 (by simp [h1, h2])
        | bytesStr h1 h2 h3 h4 => exact n5 (by simp [h1, h2, h4])
        | strBytes h1 h2 h3 h4 => exact n6 (by simp [h1, h2, h3])
        | items h1 h2 => exact n7 (by simp [h1, h2])

end Umka.Conv
