import Verif.Iface.Lemmas
import Verif.Conv.Spec
/-! # Type conversions: lemmas -/

namespace Umka.Conv

open Umka.Types (Graph Kind Node Field Equivalent WellFormed)
open Umka.Iface (Compatible Declared IsPtrTo equiv_iff equiv_false equivalent_cases equivalent_kind compat_compatible)

theorem compat_iff {w : World} {l r : w.T} : w.e.compat l r = true ↔ Compatible w.e.g l r := by
  refine ⟨compat_compatible, fun h => ?_⟩
  have hd := Types.Props.C39_decides w.e.g (w.e.g.n * w.e.g.n + 1) (Nat.lt_succ_self _) l r
  unfold Iface.Env.compat Types.compatible
  rcases Classical.em (Equivalent w.e.g l r) with he | he
  · rw [hd.1.mpr he]; rfl
  · rw [hd.2.mpr he]
    rcases h with h | h | h
    · exact absurd h he
    · simp [h.1, h.2]
    · simp [h.1, h.2]

theorem compatible_refl (w : World) (t : w.T) : Compatible w.e.g t t := Or.inl (Types.equivalent_refl _ t)

theorem ite_const {w : World} (r : Conv w) : w.noConst false r = r := rfl

/-! ## Methods -/

theorem findMethod_isSome {w : World} (ok : w.Ok) {q : w.T} (hq : w.kind q = .ptr) (name : String) {m : Iface.Method w.e.g.n} :
    Iface.findMethod w.e (Iface.rcvModule w.e (w.base q)) name q = some m ↔ Declared w.e name (w.base q) m := by
  have hsome : ∀ {m}, Iface.findMethod w.e (Iface.rcvModule w.e (w.base q)) name q = some m → Declared w.e name (w.base q) m := by
    intro m h
    unfold Iface.findMethod at h
    have h1 := List.find?_some h
    have h2 := List.mem_of_find?_eq_some h
    simp only [Bool.and_eq_true, Bool.or_eq_true, beq_iff_eq] at h1
    obtain ⟨⟨h3, h4⟩, ⟨h5, h6⟩, h7⟩ := h1
    have hu := ok.noUniverse m h2
    rcases h4 with ⟨h4, _⟩ | ⟨h4, h8⟩
    · exact absurd h4 hu
    · unfold Iface.rcvModule at h4 h8
      cases hi : (w.e.g.node (w.base q)).typeIdent with
      | none => rw [hi] at h4; cases h4
      | some id =>
        rw [hi] at h4 h8
        simp only [Option.map_some, Option.some.injEq] at h4 h8
        refine ⟨h2, h3, h5, h7, id, hi, Or.inr h4, Or.inr ?_⟩
        rcases h8 with h8 | h8
        · exact Or.inl (h4.trans h8.symm)
        · exact Or.inr h8
  refine ⟨hsome, fun h => ?_⟩
  cases hf : Iface.findMethod w.e (Iface.rcvModule w.e (w.base q)) name q with
  | some m' => rw [ok.methods name (w.base q) m m' h (hsome hf)]
  | none =>
    exfalso
    unfold Iface.findMethod at hf
    obtain ⟨h1, h2, h3, h4, id, h5, h6, h7⟩ := h
    have := List.find?_eq_none.mp hf m h1
    apply this
    have hu := ok.noUniverse m h1
    have hm : m.module = w.e.typeModule id := h6.resolve_left hu
    have hv := h7.resolve_left hu
    unfold Iface.rcvModule
    rw [h5]
    have hk : w.e.kind q = .ptr := hq
    have h4' : (w.e.g.node (w.e.g.node m.rcv).base).typeIdent = (w.e.g.node (w.e.g.node q).base).typeIdent := h4
    have h8 : w.e.module = w.e.typeModule id ∨ m.exported = true := by
      rcases hv with hv | hv
      · exact Or.inl (hv.symm.trans hm)
      · exact Or.inr hv
    simp [h2, h3, hk, h4', hm, h8]

theorem methodEntry_isSome {w : World} (ok : w.Ok) {q : w.T} (hq : w.kind q = .ptr) (f : Field w.e.g.n) :
    (Iface.methodEntry w.e q f).isSome = true ↔
      w.kind (w.base q) = .null ∨ ∃ m, Declared w.e f.name (w.base q) m ∧ Compatible w.e.g f.type m.type := by
  unfold Iface.methodEntry
  dsimp only
  by_cases hk : w.e.kind (w.e.g.node q).base = .null
  · rw [if_pos hk]
    exact ⟨fun _ => Or.inl hk, fun _ => rfl⟩
  · rw [if_neg hk]
    have hf := @findMethod_isSome w ok q hq f.name
    have hk' : ¬ w.kind (w.base q) = .null := hk
    have hb : (w.e.g.node q).base = w.base q := rfl
    rw [hb]
    cases h : Iface.findMethod w.e (Iface.rcvModule w.e (w.base q)) f.name q with
    | none =>
      simp only [Option.isSome_none, Bool.false_eq_true, false_iff]
      rintro (h1 | ⟨m, h1, _⟩)
      · exact hk' h1
      · rw [hf.mpr h1] at h; cases h
    | some m =>
      have hd := hf.mp h
      dsimp only
      by_cases hc : w.e.compat f.type m.type = true
      · rw [if_pos hc]
        exact ⟨fun _ => Or.inr ⟨m, hd, compat_iff.mp hc⟩, fun _ => rfl⟩
      · rw [if_neg hc]
        simp only [Option.isSome_none, Bool.false_eq_true, false_iff]
        rintro (h1 | ⟨m', h1, h2⟩)
        · exact hk' h1
        · rw [ok.methods _ _ m' m h1 hd] at h2
          exact hc (compat_iff.mpr h2)

theorem methods_all {w : World} (ok : w.Ok) {q : w.T} (hq : w.kind q = .ptr) (T : w.T) :
    (((w.node T).fields.drop 2).all fun f => (Iface.methodEntry w.e q f).isSome) = true ↔
      (w.kind (w.base q) = .null ∨ Implements w (w.base q) T) := by
  rw [List.all_eq_true]
  constructor
  · intro h
    by_cases hk : w.kind (w.base q) = .null
    · exact Or.inl hk
    · exact Or.inr fun f hf => ((methodEntry_isSome ok hq f).mp (h f hf)).resolve_left hk
  · rintro (h | h) f hf
    · exact (methodEntry_isSome ok hq f).mpr (Or.inl h)
    · exact (methodEntry_isSome ok hq f).mpr (Or.inr (h f hf))

theorem findField_none {n : Nat} {name : String} : ∀ {fs : List (Field n)} {i : Nat}, Iface.findField name i fs = none → ∀ f ∈ fs, f.name ≠ name
  | [], _, _, f, hf => by cases hf
  | g :: fs, i, h, f, hf => by
    unfold Iface.findField at h
    split at h
    · cases h
    · next hn =>
      rcases List.mem_cons.mp hf with rfl | hf
      · exact hn
      · exact findField_none h f hf

theorem mem_unique {n : Nat} : ∀ {fs : List (Field n)}, (fs.map (·.name)).Nodup → ∀ {f g : Field n}, f ∈ fs → g ∈ fs → f.name = g.name → f = g
  | [], _, f, _, hf, _, _ => by cases hf
  | x :: fs, hn, f, g, hf, hg, h => by
    simp only [List.map_cons, List.nodup_cons] at hn
    rcases List.mem_cons.mp hf with hf' | hf' <;> rcases List.mem_cons.mp hg with hg' | hg'
    · rw [hf', hg']
    · exact absurd (List.mem_map.mpr ⟨g, hg', by rw [← h, hf']⟩) hn.1
    · exact absurd (List.mem_map.mpr ⟨f, hf', by rw [h, hg']⟩) hn.1
    · exact mem_unique hn.2 hf' hg' h

theorem declares_all {w : World} (ok : w.Ok) {S : w.T} (hS : w.kind S = .interface) (T : w.T) :
    (((w.node T).fields.drop 2).all (w.declares S)) = true ↔ Declares w S T := by
  rw [List.all_eq_true]
  unfold Declares World.declares
  constructor
  · intro h f hf
    have h1 := h f hf
    cases hq : Iface.findField f.name 0 (w.node S).fields with
    | none => rw [hq] at h1; cases h1
    | some q =>
      rw [hq] at h1
      obtain ⟨_, h3, h4⟩ := Iface.findField_spec hq
      exact ⟨q.2, List.mem_of_getElem? h3, h4, compat_iff.mp h1⟩
  · intro h f hf
    obtain ⟨f', h1, h2, h3⟩ := h f hf
    cases hq : Iface.findField f.name 0 (w.node S).fields with
    | none => exact absurd h2 (findField_none hq f' h1)
    | some q =>
      obtain ⟨_, h4, h5⟩ := Iface.findField_spec hq
      have : q.2 = f' := mem_unique (ok.env.names S hS) (List.mem_of_getElem? h4) h1 (h5.trans h2.symm)
      dsimp only
      rw [this]
      exact compat_iff.mpr h3

/-! ## The implicit conversion -/

/-- What the chain of conditions of `doImplicitTypeConvEx` comes to. -/
inductive Cases (w : World) (depth : Nat) (o : Bool) (S T : w.T) (r : Conv w) : Prop
  | conv (c : Code w.e.g.n) : r = .ok (c, T) → Implicit w o S T ∨ (o = false ∧ Confused w S T) → Cases w depth o S T r
  | refuse : r = .error → w.kind T = .interface → ¬ Implicit w o S T → Cases w depth o S T r
  | skip : r = .ok (.skip, S) → (Implicit w o S T → Compatible w.e.g T S) → ¬ Confused w S T ∨ o = true → Cases w depth o S T r
  | list : o = false → w.exprListStruct S = true → w.exprListStruct T = true → ¬ Equivalent w.e.g T S →
    (w.node T).fields.length = (w.node S).fields.length →
    r = (w.convFields (w.implicitEx false depth false false) (w.node T).fields (w.node S).fields).bind (fun cs => .ok (.fields cs, T)) →
    Cases w depth o S T r

theorem signed_integerOrEnum {k : Kind} (h : signed k = true) : k.integerOrEnum = true := by
  cases k <;> first | rfl | cases h

theorem uint_case {w : World} {S T : w.T} (h : (w.kind T = .uint ∧ signed (w.kind S) = true) ∨ (signed (w.kind T) = true ∧ w.kind S = .uint)) :
    Implicit w false S T ∨ Confused w S T := by
  by_cases hc : (w.node S).enum = true ∨ (w.node T).enum = true
  · exact Or.inr ⟨hc, h⟩
  · left
    refine .compatible (Or.inr (Or.inl ?_))
    have hT : (w.e.g.node T).kind.integerOrEnum = true := by
      rcases h with ⟨h, _⟩ | ⟨h, _⟩
      · have h' : (w.e.g.node T).kind = .uint := h
        rw [h']; rfl
      · exact signed_integerOrEnum h
    have hS : (w.e.g.node S).kind.integerOrEnum = true := by
      rcases h with ⟨_, h⟩ | ⟨_, h⟩
      · exact signed_integerOrEnum h
      · have h' : (w.e.g.node S).kind = .uint := h
        rw [h']; rfl
    have h1 : ¬ (w.node S).enum = true := fun x => hc (Or.inl x)
    have h2 : ¬ (w.node T).enum = true := fun x => hc (Or.inr x)
    unfold World.node Node.enum at h1 h2
    unfold Types.Node.integer
    rw [hS] at h1
    rw [hT] at h2
    rw [hS, hT]
    simpa using And.intro h2 h1

theorem not_compatible {w : World} (ok : w.Ok) {S T : w.T} (h : Compatible w.e.g T S) :
    Equivalent w.e.g T S ∧ w.kind T = w.kind S ∨
    ((w.node T).integer = true ∧ (w.node S).integer = true) ∨ ((w.node T).real = true ∧ (w.node S).real = true) := by
  rcases h with h | h
  · exact Or.inl ⟨h, equivalent_kind ok.env.types h⟩
  · exact Or.inr h

theorem integer_kind {w : World} {t : w.T} (h : (w.node t).integer = true) : (w.kind t).integerOrEnum = true := by
  unfold World.node Types.Node.integer at h
  simp only [Bool.and_eq_true] at h
  exact h.1

theorem real_kind {w : World} {t : w.T} (h : (w.node t).real = true) : w.kind t = .real32 ∨ w.kind t = .real := by
  unfold World.node Types.Node.real at h
  simp only [Bool.or_eq_true, beq_iff_eq] at h
  exact h

theorem Cases.ite {w : World} {depth : Nat} {o : Bool} {S T : w.T} {c : Prop} [Decidable c] {a b : Conv w} (h1 : c → Cases w depth o S T a)
    (h2 : ¬ c → Cases w depth o S T b) : Cases w depth o S T (if c then a else b) := by
  split
  · next h => exact h1 h
  · next h => exact h2 h

theorem implicitEx_cases {w : World} (ok : w.Ok) (depth : Nat) (lhs rhs : Bool) {S T : w.T} (hSp : Proper w S) :
    Cases w depth (lhs || rhs) S T (w.implicitEx false (depth + 1) lhs rhs T S) := by
  rw [World.implicitEx]
  generalize ho : (lhs || rhs) = o
  refine .ite (fun h => ?_) (fun n1 => ?_)
  · simp only [Bool.and_eq_true, Bool.or_eq_true, beq_iff_eq, Bool.not_eq_true'] at h
    obtain ⟨ho', h⟩ := h
    rw [ho']
    exact .conv _ rfl ((uint_case h).imp_right fun h => ⟨rfl, h⟩)
  refine .ite (fun h => ?_) (fun n2 => ?_)
  · simp only [Bool.and_eq_true] at h
    exact .conv _ rfl (Or.inl (.intReal h.2 h.1))
  refine .ite (fun h => ?_) (fun n3 => ?_)
  · simp only [Bool.and_eq_true, beq_iff_eq] at h
    exact .conv _ rfl (Or.inl (.charStr h.2 h.1))
  refine .ite (fun h => ?_) (fun n4 => ?_)
  · simp only [Bool.and_eq_true, beq_iff_eq] at h
    exact .conv _ rfl (Or.inl (.charsStr h.1.2 h.2 h.1.1))
  refine .ite (fun h => ?_) (fun n5 => ?_)
  · simp only [Bool.and_eq_true, beq_iff_eq, Bool.not_eq_true'] at h
    obtain ⟨⟨⟨ho', h1⟩, h2⟩, h3⟩ := h
    rw [ho']
    exact .conv _ rfl (Or.inl (.strChars h3 h1 h2))
  refine .ite (fun h => ?_) (fun n6 => ?_)
  · simp only [Bool.and_eq_true, beq_iff_eq, equiv_iff] at h
    exact .conv _ rfl (Or.inl (.dynArray h.1.2 h.1.1 h.2))
  refine .ite (fun h => ?_) (fun n7 => ?_)
  · simp only [Bool.and_eq_true, beq_iff_eq, Bool.not_eq_true', equiv_iff] at h
    obtain ⟨⟨⟨ho', h1⟩, h2⟩, h3⟩ := h
    rw [ho']
    exact .conv _ rfl (Or.inl (.arrayDyn h2 h1 h3))
  refine .ite (fun hT => ?_) (fun n8 => ?_)
  · simp only [beq_iff_eq] at hT
    have hconf : ¬ Confused w S T := by
      rintro ⟨_, h | h⟩
      · rw [hT] at h; cases h.1
      · rw [hT] at h; cases h.1
    have hlist : ¬ w.exprListStruct T = true := by
      unfold World.exprListStruct
      rw [hT]
      simp
    have hcomp : Compatible w.e.g T S → Equivalent w.e.g T S ∧ w.kind S = .interface := by
      intro h
      rcases not_compatible ok h with ⟨h, hk⟩ | ⟨h, _⟩ | ⟨h, _⟩
      · exact ⟨h, hk.symm.trans hT⟩
      · have := integer_kind h; rw [hT] at this; cases this
      · have := real_kind h; rw [hT] at this; rcases this with h | h <;> cases h
    refine .ite (fun hS => ?_) (fun hS => ?_)
    · simp only [beq_iff_eq] at hS
      refine .ite (fun he => ?_) (fun he => ?_)
      · simp only [Bool.not_eq_true', ← Bool.not_eq_true, equiv_iff] at he
        unfold World.interfaceToInterface
        rw [ite_const]
        refine .ite (fun hd => ?_) (fun hd => ?_)
        · exact .conv _ rfl (Or.inl (.interfaces hT hS ((declares_all ok hS T).mp hd)))
        · refine .refuse rfl hT fun hi => ?_
          rw [declares_all ok hS T] at hd
          cases hi with
          | compatible h => exact he (hcomp h).1
          | interfaces _ _ h => exact hd h
          | valueInterface _ h => simp [hS] at h
          | lists _ h => exact hlist h
          | _ => simp_all
      · simp only [Bool.not_eq_true', ← Bool.not_eq_true, equiv_iff, Classical.not_not] at he
        exact .skip rfl (fun _ => Or.inl he) (Or.inl hconf)
    · simp only [beq_iff_eq] at hS
      refine .ite (fun hP => ?_) (fun hP => ?_)
      · simp only [beq_iff_eq] at hP
        refine .ite (fun hb => ?_) (fun hb => ?_)
        · simp only [beq_iff_eq] at hb
          refine .refuse rfl hT fun hi => ?_
          cases hi with
          | compatible h => exact hS (hcomp h).2
          | valueInterface _ h => simp [hP] at h
          | lists _ h => exact hlist h
          | _ => simp_all
        · simp only [beq_iff_eq] at hb
          unfold World.ptrToInterface
          rw [if_neg (by simp)]
          refine .ite (fun hm => ?_) (fun hm => ?_)
          · exact .conv _ rfl (Or.inl (.ptrInterface hT hP hb ((methods_all ok hP T).mp hm)))
          · refine .refuse rfl hT fun hi => ?_
            rw [methods_all ok hP T] at hm
            cases hi with
            | compatible h => exact hS (hcomp h).2
            | ptrInterface _ _ _ h => exact hm h
            | valueInterface _ h => simp [hP] at h
            | lists _ h => exact hlist h
            | _ => simp_all
      · simp only [beq_iff_eq] at hP
        refine .ite (fun hv => ?_) (fun hv => ?_)
        · simp only [Bool.and_eq_true, bne_iff_ne, ne_eq, Bool.not_eq_true'] at hv
          have hp := ok.ptrTo S hSp (by simp [hP, hS, hv.1])
          have hpk : w.kind (w.ptrTo S) = .ptr := hp.1
          have hpb : w.base (w.ptrTo S) = S := hp.2.1
          unfold World.valueToInterface World.ptrToInterface
          rw [ite_const, if_neg (by simp)]
          have hm := methods_all ok hpk T
          rw [hpb] at hm
          by_cases h : (((w.node T).fields.drop 2).all fun f => (Iface.methodEntry w.e (w.ptrTo S) f).isSome) = true
          · rw [if_pos h]
            exact .conv _ rfl (Or.inl (.valueInterface hT (by simp [hP, hS, hv.1]) hv.2 ((hm.mp h).resolve_left hSp.1)))
          · rw [if_neg h]
            refine .refuse rfl hT fun hi => ?_
            rw [hm] at h
            cases hi with
            | compatible h' => exact hS (hcomp h').2
            | valueInterface _ _ _ h' => exact h (Or.inr h')
            | lists _ h => exact hlist h
            | _ => simp_all
        · refine .skip rfl (fun hi => ?_) (Or.inl hconf)
          cases hi with
          | compatible h => exact h
          | valueInterface _ h1 h2 => exact absurd (by simp [h2]; exact fun h => h1 (by simp [h])) hv
          | lists _ h => exact absurd h hlist
          | _ => simp_all
  refine .ite (fun h => ?_) (fun n9 => ?_)
  · simp only [Bool.and_eq_true, beq_iff_eq, World.implicitBase, Bool.or_eq_true] at h
    exact .conv _ rfl (Or.inl (.pointers h.1.2 h.1.1 h.2.symm))
  refine .ite (fun h => ?_) (fun n10 => ?_)
  · simp only [Bool.and_eq_true, beq_iff_eq, Bool.not_eq_true', Bool.or_eq_true, equiv_iff] at h
    obtain ⟨⟨⟨ho', h1⟩, h2⟩, h3⟩ := h
    rw [ho']
    exact .conv _ rfl (Or.inl (.weak h2 h1 h3))
  refine .ite (fun h => ?_) (fun n11 => ?_)
  · simp only [Bool.and_eq_true, beq_iff_eq, Bool.or_eq_true, equiv_iff] at h
    exact .conv _ rfl (Or.inl (.strong h.1.2 h.1.1 h.2))
  refine .ite (fun h => ?_) (fun n12 => ?_)
  · simp only [Bool.and_eq_true, beq_iff_eq] at h
    obtain ⟨⟨h1, h2⟩, h3⟩ := h
    cases hf : (w.node T).fields with
    | nil => rw [hf] at h3; cases h3
    | cons f fs =>
      rw [hf] at h3
      exact .conv _ rfl (Or.inl (.closure h2 h1 hf (equiv_iff.mp h3)))
  refine .ite (fun h => ?_) (fun n13 => ?_)
  · simp only [Bool.and_eq_true, beq_iff_eq, Bool.not_eq_true', ← Bool.not_eq_true, equiv_iff] at h
    obtain ⟨⟨⟨⟨ho', h1⟩, h2⟩, h3⟩, h4⟩ := h
    exact .list (by simpa using ho') h2 h1 h3 h4 rfl
  have hb : ∀ {b : Bool}, b = false → (!b) = true := by simp
  refine .skip rfl (fun hi => ?_) ?_
  · cases hi with
    | compatible h => exact h
    | intReal h1 h2 => exact absurd (by simp [h1, h2]) n2
    | charStr h1 h2 => exact absurd (by simp [h1, h2]) n3
    | charsStr h1 h2 h3 => exact absurd (by simp [h1, h2, h3]) n4
    | strChars h1 h2 h3 => exact absurd (by simp [h1, h2, h3]) n5
    | dynArray h1 h2 h3 => exact absurd (by simp [h1, h2, equiv_iff.mpr h3]) n6
    | arrayDyn h1 h2 h3 => exact absurd (by simp [h1, h2, equiv_iff.mpr h3]) n7
    | valueInterface h1 => exact absurd (by simp [h1]) n8
    | ptrInterface h1 => exact absurd (by simp [h1]) n8
    | interfaces h1 => exact absurd (by simp [h1]) n8
    | pointers h1 h2 h3 => exact absurd (by simp [h1, h2, World.implicitBase]; exact h3.symm) n9
    | weak h1 h2 h3 =>
      rcases h3 with h3 | h3
      · exact absurd (by simp [h1, h2, equiv_iff.mpr h3]) n10
      · exact absurd (by simp [h1, h2, h3]) n10
    | strong h1 h2 h3 =>
      rcases h3 with h3 | h3
      · exact absurd (by simp [h1, h2, equiv_iff.mpr h3]) n11
      · exact absurd (by simp [h1, h2, h3]) n11
    | closure h1 h2 h3 h4 => exact absurd (by simp [h1, h2, h3, equiv_iff.mpr h4]) n12
    | lists h1 h2 h3 h4 =>
      by_cases he : Equivalent w.e.g T S
      · exact Or.inl he
      · exact absurd (by simp [h1, h2, h3, equiv_false he]) n13
  · cases o with
    | true => exact Or.inr rfl
    | false =>
      refine Or.inl fun h => n1 ?_
      rcases h.2 with ⟨h1, h2⟩ | ⟨h1, h2⟩ <;> simp [h1, h2]

end Umka.Conv
