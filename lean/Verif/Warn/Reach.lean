import Verif.Warn.Lemmas
/-! # Warnings: the invariant -/

namespace Umka.Warn

open Umka.Scope (Compat Env Ident Decl Name What Query Inv)
open Spec

/-- A declaration alive, and the declaration in the text. -/
structure Alive (mainSig : Nat → Bool) (ops : List Op) (outs : List Scope.Out) (s : State) (i : Ident) (m : Made) : Prop where
  mem : m ∈ made ops
  tag : m.decl.tag = i.tag
  name : m.decl.name = i.name
  module : m.module = i.module
  kind : (i.what == .module) = (m.decl.what == .module)
  forward : i.what = .forward → m.decl.what = .forward
  proto : ∀ k, i.what = .proto k → ∃ k', m.decl.what = .proto k'
  used : i.id ∈ s.used ↔ (Exempt mainSig m ∨ Referred outs i.tag ∨ ∃ b, Warning.unused b i.tag ∈ s.warns)
  warned : (∃ b, Warning.unused b i.tag ∈ s.warns) → i.module ∈ ended ops

/-- The warnings about a declaration are as they should be. -/
def Correct (mainSig : Nat → Bool) (outs : List Scope.Out) (ws : List Warning) (m : Made) : Prop :=
  ∀ b, Warning.unused b m.decl.tag ∈ ws ↔ (b = (m.decl.what == .module) ∧ ¬ Exempt mainSig m ∧ ¬ Referred outs m.decl.tag)

structure K (mainSig : Nat → Bool) (ops : List Op) (outs : List Scope.Out) (s : State) : Prop where
  inv : ∃ S, Inv s.env S
  pos : position ops = (s.env.module, s.env.blocks.length)
  decl : ∀ i ∈ live s.env, ∃ m, Alive mainSig ops outs s i m
  tags : ((live s.env).map (·.tag)).Nodup
  old : ∀ m ∈ made ops, (∃ i ∈ live s.env, i.tag = m.decl.tag) ∨ (m.module ∈ ended ops ∨ Correct mainSig outs s.warns m) ∨ ¬ New ops m
  refs : ∀ t, Referred outs t → ∃ m ∈ made ops, m.decl.tag = t
  warned : ∀ b t, Warning.unused b t ∈ s.warns → ∃ m ∈ made ops, m.decl.tag = t
  ids : ∀ k ∈ s.used, k < s.env.nextId
  once : (reported s.warns).Nodup

theorem mem_live {E : Env} {i : Ident} : i ∈ live E ↔ i ∈ E.idents ∧ i.name.isPlain = true := by
  rw [live, List.mem_filter]

theorem live_nodup {E : Env} {S : Scope.Spec.State} (h : Inv E S) : ((live E).map (·.id)).Nodup :=
  (List.filter_sublist.map _).nodup h.nodup

theorem id_inj {E : Env} {S : Scope.Spec.State} (h : Inv E S) {i j : Ident} (hi : i ∈ E.idents) (hj : j ∈ E.idents) (e : i.id = j.id) : i = j :=
  inj_of_nodup h.nodup hi hj e
where
  inj_of_nodup {α : Type} {f : α → Nat} {l : List α} (h : (l.map f).Nodup) {a b : α} (ha : a ∈ l) (hb : b ∈ l) (e : f a = f b) : a = b := by
    induction l with
    | nil => cases ha
    | cons x l ih =>
      obtain ⟨h1, h2⟩ := List.nodup_cons.mp h
      rcases List.mem_cons.mp ha with ha | ha <;> rcases List.mem_cons.mp hb with hb | hb
      · rw [ha, hb]
      · exact absurd (List.mem_map.mpr ⟨b, hb, by rw [← e, ha]⟩) h1
      · exact absurd (List.mem_map.mpr ⟨a, ha, by rw [e, hb]⟩) h1
      · exact ih h2 ha hb

theorem tag_inj {mainSig : Nat → Bool} {ops : List Op} {outs : List Scope.Out} {s : State} (h : K mainSig ops outs s) {i j : Ident}
    (hi : i ∈ live s.env) (hj : j ∈ live s.env) (e : i.tag = j.tag) : i = j := id_inj.inj_of_nodup h.tags hi hj e

theorem new_mono {ops : List Op} {op : Op} {m : Made} (h : ¬ New ops m) : ¬ New (ops ++ [op]) m := by
  intro h'
  apply h
  rcases h' with h' | h'
  · exact .inl h'
  · exact .inr fun m' hm' => h' m' (by rw [made_snoc]; exact List.mem_append_left _ hm')

theorem referred_append (outs : List Scope.Out) (o : Scope.Out) (t : Nat) :
    Referred (outs ++ [o]) t ↔ Referred outs t ∨ ∃ w outer, o = .found (some (t, w, outer)) := by
  unfold Referred
  constructor
  · rintro ⟨w, x, h⟩
    rcases List.mem_append.mp h with h | h
    · exact .inl ⟨w, x, h⟩
    · exact .inr ⟨w, x, (List.mem_singleton.mp h).symm⟩
  · rintro (⟨w, x, h⟩ | ⟨w, x, h⟩)
    · exact ⟨w, x, List.mem_append_left _ h⟩
    · exact ⟨w, x, List.mem_append_right _ (List.mem_singleton.mpr h.symm)⟩

theorem referred_unit (outs : List Scope.Out) (t : Nat) : Referred (outs ++ [.unit]) t ↔ Referred outs t := by
  rw [referred_append]
  exact ⟨fun h => h.elim id fun ⟨_, _, h⟩ => (nomatch h), .inl⟩

/-- An operation that concerns neither the declarations of the text nor the warnings. -/
theorem K_quiet {mainSig : Nat → Bool} {ops : List Op} {outs : List Scope.Out} {s : State} (h : K mainSig ops outs s) (op : Op) (E : Env)
    (hinv : ∃ S, Inv E S) (hpos : advance (position ops) op = (E.module, E.blocks.length)) (hlive : live E = live s.env)
    (hid : s.env.nextId ≤ E.nextId) (hmade : madeFrom (position ops) [op] = []) (hended : endedFrom (position ops) [op] = []) :
    K mainSig (ops ++ [op]) (outs ++ [.unit]) { s with env := E } := by
  have em : made (ops ++ [op]) = made ops := by rw [made_snoc, hmade, List.append_nil]
  have ee : ended (ops ++ [op]) = ended ops := by rw [ended_snoc, hended, List.append_nil]
  refine ⟨hinv, by rw [position_snoc, hpos], ?_, ?_, ?_, ?_, ?_, fun k hk => Nat.lt_of_lt_of_le (h.ids k hk) hid, h.once⟩
  · intro i hi
    rw [hlive] at hi
    obtain ⟨m, a⟩ := h.decl i hi
    refine ⟨m, em ▸ a.mem, a.tag, a.name, a.module, a.kind, a.forward, a.proto, ?_, ee ▸ a.warned⟩
    rw [referred_unit]
    exact a.used
  · show ((live E).map (·.tag)).Nodup
    rw [hlive]; exact h.tags
  · intro m hm
    rw [em] at hm
    rcases h.old m hm with h1 | (h1 | h1) | h1
    · exact .inl (hlive ▸ h1)
    · exact .inr (.inl (.inl (ee ▸ h1)))
    · refine .inr (.inl (.inr fun b => ?_))
      rw [referred_unit]
      exact h1 b
    · exact .inr (.inr (new_mono h1))
  · intro t ht
    rw [em]
    exact h.refs t ((referred_unit _ _).mp ht)
  · intro b t ht
    rw [em]
    exact h.warned b t ht

/-- A use of a name. -/
theorem K_lookup {C : Compat} {mainSig : Nat → Bool} {ops : List Op} {outs : List Scope.Out} {s : State} (h : K mainSig ops outs s) (q : Query)
    (hq : ∃ n, q.name = .plain n) :
    K mainSig (ops ++ [.scope (.lookup q)]) (outs ++ [.found ((Scope.find C s.env q).map fun i => (i.tag, i.what, Scope.isOuterLocal s.env i))])
      (markUsed C s q) := by
  have em : made (ops ++ [.scope (.lookup q)]) = made ops := by rw [made_snoc]; exact List.append_nil _
  have ee : ended (ops ++ [.scope (.lookup q)]) = ended ops := by rw [ended_snoc]; exact List.append_nil _
  have ep : position (ops ++ [.scope (.lookup q)]) = position ops := by rw [position_snoc]; rfl
  cases hf : Scope.find C s.env q with
  | none =>
    have e : markUsed C s q = s := by rw [markUsed, hf]
    rw [e, Option.map_none]
    have er : ∀ t, Referred (outs ++ [.found none]) t ↔ Referred outs t := fun t => by
      rw [referred_append]; exact ⟨fun h => h.elim id fun ⟨_, _, h⟩ => (nomatch h), .inl⟩
    refine ⟨h.inv, ep ▸ h.pos, ?_, h.tags, ?_, ?_, ?_, h.ids, h.once⟩
    · intro i hi
      obtain ⟨m, a⟩ := h.decl i hi
      refine ⟨m, em ▸ a.mem, a.tag, a.name, a.module, a.kind, a.forward, a.proto, ?_, ee ▸ a.warned⟩
      rw [er]
      exact a.used
    · intro m hm
      rw [em] at hm
      rcases h.old m hm with h1 | (h1 | h1) | h1
      · exact .inl h1
      · exact .inr (.inl (.inl (ee ▸ h1)))
      · refine .inr (.inl (.inr fun b => ?_))
        rw [er]
        exact h1 b
      · exact .inr (.inr (new_mono h1))
    · intro t ht
      rw [em]
      exact h.refs t ((er t).mp ht)
    · intro b t ht
      rw [em]
      exact h.warned b t ht
  | some f =>
    have e : markUsed C s q = { s with used := f.id :: s.used } := by rw [markUsed, hf]
    rw [e, Option.map_some]
    obtain ⟨hf1, hf2⟩ := find_name hf
    have hfl : f ∈ live s.env := mem_live.mpr ⟨hf1, by rw [hf2]; exact Scope.plain_isPlain hq⟩
    have er : ∀ t, Referred (outs ++ [.found (some (f.tag, f.what, Scope.isOuterLocal s.env f))]) t ↔ Referred outs t ∨ t = f.tag := fun t => by
      rw [referred_append]
      refine or_congr Iff.rfl ⟨fun ⟨_, _, h⟩ => by cases h; rfl, fun h => ⟨_, _, by rw [h]⟩⟩
    obtain ⟨S, hS⟩ := h.inv
    refine ⟨h.inv, ep ▸ h.pos, ?_, h.tags, ?_, ?_, ?_, ?_, h.once⟩
    · intro i hi
      obtain ⟨m, a⟩ := h.decl i hi
      refine ⟨m, em ▸ a.mem, a.tag, a.name, a.module, a.kind, a.forward, a.proto, ?_, ee ▸ a.warned⟩
      show i.id ∈ f.id :: s.used ↔ _
      rw [er, List.mem_cons, a.used]
      have : i.id = f.id ↔ i.tag = f.tag := ⟨fun e => by rw [id_inj hS (mem_live.mp hi).1 hf1 e], fun e => by rw [tag_inj h hi hfl e]⟩
      rw [this]
      constructor
      · rintro (h | h | h | h)
        · exact .inr (.inl (.inr h))
        · exact .inl h
        · exact .inr (.inl (.inl h))
        · exact .inr (.inr h)
      · rintro (h | (h | h) | h)
        · exact .inr (.inl h)
        · exact .inr (.inr (.inl h))
        · exact .inl h
        · exact .inr (.inr (.inr h))
    · intro m hm
      rw [em] at hm
      rcases h.old m hm with h1 | (h1 | h1) | h1
      · exact .inl h1
      · exact .inr (.inl (.inl (ee ▸ h1)))
      · by_cases ht : m.decl.tag = f.tag
        · exact .inl ⟨f, hfl, ht.symm⟩
        · refine .inr (.inl (.inr fun b => ?_))
          rw [er, or_iff_left ht]
          exact h1 b
      · exact .inr (.inr (new_mono h1))
    · intro t ht
      rw [em]
      rcases (er t).mp ht with ht | rfl
      · exact h.refs t ht
      · obtain ⟨m, a⟩ := h.decl f hfl
        exact ⟨m, a.mem, a.tag⟩
    · intro b t ht
      rw [em]
      exact h.warned b t ht
    · intro k hk
      rcases List.mem_cons.mp hk with rfl | hk
      · exact hS.ids f hf1
      · exact h.ids k hk

end Umka.Warn
