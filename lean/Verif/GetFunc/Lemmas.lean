import Verif.GetFunc.Spec
import Verif.Scope.Props
/-! # Looking up a function for the host: lemmas -/

namespace Umka.GetFunc

open Scope Scope.Spec

/-- What must not be declared twice. -/
def key (e : Entry) : Name × Option Nat × Bool × Nat := (e.name, e.rcv, e.what == .module, e.module)

def Clash (k k' : Name × Option Nat × Bool × Nat) : Prop :=
  k.1 = k'.1 ∧ k.2.1 = none ∧ k'.2.1 = none ∧ k.2.2.1 = k'.2.2.1 ∧ (k.2.2.2 = k'.2.2.2 ∨ k.2.2.2 = 0 ∨ k'.2.2.2 = 0)

theorem clash_symm {k k' : Name × Option Nat × Bool × Nat} (h : Clash k k') : Clash k' k :=
  ⟨h.1.symm, h.2.2.1, h.2.1, h.2.2.2.1.symm, h.2.2.2.2.elim (fun e => .inl e.symm) fun e => .inr e.symm⟩

/-- The declarations of the outermost scope. -/
def glob (S : State) : List Entry := match S.scopes.getLast? with
  | some s => s.entries
  | none => []

structure Tidy (S : State) : Prop where
  nonempty : S.scopes ≠ []
  unique : ((glob S).map key).Pairwise fun k k' => ¬ Clash k k'
  first : S.module = 0 → ∀ k ∈ (glob S).map key, k.2.2.2 = 0

theorem glob_cons {S : State} {s t : Scope} {outer : List Scope} (h : S.scopes = s :: t :: outer) (S' : State) {s' : Scope} (h' : S'.scopes = s' :: t :: outer) :
    glob S' = glob S := by
  unfold glob; rw [h, h', List.getLast?_cons_cons, List.getLast?_cons_cons]

theorem replaceFirst_key {p : Entry → Bool} {e e' : Entry} (hk : key e' = key e) : ∀ {es : List Entry}, es.find? p = some e →
    (replaceFirst p e' es).map key = es.map key
  | [], h => nomatch h
  | x :: es, h => by
    rw [replaceFirst]
    by_cases hp : p x = true
    · rw [List.find?_cons_of_pos hp] at h
      cases h
      rw [if_pos hp, List.map_cons, List.map_cons, hk]
    · rw [List.find?_cons_of_neg hp] at h
      rw [if_neg hp, List.map_cons, List.map_cons, replaceFirst_key hk h]

theorem complete_key {C : Compat} {e e' : Entry} {d : Decl} (h : complete C e d = some e') : key e' = key e := by
  obtain ⟨tag, name, what, rcv, module, exported⟩ := e
  unfold complete at h
  cases what <;> cases hd : d.what <;> rw [hd] at h <;> dsimp only at h <;> first | (cases h; done) | skip
  · cases h; rfl
  · split at h
    · cases h; rfl
    · cases h
  · split at h
    · cases h; rfl
    · cases h

theorem declare_tidy {C : Compat} {S S' : State} {d : Decl} (h : Tidy S) (hd : Spec.declare C S d = .ok S') : Tidy S' ∧ S'.module = S.module := by
  unfold Spec.declare at hd
  cases hs : S.scopes with
  | nil => exact absurd hs h.nonempty
  | cons s outer =>
    rw [hs] at hd
    dsimp only at hd
    cases hf : s.entries.find? (denotes C S ⟨S.module, d.name, d.rcv, d.what == .module⟩) with
    | some e =>
      rw [hf] at hd
      dsimp only at hd
      cases hc : complete C e d with
      | none => rw [hc] at hd; cases hd
      | some e' =>
        rw [hc] at hd
        cases hd
        have hg : (glob { S with scopes := { s with entries := replaceFirst (denotes C S ⟨S.module, d.name, d.rcv, d.what == .module⟩) e' s.entries } :: outer }).map key =
            (glob S).map key := by
          cases outer with
          | nil =>
            unfold glob
            rw [hs]
            exact replaceFirst_key (complete_key hc) hf
          | cons t outer => rw [glob_cons hs _ rfl]
        exact ⟨⟨fun e => (nomatch e), by rw [hg]; exact h.unique, by rw [hg]; exact h.first⟩, rfl⟩
    | none =>
      rw [hf] at hd
      dsimp only at hd
      split at hd
      · cases hd
      · cases hd
        refine ⟨⟨fun e => (nomatch e), ?_, ?_⟩, rfl⟩
        · cases outer with
          | cons t outer => rw [glob_cons hs _ rfl]; exact h.unique
          | nil =>
            have hg : glob S = s.entries := by unfold glob; rw [hs]; rfl
            show (key _ :: s.entries.map key).Pairwise _
            rw [List.pairwise_cons]
            refine ⟨fun k hk hcl => ?_, by rw [← hg]; exact h.unique⟩
            obtain ⟨x, hx, rfl⟩ := List.mem_map.mp hk
            have hn := List.find?_eq_none.mp hf x hx
            obtain ⟨c1, c2, c3, c4, c5⟩ := hcl
            have c1 : d.name = x.name := c1
            have c2 : d.rcv = none := c2
            have c3 : x.rcv = none := c3
            have c4 : (d.what == .module) = (x.what == .module) := c4
            have c5 : S.module = x.module ∨ S.module = 0 ∨ x.module = 0 := c5
            have hx0 : S.module = 0 → x.module = 0 := fun e => h.first e (key x) (List.mem_map_of_mem (by rw [hg]; exact hx))
            apply hn
            unfold denotes
            rw [decide_eq_true_eq]
            refine ⟨⟨c1.symm, ?_, ?_⟩, ?_⟩
            · show x.what = .module ↔ (d.what == .module) = true
              rw [c4, beq_iff_eq]
            · rw [c2, c3]; trivial
            · show (x.module = 0 ∧ S.module = S.module) ∨ (x.module = S.module ∧ S.module = S.module) ∨ _
              rcases c5 with c5 | c5 | c5
              · exact .inr (.inl ⟨c5.symm, rfl⟩)
              · exact .inl ⟨hx0 c5, rfl⟩
              · exact .inl ⟨c5, rfl⟩
        · intro hm k hk
          cases outer with
          | cons t outer => rw [glob_cons hs _ rfl] at hk; exact h.first hm k hk
          | nil =>
            have hg : glob S = s.entries := by unfold glob; rw [hs]; rfl
            have hk : k ∈ key ⟨d.tag, d.name, d.what, d.rcv, S.module, d.exported⟩ :: s.entries.map key := hk
            rcases List.mem_cons.mp hk with rfl | hk
            · exact hm
            · exact h.first hm k (by rw [hg]; exact hk)

theorem step_tidy {C : Compat} {S S' : State} {op : Op} {o : Out} (h : Tidy S) (hop : op ≠ .switchModule 0) (hs : Spec.step C S op = .ok (S', o)) : Tidy S' := by
  cases op with
  | enter fn =>
    unfold Spec.step at hs
    dsimp only at hs
    split at hs
    · cases hs
    · cases hs
      cases hsc : S.scopes with
      | nil => exact absurd hsc h.nonempty
      | cons s outer =>
        have hg : glob { S with scopes := ⟨fn, []⟩ :: s :: outer } = glob S := by
          unfold glob; rw [hsc, List.getLast?_cons_cons]
        exact ⟨fun e => (nomatch e), by rw [hg]; exact h.unique, by rw [hg]; exact h.first⟩
  | leave =>
    cases hs
    split
    · exact h
    · rename_i hl
      match hsc : S.scopes with
      | [] => exact absurd hsc h.nonempty
      | [s] => rw [hsc] at hl; exact absurd (Nat.le_refl 1) hl
      | s :: t :: outer =>
        have hg : glob { S with scopes := t :: outer } = glob S := by
          unfold glob; rw [hsc, List.getLast?_cons_cons]
        exact ⟨fun e => (nomatch e), by rw [List.tail_cons, hg]; exact h.unique, by rw [List.tail_cons, hg]; exact h.first⟩
  | declare d =>
    change (Spec.declare C S d >>= fun S => pure (S, Out.unit)) = _ at hs
    cases hd : Spec.declare C S d with
    | error e => rw [hd] at hs; cases hs
    | ok S1 =>
      rw [hd] at hs
      cases hs
      exact (declare_tidy h hd).1
  | temp => cases hs; exact h
  | tempOutside => cases hs; exact h
  | lookup q => cases hs; exact h
  | switchModule m =>
    cases hs
    split
    · exact ⟨h.nonempty, h.unique, fun e => absurd (congrArg Op.switchModule e) hop⟩
    · exact h
  | imported m =>
    cases hs
    split
    · exact ⟨h.nonempty, h.unique, h.first⟩
    · exact h

theorem run_tidy {C : Compat} : ∀ {ops : List Op} {S S' : State} {o : List Out}, Tidy S → (∀ op ∈ ops, op ≠ .switchModule 0) →
    Spec.run C S ops = .ok (S', o) → Tidy S'
  | [], S, S', o, h, _, hr => by cases hr; exact h
  | op :: ops, S, S', o, h, hops, hr => by
    change ((Spec.step C S op) >>= fun p => (Spec.run C p.1 ops) >>= fun q => pure (q.1, p.2 :: q.2)) = _ at hr
    cases h1 : Spec.step C S op with
    | error e => rw [h1] at hr; cases hr
    | ok p =>
      rw [h1] at hr
      change ((Spec.run C p.1 ops) >>= fun q => pure (q.1, p.2 :: q.2)) = _ at hr
      cases h2 : Spec.run C p.1 ops with
      | error e => rw [h2] at hr; cases hr
      | ok q =>
        rw [h2] at hr
        cases hr
        exact run_tidy (step_tidy (o := p.2) h (hops op (List.mem_cons_self ..)) h1) (fun x hx => hops x (List.mem_cons_of_mem _ hx)) (o := q.2) h2

theorem init_tidy : Tidy Scope.Spec.init := ⟨fun e => (nomatch e), List.Pairwise.nil, fun _ _ hk => nomatch hk⟩

theorem pairwise_same {α : Type} {R : α → α → Prop} (hs : ∀ a b, R a b → R b a) : ∀ {l : List α} {a b : α}, l.Pairwise R → a ∈ l → b ∈ l → a = b ∨ R a b
  | [], _, _, _, h, _ => nomatch h
  | x :: l, a, b, hp, ha, hb => by
    obtain ⟨h1, h2⟩ := List.pairwise_cons.mp hp
    rcases List.mem_cons.mp ha with ha | ha <;> rcases List.mem_cons.mp hb with hb | hb
    · exact .inl (ha.trans hb.symm)
    · exact .inr (ha ▸ h1 b hb)
    · exact .inr (hb ▸ hs _ _ (h1 a ha))
    · exact pairwise_same hs h2 ha hb

end Umka.GetFunc
