import Verif.TypeDecl.Results
/-!
# Type declarations: use before declaration
-/

namespace Umka.TypeDecl
open Spec

/-! ## What is accepted uses declared types where it must -/

/-- The name refers to a declared type. -/
def Known (s : State) (x : Name) : Prop := ∃ i, s.lookup x = some (.type i) ∧ isForward (s.get i).body = false

theorem Known.ext {s s' : State} (h : Ext s s') {x : Name} (hk : Known s x) : Known s' x := by
  obtain ⟨i, h1, h2⟩ := hk
  exact ⟨i, h.lookup h1, by rw [h.keeps i h2]; exact h2⟩

theorem whole_known {s : State} {t : TE} {i : Id} (hm : Means (graph s) (refs s) t i)
    (hi : isForward (s.get i).body = false) : ∀ x ∈ whole t, Known s x := by
  intro x hx
  cases t with
  | name y =>
    have hx : x ∈ [y] := hx
    rw [List.mem_singleton] at hx
    subst hx
    exact ⟨i, hm, hi⟩
  | _ => cases hx

theorem orForward_known {fwd rbs : Bool} {t : TE} {s s' : State} {i : Id}
    (hr : ∀ i s', parse fwd t s = .ok (i, s') → ∀ x ∈ strict t, Known s' x)
    (ho : orForward fwd rbs t s (parse fwd t s) = .ok (i, s')) : ∀ x ∈ strict t, Known s' x := by
  unfold orForward at ho
  split at ho
  · intro x hx; cases hx
  · exact hr i s' ho

theorem comparable_decl {nodes : List Node} {n : Nat} {v : List Id} {i : Id}
    (hv : i ∉ v) (h : comparable nodes (n + 1) v i = true) :
    isForward (nodes.getD i (mkNode (.forward false))).body = false := by
  rw [comparable, if_neg hv] at h
  cases hb : (nodes.getD i (mkNode (.forward false))).body with
  | forward r => rw [hb] at h; cases h
  | _ => rfl

mutual
theorem parse_known (fwd : Bool) : ∀ (t : TE) (s s' : State) (i : Id), Inv s → parse fwd t s = .ok (i, s') →
    ∀ x ∈ strict t, Known s' x
  | .name _, _, _, _, _, _ => fun x hx => by cases hx
  | .ptr w t, s, s', i, h, hp => by
    rw [parse] at hp
    split at hp
    · cases hp
    rename_i b s1 h1
    have k2 := orForward_known (fun i s' hr => parse_known fwd t s s' i h hr) h1
    injection hp with hp
    injection hp with e1 e2
    subst e2
    intro x hx
    exact (k2 x hx).ext (ext_alloc _ _)
  | .dyn w t, s, s', i, h, hp => by
    rw [parse] at hp
    split at hp
    · cases hp
    rename_i b s1 h1
    have k2 := orForward_known (fun i s' hr => parse_known fwd t s s' i h hr) h1
    split at hp
    · cases hp
    injection hp with hp
    injection hp with e1 e2
    subst e2
    intro x hx
    exact (k2 x hx).ext (ext_alloc _ _)
  | .arr n t, s, s', i, h, hp => by
    rw [parse] at hp
    split at hp
    · cases hp
    split at hp
    · cases hp
    rename_i b s1 h1
    obtain ⟨k1, _, k3⟩ := parse_post fwd t s s1 b h h1
    have k2 := parse_known fwd t s s1 b h h1
    split at hp
    · cases hp
    split at hp
    · cases hp
    rename_i nd hnd
    injection hp with hp
    injection hp with e1 e2
    subst e2
    intro x hx
    rw [strict, List.mem_append] at hx
    rcases hx with hx | hx
    · split at hx
      · cases hx
      rename_i hn
      refine (whole_known k3 ?_ x hx).ext (ext_alloc _ _)
      cases hf : isForward (s1.get b).body with
      | false => rfl
      | true =>
        obtain ⟨r, hr⟩ := k1.inv.ok.fwd b hf
        unfold arrNode at hnd
        rw [hr, if_pos ⟨Nat.pos_of_ne_zero hn, (show (-1 : Int) < 0 by decide)⟩] at hnd
        cases hnd
    · exact (k2 x hx).ext (ext_alloc _ _)
  | .map k t, s, s', i, h, hp => by
    rw [parse] at hp
    split at hp
    · cases hp
    rename_i a s1 h1
    obtain ⟨k1, _, k3⟩ := parse_post fwd k s s1 a h h1
    have k2 := parse_known fwd k s s1 a h h1
    split at hp
    · cases hp
    rename_i hcmp
    split at hp
    · cases hp
    rename_i b s2 h2
    obtain ⟨j1, _⟩ := orForward_post k1.inv (fun i s' hr => parse_post fwd t s1 s' i k1.inv hr) h2
    have j2 := orForward_known (fun i s' hr => parse_known fwd t s1 s' i k1.inv hr) h2
    split at hp
    · cases hp
    injection hp with hp
    injection hp with e1 e2
    subst e2
    intro x hx
    rw [strict, List.mem_append, List.mem_append] at hx
    rcases hx with (hx | hx) | hx
    · refine ((whole_known k3 ?_ x hx).ext j1.ext).ext (ext_alloc _ _)
      have : comparable s1.nodes (s1.nodes.length + 1) [] a = true := by simpa using hcmp
      exact comparable_decl (fun hh => by cases hh) this
    · exact ((k2 x hx).ext j1.ext).ext (ext_alloc _ _)
    · exact (j2 x hx).ext (ext_alloc _ _)
  | .struct fs, s, s', i, h, hp => by
    rw [parse] at hp
    split at hp
    · cases hp
    rename_i a s1 h1
    have k2 := parseFields_known fwd fs s s1 .empty a h (accOk_empty s) h1
    injection hp with hp
    injection hp with e1 e2
    subst e2
    intro x hx
    exact (k2 x hx).ext (ext_alloc _ _)
  | .iface ms, s, s', i, h, hp => by
    rw [parse] at hp
    split at hp
    · cases hp
    rename_i l s1 h1
    have k2 := parseMethods_known fwd ms s s1 [] l h h1
    injection hp with hp
    injection hp with e1 e2
    subst e2
    intro x hx
    exact (k2 x hx).ext (ext_alloc _ _)
  | .fn st, s, s', i, h, hp => by
    rw [parse] at hp
    split at hp
    · cases hp
    rename_i sig s1 h1
    have k2 := parseSig_known fwd st s s1 sig h h1
    injection hp with hp
    injection hp with e1 e2
    subst e2
    intro x hx
    exact (k2 x hx).ext (ext_alloc _ _)
theorem parseFields_known (fwd : Bool) : ∀ (fs : Flds) (s s' : State) (a a' : Acc), Inv s → AccOk s a →
    parseFields fwd fs s a = .ok (a', s') → ∀ x ∈ strictFields fs, Known s' x
  | .nil, _, _, _, _, _, _, _ => fun x hx => by cases hx
  | .cons xs t rest, s, s', a, a', h, ha, hp => by
    rw [parseFields] at hp
    split at hp
    · cases hp
    rename_i i s1 h1
    obtain ⟨k1, _, k3⟩ := parse_post fwd t s s1 i h h1
    have k2 := parse_known fwd t s s1 i h h1
    split at hp
    · cases hp
    rename_i a1 h2
    obtain ⟨j1, j2⟩ := addFields_ok k1.inv.ok (ha.mono k1.ext.keeps) h2
    obtain ⟨m1, _⟩ := parseFields_post fwd rest s1 s' a1 a' k1.inv j1 hp
    have m2 := parseFields_known fwd rest s1 s' a1 a' k1.inv j1 hp
    intro x hx
    rw [strictFields, List.mem_append, List.mem_append] at hx
    rcases hx with (hx | hx) | hx
    · split at hx
      · cases hx
      rename_i hxs
      refine (whole_known k3 ?_ x hx).ext m1.ext
      cases xs with
      | nil => exact absurd rfl hxs
      | cons z zs =>
        exact (j1.fields (z, i) (by rw [j2]; exact List.mem_append_right _ (List.mem_cons_self ..))).1
    · exact (k2 x hx).ext m1.ext
    · exact m2 x hx
theorem parseParams_known (fwd : Bool) : ∀ (fs : Flds) (s s' : State) (a a' : List (Name × Id)), Inv s →
    parseParams fwd fs s a = .ok (a', s') → ∀ x ∈ strictParams fs, Known s' x
  | .nil, _, _, _, _, _, _ => fun x hx => by cases hx
  | .cons xs t rest, s, s', a, a', h, hp => by
    rw [parseParams] at hp
    split at hp
    · cases hp
    rename_i i s1 h1
    obtain ⟨k1, _⟩ := orForward_post h (fun i s' hr => parse_post fwd t s s' i h hr) h1
    have k2 := orForward_known (fun i s' hr => parse_known fwd t s s' i h hr) h1
    split at hp
    · cases hp
    rename_i a1 h2
    obtain ⟨m1, _⟩ := parseParams_post fwd rest s1 s' a1 a' k1.inv hp
    have m2 := parseParams_known fwd rest s1 s' a1 a' k1.inv hp
    intro x hx
    rw [strictParams, List.mem_append] at hx
    rcases hx with hx | hx
    · exact (k2 x hx).ext m1.ext
    · exact m2 x hx
theorem parseSig_known (fwd : Bool) : ∀ (st : SigT) (s s' : State) (sig : Sig), Inv s →
    parseSig fwd st s = .ok (sig, s') → ∀ x ∈ strictSig st, Known s' x
  | .mk ps r, s, s', sig, h, hp => by
    rw [parseSig] at hp
    split at hp
    · cases hp
    rename_i l s1 h1
    obtain ⟨k1, _⟩ := parseParams_post fwd ps s s1 [] l h h1
    have k2 := parseParams_known fwd ps s s1 [] l h h1
    split at hp
    · cases hp
    rename_i res s2 h2
    obtain ⟨j1, _⟩ := parseResult_post fwd r s1 s2 res k1.inv h2
    have j2 := parseResult_known fwd r s1 s2 res k1.inv h2
    split at hp
    · cases hp
    injection hp with hp
    injection hp with e1 e2
    subst e2
    intro x hx
    rw [strictSig, List.mem_append] at hx
    rcases hx with hx | hx
    · exact (k2 x hx).ext j1.ext
    · exact j2 x hx
theorem parseResult_known (fwd : Bool) : ∀ (r : ResT) (s s' : State) (i : Option Id), Inv s →
    parseResult fwd r s = .ok (i, s') → ∀ x ∈ strictResult r, Known s' x
  | .none, _, _, _, _, _ => fun x hx => by cases hx
  | .single t, s, s', i, h, hp => by
    rw [parseResult] at hp
    split at hp
    · cases hp
    rename_i j s1 h1
    have k2 := orForward_known (fun i s' hr => parse_known fwd t s s' i h hr) h1
    injection hp with hp
    injection hp with e1 e2
    subst e2
    exact k2
  | .list ts, s, s', i, h, hp => by
    rw [parseResult] at hp
    split at hp
    · cases hp
    rename_i a s1 h1
    have k2 := parseFields_known fwd ts s s1 .empty a h (accOk_empty s) h1
    injection hp with hp
    unfold listResult at hp
    split at hp
    · injection hp with e1 e2
      subst e2
      exact k2
    · injection hp with e1 e2
      subst e2
      intro x hx
      exact (k2 x hx).ext (ext_alloc _ _)
theorem parseMethods_known (fwd : Bool) : ∀ (ms : Meths) (s s' : State) (a a' : List (Name × Sig)), Inv s →
    parseMethods fwd ms s a = .ok (a', s') → ∀ x ∈ strictMethods ms, Known s' x
  | .nil, _, _, _, _, _, _ => fun x hx => by cases hx
  | .method x st rest, s, s', a, a', h, hp => by
    rw [parseMethods] at hp
    split at hp
    · cases hp
    rename_i sig s1 h1
    obtain ⟨k1, _⟩ := parseSig_post fwd st s s1 sig h h1
    have k2 := parseSig_known fwd st s s1 sig h h1
    split at hp
    · cases hp
    rename_i a1 h2
    obtain ⟨m1, _⟩ := parseMethods_post fwd rest s1 s' a1 a' k1.inv hp
    have m2 := parseMethods_known fwd rest s1 s' a1 a' k1.inv hp
    intro y hy
    rw [strictMethods, List.mem_append] at hy
    rcases hy with hy | hy
    · exact (k2 y hy).ext m1.ext
    · exact m2 y hy
  | .embed x rest, s, s', a, a', h, hp => by
    rw [parseMethods] at hp
    split at hp
    · cases hp
    · cases hp
    rename_i j hj
    split at hp
    · rename_i e he
      split at hp
      · cases hp
      rename_i a1 h2
      obtain ⟨m1, _⟩ := parseMethods_post fwd rest s s' a1 a' h hp
      have m2 := parseMethods_known fwd rest s s' a1 a' h hp
      intro y hy
      rw [strictMethods, List.mem_cons] at hy
      rcases hy with hy | hy
      · subst hy
        have : Known s y := ⟨j, hj, by rw [he]; rfl⟩
        exact this.ext m1.ext
      · exact m2 y hy
    · cases hp
end

/-- A declaration in an accepted list: names in strict positions are declared before. -/
theorem group_strict {s s' : State} {pre post : List (Name × TE)} {x : Name} {t : TE} (h : Ready s)
    (hg : declItems s (pre ++ (x, t) :: post) = .ok s') {y : Name} (hy : y ∈ strict t) :
    s.lookup y ≠ none ∨ y ∈ pre.map Prod.fst := by
  obtain ⟨s1, e1, e2⟩ := declItems_append _ _ _ _ hg
  rw [declItems] at e2
  split at e2
  · cases e2
  rename_i s2 hi
  have p1 := declItems_post pre s s1 h.inv e1
  unfold declItem at hi
  split at hi
  · cases hi
  rename_i i sp hp
  obtain ⟨k1, _⟩ := parse_post true t s1 sp i p1.inv hp
  obtain ⟨j, q1, q2⟩ := parse_known true t s1 sp i p1.inv hp y hy
  by_cases hpre : y ∈ pre.map Prod.fst
  · exact .inr hpre
  left
  intro hn
  unfold State.lookup at hn q1
  have hn1 : find s.cur y = none := by
    cases hc : find s.cur y with
    | none => rfl
    | some b => rw [hc] at hn; cases hn
  rw [hn1] at hn
  have hn : findOuter s.outer y = none := hn
  have hout : sp.outer = s.outer := k1.ext.outer.trans p1.outer
  cases hc : find sp.cur y with
  | none => rw [hc, hout, hn] at q1; cases q1
  | some b =>
    rw [hc] at q1
    injection q1 with q1
    subst q1
    cases hc1 : find s1.cur y with
    | none =>
      obtain ⟨_, k, m1, _, m3⟩ := k1.ext.new y hc1 (by rw [hc]; exact fun e => (nomatch e))
      rw [hc] at m1
      injection m1 with m1
      injection m1 with m1
      rw [← m1, q2] at m3; cases m3
    | some b1 =>
      rcases p1.new y hn1 (by rw [hc1]; exact fun e => (nomatch e)) with h3 | ⟨_, k, m1, m3⟩
      · exact hpre h3
      · have := k1.ext.cur y _ m1
        rw [hc] at this
        injection this with this
        injection this with this
        rw [this, k1.ext.old k (p1.inv.curLt y k m1)] at q2
        rw [q2] at m3; cases m3

end Umka.TypeDecl
