import Verif.TypeDecl.Main
/-!
# Type declarations: hidden result parameters
-/

namespace Umka.TypeDecl
open Spec

/-- The hidden parameter is as it must be, or the result type is not declared yet and its name is
among those used as results. -/
def SigGood (R : Name → Prop) (s : State) (sig : Sig) : Prop :=
  match sig.result with
  | none => sig.resultParam = false
  | some r => (isForward (s.get r).body = false ∧ sig.resultParam = structured (s.get r).body) ∨
      (isForward (s.get r).body = true ∧ sig.resultParam = true ∧ ∃ y, R y ∧ find s.cur y = some (.type r))

def SigsGood (R : Name → Prop) (s : State) : Prop :=
  ∀ i, ∀ sig ∈ signatures (s.get i).body, SigGood R s sig

theorem SigGood.ext {R : Name → Prop} {s s' : State} (h : Inv s) (he : Ext s s') {sig : Sig} (hg : SigGood R s sig) :
    SigGood R s' sig := by
  unfold SigGood at *
  split at hg
  · exact hg
  · rename_i r hr
    rcases hg with hg | ⟨h1, h2, y, h3, h4⟩
    · left
      rw [he.keeps r hg.1]; exact hg
    · right
      rw [he.old r (h.curLt y r h4)]
      exact ⟨h1, h2, y, h3, he.cur y _ h4⟩

/-- New types with good signatures. -/
theorem sigs_alloc {R : Name → Prop} {s : State} (h : Inv s) (hs : SigsGood R s) {n : Node}
    (hn : ∀ sig ∈ signatures n.body, SigGood R s sig) : SigsGood R (s.alloc n).2 := by
  intro i sig hsig
  by_cases h1 : i < s.nodes.length
  · rw [get_alloc_old h1] at hsig
    exact (hs i sig hsig).ext h (ext_alloc s n)
  · by_cases h2 : i = s.nodes.length
    · rw [show i = (s.alloc n).1 from h2, get_alloc_new] at hsig
      exact (hn sig hsig).ext h (ext_alloc s n)
    · rw [get_alloc_gt (Nat.lt_of_le_of_ne (Nat.le_of_not_lt h1) (fun e => h2 e.symm))] at hsig
      cases hsig

theorem orForward_sigs {R : Name → Prop} {fwd rbs : Bool} {t : TE} {s s' : State} {r : Res (Id × State)} {i : Id}
    (h : Inv s) (hs : SigsGood R s)
    (hp : ∀ i s', r = .ok (i, s') → Post fwd s s' ∧ i < s'.nodes.length ∧ Means (graph s') (refs s') t i)
    (hr : ∀ i s', r = .ok (i, s') → SigsGood R s')
    (ho : orForward fwd rbs t s r = .ok (i, s')) : SigsGood R s' := by
  have hpost := (orForward_post h hp ho).1
  unfold orForward at ho
  split at ho
  · split at ho
    · injection ho with ho
      injection ho with h1 h2
      have hk : SigsGood R (s.alloc (mkNode (.forward rbs))).2 := sigs_alloc h hs (by intro sig hsig; cases hsig)
      intro k sig hsig
      have hget : s'.get k = (s.alloc (mkNode (.forward rbs))).2.get k := by rw [← h2]; rfl
      by_cases hlt : k < s.nodes.length
      · rw [hget, get_alloc_old hlt] at hsig
        exact (hs k sig hsig).ext h hpost.ext
      · rw [hget] at hsig
        by_cases h3 : k = s.nodes.length
        · rw [show k = (s.alloc (mkNode (.forward rbs))).1 from h3, get_alloc_new] at hsig
          cases hsig
        · rw [get_alloc_gt (Nat.lt_of_le_of_ne (Nat.le_of_not_lt hlt) (fun e => h3 e.symm))] at hsig
          cases hsig
    · exact hr _ _ ho
  · exact hr _ _ ho

theorem mkSig_good {R : Name → Prop} {s : State} {hid : Nat} {ps : List (Name × Id)} {r : Option Id} {sig : Sig}
    (h : mkSig s hid ps r = .ok sig)
    (hf : ∀ i, r = some i → isForward (s.get i).body = true → ∃ y, R y ∧ find s.cur y = some (.type i)) :
    SigGood R s sig := by
  have hr := (mkSig_ok h).2
  unfold SigGood
  rw [hr]
  unfold mkSig at h
  cases r with
  | none =>
    have hc : (structured (resultBody s none) || isForward (resultBody s none)) = false := rfl
    rw [hc] at h
    injection h with h
    rw [← h]
  | some i =>
    show _ ∨ _
    have hb : resultBody s (some i) = (s.get i).body := rfl
    rw [hb] at h
    cases hfi : isForward (s.get i).body with
    | true =>
      rw [hfi, Bool.or_true, if_pos rfl] at h
      split at h
      · cases h
      · injection h with h
        exact .inr ⟨rfl, by rw [← h], hf i rfl hfi⟩
    | false =>
      left
      refine ⟨rfl, ?_⟩
      rw [hfi, Bool.or_false] at h
      cases hst : structured (s.get i).body with
      | true =>
        rw [hst, if_pos rfl] at h
        split at h
        · cases h
        · injection h with h; rw [← h]
      | false =>
        rw [hst, if_neg (by decide)] at h
        injection h with h; rw [← h]

mutual
theorem parse_sigs (R : Name → Prop) (fwd : Bool) : ∀ (t : TE) (s s' : State) (i : Id), Inv s → SigsGood R s →
    (∀ x ∈ results t, R x) → parse fwd t s = .ok (i, s') → SigsGood R s'
  | .name x, s, s', i, h, hs, hR, hp => by
    rw [parse] at hp
    split at hp
    · cases hp
    · cases hp
    · injection hp with hp
      injection hp with h1 h2
      subst h2
      exact hs
  | .ptr w t, s, s', i, h, hs, hR, hp => by
    rw [parse] at hp
    split at hp
    · cases hp
    rename_i b s1 h1
    have k1 := orForward_post h (fun i s' hr => parse_post fwd t s s' i h hr) h1
    have k2 := orForward_sigs h hs (fun i s' hr => parse_post fwd t s s' i h hr)
      (fun i s' hr => parse_sigs R fwd t s s' i h hs hR hr) h1
    injection hp with hp
    injection hp with e1 e2
    subst e2
    exact sigs_alloc k1.1.inv k2 (fun sig hsig => by cases hsig)
  | .dyn v t, s, s', i, h, hs, hR, hp => by
    rw [parse] at hp
    split at hp
    · cases hp
    rename_i b s1 h1
    have k1 := orForward_post h (fun i s' hr => parse_post fwd t s s' i h hr) h1
    have k2 := orForward_sigs h hs (fun i s' hr => parse_post fwd t s s' i h hr)
      (fun i s' hr => parse_sigs R fwd t s s' i h hs hR hr) h1
    split at hp
    · cases hp
    injection hp with hp
    injection hp with e1 e2
    subst e2
    exact sigs_alloc k1.1.inv k2 (fun sig hsig => by cases hsig)
  | .arr n t, s, s', i, h, hs, hR, hp => by
    rw [parse] at hp
    split at hp
    · cases hp
    split at hp
    · cases hp
    rename_i b s1 h1
    obtain ⟨k1, _⟩ := parse_post fwd t s s1 b h h1
    have k2 := parse_sigs R fwd t s s1 b h hs hR h1
    split at hp
    · cases hp
    split at hp
    · cases hp
    rename_i nd hnd
    injection hp with hp
    injection hp with e1 e2
    subst e2
    refine sigs_alloc k1.inv k2 (fun sig hsig => ?_)
    unfold arrNode at hnd
    split at hnd
    · cases hnd
    split at hnd
    · cases hnd
    injection hnd with hnd
    rw [← hnd] at hsig; cases hsig
  | .map k t, s, s', i, h, hs, hR, hp => by
    rw [parse] at hp
    split at hp
    · cases hp
    rename_i a s1 h1
    obtain ⟨k1, _⟩ := parse_post fwd k s s1 a h h1
    have k2 := parse_sigs R fwd k s s1 a h hs (fun x hx => hR x (List.mem_append_left _ hx)) h1
    split at hp
    · cases hp
    split at hp
    · cases hp
    rename_i b s2 h2
    obtain ⟨j1, _⟩ := orForward_post k1.inv (fun i s' hr => parse_post fwd t s1 s' i k1.inv hr) h2
    have j2 := orForward_sigs k1.inv k2 (fun i s' hr => parse_post fwd t s1 s' i k1.inv hr)
      (fun i s' hr => parse_sigs R fwd t s1 s' i k1.inv k2 (fun x hx => hR x (List.mem_append_right _ hx)) hr) h2
    split at hp
    · cases hp
    injection hp with hp
    injection hp with e1 e2
    subst e2
    exact sigs_alloc j1.inv j2 (fun sig hsig => by cases hsig)
  | .struct fs, s, s', i, h, hs, hR, hp => by
    rw [parse] at hp
    split at hp
    · cases hp
    rename_i a s1 h1
    obtain ⟨k1, _⟩ := parseFields_post fwd fs s s1 .empty a h (accOk_empty s) h1
    have k2 := parseFields_sigs R fwd fs s s1 .empty a h hs (accOk_empty s) hR h1
    injection hp with hp
    injection hp with e1 e2
    subst e2
    exact sigs_alloc k1.inv k2 (fun sig hsig => by cases hsig)
  | .iface ms, s, s', i, h, hs, hR, hp => by
    rw [parse] at hp
    split at hp
    · cases hp
    rename_i l s1 h1
    obtain ⟨k1, _⟩ := parseMethods_post fwd ms s s1 [] l h h1
    have k2 := parseMethods_sigs R fwd ms s s1 [] l h hs (fun _ hm => by cases hm) hR h1
    injection hp with hp
    injection hp with e1 e2
    subst e2
    refine sigs_alloc k1.inv k2.1 (fun sig hsig => ?_)
    have hsig : sig ∈ l.map Prod.snd := hsig
    obtain ⟨m, hm, rfl⟩ := List.mem_map.mp hsig
    exact k2.2 m hm
  | .fn st, s, s', i, h, hs, hR, hp => by
    rw [parse] at hp
    split at hp
    · cases hp
    rename_i sig s1 h1
    obtain ⟨k1, _⟩ := parseSig_post fwd st s s1 sig h h1
    have k2 := parseSig_sigs R fwd st s s1 sig h hs hR h1
    injection hp with hp
    injection hp with e1 e2
    subst e2
    refine sigs_alloc k1.inv k2.1 (fun sig' hsig => ?_)
    have hsig : sig' ∈ [sig] := hsig
    rw [List.mem_singleton] at hsig
    rw [hsig]; exact k2.2
theorem parseFields_sigs (R : Name → Prop) (fwd : Bool) : ∀ (fs : Flds) (s s' : State) (a a' : Acc), Inv s →
    SigsGood R s → AccOk s a → (∀ x ∈ resultsFields fs, R x) →
    parseFields fwd fs s a = .ok (a', s') → SigsGood R s'
  | .nil, s, s', a, a', h, hs, ha, hR, hp => by
    rw [parseFields] at hp
    injection hp with hp
    injection hp with h1 h2
    subst h2
    exact hs
  | .cons xs t rest, s, s', a, a', h, hs, ha, hR, hp => by
    rw [parseFields] at hp
    split at hp
    · cases hp
    rename_i i s1 h1
    obtain ⟨k1, _⟩ := parse_post fwd t s s1 i h h1
    have k2 := parse_sigs R fwd t s s1 i h hs (fun x hx => hR x (List.mem_append_left _ hx)) h1
    split at hp
    · cases hp
    rename_i a1 h2
    obtain ⟨j1, _⟩ := addFields_ok k1.inv.ok (ha.mono k1.ext.keeps) h2
    exact parseFields_sigs R fwd rest s1 s' a1 a' k1.inv k2 j1 (fun x hx => hR x (List.mem_append_right _ hx)) hp
theorem parseParams_sigs (R : Name → Prop) (fwd : Bool) : ∀ (fs : Flds) (s s' : State) (a a' : List (Name × Id)), Inv s →
    SigsGood R s → (∀ x ∈ resultsFields fs, R x) →
    parseParams fwd fs s a = .ok (a', s') → SigsGood R s'
  | .nil, s, s', a, a', h, hs, hR, hp => by
    rw [parseParams] at hp
    injection hp with hp
    injection hp with h1 h2
    subst h2
    exact hs
  | .cons xs t rest, s, s', a, a', h, hs, hR, hp => by
    rw [parseParams] at hp
    split at hp
    · cases hp
    rename_i i s1 h1
    obtain ⟨k1, _⟩ := orForward_post h (fun i s' hr => parse_post fwd t s s' i h hr) h1
    have k2 := orForward_sigs h hs (fun i s' hr => parse_post fwd t s s' i h hr)
      (fun i s' hr => parse_sigs R fwd t s s' i h hs (fun x hx => hR x (List.mem_append_left _ hx)) hr) h1
    split at hp
    · cases hp
    rename_i a1 h2
    exact parseParams_sigs R fwd rest s1 s' a1 a' k1.inv k2 (fun x hx => hR x (List.mem_append_right _ hx)) hp
theorem parseSig_sigs (R : Name → Prop) (fwd : Bool) : ∀ (st : SigT) (s s' : State) (sig : Sig), Inv s →
    SigsGood R s → (∀ x ∈ resultsSig st, R x) →
    parseSig fwd st s = .ok (sig, s') → SigsGood R s' ∧ SigGood R s' sig
  | .mk ps r, s, s', sig, h, hs, hR, hp => by
    rw [parseSig] at hp
    split at hp
    · cases hp
    rename_i l s1 h1
    obtain ⟨k1, _⟩ := parseParams_post fwd ps s s1 [] l h h1
    have k2 := parseParams_sigs R fwd ps s s1 [] l h hs (fun x hx => hR x (List.mem_append_left _ hx)) h1
    split at hp
    · cases hp
    rename_i res s2 h2
    have j2 := parseResult_sigs R fwd r s1 s2 res k1.inv k2 (fun x hx => hR x (List.mem_append_right _ hx)) h2
    split at hp
    · cases hp
    rename_i sig' h3
    injection hp with hp
    injection hp with e1 e2
    subst e1; subst e2
    exact ⟨j2.1, mkSig_good h3 j2.2⟩
theorem parseResult_sigs (R : Name → Prop) (fwd : Bool) : ∀ (r : ResT) (s s' : State) (i : Option Id), Inv s →
    SigsGood R s → (∀ x ∈ resultsResult r, R x) →
    parseResult fwd r s = .ok (i, s') → SigsGood R s' ∧
      ∀ j, i = some j → isForward (s'.get j).body = true → ∃ y, R y ∧ find s'.cur y = some (.type j)
  | .none, s, s', i, h, hs, hR, hp => by
    rw [parseResult] at hp
    injection hp with hp
    injection hp with h1 h2
    subst h1; subst h2
    exact ⟨hs, fun j hj => by cases hj⟩
  | .single t, s, s', i, h, hs, hR, hp => by
    rw [parseResult] at hp
    split at hp
    · cases hp
    rename_i j s1 h1
    obtain ⟨k1, k2, k3⟩ := orForward_post h (fun i s' hr => parse_post fwd t s s' i h hr) h1
    have k4 := orForward_sigs h hs (fun i s' hr => parse_post fwd t s s' i h hr)
      (fun i s' hr => parse_sigs R fwd t s s' i h hs (fun x hx => hR x (List.mem_append_right _ hx)) hr) h1
    injection hp with hp
    injection hp with e1 e2
    subst e1; subst e2
    refine ⟨k4, ?_⟩
    intro j' hj hf
    injection hj with hj
    subst hj
    by_cases hn : ∃ x, t = .name x
    · obtain ⟨x, rfl⟩ := hn
      have hx : s1.lookup x = some (.type j) := k3
      unfold State.lookup at hx
      split at hx
      · rename_i b hb
        injection hx with hx
        subst hx
        exact ⟨x, hR x (List.mem_append_left _ (List.mem_singleton.mpr rfl)), hb⟩
      · obtain ⟨c, hc1, hc2⟩ := findOuter_mem hx
        rw [k1.inv.outerDecl c hc1 x j hc2] at hf; cases hf
    · exact absurd (Means.notForward k3 (fun x hx => hn ⟨x, hx⟩)) (by
        intro hh
        have hh : isForward (s1.get j).body = false := hh
        rw [hh] at hf; cases hf)
  | .list ts, s, s', i, h, hs, hR, hp => by
    rw [parseResult] at hp
    split at hp
    · cases hp
    rename_i a s1 h1
    obtain ⟨k1, k2, l, k3, k4⟩ := parseFields_post fwd ts s s1 .empty a h (accOk_empty s) h1
    have k5 := parseFields_sigs R fwd ts s s1 .empty a h hs (accOk_empty s) hR h1
    injection hp with hp
    unfold listResult at hp
    split at hp
    · rename_i f hf
      injection hp with e1 e2
      subst e1; subst e2
      refine ⟨k5, ?_⟩
      intro j hj hfw
      injection hj with hj
      subst hj
      have := (k2.fields f (by rw [hf]; exact List.mem_singleton.mpr rfl)).1
      rw [this] at hfw; cases hfw
    · injection hp with e1 e2
      subst e1; subst e2
      refine ⟨sigs_alloc k1.inv k5 (fun sig hsig => by cases hsig), ?_⟩
      intro j hj hfw
      injection hj with hj
      subst hj
      have := graph_new s1 (structNode a)
      have this : ((s1.alloc (structNode a)).2.get (s1.alloc (structNode a)).1).body = _ := this
      have hfw : isForward ((s1.alloc (structNode a)).2.get (s1.alloc (structNode a)).1).body = true := hfw
      rw [this] at hfw; cases hfw
theorem parseMethods_sigs (R : Name → Prop) (fwd : Bool) : ∀ (ms : Meths) (s s' : State) (a a' : List (Name × Sig)), Inv s →
    SigsGood R s → (∀ m ∈ a, SigGood R s m.2) → (∀ x ∈ resultsMethods ms, R x) →
    parseMethods fwd ms s a = .ok (a', s') → SigsGood R s' ∧ ∀ m ∈ a', SigGood R s' m.2
  | .nil, s, s', a, a', h, hs, ha, hR, hp => by
    rw [parseMethods] at hp
    injection hp with hp
    injection hp with h1 h2
    subst h1; subst h2
    exact ⟨hs, ha⟩
  | .method x st rest, s, s', a, a', h, hs, ha, hR, hp => by
    rw [parseMethods] at hp
    split at hp
    · cases hp
    rename_i sig s1 h1
    obtain ⟨k1, _⟩ := parseSig_post fwd st s s1 sig h h1
    have k2 := parseSig_sigs R fwd st s s1 sig h hs (fun x hx => hR x (List.mem_append_left _ hx)) h1
    split at hp
    · cases hp
    rename_i a1 h2
    have j2 := addMethods_ok h2
    refine parseMethods_sigs R fwd rest s1 s' a1 a' k1.inv k2.1 ?_ (fun x hx => hR x (List.mem_append_right _ hx)) hp
    intro m hm
    rw [j2, List.mem_append, List.mem_singleton] at hm
    rcases hm with hm | hm
    · exact (ha m hm).ext h k1.ext
    · rw [hm]; exact k2.2
  | .embed x rest, s, s', a, a', h, hs, ha, hR, hp => by
    rw [parseMethods] at hp
    split at hp
    · cases hp
    · cases hp
    rename_i j hj
    split at hp
    · rename_i e he
      split at hp
      · cases hp
      rename_i a1 h2
      have j2 := addMethods_ok h2
      refine parseMethods_sigs R fwd rest s s' a1 a' h hs ?_ hR hp
      intro m hm
      rw [j2, List.mem_append] at hm
      rcases hm with hm | hm
      · exact ha m hm
      · refine hs j m.2 ?_
        rw [he]; exact List.mem_map.mpr ⟨m, hm, rfl⟩
    · cases hp
end

/-- The names used as results in a list of declarations. -/
def groupResults (g : List (Name × TE)) : List Name := (g.map (fun p => results p.2)).flatten

/-- One declaration: the types that are used as results before must be structured. -/
theorem declItem_sigs {R : Name → Prop} {s s' : State} {x : Name} {t : TE} (h : Inv s) (hs : SigsGood R s)
    (hR : ∀ y ∈ results t, R y) (hd : declItem s x t = .ok s')
    (hx : R x → ∀ e, find s'.cur x = some (.type e) → isForward (s'.get e).body = false →
      structured (s'.get e).body = true) : SigsGood R s' := by
  have hpost := declItem_post h hd
  unfold declItem at hd
  split at hd
  · cases hd
  rename_i i s1 h1
  obtain ⟨k1, k2, k3⟩ := parse_post true t s s1 i h h1
  have hs1 := parse_sigs R true t s s1 i h hs hR h1
  dsimp only at hd
  have hs2 : SigsGood R (s1.alloc (s1.get i)).2 := sigs_alloc k1.inv hs1 (fun sig hsig => hs1 i sig hsig)
  have hext2 := ext_alloc s1 (s1.get i)
  generalize hp : s1.alloc (s1.get i) = p at hd hext2 hs2
  obtain ⟨j, s2⟩ := p
  dsimp only at hd hext2 hs2
  have hcur2 : s2.cur = s1.cur := (congrArg (fun p => p.2.cur) hp).symm
  -- a good signature stays good
  have stays : ∀ sig, SigGood R s2 sig → SigGood R s' sig := by
    intro sig hg
    unfold SigGood at *
    split at hg
    · exact hg
    rename_i r hr
    unfold addType at hd
    split at hd
    · rename_i hx'
      injection hd with hd
      have hget : s'.get r = s2.get r := by rw [← hd]; rfl
      rw [hget]
      refine hg.imp id (fun ⟨a, b, y, c, d⟩ => ⟨a, b, y, c, ?_⟩)
      have : find s'.cur y = if x = y then some (.type j) else find s2.cur y := by rw [← hd]; rfl
      rw [this]
      split
      · rename_i e; rw [← e, hx'] at d; cases d
      · exact d
    · rename_i e he
      split at hd
      · rename_i rbs hrbs
        split at hd
        · cases hd
        split at hd
        · cases hd
        rename_i hnf _
        injection hd with hd
        have hnf : isForward (s2.get j).body = false := by simpa using hnf
        have helt : e < s2.nodes.length := by
          rw [hcur2] at he
          exact Nat.lt_of_lt_of_le (k1.inv.curLt x e he) hext2.len
        have hget : s'.get r = if e = r then s2.get j else s2.get r := by rw [← hd]; exact get_set helt
        have hcur : s'.cur = s2.cur := by rw [← hd]
        by_cases her : e = r
        · subst her
          have hef : isForward (s2.get e).body = true := by rw [hrbs]; rfl
          rcases hg with hg | ⟨_, hb, y, c, d⟩
          · rw [hef] at hg; cases hg.1
          · have hxy : x = y := by
              refine k1.inv.inj x y e (by rw [← hcur2]; exact he) (by rw [← hcur2]; exact d) ?_
              rw [← hext2.old e (k1.inv.curLt x e (by rw [← hcur2]; exact he))]; exact hef
            subst hxy
            have hfe : isForward (s'.get e).body = false := by rw [hget, if_pos rfl]; exact hnf
            exact .inl ⟨hfe, by rw [hx c e (by rw [hcur]; exact he) hfe]; exact hb⟩
        · rw [hget, if_neg her, hcur]; exact hg
      · cases hd
    · cases hd
  intro k sig hsig
  unfold addType at hd
  split at hd
  · injection hd with hd
    have hget : s'.get k = s2.get k := by rw [← hd]; rfl
    rw [hget] at hsig
    exact stays sig (hs2 k sig hsig)
  · rename_i e he
    split at hd
    · split at hd
      · cases hd
      split at hd
      · cases hd
      injection hd with hd
      have helt : e < s2.nodes.length := by
        rw [hcur2] at he
        exact Nat.lt_of_lt_of_le (k1.inv.curLt x e he) hext2.len
      have hget : s'.get k = if e = k then s2.get j else s2.get k := by rw [← hd]; exact get_set helt
      rw [hget] at hsig
      split at hsig
      · exact stays sig (hs2 j sig hsig)
      · exact stays sig (hs2 k sig hsig)
    · cases hd
  · cases hd

theorem SigGood.weaken {R R' : Name → Prop} (hR : ∀ x, R x → R' x) {s : State} {sig : Sig} (h : SigGood R s sig) :
    SigGood R' s sig := by
  unfold SigGood at *
  split at h
  · exact h
  · exact h.imp id (fun ⟨a, b, y, c, d⟩ => ⟨a, b, y, hR y c, d⟩)

/-- A list of declarations.  `before` are the declarations already made. -/
theorem declItems_sigs : ∀ (g before : List (Name × TE)) (s s' : State), Inv s →
    SigsGood (fun y => y ∈ groupResults before) s → declItems s g = .ok s' →
    (∀ pre x t post, g = pre ++ (x, t) :: post → x ∈ groupResults (before ++ pre ++ [(x, t)]) →
      ∀ e, find s'.cur x = some (.type e) → structured (s'.get e).body = true) →
    SigsGood (fun y => y ∈ groupResults (before ++ g)) s'
  | [], before, s, s', h, hs, hd, _ => by
    rw [declItems] at hd
    injection hd with hd
    subst hd
    rw [List.append_nil]; exact hs
  | (x, t) :: g, before, s, s', h, hs, hd, hc => by
    rw [declItems] at hd
    split at hd
    · cases hd
    rename_i s1 h1
    have p1 := declItem_post h h1
    have p2 := declItems_post g s1 s' p1.inv hd
    have hsub : ∀ y, y ∈ groupResults before → y ∈ groupResults (before ++ [(x, t)]) := by
      intro y hy
      unfold groupResults at *
      rw [List.map_append, List.flatten_append]
      exact List.mem_append_left _ hy
    have hres : ∀ y ∈ results t, y ∈ groupResults (before ++ [(x, t)]) := by
      intro y hy
      unfold groupResults
      rw [List.map_append, List.flatten_append]
      refine List.mem_append_right _ ?_
      simpa using hy
    have hs1 : SigsGood (fun y => y ∈ groupResults (before ++ [(x, t)])) s1 := by
      refine declItem_sigs h (fun i sig hsig => (hs i sig hsig).weaken hsub) hres h1 ?_
      intro hR e he hf
      have := hc [] x t g rfl (by simpa using hR) e (p2.cur x _ he)
      rw [p2.keeps e hf] at this
      exact this
    have := declItems_sigs g (before ++ [(x, t)]) s1 s' p1.inv hs1 hd (by
      intro pre y u post hg hy e he
      refine hc ((x, t) :: pre) y u post (by rw [hg]; rfl) ?_ e he
      simpa using hy)
    simpa using this

end Umka.TypeDecl
