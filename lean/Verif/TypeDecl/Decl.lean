import Verif.TypeDecl.Parse
/-!
# Type declarations: what declarations do
-/

namespace Umka.TypeDecl
open Spec

theorem lookup_of_cur {s : State} {x : Name} {b : Bind} (h : find s.cur x = some b) : s.lookup x = some b := by
  unfold State.lookup; rw [h]

theorem find_mem {l : List (Name × Bind)} {x : Name} {b : Bind} (h : find l x = some b) : (x, b) ∈ l := by
  induction l with
  | nil => cases h
  | cons p l ih =>
    obtain ⟨y, c⟩ := p
    unfold find at h
    split at h
    · rename_i e
      injection h with h
      subst h; subst e
      exact List.mem_cons_self ..
    · exact List.mem_cons_of_mem _ (ih h)

/-- What the declaration of a type does. -/
structure ItemPost (s : State) (x : Name) (t : TE) (s' : State) : Prop where
  inv : Inv s'
  keeps : Keeps s s'
  outer : s'.outer = s.outer
  cur : ∀ y b, find s.cur y = some b → find s'.cur y = some b
  new : ∀ y, find s.cur y = none → find s'.cur y ≠ none → y = x ∨ (findOuter s.outer y = none ∧
    ∃ i, find s'.cur y = some (.type i) ∧ isForward (s'.get i).body = true)
  /-- the other types that are not declared yet are left alone -/
  others : ∀ y k, y ≠ x → find s.cur y = some (.type k) → isForward (s.get k).body = true → s'.get k = s.get k
  /-- the name was not declared before -/
  fresh : find s.cur x = none ∨ ∃ e, find s.cur x = some (.type e) ∧ isForward (s.get e).body = true
  /-- an unresolved type is left only by naming one -/
  declares : ∃ e s1, find s'.cur x = some (.type e) ∧ Ext s s1 ∧
    (∀ y b, find s1.cur y = some b → find s'.cur y = some b) ∧ s'.outer = s1.outer ∧
    Declares (graph s') (refs s1) t e ∧ ((∀ y, t ≠ .name y) → isForward (s'.get e).body = false)

theorem Means.notForward {g : Graph} {ref : Name → Id → Prop} {t : TE} {i : Id} (hm : Means g ref t i)
    (hn : ∀ x, t ≠ .name x) : isForward (g i) = false := by
  cases t with
  | name x => exact absurd rfl (hn x)
  | ptr w t => obtain ⟨b, h1, _⟩ := hm; rw [h1]; rfl
  | dyn w t => obtain ⟨b, h1, _⟩ := hm; rw [h1]; rfl
  | arr w t => obtain ⟨b, h1, _⟩ := hm; rw [h1]; rfl
  | map k t => obtain ⟨a, b, h1, _⟩ := hm; rw [h1]; rfl
  | struct t => obtain ⟨b, h1, _⟩ := hm; rw [h1]; rfl
  | iface t => obtain ⟨b, h1, _⟩ := hm; rw [h1]; rfl
  | fn t => obtain ⟨b, h1, _⟩ := hm; rw [h1]; rfl

theorem Declares.of_means {g : Graph} {ref : Name → Id → Prop} {t : TE} {i e : Id} (hm : Means g ref t i)
    (hg : g e = g i) : Declares g ref t e := by
  cases t with
  | name y => exact ⟨i, hm, hg⟩
  | ptr w t => exact Means.copy hm (fun _ h => by cases h) hg
  | dyn w t => exact Means.copy hm (fun _ h => by cases h) hg
  | arr w t => exact Means.copy hm (fun _ h => by cases h) hg
  | map k t => exact Means.copy hm (fun _ h => by cases h) hg
  | struct t => exact Means.copy hm (fun _ h => by cases h) hg
  | iface t => exact Means.copy hm (fun _ h => by cases h) hg
  | fn t => exact Means.copy hm (fun _ h => by cases h) hg

theorem get_set {s : State} {e k : Id} {n : Node} (he : e < s.nodes.length) :
    ({ s with nodes := s.nodes.set e n } : State).get k = if e = k then n else s.get k := by
  unfold State.get
  simp only [List.getD_eq_getElem?_getD]
  rw [List.getElem?_set]
  by_cases h : e = k
  · rw [if_pos h, if_pos h, if_pos (h ▸ he)]; rfl
  · rw [if_neg h, if_neg h]

theorem declItem_post {s s' : State} {x : Name} {t : TE} (h : Inv s) (hd : declItem s x t = .ok s') :
    ItemPost s x t s' := by
  unfold declItem at hd
  split at hd
  · cases hd
  rename_i i s1 h1
  obtain ⟨k1, k2, k3⟩ := parse_post true t s s1 i h h1
  dsimp only at hd
  have hext2 := ext_alloc s1 (s1.get i)
  have hnew := get_alloc_new (s := s1) (n := s1.get i)
  have hold : (s1.alloc (s1.get i)).2.get i = s1.get i := get_alloc_old k2
  have hok2 : Ok (s1.alloc (s1.get i)).2 := by
    apply ok_alloc k1.inv.ok
    · intro hf
      exact ((k1.inv.ok.good i hf).mono (keeps_alloc _ _) hf).copy (by rw [hnew, hold])
    · intro hf
      exact k1.inv.ok.fwd i hf
  generalize hs2 : s1.alloc (s1.get i) = p at hd hext2 hnew hold hok2
  obtain ⟨j, s2⟩ := p
  dsimp only at hd hext2 hnew hold hok2
  have hj : j = s1.nodes.length := (congrArg Prod.fst hs2).symm
  have hcur2 : s2.cur = s1.cur := (congrArg (fun p => p.2.cur) hs2).symm
  have hout2 : s2.outer = s1.outer := (congrArg (fun p => p.2.outer) hs2).symm
  have hlen2 : s2.nodes.length = s1.nodes.length + 1 := by
    rw [← congrArg (fun p => p.2.nodes.length) hs2]
    show (s1.nodes ++ [_]).length = _
    simp
  have hjlt : j < s2.nodes.length := by rw [hj, hlen2]; exact Nat.lt_succ_self _
  have hm2 : Means (graph s2) (refs s1) t i := Means.mono hext2.keeps.agree (fun _ _ h => h) t i k3
  have hsplit : ∀ k, k < s2.nodes.length → k < s1.nodes.length ∨ k = j := by
    intro k hk
    rw [hlen2] at hk
    rw [hj]
    exact Nat.lt_or_eq_of_le (Nat.le_of_lt_succ hk)
  have fwd_old : ∀ k, k < s.nodes.length → s2.get k = s.get k := by
    intro k hk
    rw [hext2.old k (Nat.lt_of_lt_of_le hk k1.ext.len), k1.ext.old k hk]
  unfold addType at hd
  split at hd
  · -- a new name
    rename_i hx
    injection hd with hd
    rw [hcur2] at hx
    have hxs : find s.cur x = none := by
      cases hc : find s.cur x with
      | none => rfl
      | some b => rw [k1.ext.cur x b hc] at hx; cases hx
    have hfind : ∀ y, find s'.cur y = if x = y then some (.type j) else find s1.cur y := by
      intro y; rw [← hd, ← hcur2]; rfl
    have hget : ∀ k, s'.get k = s2.get k := by intro k; rw [← hd]; rfl
    have hlen : s'.nodes.length = s2.nodes.length := by rw [← hd]
    have hmono : ∀ y b, find s1.cur y = some b → find s'.cur y = some b := by
      intro y b hy
      rw [hfind]
      split
      · rename_i e; rw [← e, hx] at hy; cases hy
      · exact hy
    have hout : s'.outer = s1.outer := by rw [← hd]; exact hout2
    have hgr : graph s' = graph s2 := by funext k; unfold graph; rw [hget]
    refine ⟨⟨?_, ?_, ?_, ?_, ?_⟩, ?_, ?_, ?_, ?_, ?_, .inl hxs, ?_⟩
    · rw [← hd]; exact ok_bind hok2 _ _
    · intro y k hy
      rw [hfind] at hy
      rw [hlen]
      split at hy
      · injection hy with hy
        injection hy with hy
        rw [← hy]; exact hjlt
      · exact Nat.lt_of_lt_of_le (k1.inv.curLt y k hy) hext2.len
    · intro b hb y k hy
      rw [hout] at hb
      have := k1.inv.outerDecl b hb y k hy
      rw [hget, hext2.keeps k this]; exact this
    · intro y z k hy hz hf
      rw [hfind] at hy hz
      split at hy <;> split at hz
      · rename_i e1 e2; exact e1.symm.trans e2
      · injection hy with hy
        injection hy with hy
        have := k1.inv.curLt z k hz
        rw [← hy, hj] at this
        exact absurd this (Nat.lt_irrefl _)
      · injection hz with hz
        injection hz with hz
        have := k1.inv.curLt y k hy
        rw [← hz, hj] at this
        exact absurd this (Nat.lt_irrefl _)
      · rw [hget, hext2.old k (k1.inv.curLt y k hy)] at hf
        exact k1.inv.inj y z k hy hz hf
    · intro k hk hf
      rw [hlen] at hk
      rcases hsplit k hk with h3 | h3
      · rw [hget, hext2.old k h3] at hf
        obtain ⟨y, hy⟩ := k1.inv.bound k h3 hf
        exact ⟨y, hmono y _ hy⟩
      · exact ⟨x, by rw [hfind, if_pos rfl, h3]⟩
    · intro k hk
      rw [hget]; exact fwd_old k (get_lt hk)
    · rw [hout, k1.ext.outer]
    · intro y b hy
      exact hmono y b (k1.ext.cur y b hy)
    · intro y hy hy'
      rw [hfind] at hy'
      split at hy'
      · rename_i e; exact .inl e.symm
      · obtain ⟨m1, k, m2, m3, m4⟩ := k1.ext.new y hy hy'
        exact .inr ⟨m1, k, hmono y _ m2, by rw [hget, hext2.old k m3]; exact m4⟩
    · intro y k _ hy hf
      rw [hget]
      exact fwd_old k (h.curLt y k hy)
    · refine ⟨j, s1, by rw [hfind, if_pos rfl], k1.ext, hmono, hout, ?_, ?_⟩
      · rw [hgr]
        refine Declares.of_means hm2 ?_
        show (s2.get j).body = (s2.get i).body
        rw [hnew, hold]
      · intro hn
        rw [hget, hnew]
        exact Means.notForward k3 hn
  · rename_i e he
    split at hd
    · -- a forward type
      rename_i rbs hrbs
      split at hd
      · cases hd
      rename_i hnf
      split at hd
      · cases hd
      injection hd with hd
      have hnf : isForward (s2.get j).body = false := by simpa using hnf
      rw [hcur2] at he
      have helt1 := k1.inv.curLt x e he
      have helt : e < s2.nodes.length := Nat.lt_of_lt_of_le helt1 hext2.len
      have hef : isForward (s2.get e).body = true := by rw [hrbs]; rfl
      have hef1 : isForward (s1.get e).body = true := by rw [← hext2.old e helt1]; exact hef
      have hget : ∀ k, s'.get k = if e = k then s2.get j else s2.get k := by
        intro k; rw [← hd]; exact get_set helt
      have hej : e ≠ j := by rw [hj]; exact Nat.ne_of_lt helt1
      have hif : isForward (s2.get i).body = false := by
        rw [hold, ← hnew]; exact hnf
      have hei : e ≠ i := by intro hh; rw [← hh, hef] at hif; cases hif
      have hcur : s'.cur = s1.cur := by rw [← hd]; exact hcur2
      have hout : s'.outer = s1.outer := by rw [← hd]; exact hout2
      have hlen : s'.nodes.length = s2.nodes.length := by rw [← hd]; simp
      have hk2 : Keeps s2 s' := by
        intro k hk
        rw [hget, if_neg]
        intro hh
        rw [← hh, hef] at hk; cases hk
      have hok : Ok s' := by
        constructor
        · intro k hk
          by_cases hke : e = k
          · have hge : s'.get k = s'.get j := by rw [hget, hget, if_pos hke, if_neg hej]
            exact ((hok2.good j hnf).mono hk2 hnf).copy hge
          · have hge : s'.get k = s2.get k := by rw [hget, if_neg hke]
            rw [hge] at hk
            exact (hok2.good k hk).mono hk2 hk
        · intro k hk
          by_cases hke : e = k
          · rw [hget, if_pos hke, hnf] at hk; cases hk
          · rw [hget, if_neg hke] at hk ⊢
            exact hok2.fwd k hk
      have hfresh : find s.cur x = none ∨ ∃ e, find s.cur x = some (.type e) ∧ isForward (s.get e).body = true := by
        cases hc : find s.cur x with
        | none => exact .inl rfl
        | some b =>
          have := k1.ext.cur x b hc
          rw [he] at this
          injection this with this
          subst this
          refine .inr ⟨e, rfl, ?_⟩
          rw [← k1.ext.old e (h.curLt x e hc)]; exact hef1
      refine ⟨⟨hok, ?_, ?_, ?_, ?_⟩, ?_, ?_, ?_, ?_, ?_, hfresh, ?_⟩
      · intro y k hy
        rw [hcur] at hy
        rw [hlen]; exact Nat.lt_of_lt_of_le (k1.inv.curLt y k hy) hext2.len
      · intro b hb y k hy
        rw [hout] at hb
        have := k1.inv.outerDecl b hb y k hy
        rw [(hext2.keeps.trans hk2) k this]; exact this
      · intro y z k hy hz hf
        rw [hcur] at hy hz
        by_cases hke : e = k
        · rw [hget, if_pos hke, hnf] at hf; cases hf
        · rw [hget, if_neg hke, hext2.old k (k1.inv.curLt y k hy)] at hf
          exact k1.inv.inj y z k hy hz hf
      · intro k hk hf
        rw [hlen] at hk
        rw [hcur]
        by_cases hke : e = k
        · rw [hget, if_pos hke, hnf] at hf; cases hf
        · rw [hget, if_neg hke] at hf
          rcases hsplit k hk with h3 | h3
          · rw [hext2.old k h3] at hf
            exact k1.inv.bound k h3 hf
          · rw [h3, hnf] at hf; cases hf
      · exact (k1.ext.keeps.trans hext2.keeps).trans hk2
      · rw [hout, k1.ext.outer]
      · intro y b hy
        rw [hcur]; exact k1.ext.cur y b hy
      · intro y hy hy'
        rw [hcur] at hy'
        by_cases hyx : y = x
        · exact .inl hyx
        · obtain ⟨m1, k, m2, m3, m4⟩ := k1.ext.new y hy hy'
          refine .inr ⟨m1, k, by rw [hcur]; exact m2, ?_⟩
          have hke : e ≠ k := by
            intro hh
            rw [← hh] at m2
            exact hyx (k1.inv.inj y x e m2 he hef1)
          rw [hget, if_neg hke, hext2.old k m3]; exact m4
      · intro y k hyx hy hf
        have hyk := k1.ext.cur y _ hy
        have hlt := h.curLt y k hy
        have hke : e ≠ k := by
          intro hh
          rw [← hh] at hyk
          exact hyx (k1.inv.inj y x e hyk he hef1)
        rw [hget, if_neg hke]; exact fwd_old k hlt
      · refine ⟨e, s1, by rw [hcur]; exact he, k1.ext, by rw [hcur]; exact fun _ _ h => h, hout, ?_, ?_⟩
        · refine Declares.of_means (Means.mono hk2.agree (fun _ _ h => h) t i hm2) ?_
          show (s'.get e).body = (s'.get i).body
          rw [hget, hget, if_pos rfl, if_neg hei, hnew, hold]
        · intro _
          rw [hget, if_pos rfl]; exact hnf
    · cases hd
  · cases hd

/-- What a list of declarations does. -/
structure ItemsPost (s : State) (g : List (Name × TE)) (s' : State) : Prop where
  inv : Inv s'
  keeps : Keeps s s'
  outer : s'.outer = s.outer
  cur : ∀ y b, find s.cur y = some b → find s'.cur y = some b
  new : ∀ y, find s.cur y = none → find s'.cur y ≠ none → y ∈ g.map Prod.fst ∨ (findOuter s.outer y = none ∧
    ∃ i, find s'.cur y = some (.type i) ∧ isForward (s'.get i).body = true)
  others : ∀ y k, y ∉ g.map Prod.fst → find s.cur y = some (.type k) → isForward (s.get k).body = true →
    s'.get k = s.get k

theorem declItems_post : ∀ (g : List (Name × TE)) (s s' : State), Inv s → declItems s g = .ok s' → ItemsPost s g s'
  | [], s, s', h, hd => by
    rw [declItems] at hd
    injection hd with hd
    subst hd
    exact ⟨h, .refl s, rfl, fun _ _ h => h, fun _ h h' => absurd h h', fun _ _ _ _ _ => rfl⟩
  | (x, t) :: g, s, s', h, hd => by
    rw [declItems] at hd
    split at hd
    · cases hd
    rename_i s1 h1
    have p1 := declItem_post h h1
    have p2 := declItems_post g s1 s' p1.inv hd
    refine ⟨p2.inv, p1.keeps.trans p2.keeps, p2.outer.trans p1.outer, fun y b hy => p2.cur y b (p1.cur y b hy), ?_, ?_⟩
    · intro y hy hy'
      cases hc : find s1.cur y with
      | none =>
        rcases p2.new y hc hy' with h3 | h3
        · exact .inl (List.mem_cons_of_mem _ h3)
        · exact .inr (by rw [← p1.outer]; exact h3)
      | some b =>
        rcases p1.new y hy (by rw [hc]; exact fun e => (nomatch e)) with h3 | ⟨h3, i, h4, h5⟩
        · exact .inl (by rw [h3]; exact List.mem_cons_self ..)
        · by_cases hyg : y ∈ g.map Prod.fst
          · exact .inl (List.mem_cons_of_mem _ hyg)
          · exact .inr ⟨h3, i, p2.cur y _ h4, by rw [p2.others y i hyg h4 h5]; exact h5⟩
    · intro y k hyn hy hf
      have n1 : y ≠ x := fun e => hyn (by rw [e]; exact List.mem_cons_self ..)
      have n2 : y ∉ g.map Prod.fst := fun e => hyn (List.mem_cons_of_mem _ e)
      have e1 := p1.others y k n1 hy hf
      rw [p2.others y k n2 (p1.cur y _ hy) (by rw [e1]; exact hf), e1]

theorem declItems_append (g1 g2 : List (Name × TE)) : ∀ (s s' : State), declItems s (g1 ++ g2) = .ok s' →
    ∃ s1, declItems s g1 = .ok s1 ∧ declItems s1 g2 = .ok s' := by
  induction g1 with
  | nil => intro s s' h; exact ⟨s, rfl, h⟩
  | cons p g1 ih =>
    intro s s' h
    obtain ⟨x, t⟩ := p
    rw [List.cons_append, declItems] at h
    split at h
    · cases h
    rename_i s1 h1
    obtain ⟨s2, e1, e2⟩ := ih s1 s' h
    refine ⟨s2, ?_, e2⟩
    rw [declItems, h1]; exact e1

theorem declGroup_ok {s s' : State} {g : List (Name × TE)} (h : declGroup s g = .ok s') :
    declItems s g = .ok s' ∧ Complete s' := by
  unfold declGroup at h
  split at h
  · cases h
  rename_i s1 h1
  split at h
  · cases h
  rename_i hany
  injection h with h
  subst h
  refine ⟨h1, ?_⟩
  intro i hi
  cases hf : isForward (s1.get i).body with
  | false => rfl
  | true =>
    exfalso
    apply hany
    rw [List.any_eq_true]
    refine ⟨s1.nodes[i], List.getElem_mem hi, ?_⟩
    have : s1.get i = s1.nodes[i] := by
      unfold State.get
      rw [List.getD_eq_getElem?_getD, List.getElem?_eq_getElem hi]; rfl
    rw [← this]; exact hf

/-- Between declarations. -/
structure Ready (s : State) : Prop where
  inv : Inv s
  complete : Complete s

theorem step_ready {s s' : State} {op : Op} (h : Ready s) (hs : step s op = .ok s') : Ready s' := by
  cases op with
  | types g =>
    obtain ⟨h1, h2⟩ := declGroup_ok hs
    exact ⟨(declItems_post g s s' h.inv h1).inv, h2⟩
  | use t =>
    rw [step] at hs
    split at hs
    · cases hs
    rename_i i s1 h1
    injection hs with hs
    subst hs
    obtain ⟨k1, _⟩ := parse_post false t s s1 i h.inv h1
    exact ⟨k1.inv, (k1.nofwd rfl).2 h.complete⟩
  | other x =>
    rw [step] at hs
    split at hs
    · cases hs
    injection hs with hs
    have hget : ∀ k, s'.get k = s.get k := by intro k; rw [← hs]; rfl
    have hlen : s'.nodes.length = s.nodes.length := by rw [← hs]
    have hfind : ∀ y, find s'.cur y = if x = y then some .other else find s.cur y := by
      intro y; rw [← hs]; rfl
    have hc : Complete s' := by
      intro i hi; rw [hget]; exact h.complete i (by rw [← hlen]; exact hi)
    refine ⟨⟨by rw [← hs]; exact ok_bind h.inv.ok _ _, ?_, ?_, ?_, ?_⟩, hc⟩
    · intro y i hy
      rw [hfind] at hy
      split at hy
      · cases hy
      · rw [hlen]; exact h.inv.curLt y i hy
    · intro b hb y i hy
      rw [← hs] at hb
      rw [hget]; exact h.inv.outerDecl b hb y i hy
    · intro y z i hy _ hf
      rw [hfind] at hy
      split at hy
      · cases hy
      · rw [hget, h.complete i (h.inv.curLt y i hy)] at hf; cases hf
    · intro i hi hf
      rw [hc i hi] at hf; cases hf
  | enter =>
    injection hs with hs
    have hget : ∀ k, s'.get k = s.get k := by intro k; rw [← hs]; rfl
    have hlen : s'.nodes.length = s.nodes.length := by rw [← hs]
    have hc : Complete s' := by
      intro i hi; rw [hget]; exact h.complete i (by rw [← hlen]; exact hi)
    refine ⟨⟨by rw [← hs]; exact ok_bind h.inv.ok _ _, ?_, ?_, ?_, ?_⟩, hc⟩
    · intro y i hy; rw [← hs] at hy; cases hy
    · intro b hb y i hy
      rw [← hs] at hb
      rw [hget]
      rcases List.mem_cons.mp hb with h1 | h1
      · rw [h1] at hy; exact h.complete i (h.inv.curLt y i hy)
      · exact h.inv.outerDecl b h1 y i hy
    · intro y z i hy; rw [← hs] at hy; cases hy
    · intro i hi hf
      rw [hc i hi] at hf; cases hf
  | leave =>
    rw [step] at hs
    split at hs
    · cases hs
    rename_i b bs hb
    injection hs with hs
    have hget : ∀ k, s'.get k = s.get k := by intro k; rw [← hs]; rfl
    have hlen : s'.nodes.length = s.nodes.length := by rw [← hs]
    have hc : Complete s' := by
      intro i hi; rw [hget]; exact h.complete i (by rw [← hlen]; exact hi)
    have hlt : ∀ y i, find s'.cur y = some (.type i) → i < s'.nodes.length := by
      intro y i hy
      rw [← hs] at hy
      rw [hlen]; exact get_lt (h.inv.outerDecl b (by rw [hb]; exact List.mem_cons_self ..) y i hy)
    refine ⟨⟨by rw [← hs]; exact ok_bind h.inv.ok _ _, hlt, ?_, ?_, ?_⟩, hc⟩
    · intro c hcm y i hy
      rw [← hs] at hcm
      rw [hget]; exact h.inv.outerDecl c (by rw [hb]; exact List.mem_cons_of_mem _ hcm) y i hy
    · intro y z i hy _ hf
      rw [hc i (hlt y i hy)] at hf; cases hf
    · intro i hi hf
      rw [hc i hi] at hf; cases hf

theorem run_ready {ops : List Op} : ∀ {s s' : State}, Ready s → run s ops = .ok s' → Ready s' := by
  induction ops with
  | nil => intro s s' h hr; injection hr with hr; subst hr; exact h
  | cons op ops ih =>
    intro s s' h hr
    unfold run at hr
    split at hr
    · cases hr
    rename_i s1 h1
    exact ih (step_ready h h1) hr

theorem init_ready : Ready init := by
  have hc : Complete init := by
    intro i hi
    have : ∀ i : Fin 16, isForward (init.get i).body = false := by decide
    exact this ⟨i, hi⟩
  have hg : ∀ i : Fin 16, ∃ b, simple b = true ∧ init.get i = mkNode b := by
    intro i
    refine ⟨(init.get i).body, ?_, ?_⟩
    · revert i; decide
    · revert i; decide
  refine ⟨⟨⟨?_, ?_⟩, ?_, ?_, ?_, ?_⟩, hc⟩
  · intro i hi
    have := get_lt hi
    obtain ⟨b, h1, h2⟩ := hg ⟨i, this⟩
    exact good_mk h1 i h2
  · intro i hi
    by_cases h : i < init.nodes.length
    · rw [hc i h] at hi; cases hi
    · refine ⟨false, ?_⟩
      unfold State.get
      rw [List.getD_eq_getElem?_getD, List.getElem?_eq_none (Nat.le_of_not_lt h)]; rfl
  · intro x i h; cases h
  · intro b hb x i hx
    have hb : b ∈ [_] := hb
    rw [List.mem_singleton] at hb
    subst hb
    have key : ∀ p ∈ init.outer.head!, ∀ i, p.2 = .type i → i < 16 := by
      intro p hp i hpi
      have : ∀ p ∈ init.outer.head!, (match p.2 with | .type i => decide (i < 16) | .other => true) = true := by decide
      have := this p hp
      rw [hpi] at this
      simpa using this
    exact hc i (key _ (find_mem hx) i rfl)
  · intro x y i h; cases h
  · intro i hi hf
    rw [hc i hi] at hf; cases hf

end Umka.TypeDecl
