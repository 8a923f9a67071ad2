import Verif.TypeDecl.Lemmas
/-!
# Type declarations: what parsing a type does
-/

namespace Umka.TypeDecl
open Spec

/-! ## Meaning -/

section
variable {g g' : Graph} {ref ref' : Name → Id → Prop} (h : Agree g g') (hr : ∀ x i, ref x i → ref' x i)
include h hr

mutual
theorem Means.mono : ∀ (t : TE) (i : Id), Means g ref t i → Means g' ref' t i
  | .name x, i, hm => hr x i hm
  | .ptr w t, i, ⟨b, h1, h2⟩ => ⟨b, h.eq h1 rfl, Means.mono t b h2⟩
  | .dyn v t, i, ⟨b, h1, h2⟩ => ⟨b, h.eq h1 rfl, Means.mono t b h2⟩
  | .arr n t, i, ⟨b, h1, h2⟩ => ⟨b, h.eq h1 rfl, Means.mono t b h2⟩
  | .map k t, i, ⟨a, b, h1, h2, h3⟩ => ⟨a, b, h.eq h1 rfl, Means.mono k a h2, Means.mono t b h3⟩
  | .struct fs, i, ⟨l, h1, h2⟩ => ⟨l, h.eq h1 rfl, MeansFields.mono fs l h2⟩
  | .iface ms, i, ⟨l, h1, h2⟩ => ⟨l, h.eq h1 rfl, MeansMethods.mono ms l h2⟩
  | .fn st, i, ⟨sig, h1, h2⟩ => ⟨sig, h.eq h1 rfl, MeansSig.mono st sig h2⟩
theorem MeansFields.mono : ∀ (fs : Flds) (l : List (Name × Id)), MeansFields g ref fs l → MeansFields g' ref' fs l
  | .nil, _, hm => hm
  | .cons xs t rest, l, ⟨i, l', h1, h2, h3⟩ => ⟨i, l', h1, Means.mono t i h2, MeansFields.mono rest l' h3⟩
theorem MeansMethods.mono : ∀ (ms : Meths) (l : List (Name × Sig)), MeansMethods g ref ms l → MeansMethods g' ref' ms l
  | .nil, _, hm => hm
  | .method x st rest, l, ⟨sig, l', h1, h2, h3⟩ => ⟨sig, l', h1, MeansSig.mono st sig h2, MeansMethods.mono rest l' h3⟩
  | .embed x rest, l, ⟨j, e, l', h1, h2, h3, h4⟩ => ⟨j, e, l', h1, hr x j h2, h.eq h3 rfl, MeansMethods.mono rest l' h4⟩
theorem MeansSig.mono : ∀ (st : SigT) (sig : Sig), MeansSig g ref st sig → MeansSig g' ref' st sig
  | .mk ps r, sig, ⟨h1, h2⟩ => ⟨MeansFields.mono ps _ h1, MeansResult.mono r _ h2⟩
theorem MeansResult.mono : ∀ (r : ResT) (i : Option Id), MeansResult g ref r i → MeansResult g' ref' r i
  | .none, _, hm => hm
  | .single t, i, ⟨j, h1, h2⟩ => ⟨j, h1, Means.mono t j h2⟩
  | .list ts, i, ⟨l, h1, h2⟩ => ⟨l, MeansFields.mono ts l h1, h2.elim .inl (fun ⟨a, j, b, c⟩ => .inr ⟨a, j, b, h.eq c rfl⟩)⟩
end
end

theorem Means.copy {g : Graph} {ref : Name → Id → Prop} {t : TE} {i j : Id} (hm : Means g ref t i)
    (hn : ∀ x, t ≠ .name x) (hg : g j = g i) : Means g ref t j := by
  cases t with
  | name x => exact absurd rfl (hn x)
  | ptr w t => obtain ⟨b, h1, h2⟩ := hm; exact ⟨b, hg.trans h1, h2⟩
  | dyn w t => obtain ⟨b, h1, h2⟩ := hm; exact ⟨b, hg.trans h1, h2⟩
  | arr w t => obtain ⟨b, h1, h2⟩ := hm; exact ⟨b, hg.trans h1, h2⟩
  | map k t => obtain ⟨a, b, h1, h2⟩ := hm; exact ⟨a, b, hg.trans h1, h2⟩
  | struct t => obtain ⟨b, h1, h2⟩ := hm; exact ⟨b, hg.trans h1, h2⟩
  | iface t => obtain ⟨b, h1, h2⟩ := hm; exact ⟨b, hg.trans h1, h2⟩
  | fn t => obtain ⟨b, h1, h2⟩ := hm; exact ⟨b, hg.trans h1, h2⟩

/-- Fields followed by others. -/
theorem MeansFields.snoc {g : Graph} {ref : Name → Id → Prop} {xs : List Name} {t : TE} {rest : Flds} {i : Id}
    {l : List (Name × Id)} (h1 : Means g ref t i) (h2 : MeansFields g ref rest l) :
    MeansFields g ref (.cons xs t rest) (xs.map (fun x => (x, i)) ++ l) := ⟨i, l, rfl, h1, h2⟩

/-! ## The invariant -/

/-- What holds of the compiler's types at any time. -/
structure Inv (s : State) : Prop where
  ok : Ok s
  /-- identifiers refer to types that exist, those of outer blocks to declared types -/
  curLt : ∀ x i, find s.cur x = some (.type i) → i < s.nodes.length
  outerDecl : ∀ b ∈ s.outer, ∀ x i, find b x = some (.type i) → isForward (s.get i).body = false
  /-- there is one name for each type that is not yet declared -/
  inj : ∀ x y i, find s.cur x = some (.type i) → find s.cur y = some (.type i) →
    isForward (s.get i).body = true → x = y
  bound : ∀ i, i < s.nodes.length → isForward (s.get i).body = true → ∃ x, find s.cur x = some (.type i)

/-- All types are declared. -/
def Complete (s : State) : Prop := ∀ i, i < s.nodes.length → isForward (s.get i).body = false

/-- What parsing a type does to the identifiers and the types. -/
structure Ext (s s' : State) : Prop where
  len : s.nodes.length ≤ s'.nodes.length
  old : ∀ i, i < s.nodes.length → s'.get i = s.get i
  outer : s'.outer = s.outer
  cur : ∀ x b, find s.cur x = some b → find s'.cur x = some b
  new : ∀ x, find s.cur x = none → find s'.cur x ≠ none → findOuter s.outer x = none ∧
    ∃ i, find s'.cur x = some (.type i) ∧ i < s'.nodes.length ∧ isForward (s'.get i).body = true

theorem Ext.refl (s : State) : Ext s s where
  len := Nat.le_refl _
  old := fun _ _ => rfl
  outer := rfl
  cur := fun _ _ h => h
  new := fun _ h h' => absurd h h'

theorem Ext.keeps {s s' : State} (h : Ext s s') : Keeps s s' := fun i hi => h.old i (get_lt hi)

theorem Ext.trans {s s1 s2 : State} (h1 : Ext s s1) (h2 : Ext s1 s2) : Ext s s2 where
  len := Nat.le_trans h1.len h2.len
  old := fun i hi => by rw [h2.old i (Nat.lt_of_lt_of_le hi h1.len), h1.old i hi]
  outer := h2.outer.trans h1.outer
  cur := fun x b h => h2.cur x b (h1.cur x b h)
  new := fun x h h' => by
    cases hc : find s1.cur x with
    | none => rw [← h1.outer]; exact h2.new x hc h'
    | some b =>
      obtain ⟨k1, i, k2, k3, k4⟩ := h1.new x h (by rw [hc]; exact fun e => (nomatch e))
      exact ⟨k1, i, h2.cur x _ k2, Nat.lt_of_lt_of_le k3 h2.len, by rw [h2.old i k3]; exact k4⟩

theorem Ext.lookup {s s' : State} (h : Ext s s') {x : Name} {b : Bind} (hb : s.lookup x = some b) :
    s'.lookup x = some b := by
  unfold State.lookup at hb ⊢
  cases hc : find s.cur x with
  | some b' =>
    rw [hc] at hb
    rw [h.cur x b' hc]; exact hb
  | none =>
    rw [hc] at hb
    cases hc' : find s'.cur x with
    | none => rw [h.outer]; exact hb
    | some b' =>
      have := h.new x hc (by rw [hc']; exact fun e => (nomatch e))
      dsimp only at hb
      rw [this.1] at hb; cases hb

/-- What the names refer to now. -/
def refs (s : State) (x : Name) (i : Id) : Prop := s.lookup x = some (.type i)

theorem Ext.refs {s s' : State} (h : Ext s s') : ∀ x i, refs s x i → refs s' x i := fun _ _ hx => h.lookup hx

theorem findOuter_mem {bs : List (List (Name × Bind))} {x : Name} {b : Bind} (h : findOuter bs x = some b) :
    ∃ c ∈ bs, find c x = some b := by
  induction bs with
  | nil => cases h
  | cons c bs ih =>
    unfold findOuter at h
    split at h
    · rename_i r hr
      injection h with h
      subst h
      exact ⟨c, List.mem_cons_self .., hr⟩
    · obtain ⟨c', h1, h2⟩ := ih h
      exact ⟨c', List.mem_cons_of_mem _ h1, h2⟩

theorem Inv.lookupLt {s : State} (h : Inv s) {x : Name} {i : Id} (hl : s.lookup x = some (.type i)) :
    i < s.nodes.length := by
  unfold State.lookup at hl
  split at hl
  · rename_i b hb
    injection hl with hl
    subst hl
    exact h.curLt x i hb
  · obtain ⟨c, h1, h2⟩ := findOuter_mem hl
    exact get_lt (h.outerDecl c h1 x i h2)

theorem ext_alloc (s : State) (n : Node) : Ext s (s.alloc n).2 where
  len := by show s.nodes.length ≤ (s.nodes ++ [n]).length; simp
  old := fun _ hi => get_alloc_old hi
  outer := rfl
  cur := fun _ _ h => h
  new := fun _ h h' => absurd h h'

theorem alloc_lt (s : State) (n : Node) : (s.alloc n).1 < (s.alloc n).2.nodes.length := by
  show s.nodes.length < (s.nodes ++ [n]).length; simp

theorem alloc_split (s : State) (n : Node) {i : Id} (hi : i < (s.alloc n).2.nodes.length) :
    i < s.nodes.length ∨ i = (s.alloc n).1 := by
  have : i < (s.nodes ++ [n]).length := hi
  rw [List.length_append, List.length_singleton] at this
  exact Nat.lt_or_eq_of_le (Nat.le_of_lt_succ this)

/-- A new declared type. -/
theorem inv_alloc {s : State} (h : Inv s) {n : Node} (hn : isForward n.body = false) (hok : Ok (s.alloc n).2) :
    Inv (s.alloc n).2 where
  ok := hok
  curLt := fun x i hx => Nat.lt_of_lt_of_le (h.curLt x i hx) (ext_alloc s n).len
  outerDecl := fun b hb x i hx => by
    have := h.outerDecl b hb x i hx
    rw [(ext_alloc s n).keeps i this]; exact this
  inj := fun x y i hx hy hf => by
    rw [get_alloc_old (h.curLt x i hx)] at hf
    exact h.inj x y i hx hy hf
  bound := fun i hi hf => by
    rcases alloc_split s n hi with h1 | h1
    · rw [get_alloc_old h1] at hf
      exact h.bound i h1 hf
    · rw [h1, get_alloc_new, hn] at hf; cases hf

theorem complete_alloc {s : State} (h : Complete s) {n : Node} (hn : isForward n.body = false) :
    Complete (s.alloc n).2 := by
  intro i hi
  rcases alloc_split s n hi with h1 | h1
  · rw [get_alloc_old h1]; exact h i h1
  · rw [h1, get_alloc_new]; exact hn

/-- What parsing does. -/
structure Post (fwd : Bool) (s s' : State) : Prop where
  inv : Inv s'
  ext : Ext s s'
  nofwd : fwd = false → s'.cur = s.cur ∧ (Complete s → Complete s')

theorem Post.refl {fwd : Bool} {s : State} (h : Inv s) : Post fwd s s := ⟨h, .refl s, fun _ => ⟨rfl, fun x => x⟩⟩

theorem Post.trans {fwd : Bool} {s s1 s2 : State} (h1 : Post fwd s s1) (h2 : Post fwd s1 s2) : Post fwd s s2 :=
  ⟨h2.inv, h1.ext.trans h2.ext, fun hf => ⟨(h2.nofwd hf).1.trans (h1.nofwd hf).1, fun hc => (h2.nofwd hf).2 ((h1.nofwd hf).2 hc)⟩⟩

theorem post_alloc {fwd : Bool} {s : State} (h : Inv s) {n : Node} (hn : isForward n.body = false)
    (hok : Ok (s.alloc n).2) : Post fwd s (s.alloc n).2 :=
  ⟨inv_alloc h hn hok, ext_alloc s n, fun _ => ⟨rfl, fun hc => complete_alloc hc hn⟩⟩

theorem graph_new (s : State) (n : Node) : graph (s.alloc n).2 (s.alloc n).1 = n.body := by
  show ((s.alloc n).2.get _).body = _
  rw [get_alloc_new]

/-- `parseTypeOrForwardType` does what `parseType` does, or makes a new name. -/
theorem orForward_post {fwd rbs : Bool} {t : TE} {s s' : State} {r : Res (Id × State)} {i : Id} (h : Inv s)
    (hr : ∀ i s', r = .ok (i, s') → Post fwd s s' ∧ i < s'.nodes.length ∧ Means (graph s') (refs s') t i)
    (ho : orForward fwd rbs t s r = .ok (i, s')) :
    Post fwd s s' ∧ i < s'.nodes.length ∧ Means (graph s') (refs s') t i := by
  unfold orForward at ho
  split at ho
  · rename_i x
    split at ho
    · rename_i hc
      injection ho with ho
      injection ho with h1 h2
      subst h1
      have hx : find s.cur x = none ∧ findOuter s.outer x = none := by
        have := hc.2
        unfold State.lookup at this
        split at this
        · cases this
        · rename_i hn; exact ⟨hn, this⟩
      have hfind : ∀ y, find s'.cur y = if x = y then some (.type s.nodes.length) else find s.cur y := by
        intro y; rw [← h2]; rfl
      have hnodes : s'.nodes = s.nodes ++ [mkNode (.forward rbs)] := by rw [← h2]
      have hget : ∀ j, s'.get j = (s.alloc (mkNode (.forward rbs))).2.get j := by
        intro j; unfold State.get; rw [hnodes]; rfl
      have hlen : s'.nodes.length = s.nodes.length + 1 := by rw [hnodes]; simp
      have hk := ext_alloc s (mkNode (.forward rbs))
      have hok : Ok s' := by rw [← h2]; exact ok_bind (ok_alloc_forward h.ok rbs) _ _
      have hnew : s'.get s.nodes.length = mkNode (.forward rbs) := by rw [hget]; exact get_alloc_new
      have hext : Ext s s' := by
        constructor
        · rw [hlen]; exact Nat.le_succ _
        · intro j hj; rw [hget]; exact hk.old j hj
        · rw [← h2]
        · intro y b hy
          rw [hfind]
          split
          · rename_i e; rw [← e, hx.1] at hy; cases hy
          · exact hy
        · intro y hy hy'
          rw [hfind] at hy'
          split at hy'
          · rename_i e
            rw [← e]
            refine ⟨hx.2, s.nodes.length, by rw [hfind, if_pos rfl], by rw [hlen]; exact Nat.lt_succ_self _, ?_⟩
            rw [hnew]; rfl
          · exact absurd hy hy'
      refine ⟨⟨⟨hok, ?_, ?_, ?_, ?_⟩, hext, ?_⟩, ?_, ?_⟩
      · intro y j hy
        rw [hfind] at hy
        rw [hlen]
        split at hy
        · injection hy with hy
          injection hy with hy
          subst hy; exact Nat.lt_succ_self _
        · exact Nat.lt_succ_of_lt (h.curLt y j hy)
      · intro b hb y j hy
        rw [hext.outer] at hb
        have := h.outerDecl b hb y j hy
        rw [hext.keeps j this]; exact this
      · intro y z j hy hz hf
        rw [hfind] at hy hz
        split at hy <;> split at hz
        · rename_i e1 e2; exact e1.symm.trans e2
        · injection hy with hy
          injection hy with hy
          have := h.curLt z j hz
          rw [← hy] at this
          exact absurd this (Nat.lt_irrefl _)
        · injection hz with hz
          injection hz with hz
          have := h.curLt y j hy
          rw [← hz] at this
          exact absurd this (Nat.lt_irrefl _)
        · rw [hext.old j (h.curLt y j hy)] at hf
          exact h.inj y z j hy hz hf
      · intro j hj hf
        rw [hlen] at hj
        rcases Nat.lt_or_eq_of_le (Nat.le_of_lt_succ hj) with h3 | h3
        · rw [hext.old j h3] at hf
          obtain ⟨y, hy⟩ := h.bound j h3 hf
          exact ⟨y, hext.cur y _ hy⟩
        · exact ⟨x, by rw [hfind, if_pos rfl, h3]⟩
      · intro hf; rw [hf] at hc; cases hc.1
      · rw [hlen]; exact Nat.lt_succ_self _
      · show s'.lookup x = _
        unfold State.lookup
        rw [hfind, if_pos rfl]
    · exact hr _ _ ho
  · exact hr _ _ ho

theorem addParams_ok {hid : Nat} {xs : List Name} {i : Id} : ∀ {ps ps' : List (Name × Id)},
    addParams hid ps xs i = .ok ps' → ps' = ps ++ xs.map (fun x => (x, i)) := by
  induction xs with
  | nil => intro ps ps' h; injection h with h; subst h; simp
  | cons x xs ih =>
    intro ps ps' h
    unfold addParams at h
    split at h
    · cases h
    split at h
    · cases h
    rw [ih h]; simp

theorem addMethods_ok {ms : List (Name × Sig)} : ∀ {l l' : List (Name × Sig)},
    addMethods l ms = .ok l' → l' = l ++ ms := by
  induction ms with
  | nil => intro l l' h; injection h with h; subst h; simp
  | cons m ms ih =>
    intro l l' h
    unfold addMethods at h
    split at h
    · cases h
    rw [ih h]; simp

theorem mkSig_ok {s : State} {hid : Nat} {ps : List (Name × Id)} {r : Option Id} {sig : Sig}
    (h : mkSig s hid ps r = .ok sig) : sig.params = ps ∧ sig.result = r := by
  unfold mkSig at h
  split at h
  · split at h
    · cases h
    · injection h with h; subst h; exact ⟨rfl, rfl⟩
  · injection h with h; subst h; exact ⟨rfl, rfl⟩

mutual
theorem parse_post (fwd : Bool) : ∀ (t : TE) (s s' : State) (i : Id), Inv s → parse fwd t s = .ok (i, s') →
    Post fwd s s' ∧ i < s'.nodes.length ∧ Means (graph s') (refs s') t i
  | .name x, s, s', i, h, hp => by
    rw [parse] at hp
    split at hp
    · cases hp
    · cases hp
    · rename_i j hj
      injection hp with hp
      injection hp with h1 h2
      subst h1; subst h2
      exact ⟨.refl h, h.lookupLt hj, hj⟩
  | .ptr w t, s, s', i, h, hp => by
    rw [parse] at hp
    split at hp
    · cases hp
    rename_i b s1 h1
    obtain ⟨k1, k2, k3⟩ := orForward_post h (fun i s' hr => parse_post fwd t s s' i h hr) h1
    injection hp with hp
    injection hp with e1 e2
    subst e1; subst e2
    have k4 := post_alloc (fwd := fwd) k1.inv (n := mkNode (.ptr w b)) rfl (ok_alloc_mk k1.inv.ok rfl)
    exact ⟨k1.trans k4, alloc_lt _ _, b, graph_new _ _, Means.mono k4.ext.keeps.agree k4.ext.refs t b k3⟩
  | .dyn v t, s, s', i, h, hp => by
    rw [parse] at hp
    split at hp
    · cases hp
    rename_i b s1 h1
    obtain ⟨k1, k2, k3⟩ := orForward_post h (fun i s' hr => parse_post fwd t s s' i h hr) h1
    split at hp
    · cases hp
    injection hp with hp
    injection hp with e1 e2
    subst e1; subst e2
    have k4 := post_alloc (fwd := fwd) k1.inv (n := mkNode (.dyn v b)) rfl (ok_alloc_mk k1.inv.ok rfl)
    exact ⟨k1.trans k4, alloc_lt _ _, b, graph_new _ _, Means.mono k4.ext.keeps.agree k4.ext.refs t b k3⟩
  | .arr n t, s, s', i, h, hp => by
    rw [parse] at hp
    split at hp
    · cases hp
    split at hp
    · cases hp
    rename_i b s1 h1
    obtain ⟨k1, k2, k3⟩ := parse_post fwd t s s1 b h h1
    split at hp
    · cases hp
    split at hp
    · cases hp
    rename_i nd hnd
    have hbody : nd.body = .arr n b := by
      unfold arrNode at hnd
      split at hnd
      · cases hnd
      split at hnd
      · cases hnd
      injection hnd with hnd
      rw [← hnd]
    injection hp with hp
    injection hp with e1 e2
    subst e1; subst e2
    have k4 := post_alloc (fwd := fwd) k1.inv (n := nd) (by rw [hbody]; rfl) (ok_alloc_arr k1.inv.ok hnd)
    exact ⟨k1.trans k4, alloc_lt _ _, b, (graph_new _ _).trans hbody, Means.mono k4.ext.keeps.agree k4.ext.refs t b k3⟩
  | .map k t, s, s', i, h, hp => by
    rw [parse] at hp
    split at hp
    · cases hp
    rename_i a s1 h1
    obtain ⟨k1, k2, k3⟩ := parse_post fwd k s s1 a h h1
    split at hp
    · cases hp
    split at hp
    · cases hp
    rename_i b s2 h2
    obtain ⟨j1, j2, j3⟩ := orForward_post k1.inv (fun i s' hr => parse_post fwd t s1 s' i k1.inv hr) h2
    split at hp
    · cases hp
    injection hp with hp
    injection hp with e1 e2
    subst e1; subst e2
    have k4 := post_alloc (fwd := fwd) j1.inv (n := mkNode (.map a b)) rfl (ok_alloc_mk j1.inv.ok rfl)
    exact ⟨(k1.trans j1).trans k4, alloc_lt _ _, a, b, graph_new _ _,
      Means.mono (j1.trans k4).ext.keeps.agree (j1.trans k4).ext.refs k a k3,
      Means.mono k4.ext.keeps.agree k4.ext.refs t b j3⟩
  | .struct fs, s, s', i, h, hp => by
    rw [parse] at hp
    split at hp
    · cases hp
    rename_i a s1 h1
    obtain ⟨k1, k2, l, k3, k4⟩ := parseFields_post fwd fs s s1 .empty a h (accOk_empty s) h1
    injection hp with hp
    injection hp with e1 e2
    subst e1; subst e2
    have k5 := post_alloc (fwd := fwd) k1.inv (n := structNode a) rfl (ok_alloc_struct k1.inv.ok k2)
    refine ⟨k1.trans k5, alloc_lt _ _, l, ?_, MeansFields.mono k5.ext.keeps.agree k5.ext.refs fs l k4⟩
    have k3 : a.fields = l := k3
    rw [← k3]
    exact graph_new s1 (structNode a)
  | .iface ms, s, s', i, h, hp => by
    rw [parse] at hp
    split at hp
    · cases hp
    rename_i l s1 h1
    obtain ⟨k1, l', k3, k4⟩ := parseMethods_post fwd ms s s1 [] l h h1
    injection hp with hp
    injection hp with e1 e2
    subst e1; subst e2
    have k5 := post_alloc (fwd := fwd) k1.inv (n := mkNode (.iface l)) rfl (ok_alloc_mk k1.inv.ok rfl)
    refine ⟨k1.trans k5, alloc_lt _ _, l', ?_, MeansMethods.mono k5.ext.keeps.agree k5.ext.refs ms l' k4⟩
    have k3 : l = l' := k3
    rw [← k3]
    exact graph_new s1 (mkNode (.iface l))
  | .fn st, s, s', i, h, hp => by
    rw [parse] at hp
    split at hp
    · cases hp
    rename_i sig s1 h1
    obtain ⟨k1, k4⟩ := parseSig_post fwd st s s1 sig h h1
    injection hp with hp
    injection hp with e1 e2
    subst e1; subst e2
    have k5 := post_alloc (fwd := fwd) k1.inv (n := mkNode (.closure sig)) rfl (ok_alloc_mk k1.inv.ok rfl)
    exact ⟨k1.trans k5, alloc_lt _ _, sig, graph_new _ _, MeansSig.mono k5.ext.keeps.agree k5.ext.refs st sig k4⟩
theorem parseFields_post (fwd : Bool) : ∀ (fs : Flds) (s s' : State) (a a' : Acc), Inv s → AccOk s a →
    parseFields fwd fs s a = .ok (a', s') →
    Post fwd s s' ∧ AccOk s' a' ∧ ∃ l, a'.fields = a.fields ++ l ∧ MeansFields (graph s') (refs s') fs l
  | .nil, s, s', a, a', h, ha, hp => by
    rw [parseFields] at hp
    injection hp with hp
    injection hp with h1 h2
    subst h1; subst h2
    exact ⟨.refl h, ha, [], by simp, rfl⟩
  | .cons xs t rest, s, s', a, a', h, ha, hp => by
    rw [parseFields] at hp
    split at hp
    · cases hp
    rename_i i s1 h1
    obtain ⟨k1, k2, k3⟩ := parse_post fwd t s s1 i h h1
    split at hp
    · cases hp
    rename_i a1 h2
    obtain ⟨j1, j2⟩ := addFields_ok k1.inv.ok (ha.mono k1.ext.keeps) h2
    obtain ⟨m1, m2, l, m3, m4⟩ := parseFields_post fwd rest s1 s' a1 a' k1.inv j1 hp
    refine ⟨k1.trans m1, m2, xs.map (fun x => (x, i)) ++ l, ?_, ?_⟩
    · rw [m3, j2, List.append_assoc]
    · exact ⟨i, l, rfl, Means.mono m1.ext.keeps.agree m1.ext.refs t i k3, m4⟩
theorem parseParams_post (fwd : Bool) : ∀ (fs : Flds) (s s' : State) (a a' : List (Name × Id)), Inv s →
    parseParams fwd fs s a = .ok (a', s') →
    Post fwd s s' ∧ ∃ l, a' = a ++ l ∧ MeansFields (graph s') (refs s') fs l
  | .nil, s, s', a, a', h, hp => by
    rw [parseParams] at hp
    injection hp with hp
    injection hp with h1 h2
    subst h1; subst h2
    exact ⟨.refl h, [], by simp, rfl⟩
  | .cons xs t rest, s, s', a, a', h, hp => by
    rw [parseParams] at hp
    split at hp
    · cases hp
    rename_i i s1 h1
    obtain ⟨k1, k2, k3⟩ := orForward_post h (fun i s' hr => parse_post fwd t s s' i h hr) h1
    split at hp
    · cases hp
    rename_i a1 h2
    have j2 := addParams_ok h2
    obtain ⟨m1, l, m3, m4⟩ := parseParams_post fwd rest s1 s' a1 a' k1.inv hp
    refine ⟨k1.trans m1, xs.map (fun x => (x, i)) ++ l, ?_, ?_⟩
    · rw [m3, j2, List.append_assoc]
    · exact ⟨i, l, rfl, Means.mono m1.ext.keeps.agree m1.ext.refs t i k3, m4⟩
theorem parseSig_post (fwd : Bool) : ∀ (st : SigT) (s s' : State) (sig : Sig), Inv s →
    parseSig fwd st s = .ok (sig, s') → Post fwd s s' ∧ MeansSig (graph s') (refs s') st sig
  | .mk ps r, s, s', sig, h, hp => by
    rw [parseSig] at hp
    split at hp
    · cases hp
    rename_i l s1 h1
    obtain ⟨k1, l', k3, k4⟩ := parseParams_post fwd ps s s1 [] l h h1
    split at hp
    · cases hp
    rename_i res s2 h2
    obtain ⟨j1, j2⟩ := parseResult_post fwd r s1 s2 res k1.inv h2
    split at hp
    · cases hp
    rename_i sig' h3
    injection hp with hp
    injection hp with e1 e2
    subst e1; subst e2
    obtain ⟨m1, m2⟩ := mkSig_ok h3
    refine ⟨k1.trans j1, ?_, ?_⟩
    · rw [m1, k3]
      exact MeansFields.mono j1.ext.keeps.agree j1.ext.refs ps l' k4
    · rw [m2]; exact j2
theorem parseResult_post (fwd : Bool) : ∀ (r : ResT) (s s' : State) (i : Option Id), Inv s →
    parseResult fwd r s = .ok (i, s') → Post fwd s s' ∧ MeansResult (graph s') (refs s') r i
  | .none, s, s', i, h, hp => by
    rw [parseResult] at hp
    injection hp with hp
    injection hp with h1 h2
    subst h1; subst h2
    exact ⟨.refl h, rfl⟩
  | .single t, s, s', i, h, hp => by
    rw [parseResult] at hp
    split at hp
    · cases hp
    rename_i j s1 h1
    obtain ⟨k1, k2, k3⟩ := orForward_post h (fun i s' hr => parse_post fwd t s s' i h hr) h1
    injection hp with hp
    injection hp with e1 e2
    subst e1; subst e2
    exact ⟨k1, j, rfl, k3⟩
  | .list ts, s, s', i, h, hp => by
    rw [parseResult] at hp
    split at hp
    · cases hp
    rename_i a s1 h1
    obtain ⟨k1, k2, l, k3, k4⟩ := parseFields_post fwd ts s s1 .empty a h (accOk_empty s) h1
    have k3 : a.fields = l := k3
    injection hp with hp
    unfold listResult at hp
    split at hp
    · rename_i f hf
      injection hp with e1 e2
      subst e1; subst e2
      refine ⟨k1, l, k4, .inl ⟨f.1, f.2, ?_, rfl⟩⟩
      rw [← k3, hf]
    · rename_i hne
      injection hp with e1 e2
      subst e1; subst e2
      have k5 := post_alloc (fwd := fwd) k1.inv (n := structNode a) rfl (ok_alloc_struct k1.inv.ok k2)
      refine ⟨k1.trans k5, l, MeansFields.mono k5.ext.keeps.agree k5.ext.refs ts l k4, .inr ⟨?_, _, rfl, ?_⟩⟩
      · intro hl
        rw [← k3] at hl
        obtain ⟨f, hf⟩ := List.length_eq_one_iff.mp hl
        exact hne f hf
      · rw [← k3]
        exact graph_new s1 (structNode a)
theorem parseMethods_post (fwd : Bool) : ∀ (ms : Meths) (s s' : State) (a a' : List (Name × Sig)), Inv s →
    parseMethods fwd ms s a = .ok (a', s') →
    Post fwd s s' ∧ ∃ l, a' = a ++ l ∧ MeansMethods (graph s') (refs s') ms l
  | .nil, s, s', a, a', h, hp => by
    rw [parseMethods] at hp
    injection hp with hp
    injection hp with h1 h2
    subst h1; subst h2
    exact ⟨.refl h, [], by simp, rfl⟩
  | .method x st rest, s, s', a, a', h, hp => by
    rw [parseMethods] at hp
    split at hp
    · cases hp
    rename_i sig s1 h1
    obtain ⟨k1, k3⟩ := parseSig_post fwd st s s1 sig h h1
    split at hp
    · cases hp
    rename_i a1 h2
    have j2 := addMethods_ok h2
    obtain ⟨m1, l, m3, m4⟩ := parseMethods_post fwd rest s1 s' a1 a' k1.inv hp
    refine ⟨k1.trans m1, (x, sig) :: l, ?_, ?_⟩
    · rw [m3, j2]; simp
    · exact ⟨sig, l, rfl, MeansSig.mono m1.ext.keeps.agree m1.ext.refs st sig k3, m4⟩
  | .embed x rest, s, s', a, a', h, hp => by
    rw [parseMethods] at hp
    split at hp
    · cases hp
    · cases hp
    rename_i j hj
    split at hp
    · rename_i e he
      split at hp
      · cases hp
      rename_i a1 h2
      have j2 := addMethods_ok h2
      obtain ⟨m1, l, m3, m4⟩ := parseMethods_post fwd rest s s' a1 a' h hp
      refine ⟨m1, e ++ l, ?_, ?_⟩
      · rw [m3, j2]; simp
      · exact ⟨j, e, l, rfl, m1.ext.refs x j hj, m1.ext.keeps.agree.eq he rfl, m4⟩
    · cases hp
end

end Umka.TypeDecl
