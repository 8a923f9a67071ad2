import Verif.TypeDecl.Decl
/-!
# Type declarations: meaning and completeness of what a list of declarations declares
-/

namespace Umka.TypeDecl
open Spec

theorem Declares.mono {g g' : Graph} {ref ref' : Name → Id → Prop} (h : Agree g g')
    (hr : ∀ x i, ref x i → ref' x i) {t : TE} {e : Id} (hd : Declares g ref t e) (he : isForward (g e) = false) :
    Declares g' ref' t e := by
  cases t with
  | name y =>
    obtain ⟨j, h1, h2⟩ := hd
    refine ⟨j, hr y j h1, ?_⟩
    rw [h e he, h j (by rw [← h2]; exact he), h2]
  | ptr w t => exact Means.mono h hr _ _ hd
  | dyn w t => exact Means.mono h hr _ _ hd
  | arr w t => exact Means.mono h hr _ _ hd
  | map k t => exact Means.mono h hr _ _ hd
  | struct t => exact Means.mono h hr _ _ hd
  | iface t => exact Means.mono h hr _ _ hd
  | fn t => exact Means.mono h hr _ _ hd

/-- Meaning of a declaration in a list. -/
theorem group_means {s s' : State} {pre post : List (Name × TE)} {x : Name} {t : TE} (h : Ready s)
    (hg : declGroup s (pre ++ (x, t) :: post) = .ok s') (hx : x ∉ post.map Prod.fst) :
    ∃ e, find s'.cur x = some (.type e) ∧ isForward (s'.get e).body = false ∧
      Declares (graph s') (Refers (fun y => find s.cur y ≠ none ∨ y ∈ pre.map Prod.fst) (find s'.cur)
        (findOuter s.outer)) t e := by
  obtain ⟨h1, hc⟩ := declGroup_ok hg
  obtain ⟨s1, e1, e2⟩ := declItems_append _ _ _ _ h1
  rw [declItems] at e2
  split at e2
  · cases e2
  rename_i s2 hi
  have p1 := declItems_post pre s s1 h.inv e1
  have p2 := declItem_post p1.inv hi
  have p3 := declItems_post post s2 s' p2.inv e2
  obtain ⟨e, sp, q1, q2, q3, q4, q5, q6⟩ := p2.declares
  have hefin : isForward (s'.get e).body = false := hc e (p3.inv.curLt x e (p3.cur x _ q1))
  have hnf : isForward (s2.get e).body = false := by
    cases hf : isForward (s2.get e).body with
    | false => rfl
    | true =>
      rw [p3.others x e hx q1 hf, hf] at hefin
      cases hefin
  refine ⟨e, p3.cur x _ q1, hefin, Declares.mono p3.keeps.agree ?_ q5 hnf⟩
  intro y i hy
  have hy : sp.lookup y = some (.type i) := hy
  unfold State.lookup at hy
  have hout : sp.outer = s.outer := q2.outer.trans p1.outer
  -- what is bound in the block when the type is parsed
  have bnd : ∀ b, find sp.cur y = some b → find s'.cur y = some b := fun b hb => p3.cur y b (q3 y b hb)
  have before_bound : (find s.cur y ≠ none ∨ y ∈ pre.map Prod.fst) → find sp.cur y ≠ none := by
    intro hb
    have : find s1.cur y ≠ none := by
      rcases hb with hb | hb
      · cases hc' : find s.cur y with
        | none => exact absurd hc' hb
        | some b => rw [p1.cur y b hc']; exact fun e => (nomatch e)
      · obtain ⟨p, hp1, hp2⟩ := List.mem_map.mp hb
        obtain ⟨a, b, hab⟩ := List.append_of_mem hp1
        rw [hab] at e1
        obtain ⟨sa, ea, eb⟩ := declItems_append _ _ _ _ e1
        obtain ⟨py, pt⟩ := p
        rw [declItems] at eb
        split at eb
        · cases eb
        rename_i sb hib
        have pa := declItems_post a s sa h.inv ea
        have pb := declItem_post pa.inv hib
        have pc := declItems_post b sb s1 pb.inv eb
        obtain ⟨e', _, r1, _⟩ := pb.declares
        dsimp only at hp2
        subst hp2
        rw [pc.cur _ _ r1]; exact fun e => (nomatch e)
    cases hc' : find s1.cur y with
    | none => exact absurd hc' this
    | some b => rw [q2.cur y b hc']; exact fun e => (nomatch e)
  constructor
  · intro hb
    split at hy
    · rename_i b hb'
      injection hy with hy
      rw [bnd b hb', hy]
    · rename_i hn
      rcases hb with hb | hb
      · exact absurd hn (before_bound hb)
      · rw [hout, hb] at hy; cases hy
  · intro hnb hno
    split at hy
    · rename_i b hb'
      exfalso
      -- bound, but not before: then it is unknown outside
      have hn1 : find sp.cur y ≠ none := by rw [hb']; exact fun e => (nomatch e)
      cases hc1 : find s1.cur y with
      | none => exact hno (by rw [← p1.outer]; exact (q2.new y hc1 hn1).1)
      | some b1 =>
        rcases p1.new y (by
            cases hc0 : find s.cur y with
            | none => rfl
            | some b0 => exact absurd (.inl (by rw [hc0]; exact fun e => (nomatch e))) hnb)
          (by rw [hc1]; exact fun e => (nomatch e)) with h3 | h3
        · exact hnb (.inr h3)
        · exact hno h3.1
    · rw [← hout]; exact hy

/-! ## No type contains itself -/

theorem empty_acc {g : Graph} {i : Id} (h : Spec.Empty g i) : _root_.Acc (fun a b => Contains g b a) i := by
  induction h with
  | zero h0 =>
    constructor
    intro j hj
    cases hj with
    | item h1 h2 => rw [h0] at h1; injection h1 with h1; rw [← h1] at h2; exact absurd h2 (Nat.lt_irrefl 0)
    | field h1 _ => rw [h0] at h1; cases h1
  | items h0 _ ih =>
    constructor
    intro j hj
    cases hj with
    | item h1 h2 => rw [h0] at h1; injection h1 with _ h1; rw [← h1]; exact ih
    | field h1 _ => rw [h0] at h1; cases h1

theorem layout_acc {g : Graph} {i : Id} {sz al : Nat} (h : HasLayout g i sz al) :
    _root_.Acc (fun a b => Contains g b a) i := by
  induction h with
  | arr h0 _ ih =>
    constructor
    intro j hj
    cases hj with
    | item h1 h2 => rw [h0] at h1; injection h1 with _ h1; rw [← h1]; exact ih
    | field h1 _ => rw [h0] at h1; cases h1
  | struct sz al h0 _ ih =>
    constructor
    intro j hj
    cases hj with
    | item h1 h2 => rw [h0] at h1; cases h1
    | field h1 h2 =>
      rw [h0] at h1
      injection h1 with h1
      rw [← h1] at h2
      exact ih _ h2
  | _ h0 =>
    constructor
    intro j hj
    cases hj with
    | item h1 h2 => rw [h0] at h1; cases h1
    | field h1 _ => rw [h0] at h1; cases h1

theorem acc_irrefl {g : Graph} {i : Id} (h : _root_.Acc (fun a b => Contains g b a) i) : ¬ ContainsDeep g i i := by
  have tr : ∀ {i j k}, ContainsDeep g i j → ContainsDeep g j k → ContainsDeep g i k := by
    intro i j k h1 h2
    induction h1 with
    | one h => exact .more h h2
    | more h _ ih => exact .more h (ih h2)
  have snoc : ∀ {i j k}, ContainsDeep g i j → Contains g j k → ContainsDeep g i k := fun h1 h2 => tr h1 (.one h2)
  induction h with
  | intro i _ ih =>
    intro hc
    cases hc with
    | one h1 => exact ih i h1 (.one h1)
    | more h1 h2 => exact ih _ h1 (snoc h2 h1)

theorem Ready.acc {s : State} (h : Ready s) {i : Id} (hi : i < s.nodes.length) :
    _root_.Acc (fun a b => Contains (graph s) b a) i := by
  obtain ⟨⟨sz, al, _, _, h3⟩, _⟩ := h.inv.ok.good i (h.complete i hi)
  rcases h3 with h3 | h3
  · exact layout_acc h3.2
  · exact empty_acc h3.2.2

/-! ## References -/

theorem part_of_contains {s : State} (h : Ok s) {i j : Id} (hi : isForward (s.get i).body = false)
    (hc : Contains (graph s) i j) : isForward (s.get j).body = false ∧ ((s.get j).gc = true → (s.get i).gc = true) := by
  have hp := (h.good i hi).2
  unfold PartsOk at hp
  cases hc with
  | item h1 h2 =>
    have h1 : (s.get i).body = _ := h1
    rw [h1] at hp
    exact hp h2
  | field h1 h2 =>
    have h1 : (s.get i).body = _ := h1
    rw [h1] at hp
    exact hp _ h2

theorem ref_marked {s : State} (h : Ok s) {i : Id} (hi : isForward (s.get i).body = false)
    (hr : IsRef (s.get i).body) : (s.get i).gc = true := by
  have hp := (h.good i hi).2
  unfold PartsOk at hp
  unfold IsRef at hr
  split at hr <;> rename_i hb <;> try (rw [hb] at hp; exact hp)
  exact hr.elim

theorem deep_marked {s : State} (h : Ok s) {i j : Id} (hc : ContainsDeep (graph s) i j) :
    isForward (s.get i).body = false → isForward (s.get j).body = false ∧ ((s.get j).gc = true → (s.get i).gc = true) := by
  induction hc with
  | one h1 => intro hi; exact part_of_contains h hi h1
  | more h1 _ ih =>
    intro hi
    obtain ⟨a, b⟩ := part_of_contains h hi h1
    obtain ⟨c, d⟩ := ih a
    exact ⟨c, fun x => b (d x)⟩

end Umka.TypeDecl
