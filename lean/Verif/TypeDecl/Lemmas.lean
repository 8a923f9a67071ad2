import Verif.TypeDecl.Model
/-!
# Type declarations: lemmas on the graph and the sizes
-/

namespace Umka.TypeDecl
open Spec

/-- The graph of the types that exist. -/
def graph (s : State) : Graph := fun i => (s.get i).body

/-- Declared types do not change. -/
def Keeps (s s' : State) : Prop := ∀ i, isForward (s.get i).body = false → s'.get i = s.get i

theorem Keeps.refl (s : State) : Keeps s s := fun _ _ => rfl

theorem Keeps.trans {s s1 s2 : State} (h1 : Keeps s s1) (h2 : Keeps s1 s2) : Keeps s s2 := by
  intro i hi
  rw [h2 i (by rw [h1 i hi]; exact hi), h1 i hi]

/-- The graphs agree on declared types. -/
def Agree (g g' : Graph) : Prop := ∀ i, isForward (g i) = false → g' i = g i

theorem Keeps.agree {s s' : State} (h : Keeps s s') : Agree (graph s) (graph s') := by
  intro i hi
  show (s'.get i).body = _
  rw [h i hi]; rfl

theorem Agree.eq {g g' : Graph} (h : Agree g g') {i : Id} {b : Body} (hi : g i = b) (hb : isForward b = false) :
    g' i = b := by rw [h i (by rw [hi]; exact hb), hi]

theorem HasLayout.mono {g g' : Graph} (h : Agree g g') {i s a} (hl : HasLayout g i s a) : HasLayout g' i s a := by
  induction hl with
  | void h0 => exact .void (h.eq h0 rfl)
  | scalar h0 => exact .scalar (h.eq h0 rfl)
  | str h0 => exact .str (h.eq h0 rfl)
  | fiber h0 => exact .fiber (h.eq h0 rfl)
  | ptr h0 => exact .ptr (h.eq h0 rfl)
  | dyn h0 => exact .dyn (h.eq h0 rfl)
  | map h0 => exact .map (h.eq h0 rfl)
  | iface h0 => exact .iface (h.eq h0 rfl)
  | closure h0 => exact .closure (h.eq h0 rfl)
  | arr h0 _ ih => exact .arr (h.eq h0 rfl) ih
  | struct sz al h0 _ ih => exact .struct sz al (h.eq h0 rfl) ih

theorem HasLayout.copy {g : Graph} {i j s a} (hl : HasLayout g i s a) (h : g j = g i) : HasLayout g j s a := by
  cases hl with
  | void h0 => exact .void (h.trans h0)
  | scalar h0 => exact .scalar (h.trans h0)
  | str h0 => exact .str (h.trans h0)
  | fiber h0 => exact .fiber (h.trans h0)
  | ptr h0 => exact .ptr (h.trans h0)
  | dyn h0 => exact .dyn (h.trans h0)
  | map h0 => exact .map (h.trans h0)
  | iface h0 => exact .iface (h.trans h0)
  | closure h0 => exact .closure (h.trans h0)
  | arr h0 h1 => exact .arr (h.trans h0) h1
  | struct sz al h0 h1 => exact .struct sz al (h.trans h0) h1

theorem Empty.mono {g g' : Graph} (h : Agree g g') {i} (hl : Spec.Empty g i) : Spec.Empty g' i := by
  induction hl with
  | zero h0 => exact .zero (h.eq h0 rfl)
  | items h0 _ ih => exact .items (h.eq h0 rfl) ih

theorem Empty.copy {g : Graph} {i j} (hl : Spec.Empty g i) (h : g j = g i) : Spec.Empty g j := by
  cases hl with
  | zero h0 => exact .zero (h.trans h0)
  | items h0 h1 => exact .items (h.trans h0) h1

/-! ## Types are well made -/

/-- The parts of a type are declared, and it is marked if one of them is. -/
def PartsOk (s : State) (n : Node) : Prop :=
  match n.body with
  | .struct fs => ∀ f ∈ fs, isForward (s.get f.2).body = false ∧ ((s.get f.2).gc = true → n.gc = true)
  | .arr k b => 0 < k → isForward (s.get b).body = false ∧ ((s.get b).gc = true → n.gc = true)
  | .str | .fiber | .ptr false _ | .dyn _ _ | .map _ _ | .iface _ | .closure _ => n.gc = true
  | _ => True

theorem PartsOk.mono {s s' : State} (h : Keeps s s') {n : Node} (hp : PartsOk s n) : PartsOk s' n := by
  unfold PartsOk at *
  split at hp
  · intro f hf
    have := hp f hf
    rw [h f.2 this.1]; exact this
  · intro hk
    have := hp hk
    rw [h _ this.1]; exact this
  all_goals exact hp

/-- Size, alignment and mark of a type are right. -/
def Good (s : State) (i : Id) : Prop :=
  (∃ sz al : Nat, (s.get i).size = sz ∧ (s.get i).alignment = al ∧
    ((0 < al ∧ HasLayout (graph s) i sz al) ∨ (sz = 0 ∧ al = 0 ∧ Spec.Empty (graph s) i))) ∧
  PartsOk s (s.get i)

theorem Good.mono {s s' : State} (h : Keeps s s') {i : Id} (hg : Good s i)
    (hi : isForward (s.get i).body = false) : Good s' i := by
  obtain ⟨⟨sz, al, h1, h2, h3⟩, hp⟩ := hg
  unfold Good
  rw [h i hi]
  refine ⟨⟨sz, al, h1, h2, ?_⟩, hp.mono h⟩
  cases h3 with
  | inl h3 => exact .inl ⟨h3.1, HasLayout.mono h.agree h3.2⟩
  | inr h3 => exact .inr ⟨h3.1, h3.2.1, Empty.mono h.agree h3.2.2⟩

theorem Good.copy {s : State} {i j : Id} (hg : Good s i) (h : s.get j = s.get i) : Good s j := by
  obtain ⟨⟨sz, al, h1, h2, h3⟩, hp⟩ := hg
  have hgr : graph s j = graph s i := congrArg Node.body h
  unfold Good
  rw [h]
  refine ⟨⟨sz, al, h1, h2, ?_⟩, hp⟩
  cases h3 with
  | inl h3 => exact .inl ⟨h3.1, HasLayout.copy h3.2 hgr⟩
  | inr h3 => exact .inr ⟨h3.1, h3.2.1, Empty.copy h3.2.2 hgr⟩

/-- All declared types are well made. -/
structure Ok (s : State) : Prop where
  good : ∀ i, isForward (s.get i).body = false → Good s i
  fwd : ∀ i, isForward (s.get i).body = true → ∃ r, s.get i = mkNode (.forward r)

theorem get_lt {s : State} {i : Id} (h : isForward (s.get i).body = false) : i < s.nodes.length := by
  apply Classical.byContradiction
  intro hn
  have hn : s.nodes.length ≤ i := Nat.le_of_not_lt hn
  have : s.get i = mkNode (.forward false) := by
    unfold State.get
    rw [List.getD_eq_getElem?_getD, List.getElem?_eq_none hn]; rfl
  rw [this] at h
  cases h

theorem get_alloc_old {s : State} {n : Node} {i : Id} (h : i < s.nodes.length) : (s.alloc n).2.get i = s.get i := by
  unfold State.get State.alloc
  simp only [List.getD_eq_getElem?_getD]
  rw [List.getElem?_append_left h]

theorem get_alloc_new {s : State} {n : Node} : (s.alloc n).2.get (s.alloc n).1 = n := by
  unfold State.get State.alloc
  simp only [List.getD_eq_getElem?_getD]
  rw [List.getElem?_append_right (Nat.le_refl _)]
  simp

theorem get_alloc_gt {s : State} {n : Node} {i : Id} (h : s.nodes.length < i) :
    (s.alloc n).2.get i = mkNode (.forward false) := by
  unfold State.get State.alloc
  simp only [List.getD_eq_getElem?_getD]
  rw [List.getElem?_eq_none (by simp; omega)]; rfl

theorem keeps_alloc (s : State) (n : Node) : Keeps s (s.alloc n).2 :=
  fun _ hi => get_alloc_old (get_lt hi)

theorem keeps_bind (s : State) (c : List (Name × Bind)) : Keeps s { s with cur := c } := fun _ _ => rfl

theorem ok_bind {s : State} (h : Ok s) (c : List (Name × Bind)) (o : List (List (Name × Bind))) :
    Ok { s with cur := c, outer := o } := ⟨h.good, h.fwd⟩

/-- A new type that is well made, or forward. -/
theorem ok_alloc {s : State} (h : Ok s) {n : Node}
    (hn : isForward n.body = false → Good (s.alloc n).2 (s.alloc n).1)
    (hf : isForward n.body = true → ∃ r, n = mkNode (.forward r)) : Ok (s.alloc n).2 := by
  have key : ∀ i, (i < s.nodes.length ∧ (s.alloc n).2.get i = s.get i) ∨ (i = (s.alloc n).1 ∧ (s.alloc n).2.get i = n) ∨
      (s.alloc n).2.get i = mkNode (.forward false) := by
    intro i
    by_cases h1 : i < s.nodes.length
    · exact .inl ⟨h1, get_alloc_old h1⟩
    · by_cases h2 : i = s.nodes.length
      · refine .inr (.inl ⟨h2, ?_⟩)
        rw [show i = (s.alloc n).1 from h2]
        exact get_alloc_new
      · exact .inr (.inr (get_alloc_gt (Nat.lt_of_le_of_ne (Nat.le_of_not_lt h1) (fun e => h2 e.symm))))
  constructor
  · intro i hi
    rcases key i with ⟨_, h2⟩ | ⟨h1, h2⟩ | h2
    · rw [h2] at hi
      exact (h.good i hi).mono (keeps_alloc s n) hi
    · rw [h2] at hi
      rw [h1]; exact hn hi
    · rw [h2] at hi; cases hi
  · intro i hi
    rcases key i with ⟨_, h2⟩ | ⟨h1, h2⟩ | h2
    · rw [h2] at hi ⊢
      exact h.fwd i hi
    · rw [h2] at hi ⊢
      exact hf hi
    · exact ⟨false, h2⟩

/-- Types of fixed size. -/
def simple : Body → Bool
  | .arr _ _ | .struct _ | .forward _ => false
  | .scalar _ n => 0 < n
  | _ => true

theorem good_mk {s : State} {b : Body} (hb : simple b = true) (i : Id) (hi : s.get i = mkNode b) : Good s i := by
  have hg : graph s i = b := by
    show (s.get i).body = b
    rw [hi]; cases b <;> rfl
  unfold Good
  rw [hi]
  cases b with
  | forward _ => cases hb
  | arr _ _ => cases hb
  | struct _ => cases hb
  | void => exact ⟨⟨0, 1, rfl, rfl, .inl ⟨by decide, .void hg⟩⟩, trivial⟩
  | scalar k n => exact ⟨⟨n, n, rfl, rfl, .inl ⟨by simpa [simple] using hb, .scalar hg⟩⟩, trivial⟩
  | str => exact ⟨⟨8, 8, rfl, rfl, .inl ⟨by decide, .str hg⟩⟩, rfl⟩
  | fiber => exact ⟨⟨8, 8, rfl, rfl, .inl ⟨by decide, .fiber hg⟩⟩, rfl⟩
  | ptr w t =>
    refine ⟨⟨8, 8, rfl, rfl, .inl ⟨by decide, .ptr hg⟩⟩, ?_⟩
    cases w
    · exact rfl
    · exact trivial
  | dyn v t => exact ⟨⟨24, 8, rfl, rfl, .inl ⟨by decide, .dyn hg⟩⟩, rfl⟩
  | map k t => exact ⟨⟨16, 8, rfl, rfl, .inl ⟨by decide, .map hg⟩⟩, rfl⟩
  | iface ms =>
    refine ⟨⟨16 + 8 * ms.length, 8, ?_, rfl, .inl ⟨by decide, .iface hg⟩⟩, rfl⟩
    show (16 : Int) + 8 * ms.length = _
    omega
  | closure sg => exact ⟨⟨24, 8, rfl, rfl, .inl ⟨by decide, .closure hg⟩⟩, rfl⟩

theorem ok_alloc_mk {s : State} (h : Ok s) {b : Body} (hb : simple b = true) : Ok (s.alloc (mkNode b)).2 :=
  ok_alloc h (fun _ => good_mk hb _ get_alloc_new) (fun hf => by cases b <;> cases hf; cases hb)

theorem ok_alloc_forward {s : State} (h : Ok s) (r : Bool) : Ok (s.alloc (mkNode (.forward r))).2 :=
  ok_alloc h (fun hf => by cases hf) (fun _ => ⟨r, rfl⟩)

/-! ## Arrays -/

theorem ok_alloc_arr {s : State} (h : Ok s) {n : Nat} {b : Id} {nd : Node}
    (ha : arrNode n b (s.get b) = .ok nd) : Ok (s.alloc nd).2 := by
  have hnew := get_alloc_new (s := s) (n := nd)
  unfold arrNode at ha
  split at ha
  · cases ha
  split at ha
  · cases ha
  rename_i h1 h2
  injection ha with ha
  apply ok_alloc h _ (fun hf => by rw [← ha] at hf; cases hf)
  intro _
  have hk := keeps_alloc s nd
  have hg : graph (s.alloc nd).2 (s.alloc nd).1 = .arr n b := by
    show ((s.alloc nd).2.get _).body = _
    rw [hnew, ← ha]
  unfold Good
  rw [hnew]
  cases hf : isForward (s.get b).body with
  | true =>
    obtain ⟨r, hr⟩ := h.fwd b hf
    rw [hr] at h1 ha
    have hn : n = 0 := by
      cases n with
      | zero => rfl
      | succ n => exact absurd ⟨Nat.succ_pos n, (show (-1 : Int) < 0 by decide)⟩ h1
    subst hn
    refine ⟨⟨0, 0, ?_, ?_, .inr ⟨rfl, rfl, .zero hg⟩⟩, ?_⟩
    · rw [← ha]; rfl
    · rw [← ha]; rfl
    · unfold PartsOk
      rw [← ha]
      intro h0
      exact absurd h0 (Nat.lt_irrefl 0)
  | false =>
    obtain ⟨⟨sz, al, e1, e2, e3⟩, _⟩ := (h.good b hf).mono hk hf
    rw [hk b hf] at e1 e2
    refine ⟨⟨n * sz, al, ?_, ?_, ?_⟩, ?_⟩
    · rw [← ha]; show (n : Int) * (s.get b).size = _; rw [e1]; simp
    · rw [← ha]; exact e2
    · cases e3 with
      | inl e3 => exact .inl ⟨e3.1, .arr hg e3.2⟩
      | inr e3 => exact .inr ⟨by rw [e3.1]; rfl, e3.2.1, .items hg e3.2.2⟩
    · unfold PartsOk
      rw [← ha]
      intro _
      rw [← ha] at hk
      rw [hk b hf]
      exact ⟨hf, fun x => x⟩

/-! ## Structures -/

theorem align_eq (n a : Nat) (h : 0 < a) : align (n : Int) (a : Int) = (roundUp n a : Nat) := by
  unfold align roundUp
  have : ((n : Int) + ((a : Int) - 1)) = ((n + (a - 1) : Nat) : Int) := by omega
  rw [this, ← Int.natCast_ediv, ← Int.natCast_mul]

/-- The size and alignment that the nodes say. -/
def szOf (s : State) (i : Id) : Nat := (s.get i).size.toNat
def alOf (s : State) (i : Id) : Nat := (s.get i).alignment.toNat

theorem foldl_end_congr {f g f' g' : Id → Nat} (fs : List (Name × Id)) (e : Nat)
    (h : ∀ x ∈ fs, f x.2 = f' x.2 ∧ g x.2 = g' x.2) :
    fs.foldl (fun e x => roundUp e (g x.2) + f x.2) e = fs.foldl (fun e x => roundUp e (g' x.2) + f' x.2) e := by
  induction fs generalizing e with
  | nil => rfl
  | cons x fs ih =>
    simp only [List.foldl_cons]
    rw [(h x (List.mem_cons_self ..)).1, (h x (List.mem_cons_self ..)).2]
    exact ih _ (fun y hy => h y (List.mem_cons_of_mem _ hy))

theorem foldl_align_congr {g g' : Id → Nat} (fs : List (Name × Id)) (e : Nat)
    (h : ∀ x ∈ fs, g x.2 = g' x.2) :
    fs.foldl (fun e x => max e (g x.2)) e = fs.foldl (fun e x => max e (g' x.2)) e := by
  induction fs generalizing e with
  | nil => rfl
  | cons x fs ih =>
    simp only [List.foldl_cons]
    rw [h x (List.mem_cons_self ..)]
    exact ih _ (fun y hy => h y (List.mem_cons_of_mem _ hy))

/-- A structure under construction is well made. -/
structure AccOk (s : State) (a : Acc) : Prop where
  fields : ∀ f ∈ a.fields, isForward (s.get f.2).body = false ∧ ((s.get f.2).gc = true → a.gc = true) ∧
    0 < alOf s f.2 ∧ HasLayout (graph s) f.2 (szOf s f.2) (alOf s f.2)
  stop : a.stop = (fieldsEnd (szOf s) (alOf s) a.fields : Nat)
  alignment : a.alignment = (fieldsAlign (alOf s) a.fields : Nat)
  pos : 0 < a.alignment
  size : a.size = (roundUp (fieldsEnd (szOf s) (alOf s) a.fields) (fieldsAlign (alOf s) a.fields) : Nat)

theorem accOk_empty (s : State) : AccOk s .empty where
  fields := fun _ h => by cases h
  stop := rfl
  alignment := rfl
  pos := by decide
  size := by show (0 : Int) = ((roundUp 0 1 : Nat) : Int); rfl

theorem AccOk.mono {s s' : State} (h : Keeps s s') {a : Acc} (ha : AccOk s a) : AccOk s' a := by
  have key : ∀ f ∈ a.fields, s'.get f.2 = s.get f.2 := fun f hf => h f.2 (ha.fields f hf).1
  have k1 : ∀ f ∈ a.fields, szOf s f.2 = szOf s' f.2 := fun f hf => by unfold szOf; rw [key f hf]
  have k2 : ∀ f ∈ a.fields, alOf s f.2 = alOf s' f.2 := fun f hf => by unfold alOf; rw [key f hf]
  have e1 : fieldsEnd (szOf s) (alOf s) a.fields = fieldsEnd (szOf s') (alOf s') a.fields :=
    foldl_end_congr _ _ (fun f hf => ⟨k1 f hf, k2 f hf⟩)
  have e2 : fieldsAlign (alOf s) a.fields = fieldsAlign (alOf s') a.fields :=
    foldl_align_congr _ _ k2
  constructor
  · intro f hf
    have := ha.fields f hf
    rw [key f hf, ← k1 f hf, ← k2 f hf]
    exact ⟨this.1, this.2.1, this.2.2.1, HasLayout.mono h.agree this.2.2.2⟩
  · rw [ha.stop, e1]
  · rw [ha.alignment, e2]
  · exact ha.pos
  · rw [ha.size, e1, e2]

theorem addField_ok {s : State} (h : Ok s) {a a' : Acc} {x : Name} {i : Id} (ha : AccOk s a)
    (hr : addField s a x i = .ok a') : AccOk s a' ∧ a'.fields = a.fields ++ [(x, i)] := by
  unfold addField at hr
  dsimp only at hr
  split at hr
  · cases hr
  split at hr
  · cases hr
  split at hr
  · cases hr
  split at hr
  · cases hr
  split at hr
  · cases hr
  split at hr
  · cases hr
  rename_i _ hf _ hs _ hal
  injection hr with hr
  have hf : isForward (s.get i).body = false := by simpa using hf
  obtain ⟨⟨sz, al, e1, e2, e3⟩, _⟩ := h.good i hf
  have hl : 0 < al ∧ HasLayout (graph s) i sz al := by
    rcases e3 with e3 | e3
    · exact e3
    · rw [e2, e3.2.1] at hal
      exact absurd (Int.le_refl 0) hal
  have w1 : szOf s i = sz := by unfold szOf; rw [e1]; rfl
  have w2 : alOf s i = al := by unfold alOf; rw [e2]; rfl
  have eEnd : fieldsEnd (szOf s) (alOf s) (a.fields ++ [(x, i)]) =
      roundUp (fieldsEnd (szOf s) (alOf s) a.fields) al + sz := by
    unfold fieldsEnd
    rw [List.foldl_append]
    simp only [List.foldl_cons, List.foldl_nil, w1, w2]
  have eAl : fieldsAlign (alOf s) (a.fields ++ [(x, i)]) = max (fieldsAlign (alOf s) a.fields) al := by
    unfold fieldsAlign
    rw [List.foldl_append]
    simp only [List.foldl_cons, List.foldl_nil, w2]
  have p1 : (align a.stop (s.get i).alignment + (s.get i).size : Int) =
      (fieldsEnd (szOf s) (alOf s) (a.fields ++ [(x, i)]) : Nat) := by
    rw [ha.stop, e2, e1, align_eq _ _ hl.1, eEnd]; rfl
  have p2 : (if a.alignment < (s.get i).alignment then (s.get i).alignment else a.alignment) =
      (fieldsAlign (alOf s) (a.fields ++ [(x, i)]) : Nat) := by
    rw [ha.alignment, e2, eAl]
    split <;> omega
  have p3 : 0 < fieldsAlign (alOf s) (a.fields ++ [(x, i)]) := by
    rw [eAl]; exact Nat.lt_of_lt_of_le hl.1 (Nat.le_max_right _ _)
  subst hr
  refine ⟨⟨?_, ?_, ?_, ?_, ?_⟩, rfl⟩
  · intro f hf'
    have hf' : f ∈ a.fields ++ [(x, i)] := hf'
    rw [List.mem_append, List.mem_singleton] at hf'
    show _ ∧ (_ → (if (s.get i).gc then true else a.gc) = true) ∧ _
    rcases hf' with hf' | hf'
    · have := ha.fields f hf'
      refine ⟨this.1, fun hg => ?_, this.2.2⟩
      have := this.2.1 hg
      split
      · rfl
      · exact this
    · subst hf'
      refine ⟨hf, fun hg => by rw [if_pos hg], ?_, ?_⟩
      · rw [w2]; exact hl.1
      · rw [w1, w2]; exact hl.2
  · exact p1
  · exact p2
  · show 0 < (if a.alignment < (s.get i).alignment then (s.get i).alignment else a.alignment)
    rw [p2]; omega
  · show align (align a.stop (s.get i).alignment + (s.get i).size) (if a.alignment < (s.get i).alignment then (s.get i).alignment else a.alignment) = _
    rw [p1, p2, align_eq _ _ p3]
    rfl

theorem addFields_ok {s : State} (h : Ok s) {xs : List Name} {i : Id} : ∀ {a a' : Acc}, AccOk s a →
    addFields s a xs i = .ok a' → AccOk s a' ∧ a'.fields = a.fields ++ xs.map (fun x => (x, i)) := by
  induction xs with
  | nil =>
    intro a a' ha hr
    injection hr with hr
    subst hr
    exact ⟨ha, by simp⟩
  | cons x xs ih =>
    intro a a' ha hr
    unfold addFields at hr
    split at hr
    · cases hr
    rename_i a1 h1
    obtain ⟨k1, k2⟩ := addField_ok h ha h1
    obtain ⟨k3, k4⟩ := ih k1 hr
    refine ⟨k3, ?_⟩
    rw [k4, k2]; simp

theorem ok_alloc_struct {s : State} (h : Ok s) {a : Acc} (ha : AccOk s a) : Ok (s.alloc (structNode a)).2 := by
  have hnew := get_alloc_new (s := s) (n := structNode a)
  have hk := keeps_alloc s (structNode a)
  apply ok_alloc h _ (fun hf => by cases hf)
  intro _
  have ha' := ha.mono hk
  unfold Good
  rw [hnew]
  refine ⟨⟨_, _, ha'.size, ha'.alignment, .inl ⟨?_, ?_⟩⟩, ?_⟩
  · have := ha'.pos
    rw [ha'.alignment] at this
    omega
  · refine .struct (szOf _) (alOf _) ?_ (fun f hf => (ha'.fields f hf).2.2.2)
    show ((s.alloc (structNode a)).2.get _).body = _
    rw [hnew]; rfl
  · intro f hf
    exact ⟨(ha'.fields f hf).1, (ha'.fields f hf).2.1⟩

end Umka.TypeDecl
