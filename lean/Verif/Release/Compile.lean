import Verif.Release.Runs
/-! # When variables are released: the compiler -/

namespace Umka.Release

def ClosuresOK (c : Code) : Prop := ∀ f ∈ c.closures, ReleasesAll f

theorem clos_seq {a b : Code} (ha : ClosuresOK a) (hb : ClosuresOK b) : ClosuresOK (.seq a b) := by
  intro f hf
  rcases List.mem_append.mp hf with hf | hf
  · exact ha f hf
  · exact hb f hf

theorem clos_choose {a b : Code} (ha : ClosuresOK a) (hb : ClosuresOK b) : ClosuresOK (.choose a b) := clos_seq ha hb

theorem clos_fn {a b : Code} (ha : ClosuresOK a) (hb : ClosuresOK b) : ClosuresOK (.fn a b) := clos_seq ha hb

theorem clos_loop {a b c : Code} (ha : ClosuresOK a) (hb : ClosuresOK b) (hc : ClosuresOK c) :
    ClosuresOK (.loop a b c) := clos_seq (clos_seq ha hb) hc

theorem clos_nop : ClosuresOK .nop := fun f hf => by cases hf

theorem clos_ownIf (g : Bool) (x : Nat) : ClosuresOK (ownIf g x) := by
  intro f hf
  cases g <;> cases hf

theorem clos_drops (xs : List Nat) : ClosuresOK (drops xs) := by
  induction xs with
  | nil => exact clos_nop
  | cons x xs ih => exact clos_seq (fun f hf => by cases hf) ih

theorem clos_gc (E : Env) : ClosuresOK (gc E) := clos_drops _

def ExprOK (E : Env) (c : Code) (E' : Env) : Prop :=
  ∃ new, Ext E E' new ∧ ExprRuns E (rel new) c ∧ ClosuresOK c

def StmtOK (E : Env) (c : Code) (E' : Env) : Prop :=
  ∃ new, Ext E E' new ∧ StmtRuns E (rel new) c ∧ ClosuresOK c

theorem exprOK_seq {E E1 E2 : Env} {a b : Code} (ha : ExprOK E a E1) (hb : ExprOK E1 b E2) : ExprOK E (.seq a b) E2 := by
  obtain ⟨n1, x1, r1, c1⟩ := ha
  obtain ⟨n2, x2, r2, c2⟩ := hb
  exact ⟨n2 ++ n1, x1.trans x2, by rw [rel_append]; exact expr_seq x1 r1 r2, clos_seq c1 c2⟩

theorem stmtOK_seq {E E1 E2 : Env} {a b : Code} (hi : Inside E) (ha : StmtOK E a E1) (hb : StmtOK E1 b E2) :
    StmtOK E (.seq a b) E2 := by
  obtain ⟨n1, x1, r1, c1⟩ := ha
  obtain ⟨n2, x2, r2, c2⟩ := hb
  exact ⟨n2 ++ n1, x1.trans x2, by rw [rel_append]; exact stmt_seq x1 hi r1 r2, clos_seq c1 c2⟩

theorem stmtOK_of_expr {E E' : Env} {c : Code} (h : ExprOK E c E') : StmtOK E c E' := by
  obtain ⟨n, x, r, c⟩ := h
  exact ⟨n, x, stmt_of_expr r, c⟩

/-- A temporary variable that is set at once. -/
theorem exprOK_add {E : Env} (h : Good E) (g t u : Bool) (hu : (!t || u) = true) :
    ExprOK E (ownIf g E.nextVar) (addId E g t u) := by
  refine ⟨_, good_addId h g t u, ?_, clos_ownIf _ _⟩
  cases g with
  | false =>
    have : rel [⟨E.nextVar, E.cur, false, t, u⟩] = [] := by simp [rel, Id.released]
    rw [this]; exact expr_nop E
  | true =>
    have : rel [⟨E.nextVar, E.cur, true, t, u⟩] = [E.nextVar] := by
      simp only [rel, List.filter, Id.released, hu]
      rfl
    rw [this]; exact expr_own (Nat.le_refl _)

/-- A temporary variable that is never used. -/
theorem exprOK_unused {E : Env} (h : Good E) (g : Bool) : ExprOK E .nop (addId E g true false) := by
  refine ⟨_, good_addId h g true false, ?_, clos_nop⟩
  have : rel [⟨E.nextVar, E.cur, g, true, false⟩] = [] := by simp [rel, Id.released]
  rw [this]; exact expr_nop E

theorem exprOK_declare : ∀ {gs : List Bool} {E : Env}, Good E → ExprOK E (declare gs E).1 (declare gs E).2
  | [], E, h => ⟨[], Ext.refl h, expr_nop E, clos_nop⟩
  | g :: gs, E, h => by
    have h1 := exprOK_add h g false false rfl
    exact exprOK_seq h1 (exprOK_declare h1.choose_spec.1.good)

theorem exprOK_good {E E' : Env} {c : Code} (h : ExprOK E c E') : Good E' := h.choose_spec.1.good
theorem stmtOK_good {E E' : Env} {c : Code} (h : StmtOK E c E') : Good E' := h.choose_spec.1.good

theorem exprOK_scope {E E' : Env} {c : Code} (hg : Good E) (h : ExprOK (enter E) c E') :
    Ext E (leave E') [] ∧ ExprRuns E [] (.seq c (gc E')) ∧ ClosuresOK (.seq c (gc E')) := by
  obtain ⟨n, x, r, c⟩ := h
  exact ⟨(leave_ext hg x).2, expr_scope hg x r, clos_seq c (clos_gc _)⟩

theorem stmtOK_scope {E E' : Env} {c : Code} (hg : Good E) (h : StmtOK (enter E) c E') :
    Ext E (leave E') [] ∧ StmtRuns E [] (.seq c (gc E')) ∧ ClosuresOK (.seq c (gc E')) := by
  obtain ⟨n, x, r, c⟩ := h
  exact ⟨(leave_ext hg x).2, stmt_scope hg x r, clos_seq c (clos_gc _)⟩

/-! ## Conditional expressions -/

theorem insertBefore_at {moved : Id} {rest : List Id} : ∀ {pre : List Id},
    (∀ i ∈ pre, some i.var ≠ rest.head?.map (·.var)) →
    insertBefore moved (rest.head?.map (·.var)) (pre ++ rest) = pre ++ moved :: rest
  | [], _ => by
    cases rest with
    | nil => rfl
    | cons i is => simp [insertBefore]
  | i :: is, h => by
    rw [List.cons_append, insertBefore, if_neg (h i (by simp)), insertBefore_at (fun j hj => h j (by simp [hj]))]
    rfl

theorem addOutside_eq {E E' : Env} {new : List Id} (hg : Good E) (hx : Ext (enter E) E' new) :
    addOutside E' (E.idents.head?.map (·.var)) =
      { E' with idents := new ++ ⟨E'.nextVar, E.cur, true, true, true⟩ :: E.idents, nextVar := E'.nextVar + 1 } := by
  have hid : E'.idents = new ++ E.idents := hx.idents
  have hbt : E'.blocks.tail = E.blocks := by rw [hx.blocks]; rfl
  unfold addOutside addId
  dsimp only
  have hcur : (({ E' with blocks := E'.blocks.tail } : Env)).cur = E.cur := by
    rw [Env.cur, Env.cur, hbt]
  rw [hcur, hid, insertBefore_at]
  intro i hi hc
  cases hE : E.idents with
  | nil => rw [hE] at hc; simp at hc
  | cons j js =>
    rw [hE] at hc
    have hc : i.var = j.var := by simpa using hc
    have hnd := hx.good.nodup
    rw [hid, List.map_append] at hnd
    exact (List.nodup_append.mp hnd).2.2 i.var (List.mem_map_of_mem hi) j.var
      (List.mem_map_of_mem (by rw [hE]; simp)) hc

/-- Leaving the block of the first branch of a conditional expression: the variable for the result is declared in the
enclosing block. -/
theorem leave_outside {E E' : Env} {new : List Id} (hg : Good E) (hx : Ext (enter E) E' new) :
    gcAt (addOutside E' (E.idents.head?.map (·.var))).cur (addOutside E' (E.idents.head?.map (·.var))).idents false =
      rel new ∧
    leave (addOutside E' (E.idents.head?.map (·.var))) = addId (leave E') true true true := by
  rw [addOutside_eq hg hx]
  have hcur : E'.cur = E.numBlocks := by rw [Env.cur, hx.blocks]; rfl
  have hnew : ∀ i ∈ new, i.block = E.numBlocks := fun i hi => hx.block i hi
  have hcE : E.cur < E.numBlocks := by
    cases hb : E.blocks with
    | nil => exact absurd hb hg.ne
    | cons b bs => rw [cur_cons hb]; exact hg.nums b (by rw [hb]; simp)
  have hrest : ∀ i ∈ (⟨E'.nextVar, E.cur, true, true, true⟩ : Id) :: E.idents, i.block ≠ E.numBlocks := by
    intro i hi
    rcases List.mem_cons.mp hi with hi | hi
    · rw [hi]; show E.cur ≠ _; omega
    · exact notin_new hg i hi
  have hid : E'.idents = new ++ E.idents := hx.idents
  have hbt : E'.blocks.tail = E.blocks := by rw [hx.blocks]; rfl
  constructor
  · show gcAt E'.cur _ _ = _
    rw [hcur]; exact gcAt_seg hnew hrest
  · have h1 : identFree E'.cur (new ++ ⟨E'.nextVar, E.cur, true, true, true⟩ :: E.idents) = _ :=
      hcur ▸ free_seg hnew hrest
    have h2 : identFree E'.cur E'.idents = E.idents := by rw [hcur, hid]; exact free_seg hnew (notin_new hg)
    unfold leave addId
    dsimp only
    have h3 : ∀ l n, Env.cur { E' with idents := l, nextVar := n } = E'.cur := fun _ _ => rfl
    rw [h3, h1, h2]
    have h4 : Env.cur { E' with idents := E.idents, blocks := E'.blocks.tail } = E.cur := by
      rw [Env.cur, Env.cur]; show E'.blocks.tail.headD 0 = _; rw [hbt]
    rw [h4]

/-- A branch of a conditional expression: its own variables are dropped, the result is kept. -/
theorem branch_runs {E E' : Env} {new : List Id} {c d : Code} {ys : List Nat} (hx : Ext (enter E) E' new)
    (hr : ExprRuns (enter E) (rel new) c)
    (hd : ∀ t o, Run d t o → (o = .normal ∨ o = .stop) ∧ ∀ held, (∀ y ∈ ys, held y = false) →
      ∃ held', replay t held = some held' ∧ (o = .normal → held' = plus held ys))
    {P : (Nat → Bool) → Prop} (hP : ∀ held, P held → Fresh E held ∧ ∀ y ∈ ys, held y = false)
    (hys : ∀ y ∈ ys, y ∉ rel new) :
    ∀ t o, Run (.seq (.seq c d) (drops (rel new))) t o → (o = .normal ∨ o = .stop) ∧
      ∀ held, P held → ∃ held', replay t held = some held' ∧ (o = .normal → held' = plus held ys) := by
  have hn := new_nodup hx
  intro t o h
  cases h with
  | stop => exact ⟨Or.inr rfl, fun held _ => ⟨held, rfl, fun h => by cases h⟩⟩
  | seq h1 h2 =>
    have ho := (drops_ok h2 hn (held := fun _ => true) (fun _ _ => rfl)).1
    refine ⟨ho, fun held hp => ?_⟩
    obtain ⟨hf, hy⟩ := hP held hp
    have hnew := new_not_held (E := enter E) hx (held := held) hf
    cases h1 with
    | seq h3 h4 =>
      obtain ⟨_, hr⟩ := hr _ _ h3
      obtain ⟨held1, e1, f1⟩ := hr held hf
      cases f1 rfl
      obtain ⟨_, hd⟩ := hd _ _ h4
      obtain ⟨held2, e2, f2⟩ := hd (plus held (rel new)) (fun y hyy => by
        have := hy y hyy
        have := hys y hyy
        simp [plus, *])
      cases f2 rfl
      obtain ⟨_, held3, e3, f3⟩ := drops_ok h2 hn (held := plus (plus held (rel new)) ys)
        (fun x hxx => by simp [plus, hxx])
      refine ⟨held3, ?_, fun ho => ?_⟩
      · simp only [replay_append, e1, Option.bind_some, e2, e3]
      · rw [f3 ho]
        funext z
        simp only [minus, plus]
        cases hz : (rel new).contains z
        · simp
        · have hz' : z ∈ rel new := by simpa using hz
          have h0 := hnew z hz'
          have hz2 : z ∉ ys := fun hc => hys z hc hz'
          simp [h0, hz2]
    | seqExit h3 h4 => exact absurd rfl h4
  | seqExit h1 h2 =>
    cases h1 with
    | stop => exact ⟨Or.inr rfl, fun held _ => ⟨held, rfl, fun h => by cases h⟩⟩
    | seq h3 h4 =>
      obtain ⟨od, hd⟩ := hd _ _ h4
      have : o = .stop := by rcases od with h | h; exact absurd h h2; exact h
      subst this
      refine ⟨Or.inr rfl, fun held hp => ?_⟩
      obtain ⟨hf, hy⟩ := hP held hp
      obtain ⟨_, hr⟩ := hr _ _ h3
      obtain ⟨held1, e1, f1⟩ := hr held hf
      cases f1 rfl
      obtain ⟨held2, e2, f2⟩ := hd (plus held (rel new)) (fun y hyy => by
        have := hy y hyy
        have := hys y hyy
        simp [plus, *])
      exact ⟨held2, by simp only [replay_append, e1, Option.bind_some, e2], fun h => by cases h⟩
    | seqExit h3 h4 =>
      obtain ⟨oc, hr⟩ := hr _ _ h3
      have : o = .stop := by rcases oc with h | h; exact absurd h h2; exact h
      subst this
      refine ⟨Or.inr rfl, fun held hp => ?_⟩
      obtain ⟨held1, e1, _⟩ := hr held (hP held hp).1
      exact ⟨held1, e1, fun h => by cases h⟩

theorem own_runs (x : Nat) : ∀ t o, Run (ownIf true x) t o → (o = .normal ∨ o = .stop) ∧
    ∀ held : Nat → Bool, (∀ y ∈ [x], held y = false) →
      ∃ held', replay t held = some held' ∧ (o = .normal → held' = plus held [x]) := by
  intro t o h
  cases h with
  | stop => exact ⟨Or.inr rfl, fun held _ => ⟨held, rfl, fun h => by cases h⟩⟩
  | own => exact ⟨Or.inl rfl, fun held hf => ⟨_, replay_own (hf x (by simp)), fun _ => rfl⟩⟩

/-- `c ? a : b`, after `c`, for a result that contains references. -/
theorem exprOK_ternary {E E1 E2 : Env} {ca cb : Code} (hg : Good E) (ha : ExprOK (enter E) ca E1)
    (hb : ExprOK (enter (leave (addOutside E1 (E.idents.head?.map (·.var))))) cb E2) :
    ExprOK E (.choose (.seq (.seq ca (ownIf true E1.nextVar)) (gc (addOutside E1 (E.idents.head?.map (·.var)))))
      (.seq (.seq cb (ownIf true E1.nextVar)) (gc E2))) (leave E2) := by
  obtain ⟨na, xa, ra, ka⟩ := ha
  obtain ⟨nb, xb, rb, kb⟩ := hb
  obtain ⟨g1, l1⟩ := leave_outside hg xa
  have hl := (leave_ext hg xa).2
  have hadd := good_addId hl.good true true true
  rw [← l1] at hadd
  have hE3 : Ext E (leave (addOutside E1 (E.idents.head?.map (·.var)))) [⟨E1.nextVar, E.cur, true, true, true⟩] := by
    have := hl.trans hadd
    have hc : (leave E1).cur = E.cur := by rw [Env.cur, Env.cur, hl.blocks]
    rw [hc] at this
    exact this
  generalize hG : leave (addOutside E1 (E.idents.head?.map (·.var))) = E3 at *
  obtain ⟨g2, _⟩ := leave_ext hE3.good xb
  have hrel : rel [⟨E1.nextVar, E.cur, true, true, true⟩] = [E1.nextVar] := rfl
  have hle : E.nextVar ≤ E1.nextVar := xa.next
  have h3 : E1.nextVar + 1 ≤ E3.nextVar := by rw [l1]; exact Nat.le_refl _
  refine ⟨_, hE3.trans (leave_ext hE3.good xb).2, ?_, ?_⟩
  · rw [List.nil_append, hrel]
    unfold gc
    rw [g1, g2]
    have hP : ∀ held, Fresh E held → Fresh E held ∧ ∀ y ∈ [E1.nextVar], held y = false := by
      intro held hf
      refine ⟨hf, fun y hy => ?_⟩
      simp at hy
      exact hf y (by omega)
    have hP' : ∀ held, Fresh E held → Fresh E3 held ∧ ∀ y ∈ [E1.nextVar], held y = false := by
      intro held hf
      exact ⟨fun x hxx => hf x (Nat.le_trans hE3.next hxx), (hP held hf).2⟩
    refine expr_choose ?_ ?_
    · refine branch_runs xa ra (own_runs _) hP ?_
      intro y hy hc
      simp at hy
      obtain ⟨i, hi, e⟩ := mem_rel hc
      have := xa.good.vars i (by rw [xa.idents]; exact List.mem_append_left _ hi)
      omega
    · refine branch_runs xb rb (own_runs _) hP' ?_
      intro y hy hc
      simp at hy
      have := xb.rel_fresh y hc
      have : E3.nextVar ≤ y := this
      omega
  · exact clos_choose (clos_seq (clos_seq ka (clos_ownIf _ _)) (clos_gc _))
      (clos_seq (clos_seq kb (clos_ownIf _ _)) (clos_gc _))

/-! ## Functions -/

theorem runs_body {E : Env} {c : Code} (h : StmtRuns E [] c) (hret : E.ret = E.cur) (hb : E.brk = none)
    (hc : E.cont = none) {t : List Ev} {o : Out} (hr : Run c t o) {held : Nat → Bool} (hf : Fresh E held) :
    ∃ held', replay t held = some held' ∧ (o ≠ .stop → held' = held) := by
  have hh : Holds E held := by
    refine ⟨?_, ?_, ?_⟩
    · rw [hret, above_cur]; simp [rel]
    · rw [hb]; simp
    · rw [hc]; simp
  obtain ⟨held', e, f⟩ := h t o hr held hf hh
  refine ⟨held', e, fun ho => ?_⟩
  cases o with
  | normal => rw [show held' = _ from f, plus_nil]
  | brk => obtain ⟨b, hb', _⟩ := f; rw [hb] at hb'; cases hb'
  | cont => obtain ⟨b, hb', _⟩ := f; rw [hc] at hb'; cases hb'
  | ret =>
    rw [show held' = _ from f, hret, above_cur]
    exact minus_nil held
  | stop => exact absurd rfl ho

/-- A function releases the references of all its variables. -/
theorem fn_releases {E F : Env} {cp cb : Code} {np : List Id} (hg : Good E) (hp : Ext (enter E) F np)
    (rp : ExprRuns (enter E) (rel np) cp) {F' : Env} (hF' : F' = { F with brk := none, cont := none, ret := F.cur })
    (hb : StmtRuns F' [] cb) {T : Env} (hT : Ext F' T []) : ReleasesAll (.seq cp (.fn cb (gc T))) := by
  have hn := new_nodup hp
  have hTgc : gcAt T.cur T.idents false = rel np := by
    have := (leave_ext hg hp).1
    have e1 : T.cur = F.cur := by rw [Env.cur, Env.cur, hT.blocks, hF']
    have e2 : T.idents = F.idents := by rw [hT.idents, hF']; rfl
    rw [e1, e2]; exact this
  have hno : Fresh (enter E) nothing := fun _ _ => rfl
  have hfr : Fresh F' (plus nothing (rel np)) := by
    have := fresh_ext hp hno
    rw [hF']; exact this
  intro t o h
  cases h with
  | stop => exact ⟨_, rfl, fun h => absurd rfl h⟩
  | seq h1 h2 =>
    obtain ⟨_, rp⟩ := rp _ _ h1
    obtain ⟨held1, e1, f1⟩ := rp nothing hno
    cases f1 rfl
    cases h2 with
    | stop => exact ⟨_, by rw [List.append_nil]; exact e1, fun h => absurd rfl h⟩
    | fn h3 h4 h5 =>
      unfold gc at h5
      rw [hTgc] at h5
      obtain ⟨held2, e2, f2⟩ := runs_body hb (by rw [hF']; rfl) (by rw [hF']) (by rw [hF']) h3 hfr
      cases f2 h4
      obtain ⟨ho, held3, e3, f3⟩ := drops_ok h5 hn (held := plus nothing (rel np)) (fun x hxx => by simp [plus, hxx])
      refine ⟨held3, by simp only [replay_append, e1, Option.bind_some, e2, e3], fun hs => ?_⟩
      rcases ho with rfl | rfl
      · rw [f3 rfl, minus_plus (held := nothing) (fun _ _ => rfl)]
      · exact absurd rfl hs
    | fnStop h3 =>
      obtain ⟨held2, e2, f2⟩ := runs_body hb (by rw [hF']; rfl) (by rw [hF']) (by rw [hF']) h3 hfr
      exact ⟨held2, by rw [replay_append, e1]; exact e2, fun h => absurd rfl h⟩
  | seqExit h1 h2 =>
    obtain ⟨oc, rp⟩ := rp _ _ h1
    have : o = .stop := by rcases oc with h | h; exact absurd h h2; exact h
    subst this
    obtain ⟨held1, e1, _⟩ := rp nothing hno
    exact ⟨held1, e1, fun h => absurd rfl h⟩

theorem good_set {E : Env} (h : Good E) (b c : Option Nat) (r : Nat) (hb : ∀ x ∈ b, x < E.numBlocks)
    (hc : ∀ x ∈ c, x < E.numBlocks) (hr : r < E.numBlocks) : Good { E with brk := b, cont := c, ret := r } :=
  ⟨h.segs, h.vars, h.nodup, h.nums, h.ne, hb, hc, hr⟩

theorem cur_lt {E : Env} (h : Good E) : E.cur < E.numBlocks := by
  cases hb : E.blocks with
  | nil => exact absurd hb h.ne
  | cons b bs => rw [cur_cons hb]; exact h.nums b (by rw [hb]; simp)

/-- After a function the state is the same as before. -/
theorem ext_restore {E F F' T : Env} {np : List Id} (hg : Good E) (hp : Ext (enter E) F np)
    (hF' : F' = { F with brk := none, cont := none, ret := F.cur }) (hT : Ext F' T []) :
    Ext E { leave T with brk := E.brk, cont := E.cont, ret := E.ret } [] := by
  have hx : Ext (enter E) { T with brk := E.brk, cont := E.cont, ret := E.ret } np := by
    have hn : F.numBlocks ≤ T.numBlocks := by have := hT.num; rw [hF'] at this; exact this
    have hn0 : E.numBlocks + 1 ≤ F.numBlocks := hp.num
    refine ⟨?_, hp.block, hp.fresh, ?_, ?_, ?_, rfl, rfl, rfl, ?_⟩
    · show T.idents = _
      rw [hT.idents, hF']; exact hp.idents
    · have := hT.next; rw [hF'] at this; exact Nat.le_trans hp.next this
    · show T.blocks = _
      rw [hT.blocks, hF']; exact hp.blocks
    · show E.numBlocks + 1 ≤ T.numBlocks
      omega
    · refine good_set hT.good _ _ _ ?_ ?_ ?_
      · intro b hb; have := hg.brk b hb; omega
      · intro b hb; have := hg.cont b hb; omega
      · have := hg.ret; omega
  exact (leave_ext hg hx).2

/-! ## Loops -/

theorem expr_loop {E : Env} {b : Code} (hb : ExprRuns E [] b) : ExprRuns E [] (.loop .nop b .nop) := by
  intro t o h
  have key := fun held hf => run_loop (c := .nop) (b := b) (p := .nop) (held := held) (R := fun _ => False)
    (fun t o h => ⟨(expr_nop E t o h).1, by
      obtain ⟨h', e, f⟩ := (expr_nop E t o h).2 held hf
      exact ⟨h', e, fun ho => by rw [f ho, plus_nil]⟩⟩)
    (fun t o h => by
      obtain ⟨h', e, f⟩ := (hb t o h).2 held hf
      refine ⟨h', e, fun ho => ?_, fun h1 h2 => ?_⟩
      · rcases (hb t o h).1 with h | h <;> rw [ho] at h <;> cases h
      · rcases (hb t o h).1 with h | h
        · rw [f h, plus_nil]
        · exact absurd h h2)
    (fun t o h => by
      obtain ⟨h', e, f⟩ := (expr_nop E t o h).2 held hf
      rcases (expr_nop E t o h).1 with rfl | rfl
      · exact ⟨by simp, by simp, h', e, by simp, fun ho => by rw [f ho, plus_nil]⟩
      · exact ⟨by simp, by simp, h', e, by simp, fun ho => by cases ho⟩)
    h rfl
  have hno : Fresh E nothing := fun _ _ => rfl
  obtain ⟨n1, n2, _, _, n3, _⟩ := key nothing hno
  refine ⟨?_, fun held hf => ?_⟩
  · cases o with
    | normal => exact Or.inl rfl
    | stop => exact Or.inr rfl
    | brk => exact absurd rfl n1
    | cont => exact absurd rfl n2
    | ret => exact (n3 rfl).elim
  · obtain ⟨_, _, h', e, _, f⟩ := key held hf
    exact ⟨h', e, fun ho => by rw [f ho, plus_nil]⟩

/-- The loop of a `for` statement.  `B`: the state in which its body is compiled. -/
theorem stmt_loop {E B : Env} {c b p : Code} (hbrk : E.brk = none) (hcont : E.cont = none)
    (hc : ExprRuns E [] c) (hp : StmtRuns E [] p) (hb : StmtRuns B [] b) (hx : ∃ E1, Ext E E1 [] ∧
      B = { E1 with brk := some E1.cur, cont := some E1.cur }) : StmtRuns E [] (.loop c b p) := by
  obtain ⟨E1, hx, hB⟩ := hx
  intro t o h held hf hh
  have hfB : Fresh B held := by rw [hB]; exact fun x hxx => hf x (Nat.le_trans hx.next hxx)
  have habove : ∀ b, above B b = above E b := fun b => by
    have : above B b = above E1 b := by rw [hB]; rfl
    rw [this, above_ext_nil hx]
  have hBcur : B.cur = E1.cur := by rw [hB]; rfl
  have hhB : Holds B held := by
    refine ⟨?_, ?_, ?_⟩
    · have : B.ret = E.ret := by rw [hB]; exact hx.ret
      rw [this, habove]; exact hh.ret
    · intro b hb'
      have : b = B.cur := by rw [hBcur]; rw [hB] at hb'; simpa using hb'.symm
      rw [this, above_cur]; simp [rel]
    · intro b hb'
      have : b = B.cur := by rw [hBcur]; rw [hB] at hb'; simpa using hb'.symm
      rw [this, above_cur]; simp [rel]
  obtain ⟨n1, n2, h', e, f1, f2⟩ := run_loop (held := held) (R := fun h' => h' = minus held (rel (above E E.ret)))
    (fun t o h => ⟨(hc t o h).1, by
      obtain ⟨h', e, f⟩ := (hc t o h).2 held hf
      exact ⟨h', e, fun ho => by rw [f ho, plus_nil]⟩⟩)
    (fun t o h => by
      obtain ⟨h', e, f⟩ := hb t o h held hfB hhB
      refine ⟨h', e, fun ho => ?_, fun h1 h2 => ?_⟩
      · subst ho
        have : B.ret = E.ret := by rw [hB]; exact hx.ret
        rw [show h' = _ from f, this, habove]
      · cases o with
        | normal => rw [show h' = _ from f, plus_nil]
        | brk =>
          obtain ⟨b, hb', ee⟩ := f
          have : b = B.cur := by rw [hBcur]; rw [hB] at hb'; simpa using hb'.symm
          rw [ee, this, above_cur]; exact minus_nil held
        | cont =>
          obtain ⟨b, hb', ee⟩ := f
          have : b = B.cur := by rw [hBcur]; rw [hB] at hb'; simpa using hb'.symm
          rw [ee, this, above_cur]; exact minus_nil held
        | ret => exact absurd rfl h1
        | stop => exact absurd rfl h2)
    (fun t o h => by
      obtain ⟨h', e, f⟩ := hp t o h held hf hh
      cases o with
      | normal => exact ⟨by simp, by simp, h', e, by simp, fun _ => by rw [show h' = _ from f, plus_nil]⟩
      | brk => obtain ⟨b, hb', _⟩ := f; rw [hbrk] at hb'; cases hb'
      | cont => obtain ⟨b, hb', _⟩ := f; rw [hcont] at hb'; cases hb'
      | ret => exact ⟨by simp, by simp, h', e, fun _ => f, by simp⟩
      | stop => exact ⟨by simp, by simp, h', e, by simp, by simp⟩)
    h rfl
  refine ⟨h', e, ?_⟩
  cases o with
  | normal => show h' = _; rw [f2 rfl, plus_nil]
  | brk => exact absurd rfl n1
  | cont => exact absurd rfl n2
  | ret => exact f1 rfl
  | stop => trivial

/-- What runs without `break` and `continue` runs within a loop. -/
theorem stmt_weaken {E : Env} {n : List Nat} {c : Code} (h : StmtRuns { E with brk := none, cont := none } n c) :
    StmtRuns E n c := by
  intro t o hr held hf hh
  obtain ⟨held', e, f⟩ := h t o hr held hf ⟨hh.ret, fun b hb => (by cases hb), fun b hb => (by cases hb)⟩
  refine ⟨held', e, ?_⟩
  cases o with
  | normal => exact f
  | brk => obtain ⟨b, hb, _⟩ := f; cases hb
  | cont => obtain ⟨b, hb, _⟩ := f; cases hb
  | ret => exact f
  | stop => trivial

/-- A `for` statement. -/
theorem stmtOK_for {E E1 E2 E3 E4 : Env} {ci cc cp cb : Code} (hg : Good E)
    (hi : StmtOK { enter E with brk := none, cont := none } ci E1) (hc : ExprOK (enter E1) cc E2)
    (hp : StmtOK (enter (leave E2)) cp E3)
    (hb : StmtOK (enter { leave E3 with brk := some (leave E3).cur, cont := some (leave E3).cur }) cb E4) :
    StmtOK E (.seq (.seq ci (.loop (.seq cc (gc E2)) (.seq cb (gc E4)) (.seq cp (gc E3)))) (gc (leave E4)))
      { leave (leave E4) with brk := E.brk, cont := E.cont } := by
  obtain ⟨n1, x1, r1, k1⟩ := hi
  obtain ⟨x2, r2, k2⟩ := exprOK_scope x1.good hc
  obtain ⟨x3, r3, k3⟩ := stmtOK_scope x2.good hp
  have hg3 := x3.good
  have hB := good_set hg3 (some (leave E3).cur) (some (leave E3).cur) (leave E3).ret
    (fun b hb => by cases hb; exact cur_lt hg3) (fun b hb => by cases hb; exact cur_lt hg3) hg3.ret
  obtain ⟨x4, r4, k4⟩ := stmtOK_scope hB hb
  have hin : Inside { enter E with brk := none, cont := none } :=
    ⟨(inside_enter hg).len, (inside_enter hg).ret, fun b hb => (by cases hb), fun b hb => (by cases hb)⟩
  have hl : StmtRuns E1 [] (.loop (.seq cc (gc E2)) (.seq cb (gc E4)) (.seq cp (gc E3))) :=
    stmt_loop x1.brk x1.cont r2 (stmt_shift x2 r3) r4 ⟨_, x2.trans x3, rfl⟩
  have hs := stmt_weaken (stmt_seq x1 hin r1 hl)
  have hx : Ext (enter E) { leave E4 with brk := E.brk, cont := E.cont } n1 := by
    have e2 := x2.num
    have e3 := x3.num
    have e4 : (leave E3).numBlocks ≤ (leave E4).numBlocks := x4.num
    have e1 : E.numBlocks + 1 ≤ E1.numBlocks := x1.num
    have hr : (leave E4).ret = E.ret := by
      have h4 : (leave E4).ret = (leave E3).ret := x4.ret
      rw [h4, x3.ret, x2.ret]; exact x1.ret
    refine ⟨?_, x1.block, x1.fresh, ?_, ?_, ?_, rfl, rfl, hr, ?_⟩
    · have h4 : (leave E4).idents = (leave E3).idents := x4.idents
      show (leave E4).idents = _
      rw [h4, x3.idents, x2.idents]; exact x1.idents
    · have h4 : (leave E3).nextVar ≤ (leave E4).nextVar := x4.next
      exact Nat.le_trans x1.next (Nat.le_trans x2.next (Nat.le_trans x3.next h4))
    · have h4 : (leave E4).blocks = (leave E3).blocks := x4.blocks
      show (leave E4).blocks = _
      rw [h4, x3.blocks, x2.blocks]; exact x1.blocks
    · show E.numBlocks + 1 ≤ (leave E4).numBlocks
      omega
    · refine good_set x4.good E.brk E.cont (leave E4).ret ?_ ?_ x4.good.ret
      · intro b hb; have := hg.brk b hb; omega
      · intro b hb; have := hg.cont b hb; omega
  refine ⟨[], (leave_ext hg hx).2, ?_, clos_seq (clos_seq k1 (clos_loop k2 k4 k3)) (clos_gc _)⟩
  have := stmt_scope hg hx hs
  exact this

/-- The state at the start of the body of a function. -/
def bodyEnv (F : Env) : Env := { F with brk := none, cont := none, ret := F.cur }

/-- A nested function. -/
theorem exprOK_fn {E T : Env} {gs : List Bool} {us : List Bool} {cb : Code} (hg : Good E)
    (hb : StmtOK (enter (bodyEnv (declare us (declare gs (enter E)).2).2)) cb T) :
    Ext E { leave (leave T) with brk := E.brk, cont := E.cont, ret := E.ret } [] ∧
    ReleasesAll (.seq (.seq (declare gs (enter E)).1 (declare us (declare gs (enter E)).2).1)
      (.fn (.seq cb (gc T)) (gc (leave T)))) ∧
    ClosuresOK (.seq (.seq (declare gs (enter E)).1 (declare us (declare gs (enter E)).2).1)
      (.fn (.seq cb (gc T)) (gc (leave T)))) := by
  have h1 := exprOK_declare (gs := gs) (good_enter hg)
  have h2 := exprOK_seq h1 (exprOK_declare (gs := us) (exprOK_good h1))
  generalize (declare us (declare gs (enter E)).2).2 = F at *
  generalize (declare us (declare gs (enter E)).2).1 = cu at *
  generalize (declare gs (enter E)).1 = cp at *
  obtain ⟨np, xp, rp, kp⟩ := h2
  have hF := good_set xp.good none none F.cur (fun b hb => by cases hb) (fun b hb => by cases hb) (cur_lt xp.good)
  obtain ⟨xb, rb, kb⟩ := stmtOK_scope hF hb
  exact ⟨ext_restore hg xp rfl xb, fn_releases hg xp rp rfl rb xb, clos_seq kp (clos_fn kb (clos_gc _))⟩

/-- A function at the top level. -/
theorem fnOK {E T : Env} {gs : List Bool} {cb : Code} (hg : Good E)
    (hb : StmtOK (enter (bodyEnv (declare gs (enter E)).2)) cb T) :
    Ext E { leave (leave T) with brk := E.brk, cont := E.cont, ret := E.ret } [] ∧
    ReleasesAll (.seq (declare gs (enter E)).1 (.fn (.seq cb (gc T)) (gc (leave T)))) ∧
    ClosuresOK (.seq (declare gs (enter E)).1 (.fn (.seq cb (gc T)) (gc (leave T)))) := by
  have h2 := exprOK_declare (gs := gs) (good_enter hg)
  generalize (declare gs (enter E)).2 = F at *
  generalize (declare gs (enter E)).1 = cp at *
  obtain ⟨np, xp, rp, kp⟩ := h2
  have hF := good_set xp.good none none F.cur (fun b hb => by cases hb) (fun b hb => by cases hb) (cur_lt xp.good)
  obtain ⟨xb, rb, kb⟩ := stmtOK_scope hF hb
  exact ⟨ext_restore hg xp rfl xb, fn_releases hg xp rp rfl rb xb, clos_seq kp (clos_fn kb (clos_gc _))⟩

theorem exprOK_nop {E : Env} (h : Good E) : ExprOK E .nop E := ⟨[], Ext.refl h, expr_nop E, clos_nop⟩

mutual

theorem compileExpr_ok : ∀ (e : Expr) {E E' : Env} {c : Code}, Good E → compileExpr e E = some (c, E') → ExprOK E c E'
  | .leaf, E, E', c, hg, h => by
    rw [compileExpr] at h; cases h; exact exprOK_nop hg
  | .seq a b, E, E', c, hg, h => by
    simp only [compileExpr, bind, Option.bind_eq_some_iff, pure, Option.some.injEq, Prod.mk.injEq, Prod.exists] at h
    obtain ⟨ca, E1, h1, cb, E2, h2, rfl, rfl⟩ := h
    have h1 := compileExpr_ok a hg h1
    exact exprOK_seq h1 (compileExpr_ok b (exprOK_good h1) h2)
  | .call args g taken, E, E', c, hg, h => by
    simp only [compileExpr, bind, Option.bind_eq_some_iff, pure, Option.some.injEq, Prod.mk.injEq, Prod.exists] at h
    obtain ⟨ca, E1, h1, rfl, rfl⟩ := h
    have h1 := compileExpr_ok args hg h1
    refine exprOK_seq h1 ?_
    cases taken with
    | true => exact exprOK_unused (exprOK_good h1) g
    | false => exact exprOK_add (exprOK_good h1) g true true rfl
  | .literal g items, E, E', c, hg, h => by
    simp only [compileExpr, bind, Option.bind_eq_some_iff, pure, Option.some.injEq, Prod.mk.injEq, Prod.exists] at h
    obtain ⟨ca, E1, h1, rfl, rfl⟩ := h
    have h0 := exprOK_add hg g true true rfl
    exact exprOK_seq h0 (compileExpr_ok items (exprOK_good h0) h1)
  | .shortCircuit a b, E, E', c, hg, h => by
    simp only [compileExpr, bind, Option.bind_eq_some_iff, pure, Option.some.injEq, Prod.mk.injEq, Prod.exists] at h
    obtain ⟨ca, E1, h1, cb, E2, h2, rfl, rfl⟩ := h
    have h1 := compileExpr_ok a hg h1
    obtain ⟨x, r, k⟩ := exprOK_scope (exprOK_good h1) (compileExpr_ok b (good_enter (exprOK_good h1)) h2)
    exact exprOK_seq h1 ⟨[], x, expr_choose r (expr_nop _), clos_choose k clos_nop⟩
  | .ternary c a b g, E, E', cd, hg, h => by
    simp only [compileExpr, bind, Option.bind_eq_some_iff, pure, Option.some.injEq, Prod.mk.injEq, Prod.exists] at h
    obtain ⟨cc, E1, h1, ca, E2, h2, cb, E3, h3, rfl, rfl⟩ := h
    have h1 := compileExpr_ok c hg h1
    have g1 := exprOK_good h1
    refine exprOK_seq h1 ?_
    have h2 := compileExpr_ok a (good_enter g1) h2
    cases g with
    | true =>
      have ⟨n, x, _⟩ := h2
      have gl : Good (leave (addOutside E2 (E1.idents.head?.map (·.var)))) := by
        rw [(leave_outside g1 x).2]
        exact (good_addId (leave_ext g1 x).2.good _ _ _).good
      exact exprOK_ternary g1 h2 (compileExpr_ok b (good_enter gl) h3)
    | false =>
      obtain ⟨x, r, k⟩ := exprOK_scope g1 (exprOK_seq h2 (exprOK_nop (exprOK_good h2)))
      have h3 := compileExpr_ok b (good_enter x.good) h3
      obtain ⟨x', r', k'⟩ := exprOK_scope x.good (exprOK_seq h3 (exprOK_nop (exprOK_good h3)))
      exact ⟨[], x.trans x', expr_choose r (expr_shift x r'), clos_choose k k'⟩
  | .convert e g item, E, E', c, hg, h => by
    simp only [compileExpr, bind, Option.bind_eq_some_iff, pure, Option.some.injEq, Prod.mk.injEq, Prod.exists] at h
    obtain ⟨ce, E1, h1, ci, E2, h2, rfl, rfl⟩ := h
    have h1 := compileExpr_ok e hg h1
    have h2' := exprOK_seq h1 (exprOK_add (exprOK_good h1) g true true rfl)
    obtain ⟨x, r, k⟩ := exprOK_scope (exprOK_good h2') (compileExpr_ok item (good_enter (exprOK_good h2')) h2)
    exact exprOK_seq h2' ⟨[], x, expr_loop r, clos_loop clos_nop k clos_nop⟩
  | .closure g captured params upvalues body, E, E', c, hg, h => by
    simp only [compileExpr, bind, Option.bind_eq_some_iff, pure, Option.some.injEq, Prod.mk.injEq, Prod.exists] at h
    obtain ⟨cc, E1, h1, cb, T, h2, rfl, rfl⟩ := h
    have h0 := exprOK_add hg g true true rfl
    have h1 := compileExpr_ok captured (exprOK_good h0) h1
    have g1 := exprOK_good h1
    have h3 := exprOK_add g1 false true true rfl
    have g3 := exprOK_good h3
    have hd := exprOK_declare (gs := params) (good_enter g3)
    have hd2 := exprOK_declare (gs := upvalues) (exprOK_good hd)
    have hF := good_set (exprOK_good hd2) none none _ (fun b hb => by cases hb) (fun b hb => by cases hb)
      (cur_lt (exprOK_good hd2))
    have h2 := compileStmt_ok body (good_enter hF) (inside_enter hF) h2
    obtain ⟨x, rf, k⟩ := exprOK_fn g3 h2
    refine exprOK_seq (exprOK_seq h0 h1) ?_
    obtain ⟨n, x3, r3, _⟩ := h3
    refine ⟨[] ++ n, x3.trans x, ?_, ?_⟩
    · have hn : rel n = [] := by
        have hid := x3.idents
        have : (⟨E1.nextVar, E1.cur, false, true, true⟩ : Id) :: E1.idents = n ++ E1.idents := hid
        have : [(⟨E1.nextVar, E1.cur, false, true, true⟩ : Id)] = n :=
          List.append_cancel_right (bs := E1.idents) this
        rw [← this]; rfl
      rw [List.nil_append, hn]; exact expr_closure _ _
    · intro f hf
      rcases List.mem_cons.mp hf with rfl | hf
      · exact rf
      · exact k f hf

theorem compileStmt_ok : ∀ (s : Stmt) {E E' : Env} {c : Code}, Good E → Inside E → compileStmt s E = some (c, E') →
    StmtOK E c E'
  | .skip, E, E', c, hg, hi, h => by
    rw [compileStmt] at h; cases h; exact stmtOK_of_expr (exprOK_nop hg)
  | .seq a b, E, E', c, hg, hi, h => by
    simp only [compileStmt, bind, Option.bind_eq_some_iff, pure, Option.some.injEq, Prod.mk.injEq, Prod.exists] at h
    obtain ⟨ca, E1, h1, cb, E2, h2, rfl, rfl⟩ := h
    have h1 := compileStmt_ok a hg hi h1
    have ⟨n, x, _⟩ := h1
    exact stmtOK_seq hi h1 (compileStmt_ok b x.good (inside_ext x hi) h2)
  | .expr e, E, E', c, hg, hi, h => by
    rw [compileStmt] at h
    exact stmtOK_of_expr (compileExpr_ok e hg h)
  | .decl e vars, E, E', c, hg, hi, h => by
    simp only [compileStmt, bind, Option.bind_eq_some_iff, pure, Option.some.injEq, Prod.mk.injEq, Prod.exists] at h
    obtain ⟨ce, E1, h1, rfl, rfl⟩ := h
    have h1 := compileExpr_ok e hg h1
    exact stmtOK_of_expr (exprOK_seq h1 (exprOK_declare (exprOK_good h1)))
  | .block s, E, E', c, hg, hi, h => by
    simp only [compileStmt, bind, Option.bind_eq_some_iff, pure, Option.some.injEq, Prod.mk.injEq, Prod.exists] at h
    obtain ⟨cs, E1, h1, rfl, rfl⟩ := h
    obtain ⟨x, r, k⟩ := stmtOK_scope hg (compileStmt_ok s (good_enter hg) (inside_enter hg) h1)
    exact ⟨[], x, r, k⟩
  | .choose a b, E, E', c, hg, hi, h => by
    simp only [compileStmt, bind, Option.bind_eq_some_iff, pure, Option.some.injEq, Prod.mk.injEq, Prod.exists] at h
    obtain ⟨ca, E1, h1, cb, E2, h2, rfl, rfl⟩ := h
    obtain ⟨x, r, k⟩ := stmtOK_scope hg (compileStmt_ok a (good_enter hg) (inside_enter hg) h1)
    obtain ⟨x', r', k'⟩ := stmtOK_scope x.good (compileStmt_ok b (good_enter x.good) (inside_enter x.good) h2)
    exact ⟨[], x.trans x', stmt_choose r (stmt_shift x r'), clos_choose k k'⟩
  | .for_ init cond post body, E, E', c, hg, hi, h => by
    simp only [compileStmt, bind, Option.bind_eq_some_iff, pure, Option.some.injEq, Prod.mk.injEq, Prod.exists] at h
    obtain ⟨ci, E1, h1, cc, E2, h2, cp, E3, h3, cb, E4, h4, rfl, rfl⟩ := h
    have hge := good_enter hg
    have g0 := good_set hge none none (enter E).ret (fun b hb => by cases hb) (fun b hb => by cases hb) hge.ret
    have h1 := compileStmt_ok init g0
      ⟨(inside_enter hg).len, (inside_enter hg).ret, fun b hb => (by cases hb), fun b hb => (by cases hb)⟩ h1
    have h2 := compileExpr_ok cond (good_enter (stmtOK_good h1)) h2
    have g2 := (exprOK_scope (stmtOK_good h1) h2).1.good
    have h3 := compileStmt_ok post (good_enter g2) (inside_enter g2) h3
    have g3 := (stmtOK_scope g2 h3).1.good
    have hB := good_set g3 (some (leave E3).cur) (some (leave E3).cur) (leave E3).ret
      (fun b hb => by cases hb; exact cur_lt g3) (fun b hb => by cases hb; exact cur_lt g3) g3.ret
    have h4 := compileStmt_ok body (good_enter hB) (inside_enter hB) h4
    exact stmtOK_for hg h1 h2 h3 h4
  | .brk, E, E', c, hg, hi, h => by
    rw [compileStmt] at h
    split at h
    · cases h
    · next b hb =>
      cases h
      refine ⟨[], Ext.refl hg, ?_, clos_seq (clos_drops _) (fun f hf => by cases hf)⟩
      intro t o hr held hf hh
      obtain ⟨held', e, f⟩ := run_jump hg (fun t o => run_brk) hr (hh.brk b hb)
      refine ⟨held', e, ?_⟩
      rcases f with rfl | ⟨rfl, f⟩
      · trivial
      · exact ⟨b, hb, f⟩
  | .cont, E, E', c, hg, hi, h => by
    rw [compileStmt] at h
    split at h
    · cases h
    · next b hb =>
      cases h
      refine ⟨[], Ext.refl hg, ?_, clos_seq (clos_drops _) (fun f hf => by cases hf)⟩
      intro t o hr held hf hh
      obtain ⟨held', e, f⟩ := run_jump hg (fun t o => run_cont) hr (hh.cont b hb)
      refine ⟨held', e, ?_⟩
      rcases f with rfl | ⟨rfl, f⟩
      · trivial
      · exact ⟨b, hb, f⟩
  | .ret e, E, E', c, hg, hi, h => by
    simp only [compileStmt, bind, Option.bind_eq_some_iff, pure, Option.some.injEq, Prod.mk.injEq, Prod.exists] at h
    obtain ⟨ce, E1, h1, rfl, rfl⟩ := h
    have h1 := compileExpr_ok e hg h1
    have hg1 := exprOK_good h1
    refine stmtOK_seq hi (stmtOK_of_expr h1) ⟨[], Ext.refl hg1, ?_, clos_seq (clos_drops _) (fun f hf => by cases hf)⟩
    intro t o hr held hf hh
    obtain ⟨held', e, f⟩ := run_jump hg1 (fun t o => run_ret) hr hh.ret
    refine ⟨held', e, ?_⟩
    rcases f with rfl | ⟨rfl, f⟩
    · trivial
    · exact f

end

theorem compileFn_ok {params : List Bool} {body : Stmt} {E E' : Env} {c : Code} (hg : Good E)
    (h : compileFn params body E = some (c, E')) : Ext E E' [] ∧ ReleasesAll c ∧ ClosuresOK c := by
  simp only [compileFn, bind, Option.bind_eq_some_iff, pure, Option.some.injEq, Prod.mk.injEq, Prod.exists] at h
  obtain ⟨cb, T, h1, rfl, rfl⟩ := h
  have hd := exprOK_declare (gs := params) (good_enter hg)
  have hF := good_set (exprOK_good hd) none none _ (fun b hb => by cases hb) (fun b hb => by cases hb)
    (cur_lt (exprOK_good hd))
  exact fnOK hg (compileStmt_ok body (good_enter hF) (inside_enter hF) h1)

theorem good_init : Good init := by
  refine ⟨?_, ?_, ?_, ?_, ?_, ?_, ?_, ?_⟩
  all_goals simp [init, Segs]

/-- Declarations at the top level. -/
theorem compileItems_ok : ∀ {is : List Item} {E E' : Env} {cs : List Code} {st : Code}, Good E →
    compileItems is E = some (cs, st, E') → ExprOK E st E' ∧ ∀ c ∈ cs, ReleasesAll c ∧ ClosuresOK c
  | [], E, E', cs, st, hg, h => by
    cases h
    exact ⟨exprOK_nop hg, fun c hc => by cases hc⟩
  | .global g :: is, E, E', cs, st, hg, h => by
    simp only [compileItems, bind, Option.bind_eq_some_iff, pure, Option.some.injEq, Prod.mk.injEq, Prod.exists] at h
    obtain ⟨cs1, st1, E1, h1, rfl, rfl, rfl⟩ := h
    have h0 := exprOK_add hg g false false rfl
    obtain ⟨h2, k⟩ := compileItems_ok (is := is) (exprOK_good h0) h1
    exact ⟨exprOK_seq h0 h2, k⟩
  | .fn params body :: is, E, E', cs, st, hg, h => by
    simp only [compileItems, bind, Option.bind_eq_some_iff, pure, Option.some.injEq, Prod.mk.injEq, Prod.exists] at h
    obtain ⟨c, E1, h1, cs1, st1, E2, h2, rfl, rfl, rfl⟩ := h
    obtain ⟨x, r, k⟩ := compileFn_ok hg h1
    obtain ⟨⟨n, xn, rn, kn⟩, ks⟩ := compileItems_ok (is := is) x.good h2
    refine ⟨⟨_, x.trans xn, ?_, kn⟩, fun d hd => ?_⟩
    · rw [List.append_nil]; exact expr_shift x rn
    · rcases List.mem_cons.mp hd with rfl | hd
      · exact ⟨r, k⟩
      · exact ks d hd

/-- The initialisation of the global variables stores as many references as there are variables that can hold one. -/
theorem start_length : ∀ {is : List Item} {E E' : Env} {cs : List Code} {st : Code} {t : List Ev},
    compileItems is E = some (cs, st, E') → Run st t .normal → t.length = (is.filter Item.counted).length
  | [], E, E', cs, st, t, h, hr => by
    cases h
    cases hr; rfl
  | .global g :: is, E, E', cs, st, t, h, hr => by
    simp only [compileItems, bind, Option.bind_eq_some_iff, pure, Option.some.injEq, Prod.mk.injEq, Prod.exists] at h
    obtain ⟨cs1, st1, E1, h1, rfl, rfl, rfl⟩ := h
    cases hr with
    | seq h3 h4 =>
      have ih := start_length (is := is) h1 h4
      cases g with
      | true => cases h3; rw [List.length_append, ih, List.filter_cons_of_pos rfl, List.length_cons, Nat.add_comm]; rfl
      | false => cases h3; rw [List.nil_append, ih, List.filter_cons_of_neg (by simp [Item.counted])]
    | seqExit _ h => exact absurd rfl h
  | .fn params body :: is, E, E', cs, st, t, h, hr => by
    simp only [compileItems, bind, Option.bind_eq_some_iff, pure, Option.some.injEq, Prod.mk.injEq, Prod.exists] at h
    obtain ⟨c, E1, h1, cs1, st1, E2, h2, rfl, rfl, rfl⟩ := h
    rw [start_length (is := is) h2 hr, List.filter_cons_of_neg (by simp [Item.counted])]

theorem start_releases {is : List Item} {E : Env} {cs : List Code} {st : Code}
    (h : compileItems is init = some (cs, st, E)) : ReleasesAll (.seq st (gc E)) := by
  obtain ⟨⟨n, x, r, k⟩, _⟩ := compileItems_ok good_init h
  have hid : E.idents = n ++ [] := x.idents
  have hcur : E.cur = 0 := by rw [Env.cur, x.blocks]; rfl
  have hgc : gcAt E.cur E.idents false = rel n := by
    rw [hid, hcur]
    exact gcAt_seg (fun i hi => x.block i hi) (fun i hi => by cases hi)
  have hn := new_nodup x
  have hno : Fresh init nothing := fun _ _ => rfl
  intro t o hr
  unfold gc at hr
  rw [hgc] at hr
  cases hr with
  | stop => exact ⟨_, rfl, fun h => absurd rfl h⟩
  | seq h1 h2 =>
    obtain ⟨_, r⟩ := r _ _ h1
    obtain ⟨h1, e1, f1⟩ := r nothing hno
    cases f1 rfl
    obtain ⟨ho, h3, e3, f3⟩ := drops_ok h2 hn (held := plus nothing (rel n)) (fun x hxx => by simp [plus, hxx])
    refine ⟨h3, by simp only [replay_append, e1, Option.bind_some, e3], fun hs => ?_⟩
    rcases ho with rfl | rfl
    · rw [f3 rfl, minus_plus (held := nothing) (fun _ _ => rfl)]
    · exact absurd rfl hs
  | seqExit h1 h2 =>
    obtain ⟨oc, r⟩ := r _ _ h1
    obtain ⟨h1, e1, f1⟩ := r nothing hno
    refine ⟨h1, e1, fun hs => ?_⟩
    rcases oc with rfl | rfl
    · exact absurd rfl h2
    · exact absurd rfl hs

end Umka.Release
