import Verif.Release.Lemmas
/-! # When variables are released: what each piece of generated code does -/

namespace Umka.Release

def Fresh (E : Env) (held : Nat → Bool) : Prop := ∀ x, E.nextVar ≤ x → held x = false

/-- Code of an expression or declaration: its variables hold references afterwards. -/
def ExprRuns (E : Env) (new : List Nat) (c : Code) : Prop :=
  ∀ t o, Run c t o → (o = .normal ∨ o = .stop) ∧
    ∀ held, Fresh E held → ∃ held', replay t held = some held' ∧ (o = .normal → held' = plus held new)

/-- The variables of the blocks that could be left hold references. -/
structure Holds (E : Env) (held : Nat → Bool) : Prop where
  ret : ∀ x ∈ rel (above E E.ret), held x = true
  brk : ∀ b ∈ E.brk, ∀ x ∈ rel (above E b), held x = true
  cont : ∀ b ∈ E.cont, ∀ x ∈ rel (above E b), held x = true

/-- What is held after a statement. -/
def After (E : Env) (new : List Nat) (held : Nat → Bool) (held' : Nat → Bool) : Out → Prop
  | .normal => held' = plus held new
  | .brk => ∃ b, E.brk = some b ∧ held' = minus held (rel (above E b))
  | .cont => ∃ b, E.cont = some b ∧ held' = minus held (rel (above E b))
  | .ret => held' = minus held (rel (above E E.ret))
  | .stop => True

def StmtRuns (E : Env) (new : List Nat) (c : Code) : Prop :=
  ∀ t o, Run c t o → ∀ held, Fresh E held → Holds E held → ∃ held', replay t held = some held' ∧ After E new held held' o

/-- Statements are compiled in a block of their own within the function and the loop. -/
structure Inside (E : Env) : Prop where
  len : 2 ≤ E.blocks.length
  ret : E.cur ≠ E.ret
  brk : ∀ b ∈ E.brk, E.cur ≠ b
  cont : ∀ b ∈ E.cont, E.cur ≠ b

/-! ## Blocks above -/

theorem cur_mem {E : Env} {b : Nat} (hl : 2 ≤ E.blocks.length) (hb : E.cur ≠ b) :
    (E.blocks.dropLast.takeWhile (· ≠ b)).contains E.cur = true := by
  cases hbl : E.blocks with
  | nil => rw [hbl] at hl; simp at hl
  | cons c cs =>
    have hc := cur_cons hbl
    cases cs with
    | nil => rw [hbl] at hl; simp at hl
    | cons d ds =>
      rw [hc] at hb ⊢
      simp [List.dropLast, hb]

theorem above_ext {E E' : Env} {new : List Id} (hx : Ext E E' new) (hl : 2 ≤ E.blocks.length) {b : Nat}
    (hb : E.cur ≠ b) : above E' b = new ++ above E b := by
  unfold above
  rw [hx.blocks, hx.idents, List.filter_append]
  congr 1
  rw [List.filter_eq_self]
  intro i hi
  rw [hx.block i hi]
  exact cur_mem hl hb

theorem above_ext_nil {E E' : Env} (hx : Ext E E' []) (b : Nat) : above E' b = above E b := by
  unfold above
  rw [hx.blocks, hx.idents]; rfl

theorem above_enter {E : Env} (h : Good E) {b : Nat} (hb : b < E.numBlocks) : above (enter E) b = above E b := by
  unfold above
  have hd : (enter E).blocks.dropLast = E.numBlocks :: E.blocks.dropLast := by
    show (E.numBlocks :: E.blocks).dropLast = _
    cases hbl : E.blocks with
    | nil => exact absurd hbl h.ne
    | cons c cs => rfl
  rw [hd, List.takeWhile_cons, if_pos (by simp; omega)]
  apply List.filter_congr
  intro i hi
  have := notin_new h i hi
  simp [this]

theorem above_cur {E : Env} : above E E.cur = [] := by
  unfold above
  cases hbl : E.blocks with
  | nil => simp
  | cons c cs =>
    rw [cur_cons hbl]
    cases cs with
    | nil => simp
    | cons d ds => simp [List.dropLast]

theorem above_nodup {E : Env} (h : Good E) (b : Nat) : (rel (above E b)).Nodup :=
  rel_nodup (h.nodup.sublist (List.Sublist.map _ List.filter_sublist))

theorem mem_above {E : Env} {b : Nat} {i : Id} (h : i ∈ above E b) : i ∈ E.idents := (List.mem_filter.mp h).1

theorem holds_ext {E E' : Env} {new : List Id} (hx : Ext E E' new) (hi : Inside E) {held : Nat → Bool}
    (h : Holds E held) : Holds E' (plus held (rel new)) := by
  have key : ∀ b, E.cur ≠ b → (∀ x ∈ rel (above E b), held x = true) →
      ∀ x ∈ rel (above E' b), plus held (rel new) x = true := by
    intro b hb hh x hx'
    rw [above_ext hx hi.len hb, rel_append] at hx'
    rcases List.mem_append.mp hx' with hx' | hx'
    · simp [plus, hx']
    · simp [plus, hh x hx']
  refine ⟨?_, ?_, ?_⟩
  · rw [hx.ret]; exact key _ hi.ret h.ret
  · rw [hx.brk]; exact fun b hb => key b (hi.brk b hb) (h.brk b hb)
  · rw [hx.cont]; exact fun b hb => key b (hi.cont b hb) (h.cont b hb)

theorem holds_ext_nil {E E' : Env} (hx : Ext E E' []) {held : Nat → Bool} (h : Holds E held) : Holds E' held := by
  refine ⟨?_, ?_, ?_⟩
  · rw [hx.ret, above_ext_nil hx]; exact h.ret
  · rw [hx.brk]; intro b hb; rw [above_ext_nil hx]; exact h.brk b hb
  · rw [hx.cont]; intro b hb; rw [above_ext_nil hx]; exact h.cont b hb

theorem holds_enter {E : Env} (hg : Good E) {held : Nat → Bool} (h : Holds E held) : Holds (enter E) held := by
  refine ⟨?_, ?_, ?_⟩
  · show ∀ x ∈ rel (above (enter E) E.ret), _
    rw [above_enter hg hg.ret]; exact h.ret
  · intro b hb
    rw [above_enter hg (hg.brk b hb)]; exact h.brk b hb
  · intro b hb
    rw [above_enter hg (hg.cont b hb)]; exact h.cont b hb

theorem inside_ext {E E' : Env} {new : List Id} (hx : Ext E E' new) (hi : Inside E) : Inside E' := by
  have hc : E'.cur = E.cur := by rw [Env.cur, Env.cur, hx.blocks]
  refine ⟨by rw [hx.blocks]; exact hi.len, by rw [hc, hx.ret]; exact hi.ret, ?_, ?_⟩
  · rw [hc, hx.brk]; exact hi.brk
  · rw [hc, hx.cont]; exact hi.cont

theorem inside_enter {E : Env} (h : Good E) : Inside (enter E) := by
  refine ⟨?_, ?_, ?_, ?_⟩
  · show 2 ≤ (E.numBlocks :: E.blocks).length
    have := List.length_pos_iff.mpr h.ne
    rw [List.length_cons]; omega
  · show E.numBlocks ≠ E.ret
    have := h.ret; omega
  · intro b hb
    have := h.brk b hb
    show E.numBlocks ≠ b
    omega
  · intro b hb
    have := h.cont b hb
    show E.numBlocks ≠ b
    omega

theorem fresh_ext {E E' : Env} {new : List Id} (hx : Ext E E' new) {held : Nat → Bool} (h : Fresh E held) :
    Fresh E' (plus held (rel new)) := by
  intro x hxx
  have h1 : held x = false := h x (Nat.le_trans hx.next hxx)
  have h2 : (rel new).contains x = false := by
    rw [Bool.eq_false_iff]
    intro hc
    have hm : x ∈ rel new := by simpa using hc
    obtain ⟨i, hi, rfl⟩ := mem_rel hm
    have := hx.good.vars i (by rw [hx.idents]; exact List.mem_append_left _ hi)
    omega
  simp only [plus, h1, h2, Bool.or_false]

theorem fresh_ext_nil {E E' : Env} (hx : Ext E E' []) {held : Nat → Bool} (h : Fresh E held) : Fresh E' held :=
  fun x hxx => h x (Nat.le_trans hx.next hxx)

/-- Variables that are new are not held. -/
theorem new_not_held {E E' : Env} {new : List Id} (hx : Ext E E' new) {held : Nat → Bool} (h : Fresh E held) :
    ∀ x ∈ rel new, held x = false := fun x hxx => h x (hx.rel_fresh x hxx)

/-! ## Sequences -/

theorem expr_nop (E : Env) : ExprRuns E [] .nop := by
  intro t o h
  cases h with
  | stop => exact ⟨Or.inr rfl, fun held _ => ⟨held, rfl, fun h => by cases h⟩⟩
  | nop => exact ⟨Or.inl rfl, fun held _ => ⟨held, rfl, fun _ => (plus_nil held).symm⟩⟩

theorem expr_closure (E : Env) (c : Code) : ExprRuns E [] (.closure c) := by
  intro t o h
  cases h with
  | stop => exact ⟨Or.inr rfl, fun held _ => ⟨held, rfl, fun h => by cases h⟩⟩
  | closure => exact ⟨Or.inl rfl, fun held _ => ⟨held, rfl, fun _ => (plus_nil held).symm⟩⟩

theorem expr_own {E : Env} {x : Nat} (hx : E.nextVar ≤ x) : ExprRuns E [x] (.own x) := by
  intro t o h
  cases h with
  | stop => exact ⟨Or.inr rfl, fun held _ => ⟨held, rfl, fun h => by cases h⟩⟩
  | own => exact ⟨Or.inl rfl, fun held hf => ⟨_, replay_own (hf x hx), fun _ => rfl⟩⟩

theorem expr_seq {E E1 : Env} {n1 : List Id} {n2 : List Nat} {a b : Code} (hx : Ext E E1 n1)
    (ha : ExprRuns E (rel n1) a) (hb : ExprRuns E1 n2 b) : ExprRuns E (n2 ++ rel n1) (.seq a b) := by
  intro t o h
  cases h with
  | stop => exact ⟨Or.inr rfl, fun held _ => ⟨held, rfl, fun h => by cases h⟩⟩
  | seq h1 h2 =>
    obtain ⟨ob, hb⟩ := hb _ _ h2
    obtain ⟨_, ha⟩ := ha _ _ h1
    refine ⟨ob, fun held hf => ?_⟩
    obtain ⟨held1, e1, f1⟩ := ha held hf
    cases f1 rfl
    obtain ⟨held2, e2, f2⟩ := hb _ (fresh_ext hx hf)
    refine ⟨held2, by rw [replay_append, e1]; exact e2, fun ho => ?_⟩
    rw [f2 ho, plus_plus]
  | seqExit h1 h2 =>
    obtain ⟨oa, ha⟩ := ha _ _ h1
    have : o = .stop := by rcases oa with h | h; exact absurd h h2; exact h
    subst this
    refine ⟨Or.inr rfl, fun held hf => ?_⟩
    obtain ⟨held1, e1, _⟩ := ha held hf
    exact ⟨held1, e1, fun h => by cases h⟩

theorem expr_shift {E E1 : Env} (hx : Ext E E1 []) {n : List Nat} {c : Code} (h : ExprRuns E1 n c) : ExprRuns E n c :=
  fun t o hr => ⟨(h t o hr).1, fun held hf => (h t o hr).2 held (fresh_ext_nil hx hf)⟩

theorem expr_choose {E : Env} {n : List Nat} {a b : Code} (ha : ExprRuns E n a) (hb : ExprRuns E n b) :
    ExprRuns E n (.choose a b) := by
  intro t o h
  cases h with
  | stop => exact ⟨Or.inr rfl, fun held _ => ⟨held, rfl, fun h => by cases h⟩⟩
  | left h => exact ha t o h
  | right h => exact hb t o h

/-- A block: what has been declared in it is dropped. -/
theorem expr_scope {E E' : Env} {new : List Id} {c : Code} (hg : Good E) (hx : Ext (enter E) E' new)
    (h : ExprRuns (enter E) (rel new) c) : ExprRuns E [] (.seq c (gc E')) := by
  intro t o hr
  unfold gc at hr
  rw [(leave_ext hg hx).1] at hr
  cases hr with
  | stop => exact ⟨Or.inr rfl, fun held _ => ⟨held, rfl, fun h => by cases h⟩⟩
  | seq h1 h2 =>
    obtain ⟨_, h⟩ := h _ _ h1
    have hn := new_nodup hx
    have ho := (drops_ok h2 hn (held := fun _ => true) (fun _ _ => rfl)).1
    refine ⟨ho, fun held hf => ?_⟩
    obtain ⟨held1, e1, f1⟩ := h held hf
    cases f1 rfl
    obtain ⟨_, held2, e2, f2⟩ := drops_ok h2 hn (held := plus held (rel new)) (fun x hxx => by simp [plus, hxx])
    refine ⟨held2, by rw [replay_append, e1]; exact e2, fun ho => ?_⟩
    rw [f2 ho, minus_plus (new_not_held hx hf), plus_nil]
  | seqExit h1 h2 =>
    obtain ⟨oa, ha⟩ := h _ _ h1
    have : o = .stop := by rcases oa with h | h; exact absurd h h2; exact h
    subst this
    refine ⟨Or.inr rfl, fun held hf => ?_⟩
    obtain ⟨held1, e1, _⟩ := ha held hf
    exact ⟨held1, e1, fun h => by cases h⟩

theorem stmt_of_expr {E : Env} {n : List Nat} {c : Code} (h : ExprRuns E n c) : StmtRuns E n c := by
  intro t o hr held hf _
  obtain ⟨ho, h⟩ := h t o hr
  obtain ⟨held', e, f⟩ := h held hf
  refine ⟨held', e, ?_⟩
  rcases ho with rfl | rfl
  · exact f rfl
  · trivial

theorem after_trans {E E1 : Env} {n1 : List Id} {n2 : List Nat} (hx : Ext E E1 n1) (hi : Inside E)
    {held held' : Nat → Bool} (hf : Fresh E held) {o : Out} (h : After E1 n2 (plus held (rel n1)) held' o) :
    After E (n2 ++ rel n1) held held' o := by
  have key : ∀ b, E.cur ≠ b → minus (plus held (rel n1)) (rel (above E1 b)) = minus held (rel (above E b)) := by
    intro b hb
    rw [above_ext hx hi.len hb, rel_append, minus_plus_append (new_not_held hx hf)]
  cases o with
  | normal => show held' = _; rw [show held' = _ from h, plus_plus]
  | brk =>
    obtain ⟨b, hb, e⟩ := h
    rw [hx.brk] at hb
    exact ⟨b, hb, by rw [e, key b (hi.brk b hb)]⟩
  | cont =>
    obtain ⟨b, hb, e⟩ := h
    rw [hx.cont] at hb
    exact ⟨b, hb, by rw [e, key b (hi.cont b hb)]⟩
  | ret =>
    have h : held' = _ := h
    show held' = _
    rw [h, hx.ret, key _ hi.ret]
  | stop => trivial

theorem stmt_seq {E E1 : Env} {n1 : List Id} {n2 : List Nat} {a b : Code} (hx : Ext E E1 n1) (hi : Inside E)
    (ha : StmtRuns E (rel n1) a) (hb : StmtRuns E1 n2 b) : StmtRuns E (n2 ++ rel n1) (.seq a b) := by
  intro t o h held hf hh
  cases h with
  | stop => exact ⟨held, rfl, trivial⟩
  | seq h1 h2 =>
    obtain ⟨held1, e1, f1⟩ := ha _ _ h1 held hf hh
    cases f1
    obtain ⟨held2, e2, f2⟩ := hb _ _ h2 _ (fresh_ext hx hf) (holds_ext hx hi hh)
    exact ⟨held2, by rw [replay_append, e1]; exact e2, after_trans hx hi hf f2⟩
  | seqExit h1 h2 =>
    obtain ⟨held1, e1, f1⟩ := ha _ _ h1 held hf hh
    refine ⟨held1, e1, ?_⟩
    cases o with
    | normal => exact absurd rfl h2
    | brk => exact f1
    | cont => exact f1
    | ret => exact f1
    | stop => trivial

theorem after_shift {E E1 : Env} (hx : Ext E E1 []) {n : List Nat} {held held' : Nat → Bool} {o : Out}
    (h : After E1 n held held' o) : After E n held held' o := by
  cases o with
  | normal => exact h
  | brk =>
    obtain ⟨b, hb, e⟩ := h
    exact ⟨b, by rw [← hx.brk]; exact hb, by rw [e, above_ext_nil hx]⟩
  | cont =>
    obtain ⟨b, hb, e⟩ := h
    exact ⟨b, by rw [← hx.cont]; exact hb, by rw [e, above_ext_nil hx]⟩
  | ret =>
    have h : held' = _ := h
    show held' = _
    rw [h, hx.ret, above_ext_nil hx]
  | stop => trivial

theorem stmt_shift {E E1 : Env} (hx : Ext E E1 []) {n : List Nat} {c : Code} (h : StmtRuns E1 n c) : StmtRuns E n c := by
  intro t o hr held hf hh
  obtain ⟨held', e, f⟩ := h t o hr held (fresh_ext_nil hx hf) (holds_ext_nil hx hh)
  exact ⟨held', e, after_shift hx f⟩

theorem stmt_choose {E : Env} {n : List Nat} {a b : Code} (ha : StmtRuns E n a) (hb : StmtRuns E n b) :
    StmtRuns E n (.choose a b) := by
  intro t o h held hf hh
  cases h with
  | stop => exact ⟨held, rfl, trivial⟩
  | left h => exact ha t o h held hf hh
  | right h => exact hb t o h held hf hh

theorem after_leave {E : Env} (hg : Good E) {n : List Nat} {held held' : Nat → Bool} {o : Out} (ho : o ≠ .normal)
    (h : After (enter E) n held held' o) : After E [] held held' o := by
  cases o with
  | normal => exact absurd rfl ho
  | brk =>
    obtain ⟨b, hb, e⟩ := h
    exact ⟨b, hb, by rw [e, above_enter hg (hg.brk b hb)]⟩
  | cont =>
    obtain ⟨b, hb, e⟩ := h
    exact ⟨b, hb, by rw [e, above_enter hg (hg.cont b hb)]⟩
  | ret =>
    have h : held' = minus held (rel (above (enter E) E.ret)) := h
    show held' = _
    rw [h, above_enter hg hg.ret]
  | stop => trivial

theorem stmt_scope {E E' : Env} {new : List Id} {c : Code} (hg : Good E) (hx : Ext (enter E) E' new)
    (h : StmtRuns (enter E) (rel new) c) : StmtRuns E [] (.seq c (gc E')) := by
  intro t o hr held hf hh
  unfold gc at hr
  rw [(leave_ext hg hx).1] at hr
  cases hr with
  | stop => exact ⟨held, rfl, trivial⟩
  | seq h1 h2 =>
    obtain ⟨held1, e1, f1⟩ := h _ _ h1 held hf (holds_enter hg hh)
    cases f1
    obtain ⟨ho, held2, e2, f2⟩ := drops_ok h2 (new_nodup hx) (held := plus held (rel new)) (fun x hxx => by simp [plus, hxx])
    refine ⟨held2, by rw [replay_append, e1]; exact e2, ?_⟩
    rcases ho with rfl | rfl
    · show held2 = _
      rw [f2 rfl, minus_plus (new_not_held hx hf), plus_nil]
    · trivial
  | seqExit h1 h2 =>
    obtain ⟨held1, e1, f1⟩ := h _ _ h1 held hf (holds_enter hg hh)
    exact ⟨held1, e1, after_leave hg h2 f1⟩

/-- `break`, `continue`, `return`: what has been declared in the blocks that are left is dropped. -/
theorem run_jump {E : Env} (hg : Good E) {b : Nat} {j : Code} {oj : Out} (hj : ∀ t o, Run j t o → t = [] ∧ (o = oj ∨ o = .stop))
    {t : List Ev} {o : Out} (h : Run (.seq (drops (gcDown E b)) j) t o) {held : Nat → Bool}
    (hh : ∀ x ∈ rel (above E b), held x = true) :
    ∃ held', replay t held = some held' ∧ (o = .stop ∨ (o = oj ∧ held' = minus held (rel (above E b)))) := by
  rw [gcDown_eq hg.segs] at h
  cases h with
  | stop => exact ⟨held, rfl, Or.inl rfl⟩
  | seq h1 h2 =>
    obtain ⟨_, held1, e1, f1⟩ := drops_ok h1 (above_nodup hg b) hh
    obtain ⟨rfl, ho⟩ := hj _ _ h2
    refine ⟨held1, by rw [replay_append, e1]; rfl, ?_⟩
    rcases ho with rfl | rfl
    · exact Or.inr ⟨rfl, f1 rfl⟩
    · exact Or.inl rfl
  | seqExit h1 h2 =>
    obtain ⟨ho, held1, e1, _⟩ := drops_ok h1 (above_nodup hg b) hh
    rcases ho with rfl | rfl
    · exact absurd rfl h2
    · exact ⟨held1, e1, Or.inl rfl⟩

theorem run_brk {t : List Ev} {o : Out} (h : Run .brk t o) : t = [] ∧ (o = .brk ∨ o = .stop) := by
  cases h with
  | stop => exact ⟨rfl, Or.inr rfl⟩
  | brk => exact ⟨rfl, Or.inl rfl⟩

theorem run_cont {t : List Ev} {o : Out} (h : Run .cont t o) : t = [] ∧ (o = .cont ∨ o = .stop) := by
  cases h with
  | stop => exact ⟨rfl, Or.inr rfl⟩
  | cont => exact ⟨rfl, Or.inl rfl⟩

theorem run_ret {t : List Ev} {o : Out} (h : Run .ret t o) : t = [] ∧ (o = .ret ∨ o = .stop) := by
  cases h with
  | stop => exact ⟨rfl, Or.inr rfl⟩
  | ret => exact ⟨rfl, Or.inl rfl⟩

/-! ## Loops -/

/-- A loop whose parts leave what is held as it is, unless they leave the function. -/
theorem run_loop {c b p : Code} {held : Nat → Bool} {R : (Nat → Bool) → Prop}
    (hc : ∀ t o, Run c t o → (o = .normal ∨ o = .stop) ∧ ∃ h', replay t held = some h' ∧ (o = .normal → h' = held))
    (hb : ∀ t o, Run b t o → ∃ h', replay t held = some h' ∧ (o = .ret → R h') ∧ (o ≠ .ret → o ≠ .stop → h' = held))
    (hp : ∀ t o, Run p t o → o ≠ .brk ∧ o ≠ .cont ∧
      ∃ h', replay t held = some h' ∧ (o = .ret → R h') ∧ (o = .normal → h' = held)) :
    ∀ {l : Code} {t : List Ev} {o : Out}, Run l t o → l = .loop c b p →
      o ≠ .brk ∧ o ≠ .cont ∧ ∃ h', replay t held = some h' ∧ (o = .ret → R h') ∧ (o = .normal → h' = held) := by
  intro l t o h
  induction h with
  | stop => intro _; exact ⟨by simp, by simp, held, rfl, by simp, by simp⟩
  | loopEnd h1 =>
    intro e; cases e
    obtain ⟨_, h', e1, f1⟩ := hc _ _ h1
    exact ⟨by simp, by simp, h', e1, by simp, fun _ => f1 rfl⟩
  | loopCondExit h1 h2 =>
    intro e; cases e
    obtain ⟨ho, h', e1, f1⟩ := hc _ _ h1
    rcases ho with rfl | rfl
    · exact absurd rfl h2
    · exact ⟨by simp, by simp, h', e1, by simp, by simp⟩
  | loopBrk h1 h2 =>
    intro e; cases e
    obtain ⟨_, h', e1, f1⟩ := hc _ _ h1
    cases f1 rfl
    obtain ⟨h'', e2, f2, g2⟩ := hb _ _ h2
    exact ⟨by simp, by simp, h'', by rw [replay_append, e1]; exact e2, by simp, fun _ => g2 (by simp) (by simp)⟩
  | loopBodyExit h1 h2 h3 =>
    intro e; cases e
    obtain ⟨_, h', e1, f1⟩ := hc _ _ h1
    cases f1 rfl
    obtain ⟨h'', e2, f2, g2⟩ := hb _ _ h2
    rcases h3 with rfl | rfl
    · exact ⟨by simp, by simp, h'', by rw [replay_append, e1]; exact e2, f2, by simp⟩
    · exact ⟨by simp, by simp, h'', by rw [replay_append, e1]; exact e2, by simp, by simp⟩
  | loopNext h1 h2 h3 h4 h5 _ _ _ ih =>
    intro e; cases e
    obtain ⟨_, h', e1, f1⟩ := hc _ _ h1
    cases f1 rfl
    obtain ⟨h'', e2, f2, g2⟩ := hb _ _ h2
    cases g2 (by rcases h3 with rfl | rfl <;> simp) (by rcases h3 with rfl | rfl <;> simp)
    obtain ⟨_, _, h3', e3, f3, g3⟩ := hp _ _ h4
    cases g3 rfl
    obtain ⟨i1, i2, h4', e4, f4, g4⟩ := ih rfl
    refine ⟨i1, i2, h4', ?_, f4, g4⟩
    simp only [replay_append, e1, Option.bind_some, e2, e3]
    exact e4
  | loopPostExit h1 h2 h3 h4 h5 =>
    intro e; cases e
    obtain ⟨_, h', e1, f1⟩ := hc _ _ h1
    cases f1 rfl
    obtain ⟨h'', e2, f2, g2⟩ := hb _ _ h2
    cases g2 (by rcases h3 with rfl | rfl <;> simp) (by rcases h3 with rfl | rfl <;> simp)
    obtain ⟨i1, i2, h3', e3, f3, g3⟩ := hp _ _ h4
    refine ⟨i1, i2, h3', ?_, f3, g3⟩
    simp only [replay_append, e1, Option.bind_some, e2]
    exact e3
  | _ => intro e; cases e

end Umka.Release
