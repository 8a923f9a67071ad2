import Verif.Static.Lemmas
/-!
# Static storage: constant expressions
-/

namespace Umka.Static
open Spec

variable {Q : Nat → Prop} {consts : Consts} {env : List (CTy × Val)}

/-- The declared constants have their values; their strings are in blocks of `Q`. -/
structure ConstsOK (Q : Nat → Prop) (mem : Mem) (consts : Consts) (env : List (CTy × Val)) : Prop where
  length : consts.length = env.length
  rep : ∀ (i : Nat) (c : CTy) (w : Word), consts[i]? = some (c, w) → ∃ v, env[i]? = some (c, v) ∧ Rep None' Q mem c.ty [w] v ∧
    (c = .str → ∃ b, w = .ptr b 0)
  inside : ∀ i, Q i → i < mem.length

theorem ConstsOK.keep {X : Nat → Prop} {mem mem' : Mem} (h : ConstsOK Q mem consts env) (hk : Keep X mem mem') (hx : ∀ i, Q i → ¬ X i) :
    ConstsOK Q mem' consts env := by
  refine ⟨h.length, fun i c w hi => ?_, fun i hq => Nat.lt_of_lt_of_le (h.inside i hq) hk.length⟩
  obtain ⟨v, hv, hr, ht⟩ := h.rep i c w hi
  exact ⟨v, hv, hr.move (fun _ _ hf => hf.elim) fun j hj hq => ⟨hq, hk.same j hj (hx j hq)⟩, ht⟩

/-- The blocks that come after a memory, and those with strings of constants. -/
abbrev New (mem : Mem) : Nat → Prop := fun i => mem.length ≤ i

abbrev Texts (Q : Nat → Prop) (mem : Mem) : Nat → Prop := fun i => Q i ∨ mem.length ≤ i

/-- A constant in new blocks. -/
structure Good (Q : Nat → Prop) (mem mem' : Mem) (ty : Ty) (w : Word) (v : Val) : Prop where
  keep : Keep None' mem mem'
  rep : Rep (New mem) (Texts Q mem) mem' ty (wordsOf mem' ty w) v
  ptr : ty.structured = true → ∃ b, w = .ptr b 0 ∧ mem.length ≤ b ∧ b < mem'.length
  text : ty = .str → ∃ b, w = .ptr b 0
  own : ty.structured = true → ∀ b, w = .ptr b 0 → ∃ blk, mem'[b]? = some blk ∧ blk.use = .plain

/-- The result of an expression that has the value `d`, or is refused. -/
def Outcome (Q : Nat → Prop) (mem : Mem) (ty : Ty) (r : Except Err (Mem × Word)) (d : Option Val) : Prop :=
  match r with
  | .ok (mem', w) => ∃ v, d = some v ∧ Good Q mem mem' ty w v
  | .error _ => d = none

theorem not_overflow {P Q : Nat → Prop} {mem : Mem} {ty : Ty} {w : Word} {v : Val} (h : Rep P Q mem ty (wordsOf mem ty w) v) : overflow ty w = false := by
  cases ty with
  | int k =>
    obtain ⟨n, hw, _, h1, h2⟩ := h
    simp only [wordsOf, Ty.structured, Bool.false_eq_true, if_false] at hw
    cases hw
    simp only [overflow, decide_eq_false_iff_not]
    omega
  | char =>
    obtain ⟨n, hw, _, h1, h2⟩ := h
    simp only [wordsOf, Ty.structured, Bool.false_eq_true, if_false] at hw
    cases hw
    simp only [overflow, decide_eq_false_iff_not]
    omega
  | _ => rfl

/-- Storing a constant that has a value succeeds and copies its words. -/
theorem constAssign_ok {P Q : Nat → Prop} {mem : Mem} {ty : Ty} {w : Word} {v : Val} (b off : Nat) (h : Rep P Q mem ty (wordsOf mem ty w) v)
    (hp : ty.structured = true → ∃ s o, w = .ptr s o) : constAssign mem b off ty w = .ok (poke mem b off (wordsOf mem ty w)) := by
  rw [constAssign.eq_def, not_overflow h]
  simp only [Bool.false_eq_true, if_false]
  cases hs : ty.structured with
  | true =>
    obtain ⟨s, o, rfl⟩ := hp hs
    simp only [if_true, wordsOf, hs]
  | false => simp only [Bool.false_eq_true, if_false, wordsOf, hs]

/-- The words of a constant do not depend on other blocks. -/
theorem wordsOf_keep {X : Nat → Prop} {mem mem' : Mem} {ty : Ty} {w : Word} (hk : Keep X mem mem')
    (hp : ty.structured = true → ∃ s o, w = .ptr s o ∧ s < mem.length ∧ ¬ X s) : wordsOf mem' ty w = wordsOf mem ty w := by
  cases hs : ty.structured with
  | true =>
    obtain ⟨s, o, rfl, hl, hx⟩ := hp hs
    simp only [wordsOf, hs, if_true, peek, hk.same s hl hx]
  | false => simp only [wordsOf, hs, Bool.false_eq_true, if_false]

/-- Store a value in a block: the block. -/
theorem poke_words {mem : Mem} {b off : Nat} {blk : Block} {new : List Word} (h : mem[b]? = some blk) :
    (poke mem b off new)[b]? = some { blk with words := splice blk.words off new } := by
  rw [poke_get, if_pos rfl, h]
  rfl

/-- One item or field: parse and store it. -/
theorem store_spec {mem mem₁ : Mem} {b off : Nat} {ty : Ty} {w : Word} {v : Val} {blk : Block} (hb : mem[b]? = some blk) (hq : ¬ Q b)
    (hg : Good Q mem mem₁ ty w v) (hr : off + ty.size ≤ blk.words.length) :
    ∃ mem₂ ws₂, constAssign mem₁ b off ty w = .ok mem₂ ∧ Keep (· = b) mem mem₂ ∧ mem₂[b]? = some { blk with words := ws₂ } ∧
      ws₂.length = blk.words.length ∧ (∀ j, j < off ∨ off + ty.size ≤ j → ws₂[j]? = blk.words[j]?) ∧
      Rep (New mem) (Texts Q mem) mem₂ ty (slice ws₂ off ty.size) v := by
  have hl := hg.rep.length
  have hb₁ := hg.keep.get hb (fun h => h)
  have hbl := getElem?_lt hb
  refine ⟨poke mem₁ b off (wordsOf mem₁ ty w), splice blk.words off (wordsOf mem₁ ty w),
    constAssign_ok b off hg.rep fun hs => ?_, (hg.keep.weaken fun _ _ h => h.elim).trans (.poke fun _ => rfl), poke_words hb₁, ?_, fun j hj => ?_, ?_⟩
  · obtain ⟨s, h, _⟩ := hg.ptr hs
    exact ⟨s, 0, h⟩
  · exact splice_length (by omega)
  · rw [splice_get (by omega)]
    rcases hj with hj | hj
    · rw [if_pos hj]
    · rw [if_neg (by omega), if_neg (by omega)]
  · have hs : slice (splice blk.words off (wordsOf mem₁ ty w)) off ty.size = wordsOf mem₁ ty w := by
      rw [← hl]
      exact slice_splice_same (by omega)
    rw [hs]
    have hne : ∀ i, i ≠ b → (poke mem₁ b off (wordsOf mem₁ ty w))[i]? = mem₁[i]? := fun i hi => by
      rw [poke_get, if_neg (Ne.symm hi)]
    refine hg.rep.move (fun i _ hi => ⟨hi, hne i ?_⟩) fun i _ hi => ⟨hi, hne i ?_⟩
    · have : mem.length ≤ i := hi
      omega
    · rintro rfl
      rcases hi with hi | hi
      · exact hq hi
      · have : mem.length ≤ i := hi
        omega

/-- Values that were stored before stay. -/
theorem Rep.later {mem mem₁ mem₂ : Mem} {b : Nat} {ty : Ty} {ws : List Word} {v : Val} (hb : b < mem.length) (hq : ¬ Q b)
    (h : Rep (New mem) (Texts Q mem) mem₁ ty ws v) (hk : Keep (· = b) mem₁ mem₂) : Rep (New mem) (Texts Q mem) mem₂ ty ws v := by
  refine h.move (fun i hl hi => ⟨hi, hk.same i hl ?_⟩) fun i hl hi => ⟨hi, hk.same i hl ?_⟩
  · have : mem.length ≤ i := hi
    omega
  · rintro rfl
    rcases hi with hi | hi
    · exact hq hi
    · have : mem.length ≤ i := hi
      omega

theorem Rep.earlier {mem mem₁ mem₂ : Mem} {ty : Ty} {ws : List Word} {v : Val} (hl : mem.length ≤ mem₁.length)
    (h : Rep (New mem₁) (Texts Q mem₁) mem₂ ty ws v) : Rep (New mem) (Texts Q mem) mem₂ ty ws v :=
  h.move (fun _ _ hi => ⟨Nat.le_trans hl hi, rfl⟩) fun _ _ hi => ⟨hi.imp id (Nat.le_trans hl), rfl⟩

variable {ev : Expr → Mem → Except Err (Mem × Word)} {den : Expr → Option Val} {base : Ty}

theorem fillItems_spec (hev : ∀ e mem, ConstsOK Q mem consts env → Outcome Q mem base (ev e mem) (den e)) (b : Nat) (hq : ¬ Q b) :
    ∀ (es : List Expr) (room off : Nat) (mem : Mem) (blk : Block), ConstsOK Q mem consts env → mem[b]? = some blk →
    off + room * base.size = blk.words.length →
    match fillItems ev base b room off es mem with
    | .ok mem' => ∃ vs ws', es.mapM den = some vs ∧ es.length ≤ room ∧ Keep (· = b) mem mem' ∧ mem'[b]? = some { blk with words := ws' } ∧
        ws'.length = blk.words.length ∧ (∀ j, j < off → ws'[j]? = blk.words[j]?) ∧
        ∀ (i : Nat) x, vs[i]? = some x → Rep (New mem) (Texts Q mem) mem' base (slice ws' (off + i * base.size) base.size) x
    | .error _ => room < es.length ∨ es.mapM den = none
  | [], room, off, mem, blk, _, hb, _ => by
    rw [fillItems]
    exact ⟨[], blk.words, rfl, Nat.zero_le _, .refl _ _, hb, rfl, fun _ _ => rfl, fun i x hi => by simp at hi⟩
  | e :: es, 0, off, mem, blk, _, hb, _ => by
    rw [fillItems]
    exact .inl (Nat.succ_pos _)
  | e :: es, room + 1, off, mem, blk, hc, hb, hr => by
    have hbl := getElem?_lt hb
    rw [fillItems]
    have h := hev e mem hc
    rw [Outcome.eq_def] at h
    rw [Nat.add_mul, Nat.one_mul] at hr
    cases h1 : ev e mem with
    | error er =>
      rw [h1] at h
      refine .inr ?_
      rw [List.mapM_cons, h]
      rfl
    | ok p =>
      obtain ⟨mem₁, w⟩ := p
      rw [h1] at h
      obtain ⟨v, hv, hg⟩ := h
      obtain ⟨mem₂, ws₂, ha, hk, hb₂, hl₂, ho₂, hr₂⟩ := store_spec (off := off) hb hq hg (by omega)
      have hc₂ := hc.keep hk fun i hi he => hq (he ▸ hi)
      have ih := fillItems_spec hev b hq es room (off + base.size) mem₂ _ hc₂ hb₂ (by show _ = ws₂.length; omega)
      show (match (constAssign mem₁ b off base w).bind fun mem => fillItems ev base b room (off + base.size) es mem with | .ok _ => _ | .error _ => _)
      rw [ha]
      simp only [Except.bind]
      cases h3 : fillItems ev base b room (off + base.size) es mem₂ with
      | error er =>
        rw [h3] at ih
        rcases ih with ih | ih
        · exact .inl (by simp only [List.length_cons]; omega)
        · refine .inr ?_
          rw [List.mapM_cons, hv, ih]
          rfl
      | ok mem' =>
        rw [h3] at ih
        obtain ⟨vs, ws', hvs, hel, hk', hb', hl', ho', hr'⟩ := ih
        refine ⟨v :: vs, ws', ?_, by simp only [List.length_cons]; omega, hk.trans hk', hb', hl'.trans hl₂, fun j hj => ?_, fun i x hi => ?_⟩
        · rw [List.mapM_cons, hv, hvs]
          rfl
        · rw [ho' j (by omega)]
          exact ho₂ j (.inl hj)
        · cases i with
          | zero =>
            simp only [List.getElem?_cons_zero, Option.some.injEq] at hi
            subst hi
            rw [Nat.zero_mul, Nat.add_zero, slice_congr (ws := ws₂) fun j _ hj => ho' j hj]
            exact hr₂.later hbl hq hk'
          | succ i =>
            rw [List.getElem?_cons_succ] at hi
            have := (hr' i x hi).earlier hk.length
            rw [Nat.add_mul, Nat.one_mul, Nat.add_comm (i * base.size), ← Nat.add_assoc]
            exact this

theorem collect_spec (hev : ∀ e mem, ConstsOK Q mem consts env → Outcome Q mem base (ev e mem) (den e)) :
    ∀ (es : List Expr) (mem : Mem), ConstsOK Q mem consts env →
    match collect ev es mem with
    | .ok (mem', ws) => ∃ vs, es.mapM den = some vs ∧ Keep None' mem mem' ∧ ws.length = vs.length ∧
        ∀ (i : Nat) w x, ws[i]? = some w → vs[i]? = some x → Good Q mem mem' base w x
    | .error _ => es.mapM den = none
  | [], mem, _ => by
    rw [collect]
    exact ⟨[], rfl, .refl _ _, rfl, fun i w x hi => by simp at hi⟩
  | e :: es, mem, hc => by
    rw [collect]
    have h := hev e mem hc
    rw [Outcome.eq_def] at h
    cases h1 : ev e mem with
    | error er =>
      rw [h1] at h
      show List.mapM den (e :: es) = none
      rw [List.mapM_cons, h]
      rfl
    | ok p =>
      obtain ⟨mem₁, w⟩ := p
      rw [h1] at h
      obtain ⟨v, hv, hg⟩ := h
      have ih := collect_spec hev es mem₁ (hc.keep hg.keep fun _ _ h => h)
      simp only [bind, Except.bind, pure, Except.pure]
      cases h3 : collect ev es mem₁ with
      | error er =>
        rw [h3] at ih
        show List.mapM den (e :: es) = none
        rw [List.mapM_cons, hv, ih]
        rfl
      | ok p =>
        obtain ⟨mem', ws⟩ := p
        rw [h3] at ih
        obtain ⟨vs, hvs, hk, hl, hr⟩ := ih
        refine ⟨v :: vs, ?_, hg.keep.trans hk, by simp only [List.length_cons]; omega, fun i w' x hi hx => ?_⟩
        · rw [List.mapM_cons, hv, hvs]
          rfl
        · cases i with
          | zero =>
            simp only [List.getElem?_cons_zero, Option.some.injEq] at hi hx
            subst hi hx
            refine ⟨hg.keep.trans hk, ?_, fun hs => ?_, hg.text, fun hs b hb => (hg.own hs b hb).imp fun blk h => ⟨hk.get h.1 fun h => h, h.2⟩⟩
            · rw [wordsOf_keep hk fun hs => by obtain ⟨s, h, _, h'⟩ := hg.ptr hs; exact ⟨s, 0, h, h', fun h => h⟩]
              exact hg.rep.move (fun j hl hj => ⟨hj, hk.same j hl fun h => h⟩) fun j hl hj => ⟨hj, hk.same j hl fun h => h⟩
            · obtain ⟨s, h, h1, h2⟩ := hg.ptr hs
              exact ⟨s, h, h1, Nat.lt_of_lt_of_le h2 hk.length⟩
          | succ i =>
            rw [List.getElem?_cons_succ] at hi hx
            have := hr i w' x hi hx
            refine ⟨hg.keep.trans hk, this.rep.earlier hg.keep.length, fun hs => ?_, this.text, this.own⟩
            obtain ⟨s, h, h1, h2⟩ := this.ptr hs
            exact ⟨s, h, Nat.le_trans hg.keep.length h1, h2⟩

end Umka.Static
