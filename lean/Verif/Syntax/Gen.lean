import Verif.Syntax.Spec
/-
Parsers in general: what it means that a parser takes only, and all, texts of a rule.
-/
namespace Umka.Syntax
open Spec Spec.EBNF

/-! ### Derivations taken apart -/

section
variable {g : NT → EBNF} {a b : EBNF} {ts : List Tok}

theorem d_tok {t : Tok} : Derives g (.tok t) ts ↔ ts = [t] := ⟨fun h => by cases h; rfl, fun h => h ▸ .tok⟩
theorem d_one {l : List Tok} : Derives g (.one l) ts ↔ ∃ t, t ∈ l ∧ ts = [t] :=
  ⟨fun h => by cases h with | one h => exact ⟨_, h, rfl⟩, fun ⟨_, h, e⟩ => e ▸ .one h⟩
theorem d_nt {n : NT} : Derives g (.nt n) ts ↔ Derives g (g n) ts := ⟨fun h => by cases h; assumption, .nt⟩
theorem d_seq : Derives g (.seq a b) ts ↔ ∃ xs ys, ts = xs ++ ys ∧ Derives g a xs ∧ Derives g b ys :=
  ⟨fun h => by cases h with | seq h1 h2 => exact ⟨_, _, rfl, h1, h2⟩, fun ⟨_, _, e, h1, h2⟩ => e ▸ .seq h1 h2⟩
theorem d_alt : Derives g (.alt a b) ts ↔ Derives g a ts ∨ Derives g b ts :=
  ⟨fun h => by cases h with | left h => exact .inl h | right h => exact .inr h, fun h => h.elim .left .right⟩
theorem d_opt : Derives g (.opt a) ts ↔ ts = [] ∨ Derives g a ts :=
  ⟨fun h => by cases h with | optNone => exact .inl rfl | optSome h => exact .inr h, fun h => h.elim (fun e => e ▸ .optNone) .optSome⟩
theorem d_star : Derives g (.star a) ts ↔ ts = [] ∨ ∃ xs ys, ts = xs ++ ys ∧ Derives g a xs ∧ Derives g (.star a) ys :=
  ⟨fun h => by cases h with | starNil => exact .inl rfl | starCons h1 h2 => exact .inr ⟨_, _, rfl, h1, h2⟩,
    fun h => h.elim (fun e => e ▸ .starNil) (fun ⟨_, _, e, h1, h2⟩ => e ▸ .starCons h1 h2)⟩
theorem d_never : ¬ Derives g .never ts := fun h => by cases h
theorem d_cons {t : Tok} : Derives g (.tok t ⬝ b) ts ↔ ∃ ys, ts = t :: ys ∧ Derives g b ys := by
  rw [d_seq]
  exact ⟨fun ⟨xs, ys, e, h1, h2⟩ => ⟨ys, by rw [e, d_tok.mp h1]; rfl, h2⟩, fun ⟨ys, e, h2⟩ => ⟨[t], ys, e, .tok, h2⟩⟩

theorem Spec.Derives.cons {t : Tok} {ys : List Tok} (h : Derives g b ys) : Derives g (.tok t ⬝ b) (t :: ys) := Derives.seq .tok h

/-- A list one item longer at its end. -/
theorem Spec.Derives.starSnoc {xs ys : List Tok} (h : Derives g (.star a) xs) (h1 : Derives g a ys) : Derives g (.star a) (xs ++ ys) := by
  generalize e : EBNF.star a = s at h
  induction h with
  | starNil =>
    cases e
    have := Derives.starCons h1 (Derives.starNil (g := g))
    rwa [List.append_nil] at this
  | starCons h2 _ _ ih => cases e; rw [List.append_assoc]; exact .starCons h2 (ih rfl)
  | _ => cases e

end

/-! ### What a text can start with -/

/-- May be empty. -/
def nullable (t : NT → Bool) : EBNF → Bool
  | .tok _ | .one _ | .never => false
  | .nt n => t n
  | .seq a b => nullable t a && nullable t b
  | .alt a b => nullable t a || nullable t b
  | .opt _ | .star _ => true

/-- The tokens it may start with. -/
def first (t : NT → Bool) (f : NT → List Tok) : EBNF → List Tok
  | .tok t => [t]
  | .one l => l
  | .never => []
  | .nt n => f n
  | .seq a b => if nullable t a then first t f a ++ first t f b else first t f a
  | .alt a b => first t f a ++ first t f b
  | .opt a | .star a => first t f a

/-- The tables agree with the rules. -/
def Tables (g : NT → EBNF) (t : NT → Bool) (f : NT → List Tok) : Prop :=
  ∀ n, (nullable t (g n) = true → t n = true) ∧ ∀ x ∈ first t f (g n), x ∈ f n

theorem Spec.Derives.start {g : NT → EBNF} {t : NT → Bool} {f : NT → List Tok} (H : Tables g t f) {e : EBNF} {ts : List Tok}
    (h : Derives g e ts) : (ts = [] → nullable t e = true) ∧ ∀ x r, ts = x :: r → x ∈ first t f e := by
  induction h with
  | tok => exact ⟨nofun, fun x r h => by cases h; exact List.mem_singleton.mpr rfl⟩
  | one h => exact ⟨nofun, fun x r h' => by cases h'; exact h⟩
  | nt _ ih => exact ⟨fun h => (H _).1 (ih.1 h), fun x r h => (H _).2 x (ih.2 x r h)⟩
  | @seq a b xs ys _ _ ih1 ih2 =>
    refine ⟨fun h => ?_, fun x r h => ?_⟩
    · obtain ⟨h1, h2⟩ := List.append_eq_nil_iff.mp h
      show (nullable t a && nullable t b) = true
      rw [ih1.1 h1, ih2.1 h2]; rfl
    · show x ∈ if nullable t a then first t f a ++ first t f b else first t f a
      cases xs with
      | nil => rw [if_pos (ih1.1 rfl)]; exact List.mem_append_right _ (ih2.2 x r h)
      | cons z zs =>
        cases h
        have := ih1.2 x zs rfl
        split
        · exact List.mem_append_left _ this
        · exact this
  | @left a b ts _ ih =>
    exact ⟨fun h => by show (nullable t a || nullable t b) = true; rw [ih.1 h]; rfl,
      fun x r h => List.mem_append_left _ (ih.2 x r h)⟩
  | @right a b ts _ ih =>
    exact ⟨fun h => by show (nullable t a || nullable t b) = true; rw [ih.1 h, Bool.or_true],
      fun x r h => List.mem_append_right _ (ih.2 x r h)⟩
  | optNone => exact ⟨fun _ => rfl, nofun⟩
  | optSome _ ih => exact ⟨fun _ => rfl, ih.2⟩
  | starNil => exact ⟨fun _ => rfl, nofun⟩
  | @starCons a xs ys _ _ ih1 ih2 =>
    refine ⟨fun _ => rfl, fun x r h => ?_⟩
    cases xs with
    | nil => exact ih2.2 x r h
    | cons z zs => cases h; exact ih1.2 x zs rfl

/-! ### Looking ahead -/

/-- The text does not go on with any of the tokens. -/
def Free (l : List Tok) (ts : List Tok) : Prop := at_ l ts = false

theorem free_nil {l : List Tok} : Free l [] := rfl
theorem free_empty {ts : List Tok} : Free [] ts := by cases ts <;> rfl
theorem free_cons {l : List Tok} {t : Tok} {ts : List Tok} : Free l (t :: ts) ↔ t ∉ l := by
  show l.contains t = false ↔ _
  rw [← Bool.not_eq_true, List.contains_iff_mem]
theorem at_cons {l : List Tok} {t : Tok} {ts : List Tok} : at_ l (t :: ts) = true ↔ t ∈ l := by
  show l.contains t = true ↔ _
  rw [List.contains_iff_mem]
theorem at_iff {l : List Tok} {ts : List Tok} : at_ l ts = true ↔ ∃ t r, ts = t :: r ∧ t ∈ l := by
  cases ts with
  | nil => exact ⟨nofun, fun ⟨_, _, h, _⟩ => nomatch h⟩
  | cons t r => rw [at_cons]; exact ⟨fun h => ⟨t, r, rfl, h⟩, fun ⟨_, _, e, h⟩ => by cases e; exact h⟩
theorem Free.mono {l l' : List Tok} {ts : List Tok} (h : Free l ts) (hl : ∀ x ∈ l', x ∈ l) : Free l' ts := by
  cases ts with
  | nil => rfl
  | cons t r => rw [free_cons] at *; exact fun h' => h (hl _ h')

/-! ### Parsers that take only texts of a rule -/

/-- What the parser takes is derived from the rule. -/
def Sound (g : NT → EBNF) (p : P) (e : EBNF) : Prop :=
  ∀ ts rest, p ts = some rest → ∃ pre, ts = pre ++ rest ∧ Derives g e pre

section
variable {g : NT → EBNF} {p q : P} {a b : EBNF}

theorem then_some {ts rest : List Tok} : (p ⟫ q) ts = some rest ↔ ∃ m, p ts = some m ∧ q m = some rest := by
  show (p ts).bind q = _ ↔ _
  cases p ts with
  | none => exact ⟨nofun, fun ⟨_, h, _⟩ => nomatch h⟩
  | some m => exact ⟨fun h => ⟨m, rfl, h⟩, fun ⟨_, h, h'⟩ => by cases h; exact h'⟩

theorem eat_some {t : Tok} {ts rest : List Tok} : eat t ts = some rest ↔ ts = t :: rest := by
  unfold eat at_ next
  cases ts with
  | nil => simp
  | cons x xs =>
    by_cases h : x = t
    · subst h; simp
    · simp [h]

theorem next_some {ts rest : List Tok} : next ts = some rest ↔ ∃ t, ts = t :: rest := by
  cases ts with
  | nil => exact ⟨nofun, fun ⟨_, h⟩ => nomatch h⟩
  | cons x xs => exact ⟨fun h => ⟨x, by cases h; rfl⟩, fun ⟨_, h⟩ => by cases h; rfl⟩

theorem Sound.eat (t : Tok) : Sound g (eat t) (.tok t) := fun _ _ h => ⟨[t], eat_some.mp h, .tok⟩

theorem Sound.fail {e : EBNF} : Sound g fail e := fun _ _ h => nomatch h

theorem Sound.then (h1 : Sound g p a) (h2 : Sound g q b) : Sound g (p ⟫ q) (a ⬝ b) := by
  intro ts rest h
  obtain ⟨m, h, h'⟩ := then_some.mp h
  obtain ⟨x, rfl, hx⟩ := h1 _ _ h
  obtain ⟨y, rfl, hy⟩ := h2 _ _ h'
  exact ⟨x ++ y, (List.append_assoc ..).symm, .seq hx hy⟩

theorem Sound.ifAt {l : List Tok} (h1 : Sound g p a) (h2 : Sound g q b) : Sound g (ifAt l p q) (a ∣ b) := by
  intro ts rest h
  unfold Umka.Syntax.ifAt at h
  split at h
  · obtain ⟨x, e, hx⟩ := h1 _ _ h; exact ⟨x, e, .left hx⟩
  · obtain ⟨x, e, hx⟩ := h2 _ _ h; exact ⟨x, e, .right hx⟩

theorem Sound.opt {l : List Tok} (h1 : Sound g p a) : Sound g (Umka.Syntax.ifAt l p skip) (.opt a) := by
  intro ts rest h
  unfold Umka.Syntax.ifAt at h
  split at h
  · obtain ⟨x, e, hx⟩ := h1 _ _ h; exact ⟨x, e, .optSome hx⟩
  · cases h; exact ⟨[], rfl, .optNone⟩

theorem Sound.manyN {l : List Tok} (h1 : Sound g p a) : ∀ n, Sound g (manyN l p n) (.star a)
  | 0, ts, rest, h => by
    unfold Umka.Syntax.manyN at h
    split at h
    · cases h
    · cases h; exact ⟨[], rfl, .starNil⟩
  | n + 1, ts, rest, h => by
    unfold Umka.Syntax.manyN at h
    split at h
    · obtain ⟨m, h, h'⟩ := Option.bind_eq_some_iff.mp h
      obtain ⟨x, rfl, hx⟩ := h1 _ _ h
      obtain ⟨y, rfl, hy⟩ := Sound.manyN h1 n _ _ h'
      exact ⟨x ++ y, (List.append_assoc ..).symm, .starCons hx hy⟩
    · cases h; exact ⟨[], rfl, .starNil⟩

theorem Sound.many {l : List Tok} (h1 : Sound g p a) : Sound g (many l p) (.star a) := fun ts => Sound.manyN h1 ts.length ts

theorem Sound.nt {n : NT} (h : Sound g p (g n)) : Sound g p (.nt n) := fun ts rest h' =>
  let ⟨x, e, hx⟩ := h ts rest h'; ⟨x, e, .nt hx⟩

theorem Sound.mono (h : Sound g p a) (hab : ∀ ts, Derives g a ts → Derives g b ts) : Sound g p b := fun ts rest h' =>
  let ⟨x, e, hx⟩ := h ts rest h'; ⟨x, e, hab _ hx⟩

/-- `if (tok.kind == t) { lexNext(); p }` takes the token. -/
theorem ifAt_next {l : List Tok} {t : Tok} (hl : l = [t]) : ifAt l (next ⟫ p) q = ifAt l (Umka.Syntax.eat t ⟫ p) q := by
  subst hl
  funext ts
  unfold ifAt
  split
  · next h => show (next ts).bind p = (Umka.Syntax.eat t ts).bind p; unfold Umka.Syntax.eat; rw [if_pos h]
  · rfl

end

/-! ### The same, if the text goes on in a certain way -/

/-- What the parser takes is derived from the rule, if it goes on with a token of `l`. -/
def SoundAt (g : NT → EBNF) (l : List Tok) (p : P) (e : EBNF) : Prop :=
  ∀ ts rest, p ts = some rest → at_ l rest = true → ∃ pre, ts = pre ++ rest ∧ Derives g e pre

section
variable {g : NT → EBNF} {p q : P} {a b : EBNF} {l l' : List Tok}

theorem Sound.soundAt (h : Sound g p a) : SoundAt g l p a := fun ts rest h' _ => h ts rest h'

theorem SoundAt.then (h1 : Sound g p a) (h2 : SoundAt g l q b) : SoundAt g l (p ⟫ q) (a ⬝ b) := by
  intro ts rest h hl
  obtain ⟨m, h, h'⟩ := then_some.mp h
  obtain ⟨x, rfl, hx⟩ := h1 _ _ h
  obtain ⟨y, rfl, hy⟩ := h2 _ _ h' hl
  exact ⟨x ++ y, (List.append_assoc ..).symm, .seq hx hy⟩

theorem SoundAt.ifAt (h1 : SoundAt g l p a) (h2 : SoundAt g l q b) : SoundAt g l (ifAt l' p q) (a ∣ b) := by
  intro ts rest h hl
  unfold Umka.Syntax.ifAt at h
  split at h
  · obtain ⟨x, e, hx⟩ := h1 _ _ h hl; exact ⟨x, e, .left hx⟩
  · obtain ⟨x, e, hx⟩ := h2 _ _ h hl; exact ⟨x, e, .right hx⟩

theorem SoundAt.opt (h1 : SoundAt g l p a) : SoundAt g l (Umka.Syntax.ifAt l' p skip) (.opt a) := by
  intro ts rest h hl
  unfold Umka.Syntax.ifAt at h
  split at h
  · obtain ⟨x, e, hx⟩ := h1 _ _ h hl; exact ⟨x, e, .optSome hx⟩
  · cases h; exact ⟨[], rfl, .optNone⟩

theorem SoundAt.must (h1 : SoundAt g l p a) : SoundAt g l (Umka.Syntax.ifAt l p skip) a := by
  intro ts rest h hl
  unfold Umka.Syntax.ifAt at h
  split at h
  · exact h1 _ _ h hl
  · next h0 => cases h; exact absurd hl h0

theorem SoundAt.nt {n : NT} (h : SoundAt g l p (g n)) : SoundAt g l p (.nt n) := fun ts rest h' hl =>
  let ⟨x, e, hx⟩ := h ts rest h' hl; ⟨x, e, .nt hx⟩

theorem SoundAt.mono (h : SoundAt g l p a) (hab : ∀ ts, Derives g a ts → Derives g b ts) : SoundAt g l p b := fun ts rest h' hl =>
  let ⟨x, e, hx⟩ := h ts rest h' hl; ⟨x, e, hab _ hx⟩

theorem SoundAt.fail {e : EBNF} : SoundAt g l fail e := fun _ _ h => nomatch h

end

/-! ### Parsers that take all texts of a rule -/

/-- Every text of at most `k` tokens derived from the rule is taken, and nothing more, if it does not go on with one
of the tokens of `l`. -/
def Comp (g : NT → EBNF) (k : Nat) (p : P) (e : EBNF) (l : List Tok) : Prop :=
  ∀ pre rest, pre.length ≤ k → Derives g e pre → Free l rest → p (pre ++ rest) = some rest

section
variable {g : NT → EBNF} {t : NT → Bool} {f : NT → List Tok} {p q : P} {a b : EBNF} {k : Nat} {l l1 l2 : List Tok}

theorem Comp.weaken (h : Comp g k p a l1) (hl : ∀ x ∈ l1, x ∈ l2) : Comp g k p a l2 :=
  fun pre rest hk hd hf => h pre rest hk hd (hf.mono hl)

theorem Comp.le {k' : Nat} (h : Comp g k p a l1) (hk : k' ≤ k) : Comp g k' p a l1 :=
  fun pre rest hk' => h pre rest (Nat.le_trans hk' hk)

theorem Comp.eat (x : Tok) : Comp g k (Umka.Syntax.eat x) (.tok x) [] := by
  intro pre rest _ hd _
  rw [d_tok.mp hd]
  exact eat_some.mpr rfl

/-- The rest of a text goes on with what its next part starts with. -/
theorem free_of (H : Tables g t f) {e : EBNF} {pre rest : List Tok} (hd : Derives g e pre) (h1 : ∀ x ∈ first t f e, x ∉ l1)
    (h2 : nullable t e = true → Free l1 rest) : Free l1 (pre ++ rest) := by
  cases pre with
  | nil => exact h2 ((hd.start H).1 rfl)
  | cons x xs => exact free_cons.mpr (h1 x ((hd.start H).2 x xs rfl))

theorem at_of (H : Tables g t f) {e : EBNF} {pre rest : List Tok} (hd : Derives g e pre) (h1 : ∀ x ∈ first t f e, x ∈ l)
    (h2 : nullable t e = false) : at_ l (pre ++ rest) = true := by
  cases pre with
  | nil => rw [(hd.start H).1 rfl] at h2; cases h2
  | cons x xs => exact at_cons.mpr (h1 x ((hd.start H).2 x xs rfl))

theorem Comp.then (H : Tables g t f) (h1 : Comp g k p a l1) (h2 : Comp g k q b l2) (hf : ∀ x ∈ first t f b, x ∉ l1)
    (hn : nullable t b = true → ∀ x ∈ l1, x ∈ l2) : Comp g k (p ⟫ q) (a ⬝ b) l2 := by
  intro pre rest hk hd hr
  obtain ⟨xs, ys, rfl, hx, hy⟩ := d_seq.mp hd
  rw [List.length_append] at hk
  refine then_some.mpr ⟨ys ++ rest, ?_, h2 ys rest (by omega) hy hr⟩
  rw [List.append_assoc]
  exact h1 xs _ (by omega) hx (free_of H hy hf fun h => hr.mono (hn h))

/-- After a token that is taken there are fewer tokens left. -/
theorem Comp.eatThen {x : Tok} (h2 : Comp g k q b l2) : Comp g (k + 1) (Umka.Syntax.eat x ⟫ q) (.tok x ⬝ b) l2 := by
  intro pre rest hk hd hr
  obtain ⟨ys, rfl, hy⟩ := d_cons.mp hd
  exact then_some.mpr ⟨ys ++ rest, eat_some.mpr rfl, h2 ys rest (Nat.le_of_succ_le_succ hk) hy hr⟩

theorem Comp.ifAt (H : Tables g t f) (h1 : Comp g k p a l2) (h2 : Comp g k q b l2) (ha : ∀ x ∈ first t f a, x ∈ l)
    (hna : nullable t a = false) (hb : ∀ x ∈ first t f b, x ∉ l) (hnb : nullable t b = true → ∀ x ∈ l, x ∈ l2) :
    Comp g k (ifAt l p q) (a ∣ b) l2 := by
  intro pre rest hk hd hr
  rcases d_alt.mp hd with hd | hd
  · show (if at_ l (pre ++ rest) then p (pre ++ rest) else q (pre ++ rest)) = _
    rw [if_pos (at_of H hd ha hna)]
    exact h1 pre rest hk hd hr
  · show (if at_ l (pre ++ rest) then p (pre ++ rest) else q (pre ++ rest)) = _
    have : Free l (pre ++ rest) := free_of H hd hb fun h => hr.mono (hnb h)
    rw [if_neg (by rw [this]; exact Bool.false_ne_true)]
    exact h2 pre rest hk hd hr

theorem Comp.opt (H : Tables g t f) (h1 : Comp g k p a l2) (ha : ∀ x ∈ first t f a, x ∈ l) (hna : nullable t a = false)
    (hl : ∀ x ∈ l, x ∈ l2) : Comp g k (Umka.Syntax.ifAt l p skip) (.opt a) l2 := by
  intro pre rest hk hd hr
  show (if at_ l (pre ++ rest) then p (pre ++ rest) else some (pre ++ rest)) = _
  rcases d_opt.mp hd with rfl | hd
  · have : Free l rest := hr.mono hl
    rw [List.nil_append, if_neg (by rw [this]; exact Bool.false_ne_true)]
  · rw [if_pos (at_of H hd ha hna)]
    exact h1 pre rest hk hd hr

theorem Comp.manyN (H : Tables g t f) (h1 : Comp g k p a l1) (ha : ∀ x ∈ first t f a, x ∈ l) (hna : nullable t a = false)
    (haf : ∀ x ∈ first t f a, x ∉ l1) {pre : List Tok} (hd : Derives g (.star a) pre) : ∀ n rest, pre.length ≤ k → pre.length ≤ n →
    Free (l ++ l1) rest → manyN l p n (pre ++ rest) = some rest := by
  generalize e : EBNF.star a = s at hd
  induction hd with
  | starNil =>
    cases e
    intro n rest _ _ hr
    have : Free l rest := hr.mono fun _ h => List.mem_append_left _ h
    cases n <;> (unfold Umka.Syntax.manyN; rw [List.nil_append, if_neg (by rw [this]; exact Bool.false_ne_true)])
  | @starCons a' xs ys hx hy _ ih =>
    cases e
    intro n rest hk hn hr
    rw [List.length_append] at hk hn
    cases n with
    | zero => exact absurd ((hx.start H).1 (List.length_eq_zero_iff.mp (by omega))) (by rw [hna]; exact Bool.false_ne_true)
    | succ n =>
      have h0 : 0 < xs.length := by
        cases xs with
        | nil => exact absurd ((hx.start H).1 rfl) (by rw [hna]; exact Bool.false_ne_true)
        | cons _ _ => exact Nat.succ_pos _
      unfold Umka.Syntax.manyN
      rw [List.append_assoc, if_pos (at_of H hx ha hna)]
      rw [h1 xs (ys ++ rest) (by omega) hx]
      · exact ih rfl n rest (by omega) (by omega) hr
      · exact free_of H hy (fun x h => haf x h) fun _ => hr.mono fun _ h => List.mem_append_right _ h
  | _ => cases e

theorem Comp.many (H : Tables g t f) (h1 : Comp g k p a l1) (ha : ∀ x ∈ first t f a, x ∈ l) (hna : nullable t a = false)
    (haf : ∀ x ∈ first t f a, x ∉ l1) : Comp g k (many l p) (.star a) (l ++ l1) := by
  intro pre rest hk hd hr
  exact Comp.manyN H h1 ha hna haf hd _ rest hk (by rw [List.length_append]; omega) hr

theorem Comp.nt {n : NT} (h : Comp g k p (g n) l) : Comp g k p (.nt n) l := fun pre rest hk hd => h pre rest hk (d_nt.mp hd)

theorem Comp.mono (h : Comp g k p b l) (hab : ∀ ts, Derives g a ts → Derives g b ts) : Comp g k p a l :=
  fun pre rest hk hd => h pre rest hk (hab _ hd)

end

end Umka.Syntax
