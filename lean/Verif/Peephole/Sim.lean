import Verif.Peephole.Rules
/-! # The peephole optimizer: simulation of whole programs -/

namespace Umka.Peephole
open Umka.Arith (Slot Mem)
open Spec
variable {ω : Type}

/-! ## Fuel -/

theorem run_mono (e : Env ω) (whole : List Item) : ∀ (n : Nat) (its : List Item) (s : St ω) (x : R (St ω)),
    run e whole n its s = some x → run e whole (n + 1) its s = some x
  | 0, its, s, x, h => by cases its <;> cases h
  | n + 1, [], s, x, h => h
  | n + 1, .op i :: its, s, x, h => by
    rw [run] at h ⊢
    cases hx : exec e i s with
    | ok t => rw [hx] at h; exact run_mono e whole n its t x h
    | err y => rw [hx] at h; exact h
    | ub => rw [hx] at h; exact h
  | n + 1, .label _ _ :: its, s, x, h => by
    rw [run] at h ⊢
    exact run_mono e whole n its s x h
  | n + 1, .jump c l _ :: its, s, x, h => by
    rw [run] at h ⊢
    rcases hb : branch c s with ⟨b, t⟩ | y | _
    · rw [hb] at h
      cases b with
      | false => exact run_mono e whole n its t x h
      | true =>
        dsimp only at h ⊢
        cases ha : after l whole with
        | none => rw [ha] at h; exact h
        | some its' => rw [ha] at h; exact run_mono e whole n its' t x h
    · rw [hb] at h; exact h
    · rw [hb] at h; exact h

theorem runCode_mono (e : Env ω) (whole : List CItem) (labels : List (Nat × Nat)) :
    ∀ (n : Nat) (code : List CItem) (s : St ω) (x : R (St ω)),
      runCode e whole labels n code s = some x → runCode e whole labels (n + 1) code s = some x
  | 0, code, s, x, h => by cases code <;> cases h
  | n + 1, [], s, x, h => h
  | n + 1, .ins i :: code, s, x, h => by
    rw [runCode] at h ⊢
    cases hx : exec e i s with
    | ok t => rw [hx] at h; exact runCode_mono e whole labels n code t x h
    | err y => rw [hx] at h; exact h
    | ub => rw [hx] at h; exact h
  | n + 1, .jump c l :: code, s, x, h => by
    rw [runCode] at h ⊢
    rcases hb : branch c s with ⟨b, t⟩ | y | _
    · rw [hb] at h
      cases b with
      | false => exact runCode_mono e whole labels n code t x h
      | true =>
        dsimp only at h ⊢
        cases ha : labels.lookup l with
        | none => rw [ha] at h; exact h
        | some pos => rw [ha] at h; exact runCode_mono e whole labels n _ t x h
    · rw [hb] at h; exact h
    · rw [hb] at h; exact h

theorem run_le (e : Env ω) (whole : List Item) {n k : Nat} {its : List Item} {s : St ω} {x : R (St ω)}
    (h : run e whole n its s = some x) : run e whole (n + k) its s = some x := by
  induction k with
  | zero => exact h
  | succ k ih => exact run_mono e whole _ _ _ _ ih

theorem runCode_le (e : Env ω) (whole : List CItem) (labels : List (Nat × Nat)) {n k : Nat}
    {code : List CItem} {s : St ω} {x : R (St ω)} (h : runCode e whole labels n code s = some x) :
    runCode e whole labels (n + k) code s = some x := by
  induction k with
  | zero => exact h
  | succ k ih => exact runCode_mono e whole labels _ _ _ _ ih

/-- What comes after straight-line code. -/
def cont (k : St ω → Option (R (St ω))) : R (St ω) → Option (R (St ω))
  | .ok t => k t
  | .err x => some (.err x)
  | .ub => some .ub

theorem run_ops (e : Env ω) (whole : List Item) (n : Nat) (its : List Item) : ∀ (as : List Instr) (s : St ω),
    run e whole (n + as.length) (as.map .op ++ its) s = cont (run e whole n its) (runSeq e as s)
  | [], s => rfl
  | i :: as, s => by
    rw [List.map_cons, List.cons_append, List.length_cons, ← Nat.add_assoc, run, runSeq]
    cases hx : exec e i s with
    | ok t => exact run_ops e whole n its as t
    | err => rfl
    | ub => rfl

theorem runCode_ins (e : Env ω) (whole : List CItem) (labels : List (Nat × Nat)) (n : Nat)
    (code : List CItem) : ∀ (bs : List Instr) (s : St ω),
    runCode e whole labels (n + bs.length) (bs.map .ins ++ code) s =
      cont (runCode e whole labels n code) (runSeq e bs s)
  | [], s => rfl
  | i :: bs, s => by
    rw [List.map_cons, List.cons_append, List.length_cons, ← Nat.add_assoc, runCode, runSeq]
    cases hx : exec e i s with
    | ok t => exact runCode_ins e whole labels n code bs t
    | err => rfl
    | ub => rfl

/-! ## Matching programs -/

def BlockOk (e : Env ω) (b : Bool) (as bs : List Instr) : Prop :=
  ∀ s s' : St ω, Rel false s s' → Sim b (runSeq e as s) (runSeq e bs s')

/-- Requests and the code generated for them. -/
inductive Match (e : Env ω) : List Item → List CItem → Prop
  | nil : Match e [] []
  | block {as bs : List Instr} {its : List Item} {code : List CItem} :
      BlockOk e false as bs → Match e its code → Match e (as.map .op ++ its) (bs.map .ins ++ code)
  | label {l : Nat} {u : Bool} {its : List Item} {code : List CItem} :
      Match e its code → Match e (.label l u :: its) code
  | jump {c : Option Bool} {l : Nat} {u : Bool} {its : List Item} {code : List CItem} :
      Match e its code → Match e (.jump c l u :: its) (.jump c l :: code)

theorem Match.append {e : Env ω} {its its' : List Item} {code code' : List CItem} (h : Match e its code)
    (h' : Match e its' code') : Match e (its ++ its') (code ++ code') := by
  induction h with
  | nil => exact h'
  | block hb _ ih => rw [List.append_assoc, List.append_assoc]; exact .block hb ih
  | label _ ih => exact .label ih
  | jump _ ih => exact .jump ih

def LabelAt (e : Env ω) (its : List Item) (code : List CItem) (labels : List (Nat × Nat)) (l : Nat) : Prop :=
  (after l its = none ∧ labels.lookup l = none) ∨
    ∃ post pos, after l its = some post ∧ labels.lookup l = some pos ∧ pos ≤ code.length ∧
      Match e post (code.drop pos)

/-- Every label stands for the code of what follows it. -/
def LabelsOk (e : Env ω) (its : List Item) (code : List CItem) (labels : List (Nat × Nat)) : Prop :=
  ∀ l, LabelAt e its code labels l

theorem branch_rel (c : Option Bool) {s s' : St ω} (h : Rel false s s') :
    (∃ b t t', branch c s = .ok (b, t) ∧ branch c s' = .ok (b, t') ∧ Rel false t t') ∨
    branch c s = .ub ∧ branch c s' = .ub := by
  obtain ⟨c1, a⟩ := s
  obtain ⟨c2, a'⟩ := s'
  obtain ⟨rfl, _⟩ := h
  cases c with
  | none => exact .inl ⟨true, _, _, rfl, rfl, rfl, fun h => by cases h⟩
  | some b =>
    obtain ⟨st, m, base, regs, w⟩ := c1
    cases st with
    | nil => exact .inr ⟨rfl, rfl⟩
    | cons v st => exact .inl ⟨(v != 0) == b, _, _, rfl, rfl, rfl, fun h => by cases h⟩

theorem forward (e : Env ω) {whole : List Item} {code : List CItem} {labels : List (Nat × Nat)}
    (hl : LabelsOk e whole code labels) : ∀ (N : Nat) {its : List Item} {rest : List CItem},
    Match e its rest → ∀ (n : Nat), n ≤ N → ∀ (s s' : St ω) (x : R (St ω)), Rel false s s' →
      run e whole n its s = some x →
      x = .ub ∨ ∃ m y, runCode e code labels m rest s' = some y ∧ Sim false x y := by
  intro N
  induction N with
  | zero =>
    intro its rest _ n hn s s' x _ hr
    have : n = 0 := by omega
    subst this
    cases its <;> cases hr
  | succ N ihN =>
    intro its rest hm
    induction hm with
    | nil =>
      intro n hn s s' x hs hr
      cases n with
      | zero => cases hr
      | succ n =>
        cases hr
        exact .inr ⟨1, _, rfl, hs⟩
    | @block as bs its rest hb hm ih =>
      intro n hn s s' x hs hr
      have hr := run_le e whole (k := as.length) hr
      rw [run_ops] at hr
      have hsim := hb s s' hs
      cases ha : runSeq e as s with
      | ub => rw [ha] at hr; cases hr; exact .inl rfl
      | err z =>
        rw [ha] at hr hsim
        cases hr
        cases hbb : runSeq e bs s' with
        | ok => rw [hbb] at hsim; exact hsim.elim
        | ub => rw [hbb] at hsim; exact hsim.elim
        | err z' =>
          rw [hbb] at hsim
          refine .inr ⟨0 + bs.length, .err z', ?_, hsim⟩
          rw [runCode_ins, hbb]
          rfl
      | ok t =>
        rw [ha] at hr hsim
        cases hbb : runSeq e bs s' with
        | err => rw [hbb] at hsim; exact hsim.elim
        | ub => rw [hbb] at hsim; exact hsim.elim
        | ok t' =>
          rw [hbb] at hsim
          rcases ih n hn t t' x hsim hr with rfl | ⟨m, y, hy, hxy⟩
          · exact .inl rfl
          · refine .inr ⟨m + bs.length, y, ?_, hxy⟩
            rw [runCode_ins, hbb]
            exact hy
    | label hm ih =>
      intro n hn s s' x hs hr
      cases n with
      | zero => cases hr
      | succ n =>
        rw [run] at hr
        exact ih n (by omega) s s' x hs hr
    | @jump c l u its rest hm ih =>
      intro n hn s s' x hs hr
      cases n with
      | zero => cases hr
      | succ n =>
        rw [run] at hr
        rcases branch_rel c hs with ⟨b, t, t', h1, h2, ht⟩ | ⟨h1, h2⟩
        · rw [h1] at hr
          cases b with
          | false =>
            rcases ih n (by omega) t t' x ht hr with rfl | ⟨m, y, hy, hxy⟩
            · exact .inl rfl
            · refine .inr ⟨m + 1, y, ?_, hxy⟩
              rw [runCode, h2]
              exact hy
          | true =>
            dsimp only at hr
            rcases hl l with ⟨h3, h4⟩ | ⟨post, pos, h3, h4, _, hm'⟩
            · rw [h3] at hr
              cases hr
              exact .inl rfl
            · rw [h3] at hr
              rcases ihN hm' n (by omega) t t' x ht hr with rfl | ⟨m, y, hy, hxy⟩
              · exact .inl rfl
              · refine .inr ⟨m + 1, y, ?_, hxy⟩
                rw [runCode, h2]
                dsimp only
                rw [h4]
                exact hy
        · rw [h1] at hr
          cases hr
          exact .inl rfl

theorem backward (e : Env ω) {whole : List Item} {code : List CItem} {labels : List (Nat × Nat)}
    (hl : LabelsOk e whole code labels) : ∀ (N : Nat) {its : List Item} {rest : List CItem},
    Match e its rest → ∀ (n : Nat), n ≤ N → ∀ (s s' : St ω) (y : R (St ω)), Rel false s s' →
      runCode e code labels n rest s' = some y →
      ∃ m x, run e whole m its s = some x ∧ Sim false x y := by
  intro N
  induction N with
  | zero =>
    intro its rest _ n hn s s' x _ hr
    have : n = 0 := by omega
    subst this
    cases rest <;> cases hr
  | succ N ihN =>
    intro its rest hm
    induction hm with
    | nil =>
      intro n hn s s' y hs hr
      cases n with
      | zero => cases hr
      | succ n =>
        cases hr
        exact ⟨1, _, rfl, hs⟩
    | @block as bs its rest hb hm ih =>
      intro n hn s s' y hs hr
      have hr := runCode_le e code labels (k := bs.length) hr
      rw [runCode_ins] at hr
      have hsim := hb s s' hs
      cases ha : runSeq e as s with
      | ub =>
        refine ⟨0 + as.length, .ub, ?_, trivial⟩
        rw [run_ops, ha]
        rfl
      | err z =>
        refine ⟨0 + as.length, .err z, ?_, ?_⟩
        · rw [run_ops, ha]
          rfl
        · rw [ha] at hsim
          cases hbb : runSeq e bs s' with
          | ok => rw [hbb] at hsim; exact hsim.elim
          | ub => rw [hbb] at hsim; exact hsim.elim
          | err z' =>
            rw [hbb] at hsim hr
            cases hr
            exact hsim
      | ok t =>
        rw [ha] at hsim
        cases hbb : runSeq e bs s' with
        | err => rw [hbb] at hsim; exact hsim.elim
        | ub => rw [hbb] at hsim; exact hsim.elim
        | ok t' =>
          rw [hbb] at hsim hr
          obtain ⟨m, x, hx, hxy⟩ := ih n hn t t' y hsim hr
          refine ⟨m + as.length, x, ?_, hxy⟩
          rw [run_ops, ha]
          exact hx
    | label hm ih =>
      intro n hn s s' y hs hr
      obtain ⟨m, x, hx, hxy⟩ := ih n hn s s' y hs hr
      exact ⟨m + 1, x, by rw [run]; exact hx, hxy⟩
    | @jump c l u its rest hm ih =>
      intro n hn s s' y hs hr
      cases n with
      | zero => cases hr
      | succ n =>
        rw [runCode] at hr
        rcases branch_rel c hs with ⟨b, t, t', h1, h2, ht⟩ | ⟨h1, h2⟩
        · rw [h2] at hr
          cases b with
          | false =>
            obtain ⟨m, x, hx, hxy⟩ := ih n (by omega) t t' y ht hr
            refine ⟨m + 1, x, ?_, hxy⟩
            rw [run, h1]
            exact hx
          | true =>
            dsimp only at hr
            rcases hl l with ⟨h3, h4⟩ | ⟨post, pos, h3, h4, _, hm'⟩
            · refine ⟨1, .ub, ?_, trivial⟩
              rw [run, h1]
              dsimp only
              rw [h3]
            · rw [h4] at hr
              obtain ⟨m, x, hx, hxy⟩ := ihN hm' n (by omega) t t' y ht hr
              refine ⟨m + 1, x, ?_, hxy⟩
              rw [run, h1]
              dsimp only
              rw [h3]
              exact hx
        · refine ⟨1, .ub, ?_, trivial⟩
          rw [run, h1]

/-! ## The invariant of code generation -/

theorem after_append (l : Nat) (its' : List Item) : ∀ (its : List Item),
    after l (its ++ its') = match after l its with | some p => some (p ++ its') | none => after l its'
  | [] => rfl
  | .op i :: its => after_append l its' its
  | .jump .. :: its => after_append l its' its
  | .label l' u :: its => by
    rw [List.cons_append, after, after]
    split
    · rfl
    · exact after_append l its' its

theorem after_ops (l : Nat) : ∀ (as : List Instr), after l (as.map .op) = none
  | [] => rfl
  | _ :: as => after_ops l as

theorem after_none (l : Nat) : ∀ (its : List Item), l ∉ labelsOf its → after l its = none
  | [], _ => rfl
  | .op i :: its, h => after_none l its h
  | .jump .. :: its, h => after_none l its h
  | .label l' u :: its, h => by
    simp only [labelsOf, List.mem_cons, not_or] at h
    rw [after, if_neg (fun h' => h.1 h'.symm)]
    exact after_none l its h.2

theorem LabelAt.append {e : Env ω} {its its' : List Item} {code code' : List CItem}
    {labels : List (Nat × Nat)} {l : Nat} (h : LabelAt e its code labels l) (hn : after l its' = none)
    (hm : Match e its' code') : LabelAt e (its ++ its') (code ++ code') labels l := by
  rcases h with ⟨h1, h2⟩ | ⟨post, pos, h1, h2, h3, h4⟩
  · left
    rw [after_append, h1]
    exact ⟨hn, h2⟩
  · right
    refine ⟨post ++ its', pos, ?_, h2, ?_, ?_⟩
    · rw [after_append, h1]
    · rw [List.length_append]; omega
    · rw [List.drop_append_of_le_length h3]
      exact h4.append hm

/-- `its` is what has been requested so far. -/
def Inv (e : Env ω) (its : List Item) (g : Gen) (self jmp : Bool) : Prop :=
  ∃ its0 as code0 rb, its = its0 ++ as.map .op ∧ Open g code0.reverse rb ∧ Match e its0 code0 ∧
    BlockOk e self as rb.reverse ∧ LabelsOk e its0 code0 g.labels ∧ (jmp = true → as = [] ∧ rb = [])

theorem inv_init (e : Env ω) : Inv e [] initGen false false :=
  ⟨[], [], [], [], rfl, ⟨rfl, .inr rfl, Nat.le_refl _⟩, .nil, fun s s' h => h, fun l => .inl ⟨rfl, rfl⟩,
    fun h => by cases h⟩

theorem BlockOk.weaken {e : Env ω} {b c : Bool} {as bs : List Instr} (h : BlockOk e b as bs)
    (hc : c = true → b = true) : BlockOk e c as bs := fun s s' hs => (h s s' hs).weaken hc

/-- Closing the open block. -/
theorem Inv.close {e : Env ω} {its : List Item} {g : Gen} {self jmp : Bool} (h : Inv e its g self jmp) :
    Match e its g.rcode.reverse ∧ LabelsOk e its g.rcode.reverse g.labels ∧ g.lastJump ≤ g.ip := by
  obtain ⟨its0, as, code0, rb, rfl, ho, hm, hb, hl, _⟩ := h
  have hc : g.rcode.reverse = code0 ++ rb.reverse.map .ins := by
    rw [ho.code]; simp
  have hm1 : Match e (as.map .op) (rb.reverse.map .ins) := by
    have := Match.block (hb.weaken (c := false) (fun h => by cases h)) Match.nil
    simpa using this
  rw [hc]
  exact ⟨hm.append hm1, fun l => (hl l).append (after_ops l as) hm1, ho.le⟩

theorem Inv.op {e : Env ω} {its : List Item} {g g' : Gen} {self jmp : Bool} {i : Instr}
    (h : Inv e its g self jmp) (hf : Fits e g i) (hs : selfOk self i) (hg : gen e g i = .ok g') :
    Inv e (its ++ [.op i]) g' (selfAfter self i) false := by
    obtain ⟨its0, as, code0, rb, rfl, ho, hm, hb, hl, _⟩ := h
    obtain ⟨rb', ho', h1, h2, hsim⟩ := gen_good e ho hf hg
    refine ⟨its0, as ++ [i], code0, rb', by simp, ho', hm, fun s s' hr => ?_, h2 ▸ hl, fun h => by cases h⟩
    have := (runSeq_mono e (hb s s' hr) hs).trans (hsim s')
    refine this.weaken fun hx => ?_
    rw [hx, Bool.true_and]
    unfold selfAfter at hx
    split at hx <;> simp_all [keeps]

theorem Inv.label {e : Env ω} {its : List Item} {g g' : Gen} {self jmp u : Bool} {l : Nat}
    (h : Inv e its g self jmp) (hu : u = true ∨ jmp = true) (hn : l ∉ labelsOf its)
    (hg : genItem e g (.label l u) = .ok g') : Inv e (its ++ [.label l u]) g' false jmp := by
  obtain ⟨hm, hl, hle⟩ := h.close
  have hm' : Match e (its ++ [.label l u]) g.rcode.reverse := by
    have := hm.append (its' := [.label l u]) (.label .nil)
    simpa using this
  have hl' : LabelsOk e (its ++ [.label l u]) g.rcode.reverse ((l, g.ip) :: g.labels) := by
    intro l'
    by_cases hll : l = l'
    · subst hll
      right
      refine ⟨[], g.ip, ?_, by simp, by simp [Gen.ip], ?_⟩
      · rw [after_append, after_none l its hn]
        simp [after]
      · rw [List.drop_eq_nil_of_le (by simp [Gen.ip])]
        exact .nil
    · have hlk : ((l, g.ip) :: g.labels).lookup l' = g.labels.lookup l' := by
        rw [List.lookup_cons]
        have : (l' == l) = false := by simpa using fun h => hll h.symm
        rw [this]
      have := (hl l').append (its' := [.label l u]) (code' := []) (by simp [after, hll]) (.label .nil)
      unfold LabelAt at this ⊢
      rw [hlk]
      simpa using this
  cases u with
  | true =>
    have : g' = { updateLastJump g with labels := (l, g.ip) :: g.labels } := by cases hg; rfl
    subst this
    exact ⟨its ++ [.label l true], [], g.rcode.reverse, [], by simp,
      ⟨by simp [updateLastJump], .inl (by simp [updateLastJump, Gen.ip]; omega),
        by simp only [Gen.ip, updateLastJump] at hle ⊢; omega⟩, hm', fun s s' h => h, hl', fun _ => ⟨rfl, rfl⟩⟩
  | false =>
    have : g' = { g with labels := (l, g.ip) :: g.labels } := by cases hg; rfl
    subst this
    have hj : jmp = true := by simpa using hu
    obtain ⟨its0, as, code0, rb, rfl, ho, _, _, _, hj'⟩ := h
    obtain ⟨rfl, rfl⟩ := hj' hj
    have hc : g.rcode = code0.reverse := by simpa using ho.code
    refine ⟨_, [], g.rcode.reverse, [], by simp, ⟨by simp, ?_, hle⟩, hm', fun s s' h => h, hl', fun _ => ⟨rfl, rfl⟩⟩
    rw [List.reverse_reverse, hc]
    exact ho.bar

theorem Inv.jump {e : Env ω} {its : List Item} {g g' : Gen} {self jmp u : Bool} {l : Nat} {c : Option Bool}
    (h : Inv e its g self jmp) (hg : genItem e g (.jump c l u) = .ok g') :
    Inv e (its ++ [.jump c l u]) g' false true := by
  obtain ⟨hm, hl, hle⟩ := h.close
  have hm' : Match e [.jump c l u] [.jump c l] := .jump .nil
  have hl' : LabelsOk e (its ++ [.jump c l u]) (g.rcode.reverse ++ [.jump c l]) g.labels :=
    fun l' => (hl l').append rfl hm'
  have : g'.rcode = .jump c l :: g.rcode ∧ g'.labels = g.labels ∧ g'.lastJump ≤ g.ip := by
    cases u <;> cases hg
    · exact ⟨rfl, rfl, hle⟩
    · exact ⟨rfl, rfl, by simp only [Gen.ip, updateLastJump] at hle ⊢; exact Nat.max_le.2 ⟨hle, Nat.le_refl _⟩⟩
  obtain ⟨h1, h2, h3⟩ := this
  refine ⟨its ++ [.jump c l u], [], g.rcode.reverse ++ [.jump c l], [], by simp, ⟨by simp [h1], .inr (by simp), ?_⟩,
    hm.append hm', fun s s' h => h, h2 ▸ hl', fun _ => ⟨rfl, rfl⟩⟩
  simp only [Gen.ip, h1, List.length_cons] at h3 ⊢
  omega

theorem labelsOf_append (xs ys : List Item) : labelsOf (xs ++ ys) = labelsOf xs ++ labelsOf ys := by
  induction xs with
  | nil => rfl
  | cons x xs ih => cases x <;> simp [labelsOf, ih]

theorem genAll_inv (e : Env ω) : ∀ (its done : List Item) (g g' : Gen) (self jmp : Bool),
    Inv e done g self jmp → (labelsOf (done ++ its)).Nodup → Proper e its g self jmp →
    genAll e its g = .ok g' → ∃ self jmp, Inv e (done ++ its) g' self jmp
  | [], done, g, g', self, jmp, hi, _, _, hg => by
    cases hg
    exact ⟨self, jmp, by simpa using hi⟩
  | it :: its, done, g, g', self, jmp, hi, hn, hp, hg => by
    obtain ⟨g1, h1, h2⟩ := bind_eq_ok hg
    have hn' : (labelsOf ((done ++ [it]) ++ its)).Nodup := by simpa using hn
    have key : ∃ self jmp, Inv e (done ++ [it]) g1 self jmp ∧ Proper e its g1 self jmp := by
      cases it with
      | op i =>
        obtain ⟨hf, hs, hp⟩ := hp
        exact ⟨_, _, hi.op hf hs h1, hp g1 h1⟩
      | label l u =>
        obtain ⟨hu, hp⟩ := hp
        refine ⟨_, _, hi.label hu (fun hm => ?_) h1, hp g1 h1⟩
        rw [labelsOf_append, labelsOf, List.nodup_append] at hn
        exact hn.2.2 l hm l (by simp) rfl
      | jump c l u => exact ⟨_, _, hi.jump h1, hp g1 h1⟩
    obtain ⟨self', jmp', hi', hp'⟩ := key
    have := genAll_inv e its (done ++ [it]) g1 g' self' jmp' hi' hn' hp' h2
    simpa using this

/-! ## Rejected code -/

def notOk {α : Type} (x : R α) : Prop := ∀ a, x ≠ .ok a

theorem notOk_bind {α β : Type} {x : R α} {f : α → R β} (h : ∀ a, x = .ok a → notOk (f a)) :
    notOk (x.bind f) := by
  intro b hb
  obtain ⟨a, ha, hf⟩ := bind_eq_ok hb
  exact h a ha b hf

theorem notOk_of_bind {α β : Type} {x : R α} {f : α → β} (h : notOk (x.bind fun a => .ok (f a))) :
    notOk x := by
  rintro a rfl
  exact h _ rfl

theorem notOk_seq (e : Env ω) {xs ys : List Instr} (h : ∀ t, notOk (runSeq e ys t)) (t : St ω) :
    notOk (runSeq e (xs ++ ys) t) := by
  rw [runSeq_append]
  exact notOk_bind fun a _ => h a

theorem gen_notOk (e : Env ω) {rc : List CItem} {g : Gen} {rb : List Instr} {i : Instr} (h : Open g rc rb)
    (hf : Fits e g i)
    (ha : ∀ k k₁ k₂ x y, i = .callBuiltin (.num .atan2) k → prev g = some (.push k₁ x) →
      prev2 g = some (.push k₂ y) → e.real.isZero x = e.real.isZero y)
    (hg : notOk (gen e g i)) (t : St ω) : notOk (runSeq e (rb.reverse ++ [i]) t) := by
  unfold gen at hg
  split at hg
  case h_4 => split at hg <;> exact absurd rfl (hg _)
  case h_10 size len =>
    unfold genGetArrayPtr at hg
    split at hg
    · rename_i v hp
      obtain ⟨h1, h2⟩ := hf.2 v hp
      rw [toInt32_eq h1 h2] at hg
      obtain ⟨rb', rfl, _⟩ := prev_some h hp
      rw [List.reverse_cons, List.append_assoc]
      refine notOk_seq e (fun t => ?_) t
      split at hg
      · rename_i hl
        dsimp only at hg
        simp only [List.cons_append, List.nil_append, runSeq, exec, bind_ok, St.withStack]
        split
        · rename_i heq
          simp only [List.cons.injEq] at heq
          obtain ⟨rfl, heq⟩ := heq
          split at hg
          · rename_i hr
            refine notOk_bind fun u hu => ?_
            obtain ⟨p, hp, _⟩ := bind_eq_ok hu
            unfold arrayPtr at hp
            rw [if_pos hl] at hp
            split at hp
            · cases hp
            · try rw [if_pos hr] at hp
              cases hp
          · split at hg
            · exact absurd rfl (hg _)
            · rename_i hr hs
              have hlt := hf.1
              exfalso
              apply hs
              refine Int.lt_of_le_of_lt ?_ hlt
              exact Int.mul_le_mul_of_nonneg_left (by omega) (by omega)
        · intro a ha
          cases ha
      · exact absurd rfl (hg _)
    · exact absurd rfl (hg _)
  case h_11 op k =>
    unfold genUnary at hg
    split at hg
    · rename_i k' v hp
      obtain ⟨rb', rfl, _⟩ := prev_some h hp
      rw [List.reverse_cons, List.append_assoc]
      refine notOk_seq e (fun t => ?_) t
      have := notOk_of_bind hg
      rw [constUnary_eq] at this
      simp only [List.cons_append, List.nil_append, runSeq, exec, bind_ok, St.withStack]
      refine notOk_bind fun u hu => ?_
      obtain ⟨p, hp, _⟩ := bind_eq_ok hu
      exact absurd hp (this _)
    · exact absurd rfl (hg _)
  case h_12 op k =>
    unfold genBinary at hg
    split at hg
    · rename_i k₁ r k₂ l hp hp2
      split at hg
      · rename_i hk
        obtain ⟨rb', rfl, _⟩ := prev2_some h hp hp2
        simp only [List.reverse_cons, List.append_assoc]
        refine notOk_seq e (fun t => ?_) t
        have := notOk_of_bind hg
        simp only [List.cons_append, List.nil_append, runSeq, exec, bind_ok, St.withStack,
          constBinary_eq e op k hk]
        refine notOk_bind fun u hu => ?_
        obtain ⟨p, hp, _⟩ := bind_eq_ok hu
        obtain ⟨q, hq, _⟩ := bind_eq_ok hp
        exact absurd hq (this _)
      · exact absurd rfl (hg _)
    · exact absurd rfl (hg _)
  case h_13 f k =>
    unfold genCallBuiltin at hg
    split at hg
    · rename_i k1 x hp
      split at hg
      · split at hg
        · rename_i k2 y hp2
          have hz := ha k k1 k2 x y rfl hp hp2
          obtain ⟨rb', rfl, _⟩ := prev2_some h hp hp2
          simp only [List.reverse_cons, List.append_assoc]
          refine notOk_seq e (fun t => ?_) t
          have := notOk_of_bind hg
          have heq : Arith.constCallBuiltin e.real .atan2 k2.arith (.r y) x =
              Arith.callBuiltin e.real .atan2 k.arith (.r y) x := by
            simp [Arith.constCallBuiltin, Arith.callBuiltin, hz]
          rw [heq] at this
          simp only [List.cons_append, List.nil_append, runSeq, exec, bind_ok, St.withStack, callNum,
            if_true, numArg]
          refine notOk_bind fun u hu => ?_
          obtain ⟨p, hp, _⟩ := bind_eq_ok hu
          obtain ⟨q, hq, _⟩ := bind_eq_ok hp
          exact absurd hq (this _)
        · exact absurd rfl (hg _)
      · rename_i f hne
        have hne : f ≠ .atan2 := fun hf => by subst hf; exact hne rfl
        have hk := fun hm => hf hm _ _ hp
        obtain ⟨rb', rfl, _⟩ := prev_some h hp
        rw [List.reverse_cons, List.append_assoc]
        refine notOk_seq e (fun t => ?_) t
        have := notOk_of_bind hg
        rw [constBuiltin_eq e f hne k k1 hk] at this
        simp only [List.cons_append, List.nil_append, runSeq, exec, bind_ok, St.withStack, callNum, if_neg hne]
        refine notOk_bind fun u hu => ?_
        obtain ⟨p, hp, _⟩ := bind_eq_ok hu
        obtain ⟨q, hq, _⟩ := bind_eq_ok hp
        exact absurd hq (this _)
      · split at hg
        · rename_i k2 y hp2
          have hk := hf _ _ hp2
          obtain ⟨rb', rfl, _⟩ := prev2_some h hp hp2
          simp only [List.reverse_cons, List.append_assoc]
          refine notOk_seq e (fun t => ?_) t
          have := notOk_of_bind hg
          rw [constBuiltin_eq e .makereal (by decide) k k2 (fun _ => hk)] at this
          simp only [List.cons_append, List.nil_append, runSeq, exec, bind_ok, St.withStack, callMakeRealLeft]
          refine notOk_bind fun u hu => ?_
          obtain ⟨p, hp, _⟩ := bind_eq_ok hu
          obtain ⟨q, hq, _⟩ := bind_eq_ok hp
          exact absurd hq (this _)
        · exact absurd rfl (hg _)
      · exact absurd rfl (hg _)
    · exact absurd rfl (hg _)
  all_goals exact absurd rfl (hg _)

/-- A program that ends with straight-line code that fails. -/
theorem run_notOk (e : Env ω) {its : List Item} {as : List Instr} (h : ∀ t, notOk (runSeq e as t)) :
    ∀ (n : Nat) (r : List Item) (s : St ω) (y : St ω),
      run e (its ++ as.map .op) n (r ++ as.map .op) s ≠ some (.ok y)
  | 0, r, s, y, hr => by cases r <;> cases as <;> cases hr
  | n + 1, [], s, y, hr => by
    have hr := run_le e _ (k := as.length) hr
    have := run_ops e (its ++ as.map .op) (n + 1) [] as s
    rw [List.append_nil] at this
    rw [List.nil_append, this] at hr
    have hn := h s
    cases hx : runSeq e as s with
    | ok t => exact hn t hx
    | err => rw [hx] at hr; cases hr
    | ub => rw [hx] at hr; cases hr
  | n + 1, .op i :: r, s, y, hr => by
    rw [List.cons_append, run] at hr
    cases hx : exec e i s with
    | ok t => rw [hx] at hr; exact run_notOk e h n r t y hr
    | err => rw [hx] at hr; cases hr
    | ub => rw [hx] at hr; cases hr
  | n + 1, .label _ _ :: r, s, y, hr => by
    rw [List.cons_append, run] at hr
    exact run_notOk e h n r s y hr
  | n + 1, .jump c l _ :: r, s, y, hr => by
    rw [List.cons_append, run] at hr
    rcases hb : branch c s with ⟨b, t⟩ | _ | _
    · rw [hb] at hr
      cases b with
      | false => exact run_notOk e h n r t y hr
      | true =>
        dsimp only at hr
        rw [after_append, after_ops] at hr
        cases ha : after l its with
        | none => rw [ha] at hr; cases hr
        | some p => rw [ha] at hr; exact run_notOk e h n p t y hr
    · rw [hb] at hr; cases hr
    · rw [hb] at hr; cases hr

end Umka.Peephole
