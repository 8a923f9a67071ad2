import Verif.Warn.Steps
/-! # Warnings: shadowed identifiers -/

namespace Umka.Warn

open Umka.Scope (Compat Env Ident Decl Name What Query Inv Rep entries find_entries rep_zero rep_length rep_block outerLoop outerLoop_none)
open Spec
open Scope.Spec (denotes)

theorem fold_env' (L : List Ident) : ∀ s : State, (L.foldl warnIfUnused s).env = s.env := by
  induction L with
  | nil => intro s; rfl
  | cons i L ih =>
    intro s
    rw [List.foldl_cons, ih]
    unfold warnIfUnused
    split
    · rfl
    · split <;> rfl

/-- The operation of the area Scope, if there is one. -/
def Op.name? : Op → Option Scope.Op
  | .scope op => some op
  | .declareUsed d => some (.declare d)
  | .endModule => none

theorem step_env {C : Compat} {mainSig : Nat → Bool} {s s' : State} {op : Op} {o : Scope.Out} (h : step C mainSig s op = .ok (s', o)) :
    (∀ sop, op.name? = some sop → Scope.step C s.env sop = .ok (s'.env, o)) ∧ (op.name? = none → s'.env = s.env) := by
  cases op with
  | endModule => cases h; exact ⟨fun _ e => (nomatch e), fun _ => fold_env' _ _⟩
  | declareUsed d =>
    refine ⟨fun sop e => ?_, fun e => (nomatch e)⟩
    cases e
    change (declare C mainSig s d true >>= _) = _ at h
    unfold declare at h
    show (Scope.declare C s.env d >>= _) = _
    cases hE : Scope.declare C s.env d with
    | error e => rw [hE] at h; cases h
    | ok E => rw [hE] at h; cases h; rfl
  | scope sop =>
    refine ⟨fun sop' e => ?_, fun e => (nomatch e)⟩
    cases e
    cases sop with
    | declare d =>
      change (declare C mainSig s d false >>= _) = _ at h
      unfold declare at h
      show (Scope.declare C s.env d >>= _) = _
      cases hE : Scope.declare C s.env d with
      | error e => rw [hE] at h; cases h
      | ok E => rw [hE] at h; cases h; rfl
    | leave =>
      cases h
      show Except.ok (if _ then _ else _, _) = Except.ok ((if _ then _ else _ : State).env, _)
      split <;> rfl
    | lookup q =>
      cases h
      show Except.ok (s.env, _) = Except.ok ((markUsed C s q).env, _)
      unfold markUsed
      split <;> rfl
    | enter fn =>
      change (Scope.step C s.env (.enter fn) >>= _) = _ at h
      cases hE : Scope.step C s.env (.enter fn) with
      | error e => rw [hE] at h; cases h
      | ok x => rw [hE] at h; cases h; rfl
    | temp =>
      change (Scope.step C s.env .temp >>= _) = _ at h
      cases hE : Scope.step C s.env .temp with
      | error e => rw [hE] at h; cases h
      | ok x => rw [hE] at h; cases h; rfl
    | tempOutside =>
      change (Scope.step C s.env .tempOutside >>= _) = _ at h
      cases hE : Scope.step C s.env .tempOutside with
      | error e => rw [hE] at h; cases h
      | ok x => rw [hE] at h; cases h; rfl
    | switchModule m => cases h; rfl
    | imported m => cases h; rfl

theorem names_cons (op : Op) (ops : List Op) : names (op :: ops) = match op.name? with | some sop => sop :: names ops | none => names ops := by
  cases op <;> rfl

theorem name_plain {op : Op} (h : op.plain) {sop : Scope.Op} (e : op.name? = some sop) : sop.plain := by
  cases op <;> cases e <;> exact h

theorem run_names {C : Compat} {mainSig : Nat → Bool} : ∀ {ops : List Op} {s s' : State} {outs : List Scope.Out} {S : Scope.Spec.State}, Inv s.env S →
    (∀ op ∈ ops, op.plain) → run C mainSig s ops = .ok (s', outs) → ∃ S' os, Scope.Spec.run C S (names ops) = .ok (S', os) ∧ Inv s'.env S'
  | [], s, s', outs, S, hI, _, h => by cases h; exact ⟨S, [], rfl, hI⟩
  | op :: ops, s, s', outs, S, hI, hp, h => by
    rw [run] at h
    cases h1 : step C mainSig s op with
    | error e => rw [h1] at h; cases h
    | ok x =>
      obtain ⟨s1, o⟩ := x
      rw [h1] at h
      change (run C mainSig s1 ops >>= _) = _ at h
      cases h2 : run C mainSig s1 ops with
      | error e => rw [h2] at h; cases h
      | ok y =>
        obtain ⟨s2, os⟩ := y
        rw [h2] at h
        cases h
        obtain ⟨g1, g2⟩ := step_env h1
        have hp' : ∀ x ∈ ops, x.plain := fun x hx => hp x (List.mem_cons_of_mem _ hx)
        rw [names_cons]
        cases hop : op.name? with
        | none =>
          exact run_names (by rw [g2 hop]; exact hI) hp' h2
        | some sop =>
          have := Scope.step_rel (C := C) hI sop (name_plain (hp op (List.mem_cons_self ..)) hop)
          rw [g1 sop hop] at this
          cases hs : Scope.Spec.step C S sop with
          | error e => rw [hs] at this; exact this.elim
          | ok X =>
            rw [hs] at this
            obtain ⟨S1, o1⟩ := X
            obtain ⟨S2, os2, g3, g4⟩ := run_names this.1 hp' h2
            refine ⟨S2, o1 :: os2, ?_, g4⟩
            show Scope.Spec.run C S (sop :: names ops) = _
            rw [Scope.Spec.run, hs]
            change (Scope.Spec.run C S1 (names ops) >>= _) = _
            rw [g3]
            rfl

theorem hides_rep {C : Compat} {S : Scope.Spec.State} {q : Query} (hq : q.name.isPlain = true) :
    ∀ {bs is ss}, Rep bs is ss → ∀ crossed, hidesIn C S q ss crossed = match is.find? fun i => denotes C S q i.entry with
      | none => false
      | some i => i.block != 0 && !(i.what == .var && outerLoop i.block bs crossed)
  | [], is, ss, ⟨h, h'⟩, _ => by subst h; subst h'; rfl
  | b :: bs, is, ss, hR@⟨seg, rest, s, ss', h1, h2, h3, h4, h5, h6, h7, h8, h⟩, crossed => by
    have hz := rep_zero hR b bs rfl
    have hlen := rep_length h
    subst h1; subst h2
    rw [hidesIn]
    by_cases he : ss' = []
    · rw [if_pos he]
      have hbs : bs = [] := by subst he; exact List.length_eq_zero_iff.mp hlen.symm
      subst hbs
      have hr : rest = [] := h.1
      subst hr
      rw [List.append_nil]
      cases hf : seg.find? fun i => denotes C S q i.entry with
      | none => rfl
      | some i =>
        have : i.block = 0 := (h3 i (List.mem_of_find?_eq_some hf)).trans (hz.mpr rfl)
        simp [this]
    · rw [if_neg he, h4, find_entries C S q hq, List.find?_append]
      have hb0 : b.num ≠ 0 := fun hc => he (List.length_eq_zero_iff.mp (by rw [hlen, hz.mp hc]; rfl))
      cases hf : seg.find? fun i => denotes C S q i.entry with
      | some i =>
        have hb := h3 i (List.mem_of_find?_eq_some hf)
        simp only [Option.map_some, Option.some_or]
        have hout : outerLoop i.block (b :: bs) crossed = crossed := by
          rw [outerLoop]
          cases crossed
          · rw [if_neg (by simp)]
            exact outerLoop_none _ _ _ (fun b' hb' => by have := h6 b' hb'; omega)
          · rw [if_pos ⟨hb.symm, rfl⟩]
        rw [hout]
        have : (i.block != 0) = true := by rw [hb]; simpa using hb0
        rw [this, Bool.true_and, Bool.and_comm]
        rfl
      | none =>
        simp only [Option.map_none, Option.none_or]
        rw [hides_rep hq h, h5]
        cases hf' : rest.find? fun i => denotes C S q i.entry with
        | none => rfl
        | some i =>
          dsimp only
          obtain ⟨b', hb', e⟩ := rep_block h i (List.mem_of_find?_eq_some hf')
          have := h6 b' hb'
          have e' : outerLoop i.block (b :: bs) crossed = outerLoop i.block bs (crossed || b.fn) := by
            rw [outerLoop, if_neg (by omega)]
          rw [e']

theorem plain_hidden (n : String) : isHidden (.plain n) = true ↔ n.toList.head? = some '#' := by simp [isHidden]

theorem plain_placeholder (n : String) : isPlaceholder (.plain n) = true ↔ Name.plain n = .plain "_" := by
  simp only [isPlaceholder, beq_iff_eq, Name.plain.injEq]
  constructor
  · intro h; exact String.ext h
  · rintro rfl; rfl

theorem shadow_iff {C : Compat} {E : Env} {S : Scope.Spec.State} (hI : Inv E S) (d : Decl) (hd : ∃ n, d.name = .plain n) :
    (Hides C S d → shadowWarning C E d = [.shadowed d.tag]) ∧ (¬ Hides C S d → shadowWarning C E d = []) := by
  have hpl := Scope.plain_isPlain hd
  have hrep := hI.rep
  obtain ⟨n, hn⟩ := hd
  cases hb : E.blocks with
  | nil => exact absurd hb hI.nonempty
  | cons b bs =>
    rw [hb] at hrep
    obtain ⟨seg, rest, s, ss', h1, h2, h3, h4, h5, h6, h7, h8, hR⟩ := hrep
    have hcur := Scope.cur_cons hb
    have key : shadowWarning C E d = (match (seg ++ rest).find? fun i => denotes C S ⟨S.module, d.name, d.rcv, d.what == .module⟩ i.entry with
        | some e => if e.block ≠ b.num ∧ ¬ isHidden d.name ∧ ¬ isPlaceholder d.name ∧ e.block ≠ 0 ∧ ¬ Scope.isOuterLocal E e then [.shadowed d.tag] else []
        | none => []) := by
      unfold shadowWarning
      rw [Scope.find_eq hI, h1, hcur, ← hI.module]
      try (generalize List.find? _ (seg ++ rest) = x; cases x <;> rfl)
    have hH : Hides C S d ↔ (d.name ≠ .plain "_" ∧ (∀ s, d.name = .plain s → s.toList.head? ≠ some '#') ∧
        seg.find? (fun i => denotes C S ⟨S.module, d.name, d.rcv, d.what == .module⟩ i.entry) = none ∧
        hidesIn C S ⟨S.module, d.name, d.rcv, d.what == .module⟩ ss' b.fn = true) := by
      unfold Hides
      rw [h2]
      dsimp only
      rw [h4, find_entries C S _ hpl, h5, Option.map_eq_none_iff]
    rw [key, hH, hides_rep hpl hR]
    have e1 : (d.name ≠ .plain "_") ↔ ¬ isPlaceholder d.name = true := by rw [hn, plain_placeholder]
    have e2 : (∀ s, d.name = .plain s → s.toList.head? ≠ some '#') ↔ ¬ isHidden d.name = true := by
      rw [hn, plain_hidden]
      exact ⟨fun h => h n rfl, fun h s e => by cases e; exact h⟩
    rw [e1, e2]
    cases hf : (seg ++ rest).find? fun i => denotes C S ⟨S.module, d.name, d.rcv, d.what == .module⟩ i.entry with
    | none =>
      rw [List.find?_append] at hf
      cases hs : seg.find? fun i => denotes C S ⟨S.module, d.name, d.rcv, d.what == .module⟩ i.entry with
      | some x => rw [hs] at hf; cases hf
      | none =>
        rw [hs, Option.none_or] at hf
        rw [hf]
        exact ⟨fun h => by simp at h, fun _ => rfl⟩
    | some e =>
      rcases Scope.find_top h3 h6 hR e hf with ⟨heb, hf'⟩ | ⟨heb, hf'⟩
      · rw [hf']
        dsimp only
        rw [if_neg fun h => h.1 heb]
        exact ⟨fun h => by simp at h, fun _ => rfl⟩
      · have hrest : rest.find? (fun i => denotes C S ⟨S.module, d.name, d.rcv, d.what == .module⟩ i.entry) = some e := by
          rw [List.find?_append, hf', Option.none_or] at hf; exact hf
        rw [hf', hrest]
        dsimp only
        have ho : Scope.isOuterLocal E e = (e.block != 0 && (e.what == .var && outerLoop e.block bs b.fn)) := by
          have e' : outerLoop e.block (b :: bs) false = outerLoop e.block bs b.fn := by
            rw [outerLoop, if_neg (fun h => heb h.1.symm), Bool.false_or]
          unfold Scope.isOuterLocal
          rw [hb, e']
          by_cases hv : e.what = .var <;> by_cases h0 : e.block = 0 <;> simp [hv, h0]
        rw [ho]
        by_cases hc : ¬ isPlaceholder d.name = true ∧ ¬ isHidden d.name = true ∧ (none : Option Ident) = none ∧
            (e.block != 0 && !(e.what == What.var && outerLoop e.block bs b.fn)) = true
        · refine ⟨fun _ => if_pos ?_, fun h => absurd hc h⟩
          obtain ⟨c1, c2, _, c3⟩ := hc
          rw [Bool.and_eq_true] at c3
          refine ⟨heb, c2, c1, by simpa using c3.1, ?_⟩
          have := c3.2
          rw [Bool.not_eq_true'] at this
          rw [this]
          simp
        · refine ⟨fun h => absurd h hc, fun _ => if_neg ?_⟩
          rintro ⟨_, c2, c1, c0, c3⟩
          refine hc ⟨c1, c2, rfl, ?_⟩
          have : (e.block != 0) = true := by simpa using c0
          rw [this, Bool.true_and] at c3 ⊢
          rw [Bool.not_eq_true']
          exact Bool.eq_false_iff.mpr c3

end Umka.Warn
