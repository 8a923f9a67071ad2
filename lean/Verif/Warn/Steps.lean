import Verif.Warn.Reach
/-! # Warnings: every operation keeps the invariant -/

namespace Umka.Warn

open Umka.Scope (Compat Env Ident Decl Name What Query Inv)
open Spec

/-! ## Temporary variables -/

theorem addTemp_quiet {C : Compat} {E E' : Env} (h : Scope.addTemp C E = .ok E') :
    live E' = live E ∧ E'.module = E.module ∧ E'.blocks = E.blocks ∧ E.nextId ≤ E'.nextId ∧ ∃ m, m.name.isPlain = false ∧ E'.idents = m :: E.idents := by
  rcases declare_cases h with ⟨e, _⟩ | ⟨e, e', _, _, hr, _⟩
  · subst e
    exact ⟨rfl, rfl, rfl, Nat.le_succ _, _, rfl, rfl⟩
  · rcases (resolve_facts hr).1 with ⟨_, _, h⟩ | ⟨_, _, _, ⟨_, h⟩ | ⟨_, h⟩⟩ <;> cases h

theorem filter_insertBefore {m : Ident} (hm : m.name.isPlain = false) (next : Option Nat) (l : List Ident) :
    (Scope.insertBefore m next l).filter (·.name.isPlain) = l.filter (·.name.isPlain) := by
  induction l with
  | nil =>
    unfold Scope.insertBefore
    split
    · rw [List.filter_cons, if_neg (by rw [hm]; simp)]
    · rfl
  | cons i l ih =>
    unfold Scope.insertBefore
    split
    · rw [List.filter_cons, if_neg (by rw [hm]; simp)]
    · rw [List.filter_cons, ih, List.filter_cons]

theorem addTempOutside_quiet {C : Compat} {E E' : Env} (h : Scope.addTempOutside C E = .ok E') :
    live E' = live E ∧ E'.module = E.module ∧ E'.blocks = E.blocks ∧ E.nextId ≤ E'.nextId := by
  unfold Scope.addTempOutside at h
  cases hb : E.blocks with
  | nil => rw [hb] at h; cases h; exact ⟨rfl, rfl, hb, Nat.le_refl _⟩
  | cons b bs =>
    rw [hb] at h
    dsimp only at h
    cases h1 : Scope.addTemp C { E with blocks := bs } with
    | error e => rw [h1] at h; cases h
    | ok E1 =>
      rw [h1] at h
      cases h
      obtain ⟨_, g2, _, g4, m, g5, g6⟩ := addTemp_quiet h1
      refine ⟨?_, g2, rfl, g4⟩
      show (Scope.moveBefore E1.idents b.succ).filter _ = E.idents.filter _
      rw [g6]
      unfold Scope.moveBefore
      dsimp only
      split
      · exact filter_insertBefore g5 _ _
      · rw [List.filter_cons, if_neg (by rw [g5]; simp)]

/-! ## Warnings about a part of the identifiers -/

theorem warned_fold {mainSig : Nat → Bool} {ops : List Op} {outs : List Scope.Out} {s : State} (h : K mainSig ops outs s) {L : List Ident}
    (hL : L.Sublist s.env.idents) (b : Bool) (t : Nat) :
    Warning.unused b t ∈ (L.foldl warnIfUnused s).warns ↔
      Warning.unused b t ∈ s.warns ∨ ∃ i ∈ L, i.name.isPlain = true ∧ i.id ∉ s.used ∧ i.tag = t ∧ b = (i.what == .module) := by
  obtain ⟨S, hS⟩ := h.inv
  rw [(fold_warn L s ((hL.map _).nodup hS.nodup)).2.1, List.mem_append, List.mem_map]
  refine or_congr Iff.rfl ⟨?_, ?_⟩
  · rintro ⟨i, hi, e⟩
    obtain ⟨hi, hc⟩ := List.mem_filter.mp hi
    simp only [Bool.and_eq_true, Bool.not_eq_true', List.contains_eq_mem, decide_eq_false_iff_not] at hc
    injection e with e1 e2
    exact ⟨i, hi, hc.1, hc.2, e2, e1.symm⟩
  · rintro ⟨i, hi, hp, hu, e1, e2⟩
    refine ⟨i, List.mem_filter.mpr ⟨hi, ?_⟩, by rw [warning, e1, e2]⟩
    simp only [Bool.and_eq_true, Bool.not_eq_true', List.contains_eq_mem, decide_eq_false_iff_not]
    exact ⟨hp, hu⟩

theorem reported_append (a b : List Warning) : reported (a ++ b) = reported a ++ reported b := List.filterMap_append

theorem mem_reported {ws : List Warning} {t : Nat} : t ∈ reported ws ↔ ∃ b, Warning.unused b t ∈ ws := by
  unfold reported
  rw [List.mem_filterMap]
  constructor
  · rintro ⟨w, hw, e⟩
    cases w with
    | unused b t' => cases e; exact ⟨b, hw⟩
    | shadowed t' => cases e
  · rintro ⟨b, h⟩
    exact ⟨_, h, rfl⟩

theorem reported_map (L : List Ident) : reported (L.map warning) = L.map (·.tag) := by
  induction L with
  | nil => rfl
  | cons i L ih => exact congrArg (List.cons _) ih

theorem once_fold {mainSig : Nat → Bool} {ops : List Op} {outs : List Scope.Out} {s : State} (h : K mainSig ops outs s) {L : List Ident}
    (hL : L.Sublist s.env.idents) : (reported (L.foldl warnIfUnused s).warns).Nodup := by
  obtain ⟨S, hS⟩ := h.inv
  rw [(fold_warn L s ((hL.map _).nodup hS.nodup)).2.1, reported_append, reported_map]
  refine List.nodup_append.mpr ⟨h.once, ?_, ?_⟩
  · refine List.Sublist.nodup ?_ h.tags
    refine List.Sublist.map _ ?_
    rw [← List.filter_filter]
    exact (List.Sublist.filter _ List.filter_sublist).trans (hL.filter _) |>.trans (List.Sublist.refl _)
  · intro a ha t ht e
    subst e
    obtain ⟨i, hi, rfl⟩ := List.mem_map.mp ht
    obtain ⟨hi, hc⟩ := List.mem_filter.mp hi
    simp only [Bool.and_eq_true, Bool.not_eq_true', List.contains_eq_mem, decide_eq_false_iff_not] at hc
    obtain ⟨m, al⟩ := h.decl i (mem_live.mpr ⟨hL.subset hi, hc.1⟩)
    exact hc.2 (al.used.mpr (.inr (.inr (mem_reported.mp ha))))

/-- A declaration alive that the warnings concern gets the warning it deserves. -/
theorem correct_fold {mainSig : Nat → Bool} {ops : List Op} {outs : List Scope.Out} {s : State} (h : K mainSig ops outs s) {L : List Ident}
    (hL : L.Sublist s.env.idents) {i : Ident} (hi : i ∈ L) (hp : i.name.isPlain = true) {m : Made} (al : Alive mainSig ops outs s i m)
    (hw : ¬ ∃ b, Warning.unused b i.tag ∈ s.warns) : Correct mainSig outs (L.foldl warnIfUnused s).warns m := by
  have hl : i ∈ live s.env := mem_live.mpr ⟨hL.subset hi, hp⟩
  intro b
  rw [warned_fold h hL, al.tag]
  constructor
  · rintro (h1 | ⟨j, hj, hjp, hu, ht, hb⟩)
    · exact absurd ⟨b, h1⟩ hw
    · have : j = i := tag_inj h (mem_live.mpr ⟨hL.subset hj, hjp⟩) hl ht
      subst this
      exact ⟨hb.trans al.kind, fun e => hu (al.used.mpr (.inl e)), fun e => hu (al.used.mpr (.inr (.inl e)))⟩
  · rintro ⟨hb, he, hr⟩
    refine .inr ⟨i, hi, hp, fun hu => ?_, rfl, hb.trans al.kind.symm⟩
    rcases al.used.mp hu with h1 | h1 | h1
    · exact he h1
    · exact hr h1
    · exact hw h1

/-- A declaration that the warnings do not concern. -/
theorem other_fold {mainSig : Nat → Bool} {ops : List Op} {outs : List Scope.Out} {s : State} (h : K mainSig ops outs s) {L : List Ident}
    (hL : L.Sublist s.env.idents) {t : Nat} (ht : ∀ i ∈ L, i.name.isPlain = true → i.tag ≠ t) (b : Bool) :
    Warning.unused b t ∈ (L.foldl warnIfUnused s).warns ↔ Warning.unused b t ∈ s.warns := by
  rw [warned_fold h hL]
  exact ⟨fun h1 => h1.elim id fun ⟨i, hi, hp, _, e, _⟩ => absurd e (ht i hi hp), .inl⟩

theorem used_fold {mainSig : Nat → Bool} {ops : List Op} {outs : List Scope.Out} {s : State} (h : K mainSig ops outs s) {L : List Ident}
    (hL : L.Sublist s.env.idents) {i : Ident} (hi : i ∈ live s.env) : i.id ∈ (L.foldl warnIfUnused s).used ↔ i.id ∈ s.used ∨ i ∈ L := by
  obtain ⟨S, hS⟩ := h.inv
  rw [(fold_warn L s ((hL.map _).nodup hS.nodup)).2.2]
  refine or_congr Iff.rfl ⟨fun ⟨j, hj, _, e⟩ => ?_, fun h1 => ⟨i, h1, (mem_live.mp hi).2, rfl⟩⟩
  rw [← id_inj hS (hL.subset hj) (mem_live.mp hi).1 e]
  exact hj

theorem ids_fold {mainSig : Nat → Bool} {ops : List Op} {outs : List Scope.Out} {s : State} (h : K mainSig ops outs s) {L : List Ident}
    (hL : L.Sublist s.env.idents) : ∀ k ∈ (L.foldl warnIfUnused s).used, k < s.env.nextId := by
  obtain ⟨S, hS⟩ := h.inv
  intro k hk
  rcases ((fold_warn L s ((hL.map _).nodup hS.nodup)).2.2 k).mp hk with hk | ⟨i, hi, _, rfl⟩
  · exact h.ids k hk
  · exact hS.ids i (hL.subset hi)

/-- `i` stays alive while the identifiers of `L` are reported. -/
theorem alive_fold {mainSig : Nat → Bool} {ops : List Op} {outs : List Scope.Out} {s : State} (h : K mainSig ops outs s) {L : List Ident}
    (hL : L.Sublist s.env.idents) {i : Ident} (hi : i ∈ live s.env) {m : Made} (al : Alive mainSig ops outs s i m) (op : Op)
    (hm : madeFrom (position ops) [op] = []) (hend : i ∈ L → i.module ∈ ended (ops ++ [op])) :
    ∀ E, Alive mainSig (ops ++ [op]) (outs ++ [.unit]) { L.foldl warnIfUnused s with env := E } i m := by
  intro E
  have em : made (ops ++ [op]) = made ops := by rw [made_snoc, hm, List.append_nil]
  have hsub : ∀ x, x ∈ ended ops → x ∈ ended (ops ++ [op]) := fun x hx => by rw [ended_snoc]; exact List.mem_append_left _ hx
  refine ⟨em ▸ al.mem, al.tag, al.name, al.module, al.kind, al.forward, al.proto, ?_, ?_⟩
  · show i.id ∈ (L.foldl warnIfUnused s).used ↔ _ ∨ _ ∨ ∃ b, Warning.unused b i.tag ∈ (L.foldl warnIfUnused s).warns
    rw [used_fold h hL hi, referred_unit]
    by_cases hiL : i ∈ L
    · refine ⟨fun _ => ?_, fun _ => .inr hiL⟩
      by_cases hu : i.id ∈ s.used
      · rcases al.used.mp hu with h1 | h1 | ⟨b, h1⟩
        · exact .inl h1
        · exact .inr (.inl h1)
        · exact .inr (.inr ⟨b, (warned_fold h hL b _).mpr (.inl h1)⟩)
      · exact .inr (.inr ⟨_, (warned_fold h hL _ _).mpr (.inr ⟨i, hiL, (mem_live.mp hi).2, hu, rfl, rfl⟩)⟩)
    · have ho := other_fold h hL (t := i.tag) fun j hj hp e => hiL (tag_inj h (mem_live.mpr ⟨hL.subset hj, hp⟩) hi e ▸ hj)
      rw [or_iff_left hiL, al.used]
      simp only [ho]
  · rintro ⟨b, hb⟩
    rcases (warned_fold h hL b _).mp hb with h1 | ⟨j, hj, hp, _, e, _⟩
    · exact hsub _ (al.warned ⟨b, h1⟩)
    · exact hend (tag_inj h (mem_live.mpr ⟨hL.subset hj, hp⟩) hi e ▸ hj)

theorem warned_made {mainSig : Nat → Bool} {ops : List Op} {outs : List Scope.Out} {s : State} (h : K mainSig ops outs s) {L : List Ident}
    (hL : L.Sublist s.env.idents) {b : Bool} {t : Nat} (ht : Warning.unused b t ∈ (L.foldl warnIfUnused s).warns) : ∃ m ∈ made ops, m.decl.tag = t := by
  rcases (warned_fold h hL b _).mp ht with h1 | ⟨j, hj, hp, _, e, _⟩
  · exact h.warned b t h1
  · obtain ⟨m, al⟩ := h.decl j (mem_live.mpr ⟨hL.subset hj, hp⟩)
    exact ⟨m, al.mem, al.tag.trans e⟩

/-- A declaration no longer alive before keeps its verdict. -/
theorem old_fold {mainSig : Nat → Bool} {ops : List Op} {outs : List Scope.Out} {s : State} (h : K mainSig ops outs s) {L : List Ident}
    (hL : L.Sublist s.env.idents) {m : Made} (hl : ¬ ∃ i ∈ live s.env, i.tag = m.decl.tag) (hc : Correct mainSig outs s.warns m) :
    Correct mainSig (outs ++ [.unit]) (L.foldl warnIfUnused s).warns m := by
  intro b
  rw [other_fold h hL fun i hi hp e => hl ⟨i, mem_live.mpr ⟨hL.subset hi, hp⟩, e⟩, referred_unit]
  exact hc b

theorem fold_env {mainSig : Nat → Bool} {ops : List Op} {outs : List Scope.Out} {s : State} (h : K mainSig ops outs s) {L : List Ident}
    (hL : L.Sublist s.env.idents) : (L.foldl warnIfUnused s).env = s.env := by
  obtain ⟨S, hS⟩ := h.inv
  exact (fold_warn L s ((hL.map _).nodup hS.nodup)).1

theorem K_endModule {mainSig : Nat → Bool} {ops : List Op} {outs : List Scope.Out} {s : State} (h : K mainSig ops outs s) :
    K mainSig (ops ++ [.endModule]) (outs ++ [.unit]) (endModule s) := by
  have hL : (s.env.idents.filter (·.module == s.env.module)).Sublist s.env.idents := List.filter_sublist
  have em : made (ops ++ [.endModule]) = made ops := by rw [made_snoc]; exact List.append_nil _
  have ee : ended (ops ++ [.endModule]) = ended ops ++ [s.env.module] := by
    rw [ended_snoc]; show _ ++ [(position ops).1] = _; rw [h.pos]
  have he : endModule s = { (s.env.idents.filter (·.module == s.env.module)).foldl warnIfUnused s with env := s.env } := by
    have := fold_env h hL
    unfold endModule
    generalize List.foldl warnIfUnused s _ = x at this ⊢
    rw [← this]
  rw [he]
  refine ⟨h.inv, by rw [position_snoc]; exact h.pos, ?_, h.tags, ?_, ?_, ?_, ids_fold h hL, once_fold h hL⟩
  · intro i hi
    obtain ⟨m, al⟩ := h.decl i hi
    refine ⟨m, alive_fold h hL hi al .endModule rfl (fun hiL => ?_) _⟩
    rw [ee, eq_of_beq (List.mem_filter.mp hiL).2]
    exact List.mem_append_right _ (List.mem_singleton.mpr rfl)
  · intro m hm
    rw [em] at hm
    by_cases hl : ∃ i ∈ live s.env, i.tag = m.decl.tag
    · exact .inl hl
    · rcases h.old m hm with h1 | (h1 | h1) | h1
      · exact absurd h1 hl
      · exact .inr (.inl (.inl (ee ▸ List.mem_append_left _ h1)))
      · exact .inr (.inl (.inr (old_fold h hL hl h1)))
      · exact .inr (.inr (new_mono h1))
  · intro t ht
    rw [em]
    exact h.refs t ((referred_unit _ _).mp ht)
  · intro b t ht
    rw [em]
    exact warned_made h hL ht

theorem made_inj {l : List Made} (hn : (l.map (·.decl.tag)).Nodup) {a b : Made} (ha : a ∈ l) (hb : b ∈ l) (e : a.decl.tag = b.decl.tag) : a = b :=
  id_inj.inj_of_nodup hn ha hb e

theorem K_leave {mainSig : Nat → Bool} {ops : List Op} {outs : List Scope.Out} {s : State} (h : K mainSig ops outs s)
    (hn : ((made ops).map (·.decl.tag)).Nodup) (hlen : ¬ s.env.blocks.length ≤ 1) :
    K mainSig (ops ++ [.scope .leave]) (outs ++ [.unit]) (leave s) := by
  have hL : (s.env.idents.takeWhile (·.block == s.env.cur)).Sublist s.env.idents := List.takeWhile_sublist _
  have hD : (Scope.leave s.env).idents.Sublist s.env.idents := List.dropWhile_sublist _
  have em : made (ops ++ [.scope .leave]) = made ops := by rw [made_snoc]; exact List.append_nil _
  have ee : ended (ops ++ [.scope .leave]) = ended ops := by rw [ended_snoc]; exact List.append_nil _
  have hsplit : s.env.idents = s.env.idents.takeWhile (·.block == s.env.cur) ++ (Scope.leave s.env).idents := List.takeWhile_append_dropWhile.symm
  obtain ⟨S, hS⟩ := h.inv
  have hdis : ∀ i ∈ (Scope.leave s.env).idents, i ∉ s.env.idents.takeWhile (·.block == s.env.cur) := by
    intro i hi hi'
    have hn := hS.nodup
    rw [hsplit, List.map_append] at hn
    exact (List.nodup_append.mp hn).2.2 i.id (List.mem_map.mpr ⟨i, hi', rfl⟩) i.id (List.mem_map.mpr ⟨i, hi, rfl⟩) rfl
  have hlv : ∀ {i}, i ∈ live (Scope.leave s.env) → i ∈ live s.env := fun hi => mem_live.mpr ⟨hD.subset (mem_live.mp hi).1, (mem_live.mp hi).2⟩
  unfold leave
  refine ⟨⟨_, Scope.leave_inv hS hlen⟩, ?_, ?_, ?_, ?_, ?_, ?_, ids_fold h hL, once_fold h hL⟩
  · rw [position_snoc, h.pos]
    show (s.env.module, if s.env.blocks.length ≤ 1 then _ else _) = (s.env.module, s.env.blocks.tail.length)
    rw [if_neg hlen, List.length_tail]
  · intro i hi
    obtain ⟨m, al⟩ := h.decl i (hlv hi)
    exact ⟨m, alive_fold h hL (hlv hi) al (.scope .leave) rfl (fun hiL => absurd hiL (hdis i (mem_live.mp hi).1)) _⟩
  · exact ((hD.filter _).map _).nodup h.tags
  · intro m hm
    rw [em] at hm
    by_cases hl : ∃ i ∈ live s.env, i.tag = m.decl.tag
    · obtain ⟨i, hi, et⟩ := hl
      have hmem := (mem_live.mp hi).1
      rw [hsplit] at hmem
      rcases List.mem_append.mp hmem with hiL | hiD
      · obtain ⟨m', al⟩ := h.decl i hi
        have e : m' = m := made_inj hn al.mem hm (al.tag.trans et)
        subst e
        by_cases hw : ∃ b, Warning.unused b i.tag ∈ s.warns
        · refine .inr (.inl (.inl ?_))
          rw [ee, al.module]
          exact al.warned hw
        · refine .inr (.inl (.inr fun b => ?_))
          rw [referred_unit]
          exact correct_fold h hL hiL (mem_live.mp hi).2 al hw b
      · exact .inl ⟨i, mem_live.mpr ⟨hiD, (mem_live.mp hi).2⟩, et⟩
    · rcases h.old m hm with h1 | (h1 | h1) | h1
      · exact absurd h1 hl
      · exact .inr (.inl (.inl (ee ▸ h1)))
      · exact .inr (.inl (.inr (old_fold h hL hl h1)))
      · exact .inr (.inr (new_mono h1))
  · intro t ht
    rw [em]
    exact h.refs t ((referred_unit _ _).mp ht)
  · intro b t ht
    rw [em]
    exact warned_made h hL ht


/-! ## Declarations -/

theorem unused_shadow (C : Compat) (E : Env) (d : Decl) (ws : List Warning) (b : Bool) (t : Nat) :
    Warning.unused b t ∈ ws ++ shadowWarning C E d ↔ Warning.unused b t ∈ ws := by
  rw [List.mem_append]
  refine ⟨fun h => h.elim id fun h => ?_, .inl⟩
  unfold shadowWarning at h
  split at h
  · split at h
    · cases List.mem_singleton.mp h
    · cases h
  · cases h

theorem reported_shadow (C : Compat) (E : Env) (d : Decl) (ws : List Warning) : reported (ws ++ shadowWarning C E d) = reported ws := by
  rw [reported_append]
  have : reported (shadowWarning C E d) = [] := by
    unfold shadowWarning
    split
    · split <;> rfl
    · rfl
  rw [this, List.append_nil]

theorem K_declare {C : Compat} {mainSig : Nat → Bool} {ops : List Op} {outs : List Scope.Out} {s s' : State} (h : K mainSig ops outs s) (op : Op)
    (d : Decl) (told : Bool) (hd : ∃ n, d.name = .plain n) (hmade : madeFrom (position ops) [op] = [⟨d, (position ops).1, told⟩])
    (hended : endedFrom (position ops) [op] = []) (hadv : advance (position ops) op = position ops)
    (hn : ((made (ops ++ [op])).map (·.decl.tag)).Nodup) (hr : declare C mainSig s d told = .ok s') :
    K mainSig (ops ++ [op]) (outs ++ [.unit]) s' := by
  have hpl := Scope.plain_isPlain hd
  have em : made (ops ++ [op]) = made ops ++ [⟨d, s.env.module, told⟩] := by rw [made_snoc, hmade, h.pos]
  have ee : ended (ops ++ [op]) = ended ops := by rw [ended_snoc, hended, List.append_nil]
  have ep : position (ops ++ [op]) = position ops := by rw [position_snoc, hadv]
  have hsub : ∀ m, m ∈ made ops → m ∈ made (ops ++ [op]) := fun m hm => em ▸ List.mem_append_left _ hm
  have hfresh : ∀ m ∈ made ops, m.decl.tag ≠ d.tag := by
    intro m hm e
    rw [em, List.map_append] at hn
    exact (List.nodup_append.mp hn).2.2 _ (List.mem_map.mpr ⟨m, hm, rfl⟩) _ (List.mem_singleton.mpr rfl) e
  obtain ⟨S, hS⟩ := h.inv
  have hinv : ∀ E, Scope.declare C s.env d = .ok E → ∃ S, Inv E S := by
    intro E hE
    have := Scope.declare_rel (C := C) hS d hpl
    rw [hE] at this
    cases hs : Scope.Spec.declare C S d with
    | error e => rw [hs] at this; exact this.elim
    | ok S' => rw [hs] at this; exact ⟨S', this⟩
  unfold declare at hr
  cases hE : Scope.declare C s.env d with
  | error e => rw [hE] at hr; cases hr
  | ok E =>
  rw [hE] at hr
  cases hr
  obtain ⟨S', hS'⟩ := hinv E hE
  have hrefs : ∀ t, Referred (outs ++ [.unit]) t → ∃ m ∈ made (ops ++ [op]), m.decl.tag = t := fun t ht => by
    obtain ⟨m, hm, e⟩ := h.refs t ((referred_unit _ _).mp ht)
    exact ⟨m, hsub m hm, e⟩
  have hwarned : ∀ b t, Warning.unused b t ∈ s.warns ++ shadowWarning C s.env d → ∃ m ∈ made (ops ++ [op]), m.decl.tag = t := fun b t ht => by
    obtain ⟨m, hm, e⟩ := h.warned b t ((unused_shadow C s.env d _ b t).mp ht)
    exact ⟨m, hsub m hm, e⟩
  have honce : (reported (s.warns ++ shadowWarning C s.env d)).Nodup := by rw [reported_shadow]; exact h.once
  rcases declare_cases hE with ⟨e, _⟩ | ⟨e, e', hf, hb, hres, eE⟩
  · -- a new identifier
    have hblocks : E.blocks = s.env.blocks := by rw [e]
    have hmod : E.module = s.env.module := by rw [e]
    have hnext : E.nextId = s.env.nextId + 1 := by rw [e]
    let i0 : Ident := ⟨s.env.nextId, d.tag, d.name, d.what, d.rcv, s.env.module, s.env.cur, d.exported⟩
    have hidents : E.idents = i0 :: s.env.idents := by rw [e]
    have hlive : live E = i0 :: live s.env := by
      unfold live
      rw [hidents, List.filter_cons, if_pos hpl]
    have hused : ∀ k, k ≠ s.env.nextId → (k ∈ (if E.nextId ≠ s.env.nextId ∧ (told = true ∨ usedAtOnce mainSig s.env.module d = true) then s.env.nextId :: s.used else s.used) ↔ k ∈ s.used) := by
      intro k hk
      split
      · rw [List.mem_cons, or_iff_right hk]
      · exact Iff.rfl
    refine ⟨⟨S', hS'⟩, by rw [ep, h.pos, hmod, hblocks], ?_, ?_, ?_, hrefs, hwarned, ?_, honce⟩
    · intro i hi
      have hi : i ∈ live E := hi
      rw [hlive] at hi
      rcases List.mem_cons.mp hi with rfl | hi
      · refine ⟨⟨d, s.env.module, told⟩, em ▸ List.mem_append_right _ (List.mem_singleton.mpr rfl), rfl, rfl, rfl, rfl, fun x => x, fun k x => ⟨k, x⟩, ?_, ?_⟩
        · show s.env.nextId ∈ (if _ then _ else _) ↔ _ ∨ _ ∨ ∃ b, _ ∈ s.warns ++ shadowWarning C s.env d
          have h1 : ¬ Referred (outs ++ [.unit]) d.tag := fun hc => by
            obtain ⟨m, hm, et⟩ := h.refs _ ((referred_unit _ _).mp hc)
            exact hfresh m hm et
          have h2 : ¬ ∃ b, Warning.unused b d.tag ∈ s.warns ++ shadowWarning C s.env d := fun ⟨b, hc⟩ => by
            obtain ⟨m, hm, et⟩ := h.warned b _ ((unused_shadow C s.env d _ b _).mp hc)
            exact hfresh m hm et
          have h3 : s.env.nextId ∉ s.used := fun hc => Nat.lt_irrefl _ (h.ids _ hc)
          rw [exempt_iff mainSig _ hd]
          constructor
          · intro hu
            split at hu
            · rename_i hc
              exact .inl hc.2
            · exact absurd hu h3
          · rintro (hc | hc | hc)
            · rw [if_pos ⟨by rw [hnext]; omega, hc⟩]
              exact List.mem_cons_self ..
            · exact absurd hc h1
            · exact absurd hc h2
        · rintro ⟨b, hc⟩
          obtain ⟨m, hm, et⟩ := h.warned b _ ((unused_shadow C s.env d _ b _).mp hc)
          exact absurd et (hfresh m hm)
      · obtain ⟨m, al⟩ := h.decl i hi
        have hid : i.id ≠ s.env.nextId := Nat.ne_of_lt (hS.ids i (mem_live.mp hi).1)
        refine ⟨m, hsub m al.mem, al.tag, al.name, al.module, al.kind, al.forward, al.proto, ?_, ?_⟩
        · rw [hused _ hid, referred_unit, al.used]
          simp only [unused_shadow]
        · simp only [unused_shadow]
          rw [ee]
          exact al.warned
    · show ((live E).map (·.tag)).Nodup
      rw [hlive, List.map_cons]
      refine List.nodup_cons.mpr ⟨fun hc => ?_, h.tags⟩
      obtain ⟨i, hi, et⟩ := List.mem_map.mp hc
      obtain ⟨m, al⟩ := h.decl i hi
      exact hfresh m al.mem (al.tag.trans et)
    · intro m hm
      rw [em] at hm
      rcases List.mem_append.mp hm with hm | hm
      · rcases h.old m hm with ⟨i, hi, et⟩ | (h1 | h1) | h1
        · refine .inl ⟨i, ?_, et⟩
          show i ∈ live E
          rw [hlive]
          exact List.mem_cons_of_mem _ hi
        · exact .inr (.inl (.inl (ee ▸ h1)))
        · refine .inr (.inl (.inr fun b => ?_))
          rw [referred_unit]
          show _ ∈ s.warns ++ shadowWarning C s.env d ↔ _
          rw [unused_shadow]
          exact h1 b
        · exact .inr (.inr (new_mono h1))
      · rw [List.mem_singleton.mp hm]
        refine .inl ⟨i0, ?_, rfl⟩
        show i0 ∈ live E
        rw [hlive]
        exact List.mem_cons_self ..
    · intro k hk
      show k < E.nextId
      rw [hnext]
      by_cases hk' : k = s.env.nextId
      · omega
      · exact Nat.lt_succ_of_lt (h.ids k ((hused k hk').mp hk))
  · -- a type or a function declared ahead is completed
    obtain ⟨hkind, r1, r2, r3, r4⟩ := resolve_facts hres
    obtain ⟨hmem, hname⟩ := find_name hf
    have hname : e.name = d.name := hname
    have hblocks : E.blocks = s.env.blocks := by rw [eE]
    have hmod : E.module = s.env.module := by rw [eE]
    have hnext : E.nextId = s.env.nextId := by rw [eE]
    have hel : e ∈ live s.env := mem_live.mpr ⟨hmem, by rw [hname]; exact hpl⟩
    have hidents : E.idents = s.env.idents.map fun i => if i.id = e.id then e' else i := by rw [eE]
    have hlive : live E = (live s.env).map fun i => if i.id = e.id then e' else i := by
      unfold live
      rw [hidents, List.filter_map]
      congr 1
      apply List.filter_congr
      intro j hj
      show (if j.id = e.id then e' else j).name.isPlain = j.name.isPlain
      split
      · rename_i hc
        rw [id_inj hS hj hmem hc, r3]
      · rfl
    have hfrom : ∀ i ∈ live E, ∃ j ∈ live s.env, i.tag = j.tag ∧ i.id = j.id ∧ i.name = j.name ∧ i.module = j.module ∧
        (i.what = j.what ∨ (j.what = .forward ∧ i.what = .type ∨ ∃ k k', j.what = .proto k ∧ (i.what = .fn k' ∨ i.what = .proto k'))) := by
      intro i hi
      rw [hlive] at hi
      obtain ⟨j, hj, ej⟩ := List.mem_map.mp hi
      split at ej
      · subst ej
        refine ⟨e, hel, r2, r1, r3, r4, .inr ?_⟩
        rcases hkind with ⟨h1, h2, _⟩ | ⟨k, k', h1, ⟨h2, _⟩ | ⟨h2, _⟩⟩
        · exact .inl ⟨h1, h2⟩
        · exact .inr ⟨k, k', h1, .inl h2⟩
        · exact .inr ⟨k, k', h1, .inr h2⟩
      · subst ej
        exact ⟨j, hj, rfl, rfl, rfl, rfl, .inl rfl⟩
    have htags : (live E).map (·.tag) = (live s.env).map (·.tag) := by
      rw [hlive, List.map_map]
      apply List.map_congr_left
      intro j hj
      show (if j.id = e.id then e' else j).tag = j.tag
      split
      · rename_i hc
        rw [r2, id_inj hS hmem (mem_live.mp hj).1 hc.symm]
      · rfl
    have hused : (if E.nextId ≠ s.env.nextId ∧ (told = true ∨ usedAtOnce mainSig s.env.module d = true) then s.env.nextId :: s.used else s.used) = s.used :=
      if_neg fun hc => hc.1 hnext
    rw [hused]
    refine ⟨⟨S', hS'⟩, by rw [ep, h.pos, hmod, hblocks], ?_, ?_, ?_, hrefs, hwarned, ?_, honce⟩
    · intro i hi
      obtain ⟨j, hj, e1, e2, e3, e4, e5⟩ := hfrom i hi
      obtain ⟨m, al⟩ := h.decl j hj
      refine ⟨m, hsub m al.mem, al.tag.trans e1.symm, al.name.trans e3.symm, al.module.trans e4.symm, ?_, ?_, ?_, ?_, ?_⟩
      · rcases e5 with e5 | ⟨e5, e6⟩ | ⟨k, k', e5, e6 | e6⟩
        · rw [e5]; exact al.kind
        · rw [← al.kind, e5, e6]; rfl
        · rw [← al.kind, e5, e6]; rfl
        · rw [← al.kind, e5, e6]; rfl
      · intro hw
        rcases e5 with e5 | ⟨e5, e6⟩ | ⟨k, k', e5, e6 | e6⟩
        · exact al.forward (e5 ▸ hw)
        · rw [e6] at hw; cases hw
        · rw [e6] at hw; cases hw
        · rw [e6] at hw; cases hw
      · intro k0 hw
        rcases e5 with e5 | ⟨e5, e6⟩ | ⟨k, k', e5, e6 | e6⟩
        · exact al.proto k0 (e5 ▸ hw)
        · rw [e6] at hw; cases hw
        · rw [e6] at hw; cases hw
        · exact al.proto k e5
      · rw [e2, referred_unit, e1]
        show j.id ∈ s.used ↔ _
        rw [al.used]
        simp only [unused_shadow]
      · simp only [unused_shadow]
        rw [ee, e1, e4]
        exact al.warned
    · show ((live E).map (·.tag)).Nodup
      rw [htags]
      exact h.tags
    · intro m hm
      rw [em] at hm
      rcases List.mem_append.mp hm with hm | hm
      · rcases h.old m hm with ⟨i, hi, et⟩ | (h1 | h1) | h1
        · have : i.tag ∈ (live E).map (·.tag) := by rw [htags]; exact List.mem_map.mpr ⟨i, hi, rfl⟩
          obtain ⟨j, hj, ej⟩ := List.mem_map.mp this
          exact .inl ⟨j, hj, ej.trans et⟩
        · exact .inr (.inl (.inl (ee ▸ h1)))
        · refine .inr (.inl (.inr fun b => ?_))
          rw [referred_unit]
          show _ ∈ s.warns ++ shadowWarning C s.env d ↔ _
          rw [unused_shadow]
          exact h1 b
        · exact .inr (.inr (new_mono h1))
      · rw [List.mem_singleton.mp hm]
        refine .inr (.inr fun hnew => ?_)
        obtain ⟨m, al⟩ := h.decl e hel
        rcases hnew with hnew | hnew
        · have hnew : d.what = .var ∨ d.what = .module ∨ d.what = .other ∨ d.what = .forward := hnew
          rcases hkind with ⟨_, _, h2⟩ | ⟨k, k', _, ⟨_, h2⟩ | ⟨_, h2⟩⟩ <;> rw [h2] at hnew <;> simp at hnew
        · obtain ⟨g1, g2⟩ := hnew m (hsub m al.mem) (hfresh m al.mem) (al.name.trans hname)
          rcases hkind with ⟨h1, _⟩ | ⟨k, k', h1, _⟩
          · exact g1 (al.forward h1)
          · obtain ⟨k2, h2⟩ := al.proto k h1
            exact g2 k2 h2
    · intro k hk
      show k < E.nextId
      rw [hnext]
      exact h.ids k hk

/-! ## Every operation -/

/-- The text uses no generated names. -/
def Op.plain : Op → Prop
  | .scope op => op.plain
  | .declareUsed d => ∃ s, d.name = .plain s
  | .endModule => True

theorem K_step {C : Compat} {mainSig : Nat → Bool} {ops : List Op} {outs : List Scope.Out} {s s' : State} {op : Op} {o : Scope.Out}
    (h : K mainSig ops outs s) (hop : op.plain) (hn : ((made (ops ++ [op])).map (·.decl.tag)).Nodup)
    (hr : step C mainSig s op = .ok (s', o)) : K mainSig (ops ++ [op]) (outs ++ [o]) s' := by
  obtain ⟨S, hS⟩ := h.inv
  have hn' : ((made ops).map (·.decl.tag)).Nodup := by
    rw [made_snoc, List.map_append] at hn
    exact (List.nodup_append.mp hn).1
  have hinv : ∀ sop : Scope.Op, sop.plain → ∀ E o, Scope.step C s.env sop = .ok (E, o) → ∃ S, Inv E S := by
    intro sop hp E o hE
    have := Scope.step_rel (C := C) hS sop hp
    rw [hE] at this
    cases hs : Scope.Spec.step C S sop with
    | error e => rw [hs] at this; exact this.elim
    | ok S' => rw [hs] at this; exact ⟨S'.1, this.1⟩
  cases op with
  | endModule => cases hr; exact K_endModule h
  | declareUsed d =>
    change (declare C mainSig s d true >>= _) = _ at hr
    cases hE : declare C mainSig s d true with
    | error e => rw [hE] at hr; cases hr
    | ok s1 =>
      rw [hE] at hr; cases hr
      exact K_declare h (.declareUsed d) d true hop rfl rfl rfl hn hE
  | scope sop =>
    cases sop with
    | declare d =>
      change (declare C mainSig s d false >>= _) = _ at hr
      cases hE : declare C mainSig s d false with
      | error e => rw [hE] at hr; cases hr
      | ok s1 =>
        rw [hE] at hr; cases hr
        exact K_declare h (.scope (.declare d)) d false hop rfl rfl rfl hn hE
    | leave =>
      cases hr
      by_cases hlen : s.env.blocks.length ≤ 1
      · rw [if_pos hlen]
        refine K_quiet h _ s.env h.inv ?_ rfl (Nat.le_refl _) rfl rfl
        rw [h.pos]
        show (_, if _ then _ else _) = _
        rw [if_pos hlen]
      · rw [if_neg hlen]
        exact K_leave h hn' hlen
    | lookup q =>
      cases hr
      exact K_lookup h q hop
    | enter fn =>
      change (Scope.step C s.env (.enter fn) >>= _) = _ at hr
      cases hE : Scope.step C s.env (.enter fn) with
      | error e => rw [hE] at hr; cases hr
      | ok x =>
        obtain ⟨E, o'⟩ := x
        rw [hE] at hr; cases hr
        have hi := hinv (.enter fn) hop _ _ hE
        change (Scope.enter s.env fn >>= _) = _ at hE
        unfold Scope.enter at hE
        split at hE
        · cases hE
        · cases hE
          exact K_quiet h _ _ hi (by rw [h.pos]; rfl) rfl (Nat.le_refl _) rfl rfl
    | temp =>
      change (Scope.step C s.env .temp >>= _) = _ at hr
      cases hE : Scope.step C s.env .temp with
      | error e => rw [hE] at hr; cases hr
      | ok x =>
        obtain ⟨E, o'⟩ := x
        rw [hE] at hr; cases hr
        have hi := hinv .temp hop _ _ hE
        change (Scope.addTemp C s.env >>= _) = _ at hE
        cases h1 : Scope.addTemp C s.env with
        | error e => rw [h1] at hE; cases hE
        | ok E1 =>
          rw [h1] at hE; cases hE
          obtain ⟨g1, g2, g3, g4, _⟩ := addTemp_quiet h1
          exact K_quiet h _ _ hi (by rw [h.pos, g2, g3]; rfl) g1 g4 rfl rfl
    | tempOutside =>
      change (Scope.step C s.env .tempOutside >>= _) = _ at hr
      cases hE : Scope.step C s.env .tempOutside with
      | error e => rw [hE] at hr; cases hr
      | ok x =>
        obtain ⟨E, o'⟩ := x
        rw [hE] at hr; cases hr
        have hi := hinv .tempOutside hop _ _ hE
        unfold Scope.step at hE
        dsimp only at hE
        by_cases hlen : s.env.blocks.length ≤ 1
        · rw [if_pos hlen] at hE
          cases hE
          exact K_quiet h _ _ hi (by rw [h.pos]; rfl) rfl (Nat.le_refl _) rfl rfl
        · rw [if_neg hlen] at hE
          cases h1 : Scope.addTempOutside C s.env with
          | error e => rw [h1] at hE; cases hE
          | ok E1 =>
            rw [h1] at hE; cases hE
            obtain ⟨g1, g2, g3, g4⟩ := addTempOutside_quiet h1
            exact K_quiet h _ _ hi (by rw [h.pos, g2, g3]; rfl) g1 g4 rfl rfl
    | switchModule m =>
      have hi := hinv (.switchModule m) hop _ _ rfl
      cases hr
      by_cases hlen : s.env.blocks.length ≤ 1
      · rw [if_pos hlen] at hi ⊢
        refine K_quiet h _ _ hi ?_ rfl (Nat.le_refl _) rfl rfl
        rw [h.pos]
        show (if _ then _ else _, _) = _
        rw [if_pos hlen]
      · rw [if_neg hlen] at hi ⊢
        refine K_quiet h _ _ hi ?_ rfl (Nat.le_refl _) rfl rfl
        rw [h.pos]
        show (if _ then _ else _, _) = _
        rw [if_neg hlen]
    | imported m =>
      have hi := hinv (.imported m) hop _ _ rfl
      cases hr
      by_cases hlen : s.env.blocks.length ≤ 1
      · rw [if_pos hlen] at hi ⊢
        exact K_quiet h _ _ hi (by rw [h.pos]; rfl) rfl (Nat.le_refl _) rfl rfl
      · rw [if_neg hlen] at hi ⊢
        exact K_quiet h _ _ hi (by rw [h.pos]; rfl) rfl (Nat.le_refl _) rfl rfl

theorem K_run {C : Compat} {mainSig : Nat → Bool} : ∀ {ops before : List Op} {outs0 outs : List Scope.Out} {s s' : State},
    K mainSig before outs0 s → (∀ op ∈ ops, op.plain) → ((made (before ++ ops)).map (·.decl.tag)).Nodup →
    run C mainSig s ops = .ok (s', outs) → K mainSig (before ++ ops) (outs0 ++ outs) s'
  | [], before, outs0, outs, s, s', h, _, _, hr => by
    cases hr
    rw [List.append_nil, List.append_nil]
    exact h
  | op :: ops, before, outs0, outs, s, s', h, hp, hn, hr => by
    rw [run] at hr
    cases h1 : step C mainSig s op with
    | error e => rw [h1] at hr; cases hr
    | ok x =>
      obtain ⟨s1, o⟩ := x
      rw [h1] at hr
      cases h2 : run C mainSig s1 ops with
      | error e => 
        change (run C mainSig s1 ops >>= _) = _ at hr
        rw [h2] at hr; cases hr
      | ok y =>
        obtain ⟨s2, os⟩ := y
        change (run C mainSig s1 ops >>= _) = _ at hr
        rw [h2] at hr
        cases hr
        have e1 : before ++ op :: ops = (before ++ [op]) ++ ops := by rw [List.append_assoc]; rfl
        have e2 : outs0 ++ o :: os = (outs0 ++ [o]) ++ os := by rw [List.append_assoc]; rfl
        rw [e1] at hn ⊢
        rw [e2]
        refine K_run (K_step h (hp op (List.mem_cons_self ..)) ?_ h1) (fun x hx => hp x (List.mem_cons_of_mem _ hx)) hn h2
        rw [made, madeFrom_append, List.map_append] at hn
        exact (List.nodup_append.mp hn).1

theorem K_init (mainSig : Nat → Bool) : K mainSig [] [] init :=
  ⟨⟨_, Scope.init_inv⟩, rfl, fun _ hi => (nomatch hi), List.nodup_nil, fun _ hm => (nomatch hm), fun _ ⟨_, _, h⟩ => (nomatch h),
    fun _ _ h => (nomatch h), fun _ h => (nomatch h), List.nodup_nil⟩

end Umka.Warn
