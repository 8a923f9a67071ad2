import Verif.TypeDecl.Names
/-!
# Type declarations: histories
-/

namespace Umka.TypeDecl
open Spec

/-- A condition on every step of a program. -/
def Along (P : State → Op → State → Prop) : State → List Op → Prop
  | _, [] => True
  | s, op :: ops => ∀ s', step s op = .ok s' → P s op s' ∧ Along P s' ops

/-- Every list of declarations keeps the documented rule. -/
def KeepsOrder (s : State) (op : Op) (_ : State) : Prop :=
  ∀ g, op = .types g → InOrder (fun y => s.lookup y ≠ none) g

/-- In every list of declarations, the names that are used for results of functions up to and in their own
declarations are names of structured types. -/
def ResultsStructured (_ : State) (op : Op) (s' : State) : Prop :=
  ∀ pre x t post, op = .types (pre ++ (x, t) :: post) → (∃ p ∈ pre ++ [(x, t)], x ∈ results p.2) →
    ∀ e, find s'.cur x = some (.type e) → Structured (graph s' e)

theorem structured_iff {b : Body} : structured b = true ↔ Structured b := by
  cases b <;> simp [structured, Structured]

/-! ## What is declared stays -/

theorem step_keeps {s s' : State} {op : Op} (h : Ready s) (hs : step s op = .ok s') : Keeps s s' := by
  cases op with
  | types g =>
    obtain ⟨h1, _⟩ := declGroup_ok hs
    exact (declItems_post g s s' h.inv h1).keeps
  | use t =>
    rw [step] at hs
    split at hs
    · cases hs
    rename_i i s1 h1
    injection hs with hs
    rw [← hs]
    exact (parse_post false t s s1 i h.inv h1).1.ext.keeps
  | other x =>
    rw [step] at hs
    split at hs
    · cases hs
    injection hs with hs
    rw [← hs]; intro i _; rfl
  | enter =>
    injection hs with hs
    rw [← hs]; intro i _; rfl
  | leave =>
    rw [step] at hs
    split at hs
    · cases hs
    injection hs with hs
    rw [← hs]; intro i _; rfl

theorem run_keeps : ∀ {ops : List Op} {s s' : State}, Ready s → run s ops = .ok s' → ∀ i, i < s.nodes.length →
    s'.get i = s.get i
  | [], s, s', h, hr, i, hi => by
    injection hr with hr
    rw [← hr]
  | op :: ops, s, s', h, hr, i, hi => by
    rw [run] at hr
    split at hr
    · cases hr
    · rename_i s1 h1
      have k := step_keeps h h1 i (h.complete i hi)
      have hr1 := step_ready h h1
      rw [run_keeps hr1 hr i (get_lt (by rw [k]; exact h.complete i hi)), k]

/-! ## Hidden parameters -/

theorem sigs_init : SigsGood (fun _ => False) init := by
  intro i sig hs
  have := init_tidy i
  by_cases hi : i < 16
  · exfalso
    have key : ∀ i : Fin 16, signatures (init.get i).body = [] := by decide
    rw [key ⟨i, hi⟩] at hs
    cases hs
  · have : init.get i = mkNode (.forward false) := by
      unfold State.get
      rw [List.getD_eq_getElem?_getD, List.getElem?_eq_none (Nat.le_of_not_lt hi)]; rfl
    rw [this] at hs; cases hs

theorem SigsGood.drop {R : Name → Prop} {s : State} (h : Ready s) (hs : SigsGood R s) : SigsGood (fun _ => False) s := by
  intro i sig hm
  have := hs i sig hm
  unfold SigGood at *
  split at this
  · exact this
  · rename_i r hr
    rcases this with a | ⟨a, b, y, c, d⟩
    · exact .inl a
    · rw [h.complete r (h.inv.curLt y r d)] at a; cases a

theorem step_sigs {s s' : State} {op : Op} (h : Ready s) (hg : SigsGood (fun _ => False) s)
    (hP : ResultsStructured s op s') (hs : step s op = .ok s') : SigsGood (fun _ => False) s' := by
  have hr := step_ready h hs
  cases op with
  | types g =>
    obtain ⟨h1, _⟩ := declGroup_ok hs
    refine SigsGood.drop hr (declItems_sigs g [] s s' h.inv ?_ h1 ?_)
    · intro i sig hm
      exact SigGood.weaken (fun _ hy => False.elim hy) (hg i sig hm)
    · intro pre x t post hh hx e he
      rw [List.nil_append] at hx
      refine structured_iff.mpr (hP pre x t post (by rw [hh]) ?_ e he)
      obtain ⟨l, hl, hxl⟩ := List.mem_flatten.mp hx
      obtain ⟨p, hp, hpl⟩ := List.mem_map.mp hl
      exact ⟨p, hp, by rw [hpl]; exact hxl⟩
  | use t =>
    rw [step] at hs
    split at hs
    · cases hs
    rename_i i s1 h1
    injection hs with hs
    subst hs
    refine SigsGood.drop hr (parse_sigs (fun _ => True) false t s s1 i h.inv ?_ (fun _ _ => trivial) h1)
    intro i sig hm
    exact SigGood.weaken (fun _ hy => False.elim hy) (hg i sig hm)
  | other x =>
    rw [step] at hs
    split at hs
    · cases hs
    injection hs with hs
    intro i sig hm
    have := hg i sig (by rw [← hs] at hm; exact hm)
    rw [← hs]
    unfold SigGood at *
    split at this
    · exact this
    · rcases this with a | ⟨_, _, _, c, _⟩
      · exact .inl a
      · exact c.elim
  | enter =>
    injection hs with hs
    intro i sig hm
    have := hg i sig (by rw [← hs] at hm; exact hm)
    rw [← hs]
    unfold SigGood at *
    split at this
    · exact this
    · rcases this with a | ⟨_, _, _, c, _⟩
      · exact .inl a
      · exact c.elim
  | leave =>
    rw [step] at hs
    split at hs
    · cases hs
    injection hs with hs
    intro i sig hm
    have := hg i sig (by rw [← hs] at hm; exact hm)
    rw [← hs]
    unfold SigGood at *
    split at this
    · exact this
    · rcases this with a | ⟨_, _, _, c, _⟩
      · exact .inl a
      · exact c.elim

theorem run_sigs : ∀ {ops : List Op} {s s' : State}, Ready s → SigsGood (fun _ => False) s →
    Along ResultsStructured s ops → run s ops = .ok s' → SigsGood (fun _ => False) s'
  | [], s, s', h, hg, ha, hr => by
    injection hr with hr
    rw [← hr]; exact hg
  | op :: ops, s, s', h, hg, ha, hr => by
    rw [run] at hr
    split at hr
    · cases hr
    · rename_i s1 h1
      obtain ⟨a1, a2⟩ := ha s1 h1
      exact run_sigs (step_ready h h1) (step_sigs h hg a1 h1) a2 hr

theorem SigGood.spec {s : State} {sig : Sig} (h : SigGood (fun _ => False) s sig) : ResultParamOk (graph s) sig := by
  unfold SigGood at h
  unfold ResultParamOk
  split at h
  · rename_i hr
    rw [h, hr]
    exact ⟨fun hh => (nomatch hh), fun ⟨_, hh, _⟩ => (nomatch hh)⟩
  · rename_i r hr
    rcases h with ⟨_, a⟩ | ⟨_, _, _, c, _⟩
    · rw [a, hr, structured_iff]
      constructor
      · intro hh; exact ⟨r, rfl, hh⟩
      · rintro ⟨q, hq, hh⟩
        injection hq with hq
        rw [hq]; exact hh
    · exact c.elim

/-! ## The order of declarations -/

theorem init_clean : Clean init := by
  intro i hi
  by_cases h : i < 16
  · have : ∀ i : Fin 16, 0 < (init.get i).alignment := by decide
    exact this ⟨i, h⟩
  · have : init.get i = mkNode (.forward false) := by
      unfold State.get
      rw [List.getD_eq_getElem?_getD, List.getElem?_eq_none (Nat.le_of_not_lt h)]; rfl
    rw [this] at hi; cases hi

theorem step_clean {s s' : State} {op : Op} (h : Ready s) (hc : Clean s) (hP : KeepsOrder s op s')
    (hs : step s op = .ok s') : Clean s' := by
  cases op with
  | types g => exact group_clean h hc (hP g rfl) hs
  | use t =>
    rw [step] at hs
    split at hs
    · cases hs
    rename_i i s1 h1
    injection hs with hs
    subst hs
    have := use_fine h hc (parse_uses t s s1 i h1).2
    rw [h1] at this
    exact this.1
  | other x =>
    rw [step] at hs
    split at hs
    · cases hs
    injection hs with hs
    rw [← hs]; exact hc
  | enter =>
    injection hs with hs
    rw [← hs]; exact hc
  | leave =>
    rw [step] at hs
    split at hs
    · cases hs
    injection hs with hs
    rw [← hs]; exact hc

theorem run_clean : ∀ {ops : List Op} {s s' : State}, Ready s → Clean s →
    Along KeepsOrder s ops → run s ops = .ok s' → Clean s'
  | [], s, s', h, hg, ha, hr => by
    injection hr with hr
    rw [← hr]; exact hg
  | op :: ops, s, s', h, hg, ha, hr => by
    rw [run] at hr
    split at hr
    · cases hr
    · rename_i s1 h1
      obtain ⟨a1, a2⟩ := ha s1 h1
      exact run_clean (step_ready h h1) (step_clean h hg a1 h1) a2 hr

/-! ## Names declared twice -/

theorem item_fresh {s s' : State} {pre post : List (Name × TE)} {x : Name} {t : TE} (h : Ready s)
    (hg : declItems s (pre ++ (x, t) :: post) = .ok s') : find s.cur x = none := by
  obtain ⟨s1, e1, e2⟩ := declItems_append _ _ _ _ hg
  rw [declItems] at e2
  split at e2
  · cases e2
  rename_i s2 hi
  have p1 := declItems_post pre s s1 h.inv e1
  have p2 := declItem_post p1.inv hi
  cases hc : find s.cur x with
  | none => rfl
  | some b =>
    have := p1.cur x b hc
    rcases p2.fresh with hf | ⟨e, hf, hff⟩
    · rw [this] at hf; cases hf
    · rw [this] at hf
      injection hf with hf
      subst hf
      have hcmp := h.complete e (h.inv.curLt x e hc)
      rw [p1.keeps e hcmp, hcmp] at hff; cases hff

theorem twice {s s' : State} {pre mid post : List (Name × TE)} {x : Name} {t t' : TE} (h : Ready s)
    (hg : declItems s (pre ++ (x, t) :: (mid ++ (x, t') :: post)) = .ok s') :
    ∃ y, t = .name y ∧ (s.lookup y = none ∨ y ∈ pre.map Prod.fst) := by
  obtain ⟨s1, e1, e2⟩ := declItems_append _ _ _ _ hg
  rw [declItems] at e2
  split at e2
  · cases e2
  rename_i s2 hi
  obtain ⟨s3, e3, e4⟩ := declItems_append _ _ _ _ e2
  rw [declItems] at e4
  split at e4
  · cases e4
  rename_i s4 hi2
  have p1 := declItems_post pre s s1 h.inv e1
  have p2 := declItem_post p1.inv hi
  have p3 := declItems_post mid s2 s3 p2.inv e3
  have p4 := declItem_post p3.inv hi2
  obtain ⟨e, sp, q1, q2, q3, q4, q5, q6⟩ := p2.declares
  have hfe : isForward (s2.get e).body = true := by
    rcases p4.fresh with hf | ⟨k, hf, hff⟩
    · rw [p3.cur x _ q1] at hf; cases hf
    · rw [p3.cur x _ q1] at hf
      injection hf with hf
      injection hf with hf
      subst hf
      cases hc : isForward (s2.get e).body with
      | true => rfl
      | false => rw [p3.keeps e hc, hc] at hff; cases hff
  cases t with
  | name y =>
    refine ⟨y, rfl, ?_⟩
    by_cases hpre : y ∈ pre.map Prod.fst
    · exact .inr hpre
    left
    obtain ⟨j, r1, r2⟩ := q5
    have r2 : (s2.get e).body = (s2.get j).body := r2
    rw [r2] at hfe
    cases hl : s.lookup y with
    | none => rfl
    | some b =>
      exfalso
      have hl1 : s1.lookup y = some b := by
        unfold State.lookup at hl ⊢
        cases hc : find s.cur y with
        | some c => rw [hc] at hl; rw [p1.cur y c hc]; exact hl
        | none =>
          rw [hc] at hl
          cases hc1 : find s1.cur y with
          | none => dsimp only at hl ⊢; rw [p1.outer]; exact hl
          | some c =>
            rcases p1.new y hc (by rw [hc1]; exact fun hh => (nomatch hh)) with hh | ⟨hh, _⟩
            · exact absurd hh hpre
            · dsimp only at hl; rw [hh] at hl; cases hl
      have := q2.lookup hl1
      have r1 : sp.lookup y = some (.type j) := r1
      rw [r1] at this
      injection this with this
      subst this
      have hd := h.complete j (h.inv.lookupLt hl)
      rw [p2.keeps j (by rw [p1.keeps j hd]; exact hd), p1.keeps j hd, hd] at hfe
      cases hfe
  | _ => rw [q6 (fun y => fun hh => (nomatch hh))] at hfe; cases hfe

end Umka.TypeDecl
