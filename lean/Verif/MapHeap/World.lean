import Verif.MapHeap.StepOk
import Verif.MapHeap.Spec
import Verif.Map.Lemmas

/-! # Maps in memory: several maps -/

namespace Umka.MapHeap

open Umka.Map (Op Out Tree MapVal Root Sim)

variable {K V : Type}

/-- The memory `w` holds the ideal world `s`: every object is a tree with nodes of its own. -/
structure Inv (cmp : K → K → Int) (w : World K V) (s : Spec.World K V) (obj : Nat → Option (Int × AT K V)) : Prop where
  fin : Fin w.heap
  vars : s.var = w.vars
  refers : ∀ x a, w.vars x = some a → obj a ≠ none
  tree : ∀ a q, obj a = some q → At w.heap a q.1 [] q.2
  apart : ∀ a b q q', a ≠ b → obj a = some q → obj b = some q' → ∀ x ∈ a :: addrs q.2, x ∉ b :: addrs q'.2
  null : ∀ a, obj a = none → s.obj a = none
  items : ∀ a q, obj a = some q → ∃ m, s.obj a = some m ∧ Sim cmp (some ⟨q.1, erase q.2⟩) ⟨true, m⟩

/-- Changes in the nodes of one object and in free addresses do not touch the other objects. -/
theorem Inv.update {cmp : K → K → Int} {w : World K V} {s : Spec.World K V} {obj : Nat → Option (Int × AT K V)} (I : Inv cmp w s obj)
    {h' : Heap K V} {a : Nat} {len : Int} {t : AT K V} {m : K → Option V} {y : Nat} {F : List Nat}
    (hA : At h' a len [] t) (hs : Sim cmp (some ⟨len, erase t⟩) ⟨true, m⟩) (af : After w.heap h' F (a :: addrs t))
    (hF : (F = [] ∧ obj a = none) ∨ ∃ q, obj a = some q ∧ F = a :: addrs q.2) :
    Inv cmp ⟨h', setVar w.vars y (some a)⟩ ⟨fun x => if x = y then some a else s.var x, fun b => if b = a then some m else s.obj b⟩
      (fun b => if b = a then some (len, t) else obj b) := by
  -- nodes of other objects
  have other : ∀ b q, b ≠ a → obj b = some q → ∀ x ∈ b :: addrs q.2, x ∉ F ∧ x ∉ a :: addrs t := by
    intro b q hb hq x hx
    have hxF : x ∉ F := by
      rcases hF with ⟨rfl, _⟩ | ⟨q', hq', rfl⟩
      · simp
      · exact I.apart b a q q' hb hq hq' x hx
    refine ⟨hxF, fun hm => ?_⟩
    rcases af.fresh x hm with h | h
    · exact hxF h
    · refine (I.tree b q hq).alloc x ?_ h
      simpa [pa] using hx
  refine ⟨af.fin I.fin, ?_, ?_, ?_, ?_, ?_, ?_⟩
  · funext x; show (if x = y then some a else s.var x) = setVar w.vars y (some a) x; rw [I.vars]; rfl
  · intro x b hb
    show (if b = a then some (len, t) else obj b) ≠ none
    by_cases hba : b = a
    · rw [if_pos hba]; simp
    · rw [if_neg hba]
      have hb : (if x = y then some a else w.vars x) = some b := hb
      by_cases hxy : x = y
      · rw [if_pos hxy] at hb; exact absurd (Option.some.inj hb).symm hba
      · rw [if_neg hxy] at hb; exact I.refers x b hb
  · intro b q hq
    have hq : (if b = a then some (len, t) else obj b) = some q := hq
    by_cases hba : b = a
    · rw [if_pos hba] at hq
      have := Option.some.inj hq
      subst this; subst hba; exact hA
    · rw [if_neg hba] at hq
      have hsame : ∀ x ∈ b :: addrs q.2, h' x = w.heap x := fun x hx => af.same x (other b q hba hq x hx).1 (other b q hba hq x hx).2
      have T := I.tree b q hq
      refine ⟨?_, reps_congr (fun x hx => hsame x (List.mem_cons_of_mem _ hx)) T.tree, T.nodup⟩
      exact path_congr (hsame b List.mem_cons_self) (fun x hx => by simp [pa] at hx) T.around
  · intro b c q q' hbc hq hq' x hx
    replace hq : (if b = a then some (len, t) else obj b) = some q := hq
    replace hq' : (if c = a then some (len, t) else obj c) = some q' := hq'
    by_cases hba : b = a
    · by_cases hca : c = a
      · exact absurd (hba.trans hca.symm) hbc
      · rw [if_pos hba] at hq
        rw [if_neg hca] at hq'
        have := Option.some.inj hq
        subst this; subst hba
        exact fun hm => (other c q' hca hq' x hm).2 hx
    · rw [if_neg hba] at hq
      by_cases hca : c = a
      · rw [if_pos hca] at hq'
        have := Option.some.inj hq'
        subst this; subst hca
        exact (other b q hba hq x hx).2
      · rw [if_neg hca] at hq'
        exact I.apart b c q q' hbc hq hq' x hx
  · intro b hb
    have hb : (if b = a then some (len, t) else obj b) = none := hb
    show (if b = a then some m else s.obj b) = none
    by_cases hba : b = a
    · rw [if_pos hba] at hb; simp at hb
    · rw [if_neg hba] at hb ⊢; exact I.null b hb
  · intro b q hq
    have hq : (if b = a then some (len, t) else obj b) = some q := hq
    by_cases hba : b = a
    · rw [if_pos hba] at hq
      have := Option.some.inj hq
      subst this
      exact ⟨m, if_pos hba, hs⟩
    · rw [if_neg hba] at hq
      obtain ⟨m', e1, e2⟩ := I.items b q hq
      exact ⟨m', (if_neg hba).trans e1, e2⟩

theorem Inv.free {cmp : K → K → Int} {w : World K V} {s : Spec.World K V} {obj : Nat → Option (Int × AT K V)} (I : Inv cmp w s obj)
    {a : Nat} (ha : w.heap a = none) : obj a = none := by
  cases hq : obj a with
  | none => rfl
  | some q => exact absurd ha ((I.tree a q hq).alloc a List.mem_cons_self)

theorem sets_update (w : Spec.World K V) (x i : Nat) (m : K → Option V) :
    Spec.Sets w x i m ⟨fun z => if z = x then some i else w.var z, fun b => if b = i then some m else w.obj b⟩ :=
  ⟨if_pos rfl, fun _ hz => if_neg hz, if_pos rfl, fun _ hj => if_neg hj⟩

theorem setVar_self (vars : Nat → Option Nat) (x : Nat) : setVar vars x (vars x) = vars := by
  funext z; simp only [setVar]; split <;> simp_all

/-- One command. -/
theorem exec_ok {alloc : Heap K V → Nat} (ha : FreshAlloc alloc) {cmp : K → K → Int} (hc : Umka.Map.Spec.Lawful cmp) (zero : V)
    (c : Cmd K V) {w : World K V} {s : Spec.World K V} {obj : Nat → Option (Int × AT K V)} (I : Inv cmp w s obj) :
    ∃ N w' o s' obj', (∀ fuel, N ≤ fuel → exec alloc cmp zero fuel w c = some (w', o)) ∧ Spec.Step cmp zero s c o s' ∧ Inv cmp w' s' obj' := by
  cases c with
  | on x op =>
    -- the map of the variable
    obtain ⟨mv, F, hH, hsim, hF⟩ : ∃ mv F, Holds ⟨w.heap, w.vars x⟩ mv F ∧ Sim cmp mv (s.state (s.var x)) ∧
        ((w.vars x = none ∧ F = []) ∨ ∃ a q, w.vars x = some a ∧ obj a = some q ∧ F = a :: addrs q.2) := by
      cases hv : w.vars x with
      | none =>
        refine ⟨none, [], .inl ⟨rfl, rfl, rfl⟩, ?_, .inl ⟨rfl, rfl⟩⟩
        rw [I.vars, hv]; exact ⟨rfl, fun _ => rfl⟩
      | some a =>
        obtain ⟨q, hq⟩ := Option.ne_none_iff_exists'.mp (I.refers x a hv)
        obtain ⟨m, e1, e2⟩ := I.items a q hq
        refine ⟨some ⟨q.1, erase q.2⟩, a :: addrs q.2, .inr ⟨a, q.1, q.2, rfl, rfl, rfl, I.tree a q hq⟩, ?_, .inr ⟨a, q, rfl, hq, rfl⟩⟩
        rw [I.vars, hv]
        show Sim cmp _ ⟨true, (s.obj a).getD _⟩
        rw [e1]; exact e2
    obtain ⟨s1, hstep, hsim'⟩ := Umka.Map.step_sim hc zero mv _ hsim op
    obtain ⟨N, m', F', e1, e2, e3, e4, e5, e6⟩ := step_ok ha cmp zero op (m := ⟨w.heap, w.vars x⟩) I.fin hH
    have hrun : ∀ fuel, N ≤ fuel → exec alloc cmp zero fuel w (.on x op) =
        some (⟨m'.heap, setVar w.vars x m'.root⟩, (Umka.Map.step cmp zero mv op).2) := by
      intro fuel hfu
      simp only [exec, e1 fuel hfu, Option.bind_eq_bind, Option.bind_some]
    rcases e2 with ⟨r1, r2, r3⟩ | ⟨ra, len, t, r1, r2, r3, A⟩
    · -- the map stays null
      subst r3
      rw [r2] at hsim'
      obtain ⟨i1, i2⟩ := hsim'
      have hop : op ≠ .make := fun h => by have := (e5 h).2; rw [r1] at this; simp at this
      have hnull : w.vars x = none := by
        by_cases hn : w.vars x = none
        · exact hn
        · have := e4 hop hn; rw [r1] at this; exact absurd this.symm hn
      have hF0 : F = [] := by
        rcases hF with ⟨_, h⟩ | ⟨a, q, h, _⟩
        · exact h
        · rw [hnull] at h; simp at h
      have hheap : m'.heap = w.heap := by
        funext y
        refine e3.same y ?_ (by simp)
        cases op <;> simp [workset, hF0]
      refine ⟨N, _, _, s, obj, hrun, ⟨s1, hstep, ?_⟩, ?_⟩
      · rw [show s.var x = none by rw [I.vars, hnull]]
        cases op <;> first | exact absurd rfl hop | simp [i1]
      · rw [hheap, r1, ← hnull, setVar_self]; exact I
    · subst r3
      rw [r2] at hsim'
      have hsi : s1 = ⟨true, s1.item⟩ := by
        obtain ⟨i1, _⟩ := hsim'
        cases s1; simp_all
      have hsim2 : Sim cmp (some ⟨len, erase t⟩) ⟨true, s1.item⟩ := by rw [← hsi]; exact hsim'
      -- a new object, or the old one
      by_cases hnew : op = .make ∨ w.vars x = none
      · have hra : ra = alloc w.heap := by
          rcases hnew with h | h
          · have := (e5 h).2; rw [r1] at this; exact Option.some.inj this
          · have := e6 h (by rw [r1]; simp); rw [r1] at this; exact Option.some.inj this
        have hfree : obj ra = none := I.free (by rw [hra]; exact ha _ I.fin)
        have hwork : workset op F = [] := by
          rcases hnew with h | h
          · subst h; rfl
          · rcases hF with ⟨_, h2⟩ | ⟨a, q, h2, _⟩
            · subst h2; cases op <;> rfl
            · rw [h] at h2; simp at h2
        rw [hwork] at e3
        have I' := I.update (y := x) A hsim2 e3 (.inl ⟨rfl, hfree⟩)
        refine ⟨N, _, _, _, _, hrun, ⟨s1, hstep, ?_⟩, by rw [r1]; exact I'⟩
        have hset : ∃ i, s.obj i = none ∧ Spec.Sets s x i s1.item
            ⟨fun z => if z = x then some ra else s.var z, fun b => if b = ra then some s1.item else s.obj b⟩ :=
          ⟨ra, I.null ra hfree, sets_update s x ra s1.item⟩
        rcases hnew with h | h
        · subst h; exact hset
        · rw [show s.var x = none by rw [I.vars, h]]
          have hi : s1.init = true := by rw [hsi]
          cases op <;> first | exact hset | (simp only [hi, if_true]; exact hset)
      · rw [not_or] at hnew
        obtain ⟨hop, hv⟩ := hnew
        have hroot := e4 hop hv
        rcases hF with ⟨h, _⟩ | ⟨a, q, hva, hq, rfl⟩
        · exact absurd h hv
        · have hra : ra = a := by
            rw [r1] at hroot
            have : some ra = some a := hroot.trans hva
            exact Option.some.inj this
          subst hra
          have hwork : workset op (ra :: addrs q.2) = ra :: addrs q.2 := by
            cases op <;> first | exact absurd rfl hop | rfl
          rw [hwork] at e3
          have I' := I.update (y := x) A hsim2 e3 (.inr ⟨q, hq, rfl⟩)
          refine ⟨N, _, _, _, _, hrun, ⟨s1, hstep, ?_⟩, by rw [r1]; exact I'⟩
          rw [show s.var x = some ra by rw [I.vars, hva]]
          cases op <;> first | exact absurd rfl hop | exact sets_update s x ra s1.item
  | copy y x =>
    cases hv : w.vars x with
    | none =>
      refine ⟨0, ⟨w.heap, setVar w.vars y none⟩, .unit, ⟨fun z => if z = y then none else s.var z, s.obj⟩, obj, ?_, ⟨rfl, ?_⟩, ?_⟩
      · intro fuel _; simp only [exec, hv]
      · rw [show s.var x = none by rw [I.vars, hv]]; exact ⟨if_pos rfl, fun z hz => if_neg hz, rfl⟩
      · refine ⟨I.fin, ?_, ?_, I.tree, I.apart, I.null, I.items⟩
        · rw [I.vars]; rfl
        · intro z a hz
          have hz : (if z = y then none else w.vars z) = some a := hz
          by_cases hzy : z = y
          · rw [if_pos hzy] at hz; simp at hz
          · rw [if_neg hzy] at hz; exact I.refers z a hz
    | some a =>
      obtain ⟨q, hq⟩ := Option.ne_none_iff_exists'.mp (I.refers x a hv)
      obtain ⟨m, e1, e2⟩ := I.items a q hq
      obtain ⟨N, h', rb, t', f1, f2, f3, f4⟩ := copy_map ha I.fin (I.tree a q hq)
      have hfree : obj rb = none := by
        refine I.free ?_
        rcases f4.fresh rb List.mem_cons_self with h | h
        · simp at h
        · exact h
      rw [← f2] at e2
      have I' := I.update (y := y) f3 e2 f4 (.inl ⟨rfl, hfree⟩)
      refine ⟨N, _, .unit, _, _, ?_, ⟨rfl, ?_⟩, I'⟩
      · intro fuel hfu; simp only [exec, hv, f1 fuel hfu, Option.bind_eq_bind, Option.bind_some]
      · rw [show s.var x = some a by rw [I.vars, hv]]; exact ⟨rb, m, e1, I.null rb hfree, sets_update s y rb m⟩
  | assign y x =>
    refine ⟨0, ⟨w.heap, setVar w.vars y (w.vars x)⟩, .unit, ⟨fun z => if z = y then s.var x else s.var z, s.obj⟩, obj, fun _ _ => rfl,
      ⟨rfl, if_pos rfl, fun z hz => if_neg hz, rfl⟩, ?_⟩
    refine ⟨I.fin, ?_, ?_, I.tree, I.apart, I.null, I.items⟩
    · rw [I.vars]; rfl
    · intro z a hz
      have hz : (if z = y then w.vars x else w.vars z) = some a := hz
      by_cases hzy : z = y
      · rw [if_pos hzy] at hz; exact I.refers x a hz
      · rw [if_neg hzy] at hz; exact I.refers z a hz

/-- A whole program. -/
theorem run_ok {alloc : Heap K V → Nat} (ha : FreshAlloc alloc) {cmp : K → K → Int} (hc : Umka.Map.Spec.Lawful cmp) (zero : V) :
    ∀ (cs : List (Cmd K V)) {w : World K V} {s : Spec.World K V} {obj : Nat → Option (Int × AT K V)}, Inv cmp w s obj →
    ∃ N w' os s' obj', (∀ fuel, N ≤ fuel → run alloc cmp zero fuel w cs = some (w', os)) ∧ Spec.Run cmp zero s cs os s' ∧ Inv cmp w' s' obj'
  | [], w, s, obj, I => ⟨0, w, [], s, obj, fun _ _ => rfl, rfl, I⟩
  | c :: cs, w, s, obj, I => by
    obtain ⟨N, w1, o, s1, obj1, e1, e2, e3⟩ := exec_ok ha hc zero c I
    obtain ⟨N2, w2, os, s2, obj2, f1, f2, f3⟩ := run_ok ha hc zero cs e3
    refine ⟨max N N2, w2, o :: os, s2, obj2, ?_, ⟨s1, e2, f2⟩, f3⟩
    intro fuel hfu
    simp only [run, e1 fuel (by omega), f1 fuel (by omega), Option.bind_eq_bind, Option.bind_some]

theorem inv_start (cmp : K → K → Int) : Inv cmp (⟨fun _ => none, fun _ => none⟩ : World K V) Spec.start (fun _ => none) where
  fin := ⟨0, fun _ _ => rfl⟩
  vars := rfl
  refers := by intro x a h; simp at h
  tree := by intro a q h; simp at h
  apart := by intro a b q q' _ h; simp at h
  null := fun _ _ => rfl
  items := by intro a q h; simp at h

end Umka.MapHeap
