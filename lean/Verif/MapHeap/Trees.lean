import Verif.MapHeap.StepOk

/-! # Maps in memory: several maps, with any comparison of keys -/

namespace Umka.MapHeap

open Umka.Map (Op Out Tree MapVal Root)

variable {K V : Type}

/-- The memory holds the trees `obj`, each with nodes of its own. -/
structure Trees (w : World K V) (obj : Nat → Option (Int × AT K V)) : Prop where
  fin : Fin w.heap
  refers : ∀ x a, w.vars x = some a → obj a ≠ none
  tree : ∀ a q, obj a = some q → At w.heap a q.1 [] q.2
  apart : ∀ a b q q', a ≠ b → obj a = some q → obj b = some q' → ∀ x ∈ a :: addrs q.2, x ∉ b :: addrs q'.2

/-- The map that a variable with the value `r` stands for. -/
def val (obj : Nat → Option (Int × AT K V)) (r : Option Nat) : MapVal K V := r.bind fun a => (obj a).map fun q => ⟨q.1, erase q.2⟩

theorem Trees.update {w : World K V} {obj : Nat → Option (Int × AT K V)} (I : Trees w obj)
    {h' : Heap K V} {a : Nat} {len : Int} {t : AT K V} {y : Nat} {F : List Nat}
    (hA : At h' a len [] t) (af : After w.heap h' F (a :: addrs t))
    (hF : (F = [] ∧ obj a = none) ∨ ∃ q, obj a = some q ∧ F = a :: addrs q.2) :
    Trees ⟨h', setVar w.vars y (some a)⟩ (fun b => if b = a then some (len, t) else obj b) := by
  have other : ∀ b q, b ≠ a → obj b = some q → ∀ x ∈ b :: addrs q.2, x ∉ F ∧ x ∉ a :: addrs t := by
    intro b q hb hq x hx
    have hxF : x ∉ F := by
      rcases hF with ⟨rfl, _⟩ | ⟨q', hq', rfl⟩
      · simp
      · exact I.apart b a q q' hb hq hq' x hx
    refine ⟨hxF, fun hm => ?_⟩
    rcases af.fresh x hm with h | h
    · exact hxF h
    · refine (I.tree b q hq).alloc x ?_ h
      simpa [pa] using hx
  refine ⟨af.fin I.fin, ?_, ?_, ?_⟩
  · intro x b hb
    show (if b = a then some (len, t) else obj b) ≠ none
    by_cases hba : b = a
    · rw [if_pos hba]; simp
    · rw [if_neg hba]
      have hb : (if x = y then some a else w.vars x) = some b := hb
      by_cases hxy : x = y
      · rw [if_pos hxy] at hb; exact absurd (Option.some.inj hb).symm hba
      · rw [if_neg hxy] at hb; exact I.refers x b hb
  · intro b q hq
    replace hq : (if b = a then some (len, t) else obj b) = some q := hq
    by_cases hba : b = a
    · rw [if_pos hba] at hq
      have := Option.some.inj hq
      subst this; subst hba; exact hA
    · rw [if_neg hba] at hq
      have hsame : ∀ x ∈ b :: addrs q.2, h' x = w.heap x := fun x hx => af.same x (other b q hba hq x hx).1 (other b q hba hq x hx).2
      have T := I.tree b q hq
      refine ⟨?_, reps_congr (fun x hx => hsame x (List.mem_cons_of_mem _ hx)) T.tree, T.nodup⟩
      exact path_congr (hsame b List.mem_cons_self) (fun x hx => by simp [pa] at hx) T.around
  · intro b c q q' hbc hq hq' x hx
    replace hq : (if b = a then some (len, t) else obj b) = some q := hq
    replace hq' : (if c = a then some (len, t) else obj c) = some q' := hq'
    by_cases hba : b = a
    · by_cases hca : c = a
      · exact absurd (hba.trans hca.symm) hbc
      · rw [if_pos hba] at hq
        rw [if_neg hca] at hq'
        have := Option.some.inj hq
        subst this; subst hba
        exact fun hm => (other c q' hca hq' x hm).2 hx
    · rw [if_neg hba] at hq
      by_cases hca : c = a
      · rw [if_pos hca] at hq'
        have := Option.some.inj hq'
        subst this; subst hca
        exact (other b q hba hq x hx).2
      · rw [if_neg hca] at hq'
        exact I.apart b c q q' hbc hq hq' x hx

theorem Trees.free {w : World K V} {obj : Nat → Option (Int × AT K V)} (I : Trees w obj) {a : Nat} (ha : w.heap a = none) : obj a = none := by
  cases hq : obj a with
  | none => rfl
  | some q => exact absurd ha ((I.tree a q hq).alloc a List.mem_cons_self)

theorem setVar_same (vars : Nat → Option Nat) (y : Nat) (p : Option Nat) : setVar vars y p y = p := if_pos rfl
theorem setVar_ne (vars : Nat → Option Nat) {y z : Nat} (p : Option Nat) (h : z ≠ y) : setVar vars y p z = vars z := if_neg h

theorem val_congr {obj obj' : Nat → Option (Int × AT K V)} {r : Option Nat} (h : ∀ a, r = some a → obj' a = obj a) : val obj' r = val obj r := by
  cases r with
  | none => rfl
  | some a => simp only [val, Option.bind_some, h a rfl]

/-- Two variables do not share a map. -/
def NoAlias (w : World K V) (x y : Nat) : Prop := ∀ a, w.vars x = some a → w.vars y ≠ some a

/-- An operation on the map of a variable. -/
theorem on_trees {alloc : Heap K V → Nat} (ha : FreshAlloc alloc) (cmp : K → K → Int) (zero : V) (x : Nat) (op : Op K V)
    {w : World K V} {obj : Nat → Option (Int × AT K V)} (I : Trees w obj) :
    ∃ N w' obj', (∀ fuel, N ≤ fuel → exec alloc cmp zero fuel w (.on x op) = some (w', (Umka.Map.step cmp zero (val obj (w.vars x)) op).2)) ∧
      Trees w' obj' ∧ val obj' (w'.vars x) = (Umka.Map.step cmp zero (val obj (w.vars x)) op).1 ∧
      ∀ y, y ≠ x → NoAlias w x y → val obj' (w'.vars y) = val obj (w.vars y) ∧ NoAlias w' x y := by
  obtain ⟨mv, F, hH, hmv, hF⟩ : ∃ mv F, Holds ⟨w.heap, w.vars x⟩ mv F ∧ mv = val obj (w.vars x) ∧
      ((w.vars x = none ∧ F = []) ∨ ∃ a q, w.vars x = some a ∧ obj a = some q ∧ F = a :: addrs q.2) := by
    cases hv : w.vars x with
    | none => exact ⟨none, [], .inl ⟨rfl, rfl, rfl⟩, rfl, .inl ⟨rfl, rfl⟩⟩
    | some a =>
      obtain ⟨q, hq⟩ := Option.ne_none_iff_exists'.mp (I.refers x a hv)
      refine ⟨some ⟨q.1, erase q.2⟩, a :: addrs q.2, .inr ⟨a, q.1, q.2, rfl, rfl, rfl, I.tree a q hq⟩, ?_, .inr ⟨a, q, rfl, hq, rfl⟩⟩
      simp only [val, Option.bind_some, hq, Option.map_some]
  rw [← hmv]
  obtain ⟨N, m', F', e1, e2, e3, e4, e5, e6⟩ := step_ok ha cmp zero op (m := ⟨w.heap, w.vars x⟩) I.fin hH
  have hrun : ∀ fuel, N ≤ fuel → exec alloc cmp zero fuel w (.on x op) =
      some (⟨m'.heap, setVar w.vars x m'.root⟩, (Umka.Map.step cmp zero mv op).2) := by
    intro fuel hfu
    simp only [exec, e1 fuel hfu, Option.bind_eq_bind, Option.bind_some]
  rcases e2 with ⟨r1, r2, r3⟩ | ⟨ra, len, t, r1, r2, r3, A⟩
  · subst r3
    have hop : op ≠ .make := fun h => by have := (e5 h).2; rw [r1] at this; simp at this
    have hnull : w.vars x = none := by
      by_cases hn : w.vars x = none
      · exact hn
      · have := e4 hop hn; rw [r1] at this; exact absurd this.symm hn
    have hF0 : F = [] := by
      rcases hF with ⟨_, h⟩ | ⟨a, q, h, _⟩
      · exact h
      · rw [hnull] at h; simp at h
    have hheap : m'.heap = w.heap := by
      funext y
      refine e3.same y ?_ (by simp)
      cases op <;> simp [workset, hF0]
    have hw : (⟨m'.heap, setVar w.vars x m'.root⟩ : World K V) = w := by
      have : setVar w.vars x none = w.vars := by
        funext z; simp only [setVar]; split <;> simp_all
      rw [hheap, r1, this]
    rw [hw] at hrun
    refine ⟨N, w, obj, hrun, I, ?_, fun y _ hn => ⟨rfl, hn⟩⟩
    rw [hnull, r2]; rfl
  · subst r3
    have upd : ∀ {F0 : List Nat}, After w.heap m'.heap F0 (ra :: addrs t) →
        (F0 = [] ∧ obj ra = none) ∨ (∃ q, obj ra = some q ∧ F0 = ra :: addrs q.2) → (∀ y, y ≠ x → NoAlias w x y → w.vars y ≠ some ra) →
        ∃ N w' obj', (∀ fuel, N ≤ fuel → exec alloc cmp zero fuel w (.on x op) = some (w', (Umka.Map.step cmp zero mv op).2)) ∧
          Trees w' obj' ∧ val obj' (w'.vars x) = (Umka.Map.step cmp zero mv op).1 ∧
          ∀ y, y ≠ x → NoAlias w x y → val obj' (w'.vars y) = val obj (w.vars y) ∧ NoAlias w' x y := by
      intro F0 af hF0 hna
      have I' := I.update (y := x) A af hF0
      refine ⟨N, ⟨m'.heap, setVar w.vars x (some ra)⟩, _, by rw [← r1]; exact hrun, I', ?_, ?_⟩
      · rw [r2]
        show val _ (setVar w.vars x (some ra) x) = _
        rw [setVar_same]
        simp only [val, Option.bind_some, if_true, Option.map_some]
      · intro y hy hn
        refine ⟨?_, ?_⟩
        · show val _ (setVar w.vars x (some ra) y) = _
          rw [setVar_ne _ _ hy]
          refine val_congr fun a hay => ?_
          exact if_neg fun e => hna y hy hn (by rw [hay, e])
        · intro a hxa
          have hxa : setVar w.vars x (some ra) x = some a := hxa
          rw [setVar_same] at hxa
          show setVar w.vars x (some ra) y ≠ some a
          rw [setVar_ne _ _ hy, ← hxa]
          exact hna y hy hn
    by_cases hnew : op = .make ∨ w.vars x = none
    · have hra : ra = alloc w.heap := by
        rcases hnew with h | h
        · have := (e5 h).2; rw [r1] at this; exact Option.some.inj this
        · have := e6 h (by rw [r1]; simp); rw [r1] at this; exact Option.some.inj this
      have hfree : obj ra = none := I.free (by rw [hra]; exact ha _ I.fin)
      have hwork : workset op F = [] := by
        rcases hnew with h | h
        · subst h; rfl
        · rcases hF with ⟨_, h2⟩ | ⟨a, q, h2, _⟩
          · subst h2; cases op <;> rfl
          · rw [h] at h2; simp at h2
      rw [hwork] at e3
      exact upd e3 (.inl ⟨rfl, hfree⟩) fun y _ _ h => I.refers y ra h hfree
    · rw [not_or] at hnew
      obtain ⟨hop, hv⟩ := hnew
      have hroot := e4 hop hv
      rcases hF with ⟨h, _⟩ | ⟨a, q, hva, hq, rfl⟩
      · exact absurd h hv
      · have hra : ra = a := by
          rw [r1] at hroot
          have : some ra = some a := hroot.trans hva
          exact Option.some.inj this
        subst hra
        have hwork : workset op (ra :: addrs q.2) = ra :: addrs q.2 := by
          cases op <;> first | exact absurd rfl hop | rfl
        rw [hwork] at e3
        exact upd e3 (.inr ⟨q, hq, rfl⟩) fun y _ hn => hn ra hva

/-- A copy. -/
theorem copy_trees {alloc : Heap K V → Nat} (ha : FreshAlloc alloc) (cmp : K → K → Int) (zero : V) (y x : Nat)
    {w : World K V} {obj : Nat → Option (Int × AT K V)} (I : Trees w obj) :
    ∃ N w' obj', (∀ fuel, N ≤ fuel → exec alloc cmp zero fuel w (.copy y x) = some (w', .unit)) ∧ Trees w' obj' ∧
      val obj' (w'.vars y) = val obj (w.vars x) ∧ (∀ z, z ≠ y → val obj' (w'.vars z) = val obj (w.vars z)) ∧ ∀ z, z ≠ y → NoAlias w' z y := by
  cases hv : w.vars x with
  | none =>
    refine ⟨0, ⟨w.heap, setVar w.vars y none⟩, obj, ?_, ⟨I.fin, ?_, I.tree, I.apart⟩, ?_, ?_, ?_⟩
    · intro fuel _; simp only [exec, hv]
    · intro z a hz
      have hz : (if z = y then none else w.vars z) = some a := hz
      by_cases hzy : z = y
      · rw [if_pos hzy] at hz; simp at hz
      · rw [if_neg hzy] at hz; exact I.refers z a hz
    · show val obj (setVar w.vars y none y) = _
      rw [setVar_same]
    · intro z hz
      show val obj (setVar w.vars y none z) = _
      rw [setVar_ne _ _ hz]
    · intro z _ a _
      show setVar w.vars y none y ≠ some a
      rw [setVar_same]; simp
  | some a =>
    obtain ⟨q, hq⟩ := Option.ne_none_iff_exists'.mp (I.refers x a hv)
    obtain ⟨N, h', rb, t', f1, f2, f3, f4⟩ := copy_map ha I.fin (I.tree a q hq)
    have hfree : obj rb = none := by
      refine I.free ?_
      rcases f4.fresh rb List.mem_cons_self with h | h
      · simp at h
      · exact h
    have I' := I.update (y := y) f3 f4 (.inl ⟨rfl, hfree⟩)
    refine ⟨N, _, _, ?_, I', ?_, ?_, ?_⟩
    · intro fuel hfu; simp only [exec, hv, f1 fuel hfu, Option.bind_eq_bind, Option.bind_some]
    · show val _ (setVar w.vars y (some rb) y) = _
      rw [setVar_same]
      simp only [val, Option.bind_some, if_true, Option.map_some, hq, f2]
    · intro z hz
      show val _ (setVar w.vars y (some rb) z) = _
      rw [setVar_ne _ _ hz]
      refine val_congr fun b hb => if_neg fun e => I.refers z b hb (by rw [e]; exact hfree)
    · intro z hz b hb
      have hb : setVar w.vars y (some rb) z = some b := hb
      rw [setVar_ne _ _ hz] at hb
      show setVar w.vars y (some rb) y ≠ some b
      rw [setVar_same]
      intro e
      exact I.refers z b hb (by rw [← Option.some.inj e]; exact hfree)

/-- Any program. -/
theorem run_trees {alloc : Heap K V → Nat} (ha : FreshAlloc alloc) (cmp : K → K → Int) (zero : V) :
    ∀ (cs : List (Cmd K V)) {w : World K V} {obj : Nat → Option (Int × AT K V)}, Trees w obj →
    ∃ N w' os obj', (∀ fuel, N ≤ fuel → run alloc cmp zero fuel w cs = some (w', os)) ∧ os.length = cs.length ∧ Trees w' obj'
  | [], w, obj, I => ⟨0, w, [], obj, fun _ _ => rfl, rfl, I⟩
  | c :: cs, w, obj, I => by
    obtain ⟨N, w1, o, obj1, e1, I1⟩ : ∃ N w1 o obj1, (∀ fuel, N ≤ fuel → exec alloc cmp zero fuel w c = some (w1, o)) ∧ Trees w1 obj1 := by
      cases c with
      | on x op => obtain ⟨N, w1, obj1, e1, I1, _⟩ := on_trees ha cmp zero x op I; exact ⟨N, w1, _, obj1, e1, I1⟩
      | copy y x => obtain ⟨N, w1, obj1, e1, I1, _⟩ := copy_trees ha cmp zero y x I; exact ⟨N, w1, _, obj1, e1, I1⟩
      | assign y x =>
        refine ⟨0, ⟨w.heap, setVar w.vars y (w.vars x)⟩, .unit, obj, fun _ _ => rfl, ⟨I.fin, ?_, I.tree, I.apart⟩⟩
        intro z a hz
        have hz : (if z = y then w.vars x else w.vars z) = some a := hz
        by_cases hzy : z = y
        · rw [if_pos hzy] at hz; exact I.refers x a hz
        · rw [if_neg hzy] at hz; exact I.refers z a hz
    obtain ⟨N2, w2, os, obj2, f1, f2, f3⟩ := run_trees ha cmp zero cs I1
    refine ⟨max N N2, w2, o :: os, obj2, ?_, by simp [f2], f3⟩
    intro fuel hfu
    simp only [run, e1 fuel (by omega), f1 fuel (by omega), Option.bind_eq_bind, Option.bind_some]

/-- Operations on one variable only. -/
theorem run_one {alloc : Heap K V → Nat} (ha : FreshAlloc alloc) (cmp : K → K → Int) (zero : V) (x : Nat) :
    ∀ (ops : List (Op K V)) {w : World K V} {obj : Nat → Option (Int × AT K V)}, Trees w obj →
    ∃ N w', ∀ fuel, N ≤ fuel → run alloc cmp zero fuel w (ops.map (.on x)) = some (w', Umka.Map.run cmp zero (val obj (w.vars x)) ops)
  | [], w, obj, I => ⟨0, w, fun _ _ => rfl⟩
  | op :: ops, w, obj, I => by
    obtain ⟨N, w1, obj1, e1, I1, e2, _⟩ := on_trees ha cmp zero x op I
    obtain ⟨N2, w2, f1⟩ := run_one ha cmp zero x ops I1
    refine ⟨max N N2, w2, ?_⟩
    intro fuel hfu
    simp only [List.map_cons, run, e1 fuel (by omega), f1 fuel (by omega), Option.bind_eq_bind, Option.bind_some, Umka.Map.run, e2]

theorem run_app {alloc : Heap K V → Nat} {cmp : K → K → Int} {zero : V} {fuel : Nat} : ∀ (cs ds : List (Cmd K V)) {w w1 : World K V}
    {os : List (Out K V)}, run alloc cmp zero fuel w cs = some (w1, os) →
    run alloc cmp zero fuel w (cs ++ ds) = (run alloc cmp zero fuel w1 ds).map fun q => (q.1, os ++ q.2)
  | [], ds, w, w1, os, h => by
    simp only [run, Option.some.injEq, Prod.mk.injEq] at h
    obtain ⟨rfl, rfl⟩ := h
    simp
  | c :: cs, ds, w, w1, os, h => by
    simp only [run, Option.bind_eq_bind] at h
    cases he : exec alloc cmp zero fuel w c with
    | none => rw [he] at h; simp at h
    | some q =>
      rw [he] at h
      simp only [Option.bind_some] at h
      cases hr : run alloc cmp zero fuel q.1 cs with
      | none => rw [hr] at h; simp at h
      | some r =>
        rw [hr] at h
        simp only [Option.bind_some, Option.some.injEq, Prod.mk.injEq] at h
        obtain ⟨rfl, rfl⟩ := h
        simp only [List.cons_append, run, he, Option.bind_eq_bind, Option.bind_some, run_app cs ds hr]
        cases run alloc cmp zero fuel r.1 ds <;> rfl

theorem trees_start : Trees (⟨fun _ => none, fun _ => none⟩ : World K V) (fun _ => none) where
  fin := ⟨0, fun _ _ => rfl⟩
  refers := by intro x a h; simp at h
  tree := by intro a q h; simp at h
  apart := by intro a b q q' _ h; simp at h

end Umka.MapHeap
