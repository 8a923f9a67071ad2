import Verif.Imports.Lemmas

/-!
# Imports: property C43
-/

namespace Umka.Imports.Props

deriving instance DecidableEq for Except

theorem compile_ok (g : Files) (n : Nat) (root : Path) (hn : 1024 ≤ n) :
    match compile g n root with
    | .error e => Reason g root e
    | .ok s => Inv g root s ∧ (∀ m ∈ s.mods, m.compiled = true) ∧ none ∈ s.mods.map (·.path) ∧ ∃ ord, s.order = ord ++ [root] := by
  rw [compile]
  cases hf : g.file root with
  | none => exact ⟨root, .refl, hf⟩
  | some items =>
    dsimp only
    have := parse_ok g root n root ⟨[⟨none, true, []⟩], 0, []⟩
      ⟨by simp, by simp, by simp, by simp, by
        intro l₁ p l₂ h; simp at h, by simp [maxModules], by simp⟩ .refl (by simp) (by rw [hf]; simp) (by simp)
      (by simp only [List.length_singleton, maxModules]; omega)
    cases hp : parseModule g n root ⟨[⟨none, true, []⟩], 0, []⟩ with
    | error e => rw [hp] at this; exact this
    | ok r =>
      obtain ⟨i, s⟩ := r
      rw [hp] at this
      dsimp only at this
      obtain ⟨h1, ⟨new, h2, h3⟩, _, ord, h4⟩ := this
      refine ⟨h1, ?_, by dsimp only; rw [h2]; simp, ord, by rw [h4]; simp⟩
      intro m hm
      dsimp only at hm
      rw [h2] at hm
      rcases List.mem_append.mp hm with hm | hm
      · rw [List.mem_singleton] at hm; rw [hm]
      · exact h3 m hm

/-- **C43, termination.**  For every import graph, finite or not, the nesting of imports never exceeds the number of modules the
compiler admits: the recursion bound of the model is never reached. -/
theorem C43_terminates (g : Files) (n : Nat) (root : Path) (hn : 1024 ≤ n) : compile g n root ≠ .error .fuel := by
  intro h
  have := compile_ok g n root hn
  rw [h] at this
  exact this

/-- **C43, memory safety.**  The module table is never accessed outside its bounds, and no module is registered twice. -/
theorem C43_defined (g : Files) (n : Nat) (root : Path) (hn : 1024 ≤ n) :
    compile g n root ≠ .error .undefined ∧ compile g n root ≠ .error .duplicateModule := by
  constructor <;>
  · intro h
    have := compile_ok g n root hn
    rw [h] at this
    exact this

/-- **C43, success.**  If the imports compile, every module that the main module imports, directly or not, is compiled exactly once,
nothing else is compiled, every module is compiled after all its imports, and the main module is the last one. -/
theorem C43_order {g : Files} {n : Nat} {root : Path} {s : St} (hn : 1024 ≤ n) (h : compile g n root = .ok s) :
    s.order.Nodup ∧ (∀ p, p ∈ s.order ↔ Reach g root p) ∧ DepsFirst g s.order ∧ s.order.getLast? = some root := by
  have := compile_ok g n root hn
  rw [h] at this
  obtain ⟨h1, h2, _, ord, h3⟩ := this
  refine ⟨h1.distinct, ?_, h1.deps, by rw [h3]; simp⟩
  intro p
  constructor
  · intro hp
    obtain ⟨m, hm, e, _⟩ := (h1.order p).mp hp
    exact h1.reach m hm p e
  · intro hr
    induction hr with
    | refl => rw [h3]; simp
    | step _ hi ih =>
      obtain ⟨l₁, l₂, e⟩ := List.append_of_mem ih
      have := h1.deps l₁ _ l₂ e _ hi
      rw [e]; exact List.mem_append.mpr (Or.inl this)

/-- A graph in which every module is compiled after its imports has no cycle. -/
theorem no_cycle {g : Files} {root : Path} {order : List Path} (hn : order.Nodup) (hd : DepsFirst g order)
    (hr : ∀ p, Reach g root p → p ∈ order) : ¬ Cycle g root := by
  -- a module that reaches another one comes after it
  have key : ∀ p q, Reach g p q → ∀ l₁ l₂, order = l₁ ++ p :: l₂ → q = p ∨ q ∈ l₁ := by
    intro p q h
    induction h with
    | refl => intro _ _ _; exact Or.inl rfl
    | step _ hi ih =>
      intro l₁ l₂ e
      rcases ih l₁ l₂ e with h | h
      · right; rw [h] at hi; exact hd l₁ p l₂ e _ hi
      · right
        obtain ⟨a, b, e'⟩ := List.append_of_mem h
        have := hd a _ (b ++ p :: l₂) (by rw [e, e']; simp) _ hi
        rw [e']; exact List.mem_append.mpr (Or.inl this)
  rintro ⟨p, q, hp, hi, hqp⟩
  obtain ⟨l₁, l₂, e⟩ := List.append_of_mem (hr p hp)
  have hq := hd l₁ p l₂ e q hi
  obtain ⟨a, b, e'⟩ := List.append_of_mem hq
  rw [e, List.nodup_append] at hn
  rcases key q p hqp a (b ++ p :: l₂) (by rw [e, e']; simp) with h | h
  · exact hn.2.2 p (by rw [h]; exact hq) p (by simp) rfl
  · exact hn.2.2 p (by rw [e']; exact List.mem_append.mpr (Or.inl h)) p (by simp) rfl

/-- **C43, errors.**  Every error has its reason in the import graph: a cyclic import is reported only if there is a cycle, a
duplicate import only if a module has two imports with the same alias or path (or its own name as an alias), a missing file only if it
is imported and does not exist, too many modules only if 1024 different ones are imported. -/
theorem C43_errors {g : Files} {n : Nat} {root : Path} {e : Err} (hn : 1024 ≤ n) (h : compile g n root = .error e) :
    Reason g root e := by
  have := compile_ok g n root hn
  rw [h] at this
  exact this

/-- **C43.**  The imports of a program compile if and only if there is no cycle, no duplicate import, no missing file and there are at
most 1023 modules. -/
theorem C43_iff (g : Files) (n : Nat) (root : Path) (hn : 1024 ≤ n) :
    (∃ s, compile g n root = .ok s) ↔
      ¬ Cycle g root ∧ (∀ p, Reach g root p → ∃ items, g.file p = some items ∧ Proper g p items) ∧
      (∀ L : List Path, L.Nodup → (∀ p ∈ L, Reach g root p) → L.length ≤ 1023) := by
  constructor
  · rintro ⟨s, h⟩
    obtain ⟨h1, h2, h3, _⟩ := C43_order hn h
    have := compile_ok g n root hn
    rw [h] at this
    obtain ⟨h4, h5, h6, _⟩ := this
    refine ⟨no_cycle h1 h3 (fun p hp => (h2 p).mpr hp), fun p hp => h4.proper p ((h2 p).mpr hp), ?_⟩
    intro L hL hr
    have hsub : L ⊆ s.order := fun p hp => (h2 p).mpr (hr p hp)
    have hlen : L.length ≤ s.order.length := hL.length_le_of_subset hsub
    have hlen2 : (none :: s.order.map some).length ≤ (s.mods.map (·.path)).length := by
      apply List.Nodup.length_le_of_subset
      · rw [List.nodup_cons]
        refine ⟨by simp, ?_⟩
        rw [List.nodup_iff_pairwise_ne, List.pairwise_map]
        exact (List.nodup_iff_pairwise_ne.mp h1).imp (fun h e => h (Option.some.inj e))
      · intro x hx
        rcases List.mem_cons.mp hx with e | hx
        · rw [e]; exact h6
        · obtain ⟨p, hp, e⟩ := List.mem_map.mp hx
          obtain ⟨m, hm, e', _⟩ := (h4.order p).mp hp
          exact List.mem_map.mpr ⟨m, hm, by rw [e', e]⟩
    have := h4.size
    simp only [List.length_cons, List.length_map] at hlen2
    rw [maxModules] at this
    omega
  · rintro ⟨h1, h2, h3⟩
    cases h : compile g n root with
    | ok s => exact ⟨s, rfl⟩
    | error e =>
      have := C43_errors hn h
      cases e with
      | cyclic => exact absurd this h1
      | duplicateImport =>
        obtain ⟨p, items, hr, hf, hp⟩ := this
        obtain ⟨items', hf', hp'⟩ := h2 p hr
        rw [hf] at hf'
        simp only [Option.some.injEq] at hf'
        subst hf'
        exact absurd hp' hp
      | missing =>
        obtain ⟨p, hr, hf⟩ := this
        obtain ⟨items', hf', _⟩ := h2 p hr
        rw [hf] at hf'
        cases hf'
      | tooMany =>
        obtain ⟨L, hL, hl, hr⟩ := this
        have := h3 L hL hr
        omega
      | duplicateModule => exact this.elim
      | undefined => exact this.elim
      | fuel => exact this.elim

/-- A diamond: 1 imports 2 and 3, both import 4. -/
def diamond : Files :=
  ⟨fun p => if p = 1 then some [⟨2, 2⟩, ⟨3, 3⟩] else if p = 2 then some [⟨4, 4⟩] else if p = 3 then some [⟨5, 4⟩]
    else if p = 4 then some [] else none, id⟩

example : (compile diamond 1024 1).map (·.order) = .ok [4, 2, 3, 1] := by decide +kernel

/-- A cycle of three modules. -/
def cycle : Files :=
  ⟨fun p => if p = 1 then some [⟨2, 2⟩] else if p = 2 then some [⟨3, 3⟩] else if p = 3 then some [⟨7, 2⟩] else none, id⟩

example : (compile cycle 1024 1).map (·.order) = .error .cyclic := by decide +kernel

/-- An infinite chain of imports. -/
def chain : Files := ⟨fun p => some [⟨p + 1, p + 1⟩], id⟩

example : ∃ e, compile chain 1024 0 = .error e ∧ e ≠ .fuel := by
  cases h : compile chain 1024 0 with
  | error e => exact ⟨e, rfl, fun he => C43_terminates chain 1024 0 (Nat.le_refl _) (by rw [h, he])⟩
  | ok s =>
    have := ((C43_iff chain 1024 0 (Nat.le_refl _)).mp ⟨s, h⟩).2.2 (List.range 1024) List.nodup_range (by
      intro p hp
      clear hp
      clear h
      induction p with
      | zero => exact .refl
      | succ p ih => exact .step ih ⟨_, rfl, p + 1, by simp [chain]⟩)
    rw [List.length_range] at this
    omega

end Umka.Imports.Props
