import Verif.Static.Program
import Verif.Static.Run
/-!
# Static storage: what stays when programs run
-/

namespace Umka.Static
open Spec

mutual

theorem Rep.fixed {P P' Q : Nat → Prop} {mem : Mem} : ∀ {ty : Ty} {ws : List Word} {v : Val}, Fixed ty → Rep P Q mem ty ws v → Rep P' Q mem ty ws v
  | .int _, _, _, _, h => h
  | .char, _, _, _, h => h
  | .str, _, _, _, h => h
  | .array _ _, _, _, hf, h => by
    obtain ⟨vs, hv, hl, hw, h⟩ := h
    exact ⟨vs, hv, hl, hw, fun i x hi => Rep.fixed hf (h i x hi)⟩
  | .dyn _, _, _, hf, _ => hf.elim
  | .struct fs, _, _, hf, h => by
    obtain ⟨vs, hv, hl, h⟩ := h
    exact ⟨vs, hv, hl, RepFields.fixed hf h⟩

theorem RepFields.fixed {P P' Q : Nat → Prop} {mem : Mem} : ∀ {fs : Fields} {ws : List Word} {off : Nat} {vs : List Val}, FixedFields fs →
    RepFields P Q mem fs ws off vs → RepFields P' Q mem fs ws off vs
  | .nil, _, _, _, _, h => h
  | .cons _ _ _, _, _, _, hf, h => by
    obtain ⟨x, xs, hv, h1, h2⟩ := h
    exact ⟨x, xs, hv, Rep.fixed hf.1 h1, RepFields.fixed hf.2 h2⟩

end

mutual

theorem Rep.texts {P Q : Nat → Prop} {mem : Mem} : ∀ {ty : Ty} {ws : List Word} {v : Val}, Rep P Q mem ty ws v →
    Rep P (fun i => ∃ s, mem[i]? = some (textBlock s)) mem ty ws v
  | .int _, _, _, h => h
  | .char, _, _, h => h
  | .str, _, _, h => by
    obtain ⟨s, hv, hc, h | ⟨b, hw, hb, hm⟩⟩ := h
    · exact ⟨s, hv, hc, .inl h⟩
    · exact ⟨s, hv, hc, .inr ⟨b, hw, ⟨_, hm⟩, hm⟩⟩
  | .array _ base, _, _, h => by
    obtain ⟨vs, hv, hl, hw, h⟩ := h
    exact ⟨vs, hv, hl, hw, fun i x hi => Rep.texts (h i x hi)⟩
  | .dyn base, _, _, h => by
    obtain ⟨vs, hv, h | ⟨b, blk, hw, hb, hm, h1, h2, h3, h4, h⟩⟩ := h
    · exact ⟨vs, hv, .inl h⟩
    · exact ⟨vs, hv, .inr ⟨b, blk, hw, hb, hm, h1, h2, h3, h4, fun i x hi => Rep.texts (h i x hi)⟩⟩
  | .struct fs, _, _, h => by
    obtain ⟨vs, hv, hl, h⟩ := h
    exact ⟨vs, hv, hl, RepFields.texts h⟩

theorem RepFields.texts {P Q : Nat → Prop} {mem : Mem} : ∀ {fs : Fields} {ws : List Word} {off : Nat} {vs : List Val}, RepFields P Q mem fs ws off vs →
    RepFields P (fun i => ∃ s, mem[i]? = some (textBlock s)) mem fs ws off vs
  | .nil, _, _, _, h => h
  | .cons _ _ _, _, _, _, h => by
    obtain ⟨x, xs, hv, h1, h2⟩ := h
    exact ⟨x, xs, hv, Rep.texts h1, RepFields.texts h2⟩

end

/-- Blocks with the contents of constant strings, and blocks that the program has no access to. -/
structure Frozen (F : Nat → Prop) (mem₀ : Mem) : Prop where
  block : ∀ i, F i → ∃ blk, mem₀[i]? = some blk ∧ (blk.use = .plain ∨ ∃ s, blk = textBlock s)

/-- They stay what they were, and cannot be reached. -/
structure Stays (F : Nat → Prop) (mem₀ mem : Mem) : Prop where
  same : ∀ i, F i → mem[i]? = mem₀[i]?

variable {F : Nat → Prop} {mem₀ : Mem}

theorem Stays.fresh (hf : Frozen F mem₀) {mem : Mem} (h : Stays F mem₀ mem) : ¬ F mem.length := by
  intro hF
  obtain ⟨blk, hb, _⟩ := hf.block _ hF
  rw [← h.same _ hF] at hb
  exact Nat.lt_irrefl _ (getElem?_lt hb)

theorem Stays.poke {mem : Mem} (h : Stays F mem₀ mem) {b off : Nat} {ws : List Word} (hb : ¬ F b) : Stays F mem₀ (poke mem b off ws) :=
  ⟨fun i hi => by rw [poke_get, if_neg (by rintro rfl; exact hb hi), h.same i hi]⟩

theorem Stays.push (hf : Frozen F mem₀) {mem : Mem} (h : Stays F mem₀ mem) (blk : Block) : Stays F mem₀ (mem ++ [blk]) :=
  ⟨fun i hi => by
    obtain ⟨b, hb, _⟩ := hf.block _ hi
    rw [← h.same _ hi] at hb
    rw [List.getElem?_append_left (getElem?_lt hb), h.same i hi]⟩

theorem Stays.items (hf : Frozen F mem₀) {mem : Mem} (h : Stays F mem₀ mem) {d : Nat} {blk : Block} (hd : mem[d]? = some blk) (hu : blk.use = .items) : ¬ F d := by
  intro hF
  obtain ⟨b, hb, h1⟩ := hf.block _ hF
  rw [← h.same _ hF, hd] at hb
  cases hb
  rcases h1 with h1 | ⟨s, rfl⟩
  · rw [h1] at hu; cases hu
  · cases hu

theorem Stays.extend {mem : Mem} (h : Stays F mem₀ mem) {d len off : Nat} {blk : Block} {ws : List Word} (hd : ¬ F d) : Stays F mem₀ (extend mem d blk len off ws) :=
  ⟨fun i hi => by rw [Static.extend, List.getElem?_set_ne (by rintro rfl; exact hd hi), h.same i hi]⟩

/-- Appending nothing to a constant string. -/
theorem Stays.text (hf : Frozen F mem₀) {mem : Mem} (h : Stays F mem₀ mem) {d n : Nat} {blk : Block} {ws : List Word} (hd : mem[d]? = some blk) (hu : blk.use = .text)
    (hc : blk.len + n + 1 ≤ blk.cap) (hn : n = 0 → ws = []) : Stays F mem₀ (Static.extend mem d blk (blk.len + n) blk.len (ws ++ [.int 0])) := by
  refine ⟨fun i hi => ?_⟩
  by_cases hdi : d = i
  · subst hdi
    obtain ⟨b, hb, h1⟩ := hf.block _ hi
    have hb' := hb
    rw [← h.same _ hi, hd] at hb
    cases hb
    rcases h1 with h1 | ⟨s, rfl⟩
    · rw [h1] at hu; cases hu
    · have h0 : n = 0 := by
        simp only [textBlock] at hc
        omega
      subst h0
      rw [hn rfl, hb', Static.extend, List.getElem?_set_self (getElem?_lt hd)]
      simp only [textBlock, Nat.add_zero, List.nil_append, splice, Option.some.injEq, Block.mk.injEq, true_and]
      rw [List.take_left' (by simp), List.drop_eq_nil_of_le (by simp), List.append_nil]
  · rw [Static.extend, List.getElem?_set_ne hdi, h.same i hi]

theorem dataOf_some {mem : Mem} {b off d : Nat} {blk : Block} (h : dataOf mem b off = some (some (d, blk))) : mem[d]? = some blk ∧ blk.use = .items := by
  rw [dataOf.eq_def] at h
  split at h
  · split at h
    · split at h
      · cases h
        exact ⟨by assumption, by assumption⟩
      · cases h
    · cases h
  · cases h
  · cases h

theorem strOf_some {mem : Mem} {b off d : Nat} {blk : Block} (h : strOf mem b off = some (some (d, blk))) : mem[d]? = some blk ∧ blk.use = .text := by
  rw [strOf.eq_def] at h
  split at h
  · split at h
    · split at h
      · cases h
        exact ⟨by assumption, by assumption⟩
      · cases h
    · cases h
  · cases h
  · cases h

/-- What holds while a program runs. -/
structure Runs (F : Nat → Prop) (mem₀ : Mem) (m : Machine) : Prop where
  stays : Stays F mem₀ m.mem
  places : ∀ p ∈ m.places, ¬ F p.2.1

theorem Runs.at {m : Machine} (h : Runs F mem₀ m) {x : Nat} {ty : Ty} {b off : Nat} (hx : m.places[x]? = some (ty, b, off)) : ¬ F b :=
  h.places _ (List.mem_of_getElem? hx)

theorem Runs.add {m : Machine} (h : Runs F mem₀ m) {mem : Mem} (hs : Stays F mem₀ mem) {p : Ty × Nat × Nat} (hp : ¬ F p.2.1) : Runs F mem₀ ⟨mem, m.places ++ [p]⟩ :=
  ⟨hs, fun q hq => by
    rcases List.mem_append.mp hq with hq | hq
    · exact h.places q hq
    · cases List.mem_singleton.mp hq
      exact hp⟩

theorem concat_runs (hf : Frozen F mem₀) {m : Machine} (h : Runs F mem₀ m) {b off : Nat} (hb : ¬ F b) {l : Option (Nat × Block)} (hl : strOf m.mem b off = some l)
    {n : Nat} {ws : List Word} (hn : n = 0 → ws = []) : Runs F mem₀ (concatTo m b off l n ws) := by
  rw [concatTo.eq_def]
  split
  · obtain ⟨h1, h2⟩ := strOf_some hl
    split
    · rename_i hc
      exact ⟨h.stays.text hf h1 h2 hc hn, h.places⟩
    · exact ⟨(h.stays.push hf _).poke hb, h.places⟩
  · split
    · exact h
    · exact ⟨(h.stays.push hf _).poke hb, h.places⟩

theorem step_runs (hf : Frozen F mem₀) {defaults : List (Ty × Word)} {m m' : Machine} (o : Op) (h : Runs F mem₀ m) (hs : step defaults m o = some m') : Runs F mem₀ m' := by
  cases o with
  | call i =>
    simp only [step] at hs
    split at hs
    · cases hs
      exact h.add (h.stays.push hf _) (h.stays.fresh hf)
    · cases hs
  | new ty =>
    simp only [step] at hs
    cases hs
    exact h.add (h.stays.push hf _) (h.stays.fresh hf)
  | select x k =>
    simp only [step] at hs
    split at hs
    · split at hs
      · cases hs
        exact h.add h.stays (h.at (by assumption))
      · cases hs
    · rename_i hx
      obtain ⟨p, _, rfl⟩ := Option.map_eq_some_iff.mp hs
      exact h.add h.stays (h.at hx)
    · split at hs
      · rename_i hd
        obtain ⟨h1, h2⟩ := dataOf_some hd
        split at hs
        · cases hs
          exact h.add h.stays (h.stays.items hf h1 h2)
        · cases hs
      · cases hs
    · cases hs
  | copy x y =>
    simp only [step] at hs
    split at hs
    · rename_i hy
      split at hs
      · cases hs
        exact ⟨h.stays.poke (h.at hy), h.places⟩
      · cases hs
    · cases hs
  | num y v =>
    simp only [step] at hs
    split at hs
    · rename_i hy
      split at hs
      · cases hs
        exact ⟨h.stays.poke (h.at hy), h.places⟩
      · cases hs
    · rename_i hy
      split at hs
      · cases hs
        exact ⟨h.stays.poke (h.at hy), h.places⟩
      · cases hs
    · cases hs
  | text y s =>
    simp only [step] at hs
    split at hs
    · rename_i hy
      cases hs
      exact ⟨(h.stays.push hf _).poke (h.at hy), h.places⟩
    · cases hs
  | concat y x =>
    simp only [step] at hs
    split at hs
    · rename_i hy hx
      split at hs
      · rename_i l r hl hr
        cases hs
        exact concat_runs hf h (h.at hy) hl (by cases r <;> simp +contextual [strLen, strWords])
      · cases hs
    · cases hs
  | append x z y =>
    simp only [step] at hs
    split at hs
    · rename_i hx hz hy
      split at hs
      · split at hs
        · rename_i hd
          obtain ⟨h1, h2⟩ := dataOf_some hd
          split at hs
          · cases hs
            exact ⟨(h.stays.extend (h.stays.items hf h1 h2)).poke (h.at hy), h.places⟩
          · cases hs
            exact ⟨(h.stays.push hf _).poke (h.at hy), h.places⟩
        · cases hs
          exact ⟨(h.stays.push hf _).poke (h.at hy), h.places⟩
        · cases hs
      · cases hs
    · cases hs
  | delete x k y =>
    simp only [step] at hs
    split at hs
    · rename_i hx hy
      split at hs
      · split at hs
        · rename_i hd
          obtain ⟨h1, h2⟩ := dataOf_some hd
          split at hs
          · cases hs
            exact ⟨(h.stays.extend (h.stays.items hf h1 h2)).poke (h.at hy), h.places⟩
          · cases hs
        · cases hs
      · cases hs
    · cases hs

theorem run_runs (hf : Frozen F mem₀) {defaults : List (Ty × Word)} : ∀ (os : List Op) {m m' : Machine}, Runs F mem₀ m → run defaults os m = some m' → Runs F mem₀ m'
  | [], m, m', h, hs => by
    cases hs
    exact h
  | o :: os, m, m', h, hs => by
    rw [run] at hs
    cases h1 : step defaults m o with
    | none => rw [h1] at hs; cases hs
    | some m₁ =>
      rw [h1] at hs
      exact run_runs hf os (step_runs hf o h h1) hs

end Umka.Static
