import Verif.Paths.Lemmas

/-!
# Paths: C40

Module paths are normalised consistently.
-/

namespace Umka.Paths.Props

open Umka.Paths

/-! ## The normal form denotes the same file -/

/-- An absolute path made of ordinary names, `.` and `..` is replaced by the normal form of the name of the file it
denotes; if it climbs above the root, it is rejected.  (`cur` is the current folder, `size` the size of the buffer.) -/
theorem C40_denotes_absolute (p cur : List Char) (size : Nat) (ho : OrdinaryPath p) (hl : p.length + 1 < size) :
    regularize ('/' :: p) cur size = (denotes ('/' :: p)).map spell := by
  have h0 : absolutePath ('/' :: p) cur size = '/' :: p := by
    rw [absolutePath]
    simp only [isAbsolute, show blank '/' = false from rfl, Bool.false_eq_true, if_false, beq_self_eq_true, if_true,
      List.nil_append]
    rw [List.take_of_length_le (by simp only [List.length_cons]; omega)]
  rw [regularize, h0]
  exact regularize_eq ho

/-- A path relative to a folder `/q` is replaced by the normal form of the name of the file denoted by folder and path
together. -/
theorem C40_denotes_relative (p q : List Char) (size : Nat) (ho : OrdinaryPath p) (hq : OrdinaryPath (q ++ p))
    (hl : (q ++ p).length + 1 < size) :
    regularize p ('/' :: q) size = (denotes ('/' :: (q ++ p))).map spell := by
  have h0 : absolutePath p ('/' :: q) size = '/' :: (q ++ p) := by
    rw [absolutePath, ho.relative]
    simp only [Bool.false_eq_true, if_false, List.cons_append]
    rw [List.take_of_length_le (by simp only [List.length_cons]; omega)]
  rw [regularize, h0]
  exact regularize_eq hq

/-- Two ordinary paths that denote the same file get the same text: this is what makes it safe to recognise a module by the text
of its path (`moduleFind`).  Paths of different files get different texts. -/
theorem C40_same_file (p p' cur : List Char) (size : Nat) (ho : OrdinaryPath p) (ho' : OrdinaryPath p')
    (hl : p.length + 1 < size) (hl' : p'.length + 1 < size) :
    regularize ('/' :: p) cur size = regularize ('/' :: p') cur size ↔
      denotes ('/' :: p) = denotes ('/' :: p') := by
  rw [C40_denotes_absolute p cur size ho hl, C40_denotes_absolute p' cur size ho' hl']
  refine ⟨fun h => ?_, fun h => by rw [h]⟩
  have h1 := follow_noSlash (components ('/' :: p)) (components_noSlash _) []
  have h2 := follow_noSlash (components ('/' :: p')) (components_noSlash _) []
  rw [← denotes] at h1 h2
  cases hd : denotes ('/' :: p) with
  | none =>
    rw [hd] at h
    cases hd' : denotes ('/' :: p') with
    | none => rfl
    | some G => rw [hd'] at h; cases h
  | some F =>
    rw [hd] at h
    cases hd' : denotes ('/' :: p') with
    | none => rw [hd'] at h; cases h
    | some G =>
      rw [hd'] at h
      simp only [Option.map_some, Option.some.injEq] at h
      rw [spell_inj F G (h1 F hd (by simp)) (h2 G hd' (by simp)) h]

/-- The path `/lib/./a/../std.um` meets the hypotheses. -/
theorem exampleOrdinary : OrdinaryPath "lib/./a/../std.um".toList := by
  refine ⟨?_, [['l', 'i', 'b'], ['.'], ['a'], ['.', '.']], ['s', 't', 'd', '.', 'u', 'm'], by decide, ?_⟩
  · have : components "lib/./a/../std.um".toList =
        [['l', 'i', 'b'], ['.'], ['a'], ['.', '.'], ['s', 't', 'd', '.', 'u', 'm']] := by decide
    rw [this]
    intro w hw
    simp only [List.mem_cons, List.not_mem_nil, or_false] at hw
    have hin : ∀ (l : List Char), ' ' ∉ l → '\t' ∉ l → ∀ a c b, l = a ++ '.' :: c :: b → ¬ (c = ' ' ∨ c = '\t') := by
      intro l h1 h2 a c b e hc
      subst e
      rcases hc with hc | hc <;> subst hc
      · exact h1 (by simp)
      · exact h2 (by simp)
    rcases hw with e | e | e | e | e <;> subst e
    · exact Or.inl ⟨⟨'l', by simp, by decide⟩, by decide, hin _ (by decide) (by decide)⟩
    · exact Or.inr (Or.inl rfl)
    · exact Or.inl ⟨⟨'a', by simp, by decide⟩, by decide, hin _ (by decide) (by decide)⟩
    · exact Or.inr (Or.inr rfl)
    · exact Or.inl ⟨⟨'s', by simp, by decide⟩, by decide, hin _ (by decide) (by decide)⟩
  · refine ⟨⟨'s', by simp, by decide⟩, by decide, ?_⟩
    intro a c b e hc
    have : c ∈ ['s', 't', 'd', '.', 'u', 'm'] := by rw [e]; simp
    rcases hc with hc | hc <;> subst hc <;> revert this <;> decide

/-- Non-vacuity: the path above is replaced by `/lib/std.um`. -/
example : regularize "/lib/./a/../std.um".toList "/home/".toList 256 = some "/lib/std.um".toList := by decide

/-- Non-vacuity: a relative path, and two that climb above the root. -/
example : regularize "../b.um".toList "/x/y/".toList 256 = some "/x/b.um".toList ∧
    regularize "../../../b.um".toList "/x/y/".toList 256 = none ∧
    regularize "/../b.um".toList "/x/y/".toList 256 = none := by decide

/-- Other paths may be given another meaning: a name that ends in a dot is joined with the next one, `...` is dropped, and a
`..` after a double slash removes the empty component. -/
theorem C40_other_violated :
    (regularize "/foo./bar".toList [] 256 = some "/foobar".toList ∧
      denotes "/foo./bar".toList = some ["foo.".toList, "bar".toList]) ∧
    (regularize "/a/.../b".toList [] 256 = some "/a//b".toList ∧
      denotes "/a/.../b".toList = some ["a".toList, "...".toList, "b".toList]) ∧
    (regularize "/a//../b".toList [] 256 = some "/a/b".toList ∧ denotes "/a//../b".toList = some ["b".toList]) ∧
    (regularize "/d/a../b".toList [] 256 = some "/b".toList ∧
      denotes "/d/a../b".toList = some ["d".toList, "a..".toList, "b".toList]) := by decide

/-- A path that does not fit in the buffer is cut off without an error: the paths of different files get the same text. -/
theorem C40_cut_violated (n : Nat) (cur : List Char) :
    let p := fun c => '/' :: List.replicate (n + 1) 'a' ++ [c]
    regularize (p 'b') cur (n + 3) = regularize (p 'c') cur (n + 3) ∧
    regularize (p 'b') cur (n + 3) = some ('/' :: List.replicate (n + 1) 'a') ∧
    p 'b' ≠ p 'c' := by
  intro p
  have ha : ∀ c, isAbsolute (p c) = true := by
    intro c
    simp [p, isAbsolute, blank]
  have h0 : ∀ c, absolutePath (p c) cur (n + 3) = '/' :: List.replicate (n + 1) 'a' := by
    intro c
    rw [absolutePath, ha c, if_pos rfl, List.nil_append]
    exact List.take_left' (by simp)
  have hsc : ∀ k, scan 0 (List.replicate k 'a') = some 0 := by
    intro k
    induction k with
    | zero => rfl
    | succ k ih =>
      rw [List.replicate_succ, scan, if_neg (by decide), if_neg (by decide), if_pos (by decide)]; exact ih
  have h1 : regularize ('/' :: List.replicate (n + 1) 'a') cur (n + 3) = some ('/' :: List.replicate (n + 1) 'a') := by
    apply regularize_fix
    · simp [isAbsolute, blank]
    · simp
    · rw [scan, if_pos (by decide), if_pos (by decide)]; exact hsc _
  have h2 : absolutePath ('/' :: List.replicate (n + 1) 'a') cur (n + 3) = '/' :: List.replicate (n + 1) 'a' := by
    rw [absolutePath, if_pos (by simp [isAbsolute, blank]), List.nil_append, List.take_of_length_le (by simp)]
  refine ⟨?_, ?_, ?_⟩
  · rw [regularize, regularize, h0, h0]
  · rw [regularize] at h1
    rw [h2] at h1
    rw [regularize, h0]; exact h1
  · simp [p]

/-! ## All paths: idempotence and bounds -/

/-- A normalised path is not changed by normalising it again, whatever the path, the current folder and the size of the
buffer: if the result is absolute, `r` is its own normal form. -/
theorem C40_idempotent (path cur cur' r : List Char) (size : Nat) (h : regularize path cur size = some r)
    (ha : isAbsolute r = true) (hsize : 0 < size) : regularize r cur' size = some r := by
  rw [regularize] at h
  cases hr : run ⟨[], [], 0⟩ (absolutePath path cur size) with
  | none => rw [hr] at h; cases h
  | some s =>
    rw [hr] at h
    dsimp only at h
    split at h
    · cases h
    · simp only [Option.some.injEq] at h
      subst h
      obtain ⟨h1, h2, _⟩ := inv_run _ inv_init hr
      refine regularize_fix ha ?_ h1.clean
      have : (absolutePath path cur size).length ≤ size - 1 := by rw [absolutePath, List.length_take]; omega
      simp only [List.length_nil] at h2
      omega

/-- The result is absolute whenever the current folder is an absolute path and the text fits in the buffer. -/
theorem C40_absolute (path cur r : List Char) (size : Nat) (hc : isAbsolute cur = true)
    (hl : (cur ++ path).length < size) (h : regularize path cur size = some r) : isAbsolute r = true := by
  have hl' : cur.length + path.length < size := by simpa using hl
  have ha : isAbsolute (absolutePath path cur size) = true := by
    rw [absolutePath]
    by_cases hp : isAbsolute path = true
    · rw [if_pos hp, List.nil_append, List.take_of_length_le (by omega)]; exact hp
    · rw [if_neg hp, List.take_of_length_le (by simp; omega)]
      obtain ⟨b, q, h1, h2⟩ := absolute_split hc
      rw [h2, List.append_assoc, List.cons_append]
      exact isAbsolute_blanks h1
  rw [regularize] at h
  cases hr : run ⟨[], [], 0⟩ (absolutePath path cur size) with
  | none => rw [hr] at h; cases h
  | some s =>
    rw [hr] at h
    dsimp only at h
    split at h
    · cases h
    · simp only [Option.some.injEq] at h
      subst h
      exact absolute_result ha hr

/-- Non-vacuity: even the paths that lose their meaning are normalised once and for all. -/
example : regularize " /a\\..\\b/. c".toList "/home/".toList 256 = some " /b/ c".toList ∧
    regularize " /b/ c".toList "/home/".toList 256 = some " /b/ c".toList ∧ isAbsolute " /b/ c".toList = true := by decide

/-- The buffers are large enough: at any point of the loop (after any part `a` of the text) both the text written so far (with
the dots that are still to be written) and the list of separators have less than `size` entries. -/
theorem C40_fits (path cur a b : List Char) (size : Nat) (s : St) (hsize : 0 < size)
    (htext : absolutePath path cur size = a ++ b) (h : run ⟨[], [], 0⟩ a = some s) :
    s.out.length + s.dots < size ∧ s.seps.length < size := by
  have hle : (absolutePath path cur size).length ≤ size - 1 := by rw [absolutePath, List.length_take]; omega
  obtain ⟨_, h1, h2⟩ := inv_run _ inv_init h
  rw [htext, List.length_append] at hle
  simp only [List.length_nil] at h1 h2
  omega

/-- Non-vacuity: nothing but slashes. -/
example : run ⟨[], [], 0⟩ (absolutePath "////".toList [] 4) = some ⟨"///".toList, [0, 1, 2], 0⟩ := by decide

/-! ## The name of a module -/

/-- An accepted path consists of the folder, the name and the extension: the folder ends after the last slash, the name has no
slash and no extension. -/
theorem C40_name (path folder name : List Char) (size : Nat) (hl : path.length < size)
    (h : nameFromPath path size = some (folder, name)) :
    ∃ ext, path = folder ++ name ++ ext ∧ name ≠ [] ∧
      (folder = [] ∨ ∃ f s, folder = f ++ [s] ∧ (s = '/' ∨ s = '\\')) ∧
      (∀ c ∈ name ++ ext, ¬ (c = '/' ∨ c = '\\')) ∧
      ((ext = [] ∧ ∀ c ∈ path, c ≠ '.') ∨ ∃ e, ext = '.' :: e ∧ ∀ c ∈ e, c ≠ '.') := by
  have hs := afterLast_spec slash path
  have hd := afterLast_spec (· == '.') path
  have hsl := afterLast_le slash path
  have hdl := afterLast_le (· == '.') path
  unfold nameFromPath at h
  simp (config := { zeta := true, beta := false, failIfUnchanged := false }) only [] at h
  generalize afterLast slash path = start at *
  generalize afterLast (· == '.') path = dot at *
  generalize hstop : (if dot > 0 then dot - 1 else path.length) = stop at *
  have hstople : stop ≤ path.length := by rw [← hstop]; split <;> omega
  by_cases hlt : stop ≤ start
  · rw [if_pos hlt] at h; cases h
  · rw [if_neg hlt] at h
    simp only [Option.some.injEq, Prod.mk.injEq] at h
    obtain ⟨h1, h2⟩ := h
    rw [List.take_of_length_le (by rw [List.length_take]; omega)] at h1
    rw [List.take_of_length_le (by rw [List.length_take, List.length_drop]; omega)] at h2
    refine ⟨path.drop stop, ?_, ?_, ?_, ?_, ?_⟩
    · rw [← h1, ← h2, List.append_assoc]
      have e : (path.drop start).take (stop - start) ++ path.drop stop = path.drop start := by
        have := List.take_append_drop (stop - start) (path.drop start)
        rw [List.drop_drop, show start + (stop - start) = stop by omega] at this
        exact this
      rw [e, List.take_append_drop]
    · rw [← h2]
      intro e
      have := congrArg List.length e
      rw [List.length_take, List.length_drop] at this
      simp at this
      omega
    · by_cases h0 : start = 0
      · left; rw [← h1, h0]; rfl
      · right
        obtain ⟨c, hc, hp⟩ := hs.2 (by omega)
        refine ⟨path.take (start - 1), c, ?_, slash_iff.mp hp⟩
        rw [← h1, show start = (start - 1) + 1 by omega, List.take_add_one, Nat.add_sub_cancel, hc]; rfl
    · intro c hc hsl
      have e : (path.drop start).take (stop - start) ++ path.drop stop = path.drop start := by
        have := List.take_append_drop (stop - start) (path.drop start)
        rw [List.drop_drop, show start + (stop - start) = stop by omega] at this
        exact this
      rw [← h2, e] at hc
      have := hs.1 c hc
      rw [slash_iff.mpr hsl] at this
      cases this
    · by_cases h0 : dot > 0
      · right
        rw [if_pos h0] at hstop
        obtain ⟨c, hc, hp⟩ := hd.2 h0
        refine ⟨path.drop dot, ?_, ?_⟩
        · have hlt' : dot - 1 < path.length := by omega
          rw [← hstop, List.drop_eq_getElem_cons hlt', show dot - 1 + 1 = dot by omega]
          rw [List.getElem?_eq_getElem hlt', Option.some.injEq] at hc
          rw [hc]
          have : c = '.' := by simpa using hp
          rw [this]
        · intro x hx e
          have := hd.1 x hx
          simp [e] at this
      · left
        rw [if_neg h0] at hstop
        have h0 : dot = 0 := by omega
        refine ⟨by rw [← hstop, List.drop_length], ?_⟩
        intro x hx e
        have := hd.1 x (by rw [h0, List.drop_zero]; exact hx)
        simp [e] at this

/-- Non-vacuity: a path in a folder. -/
example : nameFromPath "/lib/std.um".toList 256 = some ("/lib/".toList, "std".toList) := by decide

/-- The folder and the name of a path of any length fit into their buffers, with the zero at the end. -/
theorem C40_name_fits (path folder name : List Char) (size : Nat) (hs : 0 < size) (h : nameFromPath path size = some (folder, name)) :
    folder.length < size ∧ name.length < size := by
  unfold nameFromPath at h
  simp only at h
  generalize (if afterLast (· == '.') path > 0 then afterLast (· == '.') path - 1 else path.length) = stop at h
  split at h
  · cases h
  · cases h
    simp only [List.length_take, List.length_drop]
    omega

example : nameFromPath "abcdef/ghij.um".toList 4 = some ("abc".toList, "ghi".toList) := by decide

end Umka.Paths.Props
