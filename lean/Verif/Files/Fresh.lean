import Verif.Files.Hist
/-!
# Files: new files

An invariant of all states a program can reach: the numbers of files in use, by name or by an open stream, are below the next one.
-/

namespace Umka.Files.Spec

/-- No file appears: no name and no stream refers to a file it did not refer to before. -/
def Keep (w w' : World) : Prop :=
  w'.files = w.files ∧ (∀ n i, w'.dir n = some i → w.dir n = some i) ∧
  ∀ s st', w'.stream s = some st' → ∃ st, w.stream s = some st ∧ st.file = st'.file

theorem Keep.refl (w : World) : Keep w w := ⟨rfl, fun _ _ h => h, fun _ st h => ⟨st, h, rfl⟩⟩

theorem Keep.trans {a b c : World} (h : Keep a b) (h' : Keep b c) : Keep a c := by
  refine ⟨h'.1.trans h.1, fun n i e => h.2.1 n i (h'.2.1 n i e), fun s st e => ?_⟩
  obtain ⟨st1, e1, f1⟩ := h'.2.2 s st e
  obtain ⟨st2, e2, f2⟩ := h.2.2 s st1 e1
  exact ⟨st2, e2, f2.trans f1⟩

/-- Every result leaves the files as in `Keep`. -/
def Keeps {α : Type} (w : World) (r : Res α) : Prop := ∀ a w', r = .ok a w' → Keep w w'

theorem Keeps.ok {α : Type} {w w' : World} (a : α) (h : Keep w w') : Keeps w (.ok a w' : Res α) := fun _ _ e => by cases e; exact h
theorem Keeps.ub {α : Type} {w : World} : Keeps w (.ub : Res α) := fun _ _ e => nomatch e
theorem Keeps.panic {α : Type} {w : World} : Keeps w (.panic : Res α) := fun _ _ e => nomatch e

theorem Keeps.bind {α β : Type} {w : World} {r : Res α} {k : α → World → Res β} (h : Keeps w r)
    (hk : ∀ a w', Keeps w' (k a w')) : Keeps w (r.bind k) := by
  cases r with
  | ub => exact Keeps.ub
  | panic => exact Keeps.panic
  | ok a w' => exact fun b w'' e => (h a w' rfl).trans (hk a w' b w'' e)

/-- The state of a stream changes, not its file. -/
theorem keep_set {w w' : World} {s : Nat} {st st' : Stream} (hs : w.stream s = some st) (h1 : w'.files = w.files) (h2 : w'.dir = w.dir)
    (h3 : w'.stream = set w.stream s (some st')) (h4 : st'.file = st.file) : Keep w w' := by
  refine ⟨h1, fun _ _ h => h2 ▸ h, fun t st1 h => ?_⟩
  rw [h3] at h
  by_cases e : t = s
  · subst e
    rw [set_same] at h
    cases h
    exact ⟨st, hs, h4.symm⟩
  · rw [set_ne _ _ e] at h
    exact ⟨st1, h, rfl⟩

/-- A stream is closed, or nothing changes but handles and variables. -/
theorem keep_less {w w' : World} (h1 : w'.files = w.files) (h2 : w'.dir = w.dir) (h3 : ∀ s st, w'.stream s = some st → w.stream s = some st) :
    Keep w w' := ⟨h1, fun _ _ h => h2 ▸ h, fun s st h => ⟨st, h3 s st h, rfl⟩⟩

theorem keeps_withStream {α : Type} {w : World} (f : File) (d : α) (call : Nat → World → Res α) (hc : ∀ s, Keeps w (call s w)) :
    Keeps w (withStream f d call w) := by
  rw [withStream.eq_def]
  split
  · exact Keeps.ok _ (Keep.refl _)
  · split
    · exact Keeps.ok _ (Keep.refl _)
    · exact hc _

theorem keeps_cfclose (s : Nat) (w : World) : Keeps w (cfclose s w) := by
  rw [cfclose]
  split
  · exact Keeps.ub
  · refine Keeps.ok _ (keep_less rfl rfl fun t st h => ?_)
    dsimp only at h
    by_cases e : t = s
    · subst e
      rw [set_same] at h
      cases h
    · rwa [set_ne _ _ e] at h

theorem keeps_fclose (f : File) (w : World) : Keeps w (fclose f w) := by
  rw [fclose]
  split
  · exact Keeps.ok _ (Keep.refl _)
  · refine Keeps.bind (keeps_withStream _ _ _ fun s => Keeps.bind (keeps_cfclose s w) fun r w' => Keeps.ok _ ?_) fun _ _ => Keeps.ok _ (Keep.refl _)
    split
    · exact keep_less rfl rfl fun _ _ h => h
    · exact Keep.refl _

theorem keeps_free (o : Nat) (w : World) : Keeps w (rtlOnFreeFile o w) :=
  keeps_withStream _ _ _ fun s => Keeps.bind (keeps_cfclose s w) fun _ _ => Keeps.ok _ (keep_less rfl rfl fun _ _ h => h)

theorem keeps_fseek (f : File) (offset : Int) (origin : Origin) (w : World) : Keeps w (fseek f offset origin w) := by
  rw [fseek]
  split
  · exact Keeps.ok _ (Keep.refl _)
  · refine Keeps.bind (keeps_withStream _ _ _ fun s => ?_) fun _ _ => Keeps.ok _ (Keep.refl _)
    rw [cfseek]
    split
    · exact Keeps.ub
    · rename_i st hs
      dsimp only
      cases origin <;> dsimp only <;> split <;> first | exact Keeps.ok _ (Keep.refl _) | exact Keeps.ok _ (keep_set hs rfl rfl rfl rfl)

theorem keeps_ftell (f : File) (w : World) : Keeps w (ftell f w) := by
  rw [ftell]
  split
  · exact Keeps.ok _ (Keep.refl _)
  · refine Keeps.bind (keeps_withStream _ _ _ fun s => ?_) fun _ _ => Keeps.ok _ (Keep.refl _)
    rw [cftell]
    split
    · exact Keeps.ub
    · exact Keeps.ok _ (Keep.refl _)

theorem keeps_feof (f : File) (w : World) : Keeps w (feof f w) := by
  rw [feof]
  split
  · exact Keeps.ok _ (Keep.refl _)
  · refine Keeps.bind (keeps_withStream _ _ _ fun s => ?_) fun _ _ => Keeps.ok _ (Keep.refl _)
    rw [cfeof]
    split
    · exact Keeps.ub
    · exact Keeps.ok _ (Keep.refl _)

theorem keeps_fflush (f : File) (w : World) : Keeps w (fflush f w) := by
  rw [fflush]
  split
  · exact Keeps.ok _ (Keep.refl _)
  · refine Keeps.bind (keeps_withStream _ _ _ fun s => ?_) fun _ _ => Keeps.ok _ (Keep.refl _)
    rw [cfflush]
    split
    · exact Keeps.ub
    · rename_i st hs
      exact Keeps.ok _ (keep_set hs rfl rfl rfl rfl)

theorem keeps_remove (S : Sys) (name : Option Name) (w : World) : Keeps w (remove S name w) := by
  rw [remove]
  refine Keeps.bind ?_ fun _ _ => Keeps.ok _ (Keep.refl _)
  rw [rtlremove, cremove.eq_def]
  split
  · exact Keeps.ub
  · split
    · exact Keeps.ok _ (Keep.refl _)
    · split
      · exact Keeps.ok _ (Keep.refl _)
      · refine Keeps.ok _ ⟨rfl, fun n i h => ?_, fun _ st h => ⟨st, h, rfl⟩⟩
        dsimp only at h
        split at h
        · cases h
        · exact h

theorem keeps_freadwrite (S : Sys) (f : File) (buf : Option Buf) (reading : Bool) (w : World) : Keeps w (freadwrite S f buf reading w) := by
  rw [freadwrite]
  split
  · exact Keeps.ok _ (Keep.refl _)
  split
  · exact Keeps.panic
  · exact Keeps.ok _ (Keep.refl _)
  split
  · exact Keeps.ok _ (Keep.refl _)
  split
  · exact Keeps.ok _ (Keep.refl _)
  split
  · refine Keeps.bind (keeps_withStream _ _ _ fun s => ?_) fun _ _ => Keeps.ok _ (keep_less rfl rfl fun _ _ h => h)
    rw [cfread]
    split
    · exact Keeps.ub
    · rename_i st hs
      split
      · exact Keeps.ok _ (Keep.refl _)
      · split
        · exact Keeps.ub
        · exact Keeps.ok _ (keep_set hs rfl rfl rfl rfl)
  · refine Keeps.bind (keeps_withStream _ _ _ fun s => ?_) fun _ _ => Keeps.ok _ (Keep.refl _)
    rw [cfwrite]
    split
    · exact Keeps.ub
    · rename_i st hs
      split
      · exact Keeps.ok _ (Keep.refl _)
      · split
        · exact Keeps.ub
        · exact Keeps.ok _ (keep_set hs rfl rfl rfl rfl)

theorem keeps_freadall (S : Sys) (f : File) (w : World) : Keeps w (freadall S f w) := by
  rw [freadall]
  refine Keeps.bind (keeps_fseek _ _ _ _) fun _ _ => ?_
  split
  · exact Keeps.ok _ (Keep.refl _)
  refine Keeps.bind (keeps_ftell _ _) fun _ _ => ?_
  split
  · exact Keeps.ok _ (Keep.refl _)
  split
  · exact Keeps.ok _ (Keep.refl _)
  refine Keeps.bind (keeps_fseek _ _ _ _) fun _ w1 => ?_
  split
  · exact Keeps.ok _ (Keep.refl _)
  refine Keeps.bind (fun a w2 e => Keep.trans (?_ : Keep w1 _) (keeps_freadwrite _ _ _ _ _ a w2 e)) fun _ _ => Keeps.ok _ (Keep.refl _)
  exact keep_less rfl rfl fun _ _ h => h

/-- Every operation but `fopen`. -/
theorem keeps_exec (S : Sys) (live : List Nat) (op : Op) (w : World) (hop : ∀ name mode, op ≠ .fopen name mode) : Keeps w (exec S live op w) := by
  cases op with
  | fopen name mode => exact absurd rfl (hop name mode)
  | fclose f => exact Keeps.bind (keeps_fclose _ _) fun _ _ => Keeps.ok _ (Keep.refl _)
  | fseek f offset origin => exact Keeps.bind (keeps_fseek _ _ _ _) fun _ _ => Keeps.ok _ (Keep.refl _)
  | ftell f => exact Keeps.bind (keeps_ftell _ _) fun _ _ => Keeps.ok _ (Keep.refl _)
  | remove name => exact Keeps.bind (keeps_remove _ _ _) fun _ _ => Keeps.ok _ (Keep.refl _)
  | feof f => exact Keeps.bind (keeps_feof _ _) fun _ _ => Keeps.ok _ (Keep.refl _)
  | fflush f => exact Keeps.bind (keeps_fflush _ _) fun _ _ => Keeps.ok _ (Keep.refl _)
  | fread f buf => exact Keeps.bind (keeps_freadwrite _ _ _ _ _) fun _ _ => Keeps.ok _ (Keep.refl _)
  | fwrite f buf => exact Keeps.bind (keeps_freadwrite _ _ _ _ _) fun _ _ => Keeps.ok _ (Keep.refl _)
  | freadall f => exact Keeps.bind (keeps_freadall _ _ _) fun _ _ => Keeps.ok _ (Keep.refl _)
  | std k => exact Keeps.bind (Keeps.ok _ (keep_less rfl rfl fun _ _ h => h)) fun _ _ => Keeps.ok _ (Keep.refl _)
  | free o => exact Keeps.bind (keeps_free _ _) fun _ _ => Keeps.ok _ (Keep.refl _)
  | assign v bytes => exact Keeps.ok _ (keep_less rfl rfl fun _ _ h => h)

/-- The invariant. -/
def Below (w : World) : Prop := (∀ n i, w.dir n = some i → i < w.files) ∧ ∀ s st, w.stream s = some st → st.file < w.files

theorem Below.keep {w w' : World} (h : Below w) (k : Keep w w') : Below w' := by
  refine ⟨fun n i e => k.1 ▸ h.1 n i (k.2.1 n i e), fun s st e => ?_⟩
  obtain ⟨st', e', f'⟩ := k.2.2 s st e
  rw [k.1, ← f']
  exact h.2 s st' e'

theorem below_stream {w w' : World} {s : Nat} {st : Stream} (h : Below w) (h1 : w'.files = w.files) (h2 : w'.dir = w.dir)
    (h3 : w'.stream = set w.stream s (some st)) (h4 : st.file < w.files) : Below w' := by
  refine ⟨fun n i e => ?_, fun t st1 e => ?_⟩
  · rw [h1]; exact h.1 n i (h2 ▸ e)
  · rw [h3] at e
    rw [h1]
    by_cases ht : t = s
    · subst ht
      rw [set_same] at e
      cases e
      exact h4
    · rw [set_ne _ _ ht] at e
      exact h.2 t st1 e

theorem below_fopen {S : Sys} {w w' : World} {name : Option Name} {mode : List Char} {r : File × StdErr} (h : Below w)
    (e : fopen S name mode w = .ok r w') : Below w' := by
  rw [fopen] at e
  split at e
  rotate_left
  · cases e; exact h
  rw [rtlfopen, cfopen.eq_def] at e
  split at e
  · cases e
  rename_i n
  split at e
  · cases e
  split at e
  · cases e; exact h
  split at e
  · rename_i i hi
    by_cases hw : mode.head? = some 'w'
    · rw [if_pos hw] at e
      cases e
      exact below_stream h rfl rfl rfl (h.1 _ _ hi)
    · rw [if_neg hw] at e
      cases e
      exact below_stream h rfl rfl rfl (h.1 _ _ hi)
  · split at e
    · cases e; exact h
    · cases e
      refine ⟨fun m i e => ?_, fun t st1 e => ?_⟩
      · dsimp only at e ⊢
        split at e
        · cases e; omega
        · have := h.1 m i e
          omega
      · dsimp only at e ⊢
        by_cases ht : t = w.streams
        · subst ht
          rw [set_same] at e
          cases e
          exact Nat.lt_succ_self _
        · rw [set_ne _ _ ht] at e
          have := h.2 t st1 e
          omega

theorem reach_below {S : Sys} {w : World} {live : List Nat} (hr : Reach S w live) : Below w := by
  induction hr with
  | start h => exact ⟨h.dir, h.onFiles⟩
  | @step w live op w' live' hr hl he ih =>
    by_cases hop : ∃ name mode, op = .fopen name mode
    · obtain ⟨name, mode, rfl⟩ := hop
      rw [exec] at he
      cases hf : Files.fopen S name mode w with
      | ub => rw [hf] at he; cases he
      | panic => rw [hf] at he; cases he
      | ok r w1 =>
        rw [hf] at he
        cases he
        exact below_fopen ih hf
    · exact ih.keep (keeps_exec S live op w (fun name mode e => hop ⟨name, mode, e⟩) _ _ he)

end Umka.Files.Spec
