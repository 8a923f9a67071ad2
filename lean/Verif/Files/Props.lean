import Verif.Files.Pieces
import Verif.Files.Hist
import Verif.Files.Fresh
/-!
# Files: properties

* C91: files hold what has been written to them.
* C92: file handles are closed once, and their misuse is reported.
* C93: `tobytes` and `frombytes` copy values exactly.
-/

namespace Umka.Files.Props
open Umka.Files.Spec

/-! ## A concrete state -/

/-- A system that allows everything. -/
def sys : Sys := ⟨fun _ => false, 1000, true⟩

/-- The file `data` holds five bytes; the standard streams are on the files 1, 2 and 3. -/
def world0 : World :=
  { dir := fun n => if n = "data".toList then some 0 else none
    file := fun i => if i = 0 then [1, 2, 3, 4, 5] else []
    files := 4
    stream := fun s => if s < 3 then some ⟨s + 1, 0, false, .none, s == 0, s != 0, false⟩ else none
    streams := 3
    obj := fun _ => none
    objs := 3
    var := fun v => if v = 0 then [7, 8] else if v = 1 then [0, 0, 0] else []
    vars := 2 }

theorem start0 : Start world0 := by
  refine ⟨fun n i h => ?_, rfl, fun s hs => ⟨_, if_pos hs⟩, fun s hs => if_neg (by omega), fun s st h => ?_, fun _ => rfl, rfl⟩
  rotate_left
  · by_cases e : s < 3
    · simp only [world0, if_pos e] at h
      cases h
      show s + 1 < 4
      omega
    · simp only [world0, if_neg e] at h
      cases h
  by_cases e : n = "data".toList
  · simp only [world0, if_pos e] at h
    cases h
    decide
  · simp only [world0, if_neg e] at h
    cases h

/-- The state after opening `data` in a mode. -/
def opened (mode : String) : World :=
  match fopen sys (some "data".toList) mode.toList world0 with
  | .ok _ w => w
  | _ => world0

theorem opened_rplus : Open (opened "r+") (some 3) ⟨0, 0, false, .none, true, true, false⟩ := ⟨3, 3, rfl, by decide +kernel, by decide +kernel⟩

/-! ## C91 -/

/-- **C91**: opening a file.  It succeeds exactly when the mode is one of the fifteen modes of C, the system does not refuse the file,
and the file exists unless it is opened for writing or appending.  Opened for writing, the file is empty; otherwise its contents stay.  The contents
of all other files stay. -/
theorem C91_open {S : Sys} {w w' : World} {name : Name} {mode : List Char} {f : File} {err : StdErr}
    (h : fopen S (some name) mode w = .ok (f, err) w') :
    (err = .ok ↔ ModeOfC mode ∧ S.denied name = false ∧ (w.dir name = none → mode.head? ≠ some 'r')) ∧
    (err ≠ .ok → err = .nullf ∧ f = none ∧ w' = w) ∧
    (err = .ok → ∃ i st, w'.dir name = some i ∧ Open w' f st ∧ st.file = i ∧ st.eof = false ∧
      (∀ j, w.dir name = some j → j = i) ∧
      w'.file i = (if mode.head? = some 'w' ∨ w.dir name = none then [] else w.file i) ∧
      (mode.head? ≠ some 'a' → st.pos = 0) ∧
      (st.canRead = true ↔ mode.head? = some 'r' ∨ '+' ∈ mode) ∧ (st.canWrite = true ↔ mode.head? ≠ some 'r' ∨ '+' ∈ mode) ∧
      (st.append = true ↔ mode.head? = some 'a') ∧
      (∀ m, m ≠ name → w'.dir m = w.dir m) ∧ ∀ j, j ≠ i → w'.file j = w.file j) := by
  rw [← mem_modes]
  rw [fopen] at h
  by_cases hm : ¬ fopenModes.contains mode = true
  · rw [if_neg hm] at h
    cases h
    exact ⟨⟨fun e => (nomatch e), fun e => absurd (List.contains_iff_mem.mpr e.1) hm⟩, fun _ => ⟨rfl, rfl, rfl⟩, fun e => nomatch e⟩
  have hm := Decidable.not_not.mp hm
  rw [if_pos hm, rtlfopen, cfopen] at h
  have hmem : mode ∈ fopenModes := List.contains_iff_mem.mp hm
  have hhead : ∀ m ∈ fopenModes, ¬ (m.head? ≠ some 'r' ∧ m.head? ≠ some 'w' ∧ m.head? ≠ some 'a') := by decide
  rw [if_neg (hhead mode hmem)] at h
  cases hd : S.denied name with
  | true =>
    rw [hd, if_pos rfl] at h
    cases h
    exact ⟨⟨fun e => (nomatch e), fun e => (nomatch e.2.1)⟩, fun _ => ⟨rfl, rfl, rfl⟩, fun e => nomatch e⟩
  | false =>
    rw [hd, if_neg (by decide)] at h
    cases hi : w.dir name with
    | some i =>
      rw [hi] at h
      dsimp only at h
      by_cases hw : mode.head? = some 'w'
      · rw [if_pos hw, newStream] at h
        simp only [Res.bind] at h
        cases h
        refine ⟨⟨fun _ => ⟨hmem, rfl, fun e => nomatch e⟩, fun _ => rfl⟩, fun e => absurd rfl e, fun _ => ?_⟩
        refine ⟨i, _, hi, ⟨_, _, rfl, set_same .., set_same ..⟩, rfl, rfl, fun j e => (Option.some.inj e).symm, ?_, fun ha => ?_, ?_, ?_, ?_,
          fun _ _ => rfl, fun j hj => set_ne _ _ hj⟩
        · have : mode.head? = some 'w' ∨ some i = none := .inl hw
          simp only [if_pos this, set_same]
        · simp [ha]
        · simp
        · simp
        · simp
      · rw [if_neg hw, newStream] at h
        simp only [Res.bind] at h
        cases h
        refine ⟨⟨fun _ => ⟨hmem, rfl, fun e => nomatch e⟩, fun _ => rfl⟩, fun e => absurd rfl e, fun _ => ?_⟩
        refine ⟨i, _, hi, ⟨_, _, rfl, set_same .., set_same ..⟩, rfl, rfl, fun j e => (Option.some.inj e).symm, ?_, fun ha => ?_, ?_, ?_, ?_,
          fun _ _ => rfl, fun j hj => rfl⟩
        · have : ¬ (mode.head? = some 'w' ∨ some i = none) := fun e => e.elim hw fun e => nomatch e
          simp only [if_neg this]
        · simp [ha]
        · simp
        · simp
        · simp
    | none =>
      rw [hi] at h
      dsimp only at h
      by_cases hr : mode.head? = some 'r'
      · rw [if_pos hr] at h
        cases h
        exact ⟨⟨fun e => (nomatch e), fun e => absurd hr (e.2.2 rfl)⟩, fun _ => ⟨rfl, rfl, rfl⟩, fun e => nomatch e⟩
      · rw [if_neg hr, newStream] at h
        simp only [Res.bind] at h
        cases h
        refine ⟨⟨fun _ => ⟨hmem, rfl, fun _ => hr⟩, fun _ => rfl⟩, fun e => absurd rfl e, fun _ => ?_⟩
        refine ⟨w.files, _, if_pos rfl, ⟨_, _, rfl, set_same .., set_same ..⟩, rfl, rfl, fun j e => (nomatch e), ?_, fun ha => ?_, ?_, ?_, ?_,
          fun m hne => if_neg hne, fun j hj => set_ne _ _ hj⟩
        · simp only [set_same, or_true, if_true]
        · simp [ha]
        · simp
        · simp
        · simp

example : ∃ w', fopen sys (some "data".toList) "r+".toList world0 = .ok (some 3, .ok) w' := ⟨_, rfl⟩
example : fopen sys (some "none".toList) "r".toList world0 = .ok (none, .nullf) world0 := rfl

/-- **C91** (in part: what the C standard leaves undefined is excluded, and the file may not outgrow the system's limit): writing.  All
bytes of the variable are put into the file at the position, or at the end if the file was opened for appending; the position moves behind them; nothing else
changes. -/
theorem C91_write_partial {S : Sys} {w : World} {f : File} {st : Stream} {buf : Buf} {v : Nat}
    (ho : Open w f st) (hw : st.canWrite = true) (hl : ¬ (st.last = .read ∧ st.eof = false)) (hb : Plain buf v)
    (hroom : (if st.append then (w.file st.file).length else st.pos) + (w.var v).length ≤ S.room) :
    ∃ w', fwrite S f (some buf) w = .ok ((w.var v).length, .ok) w' ∧
      (w.var v ≠ [] → Put (w.file st.file) (if st.append then (w.file st.file).length else st.pos) (w.var v) (w'.file st.file) ∧
        ∃ st', Open w' f st' ∧ st'.pos = (if st.append then (w.file st.file).length else st.pos) + (w.var v).length ∧ st'.file = st.file ∧ st'.eof = st.eof) ∧
      (w.var v = [] → w' = w) ∧
      SameBut f (some st.file) w w' ∧ w'.var = w.var := by
  obtain ⟨o, s, rfl, hob, hs⟩ := ho
  by_cases hne : w.var v = []
  · refine ⟨w, ?_, fun h => absurd hne h, fun _ => rfl, ⟨rfl, rfl, rfl, rfl, rfl, fun _ _ => rfl, fun _ _ => rfl⟩, rfl⟩
    rw [fwrite, freadwrite_empty hb hne, hne]
    rfl
  · have e := fwrite_eq (S := S) hob hs hw hl hb rfl hne
    have ht : (w.var v).take (S.room - if st.append then (w.file st.file).length else st.pos) = w.var v := List.take_of_length_le (by omega)
    dsimp only at e
    rw [ht, if_pos rfl, if_neg hne] at e
    refine ⟨_, e, fun _ => ⟨?_, _, ⟨o, s, rfl, hob, set_same ..⟩, rfl, rfl, rfl⟩, fun h => absurd h hne, ⟨rfl, rfl, rfl, rfl, rfl, fun i hi => ?_, fun t ht => ?_⟩, rfl⟩
    · simp only [withState, set_same]
      exact overwrite_put ..
    · exact set_ne _ _ fun h => hi (congrArg some h)
    · exact set_ne _ _ fun h => ht o rfl (h ▸ hob)

example : (match fwrite sys (some 3) (some ⟨.bytes, some 0⟩) (opened "r+") with
    | .ok r w => r == (2, .ok) && w.file 0 == [7, 8, 3, 4, 5]
    | _ => false) = true := by decide +kernel

/-- **C91**: a write that the system cuts short puts in the file what fits, and is reported. -/
theorem C91_write_full {S : Sys} {w : World} {f : File} {st : Stream} {buf : Buf} {v : Nat}
    (ho : Open w f st) (hw : st.canWrite = true) (hl : ¬ (st.last = .read ∧ st.eof = false)) (hb : Plain buf v) (ha : st.append = false)
    (hpos : st.pos < S.room) (hroom : S.room < st.pos + (w.var v).length) :
    ∃ w', fwrite S f (some buf) w = .ok (S.room - st.pos, .eof) w' ∧
      Put (w.file st.file) st.pos ((w.var v).take (S.room - st.pos)) (w'.file st.file) ∧ SameBut f (some st.file) w w' ∧ w'.var = w.var := by
  obtain ⟨o, s, rfl, hob, hs⟩ := ho
  have hne : w.var v ≠ [] := fun h => by rw [h, List.length_nil] at hroom; omega
  have e := fwrite_eq (S := S) hob hs hw hl hb rfl hne
  have hlen : ((w.var v).take (S.room - st.pos)).length = S.room - st.pos := by rw [List.length_take]; omega
  dsimp only at e
  rw [ha] at e
  simp only [Bool.false_eq_true, if_false] at e
  rw [hlen, if_neg (by omega), if_neg (fun h => by rw [h, List.length_nil] at hlen; omega)] at e
  refine ⟨_, e, ?_, ⟨rfl, rfl, rfl, rfl, rfl, fun i hi => ?_, fun t ht => ?_⟩, rfl⟩
  · simp only [withState, set_same]
    exact overwrite_put ..
  · exact set_ne _ _ fun h => hi (congrArg some h)
  · exact set_ne _ _ fun h => ht o rfl (h ▸ hob)

example : (match fwrite ⟨fun _ => false, 1, true⟩ (some 3) (some ⟨.bytes, some 0⟩) (opened "r+") with
    | .ok r w => r == (1, .eof) && w.file 0 == [7, 2, 3, 4, 5]
    | _ => false) = true := by decide +kernel

/-- **C91** (in part: a read right after a write is excluded): reading.  The bytes at the position replace the first bytes of the variable, as many as
there are and the variable can take; fewer than it can take are reported; no file changes. -/
theorem C91_read_partial {S : Sys} {w : World} {f : File} {st : Stream} {buf : Buf} {v : Nat}
    (ho : Open w f st) (hr : st.canRead = true) (hl : st.last ≠ .write) (hb : Plain buf v) :
    ∃ w' n err, fread S f (some buf) w = .ok (n, err) w' ∧
      n = min (w.var v).length ((w.file st.file).length - st.pos) ∧
      (err = .ok ↔ n = (w.var v).length) ∧ (err ≠ .ok → err = .eof) ∧
      (w'.var v).length = (w.var v).length ∧
      (∀ i, i < (w.var v).length → (w'.var v)[i]? = if i < n then (w.file st.file)[st.pos + i]? else (w.var v)[i]?) ∧
      (∀ u, u ≠ v → w'.var u = w.var u) ∧
      (∃ st', Open w' f st' ∧ st'.pos = st.pos + n ∧ st'.file = st.file ∧ (st'.eof = true ↔ st.eof = true ∨ err ≠ .ok)) ∧
      SameBut f none w w' := by
  obtain ⟨o, s, rfl, hob, hs⟩ := ho
  by_cases hne : w.var v = []
  · refine ⟨w, 0, .ok, ?_, ?_, ?_, ?_, rfl, ?_, fun _ _ => rfl, ⟨st, ⟨o, s, rfl, hob, hs⟩, rfl, rfl, ?_⟩, ⟨rfl, rfl, rfl, rfl, rfl, fun _ _ => rfl, fun _ _ => rfl⟩⟩
    · rw [fread, freadwrite_empty hb hne]
    · rw [hne, List.length_nil]; omega
    · rw [hne]; exact ⟨fun _ => rfl, fun _ => rfl⟩
    · exact fun h => absurd rfl h
    · intro i hi
      rw [hne, List.length_nil] at hi
      omega
    · exact ⟨.inl, fun h => h.elim id fun h => absurd rfl h⟩
  · have e := fread_eq (S := S) hob hs hr hl hb rfl hne
    dsimp only at e
    have hlen : (((w.file st.file).drop st.pos).take (w.var v).length).length = min (w.var v).length ((w.file st.file).length - st.pos) := by
      rw [List.length_take, List.length_drop]
    refine ⟨_, _, _, e, hlen, ?_, ?_, ?_, ?_, ?_, ⟨_, ⟨o, s, rfl, hob, set_same ..⟩, rfl, rfl, ?_⟩, ?_⟩
    · split
      · rename_i h; exact ⟨fun _ => h, fun _ => rfl⟩
      · rename_i h; exact ⟨fun e => (nomatch e), fun e => absurd e h⟩
    · split
      · exact fun h => absurd rfl h
      · exact fun _ => rfl
    · simp only [withState, set_same, List.length_append, List.length_drop, hlen]
      omega
    · intro i hi
      simp only [withState, set_same]
      by_cases hin : i < (((w.file st.file).drop st.pos).take (w.var v).length).length
      · rw [if_pos hin, List.getElem?_append_left hin, List.getElem?_take, if_pos (by omega), List.getElem?_drop]
      · rw [if_neg hin, List.getElem?_append_right (by omega), List.getElem?_drop]
        congr 1
        omega
    · exact fun u hu => set_ne _ _ hu
    · dsimp only
      rw [Bool.or_eq_true, decide_eq_true_iff]
      constructor
      · rintro (h | h)
        · exact .inl h
        · exact .inr (by rw [if_neg (by omega)]; exact StdErr.noConfusion)
      · rintro (h | h)
        · exact .inl h
        · right
          by_cases h' : (((w.file st.file).drop st.pos).take (w.var v).length).length = (w.var v).length
          · rw [if_pos h'] at h; exact absurd rfl h
          · rw [hlen] at h' ⊢; omega
    · exact ⟨rfl, rfl, rfl, rfl, rfl, fun _ _ => rfl, fun t ht => set_ne _ _ fun h => ht o rfl (h ▸ hob)⟩

example : (match fread sys (some 3) (some ⟨.bytes, some 1⟩) (opened "r+") with
    | .ok r w => r == (3, .ok) && w.var 1 == [1, 2, 3]
    | _ => false) = true := by decide +kernel

/-- **C91**: a handle that is not open for reading does not read, and one that is not open for writing does not write. -/
theorem C91_denied {S : Sys} {w : World} {f : File} {st : Stream} {buf : Buf} {v : Nat} (ho : Open w f st) (hb : Plain buf v) (hne : w.var v ≠ []) :
    (st.canRead = false → fread S f (some buf) w = .ok (0, .eof) w) ∧ (st.canWrite = false → fwrite S f (some buf) w = .ok (0, .eof) w) := by
  obtain ⟨o, s, rfl, hob, hs⟩ := ho
  exact ⟨fun h => fread_denied hob hs h hb hne, fun h => fwrite_denied hob hs h hb hne⟩

example : (match fwrite sys (some 3) (some ⟨.bytes, some 0⟩) (opened "r") with
    | .ok r w => r == (0, .eof) && w.file 0 == [1, 2, 3, 4, 5]
    | _ => false) = true := by decide +kernel

/-- **C91**: variables with pointers are neither written nor read, and this is reported; there is nothing to write or read for `null`. -/
theorem C91_pointers {S : Sys} {w : World} {o : Nat} (self : Option Nat) :
    fwrite S (some o) (some ⟨.hasPtr, self⟩) w = .ok (0, .ptr) w ∧ fread S (some o) (some ⟨.hasPtr, self⟩) w = .ok (0, .ptr) w ∧
    fwrite S (some o) none w = .ok (0, .ok) w ∧ fread S (some o) none w = .ok (0, .ok) w := ⟨rfl, rfl, rfl, rfl⟩

/-- **C91**: `remove` takes away the name, and reports a file that does not exist or that the system does not let go.  Files opened before keep their
contents, and so do all other names. -/
theorem C91_remove (S : Sys) (name : Name) (w : World) :
    ∃ err w', remove S (some name) w = .ok err w' ∧
      (err = .ok ↔ S.denied name = false ∧ w.dir name ≠ none) ∧ (err ≠ .ok → err = .eof ∧ w' = w) ∧
      (err = .ok → w'.dir name = none) ∧ (∀ m, m ≠ name → w'.dir m = w.dir m) ∧ w'.file = w.file ∧ w'.var = w.var ∧
      ∀ f st, Open w' f st ↔ Open w f st := by
  rw [remove, rtlremove, cremove]
  cases hd : S.denied name with
  | true =>
    exact ⟨.eof, w, rfl, ⟨fun e => (nomatch e), fun e => (nomatch e.1)⟩, fun _ => ⟨rfl, rfl⟩, fun e => (nomatch e), fun _ _ => rfl, rfl, rfl, fun _ _ => Iff.rfl⟩
  | false =>
    rw [if_neg (by decide)]
    cases hi : w.dir name with
    | none =>
      exact ⟨.eof, w, rfl, ⟨fun e => (nomatch e), fun e => absurd rfl e.2⟩, fun _ => ⟨rfl, rfl⟩, fun e => (nomatch e), fun _ _ => rfl, rfl, rfl, fun _ _ => Iff.rfl⟩
    | some i =>
      exact ⟨.ok, _, rfl, ⟨fun _ => ⟨rfl, fun e => nomatch e⟩, fun _ => rfl⟩, fun e => absurd rfl e, fun _ => if_pos rfl, fun m hm => if_neg hm, rfl, rfl,
        fun _ _ => Iff.rfl⟩

example : (match remove sys (some "data".toList) world0 with
    | .ok r w => r == .ok && w.dir "data".toList == none
    | _ => false) = true := by decide +kernel

theorem fopen_w {S : Sys} {w : World} {name : Name} {mode : List Char} (hm : ModeOfC mode) (hw : mode.head? = some 'w') (hd : S.denied name = false) :
    ∃ w' o s st i, fopen S (some name) mode w = .ok (some o, .ok) w' ∧ w'.obj o = some s ∧ w'.stream s = some st ∧ w'.dir name = some i ∧
      st.file = i ∧ w'.file i = [] ∧ st.pos = 0 ∧ st.canWrite = true ∧ st.last = .none := by
  rw [fopen, if_pos (List.contains_iff_mem.mpr ((mem_modes _).mpr hm)), rtlfopen, cfopen, if_neg (fun h => h.2.1 hw), hd, if_neg (by decide)]
  cases hi : w.dir name with
  | some i =>
    dsimp only
    rw [if_pos hw]
    exact ⟨_, _, _, _, i, rfl, set_same .., set_same .., hi, rfl, set_same .., by simp [hw], by simp [hw], rfl⟩
  | none =>
    dsimp only
    rw [if_neg (by rw [hw]; decide)]
    exact ⟨_, _, _, _, w.files, rfl, set_same .., set_same .., if_pos rfl, rfl, set_same .., by simp [hw], by simp [hw], rfl⟩

theorem fopen_r {S : Sys} {w : World} {name : Name} {mode : List Char} {i : Nat} (hm : ModeOfC mode) (hr : mode.head? = some 'r')
    (hd : S.denied name = false) (hi : w.dir name = some i) :
    ∃ w' o s st, fopen S (some name) mode w = .ok (some o, .ok) w' ∧ w'.obj o = some s ∧ w'.stream s = some st ∧ w'.file = w.file ∧
      st.file = i ∧ st.pos = 0 ∧ st.canRead = true ∧ st.last = .none ∧ st.eof = false := by
  rw [fopen, if_pos (List.contains_iff_mem.mpr ((mem_modes _).mpr hm)), rtlfopen, cfopen, if_neg (fun h => h.1 hr), hd, if_neg (by decide), hi]
  dsimp only
  rw [if_neg (by rw [hr]; decide)]
  exact ⟨_, _, _, _, rfl, set_same .., set_same .., rfl, rfl, by simp [hr], by simp [hr], rfl, rfl⟩

/-- **C91** (in part: what is written must fit the system's limit and be no longer than `freadall` reads): what is written to a file, in whatever pieces, is what is read
from it later. -/
theorem C91_round_trip_partial {S : Sys} {w : World} {name : Name} {mode1 mode2 : List Char} (h1 : ModeOfC mode1) (hw : mode1.head? = some 'w')
    (h2 : ModeOfC mode2) (hr : mode2.head? = some 'r') (hd : S.denied name = false) (v : Nat) (bs : List (List Byte))
    (hroom : bs.flatten.length ≤ S.room) (hmax : bs.flatten.length ≤ 0x7FFFFF00) :
    ∃ w', writeThenRead S name mode1 mode2 v bs w = .ok (bs.flatten, .ok) w' := by
  obtain ⟨w1, o, s, st, i, e1, hob, hs, hdir, hfile, hempty, hpos, hcw, hlast⟩ := fopen_w (w := w) h1 hw hd
  subst hfile
  obtain ⟨w2, e2, hf2, hob2, hdir2, _, _, _, _, _, st2, hs2⟩ := writePieces_end (S := S) (v := v) bs w1 st hob hs hcw (by rw [hlast]; exact Last.noConfusion)
    (by rw [hpos, hempty]; rfl) (by rw [hempty]; simp only [List.length_nil]; omega)
  have e3 := fclose_eq (w := w2) (by rw [hob2]; exact hob) hs2
  obtain ⟨w4, o', s', st', e4, hob', hs', hf', hfile', hpos', hcr', _, _⟩ :=
    fopen_r (S := S) (w := { w2 with stream := set w2.stream s none, obj := set w2.obj o none }) (i := st.file) h2 hr hd (by rw [hdir2]; exact hdir)
  have hcont : w4.file st'.file = bs.flatten := by
    rw [hf', hfile']
    show w2.file st.file = _
    rw [hf2, set_same, hempty, List.nil_append]
  obtain ⟨w5, e5, _⟩ := freadall_eq (S := S) hob' hs' hcr' (by rw [hcont]; exact hmax)
  refine ⟨w5, ?_⟩
  rw [writeThenRead, e1, Res.bind]
  dsimp only
  rw [e2, Res.bind, e3, Res.bind, e4, Res.bind]
  dsimp only
  rw [e5, hcont]

example : (match writeThenRead sys "new".toList "wb".toList "r+".toList 0 [[1], [], [2, 3]] world0 with
    | .ok r _ => r == ([1, 2, 3], .ok)
    | _ => false) = true := by decide +kernel

theorem le_sum {n : Nat} : ∀ {l : List Nat}, n ∈ l → n ≤ l.sum
  | a :: l, h => by
    rw [List.sum_cons]
    rcases List.mem_cons.mp h with rfl | h
    · omega
    · have := le_sum h
      omega

/-- **C91**: reading a file in pieces, of whatever sizes, reads its bytes one after another, and only the pieces the file is too short for are
reported.  `feof` is true exactly if there was one. -/
theorem C91_pieces {S : Sys} {w : World} {name : Name} {mode : List Char} {i : Nat} (hm : ModeOfC mode) (hr : mode.head? = some 'r')
    (hd : S.denied name = false) (hi : w.dir name = some i) (v : Nat) (ns : List Nat) (hns : ∀ n ∈ ns, 0 < n) :
    ∃ f w1 ps w2, fopen S (some name) mode w = .ok (f, .ok) w1 ∧ readPieces S f v ns w1 = .ok ps w2 ∧
      (ps.map Prod.fst).flatten = (w.file i).take ns.sum ∧ ps.length = ns.length ∧
      (∀ k p n, ps[k]? = some p → ns[k]? = some n → (p.2 = .ok ↔ p.1.length = n) ∧ (p.1.length = n ↔ (ns.take (k + 1)).sum ≤ (w.file i).length)) ∧
      ftell f w2 = .ok (((min ns.sum (w.file i).length : Nat) : Int), .ok) w2 ∧
      feof f w2 = .ok (decide (ns.sum > (w.file i).length)) w2 := by
  obtain ⟨w1, o, s, st, e1, hob, hs, hf, hfile, hpos, hcr, hlast, heof⟩ := fopen_r (w := w) hm hr hd hi
  obtain ⟨w2, e2, hf2, hob2, st2, hs2, hpos2, hfile2, heof2⟩ := readPieces_eq (S := S) (v := v) ns w1 st hob hs hcr (by rw [hlast]; exact Last.noConfusion) hns
    (by rw [hpos]; exact Nat.zero_le _)
  have hob2' : w2.obj o = some s := by rw [hob2]; exact hob
  rw [hpos, hf, hfile, List.drop_zero] at e2
  have hlen : ∀ (ns : List Nat) (l : List Byte), (cut ns l).length = ns.length := by
    intro ns
    induction ns with
    | nil => intro l; rfl
    | cons n ns ih => intro l; rw [cut, List.length_cons, List.length_cons, ih]
  have hmap : ∀ (ns : List Nat) (l : List Byte),
      ((cut ns l).zipWith (fun p n => (p, if p.length = n then StdErr.ok else .eof)) ns).map Prod.fst = cut ns l := by
    intro ns
    induction ns with
    | nil => intro l; rfl
    | cons n ns ih => intro l; rw [cut, List.zipWith_cons_cons, List.map_cons, ih]
  have hget : ∀ (ns : List Nat), (∀ n ∈ ns, 0 < n) → ∀ (l : List Byte) (k : Nat) (p : List Byte) (n : Nat), (cut ns l)[k]? = some p → ns[k]? = some n →
      (p.length = n ↔ (ns.take (k + 1)).sum ≤ l.length) := by
    intro ns
    induction ns with
    | nil => intro _ l k p n h; cases h
    | cons m ns ih =>
      intro hpos l k p n hp hn
      cases k with
      | zero =>
        rw [cut, List.getElem?_cons_zero] at hp
        rw [List.getElem?_cons_zero] at hn
        cases hp
        cases hn
        rw [List.length_take, List.take_succ_cons, List.take_zero, List.sum_cons, List.sum_nil]
        omega
      | succ k =>
        rw [cut, List.getElem?_cons_succ] at hp
        rw [List.getElem?_cons_succ] at hn
        have := ih (fun n h => hpos n (List.mem_cons_of_mem _ h)) _ k p n hp hn
        have hm0 := hpos m (List.mem_cons_self ..)
        have hn0 : 0 < n := hpos n (List.mem_cons_of_mem _ (List.mem_of_getElem? hn))
        have hsum : n ≤ (ns.take (k + 1)).sum :=
          le_sum (List.mem_of_getElem? (i := k) (by rw [List.getElem?_take, if_pos (by omega)]; exact hn))
        rw [this, List.take_succ_cons, List.sum_cons, List.length_drop]
        omega
  refine ⟨some o, w1, _, w2, e1, e2, ?_, ?_, ?_, ?_, ?_⟩
  · rw [hmap, cut_flatten]
  · rw [List.length_zipWith, hlen, Nat.min_self]
  · intro k p n hp hn
    rw [List.getElem?_zipWith, hn] at hp
    cases hc : (cut ns (w.file i))[k]? with
    | none => rw [hc] at hp; cases hp
    | some q =>
      rw [hc] at hp
      cases hp
      refine ⟨?_, hget ns hns _ k q n hc hn⟩
      dsimp only
      split
      · rename_i h; exact ⟨fun _ => h, fun _ => rfl⟩
      · rename_i h; exact ⟨fun e => (nomatch e), fun e => absurd e h⟩
  · rw [ftell_eq hob2' hs2, hpos2, hpos, hf, hfile, Nat.zero_add]
  · rw [feof_eq hob2' hs2, heof2, heof, hpos, hf, hfile, Nat.zero_add, Bool.false_or]

example : (match readPieces sys (some 3) 1 [2, 2, 2] (opened "r") with
    | .ok r _ => r == [([1, 2], .ok), ([3, 4], .ok), ([5], .eof)]
    | _ => false) = true := by decide +kernel

/-- **C91** (in part: files longer than 2 147 483 392 bytes are not read): `freadall` reads the whole file, whatever the position. -/
theorem C91_freadall_partial {S : Sys} {w : World} {f : File} {st : Stream} (ho : Open w f st) (hr : st.canRead = true) :
    ((w.file st.file).length ≤ 0x7FFFFF00 → ∃ w', freadall S f w = .ok (w.file st.file, .ok) w' ∧ w'.file = w.file ∧ w'.dir = w.dir ∧ w'.obj = w.obj ∧
      ∃ st', Open w' f st' ∧ st'.file = st.file ∧ st'.pos = (w.file st.file).length) ∧
    ((w.file st.file).length > 0x7FFFFF00 → ∃ w', freadall S f w = .ok ([], .eof) w' ∧ w'.file = w.file) := by
  obtain ⟨o, s, rfl, hob, hs⟩ := ho
  refine ⟨fun hsz => ?_, fun hsz => ?_⟩
  · obtain ⟨w', e, h1, h2, h3, _, st', hs', h5, h6, _⟩ := freadall_eq (S := S) hob hs hr hsz
    exact ⟨w', e, h1, h3, h2, st', ⟨o, s, rfl, by rw [h2]; exact hob, hs'⟩, h6, h5⟩
  · have t0 : toInt 0 = 0 := by decide
    have e1 := fseek_eq hob hs 0 .end
    rw [t0, originPos, if_neg (by omega)] at e1
    have hs1 : (withState w s { st with pos := (((w.file st.file).length : Int) + 0).toNat, eof := false, last := .none }).stream s =
      some { st with pos := (((w.file st.file).length : Int) + 0).toNat, eof := false, last := .none } := set_same ..
    have e2 := ftell_eq (w := withState w s { st with pos := (((w.file st.file).length : Int) + 0).toNat, eof := false, last := .none }) hob hs1
    rw [freadall, e1, Res.bind, if_neg (by decide), e2, Res.bind, if_neg (fun h => h rfl)]
    dsimp only
    rw [if_pos (by omega)]
    exact ⟨_, rfl, rfl⟩

example : (match freadall sys (some 3) (opened "r") with
    | .ok r _ => r == ([1, 2, 3, 4, 5], .ok)
    | _ => false) = true := by decide +kernel

/-- **C91** (in part: offsets that do not fit 32 bits are excluded): `fseek` moves the position by the offset from the beginning, the position or the end, and reports a
target before the beginning, which leaves the position as it is.  No file changes. -/
theorem C91_seek_partial {w : World} {f : File} {st : Stream} (ho : Open w f st) {offset : Int} (h1 : -2 ^ 31 ≤ offset) (h2 : offset < 2 ^ 31) (origin : Origin) :
    (originPos w st origin + offset < 0 → fseek f offset origin w = .ok .eof w) ∧
    (0 ≤ originPos w st origin + offset → ∃ w' st', fseek f offset origin w = .ok .ok w' ∧ Open w' f st' ∧ st'.file = st.file ∧ st'.eof = false ∧
      ftell f w' = .ok (originPos w st origin + offset, .ok) w' ∧ SameBut f none w w' ∧ w'.var = w.var) := by
  obtain ⟨o, s, rfl, hob, hs⟩ := ho
  have e := fseek_eq hob hs offset origin
  rw [toInt_small h1 h2] at e
  refine ⟨fun h => by rw [e, if_pos h], fun h => ?_⟩
  rw [if_neg (by omega)] at e
  refine ⟨_, _, e, ⟨o, s, rfl, hob, set_same ..⟩, rfl, rfl, ?_, same_withState hob _, rfl⟩
  rw [ftell_eq (w := withState w s _) hob (set_same ..)]
  dsimp only
  rw [Int.toNat_of_nonneg h]

example : (match fseek (some 3) (-2) .end (opened "r") with
    | .ok r w => r == .ok && (match ftell (some 3) w with
      | .ok p _ => p == (3, .ok)
      | _ => false)
    | _ => false) = true := by decide +kernel

/-- **C91**, violated: offsets of 4 GiB and more are cut to 32 bits, and the wrong position is not reported. -/
theorem C91_seek_violated : ∃ w', fseek (some 3) (2 ^ 32) .begin (opened "r") = .ok .ok w' ∧ ftell (some 3) w' = .ok (0, .ok) w' := ⟨_, rfl, rfl⟩

/-- **C91**: `ftell`, `feof` and `fflush` report the state of the handle and change no file and no position. -/
theorem C91_tell {w : World} {f : File} {st : Stream} (ho : Open w f st) :
    ftell f w = .ok (st.pos, .ok) w ∧ feof f w = .ok st.eof w ∧
    ∃ w' st', fflush f w = .ok .ok w' ∧ Open w' f st' ∧ st'.pos = st.pos ∧ st'.file = st.file ∧ st'.eof = st.eof ∧ SameBut f none w w' ∧ w'.var = w.var := by
  obtain ⟨o, s, rfl, hob, hs⟩ := ho
  exact ⟨ftell_eq hob hs, feof_eq hob hs, _, _, fflush_eq hob hs, ⟨o, s, rfl, hob, set_same ..⟩, rfl, rfl, rfl, same_withState hob _, rfl⟩

example : Open (opened "r+") (some 3) ⟨0, 0, false, .none, true, true, false⟩ := opened_rplus

/-- **C91**, violated: `feof` is documented to tell whether the position is at the end of the file (`lib.md`), but after reading all bytes of a file it
is false. -/
theorem C91_feof_violated :
    ∃ w', readPieces sys (some 3) 1 [5] (opened "r") = .ok [([1, 2, 3, 4, 5], .ok)] w' ∧ ftell (some 3) w' = .ok (5, .ok) w' ∧
      w'.file 0 = [1, 2, 3, 4, 5] ∧ feof (some 3) w' = .ok false w' := ⟨_, rfl, rfl, rfl, rfl⟩

/-! ## C92 -/

/-- **C92**: a null handle is reported by every function, and nothing happens. -/
theorem C92_null (S : Sys) (w : World) :
    fclose none w = .ok .nullf w ∧ (∀ offset origin, fseek none offset origin w = .ok .nullf w) ∧ ftell none w = .ok (0, .nullf) w ∧
    feof none w = .ok true w ∧ fflush none w = .ok .nullf w ∧ (∀ buf, fread S none buf w = .ok (0, .nullf) w) ∧
    (∀ buf, fwrite S none buf w = .ok (0, .nullf) w) ∧ freadall S none w = .ok ([], .nullf) w :=
  ⟨rfl, fun _ _ => rfl, rfl, rfl, rfl, fun _ => rfl, fun _ => rfl, rfl⟩

/-- **C92**: after `fclose`, and after it again, every function that uses the handle reports an error, and nothing happens. -/
theorem C92_closed {S : Sys} {w : World} {f : File} (h : Closed w f) :
    fclose f w = .ok .eof w ∧ (∀ offset origin, fseek f offset origin w = .ok .eof w) ∧ (∃ p, ftell f w = .ok (p, .eof) w) ∧
    feof f w = .ok true w ∧ fflush f w = .ok .eof w ∧ freadall S f w = .ok ([], .eof) w ∧
    ∀ buf v, Plain buf v → w.var v ≠ [] → fread S f (some buf) w = .ok (0, .eof) w ∧ fwrite S f (some buf) w = .ok (0, .eof) w := by
  obtain ⟨o, rfl, ho⟩ := h
  obtain ⟨h1, h2, h3, h4, h5, h6⟩ := closed_eq (S := S) ho
  exact ⟨h1, h2, ⟨_, h3⟩, h4, h5, h6, fun buf v hb hne => ⟨freadwrite_closed ho hb hne, freadwrite_closed ho hb hne⟩⟩

/-- **C92**: `fclose` closes an open handle, and no other handle. -/
theorem C92_close {S : Sys} {w : World} {live : List Nat} (hr : Reach S w live) {f : File} {st : Stream} (ho : Open w f st) :
    ∃ w', fclose f w = .ok .ok w' ∧ Closed w' f ∧ (∀ g st', g ≠ f → (Open w' g st' ↔ Open w g st')) ∧ w'.file = w.file ∧ w'.dir = w.dir ∧ w'.var = w.var := by
  obtain ⟨o, s, rfl, hob, hs⟩ := ho
  refine ⟨_, fclose_eq hob hs, ⟨o, rfl, set_same ..⟩, fun g st' hg => ?_, rfl, rfl, rfl⟩
  have hinv := reach_inv hr
  constructor
  · rintro ⟨o', s', rfl, h1, h2⟩
    have hne : o' ≠ o := fun h => hg (congrArg some h)
    simp only [set_ne _ _ hne] at h1
    have hs' : s' ≠ s := fun h => hne (hinv.inj o' o s (h ▸ h1) hob)
    simp only [set_ne _ _ hs'] at h2
    exact ⟨o', s', rfl, h1, h2⟩
  · rintro ⟨o', s', rfl, h1, h2⟩
    have hne : o' ≠ o := fun h => hg (congrArg some h)
    have hs' : s' ≠ s := fun h => hne (hinv.inj o' o s (h ▸ h1) hob)
    exact ⟨o', s', rfl, by simp only [set_ne _ _ hne]; exact h1, by simp only [set_ne _ _ hs']; exact h2⟩

theorem reach_opened : Reach sys (opened "r+") [3] :=
  .step (op := .fopen (some "data".toList) "r+".toList) (.start start0)
    ⟨fun _ e => (nomatch e), fun _ e => (nomatch e), fun _ e => nomatch e⟩ rfl

example : Reach sys (opened "r+") [3] ∧ ∃ st, Open (opened "r+") (some 3) st := ⟨reach_opened, _, opened_rplus⟩

/-- **C92** (in part: the standard streams are not closed, file names are not null, and the program does not read right after writing or write right after reading): no sequence of operations, with the handles
in whatever state, makes the C library use a stream that has been closed, or close one twice. -/
theorem C92_no_ub_partial {S : Sys} {w : World} {live : List Nat} (hr : Reach S w live) {op : Op} (hl : Legal live op) (hu : ¬ Undefined w op) :
    exec S live op w ≠ .ub :=
  (exec_inv (reach_inv hr) hl hu).1

example : Legal [3] (.fclose (some 3)) ∧ ¬ Undefined (opened "r+") (.fclose (some 3)) :=
  ⟨⟨fun o e => by cases e; decide, fun _ e => (nomatch e), fun f e o e' => by cases e; cases e'; decide⟩, fun h => h⟩

/-- **C92**: no stream is left open when the last reference to its handle is gone, whether or not the program has closed it. -/
theorem C92_no_leak {S : Sys} {w : World} {live : List Nat} (hr : Reach S w live) :
    (∀ s st, 3 ≤ s → w.stream s = some st → ∃ o ∈ live, w.obj o = some s ∧ Open w (some o) st) ∧
    (∀ o o' s, w.obj o = some s → w.obj o' = some s → o = o') ∧
    (live = [] → ∀ s, 3 ≤ s → w.stream s = none) := by
  have hinv := reach_inv hr
  refine ⟨fun s st h3 hs => ?_, hinv.inj, fun hn s h3 => ?_⟩
  · obtain ⟨o, hm, ho⟩ := hinv.used s h3 (by rw [hs]; rfl)
    exact ⟨o, hm, ho, o, s, rfl, ho, hs⟩
  · cases e : w.stream s with
    | none => rfl
    | some st =>
      obtain ⟨o, hm, _⟩ := hinv.used s h3 (by rw [e]; rfl)
      rw [hn] at hm
      cases hm

example : ∃ w, Reach sys w [] ∧ w.streams = 4 :=
  ⟨_, .step (op := .free 3) reach_opened ⟨fun _ e => (nomatch e), fun o e => by cases e; exact ⟨by decide, by decide⟩, fun _ e => nomatch e⟩ rfl, rfl⟩

/-- **C92**: `fopen` returns a handle that was not in use before. -/
theorem C92_fresh {S : Sys} {w w' : World} {live : List Nat} (hr : Reach S w live) {name : Name} {mode : List Char} {f : File} {err : StdErr}
    (h : fopen S (some name) mode w = .ok (f, err) w') :
    (err = .ok ↔ f ≠ none) ∧ (err ≠ .ok → err = .nullf) ∧ ∀ o, f = some o → o ∉ live ∧ ∃ st, Open w' f st ∧ st.last = .none := by
  have hinv := reach_inv hr
  obtain ⟨_, h2⟩ := fopen_inv (S := S) hinv (name := some name) (mode := mode) (fun h => nomatch h.1)
  obtain ⟨_, ⟨h3, h4⟩, h5⟩ := h2 _ _ h
  refine ⟨h3, h4, fun o e => ?_⟩
  obtain ⟨h6, st, h7, h8, _⟩ := h5 o e
  refine ⟨fun hm => ?_, st, e ▸ h7, h8⟩
  have := hinv.live o hm
  omega

example : ∃ w', fopen sys (some "data".toList) "r".toList (opened "r+") = .ok (some 4, .ok) w' := ⟨_, rfl⟩

/-- **C91**, for every history of a program: a file that `fopen` creates is a new one.  No other name and no handle that is open refers to it,
so that neither writing to it nor writing to them changes the other one. -/
theorem C91_new_file {S : Sys} {w w' : World} {live : List Nat} (hr : Reach S w live) {name : Name} {mode : List Char} {f : File} {err : StdErr}
    (h : fopen S (some name) mode w = .ok (f, err) w') (hn : w.dir name = none) (hok : err = .ok) :
    ∃ i, w'.dir name = some i ∧ w'.file i = [] ∧ (∀ m, m ≠ name → w'.dir m ≠ some i) ∧
      (∀ g st, Open w g st → st.file ≠ i) ∧ ∀ j, j ≠ i → w'.file j = w.file j := by
  have hb := reach_below hr
  obtain ⟨_, _, h3⟩ := C91_open h
  obtain ⟨i, st, h4, _, _, _, _, h5, _, _, _, _, h6, h7⟩ := h3 hok
  rw [if_pos (.inr hn)] at h5
  have hi : i = w.files := by
    rw [fopen] at h
    split at h
    rotate_left
    · cases h; cases hok
    rw [rtlfopen, cfopen] at h
    split at h
    · cases h
    split at h
    · cases h; cases hok
    rw [hn] at h
    dsimp only at h
    split at h
    · cases h; cases hok
    · cases h
      simp only [if_pos] at h4
      exact (Option.some.inj h4).symm
  refine ⟨i, h4, h5, fun m hm e => ?_, fun g st' ho e => ?_, h7⟩
  · rw [h6 m hm] at e
    have := hb.1 m i e
    omega
  · obtain ⟨o, s, _, _, hs⟩ := ho
    have := hb.2 s st' hs
    omega

example : ∃ w', fopen sys (some "new".toList) "w".toList (opened "r+") = .ok (some 4, .ok) w' ∧ (opened "r+").dir "new".toList = none ∧
    w'.dir "new".toList = some 4 := ⟨_, rfl, by decide +kernel, by decide +kernel⟩

/-- **C92**, violated: after `fclose(stdout())`, `stdout()` is a handle to a closed stream. -/
theorem C92_std_violated : ∃ w1 w2 w3, rtlstd 1 world0 = .ok (some 1) w1 ∧ fclose (some 1) w1 = .ok .ok w2 ∧ rtlstd 1 w2 = .ok (some 1) w3 ∧
    fwrite sys (some 1) (some ⟨.bytes, some 0⟩) w3 = .ub := ⟨_, _, _, rfl, rfl, rfl, rfl⟩

/-- **C92**, violated: a file name that is an uninitialised string is passed to the C library as a null pointer. -/
theorem C92_null_name_violated : fopen sys none "r".toList world0 = .ub ∧ remove sys none world0 = .ub := ⟨rfl, rfl⟩

/-- **C92**, violated: reading right after writing is undefined. -/
theorem C92_direction_violated :
    ∃ w', fwrite sys (some 3) (some ⟨.bytes, some 0⟩) (opened "r+") = .ok (2, .ok) w' ∧ fread sys (some 3) (some ⟨.bytes, some 1⟩) w' = .ub :=
  ⟨_, rfl, rfl⟩

/-! ## C93 -/

/-- **C93** (in part: variables of size zero are excluded): `tobytes` returns the bytes of a variable without pointers, and `frombytes` gives a variable exactly these
bytes, or reports why it does not. -/
theorem C93_bytes_partial {raw : Nat → List Byte} {w : World} {v : Nat} (hne : w.var v ≠ []) :
    tobytes raw (some ⟨.plain, some v⟩) w = .ok (w.var v) w ∧
    (∀ bytes, bytes.length = (w.var v).length → ∃ w', frombytes raw (some ⟨.plain, some v⟩) bytes w = .ok .ok w' ∧ w'.var v = bytes ∧
      (∀ u, u ≠ v → w'.var u = w.var u) ∧ tobytes raw (some ⟨.plain, some v⟩) w' = .ok bytes w') ∧
    (∀ bytes, bytes.length ≠ (w.var v).length → frombytes raw (some ⟨.plain, some v⟩) bytes w = .ok .buffer w) := by
  have hlen : (w.var v).length ≠ 0 := fun h => hne (List.length_eq_zero_iff.mp h)
  refine ⟨?_, fun bytes hb => ?_, fun bytes hb => ?_⟩
  · rw [tobytes]
    · rw [if_neg hlen]
    · exact Kind.noConfusion
  · refine ⟨{ w with var := set w.var v bytes }, ?_, set_same .., fun u hu => set_ne _ _ hu, ?_⟩
    · simp only [frombytes, reduceCtorEq, if_false]
      rw [if_neg (fun h => h hb.symm), if_neg (fun h => h rfl), if_neg (by omega)]
    · rw [tobytes]
      · simp only [set_same]
        rw [if_neg (by omega)]
      · exact Kind.noConfusion
  · simp only [frombytes, reduceCtorEq, if_false]
    rw [if_pos (fun h => hb h.symm)]

example : world0.var 0 ≠ [] := fun h => nomatch h

/-- **C93**: copying a variable to another one of the same size. -/
theorem C93_copy_partial {raw : Nat → List Byte} {w : World} {u v : Nat} (hne : w.var v ≠ []) (hlen : (w.var u).length = (w.var v).length) :
    ∃ w', ((tobytes raw (some ⟨.plain, some v⟩) w).bind fun bytes w => frombytes raw (some ⟨.plain, some u⟩) bytes w) = .ok .ok w' ∧
      w'.var u = w.var v ∧ ∀ t, t ≠ u → w'.var t = w.var t := by
  have hu : w.var u ≠ [] := fun h => hne (by rw [h] at hlen; exact List.length_eq_zero_iff.mp hlen.symm)
  obtain ⟨w', h1, h2, h3, _⟩ := (C93_bytes_partial (raw := raw) hu).2.1 (w.var v) hlen.symm
  exact ⟨w', by rw [(C93_bytes_partial hne).1]; exact h1, h2, h3⟩

example : ({ world0 with var := fun _ => [1, 2] } : World).var 0 ≠ [] := fun h => nomatch h

/-- **C93**: a variable with pointers is never overwritten; `null` has no bytes. -/
theorem C93_pointers (raw : Nat → List Byte) (w : World) (buf : Option Buf) (bytes : List Byte) (h : ∀ v, buf ≠ some ⟨.plain, some v⟩) :
    (frombytes raw buf bytes w = .ok .ptr w ∨ frombytes raw buf bytes w = .ok .buffer w) ∧
    ((buf = none ∨ ∃ k, buf = some ⟨k, none⟩) → tobytes raw buf w = .ok [] w ∧ frombytes raw buf bytes w = .ok .buffer w) := by
  refine ⟨?_, ?_⟩
  · match buf with
    | none => exact .inr rfl
    | some ⟨_, none⟩ => exact .inr rfl
    | some ⟨kind, some v⟩ =>
      have hk : kind ≠ .plain := fun e => h v (by rw [e])
      rw [frombytes]
      by_cases hl : (if kind = .bytes then raw v else w.var v).length ≠ bytes.length
      · right
        rw [if_pos hl]
      · left
        rw [if_neg hl, if_pos hk]
  · rintro (rfl | ⟨k, rfl⟩)
    · exact ⟨rfl, rfl⟩
    · refine ⟨?_, ?_⟩
      · cases k <;> rfl
      · cases k <;> rfl

example : ∀ v, some (⟨.hasPtr, some 0⟩ : Buf) ≠ some ⟨.plain, some v⟩ := fun _ h => nomatch h

/-- **C93**, violated: `tobytes` of a variable of size zero, such as an empty structure, is a run-time error. -/
theorem C93_empty_violated (raw : Nat → List Byte) : world0.var 5 = [] ∧ tobytes raw (some ⟨.plain, some 5⟩) world0 = .panic := ⟨rfl, rfl⟩

end Umka.Files.Props
