import Verif.Files.Spec
/-!
# Files: lemmas

What each function does with an open and with a closed handle.
-/

namespace Umka.Files.Spec

theorem set_same {α : Type} (f : Nat → α) (i : Nat) (a : α) : set f i a i = a := if_pos rfl

theorem set_ne {α : Type} (f : Nat → α) {i j : Nat} (a : α) (h : j ≠ i) : set f i a j = f j := if_neg h

theorem toInt_small {x : Int} (h1 : -2 ^ 31 ≤ x) (h2 : x < 2 ^ 31) : toInt x = x := by
  rw [toInt]
  omega

/-- The contents after a write, item by item. -/
theorem overwrite_put (old : List Byte) (pos : Nat) (bytes : List Byte) : Put old pos bytes (overwrite old pos bytes) := by
  have hlen : (overwrite old pos bytes).length = max old.length (pos + bytes.length) := by
    simp only [overwrite, List.length_append, List.length_take, List.length_replicate, List.length_drop]
    omega
  refine ⟨hlen, fun i hi => ?_⟩
  rw [hlen] at hi
  have hA : (old.take pos).length = min pos old.length := List.length_take
  have hB : (List.replicate (pos - old.length) (0 : Byte)).length = pos - old.length := List.length_replicate
  rw [overwrite]
  by_cases h1 : i < pos
  · rw [if_neg (by omega), List.append_assoc, List.getElem?_append_left (by simp only [List.length_append]; omega)]
    by_cases h2 : i < old.length
    · rw [List.getElem?_append_left (by omega), List.getElem?_take, if_pos h1, List.getElem?_eq_getElem h2]
      rfl
    · rw [List.getElem?_append_right (by omega), List.getElem?_replicate, if_pos (by omega),
        List.getElem?_eq_none (by omega)]
      rfl
  · by_cases h2 : i < pos + bytes.length
    · rw [if_pos ⟨by omega, h2⟩, List.getElem?_append_left (by simp only [List.length_append]; omega),
        List.getElem?_append_right (by simp only [List.length_append]; omega)]
      congr 1
      simp only [List.length_append]
      omega
    · have h3 : i < old.length := by omega
      rw [if_neg (by omega), List.getElem?_append_right (by simp only [List.length_append]; omega), List.getElem?_drop,
        List.getElem?_eq_getElem h3]
      simp only [List.length_append, hA, hB]
      rw [show pos + bytes.length + (i - (min pos old.length + (pos - old.length) + bytes.length)) = i by omega,
        List.getElem?_eq_getElem h3]
      rfl

/-- Two lists with bytes put at the same place of the same list are the same. -/
theorem Put.unique {old bytes a b : List Byte} {pos : Nat} (ha : Put old pos bytes a) (hb : Put old pos bytes b) : a = b := by
  apply List.ext_getElem?
  intro i
  by_cases h : i < a.length
  · rw [ha.2 i h, hb.2 i (by rw [hb.1, ← ha.1]; exact h)]
  · rw [List.getElem?_eq_none (by omega), List.getElem?_eq_none (by rw [hb.1, ← ha.1]; omega)]

/-- The world with another state of the stream of a handle. -/
def withState (w : World) (s : Nat) (st : Stream) : World := { w with stream := set w.stream s (some st) }

theorem open_withState {w : World} {o s : Nat} (ho : w.obj o = some s) (st : Stream) : Open (withState w s st) (some o) st :=
  ⟨o, s, rfl, ho, set_same ..⟩

theorem same_withState {w : World} {o s : Nat} (ho : w.obj o = some s) (st : Stream) : SameBut (some o) none w (withState w s st) :=
  ⟨rfl, rfl, rfl, rfl, rfl, fun _ _ => rfl, fun _ ht => set_ne _ _ fun h => ht o rfl (h ▸ ho)⟩

/-- The data of a variable. -/
theorem bufData_plain {w : World} {buf : Buf} {v : Nat} (hb : Plain buf v) (hne : w.var v ≠ []) :
    bufData (some buf) w = .ok ((w.var v).length, some v) := by
  obtain ⟨kind, self⟩ := buf
  obtain ⟨h1, h2⟩ := hb
  dsimp only at h1 h2
  subst h1
  have hpos : (w.var v).length ≠ 0 := fun h => hne (List.length_eq_zero_iff.mp h)
  cases kind with
  | bytes =>
    show Except.ok ((w.var v).length, if (w.var v).length > 0 then some v else none) = _
    rw [if_pos (by omega)]
  | plain => rfl
  | hasPtr => exact absurd rfl h2

/-- Writing to an open file. -/
theorem fwrite_eq {S : Sys} {w : World} {o s v : Nat} {st : Stream} {buf : Buf} {data : List Byte} (ho : w.obj o = some s)
    (hs : w.stream s = some st) (hw : st.canWrite = true) (hl : ¬ (st.last = .read ∧ st.eof = false)) (hb : Plain buf v)
    (hv : w.var v = data) (hne : data ≠ []) :
    fwrite S (some o) (some buf) w =
      (let pos := if st.append then (w.file st.file).length else st.pos
       let done := data.take (S.room - pos)
       .ok (done.length, if done.length = data.length then .ok else .eof)
        (withState { w with
          file := if done = [] then w.file else set w.file st.file (overwrite (w.file st.file) pos done) } s
            { st with pos := pos + done.length, last := .write })) := by
  subst hv
  have hpos : (w.var v).length ≠ 0 := fun h => hne (List.length_eq_zero_iff.mp h)
  have hd := bufData_plain (w := w) hb hne
  rw [fwrite, freadwrite, if_neg (by exact fun h => nomatch h), hd]
  dsimp only
  rw [if_neg hpos, if_neg (by decide), rtlfwrite, withStream]
  simp only [ho, cfwrite, hs, hw, Bool.not_true, Bool.false_eq_true, if_false, if_neg hl, Res.bind, withState]

/-- Reading from an open file. -/
theorem fread_eq {S : Sys} {w : World} {o s v : Nat} {st : Stream} {buf : Buf} {data : List Byte} (ho : w.obj o = some s)
    (hs : w.stream s = some st) (hr : st.canRead = true) (hl : st.last ≠ .write) (hb : Plain buf v)
    (hv : w.var v = data) (hne : data ≠ []) :
    fread S (some o) (some buf) w =
      (let bytes := ((w.file st.file).drop st.pos).take data.length
       .ok (bytes.length, if bytes.length = data.length then .ok else .eof)
        (withState { w with var := set w.var v (bytes ++ data.drop bytes.length) } s
          { st with pos := st.pos + bytes.length, eof := st.eof || decide (bytes.length < data.length), last := .read })) := by
  subst hv
  have hpos : (w.var v).length ≠ 0 := fun h => hne (List.length_eq_zero_iff.mp h)
  have hd := bufData_plain (w := w) hb hne
  rw [fread, freadwrite, if_neg (by exact fun h => nomatch h), hd]
  dsimp only
  rw [if_neg hpos, if_pos rfl, rtlfread, withStream]
  simp only [ho, cfread, hs, hr, Bool.not_true, Bool.false_eq_true, if_false, if_neg hl, Res.bind, withState]

/-- Reading from or writing to an empty variable. -/
theorem freadwrite_empty {S : Sys} {w : World} {o v : Nat} {buf : Buf} {reading : Bool} (hb : Plain buf v) (he : w.var v = []) :
    freadwrite S (some o) (some buf) reading w = .ok (0, .ok) w := by
  obtain ⟨kind, self⟩ := buf
  obtain ⟨h1, h2⟩ := hb
  dsimp only at h1 h2
  subst h1
  rw [freadwrite, if_neg (by exact fun h => nomatch h)]
  cases kind with
  | bytes =>
    simp only [bufData, he]
    rfl
  | plain =>
    simp only [bufData, he]
    rfl
  | hasPtr => exact absurd rfl h2

theorem set_self {α : Type} (f : Nat → α) (i : Nat) : set f i (f i) = f := by
  funext j
  by_cases h : j = i
  · rw [h, set_same]
  · rw [set_ne _ _ h]

/-- Reading from a file that is not open for reading. -/
theorem fread_denied {S : Sys} {w : World} {o s v : Nat} {st : Stream} {buf : Buf} (ho : w.obj o = some s)
    (hs : w.stream s = some st) (hr : st.canRead = false) (hb : Plain buf v) (hne : w.var v ≠ []) :
    fread S (some o) (some buf) w = .ok (0, .eof) w := by
  have hpos : (w.var v).length ≠ 0 := fun h => hne (List.length_eq_zero_iff.mp h)
  rw [fread, freadwrite, if_neg (by exact fun h => nomatch h), bufData_plain hb hne]
  dsimp only
  rw [if_neg hpos, if_pos rfl, rtlfread, withStream]
  simp only [ho, cfread, hs, hr, Bool.not_false, if_true, Res.bind]
  rw [if_neg (by rw [List.length_nil]; omega), List.length_nil, List.drop_zero, List.nil_append, set_self]

/-- Writing to a file that is not open for writing. -/
theorem fwrite_denied {S : Sys} {w : World} {o s v : Nat} {st : Stream} {buf : Buf} (ho : w.obj o = some s)
    (hs : w.stream s = some st) (hr : st.canWrite = false) (hb : Plain buf v) (hne : w.var v ≠ []) :
    fwrite S (some o) (some buf) w = .ok (0, .eof) w := by
  have hpos : (w.var v).length ≠ 0 := fun h => hne (List.length_eq_zero_iff.mp h)
  rw [fwrite, freadwrite, if_neg (by exact fun h => nomatch h), bufData_plain hb hne]
  dsimp only
  rw [if_neg hpos, if_neg (by decide), rtlfwrite, withStream]
  simp only [ho, cfwrite, hs, hr, Bool.not_false, if_true, Res.bind]
  rw [if_neg (by omega)]

/-- Reading from and writing to a closed file. -/
theorem freadwrite_closed {S : Sys} {w : World} {o v : Nat} {buf : Buf} {reading : Bool} (ho : w.obj o = none) (hb : Plain buf v)
    (hne : w.var v ≠ []) : freadwrite S (some o) (some buf) reading w = .ok (0, .eof) w := by
  have hpos : (w.var v).length ≠ 0 := fun h => hne (List.length_eq_zero_iff.mp h)
  rw [freadwrite, if_neg (by exact fun h => nomatch h), bufData_plain hb hne]
  dsimp only
  rw [if_neg hpos]
  cases reading with
  | true =>
    rw [if_pos rfl, rtlfread, withStream]
    simp only [ho, Res.bind]
    rw [if_neg (by rw [List.length_nil]; omega), List.length_nil, List.drop_zero, List.nil_append, set_self]
  | false =>
    rw [if_neg (by decide), rtlfwrite, withStream]
    simp only [ho, Res.bind]
    rw [if_neg (by omega)]

theorem fseek_eq {w : World} {o s : Nat} {st : Stream} (ho : w.obj o = some s) (hs : w.stream s = some st) (offset : Int) (origin : Origin) :
    fseek (some o) offset origin w =
      if originPos w st origin + toInt offset < 0 then .ok .eof w
      else .ok .ok (withState w s { st with pos := (originPos w st origin + toInt offset).toNat, eof := false, last := .none }) := by
  rw [fseek, if_neg (by exact fun h => nomatch h), rtlfseek]
  simp only [withStream, ho, cfseek, hs]
  by_cases h : originPos w st origin + toInt offset < 0
  · rw [if_pos h]
    cases origin <;> simp only [originPos] at h <;> simp only [h, if_true, Res.bind] <;> rfl
  · rw [if_neg h]
    cases origin <;> simp only [originPos] at h <;> simp only [h, if_false, if_true, Res.bind] <;> rfl

theorem ftell_eq {w : World} {o s : Nat} {st : Stream} (ho : w.obj o = some s) (hs : w.stream s = some st) :
    ftell (some o) w = .ok (st.pos, .ok) w := by
  rw [ftell, if_neg (by exact fun h => nomatch h), rtlftell]
  simp only [withStream, ho, cftell, hs, Res.bind]
  rw [if_pos (by omega)]

theorem feof_eq {w : World} {o s : Nat} {st : Stream} (ho : w.obj o = some s) (hs : w.stream s = some st) :
    feof (some o) w = .ok st.eof w := by
  rw [feof, if_neg (by exact fun h => nomatch h), rtlfeof]
  simp only [withStream, ho, cfeof, hs, Res.bind]
  cases st.eof <;> rfl

theorem fflush_eq {w : World} {o s : Nat} {st : Stream} (ho : w.obj o = some s) (hs : w.stream s = some st) :
    fflush (some o) w = .ok .ok (withState w s { st with last := if st.last = .write then .none else st.last }) := by
  rw [fflush, if_neg (by exact fun h => nomatch h), rtlfflush]
  simp only [withStream, ho, cfflush, hs, Res.bind]
  rfl

theorem fclose_eq {w : World} {o s : Nat} {st : Stream} (ho : w.obj o = some s) (hs : w.stream s = some st) :
    fclose (some o) w = .ok .ok { w with stream := set w.stream s none, obj := set w.obj o none } := by
  rw [fclose, if_neg (by exact fun h => nomatch h), rtlfclose]
  simp only [withStream, ho, cfclose, hs, Res.bind]
  rfl

theorem closed_eq {S : Sys} {w : World} {o : Nat} (ho : w.obj o = none) :
    fclose (some o) w = .ok .eof w ∧ (∀ offset origin, fseek (some o) offset origin w = .ok .eof w) ∧
    ftell (some o) w = .ok (-1, .eof) w ∧ feof (some o) w = .ok true w ∧ fflush (some o) w = .ok .eof w ∧
    freadall S (some o) w = .ok ([], .eof) w := by
  have hsk : ∀ offset origin, fseek (some o) offset origin w = .ok .eof w := by
    intro offset origin
    rw [fseek, if_neg (by exact fun h => nomatch h), rtlfseek]
    simp only [withStream, ho, Res.bind]
    rfl
  refine ⟨?_, hsk, ?_, ?_, ?_, ?_⟩
  · rw [fclose, if_neg (by exact fun h => nomatch h), rtlfclose]
    simp only [withStream, ho, Res.bind]
    rfl
  · rw [ftell, if_neg (by exact fun h => nomatch h), rtlftell]
    simp only [withStream, ho, Res.bind]
    rfl
  · rw [feof, if_neg (by exact fun h => nomatch h), rtlfeof]
    simp only [withStream, ho, Res.bind]
    rfl
  · rw [fflush, if_neg (by exact fun h => nomatch h), rtlfflush]
    simp only [withStream, ho, Res.bind]
    rfl
  · rw [freadall, hsk]
    rfl

end Umka.Files.Spec
