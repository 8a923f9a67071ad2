import Verif.HostArgs.Spec
import Verif.Layout.Lemmas
/-!
# HostArgs: lemmas
-/

namespace Umka.HostArgs
open Umka.Layout (Res Fault makeParamLayout)

variable {T : Type}

theorem bind_ok {α β : Type} (a : α) (f : α → Res β) : (Except.ok a >>= f) = f a := rfl

theorem bind_eq_ok {α β : Type} {x : Res α} {f : α → Res β} {b : β} (h : (x >>= f) = .ok b) :
    ∃ a, x = .ok a ∧ f a = .ok b := by
  cases x with
  | error e => exact nomatch h
  | ok a => exact ⟨a, rfl, h⟩

theorem write_at (pre : Mem T) (w u : Word T) (post : Mem T) (k : Nat) (hk : k = pre.length) :
    write (pre ++ u :: post) k w = .ok (pre ++ w :: post) := by
  subst hk
  unfold write
  rw [if_pos (by simp)]
  simp

theorem writeAll_at (ws mid pre post : Mem T) (h : mid.length = ws.length) (k : Nat) (hk : k = pre.length) :
    writeAll (pre ++ (mid ++ post)) k ws = .ok (pre ++ (ws ++ post)) := by
  induction ws generalizing mid pre k with
  | nil =>
    obtain rfl : mid = [] := List.length_eq_zero_iff.mp h
    rfl
  | cons w ws ih =>
    cases mid with
    | nil => exact nomatch h
    | cons u mid =>
      unfold writeAll
      rw [List.cons_append, write_at pre w u _ k hk, bind_ok]
      have := ih mid (pre ++ [w]) (by simpa using h) (k + 1) (by simp [hk])
      simpa using this

theorem mapM_length {α β : Type} (f : α → Res β) (l : List α) (r : List β) (h : l.mapM f = .ok r) :
    r.length = l.length := by
  induction l generalizing r with
  | nil => cases h; rfl
  | cons a l ih =>
    rw [List.mapM_cons] at h
    obtain ⟨b, _, h⟩ := bind_eq_ok h
    obtain ⟨r', hr, h⟩ := bind_eq_ok h
    cases h
    simp [ih r' hr]

/-- The block when it is complete. -/
def image (n : Nat) (r s : Int) (first : List Int) (res : Option T) (ts : List (Option T)) (lv : Int) : Mem T :=
  [.int n, .int r, .int s] ++ (first.map .int ++ ([.type res] ++ (ts.map .type ++ [.int lv])))

theorem typesAt_image (n : Nat) (rest : Mem T) : typesAt (.int n :: rest) = .ok (3 + n) := rfl

theorem localAt_image (n : Nat) (rest : Mem T) : localAt (.int n :: rest) = .ok (3 + n + 1 + n) := rfl

theorem layout_length {sizes : List Nat} {b : Bool} {pl : Layout.ParamLayout} (h : makeParamLayout sizes b = .ok pl) :
    pl.firstSlotIndex.length = sizes.length ∧ pl.numParams = sizes.length := by
  unfold makeParamLayout at h
  obtain ⟨fs, hfs, h⟩ := bind_eq_ok h
  cases h
  refine ⟨?_, rfl⟩
  have := mapM_length _ _ _ hfs
  simpa using this

theorem make_eq {U : Types T} {d : Decl T} {lv : Int} {pl : Layout.ParamLayout}
    (hpl : makeParamLayout ((allParams U d).map Prod.snd) (U.structured d.result) = .ok pl) :
    make U d lv = .ok (image (allParams U d).length pl.numResultParams pl.numParamSlots pl.firstSlotIndex
      (some d.result) ((allParams U d).map fun p => some p.1) lv) := by
  obtain ⟨hl, hn⟩ := layout_length hpl
  rw [List.length_map] at hl hn
  unfold make
  dsimp only
  rw [hpl, bind_ok]
  clear hpl
  generalize allParams U d = ps at *
  rw [show List.replicate (blockSize ps.length) (.undef : Word T) =
      [] ++ .undef :: (.undef :: .undef :: (List.replicate ps.length .undef ++
        (.undef :: (List.replicate ps.length .undef ++ [.undef])))) by
    unfold blockSize
    rw [show 3 + ps.length + (1 + ps.length) + 1 = 3 + (ps.length + (1 + (ps.length + 1))) by omega]
    rw [← List.replicate_append_replicate, ← List.replicate_append_replicate,
      ← List.replicate_append_replicate, ← List.replicate_append_replicate]
    simp [List.replicate_succ]]
  rw [write_at [] _ _ _ 0 rfl, bind_ok, hn]
  rw [show ([] ++ .int (ps.length : Nat) :: (.undef :: .undef :: (List.replicate ps.length .undef ++
        (.undef :: (List.replicate ps.length .undef ++ [.undef])))) : Mem T) =
      [.int (ps.length : Nat)] ++ .undef :: (.undef :: (List.replicate ps.length .undef ++
        (.undef :: (List.replicate ps.length .undef ++ [.undef])))) from rfl,
    write_at [_] _ _ _ 1 rfl, bind_ok]
  rw [show ([.int (ps.length : Nat)] ++ .int pl.numResultParams :: (.undef :: (List.replicate ps.length .undef ++
        (.undef :: (List.replicate ps.length .undef ++ [.undef])))) : Mem T) =
      [.int (ps.length : Nat), .int pl.numResultParams] ++ .undef :: (List.replicate ps.length .undef ++
        (.undef :: (List.replicate ps.length .undef ++ [.undef]))) from rfl,
    write_at [_, _] _ _ _ 2 rfl, bind_ok]
  rw [show ([.int (ps.length : Nat), .int pl.numResultParams] ++ .int pl.numParamSlots ::
        (List.replicate ps.length .undef ++
        (.undef :: (List.replicate ps.length .undef ++ [.undef]))) : Mem T) =
      [.int (ps.length : Nat), .int pl.numResultParams, .int pl.numParamSlots] ++
        (List.replicate ps.length .undef ++
        (.undef :: (List.replicate ps.length .undef ++ [.undef]))) from rfl,
    writeAll_at _ _ [_, _, _] _ (by simp [hl]) 3 rfl, bind_ok]
  rw [show ([.int (ps.length : Nat), .int pl.numResultParams, .int pl.numParamSlots] ++
        (pl.firstSlotIndex.map .int ++ (.undef :: (List.replicate ps.length .undef ++ [.undef]))) : Mem T) =
      .int (ps.length : Nat) :: ([.int pl.numResultParams, .int pl.numParamSlots] ++
        (pl.firstSlotIndex.map .int ++ (.undef :: (List.replicate ps.length .undef ++ [.undef])))) from rfl,
    typesAt_image, bind_ok]
  rw [show (.int (ps.length : Nat) :: ([.int pl.numResultParams, .int pl.numParamSlots] ++
        (pl.firstSlotIndex.map .int ++ (.undef :: (List.replicate ps.length .undef ++ [.undef])))) : Mem T) =
      (.int (ps.length : Nat) :: ([.int pl.numResultParams, .int pl.numParamSlots] ++
        pl.firstSlotIndex.map .int)) ++ (.undef :: (List.replicate ps.length .undef ++ [.undef])) by simp,
    write_at _ _ _ _ _ (by simp [hl]; omega), bind_ok]
  rw [List.cons_append, typesAt_image, bind_ok]
  rw [show (.int (ps.length : Nat) :: (([.int pl.numResultParams, .int pl.numParamSlots] ++
        pl.firstSlotIndex.map .int) ++ (.type (some d.result) ::
          (List.replicate ps.length .undef ++ [.undef]))) : Mem T) =
      (.int (ps.length : Nat) :: ([.int pl.numResultParams, .int pl.numParamSlots] ++
        pl.firstSlotIndex.map .int ++ [.type (some d.result)])) ++
          (List.replicate ps.length .undef ++ [.undef]) by simp,
    writeAll_at _ _ _ _ (by simp) _ (by simp [hl]; omega), bind_ok]
  rw [List.cons_append, localAt_image, bind_ok]
  rw [show (.int (ps.length : Nat) :: (([.int pl.numResultParams, .int pl.numParamSlots] ++
        pl.firstSlotIndex.map .int ++ [.type (some d.result)]) ++
          (ps.map (fun p => .type (some p.1)) ++ [.undef])) : Mem T) =
      (.int (ps.length : Nat) :: ([.int pl.numResultParams, .int pl.numParamSlots] ++
        pl.firstSlotIndex.map .int ++ [.type (some d.result)] ++
          ps.map (fun p => .type (some p.1)))) ++ .undef :: [] by simp,
    write_at _ _ _ _ _ (by simp [hl]; omega)]
  simp [image]

theorem make_image {U : Types T} {d : Decl T} {lv : Int} {m : Mem T} (h : make U d lv = .ok m) :
    ∃ pl, makeParamLayout ((allParams U d).map Prod.snd) (U.structured d.result) = .ok pl ∧
      pl.firstSlotIndex.length = (allParams U d).length ∧
      m = image (allParams U d).length pl.numResultParams pl.numParamSlots pl.firstSlotIndex (some d.result)
        ((allParams U d).map fun p => some p.1) lv := by
  have h' := h
  unfold make at h
  dsimp only at h
  obtain ⟨pl, hpl, _⟩ := bind_eq_ok h
  refine ⟨pl, hpl, by simpa using (layout_length hpl).1, ?_⟩
  rw [make_eq hpl] at h'
  exact (Except.ok.inj h').symm

/-! ## Reading the block -/

variable {n : Nat} {r s lv : Int} {first : List Int} {res : Option T} {ts : List (Option T)}

theorem image_num : readInt (image n r s first res ts lv) 0 = .ok (n : Int) := rfl
theorem image_res : readInt (image n r s first res ts lv) 1 = .ok r := rfl

theorem image_first (hf : first.length = n) (i : Nat) (h : i < n) :
    readInt (image n r s first res ts lv) (3 + i) = .ok (first[i]'(by omega)) := by
  unfold readInt image
  rw [List.getElem?_append_right (by simp)]
  rw [List.getElem?_append_left (by simp; omega)]
  simp [List.getElem?_eq_getElem (show i < first.length by omega)]

theorem image_resultType (hf : first.length = n) :
    readType (image n r s first res ts lv) (3 + n) = .ok res := by
  unfold readType image
  rw [List.getElem?_append_right (by simp)]
  rw [List.getElem?_append_right (by simp; omega)]
  simp [hf]

theorem image_paramType (hf : first.length = n) (ht : ts.length = n) (i : Nat) (h : i < n) :
    readType (image n r s first res ts lv) (3 + n + 1 + i) = .ok (ts[i]'(by omega)) := by
  unfold readType image
  rw [List.getElem?_append_right (by simp; omega)]
  rw [List.getElem?_append_right (by simp; omega)]
  rw [List.getElem?_append_right (by simp; omega)]
  rw [List.getElem?_append_left (by simp; omega)]
  have e : 3 + n + 1 + i - [Word.int (T := T) n, .int r, .int s].length - (first.map (Word.int (T := T))).length -
      [Word.type res].length = i := by simp; omega
  rw [e]
  simp [List.getElem?_eq_getElem (show i < ts.length by omega)]

theorem image_local (hf : first.length = n) (ht : ts.length = n) :
    readInt (image n r s first res ts lv) (3 + n + 1 + n) = .ok lv := by
  unfold readInt image
  rw [List.getElem?_append_right (by simp; omega)]
  rw [List.getElem?_append_right (by simp; omega)]
  rw [List.getElem?_append_right (by simp; omega)]
  rw [List.getElem?_append_right (by simp; omega)]
  have e : 3 + n + 1 + n - [Word.int (T := T) n, .int r, .int s].length - (first.map (Word.int (T := T))).length -
      [Word.type res].length - (ts.map Word.type).length = 0 := by simp; omega
  rw [e]
  rfl

end Umka.HostArgs
