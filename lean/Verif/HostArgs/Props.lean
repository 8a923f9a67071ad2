import Verif.HostArgs.Lemmas
/-!
# HostArgs: properties

C106.  The two things that do not hold are about functions that are called when a chunk is freed: see the
`_violated` theorems.
-/

namespace Umka.HostArgs.Props
open Umka.HostArgs Umka.HostArgs.Spec
open Umka.Layout (Res Fault makeParamLayout)

variable {T : Type}

theorem numResult_eq {sizes : List Nat} {b : Bool} {pl : Layout.ParamLayout}
    (h : makeParamLayout sizes b = .ok pl) : pl.numResultParams = if b then 1 else 0 := by
  unfold makeParamLayout at h
  obtain ⟨fs, _, h⟩ := bind_eq_ok h
  cases h
  rfl

theorem allParams_length (U : Types T) (d : Decl T) :
    (allParams U d).length = 1 + d.params.length + (if U.structured d.result then 1 else 0) := by
  unfold allParams
  cases U.structured d.result <;> simp <;> omega

theorem allParams_get (U : Types T) (d : Decl T) (i : Nat) (h : i < d.params.length) :
    (allParams U d)[i + 1]? = some d.params[i] := by
  unfold allParams
  rw [List.append_assoc, List.singleton_append, List.getElem?_cons_succ, List.getElem?_append_left h]
  simp [h]

/-- Inside a function of the host, the type of each parameter is the declared one, whatever parameters the
compiler adds; there are no others. -/
theorem C106_param_type (U : Types T) (d : Decl T) (lv : Int) (m : Mem T) (h : make U d lv = .ok m) (i : Int) :
    getParamType m i = .ok ((item d.params i).map Prod.fst) := by
  obtain ⟨pl, hpl, hf, rfl⟩ := make_image h
  have hr := numResult_eq hpl
  have hn := allParams_length U d
  unfold getParamType
  rw [image_num, bind_ok, image_res, bind_ok]
  unfold item
  by_cases hi : i < 0 ∨ i ≥ ((allParams U d).length : Int) - pl.numResultParams - 1
  · rw [if_pos hi]
    by_cases h0 : i < 0
    · rw [if_pos h0]; rfl
    · rw [if_neg h0, List.getElem?_eq_none (by split at hr <;> simp_all <;> omega)]; rfl
  · rw [if_neg hi, if_neg (by omega)]
    have hlt : i.toNat < d.params.length := by split at hr <;> simp_all <;> omega
    rw [show image (allParams U d).length pl.numResultParams pl.numParamSlots pl.firstSlotIndex (some d.result)
        ((allParams U d).map fun p => some p.1) lv = .int (allParams U d).length ::
          (image (allParams U d).length pl.numResultParams pl.numParamSlots pl.firstSlotIndex (some d.result)
        ((allParams U d).map fun p => some p.1) lv).tail from rfl, typesAt_image, bind_ok]
    rw [← show image (allParams U d).length pl.numResultParams pl.numParamSlots pl.firstSlotIndex (some d.result)
        ((allParams U d).map fun p => some p.1) lv = .int (allParams U d).length ::
          (image (allParams U d).length pl.numResultParams pl.numParamSlots pl.firstSlotIndex (some d.result)
        ((allParams U d).map fun p => some p.1) lv).tail from rfl]
    have e : (i + 1).toNat = i.toNat + 1 := by omega
    rw [e, image_paramType hf (by simp) (i.toNat + 1) (by omega)]
    have hg := allParams_get U d i.toNat hlt
    rw [List.getElem?_eq_getElem (by omega)] at hg
    rw [List.getElem_map, Option.some.inj hg, List.getElem?_eq_getElem hlt]
    rfl

/-- So is the type of the result; and the number of slots of local variables is not mixed up with them. -/
theorem C106_result_type (U : Types T) (d : Decl T) (lv : Int) (m : Mem T) (h : make U d lv = .ok m) :
    getResultType m = .ok (some d.result) ∧ getLocalVarSlots m = .ok lv := by
  obtain ⟨pl, hpl, hf, rfl⟩ := make_image h
  exact ⟨image_resultType hf, image_local hf (by simp)⟩

theorem slotsOf_eq (ps : List (T × Nat)) : slotsOf ps = ((ps.map Prod.snd).map Layout.Spec.slots).sum := by
  unfold slotsOf
  rw [List.map_map]
  rfl

theorem slotsOf_append (a b : List (T × Nat)) : slotsOf (a ++ b) = slotsOf a + slotsOf b := by
  simp [slotsOf]

theorem slotsAfter_eq (ps : List (T × Nat)) (i : Nat) :
    Layout.Spec.slotsAfter (ps.map Prod.snd) i = slotsOf (ps.drop (i + 1)) := by
  rw [slotsOf_eq]
  unfold Layout.Spec.slotsAfter
  rw [List.map_drop, List.map_drop, List.map_drop]

theorem allParams_slots (U : Types T) (d : Decl T) :
    slotsOf (allParams U d) = 2 + slotsOf d.params + (if U.structured d.result then 1 else 0) := by
  unfold allParams
  rw [slotsOf_append, slotsOf_append]
  cases U.structured d.result <;> simp [slotsOf, Spec.slots]

theorem allParams_drop (U : Types T) (d : Decl T) (i : Nat) (h : i ≤ d.params.length) :
    slotsOf ((allParams U d).drop (i + 1)) =
      slotsOf (d.params.drop i) + (if U.structured d.result then 1 else 0) := by
  unfold allParams
  rw [List.append_assoc, List.singleton_append, List.drop_succ_cons, List.drop_append_of_le_length h, slotsOf_append]
  cases U.structured d.result <;> simp [slotsOf, Spec.slots]

/-- Less than 2 GiB of parameters. -/
def Fits (d : Decl T) : Prop := 8 * slotsOf d.params ≤ 2147483500

theorem make_fits (U : Types T) (d : Decl T) (hd : Fits d) :
    makeParamLayout ((allParams U d).map Prod.snd) (U.structured d.result) =
      .ok ⟨(allParams U d).length, if U.structured d.result then 1 else 0, slotsOf (allParams U d),
        (List.range (allParams U d).length).map fun i => (slotsOf ((allParams U d).drop (i + 1)) : Int)⟩ := by
  have hs := allParams_slots U d
  unfold Fits at hd
  rw [Layout.makeParamLayout_eq _ _ (by rw [← slotsOf_eq]; split at hs <;> omega), List.length_map, ← slotsOf_eq]
  simp only [slotsAfter_eq]

/-- Inside a function of the host: each parameter begins after the slots of those declared after it and of the
pointer to a structured result; captured variables begin after all of these; and the slot of the result holds the
pointer to the structured result that the caller pushed last, or is left as it is if the result is not structured. -/
theorem C106_slots_partial (U : Types T) (d : Decl T) (lv : Int) (m : Mem T) (h : make U d lv = .ok m)
    (hd : Fits d) :
    (∀ i : Int, getParam m i = .ok (if 0 ≤ i ∧ i < d.params.length then
      some (slotsOf (d.params.drop (i.toNat + 1)) + (if U.structured d.result then 1 else 0)) else none)) ∧
    getUpvalue m = .ok (slotsOf d.params + (if U.structured d.result then 1 else 0)) ∧
    ∀ (V : Type) (params : Int → V) (result : V),
      getResult m params result = .ok (if U.structured d.result then params 0 else result) := by
  obtain ⟨pl, hpl, hf, rfl⟩ := make_image h
  have hn := allParams_length U d
  rw [make_fits U d hd] at hpl
  cases hpl
  dsimp only at hf ⊢
  refine ⟨fun i => ?_, ?_, fun V params result => ?_⟩
  · unfold getParam
    rw [image_num, bind_ok, image_res, bind_ok]
    by_cases hi : i < 0 ∨ i ≥ ((allParams U d).length : Int) - ((if U.structured d.result then 1 else 0 : Nat) : Int) - 1
    · rw [if_pos hi, if_neg (by split at hn <;> simp_all <;> omega)]; rfl
    · rw [if_neg hi]
      have hlt : 0 ≤ i ∧ i < d.params.length := by split at hn <;> simp_all <;> omega
      rw [if_pos hlt, image_first hf _ (by omega), bind_ok]
      simp only [List.getElem_map, List.getElem_range]
      rw [show (i + 1).toNat = i.toNat + 1 by omega, allParams_drop U d (i.toNat + 1) (by omega)]
      cases U.structured d.result <;> rfl
  · unfold getUpvalue
    rw [show (3 : Nat) = 3 + 0 from rfl, image_first hf 0 (by omega)]
    simp only [List.getElem_map, List.getElem_range]
    rw [allParams_drop U d 0 (by omega), List.drop_zero]
    cases U.structured d.result <;> rfl
  · unfold getResult
    rw [image_res, bind_ok]
    cases hst : U.structured d.result with
    | false => rfl
    | true =>
      rw [if_pos (by rfl), image_num, bind_ok, show (((allParams U d).length : Int) - 1).toNat =
        (allParams U d).length - 1 by omega, image_first hf _ (by omega), bind_ok]
      simp only [List.getElem_map, List.getElem_range]
      rw [show (allParams U d).length - 1 + 1 = (allParams U d).length by omega, List.drop_length]
      rfl

/-- The block is made without going outside of the memory reserved for it. -/
theorem C106_block_partial (U : Types T) (d : Decl T) (lv : Int) (hd : Fits d) : ∃ m, make U d lv = .ok m :=
  ⟨_, make_eq (make_fits U d hd)⟩

/-- `fn f(a: int, b: [3]int32, c: bool): []int`; types are strings here. -/
def sampleTypes : Types String := ⟨"any", ("^" ++ ·), fun t => t = "[]int"⟩
def sample : Decl String := ⟨[("int", 8), ("[3]int32", 12), ("bool", 1)], "[]int"⟩

example : make sampleTypes sample 4 = .ok
    [.int 5, .int 1, .int 7, .int 5, .int 4, .int 2, .int 1, .int 0, .type (some "[]int"), .type (some "any"),
      .type (some "int"), .type (some "[3]int32"), .type (some "bool"), .type (some "^[]int"), .int 4] := by
  rfl

example : Fits sample := by unfold Fits; decide +kernel

example : getParamType ((make sampleTypes sample 4).toOption.getD []) 1 = .ok (some "[3]int32") ∧
    getParam ((make sampleTypes sample 4).toOption.getD []) 1 = .ok (some 2) ∧
    getUpvalue ((make sampleTypes sample 4).toOption.getD []) = .ok 5 := ⟨rfl, rfl, rfl⟩

/-! ## Calls when a chunk is freed -/

/-- A function that is called when a chunk is freed has one parameter, the only slot it is given; types of
parameters and of the result are null pointers, as documented. -/
theorem C106_onfree : ∃ m : Mem T, onFreeBlock = .ok m ∧
    (∀ i, getParam m i = .ok (if i = 0 then some 0 else none)) ∧
    (∀ i, getParamType m i = .ok none) ∧ getResultType m = .ok none := by
  refine ⟨_, rfl, fun i => ?_, fun i => ?_, rfl⟩
  · by_cases h : i = 0
    · subst h; rfl
    · rw [if_neg h]
      exact (congrArg (fun p : Res (Option Int) => p) (if_pos (show i < 0 ∨ i ≥ (2 : Int) - 0 - 1 by omega)))
  · by_cases h : i = 0
    · subst h; rfl
    · exact (congrArg (fun p : Res (Option T) => p) (if_pos (show i < 0 ∨ i ≥ (2 : Int) - 0 - 1 by omega)))

theorem lookAt_eq (s : Nat) : lookAt s = .ok (some s) := rfl

theorem callback_sees (self : Nat) (acts : Acts) (s : Nat) (hl : LooksFirst acts) (hs : s = self ∨ NoLook acts) :
    ∀ x ∈ (callback self acts s).2, x.2 = .ok (some x.1) := by
  induction acts generalizing self s with
  | done => intro x hx; exact nomatch hx
  | look rest ih =>
    intro x hx
    rcases hs with rfl | hs
    · rcases List.mem_cons.mp hx with rfl | hx
      · exact lookAt_eq _
      · exact ih _ _ hl (.inl rfl) x hx
    · exact hs.elim
  | drop q body rest ih1 ih2 =>
    intro x hx
    rcases List.mem_append.mp hx with hx | hx
    · exact ih1 q q hl.1 (.inl rfl) x hx
    · exact ih2 _ _ hl.2.2 (.inr hl.2.1) x hx

/-- However callbacks are nested: a callback that looks at its parameter before it drops references to other chunks
finds the chunk that is freed. -/
theorem C106_onfree_chunk_partial (p : Nat) (acts : Acts) (h : LooksFirst acts) :
    ∀ x ∈ onFree p acts, x.2 = .ok (some x.1) := callback_sees p acts p h (.inl rfl)

example : LooksFirst (.look (.drop 2 (.look (.drop 3 (.look .done) .done)) (.drop 4 (.look .done) .done))) ∧
    onFree 1 (.look (.drop 2 (.look (.drop 3 (.look .done) .done)) (.drop 4 (.look .done) .done))) =
      [(1, .ok (some 1)), (2, .ok (some 2)), (3, .ok (some 3)), (4, .ok (some 4))] :=
  ⟨⟨⟨trivial, trivial, trivial⟩, trivial, trivial, trivial, trivial⟩, rfl⟩

/-- The slot is `static`: a callback that drops the last reference to another chunk with a callback, and looks at its
parameter then, finds the other chunk (which has been freed). -/
theorem C106_onfree_chunk_violated : ¬ ∀ (p : Nat) (acts : Acts), ∀ x ∈ onFree p acts, x.2 = .ok (some x.1) := by
  intro h
  have := h 1 (.drop 2 .done (.look .done)) (1, .ok (some 2)) (.head _)
  exact absurd (Option.some.inj (Except.ok.inj this)) (by decide)

/-- In such a callback `umkaGetUpvalue` gives, instead of a null pointer, the slot of the parameter: the chunk pointer is
taken for captured variables, which need two slots where there is one. -/
theorem C106_onfree_upvalue_violated : ∃ m : Mem T, onFreeBlock = .ok m ∧ getUpvalue m = .ok 0 ∧
    getParam m 0 = .ok (some 0) := ⟨_, rfl, rfl, rfl⟩

end Umka.HostArgs.Props
