import Verif.Layout.Lemmas
/-!
# Layout: properties C30, C31, C32

C30 and C32 hold unless a size comes close to 2 GiB, where `int` overflows; the `_violated` theorems
show programs for which it does.
-/

namespace Umka.Layout.Props
open Spec

deriving instance DecidableEq for Except

/-! ## C30: structures -/

/-- The fields of a structure, in the order of declaration and with the sizes of their types, do not
overlap, are aligned and lie inside, for every structure type that the compiler can use. -/
theorem C30_struct_layout_partial (fs : Fields) (s : Struct) (h : structLayout fs = .ok s)
    (h0 : 0 ≤ s.size) :
    layouts fs = .ok (s.fields.map fun f => ⟨f.size, f.alignment⟩) ∧
    SoundStruct s.fields s.size s.alignment := by
  obtain ⟨_, hg | hb, hl⟩ := structLayout_good fs s h
  · exact ⟨hl, good_sound hg h0⟩
  · have := hb.size; omega

/-- A type whose structure wrapped around cannot be used: its size is reported as an error. -/
theorem C30_negative_size_rejected (l : Lay) (h : l.size < 0) :
    typeSize l = .error (.err .illegalType) := by
  unfold typeSize; rw [if_pos h]

/-- Items of an array do not overlap, are aligned and lie inside the array. -/
theorem C30_array_layout (base : Ty) (n : Nat) (b l : Lay) (hb : layout base = .ok b)
    (h : layout (.array n base) = .ok l) :
    l.alignment = b.alignment ∧ 0 ≤ l.size ∧
    (∀ i : Nat, i < n → Aligned ⟨i * b.size, b.size, b.alignment⟩ ∧
      Within ⟨i * b.size, b.size, b.alignment⟩ 0 l.size) ∧
    (∀ i j : Nat, i ≠ j → Disjoint ⟨i * b.size, b.size, b.alignment⟩ ⟨j * b.size, b.size, b.alignment⟩) := by
  have hg := layout_good base b hb
  rw [layout, hb] at h
  obtain ⟨_, hz, rfl⟩ := resizeArray_good hg h
  have hm : b.size % b.alignment = 0 := hg.2.2 hz
  refine ⟨rfl, Int.mul_nonneg (by omega) hz, ?_, ?_⟩
  · intro i hi
    refine ⟨?_, Int.mul_nonneg (by omega) hz, ?_⟩
    · unfold Aligned; dsimp only; rw [Int.mul_emod, hm]; simp
    · dsimp only
      have : ((i : Int) + 1) * b.size ≤ n * b.size := Int.mul_le_mul_of_nonneg_right (by omega) hz
      rw [Int.add_mul] at this; omega
  · have key : ∀ i j : Nat, i < j → (i : Int) * b.size + b.size ≤ j * b.size := by
      intro i j hij
      have : ((i : Int) + 1) * b.size ≤ j * b.size := Int.mul_le_mul_of_nonneg_right (by omega) hz
      rw [Int.add_mul] at this; omega
    intro i j hij x hx
    dsimp only at hx
    rcases Nat.lt_or_gt_of_ne hij with h | h
    · have := key i j h; omega
    · have := key j i h; omega

/-- An array type is accepted exactly if its length and its size are at most 2147483647; otherwise it is reported as too large.  Nothing overflows. -/
theorem C30_array_limit (base : Ty) (n : Nat) (b : Lay) (hb : layout base = .ok b) (h0 : 0 ≤ b.size) :
    layout (.array n base) = if (n : Int) ≤ 2147483647 ∧ (n : Int) * b.size ≤ 2147483647 then .ok ⟨n * b.size, b.alignment⟩
      else .error (.err .arrayTooLarge) := by
  rw [layout, hb]
  show resizeArray b n = _
  unfold resizeArray
  by_cases hn : (n : Int) > intMax
  · rw [if_pos hn, if_neg (by unfold intMax at hn; omega)]
  · rw [if_neg hn]
    have hs : typeSize b = .ok b.size := by unfold typeSize; rw [if_neg (by omega)]
    rw [hs]
    show (if 0 < n ∧ b.size > Int.tdiv intMax n then _ else _) = _
    have hm : 0 ≤ (n : Int) * b.size := Int.mul_nonneg (by omega) h0
    have key : (0 < n ∧ b.size > Int.tdiv intMax n) ↔ ¬ (n : Int) * b.size ≤ 2147483647 := by
      rcases Nat.eq_zero_or_pos n with z | z
      · subst z; simp
      · have pn : (0 : Int) < n := by omega
        rw [Int.tdiv_eq_ediv_of_nonneg (by decide)]
        rw [Int.mul_comm, ← Int.le_ediv_iff_mul_le pn]
        unfold intMax
        omega
    by_cases hk : (n : Int) * b.size ≤ 2147483647
    · rw [if_neg (by rw [key]; omega), if_pos ⟨by unfold intMax at hn; omega, hk⟩]
      have : checked ((n : Int) * b.size) = .ok (n * b.size) := by
        unfold checked
        rw [if_pos (by unfold intMax; omega)]
      rw [this]
      rfl
    · rw [if_pos (by rw [key]; exact hk), if_neg (by omega)]

example : layout (.array 268435455 (.prim .bytes8)) = .ok ⟨2147483640, 8⟩ ∧ layout (.array 268435456 (.prim .bytes8)) = .error (.err .arrayTooLarge) := by
  constructor
  · rw [C30_array_limit _ _ ⟨8, 8⟩ rfl (by decide)]; rfl
  · rw [C30_array_limit _ _ ⟨8, 8⟩ rfl (by decide)]; rfl

/-- Every type has a size that is a multiple of its alignment, which is 1, 2, 4 or 8. -/
theorem C30_size_multiple (t : Ty) (l : Lay) (h : layout t = .ok l) (h0 : 0 ≤ l.size) :
    (l.alignment = 1 ∨ l.alignment = 2 ∨ l.alignment = 4 ∨ l.alignment = 8) ∧
    l.size % l.alignment = 0 ∧ l.size ≤ 2147483647 :=
  ⟨(layout_good t l h).1, (layout_good t l h).2.2 h0, (layout_good t l h).2.1⟩

/-- `struct {b: bool; a: [268435455]int}`: the check admits it and `int` overflows. -/
theorem C30_overflow_violated :
    structLayout (.add (.add .none (.prim .bytes1)) (.array 268435455 (.prim .bytes8))) = .error .ub ∧
    layout (.array 268435455 (.prim .bytes8)) = .ok ⟨2147483640, 8⟩ := by
  constructor <;> decide +kernel

/-- `struct {a: bool; b: int; c: int16; d: []int}`. -/
example : structLayout (.add (.add (.add (.add .none (.prim .bytes1)) (.prim .bytes8)) (.prim .bytes2))
      (.prim .dynArray)) =
    .ok ⟨[⟨0, 1, 1⟩, ⟨8, 8, 8⟩, ⟨16, 2, 2⟩, ⟨24, 24, 8⟩], 48, 8⟩ := by decide +kernel

/-- An array of `struct {a: int16; b: bool}`. -/
example : layout (.array 5 (.struct (.add (.add .none (.prim .bytes2)) (.prim .bytes1)))) =
    .ok ⟨20, 2⟩ := by decide +kernel

/-! ## C31: parameters -/

/-- For a function with `sizes` of parameters (the first is the closure's captured variables, the
last is the pointer to a structured result, if there is one), each user parameter `i` is found by
`umkaGetParam` at the slot where it was pushed; other numbers give a null pointer. -/
theorem C31_get_param_partial (sizes : List Nat) (structuredResult : Bool)
    (hlen : 1 + (if structuredResult then 1 else 0) ≤ sizes.length)
    (hfit : 8 * (sizes.map slots).sum ≤ 2147483600) :
    ∃ l, makeParamLayout sizes structuredResult = .ok l ∧ l.numParamSlots = (sizes.map slots).sum ∧
      ∀ i : Int, getParam l i =
        if 0 ≤ i ∧ i < (sizes.length : Int) - (if structuredResult then 1 else 0) - 1
        then .ok (some (slotsAfter sizes (i.toNat + 1))) else .ok none := by
  refine ⟨_, makeParamLayout_eq sizes structuredResult hfit, rfl, ?_⟩
  intro i
  unfold getParam
  dsimp only
  have e : ((if structuredResult = true then 1 else 0 : Nat) : Int) =
      (if structuredResult = true then (1 : Int) else 0) := by cases structuredResult <;> rfl
  rw [← e]
  generalize (if structuredResult = true then 1 else 0 : Nat) = r at *
  by_cases hn : i < 0 ∨ i ≥ (sizes.length : Int) - r - 1
  · rw [if_pos hn, if_neg (by omega)]
  · rw [if_neg hn, if_pos (by omega), List.getElem?_map, List.getElem?_range (by omega)]
    rfl

/-- The slots of two parameters do not overlap and all lie in the area of the parameters. -/
theorem C31_params_disjoint (sizes : List Nat) (i j : Nat) (hij : i < j) (hj : j < sizes.length) :
    slotsAfter sizes j + slots sizes[j] ≤ slotsAfter sizes i ∧
    slotsAfter sizes i + slots sizes[i] ≤ (sizes.map slots).sum := by
  have h1 := slotsAfter_step sizes j hj
  have h2 := slotsAfter_step sizes i (by omega)
  have h3 := drop_sum_le sizes (i + 1) j hij
  have h4 := sum_take_drop sizes i
  refine ⟨?_, by omega⟩
  rw [h1]; exact h3

/-- The caller pushes the parameters one after another downwards: what is pushed last comes first. -/
theorem C31_push_order (sizes : List Nat) (i : Nat) (h : i + 1 < sizes.length) :
    slotsAfter sizes i = slotsAfter sizes (i + 1) + slots sizes[i + 1] ∧
    slotsAfter sizes (sizes.length - 1) = 0 := by
  refine ⟨?_, ?_⟩
  · rw [slotsAfter_step sizes (i + 1) h]; rfl
  · unfold slotsAfter
    rw [show sizes.length - 1 + 1 = sizes.length by omega, List.drop_length]
    rfl

/-- Two parameters of almost 2 GiB each: the total wraps around, so that the parameters seem to need
no slots, and the first of them is looked for 2^61 slots away. -/
theorem C31_overflow_violated :
    makeParamLayout [16, 2147483640, 2147483640] false =
      .ok ⟨3, 0, 0, [-2, 2305843008945258495, 0]⟩ := by decide +kernel

/-- `fn f(a: int, b: struct {x, y, z: int32}, c: bool): []int`. -/
example : makeParamLayout [16, 8, 12, 1, 8] true = .ok ⟨5, 1, 7, [5, 4, 2, 1, 0]⟩ := by decide +kernel

/-! ## C32: local variables -/

/-- The local variables of one function never share memory, also when they are in different blocks
of that function or functions are nested; each is aligned; and each lies in the frame
that the function reserves, which begins 16 bytes below the base. -/
theorem C32_locals_partial (ops : List Op) (s : State) (h : run init ops = .ok s)
    (htypes : ∀ l, Op.alloc l ∈ ops → 0 ≤ l.size ∧ ∃ t, layout t = .ok l)
    (hfit : bytes ops ≤ 2147483600) :
    (s.vars.Pairwise fun v w => v.fn = w.fn → Disjoint v.part w.part) ∧
    (∀ v ∈ s.vars, Aligned v.part) ∧
    (∀ v ∈ s.vars, ∀ frame ∈ s.frames, frame.1 = v.fn → Within v.part (-16 - 8 * frame.2) (-16)) := by
  have hg : ∀ op ∈ ops, GoodOp op := by
    intro op hop
    cases op with
    | alloc l =>
      obtain ⟨h0, t, ht⟩ := htypes l hop
      exact ⟨(layout_good t l ht).1, h0⟩
    | _ => trivial
  have hi := run_inv inv_init hg (Int.le_refl _) (by omega) h
  refine ⟨?_, hi.aligned, ?_⟩
  · refine hi.disjoint.imp ?_
    intro v w hvw hf x
    have := hvw hf
    omega
  · intro v hv p hp e
    exact hi.inFrame v hv p hp e.symm.symm

/-- The function that encloses each declaration: `stack` has the enclosing blocks, innermost first. -/
def owners (stack : List (Option Nat)) (next : Nat) : List Op → List (Option Nat)
  | [] => []
  | .enter :: ops => owners (none :: stack) next ops
  | .enterFn :: ops => owners (some next :: stack) (next + 1) ops
  | .leave :: ops => owners stack.tail next ops
  | .alloc _ :: ops => stack.findSome? id :: owners stack next ops

theorem allocStack_owner {l : Lay} {bs bs' : List Block} {fn : Nat} {o : Int}
    (h : allocStack l bs = .ok (bs', fn, o)) :
    (bs.map Block.fn).findSome? id = some fn ∧ bs'.map Block.fn = bs.map Block.fn := by
  induction bs generalizing bs' with
  | nil => cases h
  | cons b bs ih =>
    cases bs with
    | nil => cases h
    | cons b2 bs =>
      rw [allocStack.eq_def] at h
      dsimp only at h
      split at h
      · next f hf =>
        obtain ⟨size, hs, h⟩ := bind_eq_ok h
        obtain ⟨room, hr, h⟩ := bind_eq_ok h
        split at h
        · cases h
        injection h with h
        injection h with h1 h2
        injection h2 with h2 h3
        subst h1 h2
        simp [hf]
      · next hf =>
        obtain ⟨⟨bs1, fn1, o1⟩, h1, h⟩ := bind_eq_ok h
        injection h with h
        injection h with e1 e2
        injection e2 with e2 e3
        subst e1 e2 e3
        have := ih h1
        dsimp only
        rw [List.map_cons, hf]
        refine ⟨by rw [List.findSome?_cons]; exact this.1, ?_⟩
        rw [List.map_cons, hf, this.2]

/-- Each declaration gets one variable of its own, with the size of its type, in the frame of the
function that encloses the declaration. -/
theorem C32_each_variable_placed (ops : List Op) (s : State) (h : run init ops = .ok s) :
    s.vars.reverse.map (fun v => (⟨v.part.size, v.part.alignment⟩ : Lay)) =
      ops.filterMap (fun | .alloc l => some l | _ => none) ∧
    s.vars.reverse.map (fun v => some v.fn) = owners [none] 0 ops := by
  have key : ∀ (ops : List Op) (s0 s : State), run s0 ops = .ok s →
      s.vars.reverse.map (fun v => (⟨v.part.size, v.part.alignment⟩ : Lay)) =
        s0.vars.reverse.map (fun v => (⟨v.part.size, v.part.alignment⟩ : Lay)) ++
        ops.filterMap (fun | .alloc l => some l | _ => none) ∧
      s.vars.reverse.map (fun v => some v.fn) =
        s0.vars.reverse.map (fun v => some v.fn) ++ owners (s0.blocks.map Block.fn) s0.numFns ops := by
    intro ops
    induction ops with
    | nil => intro s0 s h; injection h with h; subst h; simp [owners]
    | cons op ops ih =>
      intro s0 s h
      rw [run] at h
      obtain ⟨s1, h1, h⟩ := bind_eq_ok h
      obtain ⟨ih1, ih2⟩ := ih s1 s h
      rw [ih1, ih2]
      cases op with
      | enter => injection h1 with h1; subst h1; exact ⟨rfl, rfl⟩
      | enterFn => injection h1 with h1; subst h1; exact ⟨rfl, rfl⟩
      | leave =>
        rw [step.eq_def] at h1
        dsimp only at h1
        split at h1
        · next b b' bs hbs =>
          split at h1 <;>
          · injection h1 with h1; subst h1; rw [owners, hbs]; exact ⟨rfl, rfl⟩
        · cases h1
      | alloc l =>
        obtain ⟨⟨bs', fn, o⟩, ha, h1⟩ := bind_eq_ok h1
        injection h1 with h1; subst h1
        obtain ⟨o1, o2⟩ := allocStack_owner ha
        rw [owners, o1]
        dsimp only
        rw [o2]
        simp
  simpa [init] using key ops init s h

/-- `var b: bool; var a: [268435455]int`: the second variable lies above the base of the frame, and
the frame has a meaningless size. -/
theorem C32_overflow_violated :
    (run init [.enterFn, .alloc ⟨1, 1⟩, .alloc ⟨2147483640, 8⟩]).map (fun s => s.vars.map (·.part.offset)) =
      .ok [2147483632, -17] := by decide +kernel

/-- A function with two blocks and a nested function. -/
def sample : List Op :=
  [.enterFn, .alloc ⟨1, 1⟩, .enter, .alloc ⟨8, 8⟩, .enterFn, .alloc ⟨8, 8⟩, .leave, .alloc ⟨2, 2⟩, .leave,
    .enter, .alloc ⟨4, 4⟩, .leave, .leave]

example : (run init sample).map (fun s => (s.vars.map fun v => (v.fn, v.part.offset), s.frames)) =
    .ok ([(0, -40), (0, -34), (1, -24), (0, -32), (0, -17)], [(0, 3), (1, 1)]) ∧
    bytes sample ≤ 2147483600 := by
  constructor <;> decide +kernel

end Umka.Layout.Props
