import Verif.Conv.Operator
import Verif.Conv.Values
/-!
# C81–C84: type conversions
-/

namespace Umka.Conv.Props

open Umka.Types (Graph Kind Node Field Equivalent WellFormed)
open Umka.Iface (Env Method Compatible IsPtrTo)

/-! ## A program -/

/-- Types of a program, by number: those up to 33, and from 34 on pointers to them.

    type E = enum (uint) {…};  type F = enum {…};  type G = enum (uint8) {…}
    type (T = []T);  type (U = []U);  type (A = [][]A);  type Ints = []int
    type S = struct {x: int};  type I = interface {get(): int};  fn (s: ^S) get(): int
-/
def graph : Graph where
  n := 68
  node := fun t =>
    let none' : Types.Sig 68 := ⟨[], 0, false, false, 0⟩
    let N (k : Kind) (base : Fin 68) (fs : List (Field 68) := []) (id : Option Nat := none) (isEnum : Bool := false) (numItems : Nat := fs.length)
        (sig : Types.Sig 68 := none') : Node 68 :=
      { kind := k, block := 0, numItems := numItems, isEnum := isEnum, typeIdent := id, base := base, fields := fs, sig := sig }
    match t.val with
    | 0 => N .void 0
    | 1 => N .null 0
    | 2 => N .int 2
    | 3 => N .uint 2
    | 4 => N .real 2
    | 5 => N .char 2
    | 6 => N .str 2
    | 7 => N .dynarray 5
    | 8 => N .uint8 2
    | 9 => N .dynarray 8
    | 10 => N .uint 2 [] (some 1) true
    | 11 => N .int 2 [] (some 2) true
    | 12 => N .uint8 2 [] (some 3) true
    | 13 => N .dynarray 12
    | 14 => N .dynarray 14 [] (some 4)
    | 15 => N .dynarray 15 [] (some 5)
    | 16 => N .dynarray 2
    | 17 => N .dynarray 2
    | 18 => N .dynarray 4
    | 19 => N .array 2 [] none false 3
    | 20 => N .weakptr 2
    | 21 => N .bool 2
    | 22 => N .interface 0 [⟨"#self", 34⟩, ⟨"#selftype", 34⟩]
    | 23 => N .fn 0
    | 24 => N .closure 0 [⟨"#fn", 23⟩, ⟨"#upvalues", 22⟩]
    | 25 => N .struct 0 [⟨"0", 2⟩, ⟨"1", 5⟩]
    | 26 => N .struct 0 [⟨"0", 4⟩, ⟨"1", 6⟩]
    | 27 => N .dynarray 28 [] (some 6)
    | 28 => N .dynarray 27
    | 29 => N .dynarray 2 [] (some 7)
    | 30 => N .struct 0 [⟨"x", 2⟩] (some 8)
    | 31 => N .interface 0 [⟨"#self", 34⟩, ⟨"#selftype", 34⟩, ⟨"get", 32⟩] (some 9)
    | 32 => N .fn 0 [] none false 0 ⟨[⟨34, 0⟩], 0, true, true, 2⟩
    | 33 => N .fn 0 [] none false 0 ⟨[⟨64, 0⟩], 0, true, false, 2⟩
    | 66 => N .ptr 0
    | i => N .ptr (Fin.ofNat 68 (i - 34))
  dflt := fun a b => a == b

abbrev env : Env where
  fp := ⟨fun v => v.setWidth 32, fun v => v.setWidth 64, fun _ => false, fun _ => false⟩
  g := graph
  size := fun (t : Fin 68) => match t.val with | 5 => 1 | 8 => 1 | 12 => 1 | 21 => 1 | 7 | 9 | 13 | 14 | 15 | 16 | 17 | 18 | 27 | 28 | 29 => 24 | 19 => 24 | 22 => 16 | 24 => 24 | 31 => 24 | 25 => 16 | 26 => 16 | _ => 8
  typeModule := fun _ => 1
  module := 1
  methods := ([⟨"get", 1, true, 64, 33, 1234⟩] : List (Method 68))

abbrev world : World where
  e := env
  exprList := fun (t : Fin 68) => decide (t.val = 25 ∨ t.val = 26)
  sameAs := fun (t : Fin 68) => if t.val = 29 then (16 : Fin 68) else t
  ptrTo := fun (t : Fin 68) => Fin.ofNat 68 (t.val + 34)

abbrev ty (t : Fin 68) : world.T := t

theorem graph_wf : WellFormed graph where
  dflt_refl := fun a => by simp [graph]
  dflt_symm := fun a b h => by simp only [graph, beq_iff_eq] at h ⊢; exact h.symm
  dflt_trans := fun a b c h h' => by simp only [graph, beq_iff_eq] at h h' ⊢; exact h.trans h'
  names := by simp only [Types.Named, Types.SameName]; decide +kernel
  methods := by decide +kernel
  noMethods := by simp only [Types.children]; decide +kernel

theorem env_ok : env.Ok where
  count := by decide
  types := graph_wf
  hidden := by
    have : ∀ t : Fin 68, (graph.node t).kind = .interface → ((graph.node t).fields.map (·.name)).take 2 = ["#self", "#selftype"] := by decide +kernel
    intro t ht
    refine ⟨((graph.node t).fields.map (·.name)).drop 2, ?_⟩
    have h := this t ht
    have := List.take_append_drop 2 ((graph.node t).fields.map (·.name))
    rw [h] at this
    exact this.symm
  names := by decide +kernel
  ordinal := by decide +kernel
  real32 := by decide +kernel
  word := by decide +kernel

theorem world_ok : world.Ok where
  env := env_ok
  ptrTo := by simp only [Proper, Types.Proper, IsPtrTo]; decide +kernel
  lists := by decide +kernel
  flat := by decide +kernel
  arrays := by decide +kernel
  sameAs := by decide +kernel
  methods := by
    intro name t m m' h h'
    have h1 := h.1
    have h2 := h'.1
    exact (List.mem_singleton.mp h1).trans (List.mem_singleton.mp h2).symm
  noUniverse := by decide +kernel
  finite := ⟨fun t => if t.val = 19 ∨ t.val = 25 ∨ t.val = 26 ∨ t.val = 30 then 1 else 0, by decide +kernel⟩

/-! ## C81: implicit conversions -/

/-- For all types, except confused ones: where a value of type `T` is expected, an expression of type `S` is accepted exactly if the rules of the
reference say so; otherwise there is an error message, and in any case the compiler comes to an end.

Missing: an enumeration whose base type is `uint`, or signed, is accepted where a signed integer, or `uint`, is expected, and vice versa (see
`C81_enum_violated`). -/
theorem C81_implicit_partial {w : World} (ok : w.Ok) {S T : w.T} (hS : Proper w S) (hc : Clear w S T) (depth : Nat) :
    (Accepted (w.give false (depth + 2) T S) ↔ Implicit w false S T) ∧
    (w.give false (depth + 2) T S = .error ↔ ¬ Implicit w false S T) := by
  rcases give_cases ok depth hS hc with ⟨⟨x, h1⟩, h2⟩ | ⟨h1, h2⟩
  · exact ⟨⟨fun _ => h2, fun _ => ⟨x, h1⟩⟩, ⟨fun h => (by rw [h1] at h; cases h), fun h => absurd h2 h⟩⟩
  · exact ⟨⟨fun ⟨x, h⟩ => (by rw [h1] at h; cases h), fun h => absurd h h2⟩, ⟨fun _ => h2, fun _ => h1⟩⟩

/-- `var f: real = i`; `var s: str = c`; `var p: (real, str) = {i, c}`; `var x: I = s` for a structure with the method, and not for `int`. -/
example : Implicit world false (ty 25) (ty 26) ∧ Implicit world false (ty 30) (ty 31) ∧ ¬ Implicit world false (ty 2) (ty 31) := by
  have pr : ∀ S : world.T, world.kind S ≠ .null ∧ world.kind S ≠ .fn → Proper world S := fun S h => ⟨h.1, fun h' => absurd h' h.2⟩
  have cl : ∀ S T : world.T, ¬ Confused world S T → world.exprList S = false → Clear world S T := fun S T h h' => ⟨h, fun h2 => by rw [h'] at h2; cases h2⟩
  refine ⟨?_, ?_, ?_⟩
  · refine (C81_implicit_partial world_ok (pr (ty 25) (by decide +kernel)) ⟨by decide +kernel, fun _ _ i s t h1 h2 => ?_⟩ 0).1.mp ⟨_, rfl⟩
    match i with
    | 0 => cases h1; cases h2; decide +kernel
    | 1 => cases h1; cases h2; decide +kernel
    | i + 2 => cases h1
  · refine (C81_implicit_partial world_ok (pr (ty 30) (by decide +kernel)) (cl (ty _) (ty _) (by decide +kernel) rfl) 0).1.mp ⟨_, rfl⟩
  · exact (C81_implicit_partial world_ok (pr (ty 2) (by decide +kernel)) (cl (ty _) (ty _) (by decide +kernel) rfl) 0).2.mp rfl

/-- What is accepted in a constant expression is accepted elsewhere, with the same meaning. -/
theorem C81_constant (w : World) (depth : Nat) (S T : w.T) (x : Code w.e.g.n × w.T) (h : w.give true depth T S = .ok x) :
    w.give false depth T S = .ok x :=
  ConstOk.bind (implicitEx_const w depth false false T S) (fun _ => .refl _) x h

example : world.give true 1 (ty 4) (ty 2) = .ok (.makeReal .int false, ty 4) := rfl

theorem not_implicit {S T : world.T} (h : world.e.compat T S = false) (h1 : (world.node S).integer = false ∨ (world.node T).real = false)
    (h2 : world.kind T ∈ [.int, .uint]) : ¬ Implicit world false S T := by
  intro hi
  cases hi with
  | compatible hc => rw [compat_iff.mpr hc] at h; cases h
  | intReal a b => rcases h1 with h1 | h1; rw [h1] at a; cases a; rw [h1] at b; cases b
  | lists _ a =>
    unfold World.exprListStruct at a
    simp only [Bool.and_eq_true, beq_iff_eq] at a
    rw [a.1.1] at h2
    simp at h2
  | _ => simp_all

/-- An integer is accepted where an enumeration of the base type `uint` is expected, and an enumeration where an `uint` is expected, although
enumerations are not integer types and are only compatible with themselves. -/
theorem C81_enum_violated :
    Accepted (world.give false 2 (ty 10) (ty 2)) ∧ ¬ Implicit world false (ty 2) (ty 10) ∧
    Accepted (world.give false 2 (ty 3) (ty 11)) ∧ ¬ Implicit world false (ty 11) (ty 3) :=
  ⟨⟨_, rfl⟩, not_implicit (by decide +kernel) (by decide +kernel) (by decide +kernel), ⟨_, rfl⟩,
    not_implicit (by decide +kernel) (by decide +kernel) (by decide +kernel)⟩

/-! ## C82: casts -/

/-- For all types, if the nesting of dynamic arrays in one of the types ends: a cast is accepted exactly if the rules of the reference say so, its type is
`T`, and in any case the compiler comes to an end.

Missing: dynamic arrays that contain themselves (see `C82_endless_violated`, `C82_equivalent_violated`), dynamic arrays of enumerations with the base type
`uint8` (see `C82_bytes_violated`), constant expressions (see `C82_constant_violated`). -/
theorem C82_cast_partial {w : World} (ok : w.Ok) {S T : w.T} (nb : NoByteEnums w S T) (hS : Proper w S) (hT : w.exprList T = false) {k depth : Nat}
    (hk : w.kind (w.itemType k S) ≠ .dynarray ∨ w.kind (w.itemType k T) ≠ .dynarray) (hd : k < depth) :
    ((∃ c, w.cast false depth T S = .ok (c, T)) ↔ Explicit w S T) ∧
    (w.cast false depth T S = .error ↔ ¬ Explicit w S T) := by
  rcases cast_cases ok k S T nb hk hS hT depth hd with ⟨⟨x, h1⟩, h2⟩ | ⟨h1, h2⟩
  · exact ⟨⟨fun _ => h2, fun _ => ⟨x, h1⟩⟩, ⟨fun h => (by rw [h1] at h; cases h), fun h => absurd h2 h⟩⟩
  · exact ⟨⟨fun ⟨x, h⟩ => (by rw [h1] at h; cases h), fun h => absurd h h2⟩, ⟨fun _ => h2, fun _ => h1⟩⟩

theorem item_int : ∀ k, world.itemType k (ty 2) = ty 2
  | 0 => rfl
  | k + 1 => item_int k

theorem item_real : ∀ k, world.itemType (k + 1) (ty 4) = ty 2 := item_int

/-- `[]real(…)` of a `[]int` is accepted, `[]int(…)` of a `[]real` refused. -/
example : Explicit world (ty 16) (ty 18) ∧ ¬ Explicit world (ty 18) (ty 16) := by
  have nb : NoByteEnums world (ty 16) (ty 18) := by
    intro k t ht
    match k with
    | 0 => simp only [World.itemType, List.mem_cons, List.not_mem_nil, or_false] at ht; rcases ht with rfl | rfl <;> decide +kernel
    | 1 => simp only [World.itemType, List.mem_cons, List.not_mem_nil, or_false] at ht; rcases ht with rfl | rfl <;> decide +kernel
    | k + 2 =>
      have h1 : world.itemType (k + 2) (ty 16) = ty 2 := item_int (k + 1)
      have h2 : world.itemType (k + 2) (ty 18) = ty 2 := item_real k
      rw [h1, h2] at ht
      simp only [List.mem_cons, List.not_mem_nil, or_false, or_self] at ht
      subst ht
      decide +kernel
  have nb' : NoByteEnums world (ty 18) (ty 16) := fun k t ht => nb k t (List.mem_cons.mpr ((List.mem_cons.mp ht).symm.imp List.mem_singleton.mp List.mem_singleton.mpr))
  have p1 : Proper world (ty 16) := ⟨by decide +kernel, fun h => by cases h⟩
  have p2 : Proper world (ty 18) := ⟨by decide +kernel, fun h => by cases h⟩
  exact ⟨(C82_cast_partial world_ok nb p1 rfl (k := 1) (depth := 2) (Or.inl (by decide +kernel)) (by omega)).1.mp ⟨_, rfl⟩,
    (C82_cast_partial world_ok nb' p2 rfl (k := 1) (depth := 2) (Or.inl (by decide +kernel)) (by omega)).2.mp rfl⟩

/-- `U(t)` for `type (T = []T)` and `type (U = []U)`: however deep the compiler goes, it does not come to an end. -/
theorem C82_endless_violated : ∀ depth, world.cast false depth (ty 15) (ty 14) = .endless
  | 0 => rfl
  | depth + 1 => by
    rw [cast_dyn world false depth rfl rfl (by decide +kernel)]
    show Out.bind (world.cast false depth (ty 15) (ty 14)) _ = _
    rw [C82_endless_violated depth]
    rfl

/-- `[]A(a)` for `type (A = [][]A)`: `a` is accepted without a cast where `[]A` is expected, but with the cast the compiler does not come to an end. -/
theorem C82_equivalent_violated :
    Accepted (world.give false 2 (ty 28) (ty 27)) ∧ Explicit world (ty 27) (ty 28) ∧ ∀ depth, world.cast false depth (ty 28) (ty 27) = .endless := by
  have he : world.e.equiv (ty 28) (ty 27) = true := by decide +kernel
  have hend : ∀ depth, world.cast false depth (ty 28) (ty 27) = .endless ∧ world.cast false depth (ty 27) (ty 28) = .endless := by
    intro depth
    induction depth with
    | zero => exact ⟨rfl, rfl⟩
    | succ depth ih =>
      constructor
      · rw [cast_dyn world false depth rfl rfl (by decide +kernel)]
        show Out.bind (world.cast false depth (ty 27) (ty 28)) _ = _
        rw [ih.2]
        rfl
      · rw [cast_dyn world false depth rfl rfl (by decide +kernel)]
        show Out.bind (world.cast false depth (ty 28) (ty 27)) _ = _
        rw [ih.1]
        rfl
  have hi : Implicit world false (ty 27) (ty 28) := .compatible (Or.inl (Iface.equiv_iff.mp he))
  exact ⟨(C81_implicit_partial world_ok ⟨by decide +kernel, fun h => by cases h⟩ ⟨by decide +kernel, fun h => by cases h⟩ 0).1.mpr hi, .implicit hi,
    fun depth => (hend depth).1⟩

/-- In a constant expression, the cast `[]int([]int{…})` is refused although the types are equivalent and the array is accepted without a cast. -/
theorem C82_constant_violated :
    Accepted (world.give true 2 (ty 17) (ty 16)) ∧ Explicit world (ty 16) (ty 17) ∧ ∀ depth, world.cast true (depth + 1) (ty 17) (ty 16) = .error := by
  have he : world.e.equiv (ty 17) (ty 16) = true := by decide +kernel
  refine ⟨⟨(.skip, ty 16), ?_⟩, .implicit (.compatible (Or.inl (Iface.equiv_iff.mp he))), fun depth => ?_⟩
  · unfold World.give World.assertImplicit
    rw [implicitEx_dyn world true 1 rfl rfl]
    show (if world.e.compat (ty 17) (ty 16) = true then _ else .error) = _
    exact if_pos (compat_iff.mpr (Or.inl (Iface.equiv_iff.mp he)))
  · rw [cast_dyn world true depth rfl rfl (by decide +kernel)]
    rfl

/-- `str(a)` for a dynamic array of enumeration constants of the base type `uint8`, and the other way round. -/
theorem C82_bytes_violated :
    Accepted (world.cast false 1 (ty 6) (ty 13)) ∧ ¬ Explicit world (ty 13) (ty 6) ∧
    Accepted (world.cast false 1 (ty 13) (ty 6)) ∧ ¬ Explicit world (ty 6) (ty 13) := by
  have hn : ∀ S T : world.T, world.e.compat T S = false → world.sameAs S ≠ world.sameAs T →
      (world.kind S = .dynarray ∧ world.kind (world.base S) = .uint8 ∧ (world.node (world.base S)).isEnum = true ∧ world.kind T = .str) ∨
      (world.kind S = .str ∧ world.kind T = .dynarray ∧ world.kind (world.base T) = .uint8 ∧ (world.node (world.base T)).isEnum = true) →
      ¬ Explicit world S T := by
    intro S T hc hs hk he
    cases he with
    | implicit hi =>
      cases hi with
      | compatible h => rw [compat_iff.mpr h] at hc; cases hc
      | intReal _ h => have := real_kind h; rcases hk with hk | hk <;> simp_all
      | lists h => unfold World.exprListStruct at h; simp only [Bool.and_eq_true, beq_iff_eq] at h; have := h.1.1; rcases hk with hk | hk <;> simp_all
      | _ => rcases hk with hk | hk <;> simp_all
    | sameAs h => exact hs h
    | ordinal h => rcases hk with hk | hk; exact ordinal_not hk.1 h (by simp); exact ordinal_not hk.1 h (by simp)
    | items h1 h2 => rcases hk with hk | hk; rw [hk.2.2.2] at h2; cases h2; rw [hk.1] at h1; cases h1
    | _ => rcases hk with hk | hk <;> simp_all
  exact ⟨⟨_, rfl⟩, hn _ _ (by decide +kernel) (by decide +kernel) (by decide +kernel), ⟨_, rfl⟩, hn _ _ (by decide +kernel) (by decide +kernel) (by decide +kernel)⟩

/-- What is accepted in a constant expression is accepted elsewhere, with the same meaning. -/
theorem C82_constant (w : World) (depth : Nat) (S T : w.T) (x : Code w.e.g.n × w.T) (h : w.cast true depth T S = .ok x) :
    w.cast false depth T S = .ok x :=
  ConstOk.bind (explicit_const w depth T S) (fun _ => .refl _) x h

example : world.cast true 1 (ty 5) (ty 2) = .ok (.assertRange .char .int, ty 5) := rfl

/-! ## C83: the items of dynamic arrays and expression lists -/

/-- A cast of a dynamic array, unless the types are the same except their names: the result has the same length, and each item is the item of the
original array, cast to the item type. -/
theorem C83_items {w : World} {B E : Type} (prim : Code w.e.g.n → Val B → Res (Val B) E) (zero : Val B) {depth : Nat} {S T : w.T}
    (hS : w.kind S = .dynarray) (hT : w.kind T = .dynarray) (hs : w.sameAs T ≠ w.sameAs S) (ha : Accepted (w.cast false (depth + 1) T S))
    (xs ys : List (Val B)) :
    runCast w prim zero (depth + 1) T S (.array xs) = some (.ok (.array ys)) ↔
    ys.length = xs.length ∧ ∀ (i : Nat) (x y : Val B), xs[i]? = some x → ys[i]? = some y →
      runCast w prim zero depth (w.base T) (w.base S) x = some (.ok y) := by
  obtain ⟨x, hx⟩ := ha
  have hc := cast_dyn w false depth hS hT hs
  rw [hx] at hc
  unfold runCast
  cases hb : w.cast false depth (w.base T) (w.base S) with
  | ok r =>
    rw [hb] at hc
    cases hc
    rw [hx]
    show some (exec prim zero (.items r.1) _) = _ ↔ _
    rw [exec_items, Option.some.injEq]
    have : (convertDown (exec prim zero r.1) xs).bind (fun ys => Res.ok (Val.array ys)) = .ok (Val.array ys) ↔ convertDown (exec prim zero r.1) xs = .ok ys := by
      cases convertDown (exec prim zero r.1) xs <;> simp [Res.bind]
    rw [this, convertDown_ok]
    constructor
    · exact fun h => ⟨h.1, fun i x y h1 h2 => congrArg some (h.2 i x y h1 h2)⟩
    · exact fun h => ⟨h.1, fun i x y h1 h2 => Option.some.inj (h.2 i x y h1 h2)⟩
  | _ => rw [hb] at hc; cases hc

/-- If the program is stopped by an error, it is the error of an item, and the conversion of the items after it has no error. -/
theorem C83_items_error {w : World} {B E : Type} (prim : Code w.e.g.n → Val B → Res (Val B) E) (zero : Val B) {depth : Nat} {S T : w.T}
    (hS : w.kind S = .dynarray) (hT : w.kind T = .dynarray) (hs : w.sameAs T ≠ w.sameAs S) (ha : Accepted (w.cast false (depth + 1) T S))
    (xs : List (Val B)) (e : E) :
    runCast w prim zero (depth + 1) T S (.array xs) = some (.err e) ↔
    ∃ (i : Nat) (x : Val B), xs[i]? = some x ∧ runCast w prim zero depth (w.base T) (w.base S) x = some (.err e) ∧
      ∀ (j : Nat) (x : Val B), i < j → xs[j]? = some x → ∃ y, runCast w prim zero depth (w.base T) (w.base S) x = some (.ok y) := by
  obtain ⟨x, hx⟩ := ha
  have hc := cast_dyn w false depth hS hT hs
  rw [hx] at hc
  unfold runCast
  cases hb : w.cast false depth (w.base T) (w.base S) with
  | ok r =>
    rw [hb] at hc
    cases hc
    rw [hx]
    show some (exec prim zero (.items r.1) _) = _ ↔ _
    rw [exec_items, Option.some.injEq]
    have : (convertDown (exec prim zero r.1) xs).bind (fun ys => Res.ok (Val.array ys)) = .err e ↔ convertDown (exec prim zero r.1) xs = .err e := by
      cases convertDown (exec prim zero r.1) xs <;> simp [Res.bind]
    rw [this, convertDown_err]
    simp only [Option.some.injEq]
  | _ => rw [hb] at hc; cases hc

/-- If the types are the same except their names, the array is not converted. -/
theorem C83_same {w : World} {B E : Type} (prim : Code w.e.g.n → Val B → Res (Val B) E) (zero : Val B) (depth : Nat) {S T : w.T}
    (hS : w.kind S = .dynarray) (hT : w.kind T = .dynarray) (hs : w.sameAs T = w.sameAs S) (v : Val B) :
    runCast w prim zero (depth + 1) T S v = some (.ok v) := by
  unfold runCast
  rw [cast_same w false depth hS hT hs]
  show some (exec prim zero .skip v) = _
  rw [exec]

/-- The conversion of numbers; those over 100 cannot be converted. -/
def primEx (c : Code 68) (v : Val Nat) : Res (Val Nat) Nat :=
  match c, v with
  | .makeReal _ _, .basic n => if n ≤ 100 then .ok (.basic (n + 1000)) else .err n
  | .makeStr _ _, .basic n => .ok (.basic (n + 2000))
  | _, _ => .stuck

/-- `[]real(a)` for a `[]int`: three items; an error. -/
example : runCast world primEx (.basic 0) 2 (ty 18) (ty 16) (.array [.basic 1, .basic 2, .basic 3]) =
      some (.ok (.array [.basic 1001, .basic 1002, .basic 1003])) ∧
    runCast world primEx (.basic 0) 2 (ty 18) (ty 16) (.array [.basic 1, .basic 200, .basic 300, .basic 3]) = some (.err 300) := by
  have ha : Accepted (world.cast false 2 (ty 18) (ty 16)) := ⟨_, rfl⟩
  constructor
  · refine (C83_items (w := world) primEx (.basic 0) rfl rfl (by decide +kernel) ha _ _).mpr ⟨rfl, fun i x y h1 h2 => ?_⟩
    match i with
    | 0 => cases h1; cases h2; rfl
    | 1 => cases h1; cases h2; rfl
    | 2 => cases h1; cases h2; rfl
    | i + 3 => cases h1
  · refine (C83_items_error (w := world) primEx (.basic 0) rfl rfl (by decide +kernel) ha _ _).mpr ⟨2, .basic 300, rfl, rfl, fun j x h1 h2 => ?_⟩
    match j with
    | 3 => cases h2; exact ⟨_, rfl⟩
    | j + 4 => cases h2

/-- An expression list, where one with other types is expected: each item is converted to the type expected. -/
theorem C83_lists {w : World} {B E : Type} (prim : Code w.e.g.n → Val B → Res (Val B) E) (zero : Val B) {depth : Nat} {S T : w.T}
    (hS : w.exprListStruct S = true) (hT : w.exprListStruct T = true) (hl : (w.node T).fields.length = (w.node S).fields.length)
    (he : ¬ Equivalent w.e.g T S) (ha : Accepted (w.give false (depth + 1) T S)) (xs ys : List (Val B)) (hx : xs.length = (w.node S).fields.length) :
    runGive w prim zero (depth + 1) T S (.list xs) = some (.ok (.list ys)) ↔
    ys.length = xs.length ∧ ∀ (i : Nat) (s t : Field w.e.g.n) (x y : Val B), (w.node S).fields[i]? = some s → (w.node T).fields[i]? = some t →
      xs[i]? = some x → ys[i]? = some y → runGive w prim zero depth t.type s.type x = some (.ok y) := by
  obtain ⟨r, hr⟩ := ha
  have hc := give_list w depth hS hT hl he
  rw [hr] at hc
  cases hf : w.convFields (w.implicitEx false depth false false) (w.node T).fields (w.node S).fields with
  | ok cs =>
    rw [hf] at hc
    cases hc
    have ⟨h1, h2⟩ := convFields_codes hl hf
    have hlen : xs.length = (cs.map (exec prim zero)).length := by rw [List.length_map]; omega
    unfold runGive
    rw [hr]
    show some (exec prim zero (.fields cs) _) = _ ↔ _
    rw [exec_fields, Option.some.injEq]
    have : (convertUp (cs.map (exec prim zero)) xs).bind (fun ys => Res.ok (Val.list ys)) = .ok (Val.list ys) ↔ convertUp (cs.map (exec prim zero)) xs = .ok ys := by
      cases convertUp (cs.map (exec prim zero)) xs <;> simp [Res.bind]
    rw [this, convertUp_ok hlen]
    constructor
    · intro h
      refine ⟨h.1, fun i s t x y hs ht hx hy => ?_⟩
      obtain ⟨c, t', h3, h4⟩ := h2 i t s ht hs
      show (match w.assertImplicit _ _ _ with | .ok (c, _) => some (exec prim zero c x) | _ => none) = _
      rw [h4]
      exact congrArg some (h.2 i _ x y (by simp [h3]) hx hy)
    · intro h
      refine ⟨h.1, fun i c x y hcc hx' hy => ?_⟩
      have hi : i < xs.length := (List.getElem?_eq_some_iff.mp hx').1
      have hs := List.getElem?_eq_getElem (l := (w.node S).fields) (i := i) (by omega)
      have ht := List.getElem?_eq_getElem (l := (w.node T).fields) (i := i) (by omega)
      obtain ⟨c', t', h3, h4⟩ := h2 i _ _ ht hs
      have h5 := h.2 i _ _ x y hs ht hx' hy
      change (match w.assertImplicit _ _ _ with | .ok (c, _) => some (exec prim zero c x) | _ => none) = _ at h5
      rw [h4] at h5
      have h5 := Option.some.inj h5
      rw [List.getElem?_map, h3] at hcc
      cases hcc
      exact h5
  | _ => rw [hf] at hc; cases hc

/-- An error is that of the first item that has one. -/
theorem C83_lists_error {w : World} {B E : Type} (prim : Code w.e.g.n → Val B → Res (Val B) E) (zero : Val B) {depth : Nat} {S T : w.T}
    (hS : w.exprListStruct S = true) (hT : w.exprListStruct T = true) (hl : (w.node T).fields.length = (w.node S).fields.length)
    (he : ¬ Equivalent w.e.g T S) (ha : Accepted (w.give false (depth + 1) T S)) (xs : List (Val B)) (hx : xs.length = (w.node S).fields.length) (e : E) :
    runGive w prim zero (depth + 1) T S (.list xs) = some (.err e) ↔
    ∃ (i : Nat) (s t : Field w.e.g.n) (x : Val B), (w.node S).fields[i]? = some s ∧ (w.node T).fields[i]? = some t ∧ xs[i]? = some x ∧
      runGive w prim zero depth t.type s.type x = some (.err e) ∧
      ∀ (j : Nat) (s t : Field w.e.g.n) (x : Val B), j < i → (w.node S).fields[j]? = some s → (w.node T).fields[j]? = some t → xs[j]? = some x →
        ∃ y, runGive w prim zero depth t.type s.type x = some (.ok y) := by
  obtain ⟨r, hr⟩ := ha
  have hc := give_list w depth hS hT hl he
  rw [hr] at hc
  cases hf : w.convFields (w.implicitEx false depth false false) (w.node T).fields (w.node S).fields with
  | ok cs =>
    rw [hf] at hc
    cases hc
    have ⟨h1, h2⟩ := convFields_codes hl hf
    have hlen : xs.length = (cs.map (exec prim zero)).length := by rw [List.length_map]; omega
    have run : ∀ (i : Nat) (s t : Field w.e.g.n) (x : Val B), (w.node S).fields[i]? = some s → (w.node T).fields[i]? = some t →
        ∃ c, cs[i]? = some c ∧ runGive w prim zero depth t.type s.type x = some (exec prim zero c x) := by
      intro i s t x hs ht
      obtain ⟨c, t', h3, h4⟩ := h2 i t s ht hs
      refine ⟨c, h3, ?_⟩
      show (match w.assertImplicit _ _ _ with | .ok (c, _) => some (exec prim zero c x) | _ => none) = _
      rw [h4]
    show (match w.give false (depth + 1) T S with | .ok (c, _) => some (exec prim zero c (.list xs)) | _ => none) = _ ↔ _
    rw [hr]
    show some (exec prim zero (.fields cs) _) = _ ↔ _
    rw [exec_fields, Option.some.injEq]
    have : (convertUp (cs.map (exec prim zero)) xs).bind (fun ys => Res.ok (Val.list ys)) = .err e ↔ convertUp (cs.map (exec prim zero)) xs = .err e := by
      cases convertUp (cs.map (exec prim zero)) xs <;> simp [Res.bind]
    rw [this, convertUp_err hlen]
    have at' : ∀ (i : Nat) (c : Val B → Res (Val B) E), (cs.map (exec prim zero))[i]? = some c → i < (w.node S).fields.length ∧ i < (w.node T).fields.length := by
      intro i c h
      have := (List.getElem?_eq_some_iff.mp h).1
      rw [List.length_map] at this
      omega
    constructor
    · rintro ⟨i, c, x, h3, h4, h5, h6⟩
      have hi := at' i c h3
      have hs := List.getElem?_eq_getElem hi.1
      have ht := List.getElem?_eq_getElem hi.2
      obtain ⟨c', hc', hrun⟩ := run i _ _ x hs ht
      rw [List.getElem?_map, hc'] at h3
      cases h3
      refine ⟨i, _, _, x, hs, ht, h4, hrun.trans (congrArg some h5), fun j s t x' hj hs' ht' hx' => ?_⟩
      obtain ⟨c'', hc'', hrun'⟩ := run j _ _ x' hs' ht'
      obtain ⟨y, hy⟩ := h6 j _ x' hj (by rw [List.getElem?_map, hc'']; rfl) hx'
      exact ⟨y, hrun'.trans (congrArg some hy)⟩
    · rintro ⟨i, s, t, x, hs, ht, h4, h5, h6⟩
      obtain ⟨c', hc', hrun⟩ := run i _ _ x hs ht
      rw [hrun] at h5
      refine ⟨i, _, x, by rw [List.getElem?_map, hc']; rfl, h4, Option.some.inj h5, fun j c x' hj hc'' hx' => ?_⟩
      have hi := at' j c hc''
      have hs' := List.getElem?_eq_getElem hi.1
      have ht' := List.getElem?_eq_getElem hi.2
      obtain ⟨c2, hc2, hrun2⟩ := run j _ _ x' hs' ht'
      rw [List.getElem?_map, hc2] at hc''
      cases hc''
      obtain ⟨y, hy⟩ := h6 j _ _ x' hj hs' ht' hx'
      rw [hrun2] at hy
      exact ⟨y, Option.some.inj hy⟩
  | _ => rw [hf] at hc; cases hc

/-- `{i, c}`, where a list of a real number and a string is expected. -/
example : runGive world primEx (.basic 0) 2 (ty 26) (ty 25) (.list [.basic 7, .basic 8]) = some (.ok (.list [.basic 1007, .basic 2008])) ∧
    runGive world primEx (.basic 0) 2 (ty 26) (ty 25) (.list [.basic 700, .basic 8]) = some (.err 700) := by
  have he : ¬ Equivalent world.e.g (ty 26) (ty 25) := fun h => by
    have h1 := Iface.equiv_iff.mpr h
    have h2 : world.e.equiv (ty 26) (ty 25) = false := by decide +kernel
    rw [h2] at h1; cases h1
  have ha : Accepted (world.give false 2 (ty 26) (ty 25)) := ⟨_, rfl⟩
  constructor
  · refine (C83_lists (w := world) primEx (.basic 0) (S := ty 25) (T := ty 26) rfl rfl rfl he ha [.basic 7, .basic 8] _ rfl).mpr ⟨rfl, fun i s t x y h1 h2 h3 h4 => ?_⟩
    match i with
    | 0 => cases h1; cases h2; cases h3; cases h4; rfl
    | 1 => cases h1; cases h2; cases h3; cases h4; rfl
    | i + 2 => cases h1
  · exact (C83_lists_error (w := world) primEx (.basic 0) (S := ty 25) (T := ty 26) rfl rfl rfl he ha [.basic 700, .basic 8] rfl 700).mpr
      ⟨0, ⟨"0", ty 2⟩, ⟨"0", ty 4⟩, .basic 700, rfl, rfl, rfl, rfl, fun j _ _ _ h => absurd h (Nat.not_lt_zero _)⟩

/-! ## C84: operands -/

/-- For all types of operands: an operator is accepted exactly if one of the operands can be converted to the type of the other one, and the operator
applies to this type. -/
theorem C84_accepted {w : World} (ok : w.Ok) {l r : w.T} (hl : Proper w l) (hr : Proper w r) (op : Op) (depth : Nat) :
    Accepted (w.operator false (depth + 1) true op l r) ↔
    (Implicit w true r l ∧ Applies w l op) ∨ (Implicit w true l r ∧ Applies w r op) := by
  cases operator_cases ok depth op hl hr with
  | right cl cr h1 h2 h => exact ⟨fun _ => Or.inl ⟨h1, h2⟩, fun _ => ⟨_, h⟩⟩
  | left cl cr h1 h2 h => exact ⟨fun _ => Or.inr ⟨h1, h2⟩, fun _ => ⟨_, h⟩⟩
  | none h1 h2 h => exact ⟨fun ⟨x, hx⟩ => (by rw [h] at hx; cases hx), fun h => h.elim (absurd · h1) (absurd · h2)⟩

/-- Whether an operator is accepted does not depend on the order of the operands. -/
theorem C84_order {w : World} (ok : w.Ok) {l r : w.T} (hl : Proper w l) (hr : Proper w r) (op : Op) (depth : Nat) :
    Accepted (w.operator false (depth + 1) true op l r) ↔ Accepted (w.operator false (depth + 1) true op r l) := by
  rw [C84_accepted ok hl hr, C84_accepted ok hr hl, or_comm]

/-- The type that the operator is applied to is that of an operand to which the other one can be converted. -/
theorem C84_type {w : World} (ok : w.Ok) {l r : w.T} (hl : Proper w l) (hr : Proper w r) (op : Op) (depth : Nat) {cl cr : Code w.e.g.n} {t : w.T}
    (h : w.operator false (depth + 1) true op l r = .ok (cl, cr, t)) :
    Applies w t op ∧ ((t = l ∧ Implicit w true r l) ∨ (t = r ∧ Implicit w true l r)) := by
  cases operator_cases ok depth op hl hr with
  | right cl cr h1 h2 h' => rw [h] at h'; cases h'; exact ⟨h2, Or.inl ⟨rfl, h1⟩⟩
  | left cl cr h1 h2 h' => rw [h] at h'; cases h'; exact ⟨h2, Or.inr ⟨rfl, h1⟩⟩
  | none h1 h2 h' => rw [h] at h'; cases h'

/-- In the two cases of the reference about two kinds of operands, the type does not depend on their order: a string and a dynamic array become strings,
an array and a dynamic array become arrays, a pointer and a weak pointer become pointers. -/
theorem C84_consequences {w : World} (ok : w.Ok) {l r : w.T} (hl : Proper w l) (hr : Proper w r) (op : Op) (depth : Nat) {cl cr : Code w.e.g.n}
    {t : w.T} (h : w.operator false (depth + 1) true op l r = .ok (cl, cr, t)) {k k' : Kind}
    (hk : (k, k') ∈ [(Kind.str, Kind.dynarray), (.array, .dynarray), (.ptr, .weakptr)])
    (hlr : (w.kind l = k ∧ w.kind r = k') ∨ (w.kind l = k' ∧ w.kind r = k)) : w.kind t = k := by
  have no : ∀ {S T : w.T}, w.kind S = k → w.kind T = k' → ¬ Implicit w true S T := by
    intro S T h1 h2 hi
    rcases implicit_kinds hi with hc | hc
    · rcases not_compatible ok hc with ⟨_, hc⟩ | ⟨hc, _⟩ | ⟨hc, _⟩
      · rw [h1, h2] at hc
        subst hc
        simp only [List.mem_cons, Prod.mk.injEq, List.not_mem_nil, or_false] at hk
        rcases hk with ⟨h, h'⟩ | ⟨h, h'⟩ | ⟨h, h'⟩ <;> rw [h] at h' <;> cases h'
      · have := integer_kind hc
        rw [h2] at this
        simp only [List.mem_cons, Prod.mk.injEq, List.not_mem_nil, or_false] at hk
        rcases hk with ⟨rfl, rfl⟩ | ⟨rfl, rfl⟩ | ⟨rfl, rfl⟩ <;> cases this
      · have := real_kind hc
        rw [h2] at this
        simp only [List.mem_cons, Prod.mk.injEq, List.not_mem_nil, or_false] at hk
        rcases hk with ⟨rfl, rfl⟩ | ⟨rfl, rfl⟩ | ⟨rfl, rfl⟩ <;> simp at this
    · rw [h1, h2] at hc
      simp only [List.mem_cons, Prod.mk.injEq, List.not_mem_nil, or_false] at hk
      rcases hk with ⟨rfl, rfl⟩ | ⟨rfl, rfl⟩ | ⟨rfl, rfl⟩ <;> simp [Kinds, Types.Kind.integerOrEnum] at hc
  rcases (C84_type ok hl hr op depth h).2 with ⟨rfl, hi⟩ | ⟨rfl, hi⟩
  · rcases hlr with hlr | hlr
    · exact hlr.1
    · exact absurd hi (no hlr.2 hlr.1)
  · rcases hlr with hlr | hlr
    · exact absurd hi (no hlr.1 hlr.2)
    · exact hlr.2

/-- The code for the conversion of an operand acts on this operand, when both are on the stack. -/
theorem C84_sides {w : World} (depth : Nat) (convertLhs : Bool) (op : Op) {l r t : w.T} {cl cr : Code w.e.g.n}
    (h : w.operator false (depth + 1) convertLhs op l r = .ok (cl, cr, t)) :
    (cl.side = none ∨ cl.side = some .left) ∧ (cr.side = none ∨ cr.side = some .right) :=
  operator_sides depth convertLhs op h

/-- `v op= x`: accepted exactly if `x` can be converted to the type of `v`, and the operator applies to this type; `v` is not converted. -/
theorem C84_short {w : World} (ok : w.Ok) {l r : w.T} (hr : Proper w r) (op : Op) (depth : Nat) :
    ((∃ cr, w.operator false (depth + 1) false op l r = .ok (.skip, cr, l)) ↔ Implicit w true r l ∧ Applies w l op) ∧
    (w.operator false (depth + 1) false op l r = .error ↔ ¬ (Implicit w true r l ∧ Applies w l op)) := by
  rcases short_cases ok depth op (l := l) hr with ⟨⟨cr, h1⟩, h2⟩ | ⟨h1, h2⟩
  · exact ⟨⟨fun _ => h2, fun _ => ⟨cr, h1⟩⟩, ⟨fun h => (by rw [h1] at h; cases h), fun h => absurd h2 h⟩⟩
  · exact ⟨⟨fun ⟨x, h⟩ => (by rw [h1] at h; cases h), fun h => absurd h h2⟩, ⟨fun _ => h2, fun _ => h1⟩⟩

/-- `s + a` and `a + s` for a string and a `[]char`; `i + x` for an integer and a real number; `p == w` for a weak pointer; not `i + s`. -/
example : world.operator false 1 true .plus (ty 6) (ty 7) = .ok (.skip, .makeStr (ty 7) false, ty 6) ∧
    world.operator false 1 true .plus (ty 7) (ty 6) = .ok (.makeStr (ty 7) true, .skip, ty 6) ∧
    world.operator false 1 true .arith (ty 2) (ty 4) = .ok (.makeReal .int true, .skip, ty 4) ∧
    world.operator false 1 false .arith (ty 2) (ty 4) = .error ∧
    world.operator false 1 true .compare (ty 20) (ty 36) = .ok (.strengthen true, .skip, ty 36) ∧
    world.operator false 1 true .plus (ty 2) (ty 6) = .error := by
  refine ⟨rfl, rfl, rfl, rfl, rfl, rfl⟩

example : Proper world (ty 7) ∧ Proper world (ty 6) ∧ Proper world (ty 23) :=
  ⟨⟨by decide +kernel, fun h => by cases h⟩, ⟨by decide +kernel, fun h => by cases h⟩, ⟨by decide +kernel, fun _ => rfl⟩⟩

end Umka.Conv.Props
