import Verif.Iface.Props
import Verif.Conv.Accept
import Verif.Self.Spec
/-!
# Queries about variables: properties

C105: the queries about the variable behind an interface describe the value or pointer that was converted, after any chain of conversions.
-/

namespace Umka.Self.Props

open Umka.Types (Graph Kind Node Field Equivalent)
open Umka.Arith (Slot Mem)
open Umka.Iface
open Umka.Conv (World Contains)

/-! ## What an interface tells -/

theorem selfBase_holds {w : World} (ok : w.e.Ok) {m : Mem} {p : Nat} {t q : w.T} {a : Slot} (hh : Holds w.e m p t q a) (hp : p < 2 ^ 64) :
    selfBase w m (BitVec.ofNat 64 p) = .ok (some (w.base q)) := by
  obtain ⟨h1, h2⟩ := typeAt_addr ok q
  rw [selfBase, ofNat_toNat hp, hh.type, if_neg h1, h2]

theorem tells {w : World} (ok : w.e.Ok) (fin : Finite w) {m : Mem} {p : Nat} {t q : w.T} {a : Slot} (hh : Holds w.e m p t q a) (h0 : 0 < p)
    (hp : p < 2 ^ 64) (alive : Slot → Bool) : Tells w alive m p a (w.base q) := by
  have hn : BitVec.ofNat 64 p ≠ 0 := ofNat_ne_zero h0 hp
  have hb := selfBase_holds ok hh hp
  obtain ⟨rank, hr⟩ := fin
  refine ⟨?_, ?_, ?_, ?_⟩
  · rw [sizeofself, if_neg hn, hb]; rfl
  · rw [selfptr, if_neg hn, ofNat_toNat hp, hh.self]
  · rw [selfhasptr, if_neg hn, hb]
    simp only [Res.bind]
    rcases Conv.hasPtr_spec (rank := rank) (fun t => (hr t).2) w.e.g.n (w.base q) (hr _).1 with ⟨h1, h2⟩ | ⟨h1, h2⟩
    · rw [h1]; exact ⟨true, rfl, ⟨fun _ => h2, fun _ => rfl⟩⟩
    · rw [h1]; exact ⟨false, rfl, ⟨fun e => (nomatch e), fun h => absurd h h2⟩⟩
  · refine ⟨_, rfl, ?_⟩
    rw [ofNat_toNat hp, hh.self]
    simp only [Bool.and_eq_true, bne_iff_ne, ne_eq, hn, not_false_eq_true, true_and]

theorem selftypeeq_holds {w : World} (ok : w.e.Ok) {m : Mem} {p p' : Nat} {t t' q q' : w.T} {a a' : Slot} (hh : Holds w.e m p t q a)
    (hh' : Holds w.e m p' t' q' a') (h0 : 0 < p) (hp : p < 2 ^ 64) (h0' : 0 < p') (hp' : p' < 2 ^ 64) :
    ∃ b, selftypeeq w m (BitVec.ofNat 64 p) (BitVec.ofNat 64 p') = .ok b ∧ (b = true ↔ Equivalent w.e.g (w.base q) (w.base q')) := by
  refine ⟨w.e.equiv (w.base q) (w.base q'), ?_, equiv_iff⟩
  have hn : ¬ (BitVec.ofNat 64 p = 0 ∨ BitVec.ofNat 64 p' = 0) := fun h => h.elim (ofNat_ne_zero h0 hp) (ofNat_ne_zero h0' hp')
  rw [selftypeeq, if_neg hn, selfBase_holds ok hh hp]
  simp only [Res.bind]
  rw [selfBase_holds ok hh' hp']

/-! ## C105 -/

/-- **C105**, values.  A value of a type `T`, neither a pointer nor an interface, is converted to an interface type, the result to another one and so
on, and possibly stored in variables on the way.  As long as the interface obtained is what it was, `sizeofself` is the size of `T`, `selfptr` points to a
copy of the value, `selfhasptr` tells whether `T` contains pointers, and `valid` is true. -/
theorem C105_value (w : World) (ok : w.e.Ok) (fin : Finite w) {T Tp : w.T} (hT : IsPtrTo w.e.g Tp T) (hk : Plain (w.kind T))
    {u : Use w.e.g.n} {us : List (Use w.e.g.n)} {r : List (Instr w.e.g.n) × w.T} (hu : uses w.e T Tp (u :: us) = some r) (m : M) (v : Slot)
    (st : List Slot) (hb : Iface.Valid (m.free, w.e.size T)) (hf : Fits w.e (u :: us) (m.free, w.e.size T)) (ho : overflow w.e.fp (w.kind T) v = false)
    (hv : IsValue w.e.fp (w.kind T) v) (hsrc : structured (w.kind T) = true → Disjoint (v.toNat, w.e.size T) (m.free, w.e.size T)) :
    ∃ m' p a, run w.e r.1 { m with stack := v :: st } = .ok m' ∧ m'.stack = BitVec.ofNat 64 p :: st ∧ a ≠ 0 ∧
      (∃ x, deref w.e.fp (w.kind T) m'.mem a = .ok x ∧ value (w.kind T) (w.e.size T) m'.mem x = value (w.kind T) (w.e.size T) m.mem v) ∧
      ∀ (later : Mem) (alive : Slot → Bool), (∀ b, In (p, 8 * (w.e.g.node r.2).fields.length) b → later b = m'.mem b) →
        Tells w alive later p a T := by
  obtain ⟨m', p, x, h1, h2, h3, h4, h5, h6, h7⟩ := Iface.Props.value_stored ok hk hu m v st hb hf ho hv hsrc
  refine ⟨m', p, BitVec.ofNat 64 m.free, h1, h2, ofNat_ne_zero hb.1 (by have := hb.2; dsimp only at this; omega), ⟨x, h6, h7⟩, fun later alive hl => ?_⟩
  have := tells ok fin (h5.congr (ok.two h4) hl) h3.1 (by have := h3.2; dsimp only at this; omega) alive
  rwa [show w.base Tp = T from hT.2.1] at this

/-- **C105**, pointers.  A pointer of a type `S`, possibly null, is converted in the same way: `sizeofself` and `selfhasptr` describe the type it points
to, `selfptr` is the pointer, and `valid` tells whether it is not null. -/
theorem C105_pointer (w : World) (ok : w.e.Ok) (fin : Finite w) {S sp : w.T} (hk : w.kind S = .ptr)
    {u : Use w.e.g.n} {us : List (Use w.e.g.n)} {r : List (Instr w.e.g.n) × w.T} (hu : uses w.e S sp (u :: us) = some r) (m : M) (a : Slot)
    (st : List Slot) {block : Nat × Nat} (hf : Fits w.e (u :: us) block) :
    ∃ m' p, run w.e r.1 { m with stack := a :: st } = .ok m' ∧ m'.stack = BitVec.ofNat 64 p :: st ∧
      ∀ (later : Mem) (alive : Slot → Bool), (∀ b, In (p, 8 * (w.e.g.node r.2).fields.length) b → later b = m'.mem b) →
        Tells w alive later p a (w.base S) := by
  obtain ⟨m', p, h1, h2, h3, h4, h5, _⟩ := Iface.Props.pointer_stored ok hk hu m a st hf
  exact ⟨m', p, h1, h2, fun later alive hl =>
    tells ok fin (h5.congr (ok.two h4) hl) h3.1 (by have := h3.2; dsimp only at this; omega) alive⟩

/-- **C105**, two interfaces.  A value of a type `T` and one of a type `U` are each converted in the same way, one after the other or in different places.
When both interfaces are what they were, `selftypeeq` tells whether the types are equivalent. -/
theorem C105_types (w : World) (ok : w.e.Ok) {T Tp U Up : w.T} (hT : IsPtrTo w.e.g Tp T) (hU : IsPtrTo w.e.g Up U) (hk : Plain (w.kind T))
    (hk' : Plain (w.kind U)) {u u' : Use w.e.g.n} {us us' : List (Use w.e.g.n)} {r r' : List (Instr w.e.g.n) × w.T}
    (hu : uses w.e T Tp (u :: us) = some r) (hu' : uses w.e U Up (u' :: us') = some r') (m n : M) (v v' : Slot) (st st' : List Slot)
    (hb : Iface.Valid (m.free, w.e.size T)) (hf : Fits w.e (u :: us) (m.free, w.e.size T)) (ho : overflow w.e.fp (w.kind T) v = false)
    (hv : IsValue w.e.fp (w.kind T) v) (hsrc : structured (w.kind T) = true → Disjoint (v.toNat, w.e.size T) (m.free, w.e.size T))
    (hb' : Iface.Valid (n.free, w.e.size U)) (hf' : Fits w.e (u' :: us') (n.free, w.e.size U)) (ho' : overflow w.e.fp (w.kind U) v' = false)
    (hv' : IsValue w.e.fp (w.kind U) v') (hsrc' : structured (w.kind U) = true → Disjoint (v'.toNat, w.e.size U) (n.free, w.e.size U)) :
    ∃ m' p n' p', run w.e r.1 { m with stack := v :: st } = .ok m' ∧ m'.stack = BitVec.ofNat 64 p :: st ∧
      run w.e r'.1 { n with stack := v' :: st' } = .ok n' ∧ n'.stack = BitVec.ofNat 64 p' :: st' ∧
      ∀ later : Mem, (∀ b, In (p, 8 * (w.e.g.node r.2).fields.length) b → later b = m'.mem b) →
        (∀ b, In (p', 8 * (w.e.g.node r'.2).fields.length) b → later b = n'.mem b) →
        ∃ b, selftypeeq w later (BitVec.ofNat 64 p) (BitVec.ofNat 64 p') = .ok b ∧ (b = true ↔ Equivalent w.e.g T U) := by
  obtain ⟨m', p, x, h1, h2, h3, h4, h5, _, _⟩ := Iface.Props.value_stored ok hk hu m v st hb hf ho hv hsrc
  obtain ⟨n', p', x', i1, i2, i3, i4, i5, _, _⟩ := Iface.Props.value_stored ok hk' hu' n v' st' hb' hf' ho' hv' hsrc'
  refine ⟨m', p, n', p', h1, h2, i1, i2, fun later hl hl' => ?_⟩
  have := selftypeeq_holds ok (h5.congr (ok.two h4) hl) (i5.congr (ok.two i4) hl') h3.1 (by have := h3.2; dsimp only at this; omega) i3.1
    (by have := i3.2; dsimp only at this; omega)
  rwa [show w.base Tp = T from hT.2.1, show w.base Up = U from hU.2.1] at this

theorem word_zero {m : Mem} {a : Nat} (h : ∀ b, a ≤ b → b < a + 8 → m b = 0) : word m a = 0 := by
  rw [word_congr (m' := fun _ => 0) h]
  rfl

/-- **C105**, variables that have not been assigned to: an interface tells the size 0, a null pointer, no pointers, and a type equivalent to no other
one; arrays, maps, interfaces, functions, closures and fibers are not valid. -/
theorem C105_untouched (w : World) (alive : Slot → Bool) (m : Mem) (p : Nat) (h0 : 0 < p) (hp : p < 2 ^ 64) (h : Untouched m p 24) :
    sizeofself w m (BitVec.ofNat 64 p) = .ok 0 ∧ selfptr m (BitVec.ofNat 64 p) = .ok 0 ∧ selfhasptr w m (BitVec.ofNat 64 p) = .ok false ∧
    (∀ x, x ≠ 0 → selftypeeq w m (BitVec.ofNat 64 p) x = .ok false) ∧
    (∀ x n, sizeofself w m x = .ok n → selftypeeq w m x (BitVec.ofNat 64 p) = .ok false) ∧
    (∀ k ∈ [Kind.dynarray, .map, .interface, .closure], valid alive m k (BitVec.ofNat 64 p) = .ok false) ∧
    ∀ k ∈ [Kind.fn, .fiber], valid alive m k 0 = .ok false := by
  have hn : BitVec.ofNat 64 p ≠ 0 := ofNat_ne_zero h0 hp
  have w0 : word m p = 0 := word_zero fun b h1 h2 => h b h1 (by omega)
  have w1 : word m (p + 8) = 0 := word_zero fun b h1 h2 => h b (by omega) (by omega)
  have w2 : word m (p + 16) = 0 := word_zero fun b h1 h2 => h b (by omega) (by omega)
  have hb : selfBase w m (BitVec.ofNat 64 p) = .ok none := by rw [selfBase, ofNat_toNat hp, if_pos w1]
  refine ⟨?_, ?_, ?_, fun x hx => ?_, fun x n hx => ?_, fun k hk => ?_, fun k hk => ?_⟩
  · rw [sizeofself, if_neg hn, hb]; rfl
  · rw [selfptr, if_neg hn, ofNat_toNat hp, w0]
  · rw [selfhasptr, if_neg hn, hb]; rfl
  · rw [selftypeeq, if_neg (fun e => e.elim hn hx), hb]; rfl
  · rw [sizeofself] at hx
    split at hx
    · exact nomatch hx
    · rename_i h0
      rw [selftypeeq, if_neg (fun e => e.elim h0 hn), hb]
      cases hl : selfBase w m x with
      | ok l => cases l <;> rfl
      | _ => rw [hl] at hx; exact nomatch hx
  · simp only [List.mem_cons, List.not_mem_nil, or_false] at hk
    rcases hk with rfl | rfl | rfl | rfl <;> simp only [valid, ofNat_toNat hp, w0, w1, w2] <;> simp
  · simp only [List.mem_cons, List.not_mem_nil, or_false] at hk
    rcases hk with rfl | rfl
    · simp only [valid]; decide
    · rfl

/-- **C105**: without an interface, the queries report an error. -/
theorem C105_null (w : World) (m : Mem) (x : Slot) : sizeofself w m 0 = .nullInterface ∧ selfptr m 0 = .nullInterface ∧
    selfhasptr w m 0 = .nullInterface ∧ selftypeeq w m 0 x = .nullInterface ∧ selftypeeq w m x 0 = .nullInterface :=
  ⟨rfl, rfl, rfl, if_pos (.inl rfl), if_pos (.inr rfl)⟩

/-! ## A concrete case: the program of `Verif/Iface/Props.lean` -/

/-- The structure `S` (type 5) with an `int`, its pointer type (6), an interface type with one method (7), `any` (4). -/
def world : World := ⟨Iface.Props.program, fun _ => false, id, id⟩

theorem world_finite : Finite world := by
  have h1 : ∀ t : Fin 11, (Iface.Props.graph.node t).kind ≠ .array := by decide +kernel
  have h2 : ∀ t : Fin 11, (Iface.Props.graph.node t).kind = .struct → t = 5 := by decide +kernel
  have h3 : ∀ f ∈ (Iface.Props.graph.node (5 : Fin 11)).fields, f.type.val ≠ 5 := by decide +kernel
  refine ⟨fun t => if t.val = 5 then 1 else 0, fun (t : Fin 11) => ⟨?_, fun h => absurd h (h1 t), fun h f hf => ?_⟩⟩
  · show (if t.val = 5 then 1 else 0) < 11
    split <;> decide
  · obtain rfl := h2 t h
    show (if f.type.val = 5 then 1 else 0) < 1
    rw [if_neg (h3 f hf)]
    decide

example : ∃ (m' : M) (p : Nat) (a : Slot), m'.stack = [BitVec.ofNat 64 p] ∧ a ≠ 0 ∧ Tells world (fun _ => false) m'.mem p a (Iface.Props.ty 5) ∧ world.e.size (Iface.Props.ty 5) = 8 := by
  have hs : (uses Iface.Props.program (Iface.Props.ty 5) (Iface.Props.ty 6) Iface.Props.way).isSome = true := by decide +kernel
  obtain ⟨r, hr⟩ := Option.isSome_iff_exists.mp hs
  obtain ⟨m', p, a, _, h2, h3, _, h4⟩ := C105_value world Iface.Props.program_ok world_finite Iface.Props.ptrS (by decide +kernel) hr Iface.Props.start 500 []
    (by decide +kernel) (Iface.Props.way_fits _ (by decide)) (by decide +kernel) ⟨fun h => (by cases h), fun _ => by decide⟩ (fun _ => by decide +kernel)
  exact ⟨m', p, a, h2, h3, h4 m'.mem _ fun _ _ => rfl, rfl⟩

/-- A null pointer to the structure, converted in the same way. -/
example : ∃ (m' : M) (p : Nat), m'.stack = [BitVec.ofNat 64 p] ∧ Tells world (fun _ => false) m'.mem p 0 (Iface.Props.ty 5) := by
  have hs : (uses Iface.Props.program (Iface.Props.ty 6) (Iface.Props.ty 6) Iface.Props.way).isSome = true := by decide +kernel
  obtain ⟨r, hr⟩ := Option.isSome_iff_exists.mp hs
  obtain ⟨m', p, _, h2, h4⟩ := C105_pointer world Iface.Props.program_ok world_finite (by decide +kernel) hr Iface.Props.start 0 []
    (Iface.Props.way_fits 0 (by decide))
  exact ⟨m', p, h2, h4 m'.mem _ fun _ _ => rfl⟩

/-- Two structures are converted in the same way: the types are equivalent. -/
example : ∃ (m' : M) (p p' : Nat), selftypeeq world m'.mem (BitVec.ofNat 64 p) (BitVec.ofNat 64 p') = .ok true := by
  have hs : (uses Iface.Props.program (Iface.Props.ty 5) (Iface.Props.ty 6) Iface.Props.way).isSome = true := by decide +kernel
  obtain ⟨r, hr⟩ := Option.isSome_iff_exists.mp hs
  obtain ⟨m', p, n', p', h1, h2, h3, h4, h5⟩ := C105_types world Iface.Props.program_ok Iface.Props.ptrS Iface.Props.ptrS (by decide +kernel) (by decide +kernel)
    hr hr Iface.Props.start Iface.Props.start 500 500 [] []
    (by decide +kernel) (Iface.Props.way_fits _ (by decide)) (by decide +kernel) ⟨fun h => (by cases h), fun _ => by decide⟩ (fun _ => by decide +kernel)
    (by decide +kernel) (Iface.Props.way_fits _ (by decide)) (by decide +kernel) ⟨fun h => (by cases h), fun _ => by decide⟩ (fun _ => by decide +kernel)
  rw [h1] at h3
  cases h3
  obtain ⟨b, h6, h7⟩ := h5 m'.mem (fun _ _ => rfl) (fun _ _ => rfl)
  rw [h7.mpr (Types.equivalent_refl _ _)] at h6
  exact ⟨m', p, p', h6⟩

example : Untouched (fun _ => 0) 100 24 := fun _ _ _ => rfl

/-! ## Where the documentation differs -/

/-- 0: `void`, 1: `^void`, 2: `[0]^void`, 3: `^[0]^void`, 4: `map[^void]^void`, 5: `^map[^void]^void` -/
def smallGraph : Graph where
  n := 6
  node := fun t =>
    let N (k : Kind) (base : Fin 6) : Node 6 :=
      { kind := k, block := 0, numItems := 0, isEnum := false, typeIdent := none, base := base, fields := [], sig := ⟨[], 0, false, false, 0⟩ }
    match t with
    | 0 => N .void 0
    | 1 => N .ptr 0
    | 2 => N .array 1
    | 3 => N .ptr 2
    | 4 => N .map 1
    | 5 => N .ptr 4
  dflt := fun a b => a == b

def smallWorld : World :=
  ⟨⟨⟨fun v => v.setWidth 32, fun v => v.setWidth 64, fun _ => false, fun _ => false⟩, smallGraph, fun (t : Fin 6) => if t = 2 then 0 else 8, fun _ => 1, 1, []⟩,
    fun _ => false, id, id⟩

abbrev st (t : Fin 6) : smallWorld.T := t

/-- The interface at 100 holds a pointer to 200 whose type is the one with this number. -/
def memOf (t : Fin 6) : Mem := fun b => if b = 100 then 200 else if b = 108 then BitVec.ofNat 8 (t.val + 1) else 0

/-- **C105**, violated as documented: `selfhasptr` is false for `[0]^void`, whose item type is a pointer, and true for a map, which is not in the
list of the documentation. -/
theorem C105_hasptr_violated :
    (Documented smallWorld (st 2) ∧ selfhasptr smallWorld (memOf 3) 100 = .ok false ∧ word (memOf 3) 108 = smallWorld.e.addr (st 3) ∧ smallWorld.base (st 3) = st 2) ∧
    (¬ Documented smallWorld (st 4) ∧ selfhasptr smallWorld (memOf 5) 100 = .ok true ∧ word (memOf 5) 108 = smallWorld.e.addr (st 5) ∧ smallWorld.base (st 5) = st 4) := by
  refine ⟨⟨.item rfl (.self (by decide +kernel)), by decide +kernel, by decide +kernel, rfl⟩, ⟨fun h => ?_, by decide +kernel, by decide +kernel, rfl⟩⟩
  cases h with
  | self h => revert h; decide +kernel
  | item h => revert h; decide +kernel
  | field h => revert h; decide +kernel

/-- **C105**, violated as documented: `valid` tells whether a fiber has been initialized, but is false for a fiber whose function has returned.  So it is
for an interface that a null pointer has been converted to. -/
theorem C105_valid_violated (m : Mem) (alive : Slot → Bool) (f : Slot) (h : alive f = false) : valid alive m .fiber f = .ok false := by
  rw [valid, h, Bool.and_false]

end Umka.Self.Props
