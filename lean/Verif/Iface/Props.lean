import Verif.Iface.Lemmas
/-!
# Interfaces: properties

C48: a value survives the way through interfaces; it cannot be taken for a value of another type.  C62: methods called through an interface.
-/

namespace Umka.Iface.Props

open Umka.Types (Graph Kind Node Field Equivalent WellFormed)
open Umka.Arith (Slot Mem)

/-! ## What is stored -/

theorem value_stored {e : Env} (w : e.Ok) {T Tp : Fin e.g.n} (hk : Plain (e.kind T)) {u : Use e.g.n} {us : List (Use e.g.n)}
    {r : List (Instr e.g.n) × Fin e.g.n} (hu : uses e T Tp (u :: us) = some r) (m : M) (v : Slot) (st : List Slot)
    (hb : Valid (m.free, e.size T)) (hf : Fits e (u :: us) (m.free, e.size T)) (ho : overflow e.fp (e.kind T) v = false)
    (hv : IsValue e.fp (e.kind T) v) (hsrc : structured (e.kind T) = true → Disjoint (v.toNat, e.size T) (m.free, e.size T)) :
    ∃ m' p x, run e r.1 { m with stack := v :: st } = .ok m' ∧ m'.stack = BitVec.ofNat 64 p :: st ∧ Valid (p, 8 * (e.g.node r.2).fields.length) ∧
      e.kind r.2 = .interface ∧ Holds e m'.mem p r.2 Tp (BitVec.ofNat 64 m.free) ∧
      deref e.fp (e.kind T) m'.mem (BitVec.ofNat 64 m.free) = .ok x ∧
      value (e.kind T) (e.size T) m'.mem x = value (e.kind T) (e.size T) m.mem v := by
  obtain ⟨k1, k2, k3⟩ := plain_kinds hk
  have hkd : ∀ x ∈ u :: us, e.kind x.dest = .interface := fun x hx => by
    have := hf.interfaces x hx
    cases x <;> exact this
  have hd := hkd u List.mem_cons_self
  have hti : toIface e u.dest T Tp u.area = (valueToIface e u.dest T Tp u.area).map (·, u.dest) := by
    unfold toIface; rw [if_neg k1, if_neg k2, if_pos k3]
  have hreg : (u.area, 8 * (e.g.node u.dest).fields.length) ∈ regions e (u :: us) := by
    cases u <;> exact List.mem_cons_self
  have hsome : ∃ c, toIface e u.dest T Tp u.area = some (c, u.dest) := by
    cases hv : valueToIface e u.dest T Tp u.area with
    | some c => exact ⟨c, by rw [hti, hv]; rfl⟩
    | none =>
      rw [hv] at hti
      cases u <;> simp only [uses, Use.dest, Use.area] at hu hti <;> rw [hti] at hu <;> cases hu
  obtain ⟨c, hc⟩ := hsome
  rw [hti] at hc
  unfold valueToIface at hc
  cases hpi : ptrToIface e u.dest Tp u.area with
  | none => rw [hpi] at hc; cases hc
  | some c2 =>
    have hc' : toIface e u.dest T Tp u.area = some (escapeToHeap e T ++ c2, u.dest) := by
      rw [hti]; unfold valueToIface; rw [hpi]; rfl
    obtain ⟨mem1, x, e1, e2, e3, e4⟩ := run_escape w hk m v st hb ho hv hsrc
    obtain ⟨mem2, p1, p2, p3⟩ := run_ptrToIface w hd (hf.valid _ hreg) hpi
      { m with mem := mem1, heapCopy := BitVec.ofNat 64 m.free, free := m.free + e.size T } (BitVec.ofNat 64 m.free) st
    obtain ⟨c3, q1, mem3, p, q2, q3, q4, q5, q6⟩ := uses_first w hu hc' hkd hf.valid hf.pairwise
      { m with mem := mem2, heapCopy := BitVec.ofNat 64 m.free, free := m.free + e.size T } st p2
    have hblock : ∀ b, In (m.free, e.size T) b → ∀ s ∈ regions e (u :: us), ¬ In s b := by
      intro b hb s hs hsb
      have := hf.block s hs
      simp only [Disjoint, In] at this hb hsb
      omega
    have hkeep : ∀ b, In ((BitVec.ofNat 64 m.free).toNat, e.size T) b → mem3 b = mem1 b := by
      intro b hbb
      rw [ofNat_toNat (by have := hb.2; dsimp only at this; omega)] at hbb
      exact (q4 b (hblock b hbb)).trans (p3 b (hblock b hbb _ hreg))
    obtain ⟨d1, d2⟩ := deref_congr w hk hkeep e2
    refine ⟨{ m with mem := mem3, heapCopy := BitVec.ofNat 64 m.free, free := m.free + e.size T, stack := BitVec.ofNat 64 p :: st }, p, x,
      ?_, rfl, hf.valid _ q6, q5, q3, d1, d2.trans e3⟩
    rw [q1, List.append_assoc]
    exact (run_ok e1).trans ((run_ok p1).trans q2)

theorem pointer_stored {e : Env} (w : e.Ok) {S sp : Fin e.g.n} (hk : e.kind S = .ptr) {u : Use e.g.n} {us : List (Use e.g.n)}
    {r : List (Instr e.g.n) × Fin e.g.n} (hu : uses e S sp (u :: us) = some r) (m : M) (a : Slot) (st : List Slot)
    {block : Nat × Nat} (hf : Fits e (u :: us) block) :
    ∃ m' p, run e r.1 { m with stack := a :: st } = .ok m' ∧ m'.stack = BitVec.ofNat 64 p :: st ∧ Valid (p, 8 * (e.g.node r.2).fields.length) ∧
      e.kind r.2 = .interface ∧ Holds e m'.mem p r.2 S a ∧ (∀ b, (∀ s ∈ regions e (u :: us), ¬ In s b) → m'.mem b = m.mem b) := by
  have hkd : ∀ x ∈ u :: us, e.kind x.dest = .interface := fun x hx => by
    have := hf.interfaces x hx
    cases x <;> exact this
  have hd := hkd u List.mem_cons_self
  have hreg : (u.area, 8 * (e.g.node u.dest).fields.length) ∈ regions e (u :: us) := by
    cases u <;> exact List.mem_cons_self
  have hsome : ∃ q, toIface e u.dest S sp u.area = some q := by
    cases hv : toIface e u.dest S sp u.area with
    | some c => exact ⟨c, rfl⟩
    | none => cases u <;> simp only [uses, Use.dest, Use.area] at hu hv <;> rw [hv] at hu <;> cases hu
  obtain ⟨q, hq⟩ := hsome
  have hti := hq
  unfold toIface at hti
  rw [if_neg (by rw [hk]; decide), if_pos hk] at hti
  split at hti
  · cases hti
  · cases hpi : ptrToIface e u.dest S u.area with
    | none => rw [hpi] at hti; cases hti
    | some c2 =>
      rw [hpi] at hti
      injection hti with hti
      subst hti
      obtain ⟨mem2, p1, p2, p3⟩ := run_ptrToIface w hd (hf.valid _ hreg) hpi m a st
      obtain ⟨c3, q1, mem3, p, q2, q3, q4, q5, q6⟩ := uses_first w hu hq hkd hf.valid hf.pairwise { m with mem := mem2 } st p2
      refine ⟨{ m with mem := mem3, stack := BitVec.ofNat 64 p :: st }, p, ?_, rfl, hf.valid _ q6, q5, q3, ?_⟩
      · rw [q1]
        exact (run_ok p1).trans q2
      · intro b hb
        exact (q4 b hb).trans (p3 b (hb _ hreg))

theorem run_assertType {e : Env} (w : e.Ok) {p : Nat} {t q s : Fin e.g.n} {a : Slot} {m : M} (hh : Holds e m.mem p t q a) (hp : p < 2 ^ 64)
    (rest : List (Instr e.g.n)) (st : List Slot) :
    run e (.assertType s :: rest) { m with stack := BitVec.ofNat 64 p :: st } =
      run e rest { m with stack := (if e.equiv s q then a else 0) :: st } := by
  obtain ⟨h1, h2⟩ := typeAt_addr w q
  simp only [run, step, ofNat_toNat hp, hh.self, hh.type, h1, if_false, h2]
  rfl

/-! ## C48 -/

/-- **C48**, values.  A value of a type `T`, which is neither a pointer nor an interface, is converted to an interface type, the result to
another interface type and so on, and possibly stored in variables on the way.  Later, when the interface obtained and the copy of the value
are still what they were, it is converted to a type `U`.  If `U` is equivalent to `T`, the result is the original value, otherwise a run-time
error.  (`ho`: the value fits its type, see `C48_value_overflow`.) -/
theorem C48_value_round_trip {e : Env} (w : e.Ok) {T Tp : Fin e.g.n} (hT : IsPtrTo e.g Tp T) (hk : Plain (e.kind T)) {u : Use e.g.n}
    {us : List (Use e.g.n)} {r : List (Instr e.g.n) × Fin e.g.n} (hu : uses e T Tp (u :: us) = some r) (m : M) (v : Slot) (st : List Slot)
    (hb : Valid (m.free, e.size T)) (hf : Fits e (u :: us) (m.free, e.size T)) (ho : overflow e.fp (e.kind T) v = false)
    (hv : IsValue e.fp (e.kind T) v) (hsrc : structured (e.kind T) = true → Disjoint (v.toNat, e.size T) (m.free, e.size T)) :
    ∃ m' p, run e r.1 { m with stack := v :: st } = .ok m' ∧ m'.stack = BitVec.ofNat 64 p :: st ∧
      ∀ (later : M) (st' : List Slot),
        (∀ b, In (p, 8 * (e.g.node r.2).fields.length) b ∨ In (m.free, e.size T) b → later.mem b = m'.mem b) →
        ∀ U Up : Fin e.g.n, IsPtrTo e.g Up U → Plain (e.kind U) →
          (Equivalent e.g U T →
            ∃ x, run e (fromIface e U Up) { later with stack := BitVec.ofNat 64 p :: st' } = .ok { later with stack := x :: st' } ∧
              value (e.kind T) (e.size T) later.mem x = value (e.kind T) (e.size T) m.mem v) ∧
          (¬ Equivalent e.g U T →
            run e (fromIface e U Up) { later with stack := BitVec.ofNat 64 p :: st' } = .err .nullPointer) := by
  obtain ⟨m', p, x, h1, h2, h3, h4, h5, h6, h7⟩ := value_stored w hk hu m v st hb hf ho hv hsrc
  refine ⟨m', p, h1, h2, ?_⟩
  intro later st' hl U Up hU hkU
  have hp : p < 2 ^ 64 := by have := h3.2; dsimp only at this; omega
  have hh : Holds e later.mem p r.2 Tp (BitVec.ofNat 64 m.free) := h5.congr (w.two h4) fun b hb => hl b (Or.inl hb)
  have hcode : fromIface e U Up = [.assertType Up, .deref (e.kind U)] := by
    unfold fromIface; rw [if_neg (plain_kinds hkU).2.1]
  have heq : Equivalent e.g Up Tp ↔ Equivalent e.g U T := equivalent_ptr hU ⟨hT.1, hT.2.1⟩
  rw [hcode, run_assertType w hh hp]
  constructor
  · intro h
    rw [if_pos (equiv_iff.mpr (heq.mpr h))]
    have hkk : e.kind U = e.kind T := equivalent_kind w.types h
    obtain ⟨d1, d2⟩ := deref_congr w hk (m' := later.mem) (fun b hbb => hl b (Or.inr (by
      rwa [ofNat_toNat (by have := hb.2; dsimp only at this; omega)] at hbb))) h6
    refine ⟨x, ?_, d2.trans h7⟩
    simp only [run, step, hkk, d1, Res.bind]
  · intro h
    rw [equiv_false (fun h' => h (heq.mp h'))]
    rfl

/-- **C48**, values that do not fit their type, which an expression of a narrow type may have as an intermediate result: the conversion to an
interface stops with an overflow error. -/
theorem C48_value_overflow {e : Env} {T Tp : Fin e.g.n} (hk : Plain (e.kind T)) {u : Use e.g.n}
    {us : List (Use e.g.n)} {r : List (Instr e.g.n) × Fin e.g.n} (hu : uses e T Tp (u :: us) = some r) (m : M) (v : Slot) (st : List Slot)
    (hb : Valid (m.free, e.size T)) (ho : overflow e.fp (e.kind T) v = true) :
    run e r.1 { m with stack := v :: st } = .err .overflow := by
  obtain ⟨k1, k2, k3⟩ := plain_kinds hk
  have key : ∀ c q, toIface e u.dest T Tp u.area = some q → run e (q.1 ++ c) { m with stack := v :: st } = .err .overflow := by
    intro c q hq
    unfold toIface at hq
    rw [if_neg k1, if_neg k2, if_pos k3] at hq
    unfold valueToIface at hq
    cases hpi : ptrToIface e u.dest Tp u.area with
    | none => rw [hpi] at hq; cases hq
    | some c2 =>
      rw [hpi] at hq
      injection hq with hq
      subst hq
      exact run_err (run_err (run_escape_overflow m v st hb ho))
  cases u <;> simp only [uses, bind, Option.bind] at hu <;>
  · split at hu
    · cases hu
    · next q hq =>
      dsimp only at hu
      split at hu
      · cases hu
      · injection hu with hu
        subst hu
        exact key _ q hq

/-- **C48**, pointers.  A pointer of a type `S` (possibly null), converted to interfaces and stored in variables in the same way, is unchanged by
the conversion to any pointer type equivalent to `S`; the conversion to another pointer type is null. -/
theorem C48_pointer_round_trip {e : Env} (w : e.Ok) {S sp : Fin e.g.n} (hk : e.kind S = .ptr) {u : Use e.g.n} {us : List (Use e.g.n)}
    {r : List (Instr e.g.n) × Fin e.g.n} (hu : uses e S sp (u :: us) = some r) (m : M) (a : Slot) (st : List Slot)
    {block : Nat × Nat} (hf : Fits e (u :: us) block) :
    ∃ m' p, run e r.1 { m with stack := a :: st } = .ok m' ∧ m'.stack = BitVec.ofNat 64 p :: st ∧
      ∀ (later : M) (st' : List Slot), (∀ b, In (p, 8 * (e.g.node r.2).fields.length) b → later.mem b = m'.mem b) →
        ∀ P Pp : Fin e.g.n, e.kind P = .ptr →
          (Equivalent e.g P S →
            run e (fromIface e P Pp) { later with stack := BitVec.ofNat 64 p :: st' } = .ok { later with stack := a :: st' }) ∧
          (¬ Equivalent e.g P S →
            run e (fromIface e P Pp) { later with stack := BitVec.ofNat 64 p :: st' } = .ok { later with stack := 0 :: st' }) := by
  obtain ⟨m', p, h1, h2, h3, h4, h5, _⟩ := pointer_stored w hk hu m a st hf
  refine ⟨m', p, h1, h2, ?_⟩
  intro later st' hl P Pp hP
  have hp : p < 2 ^ 64 := by have := h3.2; dsimp only at this; omega
  have hh : Holds e later.mem p r.2 S a := h5.congr (w.two h4) hl
  have hcode : fromIface e P Pp = [.assertType P] := by unfold fromIface; rw [if_pos hP]
  rw [hcode, run_assertType w hh hp]
  constructor
  · intro h
    rw [if_pos (equiv_iff.mpr h)]
    rfl
  · intro h
    rw [equiv_false h]
    rfl

/-- **C48**, a pointer taken as a value: the conversion of an interface that holds a pointer of the type `S = ^T` to the type `U` is what the
pointer points to now, if `U` is equivalent to `T` and the pointer is not null, and a run-time error otherwise. -/
theorem C48_pointer_as_value_partial {e : Env} (w : e.Ok) {S sp : Fin e.g.n} (hk : e.kind S = .ptr) {u : Use e.g.n} {us : List (Use e.g.n)}
    {r : List (Instr e.g.n) × Fin e.g.n} (hu : uses e S sp (u :: us) = some r) (m : M) (a : Slot) (st : List Slot)
    {block : Nat × Nat} (hf : Fits e (u :: us) block) :
    ∃ m' p, run e r.1 { m with stack := a :: st } = .ok m' ∧ m'.stack = BitVec.ofNat 64 p :: st ∧
      ∀ (later : M) (st' : List Slot), (∀ b, In (p, 8 * (e.g.node r.2).fields.length) b → later.mem b = m'.mem b) →
        ∀ U Up : Fin e.g.n, IsPtrTo e.g Up U → Plain (e.kind U) →
          (Equivalent e.g U (e.g.node S).base → a ≠ 0 →
            run e (fromIface e U Up) { later with stack := BitVec.ofNat 64 p :: st' } =
              (deref e.fp (e.kind U) later.mem a).bind fun x => .ok { later with stack := x :: st' }) ∧
          (¬ Equivalent e.g U (e.g.node S).base ∨ a = 0 →
            run e (fromIface e U Up) { later with stack := BitVec.ofNat 64 p :: st' } = .err .nullPointer) := by
  obtain ⟨m', p, h1, h2, h3, h4, h5, _⟩ := pointer_stored w hk hu m a st hf
  refine ⟨m', p, h1, h2, ?_⟩
  intro later st' hl U Up hU hkU
  have hp : p < 2 ^ 64 := by have := h3.2; dsimp only at this; omega
  have hh : Holds e later.mem p r.2 S a := h5.congr (w.two h4) hl
  have hcode : fromIface e U Up = [.assertType Up, .deref (e.kind U)] := by
    unfold fromIface; rw [if_neg (plain_kinds hkU).2.1]
  have heq : Equivalent e.g Up S ↔ Equivalent e.g U (e.g.node S).base := equivalent_ptr hU ⟨hk, rfl⟩
  rw [hcode, run_assertType w hh hp]
  constructor
  · intro h _
    rw [if_pos (equiv_iff.mpr (heq.mpr h))]
    show (Res.bind (deref e.fp (e.kind U) later.mem a) _).bind _ = _
    cases deref e.fp (e.kind U) later.mem a <;> rfl
  · intro h
    have : (if e.equiv Up S then a else 0) = 0 := by
      rcases h with h | h
      · rw [equiv_false (fun h' => h (heq.mp h'))]; rfl
      · rw [h]; split <;> rfl
    rw [this]
    rfl

/-- **C48**, a value taken as a pointer: the conversion of an interface that holds a value of type `T` to a pointer type is null, unless the
pointer type is equivalent to `^T`: then it points to the copy of the value that the interface holds.  (So `T` and `^T` cannot be told apart:
`C48_value_as_pointer_violated`.) -/
theorem C48_value_as_pointer_partial {e : Env} (w : e.Ok) {T Tp : Fin e.g.n} (_hT : IsPtrTo e.g Tp T) (hk : Plain (e.kind T)) {u : Use e.g.n}
    {us : List (Use e.g.n)} {r : List (Instr e.g.n) × Fin e.g.n} (hu : uses e T Tp (u :: us) = some r) (m : M) (v : Slot) (st : List Slot)
    (hb : Valid (m.free, e.size T)) (hf : Fits e (u :: us) (m.free, e.size T)) (ho : overflow e.fp (e.kind T) v = false)
    (hv : IsValue e.fp (e.kind T) v) (hsrc : structured (e.kind T) = true → Disjoint (v.toNat, e.size T) (m.free, e.size T)) :
    ∃ m' p, run e r.1 { m with stack := v :: st } = .ok m' ∧ m'.stack = BitVec.ofNat 64 p :: st ∧
      ∀ (later : M) (st' : List Slot), (∀ b, In (p, 8 * (e.g.node r.2).fields.length) b → later.mem b = m'.mem b) →
        ∀ P Pp : Fin e.g.n, e.kind P = .ptr →
          (¬ Equivalent e.g P Tp →
            run e (fromIface e P Pp) { later with stack := BitVec.ofNat 64 p :: st' } = .ok { later with stack := 0 :: st' }) ∧
          (Equivalent e.g P Tp →
            run e (fromIface e P Pp) { later with stack := BitVec.ofNat 64 p :: st' } = .ok { later with stack := BitVec.ofNat 64 m.free :: st' }) := by
  obtain ⟨m', p, x, h1, h2, h3, h4, h5, _, _⟩ := value_stored w hk hu m v st hb hf ho hv hsrc
  refine ⟨m', p, h1, h2, ?_⟩
  intro later st' hl P Pp hP
  have hp : p < 2 ^ 64 := by have := h3.2; dsimp only at this; omega
  have hh : Holds e later.mem p r.2 Tp (BitVec.ofNat 64 m.free) := h5.congr (w.two h4) hl
  have hcode : fromIface e P Pp = [.assertType P] := by unfold fromIface; rw [if_pos hP]
  rw [hcode, run_assertType w hh hp]
  constructor
  · intro h
    rw [equiv_false h]
    rfl
  · intro h
    rw [if_pos (equiv_iff.mpr h)]
    rfl

/-! ## Type switches -/

/-- The case `c` is for what the interface holds: the pointer `a` of the type `q`. -/
def Matches (e : Env) (q : Fin e.g.n) (a : Slot) (c : Fin e.g.n × Fin e.g.n) : Prop :=
  a ≠ 0 ∧ Equivalent e.g (if e.kind c.1 = .ptr then c.1 else c.2) q

theorem run_caseCheck {e : Env} (w : e.Ok) {p : Nat} {t q : Fin e.g.n} {a : Slot} {m : M} (hh : Holds e m.mem p t q a) (hp : p < 2 ^ 64)
    (c : Fin e.g.n × Fin e.g.n) (st : List Slot) :
    (Matches e q a c → run e (caseCheck e c.1 c.2) { m with stack := BitVec.ofNat 64 p :: st } =
      .ok { m with stack := 1 :: a :: BitVec.ofNat 64 p :: st }) ∧
    (¬ Matches e q a c → run e (caseCheck e c.1 c.2) { m with stack := BitVec.ofNat 64 p :: st } =
      .ok { m with stack := 0 :: 0 :: BitVec.ofNat 64 p :: st }) := by
  have h : run e (caseCheck e c.1 c.2) { m with stack := BitVec.ofNat 64 p :: st } =
      run e [.dup, .notEqNull] { m with stack := (if e.equiv (if e.kind c.1 = .ptr then c.1 else c.2) q then a else 0) :: BitVec.ofNat 64 p :: st } := by
    rw [← run_assertType w hh hp [.dup, .notEqNull] (BitVec.ofNat 64 p :: st)]
    unfold caseCheck
    rw [run.eq_def]
    dsimp only [step, Res.bind]
  rw [h]
  constructor
  · rintro ⟨h1, h2⟩
    rw [if_pos (equiv_iff.mpr h2)]
    simp only [run, step, Res.bind, h1, if_false]
  · intro hn
    have : (if e.equiv (if e.kind c.1 = .ptr then c.1 else c.2) q then a else 0) = 0 := by
      by_cases h2 : e.equiv (if e.kind c.1 = .ptr then c.1 else c.2) q = true
      · rw [if_pos h2]
        apply Classical.byContradiction
        intro h1
        exact hn ⟨h1, equiv_iff.mp h2⟩
      · exact if_neg h2
    rw [this]
    simp only [run, step, Res.bind, if_true]

theorem typeSwitch_holds {e : Env} (w : e.Ok) {p : Nat} {t q : Fin e.g.n} {a : Slot} {m : M} (hh : Holds e m.mem p t q a) (hp : p < 2 ^ 64)
    (st : List Slot) : ∀ (cs : List (Fin e.g.n × Fin e.g.n)) (i : Nat),
    ((∀ c ∈ cs, ¬ Matches e q a c) →
      typeSwitch e i cs { m with stack := BitVec.ofNat 64 p :: st } = .ok (none, { m with stack := BitVec.ofNat 64 p :: st })) ∧
    (∀ (j : Nat) (c : Fin e.g.n × Fin e.g.n), cs[j]? = some c → Matches e q a c → (∀ k c', k < j → cs[k]? = some c' → ¬ Matches e q a c') →
      typeSwitch e i cs { m with stack := BitVec.ofNat 64 p :: st } =
        (run e (caseBind e c.1) { m with stack := a :: BitVec.ofNat 64 p :: st }).bind fun m' => .ok (some (i + j), m'))
  | [], i => ⟨fun _ => rfl, fun j c h => by cases j <;> cases h⟩
  | c :: cs, i => by
    have hskip : ¬ Matches e q a c → typeSwitch e i (c :: cs) { m with stack := BitVec.ofNat 64 p :: st } =
        typeSwitch e (i + 1) cs { m with stack := BitVec.ofNat 64 p :: st } := by
      intro hn
      rw [typeSwitch, (run_caseCheck w hh hp c st).2 hn]
      rfl
    obtain ⟨ih1, ih2⟩ := typeSwitch_holds w hh hp st cs (i + 1)
    constructor
    · intro h
      rw [hskip (h c List.mem_cons_self)]
      exact ih1 fun c' hc' => h c' (List.mem_cons_of_mem _ hc')
    · intro j c' hj hm hk
      cases j with
      | zero =>
        injection hj with hj
        subst hj
        rw [typeSwitch, (run_caseCheck w hh hp c st).1 hm]
        rfl
      | succ j =>
        rw [hskip (hk 0 c (Nat.succ_pos _) rfl), ih2 j c' hj hm fun k c'' hk' hc'' => hk (k + 1) c'' (Nat.succ_lt_succ hk') hc'']
        rw [show i + 1 + j = i + (j + 1) by omega]

/-- **C48**, type switches.  An interface that holds a value of type `T` selects the first case whose type is equivalent to `T` or to `^T`.  A case of
a type that is not a pointer is entered with the original value on the stack, to be stored in the variable of the case.  If there is no such
case, `default` is executed. -/
theorem C48_type_switch {e : Env} (w : e.Ok) {T Tp : Fin e.g.n} (hT : IsPtrTo e.g Tp T) (hk : Plain (e.kind T)) {u : Use e.g.n}
    {us : List (Use e.g.n)} {r : List (Instr e.g.n) × Fin e.g.n} (hu : uses e T Tp (u :: us) = some r) (m : M) (v : Slot) (st : List Slot)
    (hb : Valid (m.free, e.size T)) (hf : Fits e (u :: us) (m.free, e.size T)) (ho : overflow e.fp (e.kind T) v = false)
    (hv : IsValue e.fp (e.kind T) v) (hsrc : structured (e.kind T) = true → Disjoint (v.toNat, e.size T) (m.free, e.size T)) :
    ∃ m' p, run e r.1 { m with stack := v :: st } = .ok m' ∧ m'.stack = BitVec.ofNat 64 p :: st ∧
      ∀ cs : List (Fin e.g.n × Fin e.g.n), (∀ c ∈ cs, (e.kind c.1 = .ptr ∨ Plain (e.kind c.1)) ∧ IsPtrTo e.g c.2 c.1) →
        ((∀ c ∈ cs, ¬ Equivalent e.g c.1 T ∧ ¬ Equivalent e.g c.1 Tp) → typeSwitch e 0 cs m' = .ok (none, m')) ∧
        (∀ (j : Nat) (c : Fin e.g.n × Fin e.g.n), cs[j]? = some c → Equivalent e.g c.1 T ∨ Equivalent e.g c.1 Tp →
          (∀ k c', k < j → cs[k]? = some c' → ¬ Equivalent e.g c'.1 T ∧ ¬ Equivalent e.g c'.1 Tp) →
          ∃ x, typeSwitch e 0 cs m' = .ok (some j, { m' with stack := x :: BitVec.ofNat 64 p :: st }) ∧
            (e.kind c.1 ≠ .ptr → value (e.kind T) (e.size T) m'.mem x = value (e.kind T) (e.size T) m.mem v)) := by
  obtain ⟨m', p, x, h1, h2, h3, h4, h5, h6, h7⟩ := value_stored w hk hu m v st hb hf ho hv hsrc
  have hp : p < 2 ^ 64 := by have := h3.2; dsimp only at this; omega
  have hne : BitVec.ofNat 64 m.free ≠ 0 := ofNat_ne_zero hb.1 (by have := hb.2; dsimp only at this; omega)
  refine ⟨m', p, h1, h2, ?_⟩
  intro cs hcs
  obtain ⟨s1, s2⟩ := typeSwitch_holds w h5 hp st cs 0
  have hm' : { m' with stack := BitVec.ofNat 64 p :: st } = m' := by rw [← h2]
  rw [hm'] at s1
  simp only [hm'] at s2
  have hiff : ∀ c ∈ cs, (Matches e Tp (BitVec.ofNat 64 m.free) c ↔ (Equivalent e.g c.1 T ∨ Equivalent e.g c.1 Tp)) := by
    intro c hc
    obtain ⟨hk', hp'⟩ := hcs c hc
    have hx := equivalent_ptr (s := T) hp' ⟨hT.1, hT.2.1⟩
    unfold Matches
    rcases hk' with hk' | hk'
    · rw [if_pos hk']
      constructor
      · exact fun h => Or.inr h.2
      · rintro (h | h)
        · exfalso
          have := equivalent_kind w.types h
          exact (plain_kinds hk).2.1 (this.symm.trans hk')
        · exact ⟨hne, h⟩
    · rw [if_neg (plain_kinds hk').2.1]
      constructor
      · exact fun h => Or.inl (hx.mp h.2)
      · rintro (h | h)
        · exact ⟨hne, hx.mpr h⟩
        · exfalso
          have := equivalent_kind w.types h
          exact (plain_kinds hk').2.1 (this.trans hT.1)
  constructor
  · intro h
    exact s1 fun c hc hm => (by
      have := h c hc
      rcases (hiff c hc).mp hm with h' | h'
      · exact this.1 h'
      · exact this.2 h')
  · intro j c hj hc hfirst
    have hcm := List.mem_of_getElem? hj
    rw [s2 j c hj ((hiff c hcm).mpr hc) fun k c' hk' hc' hm => (by
      have := hfirst k c' hk' hc'
      rcases (hiff c' (List.mem_of_getElem? hc')).mp hm with h' | h'
      · exact this.1 h'
      · exact this.2 h')]
    rw [Nat.zero_add]
    by_cases hcp : e.kind c.1 = .ptr
    · refine ⟨BitVec.ofNat 64 m.free, ?_, fun h => absurd hcp h⟩
      unfold caseBind
      rw [if_pos hcp]
      rfl
    · refine ⟨x, ?_, fun _ => h7⟩
      have hkk : e.kind c.1 = e.kind T := by
        rcases hc with h | h
        · exact equivalent_kind w.types h
        · exact absurd ((equivalent_kind w.types h).trans hT.1) hcp
      unfold caseBind
      rw [if_neg hcp]
      simp only [run, step, hkk, h6, Res.bind]

/-! ## C62 -/

theorem findMethod_declared {e : Env} {q : Fin e.g.n} {name : String} {meth : Method e.g.n}
    (h : findMethod e (rcvModule e (e.g.node q).base) name q = some meth) : Declared e name (e.g.node q).base meth := by
  unfold findMethod at h
  have hmem := List.mem_of_find?_eq_some h
  have hp := List.find?_some h
  simp only [Bool.and_eq_true, Bool.or_eq_true, beq_iff_eq] at hp
  obtain ⟨⟨h1, h2⟩, ⟨h3, h4⟩, h5⟩ := hp
  refine ⟨hmem, h1, h3, h5, ?_⟩
  unfold rcvModule at h2
  cases hid : (e.g.node (e.g.node q).base).typeIdent with
  | none => rw [hid] at h2; simp at h2
  | some id =>
    rw [hid] at h2
    simp only [Option.map_some, Option.some.injEq] at h2
    refine ⟨id, rfl, ?_⟩
    rcases h2 with h | h
    · exact ⟨Or.inl h.1, Or.inl h.1⟩
    · refine ⟨Or.inr h.1, Or.inr ?_⟩
      rcases h.2 with h3 | h3
      · exact Or.inl (h.1.trans h3.symm)
      · exact Or.inr h3

theorem dests {e : Env} {us : List (Use e.g.n)} {b : Nat × Nat} (hf : Fits e us b) : ∀ x ∈ us, e.kind x.dest = .interface := fun x hx => by
  have := hf.interfaces x hx
  cases x <;> exact this

theorem select_holds {e : Env} (w : e.Ok) {p : Nat} {t q : Fin e.g.n} {a : Slot} {m : M} (hh : Holds e m.mem p t q a) (ht : e.kind t = .interface)
    (hp : Valid (p, 8 * (e.g.node t).fields.length)) {name : String} (hn : name ≠ "#self" ∧ name ≠ "#selftype") {c : List (Instr e.g.n)}
    (hc : selectMethod e t name = some c) (st : List Slot) :
    ∃ entry, entryOf e q name = some entry ∧
      run e c { m with stack := BitVec.ofNat 64 p :: st } = .ok { m with self := a, stack := a :: entry :: st } ∧
      ∃ i f, 2 ≤ i ∧ (e.g.node t).fields[i]? = some f ∧ f.name = name := by
  obtain ⟨p0, p1⟩ := hp
  dsimp only at p0 p1
  unfold selectMethod at hc
  cases hf : findField name 0 (e.g.node t).fields with
  | none => rw [hf] at hc; cases hc
  | some iq =>
    rw [hf] at hc
    obtain ⟨i, f⟩ := iq
    injection hc with hc
    subst hc
    obtain ⟨_, f2, f3⟩ := findField_spec hf
    dsimp only [Nat.sub_zero] at f2 f3
    have hi := (List.getElem?_eq_some_iff.mp f2).1
    have hi2 : 2 ≤ i := by
      obtain ⟨rest, hr⟩ := w.hidden t ht
      have h2 : ((e.g.node t).fields.map (·.name))[i]? = some f.name := by rw [List.getElem?_map, f2]; rfl
      rw [hr] at h2
      match i, h2 with
      | 0, h2 => injection h2 with h2; exact absurd (f3.symm.trans h2.symm) hn.1
      | 1, h2 => injection h2 with h2; exact absurd (f3.symm.trans h2.symm) hn.2
      | i + 2, _ => omega
    refine ⟨word m.mem (p + 8 * i), ?_, ?_, i, f, hi2, f2, f3⟩
    · rw [← f3]; exact (hh.methods i f hi2 f2).symm
    · have s1 := run_getSelf e p0 (by omega) m st
      rw [hh.self] at s1
      have hne : BitVec.ofNat 64 p ≠ 0 := ofNat_ne_zero p0 (by omega)
      have hadd : BitVec.ofNat 64 p + BitVec.ofNat 64 (8 * i) = BitVec.ofNat 64 (p + 8 * i) := (BitVec.ofNat_add _ _).symm
      have hne2 : BitVec.ofNat 64 (p + 8 * i) ≠ 0 := ofNat_ne_zero (by omega) (by omega)
      refine (run_ok (a := [.dup, .deref .ptr]) s1).trans ?_
      simp only [run, step, Res.bind, hne, if_false, fieldOffset, hadd, deref, hne2, ordinal, structured,
        ofNat_toNat (show p + 8 * i < 2 ^ 64 by omega), Bool.false_eq_true]

theorem call_holds {e : Env} (w : e.Ok) {p : Nat} {t q : Fin e.g.n} {a : Slot} {m : M} (hh : Holds e m.mem p t q a) (hsig : Signed e t q) (ht : e.kind t = .interface)
    (hp : Valid (p, 8 * (e.g.node t).fields.length)) {name : String} (hn : name ≠ "#self" ∧ name ≠ "#selftype") {c : List (Instr e.g.n)}
    (hc : selectMethod e t name = some c) (hentry : ∀ x ∈ e.methods, 0 < x.entry ∧ x.entry < 2 ^ 64) (st args : List Slot) :
    (e.kind (e.g.node q).base ≠ .null → ∃ meth, Declared e name (e.g.node q).base meth ∧ Signature e t name meth ∧
      (run e c { m with stack := BitVec.ofNat 64 p :: st }).bind (callIndirect args) = .ok (BitVec.ofNat 64 meth.entry, a, args)) ∧
    (e.kind (e.g.node q).base = .null →
      (run e c { m with stack := BitVec.ofNat 64 p :: st }).bind (callIndirect args) = .err .notDefined) := by
  obtain ⟨entry, h1, h2, i, f, f1, f2, f3⟩ := select_holds w hh ht hp hn hc st
  rw [h2]
  unfold entryOf at h1
  constructor
  · intro hk
    rw [if_neg hk] at h1
    cases hm : findMethod e (rcvModule e (e.g.node q).base) name q with
    | none => rw [hm] at h1; cases h1
    | some meth =>
      rw [hm] at h1
      injection h1 with h1
      have hd := findMethod_declared hm
      have he := hentry meth hd.1
      refine ⟨meth, hd, ⟨f, List.mem_of_getElem? f2, f3, hsig i f meth f1 f2 hk (f3 ▸ hm)⟩, ?_⟩
      subst h1
      show (if BitVec.ofNat 64 meth.entry = 0 then _ else _) = _
      exact if_neg (ofNat_ne_zero he.1 he.2)
  · intro hk
    rw [if_pos hk] at h1
    injection h1 with h1
    subst h1
    rfl

/-- **C62**, values.  A value of a type `T` is converted to an interface, the result to another interface and so on.  A call of a method of
the interface obtained calls a method with this name that is declared for `T` and whose signature agrees with that of the interface; the receiver is a pointer to the copy of the value. -/
theorem C62_value {e : Env} (w : e.Ok) {T Tp : Fin e.g.n} (hT : IsPtrTo e.g Tp T) (hk : Plain (e.kind T)) {u : Use e.g.n}
    {us : List (Use e.g.n)} {r : List (Instr e.g.n) × Fin e.g.n} (hu : uses e T Tp (u :: us) = some r) (m : M) (v : Slot) (st : List Slot)
    (hb : Valid (m.free, e.size T)) (hf : Fits e (u :: us) (m.free, e.size T)) (ho : overflow e.fp (e.kind T) v = false)
    (hv : IsValue e.fp (e.kind T) v) (hsrc : structured (e.kind T) = true → Disjoint (v.toNat, e.size T) (m.free, e.size T))
    (hentry : ∀ x ∈ e.methods, 0 < x.entry ∧ x.entry < 2 ^ 64) :
    ∃ m' p, run e r.1 { m with stack := v :: st } = .ok m' ∧ m'.stack = BitVec.ofNat 64 p :: st ∧
      ∀ (later : M) (st' args : List Slot), (∀ b, In (p, 8 * (e.g.node r.2).fields.length) b ∨ In (m.free, e.size T) b → later.mem b = m'.mem b) →
        ∀ (name : String) (c : List (Instr e.g.n)), name ≠ "#self" ∧ name ≠ "#selftype" → selectMethod e r.2 name = some c →
          ∃ meth self, Declared e name T meth ∧ Signature e r.2 name meth ∧
            (run e c { later with stack := BitVec.ofNat 64 p :: st' }).bind (callIndirect args) = .ok (BitVec.ofNat 64 meth.entry, self, args) ∧
            ∃ x, deref e.fp (e.kind T) later.mem self = .ok x ∧
              value (e.kind T) (e.size T) later.mem x = value (e.kind T) (e.size T) m.mem v := by
  obtain ⟨m', p, x, h1, h2, h3, h4, h5, h6, h7⟩ := value_stored w hk hu m v st hb hf ho hv hsrc
  refine ⟨m', p, h1, h2, ?_⟩
  intro later st' args hl name c hn hc
  have hh : Holds e later.mem p r.2 Tp (BitVec.ofNat 64 m.free) := h5.congr (w.two h4) fun b hb => hl b (Or.inl hb)
  have hnull : e.kind (e.g.node Tp).base ≠ .null := by
    rw [hT.2.1]; revert hk; cases e.kind T <;> simp [Plain]
  obtain ⟨meth, d1, d3, d2⟩ := (call_holds w hh (value_signed w hk (dests hf) hu) h4 h3 hn hc hentry st' args).1 hnull
  rw [hT.2.1] at d1
  obtain ⟨c1, c2⟩ := deref_congr w hk (m' := later.mem) (fun b hbb => hl b (Or.inr (by
      rwa [ofNat_toNat (by have := hb.2; dsimp only at this; omega)] at hbb))) h6
  exact ⟨meth, BitVec.ofNat 64 m.free, d1, d3, d2, x, c1, c2.trans h7⟩

/-- **C62**, pointers.  The same for a pointer of a type `S = ^T`: the receiver is this pointer.  An interface that has been assigned `null` calls
nothing: it is a run-time error. -/
theorem C62_pointer {e : Env} (w : e.Ok) {S sp : Fin e.g.n} (hk : e.kind S = .ptr) {u : Use e.g.n} {us : List (Use e.g.n)}
    {r : List (Instr e.g.n) × Fin e.g.n} (hu : uses e S sp (u :: us) = some r) (m : M) (a : Slot) (st : List Slot)
    {block : Nat × Nat} (hf : Fits e (u :: us) block) (hentry : ∀ x ∈ e.methods, 0 < x.entry ∧ x.entry < 2 ^ 64) :
    ∃ m' p, run e r.1 { m with stack := a :: st } = .ok m' ∧ m'.stack = BitVec.ofNat 64 p :: st ∧
      ∀ (later : M) (st' args : List Slot), (∀ b, In (p, 8 * (e.g.node r.2).fields.length) b → later.mem b = m'.mem b) →
        ∀ (name : String) (c : List (Instr e.g.n)), name ≠ "#self" ∧ name ≠ "#selftype" → selectMethod e r.2 name = some c →
          (e.kind (e.g.node S).base ≠ .null → ∃ meth, Declared e name (e.g.node S).base meth ∧ Signature e r.2 name meth ∧
            (run e c { later with stack := BitVec.ofNat 64 p :: st' }).bind (callIndirect args) = .ok (BitVec.ofNat 64 meth.entry, a, args)) ∧
          (e.kind (e.g.node S).base = .null →
            (run e c { later with stack := BitVec.ofNat 64 p :: st' }).bind (callIndirect args) = .err .notDefined) := by
  obtain ⟨m', p, h1, h2, h3, h4, h5, _⟩ := pointer_stored w hk hu m a st hf
  refine ⟨m', p, h1, h2, ?_⟩
  intro later st' args hl name c hn hc
  exact call_holds w (h5.congr (w.two h4) hl) (pointer_signed w hk (dests hf) hu) h4 h3 hn hc hentry st' args

/-! ## A program -/

/-- `type S = struct {x: int}`, `fn (s: ^S) get(): int`, `type I = interface {get(): int}`; the types `void`, `^void`, `int`, `^int`, `any`, `S`, `^S`, `I`
and those of the methods. -/
def graph : Graph where
  n := 11
  node := fun t =>
    let N (k : Kind) (id : Option Nat) (base : Fin 11) (fs : List (Field 11)) (sig : Types.Sig 11) : Node 11 :=
      { kind := k, block := 0, numItems := fs.length, isEnum := false, typeIdent := id, base := base, fields := fs, sig := sig }
    let none' : Types.Sig 11 := ⟨[], 0, false, false, 0⟩
    match t with
    | 0 => N .void none 0 [] none'
    | 1 => N .ptr none 0 [] none'
    | 2 => N .int none 2 [] none'
    | 3 => N .ptr none 2 [] none'
    | 4 => N .interface none 0 [⟨"#self", 1⟩, ⟨"#selftype", 1⟩] none'
    | 5 => N .struct (some 7) 0 [⟨"x", 2⟩] none'
    | 6 => N .ptr none 5 [] none'
    | 7 => N .interface (some 8) 0 [⟨"#self", 1⟩, ⟨"#selftype", 1⟩, ⟨"get", 8⟩] none'
    | 8 => N .fn none 0 [] ⟨[⟨1, 0⟩], 0, true, true, 2⟩
    | 9 => N .fn none 0 [] ⟨[⟨6, 0⟩], 0, true, false, 2⟩
    | 10 => N .real none 0 [] none'
  dflt := fun a b => a == b

def program : Env where
  fp := ⟨fun v => v.setWidth 32, fun v => v.setWidth 64, fun _ => false, fun _ => false⟩
  g := graph
  size := fun (t : Fin 11) => match t with | 4 => 16 | 7 => 24 | _ => 8
  typeModule := fun _ => 1
  module := 1
  methods := ([⟨"get", 1, true, 6, 9, 1234⟩] : List (Method 11))

theorem graph_wf : WellFormed graph where
  dflt_refl := fun a => by simp [graph]
  dflt_symm := fun a b h => by simp only [graph, beq_iff_eq] at h ⊢; exact h.symm
  dflt_trans := fun a b c h h' => by simp only [graph, beq_iff_eq] at h h' ⊢; exact h.trans h'
  names := by simp only [Types.Named, Types.SameName]; decide +kernel
  methods := by decide +kernel
  noMethods := by simp only [Types.children]; decide +kernel

theorem program_ok : program.Ok where
  count := by decide
  types := graph_wf
  hidden := by
    have : ∀ t : Fin 11, (graph.node t).kind = .interface → ((graph.node t).fields.map (·.name)).take 2 = ["#self", "#selftype"] := by decide +kernel
    intro t ht
    refine ⟨((graph.node t).fields.map (·.name)).drop 2, ?_⟩
    have h := this t ht
    have := List.take_append_drop 2 ((graph.node t).fields.map (·.name))
    rw [h] at this
    exact this.symm
  names := by decide +kernel
  ordinal := by
    have : ∀ (t : Fin 11) (o : Arith.Kind), ordinal ((graph.node t).kind) = some o → o = .int ∧ t = 2 := by
      intro t
      revert t
      decide +kernel
    intro t o h
    obtain ⟨rfl, rfl⟩ := this t o h
    rfl
  real32 := by decide +kernel
  word := by decide +kernel

abbrev ty (t : Fin 11) : Fin program.g.n := t

/-- `var i: I = s; … any(i)`. -/
def way : List (Use program.g.n) := [.store (ty 7) 2000 3000, .convert (ty 4) 4000]

theorem way_fits (size : Nat) (h : size ≤ 500) : Fits program way (1000, size) where
  valid := by decide +kernel
  pairwise := by decide +kernel
  block := by
    have : ∀ r ∈ regions program way, 1500 ≤ r.1 := by decide +kernel
    intro r hr
    exact Or.inr (by have := this r hr; dsimp only; omega)
  interfaces := by
    intro u hu
    simp only [way, List.mem_cons, List.not_mem_nil, or_false] at hu
    rcases hu with rfl | rfl <;> rfl

theorem ptrS : IsPtrTo program.g (ty 6) (ty 5) := ⟨rfl, rfl, rfl⟩

theorem ptrInt : IsPtrTo program.g (ty 3) (ty 2) := ⟨rfl, rfl, rfl⟩

def start : M := ⟨fun _ => 0, [], 0, 0, 1000⟩

/-- The structure at 500, converted to `I`, stored, converted to `any`, is converted back to `S`, and not to `int`. -/
example : ∃ r m' p, uses program (ty 5) (ty 6) way = some r ∧ run program r.1 { start with stack := [500] } = .ok m' ∧ m'.stack = [BitVec.ofNat 64 p] ∧
    (∃ x, run program (fromIface program (ty 5) (ty 6)) m' = .ok { m' with stack := [x] } ∧
      value .struct 8 m'.mem x = value .struct 8 start.mem 500) ∧
    run program (fromIface program (ty 2) (ty 3)) m' = .err .nullPointer := by
  have hs : (uses program (ty 5) (ty 6) way).isSome = true := by decide +kernel
  obtain ⟨r, hr⟩ := Option.isSome_iff_exists.mp hs
  obtain ⟨m', p, h1, h2, h3⟩ := C48_value_round_trip program_ok ptrS (by decide +kernel) hr start 500 [] (by decide +kernel)
    (way_fits _ (by decide)) (by decide +kernel) ⟨fun h => (by cases h), fun _ => by decide⟩ (fun _ => by decide +kernel)
  have hm : { m' with stack := BitVec.ofNat 64 p :: [] } = m' := by rw [← h2]
  obtain ⟨x, a1, a2⟩ := (h3 m' [] (fun _ _ => rfl) (ty 5) (ty 6) ptrS (by decide +kernel)).1 (Types.equivalent_refl _ _)
  have b1 := (h3 m' [] (fun _ _ => rfl) (ty 2) (ty 3) ptrInt (by decide +kernel)).2 (fun h => by
    have := equivalent_kind graph_wf h
    revert this
    decide +kernel)
  rw [hm] at a1 b1
  exact ⟨r, m', p, hr, h1, h2, ⟨x, a1, a2⟩, b1⟩

/-- The call `i.get()` through the interface calls the method at 1234. -/
example : ∃ r m' p, uses program (ty 5) (ty 6) [.store (ty 7) 2000 3000] = some r ∧ run program r.1 { start with stack := [500] } = .ok m' ∧
    m'.stack = [BitVec.ofNat 64 p] ∧
    ∃ c self, selectMethod program (ty 7) "get" = some c ∧ (run program c m').bind (callIndirect []) = .ok (1234, self, []) := by
  have hs : (uses program (ty 5) (ty 6) [.store (ty 7) 2000 3000]).isSome = true := by decide +kernel
  obtain ⟨r, hr⟩ := Option.isSome_iff_exists.mp hs
  have hr2 : r.2 = ty 7 := by
    have : (uses program (ty 5) (ty 6) [.store (ty 7) 2000 3000]).map (·.2) = some (ty 7) := by decide +kernel
    rw [hr] at this
    injection this
  have hf : Fits program [.store (ty 7) 2000 3000] (1000, 8) := by
    refine ⟨by decide +kernel, by decide +kernel, by decide +kernel, ?_⟩
    intro u hu
    simp only [List.mem_cons, List.not_mem_nil, or_false] at hu
    rcases hu with rfl
    rfl
  obtain ⟨m', p, h1, h2, h3⟩ := C62_value program_ok ptrS (by decide +kernel) hr start 500 [] (by decide +kernel)
    hf (by decide +kernel) ⟨fun h => (by cases h), fun _ => by decide⟩ (fun _ => by decide +kernel) (by decide +kernel)
  have hm : { m' with stack := BitVec.ofNat 64 p :: [] } = m' := by rw [← h2]
  have hc : (selectMethod program r.2 "get").isSome = true := by rw [hr2]; decide +kernel
  obtain ⟨c, hc⟩ := Option.isSome_iff_exists.mp hc
  obtain ⟨meth, self, d1, _, d2, _⟩ := h3 m' [] [] (fun _ _ => rfl) "get" c (by decide) hc
  rw [hm] at d2
  have hd : meth = (⟨"get", 1, true, 6, 9, 1234⟩ : Method 11) := List.mem_singleton.mp d1.1
  rw [hd] at d2
  rw [hr2] at hc
  exact ⟨r, m', p, hr, h1, h2, c, self, hc, d2⟩

theorem any_fits : Fits program [.convert (ty 4) 4000] (1000, 8) := by
  refine ⟨by decide +kernel, by decide +kernel, by decide +kernel, ?_⟩
  intro u hu
  simp only [List.mem_cons, List.not_mem_nil, or_false] at hu
  rcases hu with rfl
  rfl

theorem int_ne_ptr : ¬ Equivalent program.g (ty 3) (ty 2) := fun h => by
  have := equivalent_kind graph_wf h
  revert this
  decide +kernel

/-- **C48** is false if `T` and `^T` count as different types: an `int` converted to `any` can be converted to `^int`, and the result is not
null. -/
theorem C48_value_as_pointer_violated : ∃ (e : Env) (T Tp P I : Fin e.g.n) (area : Nat) (r : List (Instr e.g.n) × Fin e.g.n) (m m' : M) (v x : Slot),
    e.Ok ∧ IsPtrTo e.g Tp T ∧ Plain (e.kind T) ∧ e.kind P = .ptr ∧ ¬ Equivalent e.g P T ∧ uses e T Tp [.convert I area] = some r ∧
    Fits e [.convert I area] (m.free, e.size T) ∧ overflow e.fp (e.kind T) v = false ∧
    run e (r.1 ++ fromIface e P P) { m with stack := [v] } = .ok { m' with stack := [x] } ∧ x ≠ 0 := by
  have hs : (uses program (ty 2) (ty 3) [.convert (ty 4) 4000]).isSome = true := by decide +kernel
  obtain ⟨r, hr⟩ := Option.isSome_iff_exists.mp hs
  obtain ⟨m', p, h1, h2, h3⟩ := C48_value_as_pointer_partial program_ok ptrInt (by decide +kernel) hr start 42 [] (by decide +kernel)
    any_fits (by decide +kernel) ⟨fun h => (by cases h), fun h => by cases h⟩ (fun h => by cases h)
  have hm : { m' with stack := BitVec.ofNat 64 p :: [] } = m' := by rw [← h2]
  have a1 := (h3 m' [] (fun _ _ => rfl) (ty 3) (ty 3) rfl).2 (Types.equivalent_refl _ _)
  rw [hm] at a1
  exact ⟨program, ty 2, ty 3, ty 3, ty 4, 4000, r, start, m', 42, _, program_ok, ptrInt, by decide +kernel, rfl, int_ne_ptr, hr, any_fits,
    by decide +kernel, (run_ok h1).trans a1, by decide⟩

/-- **C48** is false in the same way for pointers: a `^int` converted to `any` can be converted to `int`. -/
theorem C48_pointer_as_value_violated : ∃ (e : Env) (S T I : Fin e.g.n) (area : Nat) (r : List (Instr e.g.n) × Fin e.g.n) (m m' : M) (a x : Slot),
    e.Ok ∧ e.kind S = .ptr ∧ Plain (e.kind T) ∧ ¬ Equivalent e.g S T ∧ uses e S S [.convert I area] = some r ∧
    Fits e [.convert I area] (m.free, e.size T) ∧
    run e (r.1 ++ fromIface e T S) { m with stack := [a] } = .ok { m' with stack := [x] } := by
  have hs : (uses program (ty 3) (ty 3) [.convert (ty 4) 4000]).isSome = true := by decide +kernel
  obtain ⟨r, hr⟩ := Option.isSome_iff_exists.mp hs
  obtain ⟨m', p, h1, h2, h3⟩ := C48_pointer_as_value_partial program_ok (S := ty 3) rfl hr start 500 [] any_fits
  have hm : { m' with stack := BitVec.ofNat 64 p :: [] } = m' := by rw [← h2]
  have a1 := (h3 m' [] (fun _ _ => rfl) (ty 2) (ty 3) ptrInt (by decide +kernel)).1 (Types.equivalent_refl _ _) (by decide)
  rw [hm] at a1
  exact ⟨program, ty 3, ty 2, ty 4, 4000, r, start, m', 500, Arith.readSigned m'.mem 500 8, program_ok, rfl, by decide +kernel, int_ne_ptr, hr,
    any_fits, (run_ok h1).trans a1⟩

/-- A type switch with a case for `int` and one for `^int`, which the compiler accepts: a `^int` takes the case for `int`. -/
theorem C48_pointer_case_violated : ∃ (e : Env) (S T I : Fin e.g.n) (area : Nat) (r : List (Instr e.g.n) × Fin e.g.n) (m m' m'' : M) (a : Slot),
    e.Ok ∧ e.kind S = .ptr ∧ Plain (e.kind T) ∧ e.equiv S T = false ∧ uses e S S [.convert I area] = some r ∧
    Fits e [.convert I area] (m.free, e.size T) ∧
    run e r.1 { m with stack := [a] } = .ok m' ∧ typeSwitch e 0 [(T, S), (S, S)] m' = .ok (some 0, m'') := by
  have hs : (uses program (ty 3) (ty 3) [.convert (ty 4) 4000]).isSome = true := by decide +kernel
  obtain ⟨r, hr⟩ := Option.isSome_iff_exists.mp hs
  obtain ⟨m', p, h1, h2, h3, h4, h5, _⟩ := pointer_stored program_ok (S := ty 3) rfl hr start 500 [] any_fits
  have hm : { m' with stack := BitVec.ofNat 64 p :: [] } = m' := by rw [← h2]
  have hp : p < 2 ^ 64 := by have := h3.2; dsimp only at this; omega
  have := (typeSwitch_holds program_ok h5 hp [] [(ty 2, ty 3), (ty 3, ty 3)] 0).2 0 (ty 2, ty 3) rfl
    ⟨by decide, Types.equivalent_refl _ _⟩ (fun k _ hk => absurd hk (Nat.not_lt_zero _))
  rw [hm] at this
  exact ⟨program, ty 3, ty 2, ty 4, 4000, r, start, m', _, 500, program_ok, rfl, by decide +kernel, equiv_false int_ne_ptr, hr, any_fits, h1, this⟩

end Umka.Iface.Props
