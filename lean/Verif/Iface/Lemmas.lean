import Verif.Iface.Spec
import Verif.Types.Props
import Verif.Arith.Lemmas
/-! # Interfaces: lemmas -/

namespace Umka.Iface

open Umka.Types (Graph Kind Node Field Equivalent WellFormed)
open Umka.Arith (Slot Mem writeBytes readBytes readUnsigned)

/-! ## Memory -/

theorem word_setWord (m : Mem) (a : Nat) (v : Slot) : word (setWord m a v) a = v :=
  Arith.readUnsigned_write m a 8 v (by have := v.isLt; omega)

theorem word_congr {m m' : Mem} {a : Nat} (h : ∀ b, a ≤ b → b < a + 8 → m b = m' b) : word m a = word m' a := by
  rw [word, word, readUnsigned, readUnsigned, Arith.read_congr 8 m m' a h]

theorem setWord_frame (m : Mem) (a : Nat) (v : Slot) (b : Nat) (h : b < a ∨ a + 8 ≤ b) : setWord m a v b = m b :=
  Arith.write_frame 8 m a v.toNat b h

theorem word_setWord_ne (m : Mem) {a b : Nat} (v : Slot) (h : b + 8 ≤ a ∨ a + 8 ≤ b) : word (setWord m a v) b = word m b :=
  word_congr fun c h1 h2 => setWord_frame m a v c (by omega)

theorem ofNat_toNat {x : Nat} (h : x < 2 ^ 64) : (BitVec.ofNat 64 x).toNat = x := by
  rw [BitVec.toNat_ofNat]; exact Nat.mod_eq_of_lt h

theorem ofNat_ne_zero {x : Nat} (h0 : 0 < x) (h : x < 2 ^ 64) : BitVec.ofNat 64 x ≠ 0 := by
  intro hc
  have := congrArg BitVec.toNat hc
  rw [ofNat_toNat h] at this
  simp at this
  omega

/-! ## Execution -/

theorem run_append (e : Env) : ∀ (a b : List (Instr e.g.n)) (m : M), run e (a ++ b) m = (run e a m).bind (run e b)
  | [], _, _ => rfl
  | i :: a, b, m => by
    rw [List.cons_append, run, run]
    cases step e m i with
    | ok m' => exact run_append e a b m'
    | err x => rfl
    | ub => rfl

theorem run_ok {e : Env} {a b : List (Instr e.g.n)} {m m' : M} (h : run e a m = .ok m') : run e (a ++ b) m = run e b m' := by
  rw [run_append, h]; rfl

theorem run_err {e : Env} {a b : List (Instr e.g.n)} {m : M} {x : Err} (h : run e a m = .err x) : run e (a ++ b) m = .err x := by
  rw [run_append, h]; rfl

theorem run_storeField (e : Env) {area i : Nat} {k : Kind} (hk : k = .ptr ∨ k = .fn) (h0 : 0 < area) (h1 : area + 8 * i < 2 ^ 64)
    (m : M) (v : Slot) (st : List Slot) :
    run e (storeField area i k) { m with stack := v :: st } = .ok { m with mem := setWord m.mem (area + 8 * i) v, stack := st } := by
  have hne : BitVec.ofNat 64 (area + 8 * i) ≠ 0 := ofNat_ne_zero (by omega) h1
  rcases hk with rfl | rfl <;>
    simp only [storeField, fieldOffset, run, step, Res.bind, assign, hne, if_false, overflow, ordinal, structured, ofNat_toNat h1, Bool.false_eq_true]

/-- The entry point of the method `name` of a pointer type. -/
def entryOf (e : Env) (q : Fin e.g.n) (name : String) : Option Slot :=
  if e.kind (e.g.node q).base = .null then some 0
  else (findMethod e (rcvModule e (e.g.node q).base) name q).map fun m => BitVec.ofNat 64 m.entry

theorem methodEntry_entryOf {e : Env} {q : Fin e.g.n} {f : Field e.g.n} {w : Slot} (h : methodEntry e q f = some w) :
    entryOf e q f.name = some w := by
  unfold methodEntry at h
  unfold entryOf
  dsimp only at h
  split at h
  · next hk => rw [if_pos hk]; exact h
  · next hk =>
    rw [if_neg hk]
    cases hm : findMethod e (rcvModule e (e.g.node q).base) f.name q with
    | none => rw [hm] at h; cases h
    | some m =>
      rw [hm] at h
      dsimp only at h
      split at h
      · exact h
      · cases h

theorem run_storeMethods (e : Env) (q : Fin e.g.n) {area : Nat} (h0 : 0 < area) : ∀ (fs : List (Field e.g.n)) (i : Nat) (c : List (Instr e.g.n)),
    storeMethods e q area i fs = some c → area + 8 * (i + fs.length) < 2 ^ 64 → ∀ m : M,
    ∃ mem', run e c m = .ok { m with mem := mem' } ∧
      (∀ (j : Nat) (f : Field e.g.n), fs[j]? = some f → some (word mem' (area + 8 * (i + j))) = entryOf e q f.name) ∧
      (∀ x, x < area + 8 * i ∨ area + 8 * (i + fs.length) ≤ x → mem' x = m.mem x)
  | [], i, c, hc, _, m => by
    simp only [storeMethods, Option.some.injEq] at hc
    subst hc
    exact ⟨m.mem, rfl, fun j f h => (by cases j <;> cases h), fun _ _ => rfl⟩
  | f :: fs, i, c, hc, hb, m => by
    simp only [List.length_cons] at hb ⊢
    unfold storeMethods at hc
    cases hw : methodEntry e q f with
    | none => rw [hw] at hc; cases hc
    | some w =>
      cases hr : storeMethods e q area (i + 1) fs with
      | none => rw [hw, hr] at hc; cases hc
      | some rest =>
        rw [hw, hr] at hc
        injection hc with hc
        subst hc
        obtain ⟨mem', r1, r2, r3⟩ := run_storeMethods e q h0 fs (i + 1) rest hr (by omega)
          { m with mem := setWord m.mem (area + 8 * i) w, stack := m.stack }
        refine ⟨mem', ?_, ?_, ?_⟩
        · show (step e m (.push w)).bind (run e (storeField area i .fn ++ rest)) = _
          have := run_storeField e (Or.inr rfl) h0 (show area + 8 * i < 2 ^ 64 by omega) m w m.stack
          exact (run_ok this).trans r1
        · intro j f' hf
          cases j with
          | zero =>
            injection hf with hf
            subst hf
            rw [methodEntry_entryOf hw]
            congr 1
            rw [word_congr (m' := setWord m.mem (area + 8 * i) w) (fun b hb1 hb2 => r3 b (by omega))]
            exact word_setWord _ _ _
          | succ j =>
            have := r2 j f' hf
            rw [show i + (j + 1) = i + 1 + j by omega]
            exact this
        · intro x hx
          rw [r3 x (by omega)]
          exact setWord_frame _ _ _ _ (by omega)

/-! ## What an interface holds -/

/-- The interface of type `t` at the address `p` holds the pointer `a` of the type `q`. -/
structure Holds (e : Env) (m : Mem) (p : Nat) (t q : Fin e.g.n) (a : Slot) : Prop where
  self : word m p = a
  type : word m (p + 8) = e.addr q
  methods : ∀ (i : Nat) (f : Field e.g.n), 2 ≤ i → (e.g.node t).fields[i]? = some f → some (word m (p + 8 * i)) = entryOf e q f.name

theorem Holds.congr {e : Env} {m m' : Mem} {p : Nat} {t q : Fin e.g.n} {a : Slot} (h : Holds e m p t q a)
    (hl : 2 ≤ (e.g.node t).fields.length) (hm : ∀ b, In (p, 8 * (e.g.node t).fields.length) b → m' b = m b) : Holds e m' p t q a := by
  have hin : ∀ i, i < (e.g.node t).fields.length → word m' (p + 8 * i) = word m (p + 8 * i) := fun i hi =>
    word_congr fun b h1 h2 => hm b ⟨by dsimp only; omega, by dsimp only; omega⟩
  refine ⟨?_, ?_, ?_⟩
  · rw [← h.self]; exact hin 0 (by omega)
  · rw [← h.type]; exact hin 1 (by omega)
  · intro i f hi hf
    have := (List.getElem?_eq_some_iff.mp hf).1
    rw [hin i this]
    exact h.methods i f hi hf

theorem Env.Ok.two {e : Env} (w : e.Ok) {t : Fin e.g.n} (ht : e.kind t = .interface) : 2 ≤ (e.g.node t).fields.length := by
  obtain ⟨rest, h⟩ := w.hidden t ht
  have := congrArg List.length h
  simp only [List.length_map, List.length_cons] at this
  omega

theorem run_ptrToIface {e : Env} (w : e.Ok) {dest q : Fin e.g.n} (hd : e.kind dest = .interface) {area : Nat}
    (hv : Valid (area, 8 * (e.g.node dest).fields.length)) {c : List (Instr e.g.n)} (hc : ptrToIface e dest q area = some c)
    (m : M) (a : Slot) (st : List Slot) :
    ∃ mem', run e c { m with stack := a :: st } = .ok { m with mem := mem', stack := BitVec.ofNat 64 area :: st } ∧
      Holds e mem' area dest q a ∧ (∀ x, ¬ In (area, 8 * (e.g.node dest).fields.length) x → mem' x = m.mem x) := by
  obtain ⟨h0, h1⟩ := hv
  dsimp only at h0 h1
  have h2 := w.two hd
  unfold ptrToIface at hc
  cases hs : storeMethods e q area 2 ((e.g.node dest).fields.drop 2) with
  | none => rw [hs] at hc; cases hc
  | some ms =>
    rw [hs] at hc
    injection hc with hc
    subst hc
    have hlen : ((e.g.node dest).fields.drop 2).length = (e.g.node dest).fields.length - 2 := List.length_drop
    obtain ⟨mem', r1, r2, r3⟩ := run_storeMethods e q h0 _ 2 ms hs (by rw [hlen]; omega)
      { m with mem := setWord (setWord m.mem (area + 8 * 0) a) (area + 8 * 1) (e.addr q), stack := st }
    rw [hlen] at r3
    refine ⟨mem', ?_, ⟨?_, ?_, ?_⟩, ?_⟩
    · show run e ((storeField area 0 .ptr ++ (.push (e.addr q) :: storeField area 1 .ptr)) ++ ms ++ [.push (BitVec.ofNat 64 area)]) _ = _
      have s1 := run_storeField e (k := .ptr) (Or.inl rfl) h0 (show area + 8 * 0 < 2 ^ 64 by omega) m a st
      have s2 := run_storeField e (k := .ptr) (Or.inl rfl) h0 (show area + 8 * 1 < 2 ^ 64 by omega)
        { m with mem := setWord m.mem (area + 8 * 0) a } (e.addr q) st
      rw [List.append_assoc, List.append_assoc]
      refine (run_ok s1).trans ?_
      show run e (storeField area 1 .ptr ++ (ms ++ [.push (BitVec.ofNat 64 area)])) _ = _
      refine (run_ok s2).trans ?_
      exact (run_ok r1).trans rfl
    · rw [word_congr (fun b _ hb => r3 b (by omega)), word_setWord_ne _ _ (by omega)]
      exact word_setWord _ _ _
    · rw [word_congr (fun b _ hb => r3 b (by omega))]
      exact word_setWord _ _ _
    · intro i f hi hf
      have := r2 (i - 2) f (by rw [List.getElem?_drop, show 2 + (i - 2) = i by omega]; exact hf)
      rw [show 2 + (i - 2) = i by omega] at this
      exact this
    · intro x hx
      have hx' : x < area ∨ area + 8 * (e.g.node dest).fields.length ≤ x := by
        simp only [In] at hx; omega
      rw [r3 x (by omega)]
      show setWord (setWord m.mem (area + 8 * 0) a) (area + 8 * 1) (e.addr q) x = m.mem x
      rw [setWord_frame _ _ _ _ (by omega), setWord_frame _ _ _ _ (by omega)]

theorem findField_spec {n : Nat} {name : String} : ∀ {fs : List (Field n)} {i : Nat} {q : Nat × Field n}, findField name i fs = some q →
    i ≤ q.1 ∧ fs[q.1 - i]? = some q.2 ∧ q.2.name = name
  | [], _, _, h => by cases h
  | f :: fs, i, q, h => by
    unfold findField at h
    split at h
    · next hn =>
      injection h with h
      subst h
      exact ⟨Nat.le_refl _, by simp, hn⟩
    · obtain ⟨h1, h2, h3⟩ := findField_spec h
      refine ⟨by omega, ?_, h3⟩
      rw [show q.1 - i = (q.1 - (i + 1)) + 1 by omega]
      exact h2

theorem run_getWord (e : Env) {off : Nat} {k : Kind} (hk : k = .ptr ∨ k = .fn) {p : Nat} (h0 : 0 < p) (h1 : p + off < 2 ^ 64) (m : M)
    (st : List Slot) :
    run e [.dup, .getFieldPtr off, .deref k] { m with stack := BitVec.ofNat 64 p :: st } =
      .ok { m with stack := word m.mem (p + off) :: BitVec.ofNat 64 p :: st } := by
  have hne : BitVec.ofNat 64 p ≠ 0 := ofNat_ne_zero h0 (by omega)
  have hadd : BitVec.ofNat 64 p + BitVec.ofNat 64 off = BitVec.ofNat 64 (p + off) := (BitVec.ofNat_add _ _).symm
  have hne2 : BitVec.ofNat 64 (p + off) ≠ 0 := ofNat_ne_zero (by omega) h1
  rcases hk with rfl | rfl <;>
    simp only [run, step, Res.bind, hne, if_false, hadd, deref, hne2, ordinal, structured, ofNat_toNat h1, Bool.false_eq_true]

theorem run_getSelf (e : Env) {p : Nat} (h0 : 0 < p) (h1 : p < 2 ^ 64) (m : M) (st : List Slot) :
    run e [.dup, .deref .ptr] { m with stack := BitVec.ofNat 64 p :: st } =
      .ok { m with stack := word m.mem p :: BitVec.ofNat 64 p :: st } := by
  have hne : BitVec.ofNat 64 p ≠ 0 := ofNat_ne_zero h0 h1
  simp only [run, step, Res.bind, hne, if_false, deref, ordinal, structured, ofNat_toNat h1, Bool.false_eq_true]

theorem run_copyMethods (e : Env) (src : Fin e.g.n) {area p : Nat} (h0 : 0 < area) (hp : Valid (p, 8 * (e.g.node src).fields.length)) :
    ∀ (fs : List (Field e.g.n)) (i : Nat) (c : List (Instr e.g.n)), copyMethods e src area i fs = some c →
    area + 8 * (i + fs.length) < 2 ^ 64 → (p + 8 * (e.g.node src).fields.length ≤ area ∨ area + 8 * (i + fs.length) ≤ p) → ∀ (m : M) (st : List Slot),
    ∃ mem', run e c { m with stack := BitVec.ofNat 64 p :: st } = .ok { m with mem := mem', stack := BitVec.ofNat 64 p :: st } ∧
      (∀ (j : Nat) (f : Field e.g.n), fs[j]? = some f → ∃ (k : Nat) (f' : Field e.g.n), (e.g.node src).fields[k]? = some f' ∧ f'.name = f.name ∧
        word mem' (area + 8 * (i + j)) = word m.mem (p + 8 * k)) ∧
      (∀ x, x < area + 8 * i ∨ area + 8 * (i + fs.length) ≤ x → mem' x = m.mem x)
  | [], i, c, hc, _, _, m, st => by
    simp only [copyMethods, Option.some.injEq] at hc
    subst hc
    exact ⟨m.mem, rfl, fun j f h => (by cases j <;> cases h), fun _ _ => rfl⟩
  | f :: fs, i, c, hc, hb, hd, m, st => by
    simp only [List.length_cons] at hb hd ⊢
    unfold copyMethods at hc
    cases hq : findField f.name 0 (e.g.node src).fields with
    | none => rw [hq] at hc; cases hc
    | some q =>
      rw [hq] at hc
      dsimp only [bind, Option.bind] at hc
      split at hc
      · cases hr : copyMethods e src area (i + 1) fs with
        | none => rw [hr] at hc; cases hc
        | some rest =>
          rw [hr] at hc
          injection hc with hc
          subst hc
          obtain ⟨_, q2, q3⟩ := findField_spec hq
          have qlen := (List.getElem?_eq_some_iff.mp q2).1
          obtain ⟨hp0, hp1⟩ := hp
          dsimp only at hp0 hp1
          obtain ⟨mem', r1, r2, r3⟩ := run_copyMethods e src h0 ⟨hp0, hp1⟩ fs (i + 1) rest hr (by omega) (by omega)
            { m with mem := setWord m.mem (area + 8 * i) (word m.mem (p + 8 * q.1)) } st
          refine ⟨mem', ?_, ?_, ?_⟩
          · show run e ([.dup, .getFieldPtr (fieldOffset q.1), .deref .fn] ++ (storeField area i .fn ++ rest)) _ = _
            have s1 := run_getWord e (off := 8 * q.1) (Or.inr rfl) hp0 (by omega) m st
            refine (run_ok s1).trans ?_
            have s2 := run_storeField e (k := .fn) (Or.inr rfl) h0 (show area + 8 * i < 2 ^ 64 by omega) m (word m.mem (p + 8 * q.1))
              (BitVec.ofNat 64 p :: st)
            exact (run_ok s2).trans r1
          · intro j f' hf
            cases j with
            | zero =>
              injection hf with hf
              subst hf
              refine ⟨q.1, q.2, q2, q3, ?_⟩
              rw [word_congr (m' := setWord m.mem (area + 8 * i) (word m.mem (p + 8 * q.1))) (fun b hb1 hb2 => r3 b (by omega))]
              exact word_setWord _ _ _
            | succ j =>
              obtain ⟨k, f'', k1, k2, k3⟩ := r2 j f' hf
              have klen := (List.getElem?_eq_some_iff.mp k1).1
              refine ⟨k, f'', k1, k2, ?_⟩
              rw [show i + (j + 1) = i + 1 + j by omega, k3]
              exact word_setWord_ne _ _ (by omega)
          · intro x hx
            rw [r3 x (by omega)]
            exact setWord_frame _ _ _ _ (by omega)
      · cases hc

/-- The name of a method is not the name of a hidden field. -/
theorem names_ne {e : Env} (w : e.Ok) {t s : Fin e.g.n} (ht : e.kind t = .interface) (hs : e.kind s = .interface) {i k : Nat}
    {f f' : Field e.g.n} (hi : 2 ≤ i) (h : (e.g.node t).fields[i]? = some f) (h' : (e.g.node s).fields[k]? = some f') (hn : f'.name = f.name) :
    2 ≤ k := by
  obtain ⟨rest, r⟩ := w.hidden t ht
  obtain ⟨rest', r'⟩ := w.hidden s hs
  have nd := w.names t ht
  have h1 : ((e.g.node t).fields.map (·.name))[i]? = some f.name := by rw [List.getElem?_map, h]; rfl
  have h2 : ((e.g.node s).fields.map (·.name))[k]? = some f'.name := by rw [List.getElem?_map, h']; rfl
  rw [r] at h1 nd
  rw [r'] at h2
  rw [show i = (i - 2) + 1 + 1 by omega] at h1
  simp only [List.getElem?_cons_succ] at h1
  have hmem : f.name ∈ rest := List.mem_of_getElem? h1
  simp only [List.nodup_cons, List.mem_cons, not_or] at nd
  match k, h2 with
  | 0, h2 =>
    injection h2 with h2
    rw [← h2] at hn
    exact absurd (hn ▸ hmem) nd.1.2
  | 1, h2 =>
    injection h2 with h2
    rw [← h2] at hn
    exact absurd (hn ▸ hmem) nd.2.1
  | k + 2, _ => omega

theorem run_ifaceToIface {e : Env} (w : e.Ok) {dest src q : Fin e.g.n} (hd : e.kind dest = .interface) (hs : e.kind src = .interface)
    {area p : Nat} (hv : Valid (area, 8 * (e.g.node dest).fields.length)) (hp : Valid (p, 8 * (e.g.node src).fields.length))
    (hdis : Disjoint (p, 8 * (e.g.node src).fields.length) (area, 8 * (e.g.node dest).fields.length))
    {c : List (Instr e.g.n)} (hc : ifaceToIface e dest src area = some c) (m : M) (a : Slot) (st : List Slot) (hh : Holds e m.mem p src q a) :
    ∃ mem', run e c { m with stack := BitVec.ofNat 64 p :: st } = .ok { m with mem := mem', stack := BitVec.ofNat 64 area :: st } ∧
      Holds e mem' area dest q a ∧ (∀ x, ¬ In (area, 8 * (e.g.node dest).fields.length) x → mem' x = m.mem x) := by
  obtain ⟨h0, h1⟩ := id hv
  obtain ⟨g0, g1⟩ := id hp
  simp only [Disjoint] at hdis
  dsimp only at h0 h1 g0 g1
  have h2 := w.two hd
  have g2 := w.two hs
  unfold ifaceToIface at hc
  cases hcm : copyMethods e src area 2 ((e.g.node dest).fields.drop 2) with
  | none => rw [hcm] at hc; cases hc
  | some ms =>
    rw [hcm] at hc
    injection hc with hc
    subst hc
    have hlen : ((e.g.node dest).fields.drop 2).length = (e.g.node dest).fields.length - 2 := List.length_drop
    let mem1 := setWord m.mem (area + 8 * 0) (word m.mem p)
    let mem2 := setWord mem1 (area + 8 * 1) (word mem1 (p + 8 * 1))
    obtain ⟨mem', r1, r2, r3⟩ := run_copyMethods e src h0 hp _ 2 ms hcm (by rw [hlen]; omega) (by rw [hlen]; omega) { m with mem := mem2 } st
    rw [hlen] at r3
    have hw1 : ∀ b, b + 8 ≤ area ∨ area + 8 ≤ b → word mem1 b = word m.mem b := fun b hb => word_setWord_ne _ _ (by omega)
    have hw2 : ∀ b, (b + 8 ≤ area ∨ area + 8 ≤ b) → (b + 8 ≤ area + 8 ∨ area + 16 ≤ b) → word mem2 b = word m.mem b := fun b hb hb' =>
      (word_setWord_ne _ _ (by omega)).trans (hw1 b hb)
    refine ⟨mem', ?_, ⟨?_, ?_, ?_⟩, ?_⟩
    · show run e ([.dup, .deref .ptr] ++ storeField area 0 .ptr ++
          ([.dup, .getFieldPtr (fieldOffset 1), .deref .ptr] ++ storeField area 1 .ptr) ++ ms ++ [.pop, .push (BitVec.ofNat 64 area)]) _ = _
      simp only [List.append_assoc]
      refine (run_ok (run_getSelf e g0 (by omega) m st)).trans ?_
      refine (run_ok (run_storeField e (k := .ptr) (Or.inl rfl) h0 (show area + 8 * 0 < 2 ^ 64 by omega) m _ _)).trans ?_
      refine (run_ok (run_getWord e (off := 8 * 1) (k := .ptr) (Or.inl rfl) g0 (by omega) { m with mem := mem1 } st)).trans ?_
      refine (run_ok (run_storeField e (k := .ptr) (Or.inl rfl) h0 (show area + 8 * 1 < 2 ^ 64 by omega) { m with mem := mem1 } _ _)).trans ?_
      exact (run_ok r1).trans rfl
    · rw [word_congr (fun b _ hb => r3 b (by omega)), ← hh.self]
      show word (setWord mem1 (area + 8 * 1) _) area = _
      rw [word_setWord_ne _ _ (by omega)]
      exact word_setWord _ _ _
    · rw [word_congr (fun b _ hb => r3 b (by omega)), ← hh.type]
      show word (setWord mem1 (area + 8 * 1) (word mem1 (p + 8 * 1))) (area + 8 * 1) = _
      rw [word_setWord, hw1 _ (by omega)]
    · intro i f hi hf
      obtain ⟨k, f', k1, k2, k3⟩ := r2 (i - 2) f (by rw [List.getElem?_drop, show 2 + (i - 2) = i by omega]; exact hf)
      rw [show 2 + (i - 2) = i by omega] at k3
      have klen := (List.getElem?_eq_some_iff.mp k1).1
      have hk2 := names_ne w hd hs hi hf k1 k2
      rw [k3, ← k2, ← hh.methods k f' hk2 k1]
      exact congrArg some (hw2 _ (by omega) (by omega))
    · intro x hx
      have hx' : x < area ∨ area + 8 * (e.g.node dest).fields.length ≤ x := by
        simp only [In] at hx; omega
      rw [r3 x (by omega)]
      show setWord (setWord m.mem (area + 8 * 0) _) (area + 8 * 1) _ x = m.mem x
      rw [setWord_frame _ _ _ _ (by omega), setWord_frame _ _ _ _ (by omega)]

/-! ## Types -/

theorem equiv_iff {e : Env} {l r : Fin e.g.n} : e.equiv l r = true ↔ Equivalent e.g l r := by
  have h := (Types.Props.C39_decides e.g (e.g.n * e.g.n + 1) (Nat.lt_succ_self _) l r).1
  unfold Env.equiv
  rw [← h]
  simp

theorem equiv_false {e : Env} {l r : Fin e.g.n} (h : ¬ Equivalent e.g l r) : e.equiv l r = false := by
  rw [← equiv_iff] at h
  simpa using h

theorem equivalent_cases {g : Graph} (w : WellFormed g) {l r : Fin g.n} (h : Equivalent g l r) :
    g.node l = g.node r ∨ Types.Alike g (Equivalent g) l r := by
  rcases Types.consistent_equivalent g l r h with rfl | ⟨n1, n2, n3⟩ | ⟨_, h⟩
  · exact Or.inl rfl
  · exact Or.inl (w.names l r n1 n2 n3)
  · exact Or.inr h

theorem equivalent_kind {g : Graph} (w : WellFormed g) {l r : Fin g.n} (h : Equivalent g l r) : (g.node l).kind = (g.node r).kind := by
  rcases equivalent_cases w h with h | h
  · rw [h]
  · exact h.1

theorem equivalent_fields {g : Graph} (w : WellFormed g) {l r : Fin g.n} (h : Equivalent g l r) (hk : (g.node l).kind = .interface) :
    (g.node l).fields.length = (g.node r).fields.length ∧
    ∀ (i : Nat) (f f' : Field g.n), (g.node l).fields[i]? = some f → (g.node r).fields[i]? = some f' → f.name = f'.name := by
  rcases equivalent_cases w h with h | h
  · rw [h]
    exact ⟨rfl, fun i f f' h1 h2 => by rw [h1] at h2; injection h2 with h2; rw [h2]⟩
  · have h2 := h.2
    rw [hk] at h2
    exact ⟨h2.1, fun i f f' a b => (h2.2 i f f' a b).1⟩

/-- Unnamed pointer types are equivalent exactly if their base types are. -/
theorem equivalent_ptr {g : Graph} {p q t s : Fin g.n} (hp : IsPtrTo g p t) (hq : (g.node q).kind = .ptr ∧ (g.node q).base = s) :
    Equivalent g p q ↔ Equivalent g t s := by
  obtain ⟨k1, b1, n1⟩ := hp
  obtain ⟨k2, b2⟩ := hq
  constructor
  · intro h
    rcases Types.consistent_equivalent g p q h with rfl | ⟨m1, _, _⟩ | ⟨_, h⟩
    · rw [← b1, ← b2]; exact Types.equivalent_refl g _
    · simp [Types.Named, n1] at m1
    · have h2 := h.2
      rw [k1] at h2
      dsimp only at h2
      rwa [b1, b2] at h2
  · rintro ⟨R, hR, h⟩
    refine ⟨fun l r => (l = p ∧ r = q) ∨ R l r, ?_, Or.inl ⟨rfl, rfl⟩⟩
    rintro l r (⟨rfl, rfl⟩ | hlr)
    · refine Or.inr (Or.inr ⟨?_, k1.trans k2.symm, ?_⟩)
      · rintro ⟨m1, _⟩; simp [Types.Named, n1] at m1
      · rw [k1]; dsimp only; rw [b1, b2]; exact Or.inr h
    · rcases hR l r hlr with h | h | ⟨h1, h2⟩
      · exact Or.inl h
      · exact Or.inr (Or.inl h)
      · exact Or.inr (Or.inr ⟨h1, Types.alike_mono (fun _ _ h => Or.inr h) h2⟩)

theorem typeAt_addr {e : Env} (w : e.Ok) (t : Fin e.g.n) : e.addr t ≠ 0 ∧ e.typeAt (e.addr t) = some t := by
  have h := w.count
  have ht := t.isLt
  refine ⟨ofNat_ne_zero (by omega) (by omega), ?_⟩
  unfold Env.typeAt Env.addr
  have : (BitVec.ofNat 64 (t.val + 1)).toNat - 1 = t.val := by rw [ofNat_toNat (by omega)]; omega
  rw [dif_pos (by rw [this]; exact ht)]
  congr 1
  exact Fin.ext this

/-! ## Lists of uses -/

theorem run_copy {e : Env} (w : e.Ok) {dest t q : Fin e.g.n} (hd : e.kind dest = .interface) (heq : Equivalent e.g dest t) {p var : Nat}
    (hp : Valid (p, 8 * (e.g.node t).fields.length)) (hv : Valid (var, 8 * (e.g.node dest).fields.length)) (m : M) (a : Slot) (st : List Slot)
    (hh : Holds e m.mem p t q a) :
    ∃ mem', run e [.push (BitVec.ofNat 64 var), .swapAssign .interface (8 * (e.g.node dest).fields.length), .push (BitVec.ofNat 64 var)]
        { m with stack := BitVec.ofNat 64 p :: st } = .ok { m with mem := mem', stack := BitVec.ofNat 64 var :: st } ∧
      Holds e mem' var dest q a ∧ (∀ x, ¬ In (var, 8 * (e.g.node dest).fields.length) x → mem' x = m.mem x) := by
  obtain ⟨p0, p1⟩ := hp
  obtain ⟨v0, v1⟩ := hv
  dsimp only at p0 p1 v0 v1
  obtain ⟨hlen, hnames⟩ := equivalent_fields w.types heq hd
  have h2 := w.two hd
  have hpne : BitVec.ofNat 64 p ≠ 0 := ofNat_ne_zero p0 (by omega)
  have hvne : BitVec.ofNat 64 var ≠ 0 := ofNat_ne_zero v0 (by omega)
  have hword : ∀ i, i < (e.g.node dest).fields.length →
      word (copyBytes m.mem var p (8 * (e.g.node dest).fields.length)) (var + 8 * i) = word m.mem (p + 8 * i) := by
    intro i hi
    have key : ∀ n b, b + n ≤ 8 * (e.g.node dest).fields.length →
        readBytes (copyBytes m.mem var p (8 * (e.g.node dest).fields.length)) (var + b) n = readBytes m.mem (p + b) n := by
      intro n
      induction n with
      | zero => intros; rfl
      | succ n ih =>
        intro b hb
        rw [readBytes, readBytes]
        have := ih (b + 1) (by omega)
        rw [← Nat.add_assoc, ← Nat.add_assoc] at this
        rw [this]
        congr 2
        unfold copyBytes
        rw [if_pos (by omega)]
        congr 1
        omega
    rw [word, word, readUnsigned, readUnsigned, key 8 (8 * i) (by omega)]
  refine ⟨copyBytes m.mem var p (8 * (e.g.node dest).fields.length), ?_, ⟨?_, ?_, ?_⟩, ?_⟩
  · simp only [run, step, Res.bind, assign, hvne, if_false, overflow, ordinal, structured, hpne, Bool.false_eq_true, if_true,
      ofNat_toNat (show p < 2 ^ 64 by omega), ofNat_toNat (show var < 2 ^ 64 by omega)]
  · rw [← hh.self]; exact hword 0 (by omega)
  · rw [← hh.type]; exact hword 1 (by omega)
  · intro i f hi hf
    have hi' := (List.getElem?_eq_some_iff.mp hf).1
    rw [hword i hi']
    have hf' : (e.g.node t).fields[i]? = some ((e.g.node t).fields[i]'(by omega)) := List.getElem?_eq_getElem _
    rw [hnames i f _ hf hf']
    exact hh.methods i _ hi hf'
  · intro x hx
    unfold copyBytes
    exact if_neg hx

theorem run_toIface {e : Env} (w : e.Ok) {dest src sp q : Fin e.g.n} (hd : e.kind dest = .interface) (hs : e.kind src = .interface)
    {area p : Nat} (hv : Valid (area, 8 * (e.g.node dest).fields.length)) (hp : Valid (p, 8 * (e.g.node src).fields.length))
    (hdis : Disjoint (p, 8 * (e.g.node src).fields.length) (area, 8 * (e.g.node dest).fields.length))
    {r : List (Instr e.g.n) × Fin e.g.n} (hc : toIface e dest src sp area = some r) (m : M) (a : Slot) (st : List Slot)
    (hh : Holds e m.mem p src q a) :
    ∃ mem' p', run e r.1 { m with stack := BitVec.ofNat 64 p :: st } = .ok { m with mem := mem', stack := BitVec.ofNat 64 p' :: st } ∧
      Holds e mem' p' r.2 q a ∧ (∀ x, ¬ In (area, 8 * (e.g.node dest).fields.length) x → mem' x = m.mem x) ∧
      Equivalent e.g dest r.2 ∧ e.kind r.2 = .interface ∧
      ((p', 8 * (e.g.node r.2).fields.length) = (p, 8 * (e.g.node src).fields.length) ∨
       (p', 8 * (e.g.node r.2).fields.length) = (area, 8 * (e.g.node dest).fields.length)) := by
  unfold toIface at hc
  rw [if_pos hs] at hc
  split at hc
  · next heq =>
    injection hc with hc
    subst hc
    exact ⟨m.mem, p, rfl, hh, fun _ _ => rfl, equiv_iff.mp heq, hs, Or.inl rfl⟩
  · cases hi : ifaceToIface e dest src area with
    | none => rw [hi] at hc; cases hc
    | some c =>
      rw [hi] at hc
      injection hc with hc
      subst hc
      obtain ⟨mem', r1, r2, r3⟩ := run_ifaceToIface w hd hs hv hp hdis hi m a st hh
      exact ⟨mem', area, r1, r2, r3, Types.equivalent_refl _ _, hd, Or.inr rfl⟩

/-- A use of an interface: its type, the area and the variable. -/
def Use.dest {n : Nat} : Use n → Fin n
  | .convert d _ => d
  | .store d _ _ => d

theorem uses_run {e : Env} (w : e.Ok) (sp : Fin e.g.n) {q : Fin e.g.n} {a : Slot} : ∀ (us : List (Use e.g.n)) (src : Fin e.g.n)
    (r : List (Instr e.g.n) × Fin e.g.n), uses e src sp us = some r → e.kind src = .interface → (∀ u ∈ us, e.kind u.dest = .interface) →
    ∀ p : Nat, (∀ x ∈ (p, 8 * (e.g.node src).fields.length) :: regions e us, Valid x) →
    ((p, 8 * (e.g.node src).fields.length) :: regions e us).Pairwise Disjoint →
    ∀ (m : M) (st : List Slot), Holds e m.mem p src q a →
    ∃ mem' p', run e r.1 { m with stack := BitVec.ofNat 64 p :: st } = .ok { m with mem := mem', stack := BitVec.ofNat 64 p' :: st } ∧
      Holds e mem' p' r.2 q a ∧ (∀ x, (∀ s ∈ regions e us, ¬ In s x) → mem' x = m.mem x) ∧ e.kind r.2 = .interface ∧
      (p', 8 * (e.g.node r.2).fields.length) ∈ (p, 8 * (e.g.node src).fields.length) :: regions e us
  | [], src, r, hu, hs, _, p, hv, _, m, st, hh => by
    simp only [uses, Option.some.injEq] at hu
    subst hu
    exact ⟨m.mem, p, rfl, hh, fun _ _ => rfl, hs, List.mem_cons_self⟩
  | .convert dest area :: us, src, r, hu, hs, hk, p, hv, hp, m, st, hh => by
    simp only [uses] at hu
    simp only [regions] at hv hp ⊢
    cases ht : toIface e dest src sp area with
    | none => rw [ht] at hu; cases hu
    | some t =>
      rw [ht] at hu
      dsimp only [bind, Option.bind] at hu
      cases hr : uses e t.2 sp us with
      | none => rw [hr] at hu; cases hu
      | some r' =>
        rw [hr] at hu
        injection hu with hu
        subst hu
        have hd : e.kind dest = .interface := hk _ List.mem_cons_self
        rw [List.pairwise_cons, List.pairwise_cons] at hp
        obtain ⟨mem1, p1, r1, r2, r3, r4, r5, r6⟩ := run_toIface w hd hs (hv _ (List.mem_cons_of_mem _ List.mem_cons_self)) (hv _ List.mem_cons_self)
          (hp.1 _ List.mem_cons_self) ht m a st hh
        have hmem : ∀ x, x ∈ (p1, 8 * (e.g.node t.2).fields.length) :: regions e us →
            x ∈ (p, 8 * (e.g.node src).fields.length) :: (area, 8 * (e.g.node dest).fields.length) :: regions e us := by
          intro x hx
          rcases List.mem_cons.mp hx with rfl | hx
          · rcases r6 with h | h
            · rw [h]; exact List.mem_cons_self
            · rw [h]; exact List.mem_cons_of_mem _ List.mem_cons_self
          · exact List.mem_cons_of_mem _ (List.mem_cons_of_mem _ hx)
        obtain ⟨mem2, p2, s1, s2, s3, s4, s5⟩ := uses_run w sp us t.2 r' hr r5 (fun u hu => hk u (List.mem_cons_of_mem _ hu)) p1
          (fun x hx => hv x (hmem x hx))
          (List.pairwise_cons.mpr ⟨fun x hx => (by
            rcases r6 with h | h
            · rw [h]; exact hp.1 x (List.mem_cons_of_mem _ hx)
            · rw [h]; exact hp.2.1 x hx), hp.2.2⟩)
          { m with mem := mem1 } st r2
        refine ⟨mem2, p2, (run_ok r1).trans s1, s2, ?_, s4, hmem _ s5⟩
        intro x hx
        exact (s3 x fun s hs => hx s (List.mem_cons_of_mem _ hs)).trans (r3 x (hx _ List.mem_cons_self))
  | .store dest area var :: us, src, r, hu, hs, hk, p, hv, hp, m, st, hh => by
    simp only [uses] at hu
    simp only [regions] at hv hp ⊢
    cases ht : toIface e dest src sp area with
    | none => rw [ht] at hu; cases hu
    | some t =>
      rw [ht] at hu
      dsimp only [bind, Option.bind] at hu
      cases hr : uses e dest sp us with
      | none => rw [hr] at hu; cases hu
      | some r' =>
        rw [hr] at hu
        injection hu with hu
        subst hu
        have hd : e.kind dest = .interface := hk _ List.mem_cons_self
        rw [List.pairwise_cons, List.pairwise_cons] at hp
        have va := hv _ (List.mem_cons_of_mem _ List.mem_cons_self)
        have vv := hv _ (List.mem_cons_of_mem _ (List.mem_cons_of_mem _ List.mem_cons_self))
        obtain ⟨mem1, p1, r1, r2, r3, r4, r5, r6⟩ := run_toIface w hd hs va (hv _ List.mem_cons_self)
          (hp.1 _ List.mem_cons_self) ht m a st hh
        have vp : Valid (p1, 8 * (e.g.node t.2).fields.length) := by
          rcases r6 with h | h
          · rw [h]; exact hv _ List.mem_cons_self
          · rw [h]; exact va
        obtain ⟨mem2, c1, c2, c3⟩ := run_copy w hd r4 vp vv { m with mem := mem1 } a st r2
        obtain ⟨mem3, p3, s1, s2, s3, s4, s5⟩ := uses_run w sp us dest r' hr hd (fun u hu => hk u (List.mem_cons_of_mem _ hu)) var
          (fun x hx => hv x (List.mem_cons_of_mem _ (List.mem_cons_of_mem _ hx))) hp.2.2
          { m with mem := mem2 } st c2
        refine ⟨mem3, p3, (run_ok r1).trans ((run_ok c1).trans s1), s2, ?_, s4, List.mem_cons_of_mem _ (List.mem_cons_of_mem _ s5)⟩
        intro x hx
        refine (s3 x fun s hs => hx s (List.mem_cons_of_mem _ (List.mem_cons_of_mem _ hs))).trans ?_
        exact (c3 x (hx _ (List.mem_cons_of_mem _ List.mem_cons_self))).trans (r3 x (hx _ List.mem_cons_self))

def Use.area {n : Nat} : Use n → Nat
  | .convert _ a => a
  | .store _ a _ => a

/-- The first use, when the value is not an interface. -/
theorem uses_first {e : Env} (w : e.Ok) {src sp q : Fin e.g.n} {a : Slot} {u : Use e.g.n} {us : List (Use e.g.n)} {r : List (Instr e.g.n) × Fin e.g.n}
    (hu : uses e src sp (u :: us) = some r) {c : List (Instr e.g.n)} (hc : toIface e u.dest src sp u.area = some (c, u.dest))
    (hk : ∀ x ∈ u :: us, e.kind x.dest = .interface) (hv : ∀ x ∈ regions e (u :: us), Valid x) (hp : (regions e (u :: us)).Pairwise Disjoint)
    (m : M) (st : List Slot) (hh : Holds e m.mem u.area u.dest q a) :
    ∃ c', r.1 = c ++ c' ∧ ∃ mem' p',
      run e c' { m with stack := BitVec.ofNat 64 u.area :: st } = .ok { m with mem := mem', stack := BitVec.ofNat 64 p' :: st } ∧
      Holds e mem' p' r.2 q a ∧ (∀ x, (∀ s ∈ regions e (u :: us), ¬ In s x) → mem' x = m.mem x) ∧ e.kind r.2 = .interface ∧
      (p', 8 * (e.g.node r.2).fields.length) ∈ regions e (u :: us) := by
  have hd : e.kind u.dest = .interface := hk _ List.mem_cons_self
  cases u with
  | convert dest area =>
    simp only [Use.dest, Use.area] at hc hd hh ⊢
    simp only [uses, hc, bind, Option.bind] at hu
    cases hr : uses e dest sp us with
    | none => rw [hr] at hu; cases hu
    | some r' =>
      rw [hr] at hu
      injection hu with hu
      subst hu
      obtain ⟨mem2, p2, s1, s2, s3, s4, s5⟩ := uses_run w sp us dest r' hr hd (fun u hu => hk u (List.mem_cons_of_mem _ hu)) area hv hp m st hh
      exact ⟨r'.1, rfl, mem2, p2, s1, s2, fun x hx => s3 x fun s hs => hx s (List.mem_cons_of_mem _ hs), s4, s5⟩
  | store dest area var =>
    simp only [Use.dest, Use.area] at hc hd hh ⊢
    simp only [uses, hc, bind, Option.bind] at hu
    cases hr : uses e dest sp us with
    | none => rw [hr] at hu; cases hu
    | some r' =>
      rw [hr] at hu
      injection hu with hu
      subst hu
      simp only [regions] at hv hp ⊢
      rw [List.pairwise_cons] at hp
      obtain ⟨mem2, c1, c2, c3⟩ := run_copy w hd (Types.equivalent_refl _ _) (hv _ List.mem_cons_self) (hv _ (List.mem_cons_of_mem _ List.mem_cons_self))
        m a st hh
      obtain ⟨mem3, p3, s1, s2, s3, s4, s5⟩ := uses_run w sp us dest r' hr hd (fun u hu => hk u (List.mem_cons_of_mem _ hu)) var
        (fun x hx => hv x (List.mem_cons_of_mem _ hx)) hp.2 { m with mem := mem2 } st c2
      refine ⟨_, rfl, mem3, p3, (run_ok c1).trans s1, s2, ?_, s4, List.mem_cons_of_mem _ s5⟩
      intro x hx
      refine (s3 x fun s hs => hx s (List.mem_cons_of_mem _ (List.mem_cons_of_mem _ hs))).trans ?_
      exact c3 x (hx _ (List.mem_cons_of_mem _ List.mem_cons_self))

/-! ## Values on the heap -/

/-- What the value at an address is read as. -/
theorem copy_map (m : Mem) (lhs v : Slot) (size : Nat) : (List.range size).map (fun i => copyBytes m lhs.toNat v.toNat size (lhs.toNat + i)) =
    (List.range size).map fun i => m (v.toNat + i) := by
  apply List.map_congr_left
  intro i hi
  have := List.mem_range.mp hi
  unfold copyBytes
  rw [if_pos (by omega)]
  congr 1
  omega

theorem overflow_real32 (fp : FP) (v : Slot) : overflow fp .real32 v = fp.overflow32 v := rfl

theorem assign_deref {e : Env} (w : e.Ok) {t : Fin e.g.n} (hk : Plain (e.kind t)) {lhs v : Slot} (hl : lhs ≠ 0) (ho : overflow e.fp (e.kind t) v = false)
    (hv : IsValue e.fp (e.kind t) v) (m : Mem) :
    ∃ m' x, assign e.fp (e.kind t) (e.size t) m lhs v = .ok m' ∧ (∀ b, b < lhs.toNat ∨ lhs.toNat + e.size t ≤ b → m' b = m b) ∧
      deref e.fp (e.kind t) m' lhs = .ok x ∧ value (e.kind t) (e.size t) m' x = value (e.kind t) (e.size t) m v := by
  have hl' : lhs.toNat ≠ 0 := fun h => hl (BitVec.eq_of_toNat_eq (by rw [h]; rfl))
  cases h : ordinal (e.kind t) with
  | some o =>
    have ho' : Arith.typeOverflow o v = false := by unfold overflow at ho; rw [h] at ho; exact ho
    obtain ⟨m', a1, a2, a3⟩ := Arith.doAssign_ok o m lhs.toNat v hl' ho'
    have hns : structured (e.kind t) = false := by
      revert h; cases e.kind t <;> intro h <;> first | rfl | cases h
    refine ⟨m', v, ?_, ?_, ?_, ?_⟩
    · unfold assign
      rw [if_neg hl, if_neg (by rw [ho]; exact Bool.false_ne_true), h]
      dsimp only
      rw [a1]
    · intro b hb
      rw [w.ordinal t o h] at hb
      exact a3 b hb
    · unfold deref
      rw [if_neg hl, h]
      dsimp only
      rw [a2]
    · unfold value
      rw [if_neg (by rw [hns]; exact Bool.false_ne_true), if_neg (by rw [hns]; exact Bool.false_ne_true)]
  | none =>
    cases hs : structured (e.kind t) with
    | true =>
      refine ⟨copyBytes m lhs.toNat v.toNat (e.size t), lhs, ?_, ?_, ?_, ?_⟩
      · unfold assign
        rw [if_neg hl, if_neg (by rw [ho]; exact Bool.false_ne_true), h]
        dsimp only
        rw [if_pos hs, if_neg (hv.2 hs)]
      · intro b hb
        unfold copyBytes
        rw [if_neg (by omega)]
      · unfold deref
        rw [if_neg hl, h]
        dsimp only
        rw [if_pos hs]
      · unfold value
        rw [if_pos hs, if_pos hs, copy_map]
    | false =>
      have hval : ∀ m x, value (e.kind t) (e.size t) m x = .inl x := fun m x => by unfold value; rw [if_neg (by rw [hs]; exact Bool.false_ne_true)]
      by_cases h32 : e.kind t = .real32
      · have hb := hv.1 h32
        refine ⟨writeBytes m lhs.toNat 4 (e.fp.narrow v).toNat, v, ?_, ?_, ?_, ?_⟩
        · unfold assign
          rw [if_neg hl, if_neg (by rw [ho]; exact Bool.false_ne_true), h32]
          rfl
        · intro b hb
          rw [w.real32 t h32] at hb
          exact Arith.write_frame _ _ _ _ _ hb
        · unfold deref
          rw [if_neg hl, h32]
          simp only [ordinal, structured, Arith.read_write]
          have := (e.fp.narrow v).isLt
          rw [Nat.mod_eq_of_lt (by omega), BitVec.ofNat_toNat, BitVec.setWidth_eq, hb]
          rfl
        · rw [hval, hval]
      · have hw : e.kind t ∈ [Kind.real, .ptr, .weakptr, .str, .fiber, .fn] := by
          revert hk h hs h32
          cases e.kind t <;> simp [Plain, ordinal, structured]
        refine ⟨setWord m lhs.toNat v, v, ?_, ?_, ?_, ?_⟩
        · unfold assign
          rw [if_neg hl, if_neg (by rw [ho]; exact Bool.false_ne_true), h]
          dsimp only
          rw [if_neg (by rw [hs]; exact Bool.false_ne_true)]
          revert hw
          cases e.kind t <;> simp
        · intro b hb
          rw [w.word t hw] at hb
          exact setWord_frame _ _ _ _ hb
        · unfold deref
          rw [if_neg hl, h]
          dsimp only
          rw [if_neg (by rw [hs]; exact Bool.false_ne_true), word_setWord]
          revert hw
          cases e.kind t <;> simp
        · rw [hval, hval]

/-- The value read does not depend on the rest of memory. -/
theorem deref_congr {e : Env} (w : e.Ok) {t : Fin e.g.n} (hk : Plain (e.kind t)) {p x : Slot} {m m' : Mem}
    (h : ∀ b, In (p.toNat, e.size t) b → m' b = m b) (hd : deref e.fp (e.kind t) m p = .ok x) :
    deref e.fp (e.kind t) m' p = .ok x ∧ value (e.kind t) (e.size t) m' x = value (e.kind t) (e.size t) m x := by
  simp only [In] at h
  have hp : p ≠ 0 := by
    intro hp; unfold deref at hd; rw [if_pos hp] at hd; cases hd
  have hrd : ∀ n, n ≤ e.size t → readBytes m' p.toNat n = readBytes m p.toNat n := fun n hn =>
    Arith.read_congr n m' m p.toNat fun b h1 h2 => h b ⟨h1, by omega⟩
  unfold deref at hd ⊢
  rw [if_neg hp] at hd ⊢
  cases ho : ordinal (e.kind t) with
  | some o =>
    rw [ho] at hd
    have hsz := w.ordinal t o ho
    have hns : structured (e.kind t) = false := by
      revert ho; cases e.kind t <;> intro h <;> first | rfl | cases h
    have hdd : Arith.doDeref o m' p.toNat = Arith.doDeref o m p.toNat := by
      have hp' : p.toNat ≠ 0 := fun h => hp (BitVec.eq_of_toNat_eq (by rw [h]; rfl))
      have rs : ∀ n, n ≤ e.size t → Arith.readSigned m' p.toNat n = Arith.readSigned m p.toNat n := fun n hn => by
        rw [Arith.readSigned, Arith.readSigned, hrd n hn]
      have ru : ∀ n, n ≤ e.size t → readUnsigned m' p.toNat n = readUnsigned m p.toNat n := fun n hn => by
        rw [readUnsigned, readUnsigned, hrd n hn]
      unfold Arith.doDeref
      rw [if_neg hp', if_neg hp']
      rw [hsz] at rs ru
      cases o
      · exact congrArg Arith.Res.ok (rs 1 (by decide))
      · exact congrArg Arith.Res.ok (rs 2 (by decide))
      · exact congrArg Arith.Res.ok (rs 4 (by decide))
      · exact congrArg Arith.Res.ok (rs 8 (by decide))
      · exact congrArg Arith.Res.ok (ru 1 (by decide))
      · exact congrArg Arith.Res.ok (ru 2 (by decide))
      · exact congrArg Arith.Res.ok (ru 4 (by decide))
      · exact congrArg Arith.Res.ok (ru 8 (by decide))
      · exact congrArg Arith.Res.ok (ru 1 (by decide))
      · exact congrArg Arith.Res.ok (ru 1 (by decide))
    dsimp only at hd ⊢
    rw [hdd]
    refine ⟨hd, ?_⟩
    unfold value
    rw [if_neg (by rw [hns]; exact Bool.false_ne_true), if_neg (by rw [hns]; exact Bool.false_ne_true)]
  | none =>
    rw [ho] at hd
    dsimp only at hd ⊢
    cases hs : structured (e.kind t) with
    | true =>
      rw [if_pos hs] at hd
      injection hd with hd
      subst hd
      refine ⟨if_pos rfl, ?_⟩
      unfold value
      rw [if_pos hs, if_pos hs]
      congr 1
      apply List.map_congr_left
      intro i hi
      have := List.mem_range.mp hi
      exact h _ ⟨by omega, by omega⟩
    | false =>
      rw [if_neg (by rw [hs]; exact Bool.false_ne_true)] at hd
      have hval : ∀ m x, value (e.kind t) (e.size t) m x = .inl x := fun m x => by unfold value; rw [if_neg (by rw [hs]; exact Bool.false_ne_true)]
      rw [hval, hval]
      refine ⟨?_, rfl⟩
      rw [if_neg Bool.false_ne_true]
      by_cases h32 : e.kind t = .real32
      · rw [h32] at hd ⊢
        dsimp only at hd ⊢
        rw [hrd 4 (by rw [w.real32 t h32])]
        exact hd
      · have hw : e.kind t ∈ [Kind.real, .ptr, .weakptr, .str, .fiber, .fn] := by
          revert hk ho hs h32
          cases e.kind t <;> simp [Plain, ordinal, structured]
        have hwd : word m' p.toNat = word m p.toNat := by
          rw [word, word, readUnsigned, readUnsigned, hrd 8 (by rw [w.word t hw])]
        rw [hwd]
        revert hd hw
        cases e.kind t <;> simp

theorem plain_kinds {k : Kind} (h : Plain k) : k ≠ .interface ∧ k ≠ .ptr ∧ k ≠ .void := by
  revert h; cases k <;> simp [Plain]

/-- `doEscapeToHeap`. -/
theorem run_escape {e : Env} (w : e.Ok) {t : Fin e.g.n} (hk : Plain (e.kind t)) (m : M) (v : Slot) (st : List Slot) (hb : Valid (m.free, e.size t))
    (ho : overflow e.fp (e.kind t) v = false) (hv : IsValue e.fp (e.kind t) v)
    (hsrc : structured (e.kind t) = true → Disjoint (v.toNat, e.size t) (m.free, e.size t)) :
    ∃ mem' x, run e (escapeToHeap e t) { m with stack := v :: st } =
        .ok { m with mem := mem', stack := BitVec.ofNat 64 m.free :: st, heapCopy := BitVec.ofNat 64 m.free, free := m.free + e.size t } ∧
      deref e.fp (e.kind t) mem' (BitVec.ofNat 64 m.free) = .ok x ∧ value (e.kind t) (e.size t) mem' x = value (e.kind t) (e.size t) m.mem v ∧
      (∀ b, ¬ In (m.free, e.size t) b → mem' b = m.mem b) := by
  obtain ⟨b0, b1⟩ := hb
  dsimp only at b0 b1
  have hne := ofNat_ne_zero b0 (show m.free < 2 ^ 64 by omega)
  have htn := ofNat_toNat (show m.free < 2 ^ 64 by omega)
  let z : Mem := fun a => if m.free ≤ a ∧ a < m.free + e.size t then 0 else m.mem a
  obtain ⟨mem', x, a1, a2, a3, a4⟩ := assign_deref w hk hne ho hv z
  rw [htn] at a2
  refine ⟨mem', x, ?_, a3, ?_, ?_⟩
  · simp only [escapeToHeap, run, step, Res.bind]
    rw [show assign e.fp (e.kind t) (e.size t) (fun a => if m.free ≤ a ∧ a < m.free + e.size t then 0 else m.mem a) (BitVec.ofNat 64 m.free) v = .ok mem'
      from a1]
  · rw [a4]
    unfold value
    cases hs : structured (e.kind t) with
    | false => rfl
    | true =>
      have hd := hsrc hs
      simp only [Disjoint] at hd
      rw [if_pos rfl, if_pos rfl]
      congr 1
      apply List.map_congr_left
      intro i hi
      have := List.mem_range.mp hi
      exact if_neg (by omega)
  · intro b hb
    simp only [In] at hb
    rw [a2 b (by omega)]
    exact if_neg hb

theorem run_escape_overflow {e : Env} {t : Fin e.g.n} (m : M) (v : Slot) (st : List Slot) (hb : Valid (m.free, e.size t))
    (ho : overflow e.fp (e.kind t) v = true) : run e (escapeToHeap e t) { m with stack := v :: st } = .err .overflow := by
  obtain ⟨b0, b1⟩ := hb
  dsimp only at b0 b1
  have hne := ofNat_ne_zero b0 (show m.free < 2 ^ 64 by omega)
  simp only [escapeToHeap, run, step, Res.bind, assign, hne, if_false, ho, if_true]

/-! ## Signatures -/

theorem compat_compatible {e : Env} {l r : Fin e.g.n} (h : e.compat l r = true) : Compatible e.g l r := by
  unfold Env.compat Types.compatible at h
  have hd := Types.Props.C39_decides e.g (e.g.n * e.g.n + 1) (Nat.lt_succ_self _) l r
  cases he : Types.equivalent e.g (e.g.n * e.g.n + 1) l r with
  | none => rw [he] at h; simp at h
  | some b =>
    rw [he] at h
    cases b with
    | true => exact Or.inl (hd.1.mp he)
    | false =>
      simp only [beq_iff_eq, Option.some.injEq, Bool.or_eq_true, Bool.and_eq_true] at h
      exact Or.inr h

/-- The methods of the interface `t` agree with those of the type whose pointer type is `q`. -/
def Signed (e : Env) (t q : Fin e.g.n) : Prop :=
  ∀ (i : Nat) (f : Field e.g.n) (m : Method e.g.n), 2 ≤ i → (e.g.node t).fields[i]? = some f → e.kind (e.g.node q).base ≠ .null →
    findMethod e (rcvModule e (e.g.node q).base) f.name q = some m → Agrees e.g f.type m.type

theorem storeMethods_signed {e : Env} {q : Fin e.g.n} {area : Nat} (hq : e.kind (e.g.node q).base ≠ .null) :
    ∀ {fs : List (Field e.g.n)} {i : Nat} {c : List (Instr e.g.n)},
    storeMethods e q area i fs = some c → ∀ f ∈ fs, ∀ m, findMethod e (rcvModule e (e.g.node q).base) f.name q = some m → Agrees e.g f.type m.type
  | [], _, _, _, _, hf, _, _ => by cases hf
  | g :: fs, i, c, hc, f, hf, m, hm => by
    unfold storeMethods at hc
    cases hw : methodEntry e q g with
    | none => rw [hw] at hc; cases hc
    | some w =>
      rw [hw] at hc
      dsimp only [bind, Option.bind] at hc
      cases hr : storeMethods e q area (i + 1) fs with
      | none => rw [hr] at hc; cases hc
      | some rest =>
        rcases List.mem_cons.mp hf with rfl | hf
        · unfold methodEntry at hw
          dsimp only at hw
          rw [if_neg hq, hm] at hw
          dsimp only at hw
          split at hw
          · next h => exact .one (compat_compatible h)
          · cases hw
        · exact storeMethods_signed hq hr f hf m hm

theorem ptrToIface_signed {e : Env} {dest q : Fin e.g.n} {area : Nat} {c : List (Instr e.g.n)} (h : ptrToIface e dest q area = some c) :
    Signed e dest q := by
  intro i f m hi hf hq hm
  unfold ptrToIface at h
  cases hs : storeMethods e q area 2 ((e.g.node dest).fields.drop 2) with
  | none => rw [hs] at h; cases h
  | some ms =>
    refine storeMethods_signed hq hs f ?_ m hm
    refine List.mem_of_getElem? (i := i - 2) ?_
    rw [List.getElem?_drop, show 2 + (i - 2) = i by omega]
    exact hf

theorem copyMethods_signed {e : Env} {src : Fin e.g.n} {area : Nat} : ∀ {fs : List (Field e.g.n)} {i : Nat} {c : List (Instr e.g.n)},
    copyMethods e src area i fs = some c → ∀ f ∈ fs, ∃ (k : Nat) (f' : Field e.g.n), (e.g.node src).fields[k]? = some f' ∧ f'.name = f.name ∧
      Compatible e.g f.type f'.type
  | [], _, _, _, _, hf => by cases hf
  | g :: fs, i, c, hc, f, hf => by
    unfold copyMethods at hc
    cases hq : findField g.name 0 (e.g.node src).fields with
    | none => rw [hq] at hc; cases hc
    | some q =>
      rw [hq] at hc
      dsimp only [bind, Option.bind] at hc
      split at hc
      · next hcompat =>
        cases hr : copyMethods e src area (i + 1) fs with
        | none => rw [hr] at hc; cases hc
        | some rest =>
          rcases List.mem_cons.mp hf with rfl | hf
          · obtain ⟨_, q2, q3⟩ := findField_spec hq
            exact ⟨_, q.2, q2, q3, compat_compatible hcompat⟩
          · exact copyMethods_signed hr f hf
      · cases hc

theorem ifaceToIface_signed {e : Env} (w : e.Ok) {dest src q : Fin e.g.n} (hd : e.kind dest = .interface) (hs : e.kind src = .interface)
    {area : Nat} {c : List (Instr e.g.n)} (h : ifaceToIface e dest src area = some c) (hh : Signed e src q) : Signed e dest q := by
  intro i f m hi hf hq hm
  unfold ifaceToIface at h
  cases hc : copyMethods e src area 2 ((e.g.node dest).fields.drop 2) with
  | none => rw [hc] at h; cases h
  | some ms =>
    obtain ⟨k, f', k1, k2, k3⟩ := copyMethods_signed hc f (List.mem_of_getElem? (i := i - 2) (by
      rw [List.getElem?_drop, show 2 + (i - 2) = i by omega]; exact hf))
    have hk : 2 ≤ k := names_ne w hd hs hi hf k1 k2
    exact .cons k3 (hh k f' m hk k1 hq (k2 ▸ hm))

theorem equivalent_signed {e : Env} (w : e.Ok) {dest src q : Fin e.g.n} (hd : e.kind dest = .interface) (h : Equivalent e.g dest src)
    (hh : Signed e src q) : Signed e dest q := by
  intro i f m hi hf hq hm
  rcases equivalent_cases w.types h with h | h
  · rw [h] at hf
    exact hh i f m hi hf hq hm
  · have h2 := h.2
    rw [show (e.g.node dest).kind = .interface from hd] at h2
    have hi' := (List.getElem?_eq_some_iff.mp hf).1
    have hf' : (e.g.node src).fields[i]? = some ((e.g.node src).fields[i]'(by have := h2.1; omega)) := List.getElem?_eq_getElem _
    obtain ⟨n1, n2⟩ := h2.2 i f _ hf hf'
    exact .cons (Or.inl n2) (hh i _ m hi hf' hq (n1 ▸ hm))

theorem toIface_signed {e : Env} (w : e.Ok) {dest src sp q : Fin e.g.n} (hd : e.kind dest = .interface) (hs : e.kind src = .interface)
    {area : Nat} {r : List (Instr e.g.n) × Fin e.g.n} (h : toIface e dest src sp area = some r) (hh : Signed e src q) :
    Signed e r.2 q ∧ Signed e dest q ∧ e.kind r.2 = .interface := by
  unfold toIface at h
  rw [if_pos hs] at h
  split at h
  · next he =>
    injection h with h
    subst h
    exact ⟨hh, equivalent_signed w hd (equiv_iff.mp he) hh, hs⟩
  · cases hc : ifaceToIface e dest src area with
    | none => rw [hc] at h; cases h
    | some c =>
      rw [hc] at h
      injection h with h
      subst h
      exact ⟨ifaceToIface_signed w hd hs hc hh, ifaceToIface_signed w hd hs hc hh, hd⟩

theorem uses_signed {e : Env} (w : e.Ok) (sp : Fin e.g.n) {q : Fin e.g.n} : ∀ (us : List (Use e.g.n)) (src : Fin e.g.n)
    {r : List (Instr e.g.n) × Fin e.g.n}, (∀ u ∈ us, e.kind u.dest = .interface) → e.kind src = .interface → uses e src sp us = some r →
    Signed e src q → Signed e r.2 q
  | [], src, r, _, _, h, hh => by injection h with h; subst h; exact hh
  | .convert dest area :: us, src, r, hk, hs, h, hh => by
    unfold uses at h
    cases ht : toIface e dest src sp area with
    | none => rw [ht] at h; cases h
    | some t =>
      rw [ht] at h
      dsimp only [bind, Option.bind] at h
      cases hr : uses e t.2 sp us with
      | none => rw [hr] at h; cases h
      | some r' =>
        rw [hr] at h
        injection h with h
        subst h
        obtain ⟨s1, _, s3⟩ := toIface_signed w (hk _ List.mem_cons_self) hs ht hh
        show Signed e r'.2 q
        exact uses_signed w sp us t.2 (fun u hu => hk u (List.mem_cons_of_mem _ hu)) s3 hr s1
  | .store dest area var :: us, src, r, hk, hs, h, hh => by
    unfold uses at h
    cases ht : toIface e dest src sp area with
    | none => rw [ht] at h; cases h
    | some t =>
      rw [ht] at h
      dsimp only [bind, Option.bind] at h
      cases hr : uses e dest sp us with
      | none => rw [hr] at h; cases h
      | some r' =>
        rw [hr] at h
        injection h with h
        subst h
        obtain ⟨_, s2, _⟩ := toIface_signed w (hk _ List.mem_cons_self) hs ht hh
        show Signed e r'.2 q
        exact uses_signed w sp us dest (fun u hu => hk u (List.mem_cons_of_mem _ hu)) (hk _ List.mem_cons_self) hr s2

theorem first_signed {e : Env} (w : e.Ok) {src sp q : Fin e.g.n} {u : Use e.g.n} {us : List (Use e.g.n)} {r : List (Instr e.g.n) × Fin e.g.n}
    (hk : ∀ x ∈ u :: us, e.kind x.dest = .interface) (h : uses e src sp (u :: us) = some r)
    (h1 : ∀ t, toIface e u.dest src sp u.area = some t → t.2 = u.dest ∧ Signed e u.dest q) : Signed e r.2 q := by
  cases u with
  | convert dest area =>
    unfold uses at h
    cases ht : toIface e dest src sp area with
    | none => rw [ht] at h; cases h
    | some t =>
      rw [ht] at h
      dsimp only [bind, Option.bind] at h
      cases hr : uses e t.2 sp us with
      | none => rw [hr] at h; cases h
      | some r' =>
        rw [hr] at h
        injection h with h
        subst h
        obtain ⟨a, b⟩ := h1 t ht
        rw [a] at hr
        show Signed e r'.2 q
        exact uses_signed w sp us dest (fun u hu => hk u (List.mem_cons_of_mem _ hu)) (hk _ List.mem_cons_self) hr b
  | store dest area var =>
    unfold uses at h
    cases ht : toIface e dest src sp area with
    | none => rw [ht] at h; cases h
    | some t =>
      rw [ht] at h
      dsimp only [bind, Option.bind] at h
      cases hr : uses e dest sp us with
      | none => rw [hr] at h; cases h
      | some r' =>
        rw [hr] at h
        injection h with h
        subst h
        show Signed e r'.2 q
        exact uses_signed w sp us dest (fun u hu => hk u (List.mem_cons_of_mem _ hu)) (hk _ List.mem_cons_self) hr (h1 t ht).2

theorem value_signed {e : Env} (w : e.Ok) {T Tp : Fin e.g.n} (hk : Plain (e.kind T)) {u : Use e.g.n} {us : List (Use e.g.n)}
    {r : List (Instr e.g.n) × Fin e.g.n} (hd : ∀ x ∈ u :: us, e.kind x.dest = .interface) (hu : uses e T Tp (u :: us) = some r) : Signed e r.2 Tp := by
  obtain ⟨k1, k2, k3⟩ := plain_kinds hk
  refine first_signed w hd hu fun t ht => ?_
  unfold toIface at ht
  rw [if_neg k1, if_neg k2, if_pos k3] at ht
  unfold valueToIface at ht
  cases hc : ptrToIface e u.dest Tp u.area with
  | none => rw [hc] at ht; cases ht
  | some c =>
    rw [hc] at ht
    injection ht with ht
    subst ht
    exact ⟨rfl, ptrToIface_signed hc⟩

theorem pointer_signed {e : Env} (w : e.Ok) {S sp : Fin e.g.n} (hk : e.kind S = .ptr) {u : Use e.g.n} {us : List (Use e.g.n)}
    {r : List (Instr e.g.n) × Fin e.g.n} (hd : ∀ x ∈ u :: us, e.kind x.dest = .interface) (hu : uses e S sp (u :: us) = some r) : Signed e r.2 S := by
  refine first_signed w hd hu fun t ht => ?_
  unfold toIface at ht
  rw [if_neg (by rw [hk]; decide), if_pos hk] at ht
  split at ht
  · cases ht
  · cases hc : ptrToIface e u.dest S u.area with
    | none => rw [hc] at ht; cases ht
    | some c =>
      rw [hc] at ht
      injection ht with ht
      subst ht
      exact ⟨rfl, ptrToIface_signed hc⟩

end Umka.Iface
