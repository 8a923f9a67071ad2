import Verif.Control.Sim
/-! # Control statements: the generator produces code of the right shape -/

namespace Umka.Control
open Spec

variable {σ : Type}

theorem bind_ok {ε β γ : Type} (x : β) (f : β → Except ε γ) :
    ((Except.ok x : Except ε β) >>= f) = f x := rfl

theorem bind_eq_ok {ε β γ : Type} {m : Except ε β} {f : β → Except ε γ} {y : γ}
    (h : (m >>= f) = .ok y) : ∃ x, m = .ok x ∧ f x = .ok y := by
  cases m with
  | error e => cases h
  | ok x => exact ⟨x, rfl, h⟩

/-- The instruction at a position. -/
def Gen.at (g : Gen σ) (i : Nat) : Option (Instr σ) := g.code[i]?

theorem emit_ip (g : Gen σ) (x : Instr σ) : (emit g x).ip = g.ip + 1 := by simp [emit, Gen.ip]

theorem emit_at_lt {g : Gen σ} {x : Instr σ} {i : Nat} (h : i < g.ip) : (emit g x).at i = g.at i :=
  List.getElem?_append_left h

theorem emit_at_eq (g : Gen σ) (x : Instr σ) : (emit g x).at g.ip = some x := by
  simp [emit, Gen.at, Gen.ip]

theorem patch_ip (g : Gen σ) (p : Nat) (x : Instr σ) : (patch g p x).ip = g.ip := by
  simp [patch, Gen.ip]

theorem patch_at_ne {g : Gen σ} {p i : Nat} {x : Instr σ} (h : i ≠ p) :
    (patch g p x).at i = g.at i := by
  unfold patch Gen.at
  exact List.getElem?_set_ne (Ne.symm h)

theorem patch_at_eq {g : Gen σ} {p : Nat} {x : Instr σ} (h : p < g.ip) :
    (patch g p x).at p = some x := by
  unfold patch Gen.at
  exact List.getElem?_set_self h

theorem savePos_ok {g g' : Gen σ} (h : savePos g = .ok g') :
    g' = { g with stack := g.ip :: g.stack } := by
  unfold savePos at h
  split at h
  · injection h with h; exact h.symm
  · cases h

theorem addGoto_ok {l l' : List Nat} {ip : Nat} (h : addGoto l ip = .ok l') : l' = l ++ [ip] := by
  unfold addGoto at h
  split at h
  · cases h
  · split at h
    · injection h with h; exact h.symm
    · cases h

theorem restorePos_cons {g : Gen σ} {p : Nat} {st : List Nat} (h : g.stack = p :: st) :
    restorePos g = .ok (p, { g with stack := st }) := by
  unfold restorePos; rw [h]

/-- `g'` is `g` with more code, where new stubs are on the stack (`ns`) and in the tables. -/
structure Ext (g g' : Gen σ) (ns nb nk nr : List Nat) : Prop where
  len : g.ip ≤ g'.ip
  pre : ∀ i, i < g.ip → g'.at i = g.at i
  stack : g'.stack = ns ++ g.stack
  brk : g'.breaks = g.breaks.map (· ++ nb)
  brk0 : g.breaks = none → nb = []
  cont : g'.continues = g.continues.map (· ++ nk)
  cont0 : g.continues = none → nk = []
  ret : g'.returns = g.returns ++ nr
  rs : ∀ i ∈ ns, g.ip ≤ i ∧ i < g'.ip
  rb : ∀ i ∈ nb, g.ip ≤ i ∧ i < g'.ip
  rk : ∀ i ∈ nk, g.ip ≤ i ∧ i < g'.ip
  rr : ∀ i ∈ nr, g.ip ≤ i ∧ i < g'.ip
  dis : ∀ i, (i ∈ ns → i ∉ nb ∧ i ∉ nk ∧ i ∉ nr) ∧ (i ∈ nb → i ∉ nk ∧ i ∉ nr) ∧ (i ∈ nk → i ∉ nr)

/-- In the final code the stubs are jumps, and the rest is as generated. -/
structure Fits (C : Code σ) (g g' : Gen σ) (ns nb nk nr : List Nat) (E B K R : Nat) : Prop where
  s : ∀ i ∈ ns, C i = some (.goto E)
  b : ∀ i ∈ nb, C i = some (.goto B)
  k : ∀ i ∈ nk, C i = some (.goto K)
  r : ∀ i ∈ nr, C i = some (.goto R)
  rest : ∀ i, g.ip ≤ i → i < g'.ip → i ∉ ns → i ∉ nb → i ∉ nk → i ∉ nr → C i = g'.at i

theorem map_append_nil (o : Option (List Nat)) : o.map (· ++ []) = o := by
  cases o <;> simp

theorem Ext.refl (g : Gen σ) : Ext g g [] [] [] [] := by
  constructor <;> simp

theorem Ext.trans {g g1 g2 : Gen σ} {ns nb nk nr ns' nb' nk' nr' : List Nat}
    (h : Ext g g1 ns nb nk nr) (h' : Ext g1 g2 ns' nb' nk' nr') :
    Ext g g2 (ns' ++ ns) (nb ++ nb') (nk ++ nk') (nr ++ nr') where
  len := Nat.le_trans h.len h'.len
  pre i hi := by rw [h'.pre i (Nat.lt_of_lt_of_le hi h.len), h.pre i hi]
  stack := by rw [h'.stack, h.stack, List.append_assoc]
  brk := by rw [h'.brk, h.brk]; cases g.breaks <;> simp
  brk0 h0 := by
    have e := h.brk
    rw [h0] at e
    rw [h.brk0 h0, h'.brk0 e]; rfl
  cont := by rw [h'.cont, h.cont]; cases g.continues <;> simp
  cont0 h0 := by
    have e := h.cont
    rw [h0] at e
    rw [h.cont0 h0, h'.cont0 e]; rfl
  ret := by rw [h'.ret, h.ret, List.append_assoc]
  rs i hi := by
    have h1 := h.len; have h2 := h'.len
    rcases List.mem_append.1 hi with hi | hi
    · have := h'.rs i hi; omega
    · have := h.rs i hi; omega
  rb i hi := by
    have h1 := h.len; have h2 := h'.len
    rcases List.mem_append.1 hi with hi | hi
    · have := h.rb i hi; omega
    · have := h'.rb i hi; omega
  rk i hi := by
    have h1 := h.len; have h2 := h'.len
    rcases List.mem_append.1 hi with hi | hi
    · have := h.rk i hi; omega
    · have := h'.rk i hi; omega
  rr i hi := by
    have h1 := h.len; have h2 := h'.len
    rcases List.mem_append.1 hi with hi | hi
    · have := h.rr i hi; omega
    · have := h'.rr i hi; omega
  dis i := by
    by_cases hi : i < g1.ip
    · have x1 : i ∉ ns' := fun hm => by have := h'.rs i hm; omega
      have x2 : i ∉ nb' := fun hm => by have := h'.rb i hm; omega
      have x3 : i ∉ nk' := fun hm => by have := h'.rk i hm; omega
      have x4 : i ∉ nr' := fun hm => by have := h'.rr i hm; omega
      simp only [List.mem_append, x1, x2, x3, x4, or_false, false_or]
      exact h.dis i
    · have x1 : i ∉ ns := fun hm => by have := h.rs i hm; omega
      have x2 : i ∉ nb := fun hm => by have := h.rb i hm; omega
      have x3 : i ∉ nk := fun hm => by have := h.rk i hm; omega
      have x4 : i ∉ nr := fun hm => by have := h.rr i hm; omega
      simp only [List.mem_append, x1, x2, x3, x4, or_false, false_or]
      exact h'.dis i

/-- The first part of a piece of code, where `gf` is the generator after the whole piece. -/
theorem Fits.left {C : Code σ} {g g1 gf : Gen σ} {ns nb nk nr ns' nb' nk' nr' : List Nat}
    {E B K R E' : Nat}
    (hf : Fits C g gf ns' (nb ++ nb') (nk ++ nk') (nr ++ nr') E' B K R)
    (hs : ∀ i ∈ ns, C i = some (.goto E))
    (hs' : ∀ i ∈ ns', g.ip ≤ i → i < g1.ip → i ∈ ns)
    (hlen : g1.ip ≤ gf.ip)
    (hb : ∀ i ∈ nb', g1.ip ≤ i) (hk : ∀ i ∈ nk', g1.ip ≤ i) (hr : ∀ i ∈ nr', g1.ip ≤ i)
    (hpre : ∀ i, g.ip ≤ i → i < g1.ip → i ∉ ns → gf.at i = g1.at i) :
    Fits C g g1 ns nb nk nr E B K R where
  s := hs
  b i hi := hf.b i (by simp [hi])
  k i hi := hf.k i (by simp [hi])
  r i hi := hf.r i (by simp [hi])
  rest i h1 h2 hns hnb hnk hnr := by
    rw [hf.rest i h1 (by omega), hpre i h1 h2 hns]
    · intro h; exact hns (hs' i h h1 h2)
    · intro h; rcases List.mem_append.1 h with h | h
      · exact hnb h
      · have := hb i h; omega
    · intro h; rcases List.mem_append.1 h with h | h
      · exact hnk h
      · have := hk i h; omega
    · intro h; rcases List.mem_append.1 h with h | h
      · exact hnr h
      · have := hr i h; omega

/-- The last part of a piece of code, where `gf` is the generator after the whole piece. -/
theorem Fits.right {C : Code σ} {g g1 g2 gf : Gen σ} {ns nb nk nr ns' nb' nk' nr' : List Nat}
    {E B K R E' : Nat}
    (hf : Fits C g gf ns' (nb ++ nb') (nk ++ nk') (nr ++ nr') E' B K R)
    (hs : ∀ i ∈ ns, C i = some (.goto E))
    (hs' : ∀ i ∈ ns', g1.ip ≤ i → i < g2.ip → i ∈ ns)
    (hg : g.ip ≤ g1.ip) (hlen : g2.ip ≤ gf.ip)
    (hb : ∀ i ∈ nb, i < g1.ip) (hk : ∀ i ∈ nk, i < g1.ip) (hr : ∀ i ∈ nr, i < g1.ip)
    (hpre : ∀ i, g1.ip ≤ i → i < g2.ip → i ∉ ns → gf.at i = g2.at i) :
    Fits C g1 g2 ns nb' nk' nr' E B K R where
  s := hs
  b i hi := hf.b i (by simp [hi])
  k i hi := hf.k i (by simp [hi])
  r i hi := hf.r i (by simp [hi])
  rest i h1 h2 hns hnb hnk hnr := by
    rw [hf.rest i (by omega) (by omega), hpre i h1 h2 hns]
    · intro h; exact hns (hs' i h h1 h2)
    · intro h; rcases List.mem_append.1 h with h | h
      · have := hb i h; omega
      · exact hnb h
    · intro h; rcases List.mem_append.1 h with h | h
      · have := hk i h; omega
      · exact hnk h
    · intro h; rcases List.mem_append.1 h with h | h
      · have := hr i h; omega
      · exact hnr h

theorem ext_emit (g : Gen σ) (x : Instr σ) : Ext g (emit g x) [] [] [] [] where
  len := by rw [emit_ip]; omega
  pre i hi := emit_at_lt hi
  stack := rfl
  brk := (map_append_nil _).symm
  brk0 _ := rfl
  cont := (map_append_nil _).symm
  cont0 _ := rfl
  ret := (List.append_nil _).symm
  rs := by simp
  rb := by simp
  rk := by simp
  rr := by simp
  dis := by simp

/-- A stub whose position is saved. -/
theorem ext_stub (g : Gen σ) :
    Ext g (emit { g with stack := g.ip :: g.stack } .nop) [g.ip] [] [] [] where
  len := by rw [emit_ip]; exact Nat.le_succ _
  pre i hi := emit_at_lt (g := { g with stack := g.ip :: g.stack }) hi
  stack := rfl
  brk := (map_append_nil _).symm
  brk0 _ := rfl
  cont := (map_append_nil _).symm
  cont0 _ := rfl
  ret := (List.append_nil _).symm
  rs i hi := by
    rw [List.mem_singleton] at hi; subst hi
    rw [emit_ip]; exact ⟨Nat.le_refl _, Nat.lt_succ_self _⟩
  rb := by simp
  rk := by simp
  rr := by simp
  dis := by simp

/-- Filling in the stub on top of the stack. -/
theorem ext_patch {g g1 : Gen σ} {p : Nat} {ns nb nk nr : List Nat} (x : Instr σ)
    (h : Ext g g1 (p :: ns) nb nk nr) :
    restorePos g1 = .ok (p, { g1 with stack := ns ++ g.stack }) ∧
    Ext g (patch { g1 with stack := ns ++ g.stack } p x) ns nb nk nr := by
  refine ⟨restorePos_cons h.stack, ?_⟩
  have hp := h.rs p (by simp)
  constructor
  · rw [patch_ip]; exact h.len
  · intro i hi
    rw [patch_at_ne (by omega)]
    exact h.pre i hi
  · rfl
  · exact h.brk
  · exact h.brk0
  · exact h.cont
  · exact h.cont0
  · exact h.ret
  · intro i hi; rw [patch_ip]; exact h.rs i (by simp [hi])
  · rw [patch_ip]; exact h.rb
  · rw [patch_ip]; exact h.rk
  · rw [patch_ip]; exact h.rr
  · intro i
    have := h.dis i
    rw [List.mem_cons] at this
    exact ⟨fun hi => this.1 (.inr hi), this.2⟩

/-! ## Expressions -/

/-- What code generation for an expression guarantees. -/
def ExprShape (e : Expr σ) (g g' : Gen σ) : Prop :=
  Ext g g' [] [] [] [] ∧
    ∀ C : Code σ, (∀ i, g.ip ≤ i → i < g'.ip → C i = g'.at i) → ExprAt C e g.ip g'.ip

theorem shortCircuit_shape {a b : Expr σ} {g g1 g2 g3 g' : Gen σ} {isAnd : Bool}
    (ha : ExprShape a g g1) (h2 : shortCircuitProlog g1 = .ok g2) (hb : ExprShape b g2 g3)
    (h : shortCircuitEpilog g3 isAnd = .ok g') :
    ExprShape (if isAnd then .and a b else .or a b) g g' := by
  obtain ⟨e1, s1⟩ := ha
  obtain ⟨e3, s3⟩ := hb
  unfold shortCircuitProlog at h2
  obtain ⟨g1', h1', h2⟩ := bind_eq_ok h2
  injection h2 with h2
  rw [savePos_ok h1'] at h2
  have e2 := (ext_emit g1 .dup).trans ((ext_stub (emit g1 .dup)).trans (ext_emit _ .pop))
  rw [h2] at e2
  obtain ⟨hr, e4⟩ := ext_patch (if isAnd then .gotoIfNot g3.ip else .gotoIf g3.ip)
    ((e1.trans e2).trans e3)
  unfold shortCircuitEpilog at h
  rw [hr, bind_ok] at h
  injection h with h
  have hp : (emit g1 (.dup : Instr σ)).ip = g1.ip + 1 := emit_ip _ _
  have hi2 : g2.ip = g1.ip + 3 := by
    rw [← h2, emit_ip, emit_ip]
    show (emit g1 .dup).ip + 1 + 1 = _
    rw [hp]
  have l1 := e1.len; have l3 := e3.len
  have hip : g'.ip = g3.ip := by rw [← h, patch_ip]; rfl
  have hat : ∀ i, i ≠ g1.ip + 1 → g'.at i = g3.at i := by
    intro i hi
    rw [← h, patch_at_ne (by rw [hp]; exact hi)]; rfl
  have hatp : g'.at (g1.ip + 1) = some (if isAnd then .gotoIfNot g3.ip else .gotoIf g3.ip) := by
    rw [← h, hp, patch_at_eq (by show _ < g3.ip; omega)]; rfl
  have hlow : ∀ i, i < g1.ip → g3.at i = g1.at i := by
    intro i hi; rw [e3.pre i (by omega), e2.pre i hi]
  have hd : g3.at g1.ip = some .dup := by
    rw [e3.pre _ (by omega), ← h2, emit_at_lt (by rw [emit_ip]; show g1.ip < (emit g1 .dup).ip + 1; omega),
      emit_at_lt (by show g1.ip < (emit g1 .dup).ip; omega)]
    exact emit_at_eq g1 .dup
  have hpop : g3.at (g1.ip + 2) = some .pop := by
    rw [e3.pre _ (by omega), ← h2]
    have hq : (emit { emit g1 (.dup : Instr σ) with stack := (emit g1 (.dup : Instr σ)).ip ::
        (emit g1 (.dup : Instr σ)).stack } .nop).ip = g1.ip + 2 := by
      rw [emit_ip]; show (emit g1 .dup).ip + 1 = _; omega
    rw [← hq]; exact emit_at_eq _ _
  refine ⟨h ▸ e4, fun C hC => ?_⟩
  rw [hip] at hC ⊢
  have c1 : ExprAt C a g.ip g1.ip := s1 C fun i h1 h2 => by
    rw [hC i h1 (by omega), hat i (by omega), hlow i h2]
  have c2 : C g1.ip = some .dup := by rw [hC _ l1 (by omega), hat _ (by omega), hd]
  have c3 := hC (g1.ip + 1) (by omega) (by omega)
  rw [hatp] at c3
  have c4 : C (g1.ip + 2) = some .pop := by rw [hC _ (by omega) (by omega), hat _ (by omega), hpop]
  have c5 : ExprAt C b (g1.ip + 3) g3.ip := by
    rw [← hi2]
    exact s3 C fun i h1 h2 => by rw [hC i (by omega) h2, hat i (by omega)]
  cases isAnd with
  | true => exact ⟨g1.ip, c1, c2, c3, c4, c5⟩
  | false => exact ⟨g1.ip, c1, c2, c3, c4, c5⟩

theorem genExpr_shape (e : Expr σ) : ∀ (g g' : Gen σ), genExpr g e = .ok g' → ExprShape e g g' := by
  induction e with
  | atom f =>
    intro g g' h
    injection h with h; subst h
    refine ⟨ext_emit g _, fun C hC => ⟨?_, emit_ip _ _⟩⟩
    rw [hC _ (Nat.le_refl _) (by rw [emit_ip]; omega), emit_at_eq]
  | unary f e ih =>
    intro g g' h
    rw [genExpr] at h
    obtain ⟨g1, h1, h⟩ := bind_eq_ok h
    injection h with h; subst h
    obtain ⟨e1, s1⟩ := ih g g1 h1
    refine ⟨e1.trans (ext_emit g1 _), fun C hC => ⟨g1.ip, s1 C ?_, ?_, emit_ip _ _⟩⟩
    · intro i hi1 hi2; rw [hC i hi1 (by rw [emit_ip]; omega), emit_at_lt hi2]
    · rw [hC _ e1.len (by rw [emit_ip]; omega), emit_at_eq]
  | binary f a b iha ihb =>
    intro g g' h
    rw [genExpr] at h
    obtain ⟨g1, h1, h⟩ := bind_eq_ok h
    obtain ⟨g2, h2, h⟩ := bind_eq_ok h
    injection h with h; subst h
    obtain ⟨e1, s1⟩ := iha g g1 h1
    obtain ⟨e2, s2⟩ := ihb g1 g2 h2
    have l1 := e1.len; have l2 := e2.len
    refine ⟨(e1.trans e2).trans (ext_emit g2 _),
      fun C hC => ⟨g1.ip, g2.ip, s1 C ?_, s2 C ?_, ?_, emit_ip _ _⟩⟩
    · intro i hi1 hi2
      rw [hC i hi1 (by rw [emit_ip]; omega), emit_at_lt (by omega), e2.pre i hi2]
    · intro i hi1 hi2; rw [hC i (by omega) (by rw [emit_ip]; omega), emit_at_lt hi2]
    · rw [hC _ (by omega) (by rw [emit_ip]; omega), emit_at_eq]
  | and a b iha ihb =>
    intro g g' h
    rw [genExpr] at h
    obtain ⟨g1, h1, h⟩ := bind_eq_ok h
    obtain ⟨g2, h2, h⟩ := bind_eq_ok h
    obtain ⟨g3, h3, h⟩ := bind_eq_ok h
    exact shortCircuit_shape (isAnd := true) (iha g g1 h1) h2 (ihb g2 g3 h3) h
  | or a b iha ihb =>
    intro g g' h
    rw [genExpr] at h
    obtain ⟨g1, h1, h⟩ := bind_eq_ok h
    obtain ⟨g2, h2, h⟩ := bind_eq_ok h
    obtain ⟨g3, h3, h⟩ := bind_eq_ok h
    exact shortCircuit_shape (isAnd := false) (iha g g1 h1) h2 (ihb g2 g3 h3) h

/-! ## Stubs -/

theorem ifCondEpilog_ok {g g' : Gen σ} (h : ifCondEpilog g = .ok g') :
    g'.ip = g.ip + 1 ∧ Ext g g' [g.ip] [] [] [] := by
  unfold ifCondEpilog at h
  obtain ⟨g1, h1, h⟩ := bind_eq_ok h
  injection h with h
  rw [savePos_ok h1] at h
  subst h
  exact ⟨emit_ip _ _, ext_stub g⟩

/-- What filling in one stub gives. -/
structure Filled (g g1 g' : Gen σ) (p : Nat) (x : Instr σ) (ns nb nk nr : List Nat) : Prop where
  ip : g'.ip = g1.ip
  ext : Ext g g' ns nb nk nr
  here : g'.at p = some x
  other : ∀ i, i ≠ p → g'.at i = g1.at i

theorem filled_patch {g g1 : Gen σ} {p : Nat} {ns nb nk nr : List Nat} (x : Instr σ)
    (h : Ext g g1 (p :: ns) nb nk nr) :
    Filled g g1 (patch { g1 with stack := ns ++ g.stack } p x) p x ns nb nk nr where
  ip := patch_ip _ _ _
  ext := (ext_patch x h).2
  here := patch_at_eq (h.rs p (by simp)).2
  other i hi := patch_at_ne hi

theorem ifEpilog_ok {g g1 g' : Gen σ} {p : Nat} {ns nb nk nr : List Nat}
    (e : Ext g g1 (p :: ns) nb nk nr) (h : ifEpilog g1 = .ok g') :
    Filled g g1 g' p (.gotoIfNot g1.ip) ns nb nk nr := by
  unfold ifEpilog at h
  rw [(ext_patch .nop e).1, bind_ok] at h
  injection h with h
  subst h
  exact filled_patch _ e

theorem ifElseEpilog_ok {g g1 g' : Gen σ} {p : Nat} {ns nb nk nr : List Nat}
    (e : Ext g g1 (p :: ns) nb nk nr) (h : ifElseEpilog g1 = .ok g') :
    Filled g g1 g' p (.goto g1.ip) ns nb nk nr := by
  unfold ifElseEpilog at h
  rw [(ext_patch .nop e).1, bind_ok] at h
  injection h with h
  subst h
  exact filled_patch _ e

/-- What filling in one stub and adding another one gives. -/
structure Moved (g g1 g' : Gen σ) (p : Nat) (x : Instr σ) (ns nb nk nr : List Nat) : Prop where
  ip : g'.ip = g1.ip + 1
  ext : Ext g g' (g1.ip :: ns) nb nk nr
  here : g'.at p = some x
  other : ∀ i, i < g1.ip → i ≠ p → g'.at i = g1.at i

theorem moved_ok {g g1 g2 : Gen σ} {p : Nat} {ns nb nk nr : List Nat} {x : Instr σ}
    (e : Ext g g1 (p :: ns) nb nk nr)
    (h2 : savePos (patch { g1 with stack := ns ++ g.stack } p x) = .ok g2) :
    Moved g g1 (emit g2 .nop) p x ns nb nk nr := by
  have f := filled_patch x e
  have hip : (patch { g1 with stack := ns ++ g.stack } p x).ip = g1.ip := f.ip
  have e2 := f.ext.trans (ext_stub _)
  rw [savePos_ok h2]
  have hl : ∀ i, i < g1.ip →
      (emit { patch { g1 with stack := ns ++ g.stack } p x with
        stack := (patch { g1 with stack := ns ++ g.stack } p x).ip ::
          (patch { g1 with stack := ns ++ g.stack } p x).stack } .nop).at i =
        (patch { g1 with stack := ns ++ g.stack } p x).at i := by
    intro i hi
    exact emit_at_lt (by show i < (patch { g1 with stack := ns ++ g.stack } p x).ip; omega)
  refine ⟨?_, ?_, ?_, ?_⟩
  · rw [emit_ip]; show (patch { g1 with stack := ns ++ g.stack } p x).ip + 1 = _; rw [hip]
  · rw [hip] at e2 ⊢
    simpa using e2
  · rw [hl p (e.rs p (by simp)).2, f.here]
  · intro i h1 h2
    rw [hl i h1, f.other i h2]

theorem elseProlog_ok {g g1 g' : Gen σ} {p : Nat} {ns nb nk nr : List Nat}
    (e : Ext g g1 (p :: ns) nb nk nr) (h : elseProlog g1 = .ok g') :
    Moved g g1 g' p (.gotoIfNot (g1.ip + 1)) ns nb nk nr := by
  unfold elseProlog at h
  rw [(ext_patch .nop e).1, bind_ok] at h
  obtain ⟨g2, h2, h⟩ := bind_eq_ok h
  injection h with h
  subst h
  exact moved_ok e h2

theorem caseBlockEpilog_ok {g g1 g' : Gen σ} {p : Nat} {ns nb nk nr : List Nat}
    (e : Ext g g1 (p :: ns) nb nk nr) (h : caseBlockEpilog g1 = .ok g') :
    Moved g g1 g' p (.goto (g1.ip + 1)) ns nb nk nr := by
  unfold caseBlockEpilog at h
  rw [(ext_patch .nop e).1, bind_ok] at h
  obtain ⟨g2, h2, h⟩ := bind_eq_ok h
  injection h with h
  subst h
  exact moved_ok e h2

/-- What filling in several stubs gives. -/
structure FilledAll (g g1 g' : Gen σ) (ps : List Nat) (x : Instr σ) (ns nb nk nr : List Nat) :
    Prop where
  ip : g'.ip = g1.ip
  ext : Ext g g' ns nb nk nr
  here : ∀ i ∈ ps, g'.at i = some x
  other : ∀ i, i ∉ ps → g'.at i = g1.at i

theorem switchEpilog_ok {g : Gen σ} {ns nb nk nr : List Nat} (ps : List Nat) :
    ∀ {g1 g' : Gen σ}, Ext g g1 (ps ++ ns) nb nk nr → switchEpilog g1 ps.length = .ok g' →
      FilledAll g g1 g' ps (.goto g1.ip) ns nb nk nr := by
  induction ps with
  | nil =>
    intro g1 g' e h
    injection h with h
    subst h
    exact ⟨rfl, e, by simp, fun _ _ => rfl⟩
  | cons p ps ih =>
    intro g1 g' e h
    rw [List.length_cons, switchEpilog, (ext_patch .nop e).1, bind_ok] at h
    have f := filled_patch (.goto g1.ip) e
    have r := ih f.ext h
    rw [f.ip] at r
    refine ⟨by rw [r.ip, f.ip], r.ext, ?_, ?_⟩
    · intro i hi
      rcases List.mem_cons.1 hi with rfl | hi
      · by_cases hm : i ∈ ps
        · exact r.here i hm
        · rw [r.other i hm, f.here]
      · exact r.here i hi
    · intro i hi
      rw [List.mem_cons, not_or] at hi
      rw [r.other i hi.2, f.other i hi.1]

theorem patchCases_ok {g : Gen σ} {ns nb nk nr : List Nat} (ps : List Nat) :
    ∀ {g1 g' : Gen σ}, Ext g g1 (ps ++ ns) nb nk nr → patchCases g1 ps.length = .ok g' →
      FilledAll g g1 g' ps (.gotoIf (g1.ip + 1)) ns nb nk nr := by
  induction ps with
  | nil =>
    intro g1 g' e h
    injection h with h
    subst h
    exact ⟨rfl, e, by simp, fun _ _ => rfl⟩
  | cons p ps ih =>
    intro g1 g' e h
    rw [List.length_cons, patchCases, (ext_patch .nop e).1, bind_ok] at h
    have f := filled_patch (.gotoIf (g1.ip + 1)) e
    have r := ih f.ext h
    rw [f.ip] at r
    refine ⟨by rw [r.ip, f.ip], r.ext, ?_, ?_⟩
    · intro i hi
      rcases List.mem_cons.1 hi with rfl | hi
      · by_cases hm : i ∈ ps
        · exact r.here i hm
        · rw [r.other i hm, f.here]
      · exact r.here i hi
    · intro i hi
      rw [List.mem_cons, not_or] at hi
      rw [r.other i hi.2, f.other i hi.1]

theorem gotosEpilog_spec (ps : List Nat) : ∀ g : Gen σ, (∀ i ∈ ps, i < g.ip) →
    (gotosEpilog g ps).ip = g.ip ∧ (gotosEpilog g ps).stack = g.stack ∧
    (gotosEpilog g ps).breaks = g.breaks ∧ (gotosEpilog g ps).continues = g.continues ∧
    (gotosEpilog g ps).returns = g.returns ∧
    (∀ i ∈ ps, (gotosEpilog g ps).at i = some (.goto g.ip)) ∧
    (∀ i, i ∉ ps → (gotosEpilog g ps).at i = g.at i) := by
  induction ps with
  | nil => intro g _; simp [gotosEpilog]
  | cons p ps ih =>
    intro g hps
    obtain ⟨i1, i2, i3, i4, i5, i6, i7⟩ := ih (patch g p (.goto g.ip))
      (fun i hi => by rw [patch_ip]; exact hps i (by simp [hi]))
    rw [patch_ip] at i1 i6
    rw [gotosEpilog]
    refine ⟨i1, i2, i3, i4, i5, ?_, ?_⟩
    · intro i hi
      rcases List.mem_cons.1 hi with rfl | hi
      · by_cases hm : i ∈ ps
        · exact i6 i hm
        · rw [i7 i hm, patch_at_eq (hps i (by simp))]
      · exact i6 i hi
    · intro i hi
      rw [List.mem_cons, not_or] at hi
      rw [i7 i hi.2, patch_at_ne hi.1]

theorem caseConstantCheck_ok {g g' : Gen σ} {k : Int} (h : caseConstantCheck g k = .ok g') :
    g'.ip = g.ip + 4 ∧ Ext g g' [g.ip + 3] [] [] [] ∧ g'.at g.ip = some .pushReg ∧
    g'.at (g.ip + 1) = some (.push k) ∧ g'.at (g.ip + 2) = some .eq := by
  unfold caseConstantCheck at h
  obtain ⟨g1, h1, h⟩ := bind_eq_ok h
  injection h with h
  rw [savePos_ok h1] at h
  have a0 := emit_ip g (.pushReg : Instr σ)
  have a1 := emit_ip (emit g .pushReg) (.push k : Instr σ)
  have a2 := emit_ip (emit (emit g .pushReg) (.push k)) (.eq : Instr σ)
  have e := ((ext_emit g .pushReg).trans (ext_emit _ (.push k))).trans
    ((ext_emit _ .eq).trans (ext_stub (emit (emit (emit g .pushReg) (.push k)) .eq)))
  rw [h] at e
  have l : ∀ i, i < (emit (emit (emit g .pushReg) (.push k)) (.eq : Instr σ)).ip →
      g'.at i = (emit (emit (emit g .pushReg) (.push k)) (.eq : Instr σ)).at i := by
    intro i hi
    rw [← h]; exact emit_at_lt hi
  refine ⟨?_, ?_, ?_, ?_, ?_⟩
  · rw [← h, emit_ip]
    show (emit (emit (emit g .pushReg) (.push k)) (.eq : Instr σ)).ip + 1 = _
    omega
  · have hp : (emit (emit (emit g .pushReg) (.push k)) (.eq : Instr σ)).ip = g.ip + 3 := by omega
    rw [hp] at e
    simpa using e
  · rw [l _ (by omega), emit_at_lt (by omega), emit_at_lt (by omega), emit_at_eq]
  · rw [l _ (by omega), emit_at_lt (by omega), ← a0, emit_at_eq]
  · rw [l _ (by omega), show g.ip + 2 = (emit (emit g .pushReg) (.push k : Instr σ)).ip by omega,
      emit_at_eq]

theorem caseConstants_ok (ks : List Int) : ∀ {g g' : Gen σ}, caseConstants g ks = .ok g' →
    ∃ ps, ps.length = ks.length ∧ Ext g g' ps [] [] [] ∧
      ∀ (C : Code σ) (dest : Nat), (∀ i ∈ ps, C i = some (.gotoIf dest)) →
        (∀ i, g.ip ≤ i → i < g'.ip → i ∉ ps → C i = g'.at i) → ConstsAt C dest ks g.ip g'.ip := by
  induction ks with
  | nil =>
    intro g g' h
    injection h with h
    subst h
    exact ⟨[], rfl, Ext.refl _, fun _ _ _ _ => rfl⟩
  | cons k ks ih =>
    intro g g' h
    rw [caseConstants] at h
    obtain ⟨g1, h1, h⟩ := bind_eq_ok h
    obtain ⟨p1, e1, q0, q1, q2⟩ := caseConstantCheck_ok h1
    obtain ⟨ps, pl, e2, s2⟩ := ih h
    have l2 := e2.len
    have hps : ∀ i, i ∈ ps → g.ip + 4 ≤ i := fun i hi => by have := (e2.rs i hi).1; omega
    refine ⟨ps ++ [g.ip + 3], by simp [pl], by simpa using e1.trans e2, fun C dest hp hC => ?_⟩
    have hn : ∀ i, i < g.ip + 3 → i ∉ ps ++ [g.ip + 3] := by
      intro i hi hm
      rcases List.mem_append.1 hm with hm | hm
      · have := hps i hm; omega
      · rw [List.mem_singleton] at hm; omega
    refine ⟨?_, ?_, ?_, hp _ (by simp), ?_⟩
    · rw [hC _ (by omega) (by omega) (hn _ (by omega)), e2.pre _ (by omega), q0]
    · rw [hC _ (by omega) (by omega) (hn _ (by omega)), e2.pre _ (by omega), q1]
    · rw [hC _ (by omega) (by omega) (hn _ (by omega)), e2.pre _ (by omega), q2]
    · rw [← p1]
      refine s2 C dest (fun i hi => hp i (by simp [hi])) fun i h1 h2 h3 => hC i (by omega) h2 ?_
      simp only [List.mem_append, List.mem_singleton, not_or]
      exact ⟨h3, by omega⟩

end Umka.Control
