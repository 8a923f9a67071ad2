import Verif.Peephole.Lemmas
/-! # The peephole optimizer: one call of a generator function -/

namespace Umka.Peephole
open Umka.Arith (Slot Mem readBytes writeBytes readSigned readUnsigned BinOp UnOp RealOps Num Builtin)
open Spec
variable {ω : Type}

/-- Two instructions that only push a value, replaced by pushing the result. -/
theorem rule_unary (e : Env ω) (op : UnOp) (k k' : Kind) (v v' : Slot) (h : constUnary e op k v = .ok v')
    (t : St ω) : Sim true (runSeq e [.push k' v, .unary op k] t) (runSeq e [.push k v'] t) := by
  rw [constUnary_eq] at h
  simp only [runSeq, exec, bind_ok, St.withStack, h]
  exact Sim.refl _ _

theorem rule_binary (e : Env ω) (op : BinOp) (k k₁ k₂ k₃ : Kind) (hk : k.foldable = true) (l r v : Slot)
    (h : constBinary e op k l r = .ok v) (t : St ω) :
    Sim true (runSeq e [.push k₁ l, .push k₂ r, .binary op k] t) (runSeq e [.push k₃ v] t) := by
  simp only [runSeq, exec, bind_ok, St.withStack, constBinary_eq e op k hk, h, St.withAll]
  exact Sim.refl _ _

theorem rule_builtin (e : Env ω) (f : Builtin) (hf : f ≠ .atan2) (k k' k₂ : Kind) (x : Slot) (v : Num Slot)
    (hk : f = .makereal → (k'.arith = .uint ↔ k.arith = .uint))
    (h : lift (Arith.constCallBuiltin e.real f k'.arith (numArg f x) 0) = .ok v) (t : St ω) :
    Sim true (runSeq e [.push k' x, .callBuiltin (.num f) k] t) (runSeq e [.push k₂ (numRes v)] t) := by
  rw [constBuiltin_eq e f hf k k' hk] at h
  simp only [runSeq, exec, bind_ok, St.withStack, callNum, if_neg hf, h]
  exact Sim.refl _ _

theorem rule_atan2 (e : Env ω) (k k₁ k₂ : Kind) (x y : Slot) (v : Num Slot)
    (h : lift (Arith.constCallBuiltin e.real .atan2 k₂.arith (.r y) x) = .ok v) (t : St ω) :
    Sim true (runSeq e [.push k₂ y, .push k₁ x, .callBuiltin (.num .atan2) k] t)
      (runSeq e [.push .real (numRes v)] t) := by
  have : lift (Arith.callBuiltin e.real .atan2 k.arith (.r y) x) = .ok v := by
    revert h
    simp only [Arith.constCallBuiltin, Arith.callBuiltin]
    cases e.real.isZero x <;> cases e.real.isZero y <;> simp [lift]
  replace h := this
  simp only [runSeq, exec, bind_ok, St.withStack, callNum, if_true, numArg, h]
  exact Sim.refl _ _

theorem rule_makeRealLeft (e : Env ω) (k k₁ k₂ : Kind) (x y : Slot) (v : Num Slot)
    (hk : k₂.arith = .uint ↔ k.arith = .uint)
    (h : lift (Arith.constCallBuiltin e.real .makereal k₂.arith (.i y) 0) = .ok v) (t : St ω) :
    Sim true (runSeq e [.push k₂ y, .push k₁ x, .callBuiltin .makeRealLeft k] t)
      (runSeq e [.push .real (numRes v), .push k₁ x] t) := by
  rw [constBuiltin_eq e .makereal (by decide) k k₂ (fun _ => hk)] at h
  simp only [runSeq, exec, bind_ok, St.withStack, callMakeRealLeft, h]
  exact Sim.refl _ _

theorem genDeref_good (e : Env ω) (k : Kind) {rc : List CItem} : ∀ (n : Nat) {g : Gen} {rb : List Instr},
    Open g rc rb → Good e g rc rb (.deref k) true (genDeref g k n)
  | 0, g, rb, h => good_add e h _ _
  | n + 1, g, rb, h => by
    rw [genDeref]
    split <;> rename_i hp
    · exact good_replace e h hp _ (rule_pushGlobal e _ _ _)
    · exact good_replace e h hp _ (rule_pushLocal e _ _)
    · exact good_replace e h hp _ (rule_getArray e _ _ _)
    · exact good_replace e h hp _ (rule_getDynArray e _)
    · exact good_replace e h hp _ (rule_getMap e _ _)
    · split
      · rename_i off h0
        subst h0
        obtain ⟨rb1, rfl, h1⟩ := prev_some h hp
        obtain ⟨rb2, h2, h3, h4, hs⟩ := genDeref_good e k n h1
        refine ⟨rb2, h2, h3, h4, fun t => ?_⟩
        have := tail_sim e rb1.reverse _ _ (rule_field0 e k) t
        simp only [List.reverse_cons, List.append_assoc, List.cons_append, List.nil_append]
        exact this.trans (hs t)
      · exact good_replace e h hp _ (rule_getField e _ _)
    · exact good_add e h _ _

theorem genGetFieldPtr_good (e : Env ω) (off : Int) {rc : List CItem} {g : Gen} {rb : List Instr}
    (h : Open g rc rb) : Good e g rc rb (.getFieldPtr off) true (genGetFieldPtr g off) := by
  unfold genGetFieldPtr
  split <;> rename_i hp
  · exact good_replace e h hp _ (rule_localField e _ _)
  · exact good_replace e h hp _ (rule_fieldField e _ _)
  · exact good_add e h _ _

theorem toInt32_eq {v : Slot} (h1 : -2 ^ 31 ≤ v.toInt) (h2 : v.toInt < 2 ^ 31) : toInt32 v = v.toInt := by
  unfold toInt32
  rw [BitVec.truncate_eq_setWidth, BitVec.toInt_setWidth]
  have h3 : v.toInt = (v.toNat : Int) ∨ v.toInt = (v.toNat : Int) - 2 ^ 64 := by
    rw [BitVec.toInt_eq_toNat_cond]
    split
    · left; rfl
    · right; simp
  rw [Int.bmod_def]
  omega

theorem genGetArrayPtr_good (e : Env ω) (size : Nat) (len : Int) {rc : List CItem} {g g' : Gen}
    {rb : List Instr} (h : Open g rc rb) (hf : Fits e g (.getArrayPtr size len))
    (hg : genGetArrayPtr g size len = .ok g') : Good e g rc rb (.getArrayPtr size len) true g' := by
  unfold genGetArrayPtr at hg
  split at hg
  · rename_i v hp
    obtain ⟨h1, h2⟩ := hf.2 v hp
    rw [toInt32_eq h1 h2] at hg
    split at hg
    · rename_i hl
      dsimp only at hg
      split at hg
      · cases hg
      · rename_i hr
        split at hg
        · cases hg
          obtain ⟨rb1, rfl, h1⟩ := prev_some h hp
          obtain ⟨rb2, h2, h3, h4, hs⟩ := genGetFieldPtr_good e (size * v.toInt) h1
          refine ⟨rb2, h2, h3, h4, fun t => ?_⟩
          have := tail_sim e rb1.reverse _ _
            (rule_constIndex e (.ord .int) v size len hl (by omega) (by omega)) t
          simp only [List.reverse_cons, List.append_assoc, List.cons_append, List.nil_append]
          exact this.trans (hs t)
        · cases hg
    · cases hg
      exact good_add e h _ _
  · cases hg
    exact good_add e h _ _

/-- Does the optimized code leave `REG_SELF` as it is in the request? -/
def keeps : Instr → Bool
  | .pushReg .self => false
  | _ => true

theorem bind_eq_ok {α β : Type} {x : R α} {f : α → R β} {b : β} (h : x.bind f = .ok b) :
    ∃ a, x = .ok a ∧ f a = .ok b := by
  cases x with
  | ok a => exact ⟨a, rfl, h⟩
  | err => cases h
  | ub => cases h

theorem genCallBuiltin_good (e : Env ω) (f : BuiltinFn) (k : Kind) {rc : List CItem} {g g' : Gen}
    {rb : List Instr} (h : Open g rc rb) (hf : Fits e g (.callBuiltin f k))
    (hg : genCallBuiltin e g f k = .ok g') : Good e g rc rb (.callBuiltin f k) true g' := by
  unfold genCallBuiltin at hg
  split at hg
  · rename_i k1 x hp
    split at hg
    · split at hg
      · rename_i k2 y hp2
        obtain ⟨v, hv, hg⟩ := bind_eq_ok hg
        cases hg
        exact good_replace2 e h hp hp2 _ (rule_atan2 e k k1 k2 x y v hv)
      · cases hg
        exact good_add e h _ _
    · rename_i f hne
      obtain ⟨v, hv, hg⟩ := bind_eq_ok hg
      cases hg
      exact good_replace e h hp _
        (rule_builtin e f (fun hf => by subst hf; exact hne rfl) k k1 _ x v (fun hm => hf hm _ _ hp) hv)
    · split at hg
      · rename_i k2 y hp2
        obtain ⟨v, hv, hg⟩ := bind_eq_ok hg
        cases hg
        obtain ⟨rb', rfl, _, h'⟩ := prev2_some h hp hp2
        refine ⟨_, (h'.add (.push .real (numRes v))).add (.push k1 x), rfl, rfl, ?_⟩
        have := tail_sim e rb'.reverse _ _ (rule_makeRealLeft e k k1 k2 x y v (hf _ _ hp2) hv)
        simpa using this
      · cases hg
        exact good_add e h _ _
    · cases hg
      exact good_add e h _ _
  · cases hg
    exact good_add e h _ _

/-- One call of a generator function. -/
theorem gen_good (e : Env ω) {rc : List CItem} {g g' : Gen} {rb : List Instr} {i : Instr} (h : Open g rc rb)
    (hf : Fits e g i) (hg : gen e g i = .ok g') : Good e g rc rb i (keeps i) g' := by
  unfold gen at hg
  split at hg
  · cases hg
    unfold genPushLocalPtr
    split
    · rename_i hp hp2
      split
      · rename_i ho
        subst ho
        exact good_replace2 e h hp hp2 _ (rule_pushLocalPtrZero e _ _)
      · exact good_add e h _ _
    · exact good_add e h _ _
  · cases hg
    unfold genPushReg
    split
    · rename_i hp
      split
      · rename_i ho
        subst ho
        exact good_remove e h hp (rule_pushSelf e)
      · exact good_add e h _ _
    · exact good_add e h _ _
  · cases hg
    unfold genPushZero
    split
    · rename_i hp
      exact good_replace e h hp _ (rule_pushZero e _ _)
    · exact good_add e h _ _
  · split at hg
    · rename_i hn
      subst hn
      cases hg
      unfold genPop
      split
      · rename_i hp
        exact good_replace e h hp _ (rule_pop e _)
      · exact good_add e h _ _
    · cases hg
      exact good_add e h _ _
  · cases hg
    unfold genPopReg
    split
    · rename_i hp
      split
      · rename_i ho
        subst ho
        exact good_remove e h hp (rule_popReg e _)
      · exact good_add e h _ _
    · exact good_add e h _ _
  · cases hg
    unfold genSwapAssign
    split
    · rename_i hp
      exact good_replace e h hp _ (rule_swapAssign e _ _)
    · exact good_add e h _ _
  · rename_i tok t
    cases hg
    unfold genRefCnt
    split
    · split
      · rename_i p hp _
        obtain ⟨rb', rfl, h'⟩ := prev_some h hp
        refine good_skip e h fun t => ?_
        have := tail_sim e rb'.reverse _ _ (rule_refCnt_static e tok .ptr (.inl rfl) p (hf.1 p hp)) t
        simpa using this
      · rename_i p hp _
        obtain ⟨rb', rfl, h'⟩ := prev_some h hp
        refine good_skip e h fun t => ?_
        have := tail_sim e rb'.reverse _ _ (rule_refCnt_static e tok .str (.inr rfl) p (hf.1 p hp)) t
        simpa using this
      · rename_i off size hp _
        split
        · rename_i hs
          obtain ⟨rb', rfl, h'⟩ := prev_some h hp
          refine good_skip e h fun s => ?_
          have := tail_sim e rb'.reverse _ _ (rule_refCnt_zeroed e tok _ hs off size (hf.2 _ _ hp)) s
          simpa using this
        · exact good_add e h _ _
      · exact good_add e h _ _
    · rename_i hc
      refine good_skip e h fun s => ?_
      have := tail_sim e rb.reverse _ _ (rule_refCnt_plain e tok t (by simpa using hc)) s
      simpa using this
  · cases hg
    exact genDeref_good e _ _ h
  · cases hg
    exact genGetFieldPtr_good e _ h
  · exact genGetArrayPtr_good e _ _ h hf hg
  · unfold genUnary at hg
    split at hg
    · rename_i hp
      obtain ⟨v, hv, hg⟩ := bind_eq_ok hg
      cases hg
      exact good_replace e h hp _ (rule_unary e _ _ _ _ _ hv)
    · cases hg
      exact good_add e h _ _
  · unfold genBinary at hg
    split at hg
    · rename_i hp hp2
      split at hg
      · rename_i hk
        obtain ⟨v, hv, hg⟩ := bind_eq_ok hg
        cases hg
        exact good_replace2 e h hp hp2 _ (rule_binary e _ _ _ _ _ hk _ _ _ hv)
      · cases hg
        exact good_add e h _ _
    · cases hg
      exact good_add e h _ _
  · exact genCallBuiltin_good e _ _ h hf hg
  · cases hg
    exact good_add e h _ _

end Umka.Peephole
