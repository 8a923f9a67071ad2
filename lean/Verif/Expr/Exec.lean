import Verif.Expr.Lemmas

/-!
# Expressions: the code of a tree evaluates it
-/

namespace Umka.Expr
open Umka.Arith (Kind UnOp BinOp)
open Spec (Ty Tok Ops Env Tree typeOf tyOf common Integer unaryFor binaryFor convertible isRel eval andThen operand convert)

variable {E V σ : Type}

/-- The instructions `l` are in the code from position `p` on. -/
def At (code : List (Instr V)) (p : Nat) (l : List (Instr V)) : Prop := ∀ i, i < l.length → code[p + i]? = l[i]?

theorem At.left {code l m : List (Instr V)} {p : Nat} (h : At code p (l ++ m)) : At code p l := by
  intro i hi
  rw [h i (by rw [List.length_append]; omega), List.getElem?_append_left hi]

theorem At.right {code l m : List (Instr V)} {p : Nat} (h : At code p (l ++ m)) : At code (p + l.length) m := by
  intro i hi
  have := h (l.length + i) (by rw [List.length_append]; omega)
  rw [List.getElem?_append_right (by omega)] at this
  rw [Nat.add_assoc, this]
  congr 1
  omega

theorem At.head {code l : List (Instr V)} {p : Nat} {i : Instr V} (h : At code p (i :: l)) : code[p]? = some i :=
  h 0 (by simp)

theorem At.tail {code l : List (Instr V)} {p : Nat} {i : Instr V} (h : At code p (i :: l)) : At code (p + 1) l :=
  At.right (l := [i]) h

theorem at_append (pre l post : List (Instr V)) : At (pre ++ l ++ post) pre.length l := by
  intro i hi
  rw [List.append_assoc, List.getElem?_append_right (by omega), List.getElem?_append_left (by omega)]
  congr 1
  omega

def Reach (ops : Ops E V) (env : Env E V σ) (code : List (Instr V)) (c c' : Cfg V σ) : Prop :=
  ∃ n, run ops env code n c = .next c'

def Fails (ops : Ops E V) (env : Env E V σ) (code : List (Instr V)) (c : Cfg V σ) (s : σ) (e : E) : Prop :=
  ∃ n, run ops env code n c = .error s e

theorem run_add (ops : Ops E V) (env : Env E V σ) (code : List (Instr V)) : ∀ m n c c',
    run ops env code m c = .next c' → run ops env code (m + n) c = run ops env code n c'
  | 0, n, c, c', h => by injection h with h; rw [h, Nat.zero_add]
  | m + 1, n, c, c', h => by
    rw [Nat.add_right_comm, run]
    rw [run] at h
    cases hs : step ops env code c with
    | next d =>
      rw [hs] at h
      exact run_add ops env code m n d c' h
    | error s e => rw [hs] at h; exact nomatch h
    | stuck => rw [hs] at h; exact nomatch h

variable {ops : Ops E V} {env : Env E V σ} {code : List (Instr V)}

theorem Reach.refl (c : Cfg V σ) : Reach ops env code c c := ⟨0, rfl⟩

theorem Reach.trans {a b c : Cfg V σ} (h : Reach ops env code a b) (h' : Reach ops env code b c) :
    Reach ops env code a c := by
  obtain ⟨m, hm⟩ := h
  obtain ⟨n, hn⟩ := h'
  exact ⟨m + n, (run_add ops env code m n a b hm).trans hn⟩

theorem Reach.fails {a b : Cfg V σ} {s : σ} {e : E} (h : Reach ops env code a b) (h' : Fails ops env code b s e) :
    Fails ops env code a s e := by
  obtain ⟨m, hm⟩ := h
  obtain ⟨n, hn⟩ := h'
  exact ⟨m + n, (run_add ops env code m n a b hm).trans hn⟩

theorem reach_one {a b : Cfg V σ} (h : step ops env code a = .next b) : Reach ops env code a b :=
  ⟨1, by rw [run, h]; rfl⟩

theorem fails_one {a : Cfg V σ} {s : σ} {e : E} (h : step ops env code a = .error s e) : Fails ops env code a s e :=
  ⟨1, by rw [run, h]⟩

/-- From `c` on, the machine puts the value on the stack and arrives at `q`, or fails. -/
def Does (ops : Ops E V) (env : Env E V σ) (code : List (Instr V)) (p : Nat) (stk : List V) (s : σ) (q : Nat)
    (out : σ × Except E V) : Prop :=
  match out.2 with
  | .ok v => Reach ops env code ⟨p, stk, s⟩ ⟨q, v :: stk, out.1⟩
  | .error e => Fails ops env code ⟨p, stk, s⟩ out.1 e

theorem Does.bind {p q r : Nat} {stk stk' : List V} {s : σ} {out : σ × Except E V} {f : σ → V → σ × Except E V}
    (h : Does ops env code p stk s q out)
    (h' : ∀ s' v, out = (s', .ok v) →
      match (f s' v).2 with
      | .ok w => Reach ops env code ⟨q, v :: stk, s'⟩ ⟨r, w :: stk', (f s' v).1⟩
      | .error e => Fails ops env code ⟨q, v :: stk, s'⟩ (f s' v).1 e) :
    match (andThen out f).2 with
    | .ok w => Reach ops env code ⟨p, stk, s⟩ ⟨r, w :: stk', (andThen out f).1⟩
    | .error e => Fails ops env code ⟨p, stk, s⟩ (andThen out f).1 e := by
  obtain ⟨s', o⟩ := out
  cases o with
  | error e => exact h
  | ok v =>
    have h2 := h' s' v rfl
    show match (f s' v).2 with
      | .ok w => Reach ops env code ⟨p, stk, s⟩ ⟨r, w :: stk', (f s' v).1⟩
      | .error e => Fails ops env code ⟨p, stk, s⟩ (f s' v).1 e
    cases hf : (f s' v).2 with
    | ok w =>
      rw [hf] at h2
      exact Reach.trans h h2
    | error e =>
      rw [hf] at h2
      exact Reach.fails h h2

/-- Code that takes one value. -/
theorem step_unary {p : Nat} {op : UnOp} {t : Ty} (h : code[p]? = some (.unary op t)) (v : V) (stk : List V) (s : σ) :
    match ops.unary op t v with
    | .ok w => Reach ops env code ⟨p, v :: stk, s⟩ ⟨p + 1, w :: stk, s⟩
    | .error e => Fails ops env code ⟨p, v :: stk, s⟩ s e := by
  cases ho : ops.unary op t v with
  | ok w => exact reach_one (by simp only [step, h, ofRes, ho, advance])
  | error e => exact fails_one (by simp only [step, h, ofRes, ho])

theorem step_binary {p : Nat} {op : BinOp} {t : Ty} (h : code[p]? = some (.binary op t)) (v w : V) (stk : List V) (s : σ) :
    match ops.binary op t v w with
    | .ok x => Reach ops env code ⟨p, w :: v :: stk, s⟩ ⟨p + 1, x :: stk, s⟩
    | .error e => Fails ops env code ⟨p, w :: v :: stk, s⟩ s e := by
  cases ho : ops.binary op t v w with
  | ok w => exact reach_one (by simp only [step, h, ofRes, ho, advance])
  | error e => exact fails_one (by simp only [step, h, ofRes, ho])

/-- The conversion of operands. -/
theorem convOps_reach {p : Nat} {ta tb t : Ty} (hc : common ta tb = some t) (h : At code p (convOps ta tb)) (v w : V)
    (stk : List V) (s : σ) :
    Reach ops env code ⟨p, w :: v :: stk, s⟩
      ⟨p + (convOps ta tb : List (Instr V)).length, operand ops t tb w :: operand ops t ta v :: stk, s⟩ := by
  cases ta with
  | real =>
    cases tb with
    | real =>
      have : t = .real := by injection hc with hc; exact hc.symm
      subst this
      exact Reach.refl _
    | ord k =>
      have : t = .real := by
        cases k <;> first | (injection hc with hc; exact hc.symm) | exact nomatch hc
      subst this
      have h0 := h.head
      exact reach_one (by simp only [step, h0, advance]; rfl)
  | ord j =>
    cases tb with
    | real =>
      have : t = .real := by
        cases j <;> first | (injection hc with hc; exact hc.symm) | exact nomatch hc
      subst this
      have h0 := h.head
      exact reach_one (by simp only [step, h0, advance]; rfl)
    | ord k =>
      have : t = .ord j := by
        cases j <;> cases k <;> first | (injection hc with hc; exact hc.symm) | exact nomatch hc
      subst this
      exact Reach.refl _

/-- The conversion of the third operand of `? :`. -/
theorem convElse_does {p : Nat} {ta tb : Ty} (hc : convertible ta tb) (h : At code p (convElse ta tb)) (w : V)
    (stk : List V) (s : σ) :
    match convert ops ta tb w with
    | .ok x => Reach ops env code ⟨p, w :: stk, s⟩ ⟨p + (convElse ta tb : List (Instr V)).length, x :: stk, s⟩
    | .error e => Fails ops env code ⟨p, w :: stk, s⟩ s e := by
  cases ta with
  | real =>
    cases tb with
    | real => exact Reach.refl _
    | ord k =>
      have h0 := h.head
      exact reach_one (by simp only [step, h0, advance]; rfl)
  | ord j =>
    cases tb with
    | real =>
      exfalso
      cases j <;> simp [convertible, Integer] at hc
    | ord k =>
      by_cases hr : (j = .uint ∧ k ∈ [Kind.int8, .int16, .int32, .int]) ∨ (j ∈ [Kind.int8, .int16, .int32, .int] ∧ k = .uint)
      · have e1 : convert ops (.ord j) (.ord k) w = ops.assertRange j k w := if_pos hr
        have e2 : (convElse (.ord j) (.ord k) : List (Instr V)) = [.assertRange j k] := if_pos hr
        rw [e1, e2]
        rw [e2] at h
        have h0 := h.head
        cases ho : ops.assertRange j k w with
        | ok x => exact reach_one (by simp only [step, h0, ofRes, ho, advance]; rfl)
        | error e => exact fails_one (by simp only [step, h0, ofRes, ho])
      · have e1 : convert ops (.ord j) (.ord k) w = .ok w := if_neg hr
        have e2 : (convElse (.ord j) (.ord k) : List (Instr V)) = [] := if_neg hr
        rw [e1, e2]
        exact Reach.refl _

theorem typed_un {op : UnOp} {a : Tree} {t : Ty} (h : typeOf env (.un op a) = some t) : ∃ ta, typeOf env a = some ta := by
  cases ha : typeOf env a with
  | none => simp [typeOf, ha] at h
  | some ta => exact ⟨ta, rfl⟩

theorem typed_bin {op : BinOp} {a b : Tree} {t : Ty} (h : typeOf env (.bin op a b) = some t) :
    ∃ ta tb tc, typeOf env a = some ta ∧ typeOf env b = some tb ∧ common ta tb = some tc := by
  cases ha : typeOf env a with
  | none => simp [typeOf, ha] at h
  | some ta =>
    cases hb : typeOf env b with
    | none => simp [typeOf, ha, hb] at h
    | some tb =>
      cases hc : common ta tb with
      | none => simp [typeOf, ha, hb, hc] at h
      | some tc => exact ⟨ta, tb, tc, rfl, rfl, hc⟩

theorem typed_and {a b : Tree} {t : Ty} (h : typeOf env (.and a b) = some t) :
    ∃ ta tb, typeOf env a = some ta ∧ typeOf env b = some tb := by
  cases ha : typeOf env a with
  | none => simp [typeOf, ha] at h
  | some ta =>
    cases hb : typeOf env b with
    | none => simp [typeOf, ha, hb] at h
    | some tb => exact ⟨ta, tb, rfl, rfl⟩

theorem typed_or {a b : Tree} {t : Ty} (h : typeOf env (.or a b) = some t) :
    ∃ ta tb, typeOf env a = some ta ∧ typeOf env b = some tb := by
  cases ha : typeOf env a with
  | none => simp [typeOf, ha] at h
  | some ta =>
    cases hb : typeOf env b with
    | none => simp [typeOf, ha, hb] at h
    | some tb => exact ⟨ta, tb, rfl, rfl⟩

theorem typed_tern {c a b : Tree} {t : Ty} (h : typeOf env (.tern c a b) = some t) :
    ∃ tc ta tb, typeOf env c = some tc ∧ typeOf env a = some ta ∧ typeOf env b = some tb ∧ convertible ta tb := by
  cases hc : typeOf env c with
  | none => simp [typeOf, hc] at h
  | some tc =>
    cases ha : typeOf env a with
    | none => simp [typeOf, hc, ha] at h
    | some ta =>
      cases hb : typeOf env b with
      | none => simp [typeOf, hc, ha, hb] at h
      | some tb =>
        refine ⟨tc, ta, tb, rfl, rfl, rfl, ?_⟩
        by_cases hv : tc = .bool ∧ convertible ta tb
        · exact hv.2
        · simp [typeOf, hc, ha, hb, hv] at h

/-- The code of a tree evaluates it. -/
theorem gen_does : ∀ (e : Tree) (t : Ty) (p : Nat) (stk : List V) (s : σ), typeOf env e = some t →
    At code p (gen ops env e p) →
    Does ops env code p stk s (p + (gen ops env e p).length) (eval ops env e s)
  | .ident i, t, p, stk, s, _, h => by
    have h0 : code[p]? = some (.desig i) := h.head
    unfold Does
    rw [eval]
    cases ho : (env.read i s).2 with
    | ok v => exact reach_one (by simp only [step, h0, ofRes, ho, advance]; rfl)
    | error e => exact fails_one (by simp only [step, h0, ofRes, ho])
  | .int n, t, p, stk, s, _, h => by
    have h0 : code[p]? = some (.push (ops.intLit n)) := h.head
    exact reach_one (by simp only [step, h0, advance]; rfl)
  | .realNum n, t, p, stk, s, _, h => by
    have h0 : code[p]? = some (.push (ops.realLit n)) := h.head
    exact reach_one (by simp only [step, h0, advance]; rfl)
  | .char n, t, p, stk, s, _, h => by
    have h0 : code[p]? = some (.push (ops.charLit n)) := h.head
    exact reach_one (by simp only [step, h0, advance]; rfl)
  | .un op a, t, p, stk, s, ht, h => by
    obtain ⟨ta, hta⟩ := typed_un ht
    rw [gen] at h
    have h0 := h.right.head
    refine Does.bind (gen_does a ta p stk s hta h.left) ?_
    intro s' v _
    rw [gen, List.length_append]
    exact step_unary h0 v stk s'
  | .bin op a b, t, p, stk, s, ht, h => by
    obtain ⟨ta, tb, tc, hta, htb, hc⟩ := typed_bin ht
    rw [gen] at h
    have ea : tyOf env a = ta := by simp [tyOf, hta]
    have eb : tyOf env b = tb := by simp [tyOf, htb]
    rw [ea, eb, hc, Option.getD_some] at h
    have h0 := h.right.head
    unfold Does
    rw [eval]
    rw [ea, eb, hc, Option.getD_some]
    refine Does.bind (gen_does a ta p stk s hta h.left.left.left) ?_
    intro s' v _
    refine Does.bind (gen_does b tb _ (v :: stk) s' htb h.left.left.right) ?_
    intro s'' w _
    have hconv := convOps_reach (ops := ops) (env := env) hc h.left.right v w stk s''
    rw [List.length_append] at hconv
    rw [← Nat.add_assoc] at hconv
    have hb := step_binary (ops := ops) (env := env) h0 (operand ops tc ta v) (operand ops tc tb w) stk s''
    have hlen : p + (gen ops env (.bin op a b) p).length =
        p + (gen ops env a p ++ gen ops env b (p + (gen ops env a p).length) ++ convOps ta tb).length + 1 := by
      rw [gen]
      rw [ea, eb]
      simp [Nat.add_assoc]
    rw [hlen]
    have hl2 : p + (gen ops env a p ++ gen ops env b (p + (gen ops env a p).length) ++ convOps ta tb).length =
        p + (gen ops env a p).length + (gen ops env b (p + (gen ops env a p).length)).length +
          (convOps ta tb : List (Instr V)).length := by
      simp [Nat.add_assoc]
    rw [hl2] at hb ⊢
    dsimp only
    cases ho : ops.binary op tc (operand ops tc ta v) (operand ops tc tb w) with
    | ok x => rw [ho] at hb; exact hconv.trans hb
    | error e => rw [ho] at hb; exact hconv.fails hb
  | .and a b, t, p, stk, s, ht, h => by
    obtain ⟨ta, tb, hta, htb⟩ := typed_and ht
    rw [gen] at h
    have hd := h.left.right.head
    have hg := h.left.right.tail.head
    have hp := h.left.right.tail.tail.head
    have hb := h.right
    have hlen : p + (gen ops env (.and a b) p).length =
        p + (gen ops env a p).length + 3 + (gen ops env b (p + (gen ops env a p).length + 3)).length := by
      rw [gen]
      simp only [List.length_append, List.length_cons, List.length_nil]
      omega
    have hl2 : p + (gen ops env a p ++ [Instr.dup, Instr.gotoIfNot (p + (gen ops env a p).length + 3 +
        (gen ops env b (p + (gen ops env a p).length + 3)).length), Instr.pop]).length =
        p + (gen ops env a p).length + 3 := by
      simp [Nat.add_assoc]
    rw [hl2] at hb
    rw [hlen]
    refine Does.bind (gen_does a ta p stk s hta h.left.left) ?_
    intro s' v _
    have r1 : Reach ops env code ⟨p + (gen ops env a p).length, v :: stk, s'⟩
        ⟨p + (gen ops env a p).length + 1, v :: v :: stk, s'⟩ :=
      reach_one (by simp only [step, hd, advance])
    cases hv : ops.truth v with
    | true =>
      rw [if_pos rfl]
      have r2 : Reach ops env code ⟨p + (gen ops env a p).length + 1, v :: v :: stk, s'⟩
          ⟨p + (gen ops env a p).length + 1 + 1, v :: stk, s'⟩ :=
        reach_one (by simp only [step, hg, hv, if_true, advance])
      have r3 : Reach ops env code ⟨p + (gen ops env a p).length + 1 + 1, v :: stk, s'⟩
          ⟨p + (gen ops env a p).length + 3, stk, s'⟩ :=
        reach_one (by simp only [step, hp, advance])
      have r := (r1.trans r2).trans r3
      have hd := gen_does b tb (p + (gen ops env a p).length + 3) stk s' htb hb
      unfold Does at hd
      cases ho : (eval ops env b s').2 with
      | ok x => rw [ho] at hd; exact r.trans hd
      | error e => rw [ho] at hd; exact r.fails hd
    | false =>
      rw [if_neg Bool.noConfusion]
      exact r1.trans (reach_one (by simp only [step, hg, hv, if_false, Bool.false_eq_true]))
  | .or a b, t, p, stk, s, ht, h => by
    obtain ⟨ta, tb, hta, htb⟩ := typed_or ht
    rw [gen] at h
    have hd := h.left.right.head
    have hg := h.left.right.tail.head
    have hp := h.left.right.tail.tail.head
    have hb := h.right
    have hlen : p + (gen ops env (.or a b) p).length =
        p + (gen ops env a p).length + 3 + (gen ops env b (p + (gen ops env a p).length + 3)).length := by
      rw [gen]
      simp only [List.length_append, List.length_cons, List.length_nil]
      omega
    have hl2 : p + (gen ops env a p ++ [Instr.dup, Instr.gotoIf (p + (gen ops env a p).length + 3 +
        (gen ops env b (p + (gen ops env a p).length + 3)).length), Instr.pop]).length =
        p + (gen ops env a p).length + 3 := by
      simp [Nat.add_assoc]
    rw [hl2] at hb
    rw [hlen]
    refine Does.bind (gen_does a ta p stk s hta h.left.left) ?_
    intro s' v _
    have r1 : Reach ops env code ⟨p + (gen ops env a p).length, v :: stk, s'⟩
        ⟨p + (gen ops env a p).length + 1, v :: v :: stk, s'⟩ :=
      reach_one (by simp only [step, hd, advance])
    cases hv : ops.truth v with
    | false =>
      rw [if_neg Bool.noConfusion]
      have r2 : Reach ops env code ⟨p + (gen ops env a p).length + 1, v :: v :: stk, s'⟩
          ⟨p + (gen ops env a p).length + 1 + 1, v :: stk, s'⟩ :=
        reach_one (by simp only [step, hg, hv, if_false, advance, Bool.false_eq_true])
      have r3 : Reach ops env code ⟨p + (gen ops env a p).length + 1 + 1, v :: stk, s'⟩
          ⟨p + (gen ops env a p).length + 3, stk, s'⟩ :=
        reach_one (by simp only [step, hp, advance])
      have r := (r1.trans r2).trans r3
      have hd := gen_does b tb (p + (gen ops env a p).length + 3) stk s' htb hb
      unfold Does at hd
      cases ho : (eval ops env b s').2 with
      | ok x => rw [ho] at hd; exact r.trans hd
      | error e => rw [ho] at hd; exact r.fails hd
    | true =>
      rw [if_pos rfl]
      exact r1.trans (reach_one (by simp only [step, hg, hv, if_true]))
  | .tern c a b, t, p, stk, s, ht, h => by
    obtain ⟨tc, ta, tb, htc, hta, htb, hconv⟩ := typed_tern ht
    have ea : tyOf env a = ta := by simp [tyOf, hta]
    have eb : tyOf env b = tb := by simp [tyOf, htb]
    rw [gen] at h
    rw [ea, eb] at h
    have hg := h.left.left.left.right.head
    have ha := h.left.left.right
    have hj := h.left.right.head
    have hb := h.right
    have hlen : p + (gen ops env (.tern c a b) p).length =
        p + (gen ops env c p).length + (gen ops env a (p + (gen ops env c p).length + 1)).length + 2 +
          (gen ops env b (p + (gen ops env c p).length + (gen ops env a (p + (gen ops env c p).length + 1)).length + 2) ++
            convElse ta tb).length := by
      rw [gen]
      simp only [ea, eb, List.length_append, List.length_cons, List.length_nil]
      omega
    rw [hlen]
    generalize hq : p + (gen ops env c p).length + (gen ops env a (p + (gen ops env c p).length + 1)).length + 2 +
          (gen ops env b (p + (gen ops env c p).length + (gen ops env a (p + (gen ops env c p).length + 1)).length + 2) ++
            (convElse ta tb : List (Instr V))).length = q at h hj hb ⊢
    simp only [List.length_append, List.length_cons, List.length_nil, Nat.zero_add] at ha hj hb
    rw [← Nat.add_assoc] at ha hj hb
    refine Does.bind (gen_does c tc p stk s htc h.left.left.left.left) ?_
    intro s' v _
    cases hv : ops.truth v with
    | true =>
      rw [if_pos rfl]
      have r1 : Reach ops env code ⟨p + (gen ops env c p).length, v :: stk, s'⟩
          ⟨p + (gen ops env c p).length + 1, stk, s'⟩ :=
        reach_one (by simp only [step, hg, hv, if_true, advance])
      have hd := gen_does a ta (p + (gen ops env c p).length + 1) stk s' hta ha
      unfold Does at hd
      cases ho : (eval ops env a s').2 with
      | ok x =>
        rw [ho] at hd
        refine (r1.trans hd).trans (reach_one ?_)
        have hj' : code[p + (gen ops env c p).length + 1 + (gen ops env a (p + (gen ops env c p).length + 1)).length]? =
            some (Instr.goto q) := by
          rw [← hj]
          congr 1
        simp only [step, hj']
      | error e => rw [ho] at hd; exact r1.fails hd
    | false =>
      rw [if_neg Bool.noConfusion]
      have r1 : Reach ops env code ⟨p + (gen ops env c p).length, v :: stk, s'⟩
          ⟨p + (gen ops env c p).length + (gen ops env a (p + (gen ops env c p).length + 1)).length + 2, stk, s'⟩ :=
        reach_one (by simp only [step, hg, hv, if_false, Bool.false_eq_true])
      have hb' : At code (p + (gen ops env c p).length + (gen ops env a (p + (gen ops env c p).length + 1)).length + 2)
          (gen ops env b (p + (gen ops env c p).length + (gen ops env a (p + (gen ops env c p).length + 1)).length + 2) ++
            convElse ta tb) := by
        intro i hi
        rw [← hb i hi]
        congr 1
        omega
      have hd := gen_does b tb _ stk s' htb hb'.left
      rw [ea, eb]
      have hd' := Does.bind (r := q) (stk' := stk) (f := fun s w => (s, convert ops ta tb w)) hd (by
        intro s'' w _
        have := convElse_does (ops := ops) (env := env) hconv hb'.right w stk s''
        have hq' := hq
        rw [List.length_append, ← Nat.add_assoc] at hq'
        rw [hq'] at this
        exact this)
      cases ho : (andThen (eval ops env b s') fun s w => (s, convert ops ta tb w)).2 with
      | ok x => rw [ho] at hd'; exact r1.trans hd'
      | error e => rw [ho] at hd'; exact r1.fails hd'

end Umka.Expr
