import Verif.Call.Lemmas

namespace Umka.Call
open Spec

variable {τ : Type} {cal : Int → Callee}

/-- The parameter of the signature for a declared parameter. -/
def Formal.pty (f : Formal τ) : PTy τ := if f.variadic then .variadic f.ty else .plain f.ty

/-- Only the last parameter is variadic, and default values are at the end. -/
def WF : List (Formal τ) → Prop
  | [] => True
  | f :: fs => (f.variadic = true → fs = [] ∧ f.default = none) ∧ WF fs

/-- The parameters from `i` on are those of `fs`, followed by those in `tail`. -/
def Rest (sig : Sig τ) (i : Nat) (fs : List (Formal τ)) (tail : List (Param τ)) : Prop :=
  (sig.params.drop i).map (fun p => (p.ty, p.default)) = fs.map (fun f => (Formal.pty f, f.default.getD 0)) ++ tail.map fun p => (p.ty, p.default)

theorem Rest.next {sig : Sig τ} {i : Nat} {f : Formal τ} {fs : List (Formal τ)} {tail : List (Param τ)} (h : Rest sig i (f :: fs) tail) :
    (∃ p, sig.params[i]? = some p ∧ p.ty = Formal.pty f ∧ p.default = f.default.getD 0) ∧ Rest sig (i + 1) fs tail := by
  unfold Rest at h ⊢
  cases hd : sig.params.drop i with
  | nil => rw [hd] at h; cases h
  | cons p ps =>
    rw [hd] at h
    have hi : sig.params[i]? = some p := by
      have := congrArg List.head? hd
      rwa [List.head?_drop] at this
    have hd1 : sig.params.drop (i + 1) = ps := by
      rw [← List.drop_drop, hd]; rfl
    simp only [List.map_cons, List.cons_append, List.cons.injEq, Prod.mk.injEq] at h
    exact ⟨⟨p, hi, h.1.1, h.1.2⟩, by rw [hd1]; exact h.2⟩

theorem Rest.len {sig : Sig τ} {i : Nat} {fs : List (Formal τ)} {tail : List (Param τ)} (h : Rest sig i fs tail) :
    sig.params.length - i = fs.length + tail.length := by
  have := congrArg List.length h
  simpa using this

theorem evalSources_append (env : Env τ) : ∀ (xs ys : List (Source τ)) (w : World),
    evalSources env (xs ++ ys) w = (evalSources env xs w).bind fun q => (evalSources env ys q.1).map fun r => (r.1, q.2 ++ r.2)
  | [], ys, w => by simp [evalSources]
  | x :: xs, ys, w => by
    simp only [List.cons_append, evalSources, Option.bind_eq_bind]
    cases evalSource env w x with
    | none => rfl
    | some q =>
      simp only [Option.bind_some]
      rw [evalSources_append env xs ys q.1]
      cases evalSources env xs q.1 with
      | none => rfl
      | some r =>
        simp only [Option.bind_some]
        cases evalSources env ys r.1 <;> rfl

/-- What the stack holds after the parameters with the words `wss`: the last one is on top. -/
def pushed (wss : List (List Int)) : List Int := wss.reverse.flatten

theorem pushed_cons (ws : List Int) (wss : List (List Int)) (st : List Int) : pushed (ws :: wss) ++ st = pushed wss ++ (ws ++ st) := by
  simp [pushed, List.append_assoc]

theorem genPass_run (ty : Ty) (w : World) (v : Int) (st : List Int) :
    run cal (genPass ty) ⟨w, v :: st⟩ = some ⟨w, words w.mem ty v ++ st⟩ := by
  cases ty <;> rfl

theorem SameOutside.rfl' (lo hi : Nat) (w : World) : SameOutside lo hi w w := ⟨rfl, rfl, rfl, fun _ _ => rfl⟩

/-- What the loop over the arguments does: it stops at parameter `i'`, with the parameters `fs'` left over. -/
structure Passed (env : Env τ) (cal : Int → Callee) (lo hi : Nat) (fs : List (Formal τ)) (args : List (Arg τ)) (fs' : List (Formal τ))
    (ss : List (Source τ)) (code : List Instr) (w : World) : Prop where
  src : sources env fs args = (sources env fs' []).map (ss ++ ·)
  fail : evalSources env ss w = none → ∀ st, run cal code ⟨w, st⟩ = none
  pass : ∀ w1 wss, evalSources env ss w = some (w1, wss) → ∀ st,
    ∃ w2, run cal code ⟨w, st⟩ = some ⟨w2, pushed wss ++ st⟩ ∧ SameOutside lo hi w1 w2 ∧ (fs' ≠ [] → w2 = w1)

theorem genArgs_ge {env : Env τ} {sig : Sig τ} : ∀ {args : List (Arg τ)} {i top : Nat} {code : List Instr} {i' top' : Nat},
    genArgs env sig args i top = .ok (code, i', top') → top ≤ top'
  | [], i, top, code, i', top', h => by
    injection h with h; injection h with h1 h; injection h with h2 h; omega
  | a :: as, i, top, code, i', top', h => by
    rw [genArgs] at h
    by_cases hi : i + post sig > sig.params.length - 1
    · rw [if_pos hi] at h; cases h
    · rw [if_neg hi] at h
      cases hp : ptyAt sig i with
      | none => rw [hp] at h; cases h
      | some p =>
        rw [hp] at h
        cases p with
        | upvalues => cases h
        | receiver => cases h
        | result => cases h
        | plain t =>
          dsimp only at h
          cases hc : genArg env t a with
          | error e => rw [hc] at h; cases h
          | ok c =>
            cases hr : genArgs env sig as (i + 1) top with
            | error e => rw [hc, hr] at h; cases h
            | ok r =>
              rw [hc, hr] at h
              injection h with h; injection h with h1 h; injection h with h2 h
              have := genArgs_ge (code := r.1) (i' := r.2.1) (top' := r.2.2) hr
              have h : r.2.2 = top' := h
              omega
        | variadic t =>
          dsimp only at h
          by_cases hs : env.spread t a.ty = true
          · rw [if_pos hs] at h
            cases hr : genArgs env sig as (i + 1) top with
            | error e => rw [hr] at h; cases h
            | ok r =>
              rw [hr] at h
              injection h with h; injection h with h1 h; injection h with h2 h
              have := genArgs_ge (code := r.1) (i' := r.2.1) (top' := r.2.2) hr
              have h : r.2.2 = top' := h
              omega
          · rw [if_neg hs] at h
            cases hr : genList env top t (a :: as) with
            | error e => rw [hr] at h; cases h
            | ok r =>
              rw [hr] at h
              injection h with h; injection h with h1 h; injection h with h2 h
              unfold genList at hr
              cases hg : genItems env t (a :: as) with
              | error e => rw [hg] at hr; cases hr
              | ok g =>
                rw [hg] at hr
                injection hr with hr
                have hr2 := congrArg Prod.snd hr
                dsimp only at hr2
                omega

theorem genArgs_run {env : Env τ} {sig : Sig τ} {tail : List (Param τ)} (htail : tail.length = post sig) {lo hi : Nat} :
    ∀ {args : List (Arg τ)} {i top : Nat} {code : List Instr} {i' top' : Nat} {fs : List (Formal τ)},
    genArgs env sig args i top = .ok (code, i', top') → lo = top → top' ≤ hi → WF fs → Rest sig i fs tail → i ≤ sig.params.length → 
    (∀ a ∈ args, ArgOk env lo hi a) →
    ∃ fs' ss, Rest sig i' fs' tail ∧ fs' <:+ fs ∧ i' ≤ sig.params.length ∧ ∀ w : World, hi ≤ w.brk → Passed env cal lo hi fs args fs' ss code w
  | [], i, top, code, i', top', fs, h, hlo, hhi, hwf, hrest, hle, hok => by
    injection h with h; injection h with h1 h; injection h with h2 h
    subst h1 h2
    refine ⟨fs, [], hrest, List.suffix_refl _, hle, fun w _ => ⟨?_, fun h => (nomatch h), ?_⟩⟩
    · simp
    · intro w1 wss he st
      injection he with he; injection he with h1 h2
      subst h1 h2
      exact ⟨w, rfl, SameOutside.rfl' .., fun _ => rfl⟩
  | a :: as, i, top, code, i', top', fs, h, hlo, hhi, hwf, hrest, hle, hok => by
    rw [genArgs] at h
    by_cases hi' : i + post sig > sig.params.length - 1
    · rw [if_pos hi'] at h; cases h
    · rw [if_neg hi'] at h
      have hlen := hrest.len
      cases hfs : fs with
      | nil =>
        subst hfs
        simp only [List.length_nil] at hlen
        cases hp : ptyAt sig i with
        | none => rw [hp] at h; cases h
        | some p =>
          have : i < sig.params.length := by
            unfold ptyAt at hp
            cases hg : sig.params[i]? with
            | none => rw [hg] at hp; cases hp
            | some x => exact (List.getElem?_eq_some_iff.1 hg).1
          omega
      | cons f fs0 =>
        subst hfs
        obtain ⟨⟨p, hp, hpt, hpd⟩, hrest'⟩ := hrest.next
        have hlt : i < sig.params.length := (List.getElem?_eq_some_iff.1 hp).1
        have hpty : ptyAt sig i = some (Formal.pty f) := by rw [ptyAt, hp, Option.map_some, hpt]
        rw [hpty] at h
        cases hv : f.variadic with
        | false =>
          simp only [Formal.pty, hv] at h
          simp only [Bool.false_eq_true, if_false] at h
          cases hc : genArg env f.ty a with
          | error e => rw [hc] at h; cases h
          | ok c =>
            cases hr : genArgs env sig as (i + 1) top with
            | error e => rw [hc, hr] at h; cases h
            | ok r =>
              rw [hc, hr] at h
              injection h with h; injection h with h1 h; injection h with h2 h
              subst h1 h2 h
              obtain ⟨fs', ss, h1, h2, h3, h4⟩ := genArgs_run htail (code := r.1) (i' := r.2.1) (top' := r.2.2) hr hlo hhi hwf.2 hrest' hlt
                (fun a ha => hok a (List.mem_cons_of_mem _ ha))
              refine ⟨fs', .arg f.ty a :: ss, h1, h2.trans (List.suffix_cons ..), h3, fun w hw => ?_⟩
              have hrun := fun st => genArg_run (cal := cal) hc w st
              cases ha : evalArg env f.ty a w with
              | none =>
                refine ⟨?_, fun _ st => ?_, fun w1 wss he => ?_⟩
                · rw [sources, if_neg (by simp [hv]), (h4 w hw).src, Option.map_map]; rfl
                · rw [run_append, hrun, ha]; rfl
                · simp [evalSources, evalSource, ha] at he
              | some q =>
                have hb := (hok a (List.mem_cons_self ..) f.ty w q.1 q.2 ha).1
                have h5 := h4 q.1 (by omega)
                have hrun' : ∀ st, run cal (c ++ (genPass (env.shape f.ty) ++ r.1)) ⟨w, st⟩ =
                    run cal r.1 ⟨q.1, words q.1.mem (env.shape f.ty) q.2 ++ st⟩ := by
                  intro st
                  rw [run_append, hrun, ha, Option.map_some, Option.bind_some, run_append, genPass_run, Option.bind_some]
                refine ⟨?_, fun he st => ?_, fun w1 wss he st => ?_⟩
                · rw [sources, if_neg (by simp [hv]), (h4 w hw).src, Option.map_map]; rfl
                · rw [hrun']
                  apply h5.fail
                  cases he2 : evalSources env ss q.1 with
                  | none => rfl
                  | some r => simp [evalSources, evalSource, ha, he2] at he
                · rw [hrun']
                  cases he2 : evalSources env ss q.1 with
                  | none => simp [evalSources, evalSource, ha, he2] at he
                  | some r =>
                    simp only [evalSources, evalSource, ha, he2, Option.map_some, Option.bind_eq_bind, Option.bind_some, Option.some.injEq,
                      Prod.mk.injEq] at he
                    rw [← he.1, ← he.2, pushed_cons]
                    exact h5.pass r.1 r.2 he2 _
        | true =>
          obtain ⟨hnil, hdef⟩ := hwf.1 hv
          subst hnil
          simp only [Formal.pty, hv, if_true] at h
          by_cases hs : env.spread f.ty a.ty = true
          · rw [if_pos hs] at h
            cases hr : genArgs env sig as (i + 1) top with
            | error e => rw [hr] at h; cases h
            | ok r =>
              rw [hr] at h
              injection h with h; injection h with h1 h; injection h with h2 h
              subst h1 h2 h
              obtain ⟨fs', ss, h1, h2, h3, h4⟩ := genArgs_run htail (code := r.1) (i' := r.2.1) (top' := r.2.2) hr hlo hhi hwf.2 hrest' hlt
                (fun a ha => hok a (List.mem_cons_of_mem _ ha))
              -- no argument can follow
              have has : as = [] := by
                cases as with
                | nil => rfl
                | cons b bs =>
                  rw [genArgs, if_pos (by have := hrest'.len; simp only [List.length_nil] at this; omega)] at hr
                  cases hr
              subst has
              injection hr with hr
              have hr1 : r.1 = [] := by rw [← hr]
              have hr2 : r.2.1 = i + 1 := by rw [← hr]
              refine ⟨[], [.whole a], by rw [hr2]; exact hrest', List.nil_suffix, by omega, fun w hw => ⟨?_, ?_, ?_⟩⟩
              · simp [sources, hv, hs]
              · intro he st
                simp only [run, step]
                cases ha : a.code w with
                | none => rfl
                | some q => simp [evalSources, evalSource, ha] at he
              · intro w1 wss he st
                cases ha : a.code w with
                | none => simp [evalSources, evalSource, ha] at he
                | some q =>
                  simp only [evalSources, evalSource, ha, Option.map_some, Option.bind_eq_bind, Option.bind_some, Option.some.injEq,
                    Prod.mk.injEq] at he
                  refine ⟨q.1, ?_, by rw [← he.1]; exact SameOutside.rfl' .., fun h => absurd rfl h⟩
                  rw [run, step, ha, Option.map_some, Option.bind_some, hr1, List.append_nil, genPass_run, ← he.2]
                  rfl
          · rw [if_neg hs] at h
            cases hr : genList env top f.ty (a :: as) with
            | error e => rw [hr] at h; cases h
            | ok r =>
              rw [hr] at h
              injection h with h; injection h with h1 h; injection h with h2 h
              subst h1 h2 h
              subst hlo
              refine ⟨[], [.items f.ty (a :: as)], hrest', List.nil_suffix, hlt, fun w hw => ?_⟩
              have hl := fun st => genList_run (cal := cal) (code := r.1) (top' := r.2) hr hhi hok w hw st
              refine ⟨?_, fun he st => ?_, fun w1 wss he st => ?_⟩
              · simp [sources, hv, hs]
              · rw [run_append, (hl st).1 ?_]
                · rfl
                · cases ha : evalItems env f.ty (a :: as) w with
                  | none => rfl
                  | some q => simp [evalSources, evalSource, ha] at he
              · cases ha : evalItems env f.ty (a :: as) w with
                | none => simp [evalSources, evalSource, ha] at he
                | some q =>
                  simp only [evalSources, evalSource, ha, Option.map_some, Option.bind_eq_bind, Option.bind_some, Option.some.injEq,
                    Prod.mk.injEq] at he
                  obtain ⟨w2, res, e1, e2, e3, e4⟩ := (hl st).2 q.1 q.2 ha
                  rw [← evalItems_length (w' := q.1) (vs := q.2) ha] at e2 e3
                  refine ⟨w2, ?_, by rw [← he.1]; exact e2, fun h => absurd rfl h⟩
                  rw [run_append, e1, Option.bind_some, genPass_run, ← he.2]
                  rw [words, Int.toNat_natCast, e3]
                  rfl

end Umka.Call
