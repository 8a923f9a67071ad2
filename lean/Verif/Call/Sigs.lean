import Verif.Call.Calls

namespace Umka.Call
open Spec

variable {τ : Type} {cal : Int → Callee}

theorem addParam_ok {ps ps' : List (Param τ)} {p : Param τ} (h : addParam ps p = .ok ps') : ps' = ps ++ [p] := by
  unfold addParam at h
  by_cases h1 : (ps.any (·.name == p.name)) = true
  · rw [if_pos h1] at h; cases h
  · rw [if_neg h1] at h
    by_cases h2 : ps.length ≥ 16
    · rw [if_pos h2] at h; cases h
    · rw [if_neg h2] at h; injection h with h; exact h.symm

theorem addParams_ok {ty : PTy τ} {d : Int} : ∀ {ns : List String} {ps ps' : List (Param τ)}, addParams ty d ns ps = .ok ps' →
    ps' = ps ++ ns.map fun n => ⟨n, ty, d⟩
  | [], ps, ps', h => by injection h with h; simp [h]
  | n :: ns, ps, ps', h => by
    unfold addParams at h
    cases h1 : addParam ps ⟨n, ty, d⟩ with
    | error e => rw [h1] at h; cases h
    | ok q =>
      rw [h1] at h
      rw [addParams_ok (ns := ns) (ps := q) h, addParam_ok h1]
      simp

/-- The declared parameters of one group. -/
def gf (g : Group τ) : List (Formal τ) := g.names.map fun _ => ⟨g.ty, g.variadic, g.default⟩

/-- The declared parameters: only the last one is variadic, it has no default value; the last `k` ones are those with default values. -/
structure Shape (fs : List (Formal τ)) (k : Nat) : Prop where
  wf : WF fs
  split : ∃ pre suf, fs = pre ++ suf ∧ suf.length = k ∧ (∀ f ∈ pre, f.default = none) ∧ ∀ f ∈ suf, f.default ≠ none

theorem parseGroups_ok : ∀ {gs : List (Group τ)} {vf : Bool} {d d' : Nat} {ps ps' : List (Param τ)}, parseGroups gs vf d ps = .ok (ps', d') →
    ps'.map (fun p => (p.ty, p.default)) = ps.map (fun p => (p.ty, p.default)) ++ (formals gs).map (fun f => (Formal.pty f, f.default.getD 0)) ∧
    (vf = true → gs = []) ∧ WF (formals gs) ∧
    ∃ pre suf, formals gs = pre ++ suf ∧ d' = d + suf.length ∧ (∀ f ∈ pre, f.default = none) ∧ (∀ f ∈ suf, f.default ≠ none) ∧ (d > 0 → pre = [])
  | [], vf, d, d', ps, ps', h => by
    injection h with h; injection h with h1 h2
    subst h1 h2
    exact ⟨by simp [formals], fun _ => rfl, trivial, [], [], rfl, rfl, fun _ h => (nomatch h), fun _ h => (nomatch h), fun _ => rfl⟩
  | g :: gs, vf, d, d', ps, ps', h => by
    unfold parseGroups at h
    cases hvf : vf with
    | true => rw [hvf] at h; cases h
    | false =>
      rw [hvf] at h
      by_cases hv : g.variadic = true ∧ g.names.length ≠ 1
      · rw [if_pos hv] at h; cases h
      · rw [if_neg hv] at h
        replace h : (checkDefault g d >>= fun d => addParams g.pty (g.default.getD 0) g.names ps >>= fun ps => parseGroups gs g.variadic d ps) =
          .ok (ps', d') := h
        cases hd : checkDefault g d with
        | error e => rw [hd] at h; cases h
        | ok d1 =>
          cases ha : addParams g.pty (g.default.getD 0) g.names ps with
          | error e => rw [hd, show (Except.ok d1 >>= _) = _ from rfl, ha] at h; cases h
          | ok ps1 =>
            rw [hd, show (Except.ok d1 >>= _) = _ from rfl, ha] at h
            obtain ⟨h1, h2, h3, pre, suf, h4, h5, h6, h7, h8⟩ := parseGroups_ok (gs := gs) (vf := g.variadic) (d := d1) (ps := ps1) h
            have hf : formals (g :: gs) = gf g ++ formals gs := rfl
            have hps := addParams_ok ha
            have hpty : ∀ f ∈ gf g, f.variadic = g.variadic ∧ f.default = g.default := by
              intro f hf
              obtain ⟨_, _, rfl⟩ := List.mem_map.1 hf
              exact ⟨rfl, rfl⟩
            refine ⟨?_, fun h => (nomatch h), ?_, ?_⟩
            · rw [h1, hps, hf]
              simp [gf, Formal.pty, Group.pty, List.map_append]
            · rw [hf]
              cases hg : g.variadic with
              | true =>
                have hgs := h2 hg
                subst hgs
                have hlen : g.names.length = 1 := by
                  rcases Nat.decEq g.names.length 1 with h | h
                  · exact absurd ⟨hg, h⟩ hv
                  · exact h
                have hdn : g.default = none := by
                  unfold checkDefault at hd
                  cases hx : g.default with
                  | none => rfl
                  | some v => rw [hx] at hd; dsimp only at hd; rw [if_neg (by omega), if_pos hg] at hd; cases hd
                obtain ⟨n, hn⟩ := List.length_eq_one_iff.1 hlen
                simp only [gf, hn, List.map_cons, List.map_nil, formals, List.flatMap_nil, List.append_nil]
                exact ⟨fun _ => ⟨rfl, hdn⟩, trivial⟩
              | false =>
                have : ∀ l : List (Formal τ), (∀ f ∈ l, f.variadic = false) → WF (l ++ formals gs) := by
                  intro l
                  induction l with
                  | nil => intro _; exact h3
                  | cons f l ih =>
                    intro hl
                    exact ⟨fun h => (by rw [hl f (List.mem_cons_self ..)] at h; cases h), ih fun x hx => hl x (List.mem_cons_of_mem _ hx)⟩
                exact this _ fun f hf => by rw [(hpty f hf).1, hg]
            · unfold checkDefault at hd
              cases hx : g.default with
              | none =>
                rw [hx] at hd
                dsimp only at hd
                by_cases h0 : d ≠ 0
                · rw [if_pos h0] at hd; cases hd
                · rw [if_neg h0] at hd
                  injection hd with hd
                  refine ⟨gf g ++ pre, suf, by rw [hf, h4, List.append_assoc], by omega, ?_, h7, fun h => by omega⟩
                  intro f hf
                  rcases List.mem_append.1 hf with h | h
                  · rw [(hpty f h).2, hx]
                  · exact h6 f h
              | some v =>
                rw [hx] at hd
                dsimp only at hd
                by_cases hl : g.names.length ≠ 1
                · rw [if_pos hl] at hd; cases hd
                · rw [if_neg hl] at hd
                  cases hg : g.variadic with
                  | true => rw [if_pos hg] at hd; cases hd
                  | false =>
                    rw [if_neg (by simp [hg])] at hd
                    cases hc : g.comparable with
                    | false => rw [if_pos (by simp [hc])] at hd; cases hd
                    | true =>
                      rw [if_neg (by simp [hc])] at hd
                      injection hd with hd
                      have hp := h8 (by omega)
                      subst hp
                      have hgl : (gf g).length = 1 := by simp only [gf, List.length_map]; omega
                      refine ⟨[], gf g ++ suf, by rw [hf, h4]; rfl, by rw [List.length_append]; omega, fun _ h => (nomatch h), ?_, fun _ => rfl⟩
                      intro f hf
                      rcases List.mem_append.1 hf with h | h
                      · rw [(hpty f h).2, hx]; exact fun h => nomatch h
                      · exact h7 f h

/-- What a signature looks like. -/
structure SigOk (sig : Sig τ) (method : Bool) (fs : List (Formal τ)) (tail : List (Param τ)) : Prop where
  shape : Shape fs sig.numDefault
  rest : Rest sig 1 fs tail
  first : (sig.params[0]?).map (·.ty) = some (if method then .receiver else .upvalues)
  tailLen : tail.length = post sig
  tailTy : ∀ p ∈ tail, p.ty = .result

theorem parseSignature_ok {rcv : Option String} {gs : List (Group τ)} {result : Option Ty} {sig : Sig τ}
    (h : parseSignature rcv gs result = .ok sig) : sig.result = result ∧ sig.isMethod = rcv.isSome ∧ ∃ tail, SigOk sig rcv.isSome (formals gs) tail := by
  unfold parseSignature at h
  generalize hfirst : (firstParam rcv : Param τ) = first at h
  have hty : first.ty = if rcv.isSome then .receiver else .upvalues := by
    rw [← hfirst]; cases rcv <;> rfl
  cases hg : parseGroups gs false 0 [first] with
  | error e => rw [hg] at h; cases h
  | ok q =>
    rw [hg] at h
    obtain ⟨ps, d⟩ := q
    obtain ⟨h1, _, h3, pre, suf, h4, h5, h6, h7, _⟩ := parseGroups_ok hg
    replace h : (addResult result ps >>= fun ps => (.ok ⟨ps, d, rcv.isSome, result⟩ : Except Err (Sig τ))) = .ok sig := h
    unfold addResult at h
    have hshape : Shape (formals gs) d := ⟨h3, pre, suf, h4, by omega, h6, h7⟩
    have hps : ∃ q qs, ps = q :: qs ∧ q.ty = first.ty ∧
        qs.map (fun p => (p.ty, p.default)) = (formals gs).map (fun f => (Formal.pty f, f.default.getD 0)) := by
      cases ps with
      | nil => simp at h1
      | cons q qs =>
        simp only [List.map_cons, List.map_nil, List.cons_append, List.nil_append, List.cons.injEq, Prod.mk.injEq] at h1
        exact ⟨q, qs, rfl, h1.1.1, h1.2⟩
    obtain ⟨q, qs, rfl, hq, hqs⟩ := hps
    cases hs : structured result with
    | false =>
      rw [hs] at h
      injection h with h
      subst h
      refine ⟨rfl, rfl, [], hshape, ?_, ?_, ?_, fun _ h => nomatch h⟩
      · show qs.map _ = _ ++ _
        rw [hqs]; simp
      · show some q.ty = _
        rw [hq, hty]
      · show 0 = post _
        simp [post, hs]
    | true =>
      rw [hs] at h
      cases ha : addParam (q :: qs) ⟨"#result", PTy.result, 0⟩ with
      | error e => rw [if_pos rfl, ha] at h; cases h
      | ok ps' =>
        rw [if_pos rfl, ha] at h
        injection h with h
        subst h
        have := addParam_ok ha
        subst this
        refine ⟨rfl, rfl, [⟨"#result", PTy.result, 0⟩], hshape, ?_, ?_, ?_, ?_⟩
        · show (qs ++ [_]).map _ = _ ++ _
          rw [List.map_append, hqs]
        · show some q.ty = _
          rw [hq, hty]
        · show 1 = post _
          simp [post, hs]
        · intro p hp
          rw [List.mem_singleton.1 hp]

/-! ## Parameters without arguments -/

theorem WF.suffix {fs' fs : List (Formal τ)} (h : fs' <:+ fs) (hwf : WF fs) : WF fs' := by
  obtain ⟨l, rfl⟩ := h
  induction l with
  | nil => exact hwf
  | cons f l ih => exact ih hwf.2

theorem WF.default {fs : List (Formal τ)} (hwf : WF fs) : ∀ f ∈ fs, f.variadic = true → f.default = none := by
  induction fs with
  | nil => exact fun _ h => nomatch h
  | cons g fs ih =>
    intro f hf hv
    rcases List.mem_cons.1 hf with rfl | h
    · exact (hwf.1 hv).2
    · exact ih hwf.2 f h hv

/-- A variadic parameter excludes default values. -/
theorem Shape.excl {fs : List (Formal τ)} {k : Nat} (h : Shape fs k) {f : Formal τ} (hf : f ∈ fs) (hv : f.variadic = true) : k = 0 := by
  obtain ⟨hwf, pre, suf, hsp, hk, hp, hs⟩ := h
  have hdn := hwf.default f hf hv
  subst hsp
  have hfp : f ∈ pre := by
    rcases List.mem_append.1 hf with h | h
    · exact h
    · exact absurd hdn (hs f h)
  obtain ⟨a, b, rfl⟩ := List.append_of_mem hfp
  have hw : WF (f :: (b ++ suf)) := WF.suffix ⟨a, by simp⟩ hwf
  have := (hw.1 hv).1
  have : suf = [] := (List.append_eq_nil_iff.1 this).2
  rw [← hk, this]; rfl

theorem genDefaults_run {env : Env τ} {sig : Sig τ} {all : List (Formal τ)} (hshape : Shape all sig.numDefault) {tail : List (Param τ)} :
    ∀ {fs : List (Formal τ)} {i : Nat} {ss : List (Source τ)}, fs <:+ all → Rest sig i fs tail → sources env fs [] = some ss → ∀ (w : World) (st : List Int),
    ∃ wss, evalSources env ss w = some (w, wss) ∧ run cal (genDefaults env sig fs.length i) ⟨w, st⟩ = some ⟨w, pushed wss ++ st⟩
  | [], i, ss, _, _, h, w, st => by
    simp only [sources, Option.some.injEq] at h
    subst h
    exact ⟨[], rfl, rfl⟩
  | f :: fs, i, ss, hsuf, hrest, h, w, st => by
    obtain ⟨⟨p, hp, hpt, hpd⟩, hrest'⟩ := hrest.next
    rw [sources] at h
    cases hm : missing env f with
    | none => rw [hm] at h; cases h
    | some s =>
      cases hr : sources env fs [] with
      | none => rw [hm, hr] at h; cases h
      | some ss' =>
        simp only [hm, hr, Option.bind_eq_bind, Option.bind_some, Option.some.injEq] at h
        subst h
        have hfm : f ∈ all := hsuf.subset (List.mem_cons_self ..)
        have key : s = .const (p.ty.shape env) (if sig.numDefault > 0 then p.default else env.empty) := by
          unfold missing at hm
          cases hd : f.default with
          | some v =>
            rw [hd] at hm
            injection hm with hm
            have hv : f.variadic = false := by
              cases hv : f.variadic with
              | false => rfl
              | true => rw [hshape.wf.default f hfm hv] at hd; cases hd
            have hk : sig.numDefault > 0 := by
              obtain ⟨_, pre, suf, hsp, hk, hp, hs⟩ := hshape
              rw [hsp] at hfm
              rcases List.mem_append.1 hfm with h | h
              · rw [hp f h] at hd; cases hd
              · rw [← hk]; exact List.length_pos_of_mem h
            rw [if_pos hk, hpd, hd, hpt, ← hm, Formal.pty, if_neg (by simp [hv])]
            rfl
          | none =>
            rw [hd] at hm
            dsimp only at hm
            cases hv : f.variadic with
            | false => rw [hv] at hm; cases hm
            | true =>
              rw [hv] at hm
              injection hm with hm
              rw [if_neg (by rw [hshape.excl hfm hv]; omega), ← hm, hpt, Formal.pty, if_pos hv]
              rfl
        obtain ⟨wss, h1, h2⟩ := genDefaults_run hshape ((List.suffix_cons f fs).trans hsuf) hrest' hr w
          (words w.mem (p.ty.shape env) (if sig.numDefault > 0 then p.default else env.empty) ++ st)
        refine ⟨words w.mem (p.ty.shape env) (if sig.numDefault > 0 then p.default else env.empty) :: wss, ?_, ?_⟩
        · simp only [evalSources, key, evalSource, Option.bind_eq_bind, Option.bind_some, h1]
        · rw [pushed_cons, ← h2, List.length_cons, genDefaults, hp]
          dsimp only
          rw [run, step, Option.bind_some, run_append, genPass_run, Option.bind_some]

end Umka.Call
