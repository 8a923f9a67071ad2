import Verif.Call.Sigs

namespace Umka.Call
open Spec

variable {τ : Type} {cal : Int → Callee}

theorem sources_suffix_defaults {env : Env τ} : ∀ {fs : List (Formal τ)}, (∀ f ∈ fs, missing env f ≠ none) → ∃ ss, sources env fs [] = some ss
  | [], _ => ⟨[], by simp [sources]⟩
  | f :: fs, h => by
    obtain ⟨ss, hs⟩ := sources_suffix_defaults (fs := fs) fun g hg => h g (List.mem_cons_of_mem _ hg)
    cases hm : missing env f with
    | none => exact absurd hm (h f (List.mem_cons_self ..))
    | some s => exact ⟨s :: ss, by simp [sources, hm, hs]⟩

theorem suffix_of_append {α : Type} {l pre suf : List α} (h : l <:+ pre ++ suf) (hl : l.length ≤ suf.length) : l <:+ suf := by
  obtain ⟨a, ha⟩ := h
  have : l = (pre ++ suf).drop a.length := by rw [← ha, List.drop_left]
  have hal : pre.length ≤ a.length := by
    have := congrArg List.length ha
    simp only [List.length_append] at this
    omega
  rw [List.drop_append, List.drop_eq_nil_of_le hal, List.nil_append] at this
  rw [this]
  exact List.drop_suffix ..

theorem mayMiss_ok {env : Env τ} {sig : Sig τ} {m : Bool} {all fs : List (Formal τ)} {tail : List (Param τ)} (hs : SigOk sig m all tail)
    (hsuf : fs <:+ all) (h : fs.length ≤ mayMiss sig) : ∃ ss, sources env fs [] = some ss := by
  unfold mayMiss at h
  by_cases hk : sig.numDefault > 0
  · rw [if_pos hk] at h
    obtain ⟨_, pre, suf, hsp, hl, hp, hd⟩ := hs.shape
    rw [hsp] at hsuf
    have := suffix_of_append hsuf (by omega)
    refine sources_suffix_defaults fun f hf => ?_
    have := hd f (this.subset hf)
    unfold missing
    cases hx : f.default with
    | none => exact absurd hx this
    | some v => exact fun h => nomatch h
  · rw [if_neg hk] at h
    cases fs with
    | nil => exact ⟨[], by simp [sources]⟩
    | cons f fs =>
      cases hl : sig.params.getLast? with
      | none => rw [hl] at h; exact absurd h (by simp)
      | some p =>
        rw [hl] at h
        obtain ⟨n, ty, d⟩ := p
        cases ty with
        | variadic item =>
          have h : (f :: fs).length ≤ 1 := h
          have hfs : fs = [] := by
            cases fs with
            | nil => rfl
            | cons => simp at h
          subst hfs
          -- the last parameter is the last declared one
          have hrest : (sig.params.drop 1).map (fun p => (p.ty, p.default)) = all.map (fun f => (Formal.pty f, f.default.getD 0)) ++
            tail.map (fun p => (p.ty, p.default)) := hs.rest
          obtain ⟨a, ha⟩ := hsuf
          have hne : sig.params.drop 1 ≠ [] := by
            intro h0
            rw [h0, ← ha] at hrest
            simp at hrest
          have hlast : (sig.params.drop 1).getLast? = some ⟨n, .variadic item, d⟩ := by
            rw [← hl]
            cases hp : sig.params with
            | nil => rw [hp] at hne; exact absurd rfl hne
            | cons q qs =>
              rw [hp] at hne
              cases qs with
              | nil => exact absurd rfl hne
              | cons r rs => rfl
          have h1 := congrArg List.getLast? hrest
          rw [List.getLast?_map, hlast] at h1
          cases htl : tail with
          | nil =>
            rw [htl, ← ha] at h1
            simp only [List.map_append, List.map_cons, List.map_nil, List.append_nil, List.getLast?_append, List.getLast?_singleton,
              Option.some_or, Option.map_some, Option.some.injEq, Prod.mk.injEq] at h1
            have hv : f.variadic = true := by
              cases hv : f.variadic with
              | true => rfl
              | false => rw [Formal.pty, if_neg (by simp [hv])] at h1; cases h1.1
            have hd := hs.shape.wf.default f (by rw [← ha]; simp) hv
            exact ⟨[.const (.struct 2) env.empty], by simp [sources, missing, hd, hv]⟩
          | cons t ts =>
            exfalso
            have hmem : (PTy.variadic item, d) ∈ tail.map (fun p => (p.ty, p.default)) := by
              have : (all.map (fun f => (Formal.pty f, f.default.getD 0)) ++ tail.map (fun p => (p.ty, p.default))).getLast? =
                  (tail.map (fun p => (p.ty, p.default))).getLast? := by
                rw [htl, List.getLast?_append]
                simp [List.getLast?_cons]
              rw [this] at h1
              exact List.mem_of_getLast? h1.symm
            obtain ⟨p, hp, hpe⟩ := List.mem_map.1 hmem
            have := hs.tailTy p hp
            rw [show p.ty = PTy.variadic item from congrArg Prod.fst hpe] at this
            cases this
        | upvalues => exact absurd h (by simp)
        | receiver => exact absurd h (by simp)
        | result => exact absurd h (by simp)
        | plain t => exact absurd h (by simp)

/-! ## Sizes -/

def Source.shape (env : Env τ) : Source τ → Ty
  | .arg t _ => env.shape t
  | .whole _ => .struct 2
  | .items _ _ => .struct 2
  | .const ty _ => ty

theorem evalSource_length {env : Env τ} {s : Source τ} {w w' : World} {ws : List Int} (h : evalSource env w s = some (w', ws)) :
    ws.length = (Source.shape env s).size := by
  cases s with
  | arg t a =>
    simp only [evalSource, Option.map_eq_some_iff, Prod.mk.injEq] at h
    obtain ⟨q, _, _, h⟩ := h
    rw [← h]; exact words_length ..
  | whole a =>
    simp only [evalSource, Option.map_eq_some_iff, Prod.mk.injEq] at h
    obtain ⟨q, _, _, h⟩ := h
    rw [← h]; exact words_length ..
  | items t as =>
    simp only [evalSource, Option.map_eq_some_iff] at h
    obtain ⟨q, _, h⟩ := h
    injection h with _ h
    rw [← h]; rfl
  | const ty v =>
    simp only [evalSource, Option.some.injEq, Prod.mk.injEq] at h
    rw [← h.2]; exact words_length ..

theorem evalSources_lengths {env : Env τ} : ∀ {ss : List (Source τ)} {w w' : World} {wss : List (List Int)}, evalSources env ss w = some (w', wss) →
    wss.map List.length = ss.map fun s => (Source.shape env s).size
  | [], w, w', wss, h => by
    injection h with h; injection h with _ h; rw [← h]; rfl
  | s :: ss, w, w', wss, h => by
    rw [evalSources] at h
    cases hs : evalSource env w s with
    | none => rw [hs] at h; cases h
    | some q =>
      cases hr : evalSources env ss q.1 with
      | none => simp [hs, hr] at h
      | some r =>
        simp only [hs, hr, Option.bind_eq_bind, Option.bind_some, Option.some.injEq, Prod.mk.injEq] at h
        rw [← h.2, List.map_cons, List.map_cons, evalSource_length (w' := q.1) (ws := q.2) hs, evalSources_lengths (w' := r.1) (wss := r.2) hr]

theorem sources_shapes {env : Env τ} : ∀ {fs : List (Formal τ)} {args : List (Arg τ)} {ss : List (Source τ)}, WF fs → sources env fs args = some ss →
    ss.map (Source.shape env) = fs.map fun f => (Formal.pty f).shape env
  | [], [], ss, _, h => by simp only [sources, Option.some.injEq] at h; subst h; rfl
  | [], _ :: _, ss, _, h => by simp [sources] at h
  | f :: fs, [], ss, hwf, h => by
    rw [sources] at h
    cases hm : missing env f with
    | none => rw [hm] at h; cases h
    | some s =>
      cases hr : sources env fs [] with
      | none => rw [hm, hr] at h; cases h
      | some ss' =>
        simp only [hm, hr, Option.bind_eq_bind, Option.bind_some, Option.some.injEq] at h
        subst h
        rw [List.map_cons, List.map_cons, sources_shapes hwf.2 hr]
        congr 1
        unfold missing at hm
        cases hv : f.variadic with
        | true =>
          rw [(hwf.1 hv).2] at hm
          dsimp only at hm
          rw [if_pos hv] at hm
          injection hm with hm
          rw [← hm, Formal.pty, if_pos hv]; rfl
        | false =>
          cases hd : f.default with
          | none => rw [hd] at hm; dsimp only at hm; rw [if_neg (by simp [hv])] at hm; cases hm
          | some v =>
            rw [hd] at hm
            injection hm with hm
            rw [← hm, Formal.pty, if_neg (by simp [hv])]; rfl
  | f :: fs, a :: as, ss, hwf, h => by
    rw [sources] at h
    cases hv : f.variadic with
    | true =>
      rw [if_pos hv] at h
      by_cases hsp : env.spread f.ty a.ty = true
      · rw [if_pos hsp] at h
        obtain ⟨ss', hr, rfl⟩ := Option.map_eq_some_iff.1 h
        rw [List.map_cons, List.map_cons, sources_shapes hwf.2 hr, Formal.pty, if_pos hv]; rfl
      · rw [if_neg hsp] at h
        obtain ⟨ss', hr, rfl⟩ := Option.map_eq_some_iff.1 h
        rw [List.map_cons, List.map_cons, sources_shapes hwf.2 hr, Formal.pty, if_pos hv]; rfl
    | false =>
      rw [if_neg (by simp [hv])] at h
      obtain ⟨ss', hr, rfl⟩ := Option.map_eq_some_iff.1 h
      rw [List.map_cons, List.map_cons, sources_shapes hwf.2 hr, Formal.pty, if_neg (by simp [hv])]; rfl

theorem pushed_length (wss : List (List Int)) : (pushed wss).length = (wss.map List.length).sum := by
  simp [pushed, List.length_flatten, List.map_reverse, List.sum_reverse]

/-- Where the words of number `i` are. -/
theorem pushed_at (wss : List (List Int)) (i : Nat) (ws : List Int) (h : wss[i]? = some ws) :
    ((pushed wss).drop ((pushed wss).length - ((wss.take (i + 1)).map List.length).sum)).take ws.length = ws := by
  have hi : i < wss.length := (List.getElem?_eq_some_iff.1 h).1
  have hw : wss[i] = ws := (List.getElem?_eq_some_iff.1 h).2
  have hsplit : wss = wss.take (i + 1) ++ wss.drop (i + 1) := (List.take_append_drop ..).symm
  have htake : wss.take (i + 1) = wss.take i ++ [ws] := by
    rw [List.take_add_one, h]; rfl
  have hp : pushed wss = pushed (wss.drop (i + 1)) ++ (ws ++ pushed (wss.take i)) := by
    conv => lhs; rw [hsplit, htake]
    simp [pushed, List.append_assoc]
  have hlen : (pushed wss).length - ((wss.take (i + 1)).map List.length).sum = (pushed (wss.drop (i + 1))).length := by
    rw [pushed_length, pushed_length]
    conv => lhs; lhs; rw [hsplit]
    rw [List.map_append, List.sum_append]; omega
  rw [hlen, hp, List.drop_left, List.take_left]

/-! ## What is called -/

def entryOf (target : Target) (e : Int) : List Int :=
  match target with
  | .fn _ => []
  | .method _ _ => []
  | _ => [e]

theorem genTarget_run (target : Target) (w : World) (st : List Int) :
    run cal (genTarget target) ⟨w, st⟩ = (evalTarget w target).map fun q => ⟨q.1, q.2.2 ++ (entryOf target q.2.1 ++ st)⟩ := by
  cases target with
  | fn e => rfl
  | value f =>
    simp only [genTarget, run, step, evalTarget]
    cases f w <;> rfl
  | closure f =>
    simp only [genTarget, run, step, evalTarget]
    cases f w <;> rfl
  | method f e =>
    simp only [genTarget, run, step, evalTarget]
    cases f w <;> rfl

theorem evalTarget_grows {target : Target} (h : TargetOk target) {w w' : World} {e : Int} {hid : List Int}
    (he : evalTarget w target = some (w', e, hid)) : w.brk ≤ w'.brk := by
  cases target with
  | fn x => injection he with he; injection he with he _; rw [← he]; exact Nat.le_refl _
  | value f =>
    obtain ⟨q, hq, he⟩ := Option.map_eq_some_iff.1 he
    injection he with he _; rw [← he]; exact h w q.1 q.2 hq
  | closure f =>
    obtain ⟨q, hq, he⟩ := Option.map_eq_some_iff.1 he
    injection he with he _; rw [← he]; exact h w q.1 q.2 hq
  | method f x =>
    obtain ⟨q, hq, he⟩ := Option.map_eq_some_iff.1 he
    injection he with he _; rw [← he]; exact h w q.1 q.2 hq

theorem evalTarget_hidden {target : Target} {w w' : World} {e : Int} {hid : List Int} (he : evalTarget w target = some (w', e, hid)) :
    hid.length = if isMethod target then 1 else 2 := by
  cases target with
  | fn x => injection he with he; injection he with _ he; injection he with _ he; rw [← he]; rfl
  | value f =>
    obtain ⟨q, hq, he⟩ := Option.map_eq_some_iff.1 he
    injection he with _ he; injection he with _ he; rw [← he]; rfl
  | closure f =>
    obtain ⟨q, hq, he⟩ := Option.map_eq_some_iff.1 he
    injection he with _ he; injection he with _ he; rw [← he]; rfl
  | method f x =>
    obtain ⟨q, hq, he⟩ := Option.map_eq_some_iff.1 he
    injection he with _ he; injection he with _ he; rw [← he]; rfl

/-- What happens when the function is called with the slots `slots`. -/
def invoke (cal : Int → Callee) (sig : Sig τ) (e : Int) (w : World) (slots stack : List Int) : Option M :=
  if e = 0 then none
  else (cal e w slots).map fun q => ⟨{ q.1 with result := q.2 }, if sig.result.isSome then q.2 :: stack else stack⟩

theorem genInvoke_run {sig : Sig τ} {n : Nat} {target : Target} {code : List Instr} (h : genInvoke n target = .ok code) {w0 w1 : World} {e : Int}
    {hid : List Int} (he : evalTarget w0 target = some (w1, e, hid)) (w : World) (slots stack : List Int) (hn : slots.length = n) :
    run cal (code ++ if sig.result.isSome then [.pushResult] else []) ⟨w, slots ++ (entryOf target e ++ stack)⟩ = invoke cal sig e w slots stack := by
  have hres : ∀ (w : World) (v : Int), run cal (if sig.result.isSome then [.pushResult] else []) ⟨{ w with result := v }, stack⟩ =
      some ⟨{ w with result := v }, if sig.result.isSome then v :: stack else stack⟩ := by
    intro w v; cases sig.result <;> rfl
  have henter : ∀ st, enter cal ⟨w, slots ++ st⟩ e n = (cal e w slots).map fun q => ⟨{ q.1 with result := q.2 }, st⟩ := by
    intro st
    unfold enter
    rw [if_neg (by simp only [List.length_append]; omega), ← hn]
    simp only [List.take_left, List.drop_left]
  have direct : ∀ x, x = e → (if x = 0 then (throw .notDefined : Except Err (List Instr)) else .ok [.call x n]) = .ok code →
      run cal (code ++ if sig.result.isSome then [.pushResult] else []) ⟨w, slots ++ stack⟩ = invoke cal sig e w slots stack := by
    intro x hx h
    subst hx
    by_cases h0 : x = 0
    · rw [if_pos h0] at h; cases h
    · rw [if_neg h0] at h
      injection h with h
      subst h
      rw [run_append, run, step, henter, invoke, if_neg h0]
      cases cal x w slots with
      | none => rfl
      | some q => exact hres q.1 q.2
  have indirect : [.callIndirect n, .pop] = code →
      run cal (code ++ if sig.result.isSome then [.pushResult] else []) ⟨w, slots ++ ([e] ++ stack)⟩ = invoke cal sig e w slots stack := by
    intro h
    subst h
    rw [run_append, run, step]
    have : (slots ++ ([e] ++ stack))[n]? = some e := by
      rw [List.getElem?_append_right (by omega), hn, Nat.sub_self]; rfl
    rw [this]
    dsimp only
    by_cases h0 : e = 0
    · rw [if_pos h0, invoke, if_pos h0]; rfl
    · rw [if_neg h0, invoke, if_neg h0, henter]
      cases cal e w slots with
      | none => rfl
      | some q => exact hres q.1 q.2
  cases target with
  | fn x =>
    injection he with he; injection he with _ he; injection he with he _
    exact direct x he h
  | method f x =>
    obtain ⟨q, hq, he⟩ := Option.map_eq_some_iff.1 he
    injection he with _ he; injection he with he _
    exact direct x he h
  | value f => injection h with h; exact indirect h
  | closure f => injection h with h; exact indirect h

end Umka.Call
