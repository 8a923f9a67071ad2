import Verif.Call.Invoke

namespace Umka.Call
open Spec

variable {τ : Type} {cal : Int → Callee}

theorem SameOutside.trans {lo hi : Nat} {a b c : World} (h1 : SameOutside lo hi a b) (h2 : SameOutside lo hi b c) : SameOutside lo hi a c :=
  ⟨h2.1.trans h1.1, h2.2.1.trans h1.2.1, h2.2.2.1.trans h1.2.2.1, fun x hx => (h2.2.2.2 x hx).trans (h1.2.2.2 x hx)⟩

/-- The variable for the result: its address is pushed, and it is zero. -/
theorem genResult_run (sig : Sig τ) (lo hi top : Nat) (hlo : lo ≤ top) (hhi : (genResult sig top).2 ≤ hi) (w : World) (st : List Int) :
    ∃ w2, run cal (genResult sig top).1 ⟨w, st⟩ = some ⟨w2, pushed (if structured sig.result then [[(top : Int)]] else []) ++ st⟩ ∧ SameOutside lo hi w w2 ∧
      ∀ k, sig.result = some (.struct k) → readWords w2.mem top k = List.replicate k 0 := by
  cases hr : sig.result with
  | none => simp only [genResult, hr]; exact ⟨w, rfl, SameOutside.rfl' .., fun k h => nomatch h⟩
  | some ty =>
    cases ty with
    | scalar => simp only [genResult, hr]; exact ⟨w, rfl, SameOutside.rfl' .., fun k h => nomatch h⟩
    | struct k =>
      simp only [genResult, hr] at hhi ⊢
      refine ⟨_, rfl, ⟨rfl, rfl, rfl, fun a ha => if_neg (by omega)⟩, ?_⟩
      intro k' hk
      injection hk with hk
      injection hk with hk
      subst hk
      apply List.ext_getElem
      · simp [readWords]
      · intro j h1 h2
        simp only [readWords, List.length_map, List.length_range] at h1
        simp only [readWords, List.getElem_map, List.getElem_range, List.getElem_replicate]
        exact if_pos ⟨by omega, by omega⟩

theorem pushed_append (a b : List (List Int)) (st : List Int) : pushed (a ++ b) ++ st = pushed b ++ (pushed a ++ st) := by
  simp [pushed, List.append_assoc]

/-- Sizes of the parameters of a signature. -/
theorem SigOk.sizes {env : Env τ} {sig : Sig τ} {m : Bool} {fs : List (Formal τ)} {tail : List (Param τ)} (hs : SigOk sig m fs tail) :
    sig.params.map (fun p => (p.ty.shape env).size) =
      (if m then 1 else 2) :: (fs.map (fun f => ((Formal.pty f).shape env).size) ++ List.replicate (post sig) 1) := by
  have hr : (sig.params.drop 1).map (fun p => (p.ty, p.default)) = fs.map (fun f => (Formal.pty f, f.default.getD 0)) ++
    tail.map (fun p => (p.ty, p.default)) := hs.rest
  replace hr := congrArg (List.map fun q : PTy τ × Int => (q.1.shape env).size) hr
  simp only [List.map_append, List.map_map, Function.comp_def] at hr
  have htail : tail.map (fun p => (p.ty.shape env).size) = List.replicate (post sig) 1 := by
    rw [← hs.tailLen]
    have := hs.tailTy
    clear hr hs
    induction tail with
    | nil => rfl
    | cons p ps ih =>
      rw [List.map_cons, ih fun q hq => this q (List.mem_cons_of_mem _ hq), this p (List.mem_cons_self ..)]
      rfl
  rw [htail] at hr
  cases hp : sig.params with
  | nil => have := hs.first; rw [hp] at this; cases this
  | cons p ps =>
    have hf := hs.first
    rw [hp] at hf hr
    simp only [List.getElem?_cons_zero, Option.map_some, Option.some.injEq] at hf
    simp only [List.drop_succ_cons, List.drop_zero] at hr
    rw [List.map_cons, hr, hf]
    cases m <;> rfl

theorem take_sum_sizes {env : Env τ} {sig : Sig τ} (wss : List (List Int))
    (h : wss.map List.length = sig.params.map fun p => (p.ty.shape env).size) (i : Nat) :
    sizeBefore env sig i = ((wss.take i).map List.length).sum := by
  unfold sizeBefore
  rw [List.map_take, List.map_take, h]

/-- Each parameter is where the function looks for it. -/
theorem paramAt_pushed {env : Env τ} {sig : Sig τ} (wss : List (List Int)) (h : wss.map List.length = sig.params.map fun p => (p.ty.shape env).size) :
    (pushed wss).length = sizeTotal env sig ∧ ∀ i ws, wss[i]? = some ws → paramAt env sig (pushed wss) i = ws := by
  have hlen : wss.length = sig.params.length := by
    have := congrArg List.length h
    simpa using this
  have htot : (pushed wss).length = sizeTotal env sig := by
    rw [pushed_length, sizeTotal, take_sum_sizes wss h, ← hlen, List.take_length]
  refine ⟨htot, fun i ws hw => ?_⟩
  unfold paramAt paramOffset
  rw [← htot, take_sum_sizes wss h]
  have hsz : ((sig.params[i]?).map fun p => (p.ty.shape env).size).getD 0 = ws.length := by
    have := congrArg (fun l : List Nat => l[i]?) h
    simp only [List.getElem?_map, hw, Option.map_some] at this
    rw [← this]; rfl
  rw [hsz]
  exact pushed_at wss i ws hw

theorem call_run {env : Env τ} {sig : Sig τ} {m : Bool} {fs : List (Formal τ)} {tail : List (Param τ)} (hs : SigOk sig m fs tail) {target : Target}
    (hm : isMethod target = m) {args : List (Arg τ)} {top top' : Nat} {code : List Instr} (hg : genCall env top sig target args = .ok (code, top'))
    (hok : ∀ a ∈ args, ArgOk env top top' a) (htok : TargetOk target) (w : World) (hb : top' ≤ w.brk) (stack : List Int) :
    ∃ ss, sources env fs args = some ss ∧
      (evalCall env target ss w = none → run cal code ⟨w, stack⟩ = none) ∧
      ∀ w1 e wss, evalCall env target ss w = some (w1, e, wss) → ∃ w2 slots, run cal code ⟨w, stack⟩ = invoke cal sig e w2 slots stack ∧
        SameOutside top top' w1 w2 ∧ (∀ i ws, wss[i]? = some ws → paramAt env sig slots i = ws) ∧
        ∀ k, sig.result = some (.struct k) → ∃ a, top ≤ a ∧ a + k ≤ top' ∧ paramAt env sig slots wss.length = [(a : Int)] ∧
          readWords w2.mem a k = List.replicate k 0 := by
  unfold genCall at hg
  cases ha : genArgs env sig args 1 top with
  | error e => rw [ha] at hg; cases hg
  | ok r =>
    rw [ha] at hg
    obtain ⟨ac, i, top1⟩ := r
    replace hg : genRest env sig target ac i top1 = .ok (code, top') := hg
    unfold genRest at hg
    by_cases hf : i + post sig < sig.params.length - mayMiss sig
    · rw [if_pos hf] at hg; cases hg
    · rw [if_neg hf] at hg
      cases hi : genInvoke (sizeTotal env sig) target with
      | error e => rw [hi] at hg; cases hg
      | ok inv =>
        rw [hi] at hg
        injection hg with hg
        injection hg with hcode htop
        subst hcode htop
        have hge := genArgs_ge ha
        have hres : top1 ≤ (genResult sig top1).2 := by
          unfold genResult; cases sig.result with
          | none => exact Nat.le_refl _
          | some ty => cases ty <;> simp
        have h1le : 1 ≤ sig.params.length := by
          cases hp : sig.params with
          | nil => have := hs.first; rw [hp] at this; cases this
          | cons => simp
        obtain ⟨fs', ss1, hrest, hsuf, hile, hpass⟩ := genArgs_run (cal := cal) (hi := (genResult sig top1).2) hs.tailLen ha rfl hres hs.shape.wf hs.rest h1le hok
        have hlen := hrest.len
        rw [hs.tailLen] at hlen
        obtain ⟨ss2, hss2⟩ := mayMiss_ok (env := env) hs hsuf (by omega)
        have hn : sig.params.length - (i + post sig) = fs'.length := by omega
        have hsrc : sources env fs args = some (ss1 ++ ss2) := by rw [(hpass w hb).src, hss2]; rfl
        refine ⟨ss1 ++ ss2, hsrc, ?_, ?_⟩
        · intro he
          rw [run_append, genTarget_run]
          cases ht : evalTarget w target with
          | none => rfl
          | some t =>
            have hgr := evalTarget_grows htok (w' := t.1) (e := t.2.1) (hid := t.2.2) ht
            simp only [evalCall, ht, Option.bind_eq_bind, Option.bind_some] at he
            rw [Option.map_some, Option.bind_some, run_append, (hpass t.1 (by omega)).fail ?_]
            · rfl
            · cases h1 : evalSources env ss1 t.1 with
              | none => rfl
              | some q =>
                obtain ⟨wss2, h2, _⟩ := genDefaults_run (cal := cal) hs.shape hsuf hrest hss2 q.1 []
                rw [evalSources_append, h1, Option.bind_some, h2] at he
                cases he
        · intro w1 e wss he
          cases ht : evalTarget w target with
          | none => simp [evalCall, ht] at he
          | some t =>
            have hgr := evalTarget_grows htok (w' := t.1) (e := t.2.1) (hid := t.2.2) ht
            simp only [evalCall, ht, Option.bind_eq_bind, Option.bind_some] at he
            cases h1 : evalSources env (ss1 ++ ss2) t.1 with
            | none => rw [h1] at he; cases he
            | some q =>
              rw [h1] at he
              simp only [Option.bind_some, Option.some.injEq, Prod.mk.injEq] at he
              obtain ⟨rfl, rfl, rfl⟩ := he
              have hlens := evalSources_lengths (w' := q.1) (wss := q.2) h1
              rw [evalSources_append] at h1
              cases h2 : evalSources env ss1 t.1 with
              | none => rw [h2] at h1; cases h1
              | some q1 =>
                rw [h2, Option.bind_some] at h1
                obtain ⟨w2, hr2, hsame, heq⟩ := (hpass t.1 (by omega)).pass q1.1 q1.2 h2 (t.2.2 ++ (entryOf target t.2.1 ++ stack))
                -- defaults
                obtain ⟨wss2, h3, h4⟩ := genDefaults_run (cal := cal) hs.shape hsuf hrest hss2 q1.1 (pushed q1.2 ++ (t.2.2 ++ (entryOf target t.2.1 ++ stack)))
                rw [h3, Option.map_some, Option.some.injEq] at h1
                have hdef : run cal (genDefaults env sig (sig.params.length - (i + post sig)) i) ⟨w2, pushed q1.2 ++ (t.2.2 ++ (entryOf target t.2.1 ++ stack))⟩ =
                    some ⟨w2, pushed wss2 ++ (pushed q1.2 ++ (t.2.2 ++ (entryOf target t.2.1 ++ stack)))⟩ := by
                  by_cases hnil : fs' = []
                  · have hss : ss2 = [] := by rw [hnil] at hss2; simp only [sources, Option.some.injEq] at hss2; exact hss2.symm
                    rw [hss] at h3
                    injection h3 with h3
                    injection h3 with _ h3
                    rw [hn, hnil, ← h3]; rfl
                  · rw [heq hnil, hn]; exact h4
                obtain ⟨w3, hr3, hsame3, hz⟩ := genResult_run (cal := cal) sig top _ top1 hge (Nat.le_refl _) w2
                  (pushed wss2 ++ (pushed q1.2 ++ (t.2.2 ++ (entryOf target t.2.1 ++ stack))))
                -- all slots
                let all := t.2.2 :: (q.2 ++ if structured sig.result then [[(top1 : Int)]] else [])
                have hq2 : q.2 = q1.2 ++ wss2 := by rw [← h1]
                have hq1 : q.1 = q1.1 := by rw [← h1]
                have hall : ∀ st, pushed all ++ st = pushed (if structured sig.result then [[(top1 : Int)]] else []) ++
                    (pushed wss2 ++ (pushed q1.2 ++ (t.2.2 ++ st))) := by
                  intro st
                  show pushed (t.2.2 :: (q.2 ++ _)) ++ st = _
                  rw [pushed_cons, pushed_append, hq2, pushed_append]
                have hallLen : all.map List.length = sig.params.map fun p => (p.ty.shape env).size := by
                  rw [hs.sizes, ← hm, ← evalTarget_hidden (w' := t.1) (e := t.2.1) ht, List.map_cons, List.map_append, hlens]
                  have hsh := sources_shapes hs.shape.wf hsrc
                  have hsh := congrArg (List.map Ty.size) hsh
                  rw [List.map_map, List.map_map] at hsh
                  have hsh : (ss1 ++ ss2).map (fun s => (Source.shape env s).size) = fs.map (fun f => ((Formal.pty f).shape env).size) := hsh
                  rw [hsh]
                  unfold post
                  cases structured sig.result <;> rfl
                obtain ⟨htot, hat⟩ := paramAt_pushed all hallLen
                refine ⟨w3, pushed all, ?_, ?_, ?_, ?_⟩
                · rw [run_append, genTarget_run, ht, Option.map_some, Option.bind_some, run_append, hr2, Option.bind_some, run_append, hdef,
                    Option.bind_some, run_append, hr3, Option.bind_some, ← hall]
                  exact genInvoke_run hi (w1 := t.1) (hid := t.2.2) ht w3 (pushed all) stack htot
                · rw [hq1]; exact SameOutside.trans hsame hsame3
                · intro i ws hw
                  refine hat i ws ?_
                  cases i with
                  | zero => exact hw
                  | succ i =>
                    have hw : q.2[i]? = some ws := hw
                    show (q.2 ++ _)[i]? = some ws
                    rw [List.getElem?_append_left (List.getElem?_eq_some_iff.1 hw).1]
                    exact hw
                · intro k hk
                  refine ⟨top1, hge, by simp [genResult, hk], hat _ _ ?_, hz k hk⟩
                  show (q.2 ++ if structured sig.result then [[(top1 : Int)]] else [])[q.2.length]? = _
                  rw [List.getElem?_append_right (Nat.le_refl _), Nat.sub_self, hk]
                  rfl

end Umka.Call
