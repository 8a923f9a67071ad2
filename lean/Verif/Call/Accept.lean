import Verif.Call.Whole

namespace Umka.Call
open Spec

variable {τ : Type}

theorem genArg_accept {env : Env τ} {t : τ} {a : Arg τ} (h : env.conv t a.ty ≠ none) : ∃ c, genArg env t a = .ok c := by
  unfold genArg
  cases hc : env.conv t a.ty with
  | none => exact absurd hc h
  | some c => exact ⟨_, rfl⟩

theorem genArg_typed {env : Env τ} {t : τ} {a : Arg τ} {c : List Instr} (h : genArg env t a = .ok c) : env.conv t a.ty ≠ none := by
  unfold genArg at h
  cases hc : env.conv t a.ty with
  | none => rw [hc] at h; cases h
  | some c => exact fun h => nomatch h

theorem genItems_accept {env : Env τ} {t : τ} : ∀ {as : List (Arg τ)}, (∀ a ∈ as, env.conv t a.ty ≠ none) → ∃ c, genItems env t as = .ok c
  | [], _ => ⟨[], rfl⟩
  | a :: as, h => by
    obtain ⟨c, hc⟩ := genArg_accept (h a (List.mem_cons_self ..))
    obtain ⟨cs, hcs⟩ := genItems_accept fun b hb => h b (List.mem_cons_of_mem _ hb)
    exact ⟨c ++ cs, by rw [genItems, hc, hcs]; rfl⟩

theorem genItems_typed {env : Env τ} {t : τ} : ∀ {as : List (Arg τ)} {c : List Instr}, genItems env t as = .ok c → ∀ a ∈ as, env.conv t a.ty ≠ none
  | [], _, _ => fun _ h => nomatch h
  | a :: as, c, h => by
    rw [genItems] at h
    cases hc : genArg env t a with
    | error e => rw [hc] at h; cases h
    | ok c1 =>
      cases hcs : genItems env t as with
      | error e => rw [hc, hcs] at h; cases h
      | ok cs =>
        intro b hb
        rcases List.mem_cons.1 hb with rfl | hb
        · exact genArg_typed hc
        · exact genItems_typed hcs b hb

theorem genList_accept {env : Env τ} {t : τ} {top : Nat} {as : List (Arg τ)} (h : ∀ a ∈ as, env.conv t a.ty ≠ none) : ∃ r, genList env top t as = .ok r := by
  obtain ⟨c, hc⟩ := genItems_accept h
  exact ⟨_, by rw [genList, hc]; rfl⟩

theorem genList_typed {env : Env τ} {t : τ} {top : Nat} {as : List (Arg τ)} {r : List Instr × Nat} (h : genList env top t as = .ok r) :
    ∀ a ∈ as, env.conv t a.ty ≠ none := by
  unfold genList at h
  cases hc : genItems env t as with
  | error e => rw [hc] at h; cases h
  | ok c => exact genItems_typed hc

/-- If the arguments can be distributed and their types fit, the loop over the arguments succeeds. -/
theorem genArgs_accept {env : Env τ} {sig : Sig τ} {tail : List (Param τ)} (htail : tail.length = post sig) :
    ∀ {args : List (Arg τ)} {i top : Nat} {fs : List (Formal τ)} {ss : List (Source τ)},
    WF fs → Rest sig i fs tail → i ≤ sig.params.length → sources env fs args = some ss → (∀ s ∈ ss, Typed env s) →
    ∃ code i' top' fs' ss', genArgs env sig args i top = .ok (code, i', top') ∧ Rest sig i' fs' tail ∧ fs' <:+ fs ∧ i' ≤ sig.params.length ∧
      sources env fs' [] = some ss' ∧ (fs.length ≤ args.length → fs' = [])
  | [], i, top, fs, ss, hwf, hrest, hle, hsrc, hty => by
    refine ⟨[], i, top, fs, ss, rfl, hrest, List.suffix_refl _, hle, hsrc, fun h => ?_⟩
    exact List.length_eq_zero_iff.1 (by simpa using h)
  | a :: as, i, top, [], ss, hwf, hrest, hle, hsrc, hty => by simp [sources] at hsrc
  | a :: as, i, top, f :: fs, ss, hwf, hrest, hle, hsrc, hty => by
    obtain ⟨⟨p, hp, hpt, hpd⟩, hrest'⟩ := hrest.next
    have hlt : i < sig.params.length := (List.getElem?_eq_some_iff.1 hp).1
    have hpty : ptyAt sig i = some (Formal.pty f) := by rw [ptyAt, hp, Option.map_some, hpt]
    have hlen := hrest.len
    rw [htail, List.length_cons] at hlen
    have hni : ¬ (i + post sig > sig.params.length - 1) := by omega
    rw [sources] at hsrc
    cases hv : f.variadic with
    | false =>
      rw [if_neg (by simp [hv])] at hsrc
      obtain ⟨ss', hr, rfl⟩ := Option.map_eq_some_iff.1 hsrc
      obtain ⟨c, hc⟩ := genArg_accept (hty _ (List.mem_cons_self ..) : Typed env (.arg f.ty a))
      obtain ⟨code, i', top', fs', ss'', h1, h2, h3, h4, h5, h6⟩ := genArgs_accept htail (top := top) hwf.2 hrest' hlt hr
        fun s hs => hty s (List.mem_cons_of_mem _ hs)
      refine ⟨c ++ (genPass (env.shape f.ty) ++ code), i', top', fs', ss'', ?_, h2, h3.trans (List.suffix_cons ..), h4, h5,
        fun h => h6 (by simpa using h)⟩
      rw [genArgs, if_neg hni, hpty, Formal.pty, if_neg (by simp [hv])]
      dsimp only
      rw [hc, h1]; rfl
    | true =>
      obtain ⟨hnil, _⟩ := hwf.1 hv
      subst hnil
      rw [if_pos hv] at hsrc
      by_cases hsp : env.spread f.ty a.ty = true
      · rw [if_pos hsp] at hsrc
        obtain ⟨ss', hr, rfl⟩ := Option.map_eq_some_iff.1 hsrc
        obtain ⟨code, i', top', fs', ss'', h1, h2, h3, h4, h5, h6⟩ := genArgs_accept htail (top := top) hwf.2 hrest' hlt hr
          fun s hs => hty s (List.mem_cons_of_mem _ hs)
        refine ⟨.user a.code :: (genPass (.struct 2) ++ code), i', top', fs', ss'', ?_, h2, h3.trans (List.suffix_cons ..), h4, h5,
          fun h => h6 (by simpa using h)⟩
        rw [genArgs, if_neg hni, hpty, Formal.pty, if_pos hv]
        dsimp only
        rw [if_pos hsp, h1]; rfl
      · rw [if_neg hsp] at hsrc
        obtain ⟨ss', hr, rfl⟩ := Option.map_eq_some_iff.1 hsrc
        obtain ⟨r, hl⟩ := genList_accept (top := top) (hty _ (List.mem_cons_self ..) : Typed env (.items f.ty (a :: as)))
        refine ⟨r.1 ++ genPass (.struct 2), i + 1, r.2, [], [], ?_, hrest', List.nil_suffix, hlt, by simp [sources], fun _ => rfl⟩
        rw [genArgs, if_neg hni, hpty, Formal.pty, if_pos hv]
        dsimp only
        rw [if_neg hsp, hl]; rfl

/-- The other way round. -/
theorem genArgs_typed {env : Env τ} {sig : Sig τ} {tail : List (Param τ)} (htail : tail.length = post sig) :
    ∀ {args : List (Arg τ)} {i top : Nat} {fs : List (Formal τ)} {ss : List (Source τ)} {r : List Instr × Nat × Nat},
    WF fs → Rest sig i fs tail → genArgs env sig args i top = .ok r → sources env fs args = some ss → ∀ s ∈ ss, Typed env s
  | [], i, top, fs, ss, r, hwf, hrest, hg, hsrc => by
    have : ∀ (fs : List (Formal τ)) (ss : List (Source τ)), sources env fs [] = some ss → ∀ s ∈ ss, Typed env s := by
      intro fs
      induction fs with
      | nil => intro ss h; simp only [sources, Option.some.injEq] at h; subst h; exact fun _ h => nomatch h
      | cons f fs ih =>
        intro ss h
        rw [sources] at h
        cases hm : missing env f with
        | none => rw [hm] at h; cases h
        | some s =>
          cases hr : sources env fs [] with
          | none => rw [hm, hr] at h; cases h
          | some ss' =>
            simp only [hm, hr, Option.bind_eq_bind, Option.bind_some, Option.some.injEq] at h
            subst h
            intro x hx
            rcases List.mem_cons.1 hx with rfl | hx
            · unfold missing at hm
              cases hd : f.default with
              | some v => rw [hd] at hm; injection hm with hm; subst hm; trivial
              | none =>
                rw [hd] at hm
                dsimp only at hm
                cases hv : f.variadic with
                | true => rw [if_pos hv] at hm; injection hm with hm; subst hm; trivial
                | false => rw [if_neg (by simp [hv])] at hm; cases hm
            · exact ih _ hr x hx
    exact this fs ss hsrc
  | a :: as, i, top, [], ss, r, hwf, hrest, hg, hsrc => by simp [sources] at hsrc
  | a :: as, i, top, f :: fs, ss, r, hwf, hrest, hg, hsrc => by
    obtain ⟨⟨p, hp, hpt, hpd⟩, hrest'⟩ := hrest.next
    have hpty : ptyAt sig i = some (Formal.pty f) := by rw [ptyAt, hp, Option.map_some, hpt]
    rw [genArgs] at hg
    by_cases hni : i + post sig > sig.params.length - 1
    · rw [if_pos hni] at hg; cases hg
    · rw [if_neg hni, hpty] at hg
      rw [sources] at hsrc
      cases hv : f.variadic with
      | false =>
        rw [Formal.pty, if_neg (by simp [hv])] at hg
        dsimp only at hg
        rw [if_neg (by simp [hv])] at hsrc
        obtain ⟨ss', hr, rfl⟩ := Option.map_eq_some_iff.1 hsrc
        cases hc : genArg env f.ty a with
        | error e => rw [hc] at hg; cases hg
        | ok c =>
          cases ha : genArgs env sig as (i + 1) top with
          | error e => rw [hc, ha] at hg; cases hg
          | ok q =>
            intro s hs
            rcases List.mem_cons.1 hs with rfl | hs
            · exact genArg_typed hc
            · exact genArgs_typed htail hwf.2 hrest' ha hr s hs
      | true =>
        rw [Formal.pty, if_pos hv] at hg
        dsimp only at hg
        rw [if_pos hv] at hsrc
        by_cases hsp : env.spread f.ty a.ty = true
        · rw [if_pos hsp] at hg hsrc
          obtain ⟨ss', hr, rfl⟩ := Option.map_eq_some_iff.1 hsrc
          cases ha : genArgs env sig as (i + 1) top with
          | error e => rw [ha] at hg; cases hg
          | ok q =>
            intro s hs
            rcases List.mem_cons.1 hs with rfl | hs
            · trivial
            · exact genArgs_typed htail hwf.2 hrest' ha hr s hs
        · rw [if_neg hsp] at hg hsrc
          obtain ⟨hnil, _⟩ := hwf.1 hv
          subst hnil
          obtain ⟨ss', hr, rfl⟩ := Option.map_eq_some_iff.1 hsrc
          simp only [sources, Option.some.injEq] at hr
          subst hr
          cases hl : genList env top f.ty (a :: as) with
          | error e => rw [hl] at hg; cases hg
          | ok q =>
            intro s hs
            rw [List.mem_singleton] at hs
            subst hs
            exact genList_typed hl

theorem missing_cases {env : Env τ} {f : Formal τ} (h : missing env f ≠ none) : f.default ≠ none ∨ f.variadic = true := by
  unfold missing at h
  cases hd : f.default with
  | some v => exact .inl fun h => nomatch h
  | none =>
    rw [hd] at h
    cases hv : f.variadic with
    | true => exact .inr rfl
    | false => dsimp only at h; rw [if_neg (by simp [hv])] at h; exact absurd rfl h

theorem sources_missing {env : Env τ} : ∀ {fs : List (Formal τ)} {ss : List (Source τ)}, sources env fs [] = some ss → ∀ f ∈ fs, missing env f ≠ none
  | [], _, _ => fun _ h => nomatch h
  | f :: fs, ss, h => by
    rw [sources] at h
    cases hm : missing env f with
    | none => rw [hm] at h; cases h
    | some s =>
      cases hr : sources env fs [] with
      | none => rw [hm, hr] at h; cases h
      | some ss' =>
        intro g hg
        rcases List.mem_cons.1 hg with rfl | hg
        · rw [hm]; exact fun h => nomatch h
        · exact sources_missing hr g hg

/-- The check on the number of parameters lets everything pass that has a value, except an empty variadic list in front of `#result`. -/
theorem mayMiss_ge {env : Env τ} {sig : Sig τ} {m : Bool} {all fs : List (Formal τ)} {tail : List (Param τ)} (hs : SigOk sig m all tail)
    (hsuf : fs <:+ all) {ss : List (Source τ)} (h : sources env fs [] = some ss) (hx : post sig = 0 ∨ ∀ f ∈ fs, f.variadic = false) :
    fs.length ≤ mayMiss sig := by
  have hmis := sources_missing h
  unfold mayMiss
  by_cases hk : sig.numDefault > 0
  · rw [if_pos hk]
    obtain ⟨_, pre, suf, hsp, hl, hp, hd⟩ := hs.shape
    have hdef : ∀ f ∈ fs, f.default ≠ none := by
      intro f hf
      rcases missing_cases (hmis f hf) with h | h
      · exact h
      · have := hs.shape.excl (hsuf.subset hf) h; omega
    rcases Nat.lt_or_ge suf.length fs.length with hlt | hge
    · exfalso
      obtain ⟨a, ha⟩ := hsuf
      rw [hsp] at ha
      have hpl := congrArg List.length ha
      simp only [List.length_append] at hpl
      -- the first of `fs` is in `pre`
      have : fs = pre.drop a.length ++ suf := by
        have := congrArg (List.drop a.length) ha
        rw [List.drop_left, List.drop_append] at this
        rw [this, show a.length - pre.length = 0 by omega, List.drop_zero]
      cases hpd : pre.drop a.length with
      | nil => rw [hpd, List.nil_append] at this; rw [this] at hlt; omega
      | cons x xs =>
        have hx1 : x ∈ pre := List.mem_of_mem_drop (i := a.length) (by rw [hpd]; exact List.mem_cons_self ..)
        exact hdef x (by rw [this, hpd]; exact List.mem_cons_self ..) (hp x hx1)
    · omega
  · rw [if_neg hk]
    cases fs with
    | nil => exact Nat.zero_le _
    | cons f fs =>
      have hfm := hsuf.subset (List.mem_cons_self : f ∈ f :: fs)
      have hv : f.variadic = true := by
        rcases missing_cases (hmis f (List.mem_cons_self ..)) with h | h
        · exfalso
          obtain ⟨_, pre, suf, hsp, hl, hp, hd⟩ := hs.shape
          rw [hsp] at hfm
          rcases List.mem_append.1 hfm with h1 | h1
          · exact h (hp f h1)
          · have := List.length_pos_of_mem h1; omega
        · exact h
      have hnil := ((WF.suffix hsuf hs.shape.wf).1 hv).1
      subst hnil
      have hpost : post sig = 0 := by
        rcases hx with h | h
        · exact h
        · rw [h f (List.mem_cons_self ..)] at hv; cases hv
      have htail : tail = [] := List.length_eq_zero_iff.1 (hs.tailLen.trans hpost)
      obtain ⟨a, ha⟩ := hsuf
      have hrest : (sig.params.drop 1).map (fun p => (p.ty, p.default)) = all.map (fun f => (Formal.pty f, f.default.getD 0)) ++
        tail.map (fun p => (p.ty, p.default)) := hs.rest
      rw [htail, ← ha] at hrest
      have h1 := congrArg List.getLast? hrest
      rw [List.getLast?_map] at h1
      simp only [List.map_append, List.map_cons, List.map_nil, List.append_nil, List.getLast?_append, List.getLast?_singleton, Option.some_or] at h1
      obtain ⟨p, hp, hpe⟩ := Option.map_eq_some_iff.1 h1
      have hlast : sig.params.getLast? = some p := by
        cases hpp : sig.params with
        | nil => rw [hpp] at hp; cases hp
        | cons q qs =>
          rw [hpp] at hp
          cases qs with
          | nil => cases hp
          | cons r rs => exact hp
      rw [hlast]
      have hpt : p.ty = .variadic f.ty := by
        have := congrArg Prod.fst hpe
        rw [Formal.pty, if_pos hv] at this
        exact this
      obtain ⟨n, ty, d⟩ := p
      dsimp only at hpt
      subst hpt
      exact Nat.le_refl _

theorem call_accept {env : Env τ} {sig : Sig τ} {m : Bool} {fs : List (Formal τ)} {tail : List (Param τ)} (hs : SigOk sig m fs tail) {target : Target}
    (hd : Defined target) {args : List (Arg τ)} {ss : List (Source τ)} (hsrc : sources env fs args = some ss) (hty : ∀ s ∈ ss, Typed env s)
    (hx : structured sig.result = true → fs.length ≤ args.length ∨ ∀ f ∈ fs, f.variadic = false) (top : Nat) :
    ∃ code top', genCall env top sig target args = .ok (code, top') := by
  have h1le : 1 ≤ sig.params.length := by
    cases hp : sig.params with
    | nil => have := hs.first; rw [hp] at this; cases this
    | cons => simp
  obtain ⟨code, i', top', fs', ss', h1, h2, h3, h4, h5, h6⟩ := genArgs_accept hs.tailLen (top := top) hs.shape.wf hs.rest h1le hsrc hty
  have hmm := mayMiss_ge hs h3 h5 (by
    cases hr : structured sig.result with
    | false => exact .inl (by simp [post, hr])
    | true =>
      rcases hx hr with h | h
      · rw [h6 h]; exact .inr fun _ h => nomatch h
      · exact .inr fun f hf => h f (h3.subset hf))
  have hlen := h2.len
  rw [hs.tailLen] at hlen
  obtain ⟨inv, hi⟩ : ∃ inv, genInvoke (sizeTotal env sig) target = .ok inv := by
    cases target with
    | fn e => exact ⟨_, if_neg hd⟩
    | value f => exact ⟨_, rfl⟩
    | closure f => exact ⟨_, rfl⟩
    | method f e => exact ⟨_, if_neg hd⟩
  have : ∃ r, genCall env top sig target args = .ok r := by
    unfold genCall
    rw [h1]
    show ∃ r, genRest env sig target code i' top' = .ok r
    unfold genRest
    rw [if_neg (by omega), hi]
    exact ⟨_, rfl⟩
  obtain ⟨r, hr⟩ := this
  exact ⟨r.1, r.2, hr⟩

/-- The arguments that the loop has accepted can be distributed, if the parameters that remain have a value. -/
theorem genArgs_sources {env : Env τ} {sig : Sig τ} {tail : List (Param τ)} (htail : tail.length = post sig) :
    ∀ {args : List (Arg τ)} {i top : Nat} {fs : List (Formal τ)} {r : List Instr × Nat × Nat}, WF fs → Rest sig i fs tail → 1 ≤ i → i ≤ sig.params.length →
    genArgs env sig args i top = .ok r → ∃ fs', Rest sig r.2.1 fs' tail ∧ fs' <:+ fs ∧ r.2.1 ≤ sig.params.length ∧
      ∀ ss2, sources env fs' [] = some ss2 → ∃ ss, sources env fs args = some ss
  | [], i, top, fs, r, hwf, hrest, h1i, hle, hg => by
    injection hg with hg
    subst hg
    exact ⟨fs, hrest, List.suffix_refl _, hle, fun ss h => ⟨ss, h⟩⟩
  | a :: as, i, top, [], r, hwf, hrest, h1i, hle, hg => by
    exfalso
    have hlen := hrest.len
    rw [htail] at hlen
    simp only [List.length_nil] at hlen
    rw [genArgs] at hg
    by_cases hni : i + post sig > sig.params.length - 1
    · rw [if_pos hni] at hg; cases hg
    · omega
  | a :: as, i, top, f :: fs, r, hwf, hrest, h1i, hle, hg => by
    obtain ⟨⟨p, hp, hpt, hpd⟩, hrest'⟩ := hrest.next
    have hlt : i < sig.params.length := (List.getElem?_eq_some_iff.1 hp).1
    have hpty : ptyAt sig i = some (Formal.pty f) := by rw [ptyAt, hp, Option.map_some, hpt]
    rw [genArgs] at hg
    by_cases hni : i + post sig > sig.params.length - 1
    · rw [if_pos hni] at hg; cases hg
    · rw [if_neg hni, hpty] at hg
      cases hv : f.variadic with
      | false =>
        rw [Formal.pty, if_neg (by simp [hv])] at hg
        dsimp only at hg
        cases hc : genArg env f.ty a with
        | error e => rw [hc] at hg; cases hg
        | ok c =>
          cases ha : genArgs env sig as (i + 1) top with
          | error e => rw [hc, ha] at hg; cases hg
          | ok q =>
            rw [hc, ha] at hg
            injection hg with hg
            subst hg
            obtain ⟨fs', h1, h2, h3, h4⟩ := genArgs_sources htail hwf.2 hrest' (by omega) hlt ha
            refine ⟨fs', h1, h2.trans (List.suffix_cons ..), h3, fun ss2 h => ?_⟩
            obtain ⟨ss, hss⟩ := h4 ss2 h
            exact ⟨_, by rw [sources, if_neg (by simp [hv]), hss]; rfl⟩
      | true =>
        rw [Formal.pty, if_pos hv] at hg
        dsimp only at hg
        by_cases hsp : env.spread f.ty a.ty = true
        · rw [if_pos hsp] at hg
          cases ha : genArgs env sig as (i + 1) top with
          | error e => rw [ha] at hg; cases hg
          | ok q =>
            rw [ha] at hg
            injection hg with hg
            subst hg
            obtain ⟨fs', h1, h2, h3, h4⟩ := genArgs_sources htail hwf.2 hrest' (by omega) hlt ha
            refine ⟨fs', h1, h2.trans (List.suffix_cons ..), h3, fun ss2 h => ?_⟩
            obtain ⟨ss, hss⟩ := h4 ss2 h
            exact ⟨_, by rw [sources, if_pos hv, if_pos hsp, hss]; rfl⟩
        · rw [if_neg hsp] at hg
          cases hl : genList env top f.ty (a :: as) with
          | error e => rw [hl] at hg; cases hg
          | ok q =>
            rw [hl] at hg
            injection hg with hg
            subst hg
            refine ⟨fs, hrest', List.suffix_cons .., hlt, fun ss2 h => ?_⟩
            exact ⟨_, by rw [sources, if_pos hv, if_neg hsp, h]; rfl⟩

theorem call_sources {env : Env τ} {sig : Sig τ} {m : Bool} {fs : List (Formal τ)} {tail : List (Param τ)} (hs : SigOk sig m fs tail) {target : Target}
    {args : List (Arg τ)} {top : Nat} {r : List Instr × Nat} (hg : genCall env top sig target args = .ok r) : sources env fs args ≠ none := by
  unfold genCall at hg
  cases ha : genArgs env sig args 1 top with
  | error e => rw [ha] at hg; cases hg
  | ok q =>
    rw [ha] at hg
    replace hg : genRest env sig target q.1 q.2.1 q.2.2 = .ok r := hg
    unfold genRest at hg
    by_cases hf : q.2.1 + post sig < sig.params.length - mayMiss sig
    · rw [if_pos hf] at hg; cases hg
    · have h1le : 1 ≤ sig.params.length := by
        cases hp : sig.params with
        | nil => have := hs.first; rw [hp] at this; cases this
        | cons => simp
      obtain ⟨fs', h1, h2, h3, h4⟩ := genArgs_sources hs.tailLen hs.shape.wf hs.rest (Nat.le_refl _) h1le ha
      have hlen := h1.len
      rw [hs.tailLen] at hlen
      obtain ⟨ss2, hss2⟩ := mayMiss_ok (env := env) hs h2 (by omega)
      obtain ⟨ss, hss⟩ := h4 ss2 hss2
      rw [hss]
      exact fun h => nomatch h

theorem call_typed {env : Env τ} {sig : Sig τ} {m : Bool} {fs : List (Formal τ)} {tail : List (Param τ)} (hs : SigOk sig m fs tail) {target : Target}
    {args : List (Arg τ)} {top : Nat} {r : List Instr × Nat} (hg : genCall env top sig target args = .ok r) :
    Defined target ∧ ∀ ss, sources env fs args = some ss → ∀ s ∈ ss, Typed env s := by
  unfold genCall at hg
  cases ha : genArgs env sig args 1 top with
  | error e => rw [ha] at hg; cases hg
  | ok q =>
    refine ⟨?_, fun ss hsrc => genArgs_typed hs.tailLen hs.shape.wf hs.rest ha hsrc⟩
    rw [ha] at hg
    replace hg : genRest env sig target q.1 q.2.1 q.2.2 = .ok r := hg
    unfold genRest at hg
    by_cases hf : q.2.1 + post sig < sig.params.length - mayMiss sig
    · rw [if_pos hf] at hg; cases hg
    · rw [if_neg hf] at hg
      cases target with
      | fn e =>
        intro h0
        rw [genInvoke, if_pos h0] at hg; cases hg
      | value f => trivial
      | closure f => trivial
      | method f e =>
        intro h0
        rw [genInvoke, if_pos h0] at hg; cases hg

end Umka.Call
