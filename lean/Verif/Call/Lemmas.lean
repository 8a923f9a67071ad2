import Verif.Call.Spec

namespace Umka.Call
open Spec

variable {τ : Type} {cal : Int → Callee}

theorem run_append (xs ys : List Instr) (m : M) : run cal (xs ++ ys) m = (run cal xs m).bind (run cal ys) := by
  induction xs generalizing m with
  | nil => rfl
  | cons i is ih =>
    simp only [List.cons_append, run]
    cases step cal m i with
    | none => rfl
    | some m => exact ih m

theorem words_length (mem : Nat → Int) (ty : Ty) (v : Int) : (words mem ty v).length = ty.size := by
  cases ty <;> simp [words, Ty.size, readWords]

theorem readWords_length (mem : Nat → Int) (p k : Nat) : (readWords mem p k).length = k := by simp [readWords]

theorem readWords_getElem (mem : Nat → Int) (p k j : Nat) (h : j < k) : (readWords mem p k)[j]?.getD 0 = mem (p + j) := by
  simp [readWords, h]

theorem write_in (mem : Nat → Int) {p : Nat} {ws : List Int} {a : Nat} (h1 : p ≤ a) (h2 : a < p + ws.length) :
    write mem p ws a = ws[a - p]?.getD 0 := by
  rw [write, if_pos ⟨h1, h2⟩]

theorem write_out (mem : Nat → Int) {p : Nat} {ws : List Int} {a : Nat} (h : ¬ (p ≤ a ∧ a < p + ws.length)) : write mem p ws a = mem a := by
  exact if_neg h

theorem store_eq_write (mem : Nat → Int) (p : Nat) (ty : Ty) (v : Int) : store mem p ty v = write mem p (words mem ty v) := by
  funext a
  have hl := words_length mem ty v
  by_cases h : p ≤ a ∧ a < p + ty.size
  · have h1 := h.1
    have h2 := h.2
    rw [write_in _ h1 (by omega)]
    cases ty with
    | scalar =>
      simp only [Ty.size] at h2
      have : a = p := by omega
      subst this
      simp [store, words]
    | struct k =>
      simp only [Ty.size] at h2
      rw [words, readWords_getElem _ _ _ _ (by omega)]
      exact if_pos ⟨h1, h2⟩
  · rw [write_out _ (by rw [hl]; exact h)]
    cases ty with
    | scalar => exact if_neg (by intro e; subst e; exact h ⟨by omega, by simp [Ty.size]⟩)
    | struct k => exact if_neg h

theorem copy_in (mem : Nat → Int) {dst src n a : Nat} (h1 : dst ≤ a) (h2 : a < dst + n) : copy mem dst src n a = mem (src + (a - dst)) :=
  if_pos ⟨h1, h2⟩

theorem copy_out (mem : Nat → Int) {dst src n a : Nat} (h : ¬ (dst ≤ a ∧ a < dst + n)) : copy mem dst src n a = mem a := if_neg h

/-! ## Items -/

theorem genArg_run {env : Env τ} {t : τ} {a : Arg τ} {code : List Instr} (h : genArg env t a = .ok code) (w : World) (st : List Int) :
    run cal code ⟨w, st⟩ = (evalArg env t a w).map fun q => ⟨q.1, q.2 :: st⟩ := by
  unfold genArg at h
  cases hc : env.conv t a.ty with
  | none => rw [hc] at h; cases h
  | some c =>
    rw [hc] at h
    injection h with h
    subst h
    simp only [run, step, evalArg, hc, Option.bind_eq_bind, Option.bind_some]
    cases a.code w with
    | none => rfl
    | some q =>
      simp only [Option.map_some, Option.bind_some]
      cases c q.1 q.2 <;> rfl

theorem genItems_run {env : Env τ} {t : τ} : ∀ {as : List (Arg τ)} {code : List Instr}, genItems env t as = .ok code → ∀ (w : World) (st : List Int),
    run cal code ⟨w, st⟩ = (evalItems env t as w).map fun q => ⟨q.1, q.2.reverse ++ st⟩
  | [], code, h, w, st => by
    injection h with h
    subst h
    rfl
  | a :: as, code, h, w, st => by
    unfold genItems at h
    cases hc : genArg env t a with
    | error e => rw [hc] at h; cases h
    | ok c =>
      cases hcs : genItems env t as with
      | error e => rw [hc, hcs] at h; cases h
      | ok cs =>
        rw [hc, hcs] at h
        replace h : Except.ok (c ++ cs) = Except.ok code := h
        injection h with h
        subst h
        rw [run_append, genArg_run hc, evalItems]
        cases evalArg env t a w with
        | none => rfl
        | some q =>
          simp only [Option.map_some, Option.bind_some, Option.bind_eq_bind]
          rw [genItems_run hcs]
          cases evalItems env t as q.1 with
          | none => rfl
          | some r => simp

theorem evalItems_length {env : Env τ} {t : τ} : ∀ {as : List (Arg τ)} {w w' : World} {vs : List Int},
    evalItems env t as w = some (w', vs) → vs.length = as.length
  | [], w, w', vs, h => by
    injection h with h; injection h with h1 h2; subst h2; rfl
  | a :: as, w, w', vs, h => by
    rw [evalItems] at h
    cases ha : evalArg env t a w with
    | none => rw [ha] at h; cases h
    | some q =>
      cases hr : evalItems env t as q.1 with
      | none => simp [ha, hr] at h
      | some r =>
        simp only [ha, hr, Option.bind_eq_bind, Option.bind_some, Option.some.injEq, Prod.mk.injEq] at h
        rw [← h.2, List.length_cons, List.length_cons, evalItems_length (w := q.1) (w' := r.1) (vs := r.2) hr]

/-- The values of the items are outside the static array, and the heap has only grown. -/
theorem evalItems_ok {env : Env τ} {t : τ} {lo hi : Nat} : ∀ {as : List (Arg τ)} {w w' : World} {vs : List Int},
    (∀ a ∈ as, ArgOk env lo hi a) → evalItems env t as w = some (w', vs) →
    w.brk ≤ w'.brk ∧ ∀ v ∈ vs, ∀ k, env.shape t = .struct k → v.toNat + k ≤ lo ∨ hi ≤ v.toNat
  | [], w, w', vs, _, h => by
    injection h with h; injection h with h1 h2; subst h1 h2
    exact ⟨Nat.le_refl _, fun v hv => nomatch hv⟩
  | a :: as, w, w', vs, hok, h => by
    rw [evalItems] at h
    cases ha : evalArg env t a w with
    | none => rw [ha] at h; cases h
    | some q =>
      cases hr : evalItems env t as q.1 with
      | none => simp [ha, hr] at h
      | some r =>
        simp only [ha, hr, Option.bind_eq_bind, Option.bind_some, Option.some.injEq, Prod.mk.injEq] at h
        have h1 := hok a (List.mem_cons_self ..) t w q.1 q.2 ha
        have h2 := evalItems_ok (fun a ha => hok a (List.mem_cons_of_mem _ ha)) (w := q.1) (w' := r.1) (vs := r.2) hr
        rw [← h.1, ← h.2]
        refine ⟨Nat.le_trans h1.1 h2.1, fun v hv => ?_⟩
        rcases List.mem_cons.1 hv with hv | hv
        · subst hv; exact h1.2
        · exact h2.2 v hv

theorem words_agree {mem mem' : Nat → Int} {lo hi : Nat} {ty : Ty} {v : Int} (hs : ∀ k, ty = .struct k → v.toNat + k ≤ lo ∨ hi ≤ v.toNat)
    (h : ∀ a, ¬ (lo ≤ a ∧ a < hi) → mem a = mem' a) : words mem ty v = words mem' ty v := by
  cases ty with
  | scalar => rfl
  | struct k =>
    simp only [words, readWords]
    apply List.map_congr_left
    intro j hj
    rw [List.mem_range] at hj
    have := hs k rfl
    exact h _ (by omega)

/-- The stores of `genStores`: item `i` of the static array gets the words of value `i`. -/
theorem stores_run (tmp hi : Nat) (ty : Ty) (vs : List Int) (hfit : tmp + vs.length * ty.size ≤ hi) (mem0 : Nat → Int)
    (hs : ∀ v ∈ vs, ∀ k, ty = .struct k → v.toNat + k ≤ tmp ∨ hi ≤ v.toNat) :
    ∀ (n : Nat) (w : World) (st : List Int), n ≤ vs.length → (∀ a, ¬ (tmp ≤ a ∧ a < hi) → w.mem a = mem0 a) →
    ∃ mem', run cal (genStores tmp ty n) ⟨w, (vs.take n).reverse ++ st⟩ = some ⟨{ w with mem := mem' }, st⟩ ∧
      (∀ a, ¬ (tmp ≤ a ∧ a < tmp + n * ty.size) → mem' a = w.mem a) ∧
      ∀ i v, i < n → vs[i]? = some v → ∀ j, j < ty.size → mem' (tmp + i * ty.size + j) = (words mem0 ty v)[j]?.getD 0
  | 0, w, st, _, _ => ⟨w.mem, rfl, fun _ _ => rfl, fun i v h => by omega⟩
  | n + 1, w, st, hn, hw => by
    have hlt : n < vs.length := by omega
    have htake : (vs.take (n + 1)).reverse ++ st = vs[n] :: ((vs.take n).reverse ++ st) := by
      rw [List.take_add_one, List.getElem?_eq_getElem hlt, List.reverse_append]
      rfl
    rw [htake, genStores, run, step]
    simp only [Option.bind_some, run, step, Int.toNat_natCast]
    have hmul : (n + 1) * ty.size = n * ty.size + ty.size := Nat.succ_mul ..
    have hle : (n + 1) * ty.size ≤ vs.length * ty.size := Nat.mul_le_mul_right _ hn
    have hsn := hs vs[n] (List.getElem_mem hlt)
    have hout : ∀ a, ¬ (tmp + n * ty.size ≤ a ∧ a < tmp + n * ty.size + ty.size) → store w.mem (tmp + n * ty.size) ty vs[n] a = w.mem a := by
      intro a ha
      rw [store_eq_write, write_out _ (by rw [words_length]; exact ha)]
    have hin : ∀ j, j < ty.size → store w.mem (tmp + n * ty.size) ty vs[n] (tmp + n * ty.size + j) = (words mem0 ty vs[n])[j]?.getD 0 := by
      intro j hj
      rw [store_eq_write, write_in _ (by omega) (by rw [words_length]; omega), words_agree hsn hw,
        show tmp + n * ty.size + j - (tmp + n * ty.size) = j by omega]
    obtain ⟨mem', h1, h2, h3⟩ := stores_run tmp hi ty vs hfit mem0 hs n { w with mem := store w.mem (tmp + n * ty.size) ty vs[n] } st (by omega)
      (fun a ha => (hout a (by omega)).trans (hw a ha))
    refine ⟨mem', h1, ?_, ?_⟩
    · intro a ha
      exact (h2 a (by omega)).trans (hout a (by omega))
    · intro i v hi' hv j hj
      by_cases hin' : i = n
      · subst hin'
        rw [List.getElem?_eq_getElem hlt] at hv
        injection hv with hv
        subst hv
        exact (h2 _ (by omega)).trans (hin j hj)
      · exact h3 i v (by omega) hv j hj

theorem flatMap_getElem (f : Int → List Int) (k : Nat) (hf : ∀ v, (f v).length = k) : ∀ (vs : List Int) (i j : Nat) (v : Int), vs[i]? = some v → j < k →
    (vs.flatMap f)[i * k + j]? = (f v)[j]?
  | [], i, j, v, h, _ => by simp at h
  | u :: vs, 0, j, v, h, hj => by
    injection h with h
    subst h
    rw [List.flatMap_cons, Nat.zero_mul, Nat.zero_add, List.getElem?_append_left (by rw [hf]; exact hj)]
  | u :: vs, i + 1, j, v, h, hj => by
    have hm : (i + 1) * k = i * k + k := Nat.succ_mul ..
    rw [List.flatMap_cons, List.getElem?_append_right (by rw [hf]; omega), hf, show (i + 1) * k + j - k = i * k + j by omega]
    exact flatMap_getElem f k hf vs i j v h hj

theorem contents_length (env : Env τ) (t : τ) (w : World) (vs : List Int) : (contents env t w vs).length = vs.length * (env.shape t).size := by
  unfold contents
  induction vs with
  | nil => simp
  | cons v vs ih => rw [List.flatMap_cons, List.length_append, ih, words_length, List.length_cons, Nat.succ_mul]; omega

/-- The code of a list of items leaves the address of a new dynamic array. -/
theorem genList_run {env : Env τ} {top top' hi : Nat} {t : τ} {as : List (Arg τ)} {code : List Instr} (h : genList env top t as = .ok (code, top'))
    (hhi : top' ≤ hi) (hok : ∀ a ∈ as, ArgOk env top hi a) (w : World) (hb : hi ≤ w.brk) (st : List Int) :
    (evalItems env t as w = none → run cal code ⟨w, st⟩ = none) ∧
    ∀ w1 vs, evalItems env t as w = some (w1, vs) →
      ∃ w2 res, run cal code ⟨w, st⟩ = some ⟨w2, (res : Nat) :: st⟩ ∧ SameOutside top hi (newArray w1 as.length (contents env t w1 vs)).1 w2 ∧
        readWords w2.mem res 2 = (newArray w1 as.length (contents env t w1 vs)).2 ∧ top ≤ res ∧ res + 2 ≤ hi := by
  unfold genList at h
  cases hc : genItems env t as with
  | error e => rw [hc] at h; cases h
  | ok c =>
    rw [hc] at h
    injection h with h
    injection h with h ht
    subst h ht
    have hrun := genItems_run (cal := cal) hc w st
    refine ⟨fun hn => ?_, fun w1 vs he => ?_⟩
    · rw [run_append, hrun, hn]; rfl
    · have hl := evalItems_length he
      obtain ⟨hbrk, hsrc⟩ := evalItems_ok hok he
      have hm : (as.length * (env.shape t).size) = vs.length * (env.shape t).size := by rw [hl]
      obtain ⟨mem', h1, h2, h3⟩ := stores_run (cal := cal) top hi (env.shape t) vs (by omega) w1.mem hsrc vs.length w1 st (Nat.le_refl _) (fun _ _ => rfl)
      rw [List.take_length] at h1
      rw [run_append, hrun, he, Option.map_some, Option.bind_some, ← hl, run_append, h1, Option.bind_some]
      simp only [run, step, Option.bind_some, Int.toNat_natCast]
      have hcl := contents_length env t w1 vs
      refine ⟨_, _, rfl, ⟨?_, rfl, rfl, ?_⟩, ?_, by omega, by omega⟩
      · show w1.brk + _ = w1.brk + _
        rw [hcl]
      · intro a ha
        show (store (store (copy mem' w1.brk top (vs.length * (env.shape t).size)) (top + vs.length * (env.shape t).size) .scalar w1.brk)
          (top + vs.length * (env.shape t).size + 1) .scalar vs.length) a = write w1.mem w1.brk (contents env t w1 vs) a
        rw [store, store]
        dsimp only
        rw [if_neg (by omega), if_neg (by omega)]
        by_cases hin : w1.brk ≤ a ∧ a < w1.brk + vs.length * (env.shape t).size
        · rw [copy_in _ hin.1 hin.2, write_in _ hin.1 (by rw [hcl]; exact hin.2)]
          have hk : 0 < (env.shape t).size := by
            rcases Nat.eq_zero_or_pos (env.shape t).size with h0 | h0
            · rw [h0] at hin; omega
            · exact h0
          generalize hd : a - w1.brk = d
          have hdlt : d < vs.length * (env.shape t).size := by omega
          have hq : d / (env.shape t).size < vs.length := (Nat.div_lt_iff_lt_mul hk).2 hdlt
          have hr := Nat.mod_lt d hk
          have hdm : d = d / (env.shape t).size * (env.shape t).size + d % (env.shape t).size := by
            have := Nat.div_add_mod d (env.shape t).size; rw [Nat.mul_comm] at this; omega
          have := h3 _ _ hq (List.getElem?_eq_getElem hq) _ hr
          have h5 := flatMap_getElem (fun v => words w1.mem (env.shape t) v) _ (fun v => words_length _ _ v) vs _ _ _ (List.getElem?_eq_getElem hq) hr
          rw [← hdm] at h5
          rw [show top + d = top + d / (env.shape t).size * (env.shape t).size + d % (env.shape t).size by omega, this, contents, h5]
        · rw [copy_out _ hin, write_out _ (by rw [hcl]; exact hin)]
          exact h2 a (by omega)
      · simp only [readWords, List.range_succ, List.range_zero, List.nil_append, List.map_cons, List.map_nil, newArray, Nat.add_zero,
          List.cons_append]
        simp [store]

end Umka.Call
