import Verif.ListAsg.Spec

namespace Umka.ListAsg
open Spec

theorem run_append (xs ys : List Instr) (m : M) : run (xs ++ ys) m = (run xs m).bind (run ys) := by
  induction xs generalizing m with
  | nil => rfl
  | cons i is ih =>
    simp only [List.cons_append, run]
    cases step m i with
    | none => rfl
    | some m => exact ih m

theorem run_users (fs : List Code) : ∀ (w : World) (st : List Int),
    run (fs.map .user) ⟨w, st⟩ = (evalAll fs w).map fun q => ⟨q.1, q.2.reverse ++ st⟩ := by
  induction fs with
  | nil => intro w st; rfl
  | cons f fs ih =>
    intro w st
    simp only [List.map_cons, run, step, evalAll]
    cases f w with
    | none => rfl
    | some q =>
      simp only [Option.map_some, Option.bind_some, Option.bind_eq_bind]
      rw [ih]
      cases evalAll fs q.1 with
      | none => rfl
      | some r => simp

theorem evalAll_length {fs : List Code} {w w' : World} {vs : List Int} (h : evalAll fs w = some (w', vs)) : vs.length = fs.length := by
  induction fs generalizing w w' vs with
  | nil => simp only [evalAll, Option.some.injEq, Prod.mk.injEq] at h; rw [← h.2]; rfl
  | cons f fs ih =>
    simp only [evalAll, Option.bind_eq_bind] at h
    cases hf : f w with
    | none => rw [hf] at h; cases h
    | some q =>
      rw [hf] at h
      simp only [Option.bind_some] at h
      cases he : evalAll fs q.1 with
      | none => rw [he] at h; cases h
      | some r =>
        rw [he] at h
        simp only [Option.bind_some, Option.some.injEq, Prod.mk.injEq] at h
        rw [← h.2, List.length_cons, List.length_cons, ih (w := q.1) (w' := r.1) (vs := r.2) he]

theorem words_length (mem : Nat → Int) (ty : Ty) (v : Int) : (words mem ty v).length = ty.size := by
  cases ty <;> simp [words, Ty.size, readWords]

theorem readWords_getElem (mem : Nat → Int) (p k j : Nat) (h : j < k) : (readWords mem p k)[j]?.getD 0 = mem (p + j) := by
  simp [readWords, h]

theorem write_in (mem : Nat → Int) {p : Nat} {ws : List Int} {a : Nat} (h1 : p ≤ a) (h2 : a < p + ws.length) :
    write mem p ws a = ws[a - p]?.getD 0 := by
  rw [write, if_pos ⟨h1, h2⟩]

theorem write_out (mem : Nat → Int) {p : Nat} {ws : List Int} {a : Nat} (h : ¬ Area p ws.length a) : write mem p ws a = mem a := by
  exact if_neg h

theorem write_congr {mem mem' : Nat → Int} {p : Nat} {ws : List Int} {a : Nat} (h : mem a = mem' a) : write mem p ws a = write mem' p ws a := by
  simp only [write, h]

theorem store_eq_write (mem : Nat → Int) (p : Nat) (ty : Ty) (v : Int) : store mem p ty v = write mem p (words mem ty v) := by
  funext a
  have hl := words_length mem ty v
  by_cases h : Area p ty.size a
  · have h1 := h.1
    have h2 := h.2
    rw [write_in _ h1 (by omega)]
    cases ty with
    | scalar =>
      simp only [Ty.size] at h2
      have : a = p := by omega
      subst this
      simp [store, words]
    | struct k =>
      simp only [Ty.size] at h2
      rw [words, readWords_getElem _ _ _ _ (by omega)]
      exact if_pos ⟨h1, h2⟩
  · rw [write_out _ (by rw [hl]; exact h)]
    cases ty with
    | scalar => exact if_neg (by intro e; subst e; exact h ⟨by omega, by simp [Ty.size]⟩)
    | struct k => exact if_neg h

theorem offset_succ (tys : List Ty) (k : Nat) (h : k < tys.length) : offset tys (k + 1) = offset tys k + (tys[k]?.getD .scalar).size := by
  simp only [offset, listSize, List.take_add_one, List.map_append, List.sum_append, List.getElem?_eq_getElem h, Option.toList, Option.getD_some,
    List.map_cons, List.map_nil, List.sum_cons, List.sum_nil]
  omega

theorem offset_length (tys : List Ty) : offset tys tys.length = listSize tys := by simp [offset]

theorem offset_mono (tys : List Ty) (i : Nat) : ∀ k, k ≤ tys.length → i ≤ k → offset tys i ≤ offset tys k
  | 0, _, h => by have : i = 0 := by omega
                  subst this; exact Nat.le_refl _
  | k + 1, hk, h => by
    by_cases e : i = k + 1
    · subst e; exact Nat.le_refl _
    · rw [offset_succ tys k (by omega)]
      have := offset_mono tys i k (by omega) (by omega)
      omega

theorem offset_fit (tys : List Ty) (i : Nat) (h : i < tys.length) : offset tys i + (tys[i]?.getD .scalar).size ≤ listSize tys := by
  rw [← offset_succ tys i h, ← offset_length tys]
  exact offset_mono tys _ _ (Nat.le_refl _) h

theorem take_reverse (vs : List Int) (k : Nat) (h : k < vs.length) (st : List Int) :
    (vs.take (k + 1)).reverse ++ st = vs[k]?.getD 0 :: ((vs.take k).reverse ++ st) := by
  rw [List.take_add_one, List.getElem?_eq_getElem h, List.reverse_append]
  rfl

theorem words_agree {mem mem' : Nat → Int} {tmp size : Nat} {ty : Ty} {v : Int} (hs : SourceOk tmp size ty v)
    (h : ∀ a, ¬ Area tmp size a → mem a = mem' a) : words mem ty v = words mem' ty v := by
  cases ty with
  | scalar => rfl
  | struct k =>
    simp only [words, readWords]
    apply List.map_congr_left
    intro j hj
    rw [List.mem_range] at hj
    exact h _ fun ha => hs (v.toNat + j) ⟨⟨by omega, by omega⟩, ha⟩

theorem fields_run (tmp : Nat) (tys : List Ty) (vs : List Int) (hl : vs.length = tys.length) (mem0 : Nat → Int)
    (hs : ∀ i, i < tys.length → SourceOk tmp (listSize tys) (tys[i]?.getD .scalar) (vs[i]?.getD 0)) :
    ∀ (k : Nat) (w : World) (st : List Int), k ≤ tys.length → (∀ a, ¬ Area tmp (listSize tys) a → w.mem a = mem0 a) →
    ∃ w', run (genFields tmp tys k) ⟨w, (vs.take k).reverse ++ st⟩ = some ⟨w', st⟩ ∧
      (∀ a, ¬ Area tmp (offset tys k) a → w'.mem a = w.mem a) ∧
      ∀ i, i < k → ∀ j, j < (tys[i]?.getD .scalar).size →
        w'.mem (tmp + offset tys i + j) = (words mem0 (tys[i]?.getD .scalar) (vs[i]?.getD 0))[j]?.getD 0
  | 0, w, st, _, _ => ⟨w, rfl, fun _ _ => rfl, fun i h => by omega⟩
  | k + 1, w, st, hk, hw => by
    rw [take_reverse vs k (by omega), genFields, run, step]
    simp only [Option.bind_some, run, step, Int.toNat_natCast]
    generalize hty : tys[k]?.getD .scalar = ty
    generalize hv : vs[k]?.getD 0 = v
    have hsk := hs k (by omega)
    rw [hty, hv] at hsk
    have hfit := offset_fit tys k (by omega)
    rw [hty] at hfit
    have hout : ∀ a, ¬ Area (tmp + offset tys k) ty.size a → store w.mem (tmp + offset tys k) ty v a = w.mem a := by
      intro a ha
      rw [store_eq_write, write_out _ (by rw [words_length]; exact ha)]
    have hin : ∀ j, j < ty.size → store w.mem (tmp + offset tys k) ty v (tmp + offset tys k + j) = (words mem0 ty v)[j]?.getD 0 := by
      intro j hj
      rw [store_eq_write, write_in _ (by omega) (by rw [words_length]; omega), words_agree hsk hw,
        show tmp + offset tys k + j - (tmp + offset tys k) = j by omega]
    obtain ⟨w', h1, h2, h3⟩ := fields_run tmp tys vs hl mem0 hs k { w with mem := store w.mem (tmp + offset tys k) ty v } st (by omega)
      (fun a ha => by
        exact (hout a (fun h => ha ⟨by have := h.1; omega, by have := h.2; omega⟩)).trans (hw a ha))
    refine ⟨w', h1, ?_, ?_⟩
    · intro a ha
      rw [offset_succ tys k (by omega), hty] at ha
      rw [h2 a (fun h => ha ⟨h.1, by have := h.2; omega⟩)]
      exact hout a (fun h => ha ⟨by have := h.1; omega, by have := h.2; omega⟩)
    · intro i hi j hj
      by_cases e : i = k
      · subst e
        rw [hty] at hj
        rw [h2 _ (fun h => by have := h.2; omega), hty, hv]
        exact hin j hj
      · exact h3 i (by omega) j hj

/-- What the code of the right side leaves: the address of the list, whose fields have the words of the specification. -/
structure ListAt (r : Right) (L : Nat) (w2 w' : World) (wss : List (List Int)) : Prop where
  out : ∀ a, ¬ Area L (listSize r.tys) a → w'.mem a = w2.mem a
  field : ∀ i, i < r.tys.length → ∀ j, j < (r.tys[i]?.getD .scalar).size →
    w'.mem (L + offset r.tys i + j) = (wss[i]?.getD [])[j]?.getD 0
  len : ∀ i, i < r.tys.length → (wss[i]?.getD []).length = (r.tys[i]?.getD .scalar).size

theorem right_run (r : Right) (w1 w2 : World) (wss : List (List Int)) (st : List Int) (h : rightWords r w1 = some (w2, wss))
    (hok : RightOk r w1) :
    ∃ w', run (genRight r) ⟨w1, st⟩ = some ⟨w', (address r w1 : Int) :: st⟩ ∧ ListAt r (address r w1) w2 w' wss := by
  cases r with
  | call f tys =>
    simp only [rightWords, Option.bind_eq_bind] at h
    cases hf : f w1 with
    | none => rw [hf] at h; cases h
    | some q =>
      obtain ⟨w, p⟩ := q
      rw [hf] at h
      simp only [Option.bind_some, Option.some.injEq, Prod.mk.injEq] at h
      obtain ⟨rfl, rfl⟩ := h
      have hp := hok w p hf
      refine ⟨w, ?_, ⟨fun _ _ => rfl, ?_, ?_⟩⟩
      · simp only [genRight, run, step, hf, Option.map_some, Option.bind_some, address]
        rw [show ((p.toNat : Nat) : Int) = p by omega]
      · intro i hi j hj
        simp only [Right.tys] at hi hj ⊢
        rw [List.getElem?_map, List.getElem?_range hi]
        simp only [Option.map_some, Option.getD_some, address, hf]
        rw [readWords_getElem _ _ _ _ hj]
      · intro i hi
        simp only [Right.tys] at hi ⊢
        rw [List.getElem?_map, List.getElem?_range hi]
        simp [readWords]
  | exprs tmp es =>
    simp only [rightWords, Option.bind_eq_bind] at h
    cases he : evalAll (es.map (·.1)) w1 with
    | none => rw [he] at h; cases h
    | some q =>
      obtain ⟨w, vs⟩ := q
      rw [he] at h
      simp only [Option.bind_some, Option.some.injEq, Prod.mk.injEq] at h
      obtain ⟨rfl, rfl⟩ := h
      have hl : vs.length = es.length := by rw [evalAll_length he, List.length_map]
      have hs : ∀ i, i < (es.map (·.2)).length →
          SourceOk tmp (listSize (es.map (·.2))) ((es.map (·.2))[i]?.getD .scalar) (vs[i]?.getD 0) := by
        intro i hi
        rw [List.length_map] at hi
        have := hok w vs he i es[i] (vs[i]'(by omega)) (List.getElem?_eq_getElem hi) (List.getElem?_eq_getElem (by omega))
        rw [List.getElem?_map, List.getElem?_eq_getElem hi, List.getElem?_eq_getElem (show i < vs.length by omega)]
        exact this
      let wz : World := { w with mem := fun b => if tmp ≤ b ∧ b < tmp + listSize (es.map (·.2)) then 0 else w.mem b }
      obtain ⟨w', h1, h2, h3⟩ := fields_run tmp (es.map (·.2)) vs (by rw [List.length_map, hl]) w.mem hs es.length wz st
        (by rw [List.length_map]; exact Nat.le_refl _) (by
          intro a ha
          exact if_neg ha)
      refine ⟨w', ?_, ⟨?_, ?_, ?_⟩⟩
      · simp only [genRight, genExprList, run_append]
        rw [show es.map (fun e => Instr.user e.1) = (es.map (·.1)).map .user by rw [List.map_map]; rfl, run_users, he]
        simp only [Option.map_some, Option.bind_some, run, step]
        rw [show vs.reverse ++ st = (vs.take es.length).reverse ++ st by rw [← hl, List.take_length]]
        rw [h1]
        rfl
      · intro a ha
        simp only [address, Right.tys] at ha
        rw [h2 a (by
          have := offset_length (es.map (·.2))
          rw [List.length_map] at this
          rw [this]; exact ha)]
        exact if_neg ha
      · intro i hi j hj
        simp only [address, Right.tys, List.length_map] at hi hj ⊢
        rw [h3 i hi j hj]
        rw [List.getElem?_zipWith, List.getElem?_eq_getElem hi, List.getElem?_eq_getElem (show i < vs.length by omega), List.getElem?_map,
          List.getElem?_eq_getElem hi]
        rfl
      · intro i hi
        simp only [Right.tys, List.length_map] at hi ⊢
        rw [List.getElem?_zipWith, List.getElem?_eq_getElem hi, List.getElem?_eq_getElem (show i < vs.length by omega), List.getElem?_map,
          List.getElem?_eq_getElem hi]
        exact words_length _ _ _

theorem right_fails (r : Right) (w1 : World) (st : List Int) (h : rightWords r w1 = none) : run (genRight r) ⟨w1, st⟩ = none := by
  cases r with
  | call f tys =>
    simp only [rightWords, Option.bind_eq_bind] at h
    cases hf : f w1 with
    | none => simp [genRight, run, step, hf]
    | some q => rw [hf] at h; cases h
  | exprs tmp es =>
    simp only [rightWords, Option.bind_eq_bind] at h
    cases he : evalAll (es.map (·.1)) w1 with
    | none =>
      simp only [genRight, genExprList, run_append]
      rw [show es.map (fun e => Instr.user e.1) = (es.map (·.1)).map .user by rw [List.map_map]; rfl, run_users, he]
      rfl
    | some q => rw [he] at h; cases h

/-- What is read and converted before one store. -/
theorem load_run (tys : List Ty) (convs : Nat → Int → Option Int) (i : Nat) (hi : i < tys.length) (L : Nat) (w : World) (st : List Int)
    (ws : List Int) (hf : ∀ j, j < (tys[i]?.getD .scalar).size → w.mem (L + offset tys i + j) = ws[j]?.getD 0)
    (hl : ws.length = (tys[i]?.getD .scalar).size) :
    (convert tys convs i ws = none → run (genLoad tys convs i) ⟨w, (L : Int) :: st⟩ = none) ∧
    ∀ vs, convert tys convs i ws = some vs → ∃ v, run (genLoad tys convs i) ⟨w, (L : Int) :: st⟩ = some ⟨w, v :: st⟩ ∧
      words w.mem (tys[i]?.getD .scalar) v = vs := by
  unfold convert genLoad
  generalize tys[i]?.getD .scalar = ty at *
  have hz : ((L : Int) + (offset tys i : Nat)).toNat = L + offset tys i := by omega
  cases ty with
  | scalar =>
    simp only [Ty.size] at hl hf
    match ws, hl with
    | [x], _ =>
      have h0 := hf 0 (by omega)
      simp only [List.getElem?_cons_zero, Option.getD_some, Nat.add_zero] at h0
      simp only [List.cons_append, List.nil_append, run, step, Option.bind_some, hz, h0]
      cases convs i x with
      | none => exact ⟨fun _ => rfl, fun vs h => nomatch h⟩
      | some y =>
        refine ⟨(fun h => nomatch h), fun vs h => ⟨y, rfl, ?_⟩⟩
        simp only [Option.map_some, Option.some.injEq] at h
        rw [← h]
        rfl
  | struct k =>
    simp only [Ty.size] at hl hf
    refine ⟨(fun h => nomatch h), fun vs h => ?_⟩
    simp only [Option.some.injEq] at h
    refine ⟨(L : Int) + (offset tys i : Nat), rfl, ?_⟩
    rw [← h]
    simp only [words, hz, readWords]
    apply List.ext_getElem?
    intro j
    by_cases hj : j < k
    · rw [List.getElem?_map, List.getElem?_range hj, Option.map_some, hf j hj, List.getElem?_eq_getElem (by omega)]
      rfl
    · rw [List.getElem?_eq_none (by simp; omega), List.getElem?_eq_none (by omega)]

theorem convert_length {tys : List Ty} {convs : Nat → Int → Option Int} {i : Nat} {ws vs : List Int} (h : convert tys convs i ws = some vs) :
    vs.length = ws.length := by
  unfold convert at h
  split at h
  · rw [Option.map_eq_some_iff] at h
    obtain ⟨x, _, h⟩ := h
    rw [← h]; rfl
  · injection h with h; rw [h]

/-- Facts that stores outside the list do not change. -/
structure Fields (tys : List Ty) (L : Nat) (w : World) (wss : Nat → List Int) : Prop where
  field : ∀ i, i < tys.length → ∀ j, j < (tys[i]?.getD .scalar).size → w.mem (L + offset tys i + j) = (wss i)[j]?.getD 0
  len : ∀ i, i < tys.length → (wss i).length = (tys[i]?.getD .scalar).size

theorem Fields.write {tys : List Ty} {L : Nat} {w : World} {wss : Nat → List Int} (F : Fields tys L w wss) (p : Nat) (vs : List Int) (reg : Int)
    (h : Apart p vs.length L (listSize tys)) : Fields tys L ⟨write w.mem p vs, reg⟩ wss := by
  refine ⟨fun i hi j hj => ?_, F.len⟩
  rw [← F.field i hi j hj]
  have := offset_fit tys i hi
  exact write_out _ fun ha => h _ ⟨ha, ⟨by omega, by omega⟩⟩

theorem Fields.reg {tys : List Ty} {L : Nat} {w : World} {wss : Nat → List Int} (F : Fields tys L w wss) (reg : Int) :
    Fields tys L { w with reg := reg } wss := ⟨F.field, F.len⟩

/-- One store of an assignment. -/
theorem store_run (tys : List Ty) (convs : Nat → Int → Option Int) (i : Nat) (hi : i < tys.length) (L : Nat) (w : World) (st : List Int) (p : Int)
    (wss : Nat → List Int) (F : Fields tys L w wss) :
    (convert tys convs i (wss i) = none → run (genStore tys convs i) ⟨w, (L : Int) :: p :: st⟩ = none) ∧
    ∀ vs, convert tys convs i (wss i) = some vs →
      run (genStore tys convs i) ⟨w, (L : Int) :: p :: st⟩ = some ⟨⟨write w.mem p.toNat vs, L⟩, (L : Int) :: st⟩ := by
  obtain ⟨l1, l2⟩ := load_run tys convs i hi L { w with reg := (L : Int) } (p :: st) (wss i) (F.field i hi) (F.len i hi)
  rw [genStore, run_append]
  have e : run [.dup, .popReg] ⟨w, (L : Int) :: p :: st⟩ = some ⟨{ w with reg := (L : Int) }, (L : Int) :: p :: st⟩ := rfl
  rw [e, Option.bind_some, run_append]
  constructor
  · intro h
    rw [l1 h]; rfl
  · intro vs h
    obtain ⟨v, h1, h2⟩ := l2 vs h
    rw [h1]
    simp only [Option.bind_some, run, step]
    rw [store_eq_write]
    simp only at h2
    rw [h2]

theorem stores_run (tys : List Ty) (convs : Nat → Int → Option Int) (ps : List Int) (L : Nat) (wss vss : Nat → List Int)
    (hlen : ps.length = tys.length)
    (hc : ∀ i, i < tys.length → convert tys convs i (wss i) = some (vss i))
    (ha : ∀ i, i < tys.length → Apart (ps[i]?.getD 0).toNat (tys[i]?.getD .scalar).size L (listSize tys)) :
    ∀ (k : Nat) (w : World) (st : List Int) (mem0 : Nat → Int), k ≤ tys.length → Fields tys L w wss →
    (∀ a, ¬ Area L (listSize tys) a → w.mem a = mem0 a) →
    ∃ w', run (genStores tys convs k) ⟨w, (L : Int) :: ((ps.take k).reverse ++ st)⟩ = some ⟨w', (L : Int) :: st⟩ ∧
      ∀ a, ¬ Area L (listSize tys) a → w'.mem a = storeAll (fun i => (ps[i]?.getD 0).toNat) vss k mem0 a
  | 0, w, st, mem0, _, _, hw => ⟨w, rfl, hw⟩
  | k + 1, w, st, mem0, hk, F, hw => by
    rw [take_reverse ps k (by omega), genStores, run_append,
      (store_run tys convs k (by omega) L w _ _ wss F).2 _ (hc k (by omega)), Option.bind_some]
    have hl : (vss k).length = (tys[k]?.getD .scalar).size := by rw [convert_length (hc k (by omega)), F.len k (by omega)]
    obtain ⟨w', h1, h2⟩ := stores_run tys convs ps L wss vss hlen hc ha k ⟨write w.mem (ps[k]?.getD 0).toNat (vss k), L⟩ st
      (write mem0 (ps[k]?.getD 0).toNat (vss k)) (by omega)
      (F.write _ _ _ (by rw [hl]; exact ha k (by omega))) (by
        intro a h
        exact write_congr (hw a h))
    exact ⟨w', h1, h2⟩

theorem stores_fail (tys : List Ty) (convs : Nat → Int → Option Int) (ps : List Int) (L : Nat) (wss : Nat → List Int)
    (hlen : ps.length = tys.length)
    (ha : ∀ i, i < tys.length → Apart (ps[i]?.getD 0).toNat (tys[i]?.getD .scalar).size L (listSize tys)) :
    ∀ (k : Nat) (w : World) (st : List Int), k ≤ tys.length → Fields tys L w wss → (∃ i, i < k ∧ convert tys convs i (wss i) = none) →
    run (genStores tys convs k) ⟨w, (L : Int) :: ((ps.take k).reverse ++ st)⟩ = none
  | 0, w, st, _, _, h => by obtain ⟨i, h, _⟩ := h; omega
  | k + 1, w, st, hk, F, h => by
    rw [take_reverse ps k (by omega), genStores, run_append]
    obtain ⟨s1, s2⟩ := store_run tys convs k (by omega) L w ((ps.take k).reverse ++ st) (ps[k]?.getD 0) wss F
    cases hc : convert tys convs k (wss k) with
    | none => rw [s1 hc]; rfl
    | some vs =>
      rw [s2 vs hc, Option.bind_some]
      have hl : vs.length = (tys[k]?.getD .scalar).size := by rw [convert_length hc, F.len k (by omega)]
      apply stores_fail tys convs ps L wss hlen ha k _ st (by omega) (F.write _ _ _ (by rw [hl]; exact ha k (by omega)))
      obtain ⟨i, h1, h2⟩ := h
      refine ⟨i, ?_, h2⟩
      by_cases e : i = k
      · subst e; rw [h2] at hc; cases hc
      · omega

/-- One store of a declaration. -/
theorem decl_run (tys : List Ty) (convs : Nat → Int → Option Int) (vars : Nat → Nat) (i : Nat) (hi : i < tys.length) (L : Nat) (w : World)
    (st : List Int) (wss : Nat → List Int) (F : Fields tys L w wss) (vs : List Int) (h : convert tys convs i (wss i) = some vs) :
    run (genDecl tys convs vars i) ⟨w, (L : Int) :: st⟩ = some ⟨⟨write w.mem (vars i) vs, w.reg⟩, (L : Int) :: st⟩ := by
  obtain ⟨l1, l2⟩ := load_run tys convs i hi L w ((L : Int) :: st) (wss i) (F.field i hi) (F.len i hi)
  rw [genDecl, run_append]
  have e : run [.dup] ⟨w, (L : Int) :: st⟩ = some ⟨w, (L : Int) :: (L : Int) :: st⟩ := rfl
  rw [e, Option.bind_some, run_append]
  obtain ⟨v, h1, h2⟩ := l2 vs h
  rw [h1]
  simp only [Option.bind_some, run, step, Int.toNat_natCast]
  rw [store_eq_write, h2]

theorem decls_run (tys : List Ty) (convs : Nat → Int → Option Int) (vars : Nat → Nat) (L : Nat) (wss vss : Nat → List Int)
    (hc : ∀ i, i < tys.length → convert tys convs i (wss i) = some (vss i))
    (ha : ∀ i, i < tys.length → Apart (vars i) (tys[i]?.getD .scalar).size L (listSize tys)) (st : List Int) :
    ∀ (is : List Nat) (w : World) (mem0 : Nat → Int), (∀ i ∈ is, i < tys.length) → Fields tys L w wss →
    (∀ a, ¬ Area L (listSize tys) a → w.mem a = mem0 a) →
    ∃ w', run (is.flatMap (genDecl tys convs vars)) ⟨w, (L : Int) :: st⟩ = some ⟨w', (L : Int) :: st⟩ ∧
      ∀ a, ¬ Area L (listSize tys) a → w'.mem a = is.foldl (fun mem i => write mem (vars i) (vss i)) mem0 a
  | [], w, mem0, _, _, hw => ⟨w, rfl, hw⟩
  | i :: is, w, mem0, hi, F, hw => by
    have hik := hi i (List.mem_cons_self ..)
    have hl : (vss i).length = (tys[i]?.getD .scalar).size := by rw [convert_length (hc i hik), F.len i hik]
    rw [List.flatMap_cons, run_append, decl_run tys convs vars i hik L w st wss F _ (hc i hik), Option.bind_some]
    exact decls_run tys convs vars L wss vss hc ha st is ⟨write w.mem (vars i) (vss i), w.reg⟩ (write mem0 (vars i) (vss i))
      (fun j hj => hi j (List.mem_cons_of_mem _ hj)) (F.write _ _ _ (by rw [hl]; exact ha i hik)) (by
        intro a h
        exact write_congr (hw a h))

/-- Stores leave alone what lies elsewhere. -/
theorem storeAll_other (addr : Nat → Nat) (val : Nat → List Int) (a : Nat) : ∀ (n : Nat) (mem : Nat → Int),
    (∀ i, i < n → ¬ Area (addr i) (val i).length a) → storeAll addr val n mem a = mem a
  | 0, _, _ => rfl
  | n + 1, mem, h => by
    rw [storeAll, storeAll_other addr val a n _ fun i hi => h i (by omega)]
    exact write_out _ (h n (by omega))

/-- Stores to places that are apart: each has its value. -/
theorem storeAll_at (addr : Nat → Nat) (val : Nat → List Int) : ∀ (n : Nat) (mem : Nat → Int),
    (∀ i j, i < n → j < n → i ≠ j → Apart (addr i) (val i).length (addr j) (val j).length) →
    ∀ i, i < n → readWords (storeAll addr val n mem) (addr i) (val i).length = val i
  | 0, _, _, i, hi => by omega
  | n + 1, mem, h, i, hi => by
    by_cases e : i = n
    · subst e
      apply List.ext_getElem?
      intro j
      by_cases hj : j < (val i).length
      · rw [readWords, List.getElem?_map, List.getElem?_range hj, Option.map_some, storeAll, storeAll_other]
        · rw [write_in _ (by omega) (by omega), show addr i + j - addr i = j by omega, List.getElem?_eq_getElem hj]
          rfl
        · intro k hk ha
          exact h k i (by omega) (by omega) (by omega) _ ⟨ha, ⟨by omega, by omega⟩⟩
      · rw [List.getElem?_eq_none (by simp [readWords]; omega), List.getElem?_eq_none (by omega)]
    · rw [storeAll]
      exact storeAll_at addr val n _ (fun i j hi hj => h i j (by omega) (by omega)) i (by omega)

end Umka.ListAsg
