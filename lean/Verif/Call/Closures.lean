import Verif.Call.Literals

namespace Umka.Call
open Spec

variable {τ : Type} {cal : Int → Callee}

/-! ## Dynamic arrays -/

/-- With undisturbed items, the words at the end are those when each item was evaluated. -/
theorem evalEach_items {env : Env τ} {t : τ} : ∀ {as : List (Arg τ)} {w : World} {n : Nat}, Undisturbed env t as w →
    (evalEach env ((as.zipIdx n).map fun q => (q.2, t, q.1)) w = none ↔ evalItems env t as w = none) ∧
    ∀ w1 vs, evalItems env t as w = some (w1, vs) → ∃ us, evalEach env ((as.zipIdx n).map fun q => (q.2, t, q.1)) w = some (w1, us) ∧
      contents env t w1 vs = us.flatMap (fun u => u.2)
  | [], w, n, _ => by
    refine ⟨by simp [evalEach, evalItems], fun w1 vs h => ?_⟩
    injection h with h; injection h with h1 h2; subst h1 h2
    exact ⟨[], rfl, rfl⟩
  | a :: as, w, n, hu => by
    rw [List.zipIdx_cons, List.map_cons, evalEach, evalItems]
    cases ha : evalArg env t a w with
    | none => exact ⟨⟨fun _ => rfl, fun _ => rfl⟩, fun w1 vs h => nomatch h⟩
    | some q =>
      obtain ⟨hu1, hu2⟩ := hu q.1 q.2 ha
      obtain ⟨h1, h2⟩ := evalEach_items (n := n + 1) hu1
      simp only [Option.bind_eq_bind, Option.bind_some]
      cases hr : evalItems env t as q.1 with
      | none => rw [h1.2 hr]; exact ⟨⟨fun _ => rfl, fun _ => rfl⟩, fun w1 vs h => nomatch h⟩
      | some r =>
        obtain ⟨us, hus, hcont⟩ := h2 r.1 r.2 hr
        rw [hus]
        simp only [Option.bind_some]
        refine ⟨⟨fun h => (nomatch h), fun h => (nomatch h)⟩, fun w1 vs h => ?_⟩
        injection h with h; injection h with e1 e2; subst e1 e2
        refine ⟨_, rfl, ?_⟩
        rw [List.flatMap_cons, ← hcont, ← hu2 r.1 r.2 hr]
        rfl

theorem undisturbed_scalar {env : Env τ} {t : τ} (h : env.shape t = .scalar) : ∀ (as : List (Arg τ)) (w : World), Undisturbed env t as w
  | [], _ => trivial
  | _ :: as, _ => fun w1 _ _ => ⟨undisturbed_scalar h as w1, fun _ _ _ => by rw [h]; rfl⟩

/-! ## Closures -/

theorem captureOffset_succ {env : Env τ} {cs : List (Capture τ)} {i : Nat} {c : Capture τ} (h : cs[i]? = some c) :
    captureOffset env cs (i + 1) = captureOffset env cs i + (env.shape c.ty).size := by
  simp only [captureOffset]
  rw [List.take_add_one, h]
  simp

theorem captureOffset_le {env : Env τ} {cs : List (Capture τ)} {i j : Nat} (h : i ≤ j) : captureOffset env cs i ≤ captureOffset env cs j := by
  obtain ⟨k, rfl⟩ := Nat.exists_eq_add_of_le h
  induction k with
  | zero => exact Nat.le_refl _
  | succ k ih =>
    refine Nat.le_trans (ih (by omega)) ?_
    cases hc : cs[i + k]? with
    | some c => rw [show i + (k + 1) = i + k + 1 by omega, captureOffset_succ hc]; omega
    | none =>
      have hlen := List.getElem?_eq_none_iff.1 hc
      simp only [captureOffset]
      rw [List.take_of_length_le hlen, List.take_of_length_le (by omega)]
      exact Nat.le_refl _

theorem captureOffset_size {env : Env τ} {cs : List (Capture τ)} {i : Nat} (h : i ≤ cs.length) : captureOffset env cs i ≤ captureSize env cs :=
  captureOffset_le h

theorem words_deref (mem : Nat → Int) (ty : Ty) (p : Nat) :
    words mem ty (deref mem ty (p : Int)) = readWords mem p ty.size := by
  cases ty <;> simp [words, readWords, deref, Ty.size, List.range_succ]

/-- What a list of words has from a captured variable on. -/
theorem captured_at {env : Env τ} (mem : Nat → Int) : ∀ (cs : List (Capture τ)) (i : Nat) (c : Capture τ), cs[i]? = some c →
    ((captured env mem cs).drop (captureOffset env cs i)).take (env.shape c.ty).size = readWords mem c.addr (env.shape c.ty).size
  | [], _, _, h => by simp at h
  | d :: cs, 0, c, h => by
    simp only [List.getElem?_cons_zero, Option.some.injEq] at h
    subst h
    simp only [captureOffset, List.take_zero, List.map_nil, List.sum_nil, List.drop_zero, captured, List.flatMap_cons]
    rw [List.take_append_of_le_length (by rw [readWords_length]; omega), List.take_of_length_le (by rw [readWords_length]; omega)]
  | d :: cs, i + 1, c, h => by
    rw [List.getElem?_cons_succ] at h
    have ih := captured_at (env := env) mem cs i c h
    simp only [captureOffset, List.take_succ_cons, List.map_cons, List.sum_cons, captured, List.flatMap_cons] at ih ⊢
    rw [← List.drop_drop, List.drop_left' (readWords_length ..)]
    exact ih

theorem captured_length {env : Env τ} (mem : Nat → Int) : ∀ (cs : List (Capture τ)), (captured env mem cs).length = captureSize env cs
  | [] => rfl
  | c :: cs => by
    have ih := captured_length (env := env) mem cs
    simp only [captureSize, captureOffset, List.length_cons, List.take_succ_cons, List.map_cons, List.sum_cons, captured, List.flatMap_cons, List.length_append,
      readWords_length] at ih ⊢
    omega

theorem readWords_sub {mem : Nat → Int} {p n off k : Nat} {ws : List Int} (h : readWords mem p n = ws) (hle : off + k ≤ n) :
    readWords mem (p + off) k = (ws.drop off).take k := by
  rw [← h]
  apply List.ext_getElem
  · simp [readWords]; omega
  · intro j h1 h2
    simp [readWords, Nat.add_assoc]

theorem readWords_of_fields {env : Env τ} {all : List (Capture τ)} {mem mem' : Nat → Int} {p : Nat}
    (h : ∀ i c, all[i]? = some c → readWords mem' (p + captureOffset env all i) (env.shape c.ty).size = readWords mem c.addr (env.shape c.ty).size) :
    readWords mem' p (captureSize env all) = captured env mem all := by
  have key : ∀ n, n ≤ all.length → readWords mem' p (captureOffset env all n) = captured env mem (all.take n) := by
    intro n
    induction n with
    | zero => intro _; simp [captureOffset, captured, readWords]
    | succ n ih =>
      intro hn
      have hc : all[n]? = some all[n] := List.getElem?_eq_getElem (by omega)
      rw [captureOffset_succ hc, readWords_add, ih (by omega), h n _ hc, List.take_add_one, hc]
      unfold captured
      rw [List.flatMap_append]
      simp
  have := key all.length (Nat.le_refl _)
  rw [List.take_of_length_le (Nat.le_refl _)] at this
  exact this

/-- Filling the upvalues structure. -/
theorem genCaptures_run {env : Env τ} {all : List (Capture τ)} {ups lo hi : Nat} (hlo : lo ≤ ups) (hfit : ups + captureSize env all ≤ hi) (mem0 : Nat → Int) :
    ∀ {cs : List (Capture τ)} {i : Nat}, (∀ j, cs[j]? = all[i + j]?) → (∀ c ∈ cs, c.addr + (env.shape c.ty).size ≤ lo ∨ hi ≤ c.addr) →
    ∀ (w : World) (st : List Int), (∀ a, ¬ (lo ≤ a ∧ a < hi) → w.mem a = mem0 a) →
    ∃ mem', run cal (genCaptures env all ups cs i) ⟨w, st⟩ = some ⟨{ w with mem := mem' }, st⟩ ∧
      (∀ a, ¬ (ups + captureOffset env all i ≤ a ∧ a < ups + captureSize env all) → mem' a = w.mem a) ∧
      ∀ j c, cs[j]? = some c → readWords mem' (ups + captureOffset env all (i + j)) (env.shape c.ty).size = readWords mem0 c.addr (env.shape c.ty).size
  | [], i, _, _, w, st, _ => ⟨w.mem, rfl, fun _ _ => rfl, fun j c h => by simp at h⟩
  | c :: cs, i, hall, hout, w, st, hw => by
    have hci : all[i]? = some c := by have := hall 0; simpa using this.symm
    have hlt := (List.getElem?_eq_some_iff.1 hci).1
    have e1 := captureOffset_succ (env := env) hci
    have e2 := captureOffset_size (env := env) (cs := all) (i := i + 1) (by omega)
    simp only [genCaptures, run, step, Option.bind_some]
    generalize hv : deref w.mem (env.shape c.ty) ((c.addr : Nat) : Int) = v
    have hwords : words w.mem (env.shape c.ty) v = readWords mem0 c.addr (env.shape c.ty).size := by
      rw [← hv]
      refine (words_deref w.mem (env.shape c.ty) c.addr).trans ?_
      exact readWords_congr fun x hx1 hx2 => hw x (by have := hout c (List.mem_cons_self ..); omega)
    have hp : (((ups : Nat) : Int) + ((captureOffset env all i : Nat) : Int)).toNat = ups + captureOffset env all i := by omega
    rw [hp, store_eq_write, hwords]
    have hwl : (readWords mem0 c.addr (env.shape c.ty).size).length = (env.shape c.ty).size := readWords_length ..
    obtain ⟨mem', h1, h2, h3⟩ := genCaptures_run (i := i + 1) hlo hfit mem0
      (fun j => by have := hall (j + 1); rw [List.getElem?_cons_succ] at this; rw [this]; congr 1; omega)
      (fun d hd => hout d (List.mem_cons_of_mem _ hd)) { w with mem := write w.mem (ups + captureOffset env all i) (readWords mem0 c.addr (env.shape c.ty).size) } st
      (fun a ha => by dsimp only; rw [write_out _ (by omega), hw a ha])
    refine ⟨mem', h1, fun a ha => ?_, fun j d hd => ?_⟩
    · rw [h2 a (by omega)]
      exact write_out _ (by omega)
    · cases j with
      | zero =>
        simp only [List.getElem?_cons_zero, Option.some.injEq] at hd
        subst hd
        rw [readWords_congr (mem' := write w.mem (ups + captureOffset env all i) (readWords mem0 c.addr (env.shape c.ty).size))
          fun x hx1 hx2 => h2 x (by simp only [Nat.add_zero] at hx1 hx2; omega), Nat.add_zero]
        exact (congrArg (readWords _ _) hwl.symm).trans readWords_write
      | succ j =>
        rw [List.getElem?_cons_succ] at hd
        have := h3 j d hd
        rw [show i + 1 + j = i + (j + 1) by omega] at this
        exact this

theorem checkCaptures_ok : ∀ {cs : List (Capture τ)} {seen : List String}, checkCaptures cs seen = .ok () →
    (cs.map fun c => c.name).Nodup ∧ ∀ c ∈ cs, c.name ∉ seen
  | [], _, _ => ⟨List.nodup_nil, fun _ h => nomatch h⟩
  | c :: cs, seen, h => by
    rw [checkCaptures] at h
    by_cases hs : seen.contains c.name = true
    · rw [if_pos hs] at h; cases h
    · rw [if_neg hs] at h
      obtain ⟨h1, h2⟩ := checkCaptures_ok h
      rw [List.map_cons, List.nodup_cons]
      refine ⟨⟨fun hm => ?_, h1⟩, fun d hd => ?_⟩
      · obtain ⟨d, hd, he⟩ := List.mem_map.1 hm
        exact h2 d hd (by rw [he]; exact List.mem_cons_self ..)
      · rcases List.mem_cons.1 hd with rfl | hd
        · simpa using hs
        · exact fun hm => h2 d hd (List.mem_cons_of_mem _ hm)

theorem checkCaptures_accept : ∀ {cs : List (Capture τ)} {seen : List String}, (cs.map fun c => c.name).Nodup → (∀ c ∈ cs, c.name ∉ seen) →
    checkCaptures cs seen = .ok ()
  | [], _, _, _ => rfl
  | c :: cs, seen, h1, h2 => by
    rw [List.map_cons, List.nodup_cons] at h1
    rw [checkCaptures, if_neg (by simpa using h2 c (List.mem_cons_self ..))]
    refine checkCaptures_accept h1.2 fun d hd hm => ?_
    rcases List.mem_cons.1 hm with e | hm
    · exact h1.1 (e ▸ List.mem_map_of_mem (f := fun c : Capture τ => c.name) hd)
    · exact h2 d (List.mem_cons_of_mem _ hd) hm

/-- The code of a closure with captured variables. -/
theorem genClosure_run {env : Env τ} {top top' : Nat} {entry id : Int} {cs : List (Capture τ)} {code : List Instr}
    (h : genClosure env top entry id (some cs) = .ok (code, top')) (hout : ∀ c ∈ cs, c.addr + (env.shape c.ty).size ≤ top ∨ top' ≤ c.addr) (w : World)
    (hb : top' ≤ w.brk) (st : List Int) :
    (cs.map fun c => c.name).Nodup ∧ top + 3 ≤ top' ∧ ∃ w2, run cal code ⟨w, st⟩ = some ⟨w2, (top : Int) :: st⟩ ∧ readWords w2.mem top 3 = [entry, (w.brk : Int), id] ∧
      SameOutside top top' { w with mem := write w.mem w.brk (captured env w.mem cs), brk := w.brk + captureSize env cs } w2 := by
  unfold genClosure at h
  dsimp only at h
  cases hck : checkCaptures cs [] with
  | error e => rw [hck] at h; cases h
  | ok u =>
    rw [hck] at h
    injection h with h
    injection h with hcode htop
    refine ⟨(checkCaptures_ok hck).1, by omega, ?_⟩
    subst hcode
    generalize hsz : captureSize env cs = sz at *
    simp only [run, step, Option.bind_some, List.cons_append]
    obtain ⟨mem', h1, h2, h3⟩ := genCaptures_run (cal := cal) (env := env) (all := cs) (ups := top + 3) (lo := top) (hi := top') (by omega) (by omega) w.mem
      (cs := cs) (i := 0) (fun j => by rw [Nat.zero_add]) hout
      { w with mem := fun b => if top + 3 ≤ b ∧ b < top + 3 + sz then 0 else if top ≤ b ∧ b < top + 3 then 0 else w.mem b } st
      (fun a ha => by dsimp only; rw [if_neg (by omega), if_neg (by omega)])
    have hups : readWords mem' (top + 3) sz = captured env w.mem cs := by
      rw [← hsz]
      exact readWords_of_fields fun i c hc => by have := h3 i c hc; rw [Nat.zero_add] at this; exact this
    have hoff0 : captureOffset env cs 0 = 0 := by simp [captureOffset]
    have hmem' : ∀ a, ¬ (top ≤ a ∧ a < top + 3 + sz) → mem' a = w.mem a := by
      intro a ha
      rw [h2 a (by rw [hoff0, hsz]; omega)]
      dsimp only
      rw [if_neg (by omega), if_neg (by omega)]
    rw [run_append, h1]
    simp only [run, step, Option.bind_some]
    refine ⟨_, rfl, ?_, ?_⟩
    · simp only [readWords, List.range_succ, List.range_zero, List.nil_append, List.map_append, List.map_cons, List.map_nil, List.cons_append]
      simp only [store, copy, Int.toNat_natCast]
      have e0 : (((top : Nat) : Int) + ((0 : Nat) : Int)).toNat = top := by omega
      have e1 : (((top : Nat) : Int) + ((1 : Nat) : Int)).toNat = top + 1 := by omega
      rw [e0, e1]
      congr 1
      · exact if_pos (by omega)
      · congr 1
        · rw [if_neg (by omega), if_pos (by omega), if_neg (by omega), if_pos (by omega)]
        · congr 1
          rw [if_neg (by omega), if_pos (by omega), if_pos (by omega)]
    · refine ⟨by first | rfl | (dsimp only), rfl, rfl, fun a ha => ?_⟩
      dsimp only
      have hcl := captured_length (env := env) w.mem cs
      rw [hsz] at hcl
      simp only [store, Int.toNat_natCast]
      have e0 : (((top : Nat) : Int) + ((0 : Nat) : Int)).toNat = top := by omega
      have e1 : (((top : Nat) : Int) + ((1 : Nat) : Int)).toNat = top + 1 := by omega
      rw [e0, e1, if_neg (by omega), if_neg (by omega), if_neg (by omega), if_neg (by omega)]
      by_cases hx : w.brk ≤ a ∧ a < w.brk + sz
      · rw [copy_in _ hx.1 hx.2, write_in _ hx.1 (by omega), ← hups, readWords_getElem _ _ _ _ (by omega)]
        rfl
      · rw [copy_out _ hx, write_out _ (by omega), hmem' a (by omega)]

/-- The copies at the beginning of the function. -/
theorem genUpvalues_run {env : Env τ} {all : List (Capture τ)} {vars : Nat → Nat} {p : Nat} (mem0 : Nat → Int)
    (hvars : ∀ i j c d, all[i]? = some c → all[j]? = some d → i < j → vars i + (env.shape c.ty).size ≤ vars j ∨ vars j + (env.shape d.ty).size ≤ vars i)
    (hheap : ∀ i c, all[i]? = some c → vars i + (env.shape c.ty).size ≤ p ∨ p + captureSize env all ≤ vars i) :
    ∀ {cs : List (Capture τ)} {i : Nat}, (∀ j, cs[j]? = all[i + j]?) → ∀ (w : World) (st : List Int),
    (∀ a, p ≤ a → a < p + captureSize env all → w.mem a = mem0 a) →
    ∃ mem', run cal (genUpvalues env all vars cs i) ⟨w, (p : Int) :: st⟩ = some ⟨{ w with mem := mem' }, (p : Int) :: st⟩ ∧
      (∀ a, (∀ j c, i ≤ j → all[j]? = some c → ¬ (vars j ≤ a ∧ a < vars j + (env.shape c.ty).size)) → mem' a = w.mem a) ∧
      ∀ j c, cs[j]? = some c → readWords mem' (vars (i + j)) (env.shape c.ty).size = readWords mem0 (p + captureOffset env all (i + j)) (env.shape c.ty).size
  | [], i, _, w, st, _ => ⟨w.mem, rfl, fun _ _ => rfl, fun j c h => by simp at h⟩
  | c :: cs, i, hall, w, st, hw => by
    have hci : all[i]? = some c := by have := hall 0; simpa using this.symm
    have hlt := (List.getElem?_eq_some_iff.1 hci).1
    have e1 := captureOffset_succ (env := env) hci
    have e2 := captureOffset_size (env := env) (cs := all) (i := i + 1) (by omega)
    have e3 := hheap i c hci
    simp only [genUpvalues, run, step, Option.bind_some]
    have hp : (((p : Nat) : Int) + ((captureOffset env all i : Nat) : Int)).toNat = p + captureOffset env all i := by omega
    generalize hz : (fun b => if vars i ≤ b ∧ b < vars i + (env.shape c.ty).size then (0 : Int) else w.mem b) = memz
    generalize hv : deref w.mem (env.shape c.ty) (((p : Nat) : Int) + ((captureOffset env all i : Nat) : Int)) = v
    have hwords : words memz (env.shape c.ty) v = readWords mem0 (p + captureOffset env all i) (env.shape c.ty).size := by
      have hpp : ((p : Nat) : Int) + ((captureOffset env all i : Nat) : Int) = ((p + captureOffset env all i : Nat) : Int) := by omega
      have hmz : ∀ x, p ≤ x → x < p + captureSize env all → memz x = mem0 x := by
        intro x hx1 hx2
        rw [← hz]
        dsimp only
        rw [if_neg (by omega), hw x hx1 hx2]
      rw [← hv, hpp]
      clear hv
      cases hs : env.shape c.ty with
      | scalar =>
        rw [hs] at e1
        simp only [Ty.size] at e1
        simp only [words, readWords, deref, Ty.size, List.range_succ, List.range_zero, List.nil_append, List.map_cons, List.map_nil, Int.toNat_natCast, Nat.add_zero]
        rw [hw (p + captureOffset env all i) (by omega) (by omega)]
      | struct k =>
        rw [hs] at e1
        simp only [Ty.size] at e1
        simp only [words, deref, Ty.size, Int.toNat_natCast]
        exact readWords_congr fun x hx1 hx2 => hmz x (by omega) (by omega)
    rw [store_eq_write, hwords, Int.toNat_natCast]
    have hwl : (readWords mem0 (p + captureOffset env all i) (env.shape c.ty).size).length = (env.shape c.ty).size := readWords_length ..
    obtain ⟨mem', h1, h2, h3⟩ := genUpvalues_run (i := i + 1) mem0 hvars hheap
      (fun j => by have := hall (j + 1); rw [List.getElem?_cons_succ] at this; rw [this]; congr 1; omega)
      { w with mem := write memz (vars i) (readWords mem0 (p + captureOffset env all i) (env.shape c.ty).size) } st
      (fun a ha1 ha2 => by
        dsimp only
        rw [write_out _ (by omega), ← hz]
        dsimp only
        rw [if_neg (by omega), hw a ha1 ha2])
    refine ⟨mem', h1, fun a ha => ?_, fun j d hd => ?_⟩
    · rw [h2 a fun j d hj hd => ha j d (by omega) hd]
      dsimp only
      have := ha i c (Nat.le_refl _) hci
      rw [write_out _ (by omega), ← hz]
      exact if_neg this
    · cases j with
      | zero =>
        simp only [List.getElem?_cons_zero, Option.some.injEq] at hd
        subst hd
        rw [Nat.add_zero, readWords_congr (mem' := write memz (vars i) (readWords mem0 (p + captureOffset env all i) (env.shape c.ty).size))
          fun x hx1 hx2 => h2 x fun j d hj hd => by have := hvars i j c d hci hd (by omega); omega]
        exact (congrArg (readWords _ _) hwl.symm).trans readWords_write
      | succ j =>
        rw [List.getElem?_cons_succ] at hd
        have := h3 j d hd
        rw [show i + 1 + j = i + (j + 1) by omega] at this
        exact this

end Umka.Call
