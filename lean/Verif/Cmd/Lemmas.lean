import Verif.Cmd.Spec
import Verif.Scanf.Numbers
/-! # The command line: lemmas -/

namespace Umka.Cmd

open Spec

def size (t : Word) : Int := toInt (strtol t)

/-- The parameters one after the other. -/
def apply (c : Config) : List Param → Config
  | [] => c
  | .stack t :: ps => apply { c with stackSize := size t } ps
  | .asm :: ps => apply { c with writeAsm := true } ps
  | .check :: ps => apply { c with compileOnly := true } ps
  | .warn :: ps => apply { c with printWarnings := true } ps
  | .sandbox :: ps => apply { c with isSandbox := true } ps

theorem parse_word (c : Config) {w : Word} (ws : List Word) (h : w ≠ "-stack".toList) : parse c (w :: ws) =
    if w.head? = some '-' then
      if w = "-asm".toList then parse { c with writeAsm := true } ws
      else if w = "-check".toList then parse { c with compileOnly := true } ws
      else if w = "-warn".toList then parse { c with printWarnings := true } ws
      else if w = "-sandbox".toList then parse { c with isSandbox := true } ws
      else .file c w ws
    else .file c w ws := by
  rw [parse.eq_def]
  simp only [if_neg h]

theorem parse_params : ∀ (ps : List Param) (c : Config) (tail : List Word), (∀ t ∈ stacks ps, 0 < size t) →
    parse c (ps.flatMap Param.words ++ tail) = parse (apply c ps) tail
  | [], _, _, _ => rfl
  | .stack t :: ps, c, tail, h => by
    have ht : ¬ toInt (strtol t) ≤ 0 := by have := h t (by simp [stacks]); simp only [size] at this; omega
    have hw : (Param.stack t :: ps).flatMap Param.words ++ tail = "-stack".toList :: t :: (ps.flatMap Param.words ++ tail) := rfl
    rw [hw, parse, if_pos (by decide), if_pos rfl]
    simp only [if_neg ht]
    exact parse_params ps _ tail fun u hu => h u (by simp only [stacks, List.filterMap_cons] at hu ⊢; exact List.mem_cons_of_mem _ hu)
  | .asm :: ps, c, tail, h => by
    have hw : (Param.asm :: ps).flatMap Param.words ++ tail = "-asm".toList :: (ps.flatMap Param.words ++ tail) := rfl
    rw [hw, parse_word _ _ (by decide), if_pos (by decide), if_pos rfl]
    exact parse_params ps _ tail h
  | .check :: ps, c, tail, h => by
    have hw : (Param.check :: ps).flatMap Param.words ++ tail = "-check".toList :: (ps.flatMap Param.words ++ tail) := rfl
    rw [hw, parse_word _ _ (by decide), if_pos (by decide), if_neg (by decide), if_pos rfl]
    exact parse_params ps _ tail h
  | .warn :: ps, c, tail, h => by
    have hw : (Param.warn :: ps).flatMap Param.words ++ tail = "-warn".toList :: (ps.flatMap Param.words ++ tail) := rfl
    rw [hw, parse_word _ _ (by decide), if_pos (by decide), if_neg (by decide), if_neg (by decide), if_pos rfl]
    exact parse_params ps _ tail h
  | .sandbox :: ps, c, tail, h => by
    have hw : (Param.sandbox :: ps).flatMap Param.words ++ tail = "-sandbox".toList :: (ps.flatMap Param.words ++ tail) := rfl
    rw [hw, parse_word _ _ (by decide), if_pos (by decide), if_neg (by decide), if_neg (by decide), if_neg (by decide), if_pos rfl]
    exact parse_params ps _ tail h

theorem parse_name (c : Config) {name : Word} (args : List Word) (h : name ∉ keywords) : parse c (name :: args) = .file c name args := by
  simp only [keywords, List.mem_cons, List.not_mem_nil, or_false, not_or] at h
  rw [parse_word _ _ h.1, if_neg h.2.1, if_neg h.2.2.1, if_neg h.2.2.2.1, if_neg h.2.2.2.2, ite_self]

theorem asked_from : ∀ (ps : List Param) (c : Config),
    (apply c ps).stackSize = (((stacks ps).map size).getLast?).getD c.stackSize ∧
    ((apply c ps).writeAsm = true ↔ c.writeAsm = true ∨ .asm ∈ ps) ∧ ((apply c ps).compileOnly = true ↔ c.compileOnly = true ∨ .check ∈ ps) ∧
    ((apply c ps).printWarnings = true ↔ c.printWarnings = true ∨ .warn ∈ ps) ∧ ((apply c ps).isSandbox = true ↔ c.isSandbox = true ∨ .sandbox ∈ ps)
  | [], c => by simp [apply, stacks]
  | p :: ps, c => by
    cases p <;> simp only [apply, stacks, List.filterMap_cons] <;> obtain ⟨h1, h2, h3, h4, h5⟩ := asked_from ps _ <;>
      (try rw [stacks] at h1) <;> refine ⟨h1.trans ?_, h2.trans ?_, h3.trans ?_, h4.trans ?_, h5.trans ?_⟩ <;> simp [List.getLast?_cons]

theorem asked (ps : List Param) : Asked size ps (apply {} ps) := by
  obtain ⟨h1, h2, h3, h4, h5⟩ := asked_from ps {}
  exact ⟨h1, by simpa using h2, by simpa using h3, by simpa using h4, by simpa using h5⟩

/-- Where the loop ends. -/
def EndsAt (c : Config) : List Word → Parsed → Prop
  | [], .help => True
  | [w], .noStackSize => w = "-stack".toList
  | w :: t :: _, .illegalStackSize => w = "-stack".toList ∧ size t ≤ 0
  | w :: ws, .file c' n as => c' = c ∧ n = w ∧ as = ws ∧ w ∉ keywords
  | _, _ => False

theorem stacks_cons {p : Param} {ps : List Param} {t : Word} (h : t ∈ stacks (p :: ps)) : p = .stack t ∨ t ∈ stacks ps := by
  cases p <;> simp_all [stacks]
  rcases h with h | h
  · exact .inl h.symm
  · exact .inr h

theorem parse_ends : ∀ (n : Nat) (c : Config) (ws : List Word), ws.length ≤ n →
    ∃ ps tail, ws = ps.flatMap Param.words ++ tail ∧ (∀ t ∈ stacks ps, 0 < size t) ∧ EndsAt (apply c ps) tail (parse c ws)
  | _, _, [], _ => ⟨[], [], rfl, by simp [stacks], trivial⟩
  | 0, _, _ :: _, h => absurd h (by simp)
  | n + 1, c, w :: ws, hn => by
    have hl' : ws.length ≤ n := by simpa using hn
    have go : ∀ (p : Param) (c' : Config) (ws' : List Word), (∀ t, p = .stack t → 0 < size t) → ws'.length ≤ n → w :: ws = p.words ++ ws' → (∀ ps, apply c (p :: ps) = apply c' ps) →
        parse c (w :: ws) = parse c' ws' →
        ∃ ps tail, w :: ws = ps.flatMap Param.words ++ tail ∧ (∀ t ∈ stacks ps, 0 < size t) ∧ EndsAt (apply c ps) tail (parse c (w :: ws)) := by
      intro p c' ws' hp hl hw ha hpr
      obtain ⟨ps, tail, h1, h2, h3⟩ := parse_ends n c' ws' hl
      refine ⟨p :: ps, tail, by rw [hw, h1]; simp [List.flatMap_cons, List.append_assoc], fun t ht => ?_, by rw [ha, hpr]; exact h3⟩
      rcases stacks_cons ht with e | e
      · exact hp t e
      · exact h2 t e
    by_cases hk : w ∈ keywords
    · simp only [keywords, List.mem_cons, List.not_mem_nil, or_false] at hk
      rcases hk with rfl | rfl | rfl | rfl | rfl
      · cases ws with
        | nil => exact ⟨[], _, rfl, by simp [stacks], rfl⟩
        | cons t rest =>
          by_cases ht : size t ≤ 0
          · refine ⟨[], _, rfl, by simp [stacks], ?_⟩
            rw [parse, if_pos (by decide), if_pos rfl]
            simp only [if_pos (show toInt (strtol t) ≤ 0 from ht)]
            exact ⟨rfl, ht⟩
          · refine go (.stack t) { c with stackSize := size t } rest (fun u e => by cases e; omega) (by simp at hl'; omega) rfl (fun _ => rfl) ?_
            rw [parse, if_pos (by decide), if_pos rfl]
            simp only [if_neg (show ¬ toInt (strtol t) ≤ 0 from ht)]
            rfl
      · exact go .asm _ ws (fun _ e => (nomatch e)) hl' rfl (fun _ => rfl) (by rw [parse_word _ _ (by decide), if_pos (by decide), if_pos rfl])
      · exact go .check _ ws (fun _ e => (nomatch e)) hl' rfl (fun _ => rfl) (by rw [parse_word _ _ (by decide), if_pos (by decide), if_neg (by decide), if_pos rfl])
      · exact go .warn _ ws (fun _ e => (nomatch e)) hl' rfl (fun _ => rfl)
          (by rw [parse_word _ _ (by decide), if_pos (by decide), if_neg (by decide), if_neg (by decide), if_pos rfl])
      · exact go .sandbox _ ws (fun _ e => (nomatch e)) hl' rfl (fun _ => rfl)
          (by rw [parse_word _ _ (by decide), if_pos (by decide), if_neg (by decide), if_neg (by decide), if_neg (by decide), if_pos rfl])
    · refine ⟨[], _, rfl, by simp [stacks], ?_⟩
      rw [parse_name c ws hk]
      cases ws <;> exact ⟨rfl, rfl, rfl, hk⟩

theorem toInt_small {v : Int} (h1 : -(2 ^ 31) ≤ v) (h2 : v < 2 ^ 31) : toInt v = v := by unfold toInt; omega

theorem toInt_range (v : Int) : -(2 ^ 31) ≤ toInt v ∧ toInt v < 2 ^ 31 := by unfold toInt; omega

theorem size_ok {t : Word} {n : Int} (h : Size t n) : size t = n := by
  obtain ⟨sp, u, rfl, hb, hn, h1, h2⟩ := h
  have hnb : Scanf.Spec.NotBlank u := by
    have head : ∀ {c : Char} {s : List Char}, Scanf.digitVal c < 16 → Scanf.Spec.NotBlank (c :: s) := by
      intro c s hc d hd hm
      simp only [List.head?_cons, Option.some.injEq] at hd
      rw [hd] at hc
      simp only [Scanf.Spec.blanks, List.mem_cons, List.not_mem_nil, or_false] at hm
      rcases hm with rfl | rfl | rfl | rfl | rfl | rfl <;> revert hc <;> decide
    cases hn with
    | plain hu => obtain ⟨c, s, rfl, hc⟩ := Scanf.unsigned_head hu; exact head hc
    | plus hu => intro d hd; cases hd; decide
    | minus hu => intro d hd; cases hd; decide
  have hd : (sp ++ u).dropWhile Scanf.isSpace = u :=
    (Printf.takeWhile_append_stop (fun c hc => (Scanf.isSpace_iff c).mpr (hb c hc)) (fun c hc => Scanf.isSpace_false (hnb c hc))).2
  have hp := Scanf.number_parse (rest := []) hn (fun c hc => (nomatch hc))
  rw [List.append_nil] at hp
  have hr : Scanf.radix 'i' = none := by decide
  rw [hr] at hp
  rw [size, strtol, hd, hp]
  simp only
  rw [if_neg (by omega), if_neg (by omega)]
  exact toInt_small (by omega) h2

end Umka.Cmd
