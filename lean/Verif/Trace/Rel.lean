import Verif.Trace.Gen

/-! # What compiling a piece of code does to the code and to the list of functions -/

namespace Umka.Trace
open Umka.Peephole (Instr R Env)

/-- The length of the code up to the last cell that the optimizer never changes. -/
def stable : List Cell → Nat
  | [] => 0
  | c :: cs => if 0 < stable cs then stable cs + 1 else if c.isIns then 0 else 1

theorem stable_le : ∀ (l : List Cell), stable l ≤ l.length
  | [] => Nat.le_refl _
  | c :: cs => by
    have := stable_le cs
    simp only [stable, List.length_cons]
    split
    · omega
    · split <;> omega

theorem stable_ge : ∀ {l : List Cell} {k : Nat} {c : Cell}, l[k]? = some c → c.isIns = false → k + 1 ≤ stable l
  | [], _, _, h, _ => by simp at h
  | x :: xs, 0, c, h, hc => by
    simp at h; subst h
    simp only [stable]
    split
    · omega
    · simp [hc]
  | x :: xs, k + 1, c, h, hc => by
    simp at h
    have := stable_ge h hc
    simp only [stable]
    rw [if_pos (by omega)]; omega

theorem stable_ins : ∀ {l : List Cell} {k : Nat} {c : Cell}, l[k]? = some c → stable l ≤ k → c.isIns = true
  | [], _, _, h, _ => by simp at h
  | l, k, c, h, hk => by
    cases hc : c.isIns with
    | true => rfl
    | false => have := stable_ge h hc; omega

/-- The last cell of the stable part. -/
theorem stable_last : ∀ {l : List Cell} {n : Nat}, stable l = n + 1 → ∃ c, l[n]? = some c ∧ c.isIns = false
  | [], n, h => by simp [stable] at h
  | x :: xs, n, h => by
    simp only [stable] at h
    split at h
    · rename_i hp
      have hn : stable xs = n := by omega
      cases n with
      | zero => omega
      | succ m => obtain ⟨c, hc, hi⟩ := stable_last hn; exact ⟨c, by simpa using hc, hi⟩
    · split at h
      · omega
      · rename_i hx
        have : n = 0 := by omega
        subst this
        exact ⟨x, by simp, by simpa using hx⟩

theorem stable_mono {l l' : List Cell} (h : ∀ pos, pos < stable l → l'[pos]? = l[pos]?) : stable l ≤ stable l' := by
  cases hs : stable l with
  | zero => omega
  | succ n =>
    obtain ⟨c, hc, hi⟩ := stable_last hs
    exact stable_ge (by rw [h n (by omega)]; exact hc) hi

theorem stable_append_ins {l m : List Cell} (h : ∀ c ∈ m, c.isIns = true) : stable (l ++ m) = stable l := by
  apply Nat.le_antisymm
  · cases hs : stable (l ++ m) with
    | zero => omega
    | succ n =>
      obtain ⟨c, hc, hi⟩ := stable_last hs
      by_cases hn : n < l.length
      · rw [List.getElem?_append_left hn] at hc; exact stable_ge hc hi
      · rw [List.getElem?_append_right (by omega)] at hc
        rw [h c (List.mem_of_getElem? hc)] at hi; cases hi
  · apply stable_mono
    intro pos hp
    exact List.getElem?_append_left (Nat.lt_of_lt_of_le hp (stable_le l))

theorem stable_snoc {l : List Cell} {c : Cell} (h : c.isIns = false) : stable (l ++ [c]) = l.length + 1 := by
  apply Nat.le_antisymm
  · have := stable_le (l ++ [c]); simpa using this
  · exact stable_ge (by simp) h

/-! ## The relation -/

/-- The location of an instruction of a function. -/
def Fn.Ok (e : Fn) (d : Debug) : Prop := d.file = e.file ∧ (e.ext = false → d.fn = e.name) ∧ d.line ∈ e.lines

def opAt (l : List Cell) (ip : Nat) : Option Op := l[ip]?.map (·.op)

structure Ends (l : List Cell) (e : Fn) : Prop where
  lt : e.start < e.stop
  enter : opAt l e.start = some .enter
  ret : opAt l (e.stop - 1) = some .ret
  before : 0 < e.start ∧ ∀ o, opAt l (e.start - 1) = some o → o ≠ .call

/-- The code of two functions is apart, or the first is a literal inside the second. -/
def Apart (a b : Fn) : Prop := a.stop ≤ b.start ∨ b.stop ≤ a.start ∨ (b.start < a.start ∧ a.stop < b.stop)

structure Rel (A : Debug → Prop) (s s' : St) (new : List Fn) (nl : Exit → List Nat) : Prop where
  file : s'.gen.debug.file = s.gen.debug.file
  fn : s'.gen.debug.fn = s.gen.debug.fn
  cur : A s'.gen.debug
  keep : ∀ pos, pos < stable s.gen.code → s'.gen.code[pos]? = s.gen.code[pos]?
  table : s'.table = s.table ++ new
  protos : s'.protos = s.protos
  range : ∀ e ∈ new, stable s.gen.code < e.start ∧ e.stop ≤ stable s'.gen.code
  ends : ∀ e ∈ new, Ends s'.gen.code e
  own : ∀ (pos : Nat) (c : Cell) (e : Fn), s'.gen.code[pos]? = some c → owner new pos = some e → e.Ok c.debug
  rest : (∀ (pos : Nat) (c : Cell), stable s.gen.code ≤ pos → s.gen.code[pos]? = some c → A c.debug) →
    ∀ (pos : Nat) (c : Cell), stable s.gen.code ≤ pos → s'.gen.code[pos]? = some c → owner new pos = none → A c.debug
  gotos : ∀ x, s'.gotos x = (s.gotos x).map (· ++ nl x)
  marks : ∀ x, s.gotos x ≠ none → ∀ q ∈ nl x, stable s.gen.code ≤ q ∧ q < stable s'.gen.code ∧ owner new q = none
  nest : new.Pairwise Apart

theorem Rel.mono {A : Debug → Prop} {s s' : St} {new : List Fn} {nl : Exit → List Nat} (h : Rel A s s' new nl) :
    stable s.gen.code ≤ stable s'.gen.code := stable_mono h.keep

theorem owner_append {a b : List Fn} {pos : Nat} : owner (a ++ b) pos = (owner a pos).or (owner b pos) := by
  simp [owner, List.find?_append]

theorem owner_none {a : List Fn} {pos : Nat} : owner a pos = none ↔ ∀ e ∈ a, e.has pos = false := by
  simp [owner]

theorem owner_some {a : List Fn} {pos : Nat} {e : Fn} (h : owner a pos = some e) : e ∈ a ∧ e.start ≤ pos ∧ pos < e.stop := by
  refine ⟨List.mem_of_find?_eq_some h, ?_⟩
  have := List.find?_some h
  simpa [Fn.has] using this

theorem Ends.congr {l l' : List Cell} {e : Fn} (h : Ends l e) (hs : ∀ pos, pos < e.stop → opAt l' pos = opAt l pos) : Ends l' e := by
  have := h.lt
  refine ⟨h.lt, by rw [hs _ h.lt]; exact h.enter, by rw [hs _ (by omega)]; exact h.ret, h.before.1, ?_⟩
  rw [hs _ (by omega)]; exact h.before.2

theorem Rel.trans {A : Debug → Prop} {s s1 s2 : St} {n1 n2 : List Fn} {l1 l2 : Exit → List Nat} (h1 : Rel A s s1 n1 l1)
    (h2 : Rel A s1 s2 n2 l2) : Rel A s s2 (n1 ++ n2) (fun x => l1 x ++ l2 x) := by
  have m1 := h1.mono
  have m2 := h2.mono
  refine ⟨h2.file.trans h1.file, h2.fn.trans h1.fn, h2.cur, ?_, by rw [h2.table, h1.table]; simp, h2.protos.trans h1.protos, ?_, ?_, ?_, ?_, ?_, ?_, ?_⟩
  · intro pos hp; rw [h2.keep pos (by omega), h1.keep pos hp]
  · intro e he
    rcases List.mem_append.mp he with he | he
    · have := h1.range e he; omega
    · have := h2.range e he; omega
  · intro e he
    rcases List.mem_append.mp he with he | he
    · have hr := h1.range e he
      refine (h1.ends e he).congr ?_
      intro pos hp; unfold opAt; rw [h2.keep pos (by omega)]
    · exact h2.ends e he
  · intro pos c e hc ho
    rw [owner_append] at ho
    cases h : owner n1 pos with
    | some e1 =>
      rw [h] at ho; cases ho
      obtain ⟨he, -, hlt⟩ := owner_some h
      have hr := h1.range _ he
      rw [h2.keep pos (by omega)] at hc
      exact h1.own pos c _ hc h
    | none => rw [h] at ho; exact h2.own pos c e hc ho
  · intro hA pos c hp hc ho
    rw [owner_append, Option.or_eq_none_iff] at ho
    by_cases hlt : pos < stable s1.gen.code
    · rw [h2.keep pos hlt] at hc; exact h1.rest hA pos c hp hc ho.1
    · refine h2.rest ?_ pos c (by omega) hc ho.2
      intro pos' c' hp' hc'
      refine h1.rest hA pos' c' (by omega) hc' ?_
      rw [owner_none]
      intro e he
      have hr := h1.range e he
      simp [Fn.has]; omega
  · intro x; rw [h2.gotos, h1.gotos]; cases s.gotos x <;> simp
  · intro x hx q hq
    rcases List.mem_append.mp hq with hq | hq
    · obtain ⟨a, b, c⟩ := h1.marks x hx q hq
      refine ⟨a, by omega, ?_⟩
      rw [owner_append, c]
      rw [Option.none_or, owner_none]
      intro e he
      have hr := h2.range e he
      simp [Fn.has]; omega
    · have hx1 : s1.gotos x ≠ none := by rw [h1.gotos]; cases h : s.gotos x with
        | none => exact absurd h hx
        | some l => simp
      obtain ⟨a, b, c⟩ := h2.marks x hx1 q hq
      refine ⟨by omega, b, ?_⟩
      rw [owner_append, c, Option.or_none, owner_none]
      intro e he
      have hr := h1.range e he
      simp [Fn.has]; omega
  · rw [List.pairwise_append]
    refine ⟨h1.nest, h2.nest, fun a ha b hb => .inl ?_⟩
    have := (h1.range a ha).2
    have := (h2.range b hb).1
    omega

/-- Steps that neither add functions nor stubs for `break` and so on. -/
theorem Rel.simple {A : Debug → Prop} {s s' : St} (hfile : s'.gen.debug.file = s.gen.debug.file)
    (hfn : s'.gen.debug.fn = s.gen.debug.fn) (hcur : A s'.gen.debug)
    (hkeep : ∀ pos, pos < stable s.gen.code → s'.gen.code[pos]? = s.gen.code[pos]?) (ht : s'.table = s.table)
    (hp : s'.protos = s.protos) (hg : s'.gotos = s.gotos)
    (hrest : (∀ (pos : Nat) (c : Cell), stable s.gen.code ≤ pos → s.gen.code[pos]? = some c → A c.debug) →
      ∀ (pos : Nat) (c : Cell), stable s.gen.code ≤ pos → s'.gen.code[pos]? = some c → A c.debug) :
    Rel A s s' [] (fun _ => []) :=
  ⟨hfile, hfn, hcur, hkeep, by simp [ht], hp, by simp, by simp, by simp [owner], fun h pos c hp hc _ => hrest h pos c hp hc,
    by intro x; rw [hg]; cases s.gotos x <;> simp, by simp, .nil⟩

theorem Rel.refl {A : Debug → Prop} {s : St} (h : A s.gen.debug) : Rel A s s [] (fun _ => []) :=
  .simple rfl rfl h (fun _ _ => rfl) rfl rfl rfl (fun h => h)

theorem Rel.peep {A : Debug → Prop} {s : St} {g : Gen} (h : A s.gen.debug) (hg : Peep s.gen g) :
    Rel A s { s with gen := g } [] (fun _ => []) := by
  obtain ⟨hd, pre, old, new, e1, e2, ho, hn⟩ := hg
  have hs : stable s.gen.code = stable pre := by rw [e1]; exact stable_append_ins ho
  have hle := stable_le pre
  refine .simple (by rw [hd]) (by rw [hd]) (by rw [hd]; exact h) ?_ rfl rfl rfl ?_
  · intro pos hp
    show g.code[pos]? = _
    rw [e1, e2, List.getElem?_append_left (by omega), List.getElem?_append_left (by omega)]
  · intro hA pos c hp hc
    change g.code[pos]? = some c at hc
    rw [e2] at hc
    by_cases hlt : pos < pre.length
    · rw [List.getElem?_append_left hlt] at hc
      exact hA pos c hp (by rw [e1, List.getElem?_append_left hlt]; exact hc)
    · rw [List.getElem?_append_right (by omega)] at hc
      obtain ⟨-, hd'⟩ := hn c (List.mem_of_getElem? hc)
      rcases hd' with hd' | ⟨c', hc', hd'⟩
      · rw [hd']; exact h
      · rw [hd']
        obtain ⟨j, hj⟩ := List.getElem?_of_mem hc'
        refine hA (pre.length + j) c' (by omega) ?_
        rw [e1, List.getElem?_append_right (by omega)]
        rw [Nat.add_sub_cancel_left]; exact hj

theorem Rel.put {A : Debug → Prop} {s : St} {o : Op} {g : Gen} (h : A s.gen.debug) (hc : g.code = s.gen.code ++ [⟨o, s.gen.debug⟩])
    (hd : g.debug = s.gen.debug) : Rel A s { s with gen := g } [] (fun _ => []) := by
  have hle := stable_le s.gen.code
  refine .simple (by rw [hd]) (by rw [hd]) (by rw [hd]; exact h) ?_ rfl rfl rfl ?_
  · intro pos hp
    show g.code[pos]? = _
    rw [hc, List.getElem?_append_left (by omega)]
  · intro hA pos c hp hcc
    change g.code[pos]? = some c at hcc
    rw [hc] at hcc
    by_cases hlt : pos < s.gen.code.length
    · rw [List.getElem?_append_left hlt] at hcc; exact hA pos c hp hcc
    · rw [List.getElem?_append_right (by omega)] at hcc
      have := List.mem_of_getElem? hcc
      simp at this; subst this; exact h

end Umka.Trace
