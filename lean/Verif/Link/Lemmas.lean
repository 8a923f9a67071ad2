import Verif.Link.Spec

namespace Umka.Link

/-! ## Lists of identifiers -/

theorem find_some {idents : List Ident} {f : Fn} {i : Ident} (h : find idents f = some i) : i ∈ idents ∧ i.fn = f := by
  rw [find] at h
  exact ⟨List.mem_of_find?_eq_some h, by simpa using List.find?_some h⟩

theorem find_none {idents : List Ident} {f : Fn} (h : find idents f = none) : ∀ i ∈ idents, i.fn ≠ f := by
  rw [find, List.find?_eq_none] at h
  intro i hi e
  exact h i hi (by simpa using e)

theorem nodup_eq {idents : List Ident} (hn : (idents.map (·.fn)).Nodup) {i j : Ident} (hi : i ∈ idents) (hj : j ∈ idents)
    (h : i.fn = j.fn) : i = j := by
  induction idents with
  | nil => simp at hi
  | cons a l ih =>
    rw [List.map_cons, List.nodup_cons] at hn
    rcases List.mem_cons.mp hi with e | hi <;> rcases List.mem_cons.mp hj with e' | hj
    · rw [e, e']
    · exact absurd (List.mem_map.mpr ⟨j, hj, by rw [← h, e]⟩) hn.1
    · exact absurd (List.mem_map.mpr ⟨i, hi, by rw [h, e']⟩) hn.1
    · exact ih hn.2 hi hj

theorem mem_update {idents : List Ident} {f : Fn} {g : Ident → Ident} {i : Ident} :
    i ∈ update idents f g ↔ (i ∈ idents ∧ i.fn ≠ f) ∨ (∃ j ∈ idents, j.fn = f ∧ i = g j) := by
  rw [update, List.mem_map]
  constructor
  · rintro ⟨j, hj, e⟩
    by_cases h : j.fn = f
    · rw [if_pos h] at e; exact Or.inr ⟨j, hj, h, e.symm⟩
    · rw [if_neg h] at e; subst e; exact Or.inl ⟨hj, h⟩
  · rintro (⟨hi, h⟩ | ⟨j, hj, h, e⟩)
    · exact ⟨i, hi, if_neg h⟩
    · exact ⟨j, hj, by rw [if_pos h, e]⟩

theorem update_fns {idents : List Ident} {f : Fn} {g : Ident → Ident} (hg : ∀ i, (g i).fn = i.fn) :
    (update idents f g).map (·.fn) = idents.map (·.fn) := by
  rw [update, List.map_map]
  apply List.map_congr_left
  intro i _
  simp only [Function.comp]
  split
  · exact hg i
  · rfl

/-! ## Code that grows -/

/-- Instructions other than placeholders stay where they are. -/
def Le (c c' : List Instr) : Prop := ∀ (i : Nat) (x : Instr), x ≠ .nop → c[i]? = some x → c'[i]? = some x

theorem Le.refl (c : List Instr) : Le c c := fun _ _ _ h => h

theorem Le.trans {a b c : List Instr} (h : Le a b) (h' : Le b c) : Le a c := fun i x hx e => h' i x hx (h i x hx e)

theorem getElem?_lt {c : List Instr} {i : Nat} {x : Instr} (h : c[i]? = some x) : i < c.length := by
  by_cases hl : i < c.length
  · exact hl
  · rw [List.getElem?_eq_none (by omega)] at h; cases h

theorem le_append (c d : List Instr) : Le c (c ++ d) := fun i x _ h => by
  rw [List.getElem?_append_left (getElem?_lt h)]; exact h

theorem le_set {c : List Instr} {p : Nat} {y : Instr} (h : c[p]? = some .nop) : Le c (c.set p y) := fun i x hx e => by
  by_cases hp : p = i
  · subst hp; rw [h] at e; cases e; exact absurd rfl hx
  · rw [List.getElem?_set_ne hp]; exact e

theorem Le.reaches {c c' : List Instr} (h : Le c c') {a e : Nat} {f : Fn} (hr : Reaches c a f e) : Reaches c' a f e := by
  obtain ⟨h1, h2⟩ := hr
  refine ⟨h _ _ (by simp) h1, ?_⟩
  rcases h2 with h2 | h2
  · exact Or.inl h2
  · exact Or.inr (h _ _ (by simp) h2)

/-! ## The invariant -/

/-- `C`: the functions whose code exists; `k`: the current module; `m`: a function without a placeholder to be filled in, or of a
module before `m`. -/
structure Inv (m k : Nat) (s : St) (C : List Fn) : Prop where
  nodup : (s.idents.map (·.fn)).Nodup
  enters : ∀ (e : Nat) (f : Fn), s.code[e]? = some (.enter f) → f ∈ C
  uniq : ∀ (e e' : Nat) (f : Fn), s.code[e]? = some (.enter f) → s.code[e']? = some (.enter f) → e = e'
  closed : ∀ i ∈ s.idents, i.fn ∈ C → (∃ e, Reaches s.code i.offset i.fn e) ∧ (i.proto = none ∨ i.fn.module < m)
  declared : ∀ f ∈ C, ∃ i ∈ s.idents, i.fn = f
  pending : ∀ i ∈ s.idents, i.fn ∉ C →
    i.proto = some i.offset ∧ s.code[i.offset]? = some .nop ∧ 0 < i.offset ∧ i.fn.module = k
  inj : ∀ i ∈ s.idents, ∀ j ∈ s.idents, i.fn ∉ C → j.fn ∉ C → i.offset = j.offset → i = j
  start : s.code[0]? = some .nop

/-- Where a call of `g` may lead: to the placeholder of the prototype or to the function. -/
def Target (s : St) (C : List Fn) (g : Fn) (off : Nat) : Prop :=
  (g ∉ C ∧ ∃ i ∈ s.idents, i.fn = g ∧ i.offset = off) ∨ (∃ e, Reaches s.code off g e)

/-- The code of a function. -/
def Body (s : St) (C : List Fn) (f : Fn) (calls : List Fn) : Prop :=
  ∃ e, s.code[e]? = some (.enter f) ∧
    (∀ (k : Nat) (g : Fn), calls[k]? = some g → ∃ off, s.code[e + 1 + k]? = some (.call off) ∧ Target s C g off) ∧
    s.code[e + 1 + calls.length]? = some .ret

/-- The code of an external function. -/
def Stub (s : St) (f : Fn) (x : Entry) : Prop :=
  ∃ e, s.code[e]? = some (.enter f) ∧ s.code[e + 1]? = some (.callExtern x) ∧ s.code[e + 2]? = some .ret

/-- Steps from one state to a later one. -/
structure Later (s : St) (C : List Fn) (s' : St) (C' : List Fn) : Prop where
  le : Le s.code s'.code
  mono : ∀ f ∈ C, f ∈ C'
  target : ∀ g off, Target s C g off → Target s' C' g off

theorem Later.refl (s : St) (C : List Fn) : Later s C s C := ⟨Le.refl _, fun _ h => h, fun _ _ h => h⟩

theorem Later.trans {s s' s'' : St} {C C' C'' : List Fn} (h : Later s C s' C') (h' : Later s' C' s'' C'') :
    Later s C s'' C'' := ⟨h.le.trans h'.le, fun f hf => h'.mono f (h.mono f hf), fun g off ht => h'.target g off (h.target g off ht)⟩

theorem Later.body {s s' : St} {C C' : List Fn} (h : Later s C s' C') {f : Fn} {calls : List Fn} (hb : Body s C f calls) :
    Body s' C' f calls := by
  obtain ⟨e, h1, h2, h3⟩ := hb
  refine ⟨e, h.le _ _ (by simp) h1, ?_, h.le _ _ (by simp) h3⟩
  intro k g hk
  obtain ⟨off, h4, h5⟩ := h2 k g hk
  exact ⟨off, h.le _ _ (by simp) h4, h.target g off h5⟩

theorem Later.stub {s s' : St} {C C' : List Fn} (h : Later s C s' C') {f : Fn} {x : Entry} (hb : Stub s f x) :
    Stub s' f x := by
  obtain ⟨e, h1, h2, h3⟩ := hb
  exact ⟨e, h.le _ _ (by simp) h1, h.le _ _ (by simp) h2, h.le _ _ (by simp) h3⟩

/-! ## Appending instructions that are no entry points -/

theorem inv_append {m k : Nat} {s : St} {C : List Fn} (h : Inv m k s C) (d : List Instr)
    (hd : ∀ f, Instr.enter f ∉ d) (ext : List External) :
    Inv m k ⟨s.code ++ d, s.idents, ext⟩ C ∧ Later s C ⟨s.code ++ d, s.idents, ext⟩ C := by
  have hle := le_append s.code d
  have hent : ∀ (e : Nat) (f : Fn), (s.code ++ d)[e]? = some (.enter f) → s.code[e]? = some (.enter f) := by
    intro e f he
    by_cases hl : e < s.code.length
    · rw [List.getElem?_append_left hl] at he; exact he
    · rw [List.getElem?_append_right (by omega)] at he
      exact absurd (List.mem_of_getElem? he) (hd f)
  refine ⟨⟨h.nodup, ?_, ?_, ?_, h.declared, ?_, h.inj, ?_⟩, ⟨hle, fun _ h => h, ?_⟩⟩
  · intro e f he; exact h.enters e f (hent e f he)
  · intro e e' f he he'; exact h.uniq e e' f (hent e f he) (hent e' f he')
  · intro i hi hc
    obtain ⟨⟨e, h1⟩, h2⟩ := h.closed i hi hc
    exact ⟨⟨e, hle.reaches h1⟩, h2⟩
  · intro i hi hc
    obtain ⟨h1, h2, h3⟩ := h.pending i hi hc
    refine ⟨h1, ?_, h3⟩
    rw [List.getElem?_append_left (getElem?_lt h2)]; exact h2
  · dsimp only
    rw [List.getElem?_append_left (getElem?_lt h.start)]; exact h.start
  · rintro g off (⟨h1, h2⟩ | ⟨e, h1⟩)
    · exact Or.inl ⟨h1, h2⟩
    · exact Or.inr ⟨e, hle.reaches h1⟩

/-! ## A prototype -/

theorem step_proto {m : Nat} {s s' : St} {C : List Fn} {rcv : Option Nat} {name : List Char} (h : Inv m m s C)
    (hnew : ∀ i ∈ s.idents, i.fn = ⟨m, rcv, name⟩ → i.fn ∈ C) (hs : fnDecl m s (.proto rcv name) = .ok s') :
    Inv m m s' C ∧ Later s C s' C ∧ s'.externals = s.externals ∧
      (∀ f, (∃ i ∈ s'.idents, i.fn = f) ↔ (∃ i ∈ s.idents, i.fn = f) ∨ f = ⟨m, rcv, name⟩) ∧
      (⟨m, rcv, name⟩ : Fn) ∉ C := by
  generalize hf : (⟨m, rcv, name⟩ : Fn) = f at *
  rw [fnDecl, hf, addFnIdent] at hs
  cases hfi : find s.idents f with
  | some i =>
    rw [hfi] at hs
    obtain ⟨hi, hif⟩ := find_some hfi
    have hc := hnew i hi hif
    have hp := (h.closed i hi hc).2
    have hm : i.fn.module = m := by rw [hif, ← hf]
    rcases hp with hp | hp
    · simp [hp] at hs
    · omega
  | none =>
    rw [hfi] at hs
    have hno := find_none hfi
    have hfC : f ∉ C := fun hc => by
      obtain ⟨i, hi, e⟩ := h.declared f hc
      exact hno i hi e
    simp only [Except.ok.injEq] at hs
    have hupd : update (⟨f, s.code.length, none⟩ :: s.idents) f (fun i => { i with proto := some i.offset }) =
        ⟨f, s.code.length, some s.code.length⟩ :: s.idents := by
      rw [update, List.map_cons, if_pos rfl]
      congr 1
      conv => rhs; rw [← List.map_id s.idents]
      apply List.map_congr_left
      intro i hi
      rw [if_neg (hno i hi)]; rfl
    rw [fnPrototype] at hs
    dsimp only at hs
    rw [hupd] at hs
    subst hs
    have hle := le_append s.code [.nop]
    have hent : ∀ (e : Nat) (g : Fn), (s.code ++ [.nop])[e]? = some (.enter g) → s.code[e]? = some (.enter g) := by
      intro e g he
      by_cases hl : e < s.code.length
      · rw [List.getElem?_append_left hl] at he; exact he
      · rw [List.getElem?_append_right (by omega)] at he
        have := List.mem_of_getElem? he
        simp at this
    have hpos : 0 < s.code.length := getElem?_lt h.start
    refine ⟨⟨?_, ?_, ?_, ?_, ?_, ?_, ?_, ?_⟩, ⟨hle, fun _ h => h, ?_⟩, rfl, ?_, hfC⟩
    · rw [List.map_cons, List.nodup_cons]
      refine ⟨?_, h.nodup⟩
      intro hm
      obtain ⟨i, hi, e⟩ := List.mem_map.mp hm
      exact hno i hi e
    · intro e g he; exact h.enters e g (hent e g he)
    · intro e e' g he he'; exact h.uniq e e' g (hent e g he) (hent e' g he')
    · intro i hi hc
      rcases List.mem_cons.mp hi with e | hi
      · subst e; exact absurd hc hfC
      · obtain ⟨⟨e, h1⟩, h2⟩ := h.closed i hi hc
        exact ⟨⟨e, hle.reaches h1⟩, h2⟩
    · intro g hg
      obtain ⟨i, hi, e⟩ := h.declared g hg
      exact ⟨i, List.mem_cons_of_mem _ hi, e⟩
    · intro i hi hc
      rcases List.mem_cons.mp hi with e | hi
      · subst e
        refine ⟨rfl, ?_, hpos, by rw [← hf]⟩
        simp
      · obtain ⟨h1, h2, h3⟩ := h.pending i hi hc
        refine ⟨h1, ?_, h3⟩
        rw [List.getElem?_append_left (getElem?_lt h2)]; exact h2
    · intro i hi j hj hci hcj e
      rcases List.mem_cons.mp hi with e1 | hi <;> rcases List.mem_cons.mp hj with e2 | hj
      · rw [e1, e2]
      · have := getElem?_lt (h.pending j hj hcj).2.1
        rw [e1] at e; dsimp only at e; omega
      · have := getElem?_lt (h.pending i hi hci).2.1
        rw [e2] at e; dsimp only at e; omega
      · exact h.inj i hi j hj hci hcj e
    · dsimp only
      rw [List.getElem?_append_left (getElem?_lt h.start)]; exact h.start
    · rintro g off (⟨h1, i, hi, h2⟩ | ⟨e, h1⟩)
      · exact Or.inl ⟨h1, i, List.mem_cons_of_mem _ hi, h2⟩
      · exact Or.inr ⟨e, hle.reaches h1⟩
    · intro g
      constructor
      · rintro ⟨i, hi, e⟩
        rcases List.mem_cons.mp hi with e' | hi
        · subst e'; exact Or.inr e.symm
        · exact Or.inl ⟨i, hi, e⟩
      · rintro (⟨i, hi, e⟩ | e)
        · exact ⟨i, List.mem_cons_of_mem _ hi, e⟩
        · exact ⟨_, List.mem_cons_self, e.symm⟩

/-! ## The entry of a function with a prototype -/

/-- The code with the entry point of a function at its end. -/
theorem inv_enter {m k : Nat} {s : St} {C : List Fn} {i : Ident} (h : Inv m k s C) (hi : i ∈ s.idents) (hc : i.fn ∉ C)
    (idents' : List Ident) (ext : List External)
    (hids : ∀ j ∈ idents', (j ∈ s.idents ∧ j.fn ≠ i.fn) ∨
      (j.fn = i.fn ∧ ((j.offset = s.code.length ∧ j.proto = none) ∨ (j = i ∧ k < m))))
    (hids' : ∀ j ∈ s.idents, j.fn ≠ i.fn → j ∈ idents') (hex : ∃ j ∈ idents', j.fn = i.fn)
    (hnd : (idents'.map (·.fn)).Nodup) :
    Inv m k ⟨entryPoint s.code i.offset ++ [.enter i.fn], idents', ext⟩ (i.fn :: C) ∧
    Later s C ⟨entryPoint s.code i.offset ++ [.enter i.fn], idents', ext⟩ (i.fn :: C) := by
  obtain ⟨hp1, hp2, hp3, hp4⟩ := h.pending i hi hc
  have hlt := getElem?_lt hp2
  have hle1 : Le s.code (entryPoint s.code i.offset) := le_set hp2
  have hlen : (entryPoint s.code i.offset).length = s.code.length := by rw [entryPoint, List.length_set]
  have hle : Le s.code (entryPoint s.code i.offset ++ [.enter i.fn]) := hle1.trans (le_append _ _)
  have hnew : (entryPoint s.code i.offset ++ [.enter i.fn])[s.code.length]? = some (.enter i.fn) := by
    rw [List.getElem?_append_right (by omega), hlen, Nat.sub_self]; rfl
  have hgo : (entryPoint s.code i.offset ++ [.enter i.fn])[i.offset]? = some (.goto s.code.length) := by
    rw [List.getElem?_append_left (by omega), entryPoint, List.getElem?_set_self hlt]
  have hother : ∀ k, k ≠ i.offset → k < s.code.length →
      (entryPoint s.code i.offset ++ [.enter i.fn])[k]? = s.code[k]? := by
    intro k hk hl
    rw [List.getElem?_append_left (by omega), entryPoint, List.getElem?_set_ne (fun e => hk e.symm)]
  have hent : ∀ (e : Nat) (g : Fn), (entryPoint s.code i.offset ++ [.enter i.fn])[e]? = some (.enter g) →
      (e = s.code.length ∧ g = i.fn) ∨ s.code[e]? = some (.enter g) := by
    intro e g he
    have hel := getElem?_lt he
    rw [List.length_append, hlen] at hel
    simp only [List.length_cons, List.length_nil] at hel
    by_cases h1 : e = s.code.length
    · subst h1
      rw [hnew] at he
      simp only [Option.some.injEq, Instr.enter.injEq] at he
      exact Or.inl ⟨rfl, he.symm⟩
    · right
      by_cases h2 : e = i.offset
      · subst h2; rw [hgo] at he; cases he
      · rw [hother e h2 (by omega)] at he; exact he
  refine ⟨⟨hnd, ?_, ?_, ?_, ?_, ?_, ?_, ?_⟩, ⟨hle, fun f hf => List.mem_cons_of_mem _ hf, ?_⟩⟩
  · intro e g he
    rcases hent e g he with ⟨_, e'⟩ | he
    · rw [e']; exact List.mem_cons_self
    · exact List.mem_cons_of_mem _ (h.enters e g he)
  · intro e e' g he he'
    rcases hent e g he with ⟨h1, h2⟩ | h1 <;> rcases hent e' g he' with ⟨h3, h4⟩ | h3
    · omega
    · subst h2; exact absurd (h.enters _ _ h3) hc
    · subst h4; exact absurd (h.enters _ _ h1) hc
    · exact h.uniq e e' g h1 h3
  · intro j hj hjc
    rcases hids j hj with ⟨hj', hne⟩ | ⟨e1, ⟨e2, e3⟩ | ⟨e2, e3⟩⟩
    · have hjc' : j.fn ∈ C := by
        rcases List.mem_cons.mp hjc with e | hjc
        · exact absurd e hne
        · exact hjc
      obtain ⟨⟨e, h1⟩, h2⟩ := h.closed j hj' hjc'
      exact ⟨⟨e, hle.reaches h1⟩, h2⟩
    · refine ⟨⟨s.code.length, ?_, Or.inl e2⟩, Or.inl e3⟩
      rw [e1]; exact hnew
    · subst e2
      exact ⟨⟨s.code.length, hnew, Or.inr hgo⟩, Or.inr (by omega)⟩
  · intro g hg
    rcases List.mem_cons.mp hg with e | hg
    · rw [e]; exact hex
    · obtain ⟨j, hj, e⟩ := h.declared g hg
      refine ⟨j, hids' j hj ?_, e⟩
      intro e'; rw [← e'] at hc; rw [e] at hc; exact hc hg
  · intro j hj hjc
    rcases hids j hj with ⟨hj', hne⟩ | ⟨e1, _⟩
    · have hjc' : j.fn ∉ C := fun hx => hjc (List.mem_cons_of_mem _ hx)
      obtain ⟨h1, h2, h3, h4⟩ := h.pending j hj' hjc'
      refine ⟨h1, ?_, h3, h4⟩
      rw [hother j.offset ?_ (getElem?_lt h2)]
      · exact h2
      · intro e
        have := h.inj j hj' i hi hjc' hc e
        rw [this] at hne; exact hne rfl
    · rw [e1] at hjc; exact absurd List.mem_cons_self hjc
  · intro j hj k hk hjc hkc e
    rcases hids j hj with ⟨hj', hne⟩ | ⟨e1, _⟩
    · rcases hids k hk with ⟨hk', hne'⟩ | ⟨e1, _⟩
      · exact h.inj j hj' k hk' (fun hx => hjc (List.mem_cons_of_mem _ hx)) (fun hx => hkc (List.mem_cons_of_mem _ hx)) e
      · rw [e1] at hkc; exact absurd List.mem_cons_self hkc
    · rw [e1] at hjc; exact absurd List.mem_cons_self hjc
  · dsimp only
    rw [hother 0 (by omega) (getElem?_lt h.start)]; exact h.start
  · rintro g off (⟨h1, j, hj, h2, h3⟩ | ⟨e, h1⟩)
    · by_cases hg : g = i.fn
      · have : j = i := nodup_eq h.nodup hj hi (by rw [h2, hg])
        subst this
        right
        refine ⟨s.code.length, ?_, Or.inr ?_⟩
        · rw [hg]; exact hnew
        · rw [← h3]; exact hgo
      · left
        refine ⟨?_, j, hids' j hj (by rw [h2]; exact hg), h2, h3⟩
        intro hx
        rcases List.mem_cons.mp hx with e | hx
        · exact hg e
        · exact h1 hx
    · exact Or.inr ⟨e, hle.reaches h1⟩

/-- The same for a function without a prototype. -/
theorem inv_enter_new {m k : Nat} {s : St} {C : List Fn} {f : Fn} (h : Inv m k s C) (hno : ∀ i ∈ s.idents, i.fn ≠ f) :
    Inv m k ⟨s.code ++ [.enter f], ⟨f, s.code.length, none⟩ :: s.idents, s.externals⟩ (f :: C) ∧
    Later s C ⟨s.code ++ [.enter f], ⟨f, s.code.length, none⟩ :: s.idents, s.externals⟩ (f :: C) := by
  have hle : Le s.code (s.code ++ [.enter f]) := le_append _ _
  have hfC : f ∉ C := fun hc => by
    obtain ⟨i, hi, e⟩ := h.declared f hc
    exact hno i hi e
  have hnew : (s.code ++ [.enter f])[s.code.length]? = some (.enter f) := by simp
  have hent : ∀ (e : Nat) (g : Fn), (s.code ++ [.enter f])[e]? = some (.enter g) →
      (e = s.code.length ∧ g = f) ∨ s.code[e]? = some (.enter g) := by
    intro e g he
    have hel := getElem?_lt he
    rw [List.length_append] at hel
    simp only [List.length_cons, List.length_nil] at hel
    by_cases h1 : e = s.code.length
    · subst h1
      rw [hnew] at he
      simp only [Option.some.injEq, Instr.enter.injEq] at he
      exact Or.inl ⟨rfl, he.symm⟩
    · right
      rw [List.getElem?_append_left (by omega)] at he; exact he
  refine ⟨⟨?_, ?_, ?_, ?_, ?_, ?_, ?_, ?_⟩, ⟨hle, fun g hg => List.mem_cons_of_mem _ hg, ?_⟩⟩
  · rw [List.map_cons, List.nodup_cons]
    refine ⟨?_, h.nodup⟩
    intro hm
    obtain ⟨i, hi, e⟩ := List.mem_map.mp hm
    exact hno i hi e
  · intro e g he
    rcases hent e g he with ⟨_, e'⟩ | he
    · rw [e']; exact List.mem_cons_self
    · exact List.mem_cons_of_mem _ (h.enters e g he)
  · intro e e' g he he'
    rcases hent e g he with ⟨h1, h2⟩ | h1 <;> rcases hent e' g he' with ⟨h3, h4⟩ | h3
    · omega
    · subst h2; exact absurd (h.enters _ _ h3) hfC
    · subst h4; exact absurd (h.enters _ _ h1) hfC
    · exact h.uniq e e' g h1 h3
  · intro j hj hjc
    rcases List.mem_cons.mp hj with e | hj
    · subst e
      exact ⟨⟨s.code.length, hnew, Or.inl rfl⟩, Or.inl rfl⟩
    · have hjc' : j.fn ∈ C := by
        rcases List.mem_cons.mp hjc with e | hjc
        · exact absurd e (hno j hj)
        · exact hjc
      obtain ⟨⟨e, h1⟩, h2⟩ := h.closed j hj hjc'
      exact ⟨⟨e, hle.reaches h1⟩, h2⟩
  · intro g hg
    rcases List.mem_cons.mp hg with e | hg
    · exact ⟨_, List.mem_cons_self, e.symm⟩
    · obtain ⟨j, hj, e⟩ := h.declared g hg
      exact ⟨j, List.mem_cons_of_mem _ hj, e⟩
  · intro j hj hjc
    rcases List.mem_cons.mp hj with e | hj
    · subst e; exact absurd List.mem_cons_self hjc
    · obtain ⟨h1, h2, h3⟩ := h.pending j hj (fun hx => hjc (List.mem_cons_of_mem _ hx))
      refine ⟨h1, ?_, h3⟩
      rw [List.getElem?_append_left (getElem?_lt h2)]; exact h2
  · intro i hi j hj hci hcj e
    rcases List.mem_cons.mp hi with e1 | hi
    · subst e1; exact absurd List.mem_cons_self hci
    · rcases List.mem_cons.mp hj with e1 | hj
      · subst e1; exact absurd List.mem_cons_self hcj
      · exact h.inj i hi j hj (fun hx => hci (List.mem_cons_of_mem _ hx)) (fun hx => hcj (List.mem_cons_of_mem _ hx)) e
  · dsimp only
    rw [List.getElem?_append_left (getElem?_lt h.start)]; exact h.start
  · rintro g off (⟨h1, j, hj, h2, h3⟩ | ⟨e, h1⟩)
    · left
      refine ⟨?_, j, List.mem_cons_of_mem _ hj, h2, h3⟩
      intro hx
      rcases List.mem_cons.mp hx with e | hx
      · exact hno j hj (by rw [h2, e])
      · exact h1 hx
    · exact Or.inr ⟨e, hle.reaches h1⟩

/-! ## The calls of a function -/

theorem calls_ok {m k : Nat} {C : List Fn} (calls : List Fn) : ∀ {s s' : St}, Inv m k s C → compileCalls s calls = .ok s' →
    Inv m k s' C ∧ Later s C s' C ∧ s'.externals = s.externals ∧ s'.idents = s.idents ∧
    s'.code.length = s.code.length + calls.length ∧
    ∀ (n : Nat) (g : Fn), calls[n]? = some g → ∃ off, s'.code[s.code.length + n]? = some (.call off) ∧ Target s' C g off := by
  induction calls with
  | nil =>
    intro s s' h hs
    simp only [compileCalls, Except.ok.injEq] at hs
    subst hs
    exact ⟨h, Later.refl _ _, rfl, rfl, rfl, by simp⟩
  | cons f fs ih =>
    intro s s' h hs
    rw [compileCalls] at hs
    cases hfi : find s.idents f with
    | none => rw [hfi] at hs; cases hs
    | some i =>
      rw [hfi] at hs
      obtain ⟨hi, hif⟩ := find_some hfi
      obtain ⟨h1, h2⟩ := inv_append h [.call i.offset] (by simp) s.externals
      obtain ⟨h3, h4, h5, h6, h7, h8⟩ := ih h1 hs
      refine ⟨h3, h2.trans h4, h5, h6, by rw [h7]; simp; omega, ?_⟩
      intro n g hn
      cases n with
      | zero =>
        simp only [List.getElem?_cons_zero, Option.some.injEq] at hn
        subst hn
        refine ⟨i.offset, h4.le _ _ (by simp) (by simp), h4.target _ _ ?_⟩
        by_cases hc : f ∈ C
        · obtain ⟨⟨e, hr⟩, _⟩ := h1.closed i hi (by rw [hif]; exact hc)
          rw [hif] at hr
          exact Or.inr ⟨e, hr⟩
        · exact Or.inl ⟨hc, i, hi, hif, rfl⟩
      | succ n =>
        rw [List.getElem?_cons_succ] at hn
        obtain ⟨off, e1, e2⟩ := h8 n g hn
        refine ⟨off, ?_, e2⟩
        rw [← e1]
        simp only [List.length_append, List.length_cons, List.length_nil]
        congr 1; omega

/-! ## A function -/

theorem block_ok {m k : Nat} {s0 s1 s' : St} {C : List Fn} {f : Fn} {calls : List Fn}
    (h1 : Inv m k s1 (f :: C)) (hl : Later s0 C s1 (f :: C)) (hent : s1.code[s1.code.length - 1]? = some (.enter f))
    (hs : (match compileCalls s1 calls with | .error e => .error e | .ok s => .ok { s with code := s.code ++ [.ret] }) = Except.ok s') :
    Inv m k s' (f :: C) ∧ Later s0 C s' (f :: C) ∧ s'.externals = s1.externals ∧ s'.idents = s1.idents ∧
      Body s' (f :: C) f calls := by
  cases hc : compileCalls s1 calls with
  | error e => rw [hc] at hs; cases hs
  | ok s2 =>
    rw [hc] at hs
    simp only [Except.ok.injEq] at hs
    obtain ⟨a1, a2, a3, a4, a5, a6⟩ := calls_ok calls h1 hc
    obtain ⟨b1, b2⟩ := inv_append a1 [.ret] (by simp) s2.externals
    have e : (⟨s2.code ++ [.ret], s2.idents, s2.externals⟩ : St) = s' := hs
    rw [e] at b1 b2
    subst e
    have hpos := getElem?_lt hent
    refine ⟨b1, hl.trans (a2.trans b2), a3, a4, ?_⟩
    refine ⟨s1.code.length - 1, b2.le _ _ (by simp) (a2.le _ _ (by simp) hent), ?_, ?_⟩
    · intro n g hn
      obtain ⟨off, e1, e2⟩ := a6 n g hn
      refine ⟨off, b2.le _ _ (by simp) ?_, b2.target _ _ e2⟩
      rw [show s1.code.length - 1 + 1 + n = s1.code.length + n by omega]; exact e1
    · dsimp only
      rw [show s1.code.length - 1 + 1 + calls.length = s2.code.length by omega]
      simp

theorem step_fn {m : Nat} {s s' : St} {C : List Fn} {rcv : Option Nat} {name : List Char} {calls : List Fn} (h : Inv m m s C)
    (hs : fnDecl m s (.fn rcv name calls) = .ok s') :
    Inv m m s' (⟨m, rcv, name⟩ :: C) ∧ Later s C s' (⟨m, rcv, name⟩ :: C) ∧ s'.externals = s.externals ∧
      (∀ f, (∃ i ∈ s'.idents, i.fn = f) ↔ (∃ i ∈ s.idents, i.fn = f) ∨ f = ⟨m, rcv, name⟩) ∧
      (⟨m, rcv, name⟩ : Fn) ∉ C ∧ Body s' (⟨m, rcv, name⟩ :: C) ⟨m, rcv, name⟩ calls := by
  generalize hf : (⟨m, rcv, name⟩ : Fn) = f at *
  rw [fnDecl, hf, addFnIdent] at hs
  cases hfi : find s.idents f with
  | none =>
    rw [hfi] at hs
    have hno := find_none hfi
    have hfC : f ∉ C := fun hc => by
      obtain ⟨i, hi, e⟩ := h.declared f hc
      exact hno i hi e
    have hfind : find (⟨f, s.code.length, none⟩ :: s.idents) f = some ⟨f, s.code.length, none⟩ := by
      simp [find]
    dsimp only at hs
    rw [fnBlock] at hs
    dsimp only at hs
    rw [hfind] at hs
    simp only [Option.bind_some] at hs
    obtain ⟨a1, a2⟩ := inv_enter_new h hno
    obtain ⟨b1, b2, b3, b4, b5⟩ := block_ok a1 a2 (by simp) hs
    refine ⟨b1, b2, b3, ?_, hfC, b5⟩
    intro g
    rw [b4]
    constructor
    · rintro ⟨i, hi, e⟩
      rcases List.mem_cons.mp hi with e' | hi
      · subst e'; exact Or.inr e.symm
      · exact Or.inl ⟨i, hi, e⟩
    · rintro (⟨i, hi, e⟩ | e)
      · exact ⟨i, List.mem_cons_of_mem _ hi, e⟩
      · exact ⟨_, List.mem_cons_self, e.symm⟩
  | some i =>
    rw [hfi] at hs
    obtain ⟨hi, hif⟩ := find_some hfi
    have hm : i.fn.module = m := by rw [hif, ← hf]
    have hps : i.proto.isSome = true := by
      by_cases hp : i.proto.isSome = true
      · exact hp
      · simp [hp] at hs
    have hfC : f ∉ C := fun hc => by
      rcases (h.closed i hi (by rw [hif]; exact hc)).2 with hp | hp
      · rw [hp] at hps; cases hps
      · omega
    obtain ⟨p1, p2, p3, p4⟩ := h.pending i hi (by rw [hif]; exact hfC)
    simp only [hps, if_true] at hs
    have hfind : ∃ j, find (update s.idents f (fun i => { i with offset := s.code.length })) f = some j ∧
        j.proto = some i.offset := by
      cases hj : find (update s.idents f (fun i => { i with offset := s.code.length })) f with
      | none =>
        exfalso
        exact find_none hj { i with offset := s.code.length } (mem_update.mpr (Or.inr ⟨i, hi, hif, rfl⟩)) hif
      | some j =>
        refine ⟨j, rfl, ?_⟩
        obtain ⟨hj1, hj2⟩ := find_some hj
        rcases mem_update.mp hj1 with ⟨_, hx⟩ | ⟨i', hi', hx, e⟩
        · exact absurd hj2 hx
        · have : i' = i := nodup_eq h.nodup hi' hi (by rw [hx, hif])
          subst this
          rw [e]; exact p1
    obtain ⟨j, hj1, hj2⟩ := hfind
    rw [fnBlock] at hs
    dsimp only at hs
    rw [hj1] at hs
    simp only [Option.bind_some, hj2] at hs
    generalize hids : update (update s.idents f (fun i => { i with offset := s.code.length })) f
      (fun i => { i with proto := none }) = ids at hs
    have hmem : ∀ j, j ∈ ids ↔ (j ∈ s.idents ∧ j.fn ≠ f) ∨ j = ⟨f, s.code.length, none⟩ := by
      intro j
      rw [← hids, mem_update]
      constructor
      · rintro (⟨hj, hne⟩ | ⟨j', hj', hx, e⟩)
        · rcases mem_update.mp hj with ⟨hj, hne⟩ | ⟨j', _, hx, e⟩
          · exact Or.inl ⟨hj, hne⟩
          · rw [e] at hne; exact absurd hx hne
        · rcases mem_update.mp hj' with ⟨_, hne⟩ | ⟨j'', _, hx', e'⟩
          · exact absurd hx hne
          · right
            rw [e, e']; simp only [hx']
      · rintro (⟨hj, hne⟩ | e)
        · exact Or.inl ⟨mem_update.mpr (Or.inl ⟨hj, hne⟩), hne⟩
        · refine Or.inr ⟨{ i with offset := s.code.length }, mem_update.mpr (Or.inr ⟨i, hi, hif, rfl⟩), hif, ?_⟩
          rw [e]; simp only [hif]
    have hnd : (ids.map (·.fn)).Nodup := by
      rw [← hids, update_fns (g := fun i => { i with proto := none }) (by intro i; rfl),
        update_fns (g := fun i => { i with offset := s.code.length }) (by intro i; rfl)]
      exact h.nodup
    obtain ⟨a1, a2⟩ := inv_enter h hi (by rw [hif]; exact hfC) ids s.externals
      (fun j hj => by
        rcases (hmem j).mp hj with ⟨hj, hne⟩ | e
        · exact Or.inl ⟨hj, by rw [hif]; exact hne⟩
        · subst e; exact Or.inr ⟨hif.symm, Or.inl ⟨rfl, rfl⟩⟩)
      (fun j hj hne => (hmem j).mpr (Or.inl ⟨hj, by rw [← hif]; exact hne⟩))
      ⟨⟨f, s.code.length, none⟩, (hmem _).mpr (Or.inr rfl), hif.symm⟩ hnd
    rw [hif] at a1 a2
    obtain ⟨b1, b2, b3, b4, b5⟩ := block_ok a1 a2 (by simp) hs
    refine ⟨b1, b2, b3, ?_, hfC, b5⟩
    intro g
    rw [b4]
    constructor
    · rintro ⟨i', hi', e⟩
      rcases (hmem i').mp hi' with ⟨hj, hne⟩ | e'
      · exact Or.inl ⟨i', hj, e⟩
      · subst e'; exact Or.inr e.symm
    · rintro (⟨i', hi', e⟩ | e)
      · by_cases hg : g = f
        · exact ⟨_, (hmem _).mpr (Or.inr rfl), hg.symm⟩
        · exact ⟨i', (hmem _).mpr (Or.inl ⟨hi', by rw [e]; exact hg⟩), e⟩
      · exact ⟨_, (hmem _).mpr (Or.inr rfl), e.symm⟩

/-! ## The declarations of a module -/

/-- The functions with a body of a module. -/
def bodyOf (m : Nat) : Item → Option (Fn × List Fn)
  | .proto _ _ => none
  | .fn rcv name calls => some (⟨m, rcv, name⟩, calls)

/-- The prototypes of a module. -/
def protoOf (m : Nat) : Item → Option Fn
  | .proto rcv name => some ⟨m, rcv, name⟩
  | .fn _ _ _ => none

theorem decls_ok {m : Nat} (items : List Item) : ∀ {s s' : St} {C : List Fn}, Inv m m s C →
    (items.filterMap (protoOf m)).Nodup →
    (∀ f ∈ items.filterMap (protoOf m), ∀ i ∈ s.idents, i.fn = f → f ∈ C) → decls m s items = .ok s' →
    ∃ C', Inv m m s' C' ∧ Later s C s' C' ∧ s'.externals = s.externals ∧
      (∀ f, (∃ i ∈ s'.idents, i.fn = f) ↔
        (∃ i ∈ s.idents, i.fn = f) ∨ f ∈ items.filterMap (protoOf m) ∨ f ∈ (items.filterMap (bodyOf m)).map (·.1)) ∧
      (∀ f, f ∈ C' ↔ f ∈ C ∨ f ∈ (items.filterMap (bodyOf m)).map (·.1)) ∧
      (∀ b ∈ items.filterMap (bodyOf m), Body s' C' b.1 b.2) := by
  induction items with
  | nil =>
    intro s s' C h _ _ hs
    simp only [decls, Except.ok.injEq] at hs
    subst hs
    exact ⟨C, h, Later.refl _ _, rfl, by simp, by simp, by simp⟩
  | cons it its ih =>
    intro s s' C h hn hnew hs
    rw [decls] at hs
    cases hd : fnDecl m s it with
    | error e => rw [hd] at hs; cases hs
    | ok s1 =>
      rw [hd] at hs
      cases it with
      | proto rcv name =>
        have hp : protoOf m (.proto rcv name) = some ⟨m, rcv, name⟩ := rfl
        have hb : bodyOf m (.proto rcv name) = none := rfl
        rw [List.filterMap_cons_some hp] at hn hnew ⊢
        rw [List.filterMap_cons_none hb]
        rw [List.nodup_cons] at hn
        obtain ⟨a1, a2, a3, a4, a5⟩ := step_proto h (fun i hi e => by rw [e]; exact hnew _ (by simp) i hi e) hd
        obtain ⟨C', b1, b2, b3, b4, b5, b6⟩ := ih a1 hn.2 (fun f hf i hi e => by
          rcases (a4 f).mp ⟨i, hi, e⟩ with ⟨j, hj, e'⟩ | e'
          · exact hnew f (by simp [hf]) j hj e'
          · rw [e'] at hf; exact absurd hf hn.1) hs
        refine ⟨C', b1, a2.trans b2, by rw [b3, a3], ?_, b5, b6⟩
        intro f
        rw [b4, a4, List.mem_cons]
        constructor
        · rintro ((h | h) | h | h)
          · exact Or.inl h
          · exact Or.inr (Or.inl (Or.inl h))
          · exact Or.inr (Or.inl (Or.inr h))
          · exact Or.inr (Or.inr h)
        · rintro (h | (h | h) | h)
          · exact Or.inl (Or.inl h)
          · exact Or.inl (Or.inr h)
          · exact Or.inr (Or.inl h)
          · exact Or.inr (Or.inr h)
      | fn rcv name calls =>
        have hp : protoOf m (.fn rcv name calls) = none := rfl
        have hb : bodyOf m (.fn rcv name calls) = some (⟨m, rcv, name⟩, calls) := rfl
        rw [List.filterMap_cons_none hp] at hn hnew ⊢
        rw [List.filterMap_cons_some hb]
        obtain ⟨a1, a2, a3, a4, a5, a6⟩ := step_fn h hd
        obtain ⟨C', b1, b2, b3, b4, b5, b6⟩ := ih a1 hn (fun f hf i hi e => by
          rcases (a4 f).mp ⟨i, hi, e⟩ with ⟨j, hj, e'⟩ | e'
          · exact List.mem_cons_of_mem _ (hnew f hf j hj e')
          · rw [e']; exact List.mem_cons_self) hs
        refine ⟨C', b1, a2.trans b2, by rw [b3, a3], ?_, ?_, ?_⟩
        · intro f
          rw [b4, a4, List.map_cons, List.mem_cons]
          constructor
          · rintro ((h | h) | h | h)
            · exact Or.inl h
            · exact Or.inr (Or.inr (Or.inl h))
            · exact Or.inr (Or.inl h)
            · exact Or.inr (Or.inr (Or.inr h))
          · rintro (h | h | h | h)
            · exact Or.inl (Or.inl h)
            · exact Or.inr (Or.inl h)
            · exact Or.inl (Or.inr h)
            · exact Or.inr (Or.inr h)
        · intro f
          rw [b5, List.mem_cons, List.map_cons, List.mem_cons]
          constructor
          · rintro ((h | h) | h)
            · exact Or.inr (Or.inl h)
            · exact Or.inl h
            · exact Or.inr (Or.inr h)
          · rintro (h | h | h)
            · exact Or.inl (Or.inr h)
            · exact Or.inl (Or.inl h)
            · exact Or.inr h
        · intro b hbm
          rcases List.mem_cons.mp hbm with e | hbm
          · subst e; exact b2.body a6
          · exact b6 b hbm

/-! ## External functions -/

/-- The same external functions, up to the mark. -/
def Same (E E' : List External) : Prop :=
  E.map (fun e => (e.name, e.entry, e.resolveInTrusted)) = E'.map (fun e => (e.name, e.entry, e.resolveInTrusted))

theorem same_mark (E : List External) (name : List Char) : Same (markResolved E name) E := by
  induction E with
  | nil => rfl
  | cons e es ih =>
    rw [markResolved]
    split
    · rfl
    · simp only [Same, List.map_cons, List.cons.injEq, true_and]; exact ih

theorem same_find {E E' : List External} (h : Same E E') (name : List Char) :
    (E.find? (fun e => e.name = name)).map (fun e => (e.name, e.entry, e.resolveInTrusted)) =
    (E'.find? (fun e => e.name = name)).map (fun e => (e.name, e.entry, e.resolveInTrusted)) := by
  induction E generalizing E' with
  | nil =>
    cases E' with
    | nil => rfl
    | cons a b => simp [Same] at h
  | cons e es ih =>
    cases E' with
    | nil => simp [Same] at h
    | cons e' es' =>
      simp only [Same, List.map_cons, List.cons.injEq, Prod.mk.injEq] at h
      obtain ⟨⟨h1, h2, h3⟩, h4⟩ := h
      simp only [List.find?_cons, ← h1]
      by_cases hn : e.name = name
      · simp [hn, h1, h2, h3, h1.symm.trans hn]
      · simp only [hn, decide_false]; exact ih h4

theorem same_bound {E E' : List External} (h : Same E E') (M : Module) (name : List Char) : bound E M name = bound E' M name := by
  have := same_find h name
  unfold bound
  cases h1 : E.find? (fun e => e.name = name) with
  | none =>
    rw [h1] at this
    cases h2 : E'.find? (fun e => e.name = name) with
    | none => rfl
    | some e' => rw [h2] at this; cases this
  | some e =>
    rw [h1] at this
    cases h2 : E'.find? (fun e => e.name = name) with
    | none => rw [h2] at this; cases this
    | some e' =>
      rw [h2] at this
      simp only [Option.map_some, Option.some.injEq, Prod.mk.injEq] at this
      exact this.2.1

theorem find_eq (E : List External) (name : List Char) : externalFind E name = E.find? (fun e => e.name = name) := by
  rw [externalFind]
  congr 1
  funext x
  by_cases hx : x.name = name
  · simp [hx]
  · simp [hx]

theorem choose_ok {M : Module} {E E' : List External} {name : List Char} {x : Entry}
    (h : chooseExtern M E name = .ok (x, E')) : bound E M name = some x ∧ Same E' E := by
  rw [chooseExtern, find_eq] at h
  rw [bound]
  cases hf : E.find? (fun e => e.name = name) with
  | none =>
    rw [hf] at h
    dsimp only at h ⊢
    cases hl : M.lib name with
    | none => rw [hl] at h; cases h
    | some n =>
      rw [hl] at h
      simp only [Except.ok.injEq, Prod.mk.injEq] at h
      obtain ⟨h1, h2⟩ := h
      subst h1; subst h2
      exact ⟨rfl, rfl⟩
  | some e =>
    rw [hf] at h
    dsimp only at h ⊢
    split at h
    · cases h
    · split at h
      · cases h
      · cases he : e.entry with
        | none => rw [he] at h; cases h
        | some fn =>
          rw [he] at h
          simp only [Except.ok.injEq, Prod.mk.injEq] at h
          obtain ⟨h1, h2⟩ := h
          subst h1; subst h2
          exact ⟨rfl, same_mark E name⟩

theorem resolve_ok {m : Nat} {M : Module} (is : List Ident) : ∀ {s s' : St} {C : List Fn}, Inv (m + 1) m s C →
    (∀ i ∈ is, i ∈ s.idents) → (is.map (·.fn)).Nodup →
    (∀ i ∈ is, i.fn ∈ C → i.fn.module = m → i.proto = none) → resolveExtern m M s is = .ok s' →
    ∃ C', Inv (m + 1) m s' C' ∧ Later s C s' C' ∧ s'.idents = s.idents ∧ Same s'.externals s.externals ∧
      (∀ i ∈ is, i.fn.module = m → i.fn ∈ C') ∧
      (∀ i ∈ is, i.fn ∉ C → ∃ x, Stub s' i.fn x ∧ bound s.externals M i.fn.name = some x) ∧
      (∀ f ∈ C', f ∈ C ∨ ∃ i ∈ is, i.fn = f) := by
  induction is with
  | nil =>
    intro s s' C h _ _ _ hs
    simp only [resolveExtern, Except.ok.injEq] at hs
    subst hs
    exact ⟨C, h, Later.refl _ _, rfl, rfl, by simp, by simp, fun f hf => Or.inl hf⟩
  | cons i is ih =>
    intro s s' C h hmem hn hproto hs
    rw [List.map_cons, List.nodup_cons] at hn
    rw [resolveExtern] at hs
    have hi := hmem i (by simp)
    have hmem' : ∀ j ∈ is, j ∈ s.idents := fun j hj => hmem j (by simp [hj])
    have hproto' : ∀ j ∈ is, j.fn ∈ C → j.fn.module = m → j.proto = none := fun j hj => hproto j (by simp [hj])
    -- a function that is left alone
    have skip : (i.fn.module = m → i.fn ∈ C) → i.fn ∈ C → resolveExtern m M s is = .ok s' → ∃ C', Inv (m + 1) m s' C' ∧
        Later s C s' C' ∧ s'.idents = s.idents ∧ Same s'.externals s.externals ∧
        (∀ j ∈ i :: is, j.fn.module = m → j.fn ∈ C') ∧
        (∀ j ∈ i :: is, j.fn ∉ C → ∃ x, Stub s' j.fn x ∧ bound s.externals M j.fn.name = some x) ∧
        (∀ f ∈ C', f ∈ C ∨ ∃ j ∈ i :: is, j.fn = f) := by
      intro hc hc2 hs
      obtain ⟨C', b1, b2, b3, b4, b5, b6, b7⟩ := ih h hmem' hn.2 hproto' hs
      refine ⟨C', b1, b2, b3, b4, ?_, ?_, ?_⟩
      · intro j hj hjm
        rcases List.mem_cons.mp hj with e | hj
        · subst e; exact b2.mono _ (hc hjm)
        · exact b5 j hj hjm
      · intro j hj hjc
        rcases List.mem_cons.mp hj with e | hj
        · subst e; exact absurd hc2 hjc
        · exact b6 j hj hjc
      · intro f hf
        rcases b7 f hf with h | ⟨j, hj, e⟩
        · exact Or.inl h
        · exact Or.inr ⟨j, by simp [hj], e⟩
    split at hs
    · rename_i hm
      cases hp : i.proto with
      | none =>
        rw [hp] at hs
        have hc : i.fn ∈ C := by
          by_cases hc : i.fn ∈ C
          · exact hc
          · have := (h.pending i hi hc).1
            rw [hp] at this; cases this
        exact skip (fun _ => hc) hc hs
      | some p =>
        rw [hp] at hs
        have hc : i.fn ∉ C := fun hc => by
          have := hproto i (by simp) hc hm
          rw [hp] at this; cases this
        have hpo : p = i.offset := by
          have := (h.pending i hi hc).1
          rw [hp] at this; exact Option.some.inj this
        subst hpo
        dsimp only at hs
        cases hch : chooseExtern M s.externals i.fn.name with
        | error e => rw [hch] at hs; cases hs
        | ok r =>
          obtain ⟨x, E'⟩ := r
          rw [hch] at hs
          dsimp only at hs
          obtain ⟨c1, c2⟩ := choose_ok hch
          obtain ⟨a1, a2⟩ := inv_enter h hi hc s.idents E'
            (fun j hj => by
              by_cases e : j.fn = i.fn
              · exact Or.inr ⟨e, Or.inr ⟨nodup_eq h.nodup hj hi e, by omega⟩⟩
              · exact Or.inl ⟨hj, e⟩)
            (fun j hj _ => hj) ⟨i, hi, rfl⟩ h.nodup
          obtain ⟨a3, a4⟩ := inv_append a1 [.callExtern x, .ret] (by simp) E'
          have ecode : entryPoint s.code i.offset ++ [.enter i.fn] ++ [.callExtern x, .ret] =
              entryPoint s.code i.offset ++ [.enter i.fn, .callExtern x, .ret] := by simp
          dsimp only at a3 a4
          rw [ecode] at a3 a4
          have hst : Stub ⟨entryPoint s.code i.offset ++ [.enter i.fn, .callExtern x, .ret], s.idents, E'⟩ i.fn x := by
            refine ⟨s.code.length, ?_, ?_, ?_⟩
            all_goals
              dsimp only
              rw [List.getElem?_append_right (by rw [entryPoint, List.length_set]; omega), entryPoint, List.length_set]
            · rw [Nat.sub_self]; rfl
            · rw [Nat.add_sub_cancel_left]; rfl
            · rw [Nat.add_sub_cancel_left]; rfl
          obtain ⟨C', b1, b2, b3, b4, b5, b6, b7⟩ := ih a3 hmem' hn.2 (fun j hj hjc hjm => by
            rcases List.mem_cons.mp hjc with e | hjc
            · exact absurd (List.mem_map.mpr ⟨j, hj, e⟩) hn.1
            · exact hproto' j hj hjc hjm) hs
          refine ⟨C', b1, (a2.trans a4).trans b2, b3, b4.trans c2, ?_, ?_, ?_⟩
          · intro j hj hjm
            rcases List.mem_cons.mp hj with e | hj
            · subst e; exact b2.mono _ List.mem_cons_self
            · exact b5 j hj hjm
          · intro j hj hjc
            rcases List.mem_cons.mp hj with e | hj
            · subst e; exact ⟨x, b2.stub hst, c1⟩
            · have hjc' : j.fn ∉ i.fn :: C := by
                intro hx
                rcases List.mem_cons.mp hx with e | hx
                · exact hn.1 (List.mem_map.mpr ⟨j, hj, e⟩)
                · exact hjc hx
              obtain ⟨y, y1, y2⟩ := b6 j hj hjc'
              exact ⟨y, y1, by rw [← y2]; exact (same_bound c2 M _).symm⟩
          · intro f hf
            rcases b7 f hf with h | ⟨j, hj, e⟩
            · rcases List.mem_cons.mp h with e | h
              · exact Or.inr ⟨i, by simp, e.symm⟩
              · exact Or.inl h
            · exact Or.inr ⟨j, by simp [hj], e⟩
    · rename_i hm
      have hc : i.fn ∈ C := by
        by_cases hc : i.fn ∈ C
        · exact hc
        · exact absurd (h.pending i hi hc).2.2.2 hm
      exact skip (fun e => absurd e hm) hc hs

/-! ## Registered functions are bound once -/

/-- The prototypes `D` are bound: no two to the same registered function. -/
structure Once (E : List External) (D : List Fn) : Prop where
  inj : ∀ f ∈ D, ∀ g ∈ D, f.name = g.name → f = g ∨ E.find? (fun e => e.name = f.name) = none
  marked : ∀ f ∈ D, ∀ e, E.find? (fun e => e.name = f.name) = some e → e.resolved = true

theorem find_mark (E : List External) (n n' : List Char) :
    (markResolved E n).find? (fun e => e.name = n') =
      if n' = n then (E.find? (fun e => e.name = n)).map (fun e => { e with resolved := true }) else E.find? (fun e => e.name = n') := by
  induction E with
  | nil => simp [markResolved]
  | cons e es ih =>
    rw [markResolved]
    by_cases h1 : e.name = n
    · by_cases h2 : n' = n
      · subst h2; subst h1; simp
      · have h3 : e.name ≠ n' := fun h => h2 (h.symm.trans h1)
        simp only [h1, if_true, h2, if_false, List.find?_cons, h3, decide_false]
        have h4 : n ≠ n' := fun h => h2 h.symm
        simp [h4]
    · rw [if_neg h1]
      by_cases h2 : n' = n
      · subst h2
        rw [if_pos rfl] at ih ⊢
        simp only [List.find?_cons, h1, decide_false]
        exact ih
      · rw [if_neg h2] at ih ⊢
        simp only [List.find?_cons]
        by_cases h3 : e.name = n'
        · simp [h3]
        · simp only [h3, decide_false]; exact ih

theorem choose_once {M : Module} {E E' : List External} {f : Fn} {x : Entry} {D : List Fn}
    (h : chooseExtern M E f.name = .ok (x, E')) (ho : Once E D) : Once E' (f :: D) := by
  rw [chooseExtern, find_eq] at h
  cases hf : E.find? (fun e => e.name = f.name) with
  | none =>
    rw [hf] at h
    dsimp only at h
    cases hl : M.lib f.name with
    | none => rw [hl] at h; cases h
    | some n =>
      rw [hl] at h
      simp only [Except.ok.injEq, Prod.mk.injEq] at h
      obtain ⟨_, h2⟩ := h
      subst h2
      refine ⟨?_, ?_⟩
      · intro a ha b hb hab
        rcases List.mem_cons.mp ha with e | ha <;> rcases List.mem_cons.mp hb with e' | hb
        · exact Or.inl (by rw [e, e'])
        · rw [e]; exact Or.inr hf
        · rw [hab, e']; exact Or.inr hf
        · exact ho.inj a ha b hb hab
      · intro a ha e he
        rcases List.mem_cons.mp ha with e' | ha
        · rw [e', hf] at he; cases he
        · exact ho.marked a ha e he
  | some e =>
    rw [hf] at h
    dsimp only at h
    split at h
    · cases h
    · rename_i hres
      split at h
      · cases h
      · cases he : e.entry with
        | none => rw [he] at h; cases h
        | some fn =>
          rw [he] at h
          simp only [Except.ok.injEq, Prod.mk.injEq] at h
          obtain ⟨_, h2⟩ := h
          subst h2
          have hnew : ∀ b ∈ D, b.name ≠ f.name := fun b hb hn => by
            have := ho.marked b hb e (by rw [hn]; exact hf)
            exact hres this
          refine ⟨?_, ?_⟩
          · intro a ha b hb hab
            rcases List.mem_cons.mp ha with e1 | ha <;> rcases List.mem_cons.mp hb with e2 | hb
            · exact Or.inl (by rw [e1, e2])
            · rw [e1] at hab; exact absurd hab.symm (hnew b hb)
            · rw [e2] at hab; exact absurd hab (hnew a ha)
            · rw [find_mark, if_neg (hnew a ha)]; exact ho.inj a ha b hb hab
          · intro a ha e' he'
            rcases List.mem_cons.mp ha with e1 | ha
            · rw [e1, find_mark, if_pos rfl, hf] at he'
              simp only [Option.map_some, Option.some.injEq] at he'
              rw [← he']
            · rw [find_mark, if_neg (hnew a ha)] at he'
              exact ho.marked a ha e' he'

theorem resolve_once {m : Nat} {M : Module} (is : List Ident) : ∀ {s s' : St} {D : List Fn},
    resolveExtern m M s is = .ok s' → Once s.externals D →
    ∃ D', Once s'.externals D' ∧ (∀ f ∈ D, f ∈ D') ∧ ∀ i ∈ is, i.fn.module = m → i.proto ≠ none → i.fn ∈ D' := by
  induction is with
  | nil =>
    intro s s' D hs ho
    simp only [resolveExtern, Except.ok.injEq] at hs
    subst hs
    exact ⟨D, ho, fun _ h => h, by simp⟩
  | cons i is ih =>
    intro s s' D hs ho
    rw [resolveExtern] at hs
    have skip : ¬ (i.fn.module = m ∧ i.proto ≠ none) → resolveExtern m M s is = .ok s' →
        ∃ D', Once s'.externals D' ∧ (∀ f ∈ D, f ∈ D') ∧
          ∀ j ∈ i :: is, j.fn.module = m → j.proto ≠ none → j.fn ∈ D' := by
      intro hc hs
      obtain ⟨D', a1, a2, a3⟩ := ih hs ho
      refine ⟨D', a1, a2, ?_⟩
      intro j hj h1 h2
      rcases List.mem_cons.mp hj with e | hj
      · subst e; exact absurd ⟨h1, h2⟩ hc
      · exact a3 j hj h1 h2
    split at hs
    · cases hp : i.proto with
      | none =>
        rw [hp] at hs
        exact skip (fun h => h.2 hp) hs
      | some p =>
        rw [hp] at hs
        dsimp only at hs
        cases hch : chooseExtern M s.externals i.fn.name with
        | error e => rw [hch] at hs; cases hs
        | ok r =>
          obtain ⟨x, E'⟩ := r
          rw [hch] at hs
          dsimp only at hs
          obtain ⟨D', a1, a2, a3⟩ := ih hs (choose_once hch ho)
          refine ⟨D', a1, fun f hf => a2 f (List.mem_cons_of_mem _ hf), ?_⟩
          intro j hj h1 h2
          rcases List.mem_cons.mp hj with e | hj
          · subst e; exact a2 _ List.mem_cons_self
          · exact a3 j hj h1 h2
    · rename_i hm
      exact skip (fun h => hm h.1) hs

/-! ## A module, and a program -/

/-- All functions have their code. -/
def AllDone (s : St) (C : List Fn) : Prop := ∀ i ∈ s.idents, i.fn ∈ C

theorem module_ok {m : Nat} {M : Module} {s s' : St} {C : List Fn} (h : Inv m m s C) (hd : AllDone s C)
    (hlt : ∀ i ∈ s.idents, i.fn.module < m)
    (hn : (M.items.filterMap (protoOf m)).Nodup) (hs : parseModule m M s = .ok s') :
    ∃ C', Inv (m + 1) (m + 1) s' C' ∧ AllDone s' C' ∧ (∀ i ∈ s'.idents, i.fn.module < m + 1) ∧ Later s C s' C' ∧
      Same s'.externals s.externals ∧
      (∀ b ∈ M.items.filterMap (bodyOf m), Body s' C' b.1 b.2) ∧
      (∀ f ∈ M.items.filterMap (protoOf m), f ∉ (M.items.filterMap (bodyOf m)).map (·.1) →
        ∃ x, Stub s' f x ∧ bound s.externals M f.name = some x) ∧
      (∀ D, Once s.externals D → ∃ D', Once s'.externals D' ∧ (∀ f ∈ D, f ∈ D') ∧
        ∀ f ∈ M.items.filterMap (protoOf m), f ∉ (M.items.filterMap (bodyOf m)).map (·.1) → f ∈ D') := by
  rw [parseModule] at hs
  cases hde : decls m s M.items with
  | error e => rw [hde] at hs; cases hs
  | ok s1 =>
    rw [hde] at hs
    dsimp only at hs
    have hmod : ∀ f ∈ M.items.filterMap (protoOf m), f.module = m := by
      intro f hf
      obtain ⟨it, _, e⟩ := List.mem_filterMap.mp hf
      cases it with
      | proto rcv name => simp only [protoOf, Option.some.injEq] at e; rw [← e]
      | fn => cases e
    have hmod' : ∀ f ∈ (M.items.filterMap (bodyOf m)).map (·.1), f.module = m := by
      intro f hf
      obtain ⟨b, hb, e⟩ := List.mem_map.mp hf
      obtain ⟨it, _, e'⟩ := List.mem_filterMap.mp hb
      cases it with
      | proto => cases e'
      | fn rcv name calls => simp only [bodyOf, Option.some.injEq] at e'; rw [← e, ← e']
    obtain ⟨C1, a1, a2, a3, a4, a5, a6⟩ := decls_ok M.items h hn
      (fun f hf i hi e => by have h1 := hmod f hf; have h2 := hlt i hi; rw [e] at h2; omega) hde
    have a1' : Inv (m + 1) m s1 C1 :=
      ⟨a1.nodup, a1.enters, a1.uniq, fun i hi hc => ⟨(a1.closed i hi hc).1, (a1.closed i hi hc).2.imp id (fun h => by omega)⟩,
        a1.declared, a1.pending, a1.inj, a1.start⟩
    obtain ⟨C', b1, b2, b3, b4, b5, b6, b7⟩ := resolve_ok s1.idents a1' (fun _ h => h) a1.nodup
      (fun i hi hc hm => by
        rcases (a1.closed i hi hc).2 with h | h
        · exact h
        · omega) hs
    have hmods : ∀ i ∈ s1.idents, i.fn.module < m + 1 := by
      intro i hi
      rcases (a4 i.fn).mp ⟨i, hi, rfl⟩ with ⟨j, hj, e⟩ | e | e
      · have := hlt j hj; rw [e] at this; omega
      · rw [hmod _ e]; omega
      · rw [hmod' _ e]; omega
    have hall : AllDone s' C' := by
      intro i hi
      rw [b3] at hi
      by_cases hm : i.fn.module = m
      · exact b5 i hi hm
      · rcases (a4 i.fn).mp ⟨i, hi, rfl⟩ with ⟨j, hj, e⟩ | e | e
        · have := hd j hj; rw [e] at this
          exact b2.mono _ (a2.mono _ this)
        · exact absurd (hmod _ e) hm
        · exact absurd (hmod' _ e) hm
    refine ⟨C', ⟨b1.nodup, b1.enters, b1.uniq, b1.closed, b1.declared, ?_, ?_, b1.start⟩, hall, ?_, a2.trans b2, ?_, ?_, ?_, ?_⟩
    · intro i hi hc; exact absurd (hall i hi) hc
    · intro i hi _ _ hc; exact absurd (hall i hi) hc
    · intro i hi; rw [b3] at hi; exact hmods i hi
    · rw [a3] at b4; exact b4
    · intro b hb; exact b2.body (a6 b hb)
    · intro f hf hnb
      obtain ⟨i, hi, e⟩ := (a4 f).mpr (Or.inr (Or.inl hf))
      have hfC : i.fn ∉ C1 := by
        rw [e]
        intro hc
        rcases (a5 f).mp hc with h1 | h1
        · obtain ⟨j, hj, e'⟩ := h.declared f h1
          have h2 := hlt j hj
          have h3 := hmod f hf
          rw [e'] at h2; omega
        · exact hnb h1
      obtain ⟨x, h1, h2⟩ := b6 i hi hfC
      rw [e] at h1 h2
      rw [a3] at h2
      exact ⟨x, h1, h2⟩
    · intro D ho
      rw [← a3] at ho
      obtain ⟨D', d1, d2, d3⟩ := resolve_once s1.idents hs ho
      refine ⟨D', d1, d2, ?_⟩
      intro f hf hnb
      obtain ⟨i, hi, e⟩ := (a4 f).mpr (Or.inr (Or.inl hf))
      have hfC : i.fn ∉ C1 := by
        rw [e]
        intro hc
        rcases (a5 f).mp hc with h1 | h1
        · obtain ⟨j, hj, e'⟩ := h.declared f h1
          have h2 := hlt j hj
          have h3 := hmod f hf
          rw [e'] at h2; omega
        · exact hnb h1
      rw [← e]
      refine d3 i hi (by rw [e]; exact hmod f hf) ?_
      rw [(a1.pending i hi hfC).1]; simp

theorem modules_ok (Ms : List Module) : ∀ {m : Nat} {s s' : St} {C : List Fn}, Inv m m s C → AllDone s C →
    (∀ i ∈ s.idents, i.fn.module < m) → (protos m Ms).Nodup → modules m Ms s = .ok s' →
    ∃ C' n, Inv n n s' C' ∧ AllDone s' C' ∧ Later s C s' C' ∧ Same s'.externals s.externals ∧
      (∀ b ∈ bodies m Ms, Body s' C' b.1 b.2) ∧
      (∀ (k : Nat) (M : Module) (f : Fn), Ms[k]? = some M → f ∈ protos (m + k) [M] → f ∉ (bodies (m + k) [M]).map (·.1) →
        ∃ x, Stub s' f x ∧ bound s.externals M f.name = some x) ∧
      (∀ D, Once s.externals D → ∃ D', Once s'.externals D' ∧ (∀ f ∈ D, f ∈ D') ∧
        ∀ (k : Nat) (M : Module) (f : Fn), Ms[k]? = some M → f ∈ protos (m + k) [M] → f ∉ (bodies (m + k) [M]).map (·.1) →
          f ∈ D') := by
  induction Ms with
  | nil =>
    intro m s s' C h hd _ _ hs
    simp only [modules, Except.ok.injEq] at hs
    subst hs
    exact ⟨C, m, h, hd, Later.refl _ _, rfl, by simp [bodies], by simp, fun D h => ⟨D, h, fun _ h => h, by simp⟩⟩
  | cons M Ms ih =>
    intro m s s' C h hd hlt hn hs
    rw [modules] at hs
    cases hp : parseModule m M s with
    | error e => rw [hp] at hs; cases hs
    | ok s1 =>
      rw [hp] at hs
      dsimp only at hs
      have ep : protos m (M :: Ms) = M.items.filterMap (protoOf m) ++ protos (m + 1) Ms := by
        rw [protos]; congr 1
      have eb : bodies m (M :: Ms) = M.items.filterMap (bodyOf m) ++ bodies (m + 1) Ms := by
        rw [bodies]; congr 1
      rw [ep, List.nodup_append] at hn
      obtain ⟨C1, a1, a2, a3, a4, a5, a6, a7, a8⟩ := module_ok h hd hlt hn.1 hp
      obtain ⟨C', n, b1, b2, b3, b4, b5, b6, b7⟩ := ih a1 a2 a3 hn.2.1 hs
      refine ⟨C', n, b1, b2, a4.trans b3, b4.trans a5, ?_, ?_, ?_⟩
      · intro b hb
        rw [eb] at hb
        rcases List.mem_append.mp hb with hb | hb
        · exact b3.body (a6 b hb)
        · exact b5 b hb
      · intro k N f hk hf hnb
        cases k with
        | zero =>
          simp only [List.getElem?_cons_zero, Option.some.injEq] at hk
          subst hk
          have e1 : protos (m + 0) [M] = M.items.filterMap (protoOf m) := by
            rw [protos, protos, List.append_nil]; congr 1
          have e2 : bodies (m + 0) [M] = M.items.filterMap (bodyOf m) := by
            rw [bodies, bodies, List.append_nil]; congr 1
          rw [e1] at hf; rw [e2] at hnb
          obtain ⟨x, h1, h2⟩ := a7 f hf hnb
          exact ⟨x, b3.stub h1, h2⟩
        | succ k =>
          rw [List.getElem?_cons_succ] at hk
          rw [show m + (k + 1) = m + 1 + k by omega] at hf hnb
          obtain ⟨x, h1, h2⟩ := b6 k N f hk hf hnb
          exact ⟨x, h1, by rw [← h2]; exact (same_bound a5 N _).symm⟩
      · intro D ho
        obtain ⟨D1, c1, c2, c3⟩ := a8 D ho
        obtain ⟨D2, d1, d2, d3⟩ := b7 D1 c1
        refine ⟨D2, d1, fun f hf => d2 f (c2 f hf), ?_⟩
        intro k N f hk hf hnb
        cases k with
        | zero =>
          simp only [List.getElem?_cons_zero, Option.some.injEq] at hk
          subst hk
          have e1 : protos (m + 0) [M] = M.items.filterMap (protoOf m) := by
            rw [protos, protos, List.append_nil]; congr 1
          have e2 : bodies (m + 0) [M] = M.items.filterMap (bodyOf m) := by
            rw [bodies, bodies, List.append_nil]; congr 1
          rw [e1] at hf; rw [e2] at hnb
          exact d2 f (c3 f hf hnb)
        | succ k =>
          rw [List.getElem?_cons_succ] at hk
          rw [show m + (k + 1) = m + 1 + k by omega] at hf hnb
          exact d3 k N f hk hf hnb

/-! ## All C functions in the code come from the table or from a library -/

/-- Every C function that is called has the property. -/
def Calls (P : Entry → Prop) (code : List Instr) : Prop := ∀ x, Instr.callExtern x ∈ code → P x

/-- Every registered C function has the property. -/
def Reg (P : Entry → Prop) (E : List External) : Prop := ∀ e ∈ E, ∀ x, e.entry = some x → P x

theorem calls_set {P : Entry → Prop} {c : List Instr} (h : Calls P c) (p : Nat) : Calls P (entryPoint c p) := by
  intro x hx
  rw [entryPoint] at hx
  rcases List.mem_or_eq_of_mem_set hx with hx | hx
  · exact h x hx
  · cases hx

theorem calls_append {P : Entry → Prop} {c d : List Instr} (h : Calls P c) (h' : Calls P d) : Calls P (c ++ d) := by
  intro x hx
  rcases List.mem_append.mp hx with hx | hx
  · exact h x hx
  · exact h' x hx

theorem compileCalls_calls {P : Entry → Prop} (fs : List Fn) : ∀ {s s' : St}, Calls P s.code → compileCalls s fs = .ok s' →
    Calls P s'.code ∧ s'.externals = s.externals := by
  induction fs with
  | nil => intro s s' h hs; simp only [compileCalls, Except.ok.injEq] at hs; subst hs; exact ⟨h, rfl⟩
  | cons f fs ih =>
    intro s s' h hs
    rw [compileCalls] at hs
    cases hf : find s.idents f with
    | none => rw [hf] at hs; cases hs
    | some i =>
      rw [hf] at hs
      obtain ⟨a, b⟩ := ih (s := ⟨s.code ++ [.call i.offset], s.idents, s.externals⟩)
        (calls_append h (by intro x hx; simp at hx)) hs
      exact ⟨a, b⟩

theorem addFnIdent_code {s s' : St} {f : Fn} (hs : addFnIdent s f = .ok s') : s'.code = s.code ∧ s'.externals = s.externals := by
  rw [addFnIdent] at hs
  cases hf : find s.idents f with
  | none => rw [hf] at hs; simp only [Except.ok.injEq] at hs; subst hs; exact ⟨rfl, rfl⟩
  | some i =>
    rw [hf] at hs
    dsimp only at hs
    split at hs
    · simp only [Except.ok.injEq] at hs; subst hs; exact ⟨rfl, rfl⟩
    · cases hs

theorem fnDecl_calls {P : Entry → Prop} {m : Nat} {it : Item} {s s' : St} (h : Calls P s.code) (hs : fnDecl m s it = .ok s') :
    Calls P s'.code ∧ s'.externals = s.externals := by
  cases it with
  | proto rcv name =>
    rw [fnDecl] at hs
    cases ha : addFnIdent s ⟨m, rcv, name⟩ with
    | error e => rw [ha] at hs; cases hs
    | ok s1 =>
      rw [ha] at hs
      obtain ⟨e1, e2⟩ := addFnIdent_code ha
      simp only [Except.ok.injEq] at hs
      subst hs
      refine ⟨?_, e2⟩
      rw [fnPrototype]
      exact calls_append (by rw [e1]; exact h) (by intro x hx; simp at hx)
  | fn rcv name calls =>
    rw [fnDecl] at hs
    cases ha : addFnIdent s ⟨m, rcv, name⟩ with
    | error e => rw [ha] at hs; cases hs
    | ok s1 =>
      rw [ha] at hs
      obtain ⟨e1, e2⟩ := addFnIdent_code ha
      dsimp only at hs
      rw [fnBlock] at hs
      have key : ∀ t : St, Calls P t.code → t.externals = s.externals →
          (match compileCalls { t with code := t.code ++ [.enter ⟨m, rcv, name⟩] } calls with
            | .error e => .error e
            | .ok s => .ok { s with code := s.code ++ [.ret] } : Except Err St) = .ok s' →
          Calls P s'.code ∧ s'.externals = s.externals := by
        intro t ht hte hs
        cases hc : compileCalls { t with code := t.code ++ [.enter ⟨m, rcv, name⟩] } calls with
        | error e => rw [hc] at hs; cases hs
        | ok t1 =>
          rw [hc] at hs
          obtain ⟨a, b⟩ := compileCalls_calls calls (calls_append ht (by intro x hx; simp at hx)) hc
          simp only [Except.ok.injEq] at hs
          subst hs
          exact ⟨calls_append a (by intro x hx; simp at hx), b.trans hte⟩
      cases hp : (find s1.idents ⟨m, rcv, name⟩).bind (·.proto) with
      | none => rw [hp] at hs; exact key s1 (by rw [e1]; exact h) e2 hs
      | some p =>
        rw [hp] at hs
        exact key ⟨entryPoint s1.code p, _, s1.externals⟩ (by rw [e1]; exact calls_set h p) e2 hs

theorem decls_calls {P : Entry → Prop} {m : Nat} (its : List Item) : ∀ {s s' : St}, Calls P s.code → decls m s its = .ok s' →
    Calls P s'.code ∧ s'.externals = s.externals := by
  induction its with
  | nil => intro s s' h hs; simp only [decls, Except.ok.injEq] at hs; subst hs; exact ⟨h, rfl⟩
  | cons it its ih =>
    intro s s' h hs
    rw [decls] at hs
    cases hd : fnDecl m s it with
    | error e => rw [hd] at hs; cases hs
    | ok s1 =>
      rw [hd] at hs
      obtain ⟨a, b⟩ := fnDecl_calls h hd
      obtain ⟨c, d⟩ := ih a hs
      exact ⟨c, d.trans b⟩

theorem reg_mark {Q : External → Prop} (hQ : ∀ e, Q e → Q { e with resolved := true }) {E : List External}
    (h : ∀ e ∈ E, Q e) (n : List Char) : ∀ e ∈ markResolved E n, Q e := by
  induction E with
  | nil => intro e he; cases he
  | cons a es ih =>
    rw [markResolved]
    split
    · intro e he
      rcases List.mem_cons.mp he with he | he
      · rw [he]; exact hQ a (h a List.mem_cons_self)
      · exact h e (List.mem_cons_of_mem _ he)
    · intro e he
      rcases List.mem_cons.mp he with he | he
      · rw [he]; exact h a List.mem_cons_self
      · exact ih (fun e he => h e (List.mem_cons_of_mem _ he)) e he

/-- `Q`: a property of the entries of the table; `P`: what it says about the C function in a module that may use the entry. -/
theorem choose_calls {P : Entry → Prop} {Q : External → Prop} (hQ : ∀ e, Q e → Q { e with resolved := true }) {M : Module}
    (hM : ∀ e x, Q e → e.entry = some x → M.hasSourceString = true → (e.resolveInTrusted = true → M.trusted = true) → P x)
    (hlib : ∀ n, P (.lib n)) {E E' : List External} {name : List Char} {x : Entry}
    (hE : ∀ e ∈ E, Q e) (h : chooseExtern M E name = .ok (x, E')) : P x ∧ ∀ e ∈ E', Q e := by
  rw [chooseExtern, find_eq] at h
  cases hf : E.find? (fun e => e.name = name) with
  | none =>
    rw [hf] at h
    dsimp only at h
    cases hl : M.lib name with
    | none => rw [hl] at h; cases h
    | some n =>
      rw [hl] at h
      simp only [Except.ok.injEq, Prod.mk.injEq] at h
      obtain ⟨h1, h2⟩ := h
      subst h1; subst h2
      exact ⟨hlib n, hE⟩
  | some e =>
    rw [hf] at h
    dsimp only at h
    split at h
    · cases h
    · split at h
      · cases h
      · rename_i hc
        cases he : e.entry with
        | none => rw [he] at h; cases h
        | some fn =>
          rw [he] at h
          simp only [Except.ok.injEq, Prod.mk.injEq] at h
          obtain ⟨h1, h2⟩ := h
          subst h1; subst h2
          simp only [Bool.or_eq_true, Bool.not_eq_true', Bool.and_eq_true, not_or, not_and, Bool.not_eq_false] at hc
          exact ⟨hM e fn (hE e (List.mem_of_find?_eq_some hf)) he hc.1 hc.2, reg_mark hQ hE name⟩

theorem resolve_calls {P : Entry → Prop} {Q : External → Prop} (hQ : ∀ e, Q e → Q { e with resolved := true }) {m : Nat}
    {M : Module} (hM : ∀ e x, Q e → e.entry = some x → M.hasSourceString = true → (e.resolveInTrusted = true → M.trusted = true) → P x)
    (hlib : ∀ n, P (.lib n)) (is : List Ident) : ∀ {s s' : St},
    Calls P s.code → (∀ e ∈ s.externals, Q e) → resolveExtern m M s is = .ok s' →
    Calls P s'.code ∧ ∀ e ∈ s'.externals, Q e := by
  induction is with
  | nil => intro s s' h hE hs; simp only [resolveExtern, Except.ok.injEq] at hs; subst hs; exact ⟨h, hE⟩
  | cons i is ih =>
    intro s s' h hE hs
    rw [resolveExtern] at hs
    split at hs
    · cases hp : i.proto with
      | none => rw [hp] at hs; exact ih h hE hs
      | some p =>
        rw [hp] at hs
        dsimp only at hs
        cases hch : chooseExtern M s.externals i.fn.name with
        | error e => rw [hch] at hs; cases hs
        | ok r =>
          obtain ⟨x, E'⟩ := r
          rw [hch] at hs
          dsimp only at hs
          obtain ⟨a, b⟩ := choose_calls hQ hM hlib hE hch
          refine ih (s := ⟨entryPoint s.code p ++ [.enter i.fn, .callExtern x, .ret], s.idents, E'⟩) ?_ b hs
          refine calls_append (calls_set h p) ?_
          intro y hy
          simp only [List.mem_cons, List.not_mem_nil, or_false, reduceCtorEq, false_or, Instr.callExtern.injEq] at hy
          rw [hy]; exact a
    · exact ih h hE hs

theorem modules_calls {P : Entry → Prop} {Q : External → Prop} (hQ : ∀ e, Q e → Q { e with resolved := true })
    (hlib : ∀ n, P (.lib n)) (Ms : List Module)
    (hM : ∀ M ∈ Ms, ∀ e x, Q e → e.entry = some x → M.hasSourceString = true → (e.resolveInTrusted = true → M.trusted = true) → P x) :
    ∀ {m : Nat} {s s' : St}, Calls P s.code → (∀ e ∈ s.externals, Q e) → modules m Ms s = .ok s' →
    Calls P s'.code := by
  induction Ms with
  | nil => intro m s s' h hE hs; simp only [modules, Except.ok.injEq] at hs; subst hs; exact h
  | cons M Ms ih =>
    intro m s s' h hE hs
    rw [modules, parseModule] at hs
    cases hd : decls m s M.items with
    | error e => rw [hd] at hs; cases hs
    | ok s1 =>
      rw [hd] at hs
      dsimp only at hs
      obtain ⟨a, b⟩ := decls_calls M.items h hd
      cases hr : resolveExtern m M s1 s1.idents with
      | error e => rw [hr] at hs; cases hs
      | ok s2 =>
        rw [hr] at hs
        obtain ⟨c, d⟩ := resolve_calls hQ (hM M List.mem_cons_self) hlib s1.idents a (by rw [b]; exact hE) hr
        exact ih (fun N hN => hM N (List.mem_cons_of_mem _ hN)) c d hs

theorem program_calls {P : Entry → Prop} {Q : External → Prop} (hQ : ∀ e, Q e → Q { e with resolved := true })
    (hlib : ∀ n, P (.lib n)) {Ms : List Module} {E : List External} {s : St}
    (hM : ∀ M ∈ Ms, ∀ e x, Q e → e.entry = some x → M.hasSourceString = true → (e.resolveInTrusted = true → M.trusted = true) → P x)
    (hE : ∀ e ∈ E, Q e) (hs : program Ms E = .ok s) : Calls P s.code := by
  rw [program] at hs
  cases hm : modules 1 Ms ⟨[.nop], [], E⟩ with
  | error e => rw [hm] at hs; cases hs
  | ok s1 =>
    rw [hm] at hs
    simp only [Except.ok.injEq] at hs
    subst hs
    refine calls_append (calls_set ?_ 0) (by intro x hx; simp at hx)
    exact modules_calls hQ hlib Ms hM (s := ⟨[.nop], [], E⟩) (by intro x hx; simp at hx) hE hm

end Umka.Link
