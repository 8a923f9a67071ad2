import Verif.Trace.Rel

/-! # The relation holds for every piece of code -/

namespace Umka.Trace
open Umka.Peephole (Instr R Env)

theorem stable_set {l : List Cell} {q : Nat} {c : Cell} (hc : c.isIns = false) : stable l ≤ stable (l.set q c) := by
  cases hs : stable l with
  | zero => omega
  | succ n =>
    obtain ⟨x, hx, hi⟩ := stable_last hs
    have hlt : n < l.length := by
      rcases Nat.lt_or_ge n l.length with h | h
      · exact h
      · rw [List.getElem?_eq_none h] at hx; cases hx
    by_cases e : q = n
    · subst e; exact stable_ge (by rw [List.getElem?_set_self hlt]) hc
    · exact stable_ge (by rw [List.getElem?_set_ne e]; exact hx) hi

theorem Rel.patch {A : Debug → Prop} {s s2 : St} {n : List Fn} {l : Exit → List Nat} (h : Rel A s s2 n l) {q : Nat} {g : Gen}
    (hq : stable s.gen.code ≤ q) (ho : owner n q = none) (hc : g.code = s2.gen.code.set q ⟨.jump, s2.gen.debug⟩)
    (hd : g.debug = s2.gen.debug) : Rel A s { s2 with gen := g } n l := by
  have hst : stable s2.gen.code ≤ stable g.code := by rw [hc]; exact stable_set rfl
  have hne : ∀ pos, pos ≠ q → g.code[pos]? = s2.gen.code[pos]? := fun pos hp => by
    rw [hc, List.getElem?_set_ne (fun e => hp e.symm)]
  have hself : ∀ c, g.code[q]? = some c → c = ⟨.jump, s2.gen.debug⟩ := by
    intro c h'
    rw [hc, List.getElem?_set] at h'
    simp at h'
    exact h'.2.symm
  refine ⟨by rw [hd]; exact h.file, by rw [hd]; exact h.fn, by rw [hd]; exact h.cur, ?_, h.table, h.protos, ?_, ?_, ?_, ?_, h.gotos, ?_, h.nest⟩
  · intro pos hp
    show g.code[pos]? = _
    rw [hne pos (by omega)]; exact h.keep pos hp
  · intro e he
    have := h.range e he
    exact ⟨this.1, Nat.le_trans this.2 hst⟩
  · intro e he
    have hE := h.ends e he
    have hnq := owner_none.mp ho e he
    simp [Fn.has] at hnq
    have hlt := hE.lt
    refine ⟨hE.lt, ?_, ?_, hE.before.1, ?_⟩
    · show opAt g.code _ = _
      unfold opAt; rw [hne _ (by omega)]; exact hE.enter
    · show opAt g.code _ = _
      unfold opAt; rw [hne _ (by omega)]; exact hE.ret
    · intro o ho'
      change opAt g.code _ = some o at ho'
      by_cases e1 : e.start - 1 = q
      · unfold opAt at ho'
        rw [e1] at ho'
        cases hg : g.code[q]? with
        | none => rw [hg] at ho'; cases ho'
        | some c =>
          rw [hg] at ho'; cases ho'
          rw [hself c hg]; simp
      · unfold opAt at ho'; rw [hne _ e1] at ho'; exact hE.before.2 o ho'
  · intro pos c e hcc how
    change g.code[pos]? = some c at hcc
    have : pos ≠ q := by intro e; rw [e] at how; rw [ho] at how; cases how
    rw [hne pos this] at hcc; exact h.own pos c e hcc how
  · intro hA pos c hp hcc how
    change g.code[pos]? = some c at hcc
    by_cases e : pos = q
    · subst e; rw [hself c hcc]; exact h.cur
    · rw [hne pos e] at hcc; exact h.rest hA pos c hp hcc how
  · intro x hx q' hq'
    obtain ⟨a, b, c⟩ := h.marks x hx q' hq'
    exact ⟨a, Nat.lt_of_lt_of_le b hst, c⟩

theorem goFromTo_code (g : Gen) (q d : Nat) : (goFromTo g q d).code = g.code.set q ⟨.jump, g.debug⟩ := rfl

theorem Rel.epilog {A : Debug → Prop} {s : St} {n : List Fn} {l : Exit → List Nat} : ∀ {qs : List Nat} {s2 : St},
    Rel A s s2 n l → (∀ q ∈ qs, stable s.gen.code ≤ q ∧ owner n q = none) → Rel A s { s2 with gen := gotosEpilog s2.gen qs } n l
  | [], _, h, _ => h
  | q :: qs, s2, h, hq => by
    have h1 := h.patch (g := goFromTo s2.gen q s2.gen.ip) (hq q (by simp)).1 (hq q (by simp)).2 rfl rfl
    exact Rel.epilog (s2 := { s2 with gen := goFromTo s2.gen q s2.gen.ip }) h1 (fun q' h' => hq q' (by simp [h']))

theorem epilog_debug : ∀ {qs : List Nat} {g : Gen}, (gotosEpilog g qs).debug = g.debug
  | [], _ => rfl
  | q :: qs, g => (epilog_debug (qs := qs) (g := goFromTo g q g.ip)).trans rfl

def src (e : Fn) : Source := ⟨e.file, e.name, e.lines⟩

/-- A relation that is independent of the lists of stubs. -/
theorem Rel.regoto {A : Debug → Prop} {s s' : St} {n : List Fn} {l : Exit → List Nat} (h : Rel A s s' n l)
    {gs gs' : Exit → Option (List Nat)} {l' : Exit → List Nat} (hg : ∀ x, gs' x = (gs x).map (· ++ l' x))
    (hm : ∀ x, gs x ≠ none → l' x = [] ∨ (l' x = l x ∧ s.gotos x ≠ none)) :
    Rel A { s with gotos := gs } { s' with gotos := gs' } n l' :=
  ⟨h.file, h.fn, h.cur, h.keep, h.table, h.protos, h.range, h.ends, h.own, h.rest, hg, by
    intro x hx q hq
    rcases hm x hx with h0 | ⟨h0, h1⟩
    · rw [h0] at hq; cases hq
    · rw [h0] at hq; exact h.marks x h1 q hq, h.nest⟩

/-- The code of a function, from its first instruction `a`. -/
structure FnCode (A : Debug → Prop) (pre F : List Cell) (new : List Fn) : Prop where
  keep : ∀ pos, pos < pre.length → F[pos]? = pre[pos]?
  len : pre.length + 3 ≤ F.length
  range : ∀ e ∈ new, pre.length < e.start ∧ e.stop + 2 ≤ F.length
  ends : ∀ e ∈ new, Ends F e
  own : ∀ (pos : Nat) (c : Cell) (e : Fn), F[pos]? = some c → owner new pos = some e → e.Ok c.debug
  rest : ∀ (pos : Nat) (c : Cell), pre.length ≤ pos → F[pos]? = some c → owner new pos = none → A c.debug
  enter : opAt F pre.length = some .enter
  ret : opAt F (F.length - 1) = some .ret
  nest : new.Pairwise Apart

theorem FnCode.of {A : Debug → Prop} {s1 s3 : St} {pre : List Cell} {d : Debug} {new : List Fn} {nl : Exit → List Nat}
    (h1 : s1.gen.code = pre ++ [⟨.stub, d⟩]) (h : Rel A s1 s3 new nl) :
    FnCode A pre (Umka.Trace.put (Umka.Trace.put (Umka.Trace.patch s3.gen pre.length .enter) .leave) .ret).code new := by
  have hst : stable s1.gen.code = pre.length + 1 := by rw [h1]; exact stable_snoc rfl
  have hm := h.mono
  have hle := stable_le s3.gen.code
  have hF : (Umka.Trace.put (Umka.Trace.put (Umka.Trace.patch s3.gen pre.length .enter) .leave) .ret).code =
      s3.gen.code.set pre.length ⟨.enter, s3.gen.debug⟩ ++ [⟨.leave, s3.gen.debug⟩, ⟨.ret, s3.gen.debug⟩] := by
    simp [Umka.Trace.put, Umka.Trace.patch]
  generalize hFF : (Umka.Trace.put (Umka.Trace.put (Umka.Trace.patch s3.gen pre.length .enter) .leave) .ret).code = F at *
  have hlen : F.length = s3.gen.code.length + 2 := by rw [hF]; simp
  have hlo : ∀ pos, pos < s3.gen.code.length → pos ≠ pre.length → F[pos]? = s3.gen.code[pos]? := by
    intro pos hp hne
    rw [hF, List.getElem?_append_left (by simpa using hp), List.getElem?_set_ne (fun e => hne e.symm)]
  have hat : F[pre.length]? = some ⟨.enter, s3.gen.debug⟩ := by
    rw [hF, List.getElem?_append_left (by simp; omega), List.getElem?_set_self (by omega)]
  have hhi : ∀ pos c, s3.gen.code.length ≤ pos → F[pos]? = some c → c.debug = s3.gen.debug := by
    intro pos c hp hc
    rw [hF, List.getElem?_append_right (by simpa using hp)] at hc
    have := List.mem_of_getElem? hc
    simp at this
    rcases this with h | h <;> rw [h]
  refine ⟨?_, by omega, ?_, ?_, ?_, ?_, ?_, ?_, h.nest⟩
  · intro pos hp
    rw [hlo pos (by omega) (by omega), h.keep pos (by omega), h1, List.getElem?_append_left hp]
  · intro e he
    have := h.range e he
    omega
  · intro e he
    have hr := h.range e he
    have hE := h.ends e he
    have hlt := hE.lt
    refine ⟨hE.lt, ?_, ?_, hE.before.1, ?_⟩
    · unfold opAt; rw [hlo _ (by omega) (by omega)]; exact hE.enter
    · unfold opAt; rw [hlo _ (by omega) (by omega)]; exact hE.ret
    · intro o ho
      unfold opAt at ho
      rw [hlo _ (by omega) (by omega)] at ho
      exact hE.before.2 o ho
  · intro pos c e hc ho
    obtain ⟨he, hs1, hs2⟩ := owner_some ho
    have hr := h.range e he
    rw [hlo pos (by omega) (by omega)] at hc
    exact h.own pos c e hc ho
  · intro pos c hp hc ho
    by_cases e1 : pos = pre.length
    · subst e1; rw [hat] at hc; cases hc; exact h.cur
    · by_cases e2 : pos < s3.gen.code.length
      · rw [hlo pos e2 e1] at hc
        refine h.rest ?_ pos c (by omega) hc ho
        intro pos' c' hp' hc'
        rw [h1, List.getElem?_eq_none (by simp; omega)] at hc'; cases hc'
      · rw [hhi pos c (by omega) hc]; exact h.cur
  · unfold opAt; rw [hat]; rfl
  · unfold opAt; rw [hlen, hF, List.getElem?_append_right (by simp)]
    simp

theorem has_iff {e : Fn} {pos : Nat} : e.has pos = true ↔ e.start ≤ pos ∧ pos < e.stop := by simp [Fn.has]

theorem has_false {e : Fn} {pos : Nat} (h : pos < e.start ∨ e.stop ≤ pos) : e.has pos = false := by
  rw [Bool.eq_false_iff]
  intro hh
  have := has_iff.mp hh
  omega

theorem gotos_map {a : Option (List Nat)} : a = a.map (· ++ ([] : List Nat)) := by cases a <;> simp

/-- The body of a function, from the stub for its frame to the code after the destination of `return`. -/
theorem body_rel {e : Env ω} {body post : Code} {s0 s2 s3 : St} {A : Debug → Prop} {gs : Exit → Option (List Nat)}
    (hb : compile e body (begin s0) = .ok s2)
    (hp : compile e post { s2 with gen := gotosEpilog s2.gen ((s2.gotos .ret).getD []), gotos := gs } = .ok s3)
    (h0 : A s0.gen.debug) (hl : ∀ l ∈ body.lines ++ post.lines, A { s0.gen.debug with line := l })
    (ihb : ∀ {s s' : St}, compile e body s = .ok s' → ∀ {A : Debug → Prop}, A s.gen.debug →
      (∀ l ∈ body.lines, A { s.gen.debug with line := l }) → ∃ new nl, Rel A s s' new nl ∧
        new.map src = body.literals s.gen.debug.file ∧ ∀ e ∈ new, e.ext = false)
    (ihp : ∀ {s s' : St}, compile e post s = .ok s' → ∀ {A : Debug → Prop}, A s.gen.debug →
      (∀ l ∈ post.lines, A { s.gen.debug with line := l }) → ∃ new nl, Rel A s s' new nl ∧
        new.map src = post.literals s.gen.debug.file ∧ ∀ e ∈ new, e.ext = false) :
    ∃ new nl, Rel A { begin s0 with gotos := gs } s3 new nl ∧
      new.map src = body.literals s0.gen.debug.file ++ post.literals s0.gen.debug.file ∧ ∀ e ∈ new, e.ext = false := by
  have hd : (begin s0).gen.debug = s0.gen.debug := rfl
  obtain ⟨n1, l1, r1, m1, x1⟩ := ihb hb (A := A) h0 (fun l h => hl l (by simp [h]))
  have hret : s2.gotos .ret = some (l1 .ret) := by
    rw [r1.gotos]; simp [begin]
  rw [hret] at hp
  have r2 := r1.epilog (qs := l1 .ret) (fun q hq => by
    obtain ⟨a, -, c⟩ := r1.marks .ret (by simp [begin]) q hq; exact ⟨a, c⟩)
  have r3 := r2.regoto (gs := gs) (gs' := gs) (l' := fun _ => []) (fun x => gotos_map) (fun _ _ => .inl rfl)
  have hdebug : ∀ l, ({ (gotosEpilog s2.gen (l1 .ret)).debug with line := l } : Debug) = { s0.gen.debug with line := l } := by
    intro l
    have a := r2.file
    have b := r2.fn
    simp only [Debug.mk.injEq, and_true]
    exact ⟨a, b⟩
  obtain ⟨n2, l2, r4, m2, x2⟩ := ihp hp (A := A) r3.cur (fun l h => by
    show A { (gotosEpilog s2.gen (l1 .ret)).debug with line := l }
    rw [hdebug]; exact hl l (by simp [h]))
  refine ⟨n1 ++ n2, _, r3.trans r4, ?_, ?_⟩
  · rw [List.map_append, m1, m2]
    have : (gotosEpilog s2.gen (l1 .ret)).debug.file = s0.gen.debug.file := r2.file
    show _ ++ post.literals (gotosEpilog s2.gen (l1 .ret)).debug.file = _
    rw [this]; rfl
  · intro e he
    rcases List.mem_append.mp he with he | he
    · exact x1 e he
    · exact x2 e he

theorem Rel.pre {A : Debug → Prop} {s s1 s2 : St} {n : List Fn} {l : Exit → List Nat}
    (h1 : Rel A s s1 [] (fun _ => [])) (h2 : Rel A s1 s2 n l) : Rel A s s2 n l := by
  have := h1.trans h2
  simpa using this

theorem Rel.post {A : Debug → Prop} {s s1 s2 : St} {n : List Fn} {l : Exit → List Nat}
    (h1 : Rel A s s1 n l) (h2 : Rel A s1 s2 [] (fun _ => [])) : Rel A s s2 n l := by
  have := h1.trans h2
  simpa using this

theorem line_line {A : Debug → Prop} {s s' : St} {n : List Fn} {nl : Exit → List Nat} (h : Rel A s s' n nl) (l : Nat) :
    ({ s'.gen.debug with line := l } : Debug) = { s.gen.debug with line := l } := by
  simp only [Debug.mk.injEq, and_true]; exact ⟨h.file, h.fn⟩

def fnAt (s : St) (stop first : Nat) (body post : Code) : Fn :=
  { start := s.gen.code.length + 1, stop, file := s.gen.debug.file, name := "<unknown>", lines := fnLines first body post, ext := false }

theorem compile_rel (e : Env ω) : ∀ (k : Code) {s s' : St}, compile e k s = .ok s' → ∀ {A : Debug → Prop}, A s.gen.debug →
    (∀ l ∈ k.lines, A { s.gen.debug with line := l }) → ∃ new nl, Rel A s s' new nl ∧
      new.map src = k.literals s.gen.debug.file ∧ ∀ e ∈ new, e.ext = false := by
  intro k
  induction k with
  | nil => intro s s' h A h0 _; cases h; exact ⟨[], _, Rel.refl h0, rfl, by simp⟩
  | tok l k ih =>
    intro s s' h A h0 hl
    rw [compile] at h
    have ht : A (s.tok l).gen.debug := hl l (by simp [Code.lines])
    obtain ⟨n, nl, r, m, x⟩ := ih h (A := A) ht (fun l' h' => hl l' (by simp [Code.lines, h']))
    refine ⟨n, nl, Rel.pre (s1 := s.tok l) ?_ r, m, x⟩
    exact .simple rfl rfl ht (fun _ _ => rfl) rfl rfl rfl (fun h => h)
  | op i k ih =>
    intro s s' h A h0 hl
    rw [compile] at h
    obtain ⟨g, hg, h⟩ := bind_ok h
    have r0 := Rel.peep h0 (peep_gen hg)
    obtain ⟨n, nl, r, m, x⟩ := ih h (A := A) r0.cur (fun l' h' => by rw [line_line r0]; exact hl l' (by simpa [Code.lines] using h'))
    exact ⟨n, nl, r0.pre r, by rw [m, r0.file]; rfl, x⟩
  | dropEntry k ih =>
    intro s s' h A h0 hl
    rw [compile] at h
    have r0 := Rel.peep h0 (peep_dropEntry s.gen)
    obtain ⟨n, nl, r, m, x⟩ := ih h (A := A) r0.cur (fun l' h' => by rw [line_line r0]; exact hl l' (by simpa [Code.lines] using h'))
    exact ⟨n, nl, r0.pre r, by rw [m, r0.file]; rfl, x⟩
  | dropCopy k ih =>
    intro s s' h A h0 hl
    rw [compile] at h
    have r0 := Rel.peep h0 (peep_dropCopy s.gen)
    obtain ⟨n, nl, r, m, x⟩ := ih h (A := A) r0.cur (fun l' h' => by rw [line_line r0]; exact hl l' (by simpa [Code.lines] using h'))
    exact ⟨n, nl, r0.pre r, by rw [m, r0.file]; rfl, x⟩
  | call k ih =>
    intro s s' h A h0 hl
    rw [compile] at h
    have r0 : Rel A s { s with gen := Umka.Trace.put s.gen .call } [] (fun _ => []) := Rel.put h0 rfl rfl
    obtain ⟨n, nl, r, m, x⟩ := ih h (A := A) r0.cur (fun l' h' => by rw [line_line r0]; exact hl l' (by simpa [Code.lines] using h'))
    exact ⟨n, nl, r0.pre r, by rw [m, r0.file]; rfl, x⟩
  | label k ih =>
    intro s s' h A h0 hl
    rw [compile] at h
    have r0 : Rel A s { s with gen := savePos s.gen } [] (fun _ => []) :=
      .simple rfl rfl h0 (fun _ _ => rfl) rfl rfl rfl (fun h => h)
    obtain ⟨n, nl, r, m, x⟩ := ih h (A := A) r0.cur (fun l' h' => by rw [line_line r0]; exact hl l' (by simpa [Code.lines] using h'))
    exact ⟨n, nl, r0.pre r, by rw [m, r0.file]; rfl, x⟩
  | goto k ih =>
    intro s s' h A h0 hl
    rw [compile] at h
    have r0 : Rel A s { s with gen := Umka.Trace.put (jumpTo s.gen s.gen.ip) .jump } [] (fun _ => []) := Rel.put (o := .jump) h0 rfl rfl
    obtain ⟨n, nl, r, m, x⟩ := ih h (A := A) r0.cur (fun l' h' => by rw [line_line r0]; exact hl l' (by simpa [Code.lines] using h'))
    exact ⟨n, nl, r0.pre r, by rw [m, r0.file]; rfl, x⟩
  | block save extra body k ihb ih =>
    intro s s' h A h0 hl
    rw [compile] at h
    obtain ⟨s2, hb, h⟩ := bind_ok h
    have hcode : (Umka.Trace.put (if save = true then savePos s.gen else s.gen) .stub).code = s.gen.code ++ [⟨.stub, s.gen.debug⟩] := by
      cases save <;> rfl
    have hdebug : (Umka.Trace.put (if save = true then savePos s.gen else s.gen) .stub).debug = s.gen.debug := by cases save <;> rfl
    have r0 : Rel A s { s with gen := Umka.Trace.put (if save = true then savePos s.gen else s.gen) .stub } [] (fun _ => []) :=
      Rel.put h0 hcode hdebug
    obtain ⟨n1, l1, r1, m1, x1⟩ := ihb hb (A := A) r0.cur (fun l' h' => by
      rw [line_line r0]; exact hl l' (by simp [Code.lines, h']))
    have r2 := r0.pre r1
    have hst : stable (Umka.Trace.put (if save = true then savePos s.gen else s.gen) .stub).code = s.gen.code.length + 1 := by
      rw [hcode]; exact stable_snoc rfl
    have r3 := r2.patch (q := s.gen.ip) (g := goFromTo s2.gen s.gen.ip (s2.gen.ip + extra)) (stable_le _) (by
      rw [owner_none]
      intro e he
      have hr := (r1.range e he).1
      have hr : s.gen.code.length + 1 < e.start := hst ▸ hr
      have hn : ¬ e.start ≤ s.gen.code.length := by omega
      simp only [Fn.has, Gen.ip, hn, decide_false, Bool.false_and]) rfl rfl
    obtain ⟨n2, l2, r4, m2, x2⟩ := ih h (A := A) r3.cur (fun l' h' => by
      rw [line_line r3]; exact hl l' (by simp [Code.lines, h']))
    refine ⟨n1 ++ n2, _, r3.trans r4, ?_, ?_⟩
    · rw [List.map_append, m1, m2, r3.file, r0.file]; rfl
    · intro e he
      rcases List.mem_append.mp he with he | he
      · exact x1 e he
      · exact x2 e he
  | scope x body k ihb ih =>
    intro s s' h A h0 hl
    rw [compile] at h
    obtain ⟨s2, hb, h⟩ := bind_ok h
    obtain ⟨n1, l1, r1, m1, x1⟩ := ihb hb (A := A) h0 (fun l' h' => hl l' (by simp [Code.lines, h']))
    have hx : s2.gotos x = some (l1 x) := by rw [r1.gotos]; simp [setGotos]
    rw [hx] at h
    have r2 := r1.epilog (qs := l1 x) (fun q hq => by
      obtain ⟨a, -, c⟩ := r1.marks x (by simp [setGotos]) q hq; exact ⟨a, c⟩)
    have r3 := r2.regoto (gs := s.gotos) (gs' := setGotos s2.gotos x (s.gotos x)) (l' := fun y => if y = x then [] else l1 y)
      (fun y => by
        by_cases e : y = x
        · simp only [setGotos, e, if_true]; exact gotos_map
        · simp only [setGotos, e, if_false]
          rw [r1.gotos]; simp [setGotos, e])
      (fun y hy => by
        by_cases e : y = x
        · exact .inl (by simp [e])
        · refine .inr ⟨by simp [e], ?_⟩
          simpa [setGotos, e] using hy)
    have r3' : Rel A s _ n1 _ := r3
    obtain ⟨n2, l2, r4, m2, x2⟩ := ih h (A := A) r3'.cur (fun l' h' => by
      rw [show ({ s2 with gen := gotosEpilog s2.gen ((some (l1 x)).getD []), gotos := setGotos s2.gotos x (s.gotos x) } : St).gen.debug = (gotosEpilog s2.gen (l1 x)).debug from rfl]
      rw [line_line r3']; exact hl l' (by simp [Code.lines, h']))
    refine ⟨n1 ++ n2, _, r3'.trans r4, ?_, ?_⟩
    · rw [List.map_append, m1, m2]
      show _ ++ k.literals (gotosEpilog s2.gen (l1 x)).debug.file = _
      rw [r3'.file]; rfl
    · intro e he
      rcases List.mem_append.mp he with he | he
      · exact x1 e he
      · exact x2 e he
  | exit x k ih =>
    intro s s' h A h0 hl
    rw [compile] at h
    split at h
    · cases h
    · rename_i l hx
      have rp : Rel A s { s with gen := Umka.Trace.put s.gen .stub } [] (fun _ => []) := Rel.put h0 rfl rfl
      have hst : stable (Umka.Trace.put s.gen .stub).code = s.gen.code.length + 1 := stable_snoc rfl
      have r0 : Rel A s { s with gen := Umka.Trace.put s.gen .stub, gotos := setGotos s.gotos x (some (l ++ [s.gen.ip])) } []
          (fun y => if y = x then [s.gen.ip] else []) :=
        ⟨rfl, rfl, h0, rp.keep, rp.table, rfl, rp.range, rp.ends, rp.own, rp.rest, by
          intro y
          by_cases e : y = x
          · simp [setGotos, e, hx]
          · simp only [setGotos, e, if_false]; exact gotos_map, by
          intro y _ q hq
          by_cases e : y = x
          · simp [e] at hq
            subst hq
            refine ⟨stable_le _, ?_, by simp [owner]⟩
            show s.gen.ip < stable (Umka.Trace.put s.gen .stub).code
            rw [hst]; exact Nat.lt_succ_self _
          · simp [e] at hq, .nil⟩
      obtain ⟨n, nl, r, m, xx⟩ := ih h (A := A) r0.cur (fun l' h' => by rw [line_line r0]; exact hl l' (by simpa [Code.lines] using h'))
      exact ⟨n, _, r0.trans r, by rw [m, r0.file]; rfl, xx⟩
  | lit first after body post k ihb ihp ih =>
    intro s s' h A h0 hl
    rw [compile] at h
    obtain ⟨s2, hb, h⟩ := bind_ok h
    obtain ⟨s3, hp, h⟩ := bind_ok h
    let A' : Debug → Prop := fun d => d.file = s.gen.debug.file ∧ d.fn = "<unknown>" ∧ d.line ∈ fnLines first body post
    let s0 : St := { s with gen := Umka.Trace.put s.gen .stub }
    obtain ⟨n, nl, r, m, x⟩ := body_rel (s0 := (s0.tok first).setFn "<unknown>") (A := A') hb hp ⟨rfl, rfl, by simp [fnLines, s0, St.tok, St.setFn]⟩
      (fun l h => ⟨rfl, rfl, by simp only [fnLines]; exact List.mem_cons_of_mem _ h⟩) ihb ihp
    have F := FnCode.of (s1 := { begin ((s0.tok first).setFn "<unknown>") with gotos := fun _ => none }) (pre := s0.gen.code) rfl r
    have hpre : s0.gen.code.length = s.gen.code.length + 1 := by simp [s0, Umka.Trace.put]
    have hp0 : s0.gen.code = s.gen.code ++ [⟨.stub, s.gen.debug⟩] := rfl
    generalize hFF : (Umka.Trace.put (Umka.Trace.put (Umka.Trace.patch s3.gen s0.gen.code.length .enter) .leave) .ret).code = L at F
    have hle := stable_le s.gen.code
    have hlen := F.len
    have hkeep : ∀ pos, pos < s.gen.code.length → L[pos]? = s.gen.code[pos]? := by
      intro pos hp; rw [F.keep pos (by omega), hp0, List.getElem?_append_left hp]
    have hafter : A { s.gen.debug with line := after } := hl after (by simp [Code.lines])
    have hstL : stable L = L.length := by
      have := stable_le L
      have hret := F.ret
      unfold opAt at hret
      cases hc : L[L.length - 1]? with
      | none => rw [hc] at hret; cases hret
      | some c =>
        rw [hc] at hret
        have : c.op = .ret := by simpa using hret
        have := stable_ge hc (by simp [Cell.isIns, this])
        omega
    have hgen : (((finish { s3 with gotos := s0.gotos } s0.gen.ip s0.gen.debug.fn fun stop =>
          { start := s0.gen.ip, stop, file := s.gen.debug.file, name := "<unknown>", lines := fnLines first body post, ext := false }).tok after)).gen.debug
          = { s.gen.debug with line := after } := by
      show (⟨s3.gen.debug.file, s.gen.debug.fn, after⟩ : Debug) = _
      rw [r.file]; rfl
    -- the state after the literal, before the jump over it is filled in
    let s5 : St := (finish { s3 with gotos := s0.gotos } s0.gen.ip s0.gen.debug.fn fun stop =>
          { start := s0.gen.ip, stop, file := s.gen.debug.file, name := "<unknown>", lines := fnLines first body post, ext := false }).tok after
    have hs5 : s5.gen.code = L := hFF
    have htab : s5.table = s.table ++ (n ++ [fnAt s L.length first body post]) := by
      show s3.table ++ [_] = _
      have ht : s3.table = s.table ++ n := r.table
      rw [ht, List.append_assoc]
      congr 2
      show [Fn.mk s0.gen.code.length
        (Umka.Trace.put (Umka.Trace.put (Umka.Trace.patch s3.gen s0.gen.code.length .enter) .leave) .ret).code.length
        s.gen.debug.file "<unknown>" (fnLines first body post) false] = _
      rw [hFF, hpre]; rfl
    have hEn : ∀ pos, (fnAt s L.length first body post).has pos = true ↔ s.gen.code.length + 1 ≤ pos ∧ pos < L.length := by
      intro pos; exact has_iff
    have r5 : Rel A s s5 (n ++ [fnAt s L.length first body post]) (fun _ => []) := by
      refine ⟨by rw [hgen], by rw [hgen], by rw [hgen]; exact hafter, ?_, htab, r.protos, ?_, ?_, ?_, ?_, ?_, by simp, ?_⟩
      · intro pos hp; rw [hs5]; exact hkeep pos (by omega)
      · intro e he
        rw [hs5, hstL]
        rcases List.mem_append.mp he with he | he
        · have := F.range e he; omega
        · simp at he; subst he
          simp only [fnAt]; omega
      · intro e he
        rw [hs5]
        rcases List.mem_append.mp he with he | he
        · exact F.ends e he
        · simp at he; subst he
          refine ⟨by simp only [fnAt]; omega, by simp only [fnAt]; rw [← hpre]; exact F.enter, F.ret, by simp [fnAt], ?_⟩
          intro o ho
          simp only [fnAt, Nat.add_sub_cancel] at ho
          unfold opAt at ho
          rw [F.keep _ (by omega), hp0] at ho
          simp at ho
          rw [← ho]; simp
      · intro pos c e hc ho
        rw [hs5] at hc
        rw [owner_append] at ho
        cases hn : owner n pos with
        | some e' => rw [hn] at ho; cases ho; exact F.own pos c _ hc hn
        | none =>
          rw [hn, Option.none_or] at ho
          obtain ⟨he, h1, h2⟩ := owner_some ho
          simp at he; subst he
          obtain ⟨q1, q2, q3⟩ := F.rest pos c (by rw [hpre]; exact h1) hc hn
          exact ⟨q1, fun _ => q2, q3⟩
      · intro hA pos c hp hc ho
        rw [hs5] at hc
        rw [owner_append, Option.or_eq_none_iff] at ho
        have hno := owner_none.mp ho.2 _ (List.mem_singleton.mpr rfl)
        have hlt : pos < L.length := by
          rcases Nat.lt_or_ge pos L.length with h | h
          · exact h
          · rw [List.getElem?_eq_none h] at hc; cases hc
        have : pos < s.gen.code.length + 1 := by
          rcases Nat.lt_or_ge pos (s.gen.code.length + 1) with h | h
          · exact h
          · rw [(hEn pos).mpr ⟨h, hlt⟩] at hno; cases hno
        rw [F.keep pos (by omega), hp0] at hc
        by_cases e : pos < s.gen.code.length
        · rw [List.getElem?_append_left e] at hc; exact hA pos c hp hc
        · rw [List.getElem?_append_right (by omega)] at hc
          have := List.mem_of_getElem? hc
          simp at this; subst this; exact h0
      · intro x
        show s.gotos x = _
        exact gotos_map
      · rw [List.pairwise_append]
        refine ⟨F.nest, by simp, fun a ha b hb => .inr (.inr ?_)⟩
        simp at hb; subst hb
        have := F.range a ha
        simp only [fnAt]; omega
    have r6 := r5.patch (q := s.gen.ip) (g := goFromTo s5.gen s.gen.ip s5.gen.ip) hle (by
      rw [owner_none]
      intro e he
      rcases List.mem_append.mp he with he | he
      · have := (F.range e he).1
        exact has_false (.inl (by show s.gen.code.length < _; omega))
      · simp at he; subst he
        exact has_false (.inl (Nat.lt_succ_self _))) rfl rfl
    obtain ⟨n2, l2, r7, m2, x2⟩ := ih h (A := A) r6.cur (fun l' h' => by
      have := line_line r6 l'
      show A { s5.gen.debug with line := l' }
      rw [show ({ s5.gen.debug with line := l' } : Debug) = { s.gen.debug with line := l' } from this]
      exact hl l' (by simp [Code.lines, h']))
    refine ⟨(n ++ [fnAt s L.length first body post]) ++ n2, _, r6.trans r7, ?_, ?_⟩
    · rw [List.map_append, List.map_append, m, m2]
      show _ ++ k.literals s5.gen.debug.file = _
      rw [r5.file]
      rfl
    · intro e he
      rcases List.mem_append.mp he with he | he
      · rcases List.mem_append.mp he with he | he
        · exact x e he
        · simp at he; subst he; rfl
      · exact x2 e he

end Umka.Trace
