import Verif.Trace.Compile

/-! # The code of modules -/

namespace Umka.Trace
open Umka.Peephole (Instr R Env)

structure Mod (code : List Cell) (table : List Fn) (protos : List (String × Nat)) : Prop where
  pos : 0 < code.length
  stops : ∀ e ∈ table, e.stop ≤ code.length
  ends : ∀ e ∈ table, Ends code e
  own : ∀ (pos : Nat) (c : Cell) (e : Fn), code[pos]? = some c → owner table pos = some e → e.Ok c.debug
  rest : ∀ (pos : Nat) (c : Cell), code[pos]? = some c → owner table pos = none → c.op ≠ .call
  protos : ∀ p ∈ protos, p.2 < code.length ∧ owner table p.2 = none
  nest : table.Pairwise Apart

theorem lt_of_some {l : List Cell} {pos : Nat} {c : Cell} (h : l[pos]? = some c) : pos < l.length := by
  rcases Nat.lt_or_ge pos l.length with h' | h'
  · exact h'
  · rw [List.getElem?_eq_none h'] at h; cases h

/-- The last cell is not a call. -/
theorem Mod.last {code : List Cell} {T : List Fn} {ps : List (String × Nat)} (h : Mod code T ps) :
    ∀ o, opAt code (code.length - 1) = some o → o ≠ .call := by
  intro o ho hcall
  subst hcall
  unfold opAt at ho
  cases hc : code[code.length - 1]? with
  | none => rw [hc] at ho; cases ho
  | some c =>
    rw [hc] at ho
    have hop : c.op = .call := by simpa using ho
    cases how : owner T (code.length - 1) with
    | none => exact h.rest _ c hc how hop
    | some e =>
      obtain ⟨he, h1, h2⟩ := owner_some how
      have h3 := h.stops e he
      have hE := (h.ends e he).ret
      have : e.stop - 1 = code.length - 1 := by omega
      rw [this] at hE
      unfold opAt at hE
      rw [hc] at hE
      simp [hop] at hE

theorem Mod.put {code : List Cell} {T : List Fn} {ps ps' : List (String × Nat)} (h : Mod code T ps) {c : Cell} (hc : c.op ≠ .call)
    (hp : ∀ p ∈ ps', p ∈ ps ∨ p.2 = code.length) : Mod (code ++ [c]) T ps' := by
  have hout : ∀ pos, code.length ≤ pos → owner T pos = none := by
    intro pos hp
    rw [owner_none]
    intro e he
    exact has_false (.inr (Nat.le_trans (h.stops e he) hp))
  refine ⟨by simp, ?_, ?_, ?_, ?_, ?_, h.nest⟩
  · intro e he; have := h.stops e he; simp; omega
  · intro e he
    refine (h.ends e he).congr ?_
    intro pos hp
    have := h.stops e he
    unfold opAt; rw [List.getElem?_append_left (by omega)]
  · intro pos x e hx ho
    have : pos < code.length := by
      rcases Nat.lt_or_ge pos code.length with h' | h'
      · exact h'
      · rw [hout pos h'] at ho; cases ho
    rw [List.getElem?_append_left this] at hx
    exact h.own pos x e hx ho
  · intro pos x hx ho
    by_cases hlt : pos < code.length
    · rw [List.getElem?_append_left hlt] at hx; exact h.rest pos x hx ho
    · rw [List.getElem?_append_right (by omega)] at hx
      have := List.mem_of_getElem? hx
      simp at this; subst this; exact hc
  · intro p hp'
    rcases hp p hp' with h' | h'
    · obtain ⟨a, b⟩ := h.protos p h'
      exact ⟨by simp; omega, b⟩
    · exact ⟨by simp [h'], hout _ (by omega)⟩

/-- The jump to a function with a prototype. -/
theorem Mod.patch {code : List Cell} {T : List Fn} {ps ps' : List (String × Nat)} (h : Mod code T ps) {q : Nat} {c : Cell}
    (hc : c.op ≠ .call) (hq : owner T q = none) (hp : ∀ p ∈ ps', p ∈ ps) : Mod (code.set q c) T ps' := by
  have hne : ∀ pos, pos ≠ q → (code.set q c)[pos]? = code[pos]? := fun pos hp => List.getElem?_set_ne (fun e => hp e.symm)
  have hself : ∀ x, (code.set q c)[q]? = some x → x = c := by
    intro x h'
    rw [List.getElem?_set] at h'
    simp at h'
    exact h'.2.symm
  refine ⟨by simpa using h.pos, by intro e he; simpa using h.stops e he, ?_, ?_, ?_, ?_, h.nest⟩
  · intro e he
    have hE := h.ends e he
    have hnq := owner_none.mp hq e he
    have hno : ¬ (e.start ≤ q ∧ q < e.stop) := fun hh => by rw [has_iff.mpr hh] at hnq; cases hnq
    have hlt := hE.lt
    refine ⟨hE.lt, ?_, ?_, hE.before.1, ?_⟩
    · unfold opAt; rw [hne _ (by omega)]; exact hE.enter
    · unfold opAt; rw [hne _ (by omega)]; exact hE.ret
    · intro o ho'
      by_cases e1 : e.start - 1 = q
      · unfold opAt at ho'
        rw [e1] at ho'
        cases hg : (code.set q c)[q]? with
        | none => rw [hg] at ho'; cases ho'
        | some x =>
          rw [hg] at ho'; cases ho'
          rw [hself x hg]; exact hc
      · unfold opAt at ho'; rw [hne _ e1] at ho'; exact hE.before.2 o ho'
  · intro pos x e hx ho
    have : pos ≠ q := by intro e; rw [e] at ho; rw [hq] at ho; cases ho
    rw [hne pos this] at hx; exact h.own pos x e hx ho
  · intro pos x hx ho
    by_cases e : pos = q
    · subst e; rw [hself x hx]; exact hc
    · rw [hne pos e] at hx; exact h.rest pos x hx ho
  · intro p hp'
    obtain ⟨a, b⟩ := h.protos p (hp p hp')
    exact ⟨by simpa using a, b⟩

theorem Mod.fn {code F : List Cell} {T new : List Fn} {ps : List (String × Nat)} {A : Debug → Prop} {E : Fn} (h : Mod code T ps)
    (hF : FnCode A code F new) (hok : ∀ d, A d → E.Ok d) (hs : E.start = code.length) (ht : E.stop = F.length) :
    Mod F (T ++ (new ++ [E])) ps := by
  have hlen := hF.len
  have hout : ∀ pos, code.length ≤ pos → owner T pos = none := by
    intro pos hp
    rw [owner_none]
    intro e he
    exact has_false (.inr (Nat.le_trans (h.stops e he) hp))
  have hnew : ∀ pos, pos < code.length → owner (new ++ [E]) pos = none := by
    intro pos hp
    rw [owner_none]
    intro e he
    rcases List.mem_append.mp he with he | he
    · have := (hF.range e he).1
      exact has_false (.inl (by omega))
    · simp at he; subst he; exact has_false (.inl (by omega))
  refine ⟨by omega, ?_, ?_, ?_, ?_, ?_, ?_⟩
  · intro e he
    rcases List.mem_append.mp he with he | he
    · have := h.stops e he; omega
    · rcases List.mem_append.mp he with he | he
      · have := (hF.range e he).2; omega
      · simp at he; subst he; omega
  · intro e he
    rcases List.mem_append.mp he with he | he
    · refine (h.ends e he).congr ?_
      intro pos hp
      have := h.stops e he
      unfold opAt; rw [hF.keep pos (by omega)]
    · rcases List.mem_append.mp he with he | he
      · exact hF.ends e he
      · simp at he; subst he
        refine ⟨by omega, by rw [hs]; exact hF.enter, by rw [ht]; exact hF.ret, by rw [hs]; exact h.pos, ?_⟩
        intro o ho
        rw [hs] at ho
        have := h.pos
        unfold opAt at ho
        rw [hF.keep _ (by omega)] at ho
        exact h.last o ho
  · intro pos c e hc ho
    rw [owner_append] at ho
    by_cases hlt : pos < code.length
    · rw [hnew pos hlt, Option.or_none] at ho
      rw [hF.keep pos hlt] at hc
      exact h.own pos c e hc ho
    · rw [hout pos (by omega), Option.none_or, owner_append] at ho
      cases hn : owner new pos with
      | some e' => rw [hn] at ho; cases ho; exact hF.own pos c _ hc hn
      | none =>
        rw [hn, Option.none_or] at ho
        obtain ⟨he, -, -⟩ := owner_some ho
        simp at he; subst he
        exact hok _ (hF.rest pos c (by omega) hc hn)
  · intro pos c hc ho
    rw [owner_append, Option.or_eq_none_iff] at ho
    by_cases hlt : pos < code.length
    · rw [hF.keep pos hlt] at hc; exact h.rest pos c hc ho.1
    · have hno := owner_none.mp ho.2 E (by simp)
      rw [has_iff.mpr ⟨by omega, by have := lt_of_some hc; omega⟩] at hno; cases hno
  · intro p hp
    obtain ⟨a, b⟩ := h.protos p hp
    refine ⟨by omega, ?_⟩
    rw [owner_append, b, Option.none_or]; exact hnew _ a
  · rw [List.pairwise_append, List.pairwise_append]
    refine ⟨h.nest, ⟨hF.nest, by simp, fun a ha b hb => .inr (.inr ?_)⟩, fun a ha b hb => .inl ?_⟩
    · simp at hb; subst hb
      have := hF.range a ha
      omega
    · have := h.stops a ha
      rcases List.mem_append.mp hb with hb | hb
      · have := (hF.range b hb).1; omega
      · simp at hb; subst hb; omega

/-- What compiling a list of declarations does. -/
structure Grow (s s' : St) (S : List Source) : Prop where
  mod : Mod s'.gen.code s'.table s'.protos
  len : s.gen.code.length ≤ s'.gen.code.length
  file : s'.gen.debug.file = s.gen.debug.file
  fns : ∃ new, s'.table = s.table ++ new ∧ (∀ e ∈ new, s.gen.code.length ≤ e.start) ∧
    (new.filter (fun e => !e.ext)).map src = S

theorem Grow.trans {s s1 s2 : St} {S S' : List Source} (h1 : Grow s s1 S) (h2 : Grow s1 s2 S') : Grow s s2 (S ++ S') := by
  obtain ⟨n1, t1, r1, m1⟩ := h1.fns
  obtain ⟨n2, t2, r2, m2⟩ := h2.fns
  refine ⟨h2.mod, Nat.le_trans h1.len h2.len, h2.file.trans h1.file, n1 ++ n2, by rw [t2, t1]; simp, ?_, by simp [m1, m2]⟩
  intro e he
  have := h1.len
  rcases List.mem_append.mp he with he | he
  · exact r1 e he
  · have := r2 e he; omega

theorem Grow.flat {s s' : St} (hm : Mod s'.gen.code s'.table s'.protos) (hl : s.gen.code.length ≤ s'.gen.code.length)
    (hf : s'.gen.debug.file = s.gen.debug.file) (ht : s'.table = s.table) : Grow s s' [] :=
  ⟨hm, hl, hf, [], by simp [ht], by simp, rfl⟩

theorem grow_resolve {s : St} {name : String} {q : Nat} (h : Mod s.gen.code s.table s.protos) (hq : owner s.table q = none) :
    Grow s (resolveFn s name q) [] := by
  let s0 : St := { s with gen := goFromTo s.gen q s.gen.ip }
  have h0 : Mod s0.gen.code s.table s.protos := h.patch (c := ⟨.jump, s.gen.debug⟩) (by simp) hq (fun p hp => hp)
  let s1 : St := { s0 with gen := Umka.Trace.put (savePos s0.gen) .stub }
  have r : Rel (fun d => d = s.gen.debug) s1 { s1 with gen := add s1.gen (.other 0) } [] (fun _ => []) :=
    Rel.put (o := .ins (.other 0)) rfl rfl rfl
  have F := FnCode.of (s1 := s1) (pre := s0.gen.code) rfl r
  have hl : s0.gen.code.length = s.gen.code.length := by simp [s0, goFromTo, jumpTo]; exact List.length_set
  have hE : (resolveFn s name q).table = s.table ++ ([] ++ [_]) := rfl
  refine ⟨?_, ?_, rfl, _, hE, ?_, rfl⟩
  · exact h0.fn F (by rintro d rfl; exact ⟨rfl, by simp, by simp⟩) rfl rfl
  · exact Nat.le_trans (Nat.le_trans (Nat.le_of_eq hl.symm) (Nat.le_add_right _ 3)) F.len
  · intro e he
    simp at he; subst he
    exact Nat.le_of_eq hl.symm

theorem grow_resolveAll : ∀ (ps : List (String × Nat)) {s : St}, Mod s.gen.code s.table s.protos →
    (∀ p ∈ ps, p ∈ s.protos) → Grow s (resolveAll s ps) []
  | [], s, h, _ => Grow.flat h (Nat.le_refl _) rfl rfl
  | (name, q) :: ps, s, h, hp => by
    have h1 := grow_resolve (name := name) h (h.protos (name, q) (hp _ (by simp))).2
    exact h1.trans (grow_resolveAll ps (s := resolveFn s name q) h1.mod (fun p h' => hp p (by simp [h'])))

theorem grow_endModule {s : St} (h : Mod s.gen.code s.table s.protos) : Grow s (endModule s) [] := by
  have h1 := grow_resolveAll s.protos h (fun p hp => hp)
  refine ⟨⟨h1.mod.pos, h1.mod.stops, h1.mod.ends, h1.mod.own, h1.mod.rest, ?_, h1.mod.nest⟩, h1.len, h1.file, h1.fns⟩
  intro p hp; cases hp

theorem filter_lits {n : List Fn} (h : ∀ e ∈ n, e.ext = false) : n.filter (fun e => !e.ext) = n := by
  rw [List.filter_eq_self]
  intro e he
  rw [h e he]; rfl

theorem grow_decls (e : Env ω) : ∀ (k : Decls) {s s' : St}, compileDecls e k s = .ok s' → Mod s.gen.code s.table s.protos →
    Grow s s' (k.functions s.gen.debug.file) := by
  intro k
  induction k with
  | nil => intro s s' h hm; cases h; exact Grow.flat hm (Nat.le_refl _) rfl rfl
  | tok l k ih => intro s s' h hm; rw [compileDecls] at h; have g := ih (s := s.tok l) h hm; exact ⟨g.mod, g.len, g.file, g.fns⟩
  | proto name k ih =>
    intro s s' h hm
    have h1 : Mod (s.gen.code ++ [⟨.stub, s.gen.debug⟩]) s.table (s.protos ++ [(name, s.gen.ip)]) := hm.put (by simp) (by
      intro p hp
      rcases List.mem_append.mp hp with hp | hp
      · exact .inl hp
      · simp at hp; subst hp; exact .inr rfl)
    have g1 : Grow s { s with gen := put s.gen .stub, protos := s.protos ++ [(name, s.gen.ip)] } [] :=
      Grow.flat h1 (by simp [put]) rfl rfl
    exact g1.trans (ih h h1)
  | fn name shown first after body post k ih =>
    intro s s' h hm
    rw [compileDecls] at h
    dsimp only at h
    obtain ⟨s0, hs0, hm0, hl0, hf0, hn0, hli0, ht0⟩ : ∃ s0 : St, s0 = entryPoint ((s.tok first).setFn shown) name ∧ Mod s0.gen.code s0.table s0.protos ∧ s0.gen.code.length = s.gen.code.length ∧
        s0.gen.debug.file = s.gen.debug.file ∧ s0.gen.debug.fn = shown ∧ s0.gen.debug.line = first ∧ s0.table = s.table := by
      refine ⟨_, rfl, ?_⟩
      unfold entryPoint
      split
      · rename_i q hq
        have hmem : (name, q) ∈ s.protos := by
          have := List.lookup_eq_some_iff.mp hq
          obtain ⟨a, b, hab, -⟩ := this
          show (name, q) ∈ s.protos
          rw [show s.protos = a ++ (name, q) :: b from hab]; simp
        refine ⟨hm.patch (c := ⟨.jump, ((s.tok first).setFn shown).gen.debug⟩) (by simp) (hm.protos _ hmem).2 ?_, ?_, rfl, rfl, rfl, rfl⟩
        · intro p hp; exact (List.mem_filter.mp hp).1
        · simp [goFromTo, jumpTo]; exact List.length_set
      · exact ⟨hm, rfl, rfl, rfl, rfl, rfl⟩
    rw [← hs0] at h
    obtain ⟨s2, hb, h⟩ := bind_ok h
    obtain ⟨s3, hp, h⟩ := bind_ok h
    let A : Debug → Prop := fun d => d.file = s.gen.debug.file ∧ d.fn = shown ∧ d.line ∈ fnLines first body post
    have hall : ∀ l, l ∈ fnLines first body post → A { s0.gen.debug with line := l } := fun l hl => ⟨hf0, hn0, hl⟩
    obtain ⟨n, nl, r, m, x⟩ := body_rel (s0 := s0) (A := A) hb hp ⟨hf0, hn0, by rw [hli0]; simp [fnLines]⟩
      (fun l h => hall l (by simp only [fnLines]; exact List.mem_cons_of_mem _ h)) (compile_rel e body) (compile_rel e post)
    have F := FnCode.of (s1 := { begin s0 with gotos := fun _ => none }) (pre := s0.gen.code) rfl r
    let E : Fn := Fn.mk s0.gen.code.length
      (Umka.Trace.put (Umka.Trace.put (Umka.Trace.patch s3.gen s0.gen.code.length .enter) .leave) .ret).code.length
      s.gen.debug.file shown (fnLines first body post) false
    have hM := hm0.fn F (E := E) (fun d hd => ⟨hd.1, fun _ => hd.2.1, hd.2.2⟩) rfl rfl
    have htab : s3.table = s.table ++ n := by
      have : s3.table = s0.table ++ n := r.table
      rw [this, ht0]
    have hpr : s3.protos = s0.protos := r.protos
    have hg : Grow s ((finish { s3 with gotos := s0.gotos } s0.gen.ip s.gen.debug.fn fun stop =>
          { start := s0.gen.ip, stop, file := s.gen.debug.file, name := shown, lines := fnLines first body post, ext := false }).tok after)
          (body.literals s.gen.debug.file ++ post.literals s.gen.debug.file ++ [⟨s.gen.debug.file, shown, fnLines first body post⟩]) := by
      have hlen := F.len
      refine ⟨?_, ?_, ?_, n ++ [E], ?_, ?_, ?_⟩
      · have := hM
        rw [ht0, ← List.append_assoc, ← htab, ← hpr] at this
        exact this
      · exact Nat.le_trans (by rw [← hl0]; exact Nat.le_add_right _ _) hlen
      · exact r.file.trans hf0
      · show s3.table ++ [_] = _
        rw [htab, List.append_assoc]; rfl
      · intro e he
        rcases List.mem_append.mp he with he | he
        · have := (F.range e he).1; omega
        · simp at he; subst he; exact Nat.le_of_eq hl0.symm
      · rw [List.filter_append, filter_lits x, List.map_append, m, hf0]
        rfl
    have h2 := ih h hg.mod
    have := hg.trans h2
    rw [hg.file] at this
    exact this
  | «import» file ds k ihd ih =>
    intro s s' h hm
    rw [compileDecls] at h
    obtain ⟨s1, h1, h⟩ := bind_ok h
    have hm0 : Mod s.gen.code s.table [] := ⟨hm.pos, hm.stops, hm.ends, hm.own, hm.rest, by simp, hm.nest⟩
    have g1 := ihd h1 hm0
    have g2 := grow_endModule g1.mod
    have g := g1.trans g2
    rw [List.append_nil] at g
    obtain ⟨new, ht, hr, hsrc⟩ := g.fns
    have hlen : s.gen.code.length ≤ (endModule s1).gen.code.length := g.len
    have hm3 : Mod (endModule s1).gen.code (endModule s1).table s.protos := by
      refine ⟨g.mod.pos, g.mod.stops, g.mod.ends, g.mod.own, g.mod.rest, ?_, g.mod.nest⟩
      intro p hp
      obtain ⟨a, b⟩ := hm.protos p hp
      refine ⟨by omega, ?_⟩
      rw [ht, owner_append, b, Option.none_or, owner_none]
      intro e he
      have : s.gen.code.length ≤ e.start := hr e he
      exact has_false (.inl (by omega))
    have g3 : Grow s { endModule s1 with gen := { (endModule s1).gen with debug := s.gen.debug }, protos := s.protos } (ds.functions file) :=
      ⟨hm3, hlen, rfl, new, ht, hr, hsrc⟩
    exact g3.trans (ih h hm3)

/-- The whole program. -/
theorem program_mod (e : Env ω) {file : String} {ds : Decls} {s : St} (h : compileProgram e file ds = .ok s) :
    Mod s.gen.code s.table s.protos ∧ (s.table.filter (fun e => !e.ext)).map src = ds.functions file := by
  rw [compileProgram] at h
  dsimp only at h
  obtain ⟨s1, h1, h⟩ := bind_ok h
  have hm0 : Mod [(⟨.stub, ⟨file, "<unknown>", 1⟩⟩ : Cell)] [] [] := by
    refine ⟨by simp, by simp, by simp, by simp [owner], ?_, by simp, .nil⟩
    intro pos c hc _
    have := List.mem_of_getElem? hc
    simp at this; subst this; simp
  have g1 := grow_decls e ds h1 hm0
  have g2 := grow_endModule g1.mod
  have g := g1.trans g2
  rw [List.append_nil] at g
  obtain ⟨new, ht, hr, hsrc⟩ := g.fns
  have ht : (endModule s1).table = new := by rw [ht]; rfl
  cases h
  have hq : owner (endModule s1).table 0 = none := by
    rw [ht, owner_none]
    intro e he
    have : 1 ≤ e.start := hr e he
    exact has_false (.inl (by omega))
  have m1 := g.mod.patch (q := 0) (c := ⟨.jump, (endModule s1).gen.debug⟩) (by simp) hq (fun p hp => hp)
  have m2 := m1.put (c := ⟨.ins (.other 1), (endModule s1).gen.debug⟩) (by simp) (fun p hp => .inl hp)
  have m3 := m2.put (c := ⟨.halt, (endModule s1).gen.debug⟩) (by simp) (fun p hp => .inl hp)
  refine ⟨m3, ?_⟩
  show ((endModule s1).table.filter _).map src = _
  rw [ht]; exact hsrc

/-! ## Calls -/

theorem call_next {code : List Cell} {T : List Fn} {ps : List (String × Nat)} (h : Mod code T ps) {ip : Nat}
    (hc : opAt code ip = some .call) : ∃ e, owner T ip = some e ∧ owner T (ip + 1) = some e := by
  have hc' := hc
  unfold opAt at hc'
  cases hcell : code[ip]? with
  | none => rw [hcell] at hc'; cases hc'
  | some c =>
    rw [hcell] at hc'
    have hop : c.op = .call := by simpa using hc'
    have hsame : ∀ e ∈ T, e.has (ip + 1) = e.has ip := by
      intro e he
      have hE := h.ends e he
      have hlt := hE.lt
      have h1 : e.start ≠ ip + 1 := by
        intro hs
        have := hE.before.2 .call (by rw [hs]; exact hc)
        exact this rfl
      have h2 : e.stop ≠ ip + 1 := by
        intro hs
        have := hE.ret
        rw [hs, Nat.add_sub_cancel, hc] at this
        cases this
      rw [Bool.eq_iff_iff, has_iff, has_iff]
      omega
    have hfind : owner T (ip + 1) = owner T ip := by
      clear h
      induction T with
      | nil => rfl
      | cons x xs ih =>
        have hx := hsame x (by simp)
        have hxs := ih (fun e he => hsame e (by simp [he]))
        simp only [owner, List.find?_cons] at hxs ⊢
        rw [hx]
        cases x.has ip with
        | true => rfl
        | false => exact hxs
    cases how : owner T ip with
    | none => exact absurd hop (h.rest ip c hcell how)
    | some e => exact ⟨e, rfl, hfind.trans how⟩

end Umka.Trace
