import Verif.Asm.Spec
/-! # The listing: lemmas -/

namespace Umka.Asm

open Spec

/-- Texts put one after another. -/
def emit (size : Nat) : Nat × Buf → List Text → Option (Nat × Buf)
  | st, [] => some st
  | st, t :: ts => (put 0 size st t).bind fun st => emit size st ts

theorem emit_append (size : Nat) (a b : List Text) : ∀ st, emit size st (a ++ b) = (emit size st a).bind fun st => emit size st b := by
  induction a with
  | nil => intro st; rfl
  | cons t a ih =>
    intro st
    rw [List.cons_append, emit, emit, Option.bind_assoc]
    congr 1
    funext st
    exact ih st

theorem emit_one (size : Nat) (st : Nat × Buf) (t : Text) : emit size st [t] = put 0 size st t := by
  rw [emit]
  cases put 0 size st t <;> rfl

/-- The result of a part of the listing, as a part of the whole. -/
def shift (b : Nat) (r : Option (Nat × Buf)) : Option (Nat × Buf) := r.map fun r => (b + r.1, r.2)

theorem put_shift (b size : Nat) (st : Nat × Buf) (t : Text) : shift b (put b (size - b) st t) = put 0 size (b + st.1, st.2) t := by
  rw [put, put, shift, Option.map_map, Nat.zero_add, Nat.sub_sub]
  congr 1
  funext r
  exact congrArg (·, r.2) (Nat.add_assoc ..).symm

theorem putOpt_shift (b size : Nat) (st : Nat × Buf) (t : Option Text) : shift b (putOpt b (size - b) st t) = emit size (b + st.1, st.2) t.toList := by
  cases t with
  | none => rfl
  | some t => rw [putOpt, put_shift]; exact (emit_one ..).symm

theorem bind_shift {b size : Nat} {r : Option (Nat × Buf)} {f : Nat × Buf → Option (Nat × Buf)} {ts us : List Text} {st : Nat × Buf}
    (h : shift b r = emit size st ts) (hf : ∀ s, shift b (f s) = emit size (b + s.1, s.2) us) : shift b (r >>= f) = emit size st (ts ++ us) := by
  rw [emit_append, ← h]
  cases r with
  | none => rfl
  | some s => exact hf s

/-- The texts of the line of an instruction. -/
def linePieces (N : Names) (debug : List Debug) (ip line : Nat) (i : Instr) : List Text :=
  [pad '0' 9 (decimal ip) ++ ' ' :: pad ' ' 6 (decimal line) ++ ' ' :: pad ' ' 28 (N.opcode i.opcode)] ++
  ((i.tok.map fun t => ' ' :: t).toList ++ ((i.type.map fun t => ' ' :: t).toList ++
  ((if i.type = none ∨ i.opcode = .assertRange ∨ i.opcode = .getMap then (i.typeKind.map fun t => ' ' :: t.2).toList else []) ++
  (operand N debug i).toList)))

theorem vmAsm_emit (N : Names) (ip : Nat) (debug : List Debug) (line : Nat) (i : Instr) (buf : Buf) (b size : Nat) :
    shift b (vmAsm N ip debug line i buf b (size - b)) = emit size (b, buf) (linePieces N debug ip line i) := by
  refine bind_shift ((put_shift ..).trans (emit_one ..).symm) fun s1 => ?_
  refine bind_shift (putOpt_shift ..) fun s2 => ?_
  refine bind_shift (putOpt_shift ..) fun s3 => ?_
  refine bind_shift ?_ fun s4 => putOpt_shift ..
  split
  · exact putOpt_shift ..
  · rfl

theorem linePieces_flatten (N : Names) (debug : List Debug) (d : Debug) (ip : Nat) (i : Instr) :
    (linePieces N debug ip d.line i ++ [['\n']]).flatten = Spec.line N debug d ip i := by
  obtain ⟨op, tok, type, kind, n, lo, hi, re, p⟩ := i
  have ho : (operand N debug ⟨op, tok, type, kind, n, lo, hi, re, p⟩).toList.flatten = ((if op ∈ numbers then [decimal n]
   else if op = .push then
     (match kind with
      | some (.ptr, _) => [place N p]
      | some (.real, _) => [N.real re]
      | _ => [decimal n])
   else if op = .pushReg ∨ op = .popReg then [N.reg n]
   else if op = .call then [fnAt debug n, '(' :: decimal n ++ [')']]
   else if op ∈ [Opcode.pushLocalPtrZero, .getArrayPtr, .getArray] then [decimal lo, decimal hi]
   else if op = .pushGlobal ∨ op = .refCntGlobal then [place N p]
   else if op = .enterFrame ∨ op = .callExtern then [N.ptr p]
   else if op = .callBuiltin then [N.builtin n]
   else []).map fun w => ' ' :: w).flatten := by
    have hg : globalName N p = place N p := by
      unfold globalName place
      cases N.global p <;> rfl
    have hd : ((debug[n.toNat]?).map (·.fn)).getD [] = fnAt debug n := by
      unfold fnAt
      cases debug[n.toNat]? <;> rfl
    cases op <;> simp [operand, numbers, hg, hd]
    rcases kind with _ | ⟨k, t⟩
    · simp
    · cases k <;> simp
  have h1 : (tok.map fun t => ' ' :: t).toList.flatten = (tok.toList.map fun w => ' ' :: w).flatten := by cases tok <;> rfl
  have h2 : (type.map fun t => ' ' :: t).toList.flatten = (type.toList.map fun w => ' ' :: w).flatten := by cases type <;> rfl
  have h3 : (if type = none ∨ op = .assertRange ∨ op = .getMap then (kind.map fun t => ' ' :: t.2).toList else []).flatten =
      ((if type = none ∨ op = .assertRange ∨ op = .getMap then (kind.map (·.2)).toList else []).map fun w => ' ' :: w).flatten := by
    split
    · cases kind <;> rfl
    · rfl
  unfold linePieces Spec.line words
  rw [List.map_append, List.map_append, List.map_append]
  simp only [List.flatten_append]
  rw [ho, h1, h2, h3]
  simp only [List.append_assoc, List.cons_append, List.flatten_cons, List.flatten_nil, List.append_nil]
  try rfl

/-- The texts of an instruction. -/
def pieces (N : Names) (debug : List Debug) (to : List Nat) (prev : Option Text) (d : Debug) (ip : Nat) (i : Instr) : List Text :=
  (if prev ≠ some d.file then ["\nModule: ".toList ++ d.file ++ "\n\n".toList] else []) ++
  ((if i.opcode = .enterFrame then ["\nFunction: ".toList ++ d.fn ++ "\n\n".toList] else []) ++
  (linePieces N debug ip d.line i ++ ([['\n']] ++
  (if i.opcode = .return ∨ (i.opcode = .goto ∨ i.opcode = .gotoIf ∨ i.opcode = .gotoIfNot) ∨ ip + 1 ∈ to then [['\n']] else []))))

theorem emit_bind {size : Nat} {st : Nat × Buf} {ts us : List Text} {r : Option (Nat × Buf)} {f : Nat × Buf → Option (Nat × Buf)}
    (h : r = emit size st ts) (hf : ∀ s, f s = emit size s us) : (r >>= f) = emit size st (ts ++ us) := by
  subst h
  rw [emit_append]
  show (emit size st ts).bind f = _
  congr 1
  funext s
  exact hf s

theorem emit_bind' {size : Nat} {st : Nat × Buf} {ts vs us : List Text} {r : Option (Nat × Buf)} {f : Nat × Buf → Option (Nat × Buf)}
    (h : r = emit size st ts) (hf : ∀ s, f s = emit size s (vs ++ us)) : (r >>= f) = emit size st ((ts ++ vs) ++ us) := by
  rw [List.append_assoc]
  exact emit_bind h hf

theorem emit_if {size : Nat} {st : Nat × Buf} {c : Prop} [Decidable c] {t : Text} :
    (if c then put 0 size st t else some st) = emit size st (if c then [t] else []) := by
  split
  · exact (emit_one ..).symm
  · rfl

/-- The texts of the instructions from one on. -/
def allPieces (N : Names) (debug : List Debug) (to : List Nat) : Nat → Option Text → List Instr → List Text
  | _, _, [] => []
  | ip, prev, i :: rest => match debug[ip]? with
    | none => []
    | some d => pieces N debug to prev d ip i ++ allPieces N debug to (ip + 1) (some d.file) rest

theorem loop_emit (N : Names) (debug : List Debug) (to : List Nat) (size : Nat) (last : Instr) (hl : last.opcode = .halt) (front : List Instr) :
    ∀ ip prev st, (∀ j ∈ front, j.opcode ≠ .halt) → debug.length = ip + (front.length + 1) →
      loop N debug to size ip prev (front ++ [last]) st = emit size st (allPieces N debug to ip prev (front ++ [last])) := by
  have one : ∀ ip prev d i rest st (us : List Text), debug[ip]? = some d →
      (∀ s, (if i.opcode = .halt then some s else loop N debug to size (ip + 1) (some d.file) rest s) = emit size s us) →
      loop N debug to size ip prev (i :: rest) st = emit size st (pieces N debug to prev d ip i ++ us) := by
    intro ip prev d i rest st us hd hus
    rw [loop, hd]
    dsimp only
    unfold pieces
    refine emit_bind' (emit_if (c := prev ≠ some d.file)) fun s1 => ?_
    refine emit_bind' (emit_if (c := i.opcode = .enterFrame)) fun s2 => ?_
    rw [List.append_assoc (linePieces ..), emit_append, ← vmAsm_emit, shift]
    cases vmAsm N ip debug d.line i s2.2 s2.1 (size - s2.1) with
    | none => rfl
    | some r =>
      obtain ⟨n, buf⟩ := r
      refine Eq.trans (b := put 0 size (s2.1 + n, buf) ['\n'] >>= _) rfl ?_
      refine emit_bind' (emit_one ..).symm fun s3 => ?_
      exact emit_bind (emit_if (c := i.opcode = .return ∨ (i.opcode = .goto ∨ i.opcode = .gotoIf ∨ i.opcode = .gotoIfNot) ∨ ip + 1 ∈ to)) hus
  induction front with
  | nil =>
    intro ip prev st _ hlen
    have hlt : ip < debug.length := by rw [hlen]; exact Nat.lt_succ_self _
    rw [List.nil_append, allPieces, List.getElem?_eq_getElem hlt]
    refine one ip prev _ last [] st _ (List.getElem?_eq_getElem hlt) fun s => ?_
    rw [if_pos hl]
    rfl
  | cons i front ih =>
    intro ip prev st hf hlen
    rw [List.length_cons] at hlen
    have hlt : ip < debug.length := by omega
    rw [List.cons_append, allPieces, List.getElem?_eq_getElem hlt]
    refine one ip prev _ i _ st _ (List.getElem?_eq_getElem hlt) fun s => ?_
    rw [if_neg (hf i (List.mem_cons_self ..))]
    exact ih (ip + 1) _ s (fun j hj => hf j (List.mem_cons_of_mem _ hj)) (by omega)

theorem targets_eq (capacity : Nat) (last : Instr) (hl : last.opcode = .halt) (front : List Instr) (hf : ∀ j ∈ front, j.opcode ≠ .halt)
    (hj : ∀ i ∈ front, Jumps i → 0 ≤ i.int ∧ i.int ≤ capacity) :
    ∃ to, targets capacity (front ++ [last]) = some to ∧ ∀ x, x ∈ to ↔ Target (front ++ [last]) x := by
  have hjump : ∀ i : Instr, (i.opcode = .goto ∨ i.opcode = .gotoIf ∨ i.opcode = .gotoIfNot) ↔ Jumps i := by
    intro i; simp [Jumps]
  have hln : ¬ Jumps last := by rw [Jumps, hl]; decide
  induction front with
  | nil =>
    refine ⟨[], ?_, fun x => ⟨fun h => (nomatch h), ?_⟩⟩
    · rw [List.nil_append, targets]
      rw [if_neg (fun h => hln ((hjump last).mp h.1)), if_pos hl]
    · rintro ⟨i, hi, hji, _⟩
      rw [List.mem_singleton.mp hi] at hji
      exact absurd hji hln
  | cons i front ih =>
    obtain ⟨to, h1, h2⟩ := ih (fun j h => hf j (List.mem_cons_of_mem _ h)) (fun j h => hj j (List.mem_cons_of_mem _ h))
    refine ⟨if i.opcode = .goto ∨ i.opcode = .gotoIf ∨ i.opcode = .gotoIfNot then i.int.toNat :: to else to, ?_, fun x => ?_⟩
    · rw [List.cons_append, targets]
      rw [if_neg (fun h => h.2 (hj i (List.mem_cons_self ..) ((hjump i).mp h.1))), if_neg (hf i (List.mem_cons_self ..)), h1]
      rfl
    · have hT : Target (i :: front ++ [last]) x ↔ (Jumps i ∧ i.int = x) ∨ Target (front ++ [last]) x := by
        unfold Target
        simp only [List.cons_append, List.mem_cons]
        constructor
        · rintro ⟨j, rfl | hj, h⟩
          · exact .inl h
          · exact .inr ⟨j, hj, h⟩
        · rintro (h | ⟨j, hj, h⟩)
          · exact ⟨i, .inl rfl, h⟩
          · exact ⟨j, .inr hj, h⟩
      rw [hT, ← h2]
      by_cases hji : Jumps i
      · rw [if_pos ((hjump i).mpr hji), List.mem_cons]
        have := hj i (List.mem_cons_self ..) hji
        refine or_congr ⟨fun h => ⟨hji, by omega⟩, fun h => by omega⟩ Iff.rfl
      · rw [if_neg (fun h => hji ((hjump i).mp h))]
        exact ⟨.inr, fun h => h.elim (fun h => absurd h.1 hji) id⟩

theorem pieces_flatten (N : Names) (code : List Instr) (debug : List Debug) (to : List Nat) (hto : ∀ x, x ∈ to ↔ Target code x) (prev : Option Debug)
    (d : Debug) (ip : Nat) (i : Instr) :
    (pieces N debug to (prev.map (·.file)) d ip i).flatten = section' N code debug prev d ip i := by
  unfold pieces section'
  rw [← linePieces_flatten]
  simp only [List.flatten_append, List.append_assoc]
  congr 1
  · split <;> simp
  congr 1
  · split <;> simp
  congr 2
  have : (i.opcode = .return ∨ (i.opcode = .goto ∨ i.opcode = .gotoIf ∨ i.opcode = .gotoIfNot) ∨ ip + 1 ∈ to) ↔
      (i.opcode = .return ∨ Jumps i ∨ Target code (ip + 1)) := by
    rw [hto]; simp [Jumps]
  by_cases h : i.opcode = .return ∨ Jumps i ∨ Target code (ip + 1)
  · rw [if_pos h, if_pos (this.mpr h)]; rfl
  · rw [if_neg h, if_neg (fun h' => h (this.mp h'))]; rfl

theorem allPieces_flatten (N : Names) (code : List Instr) (debug : List Debug) (to : List Nat) (hto : ∀ x, x ∈ to ↔ Target code x)
    (hd : debug.length = code.length) : ∀ (rest : List Instr) (ip : Nat), code.drop ip = rest →
      (allPieces N debug to ip ((if ip = 0 then none else debug[ip - 1]?).map (·.file)) rest).flatten =
        ((List.range' ip rest.length).map fun ip => match code[ip]?, debug[ip]? with
          | some i, some d => section' N code debug (if ip = 0 then none else debug[ip - 1]?) d ip i
          | _, _ => []).flatten := by
  intro rest
  induction rest with
  | nil => intro ip _; rfl
  | cons i rest ih =>
    intro ip h
    have hi : code[ip]? = some i := by
      rw [← List.head?_drop, h]; rfl
    have hlt : ip < debug.length := by rw [hd]; exact (List.getElem?_eq_some_iff.mp hi).1
    have hn : code.drop (ip + 1) = rest := by rw [← List.tail_drop, h]; rfl
    rw [List.length_cons, List.range'_succ, List.map_cons, List.flatten_cons, allPieces, hi, List.getElem?_eq_getElem hlt]
    dsimp only
    rw [List.flatten_append, pieces_flatten N code debug to hto]
    congr 1
    have := ih (ip + 1) hn
    rw [if_neg (Nat.succ_ne_zero _), Nat.add_sub_cancel, List.getElem?_eq_getElem hlt] at this
    exact this

theorem genAsm_emit (N : Names) {capacity : Nat} {code : List Instr} {debug : List Debug} (h : Program capacity code debug) :
    ∃ ts : List Text, ts.flatten = listing N code debug ∧ ∀ buf size, genAsm N capacity code debug buf size = emit size (0, buf) ts := by
  obtain ⟨front, last, rfl, hl, hf⟩ := h.last
  have hroom := h.room
  obtain ⟨to, h1, h2⟩ := targets_eq capacity last hl front hf fun i hi hji => by
    have := h.jumps i (List.mem_append_left _ hi) hji
    omega
  refine ⟨allPieces N debug to 0 none (front ++ [last]), ?_, fun buf size => ?_⟩
  · have := allPieces_flatten N (front ++ [last]) debug to h2 h.debug (front ++ [last]) 0 rfl
    rw [listing, List.range_eq_range']
    exact this
  · rw [genAsm, h1]
    refine loop_emit N debug to size last hl front 0 none _ hf ?_
    rw [h.debug, List.length_append, Nat.zero_add]; rfl

/-! ## The buffer -/

theorem emit_null (ts : List Text) : ∀ c, emit 0 (c, none) ts = some (c + ts.flatten.length, none) := by
  induction ts with
  | nil => intro c; rfl
  | cons t ts ih =>
    intro c
    rw [emit, put, snprintf, if_pos (Nat.zero_sub _)]
    show emit 0 (c + t.length, none) ts = _
    rw [ih, List.flatten_cons, List.length_append, Nat.add_assoc]

/-- The buffer shows the text so far, as much of it as fits. -/
structure Shown (size : Nat) (m : List Char) (t : Text) : Prop where
  length : m.length = size + 1
  text : m.take (min t.length (size - 1)) = t.take (min t.length (size - 1))
  «end» : m[min t.length (size - 1)]? = some nul

theorem shown_put {size : Nat} {m : List Char} {t u : Text} (h : Shown size m t) (hu : t.length + u.length ≤ size) :
    ∃ m', put 0 size (t.length, some m) u = some (t.length + u.length, some m') ∧ Shown size m' (t ++ u) := by
  have hl := h.length
  rw [put, snprintf, Nat.zero_add, if_neg (by omega)]
  by_cases h0 : size - t.length = 0
  · have : u = [] := List.length_eq_zero_iff.mp (by omega)
    subst this
    rw [if_pos h0]
    exact ⟨m, rfl, by rw [List.append_nil]; exact h⟩
  · rw [if_neg h0]
    dsimp only
    have hn : min u.length (size - t.length - 1) ≤ size - t.length - 1 := Nat.min_le_right _ _
    generalize hk : min u.length (size - t.length - 1) = n at hn ⊢
    rw [if_neg (by omega)]
    refine ⟨_, rfl, ?_⟩
    have hmin : min t.length (size - 1) = t.length := by omega
    have ht : m.take t.length = t := by
      have := h.text
      rw [hmin, List.take_length] at this
      exact this
    have hmin' : min (t ++ u).length (size - 1) = t.length + n := by rw [List.length_append]; omega
    have hul : (u.take n).length = n := by rw [List.length_take]; omega
    refine ⟨?_, ?_, ?_⟩
    · rw [List.length_append, List.length_append, ht, hul, List.length_cons, List.length_drop]; omega
    · rw [hmin', ht, List.take_left' (by rw [List.length_append, hul]), List.take_append]
      rw [List.take_of_length_le (i := t.length + n) (l := t) (by omega), Nat.add_sub_cancel_left]
    · rw [hmin', ht, List.getElem?_append_right (by rw [List.length_append, hul]; omega), List.length_append, hul, Nat.sub_self]
      rfl

theorem emit_shown {size : Nat} (us : List Text) : ∀ {m : List Char} {t : Text}, Shown size m t → t.length + us.flatten.length ≤ size →
    ∃ m', emit size (t.length, some m) us = some (t.length + us.flatten.length, some m') ∧ Shown size m' (t ++ us.flatten) := by
  induction us with
  | nil => intro m t h _; exact ⟨m, rfl, by rw [List.flatten_nil, List.append_nil]; exact h⟩
  | cons u us ih =>
    intro m t h hl
    rw [List.flatten_cons, List.length_append] at hl
    obtain ⟨m1, h1, h2⟩ := shown_put h (u := u) (by omega)
    have := ih h2 (by rw [List.length_append]; omega)
    obtain ⟨m2, h3, h4⟩ := this
    refine ⟨m2, ?_, by rw [List.flatten_cons, ← List.append_assoc]; exact h4⟩
    rw [emit, h1]
    show emit size (t.length + u.length, some m1) us = _
    rw [List.length_append] at h3
    rw [h3, List.flatten_cons, List.length_append, Nat.add_assoc]

theorem asm_eq (N : Names) {capacity : Nat} {code : List Instr} {debug : List Debug} (h : Program capacity code debug)
    (hne : listing N code debug ≠ []) (hc : nul ∉ listing N code debug) : asm N capacity code debug = some (listing N code debug).dropLast := by
  obtain ⟨ts, h1, h2⟩ := genAsm_emit N h
  rw [asm, h2, emit_null, h1]
  show ((genAsm N capacity code debug (some (List.replicate (0 + (listing N code debug).length + 1) nul)) (0 + (listing N code debug).length)).bind _) = _
  rw [Nat.zero_add, h2]
  generalize listing N code debug = T at *
  have hT : 0 < T.length := List.length_pos_iff.mpr hne
  have hs : Shown T.length (List.replicate (T.length + 1) nul) [] :=
    ⟨List.length_replicate, by simp, by simp⟩
  obtain ⟨m, h3, h4⟩ := emit_shown ts hs (by rw [h1]; simp)
  rw [List.length_nil, Nat.zero_add, h1] at h3
  rw [h3]
  rw [h1, List.nil_append] at h4
  show some ((m.set T.length nul).takeWhile (· != nul)) = _
  congr 1
  have hmin : min T.length (T.length - 1) = T.length - 1 := by omega
  have ht := h4.text
  have he := h4.end
  have hl := h4.length
  rw [hmin] at ht he
  have hsplit : m.set T.length nul = T.dropLast ++ nul :: (m.drop T.length).set 0 nul := by
    have : m = m.take (T.length - 1) ++ nul :: m.drop T.length := by
      have e := (List.take_append_drop (T.length - 1) m).symm
      rw [List.drop_eq_getElem_cons (by omega)] at e
      have hx : m[T.length - 1]'(by omega) = nul := by
        rw [List.getElem?_eq_getElem (by omega)] at he
        exact Option.some.inj he
      rw [hx, Nat.sub_add_cancel hT] at e
      exact e
    conv => lhs; rw [this]
    rw [ht, ← List.dropLast_eq_take, List.set_append_right _ _ (by rw [List.length_dropLast]; omega), List.length_dropLast]
    have : T.length - (T.length - 1) = 1 := by omega
    rw [this, List.set_cons_succ]
  rw [hsplit, List.takeWhile_append_of_pos]
  · rw [List.takeWhile_cons, if_neg (by simp), List.append_nil]
  · intro c hcm
    have : c ≠ nul := fun e => hc (e ▸ List.dropLast_subset _ hcm)
    simpa using this

end Umka.Asm
