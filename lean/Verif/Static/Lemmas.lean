import Verif.Static.Spec
/-!
# Static storage: words, and values in memory
-/

namespace Umka.Static
open Spec

/-! ## Words -/

theorem slice_get (ws : List Word) (off n j : Nat) : (slice ws off n)[j]? = if j < n then ws[off + j]? else none := by
  simp only [slice, List.getElem?_take, List.getElem?_drop]

theorem slice_length {ws : List Word} {off n : Nat} (h : off + n ≤ ws.length) : (slice ws off n).length = n := by
  simp only [slice, List.length_take, List.length_drop]
  omega

theorem slice_congr {ws ws' : List Word} {off n : Nat} (h : ∀ j, off ≤ j → j < off + n → ws'[j]? = ws[j]?) : slice ws' off n = slice ws off n := by
  refine List.ext_getElem? fun j => ?_
  rw [slice_get, slice_get]
  split
  · exact h _ (by omega) (by omega)
  · rfl

theorem slice_all {ws : List Word} {n : Nat} (h : ws.length = n) : slice ws 0 n = ws := by
  subst h
  simp [slice]

theorem slice_slice {ws : List Word} {a n b m : Nat} (h : b + m ≤ n) : slice (slice ws a n) b m = slice ws (a + b) m := by
  refine List.ext_getElem? fun j => ?_
  rw [slice_get, slice_get, slice_get]
  by_cases hj : j < m
  · rw [if_pos hj, if_pos hj, if_pos (by omega), Nat.add_assoc]
  · rw [if_neg hj, if_neg hj]

theorem splice_length {ws new : List Word} {off : Nat} (h : off + new.length ≤ ws.length) : (splice ws off new).length = ws.length := by
  simp only [splice, List.length_append, List.length_take, List.length_drop]
  omega

theorem splice_get {ws new : List Word} {off : Nat} (h : off ≤ ws.length) (j : Nat) :
    (splice ws off new)[j]? = if j < off then ws[j]? else if j < off + new.length then new[j - off]? else ws[j]? := by
  have hl : (ws.take off).length = off := by rw [List.length_take]; omega
  by_cases h1 : j < off
  · rw [if_pos h1, splice, List.append_assoc, List.getElem?_append_left (by rw [hl]; exact h1), List.getElem?_take, if_pos h1]
  · rw [if_neg h1, splice, List.append_assoc, List.getElem?_append_right (by rw [hl]; omega), hl]
    by_cases h2 : j < off + new.length
    · rw [if_pos h2, List.getElem?_append_left (by omega)]
    · rw [if_neg h2, List.getElem?_append_right (by omega), List.getElem?_drop]
      congr 1
      omega

theorem slice_splice_same {ws new : List Word} {off : Nat} (h : off + new.length ≤ ws.length) : slice (splice ws off new) off new.length = new := by
  refine List.ext_getElem? fun j => ?_
  rw [slice_get]
  split
  · rename_i hj
    rw [splice_get (by omega), if_neg (by omega), if_pos (by omega)]
    congr 1
    omega
  · rename_i hj
    rw [List.getElem?_eq_none (by omega)]

/-! ## Memory -/

theorem getElem?_lt {α : Type} {l : List α} {i : Nat} {x : α} (h : l[i]? = some x) : i < l.length := by
  rcases Nat.lt_or_ge i l.length with hl | hl
  · exact hl
  · rw [List.getElem?_eq_none hl] at h
    cases h

theorem poke_get (mem : Mem) (b off : Nat) (new : List Word) (i : Nat) :
    (poke mem b off new)[i]? = if b = i then mem[i]?.map (fun blk => { blk with words := splice blk.words off new }) else mem[i]? := by
  simp only [poke, List.getElem?_modify]
  by_cases h : b = i
  · subst h
    rw [if_pos rfl]
    cases mem[b]? <;> simp
  · rw [if_neg h]
    cases mem[i]? <;> simp [h]

theorem poke_length (mem : Mem) (b off : Nat) (new : List Word) : (poke mem b off new).length = mem.length := by
  simp [poke]

theorem peek_some {mem : Mem} {b : Nat} {blk : Block} (h : mem[b]? = some blk) (off n : Nat) : peek mem b off n = slice blk.words off n := by
  simp only [peek, h]

/-- The blocks that are not in `X` are kept, and blocks may be added. -/
structure Keep (X : Nat → Prop) (mem mem' : Mem) : Prop where
  length : mem.length ≤ mem'.length
  same : ∀ i, i < mem.length → ¬ X i → mem'[i]? = mem[i]?

abbrev None' : Nat → Prop := fun _ => False

theorem Keep.refl (X : Nat → Prop) (mem : Mem) : Keep X mem mem := ⟨Nat.le_refl _, fun _ _ _ => rfl⟩

theorem Keep.trans {X : Nat → Prop} {m₁ m₂ m₃ : Mem} (h : Keep X m₁ m₂) (h' : Keep X m₂ m₃) : Keep X m₁ m₃ :=
  ⟨Nat.le_trans h.length h'.length, fun i hi hx => by
    rw [h'.same i (Nat.lt_of_lt_of_le hi h.length) hx, h.same i hi hx]⟩

theorem Keep.weaken {X Y : Nat → Prop} {mem mem' : Mem} (h : Keep X mem mem') (hxy : ∀ i, i < mem.length → X i → Y i) : Keep Y mem mem' :=
  ⟨h.length, fun i hi hy => h.same i hi fun hx => hy (hxy i hi hx)⟩

theorem Keep.get {X : Nat → Prop} {mem mem' : Mem} (h : Keep X mem mem') {i : Nat} {blk : Block} (hg : mem[i]? = some blk) (hx : ¬ X i) :
    mem'[i]? = some blk := by
  rw [h.same i (getElem?_lt hg) hx, hg]

theorem Keep.append (X : Nat → Prop) (mem more : Mem) : Keep X mem (mem ++ more) :=
  ⟨by simp, fun i hi _ => List.getElem?_append_left hi⟩

theorem Keep.poke {X : Nat → Prop} {mem : Mem} {b off : Nat} {new : List Word} (hb : b < mem.length → X b) : Keep X mem (poke mem b off new) :=
  ⟨by rw [poke_length]; exact Nat.le_refl _, fun i hi hx => by
    rw [poke_get, if_neg]
    rintro rfl
    exact hx (hb hi)⟩

/-! ## Values in memory

`Rep P Q mem ty ws v`: the words `ws` are the value `v`; the data of dynamic arrays are in blocks of `P`, the characters of strings in blocks of `Q`. -/

def textBlock (s : List Nat) : Block := ⟨.text, s.length, s.length + 1, s.map (fun (c : Nat) => .int c) ++ [.int 0]⟩

mutual

def Rep (P Q : Nat → Prop) (mem : Mem) : Ty → List Word → Val → Prop
  | .int k, ws, v => ∃ n, ws = [.int n] ∧ v = .num n ∧ k.min ≤ n ∧ n ≤ k.max
  | .char, ws, v => ∃ n, ws = [.int n] ∧ v = .num n ∧ 0 ≤ n ∧ n ≤ 255
  | .str, ws, v => ∃ s, v = .text s ∧ (∀ c ∈ s, c ≤ 255) ∧ ((ws = [.int 0] ∧ s = []) ∨ ∃ b, ws = [.ptr b 0] ∧ Q b ∧ mem[b]? = some (textBlock s))
  | .array n base, ws, v => ∃ vs, v = .list vs ∧ vs.length = n ∧ ws.length = n * base.size ∧
      ∀ i x, vs[i]? = some x → Rep P Q mem base (slice ws (i * base.size) base.size) x
  | .dyn base, ws, v => ∃ vs, v = .list vs ∧ ((∃ t s, ws = [t, s, .int 0] ∧ vs = []) ∨
      ∃ b blk, ws = [.int 1, .int base.size, .ptr b 0] ∧ P b ∧ mem[b]? = some blk ∧ blk.use = .items ∧ blk.len = vs.length ∧
        blk.cap = 2 * (vs.length + 1) ∧ blk.words.length = blk.cap * base.size ∧
        ∀ i x, vs[i]? = some x → Rep P Q mem base (slice blk.words (i * base.size) base.size) x)
  | .struct fs, ws, v => ∃ vs, v = .list vs ∧ ws.length = fs.size ∧ RepFields P Q mem fs ws 0 vs

def RepFields (P Q : Nat → Prop) (mem : Mem) : Fields → List Word → Nat → List Val → Prop
  | .nil, _, _, vs => vs = []
  | .cons _ ty rest, ws, off, vs => ∃ x xs, vs = x :: xs ∧ Rep P Q mem ty (slice ws off ty.size) x ∧ RepFields P Q mem rest ws (off + ty.size) xs

end

theorem Rep.length {P Q : Nat → Prop} {mem : Mem} : ∀ {ty : Ty} {ws : List Word} {v : Val}, Rep P Q mem ty ws v → ws.length = ty.size
  | .int _, _, _, h => by obtain ⟨_, rfl, _⟩ := h; rfl
  | .char, _, _, h => by obtain ⟨_, rfl, _⟩ := h; rfl
  | .str, _, _, h => by
    obtain ⟨_, _, _, h | ⟨_, h, _⟩⟩ := h
    · rw [h.1]; rfl
    · rw [h]; rfl
  | .array _ _, _, _, h => by obtain ⟨_, _, _, h, _⟩ := h; rw [h]; rfl
  | .dyn _, _, _, h => by
    obtain ⟨_, _, ⟨_, _, h, _⟩ | ⟨_, _, h, _⟩⟩ := h <;> rw [h] <;> rfl
  | .struct _, _, _, h => by obtain ⟨_, _, h, _⟩ := h; rw [h]; rfl

mutual

theorem Rep.move {P Q P' Q' : Nat → Prop} {mem mem' : Mem} (hp : ∀ i, i < mem.length → P i → P' i ∧ mem'[i]? = mem[i]?)
    (hq : ∀ i, i < mem.length → Q i → Q' i ∧ mem'[i]? = mem[i]?) : ∀ {ty : Ty} {ws : List Word} {v : Val}, Rep P Q mem ty ws v → Rep P' Q' mem' ty ws v
  | .int _, _, _, h => h
  | .char, _, _, h => h
  | .str, _, _, h => by
    obtain ⟨s, hv, hc, h | ⟨b, hw, hb, hm⟩⟩ := h
    · exact ⟨s, hv, hc, .inl h⟩
    · have := hq b (getElem?_lt hm) hb
      exact ⟨s, hv, hc, .inr ⟨b, hw, this.1, by rw [this.2, hm]⟩⟩
  | .array _ base, _, _, h => by
    obtain ⟨vs, hv, hl, hw, h⟩ := h
    exact ⟨vs, hv, hl, hw, fun i x hi => Rep.move hp hq (h i x hi)⟩
  | .dyn base, _, _, h => by
    obtain ⟨vs, hv, h | ⟨b, blk, hw, hb, hm, h1, h2, h3, h4, h⟩⟩ := h
    · exact ⟨vs, hv, .inl h⟩
    · have := hp b (getElem?_lt hm) hb
      exact ⟨vs, hv, .inr ⟨b, blk, hw, this.1, by rw [this.2, hm], h1, h2, h3, h4, fun i x hi => Rep.move hp hq (h i x hi)⟩⟩
  | .struct fs, _, _, h => by
    obtain ⟨vs, hv, hl, h⟩ := h
    exact ⟨vs, hv, hl, RepFields.move hp hq h⟩

theorem RepFields.move {P Q P' Q' : Nat → Prop} {mem mem' : Mem} (hp : ∀ i, i < mem.length → P i → P' i ∧ mem'[i]? = mem[i]?)
    (hq : ∀ i, i < mem.length → Q i → Q' i ∧ mem'[i]? = mem[i]?) :
    ∀ {fs : Fields} {ws : List Word} {off : Nat} {vs : List Val}, RepFields P Q mem fs ws off vs → RepFields P' Q' mem' fs ws off vs
  | .nil, _, _, _, h => h
  | .cons _ _ _, _, _, _, h => by
    obtain ⟨x, xs, hv, h1, h2⟩ := h
    exact ⟨x, xs, hv, Rep.move hp hq h1, RepFields.move hp hq h2⟩

end

/-- Fields are not affected by words elsewhere. -/
theorem RepFields.congr {P Q : Nat → Prop} {mem : Mem} : ∀ {fs : Fields} {ws ws' : List Word} {off : Nat} {vs : List Val},
    (∀ j, off ≤ j → j < off + fs.size → ws'[j]? = ws[j]?) → RepFields P Q mem fs ws off vs → RepFields P Q mem fs ws' off vs
  | .nil, _, _, _, _, _, h => h
  | .cons _ ty rest, ws, ws', off, _, hw, h => by
    obtain ⟨x, xs, hv, h1, h2⟩ := h
    have hs : (Fields.cons ‹_› ty rest).size = ty.size + rest.size := rfl
    refine ⟨x, xs, hv, ?_, RepFields.congr (fun j hj hj' => hw j (by omega) (by omega)) h2⟩
    rw [slice_congr (ws := ws) fun j hj hj' => hw j hj (by omega)]
    exact h1

theorem mapM_range {α : Type} (f : Nat → Option α) (vs : List α) (h : ∀ i x, vs[i]? = some x → f i = some x) : (List.range vs.length).mapM f = some vs := by
  induction vs generalizing f with
  | nil => rfl
  | cons v vs ih =>
    rw [List.length_cons, List.range_succ_eq_map, List.mapM_cons, h 0 v rfl]
    have := ih (fun i => f (i + 1)) fun i x hi => h (i + 1) x (by simpa using hi)
    rw [List.mapM_map]
    show (do let vs ← List.mapM (fun i => f (i + 1)) (List.range vs.length); pure (v :: vs)) = _
    rw [this]
    rfl

theorem mapM_charOf (s : List Nat) : (s.map (fun (c : Nat) => Word.int c)).mapM charOf = some s := by
  induction s with
  | nil => rfl
  | cons c s ih =>
    rw [List.map_cons, List.mapM_cons, ih]
    simp [charOf]

mutual

/-- What is represented is what is read. -/
theorem Rep.read {P Q : Nat → Prop} {mem : Mem} : ∀ {ty : Ty} {ws : List Word} {v : Val}, Rep P Q mem ty ws v → read mem ty ws = some v
  | .int _, _, _, h => by obtain ⟨n, rfl, rfl, _⟩ := h; simp only [Spec.read]
  | .char, _, _, h => by obtain ⟨n, rfl, rfl, _⟩ := h; simp only [Spec.read]
  | .str, _, _, h => by
    obtain ⟨s, rfl, _, ⟨rfl, rfl⟩ | ⟨b, rfl, _, hm⟩⟩ := h
    · simp only [Spec.read]
    · have : ((textBlock s).words.take (textBlock s).len).mapM charOf = some s := by
        show (List.take s.length (s.map (fun (c : Nat) => Word.int c) ++ [.int 0])).mapM charOf = _
        rw [List.take_left' (by simp), mapM_charOf]
      simp only [Spec.read, hm, this]
      rfl
  | .array n base, ws, _, h => by
    obtain ⟨vs, rfl, hl, hw, h⟩ := h
    subst hl
    simp only [Spec.read, mapM_range _ vs fun i x hi => Rep.read (h i x hi), Option.map_some]
  | .dyn base, _, _, h => by
    obtain ⟨vs, rfl, ⟨t, s, rfl, rfl⟩ | ⟨b, blk, rfl, _, hm, h1, h2, _, _, h⟩⟩ := h
    · simp only [Spec.read]
    · simp only [Spec.read, hm, h1, h2, and_self, if_true, mapM_range _ vs fun i x hi => Rep.read (h i x hi), Option.map_some]
  | .struct fs, _, _, h => by
    obtain ⟨vs, rfl, _, h⟩ := h
    simp only [Spec.read, RepFields.read h, Option.map_some]

theorem RepFields.read {P Q : Nat → Prop} {mem : Mem} : ∀ {fs : Fields} {ws : List Word} {off : Nat} {vs : List Val},
    RepFields P Q mem fs ws off vs → readFields mem fs ws off = some vs
  | .nil, _, _, _, h => by simp only [readFields]; exact congrArg some h.symm
  | .cons _ _ _, _, _, _, h => by
    obtain ⟨x, xs, rfl, h1, h2⟩ := h
    simp only [readFields, Rep.read h1, RepFields.read h2]
    rfl

end

theorem slice_replicate {w : Word} {n off m : Nat} (h : off + m ≤ n) : slice (List.replicate n w) off m = List.replicate m w := by
  rw [slice, List.drop_replicate, List.take_replicate]
  congr 1
  omega

mutual

/-- Zeros are the zero value. -/
theorem Rep.zero (P Q : Nat → Prop) (mem : Mem) : ∀ ty : Ty, Rep P Q mem ty (List.replicate ty.size (.int 0)) (zero ty)
  | .int k => ⟨0, rfl, rfl, by cases k <;> decide, by cases k <;> decide⟩
  | .char => ⟨0, rfl, rfl, by decide, by decide⟩
  | .str => ⟨[], rfl, by simp, .inl ⟨rfl, rfl⟩⟩
  | .array n base => by
    refine ⟨_, rfl, List.length_replicate, by rw [List.length_replicate]; rfl, fun i x hi => ?_⟩
    have hl : i < n := by simpa using getElem?_lt hi
    rw [List.getElem?_replicate, if_pos hl] at hi
    cases hi
    rw [slice_replicate]
    · exact Rep.zero P Q mem base
    · show _ ≤ n * base.size
      calc i * base.size + base.size = (i + 1) * base.size := by rw [Nat.add_mul, Nat.one_mul]
        _ ≤ n * base.size := Nat.mul_le_mul_right _ hl
  | .dyn base => ⟨[], rfl, .inl ⟨_, _, rfl, rfl⟩⟩
  | .struct fs => ⟨_, rfl, by rw [List.length_replicate]; rfl, RepFields.zero P Q mem fs _ 0 (by show 0 + fs.size ≤ _; simp [Ty.size])⟩

theorem RepFields.zero (P Q : Nat → Prop) (mem : Mem) : ∀ (fs : Fields) (n off : Nat), off + fs.size ≤ n →
    RepFields P Q mem fs (List.replicate n (.int 0)) off (zeroFields fs)
  | .nil, _, _, _ => rfl
  | .cons _ ty rest, n, off, h => by
    have hs : (Fields.cons ‹_› ty rest).size = ty.size + rest.size := rfl
    refine ⟨_, _, rfl, ?_, RepFields.zero P Q mem rest n _ (by omega)⟩
    rw [slice_replicate (by omega)]
    exact Rep.zero P Q mem ty

end

end Umka.Static
