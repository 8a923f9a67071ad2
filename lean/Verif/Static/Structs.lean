import Verif.Static.Lists
/-!
# Static storage: structures, and all constant expressions
-/

namespace Umka.Static
open Spec

variable {Q : Nat → Prop} {consts : Consts} {env : List (CTy × Val)}

/-- The offset and the type of a field. -/
def Fields.find : Fields → String → Option (Nat × Ty)
  | .nil, _ => none
  | .cons name ty rest, f => if f = name then some (0, ty) else (rest.find f).map fun p => (ty.size + p.1, p.2)

theorem find_names : ∀ {fs : Fields} {f : String}, f ∈ names fs ↔ ∃ o ty, fs.find f = some (o, ty)
  | .nil, f => by simp [names, Fields.find]
  | .cons name ty rest, f => by
    rw [names, List.mem_cons, find_names (fs := rest), Fields.find]
    by_cases h : f = name
    · rw [if_pos h]
      exact ⟨fun _ => ⟨_, _, rfl⟩, fun _ => .inl h⟩
    · rw [if_neg h]
      constructor
      · rintro (h' | ⟨o, t, h'⟩)
        · exact absurd h' h
        · exact ⟨_, _, by rw [h']; rfl⟩
      · rintro ⟨o, t, h'⟩
        cases hf : rest.find f with
        | none => rw [hf] at h'; cases h'
        | some p => exact .inr ⟨p.1, p.2, rfl⟩

theorem find_room : ∀ {fs : Fields} {f : String} {o : Nat} {ty : Ty}, fs.find f = some (o, ty) → o + ty.size ≤ fs.size
  | .nil, _, _, _, h => by cases h
  | .cons name ty rest, f, o, t, h => by
    rw [Fields.find] at h
    show _ ≤ ty.size + rest.size
    by_cases hf : f = name
    · rw [if_pos hf] at h
      cases h
      omega
    · rw [if_neg hf] at h
      cases hr : rest.find f with
      | none => rw [hr] at h; cases h
      | some p =>
        rw [hr] at h
        cases h
        have := find_room hr
        omega

theorem find_disjoint : ∀ {fs : Fields} {f g : String} {o p : Nat} {ty ty' : Ty}, f ≠ g → fs.find f = some (o, ty) → fs.find g = some (p, ty') →
    o + ty.size ≤ p ∨ p + ty'.size ≤ o
  | .nil, _, _, _, _, _, _, _, h, _ => by cases h
  | .cons name ty rest, f, g, o, p, t, t', hne, h, h' => by
    rw [Fields.find] at h h'
    by_cases hf : f = name
    · rw [if_pos hf] at h
      rw [if_neg (fun hg => hne (hf.trans hg.symm))] at h'
      cases h
      cases hr : rest.find g with
      | none => rw [hr] at h'; cases h'
      | some q => rw [hr] at h'; cases h'; left; omega
    · rw [if_neg hf] at h
      cases hr : rest.find f with
      | none => rw [hr] at h; cases h
      | some q =>
        rw [hr] at h
        cases h
        by_cases hg : g = name
        · rw [if_pos hg] at h'
          cases h'
          right
          omega
        · rw [if_neg hg] at h'
          cases hr' : rest.find g with
          | none => rw [hr'] at h'; cases h'
          | some q' =>
            rw [hr'] at h'
            cases h'
            have := find_disjoint hne hr hr'
            omega

theorem lookup_mem {f : String} {e : Expr} : ∀ {items : List (String × Expr)}, items.lookup f = some e → (f, e) ∈ items
  | [], h => by cases h
  | (g, d) :: items, h => by
    rw [List.lookup_cons] at h
    split at h
    · rename_i hg
      cases h
      rw [beq_iff_eq.mp hg]
      exact List.mem_cons_self
    · exact List.mem_cons_of_mem _ (lookup_mem h)

/-- What storing a named field does. -/
def FieldOutcome (Q : Nat → Prop) (env : List (CTy × Val)) (fs : Fields) (b off : Nat) (f : String) (e : Expr) (mem : Mem) (blk : Block)
    (r : Except Err Mem) : Prop :=
  match r with
  | .ok mem' => ∃ o ty v ws', fs.find f = some (o, ty) ∧ denote env ty e = some v ∧ Keep (· = b) mem mem' ∧ mem'[b]? = some { blk with words := ws' } ∧
      ws'.length = blk.words.length ∧ (∀ j, j < off + o ∨ off + o + ty.size ≤ j → ws'[j]? = blk.words[j]?) ∧
      Rep (New mem) (Texts Q mem) mem' ty (slice ws' (off + o) ty.size) v
  | .error _ => ∀ o ty, fs.find f = some (o, ty) → denote env ty e = none

theorem fillNamed_spec {fs : Fields} {b : Nat} (hq : ¬ Q b) {one : String → Expr → Mem → Except Err Mem}
    (hone : ∀ f e mem blk, ConstsOK Q mem consts env → mem[b]? = some blk → fs.size ≤ blk.words.length →
      FieldOutcome Q env fs b 0 f e mem blk (one f e mem)) :
    ∀ (items : List (String × Expr)) (seen : List String) (mem : Mem) (blk : Block), ConstsOK Q mem consts env → mem[b]? = some blk →
    fs.size ≤ blk.words.length →
    match fillNamed one seen items mem with
    | .ok mem' => ∃ ws', Keep (· = b) mem mem' ∧ mem'[b]? = some { blk with words := ws' } ∧ ws'.length = blk.words.length ∧
        ((items.map Prod.fst).Nodup ∧ (∀ f ∈ items.map Prod.fst, f ∉ seen) ∧ ∀ f ∈ items.map Prod.fst, f ∈ names fs) ∧
        ∀ f o ty, fs.find f = some (o, ty) →
          (∀ e, items.lookup f = some e → ∃ v, denote env ty e = some v ∧ Rep (New mem) (Texts Q mem) mem' ty (slice ws' o ty.size) v) ∧
          (items.lookup f = none → slice ws' o ty.size = slice blk.words o ty.size)
    | .error _ => ((items.map Prod.fst).Nodup ∧ (∀ f ∈ items.map Prod.fst, f ∉ seen) ∧ ∀ f ∈ items.map Prod.fst, f ∈ names fs) →
        ∃ f o ty e, fs.find f = some (o, ty) ∧ items.lookup f = some e ∧ denote env ty e = none
  | [], seen, mem, blk, _, hb, _ => by
    rw [fillNamed]
    exact ⟨blk.words, .refl _ _, hb, rfl, ⟨by simp, by simp, by simp⟩, fun f o ty _ => ⟨fun e h => by simp at h, fun _ => rfl⟩⟩
  | (f, e) :: items, seen, mem, blk, hc, hb, hr => by
    have hbl := getElem?_lt hb
    rw [fillNamed]
    by_cases hs : f ∈ seen
    · rw [if_pos hs]
      rintro ⟨_, h, _⟩
      exact absurd hs (h f (by simp))
    rw [if_neg hs]
    have h := hone f e mem blk hc hb hr
    rw [FieldOutcome.eq_def] at h
    simp only [bind, Except.bind]
    cases h1 : one f e mem with
    | error er =>
      rw [h1] at h
      rintro ⟨_, _, h'⟩
      obtain ⟨o, ty, hf⟩ := find_names.mp (h' f (by simp))
      exact ⟨f, o, ty, e, hf, by simp, h o ty hf⟩
    | ok mem₁ =>
      rw [h1] at h
      obtain ⟨o, ty, v, ws₁, hf, hd, hk, hb₁, hl₁, ho₁, hr₁⟩ := h
      have ih := fillNamed_spec hq hone items (f :: seen) mem₁ _ (hc.keep hk fun i hi he => hq (he ▸ hi)) hb₁ (by show _ ≤ ws₁.length; omega)
      simp only
      have lk : ∀ g, g ≠ f → List.lookup g ((f, e) :: items) = List.lookup g items := fun g hg => by
        rw [List.lookup_cons, beq_eq_false_iff_ne.mpr hg]
      cases h3 : fillNamed one (f :: seen) items mem₁ with
      | error er =>
        rw [h3] at ih
        rintro ⟨hn, hsn, hm⟩
        simp only [List.map_cons, List.nodup_cons] at hn
        obtain ⟨g, o', ty', e', h4, h5, h6⟩ := ih ⟨hn.2, fun g hg hgs => by
          rcases List.mem_cons.mp hgs with rfl | hgs
          · exact hn.1 hg
          · exact hsn g (by simp [hg]) hgs, fun g hg => hm g (by simp [hg])⟩
        refine ⟨g, o', ty', e', h4, ?_, h6⟩
        rw [lk g, h5]
        rintro rfl
        exact hn.1 (List.mem_map.mpr ⟨_, lookup_mem h5, rfl⟩)
      | ok mem' =>
        rw [h3] at ih
        obtain ⟨ws', hk', hb', hl', ⟨hn, hsn, hm⟩, hrep⟩ := ih
        have hfn : f ∉ items.map Prod.fst := fun h => hsn f h (by simp)
        refine ⟨ws', hk.trans hk', hb', hl'.trans hl₁, ⟨?_, ?_, ?_⟩, fun g o' ty' hg => ?_⟩
        · simp only [List.map_cons, List.nodup_cons]
          exact ⟨hfn, hn⟩
        · intro g hg
          rcases List.mem_cons.mp hg with rfl | hg
          · exact hs
          · exact fun h => hsn g hg (by simp [h])
        · intro g hg
          rcases List.mem_cons.mp hg with rfl | hg
          · exact find_names.mpr ⟨_, _, hf⟩
          · exact hm g hg
        · by_cases hgf : g = f
          · subst hgf
            rw [hf] at hg
            cases hg
            have hnone : List.lookup g items = none := by
              rw [List.lookup_eq_none_iff]
              intro p hp
              rw [bne_iff_ne]
              rintro rfl
              exact hfn (List.mem_map_of_mem hp)
            have hsl := (hrep g _ _ hf).2 hnone
            refine ⟨fun e' he => ?_, fun h => by simp at h⟩
            simp only [List.lookup_cons, beq_self_eq_true, Option.some.injEq] at he
            subst he
            refine ⟨v, hd, ?_⟩
            rw [hsl]
            rw [Nat.zero_add] at hr₁
            exact hr₁.later hbl hq hk'
          · rw [lk g hgf]
            refine ⟨fun e' he => ?_, fun he => ?_⟩
            · obtain ⟨v', hv', hr'⟩ := (hrep g o' ty' hg).1 e' he
              exact ⟨v', hv', hr'.earlier hk.length⟩
            · rw [(hrep g o' ty' hg).2 he]
              refine slice_congr fun j hj hj' => ho₁ j ?_
              have := find_disjoint hgf hg hf
              omega

/-- The values of the fields of a literal with names. -/
theorem named_fields {P Q : Nat → Prop} {mem : Mem} {items : List (String × Expr)} {ws' : List Word} :
    ∀ {fs : Fields} {off : Nat}, WFFields fs →
    (∀ f o ty, fs.find f = some (o, ty) →
      (∀ e, items.lookup f = some e → ∃ v, denote env ty e = some v ∧ Rep P Q mem ty (slice ws' (off + o) ty.size) v) ∧
      (items.lookup f = none → Rep P Q mem ty (slice ws' (off + o) ty.size) (zero ty))) →
    ∃ vs, denoteNamed env fs items = some vs ∧ RepFields P Q mem fs ws' off vs
  | .nil, _, _, _ => ⟨[], by simp only [denoteNamed], rfl⟩
  | .cons name ty rest, off, hwf, h => by
    obtain ⟨vs, h1, h2⟩ := named_fields (fs := rest) (off := off + ty.size) hwf.2.2 fun f o t hf => by
      have hne : f ≠ name := by
        rintro rfl
        exact hwf.1 (find_names.mpr ⟨_, _, hf⟩)
      have := h f (ty.size + o) t (by rw [Fields.find, if_neg hne, hf]; rfl)
      rw [← Nat.add_assoc] at this
      exact this
    have h0 := h name 0 ty (by rw [Fields.find, if_pos rfl])
    rw [Nat.add_zero] at h0
    cases hl : items.lookup name with
    | none => exact ⟨zero ty :: vs, by simp only [denoteNamed, hl, h1]; rfl, _, _, rfl, h0.2 hl, h2⟩
    | some e =>
      obtain ⟨v, hv, hr⟩ := h0.1 e hl
      exact ⟨v :: vs, by simp only [denoteNamed, hl, h1, hv]; rfl, _, _, rfl, hr, h2⟩

theorem named_none {items : List (String × Expr)} : ∀ {fs : Fields} {f : String} {o : Nat} {ty : Ty} {e : Expr},
    fs.find f = some (o, ty) → items.lookup f = some e → denote env ty e = none → denoteNamed env fs items = none
  | .nil, _, _, _, _, h, _, _ => by cases h
  | .cons name ty rest, f, o, t, e, hf, hl, hd => by
    rw [Fields.find] at hf
    by_cases h : f = name
    · rw [if_pos h] at hf
      cases hf
      subst h
      simp only [denoteNamed, hl, hd]
      rfl
    · rw [if_neg h] at hf
      cases hr : rest.find f with
      | none => rw [hr] at hf; cases hf
      | some p =>
        rw [hr] at hf
        cases hf
        simp only [denoteNamed, named_none hr hl hd]
        cases items.lookup name with
        | none => rfl
        | some e' => cases hd' : denote env ty e' <;> simp

theorem mapM_length {α β : Type} {f : α → Option β} : ∀ {l : List α} {r : List β}, l.mapM f = some r → r.length = l.length
  | [], r, h => by
    simp at h
    subst h
    rfl
  | a :: l, r, h => by
    rw [List.mapM_cons] at h
    cases ha : f a with
    | none => rw [ha] at h; cases h
    | some b =>
      cases hl : l.mapM f with
      | none => rw [ha, hl] at h; cases h
      | some bs =>
        rw [ha, hl] at h
        cases h
        simp [mapM_length hl]

/-! ## Strings -/

theorem str_good (mem : Mem) (s : List Nat) (hs : ∀ c ∈ s, c ≤ 255) : Good Q mem (storageAddStr mem s).1 .str (storageAddStr mem s).2 (.text s) := by
  refine ⟨.append _ _ _, ⟨s, rfl, hs, .inr ⟨mem.length, rfl, .inr (Nat.le_refl _), ?_⟩⟩, (fun h => (nomatch h)), fun _ => ⟨_, rfl⟩, (fun h => (nomatch h))⟩
  simp [storageAddStr, textBlock]

theorem char_good (mem : Mem) (c : Nat) (hc : c ≤ 255) : Good Q mem (charToStr mem c).1 .str (charToStr mem c).2 (asText c) := by
  refine str_good mem _ fun d hd => ?_
  split at hd
  · simp at hd
  · simp at hd
    omega

/-- A string as an array of characters. -/
theorem strToChars_good {mem mem₁ : Mem} {b : Nat} {s : List Nat} (hk : Keep None' mem mem₁) (hb : mem₁[b]? = some (textBlock s))
    (hs : ∀ c ∈ s, c ≤ 255) (hq : ∀ i, Q i → i < mem.length) :
    Good Q mem (strToChars mem₁ (.ptr b 0)).1 (.dyn .char) (strToChars mem₁ (.ptr b 0)).2 (.list (s.map fun (c : Nat) => .num c)) := by
  have hp : peek mem₁ b 0 s.length = s.map (fun (c : Nat) => Word.int c) := by
    rw [peek_some hb]
    show List.take _ (List.drop 0 (s.map _ ++ _)) = _
    rw [List.drop_zero, List.take_left' (by simp)]
  have := dyn_rep (Q := Q) (base := .char) (vs := s.map fun (c : Nat) => .num c) (ws := s.map (fun (c : Nat) => Word.int c)) hk
    (by simp [Ty.size]) (fun i x hi => by
      rw [List.getElem?_map] at hi
      cases hc : s[i]? with
      | none => rw [hc] at hi; cases hi
      | some c =>
        rw [hc] at hi
        cases hi
        refine ⟨c, ?_, rfl, by omega, by have := hs c (List.mem_of_getElem? hc); omega⟩
        refine List.ext_getElem? fun j => ?_
        rw [slice_get]
        cases j with
        | zero => simp [Ty.size, hc]
        | succ j => simp [Ty.size]) hq
  simp only [strToChars, hb]
  have hl : (textBlock s).len = s.length := rfl
  rw [hl, hp]
  rw [List.length_map] at this
  exact this

/-! ## All expressions -/

theorem useConst_spec {mem : Mem} (hc : ConstsOK Q mem consts env) (ty : Ty) (i : Nat) :
    Outcome Q mem ty (useConst consts ty i mem) (match env[i]? with | some (c, v) => denoteConst ty c v | none => none) := by
  rw [useConst.eq_def]
  cases h : consts[i]? with
  | none =>
    have : env[i]? = none := by
      rw [List.getElem?_eq_none_iff, ← hc.length]
      exact List.getElem?_eq_none_iff.mp h
    simp only [this]
    rfl
  | some p =>
    obtain ⟨c, w⟩ := p
    obtain ⟨v, hv, hr, ht⟩ := hc.rep i c w h
    simp only [hv]
    have kt : ∀ {ws : List Word} {v : Val}, Rep None' Q mem c.ty ws v → Rep (New mem) (Texts Q mem) mem c.ty ws v := fun h =>
      h.move (fun _ _ hf => hf.elim) fun _ _ hq => ⟨.inl hq, rfl⟩
    cases c with
    | int k' =>
      obtain ⟨n, hw, hn, h1, h2⟩ := hr
      cases hw
      subst hn
      cases ty with
      | int k =>
        simp only [denoteConst, convInt, asInt]
        by_cases hk : n < k.min ∨ n > k.max
        · rw [if_pos hk, if_neg (by omega)]
          rfl
        · rw [if_neg hk, if_pos (by omega)]
          exact ⟨_, rfl, .refl _ _, ⟨n, rfl, rfl, by omega, by omega⟩, (fun h => (nomatch h)), (fun h => (nomatch h)), (fun h => (nomatch h))⟩
      | dyn base => cases base <;> exact rfl
      | _ => exact rfl
    | char =>
      obtain ⟨n, hw, hn, h1, h2⟩ := hr
      cases hw
      subst hn
      cases ty with
      | char => exact ⟨_, rfl, .refl _ _, ⟨n, rfl, rfl, h1, h2⟩, (fun h => (nomatch h)), (fun h => (nomatch h)), (fun h => (nomatch h))⟩
      | str => exact ⟨_, rfl, char_good mem n.toNat (by omega)⟩
      | dyn base => cases base <;> exact rfl
      | _ => exact rfl
    | str =>
      obtain ⟨b, rfl⟩ := ht rfl
      cases ty with
      | str => exact ⟨_, rfl, .refl _ _, kt hr, (fun h => (nomatch h)), fun _ => ⟨_, rfl⟩, (fun h => (nomatch h))⟩
      | dyn base =>
        obtain ⟨s, rfl, hs, ⟨hw, _⟩ | ⟨b', hw, hqb, hm⟩⟩ := hr
        · cases hw
        · cases hw
          cases base with
          | char => exact ⟨_, rfl, strToChars_good (.refl _ _) hm hs hc.inside⟩
          | _ => exact rfl
      | _ => exact rfl

theorem const_spec {mem : Mem} (hc : ConstsOK Q mem consts env) (ty : Ty) (i : Nat) :
    Outcome Q mem ty (eval consts ty (.const i) mem) (denote env ty (.const i)) := by
  have h := useConst_spec hc ty i
  have h1 : eval consts ty (.const i) mem = useConst consts ty i mem := by cases ty <;> simp only [eval]
  have h2 : denote env ty (.const i) = (match env[i]? with | some (c, v) => denoteConst ty c v | none => none) := by
    cases ty <;> simp only [denote] <;> split <;> simp_all
  rw [h1, h2]
  exact h

mutual

/-- Constant expressions have their values, in new blocks, or are refused. -/
theorem eval_spec : ∀ (ty : Ty), WF ty → ∀ (e : Expr) (mem : Mem), ConstsOK Q mem consts env → Outcome Q mem ty (eval consts ty e mem) (denote env ty e)
  | .int k, _, e, mem, hc => by
    cases e with
    | num v =>
      simp only [eval, denote, convInt, asInt]
      by_cases hk : v < k.min ∨ v > k.max
      · rw [if_pos hk, if_neg (by omega)]
        rfl
      · rw [if_neg hk, if_pos (by omega)]
        exact ⟨_, rfl, .refl _ _, ⟨v, rfl, rfl, by omega, by omega⟩, (fun h => (nomatch h)), (fun h => (nomatch h)), (fun h => (nomatch h))⟩
    | const i => exact const_spec hc _ i
    | _ => simp only [eval, denote]; exact rfl
  | .char, _, e, mem, hc => by
    cases e with
    | chr c =>
      simp only [eval, denote]
      exact ⟨_, rfl, .refl _ _, ⟨_, rfl, rfl, by omega, by omega⟩, (fun h => (nomatch h)), (fun h => (nomatch h)), (fun h => (nomatch h))⟩
    | const i => exact const_spec hc _ i
    | _ => simp only [eval, denote]; exact rfl
  | .str, _, e, mem, hc => by
    cases e with
    | chr c =>
      simp only [eval, denote]
      exact ⟨_, rfl, char_good mem c (by omega)⟩
    | str s =>
      simp only [eval, denote]
      refine ⟨_, rfl, str_good mem _ fun c hc => ?_⟩
      obtain ⟨d, _, rfl⟩ := List.mem_map.mp hc
      omega
    | const i => exact const_spec hc _ i
    | _ => simp only [eval, denote]; exact rfl
  | .array n base, hw, e, mem, hc => by
    cases e with
    | comp items =>
      have hq : ¬ Q mem.length := fun h => Nat.lt_irrefl _ (hc.inside _ h)
      have hk : Keep None' mem (storageAdd mem (n * base.size)).1 := .append _ _ _
      have hf := fillItems_spec (ev := fun e mem => eval consts base e mem) (den := fun e => denote env base e)
        (fun e mem h => eval_spec base hw e mem h) mem.length hq items n 0 (storageAdd mem (n * base.size)).1 _ (hc.keep hk fun _ _ h => h)
        (storageAdd_get mem (n * base.size)) (by simp)
      simp only [eval, denote]
      show Outcome Q mem _ ((fillItems (fun e mem => eval consts base e mem) base mem.length n 0 items (storageAdd mem (n * base.size)).1).bind _) _
      cases hr : fillItems (fun e mem => eval consts base e mem) base mem.length n 0 items (storageAdd mem (n * base.size)).1 with
      | error er =>
        rw [hr] at hf
        show (if items.length = n then _ else none) = none
        rcases hf with hf | hf
        · rw [if_neg (by omega)]
        · rw [hf]
          split <;> rfl
      | ok mem' =>
        rw [hr] at hf
        obtain ⟨vs, ws', h1, h2, h3, h4, h5, _, h6⟩ := hf
        simp only [Except.bind]
        by_cases hl : items.length < n
        · rw [if_pos hl, if_neg (by omega)]
          rfl
        · rw [if_neg hl, if_pos (by omega), h1]
          have hvl : vs.length = n := by
            have := mapM_length h1
            omega
          have hln : (storageAdd mem (n * base.size)).1.length = mem.length + 1 := by simp [storageAdd]
          refine ⟨_, rfl, ⟨by have := h3.length; omega, fun i hi _ => ?_⟩, ⟨vs, rfl, hvl, ?_, fun i x hi => ?_⟩,
            fun _ => ⟨mem.length, rfl, Nat.le_refl _, by have := h3.length; omega⟩, (fun h => (nomatch h)), fun _ b hb => by cases hb; exact ⟨_, h4, rfl⟩⟩
          · rw [h3.same i (by omega) (by omega)]
            exact List.getElem?_append_left hi
          · show (peek mem' mem.length 0 (n * base.size)).length = _
            rw [peek_some h4, slice_length]
            show 0 + _ ≤ ws'.length
            rw [h5, List.length_replicate]
            omega
          · have hx := (h6 i x hi).earlier (mem := mem) (by omega)
            rw [Nat.zero_add] at hx
            show Rep _ _ _ _ (slice (peek mem' mem.length 0 (n * base.size)) _ _) _
            rw [peek_some h4]
            have : slice ws' 0 (n * base.size) = ws' := slice_all (by rw [h5, List.length_replicate])
            show Rep _ _ _ _ (slice (slice ws' 0 (n * base.size)) _ _) _
            rw [this]
            exact hx
    | const i => exact const_spec hc _ i
    | _ => simp only [eval, denote]; exact rfl
  | .dyn base, hw, e, mem, hc => by
    cases e with
    | comp items =>
      have hf := collect_spec (ev := fun e mem => eval consts base e mem) (den := fun e => denote env base e)
        (fun e mem h => eval_spec base hw e mem h) items mem hc
      simp only [eval, denote]
      show Outcome Q mem _ ((collect (fun e mem => eval consts base e mem) items mem).bind _) _
      cases hr : collect (fun e mem => eval consts base e mem) items mem with
      | error er =>
        rw [hr] at hf
        rw [hf]
        rfl
      | ok p =>
        obtain ⟨mem₁, ws⟩ := p
        rw [hr] at hf
        obtain ⟨vs, h1, h2, h3, h4⟩ := hf
        obtain ⟨mem', w, h5, h6⟩ := makeDynArray_spec h2 h3 h4 hc.inside
        show Outcome Q mem _ (makeDynArray base ws mem₁) _
        rw [h5, h1]
        exact ⟨_, rfl, h6⟩
    | str s =>
      cases base with
      | char =>
        simp only [eval, denote]
        have := strToChars_good (Q := Q) (mem := mem) (mem₁ := (storageAddStr mem (s.map Fin.val)).1) (b := mem.length) (s := s.map Fin.val) (.append _ _ _)
          (by simp [storageAddStr, textBlock]) (fun c hc => by
            obtain ⟨d, _, rfl⟩ := List.mem_map.mp hc
            omega) hc.inside
        rw [List.map_map] at this
        exact ⟨_, rfl, this⟩
      | _ => simp only [eval, denote]; exact rfl
    | const i => exact const_spec hc _ i
    | _ => simp only [eval, denote]; exact rfl
  | .struct fs, hw, e, mem, hc => by
    have hq : ¬ Q mem.length := fun h => Nat.lt_irrefl _ (hc.inside _ h)
    have hk : Keep None' mem (storageAdd mem fs.size).1 := .append _ _ _
    have hc' := hc.keep hk fun _ _ h => h
    have hln : (storageAdd mem fs.size).1.length = mem.length + 1 := by simp [storageAdd]
    have fin : ∀ {mem' : Mem} {ws' : List Word} {vs : List Val}, Keep (· = mem.length) (storageAdd mem fs.size).1 mem' →
        mem'[mem.length]? = some ⟨.plain, 0, 0, ws'⟩ → ws'.length = fs.size →
        RepFields (New mem) (Texts Q mem) mem' fs ws' 0 vs → Good Q mem mem' (.struct fs) (.ptr mem.length 0) (.list vs) := by
      intro mem' ws' vs h3 h4 h5 h6
      refine ⟨⟨by have := h3.length; omega, fun i hi _ => ?_⟩, ⟨vs, rfl, ?_, ?_⟩, fun _ => ⟨_, rfl, Nat.le_refl _, by have := h3.length; omega⟩,
        (fun h => (nomatch h)), fun _ b hb => by cases hb; exact ⟨_, h4, rfl⟩⟩
      · rw [h3.same i (by omega) (by omega)]
        exact List.getElem?_append_left hi
      · show (peek mem' mem.length 0 fs.size).length = _
        rw [peek_some h4, slice_length]
        show 0 + _ ≤ ws'.length
        omega
      · show RepFields _ _ _ _ (peek mem' mem.length 0 fs.size) _ _
        rw [peek_some h4]
        show RepFields _ _ _ _ (slice ws' 0 fs.size) _ _
        rw [slice_all h5]
        exact h6
    cases e with
    | comp items =>
      simp only [eval, denote]
      by_cases h0 : items = []
      · rw [if_pos h0, if_pos h0]
        refine ⟨_, rfl, fin (ws' := List.replicate fs.size (.int 0)) (.refl _ _) (storageAdd_get ..) (by simp) ?_⟩
        exact RepFields.zero _ _ _ fs _ 0 (by omega)
      · rw [if_neg h0, if_neg h0]
        have hf := evalFields_spec fs hw mem.length hq items 0 (storageAdd mem fs.size).1 _ hc' (storageAdd_get mem fs.size) (by simp)
        show Outcome Q mem _ ((evalFields consts fs mem.length 0 items (storageAdd mem fs.size).1).bind _) _
        cases hr : evalFields consts fs mem.length 0 items (storageAdd mem fs.size).1 with
        | error er =>
          rw [hr] at hf
          rw [hf]
          rfl
        | ok mem' =>
          rw [hr] at hf
          obtain ⟨vs, ws', h1, h2, h3, h4, _, h5⟩ := hf
          rw [h1]
          refine ⟨_, rfl, fin h2 h3 (by rw [h4]; simp) ?_⟩
          exact h5.move (fun _ _ hi => ⟨Nat.le_trans hk.length hi, rfl⟩) fun _ _ hi => ⟨hi.imp id (Nat.le_trans hk.length), rfl⟩
    | named items =>
      simp only [eval, denote]
      have hf := fillNamed_spec (fs := fs) (b := mem.length) hq (one := fun f e mem' => evalField consts fs mem.length 0 f e mem')
        (fun f e m blk h1 h2 h3 => evalField_spec fs hw mem.length hq f e 0 m blk h1 h2 (by omega)) items [] (storageAdd mem fs.size).1 _ hc'
        (storageAdd_get mem fs.size) (by simp)
      show Outcome Q mem _ ((fillNamed (fun f e mem' => evalField consts fs mem.length 0 f e mem') [] items (storageAdd mem fs.size).1).bind _) _
      cases hr : fillNamed (fun f e mem' => evalField consts fs mem.length 0 f e mem') [] items (storageAdd mem fs.size).1 with
      | error er =>
        rw [hr] at hf
        show (if _ then _ else none) = none
        split
        · rename_i hcond
          obtain ⟨f, o, ty, e, h1, h2, h3⟩ := hf ⟨hcond.1, fun _ _ h => by simp at h, hcond.2⟩
          rw [named_none h1 h2 h3]
          rfl
        · rfl
      | ok mem' =>
        rw [hr] at hf
        obtain ⟨ws', h2, h3, h4, ⟨h5, _, h6⟩, h7⟩ := hf
        rw [if_pos ⟨h5, h6⟩]
        obtain ⟨vs, h8, h9⟩ := named_fields (env := env) (P := New mem) (Q := Texts Q mem) (mem := mem') (items := items) (ws' := ws') (fs := fs) (off := 0) hw
          fun f o ty hfd => by
            obtain ⟨ha, hb⟩ := h7 f o ty hfd
            rw [Nat.zero_add]
            refine ⟨fun e he => ?_, fun he => ?_⟩
            · obtain ⟨v, hv, hr'⟩ := ha e he
              exact ⟨v, hv, hr'.earlier hk.length⟩
            · rw [hb he, slice_replicate (find_room hfd)]
              exact Rep.zero _ _ _ ty
        rw [h8]
        exact ⟨_, rfl, fin h2 h3 (by rw [h4]; simp) h9⟩
    | const i => exact const_spec hc _ i
    | _ => simp only [eval, denote]; exact rfl

theorem evalFields_spec : ∀ (fs : Fields), WFFields fs → ∀ (b : Nat), ¬ Q b → ∀ (es : List Expr) (off : Nat) (mem : Mem) (blk : Block),
    ConstsOK Q mem consts env → mem[b]? = some blk → off + fs.size ≤ blk.words.length →
    match evalFields consts fs b off es mem with
    | .ok mem' => ∃ vs ws', denoteFields env fs es = some vs ∧ Keep (· = b) mem mem' ∧ mem'[b]? = some { blk with words := ws' } ∧
        ws'.length = blk.words.length ∧ (∀ j, j < off → ws'[j]? = blk.words[j]?) ∧ RepFields (New mem) (Texts Q mem) mem' fs ws' off vs
    | .error _ => denoteFields env fs es = none
  | .nil, _, b, hq, [], off, mem, blk, hc, hb, hr => by
    simp only [evalFields, denoteFields]
    exact ⟨[], blk.words, rfl, .refl _ _, hb, rfl, fun _ _ => rfl, rfl⟩
  | .nil, _, b, hq, _ :: _, off, mem, blk, hc, hb, hr => by
    simp only [evalFields, denoteFields]
  | .cons _ _ _, _, b, hq, [], off, mem, blk, hc, hb, hr => by
    simp only [evalFields, denoteFields]
  | .cons name ty rest, hw, b, hq, e :: es, off, mem, blk, hc, hb, hr => by
    have hsz : (Fields.cons name ty rest).size = ty.size + rest.size := rfl
    have hbl := getElem?_lt hb
    have h := eval_spec ty hw.2.1 e mem hc
    rw [Outcome.eq_def] at h
    simp only [evalFields, denoteFields, bind, Except.bind]
    cases h1 : eval consts ty e mem with
    | error er =>
      rw [h1] at h
      simp only [h, Option.bind_none]
    | ok p =>
      obtain ⟨mem₁, w⟩ := p
      rw [h1] at h
      obtain ⟨v, hv, hg⟩ := h
      obtain ⟨mem₂, ws₂, ha, hk, hb₂, hl₂, ho₂, hr₂⟩ := store_spec (off := off) hb hq hg (by omega)
      have ih := evalFields_spec rest hw.2.2 b hq es (off + ty.size) mem₂ _ (hc.keep hk fun i hi he => hq (he ▸ hi)) hb₂ (by show _ ≤ ws₂.length; omega)
      simp only [ha, hv, Option.bind_some]
      cases h3 : evalFields consts rest b (off + ty.size) es mem₂ with
      | error er =>
        rw [h3] at ih
        simp only [ih, Option.bind_none]
      | ok mem' =>
        rw [h3] at ih
        obtain ⟨vs, ws', hvs, hk', hb', hl', ho', hr'⟩ := ih
        refine ⟨v :: vs, ws', by rw [hvs]; rfl, hk.trans hk', hb', hl'.trans hl₂, fun j hj => ?_, v, vs, rfl, ?_, ?_⟩
        · rw [ho' j (by omega)]
          exact ho₂ j (.inl hj)
        · rw [slice_congr (ws := ws₂) fun j _ hj => ho' j hj]
          exact hr₂.later hbl hq hk'
        · exact hr'.move (fun _ _ hi => ⟨Nat.le_trans hk.length hi, rfl⟩) fun _ _ hi => ⟨hi.imp id (Nat.le_trans hk.length), rfl⟩

theorem evalField_spec : ∀ (fs : Fields), WFFields fs → ∀ (b : Nat), ¬ Q b → ∀ (f : String) (e : Expr) (off : Nat) (mem : Mem) (blk : Block),
    ConstsOK Q mem consts env → mem[b]? = some blk → off + fs.size ≤ blk.words.length →
    FieldOutcome Q env fs b off f e mem blk (evalField consts fs b off f e mem)
  | .nil, _, b, hq, f, e, off, mem, blk, hc, hb, hr => by
    simp only [evalField]
    intro o ty h
    cases h
  | .cons name ty rest, hw, b, hq, f, e, off, mem, blk, hc, hb, hr => by
    have hsz : (Fields.cons name ty rest).size = ty.size + rest.size := rfl
    simp only [evalField]
    by_cases hf : f = name
    · rw [if_pos hf]
      have h := eval_spec ty hw.2.1 e mem hc
      rw [Outcome.eq_def] at h
      simp only [bind, Except.bind]
      cases h1 : eval consts ty e mem with
      | error er =>
        rw [h1] at h
        intro o ty' h'
        rw [Fields.find, if_pos hf] at h'
        cases h'
        exact h
      | ok p =>
        obtain ⟨mem₁, w⟩ := p
        rw [h1] at h
        obtain ⟨v, hv, hg⟩ := h
        obtain ⟨mem₂, ws₂, ha, hk, hb₂, hl₂, ho₂, hr₂⟩ := store_spec (off := off) hb hq hg (by omega)
        simp only [ha]
        exact ⟨0, ty, v, ws₂, by rw [Fields.find, if_pos hf], hv, hk, hb₂, hl₂, ho₂, hr₂⟩
    · rw [if_neg hf]
      have ih := evalField_spec rest hw.2.2 b hq f e (off + ty.size) mem blk hc hb (by omega)
      rw [FieldOutcome.eq_def] at ih ⊢
      cases h1 : evalField consts rest b (off + ty.size) f e mem with
      | error er =>
        rw [h1] at ih
        intro o ty' h'
        rw [Fields.find, if_neg hf] at h'
        cases hr' : rest.find f with
        | none => rw [hr'] at h'; cases h'
        | some p =>
          rw [hr'] at h'
          cases h'
          exact ih _ _ hr'
      | ok mem' =>
        rw [h1] at ih
        obtain ⟨o, ty', v, ws', h2, h3⟩ := ih
        refine ⟨ty.size + o, ty', v, ws', by rw [Fields.find, if_neg hf, h2]; rfl, ?_⟩
        rw [← Nat.add_assoc]
        exact h3

end

end Umka.Static
