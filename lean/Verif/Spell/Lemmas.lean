import Verif.Spell.Spec
/-! # Spelling of types in messages: lemmas -/

namespace Umka.Spell

open Spec

/-- As much of a text as fits into the buffer. -/
def cut (t : Text) : Text := t.take 255

/-- The same as far as the buffer goes. -/
def Same (a b : Text) : Prop := a.take 255 = b.take 255

theorem same_length {a b : Text} (h : Same a b) : min a.length 255 = min b.length 255 := by
  have := congrArg List.length h
  rw [List.length_take, List.length_take] at this
  omega

theorem same_take {a b : Text} (h : Same a b) {k : Nat} (hk : k ≤ 255) : a.take k = b.take k := by
  have := congrArg (List.take k) h
  rw [List.take_take, List.take_take, Nat.min_eq_left hk] at this
  exact this

theorem same_refl (a : Text) : Same a a := rfl

theorem same_cut (a : Text) : Same (cut a) a := by
  unfold Same cut
  rw [List.take_take, Nat.min_self]

theorem same_append {a b a' b' : Text} (h : Same a b) (h' : Same a' b') : Same (a ++ a') (b ++ b') := by
  have hl := same_length h
  unfold Same
  rw [List.take_append, List.take_append, h]
  congr 1
  by_cases hb : b.length < 255
  · have : a.length = b.length := by omega
    rw [this]
    exact same_take h' (by omega)
  · rw [show 255 - a.length = 0 by omega, show 255 - b.length = 0 by omega, List.take_zero, List.take_zero]

/-- The buffer shows a text. -/
structure Shows (st : St) (t : Text) : Prop where
  text : st.1 = t.take 255
  len : min st.2 255 = min t.length 255

theorem put_shows {st : St} {a t t' : Text} (h : Shows st a) (ht : Same t' t) : Shows (put st t') (a ++ t) := by
  have hl := h.len
  have hs := same_length ht
  refine ⟨?_, by rw [put, List.length_append]; dsimp only; omega⟩
  rw [put, size, h.text]
  dsimp only
  rw [List.take_append]
  by_cases h1 : a.length < 255
  · have h2 : st.2 = a.length := by omega
    rw [if_neg (by omega), h2, List.take_take, Nat.min_eq_left (by omega), List.take_length, List.take_of_length_le (i := 255) (l := a) (by omega)]
    congr 1
    rw [show 256 - a.length - 1 = 255 - a.length by omega]
    exact same_take ht (by omega)
  · rw [show 255 - a.length = 0 by omega, List.take_zero, List.append_nil]
    split
    · rfl
    · rw [List.take_take, show 256 - st.2 - 1 = 0 by omega, List.take_zero, List.append_nil, Nat.min_eq_right (by omega)]

theorem first_shows {t t' : Text} (ht : Same t' t) : Shows (put ([], 0) t') t := by
  have : Shows (([], 0) : St) [] := ⟨rfl, rfl⟩
  exact put_shows this ht

/-- `strncat` after a counted text. -/
theorem strncat_shows {st : St} {a t t' : Text} (h : Shows st a) (ht : Same t' t) : strncat st.1 t' (size - st.2 - 1) = some (cut (a ++ t)) := by
  have hl := h.len
  have he : st.1 ++ t'.take (size - st.2 - 1) = cut (a ++ t) := by
    rw [h.text, cut, List.take_append, size]
    congr 1
    by_cases h1 : a.length < 255
    · rw [show 256 - st.2 - 1 = 255 - a.length by omega]
      exact same_take ht (by omega)
    · rw [show 256 - st.2 - 1 = 0 by omega, show 255 - a.length = 0 by omega, List.take_zero, List.take_zero]
  rw [strncat, he, if_neg]
  rw [cut, List.length_take, size]
  omega

theorem prefix_length (k : Prefix) : 1 ≤ k.text.length ∧ k.text.length ≤ 6 := by cases k <;> decide

/-- `strncat` after the uncounted spelling of a kind. -/
theorem strncat_prefix (k : Prefix) (t : Text) :
    strncat (put ([], 0) k.text).1 (cut t) (size - 0 - 1) = if (k.text ++ t).length < 256 then some (cut (k.text ++ t)) else none := by
  have hk := prefix_length k
  have h1 : (put ([], 0) k.text).1 = k.text := by
    rw [(first_shows (same_refl k.text)).text, List.take_of_length_le (by omega)]
  have h2 : (cut t).take (size - 0 - 1) = cut t := by
    unfold cut size
    rw [List.take_take, Nat.min_self]
  rw [h1, strncat, h2, List.length_append, List.length_append, cut, List.length_take, size]
  by_cases h : k.text.length + t.length < 256
  · rw [if_pos h, if_neg (by omega), cut, List.take_of_length_le (i := 255) (l := t) (by omega), List.take_of_length_le (by rw [List.length_append]; omega)]
  · rw [if_neg h, if_pos (by omega)]

/-- Defined and equal to a text, or undefined. -/
def Gives (r : Option Text) (p : Prop) (t : Text) : Prop := (p → r = some (cut t)) ∧ (¬ p → r = none)

theorem gives_item {d : Nat} {t : T} (h : Gives (spelling (d - 1) t) (Fits (d - 1) t) (full (d - 1) t)) :
    Gives (if d > 0 then spelling (d - 1) t else some "...".toList) (d > 0 → Fits (d - 1) t) (if d > 0 then full (d - 1) t else "...".toList) := by
  by_cases hd : d > 0
  · rw [if_pos hd, if_pos hd]
    exact ⟨fun hp => h.1 (hp hd), fun hp => h.2 fun hf => hp fun _ => hf⟩
  · rw [if_neg hd, if_neg hd]
    exact ⟨fun _ => rfl, fun hp => absurd (fun h => absurd h hd) hp⟩

theorem gives_bind {r : Option Text} {p q : Prop} {t u : Text} {f : Text → Option Text} (h : Gives r p t) (hf : Gives (f (cut t)) q u) :
    Gives (r >>= f) (p ∧ q) u := by
  constructor
  · rintro ⟨hp, hq⟩
    rw [h.1 hp]
    exact hf.1 hq
  · intro hn
    by_cases hp : p
    · rw [h.1 hp]
      exact hf.2 fun hq => hn ⟨hp, hq⟩
    · rw [h.2 hp]; rfl

theorem gives_true {r : Option Text} {p : Prop} {t u : Text} {f : Text → Option Text} (h : Gives r p t) (hf : f (cut t) = some (cut u)) : Gives (r >>= f) p u :=
  ⟨fun hp => by rw [h.1 hp]; exact hf, fun hp => by rw [h.2 hp]; rfl⟩

/-- What a loop over types does. -/
def GivesSt (r : Option St) (p : Prop) (t : Text) : Prop := (p → ∃ st, r = some st ∧ Shows st t) ∧ (¬ p → r = none)

/-- The rest of a list of parameters. -/
def more (first : Bool) : List Text → Text
  | [] => []
  | t :: ts => (if first then [] else ", ".toList) ++ t ++ more false ts

theorem more_sep (ts : List Text) : more true ts = sep ", ".toList ts := by
  have hf : ∀ t ts, t ++ more false ts = sep ", ".toList (t :: ts) := by
    intro t ts
    induction ts generalizing t with
    | nil => rw [more, sep, List.append_nil]
    | cons u ts ih =>
      rw [more, sep, if_neg (by decide), ← ih u]
      · simp only [List.append_assoc]
      · exact fun h => (nomatch h)
  cases ts with
  | nil => rfl
  | cons t ts => rw [more, if_pos rfl, List.nil_append, hf]

mutual

theorem spelling_gives (d : Nat) : ∀ t : T, Gives (spelling d t) (Fits d t) (full d t)
  | .named name => by
    rw [spelling, Fits, full]
    exact ⟨fun _ => congrArg some (first_shows (same_refl name)).text, fun h => absurd trivial h⟩
  | .array n item => by
    rw [spelling, Fits, full]
    exact gives_true (gives_item (spelling_gives (d - 1) item)) (strncat_shows (first_shows (same_refl _)) (same_cut _))
  | .enum kind => by
    rw [spelling, Fits, full]
    exact ⟨fun _ => congrArg some (first_shows (same_refl _)).text, fun h => absurd trivial h⟩
  | .map key item => by
    rw [spelling, Fits, full]
    refine gives_bind (spelling_gives (d - 1) key) (gives_true (gives_item (spelling_gives (d - 1) item)) ?_)
    exact strncat_shows (first_shows (same_append (same_append (same_refl _) (same_cut _)) (same_refl _))) (same_cut _)
  | .list fields => by
    rw [spelling, Fits, full]
    have h := fields_gives d fields (first_shows (same_refl "{ ".toList))
    constructor
    · intro hp
      obtain ⟨st, h1, h2⟩ := h.1 hp
      rw [h1]
      exact congrArg some (put_shows h2 (same_refl _)).text
    · intro hp
      rw [h.2 hp]; rfl
  | .fn method self params void result closure => by
    rw [spelling, Fits, full]
    have h1 : Gives (if method then spelling (d - 1) self else some []) (method = true → Fits (d - 1) self) (if method then full (d - 1) self else []) := by
      have := spelling_gives (d - 1) self
      cases method with
      | true => exact ⟨fun hp => this.1 (hp rfl), fun hp => this.2 fun hf => hp fun _ => hf⟩
      | false => exact ⟨fun _ => rfl, fun hp => absurd (fun h => (nomatch h)) hp⟩
    refine gives_bind h1 ?_
    have h2 : Shows (if method then put (put ([], 0) "fn (".toList) (cut (if method then full (d - 1) self else []) ++ ") (".toList) else put ([], 0) "fn (".toList)
        ("fn (".toList ++ (if method then full (d - 1) self ++ ") (".toList else [])) := by
      cases method with
      | true => exact put_shows (first_shows (same_refl _)) (same_append (same_cut _) (same_refl _))
      | false => exact List.append_nil _ ▸ first_shows (same_refl _)
    have h3 := params_gives d params true h2
    have h4 : Gives (if void then some [] else spelling (d - 1) result) (void = false → Fits (d - 1) result) (if void then [] else full (d - 1) result) := by
      have := spelling_gives (d - 1) result
      cases void with
      | false => exact ⟨fun hp => this.1 (hp rfl), fun hp => this.2 fun hf => hp fun _ => hf⟩
      | true => exact ⟨fun _ => rfl, fun hp => absurd (fun h => (nomatch h)) hp⟩
    constructor
    · rintro ⟨hp, hr⟩
      obtain ⟨st, e1, e2⟩ := h3.1 hp
      dsimp only
      rw [e1]
      have hb := h4.1 hr
      show ((if void then some [] else spelling (d - 1) result) >>= _) = _
      rw [hb]
      refine congrArg some ?_
      have e3 := put_shows e2 (same_refl ")".toList)
      rw [more_sep] at e3
      have e4 : Shows (if void then put st ")".toList else put (put st ")".toList) (": ".toList ++ cut (if void then [] else full (d - 1) result)))
          ("fn (".toList ++ (if method then full (d - 1) self ++ ") (".toList else []) ++ sep ", ".toList (all d params) ++ ")".toList ++
            (if void then [] else ": ".toList ++ full (d - 1) result)) := by
        cases void with
        | true => rw [if_pos rfl, if_pos rfl, List.append_nil]; exact e3
        | false => exact put_shows e3 (same_append (same_refl _) (same_cut _))
      cases closure with
      | true => exact (put_shows e4 (same_refl _)).text
      | false =>
        rw [show (if false = true then " |...|".toList else []) = ([] : Text) from rfl, List.append_nil]
        exact e4.text
    · intro hn
      by_cases hp : AllFit d params
      · obtain ⟨st, e1, e2⟩ := h3.1 hp
        dsimp only
        rw [e1]
        have hb := h4.2 fun hr => hn ⟨hp, hr⟩
        show ((if void then some [] else spelling (d - 1) result) >>= _) = _
        rw [hb]; rfl
      · dsimp only
        rw [h3.2 hp]; rfl
  | .pre kind base => by
    rw [spelling, Fits]
    have h := gives_item (spelling_gives (d - 1) base)
    have := strncat_prefix kind (if d > 0 then full (d - 1) base else "...".toList)
    have hg : Gives (strncat (put ([], 0) kind.text).1 (cut (if d > 0 then full (d - 1) base else "...".toList)) (size - 0 - 1))
        ((full d (.pre kind base)).length < 256) (full d (.pre kind base)) := by
      rw [this, full]
      exact ⟨fun hp => if_pos hp, fun hp => if_neg hp⟩
    have hb := gives_bind (f := fun it => strncat (put ([], 0) kind.text).1 it (size - 0 - 1)) h hg
    exact ⟨fun hp => hb.1 ⟨hp.2, hp.1⟩, fun hp => hb.2 fun hq => hp ⟨hq.2, hq.1⟩⟩
  | .other kind => by
    rw [spelling, Fits, full]
    exact ⟨fun _ => congrArg some (first_shows (same_refl kind)).text, fun h => absurd trivial h⟩

theorem fields_gives (d : Nat) : ∀ (ts : List T) {st : St} {a : Text}, Shows st a →
    GivesSt (spellFields d st ts) (AllFit d ts) (a ++ ((all d ts).map (· ++ " ".toList)).flatten)
  | [], st, a, h => by
    rw [spellFields, AllFit, all]
    exact ⟨fun _ => ⟨st, rfl, (List.append_nil a).symm ▸ h⟩, fun hn => absurd trivial hn⟩
  | t :: ts, st, a, h => by
    rw [spellFields, AllFit, all]
    have h1 := spelling_gives (d - 1) t
    have h2 := fields_gives d ts (put_shows h (same_append (same_cut (full (d - 1) t)) (same_refl " ".toList)))
    rw [List.map_cons, List.flatten_cons, ← List.append_assoc]
    constructor
    · rintro ⟨hp, hq⟩
      rw [h1.1 hp]
      exact h2.1 hq
    · intro hn
      by_cases hp : Fits (d - 1) t
      · rw [h1.1 hp]
        exact h2.2 fun hq => hn ⟨hp, hq⟩
      · rw [h1.2 hp]; rfl

theorem params_gives (d : Nat) : ∀ (ts : List T) (first : Bool) {st : St} {a : Text}, Shows st a →
    GivesSt (spellParams d first st ts) (AllFit d ts) (a ++ more first (all d ts))
  | [], first, st, a, h => by
    rw [spellParams, AllFit, all]
    exact ⟨fun _ => ⟨st, rfl, (List.append_nil a).symm ▸ h⟩, fun hn => absurd trivial hn⟩
  | t :: ts, first, st, a, h => by
    rw [spellParams, AllFit, all]
    have h1 := spelling_gives (d - 1) t
    have h0 : Shows (if first then st else put st ", ".toList) (a ++ if first then [] else ", ".toList) := by
      cases first with
      | true => exact (List.append_nil a).symm ▸ h
      | false => exact put_shows h (same_refl _)
    have h2 := params_gives d ts false (put_shows h0 (same_cut (full (d - 1) t)))
    rw [more]
    rw [← List.append_assoc, ← List.append_assoc]
    constructor
    · rintro ⟨hp, hq⟩
      rw [h1.1 hp]
      exact h2.1 hq
    · intro hn
      by_cases hp : Fits (d - 1) t
      · rw [h1.1 hp]
        exact h2.2 fun hq => hn ⟨hp, hq⟩
      · rw [h1.2 hp]; rfl

end

/-! ## Short spellings fit -/

theorem sep_length (s : Text) : ∀ (ts : List Text), ∀ t ∈ ts, t.length ≤ (sep s ts).length
  | [], _, h => nomatch h
  | [u], t, h => by rw [List.mem_singleton.mp h, sep]; exact Nat.le_refl _
  | u :: v :: ts, t, h => by
    rw [sep, List.length_append, List.length_append]
    · rcases List.mem_cons.mp h with rfl | h
      · omega
      · have := sep_length s (v :: ts) t h; omega
    · exact fun h => (nomatch h)

theorem flatten_length : ∀ (ts : List Text), ∀ t ∈ ts, t.length ≤ ((ts.map (· ++ " ".toList)).flatten).length
  | [], _, h => nomatch h
  | u :: ts, t, h => by
    rw [List.map_cons, List.flatten_cons, List.length_append, List.length_append]
    rcases List.mem_cons.mp h with rfl | h
    · omega
    · have := flatten_length ts t h; omega

mutual

theorem short_fits (d : Nat) : ∀ t : T, (full d t).length < 256 → Fits d t
  | .named _, _ => by rw [Fits]; trivial
  | .array n item, h => by
    rw [Fits]
    intro hd
    rw [full, if_pos hd, List.length_append] at h
    exact short_fits (d - 1) item (by omega)
  | .enum _, _ => by rw [Fits]; trivial
  | .map key item, h => by
    rw [Fits]
    rw [full, List.length_append, List.length_append, List.length_append] at h
    refine ⟨short_fits (d - 1) key (by omega), fun hd => ?_⟩
    rw [if_pos hd] at h
    exact short_fits (d - 1) item (by omega)
  | .list fields, h => by
    rw [Fits]
    rw [full, List.length_append, List.length_append] at h
    exact all_fit d fields fun t ht => by have := flatten_length _ t ht; omega
  | .fn method self params void result closure, h => by
    rw [Fits]
    rw [full] at h
    simp only [List.length_append] at h
    refine ⟨fun hm => ?_, all_fit d params fun t ht => by have := sep_length ", ".toList _ t ht; omega, fun hv => ?_⟩
    · rw [if_pos hm, List.length_append] at h
      exact short_fits (d - 1) self (by omega)
    · rw [if_neg (by rw [hv]; decide) (c := void = true), List.length_append] at h
      exact short_fits (d - 1) result (by omega)
  | .pre kind base, h => by
    rw [Fits]
    refine ⟨h, fun hd => ?_⟩
    rw [full, if_pos hd, List.length_append] at h
    exact short_fits (d - 1) base (by omega)
  | .other _, _ => by rw [Fits]; trivial

theorem all_fit (d : Nat) : ∀ ts : List T, (∀ t ∈ all d ts, t.length < 256) → AllFit d ts
  | [], _ => by rw [AllFit]; trivial
  | t :: ts, h => by
    rw [AllFit]
    rw [all] at h
    exact ⟨short_fits (d - 1) t (h _ (List.mem_cons_self ..)), all_fit d ts fun u hu => h u (List.mem_cons_of_mem _ hu)⟩

end

end Umka.Spell
