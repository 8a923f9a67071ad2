import Verif.TypeQuery.Spec
/-!
# TypeQuery: properties (C107)
-/

namespace Umka.TypeQuery.Props
open Umka.TypeQuery Umka.TypeQuery.Spec

theorem bind_ok {α β : Type} (a : α) (f : α → Res β) : (Except.ok a >>= f) = f a := rfl

theorem bind_eq_ok {α β : Type} {x : Res α} {f : α → Res β} {b : β} (h : (x >>= f) = .ok b) :
    ∃ a, x = .ok a ∧ f a = .ok b := by
  cases x with
  | error e => exact nomatch h
  | ok a => exact ⟨a, rfl, h⟩

theorem deref_eq {s : Store} {t : Nat} {r : Rec} (h : s[t]? = some r) : deref s t = .ok r := by
  unfold deref
  rw [h]

theorem deref_ok {s : Store} {t : Nat} {r : Rec} (h : deref s t = .ok r) : s[t]? = some r := by
  unfold deref at h
  split at h
  · rename_i e; cases h; exact e
  · exact nomatch h

/-- How a declared type is stored. -/
def Holds (s : Store) (t : Nat) : Decl → Prop
  | .ptr w b => s[t]? = some ⟨if w then .weakptr else .ptr, some b, []⟩
  | .array b => s[t]? = some ⟨.array, some b, []⟩
  | .dynarray b => s[t]? = some ⟨.dynarray, some b, []⟩
  | .map k v => ∃ n pk pv pn, s[t]? = some ⟨.map, some n, []⟩ ∧
      s[n]? = some ⟨.struct, none, [("#len", intType), ("#priority", intType), ("#key", pk), ("#data", pv),
        ("#left", pn), ("#right", pn)]⟩ ∧ s[pk]? = some ⟨.ptr, some k, []⟩ ∧ s[pv]? = some ⟨.ptr, some v, []⟩
  | .struct fs => s[t]? = some ⟨.struct, none, fs⟩ ∧ (fs.map Prod.fst).Nodup
  | .simple => s[t]? = some ⟨.simple, none, []⟩
  | .interface => s[t]? = some ⟨.interface, none, []⟩
  | .closure => s[t]? = some ⟨.closure, none, []⟩

theorem get_append {s : Store} {t : Nat} {r : Rec} (h : s[t]? = some r) (x : Store) : (s ++ x)[t]? = some r := by
  have := (List.getElem?_eq_some_iff.mp h).1
  rw [List.getElem?_append_left this, h]

theorem holds_append {s : Store} {t : Nat} {d : Decl} (h : Holds s t d) (x : Store) : Holds (s ++ x) t d := by
  cases d with
  | map k v =>
    obtain ⟨n, pk, pv, pn, h1, h2, h3, h4⟩ := h
    exact ⟨n, pk, pv, pn, get_append h1 x, get_append h2 x, get_append h3 x, get_append h4 x⟩
  | struct fs => exact ⟨get_append h.1 x, h.2⟩
  | _ => exact get_append h x

theorem deref_new (s x : Store) (i : Nat) (r : Rec) (h : x[i]? = some r) : deref (s ++ x) (s.length + i) = .ok r := by
  apply deref_eq
  rw [List.getElem?_append_right (by omega), Nat.add_sub_cancel_left, h]

theorem set_new (s x : Store) (i : Nat) (r : Rec) : (s ++ x).set (s.length + i) r = s ++ x.set i r := by
  rw [List.set_append_right _ _ (by omega), Nat.add_sub_cancel_left]

theorem setBase_new (s x : Store) (i base : Nat) (k : Kind) (b : Option Nat) (fs : List (String × Nat))
    (h : x[i]? = some ⟨k, b, fs⟩)
    (hk : k = .ptr ∨ k = .weakptr ∨ k = .array ∨ k = .dynarray ∨ k = .map) :
    typeSetBase (s ++ x) (s.length + i) base = .ok (s ++ x.set i ⟨k, some base, fs⟩) := by
  unfold typeSetBase
  rw [deref_new s x i _ h, bind_ok, if_pos hk, set_new]
  rfl

theorem addPtr_new (s x : Store) (w : Bool) (base : Nat) :
    typeAddPtrTo (s ++ x) w base =
      .ok (s ++ (x ++ [⟨if w then .weakptr else .ptr, some base, []⟩]), s.length + x.length) := by
  unfold typeAddPtrTo typeAdd
  dsimp only
  rw [List.append_assoc, List.length_append, setBase_new s _ x.length base (if w then .weakptr else .ptr) none []
    (by simp) (by cases w <;> simp)]
  rw [List.set_append_right _ _ (by omega), Nat.sub_self]
  rfl

theorem addField_new (s x : Store) (i ty : Nat) (name : String) (b : Option Nat) (fs : List (String × Nat)) (q : Rec)
    (h : x[i]? = some ⟨.struct, b, fs⟩) (hn : name ∉ fs.map Prod.fst) (hq : (s ++ x)[ty]? = some q)
    (h1 : q.kind ≠ .forward) (h2 : q.kind ≠ .void) :
    typeAddField (s ++ x) (s.length + i) ty name = .ok (s ++ x.set i ⟨.struct, b, fs ++ [(name, ty)]⟩) := by
  unfold typeAddField
  rw [deref_new s x i _ h, bind_ok]
  have hf : (typeFindField ⟨.struct, b, fs⟩ name).isSome = false := by
    unfold typeFindField
    rw [if_pos (.inl rfl)]
    simp only [Option.isSome_eq_false_iff, Option.isNone_iff_eq_none, List.find?_eq_none]
    intro f hf e
    exact hn (List.mem_map.mpr ⟨f, hf, by simpa using e⟩)
  rw [hf, if_neg (by simp), deref_eq hq, bind_ok, if_neg h1, if_neg h2, set_new]
  rfl

theorem addField_inv {s x : Store} {i ty : Nat} {name : String} {b : Option Nat} {fs : List (String × Nat)} {s' : Store}
    (h : x[i]? = some ⟨.struct, b, fs⟩) (hs : typeAddField (s ++ x) (s.length + i) ty name = .ok s') :
    name ∉ fs.map Prod.fst ∧ s' = s ++ x.set i ⟨.struct, b, fs ++ [(name, ty)]⟩ := by
  unfold typeAddField at hs
  rw [deref_new s x i _ h, bind_ok] at hs
  split at hs
  · exact nomatch hs
  · rename_i hf
    obtain ⟨q, _, hs⟩ := bind_eq_ok hs
    split at hs
    · exact nomatch hs
    · split at hs
      · exact nomatch hs
      · rw [set_new] at hs
        refine ⟨fun hm => hf ?_, (Except.ok.inj hs).symm⟩
        obtain ⟨f, hfm, rfl⟩ := List.mem_map.mp hm
        unfold typeFindField
        rw [if_pos (.inl rfl), List.find?_isSome]
        exact ⟨f, hfm, by simp⟩

theorem addFields_inv {s s' : Store} {b : Option Nat} (gs fs : List (String × Nat))
    (hd : (fs.map Prod.fst).Nodup)
    (hs : addFields (s ++ [⟨.struct, b, fs⟩]) s.length gs = .ok s') :
    s' = s ++ [⟨.struct, b, fs ++ gs⟩] ∧ ((fs ++ gs).map Prod.fst).Nodup := by
  induction gs generalizing fs with
  | nil => cases hs; simpa using hd
  | cons g gs ih =>
    obtain ⟨name, ty⟩ := g
    unfold addFields at hs
    obtain ⟨s1, h1, h2⟩ := bind_eq_ok hs
    obtain ⟨hn, rfl⟩ := addField_inv (x := [⟨.struct, b, fs⟩]) (i := 0) rfl h1
    have := ih (fs ++ [(name, ty)]) (by
      rw [List.map_append]
      exact List.nodup_append.mpr ⟨hd, by simp, by
        intro a ha c hc e
        simp at hc
        subst hc; subst e
        exact hn ha⟩) h2
    simpa using this

theorem addFields_ok {s : Store} {b : Option Nat} (gs fs : List (String × Nat))
    (hd : ((fs ++ gs).map Prod.fst).Nodup)
    (hg : ∀ g ∈ gs, ∃ q, s[g.2]? = some q ∧ q.kind ≠ .forward ∧ q.kind ≠ .void) :
    addFields (s ++ [⟨.struct, b, fs⟩]) s.length gs = .ok (s ++ [⟨.struct, b, fs ++ gs⟩]) := by
  induction gs generalizing fs with
  | nil => simp [addFields]
  | cons g gs ih =>
    obtain ⟨name, ty⟩ := g
    obtain ⟨q, hq, h1, h2⟩ := hg (name, ty) (by simp)
    unfold addFields
    have hn : name ∉ fs.map Prod.fst := by
      rw [List.map_append, List.nodup_append] at hd
      intro hm
      exact hd.2.2 name hm name (by simp) rfl
    rw [show s.length = s.length + 0 from rfl,
      addField_new s [⟨.struct, b, fs⟩] 0 ty name b fs q rfl hn (get_append hq _) h1 h2, bind_ok]
    have := ih (fs ++ [(name, ty)]) (by simpa using hd) (fun g hm => hg g (by simp [hm]))
    simpa using this

/-- A declaration only adds types, and stores the new one properly. -/
theorem declare_holds {s s' : Store} {d : Decl} {t : Nat} (hi : s[intType]? = some ⟨.simple, none, []⟩)
    (h : declare s d = .ok (s', t)) : ∃ x, s' = s ++ x ∧ Holds s' t d := by
  cases d with
  | ptr w b =>
    have e := addPtr_new s [] w b
    rw [List.append_nil] at e
    unfold declare at h
    dsimp only at h
    rw [e] at h
    cases h
    exact ⟨_, rfl, by simp [Holds]⟩
  | array b =>
    unfold declare at h
    obtain ⟨r, _, h⟩ := bind_eq_ok h
    split at h
    · exact nomatch h
    · unfold typeAdd at h
      dsimp only at h
      rw [show s.length = s.length + 0 from rfl, setBase_new s _ 0 b .array none [] rfl (by simp)] at h
      cases h
      exact ⟨_, rfl, by simp [Holds]⟩
  | dynarray b =>
    unfold declare at h
    obtain ⟨r, _, h⟩ := bind_eq_ok h
    split at h
    · exact nomatch h
    · unfold typeAdd at h
      dsimp only at h
      rw [show s.length = s.length + 0 from rfl, setBase_new s _ 0 b .dynarray none [] rfl (by simp)] at h
      cases h
      exact ⟨_, rfl, by simp [Holds]⟩
  | map k v =>
    unfold declare at h
    unfold typeAdd at h
    dsimp only at h
    rw [addPtr_new, bind_ok] at h
    dsimp only at h
    obtain ⟨r, _, h⟩ := bind_eq_ok h
    split at h
    · exact nomatch h
    · rw [addPtr_new, bind_ok] at h
      dsimp only at h
      rw [List.append_assoc, addPtr_new, bind_ok] at h
      dsimp only at h
      simp only [List.length_append, List.length_cons, List.length_nil, List.cons_append, List.nil_append, Bool.false_eq_true,
        if_false] at h
      have hi' : ∀ x, (s ++ x)[intType]? = some ⟨.simple, none, []⟩ := fun x => get_append hi x
      have hp : ∀ (x : Store) (i : Nat), (s ++ x)[s.length + i]? = x[i]? := by
        intro x i
        rw [List.getElem?_append_right (by omega), Nat.add_sub_cancel_left]
      rw [addField_new s _ (0 + 1 + 1 + 1) intType "#len" none [] _ rfl (by decide) (hi' _) (by simp) (by simp), bind_ok] at h
      rw [addField_new s _ (0 + 1 + 1 + 1) intType "#priority" none _ _ rfl (by simp) (hi' _) (by simp) (by simp), bind_ok] at h
      rw [addField_new s _ (0 + 1 + 1 + 1) _ "#key" none _ _ rfl (by simp) (hp _ _) (by simp) (by simp), bind_ok] at h
      rw [addField_new s _ (0 + 1 + 1 + 1) _ "#data" none _ _ rfl (by simp) (hp _ _) (by simp) (by simp), bind_ok] at h
      rw [addField_new s _ (0 + 1 + 1 + 1) _ "#left" none _ _ rfl (by simp) (hp _ _) (by simp) (by simp), bind_ok] at h
      rw [addField_new s _ (0 + 1 + 1 + 1) _ "#right" none _ _ rfl (by simp) (hp _ _) (by simp) (by simp), bind_ok] at h
      rw [show typeSetBase _ s.length _ = typeSetBase _ (s.length + 0) _ from rfl,
        setBase_new s _ 0 _ .map none [] rfl (by simp)] at h
      cases h
      refine ⟨_, rfl, s.length + 3, s.length + 1, s.length + 2, s.length + 4, ?_, ?_, ?_, ?_⟩
      · exact hp _ 0
      · exact hp _ 3
      · exact hp _ 1
      · exact hp _ 2
  | struct fs =>
    unfold declare typeAdd at h
    dsimp only at h
    obtain ⟨s1, h1, h2⟩ := bind_eq_ok h
    cases h2
    obtain ⟨rfl, hd⟩ := addFields_inv fs [] (by simp) h1
    exact ⟨_, rfl, by simp, by simpa using hd⟩
  | simple => cases h; exact ⟨_, rfl, by simp [Holds]⟩
  | interface => cases h; exact ⟨_, rfl, by simp [Holds]⟩
  | closure => cases h; exact ⟨_, rfl, by simp [Holds]⟩

theorem declareAll_holds {s s' : Store} {ds : List Decl} {l : List (Nat × Decl)}
    (hi : s[intType]? = some ⟨.simple, none, []⟩) (h : declareAll s ds = .ok (s', l)) :
    (∃ x, s' = s ++ x) ∧ ∀ t d, (t, d) ∈ l → Holds s' t d := by
  induction ds generalizing s l with
  | nil => cases h; exact ⟨⟨[], by simp⟩, fun _ _ hm => nomatch hm⟩
  | cons d ds ih =>
    unfold declareAll at h
    obtain ⟨⟨s1, t⟩, h1, h⟩ := bind_eq_ok h
    obtain ⟨⟨s2, l'⟩, h2, h⟩ := bind_eq_ok h
    cases h
    obtain ⟨x, rfl, hh⟩ := declare_holds hi h1
    obtain ⟨⟨y, rfl⟩, hl⟩ := ih (get_append hi x) h2
    refine ⟨⟨x ++ y, by simp⟩, fun t' d' hm => ?_⟩
    rcases List.mem_cons.mp hm with e | hm
    · cases e; exact holds_append hh y
    · exact hl t' d' hm

/-- However many types are declared, and whichever are declared later: for each declared type the queries give the types
it was declared with, and null pointers for what it does not have. -/
theorem C107_queries (ds : List Decl) (s : Store) (l : List (Nat × Decl)) (h : declareAll start ds = .ok (s, l))
    (t : Nat) (d : Decl) (hm : (t, d) ∈ l) :
    getBaseType s t = .ok (base d) ∧ getMapKeyType s t = .ok (key d) ∧ getMapItemType s t = .ok (item d) ∧
    ∀ name, ∃ r, getFieldType s t name = .ok r ∧ ∀ ty, r = some ty ↔ HasField name ty d := by
  have hh := (declareAll_holds rfl h).2 t d hm
  cases d with
  | map k v =>
    obtain ⟨n, pk, pv, pn, h1, h2, h3, h4⟩ := hh
    refine ⟨?_, ?_, ?_, fun name => ⟨none, ?_, fun ty => ⟨(fun e => nomatch e), fun e => False.elim e⟩⟩⟩
    · unfold getBaseType; rw [deref_eq h1]; rfl
    · unfold getMapKeyType nodeFieldBase; rw [deref_eq h1, bind_ok, if_pos rfl, bind_ok]; dsimp only
      rw [deref_eq h2, bind_ok]; dsimp only [List.getElem?_cons_succ, List.getElem?_cons_zero]; rw [deref_eq h3]; rfl
    · unfold getMapItemType nodeFieldBase; rw [deref_eq h1, bind_ok, if_pos rfl, bind_ok]; dsimp only
      rw [deref_eq h2, bind_ok]; dsimp only [List.getElem?_cons_succ, List.getElem?_cons_zero]; rw [deref_eq h4]; rfl
    · unfold getFieldType; rw [deref_eq h1]; rfl
  | struct fs =>
    obtain ⟨h1, hd⟩ := hh
    refine ⟨?_, ?_, ?_, fun name => ⟨(fs.find? fun f => f.1 == name).map Prod.snd, ?_, fun ty => ?_⟩⟩
    · unfold getBaseType; rw [deref_eq h1]; rfl
    · unfold getMapKeyType; rw [deref_eq h1]; rfl
    · unfold getMapItemType; rw [deref_eq h1]; rfl
    · unfold getFieldType
      rw [deref_eq h1, bind_ok, if_pos rfl]
      unfold typeFindField
      rw [if_pos (.inl rfl)]
      cases fs.find? fun f => f.1 == name <;> rfl
    · show _ ↔ (name, ty) ∈ fs
      clear h h1 hm
      induction fs with
      | nil => simp
      | cons f fs ih =>
        obtain ⟨fn, ft⟩ := f
        simp only [List.map_cons, List.nodup_cons] at hd
        by_cases e : fn = name
        · subst e
          simp only [List.find?_cons, beq_self_eq_true, Option.map_some, Option.some.injEq, List.mem_cons, Prod.mk.injEq, true_and]
          constructor
          · intro e; exact .inl e.symm
          · rintro (e | e)
            · exact e.symm
            · exact absurd (List.mem_map.mpr ⟨_, e, rfl⟩) hd.1
        · have e' : (fn == name) = false := by simpa using e
          simp only [List.find?_cons, e', List.mem_cons, Prod.mk.injEq]
          rw [ih hd.2]
          constructor
          · exact .inr
          · rintro (⟨e1, _⟩ | h)
            · exact absurd e1.symm e
            · exact h
  | ptr w b =>
    have h1 : s[t]? = some _ := hh
    refine ⟨?_, ?_, ?_, fun name => ⟨none, ?_, fun ty => ⟨(fun e => nomatch e), fun e => False.elim e⟩⟩⟩
    · unfold getBaseType; rw [deref_eq h1]; cases w <;> rfl
    · unfold getMapKeyType; rw [deref_eq h1]; cases w <;> rfl
    · unfold getMapItemType; rw [deref_eq h1]; cases w <;> rfl
    · unfold getFieldType; rw [deref_eq h1]; cases w <;> rfl
  | _ =>
    have h1 : s[t]? = some _ := hh
    refine ⟨?_, ?_, ?_, fun name => ⟨none, ?_, fun ty => ⟨(fun e => nomatch e), fun e => False.elim e⟩⟩⟩
    · unfold getBaseType; rw [deref_eq h1]; rfl
    · unfold getMapKeyType; rw [deref_eq h1]; rfl
    · unfold getMapItemType; rw [deref_eq h1]; rfl
    · unfold getFieldType; rw [deref_eq h1]; rfl

/-- A structure is accepted if and only if its fields have different names, and types that exist and are neither `void` nor still
to be declared. -/
theorem C107_struct (s : Store) (fs : List (String × Nat)) (hs : ∀ f ∈ fs, f.2 < s.length) :
    (∃ r, declare s (.struct fs) = .ok r) ↔
      (fs.map Prod.fst).Nodup ∧ ∀ f ∈ fs, ∃ q, s[f.2]? = some q ∧ q.kind ≠ .forward ∧ q.kind ≠ .void := by
  constructor
  · rintro ⟨⟨s', t⟩, h⟩
    unfold declare typeAdd at h
    dsimp only at h
    obtain ⟨s1, h1, _⟩ := bind_eq_ok h
    refine ⟨by simpa using (addFields_inv fs [] (by simp) h1).2, ?_⟩
    clear h
    generalize hf0 : ([] : List (String × Nat)) = fs0 at h1
    clear hf0
    induction fs generalizing fs0 with
    | nil => intro f hf; exact nomatch hf
    | cons g fs ih =>
      unfold addFields at h1
      obtain ⟨s2, h2, h3⟩ := bind_eq_ok h1
      have hinv := addField_inv (x := [⟨.struct, none, fs0⟩]) (i := 0) rfl h2
      intro f hf
      rcases List.mem_cons.mp hf with rfl | hf
      · have hlt := hs f (by simp)
        unfold typeAddField at h2
        obtain ⟨_, _, h2⟩ := bind_eq_ok h2
        split at h2
        · exact nomatch h2
        · obtain ⟨q, hq, h2⟩ := bind_eq_ok h2
          have hq := deref_ok hq
          rw [List.getElem?_append_left hlt] at hq
          refine ⟨q, hq, ?_, ?_⟩
          · intro e; rw [if_pos e] at h2; exact nomatch h2
          · intro e; rw [if_neg (by rw [e]; decide), if_pos e] at h2; exact nomatch h2
      · rw [hinv.2] at h3
        exact ih (fun f hf => hs f (by simp [hf])) _ h3 f hf
  · rintro ⟨hd, hg⟩
    unfold declare typeAdd
    dsimp only
    rw [addFields_ok fs [] (by simpa using hd) hg]
    exact ⟨_, rfl⟩

/-- `^int`, `[]^int`, `map[int][]^int`, `struct {a: int; m: map[int][]^int}`. -/
def sample : List Decl := [.ptr false 1, .dynarray 2, .map 1 3, .struct [("a", 1), ("m", 4)], .ptr true 9]

def sampleStore : Store := (declareAll start sample).toOption.elim [] Prod.fst

example : (declareAll start sample).toOption.map Prod.snd =
    some [(2, .ptr false 1), (3, .dynarray 2), (4, .map 1 3), (9, .struct [("a", 1), ("m", 4)]), (10, .ptr true 9)] := by decide +kernel

example : getMapKeyType sampleStore 4 = .ok (some 1) ∧ getMapItemType sampleStore 4 = .ok (some 3) ∧
    getFieldType sampleStore 9 "m" = .ok (some 4) ∧ getFieldType sampleStore 9 "b" = .ok none ∧
    getBaseType sampleStore 10 = .ok (some 9) := ⟨rfl, rfl, rfl, rfl, rfl⟩

end Umka.TypeQuery.Props
