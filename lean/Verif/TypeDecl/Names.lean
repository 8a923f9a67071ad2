import Verif.TypeDecl.Uses
/-!
# Type declarations: names of fields, methods and parameters
-/

set_option linter.unusedVariables false

namespace Umka.TypeDecl
open Spec

/-- All types are tidy, and fields are of declared types. -/
def AllTidy (s : State) : Prop := ∀ i, Tidy (graph s) (s.get i).body

/-- The fields added so far. -/
def FieldsTidy (s : State) (fs : List (Name × Id)) : Prop :=
  (fs.map Prod.fst).Nodup ∧ ∀ f ∈ fs, isForward (s.get f.2).body = false ∧ (s.get f.2).body ≠ .void

theorem FieldsTidy.mono {s s' : State} (h : Keeps s s') {fs : List (Name × Id)} (hf : FieldsTidy s fs) :
    FieldsTidy s' fs := by
  refine ⟨hf.1, fun f hm => ?_⟩
  have := hf.2 f hm
  rw [h f.2 this.1]; exact this

theorem nodup_snoc {l : List Name} {x : Name} (h : l.Nodup) (hx : x ∉ l) : (l ++ [x]).Nodup := by
  rw [List.nodup_append]
  refine ⟨h, List.nodup_cons.mpr ⟨fun h => (nomatch h), List.nodup_nil⟩, fun a ha b hb => ?_⟩
  rw [List.mem_singleton.mp hb]
  intro e
  exact hx (e ▸ ha)

theorem addField_tidy {s : State} {a a' : Acc} {x : Name} {i : Id} (h : FieldsTidy s a.fields)
    (hf : addField s a x i = .ok a') : FieldsTidy s a'.fields := by
  unfold addField at hf
  dsimp only at hf
  split at hf
  · cases hf
  rename_i h1
  split at hf
  · cases hf
  rename_i h2
  split at hf
  · cases hf
  rename_i h3
  split at hf
  · cases hf
  split at hf
  · cases hf
  split at hf
  · cases hf
  injection hf with hf
  rw [← hf]
  show FieldsTidy s (a.fields ++ [(x, i)])
  constructor
  · rw [List.map_append]; exact nodup_snoc h.1 h1
  · intro f hm
    rcases List.mem_append.mp hm with hm | hm
    · exact h.2 f hm
    · rw [List.mem_singleton.mp hm]; exact ⟨by simpa using h2, h3⟩

theorem addFields_tidy {s : State} {i : Id} : ∀ {xs : List Name} {a a' : Acc}, FieldsTidy s a.fields →
    addFields s a xs i = .ok a' → FieldsTidy s a'.fields
  | [], a, a', h, hf => by
    injection hf with hf
    rw [← hf]; exact h
  | x :: xs, a, a', h, hf => by
    unfold addFields at hf
    split at hf
    · cases hf
    · rename_i a1 h1
      exact addFields_tidy (addField_tidy h h1) hf

def ParamsTidy (ps : List (Name × Id)) : Prop := (ps.map Prod.fst).Nodup ∧ 1 + ps.length ≤ 16

theorem addParams_tidy {i : Id} : ∀ {xs : List Name} {ps ps' : List (Name × Id)}, ParamsTidy ps →
    addParams 1 ps xs i = .ok ps' → ParamsTidy ps'
  | [], ps, ps', h, hp => by
    injection hp with hp
    rw [← hp]; exact h
  | x :: xs, ps, ps', h, hp => by
    unfold addParams at hp
    split at hp
    · cases hp
    rename_i h1
    split at hp
    · cases hp
    rename_i h2
    refine addParams_tidy ⟨?_, ?_⟩ hp
    · rw [List.map_append]; exact nodup_snoc h.1 h1
    · rw [List.length_append]
      show 1 + (ps.length + 1) ≤ 16
      omega

theorem mkSig_tidy {s : State} {ps : List (Name × Id)} {r : Option Id} {sig : Sig} (h : ParamsTidy ps)
    (hs : mkSig s 1 ps r = .ok sig) : SigTidy sig := by
  unfold mkSig at hs
  split at hs
  · split at hs
    · cases hs
    · rename_i h1
      injection hs with hs
      rw [← hs]
      refine ⟨h.1, ?_⟩
      show 1 + ps.length + 1 ≤ 16
      omega
  · injection hs with hs
    rw [← hs]
    exact ⟨h.1, by show 1 + ps.length + 0 ≤ 16; exact h.2⟩

def MethodsTidy (ms : List (Name × Sig)) : Prop := (ms.map Prod.fst).Nodup ∧ ∀ m ∈ ms, SigTidy m.2

theorem addMethods_tidy : ∀ {new ms ms' : List (Name × Sig)}, MethodsTidy ms → (∀ m ∈ new, SigTidy m.2) →
    addMethods ms new = .ok ms' → MethodsTidy ms'
  | [], ms, ms', h, hn, hm => by
    injection hm with hm
    rw [← hm]; exact h
  | m :: new, ms, ms', h, hn, hm => by
    unfold addMethods at hm
    split at hm
    · cases hm
    rename_i h1
    refine addMethods_tidy ⟨?_, ?_⟩ (fun m' h' => hn m' (List.mem_cons_of_mem _ h')) hm
    · rw [List.map_append]; exact nodup_snoc h.1 h1
    · intro m' h'
      rcases List.mem_append.mp h' with h' | h'
      · exact h.2 m' h'
      · rw [List.mem_singleton.mp h']; exact hn m (List.mem_cons_self ..)

/-- What a new node must be. -/
def BodyTidy (s : State) : Body → Prop
  | .struct fs => FieldsTidy s fs
  | .iface ms => MethodsTidy ms
  | .closure sig => SigTidy sig
  | _ => True

theorem BodyTidy.tidy {s : State} {b : Body} (h : BodyTidy s b) : Tidy (graph s) b := by
  cases b with
  | struct fs => exact ⟨h.1, fun f hf => (h.2 f hf).2⟩
  | iface ms => exact h
  | closure sig => exact h
  | _ => exact trivial

/-- Fields of tidy types are declared. -/
theorem AllTidy.body {s : State} (h : AllTidy s) (ho : Ok s) (i : Id) (hi : isForward (s.get i).body = false) :
    BodyTidy s (s.get i).body := by
  have := h i
  have hp := (ho.good i hi).2
  unfold PartsOk at hp
  cases hb : (s.get i).body with
  | struct fs =>
    rw [hb] at this hp
    exact ⟨this.1, fun f hf => ⟨(hp f hf).1, this.2 f hf⟩⟩
  | iface ms => rw [hb] at this; exact this
  | closure sig => rw [hb] at this; exact this
  | _ => exact trivial

theorem BodyTidy.mono {s s' : State} (h : Keeps s s') {b : Body} (hb : BodyTidy s b) : BodyTidy s' b := by
  cases b with
  | struct fs => exact FieldsTidy.mono h hb
  | iface ms => exact hb
  | closure sig => exact hb
  | _ => exact trivial

theorem AllTidy.ext {s s' : State} (h : AllTidy s) (ho : Ok s) (hk : Keeps s s')
    (hn : ∀ i, isForward (s'.get i).body = false → (s'.get i = s.get i ∧ isForward (s.get i).body = false) ∨
      BodyTidy s' (s'.get i).body) : AllTidy s' := by
  intro i
  cases hf : isForward (s'.get i).body with
  | true =>
    cases hb : (s'.get i).body with
    | forward r => exact trivial
    | _ => rw [hb] at hf; cases hf
  | false =>
    rcases hn i hf with ⟨h1, h2⟩ | h1
    · rw [h1]
      exact ((h.body ho i h2).mono hk).tidy
    · exact h1.tidy

theorem AllTidy.alloc {s : State} (h : AllTidy s) (ho : Ok s) {n : Node} (hn : BodyTidy s n.body) :
    AllTidy (s.alloc n).2 := by
  apply h.ext ho (keeps_alloc _ _)
  intro i hi
  by_cases h1 : i < s.nodes.length
  · rw [get_alloc_old h1] at hi ⊢
    exact .inl ⟨rfl, hi⟩
  · by_cases h2 : i = s.nodes.length
    · refine .inr ?_
      rw [show i = (s.alloc n).1 from h2, get_alloc_new]
      exact hn.mono (keeps_alloc _ _)
    · rw [get_alloc_gt (Nat.lt_of_le_of_ne (Nat.le_of_not_lt h1) (fun e => h2 e.symm))] at hi
      cases hi

theorem orForward_tidy {fwd rbs : Bool} {t : TE} {s s' : State} {i : Id} {r : Res (Id × State)} (h : AllTidy s)
    (ho : Ok s) (hr : ∀ s1 j, r = .ok (j, s1) → AllTidy s1) (he : orForward fwd rbs t s r = .ok (i, s')) :
    AllTidy s' := by
  unfold orForward at he
  split at he
  · split at he
    · injection he with he
      injection he with h1 h2
      rw [← h2]
      exact h.alloc ho (n := mkNode (.forward rbs)) trivial
    · exact hr _ _ he
  · exact hr _ _ he

theorem tidy_ok_alloc {s s' : State} {i : Id} {n : Node} (h : AllTidy s) (ho : Ok s)
    (he : (.ok (s.alloc n) : Res (Id × State)) = .ok (i, s')) (hn : BodyTidy s n.body) : AllTidy s' := by
  injection he with he
  have := congrArg Prod.snd he
  dsimp only at this
  rw [← this]
  exact h.alloc ho hn

mutual
theorem parse_tidy (fwd : Bool) : ∀ (t : TE) (s s' : State) (i : Id), Inv s → AllTidy s →
    parse fwd t s = .ok (i, s') → AllTidy s'
  | .name x, s, s', i, h, ht, hp => by
    rw [parse] at hp
    split at hp
    · cases hp
    · cases hp
    · injection hp with hp
      injection hp with _ hp
      rw [← hp]; exact ht
  | .ptr w t, s, s', i, h, ht, hp => by
    rw [parse] at hp
    split at hp
    · cases hp
    · rename_i b s1 he
      obtain ⟨k1, _⟩ := orForward_post h (fun i s' hr => parse_post fwd t s s' i h hr) he
      exact tidy_ok_alloc (orForward_tidy ht h.ok (fun s2 j hr => parse_tidy fwd t s s2 j h ht hr) he)
        k1.inv.ok hp trivial
  | .dyn w t, s, s', i, h, ht, hp => by
    rw [parse] at hp
    split at hp
    · cases hp
    · rename_i b s1 he
      obtain ⟨k1, _⟩ := orForward_post h (fun i s' hr => parse_post fwd t s s' i h hr) he
      split at hp
      · cases hp
      exact tidy_ok_alloc (orForward_tidy ht h.ok (fun s2 j hr => parse_tidy fwd t s s2 j h ht hr) he)
        k1.inv.ok hp trivial
  | .arr n t, s, s', i, h, ht, hp => by
    rw [parse] at hp
    split at hp
    · cases hp
    split at hp
    · cases hp
    · rename_i b s1 he
      obtain ⟨k1, _⟩ := parse_post fwd t s s1 b h he
      split at hp
      · cases hp
      split at hp
      · cases hp
      rename_i nd hnd
      refine tidy_ok_alloc (parse_tidy fwd t s s1 b h ht he) k1.inv.ok hp ?_
      unfold arrNode at hnd
      split at hnd
      · cases hnd
      split at hnd
      · cases hnd
      injection hnd with hnd
      rw [← hnd]; exact trivial
  | .map ky t, s, s', i, h, ht, hp => by
    rw [parse] at hp
    split at hp
    · cases hp
    · rename_i a s1 he
      obtain ⟨k1, _⟩ := parse_post fwd ky s s1 a h he
      have t1 := parse_tidy fwd ky s s1 a h ht he
      split at hp
      · cases hp
      split at hp
      · cases hp
      rename_i b s2 he2
      obtain ⟨k2, _⟩ := orForward_post k1.inv (fun i s' hr => parse_post fwd t s1 s' i k1.inv hr) he2
      split at hp
      · cases hp
      exact tidy_ok_alloc (orForward_tidy t1 k1.inv.ok (fun s3 j hr => parse_tidy fwd t s1 s3 j k1.inv t1 hr) he2)
        k2.inv.ok hp trivial
  | .struct fs, s, s', i, h, ht, hp => by
    rw [parse] at hp
    split at hp
    · cases hp
    · rename_i a s1 he
      obtain ⟨k1, _⟩ := parseFields_post fwd fs s s1 .empty a h (accOk_empty s) he
      obtain ⟨t1, t2⟩ := parseFields_tidy fwd fs s s1 .empty a h ht (accOk_empty s)
        ⟨List.nodup_nil, fun f hf => (nomatch hf)⟩ he
      exact tidy_ok_alloc t1 k1.inv.ok hp t2
  | .iface ms, s, s', i, h, ht, hp => by
    rw [parse] at hp
    split at hp
    · cases hp
    · rename_i l s1 he
      obtain ⟨k1, _⟩ := parseMethods_post fwd ms s s1 [] l h he
      obtain ⟨t1, t2⟩ := parseMethods_tidy fwd ms s s1 [] l h ht ⟨List.nodup_nil, fun f hf => (nomatch hf)⟩ he
      exact tidy_ok_alloc t1 k1.inv.ok hp t2
  | .fn st, s, s', i, h, ht, hp => by
    rw [parse] at hp
    split at hp
    · cases hp
    · rename_i sig s1 he
      obtain ⟨k1, _⟩ := parseSig_post fwd st s s1 sig h he
      obtain ⟨t1, t2⟩ := parseSig_tidy fwd st s s1 sig h ht he
      exact tidy_ok_alloc t1 k1.inv.ok hp t2
theorem parseFields_tidy (fwd : Bool) : ∀ (fs : Flds) (s s' : State) (a a' : Acc), Inv s → AllTidy s → AccOk s a →
    FieldsTidy s a.fields → parseFields fwd fs s a = .ok (a', s') → AllTidy s' ∧ FieldsTidy s' a'.fields
  | .nil, s, s', a, a', h, ht, ha, hf, hp => by
    rw [parseFields] at hp
    injection hp with hp
    injection hp with h1 h2
    rw [← h1, ← h2]; exact ⟨ht, hf⟩
  | .cons xs t rest, s, s', a, a', h, ht, ha, hf, hp => by
    rw [parseFields] at hp
    split at hp
    · cases hp
    · rename_i i s1 he
      obtain ⟨k1, _⟩ := parse_post fwd t s s1 i h he
      split at hp
      · cases hp
      · rename_i a1 he2
        obtain ⟨j1, _⟩ := addFields_ok k1.inv.ok (ha.mono k1.ext.keeps) he2
        exact parseFields_tidy fwd rest s1 s' a1 a' k1.inv (parse_tidy fwd t s s1 i h ht he) j1
          (addFields_tidy (hf.mono k1.ext.keeps) he2) hp
theorem parseParams_tidy (fwd : Bool) : ∀ (fs : Flds) (s s' : State) (a a' : List (Name × Id)), Inv s → AllTidy s →
    ParamsTidy a → parseParams fwd fs s a = .ok (a', s') → AllTidy s' ∧ ParamsTidy a'
  | .nil, s, s', a, a', h, ht, hf, hp => by
    rw [parseParams] at hp
    injection hp with hp
    injection hp with h1 h2
    rw [← h1, ← h2]; exact ⟨ht, hf⟩
  | .cons xs t rest, s, s', a, a', h, ht, hf, hp => by
    rw [parseParams] at hp
    split at hp
    · cases hp
    · rename_i i s1 he
      obtain ⟨k1, _⟩ := orForward_post h (fun i s' hr => parse_post fwd t s s' i h hr) he
      split at hp
      · cases hp
      · rename_i a1 he2
        exact parseParams_tidy fwd rest s1 s' a1 a' k1.inv
          (orForward_tidy ht h.ok (fun s2 j hr => parse_tidy fwd t s s2 j h ht hr) he) (addParams_tidy hf he2) hp
theorem parseSig_tidy (fwd : Bool) : ∀ (st : SigT) (s s' : State) (sig : Sig), Inv s → AllTidy s →
    parseSig fwd st s = .ok (sig, s') → AllTidy s' ∧ SigTidy sig
  | .mk ps r, s, s', sig, h, ht, hp => by
    rw [parseSig] at hp
    split at hp
    · cases hp
    · rename_i l s1 he
      obtain ⟨k1, _⟩ := parseParams_post fwd ps s s1 [] l h he
      obtain ⟨t1, t2⟩ := parseParams_tidy fwd ps s s1 [] l h ht ⟨List.nodup_nil, by show 1 + 0 ≤ 16; decide⟩ he
      split at hp
      · cases hp
      · rename_i res s2 he2
        have t3 := parseResult_tidy fwd r s1 s2 res k1.inv t1 he2
        split at hp
        · cases hp
        · rename_i sg he3
          injection hp with hp
          injection hp with h1 h2
          rw [← h1, ← h2]
          exact ⟨t3, mkSig_tidy t2 he3⟩
theorem parseResult_tidy (fwd : Bool) : ∀ (r : ResT) (s s' : State) (o : Option Id), Inv s → AllTidy s →
    parseResult fwd r s = .ok (o, s') → AllTidy s'
  | .none, s, s', o, h, ht, hp => by
    rw [parseResult] at hp
    injection hp with hp
    injection hp with _ hp
    rw [← hp]; exact ht
  | .single t, s, s', o, h, ht, hp => by
    rw [parseResult] at hp
    split at hp
    · cases hp
    · rename_i i s1 he
      injection hp with hp
      injection hp with _ hp
      rw [← hp]
      exact orForward_tidy ht h.ok (fun s2 j hr => parse_tidy fwd t s s2 j h ht hr) he
  | .list ts, s, s', o, h, ht, hp => by
    rw [parseResult] at hp
    split at hp
    · cases hp
    · rename_i a s1 he
      obtain ⟨k1, _⟩ := parseFields_post fwd ts s s1 .empty a h (accOk_empty s) he
      obtain ⟨t1, t2⟩ := parseFields_tidy fwd ts s s1 .empty a h ht (accOk_empty s)
        ⟨List.nodup_nil, fun f hf => (nomatch hf)⟩ he
      injection hp with hp
      unfold listResult at hp
      split at hp
      · injection hp with _ hp
        rw [← hp]; exact t1
      · injection hp with _ hp
        rw [← hp]; exact t1.alloc k1.inv.ok (n := structNode a) t2
theorem parseMethods_tidy (fwd : Bool) : ∀ (ms : Meths) (s s' : State) (a a' : List (Name × Sig)), Inv s →
    AllTidy s → MethodsTidy a → parseMethods fwd ms s a = .ok (a', s') → AllTidy s' ∧ MethodsTidy a'
  | .nil, s, s', a, a', h, ht, hf, hp => by
    rw [parseMethods] at hp
    injection hp with hp
    injection hp with h1 h2
    rw [← h1, ← h2]; exact ⟨ht, hf⟩
  | .method x st rest, s, s', a, a', h, ht, hf, hp => by
    rw [parseMethods] at hp
    split at hp
    · cases hp
    · rename_i sig s1 he
      obtain ⟨k1, _⟩ := parseSig_post fwd st s s1 sig h he
      obtain ⟨t1, t2⟩ := parseSig_tidy fwd st s s1 sig h ht he
      split at hp
      · cases hp
      · rename_i a1 he2
        exact parseMethods_tidy fwd rest s1 s' a1 a' k1.inv t1
          (addMethods_tidy hf (fun m hm => by rw [List.mem_singleton.mp hm]; exact t2) he2) hp
  | .embed x rest, s, s', a, a', h, ht, hf, hp => by
    rw [parseMethods] at hp
    split at hp
    · cases hp
    · cases hp
    · rename_i i hb
      split at hp
      · rename_i ms hi
        split at hp
        · cases hp
        · rename_i a1 he2
          have := ht i
          rw [hi] at this
          exact parseMethods_tidy fwd rest s s' a1 a' h ht (addMethods_tidy hf this.2 he2) hp
      · cases hp
end

theorem declItem_tidy {s s' : State} {x : Name} {t : TE} (h : Inv s) (ht : AllTidy s)
    (hd : declItem s x t = .ok s') : AllTidy s' := by
  unfold declItem at hd
  split at hd
  · cases hd
  rename_i i s1 he
  obtain ⟨k1, k2, k3⟩ := parse_post true t s s1 i h he
  have t1 := parse_tidy true t s s1 i h ht he
  dsimp only at hd
  have hb : BodyTidy s1 (s1.get i).body := by
    cases hf : isForward (s1.get i).body with
    | false => exact t1.body k1.inv.ok i hf
    | true =>
      cases hb : (s1.get i).body with
      | forward r => exact trivial
      | _ => rw [hb] at hf; cases hf
  have t2 := t1.alloc k1.inv.ok hb
  have hok2 : Ok (s1.alloc (s1.get i)).2 := by
    apply ok_alloc k1.inv.ok
    · intro hf
      exact ((k1.inv.ok.good i hf).mono (keeps_alloc _ _) hf).copy (by rw [get_alloc_new, get_alloc_old k2])
    · intro hf
      exact k1.inv.ok.fwd i hf
  have hnew := get_alloc_new (s := s1) (n := s1.get i)
  generalize hs2 : s1.alloc (s1.get i) = p at hd t2 hnew hok2
  obtain ⟨j, s2⟩ := p
  dsimp only at hd t2 hnew hok2
  unfold addType at hd
  split at hd
  · injection hd with hd
    rw [← hd]; exact t2
  · rename_i e hx
    split at hd
    · rename_i rbs hrbs
      split at hd
      · cases hd
      rename_i hnf
      split at hd
      · cases hd
      injection hd with hd
      have hnf : isForward (s2.get j).body = false := by simpa using hnf
      have hef : isForward (s2.get e).body = true := by rw [hrbs]; rfl
      by_cases helt : e < s2.nodes.length
      · have hget : ∀ k, s'.get k = if e = k then s2.get j else s2.get k := by
          intro k; rw [← hd]; exact get_set helt
        have hk2 : Keeps s2 s' := by
          intro k hk
          rw [hget, if_neg]
          intro hh
          rw [← hh, hef] at hk; cases hk
        apply t2.ext hok2 hk2
        intro k hk
        rw [hget] at hk ⊢
        split
        · exact .inr ((t2.body hok2 j hnf).mono hk2)
        · rename_i hne
          rw [if_neg hne] at hk
          exact .inl ⟨rfl, hk⟩
      · have : s'.nodes = s2.nodes := by
          rw [← hd]
          exact List.set_eq_of_length_le (Nat.le_of_not_lt helt)
        have hget : ∀ k, s'.get k = s2.get k := by intro k; unfold State.get; rw [this]
        have hgr : graph s' = graph s2 := by funext k; unfold graph; rw [hget]
        intro k
        rw [hget, hgr]; exact t2 k
    · cases hd
  · cases hd

theorem declItems_tidy : ∀ (g : List (Name × TE)) (s s' : State), Inv s → AllTidy s → declItems s g = .ok s' →
    AllTidy s'
  | [], s, s', h, ht, hd => by
    rw [declItems] at hd
    injection hd with hd
    rw [← hd]; exact ht
  | (x, t) :: g, s, s', h, ht, hd => by
    rw [declItems] at hd
    split at hd
    · cases hd
    · rename_i s1 h1
      exact declItems_tidy g s1 s' (declItem_post h h1).inv (declItem_tidy h ht h1) hd

theorem step_tidy {s s' : State} {op : Op} (h : Ready s) (ht : AllTidy s) (hs : step s op = .ok s') : AllTidy s' := by
  cases op with
  | types g =>
    obtain ⟨h1, _⟩ := declGroup_ok hs
    exact declItems_tidy g s s' h.inv ht h1
  | use t =>
    rw [step] at hs
    split at hs
    · cases hs
    rename_i i s1 h1
    injection hs with hs
    rw [← hs]
    exact parse_tidy false t s s1 i h.inv ht h1
  | other x =>
    rw [step] at hs
    split at hs
    · cases hs
    injection hs with hs
    rw [← hs]; exact ht
  | enter =>
    injection hs with hs
    rw [← hs]; exact ht
  | leave =>
    rw [step] at hs
    split at hs
    · cases hs
    injection hs with hs
    rw [← hs]; exact ht

theorem run_tidy : ∀ {ops : List Op} {s s' : State}, Ready s → AllTidy s → run s ops = .ok s' → AllTidy s'
  | [], s, s', h, ht, hr => by
    injection hr with hr
    rw [← hr]; exact ht
  | op :: ops, s, s', h, ht, hr => by
    rw [run] at hr
    split at hr
    · cases hr
    · rename_i s1 h1
      exact run_tidy (step_ready h h1) (step_tidy h ht h1) hr

theorem init_tidy : AllTidy init := by
  intro i
  by_cases hi : i < 16
  · revert i
    have : ∀ i : Fin 16, (match (init.get i).body with
        | .struct _ => false | .closure _ => false | .iface ms => ms == [] | _ => true) = true := by decide
    intro i hi
    have := this ⟨i, hi⟩
    dsimp only at this
    cases hb : (init.get i).body with
    | struct fs => rw [hb] at this; cases this
    | closure s => rw [hb] at this; cases this
    | iface ms =>
      rw [hb] at this
      have : ms = [] := by simpa using this
      subst this
      exact ⟨List.nodup_nil, fun m hm => (nomatch hm)⟩
    | _ => exact trivial
  · have : init.get i = mkNode (.forward false) := by
      unfold State.get
      rw [List.getD_eq_getElem?_getD, List.getElem?_eq_none (Nat.le_of_not_lt hi)]; rfl
    rw [this]; exact trivial

end Umka.TypeDecl
