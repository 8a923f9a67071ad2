import Verif.Files.Lemmas
/-!
# Files: histories

An invariant of all states a program can reach: which streams are open, and who refers to them.
-/

namespace Umka.Files.Spec

/-- The same structures refer to the same streams, and the same streams are open. -/
def Same (w w' : World) : Prop :=
  w'.obj = w.obj ∧ w'.objs = w.objs ∧ w'.streams = w.streams ∧ ∀ s, (w'.stream s).isSome = (w.stream s).isSome

theorem Same.refl (w : World) : Same w w := ⟨rfl, rfl, rfl, fun _ => rfl⟩

theorem Same.trans {a b c : World} (h : Same a b) (h' : Same b c) : Same a c :=
  ⟨h'.1.trans h.1, h'.2.1.trans h.2.1, h'.2.2.1.trans h.2.2.1, fun s => (h'.2.2.2 s).trans (h.2.2.2 s)⟩

/-- Whatever the outcome, it is not undefined, and a result leaves everything as in `Same`. -/
def Good {α : Type} (w : World) (r : Res α) : Prop := r ≠ .ub ∧ ∀ a w', r = .ok a w' → Same w w'

theorem Good.ok {α : Type} {w w' : World} (a : α) (h : Same w w') : Good w (.ok a w' : Res α) :=
  ⟨fun e => (nomatch e), fun _ _ e => by cases e; exact h⟩

theorem Good.panic {α : Type} {w : World} : Good w (.panic : Res α) := ⟨fun e => (nomatch e), fun _ _ e => nomatch e⟩

theorem Good.bind {α β : Type} {w : World} {r : Res α} {k : α → World → Res β} (h : Good w r)
    (hk : ∀ a w', Same w w' → Good w' (k a w')) : Good w (r.bind k) := by
  cases r with
  | ub => exact absurd rfl h.1
  | panic => exact Good.panic
  | ok a w' =>
    have hs := h.2 a w' rfl
    have := hk a w' hs
    exact ⟨this.1, fun b w'' e => hs.trans (this.2 b w'' e)⟩

theorem same_set {w : World} {s : Nat} {st st' : Stream} (hs : w.stream s = some st) : Same w (withState w s st') := by
  refine ⟨rfl, rfl, rfl, fun t => ?_⟩
  by_cases h : t = s
  · subst h
    simp only [withState, set_same, hs, Option.isSome_some]
  · simp only [withState, set_ne _ _ h]

/-- The invariant. -/
structure Inv (w : World) (live : List Nat) : Prop where
  streams : 3 ≤ w.streams
  objs : 3 ≤ w.objs
  fresh : ∀ s, w.streams ≤ s → w.stream s = none
  freshObj : ∀ o, w.objs ≤ o → w.obj o = none
  isOpen : ∀ o s, w.obj o = some s → (w.stream s).isSome = true
  inj : ∀ o o' s, w.obj o = some s → w.obj o' = some s → o = o'
  std : ∀ s, s < 3 → (w.stream s).isSome = true
  stdObj : ∀ o s, w.obj o = some s → (o < 3 ↔ s < 3)
  used : ∀ s, 3 ≤ s → (w.stream s).isSome = true → ∃ o ∈ live, w.obj o = some s
  live : ∀ o ∈ live, o < w.objs
  stdSelf : ∀ o s, w.obj o = some s → o < 3 → o = s

theorem Inv.same {w w' : World} {live : List Nat} (h : Inv w live) (hs : Same w w') : Inv w' live := by
  obtain ⟨h1, h2, h3, h4⟩ := hs
  refine ⟨h3 ▸ h.streams, h2 ▸ h.objs, fun s hs => ?_, fun o ho => ?_, fun o s e => ?_, fun o o' s e e' => ?_, fun s hs => ?_, fun o s e => ?_,
    fun s hs e => ?_, fun o ho => ?_, fun o s e ho => ?_⟩
  · have := h4 s
    rw [h.fresh s (h3 ▸ hs)] at this
    exact Option.not_isSome_iff_eq_none.mp (by rw [this]; decide)
  · rw [h1]; exact h.freshObj o (h2 ▸ ho)
  · rw [h4]; exact h.isOpen o s (h1 ▸ e)
  · exact h.inj o o' s (h1 ▸ e) (h1 ▸ e')
  · rw [h4]; exact h.std s hs
  · exact h.stdObj o s (h1 ▸ e)
  · rw [h1]; exact h.used s hs (h4 s ▸ e)
  · rw [h2]; exact h.live o ho
  · exact h.stdSelf o s (h1 ▸ e) ho

/-- A function that only needs its stream to be open. -/
theorem good_withStream {α : Type} {w : World} {live : List Nat} (h : Inv w live) (f : File) (d : α) (call : Nat → World → Res α)
    (hc : ∀ o s st, f = some o → w.obj o = some s → w.stream s = some st → Good w (call s w)) : Good w (withStream f d call w) := by
  rw [withStream.eq_def]
  split
  · exact Good.ok _ (Same.refl _)
  · split
    · exact Good.ok _ (Same.refl _)
    · rename_i o _ s e
      obtain ⟨st, hst⟩ := Option.isSome_iff_exists.mp (h.isOpen o s e)
      exact hc o s st rfl e hst

theorem good_fseek {w : World} {live : List Nat} (h : Inv w live) (f : File) (offset : Int) (origin : Origin) : Good w (fseek f offset origin w) := by
  rw [fseek]
  split
  · exact Good.ok _ (Same.refl _)
  · refine Good.bind (good_withStream h f _ _ fun o s st _ _ hs => ?_) fun _ _ _ => Good.ok _ (Same.refl _)
    rw [cfseek, hs]
    dsimp only
    cases origin <;> dsimp only <;> split <;> first | exact Good.ok _ (Same.refl _) | exact Good.ok _ (same_set hs)

theorem good_ftell {w : World} {live : List Nat} (h : Inv w live) (f : File) : Good w (ftell f w) := by
  rw [ftell]
  split
  · exact Good.ok _ (Same.refl _)
  · refine Good.bind (good_withStream h f _ _ fun o s st _ _ hs => ?_) fun _ _ _ => Good.ok _ (Same.refl _)
    rw [cftell, hs]
    exact Good.ok _ (Same.refl _)

theorem good_feof {w : World} {live : List Nat} (h : Inv w live) (f : File) : Good w (feof f w) := by
  rw [feof]
  split
  · exact Good.ok _ (Same.refl _)
  · refine Good.bind (good_withStream h f _ _ fun o s st _ _ hs => ?_) fun _ _ _ => Good.ok _ (Same.refl _)
    rw [cfeof, hs]
    exact Good.ok _ (Same.refl _)

theorem good_fflush {w : World} {live : List Nat} (h : Inv w live) (f : File) : Good w (fflush f w) := by
  rw [fflush]
  split
  · exact Good.ok _ (Same.refl _)
  · refine Good.bind (good_withStream h f _ _ fun o s st _ _ hs => ?_) fun _ _ _ => Good.ok _ (Same.refl _)
    rw [cfflush, hs]
    exact Good.ok _ (same_set hs)

theorem good_remove {S : Sys} {w : World} {name : Option Name} (hn : name ≠ none) : Good w (remove S name w) := by
  rw [remove]
  refine Good.bind ?_ fun _ _ _ => Good.ok _ (Same.refl _)
  rw [rtlremove]
  cases name with
  | none => exact absurd rfl hn
  | some n =>
    rw [cremove]
    split
    · exact Good.ok _ (Same.refl _)
    · split
      · exact Good.ok _ (Same.refl _)
      · exact Good.ok _ ⟨rfl, rfl, rfl, fun _ => rfl⟩

theorem good_fread {S : Sys} {w : World} {live : List Nat} (h : Inv w live) (f : File) (buf : Option Buf)
    (hd : ∀ st, Open w f st → st.last ≠ .write) : Good w (fread S f buf w) := by
  rw [fread, freadwrite]
  split
  · exact Good.ok _ (Same.refl _)
  split
  · exact Good.panic
  · exact Good.ok _ (Same.refl _)
  split
  · exact Good.ok _ (Same.refl _)
  split
  · exact Good.ok _ (Same.refl _)
  rw [if_pos rfl, rtlfread]
  refine Good.bind (good_withStream h f _ _ fun o s st ef ho hs => ?_) fun _ _ _ => Good.ok _ ⟨rfl, rfl, rfl, fun _ => rfl⟩
  have hl := hd st ⟨o, s, ef, ho, hs⟩
  rw [cfread, hs]
  simp only [if_neg hl]
  split
  · exact Good.ok _ (Same.refl _)
  · exact Good.ok _ (same_set hs)

theorem good_fwrite {S : Sys} {w : World} {live : List Nat} (h : Inv w live) (f : File) (buf : Option Buf)
    (hd : ∀ st, Open w f st → ¬ (st.last = .read ∧ st.eof = false)) : Good w (fwrite S f buf w) := by
  rw [fwrite, freadwrite]
  split
  · exact Good.ok _ (Same.refl _)
  split
  · exact Good.panic
  · exact Good.ok _ (Same.refl _)
  split
  · exact Good.ok _ (Same.refl _)
  split
  · exact Good.ok _ (Same.refl _)
  rw [if_neg (by decide), rtlfwrite]
  refine Good.bind (good_withStream h f _ _ fun o s st ef ho hs => ?_) fun _ _ _ => Good.ok _ (Same.refl _)
  have hl := hd st ⟨o, s, ef, ho, hs⟩
  rw [cfwrite, hs]
  simp only [if_neg hl]
  split
  · exact Good.ok _ (Same.refl _)
  · refine Good.ok _ ⟨rfl, rfl, rfl, fun t => ?_⟩
    by_cases hh : t = s
    · subst hh
      simp only [set_same, hs, Option.isSome_some]
    · simp only [set_ne _ _ hh]

/-- The stream of an open handle after a successful `fseek`. -/
theorem fseek_last {w w' : World} {f : File} {offset : Int} {origin : Origin} (e : fseek f offset origin w = .ok .ok w') {st : Stream}
    (ho : Open w' f st) : st.last = .none := by
  obtain ⟨o, s, rfl, hob, hst⟩ := ho
  rw [fseek, if_neg (fun h => nomatch h), rtlfseek, withStream] at e
  cases h0 : w.obj o with
  | none => rw [h0] at e; cases e
  | some s0 =>
    rw [h0] at e
    dsimp only at e
    rw [cfseek] at e
    cases hst0 : w.stream s0 with
    | none => rw [hst0] at e; cases e
    | some st0 =>
      rw [hst0] at e
      have fin : ∀ p : Nat, w' = withState w s0 { st0 with pos := p, eof := false, last := .none } → st.last = .none := by
        intro p hw
        subst hw
        have : s = s0 := Option.some.inj (hob.symm.trans h0)
        subst this
        simp only [withState, set_same] at hst
        cases hst
        rfl
      cases origin <;> dsimp only at e <;> split at e <;> cases e <;> exact fin _ rfl

theorem good_freadall {S : Sys} {w : World} {live : List Nat} (h : Inv w live) (f : File) : Good w (freadall S f w) := by
  rw [freadall]
  refine Good.bind (good_fseek h f 0 .end) fun err w1 hs1 => ?_
  split
  · exact Good.ok _ (Same.refl _)
  have h1 := h.same hs1
  refine Good.bind (good_ftell h1 f) fun r w2 hs2 => ?_
  split
  · exact Good.ok _ (Same.refl _)
  split
  · exact Good.ok _ (Same.refl _)
  have h2 := h1.same hs2
  have hg := good_fseek h2 f 0 .begin
  cases e : fseek f 0 .begin w2 with
  | ub => exact absurd e hg.1
  | panic => exact Good.panic
  | ok err w3 =>
    have hs3 := hg.2 _ _ e
    rw [Res.bind]
    split
    · exact Good.ok _ hs3
    · rename_i hok
      have hok : err = .ok := by
        by_cases h : err = .ok
        · exact h
        · exact absurd h hok
      subst hok
      have h3 := h2.same hs3
      have hs4 : Same w3 { w3 with var := set w3.var w3.vars (List.replicate r.1.toNat 0), vars := w3.vars + 1 } := ⟨rfl, rfl, rfl, fun _ => rfl⟩
      have hg4 := good_fread (S := S) (h3.same hs4) f (some ⟨.bytes, some w3.vars⟩) (fun st ho => by
        have : Open w3 f st := ho
        rw [fseek_last e this]
        exact Last.noConfusion)
      have hg5 := Good.bind (k := fun (r : Nat × StdErr) w => .ok (w.var w3.vars, r.2) w) hg4 fun _ _ _ => Good.ok _ (Same.refl _)
      exact ⟨hg5.1, fun a w' e' => (hs3.trans hs4).trans (hg5.2 a w' e')⟩

theorem mem_modes (mode : List Char) : mode ∈ fopenModes ↔ ModeOfC mode := by
  constructor
  · intro h
    have e : fopenModes = [['r'], ['w'], ['a'], ['r', 'b'], ['w', 'b'], ['a', 'b'], ['r', '+'], ['w', '+'], ['a', '+'], ['r', '+', 'b'], ['r', 'b', '+'],
      ['w', '+', 'b'], ['w', 'b', '+'], ['a', '+', 'b'], ['a', 'b', '+']] := by decide
    rw [e] at h
    simp only [List.mem_cons, List.not_mem_nil, or_false] at h
    rcases h with rfl | rfl | rfl | rfl | rfl | rfl | rfl | rfl | rfl | rfl | rfl | rfl | rfl | rfl | rfl <;> exact ⟨_, _, rfl, by decide, by decide⟩
  · rintro ⟨c, rest, rfl, hc, hr⟩
    rcases hc with rfl | rfl | rfl <;> rcases hr with rfl | rfl | rfl | rfl | rfl <;> decide

/-- Opening a file. -/
theorem fopen_inv {S : Sys} {w : World} {live : List Nat} (h : Inv w live) {name : Option Name} {mode : List Char}
    (hn : ¬ (name = none ∧ ModeOfC mode)) :
    fopen S name mode w ≠ .ub ∧ ∀ (r : File × StdErr) (w' : World), fopen S name mode w = .ok r w' → Inv w' (r.1.toList ++ live) ∧
      ((r.2 = .ok ↔ r.1 ≠ none) ∧ (r.2 ≠ .ok → r.2 = .nullf)) ∧
      (∀ o, r.1 = some o → w.objs ≤ o ∧ ∃ st, Open w' (some o) st ∧ st.last = .none ∧ st.eof = false) := by
  rw [← mem_modes] at hn
  rw [fopen]
  split
  · rename_i hm
    have hmem : mode ∈ fopenModes := List.contains_iff_mem.mp hm
    cases name with
    | none => exact absurd ⟨rfl, hmem⟩ hn
    | some n =>
      have hhead : ∀ m ∈ fopenModes, ¬ (m.head? ≠ some 'r' ∧ m.head? ≠ some 'w' ∧ m.head? ≠ some 'a') := by decide
      -- a new stream and a new structure
      have hnew : ∀ (w0 : World) (i : Nat), Inv w0 live → w0.objs = w.objs →
          ∃ o w1, ((newStream S w0 i mode).bind fun stream w => match stream with
            | none => .ok none w
            | some s => .ok (some w.objs) { w with obj := set w.obj w.objs (some s), objs := w.objs + 1 }) = .ok (some o) w1 ∧
            Inv w1 (o :: live) ∧ w.objs ≤ o ∧ ∃ st, Open w1 (some o) st ∧ st.last = .none ∧ st.eof = false := by
        intro w0 i h0 hob
        refine ⟨w0.objs, _, rfl, ?_, Nat.le_of_eq hob.symm, _, ⟨w0.objs, w0.streams, rfl, set_same .., set_same ..⟩, rfl, rfl⟩
        have hne : ∀ o s, w0.obj o = some s → o ≠ w0.objs := fun o s e h => by
          have := h0.freshObj o (by omega)
          rw [e] at this
          cases this
        have hns : ∀ s, (w0.stream s).isSome = true → s ≠ w0.streams := fun s e h => by
          rw [h0.fresh s (by omega)] at e
          cases e
        have hO := h0.objs
        have hS := h0.streams
        have hcase : ∀ o s, set w0.obj w0.objs (some w0.streams) o = some s →
            (o = w0.objs ∧ s = w0.streams) ∨ (o ≠ w0.objs ∧ w0.obj o = some s ∧ s ≠ w0.streams) := by
          intro o s e
          by_cases h : o = w0.objs
          · rw [h, set_same] at e
            cases e
            exact .inl ⟨h, rfl⟩
          · rw [set_ne _ _ h] at e
            exact .inr ⟨h, e, hns s (h0.isOpen o s e)⟩
        refine ⟨Nat.le_succ_of_le h0.streams, Nat.le_succ_of_le h0.objs, fun s hs => ?_, fun o ho => ?_, fun o s e => ?_, fun o o' s e e' => ?_,
          fun s hs => ?_, fun o s e => ?_, fun s hs e => ?_, fun o ho => ?_, fun o s e ho => ?_⟩
        · dsimp only at hs ⊢
          rw [set_ne _ _ (by omega)]
          exact h0.fresh s (by omega)
        · dsimp only at ho ⊢
          rw [set_ne _ _ (by omega)]
          exact h0.freshObj o (by omega)
        · dsimp only at e ⊢
          rcases hcase o s e with ⟨_, h2⟩ | ⟨_, h2, h3⟩
          · rw [h2, set_same]; rfl
          · rw [set_ne _ _ h3]; exact h0.isOpen o s h2
        · dsimp only at e e'
          rcases hcase o s e with ⟨h1, h2⟩ | ⟨h1, h2, h3⟩ <;> rcases hcase o' s e' with ⟨h1', h2'⟩ | ⟨h1', h2', h3'⟩
          · rw [h1, h1']
          · exact absurd h2 h3'
          · exact absurd h2' h3
          · exact h0.inj o o' s h2 h2'
        · dsimp only
          rw [set_ne _ _ (by omega)]
          exact h0.std s hs
        · dsimp only at e
          rcases hcase o s e with ⟨h1, h2⟩ | ⟨h1, h2, h3⟩
          · omega
          · exact h0.stdObj o s h2
        · dsimp only at e ⊢
          by_cases h : s = w0.streams
          · exact ⟨w0.objs, List.mem_cons_self .., by rw [set_same, h]⟩
          · rw [set_ne _ _ h] at e
            obtain ⟨o, ho, hos⟩ := h0.used s hs e
            exact ⟨o, List.mem_cons_of_mem _ ho, by rw [set_ne _ _ (hne o s hos)]; exact hos⟩
        · dsimp only
          rcases List.mem_cons.mp ho with rfl | ho
          · omega
          · have := h0.live o ho
            omega
        · dsimp only at e
          rcases hcase o s e with ⟨h1, h2⟩ | ⟨h1, h2, h3⟩
          · omega
          · exact h0.stdSelf o s h2 ho
      have fin : ∀ (R : Res File), (∃ o w1, R = .ok (some o) w1 ∧ Inv w1 (o :: live) ∧ w.objs ≤ o ∧ ∃ st, Open w1 (some o) st ∧ st.last = .none ∧ st.eof = false) →
          (R.bind fun f w => .ok (f, if f ≠ none then StdErr.ok else .nullf) w) ≠ .ub ∧
          ∀ (r : File × StdErr) (w' : World), (R.bind fun f w => .ok (f, if f ≠ none then StdErr.ok else .nullf) w) = .ok r w' → Inv w' (r.1.toList ++ live) ∧
            ((r.2 = .ok ↔ r.1 ≠ none) ∧ (r.2 ≠ .ok → r.2 = .nullf)) ∧
            (∀ o, r.1 = some o → w.objs ≤ o ∧ ∃ st, Open w' (some o) st ∧ st.last = .none ∧ st.eof = false) := by
        rintro R ⟨o, w1, rfl, hi, hge, hst⟩
        refine ⟨fun e => (nomatch e), fun r w' e => ?_⟩
        rw [Res.bind, if_pos (fun h => nomatch h)] at e
        cases e
        refine ⟨hi, ⟨⟨fun _ h => (nomatch h), fun _ => rfl⟩, fun h => absurd rfl h⟩, fun o' e' => ?_⟩
        cases e'
        exact ⟨hge, hst⟩
      have finNone : ∀ (R : Res File), R = .ok none w →
          (R.bind fun f w => .ok (f, if f ≠ none then StdErr.ok else .nullf) w) ≠ .ub ∧
          ∀ (r : File × StdErr) (w' : World), (R.bind fun f w => .ok (f, if f ≠ none then StdErr.ok else .nullf) w) = .ok r w' → Inv w' (r.1.toList ++ live) ∧
            ((r.2 = .ok ↔ r.1 ≠ none) ∧ (r.2 ≠ .ok → r.2 = .nullf)) ∧
            (∀ o, r.1 = some o → w.objs ≤ o ∧ ∃ st, Open w' (some o) st ∧ st.last = .none ∧ st.eof = false) := by
        rintro R rfl
        refine ⟨fun e => (nomatch e), fun r w' e => ?_⟩
        rw [Res.bind, if_neg (fun h => h rfl)] at e
        cases e
        exact ⟨h, ⟨⟨fun e => (nomatch e), fun e => absurd rfl e⟩, fun _ => rfl⟩, fun o' e' => nomatch e'⟩
      rw [rtlfopen, cfopen]
      rw [if_neg (hhead mode hmem)]
      split
      · exact finNone _ rfl
      · split
        · rename_i i _
          apply fin
          split
          · exact hnew _ i (h.same ⟨rfl, rfl, rfl, fun _ => rfl⟩) rfl
          · exact hnew _ i h rfl
        · split
          · exact finNone _ rfl
          · apply fin
            exact hnew _ _ (h.same ⟨rfl, rfl, rfl, fun _ => rfl⟩) rfl
  · refine ⟨fun e => (nomatch e), fun r w' e => ?_⟩
    cases e
    exact ⟨h, ⟨⟨fun e => (nomatch e), fun e => absurd rfl e⟩, fun _ => rfl⟩, fun o' e' => nomatch e'⟩

/-- Closing a stream of a structure that is not static. -/
theorem close_inv {w : World} {live live' : List Nat} (h : Inv w live) {o s : Nat} (ho : w.obj o = some s) (h3 : 3 ≤ o)
    (hl : ∀ o' ∈ live, o' ≠ o → o' ∈ live') (hl' : ∀ o' ∈ live', o' ∈ live) :
    Inv { w with stream := set w.stream s none, obj := set w.obj o none } live' := by
  have hs3 : ¬ s < 3 := fun hlt => by have := (h.stdObj o s ho).mpr hlt; omega
  have hcase : ∀ o' s', set w.obj o none o' = some s' → o' ≠ o ∧ w.obj o' = some s' ∧ s' ≠ s := by
    intro o' s' e
    have hne : o' ≠ o := fun hh => by rw [hh, set_same] at e; cases e
    rw [set_ne _ _ hne] at e
    exact ⟨hne, e, fun hh => hne (h.inj o' o s (hh ▸ e) ho)⟩
  refine ⟨h.streams, h.objs, fun t ht => ?_, fun o' ho' => ?_, fun o' s' e => ?_, fun o' o'' s' e e' => ?_,
          fun t ht => ?_, fun o' s' e => ?_, fun t ht e => ?_, fun o' ho' => ?_, fun o' s' e ho' => ?_⟩
  · dsimp only at ht ⊢
    by_cases hh : t = s
    · rw [hh, set_same]
    · rw [set_ne _ _ hh]; exact h.fresh t ht
  · dsimp only at ho' ⊢
    by_cases hh : o' = o
    · rw [hh, set_same]
    · rw [set_ne _ _ hh]; exact h.freshObj o' ho'
  · obtain ⟨_, h2, h4⟩ := hcase o' s' e
    dsimp only
    rw [set_ne _ _ h4]
    exact h.isOpen o' s' h2
  · exact h.inj o' o'' s' (hcase _ _ e).2.1 (hcase _ _ e').2.1
  · dsimp only
    rw [set_ne _ _ (fun hh => hs3 (by omega))]
    exact h.std t ht
  · exact h.stdObj o' s' (hcase _ _ e).2.1
  · dsimp only at e ⊢
    by_cases hh : t = s
    · rw [hh, set_same] at e; cases e
    · rw [set_ne _ _ hh] at e
      obtain ⟨o', hm, hos⟩ := h.used t ht e
      have hne : o' ≠ o := fun h' => hh (by rw [h'] at hos; exact Option.some.inj (hos.symm.trans ho))
      exact ⟨o', hl o' hm hne, by rw [set_ne _ _ hne]; exact hos⟩
  · exact h.live o' (hl' o' ho')
  · exact h.stdSelf o' s' (hcase _ _ e).2.1 ho'

theorem start_inv {w : World} (h : Start w) : Inv w [] := by
  have hno : ∀ o s, w.obj o = some s → False := fun o s e => by rw [h.obj o] at e; cases e
  refine ⟨Nat.le_of_eq h.streams.symm, Nat.le_of_eq h.objs.symm, fun s hs => h.others s (h.streams ▸ hs), fun o _ => h.obj o,
    fun o s e => (hno o s e).elim, fun o _ s e _ => (hno o s e).elim, fun s hs => ?_, fun o s e => (hno o s e).elim, fun s hs e => ?_,
    fun o ho => (nomatch ho), fun o s e _ => (hno o s e).elim⟩
  · obtain ⟨st, e⟩ := h.std s hs
    rw [e]
    rfl
  · rw [h.others s hs] at e
    cases e

/-- One step: no undefined behaviour, and the invariant is kept. -/
theorem exec_inv {S : Sys} {w : World} {live : List Nat} (h : Inv w live) {op : Op} (hl : Legal live op) (hu : ¬ Undefined w op) :
    exec S live op w ≠ .ub ∧ ∀ live' w', exec S live op w = .ok live' w' → Inv w' live' := by
  have lift : ∀ {α : Type} {r : Res α}, Good w r → (r.bind fun _ w => .ok live w) ≠ .ub ∧
      ∀ live' w', (r.bind fun _ w => .ok live w) = .ok live' w' → Inv w' live' := by
    intro α r hg
    have hg' : Good w (r.bind fun _ w => .ok live w) := Good.bind hg fun _ _ _ => Good.ok _ (Same.refl _)
    refine ⟨hg'.1, fun live' w' e => ?_⟩
    have : live' = live := by
      cases r with
      | ok a w1 => cases e; rfl
      | ub => cases e
      | panic => cases e
    rw [this]
    exact h.same (hg'.2 _ _ e)
  cases op with
  | fopen name mode =>
    obtain ⟨h1, h2⟩ := fopen_inv (S := S) h (name := name) (mode := mode) hu
    rw [exec]
    cases e : fopen S name mode w with
    | ub => exact absurd e h1
    | panic => exact ⟨fun e => (nomatch e), fun _ _ e => nomatch e⟩
    | ok r w' =>
      refine ⟨fun e => (nomatch e), fun _ _ e' => ?_⟩
      cases e'
      exact (h2 r w' e).1
  | fclose f =>
    rw [exec]
    cases f with
    | none => exact lift (by rw [fclose, if_pos rfl]; exact Good.ok _ (Same.refl _))
    | some o =>
      cases ho : w.obj o with
      | none => exact lift (by rw [(closed_eq (S := S) ho).1]; exact Good.ok _ (Same.refl _))
      | some s =>
        obtain ⟨st, hs⟩ := Option.isSome_iff_exists.mp (h.isOpen o s ho)
        rw [fclose_eq ho hs, Res.bind]
        refine ⟨fun e => (nomatch e), fun _ _ e' => ?_⟩
        cases e'
        exact close_inv h ho (hl.2.2 (some o) rfl o rfl) (fun _ hm _ => hm) fun _ hm => hm
  | fseek f offset origin => exact lift (good_fseek h f offset origin)
  | ftell f => exact lift (good_ftell h f)
  | remove name => exact lift (good_remove hu)
  | feof f => exact lift (good_feof h f)
  | fflush f => exact lift (good_fflush h f)
  | fread f buf => exact lift (good_fread h f buf fun st ho hw => hu ⟨st, ho, hw⟩)
  | fwrite f buf => exact lift (good_fwrite h f buf fun st ho hw => hu ⟨st, ho, hw.1, hw.2⟩)
  | freadall f => exact lift (good_freadall h f)
  | std k =>
    refine ⟨fun e => (nomatch e), fun _ _ e => ?_⟩
    rw [exec, rtlstd, Res.bind] at e
    cases e
    have hk : (k : Nat) < 3 := k.2
    have hcase : ∀ o s, set w.obj (k : Nat) (some (k : Nat)) o = some s → (o = k ∧ s = k) ∨ (o ≠ k ∧ w.obj o = some s) := by
      intro o s e
      by_cases hh : o = k
      · rw [hh, set_same] at e
        cases e
        exact .inl ⟨hh, rfl⟩
      · rw [set_ne _ _ hh] at e
        exact .inr ⟨hh, e⟩
    have hnk : ∀ o, w.obj o = some (k : Nat) → o = k := fun o e => h.stdSelf o k e ((h.stdObj o k e).mpr hk)
    refine ⟨h.streams, h.objs, h.fresh, fun o ho => ?_, fun o s e => ?_, fun o o' s e e' => ?_, h.std, fun o s e => ?_, fun s hs e => ?_,
      fun o ho => ?_, fun o s e ho => ?_⟩
    · have := h.objs
      dsimp only at ho ⊢
      rw [set_ne _ _ (by omega)]
      exact h.freshObj o ho
    · rcases hcase o s e with ⟨_, h2⟩ | ⟨_, h2⟩
      · rw [h2]; exact h.std k hk
      · exact h.isOpen o s h2
    · rcases hcase o s e with ⟨h1, h2⟩ | ⟨h1, h2⟩ <;> rcases hcase o' s e' with ⟨h1', h2'⟩ | ⟨h1', h2'⟩
      · rw [h1, h1']
      · exact absurd (hnk o' (h2 ▸ h2')) h1'
      · exact absurd (hnk o (h2' ▸ h2)) h1
      · exact h.inj o o' s h2 h2'
    · rcases hcase o s e with ⟨h1, h2⟩ | ⟨_, h2⟩
      · omega
      · exact h.stdObj o s h2
    · obtain ⟨o, hm, hos⟩ := h.used s hs e
      refine ⟨o, List.mem_append_right _ hm, ?_⟩
      dsimp only
      rw [set_ne _ _ (fun hh => by have := (h.stdObj o s hos).mp (by omega); omega)]
      exact hos
    · have := h.objs
      dsimp only
      rcases List.mem_append.mp ho with hm | hm
      · have : o = k := by
          rw [Option.toList_some, List.mem_singleton] at hm
          exact hm
        omega
      · exact h.live o hm
    · rcases hcase o s e with ⟨h1, h2⟩ | ⟨_, h2⟩
      · omega
      · exact h.stdSelf o s h2 ho
  | free o =>
    have h3 := hl.2.1 o rfl
    rw [exec, rtlOnFreeFile, withStream]
    cases ho : w.obj o with
    | none =>
      refine ⟨fun e => (nomatch e), fun _ _ e => ?_⟩
      cases e
      refine ⟨h.streams, h.objs, h.fresh, h.freshObj, h.isOpen, h.inj, h.std, h.stdObj, fun s hs e => ?_, fun o' hm => ?_, h.stdSelf⟩
      · obtain ⟨o', hm, hos⟩ := h.used s hs e
        refine ⟨o', List.mem_filter.mpr ⟨hm, ?_⟩, hos⟩
        rw [bne_iff_ne]
        intro hh
        rw [hh, ho] at hos
        cases hos
      · exact h.live o' (List.mem_filter.mp hm).1
    | some s =>
      obtain ⟨st, hs⟩ := Option.isSome_iff_exists.mp (h.isOpen o s ho)
      dsimp only
      rw [cfclose, hs]
      refine ⟨fun e => (nomatch e), fun _ _ e => ?_⟩
      cases e
      refine close_inv h ho h3.2 (fun o' hm hne => List.mem_filter.mpr ⟨hm, by rw [bne_iff_ne]; exact hne⟩) fun o' hm => (List.mem_filter.mp hm).1
  | assign v bytes =>
    refine ⟨fun e => (nomatch e), fun _ _ e => ?_⟩
    cases e
    exact h.same ⟨rfl, rfl, rfl, fun _ => rfl⟩

/-- A step that has a result is not undefined. -/
theorem exec_defined {S : Sys} {w w' : World} {live live' : List Nat} (h : Inv w live) {op : Op} (hl : Legal live op)
    (e : exec S live op w = .ok live' w') : Inv w' live' := by
  by_cases hu : Undefined w op
  · cases op with
    | fopen name mode =>
      obtain ⟨h1, h2⟩ := hu
      subst h1
      rw [exec, fopen, if_pos (List.contains_iff_mem.mpr ((mem_modes _).mpr h2))] at e
      cases e
    | remove name =>
      have h1 : name = none := hu
      subst h1
      cases e
    | fread f buf =>
      -- the call did not get as far as the C library, or the file is not open for reading
      obtain ⟨st, ⟨o, s, rfl, ho, hs⟩, hw⟩ := hu
      rw [exec, fread, freadwrite, if_neg (fun h => nomatch h)] at e
      split at e
      · cases e
      · cases e; exact h
      split at e
      · cases e; exact h
      split at e
      · cases e; exact h
      rw [if_pos rfl, rtlfread, withStream] at e
      simp only [ho] at e
      rw [cfread, hs] at e
      simp only [if_pos hw] at e
      split at e
      · cases e
        exact h.same ⟨rfl, rfl, rfl, fun _ => rfl⟩
      · cases e
    | fwrite f buf =>
      obtain ⟨st, ⟨o, s, rfl, ho, hs⟩, hw⟩ := hu
      rw [exec, fwrite, freadwrite, if_neg (fun h => nomatch h)] at e
      split at e
      · cases e
      · cases e; exact h
      split at e
      · cases e; exact h
      split at e
      · cases e; exact h
      rw [if_neg (by decide), rtlfwrite, withStream] at e
      simp only [ho] at e
      rw [cfwrite, hs] at e
      simp only [if_pos hw] at e
      split at e
      · cases e; exact h
      · cases e
    | fclose _ => exact hu.elim
    | fseek _ _ _ => exact hu.elim
    | ftell _ => exact hu.elim
    | feof _ => exact hu.elim
    | fflush _ => exact hu.elim
    | freadall _ => exact hu.elim
    | std _ => exact hu.elim
    | free _ => exact hu.elim
    | assign _ _ => exact hu.elim
  · exact (exec_inv h hl hu).2 _ _ e

theorem reach_inv {S : Sys} {w : World} {live : List Nat} (h : Reach S w live) : Inv w live := by
  induction h with
  | start h => exact start_inv h
  | step _ hl e ih => exact exec_defined ih hl e

end Umka.Files.Spec
