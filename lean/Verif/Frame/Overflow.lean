import Verif.Frame.Model
/-!
# Frame: where stack overflow is reported
-/

namespace Umka.Frame

theorem push_no {f : Fiber} {v : Int} : push f v ≠ .error .overflow := by
  rw [push]
  split <;> exact fun e => nomatch e

theorem pushAll_no {vs : List Int} : ∀ {f : Fiber}, pushAll f vs ≠ .error .overflow := by
  induction vs with
  | nil => intro f e; cases e
  | cons v vs ih =>
    intro f e
    rw [pushAll] at e
    cases h : push f v with
    | error x =>
      rw [h] at e
      cases e
      exact push_no h
    | ok g =>
      rw [h] at e
      exact ih e

theorem writeAll_no {ws : List (Ptr × Int)} : ∀ {vm : VM}, writeAll vm ws ≠ .error .overflow := by
  induction ws with
  | nil => intro vm e; cases e
  | cons w ws ih =>
    intro vm e
    obtain ⟨⟨k, i⟩, v⟩ := w
    rw [writeAll] at e
    split at e
    · cases e
    · exact ih e

theorem findFrame_no {p : Program} {f : Fiber} {i : Int} {n : Nat} : ∀ {b : Int}, findFrame p f i n b ≠ .error .overflow := by
  induction n with
  | zero => intro b e; cases e
  | succ n ih =>
    intro b e
    rw [findFrame] at e
    split at e
    · split at e
      · cases e
      · exact ih e
    · cases e

theorem frameRefCnt_no {p : Program} {f : Fiber} {i delta : Int} : frameRefCnt p f i delta ≠ .error .overflow := by
  intro e
  rw [frameRefCnt] at e
  split at e
  · split at e
    · cases e
    · cases h : findFrame p f i (f.size - f.base).toNat f.base with
      | error x =>
        rw [h] at e
        cases e
        exact findFrame_no h
      | ok b => rw [h] at e; cases e
  · cases e

theorem refCnt_no {p : Program} {ptr : Ptr} {delta : Int} {n : Nat} : ∀ {vm : VM} {k : Nat}, refCnt p ptr delta n vm k ≠ .error .overflow := by
  induction n with
  | zero => intro vm k e; cases e
  | succ n ih =>
    intro vm k e
    rw [refCnt] at e
    split at e
    · cases h : frameRefCnt p (vm.fiber k) ptr.2 delta with
      | error x =>
        rw [h] at e
        cases e
        exact frameRefCnt_no h
      | ok g =>
        rw [h] at e
        simp only [Except.map, bind, Except.bind] at e
        split at e
        · cases e
        · exact ih e
    · simp only [bind, Except.bind] at e
      split at e
      · cases e
      · exact ih e

theorem newFiber_no {f : Fiber} {k : Nat} {entry : Int} {up : Int × Int} : newFiber f k entry up ≠ .error .overflow := by
  intro e
  rw [newFiber] at e
  split at e
  · cases e
  · simp only [bind, Except.bind, pure, Except.pure] at e
    split at e
    · rename_i x h
      cases e
      exact pushAll_no h
    · cases e

theorem leaveFrame_no {f : Fiber} : leaveFrame f ≠ .error .overflow := by
  rw [leaveFrame]
  split <;> exact fun e => nomatch e

theorem exitLoop_no {vm : VM} : exitLoop vm ≠ .err .overflow := by
  rw [exitLoop.eq_def]
  split <;> exact fun e => nomatch e

theorem of_no {r : Except Err VM} (h : r ≠ .error .overflow) : Res.of r ≠ .err .overflow := by
  cases r with
  | error e => intro h'; cases h'; exact h rfl
  | ok vm => exact fun e => nomatch e

theorem with1_no {vm : VM} {r : Except Err Fiber} (h : r ≠ .error .overflow) : with1 vm r ≠ .err .overflow := by
  cases r with
  | error e => intro h'; cases h'; exact h rfl
  | ok f => exact fun e => nomatch e

theorem bind_no {α β : Type} {r : Except Err α} {k : α → Except Err β} (h : r ≠ .error .overflow) (hk : ∀ a, k a ≠ .error .overflow) :
    (r >>= k) ≠ .error .overflow := by
  cases r with
  | error e => intro h'; cases h'; exact h rfl
  | ok a => exact hk a

theorem ok_no {α : Type} {a : α} : (pure a : Except Err α) ≠ .error .overflow := fun e => nomatch e

theorem enterFrame_iff {p : Program} {f : Fiber} {l : Int} :
    enterFrame p f l = .error .overflow ↔ f.top - (p.layout l).locals < 1024 := by
  rw [enterFrame]
  dsimp only
  by_cases h : f.top - (p.layout l).locals < minFree
  · rw [if_pos h]
    exact ⟨fun _ => h, fun _ => rfl⟩
  · rw [if_neg h]
    refine ⟨fun e => absurd e ?_, fun h' => absurd h' h⟩
    refine bind_no push_no fun _ => bind_no push_no fun _ => bind_no push_no fun g => ?_
    split <;> exact fun e => nomatch e

/-- Stack overflow is reported before an instruction that finds fewer than 1024 slots free, and by those two that take many slots at once. -/
theorem step_overflow {p : Program} {vm : VM} : step p vm = .err .overflow ↔
    (vm.fiber vm.loc).top < 1024 ∨
    (∃ l, p.code (vm.fiber vm.loc).ip = .enter l ∧ (vm.fiber vm.loc).top - (p.layout l).locals < 1024) ∨
    (∃ pop vals, p.code (vm.fiber vm.loc).ip = .block pop vals ∧ (vm.fiber vm.loc).top + pop - (vals vm).length < 1024) := by
  rw [step]
  dsimp only
  by_cases h : (vm.fiber vm.loc).top < minFree
  · rw [if_pos h]
    exact ⟨fun _ => .inl h, fun _ => rfl⟩
  rw [if_neg h]
  have h' : ¬ (vm.fiber vm.loc).top < 1024 := h
  cases hc : p.code (vm.fiber vm.loc).ip with
  | enter l =>
    simp only [h', false_or]
    constructor
    · intro e
      refine .inl ⟨l, rfl, enterFrame_iff.mp ?_⟩
      exact Classical.byContradiction fun hn => with1_no hn e
    · rintro (⟨l', e, h2⟩ | ⟨_, _, e, _⟩)
      · cases e
        rw [enterFrame_iff.mpr h2]
        rfl
      · cases e
  | block pop vals =>
    simp only [h', false_or]
    by_cases hb : (vm.fiber vm.loc).top + pop - (vals vm).length < minFree
    · rw [if_pos hb]
      exact ⟨fun _ => .inr ⟨pop, vals, rfl, hb⟩, fun _ => rfl⟩
    · rw [if_neg hb]
      refine ⟨fun e => absurd e (with1_no pushAll_no), ?_⟩
      rintro (⟨_, e, _⟩ | ⟨_, _, e, h2⟩)
      · cases e
      · cases e; exact absurd h2 hb
  | data =>
    refine ⟨fun e => absurd e ?_, fun e => ?_⟩
    rotate_left
    · rcases e with e | ⟨_, e, _⟩ | ⟨_, _, e, _⟩
      · exact absurd e h'
      · cases e
      · cases e
    dsimp only
    exact of_no (bind_no pushAll_no fun _ => writeAll_no)
  | jump =>
    refine ⟨fun e => absurd e ?_, fun e => ?_⟩
    rotate_left
    · rcases e with e | ⟨_, e, _⟩ | ⟨_, _, e, _⟩
      · exact absurd e h'
      · cases e
      · cases e
    dsimp only
    intro e; cases e
  | call =>
    refine ⟨fun e => absurd e ?_, fun e => ?_⟩
    rotate_left
    · rcases e with e | ⟨_, e, _⟩ | ⟨_, _, e, _⟩
      · exact absurd e h'
      · cases e
      · cases e
    dsimp only
    exact with1_no (bind_no push_no fun _ => ok_no)
  | callIndirect =>
    refine ⟨fun e => absurd e ?_, fun e => ?_⟩
    rotate_left
    · rcases e with e | ⟨_, e, _⟩ | ⟨_, _, e, _⟩
      · exact absurd e h'
      · cases e
      · cases e
    dsimp only
    refine with1_no ?_
    split
    · exact fun e => nomatch e
    · exact bind_no push_no fun _ => ok_no
  | leave =>
    refine ⟨fun e => absurd e ?_, fun e => ?_⟩
    rotate_left
    · rcases e with e | ⟨_, e, _⟩ | ⟨_, _, e, _⟩
      · exact absurd e h'
      · cases e
      · cases e
    dsimp only
    exact with1_no leaveFrame_no
  | ret =>
    refine ⟨fun e => absurd e ?_, fun e => ?_⟩
    rotate_left
    · rcases e with e | ⟨_, e, _⟩ | ⟨_, _, e, _⟩
      · exact absurd e h'
      · cases e
      · cases e
    dsimp only
    split
    · split
      · exact exitLoop_no
      · split
        · exact exitLoop_no
        · exact fun e => nomatch e
    · split
      · exact exitLoop_no
      · exact fun e => nomatch e
  | ref =>
    refine ⟨fun e => absurd e ?_, fun e => ?_⟩
    rotate_left
    · rcases e with e | ⟨_, e, _⟩ | ⟨_, _, e, _⟩
      · exact absurd e h'
      · cases e
      · cases e
    dsimp only
    split
    · exact fun e => nomatch e
    · exact of_no refCnt_no
  | spawn =>
    refine ⟨fun e => absurd e ?_, fun e => ?_⟩
    rotate_left
    · rcases e with e | ⟨_, e, _⟩ | ⟨_, _, e, _⟩
      · exact absurd e h'
      · cases e
      · cases e
    dsimp only
    exact of_no (bind_no newFiber_no fun _ => bind_no push_no fun _ => ok_no)
  | resume =>
    refine ⟨fun e => absurd e ?_, fun e => ?_⟩
    rotate_left
    · rcases e with e | ⟨_, e, _⟩ | ⟨_, _, e, _⟩
      · exact absurd e h'
      · cases e
      · cases e
    dsimp only
    split
    · exact exitLoop_no
    · exact fun e => nomatch e
  | ext =>
    refine ⟨fun e => absurd e ?_, fun e => ?_⟩
    rotate_left
    · rcases e with e | ⟨_, e, _⟩ | ⟨_, _, e, _⟩
      · exact absurd e h'
      · cases e
      · cases e
    dsimp only
    split
    · exact fun e => nomatch e
    split
    · exact fun e => nomatch e
    split
    · exact fun e => nomatch e
    split
    · exact fun e => nomatch e
    · exact of_no (bind_no pushAll_no fun _ => ok_no)
  | halt =>
    refine ⟨fun e => absurd e ?_, fun e => ?_⟩
    rotate_left
    · rcases e with e | ⟨_, e, _⟩ | ⟨_, _, e, _⟩
      · exact absurd e h'
      · cases e
      · cases e
    dsimp only
    exact exitLoop_no

end Umka.Frame
