import Verif.Files.Lemmas
/-!
# Files: writing and reading piece by piece
-/

namespace Umka.Files.Spec

/-- Appending bytes at the end. -/
theorem overwrite_end (old bytes : List Byte) : overwrite old old.length bytes = old ++ bytes := by
  rw [overwrite, List.take_length, Nat.sub_self, List.drop_eq_nil_of_le (by omega)]
  simp

/-- Writing pieces at the end of a file. -/
theorem writePieces_end {S : Sys} {v o s : Nat} : ∀ (bs : List (List Byte)) (w : World) (st : Stream), w.obj o = some s → w.stream s = some st →
    st.canWrite = true → st.last ≠ .read → st.pos = (w.file st.file).length → (w.file st.file).length + bs.flatten.length ≤ S.room →
    ∃ w', writePieces S (some o) v bs w = .ok (bs.map fun b => (b.length, StdErr.ok)) w' ∧
      w'.file = set w.file st.file (w.file st.file ++ bs.flatten) ∧ w'.obj = w.obj ∧ w'.dir = w.dir ∧ w'.files = w.files ∧ w'.streams = w.streams ∧
      w'.objs = w.objs ∧ w'.vars = w.vars ∧ (∀ t, t ≠ s → w'.stream t = w.stream t) ∧
      ∃ st', w'.stream s = some st' := by
  intro bs
  induction bs with
  | nil =>
    intro w st ho hs _ _ _ _
    refine ⟨w, rfl, ?_, rfl, rfl, rfl, rfl, rfl, rfl, fun _ _ => rfl, st, hs⟩
    rw [List.flatten_nil, List.append_nil, set_self]
  | cons b bs ih =>
    intro w st ho hs hw hl hp hr
    rw [List.flatten_cons, List.length_append] at hr
    have hP : Plain ⟨.bytes, some v⟩ v := ⟨rfl, Kind.noConfusion⟩
    by_cases hb : b = []
    · subst hb
      obtain ⟨w', e, h1, h2⟩ := ih { w with var := set w.var v [] } st ho hs hw hl hp (by simpa using hr)
      refine ⟨w', ?_, ?_, h2⟩
      · rw [writePieces, fwrite, freadwrite_empty hP (by exact set_same ..), Res.bind, e]
        rfl
      · rw [h1]
        rfl
    · have hpos : (if st.append then (w.file st.file).length else st.pos) = (w.file st.file).length := by
        split
        · rfl
        · exact hp
      have htake : b.take (S.room - (w.file st.file).length) = b := List.take_of_length_le (by omega)
      have e0 := fwrite_eq (S := S) (w := { w with var := set w.var v b }) (buf := ⟨.bytes, some v⟩) ho hs hw
        (fun h => hl h.1) hP (by exact set_same ..) hb
      dsimp only at e0
      rw [hpos, htake, if_pos rfl, if_neg hb, overwrite_end] at e0
      obtain ⟨w', e, h1, h2, h3, h4, h5, h6, h7, h8, h9⟩ := ih
        (withState { w with file := set w.file st.file (w.file st.file ++ b), var := set w.var v b } s
          { st with pos := (w.file st.file).length + b.length, last := .write })
        { st with pos := (w.file st.file).length + b.length, last := .write }
        ho (set_same ..) hw Last.noConfusion (by simp only [withState, set_same, List.length_append])
        (by simp only [withState, set_same, List.length_append]; omega)
      refine ⟨w', ?_, ?_, h2, h3, h4, h5, h6, h7, fun t ht => (h8 t ht).trans (set_ne _ _ ht), h9⟩
      · rw [writePieces, e0, Res.bind, e]
        rfl
      · rw [h1]
        simp only [withState, set_same, List.flatten_cons, List.append_assoc]
        funext j
        by_cases h : j = st.file
        · rw [h, set_same, set_same]
        · rw [set_ne _ _ h, set_ne _ _ h, set_ne _ _ h]

/-- The pieces of a list. -/
def cut : List Nat → List Byte → List (List Byte)
  | [], _ => []
  | n :: ns, l => l.take n :: cut ns (l.drop n)

theorem cut_flatten : ∀ (ns : List Nat) (l : List Byte), (cut ns l).flatten = l.take ns.sum
  | [], l => by rw [cut, List.flatten_nil, List.sum_nil, List.take_zero]
  | n :: ns, l => by rw [cut, List.flatten_cons, cut_flatten ns, List.sum_cons, List.take_add]

/-- Reading pieces. -/
theorem readPieces_eq {S : Sys} {v o s : Nat} : ∀ (ns : List Nat) (w : World) (st : Stream), w.obj o = some s → w.stream s = some st →
    st.canRead = true → st.last ≠ .write → (∀ n ∈ ns, 0 < n) → st.pos ≤ (w.file st.file).length →
    ∃ w', readPieces S (some o) v ns w =
        .ok ((cut ns ((w.file st.file).drop st.pos)).zipWith (fun p n => (p, if p.length = n then StdErr.ok else .eof)) ns) w' ∧
      w'.file = w.file ∧ w'.obj = w.obj ∧
      ∃ st', w'.stream s = some st' ∧ st'.pos = min (st.pos + ns.sum) (w.file st.file).length ∧ st'.file = st.file ∧
        st'.eof = (st.eof || decide (st.pos + ns.sum > (w.file st.file).length)) := by
  intro ns
  induction ns with
  | nil =>
    intro w st ho hs hr hl hn hp
    refine ⟨w, rfl, rfl, rfl, st, hs, ?_, rfl, ?_⟩
    · rw [List.sum_nil]; omega
    · rw [List.sum_nil, decide_eq_false (by omega), Bool.or_false]
  | cons n ns ih =>
    intro w st ho hs hr hl hn hp
    have hP : Plain ⟨.bytes, some v⟩ v := ⟨rfl, Kind.noConfusion⟩
    have hn0 : 0 < n := hn n (List.mem_cons_self ..)
    have e0 := fread_eq (S := S) (w := { w with var := set w.var v (List.replicate n 0) }) (buf := ⟨.bytes, some v⟩) ho hs hr hl hP (by exact set_same ..)
      (by intro h; have := congrArg List.length h; rw [List.length_replicate, List.length_nil] at this; omega)
    dsimp only at e0
    rw [List.length_replicate] at e0
    have hlen : (((w.file st.file).drop st.pos).take n).length = min n ((w.file st.file).length - st.pos) := by
      rw [List.length_take, List.length_drop]
    obtain ⟨w', e, h1, h2, st', h3, h4, h5, h6⟩ := ih
      (withState { w with var := set (set w.var v (List.replicate n 0)) v (((w.file st.file).drop st.pos).take n ++ (List.replicate n 0).drop (((w.file st.file).drop st.pos).take n).length) } s
        { st with
          pos := st.pos + (((w.file st.file).drop st.pos).take n).length
          eof := st.eof || decide ((((w.file st.file).drop st.pos).take n).length < n)
          last := .read })
      { st with
        pos := st.pos + (((w.file st.file).drop st.pos).take n).length
        eof := st.eof || decide ((((w.file st.file).drop st.pos).take n).length < n)
        last := .read }
      ho (set_same ..) hr Last.noConfusion (fun m hm => hn m (List.mem_cons_of_mem _ hm))
      (by simp only [withState]; rw [hlen]; omega)
    refine ⟨w', ?_, h1, h2, st', h3, ?_, h5, ?_⟩
    · rw [readPieces, e0, Res.bind]
      dsimp only
      rw [e, Res.bind]
      simp only [withState, set_same, cut, List.zipWith_cons_cons]
      congr 2
      · rw [List.take_left]
      · congr 1
        rw [← List.drop_drop]
        by_cases h : n ≤ (w.file st.file).length - st.pos
        · rw [hlen, Nat.min_eq_left h]
        · rw [hlen, Nat.min_eq_right (by omega), List.drop_eq_nil_of_le (by rw [List.length_drop]; exact Nat.le_refl _),
            List.drop_eq_nil_of_le (by rw [List.length_drop]; omega)]
    · rw [h4, List.sum_cons]
      simp only [withState, hlen]
      omega
    · rw [h6, List.sum_cons, Bool.or_assoc]
      simp only [withState, hlen]
      congr 1
      rw [Bool.eq_iff_iff, Bool.or_eq_true, decide_eq_true_eq, decide_eq_true_eq, decide_eq_true_eq]
      omega

/-- Reading the whole file. -/
theorem freadall_eq {S : Sys} {w : World} {o s : Nat} {st : Stream} (ho : w.obj o = some s) (hs : w.stream s = some st)
    (hr : st.canRead = true) (hsz : (w.file st.file).length ≤ 0x7FFFFF00) :
    ∃ w', freadall S (some o) w = .ok (w.file st.file, .ok) w' ∧ w'.file = w.file ∧ w'.obj = w.obj ∧ w'.dir = w.dir ∧
      (∀ t, t ≠ s → w'.stream t = w.stream t) ∧
      ∃ st', w'.stream s = some st' ∧ st'.pos = (w.file st.file).length ∧ st'.file = st.file ∧ st'.eof = false ∧
        st'.canRead = st.canRead ∧ st'.canWrite = st.canWrite ∧ st'.append = st.append := by
  have t0 : toInt 0 = 0 := by decide
  have e1 := fseek_eq ho hs 0 .end
  rw [t0, originPos, if_neg (by omega)] at e1
  have hs1 : (withState w s { st with pos := (((w.file st.file).length : Int) + 0).toNat, eof := false, last := .none }).stream s =
    some { st with pos := (((w.file st.file).length : Int) + 0).toNat, eof := false, last := .none } := set_same ..
  have e2 := ftell_eq (w := withState w s { st with pos := (((w.file st.file).length : Int) + 0).toNat, eof := false, last := .none }) ho hs1
  have e3 := fseek_eq (w := withState w s { st with pos := (((w.file st.file).length : Int) + 0).toNat, eof := false, last := .none }) ho hs1 0 .begin
  rw [t0, originPos, if_neg (by omega)] at e3
  have hT : (((w.file st.file).length : Int) + 0).toNat = (w.file st.file).length := by omega
  rw [hT] at e1 e2 e3 hs1
  have hz : ((0 : Int) + 0).toNat = 0 := rfl
  rw [hz] at e3
  have key : freadall S (some o) w =
      (fread S (some o) (some ⟨.bytes, some w.vars⟩)
        { withState (withState w s { st with pos := (w.file st.file).length, eof := false, last := .none }) s
            { st with pos := 0, eof := false, last := .none } with
          var := set w.var w.vars (List.replicate (w.file st.file).length 0), vars := w.vars + 1 }).bind fun r w' =>
        .ok (w'.var w.vars, r.2) w' := by
    rw [freadall, e1, Res.bind, if_neg (by decide), e2, Res.bind, if_neg (fun h => h rfl)]
    dsimp only
    rw [if_neg (by omega), e3, Res.bind, if_neg (by decide)]
    rfl
  have hP : Plain ⟨.bytes, some w.vars⟩ w.vars := ⟨rfl, Kind.noConfusion⟩
  by_cases hb : w.file st.file = []
  · rw [key, fread, freadwrite_empty hP (by show set _ _ _ _ = _; rw [set_same, hb]; rfl), Res.bind]
    refine ⟨_, by simp only [set_same, hb]; rfl, ?_⟩
    refine ⟨rfl, rfl, rfl, fun t ht => ?_, _, set_same .., ?_, rfl, rfl, rfl, rfl, rfl⟩
    · simp only [withState]; rw [set_ne _ _ ht, set_ne _ _ ht]
    · rw [hb]; rfl
  · have e4 := fread_eq (S := S) (v := w.vars)
      (w := { withState (withState w s { st with pos := (w.file st.file).length, eof := false, last := .none }) s
            { st with pos := 0, eof := false, last := .none } with
          var := set w.var w.vars (List.replicate (w.file st.file).length 0), vars := w.vars + 1 })
      (buf := ⟨.bytes, some w.vars⟩) (o := o) (s := s) (st := { st with pos := 0, eof := false, last := .none }) ho (set_same ..) hr Last.noConfusion hP (by exact set_same ..)
      (by
        intro h
        have := congrArg List.length h
        rw [List.length_replicate, List.length_nil] at this
        exact hb (List.length_eq_zero_iff.mp this))
    dsimp only at e4
    rw [List.length_replicate, List.drop_zero] at e4
    simp only [withState, List.take_length, if_true, Nat.lt_irrefl, decide_false, Bool.or_false, Nat.zero_add] at e4
    rw [key]
    simp only [withState]
    rw [e4, Res.bind]
    refine ⟨_, by simp only [set_same]; rw [List.drop_eq_nil_of_le (by rw [List.length_replicate]; exact Nat.le_refl _), List.append_nil], ?_⟩
    refine ⟨rfl, rfl, rfl, fun t ht => ?_, _, set_same .., rfl, rfl, rfl, rfl, rfl, rfl⟩
    · dsimp only
      rw [set_ne _ _ ht, set_ne _ _ ht, set_ne _ _ ht]

end Umka.Files.Spec
