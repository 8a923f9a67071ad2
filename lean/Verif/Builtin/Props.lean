import Verif.Builtin.Spec
/-! # Calls of built-in functions: property C102 -/

namespace Umka.Builtin.Props
open Umka.Builtin Umka.Builtin.Spec

set_option linter.unusedSimpArgs false

theorem complete (E : Env) (h : Lawful E) (f : Fun) (args : List Arg) (t : Ty) (hn : f = .sizeof → ∀ T, args ≠ [.type T false])
    (hs : Signature E f args t) : ∃ code, call E false f args = some (t, code) := by
  obtain ⟨h1, h2, h3⟩ := h
  cases hs
  case toInt a ha hf =>
    cases a <;> simp only [Arg.Is] at ha
    simp only [List.mem_cons, List.not_mem_nil, or_false] at hf
    rcases hf with rfl | rfl | rfl | rfl <;> simp [call, mathCall, ha]
  case toReal a ha hf =>
    cases a <;> simp only [Arg.Is] at ha
    simp only [List.mem_cons, List.not_mem_nil, or_false] at hf
    rcases hf with rfl | rfl | rfl | rfl | rfl | rfl | rfl <;> simp [call, mathCall, ha]
  case atan2 a b ha hb =>
    cases a <;> simp only [Arg.Is] at ha
    cases b <;> simp only [Arg.Is] at hb
    simp [call, mathCall, ha, hb]
  case new h4 h5 => simp [call, newCall, h4, h5]
  case newInit x h4 h5 hx =>
    cases x <;> simp only [Arg.Is] at hx
    simp [call, newCall, h4, h5, hx]
  case append T U a c ha h4 h5 h6 =>
    cases a <;> simp only [Arg.Has] at ha
    subst ha
    cases U <;> simp_all [call, appendCall]
  case appendDyn T U a c ha h4 =>
    cases a <;> simp only [Arg.Has] at ha
    subst ha
    simp [call, appendCall, h4]
  case appendArray T V n a c ha h4 =>
    cases a <;> simp only [Arg.Has] at ha
    subst ha
    simp [call, appendCall, h4]
  case insert T a i x ha hi hx =>
    cases a <;> simp only [Arg.Has] at ha
    cases i <;> simp only [Arg.Is] at hi
    cases x <;> simp only [Arg.Is] at hx
    subst ha
    simp [call, insertCall, hi, hx]
  case slice a i hi hr ha =>
    cases a <;> simp only [Arg.Has] at ha
    cases i <;> simp only [Arg.Is] at hi
    subst ha
    rcases hr with rfl | ⟨T, rfl⟩ <;> simp [call, sliceCall, hi]
  case sliceEnd a i j hi hj hr ha =>
    cases a <;> simp only [Arg.Has] at ha
    cases i <;> simp only [Arg.Is] at hi
    cases j <;> simp only [Arg.Is] at hj
    subst ha
    rcases hr with rfl | ⟨T, rfl⟩ <;> simp [call, sliceCall, hi, hj]
  case sort d c ha h4 h5 =>
    cases d <;> simp only [Arg.Has] at ha
    subst ha
    simp [call, sortCall, h4, h5]
  case sortFast d c ha h4 h5 =>
    cases d <;> simp only [Arg.Has] at ha
    subst ha
    simp [call, sortCall, h4, h5]
  case sortField d c s ha h4 h5 h6 =>
    cases d <;> simp only [Arg.Has] at ha
    subst ha
    simp [call, sortCall, h4, h5, h6]
  case len a ha =>
    cases a <;> simp [Arg.Has] at ha
    rcases ha with ⟨n, T, rfl⟩ | ⟨T, rfl⟩ | ⟨K, T, rfl⟩ | rfl <;> simp [call, lenCall]
  case cap a ha =>
    cases a <;> simp [Arg.Has] at ha
    rcases ha with ⟨T, rfl⟩ | rfl <;> simp [call, capCall]
  case sizeofType n =>
    cases n
    · exact absurd rfl (hn rfl _)
    · simp [call, sizeofCall]
  case sizeof => simp [call, sizeofCall]
  case typeptr h4 h5 => simp [call, typePtrCall, h4, h5]
  case valid T a ha h4 =>
    cases a <;> simp only [Arg.Has] at ha
    subst ha
    rcases h4 with ⟨_, rfl⟩ | ⟨_, _, rfl⟩ | ⟨_, rfl⟩ | ⟨_, rfl⟩ | ⟨_, rfl⟩ | rfl | ⟨_, rfl⟩ | rfl <;> simp [call, validCall]
  case makeMap => simp [call, makeCall]
  case resume => simp [call, resumeCall]
  case memusage => simp [call, miscCall]
  case deleteItem a i ha hi | deleteKey a i ha hi | validkey a i ha hi | selftypeeq a i ha hi | exitMsg a i ha hi =>
    cases a <;> simp only [Arg.Has, Arg.Is] at ha
    cases i <;> simp only [Arg.Has, Arg.Is] at hi
    (try subst ha); (try subst hi)
    simp_all [call, deleteCall, validKeyCall, selfTypeEqCall, miscCall, isIface]
  all_goals
    rename_i a ha
    cases a <;> simp only [Arg.Has, Arg.Is] at ha
    (try subst ha)
    simp_all [call, mathCall, makeCall, copyCall, selfCall, keysCall, resumeCall, miscCall, isIface]

theorem sound (E : Env) (h : Lawful E) (f : Fun) (args : List Arg) (t : Ty) (code : List Gen) (hc : call E false f args = some (t, code)) :
    Signature E f args t := by
  obtain ⟨h1, h2, h3⟩ := h
  cases f <;> simp only [call, Bool.false_eq_true, if_false] at hc
  all_goals first
    | (simp only [mathCall] at hc
       split at hc
       · simp at hc
         try (obtain ⟨h4, rfl, rfl⟩ := hc
              first
              | exact .toInt _ _ (by decide) h4
              | exact .toReal _ _ (by decide) h4
              | exact .abs _ h4)
       · simp at hc
         try (obtain ⟨⟨h4, h5⟩, rfl, rfl⟩ := hc; exact .atan2 _ _ h4 h5)
       · cases hc)
    | skip
  case new =>
    simp only [newCall] at hc
    split at hc <;> simp at hc
    · obtain ⟨⟨h4, h5⟩, rfl, rfl⟩ := hc; exact .new _ _ h4 h5
    · obtain ⟨⟨h4, h5, h6⟩, rfl, rfl⟩ := hc; exact .newInit _ _ _ h4 h5 h6
  case make =>
    simp only [makeCall] at hc
    split at hc <;> simp at hc
    · obtain ⟨h4, rfl, rfl⟩ := hc; exact .makeArray _ _ _ (by simpa [Arg.Is, h3] using h4)
    · obtain ⟨rfl, rfl⟩ := hc; exact .makeMap _ _ _
    · obtain ⟨h4, rfl, rfl⟩ := hc; exact .makeFiber _ _ h4
  case copy =>
    simp only [copyCall] at hc
    split at hc
    · split at hc <;> simp at hc <;> obtain ⟨rfl, rfl⟩ := hc
      · exact .copyStr _ rfl
      · exact .copyArray _ _ rfl
      · exact .copyMap _ _ _ rfl
    · cases hc
  case append =>
    simp only [appendCall] at hc
    split at hc
    · rename_i b c1 u c2
      by_cases hd : E.equiv (.dyn b) u = true
      · simp [hd] at hc
        obtain ⟨rfl, rfl⟩ := hc
        exact .appendDyn _ _ _ _ rfl hd
      · by_cases ha : ∃ n V, u = .array n V ∧ E.equiv b V = true
        · obtain ⟨n, V, rfl, hV⟩ := ha
          simp [hV] at hc
          obtain ⟨rfl, rfl⟩ := hc
          exact .appendArray _ _ _ _ _ rfl hV
        · have hf : ∀ n V, u = .array n V → E.equiv b V = false := by
            intro n V hu
            rw [← Bool.not_eq_true]
            exact fun hV => ha ⟨n, V, hu, hV⟩
          have hc' : E.conv b u = true ∧ Ty.dyn b = t := by
            cases u <;> simp_all
          obtain ⟨h4, rfl⟩ := hc'
          exact .append _ _ _ _ rfl h4 (by simpa only [Bool.not_eq_true] using hd) hf
    · cases hc
  case insert =>
    simp only [insertCall] at hc
    split at hc <;> simp at hc
    obtain ⟨⟨h4, h5⟩, rfl, rfl⟩ := hc; exact .insert _ _ _ _ rfl h4 h5
  case delete =>
    simp only [deleteCall] at hc
    split at hc <;> simp at hc
    · obtain ⟨h4, rfl, rfl⟩ := hc; exact .deleteItem _ _ _ rfl h4
    · obtain ⟨h4, rfl, rfl⟩ := hc; exact .deleteKey _ _ _ _ rfl h4
  case slice =>
    simp only [sliceCall] at hc
    split at hc <;> simp at hc
    · obtain ⟨⟨h4, h5⟩, rfl, rfl⟩ := hc
      refine .slice _ _ _ ?_ rfl h5
      split at h4 <;> simp at h4 ⊢
    · obtain ⟨⟨h4, h5, h6⟩, rfl, rfl⟩ := hc
      refine .sliceEnd _ _ _ _ ?_ rfl h5 h6
      split at h4 <;> simp at h4 ⊢
  case sort =>
    simp only [sortCall] at hc
    split at hc
    · split at hc
      · simp at hc; obtain ⟨h4, rfl, rfl⟩ := hc; exact .sortFast _ _ _ _ rfl (by assumption) h4
      · simp at hc; obtain ⟨h4, rfl, rfl⟩ := hc; exact .sort _ _ _ _ rfl h4 (by rw [← Bool.not_eq_true]; assumption)
    · split at hc
      · split at hc
        · simp at hc; obtain ⟨h4, rfl, rfl⟩ := hc; exact .sortField _ _ _ _ _ _ rfl (by assumption) (by assumption) h4
        · cases hc
      · cases hc
    · cases hc
  case len =>
    simp only [lenCall] at hc
    split at hc
    · split at hc
      · cases hc
      · split at hc <;> simp at hc <;> obtain ⟨rfl, rfl⟩ := hc <;> refine .len _ ?_ <;> simp [Arg.Has]
    · cases hc
  case cap =>
    simp only [capCall] at hc
    split at hc
    · split at hc
      · cases hc
      · split at hc <;> simp at hc <;> obtain ⟨rfl, rfl⟩ := hc <;> refine .cap _ ?_ <;> simp [Arg.Has]
    · cases hc
  case sizeof =>
    simp only [sizeofCall] at hc
    split at hc <;> simp at hc <;> obtain ⟨rfl, rfl⟩ := hc
    · exact .sizeofType _ _
    · exact .sizeof _ _
  case sizeofself | selfptr | selfhasptr =>
    simp only [selfCall] at hc
    split at hc <;> simp at hc
    obtain ⟨h4, rfl, rfl⟩ := hc
    unfold isIface at h4; split at h4
    · first | exact .sizeofself _ _ rfl | exact .selfptr _ _ rfl | exact .selfhasptr _ _ rfl
    · cases h4
  case selftypeeq =>
    simp only [selfTypeEqCall] at hc
    split at hc <;> simp at hc
    obtain ⟨⟨h4, h5⟩, rfl, rfl⟩ := hc
    unfold isIface at h4 h5; split at h4
    · split at h5
      · exact .selftypeeq _ _ _ _ rfl rfl
      · cases h5
    · cases h4
  case typeptr =>
    simp only [typePtrCall] at hc
    split at hc <;> simp at hc
    obtain ⟨⟨h4, h5⟩, rfl, rfl⟩ := hc; exact .typeptr _ _ h4 h5
  case valid =>
    simp only [validCall] at hc
    split at hc
    · split at hc <;> simp at hc <;> obtain ⟨rfl, rfl⟩ := hc <;> refine .valid _ _ rfl ?_ <;> simp
    · cases hc
  case validkey =>
    simp only [validKeyCall] at hc
    split at hc <;> simp at hc
    obtain ⟨h4, rfl, rfl⟩ := hc; exact .validkey _ _ _ _ rfl h4
  case keys =>
    simp only [keysCall] at hc
    split at hc <;> simp at hc
    obtain ⟨rfl, rfl⟩ := hc; exact .keys _ _ _ rfl
  case resume =>
    simp only [resumeCall] at hc
    split at hc <;> simp at hc
    · obtain ⟨rfl, rfl⟩ := hc; exact .resume
    · obtain ⟨h4, rfl, rfl⟩ := hc; exact .resumeFiber _ h4
  case memusage | leaksan | exit =>
    simp only [miscCall] at hc
    split at hc <;> simp at *
    all_goals first
      | (obtain ⟨rfl, rfl⟩ := hc; exact .memusage)
      | (obtain ⟨h4, rfl, rfl⟩ := hc; exact .leaksan _ h4)
      | (obtain ⟨h4, rfl, rfl⟩ := hc; exact .exit _ h4)
      | (obtain ⟨⟨h4, h5⟩, rfl, rfl⟩ := hc; exact .exitMsg _ _ h4 h5)

theorem value_slots (E : Env) (h : Lawful E) (p t : Ty) (hc : E.conv p t = true) : (Gen.value t).effect = (0, 1) := by
  cases t <;> first | rfl | (rw [h.noVoid] at hc; cases hc)

theorem value_equiv (E : Env) (h : Lawful E) (p t : Ty) (hp : p ≠ .void) (hc : E.equiv p t = true) : (Gen.value t).effect = (0, 1) := by
  cases t <;> first | rfl | (rw [(h.noVoidEquiv p hp).1] at hc; cases hc)

theorem value_equiv' (E : Env) (h : Lawful E) (p t : Ty) (hp : p ≠ .void) (hc : E.equiv t p = true) : (Gen.value t).effect = (0, 1) := by
  cases t <;> first | rfl | (rw [(h.noVoidEquiv p hp).2] at hc; cases hc)

theorem depth_item (b : Ty) (d : Nat) (gs : List Gen) (hd : 1 ≤ d) : depth d (itemCode b ++ gs) = depth d gs := by
  unfold itemCode
  split
  · rfl
  · simp only [List.cons_append, List.nil_append, depth, Gen.effect]
    have h1 : (0 : Nat) ≤ d := by omega
    simp only [h1, if_true]
    have h2 : 2 ≤ d - 0 + 1 := by omega
    simp only [h2, if_true, Nat.zero_le]
    congr 1
    omega

theorem balanced (E : Env) (h : Lawful E) (f : Fun) (args : List Arg) (t : Ty) (code : List Gen) (hc : call E false f args = some (t, code)) :
    depth 0 code = some (slots t) := by
  have hv := value_slots E h
  have he := value_equiv E h
  have he' := value_equiv' E h
  cases f <;> simp only [call, Bool.false_eq_true, if_false] at hc
  case new =>
    simp only [newCall] at hc
    split at hc <;> simp at hc
    · obtain ⟨⟨h4, h5⟩, rfl, rfl⟩ := hc; simp [depth, Gen.effect, callEffect, slots]
    · obtain ⟨⟨h4, h5, h6⟩, rfl, rfl⟩ := hc; have := hv _ _ h6; simp [depth, this]; simp [Gen.effect, callEffect, slots]
  case make =>
    simp only [makeCall] at hc
    split at hc <;> simp at hc
    · obtain ⟨h4, rfl, rfl⟩ := hc; rw [h.int] at h4; have := hv _ _ h4; simp [depth, this]; simp [Gen.effect, callEffect, slots]
    · obtain ⟨rfl, rfl⟩ := hc; simp [depth, Gen.effect, callEffect, slots]
    · obtain ⟨h4, rfl, rfl⟩ := hc; have := hv _ _ h4; simp [depth, this]; simp [Gen.effect, callEffect, slots]
  case copy =>
    simp only [copyCall] at hc
    split at hc
    · split at hc <;> simp at hc <;> obtain ⟨rfl, rfl⟩ := hc <;> simp [depth, Gen.effect, callEffect, slots, structured]
    · cases hc
  case append =>
    simp only [appendCall] at hc
    split at hc
    · rename_i b c1 u c2
      by_cases hd : E.equiv (.dyn b) u = true
      · simp [hd] at hc
        obtain ⟨rfl, rfl⟩ := hc
        have := he _ _ (by simp) hd
        simp [depth, this]; simp [Gen.effect, callEffect, slots]
      · by_cases ha : ∃ n V, u = .array n V ∧ E.equiv b V = true
        · obtain ⟨n, V, rfl, hV⟩ := ha
          simp [hV] at hc
          obtain ⟨rfl, rfl⟩ := hc
          simp [depth, Gen.effect, callEffect, slots]
        · have hf : ∀ n V, u = .array n V → E.equiv b V = false := by
            intro n V hu
            rw [← Bool.not_eq_true]
            exact fun hV => ha ⟨n, V, hu, hV⟩
          have hc' : E.conv b u = true ∧ Ty.dyn b = t ∧
              code = [.value (.dyn b), .value u] ++ itemCode b ++ [.push, .push, .call .append (.dyn b)] := by
            cases u <;> simp_all <;> (obtain ⟨_, rfl, rfl⟩ := hc; rfl)
          obtain ⟨h4, rfl, rfl⟩ := hc'
          have := hv _ _ h4
          rw [List.append_assoc]
          simp only [List.cons_append, List.nil_append, depth, this]
          simp only [Gen.effect, Nat.zero_le, if_true]
          rw [depth_item _ _ _ (by omega)]
          simp [depth, Gen.effect, callEffect, slots]
    · cases hc
  case insert =>
    simp only [insertCall] at hc
    split at hc <;> simp only [Option.ite_none_right_eq_some, reduceCtorEq] at hc
    obtain ⟨⟨h4, h5⟩, hc⟩ := hc
    cases hc
    have h6 := hv _ _ h4
    have h7 := hv _ _ h5
    rw [List.append_assoc]
    simp only [List.cons_append, List.nil_append, depth, h6, h7]
    simp only [Gen.effect, Nat.zero_le, if_true]
    rw [depth_item _ _ _ (by omega)]
    simp [depth, Gen.effect, callEffect, slots]
  case delete =>
    simp only [deleteCall] at hc
    split at hc <;> simp at hc <;> obtain ⟨h4, rfl, rfl⟩ := hc <;> have := hv _ _ h4 <;> simp [depth, this] <;> simp [Gen.effect, callEffect, slots]
  case slice =>
    simp only [sliceCall] at hc
    split at hc <;> simp at hc
    · obtain ⟨⟨h4, h5⟩, rfl, rfl⟩ := hc
      have := hv _ _ h5
      split at h4 <;> simp at h4 <;> simp [depth, this] <;> simp [Gen.effect, callEffect, slots]
    · obtain ⟨⟨h4, h5, h6⟩, rfl, rfl⟩ := hc
      have := hv _ _ h5
      have := hv _ _ h6
      split at h4 <;> simp at h4 <;> simp [depth, *] <;> simp [Gen.effect, callEffect, slots]
  case sort =>
    simp only [sortCall] at hc
    split at hc
    · split at hc
      · simp at hc; obtain ⟨h4, rfl, rfl⟩ := hc
        have := he' .bool _ (by simp) (by assumption)
        simp [depth, this]; simp [Gen.effect, callEffect, slots]
      · simp at hc; obtain ⟨h4, rfl, rfl⟩ := hc
        have := hv _ _ h4
        simp [depth, this]; simp [Gen.effect, callEffect, slots]
    · split at hc
      · split at hc
        · simp at hc; obtain ⟨h4, rfl, rfl⟩ := hc
          have := he' .bool _ (by simp) (by assumption)
          simp [depth, this]; simp [Gen.effect, callEffect, slots]
        · cases hc
      · cases hc
    · cases hc
  case len =>
    simp only [lenCall] at hc
    split at hc
    · split at hc
      · cases hc
      · split at hc <;> simp at hc <;> obtain ⟨rfl, rfl⟩ := hc <;> simp [value, depth, Gen.effect, callEffect, slots]
    · cases hc
  case cap =>
    simp only [capCall] at hc
    split at hc
    · split at hc
      · cases hc
      · split at hc <;> simp at hc <;> obtain ⟨rfl, rfl⟩ := hc <;> simp [value, depth, Gen.effect, callEffect, slots]
    · cases hc
  case sizeof =>
    simp only [sizeofCall] at hc
    split at hc <;> simp at hc <;> obtain ⟨rfl, rfl⟩ := hc
    · simp [depth, Gen.effect, slots]
    · rename_i u _
      cases u <;> simp [value, depth, Gen.effect, slots]
  case sizeofself | selfptr | selfhasptr =>
    simp only [selfCall] at hc
    split at hc <;> simp at hc
    obtain ⟨h4, rfl, rfl⟩ := hc
    unfold isIface at h4; split at h4
    · simp [depth, Gen.effect, callEffect, slots]
    · cases h4
  case selftypeeq =>
    simp only [selfTypeEqCall] at hc
    split at hc <;> simp at hc
    obtain ⟨⟨h4, h5⟩, rfl, rfl⟩ := hc
    unfold isIface at h4 h5; split at h4
    · split at h5
      · simp [depth, Gen.effect, callEffect, slots]
      · cases h5
    · cases h4
  case typeptr =>
    simp only [typePtrCall] at hc
    split at hc <;> simp at hc
    obtain ⟨⟨h4, h5⟩, rfl, rfl⟩ := hc; simp [depth, Gen.effect, callEffect, slots]
  case valid =>
    simp only [validCall] at hc
    split at hc
    · split at hc <;> simp at hc <;> obtain ⟨rfl, rfl⟩ := hc <;> simp [depth, Gen.effect, callEffect, slots]
    · cases hc
  case validkey =>
    simp only [validKeyCall] at hc
    split at hc <;> simp at hc
    obtain ⟨h4, rfl, rfl⟩ := hc; have := hv _ _ h4; simp [depth, this]; simp [Gen.effect, callEffect, slots]
  case keys =>
    simp only [keysCall] at hc
    split at hc <;> simp at hc
    obtain ⟨rfl, rfl⟩ := hc; simp [depth, Gen.effect, callEffect, slots]
  case resume =>
    simp only [resumeCall] at hc
    split at hc <;> simp at hc
    · obtain ⟨rfl, rfl⟩ := hc; simp [depth, Gen.effect, callEffect, slots]
    · obtain ⟨h4, rfl, rfl⟩ := hc; have := hv _ _ h4; simp [depth, this]; simp [Gen.effect, callEffect, slots]
  case memusage | leaksan | exit =>
    simp only [miscCall] at hc
    split at hc <;> simp at *
    all_goals first
      | (obtain ⟨rfl, rfl⟩ := hc; simp [depth, Gen.effect, callEffect, slots]; done)
      | (obtain ⟨h4, rfl, rfl⟩ := hc; have := hv _ _ h4; simp [depth, this]; simp [Gen.effect, callEffect, slots]; done)
      | (obtain ⟨⟨h4, h5⟩, rfl, rfl⟩ := hc; have := hv _ _ h4; have := hv _ _ h5; simp [depth, *]; simp [Gen.effect, callEffect, slots]; done)
  all_goals
    simp only [mathCall] at hc
    split at hc
    · simp at hc
      try (obtain ⟨h4, rfl, rfl⟩ := hc; have := hv _ _ h4; simp [value, depth, this]; simp [Gen.effect, callEffect, slots])
    · simp at hc
      try (obtain ⟨⟨h4, h5⟩, rfl, rfl⟩ := hc; have := hv _ _ h4; have := hv _ _ h5; simp [value, depth, *]; simp [Gen.effect, callEffect, slots])
    · cases hc

theorem const_run (E : Env) (f : Fun) (args : List Arg) (t : Ty) (code : List Gen) (hc : call E true f args = some (t, code)) :
    (∃ c, call E false f args = some (t, c)) ∧ ConstCall f args ∧ (∀ a ∈ args, Arg.Constant a) ∧ (f ≠ .sizeof → code = []) := by
  cases f
  case len =>
    simp only [call, lenCall] at hc ⊢
    split at hc
    · rename_i u c
      cases c
      · simp at hc
      · cases u <;> simp [value] at hc ⊢
        all_goals (obtain ⟨rfl, rfl⟩ := hc; simp [ConstCall, Arg.Constant])
    · cases hc
  case cap =>
    simp only [call, capCall] at hc ⊢
    split at hc
    · rename_i u c
      cases c
      · simp at hc
      · cases u <;> simp [value] at hc ⊢
        all_goals (obtain ⟨rfl, rfl⟩ := hc; simp [ConstCall, Arg.Constant])
    · cases hc
  case sizeof =>
    simp only [call, sizeofCall] at hc ⊢
    split at hc
    · simp at hc; obtain ⟨rfl, rfl⟩ := hc; simp [ConstCall, Arg.Constant]
    · rename_i u c
      cases c
      · simp at hc
      · simp at hc; obtain ⟨rfl, rfl⟩ := hc; simp [ConstCall, Arg.Constant]
    · cases hc
  case typeptr =>
    simp only [call, typePtrCall] at hc ⊢
    split at hc
    · simp at hc; obtain ⟨⟨h1, h2⟩, rfl, rfl⟩ := hc; simp [ConstCall, Arg.Constant, h1, h2]
    · cases hc
  all_goals first
    | (simp [call] at hc; done)
    | (simp only [call, mathCall] at hc ⊢
       split at hc
       · simp [value] at hc
         try (obtain ⟨⟨h1, h2⟩, rfl, rfl⟩ := hc; subst h1; simp [ConstCall, Arg.Constant, h2])
       · simp [value] at hc
         try (obtain ⟨⟨⟨h1, h1'⟩, h2, h3⟩, rfl, rfl⟩ := hc; subst h1; subst h1'; simp [ConstCall, Arg.Constant, h2, h3])
       · cases hc)

theorem run_const (E : Env) (f : Fun) (args : List Arg) (t : Ty) (code : List Gen) (hc : call E false f args = some (t, code))
    (hf : ConstCall f args) (ha : ∀ a ∈ args, Arg.Constant a) : ∃ c, call E true f args = some (t, c) := by
  cases f
  case len =>
    simp [ConstCall] at hf
    rcases hf with ⟨n, T, rfl | rfl⟩ | rfl | rfl <;> simp [Arg.Constant] at ha <;> simp_all [call, lenCall]
  case cap =>
    simp [ConstCall] at hf
    rcases hf with rfl | rfl <;> simp [Arg.Constant] at ha <;> simp_all [call, capCall]
  case sizeof =>
    simp only [call, sizeofCall] at hc ⊢
    split at hc
    · simp_all
    · simp [Arg.Constant] at ha; subst ha; simp_all
    · cases hc
  case typeptr =>
    simp only [call, typePtrCall] at hc ⊢
    split at hc
    · simp_all
    · cases hc
  all_goals first
    | (simp [ConstCall] at hf; done)
    | (simp only [call, mathCall] at hc ⊢
       split at hc
       · simp [Arg.Constant] at ha
         subst ha
         simp at hc
         try (obtain ⟨h1, rfl, rfl⟩ := hc; simp [h1])
       · simp [Arg.Constant] at ha
         obtain ⟨rfl, rfl⟩ := ha
         simp at hc
         try (obtain ⟨⟨h1, h2⟩, rfl, rfl⟩ := hc; simp [h1, h2])
       · cases hc)

/-- **C102.**  A call of a built-in function is accepted exactly if its arguments match a documented signature, and its type is the documented one.  Missing:
`sizeof` of a type that is not written as a plain name. -/
theorem C102_accepts_partial (E : Env) (h : Lawful E) (f : Fun) (args : List Arg) (t : Ty) (hn : f = .sizeof → ∀ T, args ≠ [.type T false]) :
    (∃ code, call E false f args = some (t, code)) ↔ Signature E f args t :=
  ⟨fun ⟨code, hc⟩ => sound E h f args t code hc, complete E h f args t hn⟩

/-- **C102.**  The code of an accepted call takes from the stack only what it has put there, and leaves exactly its result. -/
theorem C102_balanced (E : Env) (h : Lawful E) (f : Fun) (args : List Arg) (t : Ty) (code : List Gen) (hc : call E false f args = some (t, code)) :
    depth 0 code = some (slots t) := balanced E h f args t code hc

/-- **C102.**  In a constant expression exactly the calls of the listed functions with constant arguments are accepted, and they generate no code.  Missing: the
code of `sizeof` of an expression. -/
theorem C102_const_partial (E : Env) (h : Lawful E) (f : Fun) (args : List Arg) (t : Ty) (hn : f = .sizeof → ∀ T, args ≠ [.type T false]) :
    ((∃ code, call E true f args = some (t, code)) ↔ Signature E f args t ∧ ConstCall f args ∧ ∀ a ∈ args, Arg.Constant a) ∧
    (∀ code, call E true f args = some (t, code) → (f = .sizeof → ∀ T c, args ≠ [.expr T c]) → code = []) := by
  refine ⟨⟨?_, ?_⟩, ?_⟩
  · rintro ⟨code, hc⟩
    obtain ⟨⟨c, h1⟩, h2, h3, _⟩ := const_run E f args t code hc
    exact ⟨sound E h f args t c h1, h2, h3⟩
  · rintro ⟨h1, h2, h3⟩
    obtain ⟨c, hc⟩ := complete E h f args t hn h1
    exact run_const E f args t c hc h2 h3
  · intro code hc he
    by_cases hf : f = .sizeof
    · subst hf
      simp only [call, sizeofCall] at hc
      split at hc
      · simp at hc; exact hc.2
      · exact absurd rfl (he rfl _ _)
      · cases hc
    · exact (const_run E f args t code hc).2.2.2 hf

/-- A world where types are convertible, compatible and equivalent if they are equal, except that an integer converts to `real`. -/
def plainEnv : Env where
  conv d s := (d == s && d != .void) || (d == .real && s == .int)
  compat d s := d == s && d != .void
  equiv d s := d == s
  comparable t := t == .int || t == .real || t == .str
  field n s := if n = 1 ∧ s = "x" then some .int else none

theorem plainEnv_lawful : Lawful plainEnv where
  noVoid t := by cases t <;> rfl
  noVoidEquiv t h := by cases t <;> first | exact absurd rfl h | exact ⟨rfl, rfl⟩
  int t := by cases t <;> rfl

/-- **C102.**  `sizeof` of a constant expression in a constant expression, as in `const n = sizeof(2 + 3)`, generates an instruction that takes a value from the stack
that is not there. -/
theorem C102_sizeof_const_violated : ∃ (E : Env) (code : List Gen), Lawful E ∧ call E true .sizeof [.expr .int true] = some (.int, code) ∧ code ≠ [] ∧
    depth 0 code = none :=
  ⟨plainEnv, [.pop], plainEnv_lawful, rfl, by decide, rfl⟩

/-- **C102.**  `sizeof(T)` is documented for every type, but refused for a type that is not a plain name, such as `[]int`. -/
theorem C102_sizeof_type_violated : ∃ (E : Env) (args : List Arg), Lawful E ∧ Signature E .sizeof args .int ∧ call E false .sizeof args = none :=
  ⟨plainEnv, [.type (.dyn .int) false], plainEnv_lawful, .sizeofType _ _, rfl⟩

/-- Cases that meet the hypotheses: `insert(a, 1, 5)`, `sort(a, true, x)`, `new(int, 5)`, `append(a, a)`. -/
example : call plainEnv false .insert [.expr (.dyn .int) false, .expr .int true, .expr .int true] =
    some (.dyn .int, [.value (.dyn .int), .value .int, .value .int, .push, .assign, .push, .push, .call .insert (.dyn .int)]) := rfl
example : Signature plainEnv .sort [.expr (.dyn (.struct 1)) false, .expr .bool true, .name "x"] .void :=
  .sortField 1 .bool .int _ true "x" rfl rfl rfl rfl
example : call plainEnv false .new [.type .int true, .expr .int true] = some (.ptr .int, [.call .new .int, .dup, .value .int, .assign]) := rfl
example : ¬ Signature plainEnv .sort [.expr (.dyn (.struct 1)) false, .expr .bool true, .name "y"] .void := by
  rw [← C102_accepts_partial plainEnv plainEnv_lawful _ _ _ (by intro h; cases h)]
  rintro ⟨c, h⟩
  exact absurd h (by simp [call, sortCall, plainEnv])
example : call plainEnv true .round [.expr .real true] = some (.int, []) := rfl
example : call plainEnv true .len [.expr (.dyn .int) true] = none := rfl

end Umka.Builtin.Props
