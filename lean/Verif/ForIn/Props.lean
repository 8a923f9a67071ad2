import Verif.ForIn.Lemmas

/-!
# for...in: property theorems (C50)
-/

namespace Umka.ForIn.Props

open Umka.Control.Spec
open Spec (visit onMem meaning)

variable {K T ρ : Type}

theorem seq_header_run (e : User K T ρ → Option (User K T ρ × Coll T)) (form : Form) (body : Stmt (View Int K T ρ)) (hk : Spec.KeepsIndex body)
    (s : SeqState K T ρ) (u : User K T ρ) (c : Coll T) (he : e s.1.user = some (u, c)) (hn : Spec.NotHuge c) (n : Nat)
    (h : Spec.length u c < n) :
    onMem (·.1.user) (exec n (forSeq e form body) s) =
      visit (Spec.seqBind form c) (exec n body) (·.user) (List.range (Spec.length u c)) u := by
  unfold forSeq
  rw [exec, exec, seqHeader, he]
  simp only [Option.bind_eq_bind, Option.bind, Res.ofOption, Res.andThen]
  rw [exec]
  have hl : collLen u c = (Spec.length u c : Nat) := by cases c <;> rfl
  have := seq_loop form body hk c hn (Spec.length u c) (by rintro s rfl; rfl) n n 0 u none (by omega) (by omega)
  rw [List.drop_zero] at this
  rw [hl]
  exact this

/-- **C50**, arrays, dynamic arrays and strings: `for i, x in e { body }` evaluates `e` once and then does what running the body for `i` in
`0, 1, ..., len - 1` does, in this order, where `len` is the length when the loop began and `x` is (a copy of, or a pointer to) the item at `i`
when that iteration begins.  `break`, `continue`, `return`, run-time errors and bodies that never end are included.  Missing from the full
claim: bodies that assign the index variable, and strings of 2 GiB and more (both refuted below). -/
theorem C50_sequences_partial (e : User K T ρ → Option (User K T ρ × Coll T)) (form : Form) (body : Stmt (View Int K T ρ))
    (hk : Spec.KeepsIndex body) (s : SeqState K T ρ) (hn : ∀ u c, e s.1.user = some (u, c) → Spec.NotHuge c) :
    onMem (·.1.user) (meaning (forSeq e form body) s) = Spec.forSeq e form (meaning body) s.1.user := by
  unfold Spec.forSeq
  cases he : e s.1.user with
  | none =>
    have : Fails (forSeq e form body) s := ⟨0, by
      unfold forSeq
      rw [exec, exec, seqHeader, he]
      rfl⟩
    rw [meaning_error.2 this]
    rfl
  | some q =>
    obtain ⟨u, c⟩ := q
    apply meaning_of_large (Spec.length u c + 1)
    intro n h
    exact seq_header_run e form body hk s u c he (hn u c he) n (by omega)

/-- **C50**, maps: `for k, x in e { body }` evaluates `e` once and then does what running the body for each key does that the map had when the
loop began, once for each key, in ascending order, whatever the body does. -/
theorem C50_maps (cmp : K → K → Int) (hc : Map.Spec.Lawful cmp) (zero : T) (rand : User K T ρ → Int)
    (e : User K T ρ → Option (User K T ρ × Nat)) (form : Form) (body : Stmt (View (Option K) K T ρ)) (s : MapState K T ρ)
    (u : User K T ρ) (r : Nat) (he : e s.1.user = some (u, r)) (history : List (Map.Op K T))
    (hm : u.maps r = Map.exec cmp zero none history) :
    ∃ ks, ks.Pairwise (fun a b => cmp a b < 0) ∧ (∀ k, k ∈ ks ↔ (Map.step cmp zero (u.maps r) (.validKey k)).2 = .bool true) ∧
      onMem (·.1.user) (meaning (forMap cmp zero rand e form body) s) =
        visit (Spec.mapBind cmp zero rand form r) (meaning body) (·.user) ks u := by
  obtain ⟨ks, h1, h2, h3, h4⟩ := Map.C02_keys_ascending_complete (V := T) hc zero history
  rw [← hm] at h1 h3 h4
  refine ⟨ks, h2, h4, ?_⟩
  apply meaning_of_large (ks.length + 1)
  intro n hn
  unfold forMap
  rw [exec, exec, mapHeader, he]
  simp only [Option.bind_eq_bind, Option.bind, h1, h3, Res.ofOption, Res.andThen]
  rw [exec]
  have := map_loop cmp zero rand form body r ks n n 0 u none none (by omega) (by omega)
  rw [List.drop_zero] at this
  exact this

/-- An expression that fails: so does the loop. -/
theorem C50_maps_error (cmp : K → K → Int) (zero : T) (rand : User K T ρ → Int) (e : User K T ρ → Option (User K T ρ × Nat)) (form : Form)
    (body : Stmt (View (Option K) K T ρ)) (s : MapState K T ρ) (he : e s.1.user = none) :
    Fails (forMap cmp zero rand e form body) s :=
  ⟨0, by unfold forMap; rw [exec, exec, mapHeader, he]; rfl⟩

/-! ### A body that only records what it is given -/

/-- `{ log(i, x) }` -/
def logging {α : Type} (f : ρ → α → Option (Item K T) → ρ) : Stmt (View α K T ρ) :=
  .act fun v => some { v with user := { v.user with rest := f v.user.rest v.key v.item } }

theorem logging_meaning {α : Type} (f : ρ → α → Option (Item K T) → ρ) (v : View α K T ρ) :
    meaning (logging f) v = .done .normal { v with user := { v.user with rest := f v.user.rest v.key v.item } } :=
  meaning_done.2 ⟨0, rfl⟩

theorem logging_keeps (f : ρ → Int → Option (Item K T) → ρ) : Spec.KeepsIndex (logging f) := by
  intro v o v' h _
  have := meaning_done.2 h
  rw [logging_meaning] at this
  injection this with _ this
  rw [← this]

theorem visit_logging (f : ρ → Int → Option (Item K T) → ρ) (c : Coll T) : ∀ (m i : Nat) (u : User K T ρ) (ts : List T),
    (Spec.items u c).drop i = ts → m = ts.length → Spec.length u c = (Spec.items u c).length →
    visit (Spec.seqBind .byValue c) (meaning (logging f)) (·.user) (List.range' i m) u =
      .done .normal { u with rest := (List.zip (List.range' i m) ts).foldl (fun (l : ρ) (q : Nat × T) => f l (q.1 : Int) (some (.value q.2))) u.rest }
  | 0, i, u, ts, h, hm, hl => by
    cases ts with
    | nil => rfl
    | cons t ts => cases hm
  | m + 1, i, u, ts, h, hm, hl => by
    cases ts with
    | nil => cases hm
    | cons t ts =>
      have hi : (Spec.items u c)[i]? = some t := by
        have := congrArg (fun l : List T => l[0]?) h
        simpa using this
      have hlen : i < (Spec.items u c).length := (List.getElem?_eq_some_iff.1 hi).1
      have hd : (Spec.items u c).drop (i + 1) = ts := by
        rw [List.drop_eq_getElem_cons hlen] at h
        injection h
      rw [List.range'_succ, visit, Spec.seqBind]
      rw [if_pos (hl ▸ hlen), hi]
      simp only [Option.map, logging_meaning]
      have e1 : Spec.items ({ u with rest := f u.rest i (some (.value t)) } : User K T ρ) c = Spec.items u c := by cases c <;> rfl
      have e2 : Spec.length ({ u with rest := f u.rest i (some (.value t)) } : User K T ρ) c = Spec.length u c := by cases c <;> rfl
      rw [visit_logging f c m (i + 1) { u with rest := f u.rest i (some (.value t)) } ts (by rw [e1, hd]) (by simpa using hm)
        (by rw [e1, e2, hl])]
      rfl

/-- **C50**: reading only, the loop visits `(0, a[0]), (1, a[1]), ...` up to the last item, each once. -/
theorem C50_visits_each_item_once (f : ρ → Int → Option (Item K T) → ρ) (c : Coll T) (u : User K T ρ) (hn : Spec.NotHuge c)
    (hl : Spec.length u c = (Spec.items u c).length) (v : View Int K T ρ) (hv : v.user = u) (h : Hidden T) :
    ∃ s', Ends (forSeq (fun u => some (u, c)) .byValue (logging f)) (v, h) .normal s' ∧
      s'.1.user = { u with rest :=
        (Spec.items u c).zipIdx.foldl (fun (l : ρ) (q : T × Nat) => f l (q.2 : Int) (some (.value q.1))) u.rest } := by
  have key := C50_sequences_partial (fun u => some (u, c)) .byValue (logging f) (logging_keeps f) (v, h) (by
    intro u' c' e
    injection e with e
    injection e with _ e
    exact e ▸ hn)
  simp only [hv, Spec.forSeq] at key
  have hr : List.range (Spec.length u c) = List.range' 0 (Spec.length u c) := List.range_eq_range' ..
  rw [hr, visit_logging f c _ 0 u (Spec.items u c) (by simp) hl hl] at key
  cases hm : meaning (forSeq (fun u => some (u, c)) .byValue (logging f)) (v, h) with
  | error => rw [hm] at key; cases key
  | timeout => rw [hm] at key; cases key
  | done o s' =>
    rw [hm] at key
    simp only [onMem] at key
    injection key with ho key
    subst ho
    refine ⟨s', meaning_done.1 hm, key.trans ?_⟩
    have : ∀ (ts : List T) (i : Nat) (l : ρ),
        (List.zip (List.range' i ts.length) ts).foldl (fun (l : ρ) (q : Nat × T) => f l (q.1 : Int) (some (.value q.2))) l =
        (ts.zipIdx i).foldl (fun (l : ρ) (q : T × Nat) => f l (q.2 : Int) (some (.value q.1))) l := by
      intro ts
      induction ts with
      | nil => intro i l; rfl
      | cons t ts ih =>
        intro i l
        rw [List.length_cons, List.range'_succ, List.zip_cons_cons, List.foldl_cons, List.zipIdx_cons, List.foldl_cons]
        exact ih (i + 1) _
    rw [hl, this]

/-! ### Compiled loops -/

/-- **C50**: the code compiled for a loop over an array or string returns with the memory of the specification, fails if the specification
fails and runs forever if the specification does.  (`C21` gives the code, `C50_sequences_partial` the meaning.) -/
theorem C50_compiled_partial {g g' : Control.Gen (SeqState K T ρ)} (e : User K T ρ → Option (User K T ρ × Coll T)) (form : Form)
    (body : Stmt (View Int K T ρ)) (h : Control.genFn g (forSeq e form body) = .ok g') (hk : Spec.KeepsIndex body) (s : SeqState K T ρ)
    (hn : ∀ u c, e s.1.user = some (u, c) → Spec.NotHuge c)
    (C : Control.Code (SeqState K T ρ)) (hC : ∀ i, g.ip ≤ i → i < g'.ip → C i = Control.Props.codeOf g' i)
    (stack : List Int) (reg : Int) (base : List Int) :
    match Spec.forSeq e form (meaning body) s.1.user with
    | .done _ u => ∃ s', Control.Props.Returns C (Control.Props.start g stack reg base s) stack s' ∧ s'.1.user = u
    | .error => Control.Errs C (Control.Props.start g stack reg base s)
    | .timeout => Control.Props.RunsForever C (Control.Props.start g stack reg base s) := by
  obtain ⟨c1, c2, c3⟩ := Control.Props.C21_control_statements h C hC stack reg base s
  rw [← C50_sequences_partial e form body hk s hn]
  cases hm : meaning (forSeq e form body) s with
  | done o s' => exact ⟨s', (c1 o s' (meaning_done.1 hm)).2, rfl⟩
  | error => exact c2 (meaning_error.1 hm)
  | timeout => exact c3 (meaning_timeout.1 hm)

/-- **C50**: the same for maps. -/
theorem C50_maps_compiled {g g' : Control.Gen (MapState K T ρ)} (cmp : K → K → Int) (hc : Map.Spec.Lawful cmp) (zero : T)
    (rand : User K T ρ → Int) (e : User K T ρ → Option (User K T ρ × Nat)) (form : Form) (body : Stmt (View (Option K) K T ρ))
    (h : Control.genFn g (forMap cmp zero rand e form body) = .ok g') (s : MapState K T ρ) (u : User K T ρ) (r : Nat)
    (he : e s.1.user = some (u, r)) (history : List (Map.Op K T)) (hm : u.maps r = Map.exec cmp zero none history)
    (C : Control.Code (MapState K T ρ)) (hC : ∀ i, g.ip ≤ i → i < g'.ip → C i = Control.Props.codeOf g' i)
    (stack : List Int) (reg : Int) (base : List Int) :
    ∃ ks, ks.Pairwise (fun a b => cmp a b < 0) ∧ (∀ k, k ∈ ks ↔ (Map.step cmp zero (u.maps r) (.validKey k)).2 = .bool true) ∧
      match visit (Spec.mapBind cmp zero rand form r) (meaning body) (·.user) ks u with
      | .done _ u => ∃ s', Control.Props.Returns C (Control.Props.start g stack reg base s) stack s' ∧ s'.1.user = u
      | .error => Control.Errs C (Control.Props.start g stack reg base s)
      | .timeout => Control.Props.RunsForever C (Control.Props.start g stack reg base s) := by
  obtain ⟨c1, c2, c3⟩ := Control.Props.C21_control_statements h C hC stack reg base s
  obtain ⟨ks, h1, h2, h3⟩ := C50_maps cmp hc zero rand e form body s u r he history hm
  refine ⟨ks, h1, h2, ?_⟩
  rw [← h3]
  cases hm : meaning (forMap cmp zero rand e form body) s with
  | done o s' => exact ⟨s', (c1 o s' (meaning_done.1 hm)).2, rfl⟩
  | error => exact c2 (meaning_error.1 hm)
  | timeout => exact c3 (meaning_timeout.1 hm)

/-! ### Examples -/

/-- Memory with `[10, 20, 30]` in array 0. -/
def mem : User Int Int (List Int) := ⟨fun _ => [10, 20, 30], fun _ => none, []⟩

def s0 : SeqState Int Int (List Int) := (⟨mem, 0, none⟩, ⟨0, .dyn 0⟩)

/-- Append index and item to the log. -/
def log : Stmt (View Int Int Int (List Int)) := logging fun l i x => match x with | some (.value t) => l ++ [i, t] | _ => l ++ [i]

/-- `for i, x in a { if i == 1 { continue }; log(i, x) }` -/
def skipOne : Stmt (SeqState Int Int (List Int)) :=
  forSeq (fun u => some (u, .dyn 0)) .byValue (.seq (.ifThen (.atom fun v => some (v, if v.key = 1 then 1 else 0)) .cont) log)

example : onMem (·.1.user.rest) (exec 9 skipOne s0) = .done .normal [0, 10, 2, 30] := by
  simp [forSeq, exec, seqHeader, s0, mem, collLen, Res.ofOption, Res.andThen, iterate, seqCond, seqFetch, fetch, seqNext, iterate.next,
    exec_lift, log, logging, Expr.eval, liftRes, skipOne, onMem]

/-- It compiles. -/
example : (match Control.genFn (⟨[], [], none, none, []⟩ : Control.Gen _) skipOne with | .ok _ => true | .error _ => false) = true := by
  decide +kernel

/-- Its body keeps the index. -/
example : Spec.KeepsIndex (.seq (.ifThen (.atom fun v => some (v, if v.key = 1 then 1 else 0)) .cont) log) := by
  rintro v o v' ⟨n, h⟩ _
  simp only [exec, Expr.eval, log, logging] at h
  by_cases hk : v.key = 1
  · simp [hk, Res.andThen] at h; rw [← h.2]
  · simp [hk, Res.andThen, Res.ofOption] at h; rw [← h.2]

/-- Appending in the body does not make the loop longer, and changed items are seen. -/
example : onMem (·.1.user.rest) (exec 9 (forSeq (fun u => some (u, .dyn 0)) .byValue (.seq log
    (.act fun v => some { v with user := { v.user with arrays := fun _ => [7, 8, 9, 10] } }))) s0) = .done .normal [0, 10, 1, 8, 2, 9] := by
  simp [forSeq, exec, seqHeader, s0, mem, collLen, Res.ofOption, Res.andThen, iterate, seqCond, seqFetch, fetch, seqNext, iterate.next,
    exec_lift, log, logging, Expr.eval, liftRes, onMem]

/-- **C50** fails if the body assigns the index variable: `for i, x in a { log(i, x); i++ }` skips an item. -/
theorem C50_index_assigned_violated :
    ∃ s', Ends (forSeq (fun u => some (u, .dyn 0)) .byValue
      (.seq log (.act fun v => some { v with key := v.key + 1 }))) s0 .normal s' ∧ s'.1.user.rest = [0, 10, 2, 30] := by
  refine ⟨_, ⟨9, by
    simp [forSeq, exec, seqHeader, s0, mem, collLen, Res.ofOption, Res.andThen, iterate, seqCond, seqFetch, fetch, seqNext, iterate.next,
    exec_lift, log, logging, Expr.eval, liftRes]
    rfl⟩, rfl⟩

/-- **C50** fails if the body assigns the index variable: `for i in a { i-- }` never ends. -/
theorem C50_never_ends_violated :
    Diverges (forSeq (fun u => some (u, .dyn 0)) .none (.act fun v => some { v with key := v.key - 1 })) s0 := by
  intro n
  unfold forSeq
  rw [exec, exec]
  have loop : ∀ N k u it, iterate seqCond (exec N (.seq (.act (seqFetch .none)) (lift (.act fun v : View Int Int Int (List Int) =>
      some { v with key := v.key - 1 })))) seqNext k (⟨u, 0, it⟩, ⟨3, .dyn 0⟩) = .timeout := by
    intro N k
    induction k with
    | zero => intro u it; rw [iterate]
    | succ k ih =>
      intro u it
      rw [iterate]
      simp [seqCond, exec, seqFetch, fetch, Res.ofOption, Res.andThen, lift, liftAct, iterate.next, seqNext]
      have := ih u none
      simpa [exec, seqFetch, fetch, Res.ofOption, Res.andThen, lift, liftAct] using this
  simp only [seqHeader, s0, Option.bind_eq_bind, Option.bind, Res.ofOption, Res.andThen]
  rw [exec]
  exact loop n n mem none

/-- **C50** for a dynamic array that the body makes shorter: the loop goes on to the old length and stops the program. -/
theorem C50_shrinking_violated :
    Fails (forSeq (fun u => some (u, .dyn 0)) .byValue
      (.act fun v => some { v with user := { v.user with arrays := fun _ => [(10 : Int)] } })) s0 :=
  ⟨9, by simp [forSeq, exec, seqHeader, s0, mem, collLen, Res.ofOption, Res.andThen, iterate, seqCond, seqFetch, fetch, seqNext, iterate.next,
    exec_lift, Expr.eval, liftRes]⟩

theorem long_loop (s : List T) (f : ρ → Int → Option (Item K T) → ρ) (h : 2147483647 < s.length) (N : Nat) : ∀ (d i n : Nat) (u : User K T ρ)
    (it : Option (Item K T)), i + d = 2147483647 → d < n →
    iterate seqCond (exec N (.seq (.act (seqFetch .byValue)) (lift (logging f)))) seqNext n (⟨u, i, it⟩, ⟨s.length, .str s⟩) = .error
  | d, i, 0, u, it, h1, h2 => by omega
  | 0, i, n + 1, u, it, h1, h2 => by
    rw [iterate]
    simp only [seqCond]
    rw [if_neg (show ¬ (if (i : Int) < (s.length : Int) then (1 : Int) else 0) = 0 by rw [if_pos (by omega)]; decide), exec, exec]
    simp only [seqFetch, fetch]
    rw [if_pos (by omega)]
    rfl
  | d + 1, i, n + 1, u, it, h1, h2 => by
    rw [iterate]
    simp only [seqCond]
    rw [if_neg (show ¬ (if (i : Int) < (s.length : Int) then (1 : Int) else 0) = 0 by rw [if_pos (by omega)]; decide), exec, exec]
    simp only [seqFetch, fetch]
    rw [if_neg (by omega)]
    simp only [Int.toNat_natCast]
    rw [List.getElem?_eq_getElem (by omega)]
    simp only [Option.map, Option.bind_eq_bind, Option.bind, Res.ofOption, Res.andThen, exec_lift]
    have : ∀ v : View Int K T ρ, exec N (logging f) v = .done .normal { v with user := { v.user with rest := f v.user.rest v.key v.item } } :=
      fun v => rfl
    rw [this]
    simp only [liftRes]
    unfold iterate.next seqNext
    exact long_loop s f h N d (i + 1) n _ _ (by omega) (by omega)

/-- **C50** for strings of more than 2147483647 characters: the loop stops the program with "Index 2147483647 is out of range". -/
theorem C50_long_string_violated (s : List T) (h : 2147483647 < s.length) (f : ρ → Int → Option (Item K T) → ρ) (st : SeqState K T ρ) :
    Fails (forSeq (fun u => some (u, .str s)) .byValue (logging f)) st :=
  ⟨2147483648, by
    unfold forSeq
    rw [exec, exec]
    simp only [seqHeader, Option.bind_eq_bind, Option.bind, Res.ofOption, Res.andThen]
    rw [exec]
    exact long_loop s f h _ 2147483647 0 2147483648 _ none (by omega) (by omega)⟩

example : 2147483647 < (List.replicate 2147483648 'a').length := by rw [List.length_replicate]; omega

/-! ### Maps -/

/-- A map `{1: 10, 2: 20}` and its history. -/
def history : List (Map.Op Int Int) := [.set 2 20 5, .set 1 10 4]

def twoKeys : Map.MapVal Int Int := some { len := 2, right := .node (.node .nil 1 4 10 .nil) 2 5 20 .nil }

theorem twoKeys_history : twoKeys = Map.exec (fun a b => a - b) 0 none history := by
  simp [twoKeys, Map.exec, history, Map.step, Map.mapPtr, Map.getNode, Map.plug]

/-- Nothing but the map, as object 0. -/
def mapMem : User Int Int (List Int) := ⟨fun _ => [], fun _ => twoKeys, []⟩

def m0 : MapState Int Int (List Int) := (⟨mapMem, none, none⟩, ⟨0, 0, 0, []⟩)

def logKey : Stmt (View (Option Int) Int Int (List Int)) :=
  logging fun l k x => match k, x with | some k, some (.value t) => l ++ [k, t] | _, _ => l

/-- The hypotheses of `C50_maps` are met, and the loop logs both items in the order of the keys. -/
example : ∃ ks : List Int, ks.Pairwise (fun a b => a - b < 0) ∧
    (∀ k, k ∈ ks ↔ (Map.step (fun a b => a - b) 0 (mapMem.maps 0) (.validKey k)).2 = .bool true) ∧
    onMem (·.1.user) (meaning (forMap (fun a b => a - b) 0 (fun _ => 1) (fun u => some (u, 0)) .byValue logKey) m0) =
      visit (Spec.mapBind (fun a b => a - b) 0 (fun _ => 1) .byValue 0) (meaning logKey) (·.user) ks mapMem :=
  C50_maps _ Map.lawful_int 0 _ (fun u => some (u, 0)) .byValue logKey m0 mapMem 0 rfl history twoKeys_history

example : onMem (·.1.user.rest) (exec 3 (forMap (fun a b => a - b) 0 (fun _ => 1) (fun u => some (u, 0)) .byValue logKey) m0) =
    .done .normal [1, 10, 2, 20] := by
  simp [forMap, exec, mapHeader, m0, mapMem, twoKeys, Map.step, Map.Tree.keys, Res.ofOption, Res.andThen, iterate, mapCond, mapFetch, mapNext,
    iterate.next, Map.mapPtr, Map.getNode, Map.plug, exec_lift, logKey, logging, liftRes, onMem, Expr.eval]

/-- `delete(m, 2)` -/
def deleteTwo : Stmt (View (Option Int) Int Int (List Int)) :=
  .act fun v => some { v with user := Spec.setMap v.user 0 (Map.step (fun a b => a - b) 0 (v.user.maps 0) (.del 2)).1 }

/-- **C50** for an item that the body deletes before its turn: the loop visits it nevertheless, with value zero, and puts it back into the map.
(`for k, x in m { log(k, x); if k == 1 { delete(m, 2) } }`) -/
theorem C50_deleted_key_violated :
    ∃ s', Ends (forMap (fun a b => a - b) 0 (fun _ => 1) (fun u => some (u, 0)) .byValue
        (.seq logKey (.ifThen (.atom fun v => some (v, if v.key = some 1 then 1 else 0)) deleteTwo))) m0 .normal s' ∧
      s'.1.user.rest = [1, 10, 2, 0] ∧ (Map.step (fun a b => a - b) 0 (s'.1.user.maps 0) (.validKey 2)).2 = .bool true := by
  refine ⟨_, ⟨3, by
    simp [forMap, exec, mapHeader, m0, mapMem, twoKeys, Map.step, Map.Tree.keys, Res.ofOption, Res.andThen, iterate, mapCond, mapFetch, mapNext,
      iterate.next, Map.mapPtr, Map.getNode, Map.plug, exec_lift, logKey, logging, deleteTwo, Expr.eval, liftRes, Spec.setMap, Map.removeRoot]
    rfl⟩, ?_, ?_⟩
  · simp
  · simp [Map.step, Map.getNode]

end Umka.ForIn.Props
