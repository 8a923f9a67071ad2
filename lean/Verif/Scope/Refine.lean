import Verif.Scope.Lemmas
/-! # Identifiers and blocks: each operation of the compiler is one of the nest of scopes -/

namespace Umka.Scope

open Spec

theorem update_id {e' : Ident} {k : Nat} : ∀ {is : List Ident}, (∀ i ∈ is, i.id ≠ k) →
    is.map (fun i => if i.id = k then e' else i) = is
  | [], _ => rfl
  | i :: is, h => by
    rw [List.map_cons, if_neg (h i (by simp)), update_id (fun j hj => h j (by simp [hj]))]

theorem update_entries {p : Entry → Bool} {e e' : Ident} (hp' : e'.name.isPlain = true)
    (hpl : e.name.isPlain = true) : ∀ {is : List Ident}, (is.map (·.id)).Nodup →
    is.find? (fun i => p i.entry) = some e → (∀ i : Ident, p i.entry = true → i.name.isPlain = true) →
    entries (is.map fun i => if i.id = e.id then e' else i) = replaceFirst p e'.entry (entries is)
  | i :: is, hn, hf, hpp => by
    simp only [List.map_cons, List.nodup_cons, List.mem_map, not_exists, not_and] at hn
    simp only [List.find?] at hf
    cases h : p i.entry
    · simp only [h] at hf
      have hne : i.id ≠ e.id := fun hc => hn.1 e (List.mem_of_find?_eq_some hf) hc.symm
      have ih := update_entries hp' hpl hn.2 hf hpp
      rw [List.map_cons, if_neg hne]
      unfold entries at ih ⊢
      rw [List.filter_cons, List.filter_cons]
      cases hi : i.name.isPlain
      · simpa using ih
      · simp only [if_true, List.map_cons, replaceFirst, h]
        simp only [Bool.false_eq_true, if_false]
        rw [ih]
    · simp only [h] at hf
      cases hf
      rw [List.map_cons, if_pos rfl, update_id (fun j hj hc => hn.1 j hj hc)]
      unfold entries
      rw [List.filter_cons, List.filter_cons, if_pos hp', if_pos hpl, List.map_cons, List.map_cons, replaceFirst,
        if_pos h]

theorem resolve_complete (C : Compat) (e : Ident) (d : Decl) :
    (resolve C e d).map Ident.entry = complete C e.entry d ∧
    ∀ e' ∈ resolve C e d, e'.id = e.id ∧ e'.block = e.block ∧ e'.name = e.name := by
  obtain ⟨id, tag, name, what, rcv, mod, block, exp⟩ := e
  obtain ⟨dt, dn, dw, dr, de⟩ := d
  unfold resolve complete Ident.entry
  constructor
  · cases what <;> cases dw <;> simp only [Option.map_none, Option.map_some] <;> (repeat' split) <;>
      simp_all
  · intro e' he'
    cases what <;> cases dw <;> simp only [Option.mem_def] at he' <;> (try split at he') <;> simp at he' <;>
      simp [← he']

/-- Both fail in the same way, or both succeed and their results correspond. -/
def Rel : Except Err Env → Except Err State → Prop
  | .ok E, .ok S => Inv E S
  | .error e, .error e' => e = e'
  | _, _ => False

theorem cur_cons {E : Env} {b : Block} {bs : List Block} (h : E.blocks = b :: bs) : E.cur = b.num := by
  simp [Env.cur, h]

theorem find_eq {C : Compat} {E : Env} {S : State} (h : Inv E S) (q : Query) :
    find C E q = E.idents.find? fun i => denotes C S q i.entry := by
  unfold find
  congr 1
  funext i
  exact matches_eq C E.module E.imports S h.module h.imports q i

theorem inv_cons {E : Env} {S : State} (h : Inv E S) {b : Block} {bs : List Block} {seg rest : List Ident} {s : Scope} {ss' : List Scope} (hb : E.blocks = b :: bs)
    (hi : E.idents = seg ++ rest) (_hs : S.scopes = s :: ss') (h3 : ∀ i ∈ seg, i.block = b.num)
    (h5 : s.fn = b.fn) (h6 : ∀ b' ∈ bs, b'.num < b.num) (h7 : bs = [] → b.num = 0)
    (h8 : ∀ b' ∈ bs.head?, ∃ ts rest0, rest = ts ++ rest0 ∧
      (∀ t ∈ ts, t.name.isPlain = false ∧ t.block = b'.num) ∧ rest0.head?.map (·.id) = b.succ)
    (hR : Rep bs rest ss') (i : Ident) (s' : Scope) (hib : i.block = b.num) (hid : i.id = E.nextId) (t : Nat)
    (ht : E.temps ≤ t) (hin : ∀ n, i.name = .temp n → n < t)
    (hs' : s'.entries = entries (i :: seg)) (hf' : s'.fn = s.fn) :
    Inv { E with idents := i :: E.idents, nextId := E.nextId + 1, temps := t }
      { S with scopes := s' :: ss' } where
  rep := by
    show Rep E.blocks (i :: E.idents) (s' :: ss')
    rw [hb, hi]
    refine ⟨i :: seg, rest, s', ss', rfl, rfl, ?_, hs', hf'.trans h5, h6, h7, h8, hR⟩
    intro j hj
    rcases List.mem_cons.mp hj with hj | hj
    · rw [hj]; exact hib
    · exact h3 j hj
  module := h.module
  imports := h.imports
  ids := by
    intro j hj
    show j.id < E.nextId + 1
    rcases List.mem_cons.mp hj with hj | hj
    · rw [hj]; omega
    · have := h.ids j hj; omega
  nodup := by
    show ((i :: E.idents).map (·.id)).Nodup
    rw [List.map_cons, List.nodup_cons]
    refine ⟨?_, h.nodup⟩
    intro hc
    obtain ⟨j, hj, e⟩ := List.mem_map.mp hc
    have := h.ids j hj
    omega
  temps := by
    intro j hj n e
    show n < t
    rcases List.mem_cons.mp hj with hj | hj
    · rw [hj] at e; exact hin n e
    · have := h.temps j hj n e; omega
  nums := h.nums
  nonempty := h.nonempty

theorem declare_rel {C : Compat} {E : Env} {S : State} (h : Inv E S) (d : Decl) (hd : d.name.isPlain = true) :
    Rel (declare C E d) (Spec.declare C S d) := by
  have hrep := h.rep
  cases hb : E.blocks with
  | nil => exact absurd hb h.nonempty
  | cons b bs =>
    rw [hb] at hrep
    obtain ⟨seg, rest, s, ss', h1, h2, h3, h4, h5, h6, h7, h8, hR⟩ := hrep
    have hcur := cur_cons hb
    have hlen : (E.blocks.length ≠ 1) ↔ ss' ≠ [] := by
      have := rep_length hR
      rw [hb, List.length_cons]
      constructor
      · intro hc he; subst he; simp at this; omega
      · intro hc he
        have : ss'.length = 0 := by omega
        exact hc (List.length_eq_zero_iff.mp this)
    let q : Query := ⟨E.module, d.name, d.rcv, d.what == .module⟩
    have hown : denotes C S ⟨S.module, d.name, d.rcv, d.what == .module⟩ = denotes C S q := by
      rw [h.module]
    have hadd : Rel (if d.exported ∧ E.blocks.length ≠ 1 then .error .exportedLocal
        else .ok { E with
          idents := ⟨E.nextId, d.tag, d.name, d.what, d.rcv, E.module, E.cur, d.exported⟩ :: E.idents,
          nextId := E.nextId + 1 })
        (if d.exported ∧ ss' ≠ [] then .error .exportedLocal
        else .ok { S with
          scopes := { s with entries := ⟨d.tag, d.name, d.what, d.rcv, S.module, d.exported⟩ :: s.entries } :: ss' }) := by
      by_cases hx : d.exported ∧ ss' ≠ []
      · rw [if_pos hx, if_pos ⟨hx.1, hlen.mpr hx.2⟩]; rfl
      · rw [if_neg hx, if_neg (fun hc => hx ⟨hc.1, hlen.mp hc.2⟩)]
        refine inv_cons h hb h1 h2 h3 h5 h6 h7 h8 hR
          ⟨E.nextId, d.tag, d.name, d.what, d.rcv, E.module, E.cur, d.exported⟩ _ hcur rfl E.temps (Nat.le_refl _) ?_ ?_ rfl
        · intro n e
          have e : d.name = .temp n := e
          rw [e] at hd; cases hd
        · show _ :: s.entries = _
          rw [h4, h.module]
          unfold entries
          rw [List.filter_cons, if_pos hd]; rfl
    unfold declare Spec.declare
    dsimp only
    rw [h2]
    dsimp only
    rw [hown, h4, find_entries C S q hd, find_eq h q, h1]
    cases hf : (seg ++ rest).find? fun i => denotes C S q i.entry with
    | none =>
      have hf' : seg.find? (fun i => denotes C S q i.entry) = none := by
        rw [List.find?_append] at hf
        cases hs : seg.find? fun i => denotes C S q i.entry with
        | none => rfl
        | some x => rw [hs] at hf; cases hf
      rw [hf']
      rw [h1, h4] at hadd
      exact hadd
    | some e =>
      rcases find_top h3 h6 hR e hf with ⟨heb, hf'⟩ | ⟨heb, hf'⟩
      · rw [hf']
        dsimp only [Option.map_some]
        rw [if_pos (heb.trans hcur.symm)]
        obtain ⟨r1, r2⟩ := resolve_complete C e d
        rw [← r1]
        cases hres : resolve C e d with
        | none => rfl
        | some e' =>
          obtain ⟨r3, r4, r5⟩ := r2 e' hres
          dsimp only [Option.map_some]
          have hmem : e ∈ seg := List.mem_of_find?_eq_some hf'
          have hpe : e.name.isPlain = true := denotes_plain hd (by simpa using List.find?_some hf')
          have hnd := h.nodup
          rw [h1, List.map_append] at hnd
          have hndd := List.nodup_append.mp hnd
          have hrest : rest.map (fun i => if i.id = e.id then e' else i) = rest :=
            update_id (fun j hj hc => hndd.2.2 e.id (List.mem_map_of_mem hmem) j.id (List.mem_map_of_mem hj) hc.symm)
          have hids : ((seg ++ rest).map fun i => if i.id = e.id then e' else i).map (·.id) = (seg ++ rest).map (·.id) := by
            rw [List.map_map]
            apply List.map_congr_left
            intro j _
            show (if j.id = e.id then e' else j).id = j.id
            split
            · rename_i hj; rw [hj, r3]
            · rfl
          have hfrom : ∀ j ∈ (seg ++ rest).map (fun i => if i.id = e.id then e' else i), j = e' ∨ j ∈ seg ++ rest := by
            intro j hj
            obtain ⟨i, hi, rfl⟩ := List.mem_map.mp hj
            split
            · exact Or.inl rfl
            · exact Or.inr hi
          have hmem' : e ∈ E.idents := by rw [h1]; exact List.mem_append_left _ hmem
          refine ⟨?_, h.module, h.imports, ?_, ?_, ?_, h.nums, h.nonempty⟩
          · show Rep E.blocks _ _
            rw [hb, List.map_append, hrest]
            refine ⟨_, rest, _, ss', rfl, rfl, ?_, ?_, h5, h6, h7, h8, hR⟩
            · intro j hj
              obtain ⟨i, hi, rfl⟩ := List.mem_map.mp hj
              split
              · rw [r4]; exact heb
              · exact h3 i hi
            · exact (update_entries (by rw [r5]; exact hpe) hpe hndd.1 hf' (fun i hi => denotes_plain hd hi)).symm
          · intro j hj
            rcases hfrom j hj with rfl | hj
            · rw [r3]; exact h.ids e hmem'
            · exact h.ids j (by rw [h1]; exact hj)
          · show (List.map _ _).Nodup
            rw [hids, ← h1]; exact h.nodup
          · intro j hj n en
            rcases hfrom j hj with rfl | hj
            · exact h.temps e hmem' n (r5 ▸ en)
            · exact h.temps j (by rw [h1]; exact hj) n en
      · rw [hf']
        dsimp only [Option.map_none]
        rw [if_neg (fun hc => heb (hc.trans hcur))]
        rw [h1, h4] at hadd
        exact hadd

theorem addTemp_eq {C : Compat} {E : Env} {S : State} (h : Inv E S) : addTemp C E = .ok { E with
    idents := ⟨E.nextId, 0, .temp E.temps, .var, none, E.module, E.cur, false⟩ :: E.idents
    nextId := E.nextId + 1, temps := E.temps + 1 } := by
  unfold addTemp declare
  have : find C { E with temps := E.temps + 1 } ⟨E.module, .temp E.temps, none, What.var == .module⟩ = none := by
    unfold find
    rw [List.find?_eq_none]
    intro i hi hm
    have he : i.name = .temp E.temps := by
      unfold Ident.matches at hm
      simp only [Bool.and_eq_true, beq_iff_eq] at hm
      exact hm.1.1.2
    have := h.temps i hi _ he
    omega
  dsimp only
  rw [this]
  dsimp only
  rw [if_neg (by simp)]
  rfl

theorem entries_temp {i : Ident} {is : List Ident} (h : i.name.isPlain = false) : entries (i :: is) = entries is := by
  unfold entries
  rw [List.filter_cons, if_neg (by simp [h])]

theorem entries_append (is js : List Ident) : entries (is ++ js) = entries is ++ entries js := by
  simp [entries]

theorem addTemp_inv {C : Compat} {E : Env} {S : State} (h : Inv E S) :
    ∃ E', addTemp C E = .ok E' ∧ Inv E' S := by
  refine ⟨_, addTemp_eq h, ?_⟩
  have hrep := h.rep
  cases hb : E.blocks with
  | nil => exact absurd hb h.nonempty
  | cons b bs =>
    rw [hb] at hrep
    obtain ⟨seg, rest, s, ss', h1, h2, h3, h4, h5, h6, h7, h8, hR⟩ := hrep
    have hcur := cur_cons hb
    have := inv_cons h hb h1 h2 h3 h5 h6 h7 h8 hR
      ⟨E.nextId, 0, .temp E.temps, .var, none, E.module, E.cur, false⟩ s hcur rfl (E.temps + 1) (by omega)
      (fun n e => by cases e; omega) (by rw [h4, entries_temp rfl]) rfl
    rw [← h2] at this
    rw [← hb]
    exact this

theorem insertBefore_split {moved : Ident} {next : Option Nat} {rest0 : List Ident}
    (h0 : rest0.head?.map (·.id) = next) : ∀ (ts : List Ident), (∀ t ∈ ts, some t.id ≠ next) →
    insertBefore moved next (ts ++ rest0) = ts ++ moved :: rest0
  | [], _ => by
    cases rest0 with
    | nil => rw [← h0]; rfl
    | cons i is => rw [← h0]; simp [insertBefore]
  | t :: ts, h => by
    rw [List.cons_append, insertBefore, if_neg (h t (by simp)),
      insertBefore_split h0 ts (fun u hu => h u (by simp [hu]))]
    rfl

theorem addTempOutside_inv {C : Compat} {E : Env} {S : State} (h : Inv E S) (hlen : ¬E.blocks.length ≤ 1) :
    ∃ E', addTempOutside C E = .ok E' ∧ Inv E' S := by
  have hrep := h.rep
  cases hb : E.blocks with
  | nil => exact absurd hb h.nonempty
  | cons b bs =>
    rw [hb] at hrep hlen
    obtain ⟨seg, rest, s, ss', h1, h2, h3, h4, h5, h6, h7, h8, hR⟩ := hrep
    cases hbs : bs with
    | nil => rw [hbs] at hlen; simp at hlen
    | cons c cs =>
      subst hbs
      -- the list with the current block left out
      let F : Env := { E with blocks := c :: cs }
      have hfind : addTemp C F = .ok { F with
          idents := ⟨E.nextId, 0, .temp E.temps, .var, none, E.module, c.num, false⟩ :: E.idents
          nextId := E.nextId + 1, temps := E.temps + 1 } := by
        unfold addTemp declare
        have : find C { F with temps := F.temps + 1 } ⟨F.module, .temp F.temps, none, What.var == .module⟩ = none := by
          unfold find
          rw [List.find?_eq_none]
          intro i hi hm
          have he : i.name = .temp E.temps := by
            unfold Ident.matches at hm
            simp only [Bool.and_eq_true, beq_iff_eq] at hm
            exact hm.1.1.2
          have := h.temps i hi _ he
          omega
        dsimp only
        rw [this]
        dsimp only
        rw [if_neg (by simp)]
        rfl
      obtain ⟨ts, rest0, k1, k2, k3⟩ := h8 c rfl
      let m : Ident := ⟨E.nextId, 0, .temp E.temps, .var, none, E.module, c.num, false⟩
      have hE : E.idents = (seg ++ ts) ++ rest0 := by rw [h1, k1, List.append_assoc]
      have hmove : moveBefore (m :: E.idents) b.succ = (seg ++ ts) ++ m :: rest0 := by
        unfold moveBefore
        have hcond : (E.idents.any (fun i => some i.id == b.succ) || b.succ.isNone) = true := by
          rw [hE, ← k3]
          cases rest0 with
          | nil => simp
          | cons r rs => simp
        dsimp only
        rw [if_pos hcond, hE]
        refine insertBefore_split k3 _ ?_
        intro t ht hc
        rw [← k3] at hc
        cases rest0 with
        | nil => simp at hc
        | cons r rs =>
          have hnd := h.nodup
          rw [hE, List.map_append] at hnd
          have := (List.nodup_append.mp hnd).2.2 t.id (List.mem_map_of_mem ht) r.id (by simp)
          simp at hc
          exact this hc
      refine ⟨{ E with
        idents := (seg ++ ts) ++ m :: rest0, nextId := E.nextId + 1, temps := E.temps + 1 }, ?_, ?_⟩
      · unfold addTempOutside
        rw [hb]
        dsimp only
        have : addTemp C { E with blocks := c :: cs } = _ := hfind
        rw [this]
        show Except.ok _ = _
        simp only [m] at hmove
        rw [show E.blocks = b :: c :: cs from hb] at *
        dsimp only [F]
        rw [hmove]
      · have hperm : ∀ j, j ∈ (seg ++ ts) ++ m :: rest0 ↔ j = m ∨ j ∈ E.idents := by
          intro j
          rw [hE]
          simp only [List.mem_append, List.mem_cons]
          grind
        refine ⟨?_, h.module, h.imports, ?_, ?_, ?_, h.nums, h.nonempty⟩
        · show Rep E.blocks _ S.scopes
          rw [hb, h2]
          refine ⟨seg, ts ++ m :: rest0, s, ss', by simp, rfl, h3, h4, h5, h6, h7, ?_, ?_⟩
          · intro b' hb'
            cases hb'
            refine ⟨ts ++ [m], rest0, by simp, ?_, k3⟩
            intro t ht
            rcases List.mem_append.mp ht with ht | ht
            · exact k2 t ht
            · simp at ht; rw [ht]; exact ⟨rfl, rfl⟩
          · obtain ⟨seg2, rest2, s2, ss2, g1, g2, g3, g4, g5, g6, g7, g8, gR⟩ := hR
            -- the temporaries belong to the identifiers of the enclosing block
            have hle : ∃ seg3, seg2 = ts ++ seg3 ∧ rest0 = seg3 ++ rest2 := by
              have e : ts ++ rest0 = seg2 ++ rest2 := by rw [← k1, ← g1]
              rcases List.append_eq_append_iff.mp e with ⟨w, hw1, hw2⟩ | ⟨w, hw1, hw2⟩
              · exact ⟨w, hw1, hw2⟩
              · have : w = [] := by
                  cases w with
                  | nil => rfl
                  | cons x xs =>
                    have hx : x ∈ rest2 := by rw [hw2]; simp
                    obtain ⟨b', hb', e'⟩ := rep_block gR x hx
                    have := (k2 x (by rw [hw1]; simp)).2
                    have := g6 b' hb'
                    omega
                subst this
                exact ⟨[], by simpa using hw1.symm, by simpa using hw2.symm⟩
            obtain ⟨seg3, q1, q2⟩ := hle
            refine ⟨ts ++ m :: seg3, rest2, s2, ss2, ?_, g2, ?_, ?_, g5, g6, g7, g8, gR⟩
            · rw [q2]; simp
            · intro i hi
              rcases List.mem_append.mp hi with hi | hi
              · exact (k2 i hi).2
              · rcases List.mem_cons.mp hi with hi | hi
                · rw [hi]
                · exact g3 i (by rw [q1]; simp [hi])
            · rw [g4, q1, entries_append, entries_append, entries_temp rfl]
        · intro j hj
          rcases (hperm j).mp hj with hj | hj
          · rw [hj]; show E.nextId < E.nextId + 1; omega
          · have := h.ids j hj; show j.id < E.nextId + 1; omega
        · show (((seg ++ ts) ++ m :: rest0).map (·.id)).Nodup
          have hnd := h.nodup
          rw [hE] at hnd
          have hp : (((seg ++ ts) ++ m :: rest0).map (·.id)).Perm ((m :: ((seg ++ ts) ++ rest0)).map (·.id)) :=
            List.Perm.map _ List.perm_middle
          rw [hp.nodup_iff, List.map_cons, List.nodup_cons]
          refine ⟨?_, hnd⟩
          intro hc
          obtain ⟨j, hj, e⟩ := List.mem_map.mp hc
          rw [← hE] at hj
          have := h.ids j hj
          have e : j.id = E.nextId := e
          omega
        · intro j hj n e
          show n < E.temps + 1
          rcases (hperm j).mp hj with hj | hj
          · rw [hj] at e; cases e; omega
          · have := h.temps j hj n e; omega

theorem enter_rel {E : Env} {S : State} (h : Inv E S) (fn : Bool) :
    Rel (enter E fn) (if S.scopes.length ≥ maxNesting then .error .tooDeep
      else .ok { S with scopes := ⟨fn, []⟩ :: S.scopes }) := by
  unfold enter
  have hl := rep_length h.rep
  rw [hl]
  by_cases hc : E.blocks.length ≥ maxNesting
  · rw [if_pos hc, if_pos hc]; rfl
  · rw [if_neg hc, if_neg hc]
    refine ⟨⟨[], E.idents, _, S.scopes, rfl, rfl, by simp, rfl, rfl, h.nums, ?_, ?_, h.rep⟩, h.module, h.imports,
      h.ids, h.nodup, h.temps, ?_, by simp⟩
    · intro he; exact absurd he h.nonempty
    · intro b' _
      exact ⟨[], E.idents, rfl, by simp, rfl⟩
    · intro b hb
      show b.num < E.numBlocks + 1
      rcases List.mem_cons.mp hb with hb | hb
      · rw [hb]; show E.numBlocks < E.numBlocks + 1; omega
      · have := h.nums b hb; omega

theorem dropWhile_seg {k : Nat} : ∀ {seg rest : List Ident}, (∀ i ∈ seg, i.block = k) →
    (∀ i ∈ rest, i.block ≠ k) → (seg ++ rest).dropWhile (·.block == k) = rest
  | [], [], _, _ => rfl
  | [], i :: is, _, h => by
    have := h i (by simp)
    simp [this]
  | i :: is, rest, h, h' => by
    rw [List.cons_append, List.dropWhile_cons, if_pos (by simp [h i (by simp)])]
    exact dropWhile_seg (fun j hj => h j (by simp [hj])) h'

theorem leave_inv {E : Env} {S : State} (h : Inv E S) (hlen : ¬E.blocks.length ≤ 1) :
    Inv (leave E) { S with scopes := S.scopes.tail } := by
  have hrep := h.rep
  cases hb : E.blocks with
  | nil => exact absurd hb h.nonempty
  | cons b bs =>
    rw [hb] at hrep hlen
    obtain ⟨seg, rest, s, ss', h1, h2, h3, h4, h5, h6, h7, h8, hR⟩ := hrep
    have hcur := cur_cons hb
    have hfree : identFree E.idents E.cur = rest := by
      unfold identFree
      rw [h1, hcur]
      refine dropWhile_seg h3 ?_
      intro i hi
      obtain ⟨b', hb', e⟩ := rep_block hR i hi
      have := h6 b' hb'
      omega
    have hsub : ∀ i ∈ rest, i ∈ E.idents := fun i hi => by rw [h1]; exact List.mem_append_right _ hi
    refine ⟨?_, h.module, h.imports, ?_, ?_, ?_, ?_, ?_⟩
    · show Rep E.blocks.tail (identFree E.idents E.cur) S.scopes.tail
      rw [hfree, hb, h2]; exact hR
    · intro i hi
      rw [leave, hfree] at hi
      exact h.ids i (hsub i hi)
    · show ((identFree E.idents E.cur).map _).Nodup
      rw [hfree]
      have := h.nodup
      rw [h1, List.map_append] at this
      exact (List.nodup_append.mp this).2.1
    · intro i hi
      rw [leave, hfree] at hi
      exact h.temps i (hsub i hi)
    · intro b' hb'
      have hb' : b' ∈ E.blocks.tail := hb'
      rw [hb] at hb'
      exact h.nums b' (by rw [hb]; exact List.mem_cons_of_mem _ hb')
    · show E.blocks.tail ≠ []
      rw [hb]
      cases bs with
      | nil => simp at hlen
      | cons c cs => simp

/-- Both fail in the same way, or both succeed with the same output and corresponding results. -/
def RelO {α : Type} : Except Err (Env × α) → Except Err (State × α) → Prop
  | .ok (E, o), .ok (S, o') => Inv E S ∧ o = o'
  | .error e, .error e' => e = e'
  | _, _ => False

theorem plain_isPlain {n : Name} (h : ∃ s, n = .plain s) : n.isPlain = true := by
  obtain ⟨s, rfl⟩ := h; rfl

theorem step_rel {C : Compat} {E : Env} {S : State} (h : Inv E S) (op : Op) (hop : op.plain) :
    RelO (step C E op) (Spec.step C S op) := by
  have hl := rep_length h.rep
  cases op with
  | enter fn =>
    have := enter_rel h fn
    unfold step Spec.step
    by_cases hc : S.scopes.length ≥ maxNesting
    · dsimp only
      rw [if_pos hc] at this ⊢
      revert this
      cases enter E fn with
      | error e => exact id
      | ok E' => exact False.elim
    · dsimp only
      rw [if_neg hc] at this ⊢
      revert this
      cases enter E fn with
      | error e => exact False.elim
      | ok E' => exact fun hh => ⟨hh, rfl⟩
  | leave =>
    unfold step Spec.step
    dsimp only
    rw [hl]
    by_cases hc : E.blocks.length ≤ 1
    · rw [if_pos hc, if_pos hc]; exact ⟨h, rfl⟩
    · rw [if_neg hc, if_neg hc]; exact ⟨leave_inv h hc, rfl⟩
  | declare d =>
    have := declare_rel (C := C) h d (plain_isPlain hop)
    unfold step Spec.step
    dsimp only
    revert this
    cases declare C E d <;> cases Spec.declare C S d
    · exact id
    · exact False.elim
    · exact False.elim
    · exact fun hh => ⟨hh, rfl⟩
  | temp =>
    obtain ⟨E', e, hh⟩ := addTemp_inv (C := C) h
    unfold step Spec.step
    dsimp only
    rw [e]
    exact ⟨hh, rfl⟩
  | tempOutside =>
    unfold step Spec.step
    dsimp only
    by_cases hc : E.blocks.length ≤ 1
    · rw [if_pos hc]; exact ⟨h, rfl⟩
    · obtain ⟨E', e, hh⟩ := addTempOutside_inv (C := C) h hc
      rw [if_neg hc, e]; exact ⟨hh, rfl⟩
  | lookup q =>
    have := meaning_rep (C := C) (S := S) (q := q) (plain_isPlain hop) h.rep false
    unfold step Spec.step
    dsimp only
    refine ⟨h, ?_⟩
    unfold meaning
    rw [this, find_eq h q]
    cases E.idents.find? fun i => denotes C S q i.entry <;> rfl
  | switchModule m =>
    unfold step Spec.step
    dsimp only
    rw [hl]
    by_cases hc : E.blocks.length ≤ 1
    · rw [if_pos hc, if_pos hc]
      exact ⟨⟨h.rep, rfl, h.imports, h.ids, h.nodup, h.temps, h.nums, h.nonempty⟩, rfl⟩
    · rw [if_neg hc, if_neg hc]; exact ⟨h, rfl⟩
  | imported m =>
    unfold step Spec.step
    dsimp only
    rw [hl]
    by_cases hc : E.blocks.length ≤ 1
    · rw [if_pos hc, if_pos hc]
      exact ⟨⟨h.rep, h.module, by show _ :: _ = _ :: _; rw [h.imports, h.module], h.ids, h.nodup, h.temps, h.nums,
        h.nonempty⟩, rfl⟩
    · rw [if_neg hc, if_neg hc]; exact ⟨h, rfl⟩

theorem run_rel {C : Compat} : ∀ {ops : List Op} {E : Env} {S : State}, Inv E S → (∀ op ∈ ops, op.plain) →
    RelO (run C E ops) (Spec.run C S ops)
  | [], _, _, h, _ => ⟨h, rfl⟩
  | op :: ops, E, S, h, hop => by
    have h1 := step_rel (C := C) h op (hop op (by simp))
    rw [run, Spec.run]
    revert h1
    cases step C E op with
    | error e =>
      cases Spec.step C S op with
      | error e' => exact id
      | ok p => obtain ⟨S', o'⟩ := p; exact False.elim
    | ok p =>
      obtain ⟨E', o⟩ := p
      cases Spec.step C S op with
      | error e' => exact False.elim
      | ok p =>
        obtain ⟨S', o'⟩ := p
        rintro ⟨hI, rfl⟩
        have h2 := run_rel (C := C) (ops := ops) hI (fun op hop' => hop op (by simp [hop']))
        revert h2
        show RelO (run C E' ops) (Spec.run C S' ops) →
          RelO ((run C E' ops).bind fun p => .ok (p.1, o :: p.2)) ((Spec.run C S' ops).bind fun p => .ok (p.1, o :: p.2))
        cases run C E' ops with
        | error e =>
          cases Spec.run C S' ops with
          | error e' => exact id
          | ok p => obtain ⟨S', o'⟩ := p; exact False.elim
        | ok p =>
          obtain ⟨E'', os⟩ := p
          cases Spec.run C S' ops with
          | error e' => exact False.elim
          | ok p =>
            obtain ⟨S'', os'⟩ := p
            rintro ⟨hI, rfl⟩
            exact ⟨hI, rfl⟩

theorem init_inv : Inv init Spec.init where
  rep := ⟨[], [], _, [], rfl, rfl, by simp, rfl, rfl, by simp, by simp, by simp, rfl, rfl⟩
  module := rfl
  imports := rfl
  ids := by simp [init]
  nodup := by simp [init]
  temps := by simp [init]
  nums := by simp [init]
  nonempty := by simp [init]

end Umka.Scope
