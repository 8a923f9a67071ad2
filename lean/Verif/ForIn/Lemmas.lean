import Verif.ForIn.Spec
import Verif.Control.Props
import Verif.Map.Props

namespace Umka.ForIn

open Umka.Control.Spec

/-! ## Lifting -/

section
variable {σ η : Type}

def liftRes (h : η) : Res σ → Res (σ × η)
  | .done o s => .done o (s, h)
  | .error => .error
  | .timeout => .timeout

theorem ofOption_lift (f : σ → Option σ) (s : σ) (h : η) : Res.ofOption (liftAct f (s, h)) = liftRes h (Res.ofOption (f s)) := by
  unfold liftAct
  cases f s <;> rfl

theorem eval_lift (e : Expr σ) : ∀ (s : σ) (h : η), (liftExpr e).eval (s, h) = (e.eval s).map fun q => ((q.1, h), q.2) := by
  induction e with
  | atom f => intro s h; simp only [liftExpr, Expr.eval, liftEval]
  | unary f e ih =>
    intro s h
    simp only [liftExpr, Expr.eval, ih]
    cases e.eval s with
    | none => rfl
    | some q => rfl
  | binary f a b iha ihb =>
    intro s h
    simp only [liftExpr, Expr.eval, iha]
    cases a.eval s with
    | none => rfl
    | some q =>
      simp only [Option.map, Option.bind_eq_bind, Option.bind, ihb]
      cases b.eval q.1 with
      | none => rfl
      | some q => rfl
  | and a b iha ihb =>
    intro s h
    simp only [liftExpr, Expr.eval, iha]
    cases a.eval s with
    | none => rfl
    | some q =>
      simp only [Option.map, Option.bind_eq_bind, Option.bind]
      split
      · rw [ihb]; cases b.eval q.1 <;> rfl
      · rfl
  | or a b iha ihb =>
    intro s h
    simp only [liftExpr, Expr.eval, iha]
    cases a.eval s with
    | none => rfl
    | some q =>
      simp only [Option.map, Option.bind_eq_bind, Option.bind]
      split
      · rfl
      · rw [ihb]; cases b.eval q.1 <;> rfl

theorem andThen_lift (r : Res σ) (h : η) (k : σ → Res σ) (k' : σ × η → Res (σ × η)) (hk : ∀ s, k' (s, h) = liftRes h (k s)) :
    (liftRes h r).andThen k' = liftRes h (r.andThen k) := by
  cases r with
  | done o s => cases o <;> simp only [liftRes, Res.andThen, hk]
  | error => rfl
  | timeout => rfl

theorem iterate_lift (h : η) {c : σ → Option (σ × Int)} {c' : σ × η → Option ((σ × η) × Int)} {b : σ → Res σ} {b' : σ × η → Res (σ × η)}
    {p : σ → Option σ} {p' : σ × η → Option (σ × η)} (hc : ∀ s, c' (s, h) = (c s).map fun q => ((q.1, h), q.2))
    (hb : ∀ s, b' (s, h) = liftRes h (b s)) (hp : ∀ s, p' (s, h) = (p s).map (·, h)) :
    ∀ (n : Nat) (s : σ), iterate c' b' p' n (s, h) = liftRes h (iterate c b p n s)
  | 0, s => by rw [iterate, iterate]; rfl
  | n + 1, s => by
    have next : ∀ s, iterate.next c' b' p' n (s, h) = liftRes h (iterate.next c b p n s) := by
      intro s
      unfold iterate.next
      rw [hp]
      cases p s with
      | none => rfl
      | some s => exact iterate_lift h hc hb hp n s
    rw [iterate, iterate, hc]
    cases c s with
    | none => rfl
    | some q =>
      dsimp only [Option.map]
      split
      · rfl
      · rw [hb]
        cases b q.1 with
        | done o s => cases o <;> simp only [liftRes, next]
        | error => rfl
        | timeout => rfl

mutual
theorem exec_lift (n : Nat) (p : Stmt σ) (s : σ) (h : η) : exec n (lift p) (s, h) = liftRes h (exec n p s) := by
  cases p with
  | act f => simp only [lift, exec, ofOption_lift]
  | use e f =>
    simp only [lift, exec, eval_lift]
    cases e.eval s with
    | none => rfl
    | some q => exact ofOption_lift (f · q.2) q.1 h
  | skip => rfl
  | seq a b =>
    simp only [lift, exec, exec_lift n a]
    exact andThen_lift _ _ _ _ fun s => exec_lift n b s h
  | ifThen c a =>
    simp only [lift, exec, eval_lift]
    cases c.eval s with
    | none => rfl
    | some q =>
      dsimp only [Option.map]
      split
      · exact exec_lift n a _ h
      · rfl
  | ifElse c a b =>
    simp only [lift, exec, eval_lift]
    cases c.eval s with
    | none => rfl
    | some q =>
      dsimp only [Option.map]
      split
      · exact exec_lift n a _ h
      · exact exec_lift n b _ h
  | switch e cs d =>
    simp only [lift, exec, eval_lift]
    cases e.eval s with
    | none => rfl
    | some q => exact execCases_lift n cs q.2 _ _ (fun s => exec_lift n d s h) q.1
  | typeSwitch e cs d =>
    simp only [lift, exec, eval_lift]
    cases e.eval s with
    | none => rfl
    | some q => exact execTypeCases_lift n cs q.2 _ _ (fun s => exec_lift n d s h) q.1
  | loop c body post =>
    simp only [lift, exec]
    apply iterate_lift h (fun s => eval_lift c s h) (fun s => exec_lift n body s h)
    intro s
    cases post with
    | none => rfl
    | some f => rfl
  | forPost c p f body =>
    simp only [lift, exec]
    apply iterate_lift h (fun s => eval_lift c s h) (fun s => exec_lift n body s h)
    intro s
    rw [eval_lift]
    cases p.eval s with
    | none => rfl
    | some q => rfl
  | brk => rfl
  | cont => rfl
  | ret => rfl
theorem execCases_lift (n : Nat) (cs : Cases σ) (v : Int) {h : η} (d : σ → Res σ) (d' : σ × η → Res (σ × η))
    (hd : ∀ s, d' (s, h) = liftRes h (d s)) (s : σ) : execCases n (liftCases cs) v d' (s, h) = liftRes h (execCases n cs v d s) := by
  cases cs with
  | nil => exact hd s
  | cons ks body rest =>
    simp only [liftCases, execCases]
    split
    · exact exec_lift n body s h
    · exact execCases_lift n rest v d d' hd s
theorem execTypeCases_lift (n : Nat) (cs : TypeCases σ) (v : Int) {h : η} (d : σ → Res σ) (d' : σ × η → Res (σ × η))
    (hd : ∀ s, d' (s, h) = liftRes h (d s)) (s : σ) :
    execTypeCases n (liftTypeCases cs) v d' (s, h) = liftRes h (execTypeCases n cs v d s) := by
  cases cs with
  | nil => exact hd s
  | cons conv bind body rest =>
    simp only [liftTypeCases, execTypeCases]
    split
    · rw [ofOption_lift (bind · (conv s v))]
      exact andThen_lift _ _ _ _ fun s => exec_lift n body s h
    · exact execTypeCases_lift n rest v d d' hd s
end

/-! ## Meaning -/

theorem meaning_eventually (p : Stmt σ) (s : σ) : ∃ N, ∀ n, N ≤ n → exec n p s = Spec.meaning p s := by
  unfold Spec.meaning
  split
  · rename_i h
    exact ⟨h.choose, fun n hn => Umka.Control.exec_mono_le hn h.choose_spec⟩
  · rename_i h
    refine ⟨0, fun n _ => ?_⟩
    exact Classical.byContradiction fun hn => h ⟨n, hn⟩

theorem meaning_done {p : Stmt σ} {s : σ} {o : Out} {s' : σ} : Spec.meaning p s = .done o s' ↔ Ends p s o s' := by
  obtain ⟨N, hN⟩ := meaning_eventually p s
  constructor
  · intro h; exact ⟨N, by rw [hN N (Nat.le_refl _), h]⟩
  · rintro ⟨n, hn⟩
    rw [← hN (max N n) (by omega), Umka.Control.exec_mono_le (n := n) (by omega) (by rw [hn]; simp), hn]

theorem meaning_error {p : Stmt σ} {s : σ} : Spec.meaning p s = .error ↔ Fails p s := by
  obtain ⟨N, hN⟩ := meaning_eventually p s
  constructor
  · intro h; exact ⟨N, by rw [hN N (Nat.le_refl _), h]⟩
  · rintro ⟨n, hn⟩
    rw [← hN (max N n) (by omega), Umka.Control.exec_mono_le (n := n) (by omega) (by rw [hn]; simp), hn]

theorem meaning_timeout {p : Stmt σ} {s : σ} : Spec.meaning p s = .timeout ↔ Diverges p s := by
  obtain ⟨N, hN⟩ := meaning_eventually p s
  constructor
  · intro h n
    refine Classical.byContradiction fun hn => hn ?_
    have := Umka.Control.exec_mono_le (show n ≤ max N n by omega) hn
    rw [← this, hN _ (by omega), h]
  · intro h; rw [← hN N (Nat.le_refl _), h]

theorem visit_eventually {α τ ν : Type} (bind : τ → α → Option ν) (body : Stmt ν) (mem : ν → τ) : ∀ (ks : List α) (t : τ),
    ∃ N, ∀ n, N ≤ n → Spec.visit bind (exec n body) mem ks t = Spec.visit bind (Spec.meaning body) mem ks t
  | [], t => ⟨0, fun _ _ => rfl⟩
  | k :: ks, t => by
    cases hb : bind t k with
    | none => exact ⟨0, fun n _ => by simp only [Spec.visit, hb]⟩
    | some v =>
      obtain ⟨N, hN⟩ := meaning_eventually body v
      cases hm : Spec.meaning body v with
      | error => exact ⟨N, fun n hn => by simp only [Spec.visit, hb, hN n hn, hm]⟩
      | timeout => exact ⟨N, fun n hn => by simp only [Spec.visit, hb, hN n hn, hm]⟩
      | done o v' =>
        obtain ⟨M, hM⟩ := visit_eventually bind body mem ks (mem v')
        refine ⟨max N M, fun n hn => ?_⟩
        have h1 := hN n (by omega)
        have h2 := hM n (by omega)
        cases o <;> simp only [Spec.visit, hb, h1, hm, h2]

/-- From all large numbers of iterations to the meaning. -/
theorem meaning_of_large {α τ ν ω : Type} {p : Stmt ω} {s : ω} {proj : ω → τ} {bind : τ → α → Option ν} {body : Stmt ν} {mem : ν → τ}
    {ks : List α} {t : τ} (N : Nat) (h : ∀ n, N ≤ n → Spec.onMem proj (exec n p s) = Spec.visit bind (exec n body) mem ks t) :
    Spec.onMem proj (Spec.meaning p s) = Spec.visit bind (Spec.meaning body) mem ks t := by
  obtain ⟨A, hA⟩ := meaning_eventually p s
  obtain ⟨B, hB⟩ := visit_eventually bind body mem ks t
  have h1 := hA (max N (max A B)) (by omega)
  rw [← h1, h _ (by omega), hB _ (by omega)]

end

/-! ## The loops -/

variable {K T ρ : Type}

theorem range_drop (n : Nat) (i : Nat) (h : i < n) : (List.range n).drop i = i :: (List.range n).drop (i + 1) := by
  rw [List.drop_eq_getElem_cons (by simpa using h)]
  simp

theorem seqFetch_bind (form : Form) (u : User K T ρ) (i : Nat) (it : Option (Item K T)) (len : Int) (c : Coll T) (hn : Spec.NotHuge c)
    (hl : ∀ s, c = .str s → i < s.length) :
    seqFetch form (⟨u, i, it⟩, ⟨len, c⟩) = (Spec.seqBind form c u i).map (·, ⟨len, c⟩) := by
  unfold seqFetch fetch Spec.seqBind
  cases form with
  | none => rfl
  | byValue =>
    cases c with
    | array r n =>
      simp only [Spec.items, Int.toNat_natCast]
      by_cases h : i < n
      · rw [if_neg (by omega), if_pos (show i < Spec.length u (.array r n) from h)]; cases (u.arrays r)[i]? <;> rfl
      · rw [if_pos (by omega), if_neg (show ¬ i < Spec.length u (.array r n) from h)]; rfl
    | dyn r =>
      simp only [Spec.items, Int.toNat_natCast]
      by_cases h : i < (u.arrays r).length
      · rw [if_neg (by omega), if_pos (show i < Spec.length u (.dyn r) from h)]; cases (u.arrays r)[i]? <;> rfl
      · rw [if_pos (by omega), if_neg (show ¬ i < Spec.length u (.dyn r) from h)]; rfl
    | str s =>
      have := hl s rfl
      simp only [Spec.NotHuge] at hn
      simp only [Spec.items, Int.toNat_natCast]
      rw [if_neg (by omega), if_pos (show i < Spec.length u (.str s) from this)]
      cases s[i]? <;> rfl
  | byPtr =>
    cases c with
    | array r n =>
      simp only
      by_cases h : i < n
      · rw [if_neg (by omega), if_pos h]; rfl
      · rw [if_pos (by omega), if_neg h]; rfl
    | dyn r =>
      simp only
      by_cases h : i < (u.arrays r).length
      · rw [if_neg (by omega), if_pos h]; rfl
      · rw [if_pos (by omega), if_neg h]; rfl
    | str s => simp only; split <;> rfl

theorem seq_loop (form : Form) (body : Stmt (View Int K T ρ)) (hk : Spec.KeepsIndex body) (c : Coll T) (hn : Spec.NotHuge c) (len : Nat)
    (hl : ∀ s, c = .str s → len = s.length) (N : Nat) : ∀ (n i : Nat) (u : User K T ρ) (it : Option (Item K T)),
    i ≤ len → len - i < n →
    Spec.onMem (·.1.user) (iterate seqCond (exec N (.seq (.act (seqFetch form)) (lift body))) seqNext n (⟨u, i, it⟩, ⟨len, c⟩)) =
      Spec.visit (Spec.seqBind form c) (exec N body) (·.user) ((List.range len).drop i) u
  | 0, i, u, it, h1, h2 => by omega
  | n + 1, i, u, it, h1, h2 => by
    have next : ∀ v : View Int K T ρ, v.key = i → i < len →
        Spec.onMem (·.1.user) (iterate.next seqCond (exec N (.seq (.act (seqFetch form)) (lift body))) seqNext n (v, ⟨len, c⟩)) =
        Spec.visit (Spec.seqBind form c) (exec N body) (·.user) ((List.range len).drop (i + 1)) v.user := by
      intro v hv hi
      have ih := seq_loop form body hk c hn len hl N n (i + 1) v.user v.item (by omega) (by omega)
      rw [← ih]
      unfold iterate.next seqNext
      simp only [hv]
      rfl
    rw [iterate]
    simp only [seqCond]
    by_cases h : i < len
    · rw [if_neg (show ¬ (if (i : Int) < (len : Int) then (1 : Int) else 0) = 0 by rw [if_pos (by omega)]; decide), range_drop len i h, Spec.visit, exec, exec,
        seqFetch_bind form u i it len c hn (by intro s hs; rw [← hl s hs]; exact h)]
      cases hb : Spec.seqBind form c u i with
      | none => rfl
      | some v =>
        have hkey : v.key = i := by
          unfold Spec.seqBind at hb
          split at hb
          · injection hb with hb; rw [← hb]
          · split at hb
            · simp only [Option.map_eq_some_iff] at hb
              obtain ⟨_, _, hb⟩ := hb; rw [← hb]
            · cases hb
          · cases hb
          · split at hb
            · injection hb with hb; rw [← hb]
            · cases hb
          · split at hb
            · injection hb with hb; rw [← hb]
            · cases hb
        simp only [Option.map, Res.ofOption, Res.andThen, exec_lift]
        cases he : exec N body v with
        | error => rfl
        | timeout => rfl
        | done o v' =>
          cases o with
          | normal => exact next v' ((hk _ _ _ ⟨N, he⟩ (.inl rfl)).trans hkey) h
          | cont => exact next v' ((hk _ _ _ ⟨N, he⟩ (.inr rfl)).trans hkey) h
          | brk => rfl
          | ret => rfl
    · rw [if_pos (show (if (i : Int) < (len : Int) then (1 : Int) else 0) = 0 by rw [if_neg (by omega)]), List.drop_eq_nil_of_le (by simp; omega)]
      rfl

theorem mapFetch_bind (cmp : K → K → Int) (zero : T) (rand : User K T ρ → Int) (form : Form) (u : User K T ρ) (i : Nat) (k0 : Option K)
    (it : Option (Item K T)) (len : Int) (r : Nat) (ks : List K) (k : K) (hk : ks[i]? = some k) :
    mapFetch cmp zero rand form (⟨u, k0, it⟩, ⟨len, r, i, ks⟩) = (Spec.mapBind cmp zero rand form r u k).map (·, ⟨len, r, i, ks⟩) := by
  have : i < ks.length := by rw [List.getElem?_eq_some_iff] at hk; exact hk.1
  unfold mapFetch Spec.mapBind
  rw [if_neg (by simp only; omega)]
  simp only [Int.toNat_natCast, hk]
  cases form <;> rfl

theorem map_loop (cmp : K → K → Int) (zero : T) (rand : User K T ρ → Int) (form : Form) (body : Stmt (View (Option K) K T ρ)) (r : Nat)
    (ks : List K) (N : Nat) : ∀ (n i : Nat) (u : User K T ρ) (k0 : Option K) (it : Option (Item K T)), i ≤ ks.length → ks.length - i < n →
    Spec.onMem (·.1.user) (iterate mapCond (exec N (.seq (.act (mapFetch cmp zero rand form)) (lift body))) mapNext n
      (⟨u, k0, it⟩, ⟨ks.length, r, i, ks⟩)) =
      Spec.visit (Spec.mapBind cmp zero rand form r) (exec N body) (·.user) (ks.drop i) u
  | 0, i, u, k0, it, h1, h2 => by omega
  | n + 1, i, u, k0, it, h1, h2 => by
    have next : ∀ v : View (Option K) K T ρ, i < ks.length →
        Spec.onMem (·.1.user) (iterate.next mapCond (exec N (.seq (.act (mapFetch cmp zero rand form)) (lift body))) mapNext n
          (v, ⟨ks.length, r, i, ks⟩)) =
        Spec.visit (Spec.mapBind cmp zero rand form r) (exec N body) (·.user) (ks.drop (i + 1)) v.user := by
      intro v hi
      rw [← map_loop cmp zero rand form body r ks N n (i + 1) v.user v.key v.item (by omega) (by omega)]
      unfold iterate.next mapNext
      rfl
    rw [iterate]
    simp only [mapCond]
    by_cases h : i < ks.length
    · rw [if_neg (show ¬ (if (i : Int) < (ks.length : Int) then (1 : Int) else 0) = 0 by rw [if_pos (by omega)]; decide), List.drop_eq_getElem_cons h, Spec.visit, exec, exec,
        mapFetch_bind cmp zero rand form u i k0 it _ r ks ks[i] (by simp [h])]
      cases hb : Spec.mapBind cmp zero rand form r u ks[i] with
      | none => rfl
      | some v =>
        simp only [Option.map, Res.ofOption, Res.andThen, exec_lift]
        cases he : exec N body v with
        | error => rfl
        | timeout => rfl
        | done o v' =>
          cases o with
          | normal => exact next v' h
          | cont => exact next v' h
          | brk => rfl
          | ret => rfl
    · rw [if_pos (show (if (i : Int) < (ks.length : Int) then (1 : Int) else 0) = 0 by rw [if_neg (by omega)]), List.drop_eq_nil_of_le (by omega)]
      rfl

end Umka.ForIn
