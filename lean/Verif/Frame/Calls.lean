import Verif.Frame.Room

/-!
# Stack frames and fibers: calls and returns
-/

namespace Umka.Frame

variable {p : Program} {c : Compiled p} {g : Nat → Calls} {vm vm' : VM} {P : List Ptr}

theorem body_not_entry {ip : Int} {n m : Nat} (hb : c.body ip n) (he : Entry p ip m) : False := by
  induction he with
  | enter h => have := c.next hb; simp only [h] at this
  | proto h ht _ ih =>
    have := c.next hb
    simp only [h] at this
    have := this ⟨fun _ => ⟨0, fun _ => 0, 0, 0, 0, true, none⟩, 0, 0, 0, []⟩
    rw [ht] at this
    exact ih this

theorem body_not_pend {k : Nat} {f : Fiber} {gl : Calls} (h : Fib c P k f gl) {n : Nat} (hb : c.body f.ip n) : gl.pend = false := by
  cases hp : gl.pend with
  | false => rfl
  | true =>
    obtain ⟨a, as, ha⟩ := cons_of_ne h.ne
    rcases (h.pend hp a as ha).1 with e | e
    · exact (body_not_entry hb e).elim
    · have := c.next hb; simp only [e] at this

theorem event_cases (p : Program) (k : Nat) (vm : VM) : event p k vm = 1 ∨ event p k vm = 0 ∨ event p k vm = -1 := by
  simp only [event]
  split <;> first | (split <;> simp) | simp

/-- Calls made by the program, directly or from external functions. -/
def Inner (r : Ret) : Prop := (∃ ip, r = .code ip) ∨ ∃ ip t, r = .callback ip t

theorem inCall_inv {k : Nat} {d : Int} {s' : VM × List Ptr} (h : Inv c g vm P) (hk : k < vm.num)
    (hka : (vm.fiber k).alive = true) (hc : InCall p k (vm, P) d s') :
    ∃ g' x pre, Inv c g' s'.1 s'.2 ∧ (List.length pre : Int) + 1 = d ∧ keys (g' k) = pre ++ x :: keys (g k) ∧
      (s'.1.fiber k).alive = true ∧ k < s'.1.num ∧ (s'.1.fiber k).size = (vm.fiber k).size ∧
      (∀ y ∈ pre, Inner y.2.2) ∧
      (x.2.2 = .code ((vm.fiber k).ip + 1) ∧ (∀ n, callParams p vm n → x.1 = (vm.fiber k).top + n) ∧
       (∀ t next, p.code (vm.fiber k).ip ≠ .ext t next) ∨
       ∃ t, (∃ next, p.code (vm.fiber k).ip = .ext t next) ∧ x.2.2 = .callback (vm.fiber k).ip t ∧
         x.1 + t = (vm.fiber k).top) := by
  induction hc with
  | begin hv he hs =>
    obtain ⟨g', hI, hn, hev⟩ := step_inv h hv hs
    obtain ⟨e1, -, e3, -⟩ := hev k hk hka
    obtain ⟨x, hx, hal, hspec⟩ := e3 he
    exact ⟨g', x, [], hI, by simp, by simp [hx], hal, Nat.lt_of_lt_of_le hk hn, e1, by simp, hspec⟩
  | step hc hv hs hd ih =>
    obtain ⟨g1, x, pre, hI, hlen, hkeys, hal, hk1, hsz, hin, hspec⟩ := ih
    obtain ⟨g', hI', hn, hev⟩ := step_inv hI hv hs
    obtain ⟨e1, e2, e3, e4⟩ := hev k hk1 hal
    rename_i d vm1 vm2 P1
    rcases event_cases p k vm1 with he | he | he
    · obtain ⟨y, hy, hal', hspec'⟩ := e3 he
      refine ⟨g', x, y :: pre, hI', by simp [he]; omega, by rw [hy, hkeys]; rfl, hal', Nat.lt_of_lt_of_le hk1 hn,
        e1.trans hsz, ?_, hspec⟩
      intro z hz
      cases hz with
      | head =>
        rcases hspec' with ⟨h1, -⟩ | ⟨t, -, h1, -⟩
        · exact .inl ⟨_, h1⟩
        · exact .inr ⟨_, _, h1⟩
      | tail _ hz => exact hin z hz
    · obtain ⟨hy, hal'⟩ := e2 he
      exact ⟨g', x, pre, hI', by rw [he]; omega, by rw [hy, hkeys], hal', Nat.lt_of_lt_of_le hk1 hn, e1.trans hsz, hin, hspec⟩
    · obtain ⟨y, hy, hm⟩ := e4 he
      cases pre with
      | nil => simp at hlen; omega
      | cons z pre =>
        simp only [List.cons_append] at hkeys
        have hkeys : keys (g1 k) = z :: (pre ++ x :: keys (g k)) := hkeys
        rw [hkeys] at hy
        obtain ⟨rfl, hy'⟩ := List.cons.inj hy
        refine ⟨g', x, pre, hI', by simp at hlen; omega, hy'.symm, ?_, Nat.lt_of_lt_of_le hk1 hn, e1.trans hsz,
          fun w hw => hin w (by simp [hw]), hspec⟩
        rcases hin z (by simp) with ⟨ip, hz⟩ | ⟨ip, t, hz⟩
        · rw [hz] at hm; exact hm.1
        · rw [hz] at hm; exact hm.1

theorem base_of_keys {k : Nat} {f f' : Fiber} {gl gl' : Calls} {P' : List Ptr} (h : Fib c P k f gl) (h' : Fib c P' k f' gl')
    (hp : gl.pend = false) (hp' : gl'.pend = false) (hk : keys gl' = keys gl) (hs : f'.size = f.size) : f'.base = f.base := by
  have hb := h.frames.base_eq
  have hb' := h'.frames.base_eq
  rw [entered_run hp] at hb
  rw [entered_run hp'] at hb'
  rw [hb, hb', hs]
  simp only [keys] at hk
  cases ha : gl.acts with
  | nil => exact absurd ha h.ne
  | cons a as =>
    cases ha' : gl'.acts with
    | nil => exact absurd ha' h'.ne
    | cons a' as' =>
      rw [ha, ha'] at hk
      simp only [List.map_cons, List.cons.injEq, Act.key, Prod.mk.injEq] at hk
      simp only [baseOf, Act.base, hk.1.1, hk.1.2.1]

theorem call_loc (h : Inv c g vm P) {k : Nat} (he : event p k vm = 1) :
    k = vm.loc ∧ (g vm.loc).pend = false ∧ (∀ a as, (g vm.loc).acts = a :: as → c.body (vm.fiber vm.loc).ip a.params) := by
  have hb : (g vm.loc).pend = false → (∀ a as, (g vm.loc).acts = a :: as → c.body (vm.fiber vm.loc).ip a.params) :=
    fun hp a as ha => h.run.run hp a as ha
  simp only [event] at he
  cases hi : p.code (vm.fiber vm.loc).ip with
  | call | callIndirect =>
    simp only [hi] at he
    split at he
    · rename_i e
      have := h.in_body (by simp [hi]) (by simp [hi]) (by simp [hi])
      exact ⟨e.symm, this, hb this⟩
    · cases he
  | ext =>
    simp only [hi] at he
    split at he
    · rename_i e
      have := h.in_body (by simp [hi]) (by simp [hi]) (by simp [hi])
      exact ⟨by rw [h.loc]; exact e.2.symm, this, hb this⟩
    · cases he
  | ret =>
    simp only [hi] at he
    split at he <;> cases he
  | data | block | jump | enter | leave | ref | spawn | resume | halt => simp only [hi] at he; cases he

theorem inCall_event {k : Nat} {d : Int} {s s' : VM × List Ptr} (h : InCall p k s d s') : event p k s.1 = 1 := by
  induction h with
  | begin _ he _ => exact he
  | step _ _ _ _ ih => exact ih

/-- The stack is balanced after a call. -/
theorem returned_ok (h : Inv c g vm P) {k : Nat} (hk : k < vm.num) (hka : (vm.fiber k).alive = true)
    (hr : Returned p k (vm, P) vm') :
    (vm'.fiber k).alive = true ∧ (vm'.fiber k).base = (vm.fiber k).base ∧
    (∀ n, callParams p vm n → (vm'.fiber k).top = (vm.fiber k).top + n ∧ (vm'.fiber k).ip = (vm.fiber k).ip + 1) ∧
    (∀ t next, p.code (vm.fiber k).ip = .ext t next →
      (vm'.fiber k).top = (vm.fiber k).top ∧ (vm'.fiber k).ip = (vm.fiber k).ip) := by
  obtain ⟨d, vm1, P1, hc, hv, hd, hs⟩ := hr
  obtain ⟨g1, x, pre, hI, hlen, hkeys, hal, hk1, hsz, hin, hspec⟩ := inCall_inv h hk hka hc
  obtain ⟨g', hI', hn, hev⟩ := step_inv hI hv hs
  obtain ⟨e1, -, -, e4⟩ := hev k hk1 hal
  have hd1 : 0 < d := by omega
  have he : event p k vm1 = -1 := by
    rcases event_cases p k vm1 with he | he | he <;> omega
  have hpre : pre = [] := by
    cases pre with
    | nil => rfl
    | cons z zs => simp at hlen; omega
  subst hpre
  obtain ⟨y, hy, hm⟩ := e4 he
  rw [hkeys] at hy
  obtain ⟨rfl, hkk⟩ := List.cons.inj hy
  have hev1 : event p k vm = 1 := inCall_event hc
  obtain ⟨hkl, hp, hbody⟩ := call_loc h hev1
  obtain ⟨a, as, ha⟩ := h.acts
  have hb := hbody a as ha
  rw [← hkl] at hp ha hb
  have hn0 := c.next hb
  have hpar : ∀ n, callParams p vm n → ∀ t next, p.code (vm.fiber k).ip ≠ .ext t next := by
    intro n hn t next hi
    simp only [callParams, ← hkl, hi] at hn
  rcases hspec with ⟨hx, htop, hne⟩ | ⟨t, ⟨next, hi⟩, hx, htop⟩
  · rw [hx] at hm
    obtain ⟨m1, m2, m3⟩ := hm
    have hbody' : c.body (vm'.fiber k).ip a.params := by
      rw [m2]
      have he' := hev1
      simp only [event, ← hkl] at he'
      cases hi : p.code (vm.fiber k).ip with
      | call => simp only [hi] at hn0; exact hn0.2
      | callIndirect => simp only [hi] at hn0; exact hn0
      | ext => exact absurd hi (hne _ _)
      | ret => simp only [hi] at he'; split at he' <;> cases he'
      | data | block | jump | enter | leave | ref | spawn | resume | halt => simp only [hi] at he'; cases he'
    have hf' := hI'.fib k (Nat.lt_of_lt_of_le hk1 hn) m1
    refine ⟨m1, base_of_keys (h.fib k hk hka) hf' hp (body_not_pend hf' hbody') hkk.symm (e1.trans hsz), ?_, ?_⟩
    · intro n hn'; exact ⟨by rw [m3, htop n hn'], m2⟩
    · intro t next hi; exact absurd hi (hne t next)
  · rw [hx] at hm
    obtain ⟨m1, m2, m3⟩ := hm
    have hf' := hI'.fib k (Nat.lt_of_lt_of_le hk1 hn) m1
    refine ⟨m1, base_of_keys (h.fib k hk hka) hf' hp (body_not_pend hf' (by rw [m2]; exact hb)) hkk.symm (e1.trans hsz), ?_, ?_⟩
    · intro n hn'; exact absurd hi (hpar n hn' t next)
    · intro t' next' _; exact ⟨by rw [m3, htop], m2⟩

end Umka.Frame
