import Verif.Expr.Lemmas

/-!
# Expressions: the parser that makes trees accepts the sentences of the grammar and nothing else
-/

namespace Umka.Expr
open Umka.Arith (Kind UnOp BinOp)
open Spec (Tok Tree Grammar Prefix Infix Stops Continues Level)

/-! ## Operators -/

theorem prefixOp_some {ts : List Tok} {op : UnOp} (h : prefixOp ts.head? = some op) :
    ∃ t, ts = t :: ts.tail ∧ Prefix t op := by
  cases ts with
  | nil => exact nomatch h
  | cons t ts =>
    refine ⟨t, rfl, ?_⟩
    cases t <;> first | (injection h with h; subst h; constructor) | exact nomatch h

theorem termOp_some {ts : List Tok} {op : BinOp} (h : termOp ts.head? = some op) :
    ∃ t, ts = t :: ts.tail ∧ Infix .term t op := by
  cases ts with
  | nil => exact nomatch h
  | cons t ts =>
    refine ⟨t, rfl, ?_⟩
    cases t <;> first | (injection h with h; subst h; constructor) | exact nomatch h

theorem relTermOp_some {ts : List Tok} {op : BinOp} (h : relTermOp ts.head? = some op) :
    ∃ t, ts = t :: ts.tail ∧ Infix .relTerm t op := by
  cases ts with
  | nil => exact nomatch h
  | cons t ts =>
    refine ⟨t, rfl, ?_⟩
    cases t <;> first | (injection h with h; subst h; constructor) | exact nomatch h

theorem relOp_some {ts : List Tok} {op : BinOp} (h : relOp ts.head? = some op) :
    ∃ t, ts = t :: ts.tail ∧ Infix .rel t op := by
  cases ts with
  | nil => exact nomatch h
  | cons t ts =>
    refine ⟨t, rfl, ?_⟩
    cases t <;> first | (injection h with h; subst h; constructor) | exact nomatch h

theorem head_some {ts : List Tok} {t : Tok} (h : ts.head? = some t) : ts = t :: ts.tail := by
  cases ts with
  | nil => exact nomatch h
  | cons u ts => injection h with h; subst h; rfl

/-! ## Soundness -/

structure Snd (n : Nat) : Prop where
  factor : ∀ ts e r, astFactor n ts = some (e, r) → ∃ us, ts = us ++ r ∧ Grammar .factor us e
  term : ∀ ts e r, astTerm n ts = some (e, r) → ∃ us, ts = us ++ r ∧ Grammar .term us e
  termLoop : ∀ us₀ e₀ ts e r, Grammar .term us₀ e₀ → astTermLoop n e₀ ts = some (e, r) →
    ∃ us, ts = us ++ r ∧ Grammar .term (us₀ ++ us) e
  relTerm : ∀ ts e r, astRelTerm n ts = some (e, r) → ∃ us, ts = us ++ r ∧ Grammar .relTerm us e
  relTermLoop : ∀ us₀ e₀ ts e r, Grammar .relTerm us₀ e₀ → astRelTermLoop n e₀ ts = some (e, r) →
    ∃ us, ts = us ++ r ∧ Grammar .relTerm (us₀ ++ us) e
  rel : ∀ ts e r, astRel n ts = some (e, r) → ∃ us, ts = us ++ r ∧ Grammar .rel us e
  logTerm : ∀ ts e r, astLogTerm n ts = some (e, r) → ∃ us, ts = us ++ r ∧ Grammar .logTerm us e
  logTermLoop : ∀ us₀ e₀ ts e r, Grammar .logTerm us₀ e₀ → astLogTermLoop n e₀ ts = some (e, r) →
    ∃ us, ts = us ++ r ∧ Grammar .logTerm (us₀ ++ us) e
  logExpr : ∀ ts e r, astLogExpr n ts = some (e, r) → ∃ us, ts = us ++ r ∧ Grammar .logExpr us e
  logExprLoop : ∀ us₀ e₀ ts e r, Grammar .logExpr us₀ e₀ → astLogExprLoop n e₀ ts = some (e, r) →
    ∃ us, ts = us ++ r ∧ Grammar .logExpr (us₀ ++ us) e
  expr : ∀ ts e r, astExpr n ts = some (e, r) → ∃ us, ts = us ++ r ∧ Grammar .expr us e

theorem bind_some {α β : Type} {x : Option α} {f : α → Option β} {b : β} (h : (x >>= f) = some b) :
    ∃ a, x = some a ∧ f a = some b := by
  cases x with
  | none => exact nomatch h
  | some a => exact ⟨a, rfl, h⟩

theorem pair_some {α β : Type} {a c : α} {b d : β} (h : some (a, b) = some (c, d)) : a = c ∧ b = d := by
  injection h with h
  injection h with h1 h2
  exact ⟨h1, h2⟩

theorem snd_factor {n : Nat} (ih : Snd n) (ts : List Tok) (e : Tree) (r : List Tok)
    (h : astFactor (n + 1) ts = some (e, r)) : ∃ us, ts = us ++ r ∧ Grammar .factor us e := by
  rw [astFactor] at h
  cases ho : prefixOp ts.head? with
  | some op =>
    rw [ho] at h
    obtain ⟨p, h1, h2⟩ := bind_some h
    obtain ⟨rfl, rfl⟩ := pair_some h2
    obtain ⟨t, ht, hp⟩ := prefixOp_some ho
    obtain ⟨us, h3, h4⟩ := ih.factor _ _ _ h1
    exact ⟨t :: us, by rw [ht, h3]; rfl, .un hp h4⟩
  | none =>
    rw [ho] at h
    dsimp only at h
    cases hh : ts.head? with
    | none => rw [hh] at h; exact nomatch h
    | some t =>
      have ht := head_some hh
      rw [hh] at h
      cases t with
      | ident i =>
        obtain ⟨rfl, rfl⟩ := pair_some h
        exact ⟨[.ident i], ht, .ident i⟩
      | intNumber i =>
        obtain ⟨rfl, rfl⟩ := pair_some h
        exact ⟨[.intNumber i], ht, .int i⟩
      | realNumber i =>
        obtain ⟨rfl, rfl⟩ := pair_some h
        exact ⟨[.realNumber i], ht, .real i⟩
      | charLiteral i =>
        obtain ⟨rfl, rfl⟩ := pair_some h
        exact ⟨[.charLiteral i], ht, .char i⟩
      | lpar =>
        obtain ⟨p, h1, h2⟩ := bind_some h
        by_cases hp : p.2.head? = some .rpar
        · replace h2 : (if p.2.head? = some .rpar then some (p.1, p.2.tail) else none) = some (e, r) := h2
          rw [if_pos hp] at h2
          obtain ⟨rfl, rfl⟩ := pair_some h2
          obtain ⟨us, h3, h4⟩ := ih.expr _ _ _ h1
          refine ⟨.lpar :: us ++ [.rpar], ?_, .paren h4⟩
          rw [ht, h3]
          conv => lhs; rw [head_some hp]
          simp
        · replace h2 : (if p.2.head? = some .rpar then some (p.1, p.2.tail) else none) = some (e, r) := h2
          rw [if_neg hp] at h2
          exact nomatch h2
      | _ => exact nomatch h

theorem snd_rel {n : Nat} (ih : Snd n) (ts : List Tok) (e : Tree) (r : List Tok)
    (h : astRel (n + 1) ts = some (e, r)) : ∃ us, ts = us ++ r ∧ Grammar .rel us e := by
  rw [astRel] at h
  obtain ⟨⟨a, q⟩, h1, h2⟩ := bind_some h
  obtain ⟨us, h3, h4⟩ := ih.relTerm _ _ _ h1
  dsimp only at h2
  cases ho : relOp q.head? with
  | none =>
    rw [ho] at h2
    obtain ⟨rfl, rfl⟩ := pair_some h2
    exact ⟨us, h3, .rel h4⟩
  | some op =>
    rw [ho] at h2
    obtain ⟨⟨b, q'⟩, h5, h6⟩ := bind_some h2
    obtain ⟨rfl, rfl⟩ := pair_some h6
    obtain ⟨t, ht, hi⟩ := relOp_some ho
    obtain ⟨vs, h7, h8⟩ := ih.relTerm _ _ _ h5
    refine ⟨us ++ t :: vs, ?_, .relOp h4 hi h8⟩
    rw [h3, ht, h7]
    simp

theorem snd_expr {n : Nat} (ih : Snd n) (ts : List Tok) (e : Tree) (r : List Tok)
    (h : astExpr (n + 1) ts = some (e, r)) : ∃ us, ts = us ++ r ∧ Grammar .expr us e := by
  rw [astExpr] at h
  obtain ⟨⟨c, q⟩, h1, h2⟩ := bind_some h
  obtain ⟨us, h3, h4⟩ := ih.logExpr _ _ _ h1
  dsimp only at h2
  by_cases ho : q.head? = some .question
  · rw [if_pos ho] at h2
    obtain ⟨⟨a, q'⟩, h5, h6⟩ := bind_some h2
    obtain ⟨vs, h7, h8⟩ := ih.expr _ _ _ h5
    dsimp only at h6
    by_cases hc : q'.head? = some .colon
    · rw [if_pos hc] at h6
      obtain ⟨⟨b, q''⟩, h9, h10⟩ := bind_some h6
      obtain ⟨rfl, rfl⟩ := pair_some h10
      obtain ⟨ws, h11, h12⟩ := ih.expr _ _ _ h9
      refine ⟨us ++ .question :: vs ++ .colon :: ws, ?_, .tern h4 h8 h12⟩
      rw [h3, head_some ho, h7, head_some hc, h11]
      simp
    · rw [if_neg hc] at h6
      exact nomatch h6
  · rw [if_neg ho] at h2
    obtain ⟨rfl, rfl⟩ := pair_some h2
    exact ⟨us, h3, .expr h4⟩

theorem snd : ∀ n, Snd n
  | 0 => by constructor <;> intros <;> rename_i h <;> exact nomatch h
  | n + 1 => by
    have ih := snd n
    refine ⟨snd_factor ih, ?_, ?_, ?_, ?_, snd_rel ih, ?_, ?_, ?_, ?_, snd_expr ih⟩
    · intro ts e r h
      rw [astTerm] at h
      obtain ⟨⟨a, q⟩, h1, h2⟩ := bind_some h
      obtain ⟨us, h3, h4⟩ := ih.factor _ _ _ h1
      obtain ⟨vs, h5, h6⟩ := ih.termLoop us a q e r (.term h4) h2
      exact ⟨us ++ vs, by rw [h3, h5]; simp, h6⟩
    · intro us₀ e₀ ts e r hg h
      rw [astTermLoop] at h
      cases ho : termOp ts.head? with
      | none =>
        rw [ho] at h
        obtain ⟨rfl, rfl⟩ := pair_some h
        exact ⟨[], rfl, by rw [List.append_nil]; exact hg⟩
      | some op =>
        rw [ho] at h
        obtain ⟨⟨b, q⟩, h1, h2⟩ := bind_some h
        obtain ⟨t, ht, hi⟩ := termOp_some ho
        obtain ⟨us, h3, h4⟩ := ih.factor _ _ _ h1
        obtain ⟨vs, h5, h6⟩ := ih.termLoop (us₀ ++ t :: us) _ q e r (.termOp hg hi h4) h2
        refine ⟨t :: us ++ vs, by rw [ht, h3, h5]; simp, ?_⟩
        rw [List.append_assoc] at h6
        exact h6
    · intro ts e r h
      rw [astRelTerm] at h
      obtain ⟨⟨a, q⟩, h1, h2⟩ := bind_some h
      obtain ⟨us, h3, h4⟩ := ih.term _ _ _ h1
      obtain ⟨vs, h5, h6⟩ := ih.relTermLoop us a q e r (.relTerm h4) h2
      exact ⟨us ++ vs, by rw [h3, h5]; simp, h6⟩
    · intro us₀ e₀ ts e r hg h
      rw [astRelTermLoop] at h
      cases ho : relTermOp ts.head? with
      | none =>
        rw [ho] at h
        obtain ⟨rfl, rfl⟩ := pair_some h
        exact ⟨[], rfl, by rw [List.append_nil]; exact hg⟩
      | some op =>
        rw [ho] at h
        obtain ⟨⟨b, q⟩, h1, h2⟩ := bind_some h
        obtain ⟨t, ht, hi⟩ := relTermOp_some ho
        obtain ⟨us, h3, h4⟩ := ih.term _ _ _ h1
        obtain ⟨vs, h5, h6⟩ := ih.relTermLoop (us₀ ++ t :: us) _ q e r (.relTermOp hg hi h4) h2
        refine ⟨t :: us ++ vs, by rw [ht, h3, h5]; simp, ?_⟩
        rw [List.append_assoc] at h6
        exact h6
    · intro ts e r h
      rw [astLogTerm] at h
      obtain ⟨⟨a, q⟩, h1, h2⟩ := bind_some h
      obtain ⟨us, h3, h4⟩ := ih.rel _ _ _ h1
      obtain ⟨vs, h5, h6⟩ := ih.logTermLoop us a q e r (.logTerm h4) h2
      exact ⟨us ++ vs, by rw [h3, h5]; simp, h6⟩
    · intro us₀ e₀ ts e r hg h
      rw [astLogTermLoop] at h
      by_cases ho : ts.head? = some .andand
      · rw [if_pos ho] at h
        obtain ⟨⟨b, q⟩, h1, h2⟩ := bind_some h
        obtain ⟨us, h3, h4⟩ := ih.rel _ _ _ h1
        obtain ⟨vs, h5, h6⟩ := ih.logTermLoop (us₀ ++ .andand :: us) _ q e r (.logTermOp hg h4) h2
        refine ⟨.andand :: us ++ vs, by rw [head_some ho, h3, h5]; simp, ?_⟩
        rw [List.append_assoc] at h6
        exact h6
      · rw [if_neg ho] at h
        obtain ⟨rfl, rfl⟩ := pair_some h
        exact ⟨[], rfl, by rw [List.append_nil]; exact hg⟩
    · intro ts e r h
      rw [astLogExpr] at h
      obtain ⟨⟨a, q⟩, h1, h2⟩ := bind_some h
      obtain ⟨us, h3, h4⟩ := ih.logTerm _ _ _ h1
      obtain ⟨vs, h5, h6⟩ := ih.logExprLoop us a q e r (.logExpr h4) h2
      exact ⟨us ++ vs, by rw [h3, h5]; simp, h6⟩
    · intro us₀ e₀ ts e r hg h
      rw [astLogExprLoop] at h
      by_cases ho : ts.head? = some .oror
      · rw [if_pos ho] at h
        obtain ⟨⟨b, q⟩, h1, h2⟩ := bind_some h
        obtain ⟨us, h3, h4⟩ := ih.logTerm _ _ _ h1
        obtain ⟨vs, h5, h6⟩ := ih.logExprLoop (us₀ ++ .oror :: us) _ q e r (.logExprOp hg h4) h2
        refine ⟨.oror :: us ++ vs, by rw [head_some ho, h3, h5]; simp, ?_⟩
        rw [List.append_assoc] at h6
        exact h6
      · rw [if_neg ho] at h
        obtain ⟨rfl, rfl⟩ := pair_some h
        exact ⟨[], rfl, by rw [List.append_nil]; exact hg⟩

/-! ## Completeness -/

theorem prefixOp_of {t : Tok} {op : UnOp} (h : Prefix t op) : prefixOp (some t) = some op := by cases h <;> rfl

theorem termOp_of {t : Tok} {op : BinOp} (h : Infix .term t op) : termOp (some t) = some op := by cases h <;> rfl

theorem relTermOp_of {t : Tok} {op : BinOp} (h : Infix .relTerm t op) :
    relTermOp (some t) = some op ∧ termOp (some t) = none := by cases h <;> exact ⟨rfl, rfl⟩

theorem relOp_of {t : Tok} {op : BinOp} (h : Infix .rel t op) :
    relOp (some t) = some op ∧ termOp (some t) = none ∧ relTermOp (some t) = none := by
  cases h <;> exact ⟨rfl, rfl, rfl⟩

theorem grammar_pos {l : Level} {ts : List Tok} {e : Tree} (h : Grammar l ts e) : 1 ≤ ts.length := by
  induction h <;> simp_all <;> omega

theorem astTermLoop_stop (n : Nat) (e : Tree) (rest : List Tok) (hn : 1 ≤ n) (h : termOp rest.head? = none) :
    astTermLoop n e rest = some (e, rest) := by
  cases n with
  | zero => omega
  | succ n => rw [astTermLoop, h]

theorem astRelTermLoop_stop (n : Nat) (e : Tree) (rest : List Tok) (hn : 1 ≤ n) (h : relTermOp rest.head? = none) :
    astRelTermLoop n e rest = some (e, rest) := by
  cases n with
  | zero => omega
  | succ n => rw [astRelTermLoop, h]

theorem astLogTermLoop_stop (n : Nat) (e : Tree) (rest : List Tok) (hn : 1 ≤ n) (h : rest.head? ≠ some .andand) :
    astLogTermLoop n e rest = some (e, rest) := by
  cases n with
  | zero => omega
  | succ n => rw [astLogTermLoop, if_neg h]

theorem astLogExprLoop_stop (n : Nat) (e : Tree) (rest : List Tok) (hn : 1 ≤ n) (h : rest.head? ≠ some .oror) :
    astLogExprLoop n e rest = some (e, rest) := by
  cases n with
  | zero => omega
  | succ n => rw [astLogExprLoop, if_neg h]

/-- What the parser does with a sentence of each nonterminal. -/
def Cpl (l : Level) (ts : List Tok) (e : Tree) : Prop :=
  match l with
  | .factor => ∀ n rest, 8 * ts.length ≤ n → astFactor n (ts ++ rest) = some (e, rest)
  | .term => ∀ n rest, 8 * ts.length + 1 ≤ n →
    ∃ m, n ≤ m + ts.length ∧ astTerm n (ts ++ rest) = astTermLoop m e rest
  | .relTerm => ∀ n rest, 8 * ts.length + 2 ≤ n → termOp rest.head? = none →
    ∃ m, n ≤ m + ts.length ∧ astRelTerm n (ts ++ rest) = astRelTermLoop m e rest
  | .rel => ∀ n rest, 8 * ts.length + 3 ≤ n → termOp rest.head? = none → relTermOp rest.head? = none →
    relOp rest.head? = none → astRel n (ts ++ rest) = some (e, rest)
  | .logTerm => ∀ n rest, 8 * ts.length + 4 ≤ n → termOp rest.head? = none → relTermOp rest.head? = none →
    relOp rest.head? = none → ∃ m, n ≤ m + ts.length ∧ astLogTerm n (ts ++ rest) = astLogTermLoop m e rest
  | .logExpr => ∀ n rest, 8 * ts.length + 5 ≤ n → termOp rest.head? = none → relTermOp rest.head? = none →
    relOp rest.head? = none → rest.head? ≠ some .andand →
    ∃ m, n ≤ m + ts.length ∧ astLogExpr n (ts ++ rest) = astLogExprLoop m e rest
  | .expr => ∀ n rest, 8 * ts.length + 6 ≤ n → Stops rest → astExpr n (ts ++ rest) = some (e, rest)

theorem stops_ops {rest : List Tok} (h : Stops rest) :
    termOp rest.head? = none ∧ relTermOp rest.head? = none ∧ relOp rest.head? = none ∧
      rest.head? ≠ some .andand ∧ rest.head? ≠ some .oror ∧ rest.head? ≠ some .question := by
  cases rest with
  | nil => exact ⟨rfl, rfl, rfl, nofun, nofun, nofun⟩
  | cons t ts =>
    have ht := h t rfl
    cases t <;> first
      | exact absurd trivial ht
      | exact ⟨rfl, rfl, rfl, nofun, nofun, nofun⟩

theorem succ_of_le {n k : Nat} (h : k + 1 ≤ n) : ∃ m, n = m + 1 := ⟨n - 1, by omega⟩

theorem cpl {l : Level} {ts : List Tok} {e : Tree} (h : Grammar l ts e) : Cpl l ts e := by
  induction h with
  | ident i =>
    intro n rest hn
    obtain ⟨m, rfl⟩ := succ_of_le (k := 0) (show 1 ≤ n by simp at hn; omega)
    rfl
  | int i =>
    intro n rest hn
    obtain ⟨m, rfl⟩ := succ_of_le (k := 0) (show 1 ≤ n by simp at hn; omega)
    rfl
  | real i =>
    intro n rest hn
    obtain ⟨m, rfl⟩ := succ_of_le (k := 0) (show 1 ≤ n by simp at hn; omega)
    rfl
  | char i =>
    intro n rest hn
    obtain ⟨m, rfl⟩ := succ_of_le (k := 0) (show 1 ≤ n by simp at hn; omega)
    rfl
  | @un t op ts a hp hg ih =>
    intro n rest hn
    rw [List.length_cons] at hn
    obtain ⟨m, rfl⟩ := succ_of_le (k := 0) (show 1 ≤ n by omega)
    have h1 : astFactor m (ts ++ rest) = some (a, rest) := ih m rest (by omega)
    rw [astFactor]
    simp only [List.cons_append, List.head?_cons, prefixOp_of hp, List.tail_cons, h1]
    rfl
  | @paren ts a hg ih =>
    intro n rest hn
    simp only [List.length_append, List.length_cons, List.length_nil] at hn
    obtain ⟨m, rfl⟩ := succ_of_le (k := 0) (show 1 ≤ n by omega)
    have h1 : astExpr m (ts ++ Tok.rpar :: rest) = some (a, Tok.rpar :: rest) :=
      ih m _ (by omega) (fun t ht => by injection ht with ht; subst ht; exact id)
    rw [astFactor]
    simp only [List.cons_append, List.head?_cons, prefixOp, List.tail_cons, List.append_assoc, List.nil_append, h1]
    rfl
  | @term ts a hg ih =>
    intro n rest hn
    obtain ⟨m, rfl⟩ := succ_of_le (k := 0) (show 1 ≤ n by omega)
    have hp := grammar_pos hg
    refine ⟨m, by omega, ?_⟩
    rw [astTerm, ih m rest (by omega)]
    rfl
  | @termOp ts a t op us b hg hi hgb iha ihb =>
    intro n rest hn
    simp only [List.length_append, List.length_cons] at hn ⊢
    obtain ⟨m, hm, h1⟩ := iha n (t :: us ++ rest) (by omega)
    obtain ⟨k, rfl⟩ := succ_of_le (k := 0) (show 1 ≤ m by omega)
    refine ⟨k, by omega, ?_⟩
    rw [List.append_assoc]
    refine h1.trans ?_
    rw [astTermLoop]
    simp only [List.cons_append, List.head?_cons, termOp_of hi, List.tail_cons]
    rw [ihb k rest (by omega)]
    rfl
  | @relTerm ts a hg ih =>
    intro n rest hn hr
    obtain ⟨m, rfl⟩ := succ_of_le (k := 0) (show 1 ≤ n by omega)
    have hp := grammar_pos hg
    obtain ⟨k, hk, h1⟩ := ih m rest (by omega)
    refine ⟨m, by omega, ?_⟩
    rw [astRelTerm, h1, astTermLoop_stop k a rest (by omega) hr]
    rfl
  | @relTermOp ts a t op us b hg hi hgb iha ihb =>
    intro n rest hn hr
    simp only [List.length_append, List.length_cons] at hn ⊢
    obtain ⟨m, hm, h1⟩ := iha n (t :: us ++ rest) (by omega) (relTermOp_of hi).2
    obtain ⟨k, rfl⟩ := succ_of_le (k := 0) (show 1 ≤ m by omega)
    refine ⟨k, by omega, ?_⟩
    rw [List.append_assoc]
    refine h1.trans ?_
    rw [astRelTermLoop]
    simp only [List.cons_append, List.head?_cons, (relTermOp_of hi).1, List.tail_cons]
    obtain ⟨j, hj, h2⟩ := ihb k rest (by omega)
    rw [h2, astTermLoop_stop j b rest (by omega) hr]
    rfl
  | @rel ts a hg ih =>
    intro n rest hn hr hr' hr''
    obtain ⟨m, rfl⟩ := succ_of_le (k := 0) (show 1 ≤ n by omega)
    have hp := grammar_pos hg
    obtain ⟨k, hk, h1⟩ := ih m rest (by omega) hr
    rw [astRel, h1, astRelTermLoop_stop k a rest (by omega) hr']
    simp only [Option.bind_eq_bind, Option.bind_some, hr'']
  | @relOp ts a t op us b hg hi hgb iha ihb =>
    intro n rest hn hr hr' hr''
    simp only [List.length_append, List.length_cons] at hn ⊢
    obtain ⟨m, rfl⟩ := succ_of_le (k := 0) (show 1 ≤ n by omega)
    obtain ⟨k, hk, h1⟩ := iha m (t :: us ++ rest) (by omega) (relOp_of hi).2.1
    obtain ⟨j, hj, h2⟩ := ihb m rest (by omega) hr
    rw [List.append_assoc, astRel]
    rw [show ts ++ (t :: us ++ rest) = ts ++ (t :: us ++ rest) from rfl] at h1
    rw [h1, astRelTermLoop_stop k a (t :: us ++ rest) (by omega) (relOp_of hi).2.2]
    simp only [Option.bind_eq_bind, Option.bind_some, List.cons_append, List.head?_cons, (relOp_of hi).1, List.tail_cons]
    rw [h2, astRelTermLoop_stop j b rest (by omega) hr']
    rfl
  | @logTerm ts a hg ih =>
    intro n rest hn hr hr' hr''
    obtain ⟨m, rfl⟩ := succ_of_le (k := 0) (show 1 ≤ n by omega)
    have hp := grammar_pos hg
    refine ⟨m, by omega, ?_⟩
    rw [astLogTerm, ih m rest (by omega) hr hr' hr'']
    rfl
  | @logTermOp ts a us b hg hgb iha ihb =>
    intro n rest hn hr hr' hr''
    simp only [List.length_append, List.length_cons] at hn ⊢
    obtain ⟨m, hm, h1⟩ := iha n (.andand :: us ++ rest) (by omega) rfl rfl rfl
    obtain ⟨k, rfl⟩ := succ_of_le (k := 0) (show 1 ≤ m by omega)
    refine ⟨k, by omega, ?_⟩
    rw [List.append_assoc]
    refine h1.trans ?_
    rw [astLogTermLoop, if_pos (by rfl)]
    simp only [List.cons_append, List.tail_cons]
    rw [ihb k rest (by omega) hr hr' hr'']
    rfl
  | @logExpr ts a hg ih =>
    intro n rest hn hr hr' hr'' ha
    obtain ⟨m, rfl⟩ := succ_of_le (k := 0) (show 1 ≤ n by omega)
    have hp := grammar_pos hg
    obtain ⟨k, hk, h1⟩ := ih m rest (by omega) hr hr' hr''
    refine ⟨m, by omega, ?_⟩
    rw [astLogExpr, h1, astLogTermLoop_stop k a rest (by omega) ha]
    rfl
  | @logExprOp ts a us b hg hgb iha ihb =>
    intro n rest hn hr hr' hr'' ha
    simp only [List.length_append, List.length_cons] at hn ⊢
    obtain ⟨m, hm, h1⟩ := iha n (.oror :: us ++ rest) (by omega) rfl rfl rfl nofun
    obtain ⟨k, rfl⟩ := succ_of_le (k := 0) (show 1 ≤ m by omega)
    refine ⟨k, by omega, ?_⟩
    rw [List.append_assoc]
    refine h1.trans ?_
    rw [astLogExprLoop, if_pos (by rfl)]
    simp only [List.cons_append, List.tail_cons]
    obtain ⟨j, hj, h2⟩ := ihb k rest (by omega) hr hr' hr''
    rw [h2, astLogTermLoop_stop j b rest (by omega) ha]
    rfl
  | @expr ts a hg ih =>
    intro n rest hn hs
    obtain ⟨h1, h2, h3, h4, h5, h6⟩ := stops_ops hs
    obtain ⟨m, rfl⟩ := succ_of_le (k := 0) (show 1 ≤ n by omega)
    obtain ⟨k, hk, h⟩ := ih m rest (by omega) h1 h2 h3 h4
    rw [astExpr, h, astLogExprLoop_stop k a rest (by omega) h5]
    simp only [Option.bind_eq_bind, Option.bind_some]
    exact if_neg h6
  | @tern ts c us a vs b hgc hga hgb ihc iha ihb =>
    intro n rest hn hs
    simp only [List.length_append, List.length_cons] at hn ⊢
    obtain ⟨m, rfl⟩ := succ_of_le (k := 0) (show 1 ≤ n by omega)
    obtain ⟨k, hk, h1⟩ := ihc m (.question :: us ++ .colon :: vs ++ rest) (by omega) rfl rfl rfl nofun
    have h2 : astExpr m (us ++ .colon :: (vs ++ rest)) = some (a, .colon :: (vs ++ rest)) :=
      iha m _ (by omega) (fun t ht => by injection ht with ht; subst ht; exact id)
    have h3 : astExpr m (vs ++ rest) = some (b, rest) := ihb m rest (by omega) hs
    rw [show ts ++ .question :: us ++ .colon :: vs ++ rest = ts ++ (.question :: us ++ .colon :: vs ++ rest) by simp]
    rw [astExpr, h1, astLogExprLoop_stop k c (.question :: us ++ .colon :: vs ++ rest) (by omega) nofun]
    simp only [Option.bind_eq_bind, Option.bind_some, List.cons_append, List.append_assoc, List.head?_cons, List.tail_cons,
      if_true, h2, h3]

end Umka.Expr
