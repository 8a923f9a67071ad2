import Verif.Convert.Model
import Verif.Printf.Props
import Verif.Scanf.Props
/-!
# Convert: properties

C94: the conversions between numbers and strings.  The text of a number is the usual decimal one; a string begins with a number as
specified in the area Scanf (`Number`, `Blank`).
-/

namespace Umka.Convert.Props

open Umka.Printf.Spec (Directive Piece InBits)
open Umka.Scanf.Spec (Number Blank Digits IsDigit Bytes blanks)

/-- `printf` of C writes integers in decimal (C11 7.21.6.1p8). -/
def Decimal {R : Type} (L : Printf.CLib R) : Prop := ∀ i : Int, L.render [] [] none 'd' (.inl i) = (toString i).toList

/-- The values of the type `int`. -/
def IsInt (x : Int) : Prop := -2 ^ 63 ≤ x ∧ x < 2 ^ 63

/-- The string begins with a number: after blanks, optionally with a sign, up to a character that is not a digit. -/
def BeginsWith (s : List Char) (v : Int) : Prop :=
  ∃ sp t rest, s = sp ++ (t ++ rest) ∧ Blank sp ∧ Number 'd' t v ∧ ∀ c, rest.head? = some c → ∀ k, ¬ IsDigit 10 c k

/-! ## Decimal texts -/

theorem digit_char {d : Nat} (h : d < 10) : IsDigit 10 (Nat.digitChar d) d := by
  refine ⟨h, .inl ?_⟩
  match d, h with
  | 0, _ => rfl
  | 1, _ => rfl
  | 2, _ => rfl
  | 3, _ => rfl
  | 4, _ => rfl
  | 5, _ => rfl
  | 6, _ => rfl
  | 7, _ => rfl
  | 8, _ => rfl
  | 9, _ => rfl

theorem digits_nat (n : Nat) : Digits 10 (Nat.toDigits 10 n) n := by
  induction n using Nat.strongRecOn with
  | _ n ih =>
    by_cases h : n < 10
    · rw [Nat.toDigits_of_lt_base h]
      exact .one (digit_char h)
    · rw [Nat.toDigits_of_base_le (by decide) (by omega)]
      have := Digits.more (ih (n / 10) (by omega)) (digit_char (Nat.mod_lt n (by decide : 10 > 0)))
      rwa [Nat.div_add_mod] at this

theorem toString_nat (n : Nat) : (toString (n : Int)).toList = Nat.toDigits 10 n := by
  show (toString (Int.ofNat n)).toList = _
  rw [← Nat.toList_repr]
  rfl

theorem toString_neg (n : Nat) : (toString (Int.negSucc n)).toList = '-' :: Nat.toDigits 10 (n + 1) := by
  rw [← Nat.toList_repr]
  show (String.toList ("-" ++ Nat.repr (n + 1))) = _
  rw [String.toList_append]
  rfl

theorem number_text (i : Int) : Number 'd' (toString i).toList i := by
  cases i with
  | ofNat n =>
    show Number 'd' (toString (n : Int)).toList n
    rw [toString_nat]
    exact .plain (.decimal (by decide) (digits_nat n))
  | negSucc n =>
    rw [toString_neg, Int.negSucc_eq]
    exact .minus (.decimal (by decide) (digits_nat (n + 1)))

theorem mem_digits {n : Nat} {c : Char} (h : c ∈ Nat.toDigits 10 n) : c ∈ Printf.Spec.digitChars := by
  have h := Nat.isDigit_of_mem_toDigits (by decide) (by decide) h
  rw [Char.isDigit, Bool.and_eq_true, decide_eq_true_iff, decide_eq_true_iff] at h
  obtain ⟨h1, h2⟩ := h
  have h1 : 48 ≤ c.toNat := h1
  have h2 : c.toNat ≤ 57 := h2
  have hc : c = Char.ofNat c.toNat := by rw [Char.ofNat_toNat]
  rw [hc]
  generalize c.toNat = m at h1 h2
  have : ∀ m : Fin 10, Char.ofNat (48 + m) ∈ Printf.Spec.digitChars := by decide
  have := this ⟨m - 48, by omega⟩
  dsimp only at this
  rwa [show 48 + (m - 48) = m by omega] at this

theorem text_bytes (i : Int) : Bytes (toString i).toList := by
  have hd : ∀ c ∈ Printf.Spec.digitChars, c ≠ Char.ofNat 0 ∧ c.toNat < 256 := by decide
  cases i with
  | ofNat n =>
    intro c hc
    have hc : c ∈ (toString (n : Int)).toList := hc
    rw [toString_nat] at hc
    exact hd c (mem_digits hc)
  | negSucc n =>
    rw [toString_neg]
    intro c hc
    rcases List.mem_cons.mp hc with rfl | hc
    · decide
    · exact hd c (mem_digits hc)

/-! ## `sprintf` -/

theorem sprintf_text {R : Type} {L : Printf.CLib R} (hL : L.longBits = 32 ∨ L.longBits = 64) (hbl : Printf.Spec.BlankHarmless L) {junk : Char} {ps : List Piece}
    {args : List (Printf.Arg R)} (hps : ∀ p ∈ ps, p.Valid) (has : ∀ a ∈ args, Printf.Spec.ArgOk a) (hm : Printf.Spec.Matches L (Printf.Spec.dirs ps) args)
    (hz : Printf.Spec.NoHazard L (Printf.Spec.dirs ps) args) (hpp : Printf.Spec.PlainPercents ps) :
    text (Printf.sprintf L junk (Printf.Spec.text ps) args) = .ok (Printf.Spec.outText L ps args) := by
  obtain ⟨s, hs⟩ := Printf.Props.C52_sprintf_never_out_of_bounds L hL hbl junk ps args hps has hm hz hpp
  obtain ⟨_, b, hb, h1, h2, _⟩ := Printf.Props.C52_sprintf_exact L hL hbl junk ps args hps has s hs
  rw [hs, text]
  simp only [hb, h2]

theorem int_ok {R : Type} {x : Int} (hx : IsInt x) : Printf.Spec.ArgOk (intArg x : Printf.Arg R) := by
  refine ⟨by exact Printf.Kind.noConfusion, by exact Printf.Kind.noConfusion, fun sb e => ?_, fun h => ?_, fun h => (nomatch h), fun _ => trivial⟩
  · cases e
    refine ⟨x, rfl, hx.1, hx.2, ?_⟩
    rw [Printf.Spec.intValue, if_neg (fun h => nomatch h.1)]
    exact hx
  · rcases h with h | h <;> cases h

theorem real_ok {R : Type} (x : R) : Printf.Spec.ArgOk (realArg x : Printf.Arg R) := by
  refine ⟨by exact Printf.Kind.noConfusion, by exact Printf.Kind.noConfusion, fun sb e => (nomatch e), fun _ => ⟨x, rfl⟩, fun h => (nomatch h), fun _ => ?_⟩
  intro c hc
  cases hc

def lld : Directive := ⟨[], [], none, .longLong, 'd'⟩

theorem lld_valid : (Piece.dir lld).Valid := by
  refine ⟨⟨fun c h => (nomatch h), fun c h => (nomatch h), fun h => (nomatch h), fun p h => (nomatch h)⟩, rfl⟩

theorem lld_fits {R : Type} (L : Printf.CLib R) {x : Int} (hx : IsInt x) :
    ∃ w, Printf.Spec.want lld.conv lld.size = some w ∧ Printf.Spec.Fits L w (intArg x) := by
  refine ⟨_, rfl, ?_⟩
  refine ⟨show Printf.Kind.int ∈ Printf.Spec.intKinds by decide, x, rfl, ?_⟩
  rw [Printf.Spec.intValue, if_neg (fun h => nomatch h.1)]
  exact hx

theorem lld_safe {R : Type} (L : Printf.CLib R) (x : Int) : ¬ Printf.Spec.Hazard L lld (intArg x) := by
  rintro (h | h)
  · exact h.2.2.1 rfl
  · exact absurd h.1 (by decide)

theorem lld_text {R : Type} {L : Printf.CLib R} (hd : Decimal L) (x : Int) : Printf.Spec.dirText L lld (intArg x) = (toString x).toList := by
  rw [Printf.Spec.dirText, if_neg (by decide)]
  show L.render [] [] none 'd' (.inl (Printf.Spec.intValue .int x)) = _
  rw [Printf.Spec.intValue, if_neg (fun h => nomatch h.1)]
  exact hd x

/-- **C94**: `itoa` is the decimal text of the number. -/
theorem C94_itoa {R : Type} {L : Printf.CLib R} (hL : L.longBits = 32 ∨ L.longBits = 64) (hbl : Printf.Spec.BlankHarmless L) (hd : Decimal L) (junk : Char)
    {x : Int} (hx : IsInt x) : itoa L junk x = .ok (toString x).toList := by
  have h := sprintf_text hL hbl (junk := junk) (ps := [.dir lld]) (args := [intArg x])
    (fun p hp => by rw [List.mem_singleton.mp hp]; exact lld_valid) (fun a ha => by rw [List.mem_singleton.mp ha]; exact int_ok hx)
    ⟨lld_fits L hx, trivial⟩ ⟨lld_safe L x, trivial⟩ (fun d hd => nomatch List.mem_singleton.mp hd)
  rw [itoa]
  refine (show text (Printf.sprintf L junk (Printf.Spec.text [.dir lld]) [intArg x]) = _ from h).trans ?_
  rw [Printf.Spec.outText, lld_text hd, Printf.Spec.outText, List.append_nil]

theorem tiny_decimal : Decimal Printf.Props.tinyLib := fun _ => rfl

example : itoa Printf.Props.tinyLib '?' (-42) = .ok "-42".toList :=
  C94_itoa (.inr rfl) Printf.Props.tiny_blank tiny_decimal '?' ⟨by decide, by decide⟩

/-- **C94**: `ftoa` with a number of decimals writes the real as `printf` of C does with `%.<decimals>f`; a negative number of decimals is a run-time error. -/
theorem C94_ftoa {R : Type} {L : Printf.CLib R} (hL : L.longBits = 32 ∨ L.longBits = 64) (hbl : Printf.Spec.BlankHarmless L) (hd : Decimal L) (junk : Char)
    {x : R} (hx : L.overDbl x = false) {decimals : Int} (hi : IsInt decimals) :
    (0 ≤ decimals → ftoa L junk x decimals = .ok (L.render [] [] (some (toString decimals).toList) 'f' (.inr (.inl x)))) ∧
    (decimals < 0 → ftoa L junk x decimals = .error) := by
  have h1 := sprintf_text hL hbl (junk := junk) (ps := [.percent Printf.Spec.plainPercent, .lit '.', .dir lld, .lit 'l', .lit 'f']) (args := [intArg decimals])
    (fun p hp => by
      simp only [List.mem_cons, List.not_mem_nil, or_false] at hp
      rcases hp with rfl | rfl | rfl | rfl | rfl
      · exact ⟨⟨fun c h => (nomatch h), fun c h => (nomatch h), fun h => (nomatch h), fun p h => (nomatch h)⟩, rfl⟩
      · exact fun h => by revert h; decide
      · exact lld_valid
      · exact fun h => by revert h; decide
      · exact fun h => by revert h; decide)
    (fun a ha => by rw [List.mem_singleton.mp ha]; exact int_ok hi) ⟨lld_fits L hi, trivial⟩ ⟨lld_safe L decimals, trivial⟩
    (fun d hd => by
      simp only [List.mem_cons, List.not_mem_nil, or_false, reduceCtorEq, Piece.percent.injEq] at hd
      exact hd)
  have h1 : text (Printf.sprintf L junk "%%.%lldlf".toList [intArg decimals]) = .ok ('%' :: '.' :: ((toString decimals).toList ++ ['l', 'f'])) := by
    refine (show text (Printf.sprintf L junk (Printf.Spec.text [.percent Printf.Spec.plainPercent, .lit '.', .dir lld, .lit 'l', .lit 'f']) [intArg decimals]) = _ from h1).trans ?_
    simp only [Printf.Spec.outText, lld_text hd]
  constructor
  · intro h0
    obtain ⟨n, rfl⟩ := Int.eq_ofNat_of_zero_le h0
    rw [ftoa, h1]
    dsimp only
    rw [toString_nat]
    have h2 := sprintf_text hL hbl (junk := junk) (ps := [.dir ⟨[], [], some (Nat.toDigits 10 n), .long, 'f'⟩]) (args := [realArg x])
      (fun p hp => by
        rw [List.mem_singleton.mp hp]
        refine ⟨⟨fun c h => (nomatch h), fun c h => (nomatch h), fun h => (nomatch h), fun p h c hc => ?_⟩, rfl⟩
        cases h
        exact mem_digits hc)
      (fun a ha => by rw [List.mem_singleton.mp ha]; exact real_ok x) ⟨⟨_, rfl, .inr rfl, x, rfl, hx⟩, trivial⟩
      ⟨(by
        rintro (h | h)
        · exact absurd h.1 (show ¬ 'f' ∈ ['d', 'i', 'u', 'x', 'X'] by decide)
        · exact absurd h.1 (show ¬ 'f' = 'v' by decide)), trivial⟩ (fun d hd => nomatch List.mem_singleton.mp hd)
    have e : Printf.Spec.text [.dir ⟨[], [], some (Nat.toDigits 10 n), .long, 'f'⟩] = '%' :: '.' :: (Nat.toDigits 10 n ++ ['l', 'f']) := by
      simp [Printf.Spec.text, Piece.text, Directive.text, Printf.Spec.precText, Printf.Spec.sizeText]
    rw [← e, h2, Printf.Spec.outText, Printf.Spec.outText, List.append_nil, Printf.Spec.dirText, if_neg (show ¬ 'f' = 'v' by decide)]
    rfl
  · intro h0
    obtain ⟨n, rfl⟩ : ∃ n, decimals = Int.negSucc n := by
      cases decimals with
      | ofNat n => exact absurd h0 (by show ¬ ((n : Int) < 0); omega)
      | negSucc n => exact ⟨n, rfl⟩
    rw [ftoa, h1]
    dsimp only
    rw [toString_neg, Printf.sprintf]
    rfl

example : ftoa Printf.Props.tinyLib '?' (3 : Int) (-1) = .error :=
  (C94_ftoa (.inr rfl) Printf.Props.tiny_blank tiny_decimal '?' rfl ⟨by decide, by decide⟩).2 (by decide)
example : ftoa Printf.Props.tinyLib '?' (3 : Int) 12 = .ok (Printf.Props.tinyLib.render [] [] (some "12".toList) 'f' (.inr (.inl 3))) :=
  (C94_ftoa (.inr rfl) Printf.Props.tiny_blank tiny_decimal '?' rfl ⟨by decide, by decide⟩).1 (by decide)

/-! ## `sscanf` -/

theorem atoi_number {L : Scanf.CLib} (hL : L.Ok) {s slack : List Char} (hb : Bytes s) {v : Int} (h : BeginsWith s v) (hv : IsInt v) :
    atoi L (some (s, slack)) = .ok v := by
  obtain ⟨sp, t, rest, rfl, hsp, ht, hr⟩ := h
  obtain ⟨st, h1, _, h3, _⟩ := Scanf.Props.C63_values_partial hL (file := false) (slack := slack) hb (ps := [.dir lld])
    (fun p hp => by rw [List.mem_singleton.mp hp]; exact lld_valid) (fun d hd => nomatch List.mem_singleton.mp hd)
    (fun d hd => by
      rw [List.mem_singleton.mp hd]
      exact ⟨rfl, rfl, fun _ => rfl, fun _ e => nomatch e⟩)
    ⟨fun e => absurd e (by decide), trivial⟩ (vars := [(.int, addr)]) ⟨⟨_, rfl, rfl⟩, trivial⟩ (List.pairwise_singleton _ _)
    (fun v hv => by rw [List.mem_singleton.mp hv]; decide) (vs := [.int v]) (rest := rest)
    (.int (d := lld) rfl hsp ht hv
      ⟨fun w hw => (Scanf.Props.no_width hw).elim, .inr fun c hc => ⟨hr c hc, fun h => absurd (show 'd' ∈ ['d', 'u'] by decide) h⟩⟩ .done)
    zeros (fun _ => [])
  obtain ⟨⟨k, hk, h4⟩, _⟩ := h3
  cases hk
  have h1' : Scanf.scanf L (source (some (sp ++ (t ++ rest), slack))) "%lld".toList [(.int, addr)] zeros (fun _ => []) = .done st := h1
  rw [atoi, h1']
  dsimp only at h4 ⊢
  rw [h4]
  dsimp only
  rw [BitVec.toInt_ofInt]
  congr 1
  unfold IsInt at hv
  rw [Int.bmod_eq_of_le] <;> omega

/-- What `atoi` does, by the number at the beginning as the C library sees it. -/
theorem atoi_eq {L : Scanf.CLib} {s slack : List Char} (hb : Bytes s) :
    (s.dropWhile Scanf.isSpace = [] ∨ (Scanf.cNumber (some 10) (s.dropWhile Scanf.isSpace)).2 = none → atoi L (some (s, slack)) = .ok 0) ∧
    (∀ v, s.dropWhile Scanf.isSpace ≠ [] → (Scanf.cNumber (some 10) (s.dropWhile Scanf.isSpace)).2 = some v → ¬ IsInt v → atoi L (some (s, slack)) = .undef) := by
  have hin : (Scanf.Stream.str (s ++ Char.ofNat 0 :: slack) 0).input = some s := by
    exact Scanf.At.input (file := false) (slack := slack) ⟨[], rfl⟩ fun h => (hb _ h).1 rfl
  have hstep : ∀ st, Scanf.step L ⟨"%lld".toList, 0, .str (s ++ Char.ofNat 0 :: slack) 0, zeros, fun _ => []⟩ .int addr = st →
      st = match Scanf.cScanf L true 7 "%lld%n".toList s 0 none with
        | .undef => .undef
        | .done ret taken len store =>
          .done ⟨[], 0 + ret, .str (s ++ Char.ofNat 0 :: slack) (0 + len.getD 0), match store with | none => zeros | some (n, b) => Arith.writeBytes zeros addr n b, fun _ => []⟩ := by
    rintro _ rfl
    have hsc : Printf.scan "%lld".toList = some ⟨4, some 3, .int, .longLong⟩ := rfl
    rw [Scanf.step]
    simp only [hsc, hin]
    rfl
  have hc : Scanf.cScanf L true 7 "%lld%n".toList s 0 none =
      match Scanf.cConvInt (some 10) true 8 none s with
      | .undef => .undef
      | .eof k => Scanf.inputFailure (0 + k) none
      | .mismatch k => .done (Scanf.assigned none) (0 + k) none none
      | .ok k n b => Scanf.cScanf L true 6 "%n".toList (s.drop k) (0 + k) (some (n, b)) := rfl
  have hnone : ∀ (ret : Int) (taken : Nat), Scanf.cScanf L true 7 "%lld%n".toList s 0 none = .done ret taken none none → atoi L (some (s, slack)) = .ok 0 := by
    intro ret taken e
    have hst := hstep _ rfl
    rw [e] at hst
    rw [atoi, Scanf.scanf, source, Scanf.run, hst]
    dsimp only
    rw [Scanf.run]
    have hsc : Printf.scan [] = some ⟨0, none, .void, .normal⟩ := rfl
    have hz : (match Arith.doDeref .int zeros addr with | .ok v => Res.ok v.toInt | _ => .error) = Res.ok 0 := by decide +kernel
    have he : ∃ st : Scanf.State, st.mem = zeros ∧ Scanf.step L ⟨[], 0 + ret, .str (s ++ Char.ofNat 0 :: slack) 0, zeros, fun _ => []⟩ .void 0 = .done st := by
      rw [Scanf.step, hsc]
      dsimp only
      rw [hin]
      exact ⟨_, rfl, rfl⟩
    obtain ⟨st, hm, hst⟩ := he
    rw [Option.getD_none, Nat.add_zero, hst]
    dsimp only
    rw [hm]
    exact hz
  refine ⟨fun h => ?_, fun v hne hv hr => ?_⟩
  · by_cases hne : s.dropWhile Scanf.isSpace = []
    · apply hnone
      rw [hc, Scanf.cConvInt, if_pos hne]
      exact rfl
    · have h := h.resolve_left hne
      have e : Scanf.cConvInt (some 10) true 8 none s = .mismatch ((s.takeWhile Scanf.isSpace).length + (Scanf.cNumber (some 10) (s.dropWhile Scanf.isSpace)).1) := by
        rw [Scanf.cConvInt, if_neg hne, Scanf.limit]
        generalize Scanf.cNumber (some 10) (s.dropWhile Scanf.isSpace) = r at h
        obtain ⟨t, r⟩ := r
        cases h
        rfl
      apply hnone
      rw [hc, e]
  · have e : Scanf.cConvInt (some 10) true 8 none s = .undef := by
      rw [Scanf.cConvInt, if_neg hne, Scanf.limit]
      generalize Scanf.cNumber (some 10) (s.dropWhile Scanf.isSpace) = r at hv
      obtain ⟨t, r⟩ := r
      cases hv
      dsimp only
      rw [Scanf.cStored, if_pos rfl, if_neg (fun h => hr ⟨by have := h.1; omega, by have := h.2; omega⟩)]
    have := hstep _ rfl
    rw [hc, e] at this
    rw [atoi, Scanf.scanf, source, Scanf.run, this]

/-- The number at the beginning as the C library sees it is the one specified. -/
theorem number_spec (s : List Char) {v : Int} (h : (Scanf.cNumber (some 10) (s.dropWhile Scanf.isSpace)).2 = some v) : BeginsWith s v := by
  have hsp : Blank (s.takeWhile Scanf.isSpace) := fun c hc => (Scanf.isSpace_iff c).mp (Printf.takeWhile_mem c hc)
  generalize ht : s.dropWhile Scanf.isSpace = t at h
  have hs : s = s.takeWhile Scanf.isSpace ++ t := by rw [← ht, List.takeWhile_append_dropWhile]
  rw [hs]
  have hbase : ∀ u, Scanf.cBase (some 10) u = (10, u, 0) := fun u => by rw [Scanf.cBase, if_pos rfl]
  have hall : ∀ (neg : Bool) (u : List Char) (k : Nat), Scanf.cSign t = (neg, u, k) →
      ∃ ds rest, u = ds ++ rest ∧ Digits 10 ds (Scanf.numeral 10 0 ds) ∧ (∀ c, rest.head? = some c → ∀ k, ¬ IsDigit 10 c k) ∧
        v = if neg then -(Scanf.numeral 10 0 ds : Int) else Scanf.numeral 10 0 ds := by
    intro neg u k e
    rw [Scanf.cNumber] at h
    simp only [e, hbase, Scanf.cDigits] at h
    split at h
    · cases h
    · rename_i hne
      refine ⟨_, _, (List.takeWhile_append_dropWhile (p := fun c => decide (Scanf.digitVal c < 10)) (l := u)).symm,
        Scanf.digits_exists (by decide) _ hne (fun c hc => of_decide_eq_true (Printf.takeWhile_mem (p := fun c => decide (Scanf.digitVal c < 10)) c hc)), ?_, (Option.some.inj h).symm⟩
      intro c hc k hk
      have := List.head?_dropWhile_not (fun c => decide (Scanf.digitVal c < 10)) u
      rw [hc] at this
      exact absurd (Scanf.isDigit_val (by decide) hk).2 (of_decide_eq_false this)
  by_cases h1 : ∃ u, t = '-' :: u
  · obtain ⟨u, rfl⟩ := h1
    obtain ⟨ds, rest, rfl, hds, hr, hv⟩ := hall true u 1 rfl
    exact ⟨_, '-' :: ds, rest, rfl, hsp, hv ▸ .minus (.decimal (by decide) hds), hr⟩
  · by_cases h2 : ∃ u, t = '+' :: u
    · obtain ⟨u, rfl⟩ := h2
      obtain ⟨ds, rest, rfl, hds, hr, hv⟩ := hall false u 1 rfl
      exact ⟨_, '+' :: ds, rest, rfl, hsp, hv ▸ .plus (.decimal (by decide) hds), hr⟩
    · have e : Scanf.cSign t = (false, t, 0) := by
        rw [Scanf.cSign.eq_def]
        split
        · exact absurd ⟨_, rfl⟩ h1
        · exact absurd ⟨_, rfl⟩ h2
        · rfl
      obtain ⟨ds, rest, h3, hds, hr, hv⟩ := hall false t 0 e
      exact ⟨_, ds, rest, by rw [← h3], hsp, hv ▸ .plain (.decimal (by decide) hds), hr⟩

/-- **C94**: `atoi` is the number at the beginning of the string, and zero if the string does not begin with a number. -/
theorem C94_atoi_partial {L : Scanf.CLib} (hL : L.Ok) {s slack : List Char} (hb : Bytes s) :
    (∀ v, BeginsWith s v → IsInt v → atoi L (some (s, slack)) = .ok v) ∧
    ((∀ v, ¬ BeginsWith s v) → atoi L (some (s, slack)) = .ok 0) := by
  refine ⟨fun v h hv => atoi_number hL hb h hv, fun h => (atoi_eq hb).1 (.inr ?_)⟩
  generalize e : (Scanf.cNumber (some 10) (s.dropWhile Scanf.isSpace)).2 = r
  cases r with
  | none => rfl
  | some v => exact absurd (number_spec s e) (h v)

/-- **C94**: `atoi` of a null string is a run-time error. -/
theorem C94_atoi_null (L : Scanf.CLib) : atoi L none = .error := rfl

/-- **C94**: a number converted to a string and back is the same. -/
theorem C94_round_trip {R : Type} {L : Printf.CLib R} (hL : L.longBits = 32 ∨ L.longBits = 64) (hbl : Printf.Spec.BlankHarmless L) (hd : Decimal L)
    {L' : Scanf.CLib} (hL' : L'.Ok) (junk : Char) (slack : List Char) {x : Int} (hx : IsInt x) :
    ∃ s, itoa L junk x = .ok s ∧ atoi L' (some (s, slack)) = .ok x :=
  ⟨_, C94_itoa hL hbl hd junk hx, (C94_atoi_partial hL' (text_bytes x)).1 x
    ⟨[], _, [], by rw [List.append_nil]; rfl, fun c h => (nomatch h), number_text x, fun c h => (nomatch h)⟩ hx⟩

/-- The numbers at the beginning of a string that `int` cannot hold. -/
theorem atoi_range {L : Scanf.CLib} {s slack : List Char} (hb : Bytes s) {v : Int} (hne : s.dropWhile Scanf.isSpace ≠ [])
    (h : (Scanf.cNumber (some 10) (s.dropWhile Scanf.isSpace)).2 = some v) (hv : ¬ IsInt v) : atoi L (some (s, slack)) = .undef :=
  (atoi_eq hb).2 v hne h hv

/-- **C94** (violated): a number that `int` cannot hold makes `atoi` undefined. -/
theorem C94_range_violated (L : Scanf.CLib) : atoi L (some ("9223372036854775808".toList, [])) = .undef :=
  atoi_range (v := 9223372036854775808) (by unfold Bytes; decide) (by decide) (by decide) (by unfold IsInt; decide)

/-- **C94**: `atof` is the real that `sscanf` of C finds after the blanks at the beginning of the string. -/
theorem C94_atof {L : Scanf.CLib} (hL : L.Ok) {s slack : List Char} (hb : Bytes s) {sp t : List Char} {k b : Nat} (hs : s = sp ++ t) (hsp : Blank sp)
    (ht : Scanf.Spec.NotBlank t) (h0 : t ≠ []) (h : L.real 8 t = (k, some b)) : atof L (some (s, slack)) = .ok b := by
  subst hs
  obtain ⟨st, h1, _, h3, _⟩ := Scanf.Props.C63_values_partial hL (file := false) (slack := slack) hb (ps := [.dir ⟨[], [], none, .long, 'f'⟩])
    (fun p hp => by
      rw [List.mem_singleton.mp hp]
      exact ⟨⟨fun c h => (nomatch h), fun c h => (nomatch h), fun h => (nomatch h), fun p h => (nomatch h)⟩, rfl⟩)
    (fun d hd => nomatch List.mem_singleton.mp hd)
    (fun d hd => by
      rw [List.mem_singleton.mp hd]
      exact ⟨rfl, rfl, fun _ => rfl, fun h => absurd h (show ¬ 'f' ∈ ['d', 'i', 'u', 'x', 'X'] by decide)⟩)
    ⟨fun e => absurd e (show ¬ 'f' = 's' by decide), trivial⟩ (vars := [(.real, addr)]) ⟨⟨_, rfl, rfl⟩, trivial⟩ (List.pairwise_singleton _ _)
    (fun v hv => by rw [List.mem_singleton.mp hv]; decide) (vs := [.real b]) (rest := t.drop k)
    (.real (d := ⟨[], [], none, .long, 'f'⟩) rfl hsp ht h0 rfl h .done) zeros (fun _ => [])
  have h1' : Scanf.scanf L (source (some (sp ++ t, slack))) "%lf".toList [(.real, addr)] zeros (fun _ => []) = .done st := h1
  rw [atof, h1']
  exact congrArg Res.ok h3.1.2

/-- **C94**: `atof` of a null string is a run-time error. -/
theorem C94_atof_null (L : Scanf.CLib) : atof L none = .error := rfl

/-- A C library whose `strtod` knows only the digit 7 and gives the digit as the bits. -/
def tinyScan : Scanf.CLib where
  longBytes := 8
  real n s := if s.head? = some '7' then (1, some (7 % 256 ^ n)) else (0, none)

theorem tinyScan_ok : tinyScan.Ok := by
  intro n s
  show (if s.head? = some '7' then (1, some (7 % 256 ^ n)) else (0, none) : Nat × Option Nat).1 ≤ s.length ∧
    ∀ b, (if s.head? = some '7' then (1, some (7 % 256 ^ n)) else (0, none) : Nat × Option Nat).2 = some b → b < 256 ^ n
  split
  · rename_i h
    refine ⟨?_, fun b h => ?_⟩
    · cases s with
      | nil => cases h
      | cons c s => exact Nat.succ_le_succ (Nat.zero_le _)
    · cases h
      exact Nat.mod_lt _ (Nat.pow_pos (by decide))
  · exact ⟨Nat.zero_le _, fun b h => (nomatch h)⟩

theorem number_head {t : List Char} {v : Int} (h : Number 'd' t v) : ∃ c u, t = c :: u ∧ (c ∈ ['+', '-'] ∨ Scanf.digitVal c < 10) := by
  cases h with
  | plus => exact ⟨_, _, rfl, .inl (by decide)⟩
  | minus => exact ⟨_, _, rfl, .inl (by decide)⟩
  | plain h =>
    cases h with
    | decimal _ hd =>
      obtain ⟨h1, h2, _⟩ := Scanf.digits_numeral (by decide) hd
      cases t with
      | nil => exact absurd rfl h1
      | cons c u => exact ⟨c, u, rfl, .inr (h2 c (List.mem_cons_self ..))⟩
    | hex h => exact absurd h (by decide)
    | prefixed h => exact absurd h (by decide)

example : atoi tinyScan (some (" -12 apples".toList, ['x'])) = .ok (-12) := by
  refine (C94_atoi_partial tinyScan_ok (by unfold Bytes; decide)).1 _ ⟨[' '], "-12".toList, " apples".toList, rfl, by unfold Blank; decide, ?_, ?_⟩ ⟨by decide, by decide⟩
  · have h := number_text (-12)
    rwa [show (toString (-12 : Int)).toList = "-12".toList by decide] at h
  · intro c hc k hk
    cases hc
    exact absurd (Scanf.isDigit_val (by decide) hk).2 (by decide)
example : atoi tinyScan (some ("apples".toList, ['x'])) = .ok 0 := by
  refine (C94_atoi_partial tinyScan_ok (by unfold Bytes; decide)).2 fun v h => ?_
  obtain ⟨sp, t, rest, e, hsp, ht, _⟩ := h
  obtain ⟨c, u, rfl, hc⟩ := number_head ht
  cases sp with
  | nil =>
    injection e with e
    subst e
    revert hc
    decide
  | cons x sp =>
    injection e with e
    subst e
    exact absurd (hsp _ (List.mem_cons_self ..)) (by decide)
example : ∃ s, itoa Printf.Props.tinyLib '?' (-2 ^ 63) = .ok s ∧ atoi tinyScan (some (s, [])) = .ok (-2 ^ 63) :=
  C94_round_trip (.inr rfl) Printf.Props.tiny_blank tiny_decimal tinyScan_ok '?' [] ⟨by decide, by decide⟩
example : atof tinyScan (some ("  7 apples".toList, ['x'])) = .ok 7 :=
  C94_atof tinyScan_ok (by unfold Bytes; decide) (sp := "  ".toList) (t := "7 apples".toList) rfl (by unfold Blank; decide) (by unfold Scanf.Spec.NotBlank; decide) (by decide) rfl

end Umka.Convert.Props
