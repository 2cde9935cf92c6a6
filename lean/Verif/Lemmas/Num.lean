import Verif.Model.StrNum

/-! Lemmas about the decimal texts of numbers. -/
namespace Xo

namespace Spec
/-- The number written by decimal digits, most significant first. -/
def numVal (ds : Str) : Nat := ds.foldl (fun acc c => acc * 10 + (c.toNat - '0'.toNat)) 0

/-- `s` begins, after whitespace and an optional sign, with digits; `neg` and `n` are sign and value of the longest such
run of digits. -/
structure LeadingNumber (s : Str) (neg : Bool) (n : Nat) : Prop where
  parts : ∃ ws sgn ds rest : Str, s = ws ++ sgn ++ ds ++ rest ∧
    (∀ c ∈ ws, c ∈ " \t\n\u000b\u000c\r".toList) ∧
    (sgn = (if neg then ['-'] else []) ∨ sgn = ['+'] ∧ neg = false) ∧
    ds ≠ [] ∧ (∀ c ∈ ds, c ∈ "0123456789".toList) ∧ (∀ c, rest.head? = some c → c ∉ "0123456789".toList) ∧ n = numVal ds
end Spec

open Spec

theorem digitChar_toNat : ∀ k, k < 10 → (Char.ofNat (48 + k)).toNat = 48 + k := by decide

theorem isDigitC_iff (c : Char) : isDigitC c = true ↔ c ∈ "0123456789".toList := by
  have e : "0123456789".toList = ['0', '1', '2', '3', '4', '5', '6', '7', '8', '9'] := by decide +kernel
  rw [e]
  constructor
  · intro h
    simp only [isDigitC, Bool.and_eq_true, decide_eq_true_eq] at h
    have hc : c = Char.ofNat c.toNat := (Char.ofNat_toNat c).symm
    obtain ⟨k, hk⟩ : ∃ k, c.toNat = k := ⟨_, rfl⟩
    rw [hk] at h hc
    have : k = 48 ∨ k = 49 ∨ k = 50 ∨ k = 51 ∨ k = 52 ∨ k = 53 ∨ k = 54 ∨ k = 55 ∨ k = 56 ∨ k = 57 := by omega
    rw [hc]
    rcases this with rfl | rfl | rfl | rfl | rfl | rfl | rfl | rfl | rfl | rfl <;> decide
  · intro h
    simp only [List.mem_cons, List.not_mem_nil, or_false] at h
    rcases h with rfl | rfl | rfl | rfl | rfl | rfl | rfl | rfl | rfl | rfl <;> decide

theorem isSpaceC_iff (c : Char) : isSpaceC c = true ↔ c ∈ " \t\n\u000b\u000c\r".toList := by
  have e : " \t\n\u000b\u000c\r".toList = [' ', '\t', '\n', Char.ofNat 11, Char.ofNat 12, '\r'] := by decide +kernel
  rw [e]
  constructor
  · intro h
    simp only [isSpaceC, Bool.or_eq_true, Bool.and_eq_true, decide_eq_true_eq] at h
    rcases h with rfl | h
    · decide
    have hc : c = Char.ofNat c.toNat := (Char.ofNat_toNat c).symm
    obtain ⟨k, hk⟩ : ∃ k, c.toNat = k := ⟨_, rfl⟩
    rw [hk] at h hc
    have : k = 9 ∨ k = 10 ∨ k = 11 ∨ k = 12 ∨ k = 13 := by omega
    rw [hc]
    rcases this with rfl | rfl | rfl | rfl | rfl <;> decide
  · intro h
    simp only [List.mem_cons, List.not_mem_nil, or_false] at h
    rcases h with rfl | rfl | rfl | rfl | rfl | rfl <;> decide

theorem readDigits_append (acc : Nat) (any : Bool) (ds rest : Str) (hd : ∀ c ∈ ds, isDigitC c = true)
    (hr : ∀ c, rest.head? = some c → isDigitC c = false) :
    readDigits acc any (ds ++ rest) =
      (ds.foldl (fun acc c => acc * 10 + (c.toNat - '0'.toNat)) acc, any || !ds.isEmpty) := by
  induction ds generalizing acc any with
  | nil =>
    cases rest with
    | nil => simp [readDigits]
    | cons c rest => simp [readDigits, hr c rfl]
  | cons c ds ih =>
    rw [List.cons_append, readDigits, if_pos (hd c (by simp)), ih _ _ (fun x hx => hd x (by simp [hx]))]
    simp

/-- Dividing a text into its leading digits and the rest. -/
theorem digits_split (s : Str) : ∃ ds rest, s = ds ++ rest ∧ (∀ c ∈ ds, isDigitC c = true) ∧
    ∀ c, rest.head? = some c → isDigitC c = false := by
  induction s with
  | nil => exact ⟨[], [], rfl, by simp, by simp⟩
  | cons c s ih =>
    by_cases h : isDigitC c = true
    · obtain ⟨ds, rest, e, h1, h2⟩ := ih
      refine ⟨c :: ds, rest, by rw [e]; rfl, ?_, h2⟩
      intro x hx
      rcases List.mem_cons.1 hx with rfl | hx
      · exact h
      · exact h1 x hx
    · refine ⟨[], c :: s, rfl, by simp, ?_⟩
      intro x hx
      cases hx
      simpa using h

theorem dropWhile_split {α : Type} (p : α → Bool) (s : List α) :
    ∃ ws, s = ws ++ s.dropWhile p ∧ (∀ c ∈ ws, p c = true) ∧ ∀ c, (s.dropWhile p).head? = some c → p c = false := by
  induction s with
  | nil => exact ⟨[], rfl, by simp, by simp⟩
  | cons x s ih =>
    rw [List.dropWhile_cons]
    split
    · next h =>
      obtain ⟨ws, e, h1, h2⟩ := ih
      refine ⟨x :: ws, by rw [List.cons_append, ← e], ?_, h2⟩
      intro c hc
      rcases List.mem_cons.1 hc with rfl | hc
      · exact h
      · exact h1 c hc
    · next h =>
      refine ⟨[], rfl, by simp, ?_⟩
      intro c hc
      cases hc
      simpa using h

theorem dropWhile_skip {α : Type} {p : α → Bool} {ws s : List α} (h : ∀ c ∈ ws, p c = true)
    (hs : ∀ c, s.head? = some c → p c = false) : (ws ++ s).dropWhile p = s := by
  induction ws with
  | nil =>
    cases s with
    | nil => rfl
    | cons x s => simp [hs x rfl]
  | cons x ws ih =>
    rw [List.cons_append, List.dropWhile_cons, if_pos (h x (by simp)), ih (fun c hc => h c (by simp [hc]))]

theorem not_space_of_digit {c : Char} (h : isDigitC c = true) : isSpaceC c = false := by
  simp only [isDigitC, Bool.and_eq_true, decide_eq_true_eq] at h
  simp only [isSpaceC, Bool.or_eq_false_iff, decide_eq_false_iff_not, Bool.and_eq_false_iff]
  refine ⟨?_, Or.inr (by omega)⟩
  rintro rfl
  have : (' ').toNat = 32 := rfl
  omega

/-- The sign at the start of a text. -/
def signSplit : Str → Bool × Str
  | '-' :: t => (true, t)
  | '+' :: t => (false, t)
  | t => (false, t)

/-- Sign and digits at the start of a text. -/
def readSigned (s : Str) : Option (Bool × Nat) :=
  match readDigits 0 false (signSplit s).2 with
  | (n, true) => some ((signSplit s).1, n)
  | (_, false) => none

theorem readInt_eq (s : Str) : readInt s = readSigned (s.dropWhile isSpaceC) := rfl

theorem readSigned_digits {ds rest : Str} (hne : ds ≠ []) (hd : ∀ c ∈ ds, isDigitC c = true)
    (hr : ∀ c, rest.head? = some c → isDigitC c = false) : readSigned (ds ++ rest) = some (false, numVal ds) := by
  cases ds with
  | nil => exact absurd rfl hne
  | cons c ds =>
    have hm : c ≠ '-' := by rintro rfl; exact absurd (hd '-' (by simp)) (by decide)
    have hp : c ≠ '+' := by rintro rfl; exact absurd (hd '+' (by simp)) (by decide)
    unfold readSigned
    have e : signSplit ((c :: ds) ++ rest) = (false, (c :: ds) ++ rest) := by
      simp only [List.cons_append]
      unfold signSplit
      split
      · next h => injection h with h1 h2; exact absurd h1 hm
      · next h => injection h with h1 h2; exact absurd h1 hp
      · rfl
    rw [e]
    simp only
    rw [readDigits_append 0 false _ rest hd hr]
    simp [numVal]

theorem readSigned_sign (ng : Bool) {ds rest : Str} (hne : ds ≠ []) (hd : ∀ c ∈ ds, isDigitC c = true)
    (hr : ∀ c, rest.head? = some c → isDigitC c = false) :
    readSigned ((if ng then '-' else '+') :: (ds ++ rest)) = some (ng, numVal ds) := by
  have h2 : (false || !ds.isEmpty) = true := by cases ds <;> simp_all
  cases ng
  · simp only [readSigned, signSplit, Bool.false_eq_true, if_false]
    rw [readDigits_append 0 false _ rest hd hr, h2]
    rfl
  · simp only [readSigned, signSplit, if_true]
    rw [readDigits_append 0 false _ rest hd hr, h2]
    rfl

/-- `readInt` finds the leading number. -/
theorem readInt_iff (s : Str) (neg : Bool) (n : Nat) : readInt s = some (neg, n) ↔ LeadingNumber s neg n := by
  constructor
  · intro h
    obtain ⟨ws, e, hw, _⟩ := dropWhile_split isSpaceC s
    rw [readInt_eq] at h
    have hw' : ∀ c ∈ ws, c ∈ " \t\n\u000b\u000c\r".toList := fun c hc => (isSpaceC_iff c).1 (hw c hc)
    generalize s.dropWhile isSpaceC = t at *
    subst e
    -- the text behind the sign
    have key : ∀ (sgn t' : Str) (ng : Bool), t = sgn ++ t' →
        (sgn = (if ng then ['-'] else []) ∨ sgn = ['+'] ∧ ng = false) →
        (match readDigits 0 false t' with | (n, true) => some (ng, n) | (_, false) => none) = some (neg, n) →
        LeadingNumber (ws ++ t) neg n := by
      intro sgn t' ng et hs hm
      obtain ⟨ds, rest, e2, hd, hr⟩ := digits_split t'
      rw [e2, readDigits_append 0 false ds rest hd hr] at hm
      cases ds with
      | nil => simp at hm
      | cons c ds =>
        simp only [List.isEmpty_cons, Bool.not_false, Bool.or_true, Option.some.injEq, Prod.mk.injEq] at hm
        obtain ⟨rfl, rfl⟩ := hm
        refine ⟨ws, sgn, c :: ds, rest, by rw [et, e2]; simp, hw', hs, by simp, ?_, ?_, rfl⟩
        · exact fun x hx => (isDigitC_iff x).1 (hd x hx)
        · intro x hx hm
          have := hr x hx
          rw [(isDigitC_iff x).2 hm] at this
          cases this
    unfold readSigned at h
    have hs : ∃ sgn, t = sgn ++ (signSplit t).2 ∧
        (sgn = (if (signSplit t).1 then ['-'] else []) ∨ sgn = ['+'] ∧ (signSplit t).1 = false) := by
      unfold signSplit
      split
      · exact ⟨['-'], rfl, by simp⟩
      · exact ⟨['+'], rfl, by simp⟩
      · exact ⟨[], rfl, by simp⟩
    obtain ⟨sgn, e1, e2⟩ := hs
    exact key sgn _ _ e1 e2 h
  · rintro ⟨ws, sgn, ds, rest, rfl, hw, hs, hne, hd, hr, rfl⟩
    have hd' : ∀ c ∈ ds, isDigitC c = true := fun c hc => (isDigitC_iff c).2 (hd c hc)
    have hr' : ∀ c, rest.head? = some c → isDigitC c = false := by
      intro c hc
      have := hr c hc
      rw [← isDigitC_iff] at this
      simpa using this
    have hw' : ∀ c ∈ ws, isSpaceC c = true := fun c hc => (isSpaceC_iff c).2 (hw c hc)
    rw [readInt_eq]
    obtain ⟨x, xs, hx⟩ : ∃ x xs, ds = x :: xs := by cases ds with | nil => exact absurd rfl hne | cons x xs => exact ⟨x, xs, rfl⟩
    rw [List.append_assoc, List.append_assoc, dropWhile_skip hw']
    · rcases hs with hs | ⟨hs, hn⟩
      · cases neg
        · simp only [Bool.false_eq_true, if_false] at hs
          rw [hs, List.nil_append, readSigned_digits hne hd' hr']
        · simp only [if_true] at hs
          rw [hs]
          exact readSigned_sign true hne hd' hr'
      · rw [hs, hn]
        exact readSigned_sign false hne hd' hr'
    · intro c hc
      rcases hs with hs | ⟨hs, hn⟩
      · cases neg
        · simp only [Bool.false_eq_true, if_false] at hs
          rw [hs, hx] at hc
          simp at hc
          subst hc
          exact not_space_of_digit (hd' x (by rw [hx]; simp))
        · simp only [if_true] at hs
          rw [hs] at hc; simp at hc; subst hc; decide
      · rw [hs] at hc; simp at hc; subst hc; decide

theorem digitsRev_spec (fuel : Nat) : ∀ n, n < fuel → (∀ c ∈ digitsRev fuel n, isDigitC c = true) ∧
    digitsRev fuel n ≠ [] ∧
    (digitsRev fuel n).foldr (fun c acc => acc * 10 + (c.toNat - '0'.toNat)) 0 = n := by
  induction fuel with
  | zero => intro n h; omega
  | succ fuel ih =>
    intro n hn
    have hd := digitChar_toNat (n % 10) (by omega)
    have hdig : isDigitC (Char.ofNat (48 + n % 10)) = true := by
      simp only [isDigitC, hd, Bool.and_eq_true, decide_eq_true_eq]; omega
    have h0 : '0'.toNat = 48 := rfl
    rw [digitsRev]
    by_cases hz : n / 10 = 0
    · rw [if_pos hz]
      refine ⟨by simpa using hdig, by simp, ?_⟩
      simp only [List.foldr_cons, List.foldr_nil, hd, h0]
      omega
    · rw [if_neg hz]
      obtain ⟨h1, h2, h3⟩ := ih (n / 10) (by omega)
      refine ⟨?_, by simp, ?_⟩
      · intro c hc
        rcases List.mem_cons.1 hc with rfl | hc
        · exact hdig
        · exact h1 c hc
      · rw [List.foldr_cons, h3, hd, h0]
        omega

theorem natToStr_spec (n : Nat) : (∀ c ∈ natToStr n, isDigitC c = true) ∧ natToStr n ≠ [] ∧ numVal (natToStr n) = n := by
  obtain ⟨h1, h2, h3⟩ := digitsRev_spec (n + 1) n (by omega)
  unfold natToStr
  refine ⟨fun c hc => h1 c (List.mem_reverse.1 hc), by simpa using h2, ?_⟩
  unfold numVal
  rw [List.foldl_reverse]
  exact h3

/-- Reading back the text of an integer, whatever follows it unless that is a digit. -/
theorem readInt_intToStr (v : Int) (rest : Str) (hr : ∀ c, rest.head? = some c → isDigitC c = false) :
    readInt (intToStr v ++ rest) = some (decide (v < 0), v.natAbs) := by
  obtain ⟨h1, h2, h3⟩ := natToStr_spec v.natAbs
  rw [readInt_eq]
  unfold intToStr
  by_cases hv : v < 0
  · rw [if_pos hv]
    rw [show ('-' :: natToStr v.natAbs) ++ rest = [] ++ ('-' :: (natToStr v.natAbs ++ rest)) by simp,
      dropWhile_skip (by simp) (by intro c hc; simp at hc; subst hc; decide)]
    have := readSigned_sign true h2 h1 hr
    rw [h3] at this
    simpa [hv] using this
  · rw [if_neg hv]
    obtain ⟨x, xs, hx⟩ : ∃ x xs, natToStr v.natAbs = x :: xs := by
      cases hh : natToStr v.natAbs with
      | nil => exact absurd hh h2
      | cons x xs => exact ⟨x, xs, rfl⟩
    rw [show natToStr v.natAbs ++ rest = [] ++ (natToStr v.natAbs ++ rest) by simp,
      dropWhile_skip (by simp) (by
        intro c hc
        rw [hx] at hc
        simp at hc
        subst hc
        exact not_space_of_digit (h1 x (by rw [hx]; simp)))]
    have := readSigned_digits h2 h1 hr
    rw [h3] at this
    simpa [hv] using this

end Xo
