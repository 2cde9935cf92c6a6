import Verif.Model.Date
import Verif.Lemmas.NumRead
import Verif.Props.C25_Split
import Verif.Props.C29_IntText

/-!
C93: dates as text. A date without negative fields survives; dates with fields of the usual size are ordered as their texts are.
-/
namespace Xo.DateText
open Xo Xo.Spec Xo.Num

namespace Spec
/-- A text made of `w` or more decimal digits with the value `n`, with leading zeros only up to the width `w`. -/
def Padded (w n : Nat) (s : Str) : Prop :=
  w ≤ s.length ∧ (∀ c ∈ s, isDigitC c = true) ∧ numVal s = n ∧ (w < s.length → s.head? ≠ some '0')

/-- A date read from three numbers. -/
def IsInt (n : Int) : Prop := -2 ^ 31 ≤ n ∧ n < 2 ^ 31

/-- The order of dates. -/
def before (a b : Date) : Prop := a.year < b.year ∨ a.year = b.year ∧ (a.month < b.month ∨ a.month = b.month ∧ a.day < b.day)
end Spec

theorem numVal_zeros (n : Nat) (s : Str) (hs : ∀ c ∈ s, isDigitC c = true) : numVal (List.replicate n '0' ++ s) = numVal s := by
  have h : ∀ c ∈ List.replicate n '0' ++ s, isDigitC c = true := by
    intro c hc
    rcases List.mem_append.1 hc with hc | hc
    · rw [List.eq_of_mem_replicate hc]; decide
    · exact hs c hc
  rw [← digsVal_numVal h, digsVal_append, digsVal_zeros, digsVal_numVal hs]; omega

theorem natToStr_head (n : Nat) (h : n ≠ 0) : (natToStr n).head? ≠ some '0' := by
  -- the last of the reversed digits
  have key : ∀ (fuel n : Nat), n < fuel → n ≠ 0 → (digitsRev fuel n).getLast? ≠ some '0' := by
    intro fuel
    induction fuel with
    | zero => intro n h; omega
    | succ fuel ih =>
      intro n hn h0
      rw [digitsRev]
      by_cases hz : n / 10 = 0
      · rw [if_pos hz]
        have h1 : n % 10 = n := by omega
        have h2 := digitChar_toNat n (by omega)
        simp only [List.getLast?_singleton, ne_eq, Option.some.injEq, h1]
        intro e
        rw [e] at h2
        have : ('0' : Char).toNat = 48 := by decide
        omega
      · rw [if_neg hz]
        have := ih (n / 10) (by omega) hz
        cases hd : digitsRev fuel (n / 10) with
        | nil =>
          have := (digitsRev_spec fuel (n / 10) (by omega)).2.1
          exact absurd hd this
        | cons a l => rw [List.getLast?_cons_cons, ← hd]; exact this
  unfold natToStr
  rw [List.head?_reverse]
  exact key (n + 1) n (by omega) h

/-- **C93.** A field that is not negative is written with its decimal digits, filled up with zeros to the width. -/
theorem C93_field (w : Nat) (hw : 1 ≤ w) (n : Nat) : Spec.Padded w n (padZero w n) := by
  obtain ⟨h1, h2, h3⟩ := natToStr_spec n
  have e : padZero w n = List.replicate (w - (natToStr n).length) '0' ++ natToStr n := by
    unfold padZero; rw [if_neg (by omega)]; simp
  rw [e]
  refine ⟨by simp; omega, ?_, ?_, ?_⟩
  · intro c hc
    rcases List.mem_append.1 hc with hc | hc
    · rw [List.eq_of_mem_replicate hc]; decide
    · exact h1 c hc
  · rw [numVal_zeros _ _ h1, h3]
  · intro hl
    have : w - (natToStr n).length = 0 := by simp at hl; omega
    rw [this]
    by_cases hn : n = 0
    · subst hn
      have : (natToStr 0).length = 1 := by decide
      simp [this] at hl; omega
    · simpa using natToStr_head n hn

theorem readInt_padded {w n : Nat} {s : Str} (hw : 1 ≤ w) (h : Spec.Padded w n s) : readInt s = some (false, n) := by
  obtain ⟨h1, h2, h3, _⟩ := h
  obtain ⟨x, xs, hx⟩ : ∃ x xs, s = x :: xs := by
    cases s with
    | nil => simp at h1; omega
    | cons x xs => exact ⟨x, xs, rfl⟩
  have hd : s.dropWhile isSpaceC = s := by
    rw [hx, List.dropWhile_cons, not_space_of_digit (h2 x (by rw [hx]; simp))]; simp
  have hr := readSigned_digits (ds := s) (rest := []) (by rw [hx]; simp) h2 (by simp)
  rw [List.append_nil] at hr
  rw [readInt_eq, hd, hr, h3]

theorem field_padded {w n : Nat} {s : Str} (hw : 1 ≤ w) (hn : n < 2 ^ 31) (h : Spec.Padded w n s) : fromStrField s = (true, (n : Int)) := by
  have : fromStrInt s = some (n : Int) := by
    unfold fromStrInt strtol toInt32
    rw [readInt_padded hw h]
    simp only [Option.map_some, Option.some.injEq, Bool.false_eq_true, if_false]
    rw [if_neg (by omega)]
    omega
  simp [fromStrField, this]

theorem seps : cstr "-./".toList = ['-', '.', '/'] := by decide +kernel

theorem digit_not_sep {c : Char} (h : isDigitC c = true) : c ∉ cstr "-./".toList := by
  rw [seps]
  intro hm
  simp only [List.mem_cons, List.not_mem_nil, or_false] at hm
  rcases hm with rfl | rfl | rfl <;> exact absurd h (by decide)

/-- Three pieces with any separators before, between and behind. -/
theorem split_three {g0 g1 g2 g3 a b c : Str} (h0 : ∀ x ∈ g0, x ∈ ['-', '.', '/']) (h1 : ∀ x ∈ g1, x ∈ ['-', '.', '/'])
    (h2 : ∀ x ∈ g2, x ∈ ['-', '.', '/']) (h3 : ∀ x ∈ g3, x ∈ ['-', '.', '/']) (n1 : g1 ≠ []) (n2 : g2 ≠ [])
    (ha : a ≠ [] ∧ ∀ x ∈ a, x ∉ ['-', '.', '/']) (hb : b ≠ [] ∧ ∀ x ∈ b, x ∉ ['-', '.', '/']) (hc : c ≠ [] ∧ ∀ x ∈ c, x ∉ ['-', '.', '/']) :
    splitStr (g0 ++ a ++ (g1 ++ b ++ (g2 ++ c ++ g3))) "-./".toList = [a, b, c] := by
  apply C25_split_unique
  rw [seps]
  have head : ∀ (g r : Str), g ≠ [] → (∀ x ∈ g, x ∈ ['-', '.', '/']) → ∀ x, (g ++ r).head? = some x → x ∈ ['-', '.', '/'] := by
    intro g r hn hg x hx
    cases g with
    | nil => exact absurd rfl hn
    | cons y g => cases hx; exact hg _ (by simp)
  refine .piece g0 a _ _ h0 ha.1 ha.2 ?_ (.piece g1 b _ _ h1 hb.1 hb.2 ?_ (.piece g2 c g3 _ h2 hc.1 hc.2 ?_ (.done _ h3)))
  · rw [List.append_assoc]; exact head _ _ n1 h1
  · rw [List.append_assoc]; exact head _ _ n2 h2
  · intro x hx
    cases g3 with
    | nil => cases hx
    | cons y g => cases hx; exact h3 _ (by simp)

/-- **C93.** Three decimal numbers with any of the separators between them are read as year, month and day, whatever the number of digits and
separators; separators before and behind are ignored. -/
theorem C93_read {g0 g1 g2 g3 a b c : Str} (h0 : ∀ x ∈ g0, x ∈ ['-', '.', '/']) (h1 : ∀ x ∈ g1, x ∈ ['-', '.', '/'])
    (h2 : ∀ x ∈ g2, x ∈ ['-', '.', '/']) (h3 : ∀ x ∈ g3, x ∈ ['-', '.', '/']) (n1 : g1 ≠ []) (n2 : g2 ≠ [])
    (ha : a ≠ [] ∧ ∀ x ∈ a, isDigitC x = true) (hb : b ≠ [] ∧ ∀ x ∈ b, isDigitC x = true) (hc : c ≠ [] ∧ ∀ x ∈ c, isDigitC x = true)
    (la : numVal a < 2 ^ 31) (lb : numVal b < 2 ^ 31) (lc : numVal c < 2 ^ 31) (v : Date) :
    fromStr (g0 ++ a ++ (g1 ++ b ++ (g2 ++ c ++ g3))) v = (true, ⟨numVal a, numVal b, numVal c⟩) := by
  have nd : ∀ s : Str, (∀ x ∈ s, isDigitC x = true) → ∀ x ∈ s, x ∉ ['-', '.', '/'] := fun s hs x hx => by
    have := digit_not_sep (hs x hx); rwa [seps] at this
  have hs := split_three h0 h1 h2 h3 n1 n2 ⟨ha.1, nd a ha.2⟩ ⟨hb.1, nd b hb.2⟩ ⟨hc.1, nd c hc.2⟩
  have pad : ∀ s : Str, s ≠ [] → (∀ x ∈ s, isDigitC x = true) → numVal s < 2 ^ 31 → fromStrField s = (true, (numVal s : Int)) := by
    intro s hne hd hl
    have hlen := List.length_pos_iff.2 hne
    have : readInt s = some (false, numVal s) := by
      have hx := readDigits_append 0 false s [] hd (by simp)
      exact readInt_padded (w := s.length) (by omega) ⟨le_refl _, hd, rfl, fun h => absurd h (by omega)⟩
    exact field_padded (w := s.length) (by omega) hl ⟨le_refl _, hd, rfl, fun h => absurd h (by omega)⟩
  unfold fromStr
  rw [hs]
  simp only [pad a ha.1 ha.2 la, pad b hb.1 hb.2 lb, pad c hc.1 hc.2 lc, Bool.and_self]

/-- **C93.** Every date without negative fields survives being written and read, whatever was in the variable. -/
theorem C93_round_trip_partial (d v : Date) (hy : Spec.IsInt d.year) (hm : Spec.IsInt d.month) (hd : Spec.IsInt d.day)
    (py : 0 ≤ d.year) (pm : 0 ≤ d.month) (pd : 0 ≤ d.day) : fromStr (toStr d) v = (true, d) := by
  obtain ⟨y, m, dd⟩ := d
  simp only at *
  obtain ⟨y, rfl⟩ := Int.eq_ofNat_of_zero_le py
  obtain ⟨m, rfl⟩ := Int.eq_ofNat_of_zero_le pm
  obtain ⟨dd, rfl⟩ := Int.eq_ofNat_of_zero_le pd
  have f1 := C93_field 4 (by omega) y
  have f2 := C93_field 2 (by omega) m
  have f3 := C93_field 2 (by omega) dd
  have ne : ∀ {w n : Nat} {s : Str}, 1 ≤ w → Spec.Padded w n s → s ≠ [] := by
    rintro w n s hw ⟨h1, _⟩ rfl; simp at h1; omega
  have := C93_read (g0 := []) (g1 := ['-']) (g2 := ['-']) (g3 := []) (by simp) (by simp) (by simp) (by simp) (by simp) (by simp)
    ⟨ne (by omega) f1, f1.2.1⟩ ⟨ne (by omega) f2, f2.2.1⟩ ⟨ne (by omega) f3, f3.2.1⟩
    (by rw [f1.2.2.1]; have := hy.2; omega) (by rw [f2.2.2.1]; have := hm.2; omega) (by rw [f3.2.2.1]; have := hd.2; omega) v
  rw [f1.2.2.1, f2.2.2.1, f3.2.2.1] at this
  simpa [toStr] using this

example : toStr ⟨2024, 2, 9⟩ = "2024-02-09".toList ∧ fromStr "9/2.2024".toList {} = (true, ⟨9, 2, 2024⟩) := by decide +kernel

/-- **C93 is violated by years before 0**: the sign is taken for a separator, and the year is read as positive. -/
theorem C93_negative_violated (y m d : Nat) (hy : 0 < y) (hy2 : y < 2 ^ 31) (hm : m < 2 ^ 31) (hd : d < 2 ^ 31) (v : Date) :
    fromStr (toStr ⟨-(y : Int), m, d⟩) v = (true, ⟨y, m, d⟩) := by
  have e : padZero 4 (-(y : Int)) = '-' :: padZero 3 (y : Int) := by
    unfold padZero; rw [if_pos (by omega), if_neg (by omega)]; simp
  have f1 := C93_field 3 (by omega) y
  have f2 := C93_field 2 (by omega) m
  have f3 := C93_field 2 (by omega) d
  have ne : ∀ {w n : Nat} {s : Str}, 1 ≤ w → Spec.Padded w n s → s ≠ [] := by
    rintro w n s hw ⟨h1, _⟩ rfl; simp at h1; omega
  have := C93_read (g0 := ['-']) (g1 := ['-']) (g2 := ['-']) (g3 := []) (by simp) (by simp) (by simp) (by simp) (by simp) (by simp)
    ⟨ne (by omega) f1, f1.2.1⟩ ⟨ne (by omega) f2, f2.2.1⟩ ⟨ne (by omega) f3, f3.2.1⟩
    (by rw [f1.2.2.1]; exact hy2) (by rw [f2.2.2.1]; exact hm) (by rw [f3.2.2.1]; exact hd) v
  rw [f1.2.2.1, f2.2.2.1, f3.2.2.1] at this
  simpa [toStr, e] using this

/-- **C93.** A text with fewer or more than three parts is refused, and the variable keeps its value. -/
theorem C93_refused (s : Str) (v : Date) (ps : List Str) (h : Splits ['-', '.', '/'] s ps) (hl : ps.length ≠ 3) : fromStr s v = (false, v) := by
  have : splitStr s "-./".toList = ps := C25_split_unique s _ ps (by rw [seps]; exact h)
  unfold fromStr
  rw [this]
  match ps, hl with
  | [], _ => rfl
  | [_], _ => rfl
  | [_, _], _ => rfl
  | [_, _, _], h => exact absurd rfl h
  | _ :: _ :: _ :: _ :: _, _ => rfl

/-- A part that begins, behind white space, with something else than a digit or a sign. -/
def Spec.NoNumber (s : Str) : Prop := ∃ (ws : Str) (c : Char) (r : Str), s = ws ++ c :: r ∧ (∀ x ∈ ws, isSpaceC x = true) ∧
  isSpaceC c = false ∧ isDigitC c = false ∧ c ≠ '-' ∧ c ≠ '+'

theorem field_noNumber {s : Str} (h : Spec.NoNumber s) : fromStrField s = (false, 0) := by
  obtain ⟨ws, c, r, rfl, hw, hs, hd, hm, hp⟩ := h
  have h1 : (ws ++ c :: r).dropWhile isSpaceC = c :: r := dropWhile_skip hw (by intro x hx; cases hx; exact hs)
  have h2 : readInt (ws ++ c :: r) = none := by
    have h3 : signSplit (c :: r) = (false, c :: r) := by
      unfold signSplit
      split
      · rename_i h3; cases h3; exact absurd rfl hm
      · rename_i h3; cases h3; exact absurd rfl hp
      · rfl
    rw [readInt_eq, h1, readSigned, h3]
    simp [readDigits, hd]
  simp [fromStrField, fromStrInt, strtol, h2]

/-- **C93.** A text with three parts, one of which is no number, is refused. -/
theorem C93_no_number (s : Str) (v : Date) (a b c : Str) (h : Splits ['-', '.', '/'] s [a, b, c])
    (hn : Spec.NoNumber a ∨ Spec.NoNumber b ∨ Spec.NoNumber c) : (fromStr s v).1 = false := by
  have : splitStr s "-./".toList = [a, b, c] := C25_split_unique s _ _ (by rw [seps]; exact h)
  unfold fromStr
  rw [this]
  rcases hn with h | h | h <;> simp [field_noNumber h]

example : Splits ['-', '.', '/'] "9-2-x24".toList ["9".toList, "2".toList, "x24".toList] ∧ Spec.NoNumber "x24".toList := by
  refine ⟨?_, [], 'x', ['2', '4'], rfl, by simp, by decide, by decide, by decide, by decide⟩
  have : splitStr "9-2-x24".toList "-./".toList = ["9".toList, "2".toList, "x24".toList] := by decide +kernel
  rw [← this, ← seps]
  exact C25_split _ _

/-- A text with three parts, one of which is no number, is refused, but the variable is changed. -/
theorem C93_garbled_violated : fromStr "2024-Feb-09".toList ⟨1, 1, 1⟩ = (false, ⟨2024, 0, 9⟩) := by decide +kernel

/-! ## Order -/

theorem numVal_cons (c : Char) (s : Str) (hc : isDigitC c = true) (hs : ∀ x ∈ s, isDigitC x = true) :
    numVal (c :: s) = (c.toNat - 48) * 10 ^ s.length + numVal s := by
  have h : ∀ x ∈ [c] ++ s, isDigitC x = true := by
    intro x hx
    rcases List.mem_append.1 hx with hx | hx
    · rw [List.mem_singleton.1 hx]; exact hc
    · exact hs x hx
  have h1 := digsVal_append 10 [c] s
  rw [digsVal_numVal h, digsVal_numVal hs, digsVal_numVal (ds := [c]) (by intro x hx; rw [List.mem_singleton.1 hx]; exact hc)] at h1
  have h2 : numVal [c] = c.toNat - 48 := by simp [numVal]
  rw [h2] at h1
  exact h1

theorem numVal_lt (s : Str) (hs : ∀ x ∈ s, isDigitC x = true) : numVal s < 10 ^ s.length := by
  induction s with
  | nil => simp [numVal]
  | cons c s ih =>
    have hc := hs c (by simp)
    have hs' : ∀ x ∈ s, isDigitC x = true := fun x hx => hs x (by simp [hx])
    rw [numVal_cons c s hc hs']
    have := ih hs'
    simp only [isDigitC, Bool.and_eq_true, decide_eq_true_eq] at hc
    have h9 : (c.toNat - 48) * 10 ^ s.length ≤ 9 * 10 ^ s.length := Nat.mul_le_mul_right _ (by omega)
    rw [List.length_cons, Nat.pow_succ]; omega

theorem char_lt (a b : Char) : a < b ↔ a.toNat < b.toNat := by
  rw [Char.lt_def, UInt32.lt_iff_toNat_lt]; rfl

/-- Texts of digits with the same length are ordered as their values, whatever follows. -/
theorem lex_digits : ∀ (a b r t : Str), a.length = b.length → (∀ x ∈ a, isDigitC x = true) → (∀ x ∈ b, isDigitC x = true) →
    (List.Lex (· < ·) (a ++ r) (b ++ t) ↔ numVal a < numVal b ∨ numVal a = numVal b ∧ List.Lex (· < ·) r t) := by
  intro a
  induction a with
  | nil =>
    intro b r t hl _ _
    have : b = [] := List.eq_nil_of_length_eq_zero hl.symm
    subst this; simp
  | cons x a ih =>
    intro b r t hl ha hb
    cases b with
    | nil => simp at hl
    | cons y b =>
      have hl' : a.length = b.length := by simpa using hl
      have ha' : ∀ x ∈ a, isDigitC x = true := fun z hz => ha z (by simp [hz])
      have hb' : ∀ x ∈ b, isDigitC x = true := fun z hz => hb z (by simp [hz])
      have hx := ha x (by simp)
      have hy := hb y (by simp)
      rw [List.cons_append, List.cons_append, List.cons_lex_cons_iff, ih b r t hl' ha' hb', numVal_cons x a hx ha', numVal_cons y b hy hb',
        char_lt, hl']
      have la := numVal_lt a ha'
      have lb := numVal_lt b hb'
      rw [hl'] at la
      simp only [isDigitC, Bool.and_eq_true, decide_eq_true_eq] at hx hy
      generalize 10 ^ b.length = P at *
      constructor
      · rintro (h | ⟨rfl, h⟩)
        · left
          have : (x.toNat - 48 + 1) * P ≤ (y.toNat - 48) * P := Nat.mul_le_mul_right _ (by omega)
          rw [Nat.add_mul] at this; omega
        · rcases h with h | ⟨h, h2⟩
          · left; omega
          · right; exact ⟨by omega, h2⟩
      · intro h
        have hxy : x.toNat ≤ y.toNat := by
          by_contra hlt
          have : (y.toNat - 48 + 1) * P ≤ (x.toNat - 48) * P := Nat.mul_le_mul_right _ (by omega)
          rw [Nat.add_mul] at this
          rcases h with h | ⟨h, _⟩ <;> omega
        by_cases he : x.toNat = y.toNat
        · right
          have hxe : x = y := by rw [← Char.ofNat_toNat x, he, Char.ofNat_toNat]
          subst hxe
          refine ⟨rfl, ?_⟩
          rcases h with h | ⟨h, h2⟩
          · left; omega
          · right; exact ⟨by omega, h2⟩
        · left; omega

theorem padded_length {w n : Nat} {s : Str} (hw : 1 ≤ w) (hn : n < 10 ^ w) (h : Spec.Padded w n s) : s.length = w := by
  obtain ⟨h1, h2, h3, h4⟩ := h
  by_contra hne
  have hlt : w < s.length := by omega
  cases s with
  | nil => simp at hlt
  | cons c s =>
    have hc := h2 c (by simp)
    have hs : ∀ x ∈ s, isDigitC x = true := fun x hx => h2 x (by simp [hx])
    rw [numVal_cons c s hc hs] at h3
    have hc0 : c.toNat ≠ 48 := by
      intro e
      apply h4 hlt
      rw [List.head?_cons, ← Char.ofNat_toNat c, e]
    simp only [isDigitC, Bool.and_eq_true, decide_eq_true_eq] at hc
    have h5 : 10 ^ w ≤ 10 ^ s.length := Nat.pow_le_pow_right (by omega) (by simp at hlt; omega)
    have h6 : 1 * 10 ^ s.length ≤ (c.toNat - 48) * 10 ^ s.length := Nat.mul_le_mul_right _ (by omega)
    omega

/-- A date whose fields have the usual number of digits. -/
def Usual (d : Date) : Prop := (0 ≤ d.year ∧ d.year < 10000) ∧ (0 ≤ d.month ∧ d.month < 100) ∧ (0 ≤ d.day ∧ d.day < 100)

/-- **C93.** Dates with years below 10000 come in the order of their texts, so that sorting texts sorts dates. -/
theorem C93_order_partial (a b : Date) (ha : Usual a) (hb : Usual b) : List.Lex (· < ·) (toStr a) (toStr b) ↔ Spec.before a b := by
  obtain ⟨ya, ma, da⟩ := a
  obtain ⟨yb, mb, db⟩ := b
  obtain ⟨⟨a1, a2⟩, ⟨a3, a4⟩, ⟨a5, a6⟩⟩ := ha
  obtain ⟨⟨b1, b2⟩, ⟨b3, b4⟩, ⟨b5, b6⟩⟩ := hb
  simp only at *
  obtain ⟨ya, rfl⟩ := Int.eq_ofNat_of_zero_le a1
  obtain ⟨ma, rfl⟩ := Int.eq_ofNat_of_zero_le a3
  obtain ⟨da, rfl⟩ := Int.eq_ofNat_of_zero_le a5
  obtain ⟨yb, rfl⟩ := Int.eq_ofNat_of_zero_le b1
  obtain ⟨mb, rfl⟩ := Int.eq_ofNat_of_zero_le b3
  obtain ⟨db, rfl⟩ := Int.eq_ofNat_of_zero_le b5
  have f1 := C93_field 4 (by omega) ya
  have f2 := C93_field 2 (by omega) ma
  have f3 := C93_field 2 (by omega) da
  have g1 := C93_field 4 (by omega) yb
  have g2 := C93_field 2 (by omega) mb
  have g3 := C93_field 2 (by omega) db
  have l1 : (padZero 4 (ya : Int)).length = (padZero 4 (yb : Int)).length := by
    rw [padded_length (by omega) (by omega) f1, padded_length (by omega) (by omega) g1]
  have l2 : (padZero 2 (ma : Int)).length = (padZero 2 (mb : Int)).length := by
    rw [padded_length (by omega) (by omega) f2, padded_length (by omega) (by omega) g2]
  have l3 : (padZero 2 (da : Int)).length = (padZero 2 (db : Int)).length := by
    rw [padded_length (by omega) (by omega) f3, padded_length (by omega) (by omega) g3]
  have irr : ¬ ('-' : Char) < '-' := by decide
  have last := lex_digits _ _ [] [] l3 f3.2.1 g3.2.1
  rw [List.append_nil, List.append_nil] at last
  simp only [toStr, List.append_assoc, List.cons_append]
  rw [lex_digits _ _ _ _ l1 f1.2.1 g1.2.1, List.cons_lex_cons_iff, lex_digits _ _ _ _ l2 f2.2.1 g2.2.1, List.cons_lex_cons_iff, last,
    f1.2.2.1, f2.2.2.1, f3.2.2.1, g1.2.2.1, g2.2.2.1, g3.2.2.1]
  have hn : ¬ List.Lex (fun a b : Char => a < b) [] [] := by intro h; cases h
  simp only [irr, false_or, true_and, hn, and_false, or_false, Spec.before]
  omega

/-- **C93's order is violated by the year 10000**: it comes before the year 9999. -/
theorem C93_order_violated : List.Lex (· < ·) (toStr ⟨10000, 1, 1⟩) (toStr ⟨9999, 1, 1⟩) := by
  have h1 : toStr ⟨10000, 1, 1⟩ = "10000-01-01".toList := by decide +kernel
  have h2 : toStr ⟨9999, 1, 1⟩ = "9999-01-01".toList := by decide +kernel
  rw [h1, h2]; exact List.Lex.rel (by decide)

example : Usual ⟨2024, 2, 9⟩ ∧ Usual ⟨2024, 11, 1⟩ ∧ Spec.before ⟨2024, 2, 9⟩ ⟨2024, 11, 1⟩ := by
  simp [Usual, Spec.before]

end Xo.DateText
