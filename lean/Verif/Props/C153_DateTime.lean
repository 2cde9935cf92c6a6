import Verif.Model.DateTime
import Mathlib.Tactic.Linarith
import Mathlib.Tactic.NormNum
import Mathlib.Tactic.Tauto

/-!
C153: dates with a time of day are compared by time.
-/
namespace Xo.DateTime

namespace Spec

/-- A date and a time of day: month from zero, day from one. -/
structure Valid (d : Stamp) : Prop where
  month : 0 ≤ d.month ∧ d.month ≤ 11
  day : 1 ≤ d.day ∧ d.day ≤ 31
  hour : 0 ≤ d.hour ∧ d.hour ≤ 23
  minute : 0 ≤ d.minute ∧ d.minute ≤ 59
  second : 0 ≤ d.second ∧ d.second ≤ 59
  millisecond : 0 ≤ d.millisecond ∧ d.millisecond ≤ 999

/-- The first field in which two lists differ decides. -/
def before : List Int → List Int → Prop
  | x :: xs, y :: ys => x < y ∨ x = y ∧ before xs ys
  | _, _ => False

/-- One moment is earlier than another. -/
def Earlier (a b : Stamp) : Prop :=
  before [a.year, a.month, a.day, a.hour, a.minute, a.second, a.millisecond] [b.year, b.month, b.day, b.hour, b.minute, b.second, b.millisecond]

/-- The years whose milliseconds fit (574 million). -/
def lastYear : Int := 573935426

end Spec
open Spec

/-- Two digits: the higher one decides first. -/
theorem digits {r h l h' l' : Int} (hr : 0 < r) (l0 : 0 ≤ l) (l1 : l < r) (l0' : 0 ≤ l') (l1' : l' < r) : h * r + l < h' * r + l' ↔ h < h' ∨ h = h' ∧ l < l' := by
  constructor
  · intro hlt
    rcases lt_trichotomy h h' with g | g | g
    · exact .inl g
    · subst g
      exact .inr ⟨rfl, by omega⟩
    · exfalso
      have : (h' + 1) * r ≤ h * r := mul_le_mul_of_nonneg_right (by omega) hr.le
      rw [add_mul, one_mul] at this
      omega
  · rintro (g | ⟨rfl, g⟩)
    · have : (h + 1) * r ≤ h' * r := mul_le_mul_of_nonneg_right (by omega) hr.le
      rw [add_mul, one_mul] at this
      omega
    · omega

/-- The milliseconds of a date, without wrapping. -/
def millis (d : Stamp) : Int := (((((d.year * 12 + d.month) * 31 + (d.day - 1)) * 24 + d.hour) * 60 + d.minute) * 60 + d.second) * 1000 + d.millisecond

/-- The same with further digits. -/
theorem level {r h l h' l' : Int} {R : Prop} (hr : 0 < r) (l0 : 0 ≤ l) (l1 : l < r) (l0' : 0 ≤ l') (l1' : l' < r) :
    (h * r + l < h' * r + l' ∨ h * r + l = h' * r + l' ∧ R) ↔ h < h' ∨ h = h' ∧ (l < l' ∨ l = l' ∧ R) := by
  have p := digits (h := h) (h' := h') hr l0 l1 l0' l1'
  have q := digits (h := h') (h' := h) hr l0' l1' l0 l1
  have e : h * r + l = h' * r + l' ↔ h = h' ∧ l = l' := by
    constructor
    · intro e
      have np := mt p.2 (by omega)
      have nq := mt q.2 (by omega)
      have e1 : h = h' := by omega
      exact ⟨e1, by omega⟩
    · rintro ⟨rfl, rfl⟩
      rfl
  rw [p, e]
  tauto

theorem millis_less {a b : Stamp} (ha : Valid a) (hb : Valid b) : millis a < millis b ↔ Earlier a b := by
  obtain ⟨ha1, ha2, ha3, ha4, ha5, ha6⟩ := ha
  obtain ⟨hb1, hb2, hb3, hb4, hb5, hb6⟩ := hb
  unfold millis Earlier
  simp only [before, and_false, or_false]
  rw [digits (by norm_num) (by omega) (by omega) (by omega) (by omega), level (by norm_num) (by omega) (by omega) (by omega) (by omega),
    level (by norm_num) (by omega) (by omega) (by omega) (by omega), level (by norm_num) (by omega) (by omega) (by omega) (by omega),
    level (by norm_num) (by omega) (by omega) (by omega) (by omega), level (by norm_num) (by omega) (by omega) (by omega) (by omega)]
  have e1 : a.day - 1 < b.day - 1 ↔ a.day < b.day := by omega
  have e2 : a.day - 1 = b.day - 1 ↔ a.day = b.day := by omega
  rw [e1, e2]

theorem stamp_eq {d : Stamp} (h : Valid d) : (timestamp d : Int) = millis d % 2 ^ 64 := by
  have h1 := h.month; have h2 := h.day; have h3 := h.hour; have h4 := h.minute; have h5 := h.second; have h6 := h.millisecond
  unfold timestamp millis u64
  push_cast
  rw [Int.toNat_of_nonneg (Int.emod_nonneg _ (by norm_num)), Int.toNat_of_nonneg (Int.emod_nonneg _ (by norm_num)), Int.toNat_of_nonneg (Int.emod_nonneg _ (by norm_num)),
    Int.toNat_of_nonneg (Int.emod_nonneg _ (by norm_num)), Int.toNat_of_nonneg (Int.emod_nonneg _ (by norm_num)), Int.toNat_of_nonneg (Int.emod_nonneg _ (by norm_num)),
    Int.toNat_of_nonneg (Int.emod_nonneg _ (by norm_num))]
  omega

/-- **C153, years from zero on.** The comparison puts the earlier moment first. -/
theorem C153_order_partial {a b : Stamp} (ha : Valid a) (hb : Valid b) (ya : 0 ≤ a.year ∧ a.year ≤ lastYear) (yb : 0 ≤ b.year ∧ b.year ≤ lastYear) : less a b = true ↔ Earlier a b := by
  have h1 := ha.month; have h2 := ha.day; have h3 := ha.hour; have h4 := ha.minute; have h5 := ha.second; have h6 := ha.millisecond
  have g1 := hb.month; have g2 := hb.day; have g3 := hb.hour; have g4 := hb.minute; have g5 := hb.second; have g6 := hb.millisecond
  have ea := stamp_eq ha
  have eb := stamp_eq hb
  unfold lastYear at ya yb
  have ma : 0 ≤ millis a ∧ millis a < 2 ^ 64 := by unfold millis; omega
  have mb : 0 ≤ millis b ∧ millis b < 2 ^ 64 := by unfold millis; omega
  rw [← millis_less ha hb]
  unfold less
  rw [decide_eq_true_iff]
  omega

/-- **C153, years before zero.** Among themselves they are in order too. -/
theorem C153_before_zero_partial {a b : Stamp} (ha : Valid a) (hb : Valid b) (ya : -lastYear ≤ a.year ∧ a.year < 0) (yb : -lastYear ≤ b.year ∧ b.year < 0) : less a b = true ↔ Earlier a b := by
  have h1 := ha.month; have h2 := ha.day; have h3 := ha.hour; have h4 := ha.minute; have h5 := ha.second; have h6 := ha.millisecond
  have g1 := hb.month; have g2 := hb.day; have g3 := hb.hour; have g4 := hb.minute; have g5 := hb.second; have g6 := hb.millisecond
  have ea := stamp_eq ha
  have eb := stamp_eq hb
  unfold lastYear at ya yb
  have ma : -2 ^ 64 ≤ millis a ∧ millis a < 0 := by unfold millis; omega
  have mb : -2 ^ 64 ≤ millis b ∧ millis b < 0 := by unfold millis; omega
  rw [← millis_less ha hb]
  unfold less
  rw [decide_eq_true_iff]
  omega

/-- **C153, different moments have different time stamps** (years from zero on). -/
theorem C153_distinct_partial {a b : Stamp} (ha : Valid a) (hb : Valid b) (ya : 0 ≤ a.year ∧ a.year ≤ lastYear) (yb : 0 ≤ b.year ∧ b.year ≤ lastYear) (e : timestamp a = timestamp b) : a = b := by
  have p := mt (C153_order_partial ha hb ya yb).2 (by simp [less, e])
  have q := mt (C153_order_partial hb ha yb ya).2 (by simp [less, e])
  obtain ⟨y, mo, d, h, mi, s, ms⟩ := a
  obtain ⟨y', mo', d', h', mi', s', ms'⟩ := b
  simp only [Earlier, before, and_false, or_false] at p q
  have e1 : y = y' := by omega
  have e2 : mo = mo' := by omega
  have e3 : d = d' := by omega
  have e4 : h = h' := by omega
  have e5 : mi = mi' := by omega
  have e6 : s = s' := by omega
  have e7 : ms = ms' := by omega
  rw [e1, e2, e3, e4, e5, e6, e7]

/-- **C153, violated.** Every moment before the year zero counts as later than every moment from the year zero on. -/
theorem C153_zero_violated {a b : Stamp} (ha : Valid a) (hb : Valid b) (ya : -1000000 ≤ a.year ∧ a.year < 0) (yb : 0 ≤ b.year ∧ b.year ≤ 1000000) : Earlier a b ∧ less a b = false ∧ less b a = true := by
  have h1 := ha.month; have h2 := ha.day; have h3 := ha.hour; have h4 := ha.minute; have h5 := ha.second; have h6 := ha.millisecond
  have g1 := hb.month; have g2 := hb.day; have g3 := hb.hour; have g4 := hb.minute; have g5 := hb.second; have g6 := hb.millisecond
  have ea := stamp_eq ha
  have eb := stamp_eq hb
  have ma : -40000000000000000 ≤ millis a ∧ millis a < 0 := by unfold millis; omega
  have mb : 0 ≤ millis b ∧ millis b < 40000000000000000 := by unfold millis; omega
  refine ⟨.inl (by omega), ?_, ?_⟩
  · unfold less
    rw [decide_eq_false_iff_not]
    omega
  · unfold less
    rw [decide_eq_true_iff]
    omega

/-- **C153, a date with the initial day, violated.** The day is zero then; the time stamp of the first of January of the year zero is larger than that of the same date with the day one. -/
theorem C153_default_violated : less ⟨0, 0, Bnd.default, 0, 0, 0, 0⟩ ⟨0, 0, 1, 0, 0, 0, 0⟩ = false := by decide +kernel

example : less ⟨2024, 1, 29, 23, 59, 59, 999⟩ ⟨2024, 2, 1, 0, 0, 0, 0⟩ = true :=
  (C153_order_partial ⟨by decide, by decide, by decide, by decide, by decide, by decide⟩ ⟨by decide, by decide, by decide, by decide, by decide, by decide⟩ (by decide) (by decide)).2 (by
    refine .inr ⟨rfl, .inl (by decide)⟩)

end Xo.DateTime
