import Verif.Model.Ticks
import Verif.Props.C48_Integers
import Mathlib.Tactic.Linarith
import Mathlib.Tactic.Positivity

/-!
C114: timers that count ticks.
-/
namespace Xo.Tick

namespace Spec

/-- `ns` nanoseconds are `ticks` ticks of a clock, rounded down. -/
def RoundedDown (freq : Nat) (ticks ns : Int) : Prop := ns * freq ≤ ticks * 1000000000 ∧ ticks * 1000000000 < (ns + 1) * freq

/-- `ticks` ticks are `ns` nanoseconds, rounded down. -/
def TicksDown (freq : Nat) (ns ticks : Int) : Prop := ticks * 1000000000 ≤ ns * freq ∧ ns * freq < (ticks + 1) * 1000000000

/-- The numbers of ticks that can be converted: until the product with the reduced factor is no number of 64 bits any more. -/
def Fits (freq : Nat) (ticks : Int) : Prop := -2 ^ 63 ≤ ticks * (1000000000 / Nat.gcd 1000000000 freq : Nat) ∧
  ticks * (1000000000 / Nat.gcd 1000000000 freq : Nat) < 2 ^ 63

end Spec
open _root_.Xo.Tick.Spec

theorem gcd_eq (p q : Nat) : Math.gcdUnsigned p q = Nat.gcd p q := by
  have := C48_gcd_unsigned p q
  exact Nat.dvd_antisymm (Nat.dvd_gcd this.1 this.2.1) (this.2.2 _ (Nat.gcd_dvd_left p q) (Nat.gcd_dvd_right p q))

/-- The factor is the reduced fraction. -/
theorem factor_spec (freq : Nat) (hf : 0 < freq) : ∃ g : Nat, 0 < g ∧ g = Nat.gcd 1000000000 freq ∧ (factor freq).1 * g = 1000000000 ∧
    (factor freq).2 * g = freq ∧ 0 < (factor freq).1 ∧ 0 < (factor freq).2 ∧ (factor freq).1 = (1000000000 / Nat.gcd 1000000000 freq : Nat) := by
  have hg : 0 < Nat.gcd 1000000000 freq := Nat.gcd_pos_of_pos_right _ hf
  have h1 : 1000000000 / Nat.gcd 1000000000 freq * Nat.gcd 1000000000 freq = 1000000000 := Nat.div_mul_cancel (Nat.gcd_dvd_left _ _)
  have h2 : freq / Nat.gcd 1000000000 freq * Nat.gcd 1000000000 freq = freq := Nat.div_mul_cancel (Nat.gcd_dvd_right _ _)
  have p1 : 0 < 1000000000 / Nat.gcd 1000000000 freq := by
    rcases Nat.eq_zero_or_pos (1000000000 / Nat.gcd 1000000000 freq) with h | h
    · rw [h] at h1; omega
    · exact h
  have p2 : 0 < freq / Nat.gcd 1000000000 freq := by
    rcases Nat.eq_zero_or_pos (freq / Nat.gcd 1000000000 freq) with h | h
    · rw [h] at h2; omega
    · exact h
  refine ⟨_, hg, rfl, ?_, ?_, ?_, ?_, ?_⟩
  · simp only [factor, gcd_eq]; exact_mod_cast h1
  · simp only [factor, gcd_eq]; exact_mod_cast h2
  · simp only [factor, gcd_eq]; exact_mod_cast p1
  · simp only [factor, gcd_eq]; exact_mod_cast p2
  · simp only [factor, gcd_eq]

/-- Rounding down a quotient of numbers that are not negative. -/
theorem tdiv_spec (a b : Int) (ha : 0 ≤ a) (hb : 0 < b) : a.tdiv b * b ≤ a ∧ a < (a.tdiv b + 1) * b ∧ 0 ≤ a.tdiv b := by
  rw [Int.tdiv_eq_ediv_of_nonneg ha]
  have h1 := Int.mul_ediv_add_emod a b
  have h2 := Int.emod_nonneg a (by omega : b ≠ 0)
  have h3 := Int.emod_lt_of_pos a hb
  refine ⟨by nlinarith, by nlinarith, Int.ediv_nonneg ha hb.le⟩

/-- **C114, time from ticks (partial).** As long as the product fits into 64 bits: the time is the number of ticks, in nanoseconds, rounded down. -/
theorem C114_time_partial (freq : Nat) (hf : 0 < freq) (ticks : Int) (h0 : 0 ≤ ticks) (h : Fits freq ticks) :
    ∃ ns, timeFromTicks freq ticks = .ok ns ∧ RoundedDown freq ticks ns := by
  obtain ⟨g, hg, _, h1, h2, p1, p2, h3⟩ := factor_spec freq hf
  have hok : ok64 (ticks * (factor freq).1) := by rw [h3]; exact h
  refine ⟨(ticks * (factor freq).1).tdiv (factor freq).2, by simp only [timeFromTicks, mul, if_pos hok, Res.bind], ?_⟩
  obtain ⟨a, b, c⟩ := tdiv_spec (ticks * (factor freq).1) (factor freq).2 (by positivity) p2
  generalize (ticks * (factor freq).1).tdiv (factor freq).2 = n at a b c ⊢
  have hg' : (0 : Int) < g := by exact_mod_cast hg
  refine ⟨?_, ?_⟩
  · rw [← h1, ← h2]; nlinarith
  · rw [← h1, ← h2]; nlinarith

/-- **C114, violated.** Beyond that the behaviour is undefined, for every frequency for which the ticks are no whole numbers of nanoseconds also when the time
itself is far from the limit. -/
theorem C114_overflow_violated (freq : Nat) (ticks : Int) (h : ¬ Fits freq ticks) : timeFromTicks freq ticks = .ub := by
  have : ¬ ok64 (ticks * (factor freq).1) := by simp only [factor, gcd_eq]; exact h
  simp only [timeFromTicks, mul, if_neg this, Res.bind]

/-- A counter with 3.579545 MHz (a usual frequency of Windows systems): undefined after less than four hours. -/
example : timeFromTicks 3579545 (3579545 * 4 * 3600) = .ub := by decide +kernel
/-- With 10 MHz: a hundred years are fine. -/
example : timeFromTicks 10000000 (10000000 * 3600 * 24 * 36525) = .ok (1000000000 * 3600 * 24 * 36525) := by decide +kernel

/-- When the frequency has no factor in common with 10, undefined as soon as there were 2^63 / 10^9 ticks: at f Hz, after 9223372037 / f seconds. -/
theorem C114_overflow_soon_violated (freq : Nat) (hc : Nat.Coprime 10 freq) (ticks : Int) (h : 9223372037 ≤ ticks) : timeFromTicks freq ticks = .ub := by
  refine C114_overflow_violated freq ticks ?_
  have : Nat.gcd 1000000000 freq = 1 := Nat.Coprime.pow_left 9 hc
  rintro ⟨_, h2⟩
  rw [this] at h2
  norm_num at h2
  omega

/-- More ticks are no less time. -/
theorem C114_monotone (freq : Nat) (hf : 0 < freq) (a b x y : Int) (h0 : 0 ≤ a) (h : a ≤ b) (ha : timeFromTicks freq a = .ok x)
    (hb : timeFromTicks freq b = .ok y) : x ≤ y := by
  have fits : ∀ t z, timeFromTicks freq t = .ok z → Fits freq t := by
    intro t z e
    by_contra hn
    rw [C114_overflow_violated freq t hn] at e
    cases e
  obtain ⟨x', hx, r1⟩ := C114_time_partial freq hf a h0 (fits a x ha)
  obtain ⟨y', hy, r2⟩ := C114_time_partial freq hf b (by omega) (fits b y hb)
  rw [ha] at hx; rw [hb] at hy
  cases hx; cases hy
  by_contra hn
  have hf' : (0 : Int) < freq := by exact_mod_cast hf
  have : (y + 1) * freq ≤ x * freq := by nlinarith
  have := r1.1; have := r2.2
  omega

/-- **C114, ticks from time (partial).** -/
theorem C114_ticks_partial (freq : Nat) (hf : 0 < freq) (ns : Int) (h0 : 0 ≤ ns) (h : ns * (freq / Nat.gcd 1000000000 freq : Nat) < 2 ^ 63) :
    ∃ ticks, ticksFromTime freq ns = .ok ticks ∧ TicksDown freq ns ticks ∧ 0 ≤ ticks := by
  obtain ⟨g, hg, _, h1, h2, p1, p2, h3⟩ := factor_spec freq hf
  have e : (factor freq).2 = (freq / Nat.gcd 1000000000 freq : Nat) := by simp only [factor, gcd_eq]
  have hp : 0 ≤ ns * (factor freq).2 := by positivity
  have hok : ok64 (ns * (factor freq).2) := by rw [e]; rw [e] at hp; exact ⟨by omega, h⟩
  refine ⟨(ns * (factor freq).2).tdiv (factor freq).1, by simp only [ticksFromTime, mul, if_pos hok, Res.bind], ?_⟩
  obtain ⟨a, b, c⟩ := tdiv_spec (ns * (factor freq).2) (factor freq).1 hp p1
  generalize (ns * (factor freq).2).tdiv (factor freq).1 = n at a b c ⊢
  have hg' : (0 : Int) < g := by exact_mod_cast hg
  refine ⟨⟨?_, ?_⟩, c⟩
  · rw [← h1, ← h2]; nlinarith
  · rw [← h1, ← h2]; nlinarith

/-- **C114, there and back.** Ticks that are converted into a time and back lose less than two ticks at up to a billion ticks per second, and never gain. -/
theorem C114_round_trip (freq : Nat) (hf : 0 < freq) (ticks ns back : Int) (h0 : 0 ≤ ticks) (h1 : timeFromTicks freq ticks = .ok ns)
    (h2 : ticksFromTime freq ns = .ok back) (hle : freq ≤ 1000000000) : back ≤ ticks ∧ ticks ≤ back + 1 := by
  have hfit : Fits freq ticks := by
    by_contra hn
    rw [C114_overflow_violated freq ticks hn] at h1
    cases h1
  obtain ⟨n, hn, r⟩ := C114_time_partial freq hf ticks h0 hfit
  rw [h1] at hn; cases hn
  obtain ⟨g, hg, _, f1, f2, p1, p2, f3⟩ := factor_spec freq hf
  have hf' : (0 : Int) < freq := by exact_mod_cast hf
  have hns : 0 ≤ ns := by
    by_contra hneg
    have : (ns + 1) * (freq : Int) ≤ 0 := by nlinarith
    have := r.2
    have : 0 ≤ ticks * 1000000000 := by positivity
    omega
  have hok : ok64 (ns * (factor freq).2) := by
    by_contra hno
    simp only [ticksFromTime, mul, if_neg hno, Res.bind] at h2
    cases h2
  have e : (factor freq).2 = (freq / Nat.gcd 1000000000 freq : Nat) := by simp only [factor, gcd_eq]
  obtain ⟨b, hb, r2, _⟩ := C114_ticks_partial freq hf ns hns (by rw [← e]; exact hok.2)
  rw [h2] at hb; cases hb
  have hle' : (freq : Int) ≤ 1000000000 := by exact_mod_cast hle
  have a1 := r.1; have a2 := r.2; have a3 := r2.1; have a4 := r2.2
  constructor
  · by_contra hn
    have : (ticks + 1) * 1000000000 ≤ back * 1000000000 := by nlinarith
    omega
  · by_contra hn
    have : (back + 2) * 1000000000 ≤ ticks * 1000000000 := by nlinarith
    nlinarith

/-- When the ticks are whole numbers of nanoseconds, nothing is lost. -/
theorem C114_exact (freq : Nat) (k : Nat) (hk : freq * k = 1000000000) (ticks : Int) (h : ok64 (ticks * k)) :
    timeFromTicks freq ticks = .ok (ticks * k) ∧ (ok64 ticks → ∀ b, ticksFromTime freq (ticks * k) = .ok b → b = ticks) := by
  have hf : 0 < freq := by
    rcases Nat.eq_zero_or_pos freq with h | h
    · rw [h] at hk; omega
    · exact h
  have hg : Nat.gcd 1000000000 freq = freq := Nat.gcd_eq_right ⟨k, hk.symm⟩
  have e1 : (factor freq).1 = k := by
    simp only [factor, gcd_eq, hg]
    congr 1
    rw [← hk]; exact Nat.mul_div_cancel_left k hf
  have e2 : (factor freq).2 = 1 := by
    simp only [factor, gcd_eq, hg]
    rw [Nat.div_self hf]; rfl
  have hk0 : (k : Int) ≠ 0 := by
    intro h0
    have : k = 0 := by exact_mod_cast h0
    rw [this] at hk; omega
  constructor
  · simp only [timeFromTicks, mul, e1, e2, if_pos h, Res.bind, Int.tdiv_one]
  · intro _ b hb
    simp only [ticksFromTime, mul, e1, e2, Int.mul_one, if_pos h, Res.bind] at hb
    cases hb
    exact Int.mul_tdiv_cancel _ hk0

/-- **C114, a timer that runs (partial).** It shows the time since it was started, rounded down. -/
theorem C114_running_partial (freq : Nat) (hf : 0 < freq) (epoch now : Int) (he : 0 < epoch) (hn : epoch ≤ now) (hn' : now < 2 ^ 63)
    (h : Fits freq (now - epoch)) : ∃ ns, shown freq epoch now = .ok ns ∧ RoundedDown freq (now - epoch) ns := by
  obtain ⟨ns, h1, h2⟩ := C114_time_partial freq hf (now - epoch) (by omega) h
  refine ⟨ns, ?_, h2⟩
  have hok : ok64 (now - epoch) := ⟨by omega, by omega⟩
  have hp : epoch > 0 := he
  simp only [shown, if_pos hp, sub, if_pos hok, Res.bind]
  exact h1

/-- A timer that is stopped shows the time at which it was stopped, whenever one looks. -/
theorem C114_paused (freq : Nat) (epoch now e t : Int) (hn : epoch ≤ now) (h : pause freq epoch now = .ok (e, t)) (later : Int) :
    shown freq e later = .ok t := by
  unfold pause at h
  by_cases h1 : ok64 (now - epoch)
  · by_cases h2 : ok64 (0 - (now - epoch))
    · simp only [sub, if_pos h1, if_pos h2, Res.bind] at h
      cases h3 : timeFromTicks freq (now - epoch) with
      | ok x =>
        rw [h3] at h
        cases h
        have hz : ¬ (0 - (now - epoch)) > 0 := by omega
        have e2 : 0 - (0 - (now - epoch)) = now - epoch := by omega
        simp only [shown, if_neg hz, sub, e2, if_pos h1, Res.bind]
        exact h3
      | err => rw [h3] at h; cases h
      | ub => rw [h3] at h; cases h
    · simp only [sub, if_pos h1, if_neg h2, Res.bind] at h; cases h
  · simp only [sub, if_neg h1, Res.bind] at h; cases h

/-- **C114, violated.** `tick_count` of a timer that runs is the number of ticks since it was started; of a timer that was stopped it is something else, which goes
on growing. -/
theorem C114_tick_count_violated (freq : Nat) (epoch now e t : Int) (hn : epoch ≤ now)
    (h : pause freq epoch now = .ok (e, t)) (later c : Int) (hl : 0 < later) (hc : tickCount e later = .ok c) : c = (now - epoch) + later ∧ c ≠ now - epoch := by
  have he : e = 0 - (now - epoch) := by
    unfold pause at h
    by_cases h1 : ok64 (now - epoch)
    · by_cases h2 : ok64 (0 - (now - epoch))
      · simp only [sub, if_pos h1, if_pos h2, Res.bind] at h
        cases h3 : timeFromTicks freq (now - epoch) with
        | ok x => rw [h3] at h; cases h; rfl
        | err => rw [h3] at h; cases h
        | ub => rw [h3] at h; cases h
      · simp only [sub, if_pos h1, if_neg h2, Res.bind] at h; cases h
    · simp only [sub, if_neg h1, Res.bind] at h; cases h
  subst he
  simp only [tickCount, sub] at hc
  split at hc
  · cases hc; constructor <;> omega
  · cases hc

/-- The ticks of a timer that runs. -/
theorem C114_tick_count (epoch now : Int) (he : 0 < epoch) (hn : epoch ≤ now) (hn' : now < 2 ^ 63) : tickCount epoch now = .ok (now - epoch) := by
  have hok : ok64 (now - epoch) := ⟨by omega, by omega⟩
  simp only [tickCount, sub, if_pos hok]

/-- **C114, set (partial).** A timer that is set and read at once shows the time that was set, or up to one tick (and a nanosecond) less. -/
theorem C114_set_partial (freq : Nat) (hf : 0 < freq) (epoch now ns e x : Int) (h0 : 0 ≤ ns)
    (hs : set freq epoch now ns = .ok e) (he : epoch ≤ 0 ∨ 0 < e) (hx : shown freq e now = .ok x) : x ≤ ns ∧ (ns - x - 1) * freq < 1000000000 := by
  obtain ⟨t, ht⟩ : ∃ t, ticksFromTime freq ns = .ok t := by
    cases h : ticksFromTime freq ns with
    | ok t => exact ⟨t, rfl⟩
    | err => simp only [set, h, Res.bind] at hs; cases hs
    | ub => simp only [set, h, Res.bind] at hs; cases hs
  have e2 : (factor freq).2 = (freq / Nat.gcd 1000000000 freq : Nat) := by simp only [factor, gcd_eq]
  have hok : ok64 (ns * (factor freq).2) := by
    by_contra hno
    simp only [ticksFromTime, mul, if_neg hno, Res.bind] at ht
    cases ht
  obtain ⟨b, hb, r2, hb0⟩ := C114_ticks_partial freq hf ns h0 (by rw [← e2]; exact hok.2)
  rw [ht] at hb; cases hb
  have htime : timeFromTicks freq t = .ok x := by
    simp only [set, ht, Res.bind] at hs
    by_cases hp : epoch > 0
    · rw [if_pos hp] at hs
      simp only [sub] at hs
      split at hs
      · cases hs
        have hpos : now - t > 0 := by rcases he with h | h <;> omega
        have ei : now - (now - t) = t := by omega
        simp only [shown, if_pos hpos, sub, ei] at hx
        split at hx
        · exact hx
        · cases hx
      · cases hs
    · rw [if_neg hp] at hs
      simp only [sub] at hs
      split at hs
      · cases hs
        have hpos : ¬ 0 - t > 0 := by omega
        have ei : 0 - (0 - t) = t := by omega
        simp only [shown, if_neg hpos, sub, ei] at hx
        split at hx
        · exact hx
        · cases hx
      · cases hs
  have hfit : Fits freq t := by
    by_contra hn
    rw [C114_overflow_violated freq t hn] at htime
    cases htime
  obtain ⟨n, hn, r⟩ := C114_time_partial freq hf t hb0 hfit
  rw [htime] at hn; cases hn
  have hf' : (0 : Int) < freq := by exact_mod_cast hf
  have a1 := r.1; have a2 := r.2; have a3 := r2.1; have a4 := r2.2
  constructor
  · by_contra hcon
    have : (ns + 1) * (freq : Int) ≤ x * freq := by nlinarith
    nlinarith
  · nlinarith

/-- **C114, the old timer (partial).** As long as the program has run for less than 2^63 / 10^9 ticks, it shows the time since its creation, to a nanosecond. -/
theorem C114_old_partial (freq : Nat) (hf : 0 < freq) (start created now : Int) (h0 : start ≤ created) (h1 : created ≤ now)
    (h : now - start ≤ 9223372036) : ∃ ns, nanosV1 freq start created now = .ok ns ∧ (ns - 1) * freq < (now - created) * 1000000000 ∧
      (now - created) * 1000000000 < (ns + 1) * freq := by
  have hf' : (0 : Int) < freq := by exact_mod_cast hf
  have key : ∀ t, start ≤ t → t ≤ now → ∃ n, nowV1 freq start t = .ok n ∧ n * freq ≤ (t - start) * 1000000000 ∧
      (t - start) * 1000000000 < (n + 1) * freq ∧ 0 ≤ n ∧ n < 2 ^ 63 := by
    intro t ht ht'
    have k1 : ok64 (t - start) := ⟨by omega, by omega⟩
    have k2 : ok64 ((t - start) * 1000000000) := ⟨by omega, by omega⟩
    obtain ⟨a, b, c⟩ := tdiv_spec ((t - start) * 1000000000) freq (by omega) hf'
    refine ⟨_, by simp only [nowV1, sub, mul, if_pos k1, if_pos k2, Res.bind], a, b, c, ?_⟩
    have := k2.2
    by_contra hcon
    nlinarith
  obtain ⟨b, hb, b1, b2, b3, b4⟩ := key now (by omega) (by omega)
  obtain ⟨a, ha, a1, a2, a3, a4⟩ := key created h0 h1
  have hok : ok64 (b - a) := ⟨by omega, by omega⟩
  exact ⟨b - a, by simp only [nanosV1, hb, ha, Res.bind, sub, if_pos hok], by nlinarith, by nlinarith⟩

/-- **C114, violated.** After that (at 10 MHz, fifteen minutes and a half), undefined. -/
theorem C114_old_violated (freq : Nat) (start created now : Int) (h : 9223372037 ≤ now - start) (hw : now - start < 2 ^ 63) :
    nanosV1 freq start created now = .ub := by
  have k1 : ok64 (now - start) := ⟨by omega, hw⟩
  have k2 : ¬ ok64 ((now - start) * 1000000000) := by rintro ⟨_, h2⟩; omega
  simp only [nanosV1, nowV1, sub, mul, if_pos k1, if_neg k2, Res.bind]

/-- Not vacuous: half a second at 3.579545 MHz. -/
example : Fits 3579545 1789772 ∧ timeFromTicks 3579545 1789772 = .ok 499999860 ∧ ticksFromTime 3579545 499999860 = .ok 1789771 := by
  refine ⟨?_, ?_, ?_⟩ <;> first | (simp only [Fits]; decide +kernel) | decide +kernel
example : set 3579545 1000 1000000 1000 = .ok 999997 := by decide +kernel
example : nanosV1 10000000 0 10000000 20000000 = .ok 1000000000 ∧ nanosV1 10000000 0 10000000 9300000000 = .ub := by decide +kernel

end Xo.Tick
