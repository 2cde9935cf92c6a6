import Verif.Model.Norm
import Verif.Lemmas.Ieee
import Verif.Props.C141_TimeReal
import Mathlib.Analysis.SpecialFunctions.Pow.Real
import Mathlib.Tactic.Linarith

/-! Errors of rounded sums of squares, roots and quotients. -/
namespace Xo.Norm
open Num (Fl Fmt rhe_close log2_le rndVal binary32 binary64)
open Ieee
open Ieee.Spec (num OfType)

/-- The rounded number differs by at most half a unit of the last place, or half the smallest number. -/
theorem rq_abs (f : Fmt) (x : Rat) : |rq f x - x| ≤ |x| / 2 ^ f.prec + 2 ^ f.emin := by
  have pos : ∀ x : Rat, 0 < x → |rq f x - x| ≤ |x| / 2 ^ f.prec + 2 ^ f.emin := by
    intro x h0
    rw [abs_of_pos h0]
    by_cases hx : 2 ^ (f.emin + f.prec - 1) ≤ x
    · have h1 := TimeReal.rq_err hx
      have h2 : (0 : Rat) < 2 ^ f.emin := zpow_pos (by norm_num) _
      linarith
    · rw [rq_pos h0]
      have hl : Int.log 2 x < f.emin + f.prec - 1 := by
        rw [← Int.lt_zpow_iff_log_lt (by norm_num) h0]; exact_mod_cast not_le.1 hx
      have hu : Num.ulpExp f x = f.emin := max_eq_right (by omega)
      have he : (0 : Rat) < 2 ^ f.emin := zpow_pos (by norm_num) _
      have hc := rhe_close (x / 2 ^ f.emin)
      have e : rndVal f x - x = ((Num.rhe (x / 2 ^ f.emin) : Rat) - x / 2 ^ f.emin) * 2 ^ f.emin := by
        unfold rndVal; rw [hu]; field_simp
      rw [e, abs_mul, abs_of_pos he]
      have h3 : 0 ≤ x / 2 ^ f.prec := by positivity
      nlinarith [mul_le_mul_of_nonneg_right hc he.le]
  rcases lt_trichotomy x 0 with h | h | h
  · have := pos (-x) (by linarith)
    have e : -rq f x - -x = -(rq f x - x) := by ring
    rwa [rq_neg, e, abs_neg, abs_neg] at this
  · subst h
    rw [rq_zero]
    have h2 : (0 : Rat) < 2 ^ f.emin := zpow_pos (by norm_num) _
    simp [h2.le]
  · exact pos x h

/-- The nearest whole number to a root. -/
theorem rootNear_close {y : Rat} (hy : 0 ≤ y) : |(rootNear y : ℝ) - Real.sqrt y| ≤ 1 / 2 := by
  have hfl : ((⌊y⌋.toNat : Nat) : Int) = ⌊y⌋ := Int.toNat_of_nonneg (Int.floor_nonneg.2 hy)
  generalize hn : Nat.sqrt ⌊y⌋.toNat = n
  have h1 : n * n ≤ ⌊y⌋.toNat := hn ▸ Nat.sqrt_le _
  have h2 : ⌊y⌋.toNat < (n + 1) * (n + 1) := hn ▸ Nat.lt_succ_sqrt _
  have h3 : ((n : Rat)) * n ≤ y := by
    have : ((n * n : Nat) : Int) ≤ ⌊y⌋ := by rw [← hfl]; exact_mod_cast h1
    have := Int.le_floor.1 this
    push_cast at this; exact this
  have h4 : y < ((n : Rat) + 1) * (n + 1) := by
    have : ⌊y⌋ < (((n + 1) * (n + 1) : Nat) : Int) := by rw [← hfl]; exact_mod_cast h2
    have := Int.floor_lt.1 this
    push_cast at this; exact this
  have r3 : ((n : ℝ)) * n ≤ y := by exact_mod_cast h3
  have r4 : (y : ℝ) < ((n : ℝ) + 1) * (n + 1) := by exact_mod_cast h4
  have q1 : (n : ℝ) ≤ Real.sqrt y := Real.le_sqrt_of_sq_le (by nlinarith)
  have q2 : Real.sqrt y < n + 1 := by rw [Real.sqrt_lt' (by positivity)]; nlinarith
  have low : y ≤ ((n : Rat) + 1 / 2) * (n + 1 / 2) → Real.sqrt y ≤ n + 1 / 2 := fun h => by
    have h := (Rat.cast_le (K := ℝ)).2 h
    push_cast at h
    exact Real.sqrt_le_iff.2 ⟨by positivity, by nlinarith⟩
  have high : ((n : Rat) + 1 / 2) * (n + 1 / 2) ≤ y → (n : ℝ) + 1 / 2 ≤ Real.sqrt y := fun h => by
    have h := (Rat.cast_le (K := ℝ)).2 h
    push_cast at h
    exact Real.le_sqrt_of_sq_le (by nlinarith)
  rw [abs_le]
  unfold rootNear
  rw [hn]
  dsimp only
  split
  · next h => have := low h.le; constructor <;> linarith
  · next h =>
    have hh := high (not_lt.1 h)
    split
    · push_cast; constructor <;> linarith
    · next h' =>
      have hl := low (not_lt.1 h')
      split
      · constructor <;> linarith
      · push_cast; constructor <;> linarith

theorem root_half (f : Fmt) {x : Rat} (h0 : 0 < x) : |(rootVal f x : ℝ) - Real.sqrt x| ≤ 2 ^ rootExp f x / 2 := by
  unfold rootVal
  generalize hE : (2 : Rat) ^ rootExp f x = E
  have hE0 : 0 < E := hE ▸ zpow_pos (by norm_num) _
  have hER : (2 : ℝ) ^ rootExp f x = (E : ℝ) := by rw [← hE]; push_cast; rfl
  have hER0 : (0 : ℝ) < E := by exact_mod_cast hE0
  rw [hER]
  have hc := rootNear_close (y := x / (E * E)) (by positivity)
  have hs : Real.sqrt x = Real.sqrt ((x / (E * E) : Rat) : ℝ) * E := by
    push_cast
    rw [Real.sqrt_div (by exact_mod_cast h0.le), Real.sqrt_mul_self hER0.le]
    field_simp
  rw [hs]
  push_cast at hc ⊢
  rw [← sub_mul, abs_mul, abs_of_pos hER0]
  nlinarith

theorem root_log {x : Rat} (h0 : 0 < x) : (2 : ℝ) ^ (Int.log 2 x / 2) ≤ Real.sqrt x := by
  apply Real.le_sqrt_of_sq_le
  have h1 : (2 : Rat) ^ (Int.log 2 x) ≤ x := log2_le x h0
  have h1 := (Rat.cast_le (K := ℝ)).2 h1
  push_cast at h1
  refine le_trans ?_ h1
  rw [← zpow_natCast, ← zpow_mul]
  exact zpow_le_zpow_right₀ (by norm_num) (by push_cast; omega)

theorem root_rel (f : Fmt) {x : Rat} (h0 : 0 < x) (h : f.emin ≤ Int.log 2 x / 2 - ((f.prec : Int) - 1)) :
    |(rootVal f x : ℝ) - Real.sqrt x| ≤ Real.sqrt x / 2 ^ f.prec := by
  refine (root_half f h0).trans ?_
  rw [show rootExp f x = Int.log 2 x / 2 - ((f.prec : Int) - 1) from max_eq_left h, zpow_sub₀ (by norm_num), zpow_sub₀ (by norm_num), zpow_natCast, zpow_one]
  have h1 := root_log h0
  have hp : (0 : ℝ) < 2 ^ f.prec := by positivity
  have e : (2 : ℝ) ^ (Int.log 2 x / 2) / (2 ^ f.prec / 2) / 2 = 2 ^ (Int.log 2 x / 2) / 2 ^ f.prec := by field_simp
  rw [e]
  exact div_le_div_of_nonneg_right h1 hp.le

/-- The root with an error that also holds for the smallest numbers. -/
theorem root_abs (f : Fmt) {x : Rat} (h0 : 0 < x) : |(rootVal f x : ℝ) - Real.sqrt x| ≤ Real.sqrt x / 2 ^ f.prec + 2 ^ f.emin := by
  have he : (0 : ℝ) < 2 ^ f.emin := zpow_pos (by norm_num) _
  by_cases h : f.emin ≤ Int.log 2 x / 2 - ((f.prec : Int) - 1)
  · linarith [root_rel f h0 h]
  · refine (root_half f h0).trans ?_
    rw [show rootExp f x = f.emin from max_eq_right (by omega)]
    have : 0 ≤ Real.sqrt x / 2 ^ f.prec := by positivity
    linarith

/-- Formats with enough room for exponents. -/
structure Wide (f : Fmt) : Prop where
  ok : f.Ok
  small : f.emin ≤ -(5 * f.prec)
  half : ∃ h : Int, f.emax = 2 * h ∧ f.prec ≤ h ∧ f.emin + f.prec - 1 ≤ -h

theorem wide32 : Wide binary32 := ⟨Num.binary32_ok, by decide, 64, by decide, by decide, by decide⟩
theorem wide64 : Wide binary64 := ⟨Num.binary64_ok, by decide, 512, by decide, by decide, by decide⟩

/-- Half the distance of 1 to the next number, relative to 1; and the smallest number. -/
def un (f : Fmt) : Rat := 1 / 2 ^ f.prec
def et (f : Fmt) : Rat := 2 ^ f.emin

theorem un_pos (f : Fmt) : 0 < un f := by unfold un; positivity
theorem et_pos (f : Fmt) : 0 < et f := zpow_pos (by norm_num) _
theorem un_le {f : Fmt} (hf : Wide f) : un f ≤ 1 / 2 ^ 24 := by
  unfold un
  exact one_div_le_one_div_of_le (by positivity) (pow_le_pow_right₀ (by norm_num) hf.ok.prec)
theorem et_le {f : Fmt} (hf : Wide f) : et f ≤ un f ^ 5 := by
  have e : un f ^ 5 = 2 ^ (-(5 * (f.prec : Int))) := by
    unfold un
    rw [one_div, inv_pow, ← pow_mul, zpow_neg, mul_comm]
    congr 1
  rw [e]
  exact zpow_le_zpow_right₀ (by norm_num) hf.small
theorem one_le {f : Fmt} (hf : Wide f) : (2 : Rat) ^ 48 ≤ 2 ^ f.emax := by
  obtain ⟨h, h1, h2, _⟩ := hf.half
  rw [← zpow_natCast]
  exact zpow_le_zpow_right₀ (by norm_num) (by have := hf.ok.prec; push_cast; omega)
theorem rq_un (f : Fmt) (x : Rat) : |rq f x - x| ≤ un f * |x| + et f := by
  have := rq_abs f x
  unfold un et
  rw [one_div_mul_eq_div]; exact this

theorem ofRat_pos {f : Fmt} {x : Rat} (h : 0 ≤ x) (hb : rq f x < 2 ^ f.emax) : ofRat f false x = .fin false (rq f x) := by
  unfold ofRat
  rcases h.eq_or_lt with rfl | h
  · rw [if_pos rfl, rq_zero]
  · rw [if_neg h.ne', rq_pos h, abs_of_pos h, decide_eq_false (not_lt.2 h.le)]
    unfold Num.roundFl
    rw [rq_pos h] at hb
    rw [Num.rnd_eq, if_neg (not_le.2 hb)]

/-- A finite number whose square is far from the largest. -/
def Small (f : Fmt) (a : Fl) : Prop := ∃ s m, a = .fin s m ∧ val a * val a ≤ 2 ^ f.emax / 16

/-- A computed sum of `k` squares next to the exact one. -/
def Acc (f : Fmt) (k : Nat) (S : Fl) (s : Rat) : Prop :=
  ∃ V, S = .fin false V ∧ 0 ≤ V ∧ |V - s| ≤ ((1 + un f) ^ k - 1) * s + 3 * k * et f ∧ 0 ≤ s ∧ s ≤ k * (2 ^ f.emax / 16)

theorem sq_small {f : Fmt} (hf : Wide f) {a : Fl} (ha : Small f a) :
    ∃ p, mul f a a = .fin false p ∧ 0 ≤ p ∧ |p - val a * val a| ≤ un f * (val a * val a) + et f := by
  obtain ⟨s, m, rfl, hw⟩ := ha
  generalize hw' : val (.fin s m) * val (.fin s m) = w at *
  have h0 : 0 ≤ w := hw' ▸ mul_self_nonneg _
  have hr := rq_un f w
  rw [abs_of_nonneg h0] at hr
  have h1 := un_le hf
  have h2 := et_le hf
  have h3 := one_le hf
  have h4 := un_pos f
  have h5 : et f ≤ 1 := h2.trans (pow_le_one₀ h4.le (h1.trans (by norm_num)))
  have hb : rq f w < 2 ^ f.emax := by
    have := (abs_le.1 hr).2
    nlinarith
  refine ⟨rq f w, ?_, rq_nonneg h0, hr⟩
  show ofRat f (s != s) (val (.fin s m) * val (.fin s m)) = _
  rw [bne_self_eq_false, hw', ofRat_pos h0 hb]

theorem acc_one {f : Fmt} (hf : Wide f) {a : Fl} (ha : Small f a) : Acc f 1 (mul f a a) (val a * val a) := by
  obtain ⟨p, h1, h2, h3⟩ := sq_small hf ha
  have he := et_pos f
  obtain ⟨_, _, _, hw⟩ := ha
  exact ⟨p, h1, h2, by rw [pow_one]; push_cast; linarith, mul_self_nonneg _, by push_cast; linarith⟩

/-- The error of a sum of one more number. -/
theorem step_arith {u e a b s w V p V' : Rat} (hu : 0 ≤ u) (_ : 0 ≤ e) (ha : u ≤ a) (hs : 0 ≤ s) (hw : 0 ≤ w)
    (h1 : |V - s| ≤ a * s + b) (h2 : |p - w| ≤ u * w + e) (h3 : |V' - (V + p)| ≤ u * (V + p) + e) :
    |V' - (s + w)| ≤ (a + u + u * a) * (s + w) + (b * (1 + u) + (2 + u) * e) := by
  obtain ⟨a1, a2⟩ := abs_le.1 h1
  obtain ⟨b1, b2⟩ := abs_le.1 h2
  obtain ⟨c1, c2⟩ := abs_le.1 h3
  have k1 : u * V ≤ u * (s + (a * s + b)) := mul_le_mul_of_nonneg_left (by linarith) hu
  have k2 : u * p ≤ u * (w + (u * w + e)) := mul_le_mul_of_nonneg_left (by linarith) hu
  have k3 : u * w ≤ a * w := mul_le_mul_of_nonneg_right ha hw
  have k4 : u * (u * w) ≤ u * (a * w) := mul_le_mul_of_nonneg_left k3 hu
  rw [abs_le]
  constructor <;> nlinarith

theorem acc_step {f : Fmt} (hf : Wide f) {k : Nat} (hk : k + 1 ≤ 4) (hk1 : 1 ≤ k) {S a : Fl} {s : Rat} (hS : Acc f k S s) (ha : Small f a) :
    Acc f (k + 1) (add f S (mul f a a)) (s + val a * val a) := by
  obtain ⟨V, rfl, hV0, hV, hs0, hs⟩ := hS
  obtain ⟨p, hp, hp0, hpe⟩ := sq_small hf ha
  obtain ⟨_, _, _, hw⟩ := ha
  rw [hp]
  generalize hw' : val a * val a = w at *
  have hw0 : 0 ≤ w := hw' ▸ mul_self_nonneg _
  have h1 := un_le hf
  have h2 := et_le hf
  have h3 := one_le hf
  have h4 := un_pos f
  have h6 := et_pos f
  have hk4 : (k : Rat) ≤ 3 := by exact_mod_cast (by omega : k ≤ 3)
  have hk0 : (1 : Rat) ≤ k := by exact_mod_cast hk1
  have hr := rq_un f (V + p)
  rw [abs_of_nonneg (by linarith : 0 ≤ V + p)] at hr
  have goal : rq f (V + p) < 2 ^ f.emax ∧ |rq f (V + p) - (s + w)| ≤ ((1 + un f) ^ (k + 1) - 1) * (s + w) + 3 * ((k : Rat) + 1) * et f := by
    generalize rq f (V + p) = V' at *
    generalize un f = u at *
    generalize et f = e at *
    generalize (2 : Rat) ^ f.emax = M at *
    have h5 : e ≤ 1 / 2 ^ 24 := h2.trans ((pow_le_pow_left₀ h4.le h1 5).trans (by norm_num))
    have hpow : (1 + u) ^ k ≤ 1 + 4 * u := by
      have : (1 + u) ^ k ≤ (1 + u) ^ 3 := pow_le_pow_right₀ (by linarith) (by omega)
      nlinarith [mul_pos h4 h4, mul_le_mul_of_nonneg_right h1 h4.le, mul_le_mul_of_nonneg_right h1 (mul_pos h4 h4).le]
    have hpow1 : 1 + u ≤ (1 + u) ^ k := by
      have : (1 + u) ^ 1 ≤ (1 + u) ^ k := pow_le_pow_right₀ (by linarith) hk1
      rwa [pow_one] at this
    have st := step_arith h4.le h6.le (by linarith : u ≤ (1 + u) ^ k - 1) hs0 hw0 hV hpe hr
    have eq : (1 + u) ^ k - 1 + u + u * ((1 + u) ^ k - 1) = (1 + u) ^ (k + 1) - 1 := by ring
    rw [eq] at st
    have he2 : 3 * (k : Rat) * e * (1 + u) + (2 + u) * e ≤ 3 * ((k : Rat) + 1) * e := by
      have : 3 * (k : Rat) * (1 + u) + (2 + u) ≤ 3 * ((k : Rat) + 1) := by nlinarith
      nlinarith
    have fin : |V' - (s + w)| ≤ ((1 + u) ^ (k + 1) - 1) * (s + w) + 3 * ((k : Rat) + 1) * e := by linarith
    refine ⟨?_, fin⟩
    have h7 : (1 + u) ^ (k + 1) - 1 ≤ 1 := by
      rw [pow_succ]
      nlinarith
    have h8 := (abs_le.1 fin).2
    have h9 : ((1 + u) ^ (k + 1) - 1) * (s + w) ≤ 1 * (s + w) := mul_le_mul_of_nonneg_right h7 (by linarith)
    have h10 : s ≤ 3 * (M / 16) := hs.trans (mul_le_mul_of_nonneg_right hk4 (by norm_num at h3; linarith))
    have h11 : 3 * ((k : Rat) + 1) * e ≤ 3 * (3 + 1) * e := mul_le_mul_of_nonneg_right (by linarith) h6.le
    norm_num at h3 h5
    linarith
  refine ⟨rq f (V + p), ?_, rq_nonneg (by linarith), ?_, by linarith, by push_cast; linarith⟩
  · show ofRat f (false && false) (V + p) = _
    rw [Bool.and_false, ofRat_pos (by linarith) goal.1]
  · push_cast; exact goal.2

/-! ## Arithmetic -/

/-- The reciprocal of the rounded length, squared, against the exact squared length. -/
theorem recip_arith {u s V l m : Rat} (hu : 0 < u) (hu1 : u ≤ 1 / 2 ^ 24) (hs : 0 < s) (hV : |V - s| ≤ 41 / 10 * u * s)
    (l1 : (1 - u) * (1 - u) * V ≤ l * l) (l2 : l * l ≤ (1 + u) * (1 + u) * V) (hm : |m * l - 1| ≤ u) : |m * m * s - 1| ≤ 83 / 10 * u := by
  obtain ⟨v1, v2⟩ := abs_le.1 hV
  obtain ⟨m1, m2⟩ := abs_le.1 hm
  norm_num at hu1
  have u2 : u * u ≤ u / 16777216 := by nlinarith
  have u2p : 0 < u * u := mul_pos hu hu
  have u3p : 0 < u * u * u := mul_pos u2p hu
  have u3 : u * u * u ≤ u * u := by nlinarith
  have u4 : u * u * u * u ≤ u * u := by nlinarith
  have u4p : 0 < u * u * u * u := mul_pos u3p hu
  generalize hP : m * m * s = P
  have hP0 : 0 ≤ P := hP ▸ mul_nonneg (mul_self_nonneg m) hs.le
  -- P l² = (m l)² s
  have e1 : P * (l * l) = (m * l) * (m * l) * s := by rw [← hP]; ring
  have lo : (1 - u) * (1 - u) ≤ (m * l) * (m * l) := mul_self_le_mul_self (by linarith) (by linarith)
  have hi : (m * l) * (m * l) ≤ (1 + u) * (1 + u) := mul_self_le_mul_self (by linarith) (by linarith)
  have k1 : (1 - u) * (1 - u) * ((1 - 41 / 10 * u) * s) ≤ l * l := le_trans (mul_le_mul_of_nonneg_left (by linarith) (mul_self_nonneg _)) l1
  have k2 : l * l ≤ (1 + u) * (1 + u) * ((1 + 41 / 10 * u) * s) := le_trans l2 (mul_le_mul_of_nonneg_left (by linarith) (mul_self_nonneg _))
  have up : P * ((1 - u) * (1 - u) * (1 - 41 / 10 * u)) ≤ (1 + u) * (1 + u) := by
    have a1 := mul_le_mul_of_nonneg_left k1 hP0
    have a2 := mul_le_mul_of_nonneg_right hi hs.le
    have : (P * ((1 - u) * (1 - u) * (1 - 41 / 10 * u))) * s ≤ (1 + u) * (1 + u) * s := by nlinarith
    exact le_of_mul_le_mul_right this hs
  have dn : (1 - u) * (1 - u) ≤ P * ((1 + u) * (1 + u) * (1 + 41 / 10 * u)) := by
    have a1 := mul_le_mul_of_nonneg_left k2 hP0
    have a2 := mul_le_mul_of_nonneg_right lo hs.le
    have : (1 - u) * (1 - u) * s ≤ (P * ((1 + u) * (1 + u) * (1 + 41 / 10 * u))) * s := by nlinarith
    exact le_of_mul_le_mul_right this hs
  rw [abs_le]
  constructor
  · by_contra hc
    have hc : P < 1 - 83 / 10 * u := by linarith
    have : P * ((1 + u) * (1 + u) * (1 + 41 / 10 * u)) ≤ (1 - 83 / 10 * u) * ((1 + u) * (1 + u) * (1 + 41 / 10 * u)) :=
      mul_le_mul_of_nonneg_right hc.le (by positivity)
    nlinarith
  · by_contra hc
    have hc : 1 + 83 / 10 * u < P := by linarith
    have hpos : 0 ≤ (1 - u) * (1 - u) * (1 - 41 / 10 * u) := mul_nonneg (mul_self_nonneg _) (by linarith)
    have : (1 + 83 / 10 * u) * ((1 - u) * (1 - u) * (1 - 41 / 10 * u)) ≤ P * ((1 - u) * (1 - u) * (1 - 41 / 10 * u)) :=
      mul_le_mul_of_nonneg_right hc.le hpos
    nlinarith

/-- The square of a rounded product against the square of the product. -/
theorem square_arith {u e y z : Rat} (hu : 0 < u) (hu1 : u ≤ 1 / 2 ^ 24) (he : 0 ≤ e) (he1 : e ≤ u ^ 5) (h : |y - z| ≤ u * |z| + e) :
    |y * y - z * z| ≤ (21 / 10 * u) * (z * z) + u * u := by
  have e1 : y * y - z * z = (y - z) * ((y - z) + 2 * z) := by ring
  rw [e1, abs_mul]
  have k : |(y - z) + 2 * z| ≤ |y - z| + 2 * |z| := by
    refine (abs_add_le _ _).trans ?_
    rw [abs_mul, abs_two]
  have hz : z * z = |z| * |z| := (abs_mul_abs_self z).symm
  rw [hz]
  have hz0 := abs_nonneg z
  have hd0 := abs_nonneg (y - z)
  generalize |z| = Z at *
  generalize |y - z| = D at *
  have h1 : D * |(y - z) + 2 * z| ≤ (u * Z + e) * (u * Z + e + 2 * Z) := mul_le_mul h (by linarith) (abs_nonneg _) (by positivity)
  refine h1.trans ?_
  have hu5 : u ^ 5 = u * u * (u * u * u) := by ring
  norm_num at hu1
  have u2 : u * u ≤ u / 16777216 := by nlinarith
  have u3 : u * u * u ≤ 1 / 16777216 := by nlinarith
  have e2 : e ≤ u * u / 16777216 := by
    rw [hu5] at he1
    nlinarith [mul_le_mul_of_nonneg_left u3 (mul_pos hu hu).le]
  have e3 : e ≤ 1 := by nlinarith
  have e4 : e * e ≤ e := by nlinarith
  have z1 : Z ≤ 1 + Z * Z := by nlinarith [mul_self_nonneg (Z - 1)]
  have e5 : e * Z ≤ e * (1 + Z * Z) := mul_le_mul_of_nonneg_left z1 he
  have e6 : e * (Z * Z) ≤ u / 1000 * (Z * Z) := mul_le_mul_of_nonneg_right (by linarith) (mul_self_nonneg _)
  have e7 : u * (e * Z) ≤ 1 * (e * Z) := mul_le_mul_of_nonneg_right (by linarith) (by positivity)
  have e8 : u * u * (Z * Z) ≤ u / 1000 * (Z * Z) := mul_le_mul_of_nonneg_right (by linarith) (mul_self_nonneg _)
  nlinarith

/-! ## Length and reciprocal -/

theorem pow4_le {f : Fmt} (hf : Wide f) {k : Nat} (hk : k ≤ 4) : (1 + un f) ^ k - 1 ≤ 405 / 100 * un f := by
  have h1 := un_le hf
  have h4 := un_pos f
  generalize un f = u at *
  have : (1 + u) ^ k ≤ (1 + u) ^ 4 := pow_le_pow_right₀ (by linarith) hk
  norm_num at h1
  have u2 : u * u ≤ u / 16777216 := by nlinarith
  have u2p : 0 < u * u := mul_pos h4 h4
  have u3 : u * u * u ≤ u * u := by nlinarith
  have u4 : u * u * u * u ≤ u * u := by nlinarith
  nlinarith

/-- A sum of squares that is not tiny has a small relative error. -/
theorem acc_rel {f : Fmt} (hf : Wide f) {k : Nat} (hk : k ≤ 4) {S : Fl} {s : Rat} (hS : Acc f k S s) (hs : un f * un f / 2 ≤ s) :
    ∃ V, S = .fin false V ∧ 0 ≤ V ∧ |V - s| ≤ 41 / 10 * un f * s := by
  obtain ⟨V, h1, h2, h3, h4, _⟩ := hS
  refine ⟨V, h1, h2, h3.trans ?_⟩
  have p := pow4_le hf hk
  have a1 := un_le hf
  have a2 := et_le hf
  have a3 := un_pos f
  have a4 := et_pos f
  have hk4 : (k : Rat) ≤ 4 := by exact_mod_cast hk
  generalize (1 + un f) ^ k - 1 = c at *
  generalize un f = u at *
  generalize et f = e at *
  have k1 : c * s ≤ 405 / 100 * u * s := mul_le_mul_of_nonneg_right p h4
  have k2 : 3 * (k : Rat) * e ≤ 12 * u ^ 5 := by nlinarith
  have hu5 : u ^ 5 = u * (u * u) * (u * u) := by ring
  norm_num at a1
  have u2 : u * u ≤ 1 / 16777216 := by nlinarith
  have k3 : u * (u * u) * (u * u) ≤ u * (u * u) * (1 / 16777216) := mul_le_mul_of_nonneg_left u2 (by positivity)
  have k4 : u * (u * u) ≤ u * (2 * s) := mul_le_mul_of_nonneg_left (by linarith) a3.le
  rw [hu5] at k2
  nlinarith

/-- The rounded root of a rounded sum. -/
theorem length_arith {u s V l q p : ℝ} (u0R : 0 < u) (u1R : u ≤ 1 / 2 ^ 24) (hsR : 0 < s) (q0 : 0 ≤ q) (qq : q * q = V) (p0 : 0 < p) (pp : p * p = s)
    (hVrR : |V - s| ≤ 41 / 10 * u * s) (hrel : |l - q| ≤ q * u) : |l - p| ≤ 4 * u * p := by
  obtain ⟨r1, r2⟩ := abs_le.1 hrel
  obtain ⟨v1, v2⟩ := abs_le.1 hVrR
  norm_num at u1R
  have u2 : u * u ≤ u / 16777216 := by nlinarith
  have qb : q ≤ (1 + 21 / 10 * u) * p := by
    apply nonneg_le_nonneg_of_sq_le_sq (by positivity)
    have : (1 + 21 / 10 * u) * p * ((1 + 21 / 10 * u) * p) = (1 + 42 / 10 * u + 441 / 100 * (u * u)) * s := by rw [← pp]; ring
    rw [qq, this]
    nlinarith [mul_pos u0R u0R, mul_pos u0R hsR]
  have qa : (1 - 21 / 10 * u) * p ≤ q := by
    apply nonneg_le_nonneg_of_sq_le_sq q0
    have : (1 - 21 / 10 * u) * p * ((1 - 21 / 10 * u) * p) = (1 - 42 / 10 * u + 441 / 100 * (u * u)) * s := by rw [← pp]; ring
    rw [qq, this]
    nlinarith [mul_pos u0R u0R, mul_pos u0R hsR, mul_le_mul_of_nonneg_right u2 hsR.le]
  rw [abs_le]
  have c1 : u * q ≤ u * ((1 + 21 / 10 * u) * p) := mul_le_mul_of_nonneg_left qb u0R.le
  have c2 : u * u * p ≤ u / 16777216 * p := mul_le_mul_of_nonneg_right u2 p0.le
  constructor <;> nlinarith [mul_pos u0R p0]

/-- What is known when the computed length is above epsilon. -/
theorem length_facts {f : Fmt} (hf : Wide f) {k : Nat} (hk : k ≤ 4) {S : Fl} {s : Rat} (hS : Acc f k S s) (hl : lt (epsilon f) (sqrt f S) = true) :
    ∃ l m : Rat, sqrt f S = .fin false l ∧ 0 < l ∧ inv f (sqrt f S) = .fin false m ∧ 0 < m ∧ un f * un f / 2 ≤ s ∧
      |m * m * s - 1| ≤ 83 / 10 * un f ∧ |(l : ℝ) - Real.sqrt s| ≤ 4 * (un f : ℝ) * Real.sqrt s := by
  have hS' := hS
  obtain ⟨V, rfl, hV0, hV, hs0, hsM⟩ := hS
  have a1 := un_le hf
  have a2 := et_le hf
  have a3 := un_pos f
  have a4 := et_pos f
  have hV1 : V ≠ 0 := by
    rintro rfl
    simp only [sqrt, if_pos] at hl
    simp only [lt, epsilon, val, decide_eq_true_eq] at hl
    have : (0 : Rat) < 2 ^ (1 - (f.prec : Int)) := zpow_pos (by norm_num) _
    simp only [Bool.false_eq_true, if_false, decide_eq_true_eq] at hl
    linarith
  have hVp : 0 < V := lt_of_le_of_ne hV0 (Ne.symm hV1)
  have es : sqrt f (.fin false V) = .fin false (rootVal f V) := by simp [sqrt, hV1]
  rw [es] at hl ⊢
  have hl : 2 * un f < rootVal f V := by
    simp only [lt, epsilon, val, decide_eq_true_eq, Bool.false_eq_true, if_false] at hl
    have e : (2 : Rat) ^ (1 - (f.prec : Int)) = 2 * un f := by
      unfold un; rw [zpow_sub₀ (by norm_num), zpow_one, zpow_natCast]; ring
    rwa [e] at hl
  generalize hlv : rootVal f V = l at *
  have uR : ((un f : Rat) : ℝ) = 1 / 2 ^ f.prec := by unfold un; push_cast; rfl
  have eR : ((et f : Rat) : ℝ) = 2 ^ f.emin := by unfold et; push_cast; rfl
  have u0R : (0 : ℝ) < un f := by exact_mod_cast a3
  have u1R : (un f : ℝ) ≤ 1 / 2 ^ 24 := by
    have := (Rat.cast_le (K := ℝ)).2 a1; push_cast at this; exact this
  have e1R : (et f : ℝ) ≤ (un f : ℝ) ^ 5 := by
    have := (Rat.cast_le (K := ℝ)).2 a2; push_cast at this; exact this
  have hlR : 2 * (un f : ℝ) < l := by
    have := (Rat.cast_lt (K := ℝ)).2 hl; push_cast at this; exact this
  have qq : Real.sqrt V * Real.sqrt V = V := Real.mul_self_sqrt (by exact_mod_cast hV0)
  have q0 : 0 ≤ Real.sqrt V := Real.sqrt_nonneg _
  have hVu : un f * un f ≤ V := by
    have h := root_abs f hVp
    rw [hlv, div_eq_mul_one_div, ← uR, ← eR] at h
    have h := (abs_le.1 h).2
    have : (un f : ℝ) ≤ Real.sqrt V := by
      by_contra hc
      have hc := not_le.1 hc
      have e2 : (un f : ℝ) ^ 5 ≤ un f / 4 := by
        have : (un f : ℝ) ^ 5 = un f * (un f : ℝ) ^ 4 := by ring
        rw [this]
        have h4 : (un f : ℝ) ^ 4 ≤ 1 / 4 := (pow_le_pow_left₀ u0R.le u1R 4).trans (by norm_num)
        nlinarith
      norm_num at u1R
      nlinarith
    have : (un f : ℝ) * un f ≤ V := by rw [← qq]; exact mul_self_le_mul_self u0R.le this
    exact_mod_cast this
  have hnorm : f.emin ≤ Int.log 2 V / 2 - ((f.prec : Int) - 1) := by
    have : -(2 * (f.prec : Int)) ≤ Int.log 2 V := by
      rw [← Int.zpow_le_iff_le_log (by norm_num) hVp]
      refine le_trans (le_of_eq ?_) hVu
      unfold un
      rw [zpow_neg, mul_comm, zpow_mul, zpow_natCast, ← one_div]
      push_cast
      rw [show (2 : ℤ) = ((2 : Nat) : Int) from rfl, zpow_natCast]
      field_simp
    have := hf.small
    omega
  have hrel := root_rel f hVp hnorm
  rw [hlv, div_eq_mul_one_div, ← uR] at hrel
  obtain ⟨r1, r2⟩ := abs_le.1 hrel
  have l1 : (1 - un f) * (1 - un f) * V ≤ l * l := by
    have : ((1 - un f) * (1 - un f) * V : ℝ) ≤ l * l := by
      rw [← qq]
      have := mul_self_le_mul_self (mul_nonneg (by norm_num at u1R; linarith : (0 : ℝ) ≤ 1 - un f) q0) (by linarith : (1 - (un f : ℝ)) * Real.sqrt V ≤ l)
      nlinarith
    exact_mod_cast this
  have l2 : l * l ≤ (1 + un f) * (1 + un f) * V := by
    have : (l * l : ℝ) ≤ (1 + un f) * (1 + un f) * V := by
      rw [← qq]
      have := mul_self_le_mul_self (by linarith : (0 : ℝ) ≤ l) (by linarith : (l : ℝ) ≤ (1 + (un f : ℝ)) * Real.sqrt V)
      nlinarith
    exact_mod_cast this
  have hl0 : 0 < l := by linarith
  -- the exact sum is not tiny
  have hsu : un f * un f / 2 ≤ s := by
    have p := pow4_le hf hk
    have hk4 : (k : Rat) ≤ 4 := by exact_mod_cast hk
    have := (abs_le.1 hV).2
    generalize (1 + un f) ^ k - 1 = c at *
    generalize un f = u at *
    generalize et f = e at *
    have k1 : c * s ≤ 405 / 100 * u * s := mul_le_mul_of_nonneg_right p hs0
    have k2 : 3 * (k : Rat) * e ≤ 12 * u ^ 5 := by nlinarith
    have k3 : u ^ 5 ≤ u * u / 100 := by
      have : u ^ 5 = u * u * u ^ 3 := by ring
      rw [this]
      have h3 : u ^ 3 ≤ 1 / 100 := (pow_le_pow_left₀ a3.le a1 3).trans (by norm_num)
      nlinarith [mul_le_mul_of_nonneg_left h3 (mul_pos a3 a3).le]
    norm_num at a1
    have k4 : u * s ≤ s / 1000 := by nlinarith
    nlinarith
  have hsp : 0 < s := lt_of_lt_of_le (by positivity) hsu
  obtain ⟨V', eV, _, hVr⟩ := acc_rel hf hk hS' hsu
  obtain rfl : V = V' := by injection eV
  -- the reciprocal
  obtain ⟨h, eh, h1, h2⟩ := hf.half
  have hM : (2 : Rat) ^ f.emax = 2 ^ h * 2 ^ h := by rw [eh, two_mul, zpow_add₀ (by norm_num)]
  have hh : (0 : Rat) < 2 ^ h := zpow_pos (by norm_num) _
  have hlh : l ≤ 2 ^ h := by
    have hk4 : (k : Rat) ≤ 4 := by exact_mod_cast hk
    have hsM : s ≤ 4 * (2 ^ f.emax / 16) := hsM.trans (mul_le_mul_of_nonneg_right hk4 (by positivity))
    have : l * l ≤ 2 ^ h * 2 ^ h := by
      rw [← hM]
      have hv := (abs_le.1 hVr).2
      generalize (2 : Rat) ^ f.emax = M at *
      generalize un f = u at *
      norm_num at a1
      have k4 : u * s ≤ s / 1000 := by nlinarith
      have k5 : V ≤ 2 * s := by linarith
      have k6 : (1 + u) * (1 + u) ≤ 2 := by nlinarith
      have k7 : (1 + u) * (1 + u) * V ≤ 2 * V := mul_le_mul_of_nonneg_right k6 hV0
      linarith
    exact nonneg_le_nonneg_of_sq_le_sq hh.le this
  have hinv : 2 ^ (f.emin + f.prec - 1) ≤ 1 / l := by
    refine le_trans (zpow_le_zpow_right₀ (by norm_num) h2) ?_
    rw [zpow_neg, ← one_div]
    exact one_div_le_one_div_of_le hl0 hlh
  have hre := TimeReal.rq_err hinv
  rw [div_eq_mul_one_div (1 / l), show (1 : Rat) / 2 ^ f.prec = un f from rfl] at hre
  have hib : 1 / l ≤ 2 ^ f.prec := by
    rw [div_le_iff₀ hl0]
    have : un f * 2 ^ f.prec = 1 := by unfold un; field_simp
    nlinarith
  have hrb : rq f (1 / l) < 2 ^ f.emax := by
    have k1 := (abs_le.1 hre).2
    have k2 : (2 : Rat) ^ f.prec ≤ 2 ^ h := by rw [← zpow_natCast]; exact zpow_le_zpow_right₀ (by norm_num) h1
    have k3 : (2 : Rat) ^ 24 ≤ 2 ^ f.prec := pow_le_pow_right₀ (by norm_num) hf.ok.prec
    have k4 : 1 / l * un f ≤ 1 / l * 1 := mul_le_mul_of_nonneg_left (by norm_num at a1; linarith) (by positivity)
    rw [hM]
    norm_num at k3
    have k5 : rq f (1 / l) ≤ 2 * 2 ^ h := by linarith
    have k6 : (2 : Rat) * 2 ^ h < 2 ^ h * 2 ^ h := mul_lt_mul_of_pos_right (by linarith) hh
    linarith
  have einv : inv f (.fin false l) = .fin false (rq f (1 / l)) := by
    have hne : l ≠ 0 := hl0.ne'
    unfold inv
    rw [show div f (ofNat 1) (.fin false l) = if l = 0 then (if ((1 : Nat) : Rat) = 0 then .nan false else .inf (false != false)) else
      ofRat f (false != false) (val (.fin false ((1 : Nat) : Rat)) / val (.fin false l)) from rfl, if_neg hne]
    simp only [bne_self_eq_false, val, Bool.false_eq_true, if_false, Nat.cast_one]
    exact ofRat_pos (by positivity) hrb
  have hml : |rq f (1 / l) * l - 1| ≤ un f := by
    have e : rq f (1 / l) * l - 1 = (rq f (1 / l) - 1 / l) * l := by field_simp
    rw [e, abs_mul, abs_of_pos hl0]
    refine (mul_le_mul_of_nonneg_right hre hl0.le).trans (le_of_eq ?_)
    field_simp
  have hm0 : 0 < rq f (1 / l) := by
    have k := (abs_le.1 hml).1
    by_contra hc
    have hc := not_lt.1 hc
    have : rq f (1 / l) * l ≤ 0 := mul_nonpos_of_nonpos_of_nonneg hc hl0.le
    norm_num at a1
    linarith
  refine ⟨l, rq f (1 / l), rfl, hl0, einv, hm0, hsu, recip_arith a3 a1 hsp hVr l1 l2 hml, ?_⟩
  -- the length itself
  have hsR : (0 : ℝ) < s := by exact_mod_cast hsp
  have pp : Real.sqrt s * Real.sqrt s = s := Real.mul_self_sqrt hsR.le
  have p0 : 0 < Real.sqrt s := Real.sqrt_pos.2 hsR
  have hVrR : |(V : ℝ) - s| ≤ 41 / 10 * un f * s := by
    have := (Rat.cast_le (K := ℝ)).2 hVr; push_cast at this; exact this
  exact length_arith u0R u1R hsR q0 qq p0 pp hVrR hrel

end Xo.Norm
