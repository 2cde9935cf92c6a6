import Verif.Lemmas.Norm

/-!
Errors of a few additions and multiplications in relation to a common bound.
-/
namespace Xo.Norm
open Num (Fl Fmt)
open Ieee

/-- The number `S` is within `k` roundings of a number of magnitude `X`, and `c` smallest magnitudes, of the exact value `s`. -/
def Near (f : Fmt) (k c X : Rat) (S : Fl) (s : Rat) : Prop :=
  (∃ g m, S = .fin g m) ∧ |val S - s| ≤ k * un f * X + c * et f ∧ |s| ≤ X ∧ 0 ≤ k ∧ k ≤ 100 ∧ 0 ≤ c ∧ c ≤ 100

theorem near_exact {f : Fmt} {S : Fl} {X : Rat} (h : Ieee.Spec.Finite S) (hX : |val S| ≤ X) : Near f 0 0 X S (val S) := by
  refine ⟨?_, by simp, hX, by norm_num, by norm_num, by norm_num, by norm_num⟩
  cases S with
  | nan => exact h.elim
  | inf => exact h.elim
  | fin s m => exact ⟨s, m, rfl⟩

theorem near_neg {f : Fmt} {k c X s : Rat} {S : Fl} (h : Near f k c X S s) : Near f k c X (neg S) (-s) := by
  obtain ⟨⟨g, m, rfl⟩, h1, h2, h3⟩ := h
  refine ⟨⟨!g, m, rfl⟩, ?_, by rwa [abs_neg], h3⟩
  rw [num_neg (a := .fin g m), ← abs_neg]
  have : -(-val (.fin g m) - -s) = val (.fin g m) - s := by ring
  rwa [this]

theorem near_weak {f : Fmt} {k c X s k' c' X' : Rat} {S : Fl} (h : Near f k c X S s) (hk : k ≤ k') (hc : c ≤ c') (hX : X ≤ X') (hk' : k' ≤ 100) (hc' : c' ≤ 100) :
    Near f k' c' X' S s := by
  obtain ⟨h0, h1, h2, h3, h4, h5, h6⟩ := h
  have u0 := un_pos f
  have e0 := et_pos f
  have X0 : 0 ≤ X := (abs_nonneg s).trans h2
  refine ⟨h0, h1.trans ?_, h2.trans hX, h3.trans hk, hk', h5.trans hc, hc'⟩
  have a1 : k * un f * X ≤ k' * un f * X' := mul_le_mul (mul_le_mul_of_nonneg_right hk u0.le) hX X0 (by have := h3.trans hk; positivity)
  have a2 := mul_le_mul_of_nonneg_right hc e0.le
  linarith

/-- A rounded value whose exact operand is close to `s`. -/
theorem near_round {f : Fmt} (hf : Wide f) {k c X s V k' c' : Rat} (z : Bool) (h : |V - s| ≤ k * un f * X + c * et f) (hs : |s| ≤ X) (k0 : 0 ≤ k) (c0 : 0 ≤ c)
    (hk : k + 101 / 100 ≤ k') (hc : 101 / 100 * c + 1 ≤ c') (hk' : k' ≤ 100) (hc' : c' ≤ 100) (hX : 2 * X + 1 ≤ 2 ^ f.emax) :
    Near f k' c' X (Ieee.ofRat f z V) s := by
  have hr := rq_un f V
  have h1 := un_le hf
  have h2 := et_le hf
  have u0 := un_pos f
  have e0 := et_pos f
  have X0 : 0 ≤ X := (abs_nonneg s).trans hs
  have hu : un f ≤ 1 / 100000 := by norm_num at h1; linarith
  have hV : |V| ≤ X + (k * un f * X + c * et f) := by
    have := abs_sub_abs_le_abs_sub V s
    linarith
  have ku : k * un f ≤ 1 / 1000 := by
    have := mul_le_mul (by linarith : k ≤ 100) hu u0.le (by norm_num)
    linarith
  have b : |rq f V - s| ≤ k' * un f * X + c' * et f := by
    have e : rq f V - s = (rq f V - V) + (V - s) := by ring
    rw [e]
    refine (abs_add_le _ _).trans ?_
    have a1 := mul_le_mul_of_nonneg_left hV u0.le
    have a2 : un f * (k * un f * X) ≤ un f * (1 / 1000 * X) := mul_le_mul_of_nonneg_left (mul_le_mul_of_nonneg_right ku X0) u0.le
    have a3 : un f * (c * et f) ≤ 1 / 100000 * (c * et f) := mul_le_mul_of_nonneg_right hu (by positivity)
    have a4 : (k + 101 / 100) * (un f * X) ≤ k' * (un f * X) := mul_le_mul_of_nonneg_right hk (by positivity)
    have a5 : (101 / 100 * c + 1) * et f ≤ c' * et f := mul_le_mul_of_nonneg_right hc e0.le
    have a6 : 0 ≤ un f * X := by positivity
    have a7 : 0 ≤ c * et f := by positivity
    nlinarith
  have hb : |rq f V| < 2 ^ f.emax := by
    have a0 := abs_sub_abs_le_abs_sub (rq f V) s
    have a1 : k' * un f ≤ 1 / 1000 := by
      have := mul_le_mul hk' hu u0.le (by norm_num)
      linarith
    have a2 : k' * un f * X ≤ 1 / 1000 * X := mul_le_mul_of_nonneg_right a1 X0
    have a3 : et f ≤ 1 / 1000 := h2.trans (by
      have := pow_le_pow_left₀ u0.le hu 5
      refine this.trans (by norm_num))
    have a4 : c' * et f ≤ 100 * (1 / 1000) := mul_le_mul hc' a3 e0.le (by norm_num)
    linarith
  obtain ⟨g, x, e, v⟩ := ofRat_finite (z := z) hb
  refine ⟨⟨g, x, e⟩, ?_, hs, by linarith, hk', by linarith, hc'⟩
  rw [e, v]
  exact b

theorem near_add {f : Fmt} (hf : Wide f) {k c X s c2 Y t k' c' Z : Rat} {S T : Fl} (h1 : Near f k c X S s) (h2 : Near f k c2 Y T t) (hk : k + 101 / 100 ≤ k')
    (hc : 101 / 100 * (c + c2) + 1 ≤ c') (hk' : k' ≤ 100) (hc' : c' ≤ 100) (hZ : X + Y = Z) (hX : 2 * Z + 1 ≤ 2 ^ f.emax) : Near f k' c' Z (add f S T) (s + t) := by
  subst hZ
  obtain ⟨⟨g, m, rfl⟩, a1, a2, a3, a4, a5, a6⟩ := h1
  obtain ⟨⟨g', m', rfl⟩, b1, b2, b3, b4, b5, b6⟩ := h2
  refine near_round hf (k := k) (c := c + c2) (g && g') ?_ ((abs_add_le _ _).trans (add_le_add a2 b2)) a3 (by linarith) hk hc hk' hc' hX
  have e : val (.fin g m) + val (.fin g' m') - (s + t) = (val (.fin g m) - s) + (val (.fin g' m') - t) := by ring
  rw [e]
  refine (abs_add_le _ _).trans ?_
  linarith

theorem near_sub {f : Fmt} (hf : Wide f) {k c X s c2 Y t k' c' Z : Rat} {S T : Fl} (h1 : Near f k c X S s) (h2 : Near f k c2 Y T t) (hk : k + 101 / 100 ≤ k')
    (hc : 101 / 100 * (c + c2) + 1 ≤ c') (hk' : k' ≤ 100) (hc' : c' ≤ 100) (hZ : X + Y = Z) (hX : 2 * Z + 1 ≤ 2 ^ f.emax) : Near f k' c' Z (sub f S T) (s - t) := by
  rw [sub_eq_add_neg]
  exact near_add hf h1 (near_neg h2) hk hc hk' hc' hZ hX

theorem near_mul {f : Fmt} (hf : Wide f) {k X s k2 c2 Y t k' c' Z : Rat} {S T : Fl} (h1 : Near f k 0 X S s) (h2 : Near f k2 c2 Y T t) (hk : k + k2 + 102 / 100 ≤ k')
    (hc : 102 / 100 * (X * c2) + 1 ≤ c') (hk' : k' ≤ 100) (hc' : c' ≤ 100) (hZ : X * Y = Z) (hX : 2 * Z + 1 ≤ 2 ^ f.emax) : Near f k' c' Z (Ieee.mul f S T) (s * t) := by
  subst hZ
  obtain ⟨⟨g, m, rfl⟩, a1, a2, a3, a4, _, _⟩ := h1
  obtain ⟨⟨g', m', rfl⟩, b1, b2, b3, b4, b5, b6⟩ := h2
  have u0 := un_pos f
  have e0 := et_pos f
  have h1 := un_le hf
  have hu : un f ≤ 1 / 10000000 := by norm_num at h1; linarith
  have X0 : 0 ≤ X := (abs_nonneg s).trans a2
  have Y0 : 0 ≤ Y := (abs_nonneg t).trans b2
  have ku : k * un f ≤ 1 / 100000 := by
    have := mul_le_mul a4 hu u0.le (by norm_num)
    linarith
  have hst : |s * t| ≤ X * Y := by
    rw [abs_mul]
    exact mul_le_mul a2 b2 (abs_nonneg _) X0
  rw [zero_mul, add_zero] at a1
  refine near_round hf (k := k + k2 + 1 / 100) (c := 100001 / 100000 * (X * c2)) (g != g') ?_ hst (by linarith) (by positivity) (by linarith) (by nlinarith [mul_nonneg X0 b5]) hk' hc' hX
  have e : val (.fin g m) * val (.fin g' m') - s * t = (val (.fin g m) - s) * (t + (val (.fin g' m') - t)) + s * (val (.fin g' m') - t) := by ring
  rw [e]
  refine (abs_add_le _ _).trans ?_
  rw [abs_mul, abs_mul]
  have p1 : |t + (val (.fin g' m') - t)| ≤ Y + (k2 * un f * Y + c2 * et f) := (abs_add_le _ _).trans (add_le_add b2 b1)
  have p2 : |val (.fin g m) - s| * |t + (val (.fin g' m') - t)| ≤ (k * un f * X) * (Y + (k2 * un f * Y + c2 * et f)) := mul_le_mul a1 p1 (abs_nonneg _) (by positivity)
  have p3 : |s| * |val (.fin g' m') - t| ≤ X * (k2 * un f * Y + c2 * et f) := mul_le_mul a2 b1 (abs_nonneg _) X0
  have p4 : (k * un f) * (k2 * (un f * (X * Y))) ≤ 1 / 100000 * (100 * (un f * (X * Y))) := mul_le_mul ku (mul_le_mul_of_nonneg_right b4 (by positivity)) (by positivity) (by norm_num)
  have p5 : (k * un f) * (X * c2 * et f) ≤ 1 / 100000 * (X * c2 * et f) := mul_le_mul_of_nonneg_right ku (by positivity)
  have p6 : 0 ≤ un f * (X * Y) := by positivity
  refine (add_le_add p2 p3).trans ?_
  have q1 : k * un f * X * (Y + (k2 * un f * Y + c2 * et f)) + X * (k2 * un f * Y + c2 * et f) = k * (un f * (X * Y)) + (k * un f) * (k2 * (un f * (X * Y))) + (k * un f) * (X * c2 * et f) + k2 * (un f * (X * Y)) + X * c2 * et f := by ring
  have q2 : (k + k2 + 1 / 100) * un f * (X * Y) + 100001 / 100000 * (X * c2) * et f = k * (un f * (X * Y)) + k2 * (un f * (X * Y)) + 1 / 100 * (un f * (X * Y)) + X * c2 * et f + 1 / 100000 * (X * c2 * et f) := by ring
  rw [q1, q2]
  linarith

end Xo.Norm
