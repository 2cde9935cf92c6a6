import Verif.Props.C65_Color

/-!
C65: colours with different hue, saturation or value are different, and `make_unique_color` gives different colours of
the requested brightness.
-/
namespace Xo
namespace Col
open Math

section
variable {K : Type} [Field K] [LinearOrder K] [IsStrictOrderedRing K] [FloorRing K]

/-- The weights of red, green and blue in each of the six sectors. -/
theorem sector_weights (h : K) (h0 : 0 ≤ h) (h6 : h < 6) :
    (h < 1 ∧ Spec.weight (5 + h) = 0 ∧ Spec.weight (3 + h) = 1 - h ∧ Spec.weight (1 + h) = 1) ∨
    (1 ≤ h ∧ h < 2 ∧ Spec.weight (5 + h) = h - 1 ∧ Spec.weight (3 + h) = 0 ∧ Spec.weight (1 + h) = 1) ∨
    (2 ≤ h ∧ h < 3 ∧ Spec.weight (5 + h) = 1 ∧ Spec.weight (3 + h) = 0 ∧ Spec.weight (1 + h) = 3 - h) ∨
    (3 ≤ h ∧ h < 4 ∧ Spec.weight (5 + h) = 1 ∧ Spec.weight (3 + h) = h - 3 ∧ Spec.weight (1 + h) = 0) ∨
    (4 ≤ h ∧ h < 5 ∧ Spec.weight (5 + h) = 5 - h ∧ Spec.weight (3 + h) = 1 ∧ Spec.weight (1 + h) = 0) ∨
    (5 ≤ h ∧ Spec.weight (5 + h) = 0 ∧ Spec.weight (3 + h) = 1 ∧ Spec.weight (1 + h) = h - 5) := by
  rcases lt_or_ge h 1 with h1 | h1
  · left
    refine ⟨h1, weight_zero (5 + h) (5 + h) 0 (by push_cast; ring) (by linarith) (by linarith), ?_,
      weight_high (1 + h) (1 + h) 0 (by push_cast; ring) (by linarith) (by linarith)⟩
    rw [weight_fall (3 + h) (3 + h) 0 (by push_cast; ring) (by linarith) (by linarith)]; ring
  rcases lt_or_ge h 2 with h2 | h2
  · right; left
    exact ⟨h1, h2, weight_rise (5 + h) (h - 1) 1 (by push_cast; ring) (by linarith) (by linarith),
      weight_zero (3 + h) (3 + h) 0 (by push_cast; ring) (by linarith) (by linarith),
      weight_high (1 + h) (1 + h) 0 (by push_cast; ring) (by linarith) (by linarith)⟩
  rcases lt_or_ge h 3 with h3 | h3
  · right; right; left
    refine ⟨h2, h3, weight_high (5 + h) (h - 1) 1 (by push_cast; ring) (by linarith) (by linarith),
      weight_zero (3 + h) (3 + h) 0 (by push_cast; ring) (by linarith) (by linarith), ?_⟩
    rw [weight_fall (1 + h) (1 + h) 0 (by push_cast; ring) (by linarith) (by linarith)]; ring
  rcases lt_or_ge h 4 with h4 | h4
  · right; right; right; left
    exact ⟨h3, h4, weight_high (5 + h) (h - 1) 1 (by push_cast; ring) (by linarith) (by linarith),
      weight_rise (3 + h) (h - 3) 1 (by push_cast; ring) (by linarith) (by linarith),
      weight_zero (1 + h) (1 + h) 0 (by push_cast; ring) (by linarith) (by linarith)⟩
  rcases lt_or_ge h 5 with h5 | h5
  · right; right; right; right; left
    refine ⟨h4, h5, ?_, weight_high (3 + h) (h - 3) 1 (by push_cast; ring) (by linarith) (by linarith),
      weight_zero (1 + h) (1 + h) 0 (by push_cast; ring) (by linarith) (by linarith)⟩
    rw [weight_fall (5 + h) (h - 1) 1 (by push_cast; ring) (by linarith) (by linarith)]; ring
  · right; right; right; right; right
    exact ⟨h5, weight_zero (5 + h) (h - 1) 1 (by push_cast; ring) (by linarith) (by linarith),
      weight_high (3 + h) (h - 3) 1 (by push_cast; ring) (by linarith) (by linarith),
      weight_rise (1 + h) (h - 5) 1 (by push_cast; ring) (by linarith) (by linarith)⟩

theorem weights_inj (g h : K) (g0 : 0 ≤ g) (g6 : g < 6) (h0 : 0 ≤ h) (h6 : h < 6)
    (e1 : Spec.weight (5 + g) = Spec.weight (5 + h)) (e2 : Spec.weight (3 + g) = Spec.weight (3 + h))
    (e3 : Spec.weight (1 + g) = Spec.weight (1 + h)) : g = h := by
  rcases sector_weights g g0 g6 with ⟨a1, a2, a3, a4⟩ | ⟨a0, a1, a2, a3, a4⟩ | ⟨a0, a1, a2, a3, a4⟩ |
      ⟨a0, a1, a2, a3, a4⟩ | ⟨a0, a1, a2, a3, a4⟩ | ⟨a1, a2, a3, a4⟩ <;>
    rcases sector_weights h h0 h6 with ⟨b1, b2, b3, b4⟩ | ⟨b0, b1, b2, b3, b4⟩ | ⟨b0, b1, b2, b3, b4⟩ |
      ⟨b0, b1, b2, b3, b4⟩ | ⟨b0, b1, b2, b3, b4⟩ | ⟨b1, b2, b3, b4⟩ <;>
    rw [a2, b2] at e1 <;> rw [a3, b3] at e2 <;> rw [a4, b4] at e3 <;>
    first | linarith | (exfalso; linarith)

/-- **C65.** Hue, saturation and value of a colour that is neither black nor grey are determined by it: different
ones give different colours. -/
theorem C65_hsv_injective (H S V H' S' V' : K) (h0 : 0 ≤ H) (h1 : H < 360) (h0' : 0 ≤ H') (h1' : H' < 360)
    (hS : 0 < S) (hV : 0 < V) (hS' : 0 < S') (hV' : 0 < V') (e : fromHsv H S V = fromHsv H' S' V') :
    H = H' ∧ S = S' ∧ V = V' := by
  obtain ⟨m1, m2⟩ := C65_value_saturation H S V h0 hS.le hV.le
  obtain ⟨m1', m2'⟩ := C65_value_saturation H' S' V' h0' hS'.le hV'.le
  rw [e] at m1 m2
  have eV : V = V' := m1.symm.trans m1'
  have e2 : V * (1 - S) = V' * (1 - S') := m2.symm.trans m2'
  rw [← eV] at e2
  have eS : S = S' := by
    have := mul_left_cancel₀ hV.ne' e2
    linarith
  refine ⟨?_, eS, eV⟩
  obtain ⟨c, _⟩ := C65_hsv_partial H S V h0
  obtain ⟨c', _⟩ := C65_hsv_partial H' S' V' h0'
  rw [e, c', ← eV, ← eS] at c
  unfold Spec.hsv at c
  simp only [Prod.mk.injEq] at c
  have hp : V * S ≠ 0 := (mul_pos hV hS).ne'
  have k : ∀ x y : K, V - V * S * x = V - V * S * y → x = y := fun x y h => mul_left_cancel₀ hp (by linarith)
  have := weights_inj (H' / 60) (H / 60) (by positivity) (by rw [div_lt_iff₀ (by norm_num)]; linarith) (by positivity)
    (by rw [div_lt_iff₀ (by norm_num)]; linarith) (k _ _ c.1) (k _ _ c.2.1) (k _ _ c.2.2)
  have h60 : (60 : K) ≠ 0 := by norm_num
  field_simp at this
  exact this.symm

end

/-- Brightness is proportional to the value. -/
theorem brightness_scale (H S V : ℝ) (hH : 0 ≤ H) (hV : 0 ≤ V) :
    perceivedBrightness (fromHsv H S V) = V * perceivedBrightness (fromHsv H S 1) := by
  obtain ⟨c, _⟩ := C65_hsv_partial H S V hH
  obtain ⟨c', _⟩ := C65_hsv_partial H S 1 hH
  unfold Spec.hsv at c c'
  simp only [Prod.mk.injEq] at c c'
  obtain ⟨r, g, b⟩ := c
  obtain ⟨r', g', b'⟩ := c'
  unfold perceivedBrightness
  rw [r, g, b, r', g', b']
  rw [show V * √(299 / 1000 * (1 - 1 * S * Spec.weight (5 + H / 60)) * (1 - 1 * S * Spec.weight (5 + H / 60)) +
      587 / 1000 * (1 - 1 * S * Spec.weight (3 + H / 60)) * (1 - 1 * S * Spec.weight (3 + H / 60)) +
      114 / 1000 * (1 - 1 * S * Spec.weight (1 + H / 60)) * (1 - 1 * S * Spec.weight (1 + H / 60))) =
      √(V ^ 2) * √(299 / 1000 * (1 - 1 * S * Spec.weight (5 + H / 60)) * (1 - 1 * S * Spec.weight (5 + H / 60)) +
      587 / 1000 * (1 - 1 * S * Spec.weight (3 + H / 60)) * (1 - 1 * S * Spec.weight (3 + H / 60)) +
      114 / 1000 * (1 - 1 * S * Spec.weight (1 + H / 60)) * (1 - 1 * S * Spec.weight (1 + H / 60))) by
    rw [Real.sqrt_sq hV]]
  rw [← Real.sqrt_mul (sq_nonneg V)]
  congr 1
  ring

/-- Full value, saturation in `[0, 1]`: the brightness is positive and at most 1. -/
theorem brightness_full (H S : ℝ) (hH : 0 ≤ H) (hS0 : 0 ≤ S) (hS1 : S ≤ 1) :
    0 < perceivedBrightness (fromHsv H S 1) ∧ perceivedBrightness (fromHsv H S 1) ≤ 1 := by
  obtain ⟨m1, m2⟩ := C65_value_saturation H S 1 hH hS0 zero_le_one
  generalize fromHsv H S 1 = c at *
  have lo : 0 ≤ min c.r (min c.g c.b) := by rw [m2]; linarith
  have r0 : 0 ≤ c.r := le_trans lo (min_le_left _ _)
  have g0 : 0 ≤ c.g := le_trans lo (le_trans (min_le_right _ _) (min_le_left _ _))
  have b0 : 0 ≤ c.b := le_trans lo (le_trans (min_le_right _ _) (min_le_right _ _))
  have r1 : c.r ≤ 1 := m1 ▸ le_max_left _ _
  have g1 : c.g ≤ 1 := m1 ▸ le_trans (le_max_left _ _) (le_max_right _ _)
  have b1 : c.b ≤ 1 := m1 ▸ le_trans (le_max_right _ _) (le_max_right _ _)
  have one : c.r = 1 ∨ c.g = 1 ∨ c.b = 1 := by
    rcases max_choice c.r (max c.g c.b) with h | h
    · left; rw [← h]; exact m1
    · rcases max_choice c.g c.b with h' | h'
      · right; left; rw [h, h'] at m1; exact m1
      · right; right; rw [h, h'] at m1; exact m1
  unfold perceivedBrightness
  constructor
  · apply Real.sqrt_pos.2
    have rr := mul_self_nonneg c.r
    have gg := mul_self_nonneg c.g
    have bb := mul_self_nonneg c.b
    rcases one with h | h | h
    · rw [h]; nlinarith
    · rw [h]; nlinarith
    · rw [h]; nlinarith
  · apply Real.sqrt_le_one.2
    have rr : c.r * c.r ≤ 1 := by nlinarith
    have gg : c.g * c.g ≤ 1 := by nlinarith
    have bb : c.b * c.b ≤ 1 := by nlinarith
    nlinarith

theorem uniqueSat_pos (i : ℕ) : 0 < uniqueSat i ∧ uniqueSat i ≤ 1 := by
  unfold uniqueSat
  have : (0 : ℝ) ≤ ((i / 12 : ℕ) : ℝ) := Nat.cast_nonneg _
  constructor
  · positivity
  · rw [div_le_one (by linarith)]; linarith

theorem uniqueHue_lt (i : ℕ) : uniqueHue i < 360 := by
  have hi : i % 12 < 12 := Nat.mod_lt _ (by norm_num)
  unfold uniqueHue
  generalize i % 12 = k at hi
  revert k; decide

theorem uniqueHue_inj (i j : ℕ) (h : uniqueHue i = uniqueHue j) : i % 12 = j % 12 := by
  have hi : i % 12 < 12 := Nat.mod_lt _ (by norm_num)
  have hj : j % 12 < 12 := Nat.mod_lt _ (by norm_num)
  unfold uniqueHue at h
  generalize i % 12 = k at *
  generalize j % 12 = l at *
  revert k l; decide

/-- **C65.** `make_unique_color` never gives the same colour for two indices, at any brightness in `(0, 1]`. -/
theorem C65_unique (i j : ℕ) (b b' : ℝ) (hb : 0 < b) (hb1 : b ≤ 1) (hb' : 0 < b') (hb1' : b' ≤ 1)
    (e : makeUnique i b = makeUnique j b') : i = j := by
  have cl : ∀ v b : ℝ, 0 < b → b ≤ 1 → 0 < clamp v b 1 := by
    intro v b h0 h1; unfold clamp; split_ifs <;> linarith
  have bound : ∀ k, ((uniqueHue k : ℕ) : ℝ) < 360 := fun k => by exact_mod_cast uniqueHue_lt k
  unfold makeUnique at e
  obtain ⟨h1, h2, _⟩ := C65_hsv_injective _ _ _ _ _ _ (Nat.cast_nonneg _) (bound i) (Nat.cast_nonneg _) (bound j)
    (uniqueSat_pos i).1 (cl _ _ hb hb1) (uniqueSat_pos j).1 (cl _ _ hb' hb1') e
  have hm := uniqueHue_inj i j (by exact_mod_cast h1)
  have hd : i / 12 = j / 12 := by
    unfold uniqueSat at h2
    have hi : (0 : ℝ) ≤ ((i / 12 : ℕ) : ℝ) := Nat.cast_nonneg _
    have hj : (0 : ℝ) ≤ ((j / 12 : ℕ) : ℝ) := Nat.cast_nonneg _
    have : (1 : ℝ) + ((i / 12 : ℕ) : ℝ) = 1 + ((j / 12 : ℕ) : ℝ) := by
      have h3 := congrArg (fun x => x⁻¹) h2
      simpa using h3
    have : ((i / 12 : ℕ) : ℝ) = ((j / 12 : ℕ) : ℝ) := by linarith
    exact_mod_cast this
  omega

/-- **C65.** The colour has the requested brightness, or the largest that its hue and saturation allow if that is
smaller; it is opaque. -/
theorem C65_unique_brightness (i : ℕ) (b : ℝ) (hb : 0 < b) (hb1 : b ≤ 1) :
    perceivedBrightness (makeUnique i b) = min b (perceivedBrightness (fromHsv (uniqueHue i : ℝ) (uniqueSat i) 1)) ∧
    (makeUnique i b).a = 1 := by
  obtain ⟨s0, s1⟩ := uniqueSat_pos i
  obtain ⟨p0, p1⟩ := brightness_full (uniqueHue i : ℝ) (uniqueSat i) (Nat.cast_nonneg _) s0.le s1
  refine ⟨?_, (C65_hsv_partial _ _ _ (Nat.cast_nonneg _)).2⟩
  unfold makeUnique
  simp only
  have cl : ∀ v : ℝ, 0 ≤ clamp v b 1 := by
    intro v; unfold clamp; split_ifs <;> linarith
  rw [brightness_scale _ _ _ (Nat.cast_nonneg _) (cl _)]
  generalize perceivedBrightness (fromHsv (uniqueHue i : ℝ) (uniqueSat i) 1) = p at *
  have lo : b ≤ b / p := by rw [le_div_iff₀ p0]; nlinarith
  rcases le_or_gt b p with h | h
  · have : clamp (b / p) b 1 = b / p := by
      unfold clamp
      rw [if_neg (not_lt.2 lo), if_neg (not_lt.2 (by rw [div_le_one p0]; exact h))]
    rw [this, min_eq_left h]
    field_simp
  · have : clamp (b / p) b 1 = 1 := by
      unfold clamp
      rw [if_neg (not_lt.2 lo), if_pos (by rw [gt_iff_lt, one_lt_div p0]; exact h)]
    rw [this, min_eq_right h.le, one_mul]

end Col
end Xo
