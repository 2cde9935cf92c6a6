import Verif.Lemmas.Ieee

/-!
# C121: values between two floating-point numbers, with rounding

`midpoint`, the mean that `median` takes, `bounds::center` and `lerp`, for `float`, `double` and any wider type.
-/
namespace Xo
namespace Ieee
open Num Spec

variable {f : Fmt}

/-- The value of a finite result. -/
theorem sub_finite {s t : Bool} {x y : Rat} (h : Finite (sub f (.fin s x) (.fin t y))) :
    ∃ r m, sub f (.fin s x) (.fin t y) = .fin r m ∧ val (.fin r m) = rq f (val (.fin s x) - val (.fin t y)) := by
  have e : val (.fin (!t) y) = -val (.fin t y) := num_neg (a := .fin t y) t y
  obtain ⟨_, r, m, h1, h2⟩ := finite_ofRat (f := f) h
  refine ⟨r, m, h1, ?_⟩
  rw [h2, e, sub_eq_add_neg]

theorem mid_core (hf : f.Ok) {s t : Bool} {x y : Rat} (ha : OfType f (.fin s x)) (hb : OfType f (.fin t y))
    (hle : val (.fin s x) ≤ val (.fin t y)) :
    let m := rq f (val (.fin s x) + rq f (rq f (val (.fin t y) - val (.fin s x)) / 2))
    val (.fin s x) ≤ m ∧ m ≤ val (.fin t y) := by
  have h1 := half_le hf (sub_nonneg.2 hle) (diff_mul hb ha)
  have h2 : 0 ≤ rq f (rq f (val (.fin t y) - val (.fin s x)) / 2) :=
    rq_nonneg (div_nonneg (rq_nonneg (sub_nonneg.2 hle)) (by norm_num))
  constructor
  · conv_lhs => rw [← rq_val ha]
    exact rq_mono hf (by linarith)
  · conv_rhs => rw [← rq_val hb]
    exact rq_mono hf (by linarith)

/-- **C121, midpoint.** If the difference of two finite numbers is not too big for the type, their midpoint is finite and
lies between them. -/
theorem C121_midpoint_partial (hf : f.Ok) {s t : Bool} {x y : Rat} (ha : OfType f (.fin s x)) (hb : OfType f (.fin t y))
    (hd : Finite (sub f (.fin t y) (.fin s x))) :
    ∃ r m, midpoint f (.fin s x) (.fin t y) = .fin r m ∧
      min (val (.fin s x)) (val (.fin t y)) ≤ val (.fin r m) ∧ val (.fin r m) ≤ max (val (.fin s x)) (val (.fin t y)) := by
  obtain ⟨r1, m1, e1, v1⟩ := sub_finite hd
  unfold midpoint
  rw [e1]
  have hdo : OfType f (.fin r1 m1) := e1 ▸ add_ofType hf _ _
  have hhalf : |rq f (val (.fin r1 m1) / val (.fin false ((2 : Nat) : Rat)))| < 2 ^ f.emax := by
    have hv2 : val (.fin false ((2 : Nat) : Rat)) = 2 := by simp [val]
    rw [hv2]
    obtain ⟨l1, l2⟩ := abs_lt.1 (val_lt hdo)
    have q := rq_val hdo
    rw [abs_lt]
    rcases le_total 0 (val (.fin r1 m1)) with h | h
    · have := rq_mono hf (show val (.fin r1 m1) / 2 ≤ val (.fin r1 m1) by linarith)
      have h0 := rq_nonneg (f := f) (show 0 ≤ val (.fin r1 m1) / 2 by linarith)
      have := two_pos' f.emax
      constructor <;> linarith
    · have := rq_mono hf (show val (.fin r1 m1) ≤ val (.fin r1 m1) / 2 by linarith)
      have h0 := rq_nonneg (f := f) (show 0 ≤ -(val (.fin r1 m1) / 2) by linarith)
      rw [rq_neg] at h0
      have := two_pos' f.emax
      constructor <;> linarith
  obtain ⟨r2, m2, e2, v2⟩ := ofRat_finite (f := f) (z := (r1 != false)) hhalf
  have ed : div f (.fin r1 m1) (ofNat 2) = .fin r2 m2 := by
    rw [div_nat _ _ _ (by norm_num)]
    exact e2
  rw [ed]
  have hv2 : val (.fin r2 m2) = rq f (rq f (val (.fin t y) - val (.fin s x)) / 2) := by
    rw [v2, v1]; simp [val]
  have hm : min (val (.fin s x)) (val (.fin t y)) ≤ rq f (val (.fin s x) + val (.fin r2 m2)) ∧
      rq f (val (.fin s x) + val (.fin r2 m2)) ≤ max (val (.fin s x)) (val (.fin t y)) := by
    rw [hv2]
    rcases le_total (val (.fin s x)) (val (.fin t y)) with h | h
    · rw [min_eq_left h, max_eq_right h]; exact mid_core hf ha hb h
    · rw [min_eq_right h, max_eq_left h]
      have ha' : OfType f (.fin (!s) x) := ha
      have hb' : OfType f (.fin (!t) y) := hb
      have ea : val (.fin (!s) x) = -val (.fin s x) := num_neg (a := .fin s x) s x
      have eb : val (.fin (!t) y) = -val (.fin t y) := num_neg (a := .fin t y) t y
      have := mid_core hf ha' hb' (by rw [ea, eb]; linarith)
      simp only [ea, eb] at this
      rw [show -val (.fin t y) - -val (.fin s x) = -(val (.fin t y) - val (.fin s x)) by ring, rq_neg, neg_div, rq_neg,
        ← neg_add, rq_neg] at this
      constructor <;> linarith [this.1, this.2]
  obtain ⟨r, m, e3, v3⟩ := ofRat_finite (f := f) (z := (s && r2)) (x := val (.fin s x) + val (.fin r2 m2)) (by
    obtain ⟨a1, a2⟩ := abs_lt.1 (val_lt ha)
    obtain ⟨b1, b2⟩ := abs_lt.1 (val_lt hb)
    rw [abs_lt]
    exact ⟨lt_of_lt_of_le (lt_min a1 b1) hm.1, lt_of_le_of_lt hm.2 (max_lt a2 b2)⟩)
  exact ⟨r, m, e3, by rw [v3]; exact hm.1, by rw [v3]; exact hm.2⟩

example : OfType binary32 (.fin true 3) ∧ OfType binary32 (.fin false (1 / 4)) ∧
    Finite (sub binary32 (.fin false (1 / 4)) (.fin true 3)) ∧
    midpoint binary32 (.fin true 3) (.fin false (1 / 4)) = .fin true (11 / 8) := by
  refine ⟨⟨3, 0, by decide, by decide, by decide, by norm_num⟩, ⟨1, -2, by decide, by decide, by decide, by norm_num⟩, ?_, by decide +kernel⟩
  rw [show sub binary32 (.fin false (1 / 4)) (.fin true 3) = .fin false (13 / 4) by decide +kernel]
  trivial

theorem max_ofType (hf : f.Ok) (s : Bool) : OfType f (.fin s (maxVal f)) := by
  refine ⟨2 ^ f.prec - 1, f.emax - f.prec, Nat.sub_lt (by positivity) (by norm_num), ?_, le_refl _, ?_⟩
  · have := hf.range; omega
  · unfold maxVal
    rw [Nat.cast_sub Nat.one_le_two_pow]
    push_cast
    ring

theorem max_double (hf : f.Ok) : (2 : Rat) ^ f.emax ≤ maxVal f + maxVal f := by
  unfold maxVal
  have hp := hf.prec
  have e : (2 : Rat) ^ f.emax = 2 ^ f.prec * 2 ^ (f.emax - f.prec) := by
    rw [← zpow_natCast, ← zpow_add₀ (by norm_num)]; congr 1; omega
  have h2 : (2 : Rat) ≤ 2 ^ f.prec := by
    calc (2 : Rat) = 2 ^ 1 := by norm_num
      _ ≤ 2 ^ f.prec := pow_le_pow_right₀ (by norm_num) (by omega)
  rw [e]
  nlinarith [two_pos' (f.emax - f.prec)]

/-- **C121, midpoint, violated.** The midpoint of the smallest and the largest number, which is zero, comes out infinite. -/
theorem C121_midpoint_violated (hf : f.Ok) : midpoint f (.fin true (maxVal f)) (.fin false (maxVal f)) = .inf false := by
  have e1 : sub f (.fin false (maxVal f)) (.fin true (maxVal f)) = .inf false := by
    show ofRat f _ _ = _
    refine ofRat_top (rq_big hf ?_)
    simpa [val] using max_double hf
  unfold midpoint
  rw [e1]
  rfl

/-- **C121, mean of two.** If the sum of two finite numbers is not too big for the type, their mean, as `median` computes it,
is finite and lies between them. -/
theorem C121_middle_partial (hf : f.Ok) {s t : Bool} {x y : Rat} (ha : OfType f (.fin s x)) (hb : OfType f (.fin t y))
    (hd : Finite (add f (.fin s x) (.fin t y))) :
    ∃ r m, middle f (.fin s x) (.fin t y) = .fin r m ∧
      min (val (.fin s x)) (val (.fin t y)) ≤ val (.fin r m) ∧ val (.fin r m) ≤ max (val (.fin s x)) (val (.fin t y)) := by
  obtain ⟨-, r1, m1, e1, v1⟩ := finite_ofRat (f := f) hd
  have e1' : add f (.fin s x) (.fin t y) = .fin r1 m1 := e1
  unfold middle
  rw [e1']
  have hm : min (val (.fin s x)) (val (.fin t y)) ≤ rq f (val (.fin r1 m1) / 2) ∧
      rq f (val (.fin r1 m1) / 2) ≤ max (val (.fin s x)) (val (.fin t y)) := by
    rw [v1]
    have key : ∀ {s t : Bool} {x y : Rat}, OfType f (.fin s x) → OfType f (.fin t y) → val (.fin s x) ≤ val (.fin t y) →
        val (.fin s x) ≤ rq f (rq f (val (.fin s x) + val (.fin t y)) / 2) ∧
        rq f (rq f (val (.fin s x) + val (.fin t y)) / 2) ≤ val (.fin t y) := by
      intro s t x y ha hb h
      have h1 := rq_mono hf (show 2 * val (.fin s x) ≤ val (.fin s x) + val (.fin t y) by linarith)
      have h2 := rq_mono hf (show val (.fin s x) + val (.fin t y) ≤ 2 * val (.fin t y) by linarith)
      rw [rq_two_val ha] at h1
      rw [rq_two_val hb] at h2
      constructor
      · conv_lhs => rw [← rq_val ha]
        exact rq_mono hf (by linarith)
      · conv_rhs => rw [← rq_val hb]
        exact rq_mono hf (by linarith)
    rcases le_total (val (.fin s x)) (val (.fin t y)) with h | h
    · rw [min_eq_left h, max_eq_right h]; exact key ha hb h
    · rw [min_eq_right h, max_eq_left h, add_comm]; exact key hb ha h
  have hv2 : val (.fin r1 m1) / val (.fin false ((2 : Nat) : Rat)) = val (.fin r1 m1) / 2 := by simp [val]
  obtain ⟨r, m, e3, v3⟩ := ofRat_finite (f := f) (z := (r1 != false)) (x := val (.fin r1 m1) / 2) (by
    obtain ⟨a1, a2⟩ := abs_lt.1 (val_lt ha)
    obtain ⟨b1, b2⟩ := abs_lt.1 (val_lt hb)
    rw [abs_lt]
    exact ⟨lt_of_lt_of_le (lt_min a1 b1) hm.1, lt_of_le_of_lt hm.2 (max_lt a2 b2)⟩)
  refine ⟨r, m, ?_, by rw [v3]; exact hm.1, by rw [v3]; exact hm.2⟩
  rw [div_nat _ _ _ (by norm_num), hv2]
  exact e3

example : middle binary32 (.fin true 3) (.fin false (1 / 4)) = .fin true (11 / 8) := by decide +kernel

/-- **C121, mean of two, violated.** The mean of the largest number and itself comes out infinite, and so does the center of
the interval with both ends there. -/
theorem C121_middle_violated (hf : f.Ok) :
    middle f (.fin false (maxVal f)) (.fin false (maxVal f)) = .inf false ∧
    Bounds.center f ⟨.fin false (maxVal f), .fin false (maxVal f)⟩ = .inf false := by
  have e1 : add f (.fin false (maxVal f)) (.fin false (maxVal f)) = .inf false := by
    show ofRat f _ _ = _
    refine ofRat_top (rq_big hf ?_)
    simpa [val] using max_double hf
  constructor
  · unfold middle; rw [e1]; rfl
  · unfold Bounds.center; rw [e1]; simp [mul]

/-- A sum with a finite number on the left keeps the order. -/
theorem add_mono (hf : f.Ok) {s : Bool} {x : Rat} (a : Fl) (b : Fl) (ha : ¬ IsNan a) (hb : ¬ IsNan b) (h : num a ≤ num b) :
    ¬ IsNan (add f (.fin s x) a) ∧ ¬ IsNan (add f (.fin s x) b) ∧ num (add f (.fin s x) a) ≤ num (add f (.fin s x) b) := by
  have nn : ∀ c, ¬ IsNan c → ¬ IsNan (add f (.fin s x) c) := by
    intro c hc
    rcases c with r | r | ⟨r, m⟩
    · exact absurd trivial hc
    · exact id
    · exact ofRat_not_nan _ _
  refine ⟨nn a ha, nn b hb, ?_⟩
  rcases a with r | r | ⟨r, m⟩
  · exact absurd trivial ha
  · cases r
    · rcases b with t | t | ⟨t, n⟩
      · exact absurd trivial hb
      · cases t
        · exact le_refl _
        · exact absurd h (by simp [num])
      · exact absurd h (not_le.2 (WithBot.coe_lt_coe.2 (WithTop.coe_lt_top _)))
    · exact bot_le
  · rcases b with t | t | ⟨t, n⟩
    · exact absurd trivial hb
    · cases t
      · show num (ofRat f _ _) ≤ num (.inf false)
        have : ∀ c : WithBot (WithTop Rat), c ≤ num (.inf false) := fun c => by
          cases c
          · exact bot_le
          · exact WithBot.coe_le_coe.2 le_top
        exact this _
      · exact absurd h (by simp [num])
    · rw [num_add, num_add]
      rw [num_fin, num_fin, WithBot.coe_le_coe, WithTop.coe_le_coe] at h
      exact R_mono hf (by linarith)

theorem mul_not_nan (s t : Bool) (x y : Rat) : ¬ IsNan (mul f (.fin s x) (.fin t y)) := ofRat_not_nan _ _

/-- **C121, interpolation keeps the order.** For a larger parameter the result between `a ≤ b` is not smaller, if the
difference is not too big for the type. -/
theorem C121_lerp_mono (hf : f.Ok) {s t : Bool} {x y : Rat} (hle : val (.fin s x) ≤ val (.fin t y))
    (hd : Finite (sub f (.fin t y) (.fin s x))) {p q : Bool} {u v : Rat} (huv : val (.fin p u) ≤ val (.fin q v)) :
    ¬ IsNan (lerp f (.fin s x) (.fin t y) (.fin p u)) ∧ ¬ IsNan (lerp f (.fin s x) (.fin t y) (.fin q v)) ∧
    num (lerp f (.fin s x) (.fin t y) (.fin p u)) ≤ num (lerp f (.fin s x) (.fin t y) (.fin q v)) := by
  obtain ⟨r1, m1, e1, v1⟩ := sub_finite hd
  unfold lerp
  rw [e1]
  refine add_mono hf _ _ (mul_not_nan _ _ _ _) (mul_not_nan _ _ _ _) ?_
  rw [num_mul, num_mul]
  refine R_mono hf (mul_le_mul_of_nonneg_right huv ?_)
  rw [v1]; exact rq_nonneg (sub_nonneg.2 hle)

/-- **C121, interpolation, ends.** The parameter zero gives the first value; between equal values every parameter gives that
value. -/
theorem C121_lerp_start (hf : f.Ok) {s t : Bool} {x y : Rat} (ha : OfType f (.fin s x))
    (hd : Finite (sub f (.fin t y) (.fin s x))) (z : Bool) (p : Bool) (u : Rat) :
    num (lerp f (.fin s x) (.fin t y) (.fin z 0)) = num (.fin s x) ∧
    num (lerp f (.fin s x) (.fin s x) (.fin p u)) = num (.fin s x) := by
  have key : ∀ (c : Fl) (z : Bool), c = .fin z 0 → num (add f (.fin s x) c) = num (.fin s x) := by
    intro c z h
    rw [h, num_add, show val (.fin z 0) = 0 by cases z <;> simp [val], add_zero]
    exact R_val hf ha
  constructor
  · obtain ⟨r1, m1, e1, v1⟩ := sub_finite hd
    unfold lerp
    rw [e1]
    refine key _ (z != r1) ?_
    show ofRat f _ _ = _
    rw [show val (.fin z 0) = 0 by cases z <;> simp [val], zero_mul]
    simp [ofRat]
  · unfold lerp
    have : sub f (.fin s x) (.fin s x) = .fin (s && !s) 0 := by
      show ofRat f _ (val (.fin s x) + val (.fin (!s) x)) = _
      rw [show val (.fin s x) + val (.fin (!s) x) = 0 by cases s <;> simp [val]]
      simp [ofRat]
    rw [this]
    refine key _ (p != (s && !s)) ?_
    show ofRat f _ _ = _
    rw [show val (.fin (s && !s) 0) = 0 by cases s <;> simp [val], mul_zero]
    simp [ofRat]

/-- **C121, interpolation, range.** If the difference of the ends is a number of the type, the parameter one gives the second
value, and parameters from zero to one give values between the ends. -/
theorem C121_lerp_range_partial (hf : f.Ok) {s t : Bool} {x y : Rat} (ha : OfType f (.fin s x)) (hb : OfType f (.fin t y))
    (hd : Xo.Spec.Binary f.prec f.emin f.emax |val (.fin t y) - val (.fin s x)|) (hle : val (.fin s x) ≤ val (.fin t y))
    {p : Bool} {u : Rat} (h0 : 0 ≤ val (.fin p u)) (h1 : val (.fin p u) ≤ 1) :
    num (lerp f (.fin s x) (.fin t y) (ofNat 1)) = num (.fin t y) ∧
    num (.fin s x) ≤ num (lerp f (.fin s x) (.fin t y) (.fin p u)) ∧
    num (lerp f (.fin s x) (.fin t y) (.fin p u)) ≤ num (.fin t y) := by
  have hs : num (sub f (.fin t y) (.fin s x)) = ((val (.fin t y) - val (.fin s x) : Rat) : WithTop Rat) := by
    rw [num_sub]; exact R_exact hf hd
  obtain ⟨r1, m1, e1, v1⟩ := finite_of_num hs
  have hfin : Finite (sub f (.fin t y) (.fin s x)) := by rw [e1]; trivial
  have hone : num (lerp f (.fin s x) (.fin t y) (ofNat 1)) = num (.fin t y) := by
    unfold lerp
    rw [e1]
    have hm : num (mul f (ofNat 1) (.fin r1 m1)) = ((val (.fin t y) - val (.fin s x) : Rat) : WithTop Rat) := by
      show num (mul f (.fin false ((1 : Nat) : Rat)) (.fin r1 m1)) = _
      rw [num_mul, show val (.fin false ((1 : Nat) : Rat)) = 1 by simp [val], one_mul, v1]
      exact R_exact hf hd
    obtain ⟨r2, m2, e2, v2⟩ := finite_of_num hm
    rw [e2, num_add, v2, add_sub_cancel]
    exact R_val hf hb
  refine ⟨hone, ?_, ?_⟩
  · rw [← (C121_lerp_start hf ha hfin false p u).1]
    exact (C121_lerp_mono hf hle hfin (by simpa [val] using h0)).2.2
  · rw [← hone]
    exact (C121_lerp_mono hf hle hfin (p := p) (u := u) (q := false) (v := ((1 : Nat) : Rat)) (by simpa [val] using h1)).2.2

example : num (lerp binary32 (.fin false 1) (.fin false 3) (.fin false (1 / 4))) = num (.fin false (3 / 2)) := by decide +kernel

/-- **C121, interpolation, violated.** With `float`, the parameter one gives 4 between -16777216 and 3: not the second value,
and more than it. Between 1 and a tiny number it gives zero. -/
theorem C121_lerp_violated :
    lerp binary32 (.fin true 16777216) (.fin false 3) (ofNat 1) = .fin false 4 ∧
    lerp binary32 (.fin false 1) (.fin false (1 / 2 ^ 40)) (ofNat 1) = .fin false 0 ∧
    lerp binary64 (.fin true 9007199254740992) (.fin false 3) (ofNat 1) = .fin false 4 := by decide +kernel

end Ieee
end Xo
