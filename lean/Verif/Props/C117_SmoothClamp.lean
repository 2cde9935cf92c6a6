import Verif.Model.NumFns
import Mathlib.Analysis.Calculus.ContDiff.Deriv
import Mathlib.Analysis.SpecialFunctions.Trigonometric.DerivHyp
import Mathlib.Analysis.Calculus.Deriv.MeanValue
import Mathlib.Analysis.SpecialFunctions.Log.Basic
import Mathlib.Tactic.Linarith
import Mathlib.Tactic.FieldSimp
import Mathlib.Tactic.Ring

/-!
C117: the smooth clamp.
-/
namespace Xo
namespace NumF
open Topology

/-- Two functions with derivatives that meet at `b` with the same value and slope. -/
theorem hasDerivAt_glue {f g f' g' : ℝ → ℝ} {b : ℝ} (hf : ∀ x, HasDerivAt f (f' x) x) (hg : ∀ x, HasDerivAt g (g' x) x)
    (h0 : f b = g b) (h1 : f' b = g' b) (x : ℝ) :
    HasDerivAt (fun x => if x < b then f x else g x) (if x < b then f' x else g' x) x := by
  rcases lt_trichotomy x b with h | h | h
  · rw [if_pos h]
    refine (hf x).congr_of_eventuallyEq ?_
    filter_upwards [Iio_mem_nhds h] with y hy
    exact if_pos hy
  · subst h
    rw [if_neg (lt_irrefl x)]
    have hl : HasDerivWithinAt (fun y => if y < x then f y else g y) (g' x) (Set.Iic x) x := by
      refine ((hf x).hasDerivWithinAt.congr_deriv h1).congr ?_ ?_
      · intro y hy
        rcases lt_or_eq_of_le (show y ≤ x from hy) with h | h
        · exact if_pos h
        · subst h; rw [if_neg (lt_irrefl _), h0]
      · rw [if_neg (lt_irrefl _), h0]
    have hr : HasDerivWithinAt (fun y => if y < x then f y else g y) (g' x) (Set.Ici x) x := by
      refine (hg x).hasDerivWithinAt.congr ?_ ?_
      · intro y hy; exact if_neg (not_lt.2 hy)
      · exact if_neg (lt_irrefl _)
    have := hl.union hr
    rwa [Set.Iic_union_Ici, hasDerivWithinAt_univ] at this
  · rw [if_neg h.not_gt]
    refine (hg x).congr_of_eventuallyEq ?_
    filter_upwards [Ioi_mem_nhds h] with y hy
    exact if_neg (not_lt.2 (le_of_lt hy))

/-- The same with the border in the first part. -/
theorem hasDerivAt_glue' {f g f' g' : ℝ → ℝ} {b : ℝ} (hf : ∀ x, HasDerivAt f (f' x) x) (hg : ∀ x, HasDerivAt g (g' x) x)
    (h0 : f b = g b) (h1 : f' b = g' b) (x : ℝ) :
    HasDerivAt (fun x => if x > b then g x else f x) (if x > b then g' x else f' x) x := by
  have e : ∀ (p q : ℝ → ℝ), p b = q b → (fun x => if x > b then q x else p x) = fun x => if x < b then p x else q x := by
    intro p q h
    funext y
    rcases lt_trichotomy y b with hy | hy | hy
    · simp [hy, hy.not_gt]
    · subst hy; simp [h]
    · simp [hy, hy.not_gt]
  have := hasDerivAt_glue hf hg h0 h1 x
  rw [e f g h0, show (if x > b then g' x else f' x) = if x < b then f' x else g' x from congrFun (e f' g' h1) x]
  exact this

theorem hasDerivAt_tanh (x : ℝ) : HasDerivAt Real.tanh (1 - Real.tanh x ^ 2) x := by
  have hc := (Real.cosh_pos x).ne'
  have h := (Real.hasDerivAt_sinh x).div (Real.hasDerivAt_cosh x) hc
  have e : (Real.sinh / Real.cosh) = Real.tanh := by funext y; rw [Pi.div_apply, Real.tanh_eq_sinh_div_cosh]
  rw [e] at h
  refine h.congr_deriv ?_
  rw [Real.tanh_eq_sinh_div_cosh]; field_simp

/-- A bent end: slope 1 at `b`, and it ends at distance `a`. -/
noncomputable def bend (a b v : ℝ) : ℝ := a * Real.tanh ((v - b) / a) + b

theorem bend_deriv (a b : ℝ) (ha : a ≠ 0) (v : ℝ) : HasDerivAt (bend a b) (1 - Real.tanh ((v - b) / a) ^ 2) v := by
  have h1 : HasDerivAt (fun v => (v - b) / a) (1 / a) v := ((hasDerivAt_id v).sub_const b).div_const a
  have h2 := (((hasDerivAt_tanh _).comp v h1).const_mul a).add_const b
  refine h2.congr_deriv ?_
  field_simp

theorem bend_deriv2 (a b : ℝ) (v : ℝ) : HasDerivAt (fun v => 1 - Real.tanh ((v - b) / a) ^ 2)
    (-(2 * Real.tanh ((v - b) / a) * ((1 - Real.tanh ((v - b) / a) ^ 2) * (1 / a)))) v := by
  have h1 : HasDerivAt (fun v => (v - b) / a) (1 / a) v := ((hasDerivAt_id v).sub_const b).div_const a
  have h2 := (((hasDerivAt_tanh _).comp v h1).pow 2).const_sub 1
  refine h2.congr_deriv ?_
  simp

theorem bend_at (a b : ℝ) : bend a b b = b := by simp [bend]

theorem tanh_continuous : Continuous Real.tanh :=
  continuous_iff_continuousAt.2 fun x => (hasDerivAt_tanh x).continuousAt

variable (mn mx lb ub : ℝ)

theorem smooth_eq : (fun v => smoothClamped v mn mx lb ub) =
    fun v => if v < lb then bend (lb - mn) lb v else if v > ub then bend (mx - ub) ub v else v := rfl

/-- The slope of the smooth clamp. -/
noncomputable def slope (v : ℝ) : ℝ :=
  if v < lb then 1 - Real.tanh ((v - lb) / (lb - mn)) ^ 2
  else if v > ub then 1 - Real.tanh ((v - ub) / (mx - ub)) ^ 2 else 1

theorem smooth_deriv (h1 : mn < lb) (h2 : lb ≤ ub) (h3 : ub < mx) (v : ℝ) :
    HasDerivAt (fun v => smoothClamped v mn mx lb ub) (slope mn mx lb ub v) v := by
  rw [smooth_eq]
  refine hasDerivAt_glue (g' := fun v => if v > ub then 1 - Real.tanh ((v - ub) / (mx - ub)) ^ 2 else 1)
    (bend_deriv _ _ (by linarith)) (fun x => ?_) ?_ ?_ v
  · exact hasDerivAt_glue' (f := fun v => v) (f' := fun _ => 1) (fun x => hasDerivAt_id x) (bend_deriv _ _ (by linarith))
      (bend_at _ _).symm (by simp) x
  · rw [bend_at, if_neg (not_lt.2 h2)]
  · simp [h2.not_gt]

theorem slope_deriv (h2 : lb ≤ ub) (v : ℝ) : HasDerivAt (slope mn mx lb ub)
    (if v < lb then -(2 * Real.tanh ((v - lb) / (lb - mn)) * ((1 - Real.tanh ((v - lb) / (lb - mn)) ^ 2) * (1 / (lb - mn))))
      else if v > ub then -(2 * Real.tanh ((v - ub) / (mx - ub)) * ((1 - Real.tanh ((v - ub) / (mx - ub)) ^ 2) * (1 / (mx - ub))))
      else 0) v := by
  refine hasDerivAt_glue
    (g' := fun v => if v > ub then -(2 * Real.tanh ((v - ub) / (mx - ub)) * ((1 - Real.tanh ((v - ub) / (mx - ub)) ^ 2) * (1 / (mx - ub)))) else 0)
    (bend_deriv2 _ _) (fun x => ?_) ?_ ?_ v
  · exact hasDerivAt_glue' (f := fun _ => 1) (f' := fun _ => 0) (fun x => hasDerivAt_const x 1) (bend_deriv2 _ _)
      (by simp) (by simp) x
  · simp [h2.not_gt]
  · simp [h2.not_gt]

theorem curv_continuous (h2 : lb ≤ ub) : Continuous fun v =>
    (if v < lb then -(2 * Real.tanh ((v - lb) / (lb - mn)) * ((1 - Real.tanh ((v - lb) / (lb - mn)) ^ 2) * (1 / (lb - mn))))
      else if v > ub then -(2 * Real.tanh ((v - ub) / (mx - ub)) * ((1 - Real.tanh ((v - ub) / (mx - ub)) ^ 2) * (1 / (mx - ub))))
      else 0 : ℝ) := by
  have hc : ∀ a b : ℝ, Continuous fun v => -(2 * Real.tanh ((v - b) / a) * ((1 - Real.tanh ((v - b) / a) ^ 2) * (1 / a))) := by
    intro a b
    have : Continuous fun v => Real.tanh ((v - b) / a) := tanh_continuous.comp (by fun_prop)
    fun_prop
  have h : Continuous fun v =>
    (if lb ≤ v then (if v ≤ ub then 0
      else -(2 * Real.tanh ((v - ub) / (mx - ub)) * ((1 - Real.tanh ((v - ub) / (mx - ub)) ^ 2) * (1 / (mx - ub)))))
      else -(2 * Real.tanh ((v - lb) / (lb - mn)) * ((1 - Real.tanh ((v - lb) / (lb - mn)) ^ 2) * (1 / (lb - mn)))) : ℝ) := by
    refine Continuous.if_le ?_ (hc _ _) continuous_const continuous_id ?_
    · exact Continuous.if_le continuous_const (hc _ _) continuous_id continuous_const (by rintro x rfl; simp)
    · rintro x rfl; simp [h2]
  convert h using 2 with v
  by_cases h1 : v < lb
  · rw [if_pos h1, if_neg (not_le.2 h1)]
  · rw [if_neg h1, if_pos (not_lt.1 h1)]
    by_cases h3 : v > ub
    · rw [if_pos h3, if_neg (not_le.2 h3)]
    · rw [if_neg h3, if_pos (not_lt.1 h3)]

variable {mn mx lb ub}

/-- **C117, smoothness (partial).** With `min < lb ≤ ub < max`, the clamp is twice continuously differentiable. Missing:
`lb = min` and `ub = max`, where it fails. -/
theorem C117_smooth_partial (h1 : mn < lb) (h2 : lb ≤ ub) (h3 : ub < mx) :
    ContDiff ℝ 2 fun v => smoothClamped v mn mx lb ub := by
  have d1 : deriv (fun v => smoothClamped v mn mx lb ub) = slope mn mx lb ub :=
    funext fun v => (smooth_deriv mn mx lb ub h1 h2 h3 v).deriv
  rw [show (2 : WithTop ℕ∞) = 1 + 1 from rfl, contDiff_succ_iff_deriv]
  refine ⟨fun v => (smooth_deriv mn mx lb ub h1 h2 h3 v).differentiableAt, by simp, ?_⟩
  rw [d1, contDiff_one_iff_deriv]
  refine ⟨fun v => (slope_deriv mn mx lb ub h2 v).differentiableAt, ?_⟩
  rw [show deriv (slope mn mx lb ub) = _ from funext fun v => (slope_deriv mn mx lb ub h2 v).deriv]
  exact curv_continuous mn mx lb ub h2

/-- **C117, limits.** The result is strictly between the limits. -/
theorem C117_range (h1 : mn < lb) (h2 : lb ≤ ub) (h3 : ub < mx) (v : ℝ) :
    mn < smoothClamped v mn mx lb ub ∧ smoothClamped v mn mx lb ub < mx := by
  unfold smoothClamped
  split
  · rename_i h
    have a1 := Real.neg_one_lt_tanh ((v - lb) / (lb - mn))
    have a2 := Real.tanh_lt_one ((v - lb) / (lb - mn))
    have : 0 < lb - mn := by linarith
    have hneg : Real.tanh ((v - lb) / (lb - mn)) ≤ 0 := by
      have hq : (v - lb) / (lb - mn) ≤ 0 := div_nonpos_of_nonpos_of_nonneg (by linarith) this.le
      rw [Real.tanh_eq_sinh_div_cosh]
      exact div_nonpos_of_nonpos_of_nonneg (Real.sinh_nonpos_iff.2 hq) (Real.cosh_pos _).le
    constructor <;> nlinarith
  · split
    · rename_i h
      have a1 := Real.neg_one_lt_tanh ((v - ub) / (mx - ub))
      have a2 := Real.tanh_lt_one ((v - ub) / (mx - ub))
      have : 0 < mx - ub := by linarith
      have hpos : 0 ≤ Real.tanh ((v - ub) / (mx - ub)) := by
        have hq : 0 ≤ (v - ub) / (mx - ub) := div_nonneg (by linarith) this.le
        rw [Real.tanh_eq_sinh_div_cosh]
        exact div_nonneg (Real.sinh_nonneg_iff.2 hq) (Real.cosh_pos _).le
      constructor <;> nlinarith
    · constructor <;> linarith

/-- **C117, the middle.** Values from `lb` to `ub` are left as they are. -/
theorem C117_middle (v : ℝ) (hl : lb ≤ v) (hu : v ≤ ub) : smoothClamped v mn mx lb ub = v := by
  unfold smoothClamped; rw [if_neg (by linarith), if_neg (by linarith)]

/-- **C117, order.** A larger value gives a larger result. -/
theorem C117_increasing (h1 : mn < lb) (h2 : lb ≤ ub) (h3 : ub < mx) :
    StrictMono fun v => smoothClamped v mn mx lb ub := by
  refine strictMono_of_deriv_pos fun v => ?_
  rw [(smooth_deriv mn mx lb ub h1 h2 h3 v).deriv]
  unfold slope
  split
  · linarith [Real.tanh_sq_lt_one ((v - lb) / (lb - mn))]
  · split
    · linarith [Real.tanh_sq_lt_one ((v - ub) / (mx - ub))]
    · norm_num

/-- **C117, no amplification.** Results are no further apart than the values. -/
theorem C117_lipschitz (h1 : mn < lb) (h2 : lb ≤ ub) (h3 : ub < mx) (u v : ℝ) :
    |smoothClamped u mn mx lb ub - smoothClamped v mn mx lb ub| ≤ |u - v| := by
  have hb : ∀ x ∈ (Set.univ : Set ℝ), ‖slope mn mx lb ub x‖ ≤ 1 := by
    intro x _
    rw [Real.norm_eq_abs, abs_le]
    unfold slope
    split
    · have := Real.tanh_sq_lt_one ((x - lb) / (lb - mn)); have := sq_nonneg (Real.tanh ((x - lb) / (lb - mn)))
      constructor <;> linarith
    · split
      · have := Real.tanh_sq_lt_one ((x - ub) / (mx - ub)); have := sq_nonneg (Real.tanh ((x - ub) / (mx - ub)))
        constructor <;> linarith
      · constructor <;> norm_num
  have := Convex.norm_image_sub_le_of_norm_hasDerivWithin_le
    (fun x _ => (smooth_deriv mn mx lb ub h1 h2 h3 x).hasDerivWithinAt) hb convex_univ (Set.mem_univ v) (Set.mem_univ u)
  simpa using this

/-- **C117, the whole range.** Every number strictly between the limits is a result. -/
theorem C117_onto (h1 : mn < lb) (h2 : lb ≤ ub) (h3 : ub < mx) (y : ℝ) (hy : mn < y) (hy' : y < mx) :
    ∃ v, smoothClamped v mn mx lb ub = y := by
  have inv : ∀ t : ℝ, -1 < t → t < 1 → ∃ x, Real.tanh x = t := by
    intro t ht ht'
    refine ⟨Real.log ((1 + t) / (1 - t)) / 2, ?_⟩
    have hp : 0 < (1 + t) / (1 - t) := div_pos (by linarith) (by linarith)
    set z := Real.log ((1 + t) / (1 - t)) / 2 with hz
    have e1 : Real.exp z * Real.exp z = (1 + t) / (1 - t) := by
      rw [← Real.exp_add, hz, add_halves, Real.exp_log hp]
    have e2 : Real.exp z * Real.exp (-z) = 1 := by rw [← Real.exp_add]; simp
    have p1 := Real.exp_pos z
    have p2 := Real.exp_pos (-z)
    rw [Real.tanh_eq, div_eq_iff (by positivity)]
    have hne : (1 - t) ≠ 0 := by linarith
    rw [eq_div_iff hne] at e1
    have : Real.exp z * (Real.exp z - Real.exp (-z)) = Real.exp z * (t * (Real.exp z + Real.exp (-z))) := by
      linear_combination e1 - (1 + t) * e2
    exact mul_left_cancel₀ p1.ne' this
  have posi : ∀ x : ℝ, 0 < Real.tanh x → 0 < x := by
    intro x h
    rw [Real.tanh_eq_sinh_div_cosh, div_pos_iff_of_pos_right (Real.cosh_pos x)] at h
    exact Real.sinh_pos_iff.1 h
  have nega : ∀ x : ℝ, Real.tanh x < 0 → x < 0 := by
    intro x h
    have := posi (-x) (by rw [Real.tanh_neg]; linarith)
    linarith
  rcases lt_or_ge y lb with h | h
  · have ha : 0 < lb - mn := by linarith
    obtain ⟨x, hx⟩ := inv ((y - lb) / (lb - mn)) (by rw [lt_div_iff₀ ha]; linarith) (by rw [div_lt_iff₀ ha]; linarith)
    have hn : x < 0 := nega x (by rw [hx]; exact div_neg_of_neg_of_pos (by linarith) ha)
    refine ⟨lb + (lb - mn) * x, ?_⟩
    unfold smoothClamped
    rw [if_pos (by nlinarith), show (lb + (lb - mn) * x - lb) / (lb - mn) = x by field_simp; ring, hx]
    field_simp; ring
  · rcases le_or_gt y ub with h' | h'
    · exact ⟨y, C117_middle y h h'⟩
    · have ha : 0 < mx - ub := by linarith
      obtain ⟨x, hx⟩ := inv ((y - ub) / (mx - ub)) (by rw [lt_div_iff₀ ha]; linarith) (by rw [div_lt_iff₀ ha]; linarith)
      have hn : 0 < x := posi x (by rw [hx]; exact div_pos (by linarith) ha)
      refine ⟨ub + (mx - ub) * x, ?_⟩
      unfold smoothClamped
      have : 0 < (mx - ub) * x := mul_pos ha hn
      rw [if_neg (by linarith), if_pos (by linarith), show (ub + (mx - ub) * x - ub) / (mx - ub) = x by field_simp; ring, hx]
      field_simp; ring

/-- **C117 is violated at the ends of the allowed boundaries.** With `lb = min`, which the description allows, the clamp
is a hard one and has a kink: it is not differentiable, let alone twice. -/
theorem C117_kink_violated (h : mn < ub) : ¬ DifferentiableAt ℝ (fun v => smoothClamped v mn mx mn ub) mn := by
  intro hd
  have hd' := hd.hasDerivAt
  set d := deriv (fun v => smoothClamped v mn mx mn ub) mn
  have l : HasDerivWithinAt (fun v => smoothClamped v mn mx mn ub) 0 (Set.Iic mn) mn := by
    refine (hasDerivWithinAt_const mn (Set.Iic mn) mn).congr ?_ ?_
    · intro y hy
      unfold smoothClamped
      split
      · simp
      · rw [if_neg (by have : y ≤ mn := hy; linarith)]; have : y ≤ mn := hy; linarith
    · unfold smoothClamped; rw [if_neg (lt_irrefl _), if_neg (by linarith)]
  have r : HasDerivWithinAt (fun v => smoothClamped v mn mx mn ub) 1 (Set.Icc mn ub) mn := by
    refine (hasDerivWithinAt_id mn (Set.Icc mn ub)).congr ?_ ?_
    · intro y hy; exact C117_middle y hy.1 hy.2
    · exact C117_middle mn le_rfl h.le
  have e1 : d = 0 := (uniqueDiffOn_Iic mn mn (by simp)).eq_deriv _ hd'.hasDerivWithinAt l
  have e2 : d = 1 := (uniqueDiffOn_Icc h mn ⟨le_rfl, h.le⟩).eq_deriv _ hd'.hasDerivWithinAt r
  linarith

/-- Non-vacuity. -/
example : ContDiff ℝ 2 fun v => smoothClamped v 0 10 2 9 := C117_smooth_partial (by norm_num) (by norm_num) (by norm_num)
example : smoothClamped 5 0 10 2 9 = 5 := C117_middle 5 (by norm_num) (by norm_num)

end NumF
end Xo
