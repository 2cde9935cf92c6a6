import Verif.Model.Spline
import Verif.Lemmas.Bound
import Mathlib.Tactic.Module
import Mathlib.Tactic.Ring
import Mathlib.Tactic.FieldSimp
import Mathlib.Tactic.Linarith
import Mathlib.Tactic.Positivity
import Mathlib.Analysis.Calculus.Deriv.Mul
import Mathlib.Analysis.Calculus.Deriv.Add
import Mathlib.Analysis.Calculus.Deriv.Comp
import Mathlib.Analysis.Calculus.Deriv.Pow
import Mathlib.Analysis.SpecialFunctions.Pow.Real

/-!
C57: splines pass through their control points.
-/
namespace Xo.Spline

namespace Spec
variable {K P : Type} [Field K] [AddCommGroup P] [Module K P]

/-- The cubic with values `p`, `q` and tangents `m`, `n` at the parameters 0 and 1 (Hermite form). -/
def hermite (p m q n : P) (u : K) : P :=
  (2 * u ^ 3 - 3 * u ^ 2 + 1 : K) • p + (u ^ 3 - 2 * u ^ 2 + u : K) • m + (-2 * u ^ 3 + 3 * u ^ 2 : K) • q + (u ^ 3 - u ^ 2 : K) • n

/-- The cubic piece from point `i + 1` to point `i + 2`: the tangent at a point is half the difference of its neighbours. -/
def piece (points : List P) (i : Nat) (u : K) : P :=
  hermite (points.getD (i + 1) 0) ((1 / 2 : K) • (points.getD (i + 2) 0 - points.getD i 0)) (points.getD (i + 2) 0)
    ((1 / 2 : K) • (points.getD (i + 3) 0 - points.getD (i + 1) 0)) u

end Spec

open Spec

section field
variable {K P : Type} [Field K] [LinearOrder K] [IsStrictOrderedRing K] [AddCommGroup P] [Module K P]

/-- **C57.** A segment is the cubic with the inner points as ends and half the differences of the neighbours as tangents. -/
theorem C57_segment (p0 p1 p2 p3 : P) (u : K) :
    (Segment.make K p0 p1 p2 p3).eval u = hermite p1 ((1 / 2 : K) • (p2 - p0)) p2 ((1 / 2 : K) • (p3 - p1)) u := by
  unfold Segment.make Segment.eval hermite
  simp only
  module

/-- **C57.** A segment starts in the second point and ends in the third. -/
theorem C57_ends (p0 p1 p2 p3 : P) :
    (Segment.make K p0 p1 p2 p3).eval (0 : K) = p1 ∧ (Segment.make K p0 p1 p2 p3).eval (1 : K) = p2 := by
  rw [C57_segment, C57_segment]
  unfold hermite
  constructor <;> module

/-- **C57.** Points on a line at equal distances give uniform motion along the line. -/
theorem C57_line (p v : P) (u : K) : (Segment.make K (p - v) p (p + v) (p + (2 : K) • v)).eval u = p + u • v := by
  rw [C57_segment]
  unfold hermite
  module

/-- **C57.** Splines commute with translations and with linear maps, so with rotations, scalings and mirrorings. -/
theorem C57_affine {Q : Type} [AddCommGroup Q] [Module K Q] (f : P →ₗ[K] Q) (w : Q) (p0 p1 p2 p3 : P) (u : K) :
    (Segment.make K (f p0 + w) (f p1 + w) (f p2 + w) (f p3 + w)).eval u = f ((Segment.make K p0 p1 p2 p3).eval u) + w := by
  rw [C57_segment, C57_segment]
  unfold hermite
  simp only [map_add, map_smul, map_sub]
  module

/-- **C57.** Run backwards a segment is the segment of the points in reverse order. -/
theorem C57_reverse (p0 p1 p2 p3 : P) (u : K) :
    (Segment.make K p3 p2 p1 p0).eval u = (Segment.make K p0 p1 p2 p3).eval (1 - u) := by
  rw [C57_segment, C57_segment]
  unfold hermite
  module

/-! ### The spline through all points -/

/-- **C57.** A spline is accepted exactly if there are at least four points and two times less than points. -/
theorem C57_make (points : List P) (times : List K) :
    (Curve.make points times).isOk = true ↔ 4 ≤ points.length ∧ times.length + 2 = points.length := by
  unfold Curve.make
  split
  · rename_i h; simp only [Res.isOk, true_iff]; omega
  · rename_i h; simp only [Res.isOk, Bool.false_eq_true, false_iff]; omega

theorem bound_eq_of {α : Type} (l : List α) (p : α → Bool) (n : Nat) (hn : n ≤ l.length)
    (hlt : ∀ i (hi : i < l.length), i < n → p l[i] = true)
    (hge : ∀ i (hi : i < l.length), n ≤ i → p l[i] = false) : bound l p = n := by
  unfold bound
  exact bsearch_spec l p n hn hlt hge l.length 0 (by omega) (by omega) (by omega)

theorem lt_of_sorted {times : List K} (hs : times.Pairwise (· < ·)) {i j : Nat} (hi : i < times.length) (hj : j < times.length)
    (hij : i < j) : times[i] < times[j] := List.pairwise_iff_getElem.1 hs i j hi hj hij

theorem le_of_sorted {times : List K} (hs : times.Pairwise (· < ·)) {i j : Nat} (hi : i < times.length) (hj : j < times.length)
    (hij : i ≤ j) : times[i] ≤ times[j] := by
  rcases Nat.lt_or_ge i j with h | h
  · exact (lt_of_sorted hs hi hj h).le
  · have : i = j := by omega
    subst this; exact le_refl _

/-- The spline evaluates the piece that it selected. -/
theorem eval_at {points : List P} {times : List K} {c : Curve K P} (hc : Curve.make points times = .ok c) (t : K) (it : Nat)
    (hit : (let it := bound c.times fun x => decide (x < t)
      let it := if it = c.times.length then c.times.length - 1 else it
      if it = 0 then 1 else it) = it + 1) (hl : it + 1 < times.length) (hne : times[it + 1] - times[it] ≠ 0) :
    Curve.eval c t = .ok (some (piece points it ((t - times[it]) / (times[it + 1] - times[it])))) := by
  unfold Curve.make at hc
  split at hc
  · rename_i h
    injection hc with hc
    subst hc
    unfold Curve.eval
    simp only at hit ⊢
    rw [hit]
    simp only [Nat.add_sub_cancel]
    have hseg : ((List.range (points.length - 4 + 1)).map fun i =>
            Segment.make K (points.getD i 0) (points.getD (i + 1) 0) (points.getD (i + 2) 0) (points.getD (i + 3) 0))[it]? =
        some (Segment.make K (points.getD it 0) (points.getD (it + 1) 0) (points.getD (it + 2) 0) (points.getD (it + 3) 0)) := by
      rw [List.getElem?_map, List.getElem?_range (by omega)]
      rfl
    rw [hseg, List.getElem?_eq_getElem (by omega), List.getElem?_eq_getElem hl]
    simp only
    rw [if_neg hne, C57_segment]
    rfl
  · cases hc

/-- **C57.** Between two neighbouring times, ends included, a spline follows the cubic piece between the two points. -/
theorem C57_between {points : List P} {times : List K} {c : Curve K P} (hc : Curve.make points times = .ok c)
    (hs : times.Pairwise (· < ·)) (i : Nat) (hi : i + 1 < times.length) (t : K) (h1 : times[i] ≤ t) (h2 : t ≤ times[i + 1]) :
    Curve.eval c t = .ok (some (piece points i ((t - times[i]) / (times[i + 1] - times[i])))) := by
  have hct : c.times = times := by
    unfold Curve.make at hc; split at hc
    · injection hc with hc; subst hc; rfl
    · cases hc
  have hlt := lt_of_sorted hs (by omega) hi (Nat.lt_succ_self i)
  have hne : times[i + 1] - times[i] ≠ 0 := sub_ne_zero.2 hlt.ne'
  rcases h1.lt_or_eq with h | h
  · -- strictly after the left end
    have hb : bound c.times (fun x => decide (x < t)) = i + 1 := by
      rw [hct]
      refine bound_eq_of _ _ _ (by omega) ?_ ?_
      · intro j hj hji
        exact decide_eq_true (lt_of_le_of_lt (le_of_sorted hs hj (by omega) (by omega)) h)
      · intro j hj hji
        exact decide_eq_false (not_lt.2 (le_trans h2 (le_of_sorted hs hi hj hji)))
    refine eval_at hc t i ?_ hi hne
    simp only
    rw [hb, hct, if_neg (show ¬ i + 1 = times.length by omega), if_neg (show ¬ i + 1 = 0 by omega)]
  · -- at the left end
    subst h
    have hb : bound c.times (fun x => decide (x < times[i])) = i := by
      rw [hct]
      refine bound_eq_of _ _ _ (by omega) ?_ ?_
      · intro j hj hji
        exact decide_eq_true (lt_of_sorted hs hj (by omega) hji)
      · intro j hj hji
        exact decide_eq_false (not_lt.2 (le_of_sorted hs _ hj hji))
    rcases Nat.eq_zero_or_pos i with rfl | hpos
    · refine eval_at hc _ 0 ?_ hi hne
      simp only
      rw [hb, hct, if_neg (show ¬ 0 = times.length by omega), if_pos rfl]
    · obtain ⟨k, rfl⟩ : ∃ k, i = k + 1 := ⟨i - 1, by omega⟩
      have hltk := lt_of_sorted hs (show k < times.length by omega) (show k + 1 < times.length by omega) (Nat.lt_succ_self k)
      rw [eval_at hc _ k (by simp only; rw [hb, hct, if_neg (show ¬ k + 1 = times.length by omega), if_neg (show ¬ k + 1 = 0 by omega)]) (by omega)
        (sub_ne_zero.2 hltk.ne')]
      rw [div_self (sub_ne_zero.2 hltk.ne'), sub_self, zero_div]
      congr 2
      unfold piece hermite
      module

/-- **C57.** A spline passes through its inner points at their times. -/
theorem C57_interpolates {points : List P} {times : List K} {c : Curve K P} (hc : Curve.make points times = .ok c)
    (hs : times.Pairwise (· < ·)) (i : Nat) (hi : i < times.length) (hp : i + 1 < points.length) :
    Curve.eval c times[i] = .ok (some points[i + 1]) := by
  have hlen : 4 ≤ points.length ∧ times.length + 2 = points.length := (C57_make points times).1 (by rw [hc]; rfl)
  have e : points.getD (i + 1) 0 = points[i + 1] := by
    rw [List.getD_eq_getElem?_getD, List.getElem?_eq_getElem hp]; rfl
  rcases Nat.lt_or_ge (i + 1) times.length with h | h
  · rw [C57_between hc hs i h _ (le_refl _) (lt_of_sorted hs (by omega) h (Nat.lt_succ_self i)).le]
    rw [sub_self, zero_div, ← e]
    congr 2
    unfold piece hermite
    module
  · obtain ⟨k, rfl⟩ : ∃ k, i = k + 1 := ⟨i - 1, by omega⟩
    have hlt := lt_of_sorted hs (show k < times.length by omega) hi (Nat.lt_succ_self k)
    rw [C57_between hc hs k hi _ hlt.le (le_refl _)]
    rw [div_self (sub_ne_zero.2 hlt.ne'), ← e]
    congr 2
    unfold piece hermite
    module

/-- **C57.** Outside the times a spline continues the first or the last piece. -/
theorem C57_outside {points : List P} {times : List K} {c : Curve K P} (hc : Curve.make points times = .ok c)
    (hs : times.Pairwise (· < ·)) (hl : 1 < times.length) (t : K) :
    (t < times[0] → Curve.eval c t = .ok (some (piece points 0 ((t - times[0]) / (times[1] - times[0]))))) ∧
    (∀ n (hn : n + 2 = times.length), times[n + 1] < t →
      Curve.eval c t = .ok (some (piece points n ((t - times[n]) / (times[n + 1] - times[n]))))) := by
  have hct : c.times = times := by
    unfold Curve.make at hc; split at hc
    · injection hc with hc; subst hc; rfl
    · cases hc
  constructor
  · intro h
    have hb : bound c.times (fun x => decide (x < t)) = 0 := by
      rw [hct]
      refine bound_eq_of _ _ _ (by omega) (fun j hj hji => by omega) ?_
      intro j hj _
      exact decide_eq_false (not_lt.2 (le_trans h.le (le_of_sorted hs _ hj (Nat.zero_le _))))
    refine eval_at hc t 0 ?_ hl (sub_ne_zero.2 (lt_of_sorted hs _ hl (by omega)).ne')
    simp only
    rw [hb, hct]; split_ifs <;> omega
  · intro n hn h
    have hb : bound c.times (fun x => decide (x < t)) = times.length := by
      rw [hct]
      refine bound_eq_of _ _ _ (le_refl _) ?_ (fun j hj hji => by omega)
      intro j hj _
      exact decide_eq_true (lt_of_le_of_lt (le_of_sorted hs hj _ (by omega)) h)
    refine eval_at hc t n ?_ (by omega) (sub_ne_zero.2 (lt_of_sorted hs _ _ (by omega)).ne')
    simp only
    rw [hb, hct]; split_ifs <;> omega

end field

/-! ### Tangents and continuity, over the real numbers -/

section real
variable {P : Type} [NormedAddCommGroup P] [NormedSpace ℝ P]

theorem hermite_deriv (p m q n : P) (u : ℝ) : HasDerivAt (fun u : ℝ => hermite p m q n u)
    ((6 * u ^ 2 - 6 * u) • p + (3 * u ^ 2 - 4 * u + 1) • m + (-6 * u ^ 2 + 6 * u) • q + (3 * u ^ 2 - 2 * u) • n) u := by
  unfold hermite
  have h1 : HasDerivAt (fun u : ℝ => 2 * u ^ 3 - 3 * u ^ 2 + 1) (6 * u ^ 2 - 6 * u) u := by
    have := (((hasDerivAt_pow 3 u).const_mul 2).sub ((hasDerivAt_pow 2 u).const_mul 3)).add_const 1
    exact this.congr_deriv (by push_cast; ring)
  have h2 : HasDerivAt (fun u : ℝ => u ^ 3 - 2 * u ^ 2 + u) (3 * u ^ 2 - 4 * u + 1) u := by
    have := ((hasDerivAt_pow 3 u).sub ((hasDerivAt_pow 2 u).const_mul 2)).add (hasDerivAt_id u)
    exact this.congr_deriv (by push_cast; ring)
  have h3 : HasDerivAt (fun u : ℝ => -2 * u ^ 3 + 3 * u ^ 2) (-6 * u ^ 2 + 6 * u) u := by
    have := ((hasDerivAt_pow 3 u).const_mul (-2)).add ((hasDerivAt_pow 2 u).const_mul 3)
    exact this.congr_deriv (by push_cast; ring)
  have h4 : HasDerivAt (fun u : ℝ => u ^ 3 - u ^ 2) (3 * u ^ 2 - 2 * u) u := by
    have := (hasDerivAt_pow 3 u).sub (hasDerivAt_pow 2 u)
    exact this.congr_deriv (by push_cast; ring)
  exact (((h1.smul_const p).add (h2.smul_const m)).add (h3.smul_const q)).add (h4.smul_const n)

/-- **C57.** The velocity of a segment at its ends is half the difference of the neighbouring points, so consecutive
segments have matching tangents. -/
theorem C57_tangents (p0 p1 p2 p3 : P) :
    HasDerivAt (fun u : ℝ => (Segment.make ℝ p0 p1 p2 p3).eval u) ((1 / 2 : ℝ) • (p2 - p0)) 0 ∧
    HasDerivAt (fun u : ℝ => (Segment.make ℝ p0 p1 p2 p3).eval u) ((1 / 2 : ℝ) • (p3 - p1)) 1 := by
  simp only [C57_segment]
  constructor
  · have := hermite_deriv p1 ((1 / 2 : ℝ) • (p2 - p0)) p2 ((1 / 2 : ℝ) • (p3 - p1)) 0
    convert this using 1; module
  · have := hermite_deriv p1 ((1 / 2 : ℝ) • (p2 - p0)) p2 ((1 / 2 : ℝ) • (p3 - p1)) 1
    convert this using 1; module

/-- The value of a spline as a function on the line (zero where it has none). -/
noncomputable def valueAt (c : Curve ℝ P) (t : ℝ) : P :=
  match Curve.eval c t with
  | .ok (some p) => p
  | _ => 0

theorem piece_deriv (points : List P) (i : Nat) (a b : ℝ) (h : a < b) :
    HasDerivAt (fun t => piece points i ((t - a) / (b - a)))
      ((b - a)⁻¹ • (1 / 2 : ℝ) • (points.getD (i + 2) 0 - points.getD i 0)) a ∧
    HasDerivAt (fun t => piece points i ((t - a) / (b - a)))
      ((b - a)⁻¹ • (1 / 2 : ℝ) • (points.getD (i + 3) 0 - points.getD (i + 1) 0)) b := by
  have hne : b - a ≠ 0 := sub_ne_zero.2 h.ne'
  have hin : ∀ x : ℝ, HasDerivAt (fun t : ℝ => (t - a) / (b - a)) ((b - a)⁻¹) x := by
    intro x
    have := ((hasDerivAt_id x).sub_const a).div_const (b - a)
    simpa using this
  unfold piece
  constructor
  · have := HasDerivAt.scomp (g₁ := fun u : ℝ => hermite (points.getD (i + 1) 0) ((1 / 2 : ℝ) • (points.getD (i + 2) 0 - points.getD i 0)) (points.getD (i + 2) 0)
        ((1 / 2 : ℝ) • (points.getD (i + 3) 0 - points.getD (i + 1) 0)) u) (h := fun t : ℝ => (t - a) / (b - a)) a (hermite_deriv _ _ _ _ _) (hin a)
    refine this.congr_deriv ?_
    rw [sub_self, zero_div]
    congr 1
    module
  · have := HasDerivAt.scomp (g₁ := fun u : ℝ => hermite (points.getD (i + 1) 0) ((1 / 2 : ℝ) • (points.getD (i + 2) 0 - points.getD i 0)) (points.getD (i + 2) 0)
        ((1 / 2 : ℝ) • (points.getD (i + 3) 0 - points.getD (i + 1) 0)) u) (h := fun t : ℝ => (t - a) / (b - a)) b (hermite_deriv _ _ _ _ _) (hin b)
    refine this.congr_deriv ?_
    rw [div_self hne]
    congr 1
    module

theorem piece_continuous (points : List P) (i : Nat) (a b : ℝ) : Continuous fun t : ℝ => piece points i ((t - a) / (b - a)) := by
  have h : Continuous fun u : ℝ => piece points i u :=
    continuous_iff_continuousAt.2 fun u => (hermite_deriv _ _ _ _ u).continuousAt
  exact h.comp ((continuous_id.sub continuous_const).div_const _)

/-- **C57.** A spline is continuous from its first to its last time. -/
theorem C57_continuous {points : List P} {times : List ℝ} {c : Curve ℝ P} (hc : Curve.make points times = .ok c)
    (hs : times.Pairwise (· < ·)) (n : Nat) (hn : n < times.length) :
    ContinuousOn (valueAt c) (Set.Icc (times[0]'(by omega)) times[n]) := by
  induction n with
  | zero => rw [Set.Icc_self]; exact continuousOn_singleton _ _
  | succ n ih =>
    have h01 := le_of_sorted hs (show 0 < times.length by omega) (show n < times.length by omega) (Nat.zero_le n)
    have h12 := (lt_of_sorted hs (show n < times.length by omega) hn (Nat.lt_succ_self n)).le
    rw [← Set.Icc_union_Icc_eq_Icc h01 h12]
    refine (ih (by omega)).union_of_isClosed ?_ isClosed_Icc isClosed_Icc
    refine (piece_continuous points n times[n] times[n + 1]).continuousOn.congr ?_
    intro t ht
    unfold valueAt
    rw [C57_between hc hs n hn t ht.1 ht.2]

/-- The velocities just before and just after a joint. -/
theorem joint_velocities {points : List P} {times : List ℝ} {c : Curve ℝ P} (hc : Curve.make points times = .ok c)
    (hs : times.Pairwise (· < ·)) (i : Nat) (hi : i + 2 < times.length) :
    HasDerivWithinAt (valueAt c) ((times[i + 1] - times[i])⁻¹ • (1 / 2 : ℝ) • (points.getD (i + 3) 0 - points.getD (i + 1) 0))
      (Set.Iic times[i + 1]) times[i + 1] ∧
    HasDerivWithinAt (valueAt c) ((times[i + 2] - times[i + 1])⁻¹ • (1 / 2 : ℝ) • (points.getD (i + 3) 0 - points.getD (i + 1) 0))
      (Set.Ici times[i + 1]) times[i + 1] := by
  have h1 := lt_of_sorted hs (show i < times.length by omega) (show i + 1 < times.length by omega) (Nat.lt_succ_self i)
  have h2 := lt_of_sorted hs (show i + 1 < times.length by omega) hi (Nat.lt_succ_self (i + 1))
  constructor
  · have := (piece_deriv points i times[i] times[i + 1] h1).2.hasDerivWithinAt (s := Set.Iic times[i + 1])
    refine this.congr_of_eventuallyEq ?_ ?_
    · refine Filter.eventuallyEq_of_mem (s := Set.Icc times[i] times[i + 1]) (Icc_mem_nhdsLE h1) ?_
      intro t ht
      unfold valueAt
      rw [C57_between hc hs i (by omega) t ht.1 ht.2]
    · unfold valueAt
      rw [C57_between hc hs i (by omega) _ h1.le (le_refl _)]
  · have := (piece_deriv points (i + 1) times[i + 1] times[i + 2] h2).1.hasDerivWithinAt (s := Set.Ici times[i + 1])
    refine this.congr_of_eventuallyEq ?_ ?_
    · refine Filter.eventuallyEq_of_mem (s := Set.Icc times[i + 1] times[i + 2]) (Icc_mem_nhdsGE h2) ?_
      intro t ht
      unfold valueAt
      rw [C57_between hc hs (i + 1) (by omega) t ht.1 ht.2]
    · unfold valueAt
      rw [C57_between hc hs (i + 1) (by omega) _ (le_refl _) h2.le]

/-- **C57 (partial).** Where the two neighbouring time steps are equal the spline is differentiable at the joint. -/
theorem C57_joint_partial {points : List P} {times : List ℝ} {c : Curve ℝ P} (hc : Curve.make points times = .ok c)
    (hs : times.Pairwise (· < ·)) (i : Nat) (hi : i + 2 < times.length) (heq : times[i + 2] - times[i + 1] = times[i + 1] - times[i]) :
    HasDerivAt (valueAt c) ((2 * (times[i + 1] - times[i]))⁻¹ • (points.getD (i + 3) 0 - points.getD (i + 1) 0)) times[i + 1] := by
  have h := joint_velocities hc hs i hi
  rw [heq] at h
  have := h.1.union h.2
  rw [Set.Iic_union_Ici, hasDerivWithinAt_univ] at this
  convert this using 1
  rw [smul_smul]
  congr 1
  rw [mul_inv]
  ring

/-- **C57 is violated** for unequal time steps: at a joint between steps of different length the velocity jumps, whenever the
two neighbours of the joint differ. -/
theorem C57_joint_violated {points : List P} {times : List ℝ} {c : Curve ℝ P} (hc : Curve.make points times = .ok c)
    (hs : times.Pairwise (· < ·)) (i : Nat) (hi : i + 2 < times.length) (hne : times[i + 2] - times[i + 1] ≠ times[i + 1] - times[i])
    (hp : points.getD (i + 3) 0 ≠ points.getD (i + 1) 0) : ¬ DifferentiableAt ℝ (valueAt c) times[i + 1] := by
  intro hd
  have h := joint_velocities hc hs i hi
  have h1 := lt_of_sorted hs (show i < times.length by omega) (show i + 1 < times.length by omega) (Nat.lt_succ_self i)
  have h2 := lt_of_sorted hs (show i + 1 < times.length by omega) hi (Nat.lt_succ_self (i + 1))
  have e1 := (uniqueDiffOn_Iic times[i + 1] _ Set.self_mem_Iic).eq_deriv _ h.1 hd.hasDerivAt.hasDerivWithinAt
  have e2 := (uniqueDiffOn_Ici times[i + 1] _ Set.self_mem_Ici).eq_deriv _ h.2 hd.hasDerivAt.hasDerivWithinAt
  have e3 := e1.trans e2.symm
  rw [smul_smul, smul_smul, ← sub_eq_zero, ← sub_smul, smul_eq_zero] at e3
  rcases e3 with e3 | e3
  · have : (times[i + 1] - times[i])⁻¹ = (times[i + 2] - times[i + 1])⁻¹ := by linarith
    exact hne (inv_injective this).symm
  · exact hp (sub_eq_zero.1 e3)

/-- Such a spline exists: points 0, 1, 2, 3, 4 on the line at times 0, 1, 3. -/
theorem C57_joint_violated_witness : ∃ c : Curve ℝ ℝ, Curve.make [0, 1, 2, 3, 4] [0, 1, 3] = .ok c ∧
    ¬ DifferentiableAt ℝ (valueAt c) 1 := by
  refine ⟨_, rfl, ?_⟩
  refine C57_joint_violated (points := [0, 1, 2, 3, 4]) (times := [0, 1, 3]) rfl ?_ 0 (by simp) ?_ ?_
  · simp
  · norm_num
  · norm_num

/-! ### Segments with a knot parameter -/

/-- **C57.** With distinct neighbours, a segment with knot exponent `alpha` starts in the second point and ends in the third. -/
theorem C57_alpha (alpha : ℝ) (p0 p1 p2 p3 : P) (h01 : p0 ≠ p1) (h12 : p1 ≠ p2) (h23 : p2 ≠ p3) :
    (SegmentAlpha.make (fun a b => dist a b ^ alpha) p0 p1 p2 p3).eval 0 = some p1 ∧
    (SegmentAlpha.make (fun a b => dist a b ^ alpha) p0 p1 p2 p3).eval 1 = some p2 := by
  have h1 : 0 < dist p0 p1 ^ alpha := Real.rpow_pos_of_pos (dist_pos.2 h01) _
  have h2 : 0 < dist p1 p2 ^ alpha := Real.rpow_pos_of_pos (dist_pos.2 h12) _
  have h3 : 0 < dist p2 p3 ^ alpha := Real.rpow_pos_of_pos (dist_pos.2 h23) _
  unfold SegmentAlpha.make SegmentAlpha.eval
  simp only
  generalize dist p0 p1 ^ alpha = a at *
  generalize dist p1 p2 ^ alpha = b at *
  generalize dist p2 p3 ^ alpha = c at *
  have hc : ¬ (a - 0 = 0 ∨ a + b - a = 0 ∨ a + b + c - (a + b) = 0 ∨ a + b - 0 = 0 ∨ a + b + c - a = 0) := by
    rintro (h | h | h | h | h) <;> linarith
  rw [if_neg hc, if_neg hc]
  have n1 : a ≠ 0 := h1.ne'
  have n2 : b ≠ 0 := h2.ne'
  have n3 : c ≠ 0 := h3.ne'
  have n4 : a + b ≠ 0 := by positivity
  have n5 : b + c ≠ 0 := by positivity
  have m1 : a - 0 = a := by ring
  have m2 : a + b - a = b := by ring
  have m3 : a + b + c - (a + b) = c := by ring
  have m4 : a + b - 0 = a + b := by ring
  have m5 : a + b + c - a = b + c := by ring
  have k0 : a + 0 * b = a := by ring
  have k1 : a + 1 * b = a + b := by ring
  rw [m1, m2, m3, m4, m5, k0, k1]
  constructor
  · simp only [sub_self, zero_div, zero_smul, zero_add, add_zero, m1, m2, m5, div_self n1, div_self n2, div_self n5, one_smul]
    congr 1
    rw [← add_smul, ← add_div, add_comm, div_self (by assumption), one_smul]
  · simp only [sub_self, zero_div, zero_smul, zero_add, add_zero, m2, m3, m4, div_self n2, div_self n3, div_self n4, one_smul]
    congr 1
    rw [← add_smul, ← add_div, add_comm, div_self (by assumption), one_smul]

/-- **C57 is violated** for repeated points: the segment with a positive knot exponent divides by zero. -/
theorem C57_alpha_violated (alpha : ℝ) (ha : 0 < alpha) (p p2 p3 : P) (t : ℝ) :
    (SegmentAlpha.make (fun a b => dist a b ^ alpha) p p p2 p3).eval t = none := by
  unfold SegmentAlpha.make SegmentAlpha.eval
  simp only
  rw [if_pos]
  left
  rw [dist_self, Real.zero_rpow ha.ne', sub_zero]

/-! ### Length -/

theorem length_fold (f : ℕ → P) (n : Nat) :
    (List.range n).foldl (fun (st : P × ℝ) i => (f (i + 1), st.2 + dist st.1 (f (i + 1)))) (f 0, 0) =
      (f n, ∑ i ∈ Finset.range n, dist (f i) (f (i + 1))) := by
  induction n with
  | zero => simp
  | succ n ih => rw [List.range_succ, List.foldl_append, ih, List.foldl_cons, List.foldl_nil, Finset.sum_range_succ]

/-- **C57.** The computed length of a curve is at least the distance between its end points, and exact for uniform motion
along a line, whatever the number of steps. -/
theorem C57_length (s : ℝ → P) (t0 t1 : ℝ) (steps : Nat) (h : 0 < steps) :
    dist (s t0) (s t1) ≤ computeLength dist s t0 t1 steps ∧
    (∀ p v : P, (∀ t, s t = p + t • v) → computeLength dist s t0 t1 steps = dist (s t0) (s t1)) := by
  have hn : (steps : ℝ) ≠ 0 := by positivity
  have key : computeLength dist s t0 t1 steps =
      ∑ i ∈ Finset.range steps, dist (s (t0 + (t1 - t0) * (i : ℝ) / steps)) (s (t0 + (t1 - t0) * ((i + 1 : Nat) : ℝ) / steps)) := by
    unfold computeLength
    have := length_fold (fun i : ℕ => s (t0 + (t1 - t0) * (i : ℝ) / steps)) steps
    simp only [Nat.cast_zero, mul_zero, zero_div, add_zero] at this
    rw [this]
  have e1 : t0 + (t1 - t0) * (steps : ℝ) / steps = t1 := by field_simp; ring
  constructor
  · rw [key]
    have := dist_le_range_sum_dist (fun i : ℕ => s (t0 + (t1 - t0) * (i : ℝ) / steps)) steps
    simp only [Nat.cast_zero, mul_zero, zero_div, add_zero, e1] at this
    exact this
  · intro p v hs
    rw [key]
    have hd : ∀ a b : ℝ, dist (s a) (s b) = |a - b| * ‖v‖ := by
      intro a b
      rw [hs, hs, dist_add_left, dist_eq_norm, ← sub_smul, norm_smul, Real.norm_eq_abs]
    simp only [hd]
    have he : ∀ i : ℕ, |t0 + (t1 - t0) * (i : ℝ) / steps - (t0 + (t1 - t0) * ((i + 1 : Nat) : ℝ) / steps)| = |t0 - t1| / steps := by
      intro i
      rw [show t0 + (t1 - t0) * (i : ℝ) / steps - (t0 + (t1 - t0) * ((i + 1 : Nat) : ℝ) / steps) = (t0 - t1) / steps by
        push_cast; ring, abs_div, abs_of_pos (show (0 : ℝ) < steps by positivity)]
    simp only [he, Finset.sum_const, Finset.card_range, nsmul_eq_mul]
    field_simp

/-- Non-vacuity: a spline through five points in the plane. -/
example : ∃ c : Curve ℚ (ℚ × ℚ), Curve.make [(0, 0), (1, 0), (1, 1), (0, 1), (0, 0)] [0, 1, 2] = .ok c ∧
    ([0, 1, 2] : List ℚ).Pairwise (· < ·) := ⟨_, rfl, by decide⟩

/-- **C57.** With exponent 0, a segment with a knot parameter is the ordinary segment, everywhere and for all points. -/
theorem C57_alpha_zero (p0 p1 p2 p3 : P) (t : ℝ) :
    (SegmentAlpha.make (fun a b => dist a b ^ (0 : ℝ)) p0 p1 p2 p3).eval t = some ((Segment.make ℝ p0 p1 p2 p3).eval t) := by
  unfold SegmentAlpha.make SegmentAlpha.eval
  simp only [Real.rpow_zero]
  rw [if_neg (by norm_num), C57_segment]
  congr 1
  norm_num
  unfold hermite
  module

/-- **C57.** A segment with a knot parameter through points on a line, at the distances of the knots, is the line. -/
theorem C57_alpha_line (p v : P) (hv : ‖v‖ = 1) (a b c : ℝ) (ha : 0 < a) (hb : 0 < b) (hc : 0 < c) (t : ℝ) :
    (SegmentAlpha.make (fun a b => dist a b ^ (1 : ℝ)) p (p + a • v) (p + (a + b) • v) (p + (a + b + c) • v)).eval t =
      some (p + (a + t * b) • v) := by
  have hd : ∀ x y : ℝ, dist (p + x • v) (p + y • v) = |x - y| := by
    intro x y
    rw [dist_add_left, dist_eq_norm, ← sub_smul, norm_smul, hv, mul_one, Real.norm_eq_abs]
  have k1 : dist p (p + a • v) = a := by
    have := hd 0 a
    rw [zero_smul, add_zero] at this
    rw [this, zero_sub, abs_neg, abs_of_pos ha]
  have k2 : dist (p + a • v) (p + (a + b) • v) = b := by
    rw [hd, show a - (a + b) = -b by ring, abs_neg, abs_of_pos hb]
  have k3 : dist (p + (a + b) • v) (p + (a + b + c) • v) = c := by
    rw [hd, show a + b - (a + b + c) = -c by ring, abs_neg, abs_of_pos hc]
  unfold SegmentAlpha.make SegmentAlpha.eval
  simp only [Real.rpow_one, k1, k2, k3]
  rw [if_neg (by rintro (h | h | h | h | h) <;> linarith)]
  congr 1
  have n1 : a ≠ 0 := ha.ne'
  have n2 : b ≠ 0 := hb.ne'
  have n3 : c ≠ 0 := hc.ne'
  have n4 : a + b ≠ 0 := by positivity
  have n5 : b + c ≠ 0 := by positivity
  have m2 : a + b - a = b := by ring
  have m3 : a + b + c - (a + b) = c := by ring
  have m5 : a + b + c - a = b + c := by ring
  simp only [sub_zero, m2, m3, m5]
  have lin : ∀ (x y d s : ℝ), d ≠ 0 → y - x = d → ((y - s) / d) • (p + x • v) + ((s - x) / d) • (p + y • v) = p + s • v := by
    intro x y d s hd he
    have e1 : (y - s) / d + (s - x) / d = 1 := by field_simp; linarith
    have e2 : (y - s) / d * x + (s - x) / d * y = s := by field_simp; rw [← he]; ring
    calc _ = ((y - s) / d + (s - x) / d) • p + ((y - s) / d * x + (s - x) / d * y) • v := by module
      _ = _ := by rw [e1, e2, one_smul]
  have both : ∀ (x y d s : ℝ), d ≠ 0 → y - x = d → ((y - s) / d) • (p + s • v) + ((s - x) / d) • (p + s • v) = p + s • v := by
    intro x y d s hd he
    rw [← add_smul, show (y - s) / d + (s - x) / d = 1 by field_simp; linarith, one_smul]
  have l0 := lin 0 a a (a + t * b) n1 (by ring)
  rw [zero_smul, add_zero, sub_zero] at l0
  rw [l0, lin a (a + b) b _ n2 (by ring), lin (a + b) (a + b + c) c _ n3 (by ring)]
  have b0 := both 0 (a + b) (a + b) (a + t * b) n4 (by ring)
  rw [sub_zero] at b0
  rw [b0, both a (a + b + c) (b + c) _ n5 (by ring), both a (a + b) b _ n2 (by ring)]

end real

end Xo.Spline
