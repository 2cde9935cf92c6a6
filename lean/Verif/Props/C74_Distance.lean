import Verif.Model.Shape
import Verif.Props.C54_QuatReal

/-!
C74: closest points, distances and intersections.
-/
namespace Xo.Geom

namespace Spec

/-- The point of a line at parameter `s`. -/
def onLine {K : Type} [Field K] (l : Line K) (s : K) : Vec3 K :=
  ⟨l.pos.x + s * l.dir.x, l.pos.y + s * l.dir.y, l.pos.z + s * l.dir.z⟩

/-- The points of the solid shapes, centred at the origin with y up. -/
def Contains (s : Shape ℝ) (p : Vec3 ℝ) : Prop :=
  match s with
  | .sphere r => p.x ^ 2 + p.y ^ 2 + p.z ^ 2 ≤ r ^ 2
  | .box h => |p.x| ≤ h.x ∧ |p.y| ≤ h.y ∧ |p.z| ≤ h.z
  | .cylinder r h => p.x ^ 2 + p.z ^ 2 ≤ r ^ 2 ∧ |p.y| ≤ h / 2
  | .capsule r h => ∃ y, |y| ≤ h / 2 ∧ p.x ^ 2 + (p.y - y) ^ 2 + p.z ^ 2 ≤ r ^ 2
  | _ => False

end Spec
open Spec Real

section field
variable {K : Type} [Field K] [LinearOrder K] [IsStrictOrderedRing K]

/-- Two points whose difference is orthogonal to both lines are closest. -/
theorem closest_of_orthogonal (l1 l2 : Line K) (s t : K)
    (h1 : Vec3.dot l1.dir (Vec3.sub (onLine l1 s) (onLine l2 t)) = 0)
    (h2 : Vec3.dot l2.dir (Vec3.sub (onLine l1 s) (onLine l2 t)) = 0) (s' t' : K) :
    Vec3.sqDist (onLine l1 s) (onLine l2 t) ≤ Vec3.sqDist (onLine l1 s') (onLine l2 t') := by
  have e : Vec3.sqDist (onLine l1 s') (onLine l2 t') = Vec3.sqDist (onLine l1 s) (onLine l2 t) +
      2 * (s' - s) * Vec3.dot l1.dir (Vec3.sub (onLine l1 s) (onLine l2 t)) -
      2 * (t' - t) * Vec3.dot l2.dir (Vec3.sub (onLine l1 s) (onLine l2 t)) +
      (((s' - s) * l1.dir.x - (t' - t) * l2.dir.x) ^ 2 + ((s' - s) * l1.dir.y - (t' - t) * l2.dir.y) ^ 2 +
        ((s' - s) * l1.dir.z - (t' - t) * l2.dir.z) ^ 2) := by
    simp only [Vec3.sqDist, Vec3.sqLen, Vec3.sub, onLine, Vec3.dot]; ring
  rw [e, h1, h2]
  nlinarith [sq_nonneg ((s' - s) * l1.dir.x - (t' - t) * l2.dir.x), sq_nonneg ((s' - s) * l1.dir.y - (t' - t) * l2.dir.y),
    sq_nonneg ((s' - s) * l1.dir.z - (t' - t) * l2.dir.z)]

/-- `a c - b²` of two directions: the squared length of their cross product, at least zero and zero only for parallel ones. -/
def crossSq (l1 l2 : Line K) : K := Vec3.sqLen (Vec3.cross l1.dir l2.dir)

theorem discriminant (l1 l2 : Line K) :
    Vec3.dot l1.dir l1.dir * Vec3.dot l2.dir l2.dir - Vec3.dot l1.dir l2.dir * Vec3.dot l1.dir l2.dir = crossSq l1 l2 := by
  simp only [crossSq, Vec3.sqLen, Vec3.cross, Vec3.dot]; ring

theorem add_smul_line (l : Line K) (s : K) : Vec3.add l.pos (Vec3.smul s l.dir) = onLine l s := by
  ext <;> simp only [Vec3.add, Vec3.smul, onLine] <;> ring

/-- **C74 (partial).** Lines whose directions are either far enough from parallel or exactly parallel: the two points lie on
their lines and no two points of the lines are closer. -/
theorem C74_lines_partial (eps : K) (he : 0 < eps) (l1 l2 : Line K)
    (h : eps ≤ crossSq l1 l2 ∨ (crossSq l1 l2 = 0 ∧ l2.dir ≠ Vec3.zero)) :
    ∃ s t, closestPoints eps l1 l2 = some (onLine l1 s, onLine l2 t) ∧
      ∀ s' t', Vec3.sqDist (onLine l1 s) (onLine l2 t) ≤ Vec3.sqDist (onLine l1 s') (onLine l2 t') := by
  unfold closestPoints
  simp only [discriminant, add_smul_line]
  rcases h with h | ⟨h, hne⟩
  · have hD : crossSq l1 l2 ≠ 0 := (lt_of_lt_of_le he h).ne'
    rw [if_neg (not_lt.2 h), if_neg hD]
    refine ⟨_, _, rfl, closest_of_orthogonal l1 l2 _ _ ?_ ?_⟩
    · have hd := discriminant l1 l2
      generalize crossSq l1 l2 = D at *
      simp only [Vec3.dot, Vec3.sub, onLine] at *
      field_simp
      linear_combination (l1.dir.x * (l1.pos.x - l2.pos.x) + l1.dir.y * (l1.pos.y - l2.pos.y) + l1.dir.z * (l1.pos.z - l2.pos.z)) * (-hd)
    · have hd := discriminant l1 l2
      generalize crossSq l1 l2 = D at *
      simp only [Vec3.dot, Vec3.sub, onLine] at *
      field_simp
      linear_combination (l2.dir.x * (l1.pos.x - l2.pos.x) + l2.dir.y * (l1.pos.y - l2.pos.y) + l2.dir.z * (l1.pos.z - l2.pos.z)) * (-hd)
  · rw [if_pos (by rw [h]; exact he)]
    have hc : Vec3.dot l2.dir l2.dir ≠ 0 := by
      intro h0
      apply hne
      simp only [Vec3.dot] at h0
      have hx := mul_self_nonneg l2.dir.x
      have hy := mul_self_nonneg l2.dir.y
      have hz := mul_self_nonneg l2.dir.z
      ext
      · exact mul_self_eq_zero.1 (by linarith)
      · exact mul_self_eq_zero.1 (by linarith)
      · exact mul_self_eq_zero.1 (by linarith)
    -- parallel: the first direction is a multiple of the second
    have hx : Vec3.cross l1.dir l2.dir = Vec3.zero := by
      have hz : Vec3.sqLen (Vec3.cross l1.dir l2.dir) = 0 := h
      simp only [Vec3.sqLen] at hz
      have h1 := mul_self_nonneg (Vec3.cross l1.dir l2.dir).x
      have h2 := mul_self_nonneg (Vec3.cross l1.dir l2.dir).y
      have h3 := mul_self_nonneg (Vec3.cross l1.dir l2.dir).z
      ext
      · exact mul_self_eq_zero.1 (by linarith)
      · exact mul_self_eq_zero.1 (by linarith)
      · exact mul_self_eq_zero.1 (by linarith)
    simp only [Vec3.ext_iff, Vec3.cross, Vec3.zero] at hx
    obtain ⟨c1, c2, c3⟩ := hx
    obtain ⟨k, hk⟩ : ∃ k, k * Vec3.dot l2.dir l2.dir = Vec3.dot l1.dir l2.dir := ⟨_, div_mul_cancel₀ _ hc⟩
    have kx : l1.dir.x = k * l2.dir.x := by
      refine mul_right_cancel₀ hc ?_
      simp only [Vec3.dot] at hk ⊢
      linear_combination -l2.dir.x * hk + l2.dir.y * c3 - l2.dir.z * c2
    have ky : l1.dir.y = k * l2.dir.y := by
      refine mul_right_cancel₀ hc ?_
      simp only [Vec3.dot] at hk ⊢
      linear_combination -l2.dir.y * hk + l2.dir.z * c1 - l2.dir.x * c3
    have kz : l1.dir.z = k * l2.dir.z := by
      refine mul_right_cancel₀ hc ?_
      simp only [Vec3.dot] at hk ⊢
      linear_combination -l2.dir.z * hk + l2.dir.x * c2 - l2.dir.y * c1
    have hd : Vec3.dot l1.dir (Vec3.sub l1.pos l2.pos) = k * Vec3.dot l2.dir (Vec3.sub l1.pos l2.pos) := by
      simp only [Vec3.dot, kx, ky, kz]; ring
    -- whatever the parameter on the first line, the second point is the foot of the perpendicular
    have foot : ∀ t, t * Vec3.dot l2.dir l2.dir = Vec3.dot l2.dir (Vec3.sub l1.pos l2.pos) →
        ∀ s' t', Vec3.sqDist (onLine l1 0) (onLine l2 t) ≤ Vec3.sqDist (onLine l1 s') (onLine l2 t') := by
      intro t ht
      have o2 : Vec3.dot l2.dir (Vec3.sub (onLine l1 0) (onLine l2 t)) = 0 := by
        simp only [Vec3.dot, Vec3.sub, onLine] at ht ⊢
        linear_combination -ht
      refine closest_of_orthogonal l1 l2 0 t ?_ o2
      have : Vec3.dot l1.dir (Vec3.sub (onLine l1 0) (onLine l2 t)) = k * Vec3.dot l2.dir (Vec3.sub (onLine l1 0) (onLine l2 t)) := by
        simp only [Vec3.dot, kx, ky, kz]; ring
      rw [this, o2, mul_zero]
    by_cases hb : Vec3.dot l1.dir l2.dir > Vec3.dot l2.dir l2.dir
    · have hcpos : 0 ≤ Vec3.dot l2.dir l2.dir := by
        simp only [Vec3.dot]; nlinarith [mul_self_nonneg l2.dir.x, mul_self_nonneg l2.dir.y, mul_self_nonneg l2.dir.z]
      have hb0 : Vec3.dot l1.dir l2.dir ≠ 0 := (lt_of_le_of_lt hcpos hb).ne'
      rw [if_pos hb, if_neg hb0]
      refine ⟨_, _, rfl, foot _ ?_⟩
      have hk0 : k ≠ 0 := by rintro rfl; exact hb0 (by rw [← hk, zero_mul])
      rw [hd, ← hk]
      field_simp
    · rw [if_neg hb, if_neg hc]
      exact ⟨_, _, rfl, foot _ (div_mul_cancel₀ _ hc)⟩

/-- **C74 is violated** when the direction vectors are short: perpendicular lines are then taken for parallel. Whatever the
tolerance, there are two perpendicular lines for which closer points exist than those returned. -/
theorem C74_lines_violated (eps : K) (he : 0 < eps) : ∃ (l1 l2 : Line K) (p1 p2 : Vec3 K),
    Vec3.dot l1.dir l2.dir = 0 ∧ crossSq l1 l2 ≠ 0 ∧ closestPoints eps l1 l2 = some (p1, p2) ∧
    ∃ s t, Vec3.sqDist (onLine l1 s) (onLine l2 t) < Vec3.sqDist p1 p2 := by
  obtain ⟨k, hk0, hk⟩ : ∃ k : K, 0 < k ∧ k ^ 4 < eps := by
    refine ⟨min (1 / 2) (eps / 2), by positivity, ?_⟩
    have h1 : min (1 / 2) (eps / 2) ≤ 1 / 2 := min_le_left _ _
    have h2 : min (1 / 2) (eps / 2) ≤ eps / 2 := min_le_right _ _
    have h0 : 0 < min (1 / 2) (eps / 2) := by positivity
    generalize min (1 / 2) (eps / 2) = k at *
    have h3 : k ^ 3 ≤ 1 := pow_le_one₀ h0.le (by linarith)
    have : k ^ 4 ≤ k := by
      calc k ^ 4 = k * k ^ 3 := by ring
        _ ≤ k * 1 := mul_le_mul_of_nonneg_left h3 h0.le
        _ = k := mul_one k
    linarith
  refine ⟨⟨⟨1, 0, 0⟩, ⟨k, 0, 0⟩⟩, ⟨⟨0, 0, 1⟩, ⟨0, k, 0⟩⟩, ⟨1, 0, 0⟩, ⟨0, 0, 1⟩, ?_, ?_, ?_, -1 / k, 0, ?_⟩
  · simp [Vec3.dot]
  · simp only [crossSq, Vec3.sqLen, Vec3.cross]
    have : (0 : K) < k * k * (k * k) := by positivity
    ring_nf
    have : k ^ 4 ≠ 0 := by positivity
    exact this
  · unfold closestPoints
    simp only
    rw [if_pos]
    · rw [if_neg, if_neg]
      · simp [Vec3.add, Vec3.smul, Vec3.dot, Vec3.sub]
      · simp [Vec3.dot, hk0.ne']
      · simp only [Vec3.dot, not_lt]; nlinarith
    · simp only [Vec3.dot]
      ring_nf
      exact hk
  · simp only [Vec3.sqDist, Vec3.sqLen, Vec3.sub, onLine]
    rw [div_mul_cancel₀ _ hk0.ne']
    norm_num

/-- **C74.** The point whose distance is returned lies on the segment. -/
theorem C74_segment_on (pt : Vec3 K) (s : Segment K) : ∃ u, 0 ≤ u ∧ u ≤ 1 ∧
    segmentClosest pt s = ⟨s.p0.x + u * (s.p1.x - s.p0.x), s.p0.y + u * (s.p1.y - s.p0.y), s.p0.z + u * (s.p1.z - s.p0.z)⟩ := by
  unfold segmentClosest
  simp only
  split
  · exact ⟨0, le_refl _, zero_le_one, by ext <;> simp⟩
  · rename_i h1
    split
    · exact ⟨1, zero_le_one, le_refl _, by ext <;> simp⟩
    · rename_i h2
      rw [not_le] at h1 h2
      have hc : 0 < Vec3.dot (Vec3.sub s.p1 s.p0) (Vec3.sub s.p1 s.p0) := h1.trans h2
      exact ⟨_, div_nonneg h1.le hc.le, (div_le_one hc).2 h2.le, by ext <;> simp only [Vec3.add, Vec3.smul, Vec3.sub] <;> ring⟩

/-- **C74.** The distance from a point to a segment is that to a point of the segment, and no point of the segment is
closer; also for a segment of length zero. -/
theorem C74_segment (pt : Vec3 K) (s : Segment K) (u : K) (h0 : 0 ≤ u) (h1 : u ≤ 1) :
    segmentSqDist pt s ≤
      Vec3.sqDist pt ⟨s.p0.x + u * (s.p1.x - s.p0.x), s.p0.y + u * (s.p1.y - s.p0.y), s.p0.z + u * (s.p1.z - s.p0.z)⟩ := by
  have key : ∀ a : K, Vec3.sqDist pt ⟨s.p0.x + a * (s.p1.x - s.p0.x), s.p0.y + a * (s.p1.y - s.p0.y), s.p0.z + a * (s.p1.z - s.p0.z)⟩ =
      Vec3.sqDist pt s.p0 - 2 * a * Vec3.dot (Vec3.sub pt s.p0) (Vec3.sub s.p1 s.p0) +
        a ^ 2 * Vec3.dot (Vec3.sub s.p1 s.p0) (Vec3.sub s.p1 s.p0) := by
    intro a
    simp only [Vec3.sqDist, Vec3.sqLen, Vec3.dot, Vec3.sub]; ring
  have hnn : 0 ≤ Vec3.dot (Vec3.sub s.p1 s.p0) (Vec3.sub s.p1 s.p0) := by
    simp only [Vec3.dot]
    nlinarith [mul_self_nonneg (Vec3.sub s.p1 s.p0).x, mul_self_nonneg (Vec3.sub s.p1 s.p0).y, mul_self_nonneg (Vec3.sub s.p1 s.p0).z]
  unfold segmentSqDist segmentClosest
  simp only
  rw [key]
  split
  · rename_i hc
    nlinarith [mul_nonneg h0 (neg_nonneg.2 hc), mul_nonneg (sq_nonneg u) hnn]
  · rename_i hc
    rw [not_le] at hc
    split
    · rename_i h2
      have e := key 1
      have e1 : (⟨s.p0.x + 1 * (s.p1.x - s.p0.x), s.p0.y + 1 * (s.p1.y - s.p0.y), s.p0.z + 1 * (s.p1.z - s.p0.z)⟩ : Vec3 K) = s.p1 := by
        ext <;> simp only <;> ring
      rw [e1] at e
      rw [e]
      generalize Vec3.dot (Vec3.sub pt s.p0) (Vec3.sub s.p1 s.p0) = c1 at *
      generalize Vec3.dot (Vec3.sub s.p1 s.p0) (Vec3.sub s.p1 s.p0) = c2 at *
      have h3 : 0 ≤ (1 - u) * (c1 - c2) := mul_nonneg (by linarith) (by linarith)
      have h4 : 0 ≤ (1 - u) ^ 2 * c2 := mul_nonneg (sq_nonneg _) hnn
      nlinarith
    · rename_i h2
      rw [not_le] at h2
      have hpos := hc.trans h2
      have e := key (Vec3.dot (Vec3.sub pt s.p0) (Vec3.sub s.p1 s.p0) / Vec3.dot (Vec3.sub s.p1 s.p0) (Vec3.sub s.p1 s.p0))
      have e1 : ∀ a : K, Vec3.add s.p0 (Vec3.smul a (Vec3.sub s.p1 s.p0)) =
          ⟨s.p0.x + a * (s.p1.x - s.p0.x), s.p0.y + a * (s.p1.y - s.p0.y), s.p0.z + a * (s.p1.z - s.p0.z)⟩ := by
        intro a; ext <;> simp only [Vec3.add, Vec3.smul, Vec3.sub] <;> ring
      rw [e1, e]
      generalize Vec3.dot (Vec3.sub pt s.p0) (Vec3.sub s.p1 s.p0) = c1 at *
      generalize Vec3.dot (Vec3.sub s.p1 s.p0) (Vec3.sub s.p1 s.p0) = c2 at *
      have h5 : -2 * (c1 / c2) * c1 + (c1 / c2) ^ 2 * c2 = -(c1 / c2) ^ 2 * c2 := by field_simp; ring
      have h6 : 0 ≤ (u - c1 / c2) ^ 2 * c2 := mul_nonneg (sq_nonneg _) hnn
      have h7 : (u - c1 / c2) ^ 2 * c2 = u ^ 2 * c2 - 2 * u * c1 + (c1 / c2) ^ 2 * c2 := by field_simp; ring
      nlinarith

/-- **C74.** The intersection of a line and a transformed plane lies on the line and in the plane; there is none exactly if
the line is parallel to the plane. -/
theorem C74_plane (r : Line K) (normal : Vec3 K) (t : Transform K) :
    (Vec3.dot r.dir (Quat.rot t.q normal) = 0 ↔ intersection r normal t = none) ∧
    ∀ p, intersection r normal t = some p → (∃ s, p = onLine r s) ∧ Vec3.dot (Vec3.sub p t.p) (Quat.rot t.q normal) = 0 ∧
      ∀ s', Vec3.dot (Vec3.sub (onLine r s') t.p) (Quat.rot t.q normal) = 0 → onLine r s' = p := by
  unfold intersection
  simp only
  generalize Quat.rot t.q normal = n
  by_cases h : Vec3.dot r.dir n = 0
  · rw [if_pos h]
    exact ⟨⟨fun _ => rfl, fun _ => h⟩, fun p hp => by cases hp⟩
  · rw [if_neg h]
    refine ⟨⟨fun h' => absurd h' h, fun h' => by cases h'⟩, ?_⟩
    intro p hp
    injection hp with hp
    subst hp
    refine ⟨⟨-(Vec3.dot (Vec3.sub r.pos t.p) n / Vec3.dot r.dir n), ?_⟩, ?_, ?_⟩
    · ext <;> simp only [Vec3.sub, Vec3.smul, onLine] <;> ring
    · have e : ∀ k : K, Vec3.dot (Vec3.sub (Vec3.sub r.pos (Vec3.smul k r.dir)) t.p) n = Vec3.dot (Vec3.sub r.pos t.p) n - k * Vec3.dot r.dir n := by
        intro k; simp only [Vec3.dot, Vec3.sub, Vec3.smul]; ring
      rw [e, div_mul_cancel₀ _ h, sub_self]
    · intro s' hs
      have e : Vec3.dot (Vec3.sub (onLine r s') t.p) n = Vec3.dot (Vec3.sub r.pos t.p) n + s' * Vec3.dot r.dir n := by
        simp only [Vec3.dot, Vec3.sub, onLine]; ring
      rw [e] at hs
      have hs' : Vec3.dot (Vec3.sub r.pos t.p) n / Vec3.dot r.dir n = -s' := by
        rw [div_eq_iff h]; linear_combination hs
      rw [hs']
      ext <;> simp only [Vec3.sub, Vec3.smul, onLine] <;> ring

end field

/-! ### Distance from the centre to the surface -/

theorem divTop_le (a b s : ℝ) (ha : 0 ≤ a) (hs : 0 ≤ s) (hb : 0 ≤ b) : ((s : ℝ) : WithTop ℝ) ≤ divTop a b ↔ s * b ≤ a := by
  unfold divTop
  by_cases h : b = 0
  · rw [if_pos h, h]
    simp [ha]
  · rw [if_neg h, WithTop.coe_le_coe, le_div_iff₀ (lt_of_le_of_ne hb (Ne.symm h))]

/-- **C74.** For a unit direction, the surface of a sphere or a box is reached exactly at the returned distance: the point at
distance `s` from the centre is inside exactly if `s` is not larger. -/
theorem C74_center_box (dir : Vec3 ℝ) (hd : Vec3.sqLen dir = 1) (s : ℝ) (hs : 0 ≤ s) :
    (∀ r, 0 ≤ r → ∃ d, distanceFromCenter (.sphere r) dir = .ok d ∧ ((s : WithTop ℝ) ≤ d ↔ Contains (.sphere r) (Vec3.smul s dir))) ∧
    (∀ h : Vec3 ℝ, 0 < h.x → 0 < h.y → 0 < h.z →
      ∃ d, distanceFromCenter (.box h) dir = .ok d ∧ ((s : WithTop ℝ) ≤ d ↔ Contains (.box h) (Vec3.smul s dir))) := by
  constructor
  · intro r hr
    refine ⟨_, rfl, ?_⟩
    rw [WithTop.coe_le_coe]
    simp only [Contains, Vec3.smul]
    have e : (dir.x * s) ^ 2 + (dir.y * s) ^ 2 + (dir.z * s) ^ 2 = s ^ 2 := by
      unfold Vec3.sqLen at hd; linear_combination s ^ 2 * hd
    rw [e]
    exact (pow_le_pow_iff_left₀ hs hr (by norm_num)).symm
  · intro h hx hy hz
    refine ⟨_, rfl, ?_⟩
    rw [le_min_iff, le_min_iff, divTop_le _ _ _ hx.le hs (abs_nonneg _), divTop_le _ _ _ hy.le hs (abs_nonneg _),
      divTop_le _ _ _ hz.le hs (abs_nonneg _)]
    simp only [Contains, Vec3.smul, abs_mul, abs_of_nonneg hs, mul_comm]

/-- The capsule contains a point exactly if the distance to the axis segment is at most the radius. -/
theorem capsule_contains (r h : ℝ) (hh : 0 ≤ h) (p : Vec3 ℝ) :
    Contains (.capsule r h) p ↔ p.x ^ 2 + (max 0 (|p.y| - h / 2)) ^ 2 + p.z ^ 2 ≤ r ^ 2 := by
  unfold Contains
  simp only
  constructor
  · rintro ⟨y, hy, hle⟩
    have h1 : (max 0 (|p.y| - h / 2)) ^ 2 ≤ (p.y - y) ^ 2 := by
      rw [← sq_abs (p.y - y)]
      refine pow_le_pow_left₀ (le_max_left _ _) (max_le (abs_nonneg _) ?_) 2
      have := abs_sub_abs_le_abs_sub p.y y
      linarith
    linarith
  · intro hle
    rcases le_total |p.y| (h / 2) with h1 | h1
    · refine ⟨p.y, h1, ?_⟩
      rw [max_eq_left (by linarith)] at hle
      simpa using hle
    · rw [max_eq_right (by linarith)] at hle
      rcases le_total 0 p.y with h2 | h2
      · rw [abs_of_nonneg h2] at hle
        exact ⟨h / 2, by rw [abs_of_nonneg (by linarith)], hle⟩
      · rw [abs_of_nonpos h2] at hle
        refine ⟨-(h / 2), by rw [abs_neg, abs_of_nonneg (by linarith)], ?_⟩
        nlinarith

theorem le_of_sq_le {x y : ℝ} (h : x ^ 2 ≤ y ^ 2) (hy : 0 ≤ y) : x ≤ y := by nlinarith [sq_nonneg (x - y), sq_nonneg (x + y)]

/-- Below the cap: everything is inside, and the distance is not smaller. -/
theorem capsule_low (v y r h s q : ℝ) (hv0 : 0 ≤ v) (hy : 0 < y) (hunit : v ^ 2 + y ^ 2 = 1) (hs : 0 ≤ s) (hr : 0 < r) (hh : 0 ≤ h)
    (hc : 1 / 2 * h * v < y * r) (hq0 : 0 ≤ q) (hq2 : q ^ 2 = 4 * r ^ 2 - h ^ 2 * v ^ 2) (hcase : s * y ≤ h / 2) :
    s ^ 2 * v ^ 2 ≤ r ^ 2 ∧ s ≤ (y * h + q) / 2 := by
  constructor
  · have h1 : s * v * y ≤ r * y := by
      have := mul_le_mul_of_nonneg_right hcase hv0
      linarith
    have h2 : s * v ≤ r := le_of_mul_le_mul_right h1 hy
    rw [← mul_pow]
    exact pow_le_pow_left₀ (mul_nonneg hs hv0) h2 2
  · have h4 : h * v ^ 2 = h * (1 - y ^ 2) := by rw [← hunit]; ring
    have h5 : 0 ≤ q * y := mul_nonneg hq0 hy.le
    have h6 : (h * v ^ 2) ^ 2 ≤ (q * y) ^ 2 := by
      have h7 : (h * v) ^ 2 ≤ (2 * (y * r)) ^ 2 := pow_le_pow_left₀ (mul_nonneg hh hv0) (by linarith) 2
      have h8 : (q * y) ^ 2 = 4 * r ^ 2 * y ^ 2 - h ^ 2 * v ^ 2 * y ^ 2 := by rw [mul_pow, hq2]; ring
      have h9 : (h * v ^ 2) ^ 2 = (h * v) ^ 2 - h ^ 2 * v ^ 2 * y ^ 2 := by linear_combination h ^ 2 * v ^ 2 * hunit
      rw [h8, h9]
      linarith
    have h3 := le_of_sq_le h6 h5
    have h10 : 2 * s * y ≤ (y * h + q) * y := by nlinarith
    have := le_of_mul_le_mul_right h10 hy
    linarith

/-- In the cap: inside exactly if the distance is not larger. -/
theorem capsule_high (v y r h s q : ℝ) (hy : 0 < y) (hunit : v ^ 2 + y ^ 2 = 1) (hs : 0 ≤ s) 
    (hq0 : 0 ≤ q) (hq2 : q ^ 2 = 4 * r ^ 2 - h ^ 2 * v ^ 2) (hcase : h / 2 ≤ s * y) :
    s ≤ (y * h + q) / 2 ↔ s ^ 2 * v ^ 2 + (s * y - h / 2) ^ 2 ≤ r ^ 2 := by
  have e : 4 * (s ^ 2 * v ^ 2 + (s * y - h / 2) ^ 2) = (2 * s - y * h) ^ 2 + h ^ 2 * v ^ 2 := by
    linear_combination (4 * s ^ 2 - h ^ 2) * hunit
  have h2 : 0 ≤ 2 * s - y * h := by
    have hyy : y ^ 2 ≤ 1 := by nlinarith [sq_nonneg v]
    have h3 : y * (h / 2) ≤ y * (s * y) := mul_le_mul_of_nonneg_left hcase hy.le
    have h4 : s * y ^ 2 ≤ s * 1 := mul_le_mul_of_nonneg_left hyy hs
    nlinarith
  constructor
  · intro h1
    have h4 : (2 * s - y * h) ^ 2 ≤ q ^ 2 := pow_le_pow_left₀ h2 (by linarith) 2
    linarith
  · intro h1
    have h4 : (2 * s - y * h) ^ 2 ≤ q ^ 2 := by linarith
    have := le_of_sq_le h4 hq0
    linarith

/-- On the side of a capsule or a cylinder. -/
theorem side_height (v y r h s : ℝ) (hs : 0 ≤ s) (hr : 0 < r) (hh : 0 ≤ h) (hc : y * r ≤ 1 / 2 * h * v) (h1 : s * v ≤ r) :
    s * y ≤ h / 2 := by
  have h3 : s * (y * r) ≤ s * (1 / 2 * h * v) := mul_le_mul_of_nonneg_left hc hs
  have h4 : h * (s * v) ≤ h * r := mul_le_mul_of_nonneg_left h1 hh
  have h5 : s * y * r ≤ h / 2 * r := by linarith
  exact le_of_mul_le_mul_right h5 hr

/-- **C74.** The same for a capsule. -/
theorem C74_center_capsule (dir : Vec3 ℝ) (hd : Vec3.sqLen dir = 1) (s : ℝ) (hs : 0 ≤ s) (r h : ℝ) (hr : 0 < r) (hh : 0 ≤ h) :
    ∃ d, distanceFromCenter (.capsule r h) dir = .ok d ∧ ((s : WithTop ℝ) ≤ d ↔ Contains (.capsule r h) (Vec3.smul s dir)) := by
  unfold Vec3.sqLen at hd
  have hv2 : √(dir.x * dir.x + dir.z * dir.z) ^ 2 = dir.x * dir.x + dir.z * dir.z :=
    sq_sqrt (by nlinarith [mul_self_nonneg dir.x, mul_self_nonneg dir.z])
  have hv0 : 0 ≤ √(dir.x * dir.x + dir.z * dir.z) := sqrt_nonneg _
  have hy2 : |dir.y| ^ 2 = dir.y * dir.y := by rw [sq_abs]; ring
  have hy0 := abs_nonneg dir.y
  rw [capsule_contains r h hh]
  unfold distanceFromCenter
  simp only
  have hb : 2 * dir.y * -(if dir.y < 0 then -(1 / 2 * h) else 1 / 2 * h) = -(|dir.y| * h) := by
    split
    · rename_i hneg; rw [abs_of_neg hneg]; ring
    · rename_i hneg; rw [abs_of_nonneg (not_lt.1 hneg)]; ring
  rw [hb]
  generalize hvd : √(dir.x * dir.x + dir.z * dir.z) = v at *
  generalize hyd : |dir.y| = y at *
  have hunit : v ^ 2 + y ^ 2 = 1 := by rw [hv2, hy2]; linarith
  have hpt : (dir.x * s) ^ 2 + (max 0 (|dir.y * s| - h / 2)) ^ 2 + (dir.z * s) ^ 2 = s ^ 2 * v ^ 2 + (max 0 (s * y - h / 2)) ^ 2 := by
    rw [abs_mul, hyd, abs_of_nonneg hs, hv2, mul_comm y s]; ring
  simp only [Vec3.smul]
  rw [hpt]
  clear hpt hb hv2 hy2 hvd hyd hd
  by_cases hc : y * r > 1 / 2 * h * v
  · rw [if_pos hc]
    refine ⟨_, rfl, ?_⟩
    rw [WithTop.coe_le_coe]
    have e : -(y * h) * -(y * h) - 4 * (1 / 2 * h * (1 / 2 * h) - r * r) = 4 * r ^ 2 - h ^ 2 * v ^ 2 := by
      linear_combination h ^ 2 * hunit
    rw [e]
    have hypos : 0 < y := by
      rcases hy0.eq_or_lt with h0 | h0
      · rw [← h0, zero_mul] at hc
        have := mul_nonneg hh hv0
        linarith
      · exact h0
    have hy1 : y ≤ 1 := by
      have : y ^ 2 ≤ 1 ^ 2 := by nlinarith [sq_nonneg v]
      exact le_of_sq_le this (by norm_num)
    have hdet : 0 ≤ 4 * r ^ 2 - h ^ 2 * v ^ 2 := by
      have h1 : y * r ≤ 1 * r := mul_le_mul_of_nonneg_right hy1 hr.le
      have h2 : h * v ≤ 2 * r := by linarith
      have h3 := pow_le_pow_left₀ (mul_nonneg hh hv0) h2 2
      nlinarith
    have hq2 := sq_sqrt hdet
    have hq0 := sqrt_nonneg (4 * r ^ 2 - h ^ 2 * v ^ 2)
    generalize √(4 * r ^ 2 - h ^ 2 * v ^ 2) = q at *
    rw [max_eq_left (by linarith), show (-(-(y * h)) + q) / 2 = (y * h + q) / 2 by ring]
    rcases le_total (s * y) (h / 2) with hcase | hcase
    · rw [max_eq_left (by linarith)]
      have := capsule_low v y r h s q hv0 hypos hunit hs hr hh hc hq0 hq2 hcase
      exact ⟨fun _ => by linarith [this.1], fun _ => this.2⟩
    · rw [max_eq_right (by linarith)]
      exact capsule_high v y r h s q hypos hunit hs hq0 hq2 hcase
  · rw [if_neg hc]
    rw [gt_iff_lt, not_lt] at hc
    refine ⟨_, rfl, ?_⟩
    rw [divTop_le _ _ _ hr.le hs hv0]
    constructor
    · intro h1
      have h2 := side_height v y r h s hs hr hh hc h1
      rw [max_eq_left (by linarith)]
      have := pow_le_pow_left₀ (mul_nonneg hs hv0) h1 2
      rw [mul_pow] at this
      linarith
    · intro h1
      have h2 : (s * v) ^ 2 ≤ r ^ 2 := by
        rw [mul_pow]; linarith [sq_nonneg (max 0 (s * y - h / 2))]
      exact le_of_sq_le h2 hr.le

/-- **C74 (partial).** The same for a cylinder when the ray leaves through its side. -/
theorem C74_center_cylinder_partial (dir : Vec3 ℝ) (s : ℝ) (hs : 0 ≤ s) (r h : ℝ) (hr : 0 < r) (hh : 0 ≤ h)
    (hside : |dir.y| * r ≤ 1 / 2 * h * √(dir.x * dir.x + dir.z * dir.z)) :
    ∃ d, distanceFromCenter (.cylinder r h) dir = .ok d ∧ ((s : WithTop ℝ) ≤ d ↔ Contains (.cylinder r h) (Vec3.smul s dir)) := by
  have hv2 : √(dir.x * dir.x + dir.z * dir.z) ^ 2 = dir.x * dir.x + dir.z * dir.z :=
    sq_sqrt (by nlinarith [mul_self_nonneg dir.x, mul_self_nonneg dir.z])
  have hv0 : 0 ≤ √(dir.x * dir.x + dir.z * dir.z) := sqrt_nonneg _
  unfold distanceFromCenter
  simp only
  generalize √(dir.x * dir.x + dir.z * dir.z) = v at *
  rw [if_neg (by rw [gt_iff_lt, not_lt]; exact hside)]
  refine ⟨_, rfl, ?_⟩
  rw [divTop_le _ _ _ hr.le hs hv0]
  simp only [Contains, Vec3.smul]
  have e : (dir.x * s) ^ 2 + (dir.z * s) ^ 2 = (s * v) ^ 2 := by rw [mul_pow s v, hv2]; ring
  rw [e, abs_mul, abs_of_nonneg hs]
  constructor
  · intro h1
    refine ⟨pow_le_pow_left₀ (mul_nonneg hs hv0) h1 2, ?_⟩
    rw [mul_comm]
    exact side_height v _ r h s hs hr hh hside h1
  · rintro ⟨h1, _⟩
    exact le_of_sq_le h1 hr.le

/-- **C74 is violated** by a cylinder when the ray leaves through its top: in the direction (4, 3, 0) / 5 the top of a cylinder
of radius 4 and height 2 is at distance 5 / 3, but the returned distance is smaller. -/
theorem C74_center_cylinder_violated : ∃ (dir : Vec3 ℝ) (d : ℝ), Vec3.sqLen dir = 1 ∧
    distanceFromCenter (.cylinder 4 2) dir = .ok (d : WithTop ℝ) ∧ d < 5 / 3 ∧ Contains (.cylinder 4 2) (Vec3.smul (5 / 3) dir) := by
  have hv : √((4 / 5 : ℝ) * (4 / 5) + 0 * 0) = 4 / 5 := by
    rw [show (4 / 5 : ℝ) * (4 / 5) + 0 * 0 = (4 / 5) ^ 2 by norm_num, sqrt_sq (by norm_num)]
  refine ⟨⟨4 / 5, 3 / 5, 0⟩, √(41 / 25), by norm_num [Vec3.sqLen], ?_, ?_, ?_⟩
  · unfold distanceFromCenter
    simp only
    rw [hv, abs_of_pos (by norm_num : (0 : ℝ) < 3 / 5), if_pos (by norm_num)]
    norm_num
  · rw [sqrt_lt' (by norm_num)]; norm_num
  · simp only [Contains, Vec3.smul]
    refine ⟨by norm_num, ?_⟩
    rw [abs_of_pos (by norm_num)]; norm_num

/-- **C74 is violated** by cones and planes: there is no result for a cone, and a plane always gives zero, although the
direction may never leave the half space. -/
theorem C74_center_other_violated (r h : ℝ) (n dir : Vec3 ℝ) :
    distanceFromCenter (.cone r h) dir = .err ∧ distanceFromCenter (.plane n) dir = .ok 0 := ⟨rfl, rfl⟩

/-- Non-vacuity: perpendicular unit directions, parallel directions, a ray through a side. -/
example : (1 / 1000 : ℚ) ≤ crossSq ⟨⟨0, 0, 0⟩, ⟨1, 0, 0⟩⟩ ⟨⟨1, 2, 3⟩, ⟨0, 1, 0⟩⟩ ∧
    crossSq (⟨⟨0, 0, 0⟩, ⟨1, 2, 0⟩⟩ : Line ℚ) ⟨⟨1, 2, 3⟩, ⟨2, 4, 0⟩⟩ = 0 := by
  norm_num [crossSq, Vec3.sqLen, Vec3.cross]

end Xo.Geom
