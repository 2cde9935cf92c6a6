import Verif.Model.Shape
import Verif.Props.C54_Quat
import Mathlib.Tactic.Linarith

/-!
C56: bounding boxes contain their contents and nothing tighter exists.
-/
namespace Xo.Geom

namespace Spec
variable {K : Type} [LinearOrder K]

/-- A point is inside a box. -/
def Inside (b : Aabb K) (v : Vec3 K) : Prop :=
  (b.lower.x ≤ v.x ∧ v.x ≤ b.upper.x) ∧ (b.lower.y ≤ v.y ∧ v.y ≤ b.upper.y) ∧ (b.lower.z ≤ v.z ∧ v.z ≤ b.upper.z)

/-- One box is inside another: its bounds are. -/
def Within (b c : Aabb K) : Prop :=
  (c.lower.x ≤ b.lower.x ∧ b.upper.x ≤ c.upper.x) ∧ (c.lower.y ≤ b.lower.y ∧ b.upper.y ≤ c.upper.y) ∧
    (c.lower.z ≤ b.lower.z ∧ b.upper.z ≤ c.upper.z)

/-- All coordinates are numbers between the lowest and the biggest one. -/
def InRange (big low : K) (v : Vec3 K) : Prop :=
  (low ≤ v.x ∧ v.x ≤ big) ∧ (low ≤ v.y ∧ v.y ≤ big) ∧ (low ≤ v.z ∧ v.z ≤ big)

end Spec
open Spec

section order
variable {K : Type} [LinearOrder K]

theorem setIfSmaller_eq (a b : K) : setIfSmaller a b = min a b := by
  unfold setIfSmaller
  split
  · rename_i h; exact (min_eq_right h.le).symm
  · rename_i h; exact (min_eq_left (not_lt.1 h)).symm

theorem setIfBigger_eq (a b : K) : setIfBigger a b = max a b := by
  unfold setIfBigger
  split
  · rename_i h; exact (max_eq_right (le_of_lt h)).symm
  · rename_i h; exact (max_eq_left (not_lt.1 h)).symm

theorem addPoint_within (b c : Aabb K) (v : Vec3 K) : Within (b.addPoint v) c ↔ Within b c ∧ Inside c v := by
  unfold Within Inside Aabb.addPoint
  simp only [setIfSmaller_eq, setIfBigger_eq, le_min_iff, max_le_iff]
  tauto

/-- The box of a list of points lies within a box exactly if the start and all the points do. -/
theorem addPoints_within (l : List (Vec3 K)) (b c : Aabb K) :
    Within (b.addPoints l) c ↔ Within b c ∧ ∀ v ∈ l, Inside c v := by
  induction l generalizing b with
  | nil => simp [Aabb.addPoints]
  | cons v l ih =>
    have : b.addPoints (v :: l) = (b.addPoint v).addPoints l := rfl
    rw [this, ih, addPoint_within]
    simp only [List.mem_cons, forall_eq_or_imp]
    tauto

theorem within_refl (b : Aabb K) : Within b b := ⟨⟨le_refl _, le_refl _⟩, ⟨le_refl _, le_refl _⟩, ⟨le_refl _, le_refl _⟩⟩

theorem within_antisymm {b c : Aabb K} (h1 : Within b c) (h2 : Within c b) : b = c := by
  obtain ⟨⟨a1, a2⟩, ⟨a3, a4⟩, ⟨a5, a6⟩⟩ := h1
  obtain ⟨⟨b1, b2⟩, ⟨b3, b4⟩, ⟨b5, b6⟩⟩ := h2
  ext
  · exact le_antisymm b1 a1
  · exact le_antisymm b3 a3
  · exact le_antisymm b5 a5
  · exact le_antisymm a2 b2
  · exact le_antisymm a4 b4
  · exact le_antisymm a6 b6

/-- **C56.** A box accumulated from points contains every point, and lies within every box that contains them all. The
numbers `big` and `low` are those of an empty box. -/
theorem C56_accumulate (big low : K) (l : List (Vec3 K)) (hne : l ≠ []) (hr : ∀ v ∈ l, InRange big low v) :
    (∀ v ∈ l, Inside ((Aabb.empty big low).addPoints l) v) ∧
    ∀ c, (∀ v ∈ l, Inside c v) → Within ((Aabb.empty big low).addPoints l) c := by
  refine ⟨((addPoints_within l _ _).1 (within_refl _)).2, ?_⟩
  intro c hc
  refine (addPoints_within l _ _).2 ⟨?_, hc⟩
  obtain ⟨v, hv⟩ := List.exists_mem_of_ne_nil l hne
  have h1 := hr v hv
  have h2 := hc v hv
  unfold Inside at h2
  unfold InRange at h1
  unfold Within Aabb.empty
  simp only
  exact ⟨⟨h2.1.1.trans h1.1.2, h1.1.1.trans h2.1.2⟩, ⟨h2.2.1.1.trans h1.2.1.2, h1.2.1.1.trans h2.2.1.2⟩,
    ⟨h2.2.2.1.trans h1.2.2.2, h1.2.2.1.trans h2.2.2.2⟩⟩

/-- **C56.** The order of the points, and repeating points, makes no difference. -/
theorem C56_order (b : Aabb K) (l m : List (Vec3 K)) (h : ∀ v, v ∈ l ↔ v ∈ m) : b.addPoints l = b.addPoints m := by
  refine within_antisymm ?_ ?_
  · have := (addPoints_within m b (b.addPoints m)).1 (within_refl _)
    exact (addPoints_within l _ _).2 ⟨this.1, fun v hv => this.2 v ((h v).1 hv)⟩
  · have := (addPoints_within l b (b.addPoints l)).1 (within_refl _)
    exact (addPoints_within m _ _).2 ⟨this.1, fun v hv => this.2 v ((h v).2 hv)⟩

/-- **C56.** Starting from the box of the first point gives the same as starting from the empty box. -/
theorem C56_first (big low : K) (v : Vec3 K) (l : List (Vec3 K)) (hv : InRange big low v) :
    (Aabb.empty big low).addPoints (v :: l) = (Aabb.ofPoint v).addPoints l := by
  have : (Aabb.empty big low).addPoints (v :: l) = ((Aabb.empty big low).addPoint v).addPoints l := rfl
  rw [this]
  congr 1
  unfold InRange at hv
  ext <;> simp only [Aabb.empty, Aabb.addPoint, Aabb.ofPoint, setIfSmaller_eq, setIfBigger_eq]
  · exact min_eq_right hv.1.2
  · exact min_eq_right hv.2.1.2
  · exact min_eq_right hv.2.2.2
  · exact max_eq_right hv.1.1
  · exact max_eq_right hv.2.1.1
  · exact max_eq_right hv.2.2.1

/-- **C56.** The sum of two boxes is the smallest box that contains both; it does not depend on the order. -/
theorem C56_join (b c : Aabb K) : Within b (b.addBox c) ∧ Within c (b.addBox c) ∧
    (∀ d, Within b d → Within c d → Within (b.addBox c) d) ∧ b.addBox c = c.addBox b := by
  have key : ∀ b c d : Aabb K, Within (b.addBox c) d ↔ Within b d ∧ Within c d := by
    intro b c d
    unfold Within Aabb.addBox
    simp only [setIfSmaller_eq, setIfBigger_eq, le_min_iff, max_le_iff]
    tauto
  have h := (key b c _).1 (within_refl _)
  have h' := (key c b _).1 (within_refl _)
  exact ⟨h.1, h.2, fun d h1 h2 => (key b c d).2 ⟨h1, h2⟩,
    within_antisymm ((key b c _).2 ⟨h'.2, h'.1⟩) ((key c b _).2 ⟨h.2, h.1⟩)⟩

/-- **C56.** The box of all points is the sum of the boxes of two parts. -/
theorem C56_parts (b : Aabb K) (l m : List (Vec3 K)) : b.addPoints (l ++ m) = (b.addPoints l).addBox (b.addPoints m) := by
  have hl := (addPoints_within l b _).1 (within_refl (b.addPoints l))
  have hm := (addPoints_within m b _).1 (within_refl (b.addPoints m))
  have hlm := (addPoints_within (l ++ m) b _).1 (within_refl (b.addPoints (l ++ m)))
  have inside_mono : ∀ {c d : Aabb K} {v : Vec3 K}, Within c d → Inside c v → Inside d v := by
    intro c d v h1 h2
    unfold Within at h1
    unfold Inside at *
    exact ⟨⟨h1.1.1.trans h2.1.1, h2.1.2.trans h1.1.2⟩, ⟨h1.2.1.1.trans h2.2.1.1, h2.2.1.2.trans h1.2.1.2⟩,
      ⟨h1.2.2.1.trans h2.2.2.1, h2.2.2.2.trans h1.2.2.2⟩⟩
  have hj := C56_join (b.addPoints l) (b.addPoints m)
  refine within_antisymm ?_ ?_
  · refine (addPoints_within _ _ _).2 ⟨?_, ?_⟩
    · have h1 := hl.1
      have h2 := hj.1
      unfold Within at *
      exact ⟨⟨h2.1.1.trans h1.1.1, h1.1.2.trans h2.1.2⟩, ⟨h2.2.1.1.trans h1.2.1.1, h1.2.1.2.trans h2.2.1.2⟩,
        ⟨h2.2.2.1.trans h1.2.2.1, h1.2.2.2.trans h2.2.2.2⟩⟩
    · intro v hv
      rcases List.mem_append.1 hv with h | h
      · exact inside_mono hj.1 (hl.2 v h)
      · exact inside_mono hj.2.1 (hm.2 v h)
  · refine hj.2.2.1 _ ?_ ?_
    · exact (addPoints_within _ _ _).2 ⟨hlm.1, fun v hv => hlm.2 v (List.mem_append.2 (.inl hv))⟩
    · exact (addPoints_within _ _ _).2 ⟨hlm.1, fun v hv => hlm.2 v (List.mem_append.2 (.inr hv))⟩

end order

section field
variable {K : Type} [Field K] [LinearOrder K] [IsStrictOrderedRing K]

/-- An affine function of three numbers is between its values in the corners. -/
theorem affine_corner (a b c d : K) (h v : Vec3 K) (hx : |v.x| ≤ h.x) (hy : |v.y| ≤ h.y) (hz : |v.z| ≤ h.z) :
    (∃ p ∈ boxCorners h, a + b * v.x + c * v.y + d * v.z ≤ a + b * p.x + c * p.y + d * p.z) ∧
    (∃ p ∈ boxCorners h, a + b * p.x + c * p.y + d * p.z ≤ a + b * v.x + c * v.y + d * v.z) := by
  have key : ∀ (b x m : K), |x| ≤ m → (∃ n, (n = m ∨ n = -m) ∧ b * x ≤ b * n) ∧ ∃ n, (n = m ∨ n = -m) ∧ b * n ≤ b * x := by
    intro b x m h
    have := abs_le.1 h
    rcases le_total 0 b with hb | hb
    · exact ⟨⟨m, .inl rfl, mul_le_mul_of_nonneg_left this.2 hb⟩, ⟨-m, .inr rfl, mul_le_mul_of_nonneg_left this.1 hb⟩⟩
    · exact ⟨⟨-m, .inr rfl, mul_le_mul_of_nonpos_left this.1 hb⟩, ⟨m, .inl rfl, mul_le_mul_of_nonpos_left this.2 hb⟩⟩
  have mem : ∀ a b c : K, (a = h.x ∨ a = -h.x) → (b = h.y ∨ b = -h.y) → (c = h.z ∨ c = -h.z) → (⟨a, b, c⟩ : Vec3 K) ∈ boxCorners h := by
    rintro a b c (rfl | rfl) (rfl | rfl) (rfl | rfl) <;> simp [boxCorners]
  obtain ⟨⟨x1, mx1, ex1⟩, ⟨x2, mx2, ex2⟩⟩ := key b _ _ hx
  obtain ⟨⟨y1, my1, ey1⟩, ⟨y2, my2, ey2⟩⟩ := key c _ _ hy
  obtain ⟨⟨z1, mz1, ez1⟩, ⟨z2, mz2, ez2⟩⟩ := key d _ _ hz
  exact ⟨⟨⟨x1, y1, z1⟩, mem _ _ _ mx1 my1 mz1, add_le_add (add_le_add (add_le_add (le_refl _) ex1) ey1) ez1⟩,
    ⟨⟨x2, y2, z2⟩, mem _ _ _ mx2 my2 mz2, add_le_add (add_le_add (add_le_add (le_refl _) ex2) ey2) ez2⟩⟩

/-- The coordinates of a transformed point are affine functions of the point. -/
theorem point_affine (t : Transform K) : ∃ r : Vec3 K × Vec3 K × Vec3 K, ∀ v : Vec3 K,
    Transform.point t v = ⟨t.p.x + r.1.x * v.x + r.1.y * v.y + r.1.z * v.z, t.p.y + r.2.1.x * v.x + r.2.1.y * v.y + r.2.1.z * v.z,
      t.p.z + r.2.2.x * v.x + r.2.2.y * v.y + r.2.2.z * v.z⟩ := by
  have hx := Quat.rot t.q (⟨1, 0, 0⟩ : Vec3 K)
  refine ⟨(⟨(Quat.rot t.q ⟨1, 0, 0⟩).x, (Quat.rot t.q ⟨0, 1, 0⟩).x, (Quat.rot t.q ⟨0, 0, 1⟩).x⟩,
    ⟨(Quat.rot t.q ⟨1, 0, 0⟩).y, (Quat.rot t.q ⟨0, 1, 0⟩).y, (Quat.rot t.q ⟨0, 0, 1⟩).y⟩,
    ⟨(Quat.rot t.q ⟨1, 0, 0⟩).z, (Quat.rot t.q ⟨0, 1, 0⟩).z, (Quat.rot t.q ⟨0, 0, 1⟩).z⟩), fun v => ?_⟩
  ext <;> simp only [Transform.point, Vec3.add, Quat.rot, Vec3.smul, Vec3.cross] <;> ring

/-- **C56.** The bounding box of a box contains every transformed point of it, for every transform; and it lies within every
box that does. -/
theorem C56_box (big low : K) (h : Vec3 K) (t : Transform K) (hx : 0 ≤ h.x) (hy : 0 ≤ h.y) (hz : 0 ≤ h.z)
    (hr : ∀ v : Vec3 K, |v.x| ≤ h.x → |v.y| ≤ h.y → |v.z| ≤ h.z → InRange big low (Transform.point t v)) :
    (∀ v : Vec3 K, |v.x| ≤ h.x → |v.y| ≤ h.y → |v.z| ≤ h.z → Inside (boxAabb big low h t) (Transform.point t v)) ∧
    ∀ c, (∀ v : Vec3 K, |v.x| ≤ h.x → |v.y| ≤ h.y → |v.z| ≤ h.z → Inside c (Transform.point t v)) → Within (boxAabb big low h t) c := by
  have corner : ∀ p ∈ boxCorners h, |p.x| ≤ h.x ∧ |p.y| ≤ h.y ∧ |p.z| ≤ h.z := by
    intro p hp
    simp only [boxCorners, List.mem_cons, List.not_mem_nil, or_false] at hp
    rcases hp with rfl | rfl | rfl | rfl | rfl | rfl | rfl | rfl <;>
      simp only [abs_neg, abs_of_nonneg hx, abs_of_nonneg hy, abs_of_nonneg hz, le_refl, and_self]
  have hacc := C56_accumulate big low ((boxCorners h).map fun c => Transform.point t c) (by simp [boxCorners]) (by
    intro v hv
    obtain ⟨p, hp, rfl⟩ := List.mem_map.1 hv
    exact hr p (corner p hp).1 (corner p hp).2.1 (corner p hp).2.2)
  constructor
  · intro v h1 h2 h3
    obtain ⟨r, hr⟩ := point_affine t
    have inb : ∀ p ∈ boxCorners h, Inside (boxAabb big low h t) (Transform.point t p) := fun p hp =>
      hacc.1 _ (List.mem_map.2 ⟨p, hp, rfl⟩)
    obtain ⟨⟨p1, m1, e1⟩, ⟨p2, m2, e2⟩⟩ := affine_corner t.p.x r.1.x r.1.y r.1.z h v h1 h2 h3
    obtain ⟨⟨p3, m3, e3⟩, ⟨p4, m4, e4⟩⟩ := affine_corner t.p.y r.2.1.x r.2.1.y r.2.1.z h v h1 h2 h3
    obtain ⟨⟨p5, m5, e5⟩, ⟨p6, m6, e6⟩⟩ := affine_corner t.p.z r.2.2.x r.2.2.y r.2.2.z h v h1 h2 h3
    have i1 := inb p1 m1
    have i2 := inb p2 m2
    have i3 := inb p3 m3
    have i4 := inb p4 m4
    have i5 := inb p5 m5
    have i6 := inb p6 m6
    rw [hr] at i1 i2 i3 i4 i5 i6 ⊢
    unfold Inside at *
    simp only at *
    exact ⟨⟨i2.1.1.trans e2, e1.trans i1.1.2⟩, ⟨i4.2.1.1.trans e4, e3.trans i3.2.1.2⟩, ⟨i6.2.2.1.trans e6, e5.trans i5.2.2.2⟩⟩
  · intro c hc
    refine hacc.2 c ?_
    intro v hv
    obtain ⟨p, hp, rfl⟩ := List.mem_map.1 hv
    exact hc p (corner p hp).1 (corner p hp).2.1 (corner p hp).2.2

/-- **C56.** The bounding box of a sphere contains every transformed point of it when the rotation has length one, and lies
within every box that does. -/
theorem C56_sphere (r : K) (hr : 0 ≤ r) (t : Transform K) (ht : Spec.UnitLength t.q) :
    (∀ v : Vec3 K, Vec3.sqLen v ≤ r ^ 2 → Inside (sphereAabb r t) (Transform.point t v)) ∧
    ∀ c, (∀ v : Vec3 K, Vec3.sqLen v ≤ r ^ 2 → Inside c (Transform.point t v)) → Within (sphereAabb r t) c := by
  constructor
  · intro v hv
    have hl : Vec3.sqLen (Quat.rot t.q v) = Vec3.sqLen v := (C54_isometry t.q v v ht).2
    have hp : Transform.point t v = Vec3.add t.p (Quat.rot t.q v) := rfl
    rw [hp]
    rw [← hl] at hv
    generalize Quat.rot t.q v = w at hv
    unfold Vec3.sqLen at hv
    have h1 : ∀ a : K, a * a ≤ r ^ 2 → -r ≤ a ∧ a ≤ r := by
      intro a ha
      exact abs_le.1 (abs_le_of_sq_le_sq (by rw [pow_two]; exact ha) hr)
    have hx := h1 w.x (by nlinarith [mul_self_nonneg w.y, mul_self_nonneg w.z])
    have hy := h1 w.y (by nlinarith [mul_self_nonneg w.x, mul_self_nonneg w.z])
    have hz := h1 w.z (by nlinarith [mul_self_nonneg w.x, mul_self_nonneg w.y])
    simp only [Inside, sphereAabb, Vec3.sub, Vec3.add, Vec3.diagonal]
    refine ⟨⟨?_, ?_⟩, ⟨?_, ?_⟩, ⟨?_, ?_⟩⟩ <;> linarith
  · intro c hc
    have get : ∀ w : Vec3 K, Vec3.sqLen w ≤ r ^ 2 → Inside c (Vec3.add t.p w) := by
      intro w hw
      have hb : Quat.rot t.q (Quat.rot (Quat.conj t.q) w) = w := (C54_conjugate t.q w ht).2.2.2.1
      have hl : Vec3.sqLen (Quat.rot (Quat.conj t.q) w) ≤ r ^ 2 := by
        have := (C54_isometry t.q w (Quat.rot (Quat.conj t.q) w) ht).2
        rw [hb] at this
        rw [← this]; exact hw
      have := hc _ hl
      have hp : Transform.point t (Quat.rot (Quat.conj t.q) w) = Vec3.add t.p (Quat.rot t.q (Quat.rot (Quat.conj t.q) w)) := rfl
      rw [hp, hb] at this
      exact this
    have g1 := get ⟨r, 0, 0⟩ (by simp only [Vec3.sqLen]; nlinarith)
    have g2 := get ⟨-r, 0, 0⟩ (by simp only [Vec3.sqLen]; nlinarith)
    have g3 := get ⟨0, r, 0⟩ (by simp only [Vec3.sqLen]; nlinarith)
    have g4 := get ⟨0, -r, 0⟩ (by simp only [Vec3.sqLen]; nlinarith)
    have g5 := get ⟨0, 0, r⟩ (by simp only [Vec3.sqLen]; nlinarith)
    have g6 := get ⟨0, 0, -r⟩ (by simp only [Vec3.sqLen]; nlinarith)
    simp only [Inside, Vec3.add] at g1 g2 g3 g4 g5 g6
    simp only [Within, sphereAabb, Vec3.sub, Vec3.add, Vec3.diagonal]
    refine ⟨⟨?_, ?_⟩, ⟨?_, ?_⟩, ⟨?_, ?_⟩⟩ <;> linarith [g1.1.1, g1.1.2, g2.1.1, g2.1.2, g3.2.1.1, g3.2.1.2, g4.2.1.1, g4.2.1.2,
      g5.2.2.1, g5.2.2.2, g6.2.2.1, g6.2.2.2]

/-- **C56 is violated** for cylinders, capsules, cones and planes: asking for their bounding box throws. -/
theorem C56_other_violated (big low : K) (t : Transform K) (r h : K) (n : Vec3 K) :
    Shape.aabb big low (.cylinder r h) t = .err ∧ Shape.aabb big low (.capsule r h) t = .err ∧
    Shape.aabb big low (.cone r h) t = .err ∧ Shape.aabb big low (.plane n) t = .err ∧
    Shape.aabb big low (.sphere r) t = .ok (sphereAabb r t) ∧ Shape.aabb big low (.box n) t = .ok (boxAabb big low n t) :=
  ⟨rfl, rfl, rfl, rfl, rfl, rfl⟩

end field

/-- Non-vacuity: two points in range, and their box. -/
example : InRange (1000 : ℚ) (-1000) ⟨1, 2, 3⟩ ∧ ((Aabb.empty (1000 : ℚ) (-1000)).addPoints [⟨1, 5, 3⟩, ⟨4, 2, 6⟩]).upper = ⟨4, 5, 6⟩ ∧
    ((Aabb.empty (1000 : ℚ) (-1000)).addPoints [⟨1, 5, 3⟩, ⟨4, 2, 6⟩]).lower = ⟨1, 2, 3⟩ := by
  refine ⟨by norm_num [InRange], by decide +kernel, by decide +kernel⟩

end Xo.Geom
