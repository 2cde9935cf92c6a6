import Verif.Model.Geom
import Mathlib.Tactic.Ring
import Mathlib.Tactic.LinearCombination
import Mathlib.Tactic.Linarith
import Mathlib.Tactic.FieldSimp
import Mathlib.Tactic.NormNum
import Mathlib.Tactic.Positivity
import Mathlib.Algebra.Order.Field.Rat

/-!
C54: quaternions, C55: transforms, C63: vectors and mirroring, all over an arbitrary field.
-/
namespace Xo.Geom
variable {K : Type} [Field K]

namespace Spec

/-- A quaternion of length one. -/
def UnitLength (q : Quat K) : Prop := q.w ^ 2 + q.x ^ 2 + q.y ^ 2 + q.z ^ 2 = 1

/-- The rotation a quaternion stands for, as a matrix (the usual textbook form), applied to a vector. -/
def rotate (q : Quat K) (v : Vec3 K) : Vec3 K :=
  ⟨(q.w ^ 2 + q.x ^ 2 - q.y ^ 2 - q.z ^ 2) * v.x + 2 * (q.x * q.y - q.w * q.z) * v.y + 2 * (q.x * q.z + q.w * q.y) * v.z,
   2 * (q.x * q.y + q.w * q.z) * v.x + (q.w ^ 2 - q.x ^ 2 + q.y ^ 2 - q.z ^ 2) * v.y + 2 * (q.y * q.z - q.w * q.x) * v.z,
   2 * (q.x * q.z - q.w * q.y) * v.x + 2 * (q.y * q.z + q.w * q.x) * v.y + (q.w ^ 2 - q.x ^ 2 - q.y ^ 2 + q.z ^ 2) * v.z⟩

end Spec
open Spec

section Algebra

/-- **C54.** The product is associative with the identity as unit. -/
theorem C54_monoid (p q r : Quat K) :
    Quat.mul (Quat.mul p q) r = Quat.mul p (Quat.mul q r) ∧ Quat.mul Quat.one q = q ∧ Quat.mul q Quat.one = q := by
  refine ⟨?_, ?_, ?_⟩ <;> ext <;> simp [Quat.mul, Quat.one] <;> ring

/-- The product obeys Hamilton's rules for the imaginary units. -/
theorem C54_hamilton :
    let i : Quat K := ⟨0, 1, 0, 0⟩
    let j : Quat K := ⟨0, 0, 1, 0⟩
    let k : Quat K := ⟨0, 0, 0, 1⟩
    let m : Quat K := ⟨-1, 0, 0, 0⟩
    Quat.mul i i = m ∧ Quat.mul j j = m ∧ Quat.mul k k = m ∧ Quat.mul i j = k ∧ Quat.mul j k = i ∧ Quat.mul k i = j := by
  refine ⟨?_, ?_, ?_, ?_, ?_, ?_⟩ <;> ext <;> simp [Quat.mul]

/-- The product is bilinear, so with `C54_hamilton` it is the product of quaternions. -/
theorem C54_bilinear (p q r : Quat K) (s : K) :
    Quat.mul ⟨p.w + q.w, p.x + q.x, p.y + q.y, p.z + q.z⟩ r =
      ⟨(Quat.mul p r).w + (Quat.mul q r).w, (Quat.mul p r).x + (Quat.mul q r).x, (Quat.mul p r).y + (Quat.mul q r).y,
        (Quat.mul p r).z + (Quat.mul q r).z⟩ ∧
    Quat.mul p ⟨q.w + r.w, q.x + r.x, q.y + r.y, q.z + r.z⟩ =
      ⟨(Quat.mul p q).w + (Quat.mul p r).w, (Quat.mul p q).x + (Quat.mul p r).x, (Quat.mul p q).y + (Quat.mul p r).y,
        (Quat.mul p q).z + (Quat.mul p r).z⟩ ∧
    Quat.mul (Quat.scale p s) q = Quat.scale (Quat.mul p q) s ∧ Quat.mul p (Quat.scale q s) = Quat.scale (Quat.mul p q) s := by
  refine ⟨?_, ?_, ?_, ?_⟩ <;> ext <;> simp [Quat.mul, Quat.scale] <;> ring

/-- The length of a product is the product of the lengths. -/
theorem C54_length (p q : Quat K) : Quat.sqLen (Quat.mul p q) = Quat.sqLen p * Quat.sqLen q := by
  simp only [Quat.sqLen, Quat.mul]; ring

theorem sqLen_unit (q : Quat K) (h : UnitLength q) : Quat.sqLen q = 1 := by
  unfold UnitLength at h; unfold Quat.sqLen; rw [← h]; ring

theorem unit_mul (p q : Quat K) (hp : UnitLength p) (hq : UnitLength q) : UnitLength (Quat.mul p q) := by
  have h := C54_length p q
  rw [sqLen_unit p hp, sqLen_unit q hq, mul_one] at h
  unfold UnitLength
  rw [← h]
  unfold Quat.sqLen
  ring

theorem unit_conj (q : Quat K) (h : UnitLength q) : UnitLength (Quat.conj q) := by
  unfold UnitLength at *; rw [← h]; simp [Quat.conj]

/-- What multiplying a vector by any quaternion does: the rotation, plus `1 - |q|²` times the vector. -/
theorem C54_rotation_any (q : Quat K) (v : Vec3 K) :
    Quat.rot q v = Vec3.add (rotate q v) (Vec3.smul (1 - Quat.sqLen q) v) := by
  ext <;> simp only [Quat.rot, rotate, Vec3.add, Vec3.smul, Vec3.cross, Quat.sqLen] <;> ring

/-- **C54.** Multiplying a vector by a unit quaternion is the rotation it stands for. -/
theorem C54_rotation (q : Quat K) (v : Vec3 K) (h : UnitLength q) : Quat.rot q v = rotate q v := by
  rw [C54_rotation_any, sqLen_unit q h]
  ext <;> simp [Vec3.add, Vec3.smul]

/-- **C54 (partial).** Rotating by a product of unit quaternions equals rotating successively. -/
theorem C54_product_partial (p q : Quat K) (v : Vec3 K) (hp : UnitLength p) (hq : UnitLength q) :
    Quat.rot (Quat.mul p q) v = Quat.rot p (Quat.rot q v) := by
  rw [C54_rotation _ _ (unit_mul p q hp hq), C54_rotation p _ hp, C54_rotation q _ hq]
  ext <;> simp only [rotate, Quat.mul] <;> ring

/-- **C54 is violated** for other quaternions: multiplying by the square is not multiplying twice. -/
theorem C54_product_violated : ∃ (q : Quat ℚ) (v : Vec3 ℚ), Quat.rot (Quat.mul q q) v ≠ Quat.rot q (Quat.rot q v) :=
  ⟨⟨0, 2, 0, 0⟩, ⟨0, 1, 0⟩, by decide +kernel⟩

/-- **C54.** A unit quaternion preserves dot products, hence lengths and angles. -/
theorem C54_isometry (q : Quat K) (u v : Vec3 K) (h : UnitLength q) :
    Vec3.dot (Quat.rot q u) (Quat.rot q v) = Vec3.dot u v ∧ Vec3.sqLen (Quat.rot q v) = Vec3.sqLen v := by
  have key : ∀ u v : Vec3 K, Vec3.dot (rotate q u) (rotate q v) = Quat.sqLen q ^ 2 * Vec3.dot u v := by
    intro u v
    simp only [Vec3.dot, rotate, Quat.sqLen]; ring
  have hl : ∀ v : Vec3 K, Vec3.sqLen v = Vec3.dot v v := fun v => by simp only [Vec3.sqLen, Vec3.dot]
  rw [hl, hl, C54_rotation q u h, C54_rotation q v h, key, key, sqLen_unit q h]
  constructor <;> ring

/-- **C54.** A unit quaternion preserves orientation: it maps cross products to cross products. -/
theorem C54_orientation (q : Quat K) (u v : Vec3 K) (h : UnitLength q) :
    Vec3.cross (Quat.rot q u) (Quat.rot q v) = Quat.rot q (Vec3.cross u v) := by
  have key : ∀ u v : Vec3 K, Vec3.cross (rotate q u) (rotate q v) = Vec3.smul (Quat.sqLen q) (rotate q (Vec3.cross u v)) := by
    intro u v
    ext <;> simp only [Vec3.cross, rotate, Quat.sqLen, Vec3.smul] <;> ring
  rw [C54_rotation q u h, C54_rotation q v h, C54_rotation q _ h, key, sqLen_unit q h]
  ext <;> simp [Vec3.smul]

/-- **C54.** Multiplying by a quaternion is linear in the vector. -/
theorem C54_linear (q : Quat K) (u v : Vec3 K) (s : K) :
    Quat.rot q (Vec3.add u v) = Vec3.add (Quat.rot q u) (Quat.rot q v) ∧
    Quat.rot q (Vec3.smul s u) = Vec3.smul s (Quat.rot q u) := by
  constructor <;> ext <;> simp only [Quat.rot, Vec3.add, Vec3.smul, Vec3.cross] <;> ring

/-- **C54.** The identity leaves vectors as they are. -/
theorem C54_identity (v : Vec3 K) : Quat.rot Quat.one v = v := by
  ext <;> simp [Quat.rot, Quat.one, Vec3.add, Vec3.smul, Vec3.cross]

theorem mul_conj (q : Quat K) :
    Quat.mul q (Quat.conj q) = ⟨Quat.sqLen q, 0, 0, 0⟩ ∧ Quat.mul (Quat.conj q) q = ⟨Quat.sqLen q, 0, 0, 0⟩ := by
  constructor <;> ext <;> simp only [Quat.mul, Quat.conj, Quat.sqLen] <;> ring

/-- **C54.** The conjugate of a unit quaternion undoes it, for quaternions and vectors. Unary minus is the conjugate. -/
theorem C54_conjugate (q : Quat K) (v : Vec3 K) (h : UnitLength q) :
    Quat.mul q (Quat.conj q) = Quat.one ∧ Quat.mul (Quat.conj q) q = Quat.one ∧
    Quat.rot (Quat.conj q) (Quat.rot q v) = v ∧ Quat.rot q (Quat.rot (Quat.conj q) v) = v ∧
    Quat.minus q = Quat.conj q := by
  have h1 : Quat.mul q (Quat.conj q) = Quat.one := by rw [(mul_conj q).1, sqLen_unit q h]; rfl
  have h2 : Quat.mul (Quat.conj q) q = Quat.one := by rw [(mul_conj q).2, sqLen_unit q h]; rfl
  refine ⟨h1, h2, ?_, ?_, rfl⟩
  · rw [← C54_product_partial _ _ _ (unit_conj q h) h, h2, C54_identity]
  · rw [← C54_product_partial _ _ _ h (unit_conj q h), h1, C54_identity]

/-- **C54 (partial, with the exact condition).** For a quaternion of non-zero length, `inverse` gives the multiplicative
inverse exactly when the length is one or the real part is zero. -/
theorem C54_inverse_partial [DecidableEq K] (q : Quat K) (h : Quat.sqLen q ≠ 0) :
    ∃ r, Quat.inverse q = some r ∧
      (Quat.mul q r = Quat.one ↔ (Quat.sqLen q = 1 ∨ q.w = 0)) ∧
      (Quat.mul r q = Quat.one ↔ (Quat.sqLen q = 1 ∨ q.w = 0)) := by
  refine ⟨_, by unfold Quat.inverse; rw [if_neg h], ?_⟩
  have hw : q.w * q.w + (Quat.sqLen q - q.w * q.w) / Quat.sqLen q = 1 ↔ (Quat.sqLen q = 1 ∨ q.w = 0) := by
    constructor
    · intro e
      by_cases hw : q.w = 0
      · exact Or.inr hw
      · left
        field_simp at e
        have : q.w ^ 2 * (Quat.sqLen q - 1) = 0 := by linear_combination e
        rcases mul_eq_zero.1 this with h' | h'
        · exact absurd (pow_eq_zero_iff (by norm_num) |>.1 h') hw
        · linear_combination h'
    · rintro (e | e)
      · rw [e]; ring
      · rw [e]; field_simp; ring
  have e1 : (Quat.mul q ⟨q.w, q.x * (-1 / Quat.sqLen q), q.y * (-1 / Quat.sqLen q), q.z * (-1 / Quat.sqLen q)⟩) =
      ⟨q.w * q.w + (Quat.sqLen q - q.w * q.w) / Quat.sqLen q, q.w * q.x * (1 - 1 / Quat.sqLen q), q.w * q.y * (1 - 1 / Quat.sqLen q),
        q.w * q.z * (1 - 1 / Quat.sqLen q)⟩ := by
    have e0 : Quat.sqLen q - q.w * q.w = q.x * q.x + q.y * q.y + q.z * q.z := by unfold Quat.sqLen; ring
    rw [e0]
    ext <;> simp only [Quat.mul] <;> ring
  have e2 : (Quat.mul ⟨q.w, q.x * (-1 / Quat.sqLen q), q.y * (-1 / Quat.sqLen q), q.z * (-1 / Quat.sqLen q)⟩ q) =
      ⟨q.w * q.w + (Quat.sqLen q - q.w * q.w) / Quat.sqLen q, q.w * q.x * (1 - 1 / Quat.sqLen q), q.w * q.y * (1 - 1 / Quat.sqLen q),
        q.w * q.z * (1 - 1 / Quat.sqLen q)⟩ := by
    have e0 : Quat.sqLen q - q.w * q.w = q.x * q.x + q.y * q.y + q.z * q.z := by unfold Quat.sqLen; ring
    rw [e0]
    ext <;> simp only [Quat.mul] <;> ring
  rw [e1, e2]
  have main : (⟨q.w * q.w + (Quat.sqLen q - q.w * q.w) / Quat.sqLen q, q.w * q.x * (1 - 1 / Quat.sqLen q),
      q.w * q.y * (1 - 1 / Quat.sqLen q), q.w * q.z * (1 - 1 / Quat.sqLen q)⟩ : Quat K) = Quat.one ↔
      (Quat.sqLen q = 1 ∨ q.w = 0) := by
    rw [Quat.ext_iff]
    simp only [Quat.one]
    constructor
    · exact fun e => hw.1 e.1
    · intro e
      refine ⟨hw.2 e, ?_, ?_, ?_⟩ <;> rcases e with e | e <;> rw [e] <;> ring
  exact ⟨main, main⟩

/-- **C54 is violated.** `inverse` is not the inverse of the quaternion 2. -/
theorem C54_inverse_violated : ∃ q r : Quat ℚ, Quat.inverse q = some r ∧ Quat.mul q r ≠ Quat.one :=
  ⟨⟨2, 0, 0, 0⟩, ⟨2, 0, 0, 0⟩, by decide +kernel, by decide +kernel⟩

/-- **C54.** The local axes are the images of the unit vectors. -/
theorem C54_axes (q : Quat K) :
    Quat.localX q = Quat.rot q Vec3.unitX ∧ Quat.localY q = Quat.rot q Vec3.unitY ∧ Quat.localZ q = Quat.rot q Vec3.unitZ ∧
    Quat.axes q = ⟨Quat.rot q Vec3.unitX, Quat.rot q Vec3.unitY, Quat.rot q Vec3.unitZ⟩ := by
  have hx : Quat.localX q = Quat.rot q Vec3.unitX := by
    ext <;> simp only [Quat.localX, Quat.rot, Vec3.unitX, Vec3.add, Vec3.smul, Vec3.cross] <;> ring
  have hy : Quat.localY q = Quat.rot q Vec3.unitY := by
    ext <;> simp only [Quat.localY, Quat.rot, Vec3.unitY, Vec3.add, Vec3.smul, Vec3.cross] <;> ring
  have hz : Quat.localZ q = Quat.rot q Vec3.unitZ := by
    ext <;> simp only [Quat.localZ, Quat.rot, Vec3.unitZ, Vec3.add, Vec3.smul, Vec3.cross] <;> ring
  refine ⟨hx, hy, hz, ?_⟩
  rw [← hx, ← hy, ← hz]
  rfl

/-- **C54.** `quat_from_quats` gives what is missing from source to target. -/
theorem C54_from_quats (s t : Quat K) (h : UnitLength s) : Quat.mul s (Quat.fromQuats s t) = t := by
  unfold Quat.fromQuats
  rw [← (C54_monoid _ _ _).1, (C54_conjugate s Vec3.zero h).2.2.2.2, (C54_conjugate s Vec3.zero h).1, (C54_monoid t t t).2.1]

end Algebra

section Ordered
variable [LinearOrder K] [IsStrictOrderedRing K]

/-- **C54.** `positive` gives the same rotation with a real part that is not negative. -/
theorem C54_positive (q : Quat K) (v : Vec3 K) : 0 ≤ (Quat.positive q).w ∧ Quat.rot (Quat.positive q) v = Quat.rot q v := by
  unfold Quat.positive
  split
  · next h =>
    refine ⟨by simp only; linarith, ?_⟩
    ext <;> simp only [Quat.rot, Vec3.add, Vec3.smul, Vec3.cross] <;> ring
  · next h => exact ⟨not_lt.1 h, rfl⟩

/-- **C54.** Fast normalisation: the direction stays, and the squared length of the result falls short of one by exactly
`((1 - n) / (1 + n))²`, where `n` is the squared length before. -/
theorem C54_normalize_fast (q : Quat K) : ∃ r, Quat.normalizeFast q = some r ∧ r = Quat.scale q (2 / (1 + Quat.sqLen q)) ∧
    Quat.sqLen r = 1 - ((1 - Quat.sqLen q) / (1 + Quat.sqLen q)) ^ 2 ∧ Quat.sqLen r ≤ 1 := by
  have h0 : 0 ≤ Quat.sqLen q := by unfold Quat.sqLen; nlinarith [mul_self_nonneg q.w, mul_self_nonneg q.x, mul_self_nonneg q.y, mul_self_nonneg q.z]
  have h1 : 1 + Quat.sqLen q ≠ 0 := by linarith
  have e : Quat.sqLen (Quat.scale q (2 / (1 + Quat.sqLen q))) = 1 - ((1 - Quat.sqLen q) / (1 + Quat.sqLen q)) ^ 2 := by
    have : ∀ s : K, Quat.sqLen (Quat.scale q s) = s ^ 2 * Quat.sqLen q := by
      intro s; simp only [Quat.sqLen, Quat.scale]; ring
    rw [this]
    field_simp
    ring
  refine ⟨_, by unfold Quat.normalizeFast; rw [if_neg h1], rfl, e, ?_⟩
  rw [e]
  have := sq_nonneg ((1 - Quat.sqLen q) / (1 + Quat.sqLen q))
  linarith

end Ordered

/-! ### Transforms (C55) -/

/-- **C55.** Applying a composed transform equals applying the parts in sequence, for points, orientations and transforms. -/
theorem C55_compose (t u w : Transform K) (v : Vec3 K) (o : Quat K) (ht : UnitLength t.q) (hu : UnitLength u.q) :
    Transform.point (Transform.mul t u) v = Transform.point t (Transform.point u v) ∧
    Transform.ori (Transform.mul t u) o = Transform.ori t (Transform.ori u o) ∧
    Transform.mul (Transform.mul t u) w = Transform.mul t (Transform.mul u w) := by
  have hp : ∀ v, Vec3.add (Vec3.add t.p (Quat.rot t.q u.p)) (Quat.rot (Quat.mul t.q u.q) v) =
      Vec3.add t.p (Quat.rot t.q (Vec3.add u.p (Quat.rot u.q v))) := by
    intro v
    rw [C54_product_partial _ _ _ ht hu, (C54_linear t.q u.p _ 0).1]
    ext <;> simp only [Vec3.add] <;> ring
  refine ⟨hp v, (C54_monoid _ _ _).1, ?_⟩
  unfold Transform.mul
  simp only
  rw [hp, (C54_monoid _ _ _).1]

/-- The identity transform changes nothing. -/
theorem C55_identity (t : Transform K) (v : Vec3 K) :
    Transform.point Transform.one v = v ∧ Transform.mul Transform.one t = t ∧ Transform.mul t Transform.one = t := by
  have hz : Quat.rot t.q Vec3.zero = Vec3.zero := by
    ext <;> simp [Quat.rot, Vec3.zero, Vec3.add, Vec3.smul, Vec3.cross]
  refine ⟨?_, ?_, ?_⟩
  · unfold Transform.point Transform.one
    simp only
    rw [C54_identity]
    ext <;> simp [Vec3.add, Vec3.zero]
  · unfold Transform.mul Transform.one
    simp only
    rw [C54_identity, (C54_monoid t.q t.q t.q).2.1]
    ext <;> simp [Vec3.add, Vec3.zero]
  · unfold Transform.mul Transform.one
    simp only
    rw [hz, (C54_monoid t.q t.q t.q).2.2]
    ext <;> simp [Vec3.add, Vec3.zero]

/-- **C55.** `inv_trans` undoes a transform with unit rotation for points, orientations and transforms, and `inv` is the
transform that does so. -/
theorem C55_inverse (t u : Transform K) (v : Vec3 K) (o : Quat K) (ht : UnitLength t.q) :
    Transform.invPoint t (Transform.point t v) = v ∧ Transform.point t (Transform.invPoint t v) = v ∧
    Transform.invOri t (Transform.ori t o) = o ∧ Transform.ori t (Transform.invOri t o) = o ∧
    Transform.invTrans t (Transform.mul t u) = u ∧ Transform.mul t (Transform.invTrans t u) = u ∧
    Transform.mul (Transform.inv t) t = Transform.one ∧ Transform.mul t (Transform.inv t) = Transform.one := by
  have hc : ∀ v, Quat.rot (Quat.conj t.q) (Quat.rot t.q v) = v := fun v => (C54_conjugate t.q v ht).2.2.1
  have hc' : ∀ v, Quat.rot t.q (Quat.rot (Quat.conj t.q) v) = v := fun v => (C54_conjugate t.q v ht).2.2.2.1
  have hm := (C54_conjugate t.q v ht).1
  have hm' := (C54_conjugate t.q v ht).2.1
  have hs : ∀ a b : Vec3 K, Vec3.sub (Vec3.add a b) a = b := fun a b => by ext <;> simp [Vec3.add, Vec3.sub]
  have hs' : ∀ a b : Vec3 K, Vec3.add a (Vec3.sub b a) = b := fun a b => by ext <;> simp [Vec3.add, Vec3.sub]
  have ho : ∀ o, Quat.mul (Quat.conj t.q) (Quat.mul t.q o) = o := fun o => by
    rw [← (C54_monoid _ _ _).1, hm', (C54_monoid o o o).2.1]
  have ho' : ∀ o, Quat.mul t.q (Quat.mul (Quat.conj t.q) o) = o := fun o => by
    rw [← (C54_monoid _ _ _).1, hm, (C54_monoid o o o).2.1]
  have hneg : ∀ (q : Quat K) (a : Vec3 K), Quat.rot q (Vec3.neg a) = Vec3.neg (Quat.rot q a) := fun q a => by
    ext <;> simp only [Quat.rot, Vec3.neg, Vec3.add, Vec3.smul, Vec3.cross] <;> ring
  refine ⟨?_, ?_, ho o, ho' o, ?_, ?_, ?_, ?_⟩
  · simp only [Transform.invPoint, Transform.point, hs, hc]
  · simp only [Transform.invPoint, Transform.point, hc', hs']
  · simp only [Transform.invTrans, Transform.mul, hs, hc, ho]
  · simp only [Transform.invTrans, Transform.mul, hc', hs', ho']
  · show Transform.mk (Vec3.add (Quat.rot (Quat.conj t.q) (Vec3.neg t.p)) (Quat.rot (Quat.conj t.q) t.p))
      (Quat.mul (Quat.conj t.q) t.q) = Transform.one
    rw [hm', hneg]
    have : ∀ a : Vec3 K, Vec3.add (Vec3.neg a) a = Vec3.zero := fun a => by ext <;> simp [Vec3.add, Vec3.neg, Vec3.zero]
    rw [this]
    rfl
  · show Transform.mk (Vec3.add t.p (Quat.rot t.q (Quat.rot (Quat.conj t.q) (Vec3.neg t.p)))) (Quat.mul t.q (Quat.conj t.q)) =
      Transform.one
    rw [hm, hc']
    have : ∀ a : Vec3 K, Vec3.add a (Vec3.neg a) = Vec3.zero := fun a => by ext <;> simp [Vec3.add, Vec3.neg, Vec3.zero]
    rw [this]
    rfl

/-- **C55 (partial).** Transforms with a scale compose as they should when both scales are one. -/
theorem C55_scaled_partial (t u : TransformSrt K) (v : Vec3 K) (ht : UnitLength t.q) (hu : UnitLength u.q) (h1 : t.s = ⟨1, 1, 1⟩)
    (h2 : u.s = ⟨1, 1, 1⟩) :
    TransformSrt.point (TransformSrt.mul t u) v = TransformSrt.point t (TransformSrt.point u v) := by
  have e : ∀ v : Vec3 K, Vec3.mul ⟨1, 1, 1⟩ v = v := fun v => by ext <;> simp [Vec3.mul]
  have := (C55_compose ⟨t.p, t.q⟩ ⟨u.p, u.q⟩ Transform.one v Quat.one ht hu).1
  unfold TransformSrt.point TransformSrt.mul TransformSrt.make
  simp only
  rw [h1, h2, e, e]
  exact this

/-- **C55 is violated** for transforms with a scale: composing and inverting forget it. -/
theorem C55_scaled_violated : ∃ (t : TransformSrt ℚ) (v : Vec3 ℚ), UnitLength t.q ∧
    TransformSrt.point (TransformSrt.mul t t) v ≠ TransformSrt.point t (TransformSrt.point t v) ∧
    TransformSrt.point (TransformSrt.inv t) (TransformSrt.point t v) ≠ v :=
  ⟨⟨⟨2, 2, 2⟩, ⟨1, 0, 0, 0⟩, ⟨0, 0, 0⟩⟩, ⟨1, 0, 0⟩, by norm_num [UnitLength], by decide +kernel, by decide +kernel⟩

/-! ### Vectors (C63) -/

/-- **C63.** Cross and dot product: bilinear, antisymmetric and symmetric, orthogonal, Lagrange identity, triple product. -/
theorem C63_products (a b c : Vec3 K) (s : K) :
    Vec3.dot a b = Vec3.dot b a ∧
    Vec3.dot (Vec3.add a b) c = Vec3.dot a c + Vec3.dot b c ∧ Vec3.dot (Vec3.smul s a) b = s * Vec3.dot a b ∧
    Vec3.cross a b = Vec3.neg (Vec3.cross b a) ∧
    Vec3.cross (Vec3.add a b) c = Vec3.add (Vec3.cross a c) (Vec3.cross b c) ∧
    Vec3.cross (Vec3.smul s a) b = Vec3.smul s (Vec3.cross a b) ∧
    Vec3.dot (Vec3.cross a b) a = 0 ∧ Vec3.dot (Vec3.cross a b) b = 0 ∧
    Vec3.sqLen (Vec3.cross a b) = Vec3.sqLen a * Vec3.sqLen b - Vec3.dot a b ^ 2 ∧
    Vec3.cross a (Vec3.cross b c) = Vec3.sub (Vec3.smul (Vec3.dot a c) b) (Vec3.smul (Vec3.dot a b) c) ∧
    Vec3.cross Vec3.unitX Vec3.unitY = (Vec3.unitZ : Vec3 K) := by
  refine ⟨?_, ?_, ?_, ?_, ?_, ?_, ?_, ?_, ?_, ?_, ?_⟩
  · simp only [Vec3.dot]; ring
  · simp only [Vec3.dot, Vec3.add]; ring
  · simp only [Vec3.dot, Vec3.smul]; ring
  · ext <;> simp only [Vec3.cross, Vec3.neg] <;> ring
  · ext <;> simp only [Vec3.cross, Vec3.add] <;> ring
  · ext <;> simp only [Vec3.cross, Vec3.smul] <;> ring
  · simp only [Vec3.dot, Vec3.cross]; ring
  · simp only [Vec3.dot, Vec3.cross]; ring
  · simp only [Vec3.sqLen, Vec3.dot, Vec3.cross]; ring
  · ext <;> simp only [Vec3.cross, Vec3.sub, Vec3.smul, Vec3.dot] <;> ring
  · ext <;> simp [Vec3.cross, Vec3.unitX, Vec3.unitY, Vec3.unitZ]

/-- **C63.** Vectors form a vector space: the laws of sums and multiples, and dividing undoes multiplying. -/
theorem C63_space [DecidableEq K] (a b c : Vec3 K) (s t : K) :
    Vec3.add a b = Vec3.add b a ∧ Vec3.add (Vec3.add a b) c = Vec3.add a (Vec3.add b c) ∧ Vec3.add a Vec3.zero = a ∧
    Vec3.add a (Vec3.neg a) = Vec3.zero ∧ Vec3.sub a b = Vec3.add a (Vec3.neg b) ∧
    Vec3.smul s (Vec3.add a b) = Vec3.add (Vec3.smul s a) (Vec3.smul s b) ∧
    Vec3.smul (s + t) a = Vec3.add (Vec3.smul s a) (Vec3.smul t a) ∧ Vec3.smul s (Vec3.smul t a) = Vec3.smul (s * t) a ∧
    (s ≠ 0 → Vec3.divs (Vec3.smul s a) s = some a) := by
  refine ⟨?_, ?_, ?_, ?_, ?_, ?_, ?_, ?_, ?_⟩
  · ext <;> simp only [Vec3.add] <;> ring
  · ext <;> simp only [Vec3.add] <;> ring
  · ext <;> simp [Vec3.add, Vec3.zero]
  · ext <;> simp [Vec3.add, Vec3.zero, Vec3.neg]
  · ext <;> simp only [Vec3.add, Vec3.sub, Vec3.neg] <;> ring
  · ext <;> simp only [Vec3.add, Vec3.smul] <;> ring
  · ext <;> simp only [Vec3.add, Vec3.smul] <;> ring
  · ext <;> simp only [Vec3.smul] <;> ring
  · intro h
    unfold Vec3.divs
    rw [if_neg h]
    congr 1
    ext <;> simp only [Vec3.smul] <;> field_simp

/-- **C63.** The projection onto a vector is a multiple of it, the rest is orthogonal to it, and projecting twice changes
nothing. -/
theorem C63_projection [DecidableEq K] (a b : Vec3 K) (h : Vec3.sqLen b ≠ 0) : ∃ p, Vec3.projection a b = some p ∧
    (∃ s, p = Vec3.smul s b) ∧ Vec3.dot (Vec3.sub a p) b = 0 ∧ Vec3.projection p b = some p := by
  have hd : Vec3.dot (Vec3.smul (Vec3.dot a b / Vec3.sqLen b) b) b = Vec3.dot a b := by
    have : ∀ s, Vec3.dot (Vec3.smul s b) b = s * Vec3.sqLen b := by
      intro s; simp only [Vec3.dot, Vec3.smul, Vec3.sqLen]; ring
    rw [this]
    field_simp
  refine ⟨_, by unfold Vec3.projection; rw [if_neg h], ⟨_, rfl⟩, ?_, ?_⟩
  · have : ∀ u v w : Vec3 K, Vec3.dot (Vec3.sub u v) w = Vec3.dot u w - Vec3.dot v w := by
      intro u v w; simp only [Vec3.dot, Vec3.sub]; ring
    rw [this, hd, sub_self]
  · unfold Vec3.projection
    rw [if_neg h, hd]

/-- A projection onto the zero vector is not a number. -/
theorem C63_projection_zero [DecidableEq K] (a : Vec3 K) : Vec3.projection a Vec3.zero = none := by
  simp [Vec3.projection, Vec3.sqLen, Vec3.zero]

/-- **C63.** Projections onto the coordinate planes remove exactly one component. -/
theorem C63_planes (a : Vec3 K) :
    Vec3.add (Vec3.projectedXy a) ⟨0, 0, a.z⟩ = a ∧ Vec3.add (Vec3.projectedXz a) ⟨0, a.y, 0⟩ = a ∧
    Vec3.add (Vec3.projectedYz a) ⟨a.x, 0, 0⟩ = a := by
  refine ⟨?_, ?_, ?_⟩ <;> ext <;> simp [Vec3.add, Vec3.projectedXy, Vec3.projectedXz, Vec3.projectedYz]

/-- **C63 is violated** by `scaled`: it returns a reference to an object that is gone. -/
theorem C63_scaled_violated (a s : Vec3 K) : Vec3.scaled a s = .ub := rfl

/-- **C63.** Mirroring is an involution for all kinds of values. -/
theorem C63_mirror_involution (a : Vec3 K) (q : Quat K) (t : Transform K) (b : Bounds K) :
    Vec3.mirror (Vec3.mirror a) = a ∧ Vec3.mirrorAxis (Vec3.mirrorAxis a) = a ∧ Quat.mirror (Quat.mirror q) = q ∧
    Transform.mirror (Transform.mirror t) = t ∧ mirrorBounds (mirrorBounds b) = b := by
  refine ⟨?_, ?_, ?_, ?_, ?_⟩
  · ext <;> simp [Vec3.mirror]
  · ext <;> simp [Vec3.mirrorAxis]
  · ext <;> simp [Quat.mirror]
  · ext <;> simp [Transform.mirror, Vec3.mirror, Quat.mirror]
  · simp [mirrorBounds]

/-- **C63.** Mirroring is compatible with rotation, products and transforms: it is the reflection in the xy plane. Axes
mirror as axial vectors: the mirror image of a cross product is the axis mirror of the product of the images. -/
theorem C63_mirror (a b : Vec3 K) (p q : Quat K) (t u : Transform K) :
    Vec3.mirror (Quat.rot q a) = Quat.rot (Quat.mirror q) (Vec3.mirror a) ∧
    Quat.mirror (Quat.mul p q) = Quat.mul (Quat.mirror p) (Quat.mirror q) ∧
    Vec3.mirror (Transform.point t a) = Transform.point (Transform.mirror t) (Vec3.mirror a) ∧
    Transform.mirror (Transform.mul t u) = Transform.mul (Transform.mirror t) (Transform.mirror u) ∧
    Vec3.mirrorAxis (Vec3.cross a b) = Vec3.cross (Vec3.mirror a) (Vec3.mirror b) ∧
    Vec3.dot (Vec3.mirror a) (Vec3.mirror b) = Vec3.dot a b := by
  have h1 : ∀ (q : Quat K) (a : Vec3 K), Vec3.mirror (Quat.rot q a) = Quat.rot (Quat.mirror q) (Vec3.mirror a) := by
    intro q a
    ext <;> simp only [Vec3.mirror, Quat.mirror, Quat.rot, Vec3.add, Vec3.smul, Vec3.cross] <;> ring
  have h2 : ∀ p q : Quat K, Quat.mirror (Quat.mul p q) = Quat.mul (Quat.mirror p) (Quat.mirror q) := by
    intro p q
    ext <;> simp only [Quat.mirror, Quat.mul] <;> ring
  have h3 : ∀ a b : Vec3 K, Vec3.mirror (Vec3.add a b) = Vec3.add (Vec3.mirror a) (Vec3.mirror b) := by
    intro a b
    ext <;> simp only [Vec3.mirror, Vec3.add] <;> ring
  refine ⟨h1 q a, h2 p q, ?_, ?_, ?_, ?_⟩
  · simp only [Transform.point, Transform.mirror, h3, h1]
  · simp only [Transform.mul, Transform.mirror, h3, h1, h2]
  · ext <;> simp only [Vec3.mirrorAxis, Vec3.mirror, Vec3.cross] <;> ring
  · simp only [Vec3.mirror, Vec3.dot]; ring

/-- **C63.** Mirrored bounds contain the negated values of the bounds. -/
theorem C63_mirror_bounds [LinearOrder K] [IsStrictOrderedRing K] [FloorRing K] (b : Bounds K) (v : K) :
    Bounds.isWithin (mirrorBounds b) (-v) = Bounds.isWithin b v := by
  unfold Bounds.isWithin mirrorBounds
  simp only [ge_iff_le, neg_le_neg_iff]
  rw [Bool.and_comm]

/-- Non-vacuity: a unit quaternion that is not the identity. -/
example : UnitLength (⟨1 / 2, 1 / 2, 1 / 2, 1 / 2⟩ : Quat ℚ) ∧ Quat.rot (⟨1 / 2, 1 / 2, 1 / 2, 1 / 2⟩ : Quat ℚ) ⟨1, 0, 0⟩ = ⟨0, 1, 0⟩ :=
  ⟨by norm_num [UnitLength], by decide +kernel⟩

/-- Non-vacuity: a quaternion with a length other than one and a real part. -/
example : Quat.sqLen (⟨1, 2, 0, 0⟩ : Quat ℚ) ≠ 0 ∧ Quat.sqLen (⟨1, 2, 0, 0⟩ : Quat ℚ) ≠ 1 := by
  constructor <;> decide +kernel

end Xo.Geom
