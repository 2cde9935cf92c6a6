import Verif.Lemmas.Near
import Verif.Props.C145_QuatMul

/-!
C145: rotated vectors, with rounding.
-/
namespace Xo.Norm
open Num (Fl Fmt binary32 binary64)
open Ieee
open Ieee.Spec (num OfType)
open scoped Quaternion

namespace Spec

/-- All three components are finite. -/
def FiniteVec (v : Vec) : Prop := Ieee.Spec.Finite v.x ∧ Ieee.Spec.Finite v.y ∧ Ieee.Spec.Finite v.z

/-- A vector as a quaternion without real part. -/
def pure (v : Vec) : ℍ[ℝ] := ⟨0, val v.x, val v.y, val v.z⟩

end Spec
open Spec

theorem near_mul_right {f : Fmt} (hf : Wide f) {k X s k2 c2 Y t k' c' Z : Rat} {S T : Fl} (h1 : Near f k 0 X S s) (h2 : Near f k2 c2 Y T t) (hk : k + k2 + 102 / 100 ≤ k')
    (hc : 102 / 100 * (X * c2) + 1 ≤ c') (hk' : k' ≤ 100) (hc' : c' ≤ 100) (hZ : X * Y = Z) (hX : 2 * Z + 1 ≤ 2 ^ f.emax) : Near f k' c' Z (Ieee.mul f T S) (t * s) := by
  have := near_mul hf h1 h2 hk hc hk' hc' hZ hX
  obtain ⟨⟨g, m, rfl⟩, _⟩ := h1
  obtain ⟨⟨g', m', rfl⟩, _⟩ := h2
  have e : Ieee.mul f (.fin g' m') (.fin g m) = Ieee.mul f (.fin g m) (.fin g' m') := by
    show Ieee.ofRat f (g' != g) (val (.fin g' m') * val (.fin g m)) = Ieee.ofRat f (g != g') (val (.fin g m) * val (.fin g' m'))
    rw [mul_comm, bne_comm]
  rw [e, mul_comm t]
  exact this

theorem near_absorb {f : Fmt} (hf : Wide f) {k c X s : Rat} {S : Fl} (h : Near f k c X S s) (hX : 1 ≤ X) (hk : k ≤ 99) : Near f (k + 1 / 100) 0 X S s := by
  obtain ⟨h0, h1, h2, h3, h4, h5, h6⟩ := h
  refine ⟨h0, h1.trans ?_, h2, by linarith, by linarith, le_refl _, by norm_num⟩
  have u0 := un_pos f
  have e0 := et_pos f
  have a := un_le hf
  have hu : un f ≤ 1 / 100 := by norm_num at a; linarith
  have a1 : un f ^ 5 ≤ un f * (1 / 10000) := by
    have : un f ^ 4 ≤ (1 / 100) ^ 4 := pow_le_pow_left₀ u0.le hu 4
    have e : un f ^ 5 = un f * un f ^ 4 := by ring
    rw [e]
    exact mul_le_mul_of_nonneg_left (this.trans (by norm_num)) u0.le
  have a2 : c * et f ≤ 100 * (un f * (1 / 10000)) := mul_le_mul h6 ((et_le hf).trans a1) e0.le (by norm_num)
  have a3 : un f * 1 ≤ un f * X := mul_le_mul_of_nonneg_left hX u0.le
  nlinarith

/-- One component of a rotated vector: `q1` and `q2` are the two components of the rotation that take part. -/
theorem comp_rotate {f : Fmt} (hf : Wide f) {w q1 q2 q3 v1 v2 v3 : Fl} {B : Rat} (hB : B ≤ 2 ^ f.emax / 64)
    (hw : Ieee.Spec.Finite w) (h1 : Ieee.Spec.Finite q1) (h2 : Ieee.Spec.Finite q2) (h3 : Ieee.Spec.Finite q3)
    (k1 : Ieee.Spec.Finite v1) (k2 : Ieee.Spec.Finite v2) (k3 : Ieee.Spec.Finite v3)
    (sw : |val w| ≤ 33 / 32) (s1 : |val q1| ≤ 33 / 32) (s2 : |val q2| ≤ 33 / 32) (s3 : |val q3| ≤ 33 / 32)
    (t1 : |val v1| ≤ B) (t2 : |val v2| ≤ B) (t3 : |val v3| ≤ B) :
    let r := add f (add f v1 (Ieee.mul f (sub f (Ieee.mul f q2 v3) (Ieee.mul f q3 v2)) (Ieee.mul f (ofNat 2) w)))
      (Ieee.mul f (sub f (Ieee.mul f q2 (sub f (Ieee.mul f q1 v2) (Ieee.mul f q2 v1))) (Ieee.mul f q3 (sub f (Ieee.mul f q3 v1) (Ieee.mul f q1 v3)))) (ofNat 2))
    Ieee.Spec.Finite r ∧
    |val r - (val v1 + (val q2 * val v3 - val q3 * val v2) * (2 * val w) + (val q2 * (val q1 * val v2 - val q2 * val v1) - val q3 * (val q3 * val v1 - val q1 * val v3)) * 2)| ≤
      85 * un f * B + 31 * et f := by
  intro r
  have B0 : 0 ≤ B := (abs_nonneg _).trans t1
  have hbig := one_le hf
  have big : 1 ≤ (2 : Rat) ^ f.emax / 64 := by norm_num at hbig; linarith
  have P : ∀ {q v : Fl}, Ieee.Spec.Finite q → Ieee.Spec.Finite v → |val q| ≤ 33 / 32 → |val v| ≤ B → Near f (102 / 100) 1 (33 / 32 * B) (Ieee.mul f q v) (val q * val v) :=
    fun hq hv sq sv => near_mul hf (near_exact hq sq) (near_exact hv sv) (by norm_num) (by norm_num) (by norm_num) (by norm_num) rfl (by linarith)
  have C : ∀ {q v q' v' : Fl}, Ieee.Spec.Finite q → Ieee.Spec.Finite v → |val q| ≤ 33 / 32 → |val v| ≤ B → Ieee.Spec.Finite q' → Ieee.Spec.Finite v' → |val q'| ≤ 33 / 32 → |val v'| ≤ B →
      Near f (203 / 100) (302 / 100) (33 / 16 * B) (sub f (Ieee.mul f q v) (Ieee.mul f q' v')) (val q * val v - val q' * val v') :=
    fun a1 a2 a3 a4 b1 b2 b3 b4 => near_sub hf (P a1 a2 a3 a4) (P b1 b2 b3 b4) (by norm_num) (by norm_num) (by norm_num) (by norm_num) (by ring) (by linarith)
  have u1 := C h2 k3 s2 t3 h3 k2 s3 t2
  have u3 := C h1 k2 s1 t2 h2 k1 s2 t1
  have u2 := C h3 k1 s3 t1 h1 k3 s1 t3
  have m3 := near_mul hf (near_exact h2 s2) u3 (k' := 305 / 100) (c' := 42 / 10) (by norm_num) (by norm_num) (by norm_num) (by norm_num) rfl (by linarith)
  have m2 := near_mul hf (near_exact h3 s3) u2 (k' := 305 / 100) (c' := 42 / 10) (by norm_num) (by norm_num) (by norm_num) (by norm_num) rfl (by linarith)
  have uu := near_sub hf m3 m2 (k' := 406 / 100) (c' := 95 / 10) (by norm_num) (by norm_num) (by norm_num) (by norm_num) rfl (by linarith)
  have two : Near f 0 0 2 (ofNat 2) 2 := by
    have : val (ofNat 2) = 2 := by norm_num [val, ofNat]
    have h := near_exact (f := f) (S := ofNat 2) (X := 2) trivial (by rw [this]; norm_num)
    rwa [this] at h
  have uu2 := near_mul_right hf two uu (k' := 508 / 100) (c' := 204 / 10) (by norm_num) (by norm_num) (by norm_num) (by norm_num) rfl (by linarith)
  have w2 := near_absorb hf (near_mul hf two (near_exact hw sw) (k' := 102 / 100) (c' := 1) (by norm_num) (by norm_num) (by norm_num) (by norm_num) rfl (by linarith)) (by norm_num) (by norm_num)
  have uw := near_mul_right hf w2 u1 (k' := 408 / 100) (c' := 74 / 10) (by norm_num) (by norm_num) (by norm_num) (by norm_num) rfl (by linarith)
  have vv := near_weak (near_exact (f := f) k1 t1) (k' := 408 / 100) (c' := 0) (by norm_num) (le_refl _) (le_refl _) (by norm_num) (by norm_num)
  have s := near_add hf vv uw (k' := 509 / 100) (c' := 85 / 10) (by norm_num) (by norm_num) (by norm_num) (by norm_num) rfl (by linarith)
  have uu3 := near_weak uu2 (k' := 509 / 100) (by norm_num) (le_refl _) (le_refl _) (by norm_num) (by norm_num)
  obtain ⟨⟨g, m, e⟩, h, _⟩ := near_add hf s uu3 (k' := 61 / 10) (c' := 31) (by norm_num) (by norm_num) (by norm_num) (by norm_num) rfl (by linarith)
  refine ⟨by rw [show r = _ from e]; trivial, h.trans ?_⟩
  have u0 := un_pos f
  have : 0 ≤ un f * B := by positivity
  nlinarith

/-- The formula of the code, without rounding. -/
noncomputable def formula (q v : ℍ[ℝ]) : ℍ[ℝ] :=
  ⟨0, v.imI + (q.imJ * v.imK - q.imK * v.imJ) * (2 * q.re) + (q.imJ * (q.imI * v.imJ - q.imJ * v.imI) - q.imK * (q.imK * v.imI - q.imI * v.imK)) * 2,
    v.imJ + (q.imK * v.imI - q.imI * v.imK) * (2 * q.re) + (q.imK * (q.imJ * v.imK - q.imK * v.imJ) - q.imI * (q.imI * v.imJ - q.imJ * v.imI)) * 2,
    v.imK + (q.imI * v.imJ - q.imJ * v.imI) * (2 * q.re) + (q.imI * (q.imK * v.imI - q.imI * v.imK) - q.imJ * (q.imJ * v.imK - q.imK * v.imJ)) * 2⟩

theorem formula_eq (q v : ℍ[ℝ]) (hv : v.re = 0) : formula q v = (1 - Quaternion.normSq q) • v + q * v * star q := by
  rw [Quaternion.normSq_def']
  ext
  · simp [formula, hv]; ring
  · simp [formula, hv]; ring
  · simp [formula, hv]; ring
  · simp [formula, hv]; ring

theorem formula_close (q v : ℍ[ℝ]) (hv : v.re = 0) (hq : q ≠ 0) : ‖formula q v - q * v * q⁻¹‖ ≤ |‖q‖ * ‖q‖ - 1| * (2 * ‖v‖) := by
  have hn : Quaternion.normSq q ≠ 0 := by simpa using hq
  have e1 : q * v * star q = Quaternion.normSq q • (q * v * q⁻¹) := by
    have e2 : q⁻¹ = (Quaternion.normSq q)⁻¹ • star q := rfl
    rw [e2, mul_smul_comm, smul_smul, mul_inv_cancel₀ hn, one_smul]
  have e3 : formula q v - q * v * q⁻¹ = (1 - Quaternion.normSq q) • (v - q * v * q⁻¹) := by
    rw [formula_eq q v hv, e1, sub_smul, sub_smul, smul_sub, smul_sub, one_smul, one_smul]
    abel
  rw [e3, norm_smul, Real.norm_eq_abs, abs_sub_comm, Quaternion.normSq_eq_norm_mul_self]
  refine mul_le_mul_of_nonneg_left ((norm_sub_le _ _).trans (le_of_eq ?_)) (abs_nonneg _)
  have hq0 : ‖q‖ ≠ 0 := by simpa using hq
  rw [norm_mul, norm_mul, norm_inv]
  field_simp
  ring

/-- A vector that is rotated is close to the vector of the exact rotation, so that its length stays: `δ` is how far the length of the quaternion is from one. -/
theorem C145_rotate (f : Fmt) (hf : f = binary32 ∨ f = binary64) (δ : ℝ) (q : Quat) (v : Vec) (hq : FiniteQuat q) (hv : FiniteVec v)
    (nq : |‖exact q‖ - 1| ≤ δ) (hδ : δ ≤ 1 / 32) (nv : ‖Spec.pure v‖ ≤ 2 ^ f.emax / 64) :
    FiniteVec (q.rotate f v) ∧
      ‖Spec.pure (q.rotate f v) - exact q * Spec.pure v * (exact q)⁻¹‖ ≤ (170 / 2 ^ f.prec + 5 * δ) * ‖Spec.pure v‖ + 62 * 2 ^ f.emin ∧
      |‖Spec.pure (q.rotate f v)‖ - ‖Spec.pure v‖| ≤ (170 / 2 ^ f.prec + 5 * δ) * ‖Spec.pure v‖ + 62 * 2 ^ f.emin := by
  have w : Wide f := by
    rcases hf with rfl | rfl
    · exact wide32
    · exact wide64
  obtain ⟨q1, q2, q3, q4⟩ := hq
  obtain ⟨v1, v2, v3⟩ := hv
  obtain ⟨n1, n2⟩ := abs_le.1 nq
  obtain ⟨s1, s2, s3, s4⟩ := comp_small (q := q) (B := 33 / 32) (by linarith)
  have c : ∀ x : Rat, |(x : ℝ)| ≤ 33 / 32 → |x| ≤ 33 / 32 := fun x h => by
    have e : ((|x| : Rat) : ℝ) ≤ ((33 / 32 : Rat) : ℝ) := by push_cast; exact h
    exact_mod_cast e
  have hp : exact ⟨.fin false 0, v.x, v.y, v.z⟩ = Spec.pure v := by
    have : val (.fin false 0) = 0 := by norm_num [val]
    unfold exact Spec.pure
    simp only [this, Rat.cast_zero]
    rfl
  obtain ⟨_, t1, t2, t3⟩ := comp_small (q := ⟨.fin false 0, v.x, v.y, v.z⟩) (le_refl _)
  rw [hp] at t1 t2 t3
  simp only at t1 t2 t3
  obtain ⟨B, b1, b2, b3, bB⟩ : ∃ B : Rat, |val v.x| ≤ B ∧ |val v.y| ≤ B ∧ |val v.z| ≤ B ∧ (B : ℝ) ≤ ‖Spec.pure v‖ := by
    refine ⟨max |val v.x| (max |val v.y| |val v.z|), le_max_left _ _, (le_max_left _ _).trans (le_max_right _ _), (le_max_right _ _).trans (le_max_right _ _), ?_⟩
    push_cast
    exact max_le t1 (max_le t2 t3)
  have hB : B ≤ 2 ^ f.emax / 64 := by
    have : (B : ℝ) ≤ ((2 ^ f.emax / 64 : Rat) : ℝ) := by push_cast; exact bB.trans nv
    exact_mod_cast this
  obtain ⟨fx, rx⟩ := comp_rotate w hB q1 q2 q3 q4 v1 v2 v3 (c _ s1) (c _ s2) (c _ s3) (c _ s4) b1 b2 b3
  obtain ⟨fy, ry⟩ := comp_rotate w hB q1 q3 q4 q2 v2 v3 v1 (c _ s1) (c _ s3) (c _ s4) (c _ s2) b2 b3 b1
  obtain ⟨fz, rz⟩ := comp_rotate w hB q1 q4 q2 q3 v3 v1 v2 (c _ s1) (c _ s4) (c _ s2) (c _ s3) b3 b1 b2
  have ex : (un f : ℝ) = 1 / 2 ^ f.prec := by unfold un; push_cast; rfl
  have ee : (et f : ℝ) = 2 ^ f.emin := by unfold et; push_cast; rfl
  have u0 : (0 : ℝ) < un f := by exact_mod_cast un_pos f
  have e0 : (0 : ℝ) < et f := by exact_mod_cast et_pos f
  have V0 := norm_nonneg (Spec.pure v)
  have L : ∀ (r s : Rat), |r - s| ≤ 85 * un f * B + 31 * et f → |(r : ℝ) - s| ≤ 85 * un f * ‖Spec.pure v‖ + 31 * et f := fun r s h => by
    have := (Rat.cast_le (K := ℝ)).2 h
    push_cast at this
    refine this.trans ?_
    have := mul_le_mul_of_nonneg_left bB u0.le
    linarith
  have lx := L _ _ rx
  have ly := L _ _ ry
  have lz := L _ _ rz
  push_cast at lx ly lz
  have hF : ‖Spec.pure (q.rotate f v) - formula (exact q) (Spec.pure v)‖ ≤ 2 * (85 * un f * ‖Spec.pure v‖ + 31 * et f) := by
    refine norm_le_of (by positivity) ?_ ?_ ?_ ?_
    · rw [Quaternion.re_sub]
      simp only [Spec.pure, formula, sub_self, abs_zero]
      positivity
    · rw [Quaternion.imI_sub]
      exact lx
    · rw [Quaternion.imJ_sub]
      exact ly
    · rw [Quaternion.imK_sub]
      exact lz
  have hq0 : exact q ≠ 0 := by
    intro h
    rw [h, norm_zero] at n1
    linarith
  have hC := formula_close (exact q) (Spec.pure v) rfl hq0
  have hN : |‖exact q‖ * ‖exact q‖ - 1| ≤ 5 / 2 * δ := by
    have e : ‖exact q‖ * ‖exact q‖ - 1 = (‖exact q‖ - 1) * (‖exact q‖ + 1) := by ring
    rw [e, abs_mul, abs_of_nonneg (a := ‖exact q‖ + 1) (by positivity)]
    have := mul_le_mul nq (by linarith : ‖exact q‖ + 1 ≤ 5 / 2) (by positivity) ((abs_nonneg _).trans nq)
    linarith
  have hN' := mul_le_mul_of_nonneg_right hN (by positivity : 0 ≤ 2 * ‖Spec.pure v‖)
  have main : ‖Spec.pure (q.rotate f v) - exact q * Spec.pure v * (exact q)⁻¹‖ ≤ (170 / 2 ^ f.prec + 5 * δ) * ‖Spec.pure v‖ + 62 * 2 ^ f.emin := by
    have e : Spec.pure (q.rotate f v) - exact q * Spec.pure v * (exact q)⁻¹ = (Spec.pure (q.rotate f v) - formula (exact q) (Spec.pure v)) + (formula (exact q) (Spec.pure v) - exact q * Spec.pure v * (exact q)⁻¹) := by abel
    rw [e]
    refine (norm_add_le _ _).trans ((add_le_add hF (hC.trans hN')).trans (le_of_eq ?_))
    rw [ex, ee]
    ring
  refine ⟨⟨fx, fy, fz⟩, main, ?_⟩
  have e : ‖exact q * Spec.pure v * (exact q)⁻¹‖ = ‖Spec.pure v‖ := by
    have : ‖exact q‖ ≠ 0 := by simpa using hq0
    rw [norm_mul, norm_mul, norm_inv]
    field_simp
  rw [← e] at main ⊢
  exact (abs_norm_sub_norm_le _ _).trans main

/-- A quaternion that was normalised, from moderate components and a length above epsilon. -/
theorem normalised_close {f : Fmt} (hf : FloatOrDouble f) {q : Quat} (hw : Moderate f q.w) (hx : Moderate f q.x) (hy : Moderate f q.y) (hz : Moderate f q.z)
    (hl : lt (epsilon f) (q.length f) = true) : FiniteQuat (q.normalize f).1 ∧ |‖exact (q.normalize f).1‖ - 1| ≤ 11 / 2 ^ f.prec := by
  obtain ⟨c1, c2, c3, c4, h, _⟩ := C144_quat_partial hf q hw hx hy hz hl
  refine ⟨⟨c1.1, c2.1, c3.1, c4.1⟩, ?_⟩
  have hs := norm_sq (exact (q.normalize f).1)
  have h0 := norm_nonneg (exact (q.normalize f).1)
  have e : ‖exact (q.normalize f).1‖ * ‖exact (q.normalize f).1‖ = ((sq4 (q.normalize f).1 : Rat) : ℝ) := by
    rw [hs]
    unfold sq4 exact
    push_cast
    ring
  have h' := (Rat.cast_le (K := ℝ)).2 h
  push_cast at h'
  rw [← e] at h'
  have e2 : ‖exact (q.normalize f).1‖ * ‖exact (q.normalize f).1‖ - 1 = (‖exact (q.normalize f).1‖ - 1) * (‖exact (q.normalize f).1‖ + 1) := by ring
  rw [e2, abs_mul, abs_of_nonneg (a := ‖exact (q.normalize f).1‖ + 1) (by positivity)] at h'
  have h3 := mul_nonneg (abs_nonneg (‖exact (q.normalize f).1‖ - 1)) h0
  have h4 : (11 : ℝ) * ((Spec.unit f : Rat) : ℝ) = 11 / 2 ^ f.prec := by
    unfold Spec.unit
    push_cast
    ring
  rw [h4] at h'
  nlinarith

/-- The product of normalised quaternions keeps a length close to one. -/
theorem C145_normalised (f : Fmt) (hf : f = binary32 ∨ f = binary64) (q : Quat) (qs : List Quat)
    (hq : ∀ r ∈ q :: qs, Moderate f r.w ∧ Moderate f r.x ∧ Moderate f r.y ∧ Moderate f r.z ∧ lt (epsilon f) (r.length f) = true) (hn : (qs.length + 1 : ℝ) * 84 ≤ 2 ^ f.prec) :
    FiniteQuat (Quat.mulAll f (q.normalize f).1 (qs.map fun r => (r.normalize f).1)) ∧
      |‖exact (Quat.mulAll f (q.normalize f).1 (qs.map fun r => (r.normalize f).1))‖ - 1| ≤ 42 * (qs.length + 1) / 2 ^ f.prec := by
  have h : ∀ r ∈ (q.normalize f).1 :: (qs.map fun r => (r.normalize f).1), FiniteQuat r ∧ |‖exact r‖ - 1| ≤ 11 / 2 ^ f.prec := by
    intro r hr
    have : ∃ s ∈ q :: qs, r = (s.normalize f).1 := by
      rcases List.mem_cons.1 hr with rfl | hr
      · exact ⟨q, by simp, rfl⟩
      · obtain ⟨s, hs, rfl⟩ := List.mem_map.1 hr
        exact ⟨s, by simp [hs], rfl⟩
    obtain ⟨s, hs, rfl⟩ := this
    obtain ⟨h1, h2, h3, h4, h5⟩ := hq s hs
    exact normalised_close hf h1 h2 h3 h4 h5
  have p0 : (0 : ℝ) < 2 ^ f.prec := by positivity
  have e : (11 : ℝ) / 2 ^ f.prec + 10 / 2 ^ f.prec = 21 / 2 ^ f.prec := by ring
  obtain ⟨r1, r2, _⟩ := C145_history f hf (11 / 2 ^ f.prec) (by positivity) _ _ h (by
    rw [List.length_map, e, mul_div_assoc', div_le_iff₀ p0]
    linarith)
  refine ⟨r1, ?_⟩
  rw [List.length_map, e] at r2
  refine r2.trans (le_of_eq ?_)
  ring

/-- Hypotheses that are met: a quaternion of length exactly one whose products round. -/
def sample : Quat := ⟨.fin false (5033165 / 2 ^ 23), .fin true (13421773 / 2 ^ 24), .fin false 0, .fin false 0⟩

theorem sample_norm : |‖exact sample‖ - 1| ≤ 1 / 2 ^ 20 := by
  have h := norm_sq (exact sample)
  have h0 := norm_nonneg (exact sample)
  have e : ‖exact sample‖ * ‖exact sample‖ = ((5033165 / 2 ^ 23) ^ 2 + (13421773 / 2 ^ 24) ^ 2 : ℝ) := by
    rw [h]
    norm_num [exact, sample, val]
  norm_num at e
  rw [abs_le]
  constructor <;> nlinarith

example : (FiniteQuat sample ∧ |‖exact sample‖ - 1| ≤ 1 / 2 ^ 20) ∧ ((99 : ℝ) + 1) * (1 / 2 ^ 20 + 10 / 2 ^ binary32.prec) ≤ 1 / 4 ∧
    |‖exact (Quat.mulAll binary32 sample (List.replicate 99 sample))‖ - 1| ≤ 1 / 1000 := by
  have hs : ((List.replicate 99 sample).length + 1 : ℝ) * (1 / 2 ^ 20 + 10 / 2 ^ binary32.prec) ≤ 1 / 4 := by
    rw [List.length_replicate]
    norm_num [binary32]
  have h := C145_history binary32 (Or.inl rfl) (1 / 2 ^ 20) (by positivity) sample (List.replicate 99 sample) (by
    intro r hr
    have : r = sample := by
      rcases List.mem_cons.1 hr with h | h
      · exact h
      · exact List.eq_of_mem_replicate h
    subst this
    exact ⟨⟨trivial, trivial, trivial, trivial⟩, sample_norm⟩) hs
  refine ⟨⟨⟨trivial, trivial, trivial, trivial⟩, sample_norm⟩, by norm_num [binary32], h.2.1.trans ?_⟩
  rw [List.length_replicate]
  norm_num [binary32]

/-- Products do round. -/
example : ∃ s m, (Quat.mul binary32 sample sample).w = .fin s m ∧ val (.fin s m) ≠ val sample.w * val sample.w - val sample.x * val sample.x :=
  ⟨true, 4697621 / 2 ^ 24, by decide +kernel, by norm_num [val, sample]⟩

/-- A rotation that meets the hypotheses. -/
example : FiniteVec ⟨.fin false 1, .fin true 3, .fin false (1 / 4)⟩ ∧ ‖Spec.pure ⟨.fin false 1, .fin true 3, .fin false (1 / 4)⟩‖ ≤ 2 ^ binary32.emax / 64 := by
  refine ⟨⟨trivial, trivial, trivial⟩, (norm_le_of (B := 3) (by norm_num) ?_ ?_ ?_ ?_).trans ?_⟩
  all_goals norm_num [Spec.pure, val, binary32, abs_of_nonneg]

end Xo.Norm
