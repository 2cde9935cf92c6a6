import Verif.Model.TransformFl
import Verif.Props.C145_Rotate
import Verif.Props.C147_QuatFast

/-!
C149: points that are moved by transforms and chains of transforms, with rounding.
-/
namespace Xo.Norm
open Num (Fl Fmt binary32 binary64)
open Ieee
open Ieee.Spec (num OfType)
open scoped Quaternion

namespace Spec

/-- The exact movement of a point: it is rotated, then shifted. -/
noncomputable def move (t : Transform) (x : ℍ[ℝ]) : ℍ[ℝ] := Spec.pure t.p + exact t.q * x * (exact t.q)⁻¹

/-- The exact movement back. -/
noncomputable def moveBack (t : Transform) (x : ℍ[ℝ]) : ℍ[ℝ] := (exact t.q)⁻¹ * (x - Spec.pure t.p) * exact t.q

/-- The movements one after another; the last one of the list is the first that is done. -/
noncomputable def moveAll (ts : List Transform) (x : ℍ[ℝ]) : ℍ[ℝ] := ts.foldr move x

/-- Finite numbers, a rotation whose length differs from one by no more than `δ`, and a shift of no more than `R`. -/
def Proper (δ R : ℝ) (t : Transform) : Prop := FiniteQuat t.q ∧ FiniteVec t.p ∧ |‖exact t.q‖ - 1| ≤ δ ∧ ‖pure t.p‖ ≤ R

end Spec
open Spec

theorem round_close {f : Fmt} (hf : Wide f) (z : Bool) {x : Rat} {N : ℝ} (hx : |(x : ℝ)| ≤ N) (hb : 2 * N + 1 ≤ 2 ^ f.emax) :
    Ieee.Spec.Finite (Ieee.ofRat f z x) ∧ |(val (Ieee.ofRat f z x) : ℝ) - x| ≤ unR f * N + etR f := by
  obtain ⟨u0, u1, e0, e1⟩ := reals hf
  have h := (Rat.cast_le (K := ℝ)).2 (rq_un f x)
  push_cast at h
  have h1 : |((rq f x : Rat) : ℝ) - x| ≤ unR f * N + etR f := h.trans (by
    have := mul_le_mul_of_nonneg_left hx u0.le
    unfold unR etR at *
    linarith)
  have N0 : 0 ≤ N := (abs_nonneg _).trans hx
  have h2 : |((rq f x : Rat) : ℝ)| < 2 ^ f.emax := by
    have a : |((rq f x : Rat) : ℝ)| ≤ |((rq f x : Rat) : ℝ) - x| + |(x : ℝ)| := by
      have := abs_add_le (((rq f x : Rat) : ℝ) - x) x
      simpa using this
    have b : unR f * N ≤ 1 / 2 * N := mul_le_mul_of_nonneg_right (u1.trans (by norm_num)) N0
    have c : etR f ≤ 1 / 2 := by
      norm_num at u1
      linarith
    linarith
  have h3 : |rq f x| < 2 ^ f.emax := by
    have : ((|rq f x| : Rat) : ℝ) < ((2 ^ f.emax : Rat) : ℝ) := by push_cast; exact h2
    exact_mod_cast this
  obtain ⟨s, m, e, e'⟩ := ofRat_finite (z := z) h3
  rw [e]
  refine ⟨trivial, ?_⟩
  rw [e']
  exact h1

theorem add_close {f : Fmt} (hf : Wide f) {a b : Fl} (ha : Ieee.Spec.Finite a) (hb : Ieee.Spec.Finite b) {N : ℝ} (hN : |(val a : ℝ) + val b| ≤ N) (hB : 2 * N + 1 ≤ 2 ^ f.emax) :
    Ieee.Spec.Finite (add f a b) ∧ |(val (add f a b) : ℝ) - (val a + val b)| ≤ unR f * N + etR f := by
  obtain ⟨g, m, rfl⟩ := fin_of ha
  obtain ⟨g', m', rfl⟩ := fin_of hb
  have := round_close hf (g && g') (x := val (.fin g m) + val (.fin g' m')) (N := N) (by push_cast; exact hN) hB
  push_cast at this
  exact this

theorem val_neg {a : Fl} (ha : Ieee.Spec.Finite a) : Ieee.Spec.Finite (neg a) ∧ val (neg a) = -val a := by
  obtain ⟨g, m, rfl⟩ := fin_of ha
  exact ⟨trivial, num_neg (a := .fin g m) g m⟩

theorem comp_le (x : ℍ[ℝ]) : |x.re| ≤ ‖x‖ ∧ |x.imI| ≤ ‖x‖ ∧ |x.imJ| ≤ ‖x‖ ∧ |x.imK| ≤ ‖x‖ := by
  have h := norm_sq x
  have h0 := norm_nonneg x
  have k : ∀ y : ℝ, y * y ≤ ‖x‖ * ‖x‖ → |y| ≤ ‖x‖ := fun y hy => abs_le_of_sq_le_sq (by nlinarith) h0
  refine ⟨k _ ?_, k _ ?_, k _ ?_, k _ ?_⟩ <;> rw [h] <;> nlinarith [mul_self_nonneg x.re, mul_self_nonneg x.imI, mul_self_nonneg x.imJ, mul_self_nonneg x.imK]

/-- The sum of two vectors. -/
theorem plus_close {f : Fmt} (hf : Wide f) {a b : Vec} (ha : FiniteVec a) (hb : FiniteVec b) (hB : 2 * ‖Spec.pure a + Spec.pure b‖ + 1 ≤ 2 ^ f.emax) :
    FiniteVec (a.plus f b) ∧ ‖Spec.pure (a.plus f b) - (Spec.pure a + Spec.pure b)‖ ≤ 2 * unR f * ‖Spec.pure a + Spec.pure b‖ + 2 * etR f := by
  obtain ⟨a1, a2, a3⟩ := ha
  obtain ⟨b1, b2, b3⟩ := hb
  obtain ⟨u0, u1, e0, e1⟩ := reals hf
  obtain ⟨_, h1, h2, h3⟩ := comp_le (Spec.pure a + Spec.pure b)
  rw [Quaternion.imI_add] at h1
  rw [Quaternion.imJ_add] at h2
  rw [Quaternion.imK_add] at h3
  obtain ⟨f1, c1⟩ := add_close hf a1 b1 h1 hB
  obtain ⟨f2, c2⟩ := add_close hf a2 b2 h2 hB
  obtain ⟨f3, c3⟩ := add_close hf a3 b3 h3 hB
  refine ⟨⟨f1, f2, f3⟩, ?_⟩
  refine (norm_le_of (B := unR f * ‖Spec.pure a + Spec.pure b‖ + etR f) (by positivity) ?_ ?_ ?_ ?_).trans (le_of_eq (by ring))
  · rw [Quaternion.re_sub, Quaternion.re_add]
    simp only [Spec.pure, add_zero, sub_self, abs_zero]
    positivity
  · rw [Quaternion.imI_sub, Quaternion.imI_add]
    exact c1
  · rw [Quaternion.imJ_sub, Quaternion.imJ_add]
    exact c2
  · rw [Quaternion.imK_sub, Quaternion.imK_add]
    exact c3

theorem pure_negated {v : Vec} (hv : FiniteVec v) : FiniteVec v.negated ∧ Spec.pure v.negated = -Spec.pure v := by
  obtain ⟨h1, h2, h3⟩ := hv
  obtain ⟨f1, e1⟩ := val_neg h1
  obtain ⟨f2, e2⟩ := val_neg h2
  obtain ⟨f3, e3⟩ := val_neg h3
  refine ⟨⟨f1, f2, f3⟩, ?_⟩
  ext
  · rw [Quaternion.re_neg]; simp [Spec.pure]
  · rw [Quaternion.imI_neg]; simp [Spec.pure, Vec.negated, e1]
  · rw [Quaternion.imJ_neg]; simp [Spec.pure, Vec.negated, e2]
  · rw [Quaternion.imK_neg]; simp [Spec.pure, Vec.negated, e3]

theorem exact_conj {q : Quat} (hq : FiniteQuat q) : FiniteQuat q.conj ∧ exact q.conj = star (exact q) := by
  obtain ⟨h0, h1, h2, h3⟩ := hq
  obtain ⟨f1, e1⟩ := val_neg h1
  obtain ⟨f2, e2⟩ := val_neg h2
  obtain ⟨f3, e3⟩ := val_neg h3
  refine ⟨⟨h0, f1, f2, f3⟩, ?_⟩
  ext
  · rw [Quaternion.re_star]; simp [exact, Quat.conj]
  · rw [Quaternion.imI_star]; simp [exact, Quat.conj, e1]
  · rw [Quaternion.imJ_star]; simp [exact, Quat.conj, e2]
  · rw [Quaternion.imK_star]; simp [exact, Quat.conj, e3]

theorem minus_eq {f : Fmt} (a b : Vec) : a.minus f b = a.plus f b.negated := rfl

theorem rot_norm {q : ℍ[ℝ]} (hq : q ≠ 0) (x : ℍ[ℝ]) : ‖q * x * q⁻¹‖ = ‖x‖ := by
  have : ‖q‖ ≠ 0 := by simpa using hq
  rw [norm_mul, norm_mul, norm_inv]
  field_simp

theorem star_rot {q : ℍ[ℝ]} (hq : q ≠ 0) (x : ℍ[ℝ]) : star q * x * (star q)⁻¹ = q⁻¹ * x * q := by
  have hn : Quaternion.normSq q ≠ 0 := by simpa using hq
  have e2 : q⁻¹ = (Quaternion.normSq q)⁻¹ • star q := rfl
  have e3 : (star q)⁻¹ = (Quaternion.normSq q)⁻¹ • q := by
    have : (star q)⁻¹ = (Quaternion.normSq (star q))⁻¹ • star (star q) := rfl
    rw [this, star_star, Quaternion.normSq_star]
  rw [e2, e3, smul_mul_assoc, smul_mul_assoc, mul_smul_comm]

theorem back_norm {q : ℍ[ℝ]} (hq : q ≠ 0) (x : ℍ[ℝ]) : ‖q⁻¹ * x * q‖ = ‖x‖ := by
  have : ‖q‖ ≠ 0 := by simpa using hq
  rw [norm_mul, norm_mul, norm_inv]
  field_simp

theorem un_real (f : Fmt) : unR f = 1 / 2 ^ f.prec ∧ etR f = 2 ^ f.emin := by
  constructor
  · unfold unR un
    push_cast
    rfl
  · unfold etR et
    push_cast
    rfl

theorem nz {δ : ℝ} (hδ : δ ≤ 1 / 32) {q : ℍ[ℝ]} (h : |‖q‖ - 1| ≤ δ) : q ≠ 0 := by
  rintro rfl
  rw [norm_zero] at h
  norm_num at h
  linarith

/-- Room for sums of numbers of up to a sixteenth of the largest ones. -/
theorem room {f : Fmt} (hf : Wide f) : (2 : ℝ) ^ 20 ≤ 2 ^ f.emax := by
  have := (Rat.cast_le (K := ℝ)).2 (one_le hf)
  push_cast at this
  refine le_trans ?_ this
  norm_num

/-- Position plus rotated vector, in terms of the errors. -/
theorem shift_close {f : Fmt} (hf : f = binary32 ∨ f = binary64) {δ : ℝ} {q : Quat} {p v : Vec} (hq : FiniteQuat q) (hp : FiniteVec p) (hv : FiniteVec v)
    (nq : |‖exact q‖ - 1| ≤ δ) (hδ : δ ≤ 1 / 32) (np : ‖Spec.pure p‖ ≤ 2 ^ f.emax / 16) (nv : ‖Spec.pure v‖ ≤ 2 ^ f.emax / 64) :
    FiniteVec (p.plus f (q.rotate f v)) ∧
      ‖Spec.pure (p.plus f (q.rotate f v)) - (Spec.pure p + exact q * Spec.pure v * (exact q)⁻¹)‖ ≤ (173 * unR f + 5 * δ) * ‖Spec.pure v‖ + 2 * unR f * ‖Spec.pure p‖ + 65 * etR f := by
  have w : Wide f := by
    rcases hf with rfl | rfl
    · exact wide32
    · exact wide64
  obtain ⟨u0, u1, e0, e1⟩ := reals w
  obtain ⟨eu, ee⟩ := un_real f
  obtain ⟨fr, cr, _⟩ := C145_rotate f hf δ q v hq hv nq hδ nv
  have hq0 := nz hδ nq
  have d0 : 0 ≤ δ := (abs_nonneg _).trans nq
  have ek : (170 : ℝ) / 2 ^ f.prec = 170 * unR f := by rw [eu]; ring
  rw [ek, ← ee] at cr
  generalize hr : Spec.pure (q.rotate f v) = r at cr
  generalize hE : exact q * Spec.pure v * (exact q)⁻¹ = E at cr
  have hEn : ‖E‖ = ‖Spec.pure v‖ := by rw [← hE, rot_norm hq0]
  generalize hP : Spec.pure p = P at np
  generalize hX : ‖Spec.pure v‖ = X at *
  have X0 : 0 ≤ X := by rw [← hX]; positivity
  have P0 := norm_nonneg P
  norm_num at u1
  have k1 : (170 * unR f + 5 * δ) * X ≤ 1 / 5 * X := mul_le_mul_of_nonneg_right (by linarith) X0
  have k2 : ‖P + r‖ ≤ ‖P‖ + 6 / 5 * X + 62 * etR f := by
    have e : P + r = P + (E + (r - E)) := by abel
    rw [e]
    have a := norm_add_le P (E + (r - E))
    have b := norm_add_le E (r - E)
    linarith
  have rm := room w
  obtain ⟨f1, c1⟩ := plus_close w (a := p) (b := q.rotate f v) hp fr (by
    rw [hP, hr]
    norm_num at rm
    linarith)
  rw [hP, hr] at c1
  refine ⟨f1, ?_⟩
  have e : Spec.pure (p.plus f (q.rotate f v)) - (P + E) = (Spec.pure (p.plus f (q.rotate f v)) - (P + r)) + (r - E) := by abel
  rw [e]
  refine (norm_add_le _ _).trans ((add_le_add c1 cr).trans ?_)
  have k3 := mul_le_mul_of_nonneg_left k2 (by positivity : 0 ≤ 2 * unR f)
  have k4 : unR f * etR f ≤ 1 / 200 * etR f := mul_le_mul_of_nonneg_right (by linarith) e0.le
  have k5 : 0 ≤ unR f * X := by positivity
  nlinarith

/-- A point that is moved is close to the point of the exact movement. -/
theorem C149_trans (f : Fmt) (hf : f = binary32 ∨ f = binary64) (δ : ℝ) (t : Transform) (v : Vec) (ht : Proper δ (2 ^ f.emax / 16) t) (hδ : δ ≤ 1 / 32) (hv : FiniteVec v)
    (nv : ‖Spec.pure v‖ ≤ 2 ^ f.emax / 64) :
    FiniteVec (t.trans f v) ∧ ‖Spec.pure (t.trans f v) - move t (Spec.pure v)‖ ≤ (173 / 2 ^ f.prec + 5 * δ) * ‖Spec.pure v‖ + 2 / 2 ^ f.prec * ‖Spec.pure t.p‖ + 65 * 2 ^ f.emin := by
  obtain ⟨h1, h2, h3, h4⟩ := ht
  obtain ⟨r1, r2⟩ := shift_close hf h1 h2 hv h3 hδ h4 nv
  refine ⟨r1, r2.trans (le_of_eq ?_)⟩
  obtain ⟨eu, ee⟩ := un_real f
  rw [eu, ee]
  ring

/-- Moving back. -/
theorem back_close {f : Fmt} (hf : f = binary32 ∨ f = binary64) {δ : ℝ} {t : Transform} {v : Vec} (hq : FiniteQuat t.q) (hp : FiniteVec t.p) (hv : FiniteVec v)
    (nq : |‖exact t.q‖ - 1| ≤ δ) (hδ : δ ≤ 1 / 32) (nd : ‖Spec.pure v - Spec.pure t.p‖ ≤ 2 ^ f.emax / 128) :
    FiniteVec (t.invTrans f v) ∧ ‖Spec.pure (t.invTrans f v) - moveBack t (Spec.pure v)‖ ≤ (173 * unR f + 5 * δ) * ‖Spec.pure v - Spec.pure t.p‖ + 65 * etR f := by
  have w : Wide f := by
    rcases hf with rfl | rfl
    · exact wide32
    · exact wide64
  obtain ⟨u0, u1, e0, e1⟩ := reals w
  obtain ⟨eu, ee⟩ := un_real f
  obtain ⟨fn, en⟩ := pure_negated hp
  obtain ⟨fc, ec⟩ := exact_conj hq
  have hq0 := nz hδ nq
  have rm := room w
  norm_num at rm u1
  have hs : Spec.pure v + Spec.pure t.p.negated = Spec.pure v - Spec.pure t.p := by rw [en, sub_eq_add_neg]
  obtain ⟨fd, cd⟩ := plus_close w (a := v) (b := t.p.negated) hv fn (by rw [hs]; linarith)
  rw [hs, ← minus_eq] at cd
  rw [← minus_eq] at fd
  have d0 : 0 ≤ δ := (abs_nonneg _).trans nq
  unfold moveBack
  generalize hD : Spec.pure v - Spec.pure t.p = D at *
  have hd : ‖Spec.pure (v.minus f t.p)‖ ≤ ‖D‖ + (2 * unR f * ‖D‖ + 2 * etR f) := by
    have := norm_add_le D (Spec.pure (v.minus f t.p) - D)
    rw [add_sub_cancel] at this
    linarith
  have D0 := norm_nonneg D
  have k1 : unR f * ‖D‖ ≤ 1 / 100 * ‖D‖ := mul_le_mul_of_nonneg_right (by linarith) D0
  obtain ⟨fr, cr, _⟩ := C145_rotate f hf δ t.q.conj (v.minus f t.p) fc fd (by rw [ec, norm_star]; exact nq) hδ (by linarith)
  rw [ec, star_rot hq0] at cr
  refine ⟨fr, ?_⟩
  have ek : (170 : ℝ) / 2 ^ f.prec = 170 * unR f := by rw [eu]; ring
  rw [ek, ← ee] at cr
  have e : Spec.pure (t.invTrans f v) - (exact t.q)⁻¹ * D * exact t.q =
      (Spec.pure (t.q.conj.rotate f (v.minus f t.p)) - (exact t.q)⁻¹ * Spec.pure (v.minus f t.p) * exact t.q) + (exact t.q)⁻¹ * (Spec.pure (v.minus f t.p) - D) * exact t.q := by
    rw [mul_sub, sub_mul]
    show Spec.pure (t.q.conj.rotate f (v.minus f t.p)) - _ = _
    abel
  rw [e]
  refine (norm_add_le _ _).trans ?_
  rw [back_norm hq0]
  refine (add_le_add cr cd).trans ?_
  have k2 := mul_le_mul_of_nonneg_left hd (by positivity : 0 ≤ 170 * unR f + 5 * δ)
  have k3 : (170 * unR f + 5 * δ) * (2 * unR f * ‖D‖ + 2 * etR f) ≤ 1 / 5 * (2 * unR f * ‖D‖ + 2 * etR f) := mul_le_mul_of_nonneg_right (by linarith) (by positivity)
  have k4 : 0 ≤ unR f * ‖D‖ := by positivity
  nlinarith

/-- A point that is moved back is close to the point of the exact movement back. -/
theorem C149_inv_trans (f : Fmt) (hf : f = binary32 ∨ f = binary64) (δ : ℝ) (t : Transform) (v : Vec) (ht : Proper δ (2 ^ f.emax / 256) t) (hδ : δ ≤ 1 / 32) (hv : FiniteVec v)
    (nv : ‖Spec.pure v‖ ≤ 2 ^ f.emax / 256) :
    FiniteVec (t.invTrans f v) ∧ ‖Spec.pure (t.invTrans f v) - moveBack t (Spec.pure v)‖ ≤ (173 / 2 ^ f.prec + 5 * δ) * ‖Spec.pure v - Spec.pure t.p‖ + 65 * 2 ^ f.emin := by
  obtain ⟨h1, h2, h3, h4⟩ := ht
  have := norm_sub_le (Spec.pure v) (Spec.pure t.p)
  obtain ⟨r1, r2⟩ := back_close hf h1 h2 hv h3 hδ (by linarith)
  refine ⟨r1, r2.trans (le_of_eq ?_)⟩
  obtain ⟨eu, ee⟩ := un_real f
  rw [eu, ee]
  ring

theorem back_move {t : Transform} (hq : exact t.q ≠ 0) (x : ℍ[ℝ]) : moveBack t (move t x) = x := by
  unfold moveBack move
  rw [add_sub_cancel_left]
  have e : (exact t.q)⁻¹ * (exact t.q * x * (exact t.q)⁻¹) * exact t.q = ((exact t.q)⁻¹ * exact t.q) * x * ((exact t.q)⁻¹ * exact t.q) := by noncomm_ring
  rw [e, inv_mul_cancel₀ hq, one_mul, mul_one]

/-- A point that is moved and then moved back is close to where it was. -/
theorem C149_there_and_back (f : Fmt) (hf : f = binary32 ∨ f = binary64) (δ : ℝ) (t : Transform) (v : Vec) (ht : Proper δ (2 ^ f.emax / 1024) t) (hδ : δ ≤ 1 / 32) (hv : FiniteVec v)
    (nv : ‖Spec.pure v‖ ≤ 2 ^ f.emax / 1024) :
    FiniteVec (t.invTrans f (t.trans f v)) ∧
      ‖Spec.pure (t.invTrans f (t.trans f v)) - Spec.pure v‖ ≤ (376 / 2 ^ f.prec + 11 * δ) * ‖Spec.pure v‖ + 3 / 2 ^ f.prec * ‖Spec.pure t.p‖ + 150 * 2 ^ f.emin := by
  have w : Wide f := by
    rcases hf with rfl | rfl
    · exact wide32
    · exact wide64
  obtain ⟨h1, h2, h3, h4⟩ := ht
  obtain ⟨u0, u1, e0, e1⟩ := reals w
  obtain ⟨eu, ee⟩ := un_real f
  have rm := room w
  norm_num at rm u1
  have hq0 := nz hδ h3
  have d0 : 0 ≤ δ := (abs_nonneg _).trans h3
  obtain ⟨f1, c1⟩ := shift_close hf h1 h2 hv h3 hδ (by linarith) (by linarith)
  have c1' : ‖Spec.pure (t.trans f v) - move t (Spec.pure v)‖ ≤ (173 * unR f + 5 * δ) * ‖Spec.pure v‖ + 2 * unR f * ‖Spec.pure t.p‖ + 65 * etR f := c1
  have f1' : FiniteVec (t.trans f v) := f1
  clear c1 f1
  generalize hy : t.trans f v = y at *
  generalize hA : (173 * unR f + 5 * δ) * ‖Spec.pure v‖ + 2 * unR f * ‖Spec.pure t.p‖ + 65 * etR f = A at *
  have X0 := norm_nonneg (Spec.pure v)
  have P0 := norm_nonneg (Spec.pure t.p)
  have hm : move t (Spec.pure v) - Spec.pure t.p = exact t.q * Spec.pure v * (exact t.q)⁻¹ := by
    unfold move
    rw [add_sub_cancel_left]
  have A1 : A ≤ 1 / 5 * ‖Spec.pure v‖ + ‖Spec.pure t.p‖ + 1 := by
    rw [← hA]
    have a := mul_le_mul_of_nonneg_right (by linarith : 173 * unR f + 5 * δ ≤ 1 / 5) X0
    have b := mul_le_mul_of_nonneg_right (by linarith : 2 * unR f ≤ 1) P0
    linarith
  have hd : ‖Spec.pure y - Spec.pure t.p‖ ≤ ‖Spec.pure v‖ + A := by
    have e : Spec.pure y - Spec.pure t.p = (move t (Spec.pure v) - Spec.pure t.p) + (Spec.pure y - move t (Spec.pure v)) := by abel
    rw [e]
    refine (norm_add_le _ _).trans ?_
    rw [hm, rot_norm hq0]
    linarith
  obtain ⟨f2, c2⟩ := back_close hf h1 h2 f1' h3 hδ (by linarith)
  refine ⟨f2, ?_⟩
  have e : Spec.pure (t.invTrans f y) - Spec.pure v = (Spec.pure (t.invTrans f y) - moveBack t (Spec.pure y)) + (exact t.q)⁻¹ * (Spec.pure y - move t (Spec.pure v)) * exact t.q := by
    have b := back_move hq0 (Spec.pure v)
    have : (exact t.q)⁻¹ * (Spec.pure y - move t (Spec.pure v)) * exact t.q = moveBack t (Spec.pure y) - moveBack t (move t (Spec.pure v)) := by
      unfold moveBack
      noncomm_ring
    rw [this, b]
    abel
  rw [e]
  refine (norm_add_le _ _).trans ?_
  rw [back_norm hq0]
  refine (add_le_add c2 c1').trans ?_
  have k1 := mul_le_mul_of_nonneg_left hd (by positivity : 0 ≤ 173 * unR f + 5 * δ)
  have A0 : 0 ≤ A := (norm_nonneg _).trans c1'
  have k2 : (173 * unR f + 5 * δ) * A ≤ 4 / 25 * A := mul_le_mul_of_nonneg_right (by linarith) A0
  have e1 : (376 : ℝ) / 2 ^ f.prec = 376 * unR f := by rw [eu]; ring
  have e2 : (3 : ℝ) / 2 ^ f.prec = 3 * unR f := by rw [eu]; ring
  rw [e1, e2, ← ee]
  have k3 : 0 ≤ unR f * ‖Spec.pure v‖ := by positivity
  have k4 : 0 ≤ unR f * ‖Spec.pure t.p‖ := by positivity
  have k5 : 0 ≤ δ * ‖Spec.pure v‖ := by positivity
  nlinarith

/-- The inverse of a transform moves back: its position and rotation. -/
theorem C149_inverse (f : Fmt) (hf : f = binary32 ∨ f = binary64) (δ : ℝ) (t : Transform) (ht : Proper δ (2 ^ f.emax / 64) t) (hδ : δ ≤ 1 / 32) :
    FiniteVec (t.inv f).p ∧ FiniteQuat (t.inv f).q ∧ exact (t.inv f).q = star (exact t.q) ∧
      ‖Spec.pure (t.inv f).p - moveBack t 0‖ ≤ (170 / 2 ^ f.prec + 5 * δ) * ‖Spec.pure t.p‖ + 62 * 2 ^ f.emin := by
  obtain ⟨h1, h2, h3, h4⟩ := ht
  obtain ⟨fn, en⟩ := pure_negated h2
  obtain ⟨fc, ec⟩ := exact_conj h1
  obtain ⟨fr, cr, _⟩ := C145_rotate f hf δ t.q.conj t.p.negated fc fn (by rw [ec, norm_star]; exact h3) hδ (by rw [en, norm_neg]; exact h4)
  refine ⟨fr, fc, ec, ?_⟩
  rw [ec, star_rot (nz hδ h3), en, norm_neg] at cr
  unfold moveBack
  rw [zero_sub]
  exact cr

/-- Rotations by two quaternions that are close to each other. -/
theorem rot_diff {a b : ℍ[ℝ]} (ha : a ≠ 0) (hb : b ≠ 0) (x : ℍ[ℝ]) : ‖a * x * a⁻¹ - b * x * b⁻¹‖ ≤ 2 * (‖a - b‖ / ‖a‖) * ‖x‖ := by
  have na : ‖a‖ ≠ 0 := by simpa using ha
  have nb : ‖b‖ ≠ 0 := by simpa using hb
  have e0 : a⁻¹ - b⁻¹ = a⁻¹ * (b - a) * b⁻¹ := by
    rw [mul_sub, sub_mul, mul_assoc, mul_inv_cancel₀ hb, mul_one, inv_mul_cancel₀ ha, one_mul]
  have e : a * x * a⁻¹ - b * x * b⁻¹ = (a - b) * x * a⁻¹ + b * x * (a⁻¹ - b⁻¹) := by noncomm_ring
  rw [e, e0]
  refine (norm_add_le _ _).trans (le_of_eq ?_)
  simp only [norm_mul, norm_inv]
  rw [norm_sub_rev b a]
  field_simp
  ring

/-- What holds after `k` transforms whose exact movement is a rotation by `Q` and a shift by `P`. -/
def ChainInv (f : Fmt) (δ R : ℝ) (k : Nat) (t : Transform) (P Q : ℍ[ℝ]) : Prop :=
  Inv f (δ + 10 * unR f) k t.q Q ∧ FiniteVec t.p ∧ ‖Spec.pure t.p - P‖ ≤ k ^ 2 * (5 * δ + 180 * unR f) * R + 66 * k * etR f ∧ ‖P‖ ≤ k * R

/-- The step of a chain. -/
theorem chain_close {f : Fmt} (hf : f = binary32 ∨ f = binary64) {δ R : ℝ} (hδ : 0 ≤ δ) {k : Nat} (hk : 1 ≤ k) (hs : (k : ℝ) * (δ + 10 * unR f) ≤ 1 / 64) (hR0 : 0 ≤ R)
    (hR : (k : ℝ) * R ≤ 2 ^ f.emax / 64) {t : Transform} {P Q : ℍ[ℝ]} (h : ChainInv f δ R k t P Q) {v : Vec} (hv : FiniteVec v) (nv : ‖Spec.pure v‖ ≤ 2 ^ f.emax / 64) :
    Q ≠ 0 ∧ FiniteVec (t.trans f v) ∧
      ‖Spec.pure (t.trans f v) - (P + Q * Spec.pure v * Q⁻¹)‖ ≤ k ^ 2 * (5 * δ + 180 * unR f) * R + 66 * k * etR f + k * (10 * δ + 356 * unR f) * ‖Spec.pure v‖ + 3 * k * unR f * R + 66 * etR f := by
  have w : Wide f := by
    rcases hf with rfl | rfl
    · exact wide32
    · exact wide64
  obtain ⟨u0, u1, e0, e1⟩ := reals w
  have rm := room w
  norm_num at rm u1
  obtain ⟨⟨fq, nq, cq⟩, fp, cp, nP⟩ := h
  have k1 : (1 : ℝ) ≤ k := by exact_mod_cast hk
  have hku : 0 ≤ (k : ℝ) * unR f := by positivity
  have hkd : 0 ≤ (k : ℝ) * δ := by positivity
  have ku : (k : ℝ) * unR f ≤ 1 / 640 := by nlinarith
  have nq' : |‖exact t.q‖ - 1| ≤ 1 / 32 := nq.trans (by linarith)
  have q0 := nz (le_refl _) nq'
  have nl : 31 / 32 ≤ ‖exact t.q‖ := by linarith [(abs_le.1 nq').1]
  have Q0 : Q ≠ 0 := by
    rintro rfl
    rw [sub_zero] at cq
    nlinarith
  have G0 : 0 ≤ 5 * δ + 180 * unR f := by positivity
  have kG : (k : ℝ) * (5 * δ + 180 * unR f) ≤ 7 / 20 := by nlinarith
  have kR0 : 0 ≤ (k : ℝ) * R := by positivity
  have cp' : (k : ℝ) ^ 2 * (5 * δ + 180 * unR f) * R ≤ 7 / 20 * (k * R) := by
    have := mul_le_mul_of_nonneg_right kG kR0
    have e : (k : ℝ) ^ 2 * (5 * δ + 180 * unR f) * R = k * (5 * δ + 180 * unR f) * (k * R) := by ring
    rw [e]
    exact this
  have np : ‖Spec.pure t.p‖ ≤ 27 / 20 * (k * R) + 66 * k * etR f := by
    have := norm_add_le P (Spec.pure t.p - P)
    rw [add_sub_cancel] at this
    linarith
  have ke : (k : ℝ) * etR f ≤ 1 / 640 := by nlinarith
  obtain ⟨f1, c1⟩ := shift_close hf fq fp hv nq (by linarith) (by linarith) nv
  refine ⟨Q0, f1, ?_⟩
  have c2 := rot_diff q0 Q0 (Spec.pure v)
  have X0 := norm_nonneg (Spec.pure v)
  have c3 : 2 * (‖exact t.q - Q‖ / ‖exact t.q‖) ≤ 83 * (k * unR f) := by
    have : ‖exact t.q - Q‖ / ‖exact t.q‖ ≤ (40 * k * unR f) / (31 / 32) := div_le_div₀ (by positivity) cq (by norm_num) nl
    linarith
  have c4 := c2.trans (mul_le_mul_of_nonneg_right c3 X0)
  have e : Spec.pure (t.trans f v) - (P + Q * Spec.pure v * Q⁻¹) =
      (Spec.pure (t.p.plus f (t.q.rotate f v)) - (Spec.pure t.p + exact t.q * Spec.pure v * (exact t.q)⁻¹)) + (Spec.pure t.p - P) + (exact t.q * Spec.pure v * (exact t.q)⁻¹ - Q * Spec.pure v * Q⁻¹) := by
    show Spec.pure (t.p.plus f (t.q.rotate f v)) - _ = _
    abel
  rw [e]
  refine (norm_add₃_le).trans ?_
  have s1 : 2 * unR f * ‖Spec.pure t.p‖ ≤ 3 * k * unR f * R + etR f := by
    have := mul_le_mul_of_nonneg_left np (by positivity : 0 ≤ 2 * unR f)
    have a : 0 ≤ unR f * (k * R) := by positivity
    have b : 2 * unR f * (66 * k * etR f) ≤ etR f := by
      have := mul_le_mul_of_nonneg_right ku e0.le
      nlinarith
    nlinarith
  have s2 : (173 * unR f + 5 * (2 * k * (δ + 10 * unR f))) * ‖Spec.pure v‖ + 83 * (k * unR f) * ‖Spec.pure v‖ ≤ k * (10 * δ + 356 * unR f) * ‖Spec.pure v‖ := by
    rw [← add_mul]
    refine mul_le_mul_of_nonneg_right ?_ X0
    have := mul_le_mul_of_nonneg_right k1 u0.le
    nlinarith
  linarith

theorem chain_step {f : Fmt} (hf : f = binary32 ∨ f = binary64) {δ R : ℝ} (hδ : 0 ≤ δ) {k : Nat} (hk : 1 ≤ k) (hs : ((k : ℝ) + 1) * (δ + 10 * unR f) ≤ 1 / 64)
    (hR : ((k : ℝ) + 1) * R ≤ 2 ^ f.emax / 64) {t s : Transform} {P Q : ℍ[ℝ]} (h : ChainInv f δ R k t P Q) (p : Proper δ R s) :
    Q ≠ 0 ∧ ChainInv f δ R (k + 1) (t.mul f s) (P + Q * Spec.pure s.p * Q⁻¹) (Q * exact s.q) := by
  have w : Wide f := by
    rcases hf with rfl | rfl
    · exact wide32
    · exact wide64
  obtain ⟨u0, u1, e0, e1⟩ := reals w
  obtain ⟨p1, p2, p3, p4⟩ := p
  have R0 : 0 ≤ R := (norm_nonneg _).trans p4
  have k1 : (1 : ℝ) ≤ k := by exact_mod_cast hk
  have d0 : 0 ≤ δ + 10 * unR f := by positivity
  have kR : (1 : ℝ) * R ≤ k * R := mul_le_mul_of_nonneg_right k1 R0
  obtain ⟨Q0, f1, c1⟩ := chain_close hf hδ hk (by linarith) R0 (by linarith) h p2 (by linarith)
  refine ⟨Q0, inv_step w hδ hk (by linarith) h.1 p1 p3, f1, c1.trans ?_, ?_⟩
  · have a : k * (10 * δ + 356 * unR f) * ‖Spec.pure s.p‖ ≤ k * (10 * δ + 356 * unR f) * R := mul_le_mul_of_nonneg_left p4 (by positivity)
    push_cast
    have b1 : 0 ≤ δ * R := by positivity
    have b2 : 0 ≤ unR f * R := by positivity
    have b3 := mul_le_mul_of_nonneg_right k1 b2
    nlinarith
  · refine (norm_add_le _ _).trans ?_
    rw [rot_norm Q0]
    push_cast
    linarith [h.2.2.2]

theorem move_all_step (P Q : ℍ[ℝ]) (s : Transform) (x : ℍ[ℝ]) : P + Q * move s x * Q⁻¹ = (P + Q * Spec.pure s.p * Q⁻¹) + (Q * exact s.q) * x * (Q * exact s.q)⁻¹ := by
  unfold move
  rw [mul_inv_rev]
  noncomm_ring

theorem chain_all {f : Fmt} (hf : f = binary32 ∨ f = binary64) {δ R : ℝ} (hδ : 0 ≤ δ) (x : ℍ[ℝ]) : ∀ (ts : List Transform) {k : Nat} {t : Transform} {P Q : ℍ[ℝ]}, 1 ≤ k →
    ((k : ℝ) + ts.length) * (δ + 10 * unR f) ≤ 1 / 64 → 0 ≤ R → ((k : ℝ) + ts.length) * R ≤ 2 ^ f.emax / 64 → ChainInv f δ R k t P Q → (∀ s ∈ ts, Proper δ R s) →
    ∃ P' Q', ChainInv f δ R (k + ts.length) (Transform.mulAll f t ts) P' Q' ∧ P + Q * moveAll ts x * Q⁻¹ = P' + Q' * x * Q'⁻¹
  | [], k, t, P, Q, _, _, _, _, h, _ => ⟨P, Q, h, rfl⟩
  | s :: ts, k, t, P, Q, hk, hs, R0, hR, h, hp => by
    have u0 : 0 < unR f := by unfold unR; exact_mod_cast un_pos f
    have l0 : (0 : ℝ) ≤ ts.length := by positivity
    have e : ((k : ℝ) + (s :: ts).length) = ((k + 1 : Nat) : ℝ) + ts.length := by
      push_cast [List.length_cons]
      ring
    rw [e] at hs hR
    have m : (k : ℝ) + 1 ≤ ((k + 1 : Nat) : ℝ) + ts.length := by push_cast; linarith
    obtain ⟨_, h1⟩ := chain_step hf hδ hk ((mul_le_mul_of_nonneg_right m (by positivity)).trans hs) ((mul_le_mul_of_nonneg_right m R0).trans hR) h (hp s (by simp))
    obtain ⟨P', Q', r1, r2⟩ := chain_all hf hδ x ts (by omega) hs R0 hR h1 (fun r hr => hp r (by simp [hr]))
    refine ⟨P', Q', ?_, ?_⟩
    · have : k + (s :: ts).length = k + 1 + ts.length := by rw [List.length_cons]; omega
      rw [this]
      exact r1
    · rw [← r2]
      exact move_all_step P Q s _

/-- A point that is moved by the product of any number of transforms is close to the point that the exact movements give one after another. The error grows in proportion to the number of
transforms for the point, and to its square for the shifts. -/
theorem C149_chain (f : Fmt) (hf : f = binary32 ∨ f = binary64) (δ R : ℝ) (hδ : 0 ≤ δ) (t : Transform) (ts : List Transform) (v : Vec) (ht : ∀ s ∈ t :: ts, Proper δ R s) (hv : FiniteVec v)
    (hn : (ts.length + 1 : ℝ) * (δ + 10 / 2 ^ f.prec) ≤ 1 / 64) (hR : (ts.length + 1 : ℝ) * R ≤ 2 ^ f.emax / 64) (nv : ‖Spec.pure v‖ ≤ 2 ^ f.emax / 64) :
    FiniteVec ((Transform.mulAll f t ts).trans f v) ∧
      ‖Spec.pure ((Transform.mulAll f t ts).trans f v) - moveAll (t :: ts) (Spec.pure v)‖ ≤
        (ts.length + 1) * (10 * δ + 356 / 2 ^ f.prec) * ‖Spec.pure v‖ + (ts.length + 1) ^ 2 * (5 * δ + 183 / 2 ^ f.prec) * R + 132 * (ts.length + 1) * 2 ^ f.emin := by
  have w : Wide f := by
    rcases hf with rfl | rfl
    · exact wide32
    · exact wide64
  obtain ⟨u0, u1, e0, e1⟩ := reals w
  obtain ⟨eu, ee⟩ := un_real f
  have k1 : (10 : ℝ) / 2 ^ f.prec = 10 * unR f := by rw [eu]; ring
  have k2 : (356 : ℝ) / 2 ^ f.prec = 356 * unR f := by rw [eu]; ring
  have k3 : (183 : ℝ) / 2 ^ f.prec = 183 * unR f := by rw [eu]; ring
  rw [k1] at hn
  rw [k2, k3, ← ee]
  obtain ⟨p1, p2, p3, p4⟩ := ht t (by simp)
  have R0 : 0 ≤ R := (norm_nonneg _).trans p4
  have h0 : ChainInv f δ R 1 t (Spec.pure t.p) (exact t.q) := by
    refine ⟨⟨p1, ?_, ?_⟩, p2, ?_, by simpa using p4⟩
    · push_cast
      linarith
    · rw [sub_self, norm_zero]
      positivity
    · rw [sub_self, norm_zero]
      positivity
  have hn' : (((1 : Nat) : ℝ) + ts.length) * (δ + 10 * unR f) ≤ 1 / 64 := by push_cast; linarith
  have hR' : (((1 : Nat) : ℝ) + ts.length) * R ≤ 2 ^ f.emax / 64 := by push_cast; linarith
  obtain ⟨P, Q, h, hm⟩ := chain_all hf hδ (Spec.pure v) ts (le_refl 1) hn' R0 hR' h0 (fun s hs => ht s (by simp [hs]))
  have ek : ((1 + ts.length : Nat) : ℝ) = ts.length + 1 := by push_cast; ring
  obtain ⟨_, f1, c1⟩ := chain_close hf hδ (k := 1 + ts.length) (by omega) (by rw [ek]; exact hn) R0 (by rw [ek]; exact hR) h hv nv
  refine ⟨f1, ?_⟩
  have em : moveAll (t :: ts) (Spec.pure v) = P + Q * Spec.pure v * Q⁻¹ := hm
  rw [em]
  rw [ek] at c1
  refine c1.trans ?_
  have l0 : (0 : ℝ) ≤ ts.length := by positivity
  generalize (ts.length : ℝ) = n at *
  have a1 : 0 ≤ unR f * R := by positivity
  have a2 : 0 ≤ n * (unR f * R) := by positivity
  have a3 : 0 ≤ n * etR f := by positivity
  have a4 : 0 ≤ n * n * (unR f * R) := by positivity
  nlinarith

/-- A chain that meets the hypotheses: a thousand turns with shifts, in double precision. -/
def link : Transform := ⟨⟨.fin false 1, .fin true (1 / 2), .fin false (1 / 4)⟩, ⟨.fin false (5404319552844595 / 2 ^ 53), .fin true (7205759403792794 / 2 ^ 53), .fin false 0, .fin false 0⟩⟩

theorem link_proper : Proper (1 / 2 ^ 40) 2 link := by
  refine ⟨⟨trivial, trivial, trivial, trivial⟩, ⟨trivial, trivial, trivial⟩, ?_, ?_⟩
  · have h := norm_sq (exact link.q)
    have h0 := norm_nonneg (exact link.q)
    have e : ‖exact link.q‖ * ‖exact link.q‖ = ((5404319552844595 / 2 ^ 53) ^ 2 + (7205759403792794 / 2 ^ 53) ^ 2 : ℝ) := by
      rw [h]
      norm_num [exact, link, val]
    norm_num at e
    rw [abs_le]
    constructor <;> nlinarith
  · refine (norm_le_of (B := 1) (by norm_num) ?_ ?_ ?_ ?_).trans (by norm_num)
    all_goals norm_num [Spec.pure, link, val, abs_of_nonneg]

example : ‖Spec.pure ((Transform.mulAll binary64 link (List.replicate 999 link)).trans binary64 ⟨.fin false 1, .fin false 2, .fin false 3⟩) -
    moveAll (link :: List.replicate 999 link) (Spec.pure ⟨.fin false 1, .fin false 2, .fin false 3⟩)‖ ≤ 1 / 1000 := by
  have nv : ‖Spec.pure ⟨.fin false 1, .fin false 2, .fin false 3⟩‖ ≤ 6 := by
    refine (norm_le_of (B := 3) (by norm_num) ?_ ?_ ?_ ?_).trans (by norm_num)
    all_goals norm_num [Spec.pure, val, abs_of_nonneg]
  have h := (C149_chain binary64 (Or.inr rfl) (1 / 2 ^ 40) 2 (by positivity) link (List.replicate 999 link) ⟨.fin false 1, .fin false 2, .fin false 3⟩ (by
    intro s hs
    have : s = link := by
      rcases List.mem_cons.1 hs with h | h
      · exact h
      · exact List.eq_of_mem_replicate h
    subst this
    exact link_proper) ⟨trivial, trivial, trivial⟩ (by rw [List.length_replicate]; norm_num [binary64]) (by
      rw [List.length_replicate]
      refine le_trans (by norm_num : _ ≤ (2 : ℝ) ^ 20 / 64) ?_
      have : (2 : ℝ) ^ 20 ≤ 2 ^ binary64.emax := room wide64
      linarith) (nv.trans (by
      have : (2 : ℝ) ^ 20 ≤ 2 ^ binary64.emax := room wide64
      norm_num at this ⊢
      linarith))).2
  refine h.trans ?_
  rw [List.length_replicate]
  have e1 : (2 : ℝ) ^ binary64.emin ≤ 1 / 2 ^ 40 := by
    have := (reals wide64).2.2.2
    rw [(un_real binary64).2] at this
    refine this.trans ?_
    have := (reals wide64).2.1
    have e : unR binary64 = 1 / 2 ^ 53 := (un_real binary64).1
    rw [e]
    norm_num
  have e2 : (2 : ℝ) ^ binary64.prec = 2 ^ 53 := rfl
  rw [e2]
  have := mul_le_mul_of_nonneg_left nv (by positivity : (0 : ℝ) ≤ ((999 : Nat) + 1) * (10 * (1 / 2 ^ 40) + 356 / 2 ^ 53))
  norm_num at this e1 ⊢
  linarith

end Xo.Norm
