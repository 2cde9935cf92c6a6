import Verif.Lemmas.Norm

/-!
C144: lengths and unit vectors, with rounding.
-/
namespace Xo.Norm
open Num (Fl Fmt binary32 binary64)
open Ieee
open Ieee.Spec (num OfType)

namespace Spec

/-- The formats `float` and `double`. -/
def FloatOrDouble (f : Fmt) : Prop := f = binary32 ∨ f = binary64

/-- A number that is finite and whose square is far from overflow: at most `2^62` for `float`, `2^510` for `double`. -/
def Moderate (f : Fmt) (a : Fl) : Prop := Ieee.Spec.Finite a ∧ |val a| ≤ 2 ^ (f.emax / 2 - 2)

/-- The exact squared length. -/
def sq3 (v : Vec) : Rat := val v.x ^ 2 + val v.y ^ 2 + val v.z ^ 2
def sq4 (q : Quat) : Rat := val q.w ^ 2 + val q.x ^ 2 + val q.y ^ 2 + val q.z ^ 2

/-- Half the distance from 1 to the next number. -/
def unit (f : Fmt) : Rat := 1 / 2 ^ f.prec

end Spec
open Spec

theorem wide {f : Fmt} (h : FloatOrDouble f) : Wide f := by rcases h with rfl | rfl; exacts [wide32, wide64]

theorem moderate_small {f : Fmt} (hf : Wide f) {a : Fl} (h : Moderate f a) : Small f a := by
  obtain ⟨h1, h2⟩ := h
  cases a with
  | nan => exact h1.elim
  | inf => exact h1.elim
  | fin s m =>
    refine ⟨s, m, rfl, ?_⟩
    obtain ⟨h, eh, _⟩ := hf.half
    rw [← abs_mul_abs_self]
    refine (mul_self_le_mul_self (abs_nonneg _) h2).trans (le_of_eq ?_)
    rw [eh, Int.mul_ediv_cancel_left _ (by norm_num), two_mul, zpow_add₀ (by norm_num), zpow_sub₀ (by norm_num)]
    norm_num
    ring

/-- One component of a unit vector. -/
theorem comp {f : Fmt} (hf : Wide f) {a : Fl} {s m : Rat} (ha : Small f a) (hm : 0 < m) (hs : val a * val a ≤ s) (hP : |m * m * s - 1| ≤ 83 / 10 * un f) :
    ∃ sg y, mul f a (.fin false m) = .fin sg y ∧ |val (.fin sg y) - val a * m| ≤ un f * |val a * m| + et f ∧ |val a * m| ≤ 11 / 10 ∧ Small f (.fin sg y) := by
  obtain ⟨t, x, rfl, _⟩ := ha
  have h1 := un_le hf
  have h2 := et_le hf
  have h3 := one_le hf
  have h4 := un_pos f
  have h5 : et f ≤ 1 / 100 := h2.trans ((pow_le_pow_left₀ h4.le h1 5).trans (by norm_num))
  have hv : val (.fin false m) = m := rfl
  have hz : |val (.fin t x) * m| ≤ 11 / 10 := by
    apply nonneg_le_nonneg_of_sq_le_sq (by norm_num)
    rw [abs_mul_abs_self]
    have := (abs_le.1 hP).2
    have k : m * m * (val (.fin t x) * val (.fin t x)) ≤ m * m * s := mul_le_mul_of_nonneg_left hs (mul_self_nonneg m)
    norm_num at h1
    nlinarith
  have hr := rq_un f (val (.fin t x) * m)
  have hy : |rq f (val (.fin t x) * m)| ≤ 2 := by
    have := abs_sub_abs_le_abs_sub (rq f (val (.fin t x) * m)) (val (.fin t x) * m)
    norm_num at h1
    nlinarith [abs_nonneg (val (.fin t x) * m)]
  have hb : |rq f (val (.fin t x) * m)| < 2 ^ f.emax := lt_of_le_of_lt hy (lt_of_lt_of_le (by norm_num) h3)
  obtain ⟨sg, y, e, v⟩ := ofRat_finite (z := t != false) hb
  refine ⟨sg, y, e, by rw [v]; exact hr, hz, sg, y, rfl, ?_⟩
  rw [v, ← abs_mul_abs_self]
  norm_num at h3
  nlinarith [abs_nonneg (rq f (val (.fin t x) * m))]

theorem dir_arith {u m y z p x : ℝ} (hu : 0 < u) (hu1 : u ≤ 1 / 2 ^ 24) (hp : 0 < p) (hm : 0 < m) (hz : z = x * m) (hx : |x| ≤ p) (hP : |m * m * (p * p) - 1| ≤ 83 / 10 * u)
    (hy : |y - z| ≤ u * |z| + u ^ 5) : |y - x / p| ≤ 8 * u := by
  have hmp : |m * p - 1| ≤ 42 / 10 * u := by
    obtain ⟨a, b⟩ := abs_le.1 hP
    have h0 : 0 < m * p := mul_pos hm hp
    norm_num at hu1
    rw [abs_le]
    constructor
    · by_contra hc
      have hc : m * p < 1 - 42 / 10 * u := by linarith
      have := mul_self_lt_mul_self h0.le hc
      nlinarith
    · by_contra hc
      have hc : 1 + 42 / 10 * u < m * p := by linarith
      have := mul_self_lt_mul_self (by positivity) hc
      nlinarith
  have e1 : z - x / p = x / p * (m * p - 1) := by rw [hz]; field_simp
  have hxp : |x / p| ≤ 1 := by rw [abs_div, abs_of_pos hp]; exact (div_le_one hp).2 hx
  have h1 : |z - x / p| ≤ 42 / 10 * u := by
    rw [e1, abs_mul]
    calc _ ≤ 1 * (42 / 10 * u) := mul_le_mul hxp hmp (abs_nonneg _) (by norm_num)
      _ = _ := one_mul _
  have hz1 : |z| ≤ 2 := by
    have := abs_sub_abs_le_abs_sub z (x / p)
    norm_num at hu1
    linarith
  have h5 : u ^ 5 ≤ u := by
    have : u ^ 5 = u * u ^ 4 := by ring
    rw [this]
    have h4 : u ^ 4 ≤ 1 := pow_le_one₀ hu.le (hu1.trans (by norm_num))
    nlinarith
  have h6 : |y - x / p| ≤ |y - z| + |z - x / p| := abs_sub_le _ _ _
  nlinarith

theorem one_arith {u t T P : Rat} (hu : 0 < u) (hu1 : u ≤ 1 / 2 ^ 24) (hP : |P - 1| ≤ 83 / 10 * u) (ht : |t - P| ≤ 21 / 10 * u * P + 4 * (u * u))
    (hT : |T - t| ≤ 41 / 10 * u * t) : |t - 1| ≤ 105 / 10 * u ∧ |T - 1| ≤ 148 / 10 * u := by
  obtain ⟨a, b⟩ := abs_le.1 hP
  obtain ⟨c, d⟩ := abs_le.1 ht
  obtain ⟨g, h⟩ := abs_le.1 hT
  norm_num at hu1
  have u2 : u * u ≤ u / 16777216 := by nlinarith
  have k : u * P ≤ u * (1 + 1 / 1000) := mul_le_mul_of_nonneg_left (by linarith) hu.le
  have k2 : u * t ≤ u * (1 + 1 / 1000) := mul_le_mul_of_nonneg_left (by linarith) hu.le
  refine ⟨abs_le.2 ⟨by linarith, by linarith⟩, abs_le.2 ⟨by linarith, by linarith⟩⟩

theorem t_big {u t : Rat} (hu : 0 < u) (hu1 : u ≤ 1 / 2 ^ 24) (ht : |t - 1| ≤ 105 / 10 * u) : u * u / 2 ≤ t := by
  have := (abs_le.1 ht).1
  norm_num at hu1
  nlinarith

theorem abs_fin (s : Bool) (m : Rat) : ∃ t k, Ieee.abs (.fin s m) = .fin t k ∧ val (.fin t k) = |val (.fin s m)| := by
  unfold Ieee.abs
  have h0 : val (ofNat 0) = 0 := by simp [ofNat, val]
  have e : lt (.fin s m) (ofNat 0) = decide (val (.fin s m) < val (ofNat 0)) := rfl
  rw [e, h0]
  by_cases h : val (.fin s m) < 0
  · rw [if_pos (decide_eq_true h)]
    exact ⟨!s, m, rfl, by rw [abs_of_neg h]; exact num_neg (a := .fin s m) s m⟩
  · rw [if_neg (by simpa using h)]
    exact ⟨s, m, rfl, (abs_of_nonneg (not_lt.1 h)).symm⟩

theorem le_fin {s t : Bool} {x y : Rat} (h : val (.fin s x) ≤ val (.fin t y)) : le (.fin s x) (.fin t y) = true := by
  unfold le
  rcases h.lt_or_eq with h | h
  · simp [lt, h]
  · simp [eq, h]

/-- What `equal` says about a number near 1. -/
theorem equal_one {f : Fmt} (hf : Wide f) {T : Rat} (hT : |T - 1| ≤ 148 / 10 * un f) : equal f (.fin false T) (ofNat 1) (ampleEpsilon f) = true ∧
    le (abs (sub f (.fin false T) (ofNat 1))) (ampleEpsilon f) = true := by
  have h1 := un_le hf
  have h2 := et_le hf
  have h3 := one_le hf
  have h4 := un_pos f
  have h5 : et f ≤ un f / 100 := h2.trans (by
    have : un f ^ 5 = un f * un f ^ 4 := by ring
    rw [this]
    have h4' : un f ^ 4 ≤ 1 / 100 := (pow_le_pow_left₀ h4.le h1 4).trans (by norm_num)
    nlinarith)
  obtain ⟨t1, t2⟩ := abs_le.1 hT
  have hT0 : 0 ≤ T := by norm_num at h1; linarith
  have hv1 : val (.fin false T) + val (neg (ofNat 1)) = T - 1 := by simp [ofNat, neg, val, sub_eq_add_neg]
  have hr := rq_un f (T - 1)
  have hd : |rq f (T - 1)| ≤ 149 / 10 * un f := by
    have k := abs_sub_abs_le_abs_sub (rq f (T - 1)) (T - 1)
    have k2 : un f * |T - 1| ≤ un f * (1 / 100) := mul_le_mul_of_nonneg_left (by norm_num at h1; linarith) h4.le
    linarith
  have hb : |rq f (T - 1)| < 2 ^ f.emax := lt_of_le_of_lt hd (by norm_num at h1 h3; linarith)
  obtain ⟨sg, y, e, v⟩ := ofRat_finite (z := false && !false) hb
  have es : sub f (.fin false T) (ofNat 1) = .fin sg y := by
    show ofRat f (false && !false) (val (.fin false T) + val (neg (ofNat 1))) = _
    rw [hv1, e]
  obtain ⟨sg', y', e', v'⟩ := abs_fin sg y
  have ea : 8 * (2 : Rat) ^ (1 - (f.prec : Int)) = 16 * un f := by
    unfold un; rw [zpow_sub₀ (by norm_num), zpow_one, zpow_natCast]; ring
  have hv' : val (.fin sg' y') ≤ 149 / 10 * un f := by rw [v', v]; exact hd
  constructor
  · unfold equal
    rw [es, e']
    have eT : Ieee.abs (.fin false T) = .fin false T := by
      unfold Ieee.abs
      have e : lt (.fin false T) (ofNat 0) = decide (T < ((0 : Nat) : Rat)) := rfl
      rw [e, decide_eq_false (by push_cast; exact not_lt.2 hT0)]
      rfl
    rw [eT]
    have hq := rq_un f (T * (16 * un f))
    rw [abs_of_nonneg (by positivity : 0 ≤ T * (16 * un f))] at hq
    obtain ⟨q1, q2⟩ := abs_le.1 hq
    norm_num at h1
    have hTu : T * un f ≤ (1 + 1 / 1000) * un f := mul_le_mul_of_nonneg_right (by linarith) h4.le
    have hTl : (1 - 1 / 1000) * un f ≤ T * un f := mul_le_mul_of_nonneg_right (by linarith) h4.le
    have hTu2 : un f * (T * (16 * un f)) ≤ un f * (1 / 100) := mul_le_mul_of_nonneg_left (by linarith) h4.le
    have hb2 : rq f (T * (16 * un f)) < 2 ^ f.emax := by norm_num at h3; linarith
    have em : mul f (.fin false T) (ampleEpsilon f) = .fin false (rq f (T * (16 * un f))) := by
      show ofRat f (false != false) (T * (8 * 2 ^ (1 - (f.prec : Int)))) = _
      rw [ea, bne_self_eq_false, ofRat_pos (by positivity) hb2]
    rw [em]
    apply le_fin
    refine hv'.trans ?_
    show _ ≤ rq f (T * (16 * un f))
    linarith
  · rw [es, e']
    apply le_fin
    refine hv'.trans ?_
    show _ ≤ 8 * (2 : Rat) ^ (1 - (f.prec : Int))
    rw [ea]
    linarith

/-- What the properties say about one component before and after. -/
def Close (f : Fmt) (p : ℝ) (a b : Fl) : Prop := Ieee.Spec.Finite b ∧ |(val b : ℝ) - val a / p| ≤ 8 * (Spec.unit f : ℝ)

theorem close {f : Fmt} (hf : Wide f) {a : Fl} {s m : Rat} {sg : Bool} {y : Rat} (hm : 0 < m) (hs0 : 0 < s) (hs : val a * val a ≤ s) (hP : |m * m * s - 1| ≤ 83 / 10 * un f)
    (h : |val (.fin sg y) - val a * m| ≤ un f * |val a * m| + et f) : Close f (Real.sqrt s) a (.fin sg y) := by
  refine ⟨trivial, ?_⟩
  have u0 : (0 : ℝ) < un f := by exact_mod_cast un_pos f
  have u1 : (un f : ℝ) ≤ 1 / 2 ^ 24 := by have := (Rat.cast_le (K := ℝ)).2 (un_le hf); push_cast at this; exact this
  have hsR : (0 : ℝ) < s := by exact_mod_cast hs0
  have pp : Real.sqrt s * Real.sqrt s = s := Real.mul_self_sqrt hsR.le
  refine dir_arith (u := (un f : ℝ)) (m := m) (z := val a * m) u0 u1 (Real.sqrt_pos.2 hsR) (by exact_mod_cast hm) rfl ?_ ?_ ?_
  · apply Real.abs_le_sqrt
    rw [sq]; exact_mod_cast hs
  · rw [pp]
    have := (Rat.cast_le (K := ℝ)).2 hP; push_cast at this; exact this
  · have h := h.trans (add_le_add_right (et_le hf) _)
    have := (Rat.cast_le (K := ℝ)).2 h; push_cast at this; exact this

/-! ## The properties -/

/-- **C144, length.** The length of a vector with moderate components is exact up to a relative error of four units, if it is above epsilon. -/
theorem C144_length {f : Fmt} (hf : FloatOrDouble f) (v : Vec) (hx : Moderate f v.x) (hy : Moderate f v.y) (hz : Moderate f v.z)
    (hl : lt (epsilon f) (v.length f) = true) :
    Ieee.Spec.Finite (v.length f) ∧ |(val (v.length f) : ℝ) - Real.sqrt (sq3 v)| ≤ 4 * Spec.unit f * Real.sqrt (sq3 v) := by
  have w := wide hf
  have A := acc_step w (by norm_num) (by norm_num) (acc_step w (by norm_num) (by norm_num) (acc_one w (moderate_small w hx)) (moderate_small w hy)) (moderate_small w hz)
  obtain ⟨l, m, h1, _, _, _, _, _, h7⟩ := length_facts w (by norm_num) A hl
  have e : sq3 v = val v.x * val v.x + val v.y * val v.y + val v.z * val v.z := by unfold sq3; ring
  rw [e]
  unfold Vec.length
  rw [h1]
  exact ⟨trivial, h7⟩

/-- **C144, unit vectors.** If the length is above epsilon, `normalize` gives a vector of the same direction, whose length is 1 up to rounding, and which `is_normalized`
accepts; it returns the length that the vector had. -/
theorem C144_unit_partial {f : Fmt} (hf : FloatOrDouble f) (v : Vec) (hx : Moderate f v.x) (hy : Moderate f v.y) (hz : Moderate f v.z)
    (hl : lt (epsilon f) (v.length f) = true) :
    Close f (Real.sqrt (sq3 v)) v.x (v.normalize f).1.x ∧ Close f (Real.sqrt (sq3 v)) v.y (v.normalize f).1.y ∧ Close f (Real.sqrt (sq3 v)) v.z (v.normalize f).1.z ∧
    |sq3 (v.normalize f).1 - 1| ≤ 11 * Spec.unit f ∧ (v.normalize f).1.isNormalized f = true ∧ (v.normalize f).2 = v.length f := by
  have w := wide hf
  have sx := moderate_small w hx
  have sy := moderate_small w hy
  have sz := moderate_small w hz
  have A := acc_step w (by norm_num) (by norm_num) (acc_step w (by norm_num) (by norm_num) (acc_one w sx) sy) sz
  obtain ⟨l, m, h1, _, h3, h4, h5, h6, _⟩ := length_facts w (by norm_num) A hl
  have e : sq3 v = val v.x * val v.x + val v.y * val v.y + val v.z * val v.z := by unfold sq3; ring
  rw [← e] at h5 h6
  have x0 := mul_self_nonneg (val v.x)
  have y0 := mul_self_nonneg (val v.y)
  have z0 := mul_self_nonneg (val v.z)
  have u0 := un_pos f
  have u1 := un_le w
  have s0 : 0 < sq3 v := lt_of_lt_of_le (by positivity) h5
  obtain ⟨gx, px, ex, cx, _, mx⟩ := comp w sx h4 (by linarith : val v.x * val v.x ≤ sq3 v) h6
  obtain ⟨gy, py, ey, cy, _, my⟩ := comp w sy h4 (by linarith : val v.y * val v.y ≤ sq3 v) h6
  obtain ⟨gz, pz, ez, cz, _, mz⟩ := comp w sz h4 (by linarith : val v.z * val v.z ≤ sq3 v) h6
  have en : (v.normalize f).1 = ⟨.fin gx px, .fin gy py, .fin gz pz⟩ := by
    unfold Vec.normalize
    dsimp only
    rw [if_pos hl]
    unfold Vec.divBy Vec.length
    dsimp only
    rw [h3, ex, ey, ez]
  have e0 := (et_pos f).le
  have qx := square_arith u0 u1 e0 (et_le w) cx
  have qy := square_arith u0 u1 e0 (et_le w) cy
  have qz := square_arith u0 u1 e0 (et_le w) cz
  have eP : m * m * sq3 v = (val v.x * m) * (val v.x * m) + (val v.y * m) * (val v.y * m) + (val v.z * m) * (val v.z * m) := by rw [e]; ring
  have A2 := acc_step w (by norm_num) (by norm_num) (acc_step w (by norm_num) (by norm_num) (acc_one w mx) my) mz
  generalize ht : val (.fin gx px) * val (.fin gx px) + val (.fin gy py) * val (.fin gy py) + val (.fin gz pz) * val (.fin gz pz) = t at A2
  have tP : |t - m * m * sq3 v| ≤ 21 / 10 * un f * (m * m * sq3 v) + 4 * (un f * un f) := by
    rw [eP, ← ht]
    obtain ⟨a1, a2⟩ := abs_le.1 qx
    obtain ⟨b1, b2⟩ := abs_le.1 qy
    obtain ⟨c1, c2⟩ := abs_le.1 qz
    have := mul_pos u0 u0
    rw [abs_le]; constructor <;> linarith
  have t1 := (one_arith (T := t) u0 u1 h6 tP (by
    rw [sub_self, abs_zero]
    have : 0 ≤ t := by rw [← ht]; nlinarith [mul_self_nonneg (val (.fin gx px)), mul_self_nonneg (val (.fin gy py)), mul_self_nonneg (val (.fin gz pz))]
    positivity)).1
  obtain ⟨T, eT, _, hT⟩ := acc_rel w (by norm_num) A2 (t_big u0 u1 t1)
  rw [en]
  refine ⟨close w h4 s0 (by linarith) h6 cx, close w h4 s0 (by linarith) h6 cy, close w h4 s0 (by linarith) h6 cz, ?_, ?_, rfl⟩
  · have : sq3 ⟨.fin gx px, .fin gy py, .fin gz pz⟩ = t := by rw [← ht]; unfold sq3; ring
    rw [this]
    exact t1.trans (mul_le_mul_of_nonneg_right (by norm_num) u0.le)
  · unfold Vec.isNormalized
    dsimp only
    rw [eT]
    exact (equal_one w (one_arith u0 u1 h6 tP hT).2).1

/-- **C144, quaternions.** The same for quaternions with moderate components whose length is above epsilon. -/
theorem C144_quat_partial {f : Fmt} (hf : FloatOrDouble f) (q : Quat) (hw : Moderate f q.w) (hx : Moderate f q.x) (hy : Moderate f q.y) (hz : Moderate f q.z)
    (hl : lt (epsilon f) (q.length f) = true) :
    Close f (Real.sqrt (sq4 q)) q.w (q.normalize f).1.w ∧ Close f (Real.sqrt (sq4 q)) q.x (q.normalize f).1.x ∧ Close f (Real.sqrt (sq4 q)) q.y (q.normalize f).1.y ∧
    Close f (Real.sqrt (sq4 q)) q.z (q.normalize f).1.z ∧ |sq4 (q.normalize f).1 - 1| ≤ 11 * Spec.unit f ∧ (q.normalize f).1.isNormalized f = true ∧
    (q.normalize f).2 = q.length f ∧ |(val (q.length f) : ℝ) - Real.sqrt (sq4 q)| ≤ 4 * Spec.unit f * Real.sqrt (sq4 q) := by
  have w := wide hf
  have sw := moderate_small w hw
  have sx := moderate_small w hx
  have sy := moderate_small w hy
  have sz := moderate_small w hz
  have A := acc_step w (by norm_num) (by norm_num) (acc_step w (by norm_num) (by norm_num) (acc_step w (by norm_num) (by norm_num) (acc_one w sw) sx) sy) sz
  obtain ⟨l, m, h1, _, h3, h4, h5, h6, h7⟩ := length_facts w (by norm_num) A hl
  have e : sq4 q = val q.w * val q.w + val q.x * val q.x + val q.y * val q.y + val q.z * val q.z := by unfold sq4; ring
  rw [← e] at h5 h6 h7
  have w0 := mul_self_nonneg (val q.w)
  have x0 := mul_self_nonneg (val q.x)
  have y0 := mul_self_nonneg (val q.y)
  have z0 := mul_self_nonneg (val q.z)
  have u0 := un_pos f
  have u1 := un_le w
  have s0 : 0 < sq4 q := lt_of_lt_of_le (by positivity) h5
  obtain ⟨gw, pw, ew, cw, _, mw⟩ := comp w sw h4 (by linarith : val q.w * val q.w ≤ sq4 q) h6
  obtain ⟨gx, px, ex, cx, _, mx⟩ := comp w sx h4 (by linarith : val q.x * val q.x ≤ sq4 q) h6
  obtain ⟨gy, py, ey, cy, _, my⟩ := comp w sy h4 (by linarith : val q.y * val q.y ≤ sq4 q) h6
  obtain ⟨gz, pz, ez, cz, _, mz⟩ := comp w sz h4 (by linarith : val q.z * val q.z ≤ sq4 q) h6
  have en : (q.normalize f).1 = ⟨.fin gw pw, .fin gx px, .fin gy py, .fin gz pz⟩ := by
    unfold Quat.normalize Quat.mulBy Quat.length
    dsimp only
    rw [h3, ew, ex, ey, ez]
  have e0 := (et_pos f).le
  have qw := square_arith u0 u1 e0 (et_le w) cw
  have qx := square_arith u0 u1 e0 (et_le w) cx
  have qy := square_arith u0 u1 e0 (et_le w) cy
  have qz := square_arith u0 u1 e0 (et_le w) cz
  have eP : m * m * sq4 q = (val q.w * m) * (val q.w * m) + (val q.x * m) * (val q.x * m) + (val q.y * m) * (val q.y * m) + (val q.z * m) * (val q.z * m) := by
    rw [e]; ring
  have A2 := acc_step w (by norm_num) (by norm_num) (acc_step w (by norm_num) (by norm_num) (acc_step w (by norm_num) (by norm_num) (acc_one w mw) mx) my) mz
  generalize ht : val (.fin gw pw) * val (.fin gw pw) + val (.fin gx px) * val (.fin gx px) + val (.fin gy py) * val (.fin gy py) + val (.fin gz pz) * val (.fin gz pz) = t at A2
  have tP : |t - m * m * sq4 q| ≤ 21 / 10 * un f * (m * m * sq4 q) + 4 * (un f * un f) := by
    rw [eP, ← ht]
    obtain ⟨d1, d2⟩ := abs_le.1 qw
    obtain ⟨a1, a2⟩ := abs_le.1 qx
    obtain ⟨b1, b2⟩ := abs_le.1 qy
    obtain ⟨c1, c2⟩ := abs_le.1 qz
    rw [abs_le]; constructor <;> linarith
  have t1 := (one_arith (T := t) u0 u1 h6 tP (by
    rw [sub_self, abs_zero]
    have : 0 ≤ t := by
      rw [← ht]
      have := mul_self_nonneg (val (.fin gw pw))
      have := mul_self_nonneg (val (.fin gx px))
      have := mul_self_nonneg (val (.fin gy py))
      have := mul_self_nonneg (val (.fin gz pz))
      linarith
    positivity)).1
  obtain ⟨T, eT, _, hT⟩ := acc_rel w (by norm_num) A2 (t_big u0 u1 t1)
  rw [en]
  refine ⟨close w h4 s0 (by linarith) h6 cw, close w h4 s0 (by linarith) h6 cx, close w h4 s0 (by linarith) h6 cy, close w h4 s0 (by linarith) h6 cz, ?_, ?_, rfl, ?_⟩
  · have : sq4 ⟨.fin gw pw, .fin gx px, .fin gy py, .fin gz pz⟩ = t := by rw [← ht]; unfold sq4; ring
    rw [this]
    exact t1.trans (mul_le_mul_of_nonneg_right (by norm_num) u0.le)
  · unfold Quat.isNormalized Quat.squaredLength
    dsimp only
    rw [eT]
    exact (equal_one w (one_arith u0 u1 h6 tP hT).2).2
  · unfold Quat.length
    rw [h1]
    exact h7

/-- **C144, short vectors** stay as they are: a length of epsilon or less is returned, and the vector is not changed. -/
theorem C144_short_violated (f : Fmt) (v : Vec) (h : lt (epsilon f) (v.length f) = false) : v.normalize f = (v, v.length f) := by
  unfold Vec.normalize
  dsimp only
  rw [h]; rfl

/-- The square of a large number is infinite. -/
theorem square_inf {f : Fmt} (hf : Wide f) {a : Fl} (ha : Ieee.Spec.Finite a) (h : 2 ^ f.emax ≤ val a * val a) : mul f a a = .inf false := by
  cases a with
  | nan => exact ha.elim
  | inf => exact ha.elim
  | fin s m => exact ofRat_top (rq_big hf.ok h)

/-- A sum or product that cannot be negative. -/
def NonNeg (a : Fl) : Prop := a = .inf false ∨ ∃ m, a = .fin false m ∧ 0 ≤ m

theorem pos_cases (f : Fmt) {x : Rat} (h : 0 ≤ x) : NonNeg (ofRat f false x) := by
  by_cases hb : rq f x < 2 ^ f.emax
  · exact .inr ⟨_, ofRat_pos h hb, rq_nonneg h⟩
  · exact .inl (ofRat_top (not_lt.1 hb))

theorem square_cases (f : Fmt) {a : Fl} (ha : Ieee.Spec.Finite a) : NonNeg (mul f a a) := by
  cases a with
  | nan => exact ha.elim
  | inf => exact ha.elim
  | fin s m =>
    have e : mul f (.fin s m) (.fin s m) = ofRat f false (val (.fin s m) * val (.fin s m)) := by
      show ofRat f (s != s) _ = _
      rw [bne_self_eq_false]
    rw [e]
    exact pos_cases f (mul_self_nonneg _)

theorem add_inf (f : Fmt) {a b : Fl} (ha : NonNeg a) (hb : NonNeg b) (h : a = .inf false ∨ b = .inf false) : add f a b = .inf false := by
  rcases ha with rfl | ⟨m, rfl, _⟩ <;> rcases hb with rfl | ⟨n, rfl, _⟩
  · rfl
  · rfl
  · rfl
  · rcases h with h | h <;> cases h

theorem add_cases (f : Fmt) {a b : Fl} (ha : NonNeg a) (hb : NonNeg b) : NonNeg (add f a b) := by
  rcases ha with rfl | ⟨m, rfl, hm⟩ <;> rcases hb with rfl | ⟨n, rfl, hn⟩
  · exact .inl rfl
  · exact .inl rfl
  · exact .inl rfl
  · exact pos_cases f (add_nonneg hm hn)

theorem mul_zero (f : Fmt) {a : Fl} (ha : Ieee.Spec.Finite a) : ∃ s, mul f a (.fin false 0) = .fin s 0 := by
  cases a with
  | nan => exact ha.elim
  | inf => exact ha.elim
  | fin s m =>
    refine ⟨s != false, ?_⟩
    show ofRat f (s != false) (val (.fin s m) * val (.fin false 0)) = _
    simp [val, ofRat]

/-- **C144 fails** for long vectors: if the square of one component overflows, the length is infinite, and `normalize` gives the zero vector, which `is_normalized`
refuses. -/
theorem C144_long_violated {f : Fmt} (hf : FloatOrDouble f) (v : Vec) (hx : Ieee.Spec.Finite v.x) (hy : Ieee.Spec.Finite v.y) (hz : Ieee.Spec.Finite v.z)
    (h : 2 ^ f.emax ≤ val v.x ^ 2 ∨ 2 ^ f.emax ≤ val v.y ^ 2 ∨ 2 ^ f.emax ≤ val v.z ^ 2) :
    v.length f = .inf false ∧ sq3 (v.normalize f).1 = 0 ∧ (v.normalize f).1.isNormalized f = false := by
  have w := wide hf
  rw [sq, sq, sq] at h
  have cx := square_cases f hx
  have cy := square_cases f hy
  have cz := square_cases f hz
  have e : add f (add f (mul f v.x v.x) (mul f v.y v.y)) (mul f v.z v.z) = .inf false := by
    refine add_inf f (add_cases f cx cy) cz ?_
    rcases h with h | h | h
    · exact .inl (add_inf f cx cy (.inl (square_inf w hx h)))
    · exact .inl (add_inf f cx cy (.inr (square_inf w hy h)))
    · exact .inr (square_inf w hz h)
  have el : v.length f = .inf false := by unfold Vec.length; rw [e]; rfl
  obtain ⟨sx, ex⟩ := mul_zero f hx
  obtain ⟨sy, ey⟩ := mul_zero f hy
  obtain ⟨sz, ez⟩ := mul_zero f hz
  have en : (v.normalize f).1 = ⟨.fin sx 0, .fin sy 0, .fin sz 0⟩ := by
    unfold Vec.normalize
    dsimp only
    rw [el, show lt (epsilon f) (.inf false) = true from rfl, if_pos rfl]
    unfold Vec.divBy
    dsimp only
    rw [show inv f (.inf false) = .fin false 0 from rfl, ex, ey, ez]
  rw [en]
  refine ⟨el, by cases sx <;> cases sy <;> cases sz <;> simp [sq3, val], ?_⟩
  rcases hf with rfl | rfl <;> cases sx <;> cases sy <;> cases sz <;> decide +kernel

/-- **C144 fails** for the zero quaternion: `normalize` gives no numbers. -/
theorem C144_zero_violated (f : Fmt) (a b c d : Bool) :
    let q : Quat := ⟨.fin a 0, .fin b 0, .fin c 0, .fin d 0⟩
    Ieee.Spec.IsNan (q.normalize f).1.w ∧ Ieee.Spec.IsNan (q.normalize f).1.x ∧ Ieee.Spec.IsNan (q.normalize f).1.y ∧ Ieee.Spec.IsNan (q.normalize f).1.z := by
  have z : ∀ s : Bool, mul f (.fin s 0) (.fin s 0) = .fin false 0 := fun s => by
    show ofRat f (s != s) (val (.fin s 0) * val (.fin s 0)) = _
    cases s <;> simp [val, ofRat]
  have p : add f (.fin false 0) (.fin false 0) = .fin false 0 := by
    show ofRat f false (val (.fin false 0) + val (.fin false 0)) = _
    simp [val, ofRat]
  have i : inv f (.fin false 0) = .inf false := by simp [inv, div, ofNat]
  have n : ∀ s : Bool, mul f (.fin s 0) (.inf false) = .nan false := fun s => by simp [mul]
  intro q
  have e : q.length f = .fin false 0 := by
    show sqrt f (add f (add f (add f (mul f (.fin a 0) (.fin a 0)) (mul f (.fin b 0) (.fin b 0))) (mul f (.fin c 0) (.fin c 0))) (mul f (.fin d 0) (.fin d 0))) = _
    rw [z, z, z, z, p, p, p]; simp [sqrt]
  have en : (q.normalize f).1 = ⟨.nan false, .nan false, .nan false, .nan false⟩ := by
    unfold Quat.normalize Quat.mulBy
    dsimp only
    rw [e, i]
    simp only [q, n]
  rw [en]
  exact ⟨trivial, trivial, trivial, trivial⟩

example : (Vec.normalize binary64 ⟨.fin false 3, .fin true 4, .fin false 0⟩).1.isNormalized binary64 = true ∧
    Vec.length binary64 ⟨.fin false 3, .fin true 4, .fin false 0⟩ = .fin false 5 ∧
    lt (epsilon binary64) (Vec.length binary64 ⟨.fin false 3, .fin true 4, .fin false 0⟩) = true := by decide +kernel

example : Moderate binary64 (.fin true 4) ∧ FloatOrDouble binary64 := ⟨⟨trivial, by decide +kernel⟩, .inr rfl⟩

end Xo.Norm
