import Verif.Props.C150_Poly

/-!
C150: how far the variance and the standard deviation of any number of values are from the exact ones.
-/
namespace Xo.LongSum
open Num (Fl Fmt binary32 binary64)
open Ieee Norm
open Ieee.Spec (OfType)
open Norm.Spec (FloatOrDouble)
open Spec

namespace Spec

/-- The exact mean and the exact variance. -/
def mean (vs : List Fl) : Rat := total vs / vs.length
def variance (vs : List Fl) : Rat := (vs.map fun v => (val v - mean vs) * (val v - mean vs)).sum / vs.length

/-- The bound of C150_average for the error of the mean. -/
def meanError (f : Fmt) (vs : List Fl) : Rat := 5 / 4 * (vs.length + 1) * roundoff f * (size vs / vs.length) + tiny f

end Spec

theorem div_type {f : Fmt} (w : Wide f) {a : Fl} {n : Nat} (ha : Ieee.Spec.Finite a) (hn : n ≠ 0) : OfType f (div f a (ofNat n)) := by
  obtain ⟨s, m, rfl⟩ := finite_fin ha
  have e : div f (.fin s m) (ofNat n) = ofRat f (s != false) (val (.fin s m) / val (ofNat n)) := by
    have : ((n : Nat) : Rat) ≠ 0 := by exact_mod_cast hn
    simp only [div, ofNat, if_neg this]
  rw [e]
  exact ofRat_ofType w.1 _ _

/-- Squares about another point. -/
theorem squares_about (vs : List Fl) (c : Rat) : (vs.map fun v => (val v - c) * (val v - c)).sum = (vs.map fun v => val v * val v).sum - 2 * c * total vs + vs.length * (c * c) := by
  unfold total
  induction vs with
  | nil => simp
  | cons v vs ih =>
    simp only [List.map_cons, List.sum_cons, ih, List.length_cons]
    push_cast
    ring

theorem squares_mean (vs : List Fl) (h : vs ≠ []) (c : Rat) : (vs.map fun v => (val v - c) * (val v - c)).sum = vs.length * (variance vs + (mean vs - c) * (mean vs - c)) := by
  have n0 : (vs.length : Rat) ≠ 0 := by
    have : vs.length ≠ 0 := by simpa using h
    exact_mod_cast this
  have e : (vs.length : Rat) * variance vs = (vs.map fun v => (val v - mean vs) * (val v - mean vs)).sum := by
    unfold variance
    field_simp
  rw [mul_add, e, squares_about vs c, squares_about vs (mean vs)]
  have hm : total vs = vs.length * mean vs := by
    unfold mean
    field_simp
  rw [hm]
  ring

theorem variance_nonneg (vs : List Fl) : 0 ≤ variance vs := by
  unfold variance
  refine div_nonneg (List.sum_nonneg ?_) (by positivity)
  intro z hz
  obtain ⟨e, _, rfl⟩ := List.mem_map.1 hz
  exact mul_self_nonneg _

theorem squares_eq (f : Fmt) (m : Fl) : ∀ (vs : List Fl) (acc : Fl), squares f m vs acc = vs.foldl (fun r v => add f r (mul f (sub f v m) (sub f v m))) acc
  | [], _ => rfl
  | v :: vs, acc => squares_eq f m vs (add f acc (mul f (sub f v m) (sub f v m)))

theorem variance_arith {u e n V D d A Q : Rat} (u0 : 0 < u) (u1 : u ≤ 1 / 2 ^ 24) (e0 : 0 < e) (n1 : 1 ≤ n) (hn : (n + 5) * u ≤ 1 / 8) (V0 : 0 ≤ V) (hd : |d| ≤ D)
    (hA : |A - n * (V + d * d)| ≤ 5 / 4 * (n + 4) * u * (n * (V + d * d)) + 5 / 4 * n * e) (hQ : |Q - A / n| ≤ u * |A / n| + e) :
    |A / n| ≤ 6 / 5 * (V + D * D) + 5 / 4 * e ∧ |Q - V| ≤ 5 / 4 * (n + 5) * u * V + 6 / 5 * (D * D) + 3 * e := by
  norm_num at u1
  have dd : d * d ≤ D * D := by
    rw [← abs_mul_abs_self d]
    exact mul_le_mul hd hd (abs_nonneg _) ((abs_nonneg _).trans hd)
  have dd0 := mul_self_nonneg d
  have hA' : |A / n - (V + d * d)| ≤ 5 / 4 * (n + 4) * u * (V + d * d) + 5 / 4 * e := by
    have e1 : A / n - (V + d * d) = (A - n * (V + d * d)) / n := by
      field_simp
    rw [e1, abs_div, abs_of_pos (a := n) (by linarith), div_le_iff₀ (by linarith)]
    linarith
  have hnu : (n + 4) * u ≤ 1 / 8 := by linarith
  have k1 : (n + 4) * u * (V + d * d) ≤ 1 / 8 * (V + d * d) := mul_le_mul_of_nonneg_right hnu (by linarith)
  have hb : |A / n| ≤ 6 / 5 * (V + d * d) + 5 / 4 * e := by
    have := abs_add_le (A / n - (V + d * d)) (V + d * d)
    rw [sub_add_cancel, abs_of_nonneg (a := V + d * d) (by linarith)] at this
    linarith
  refine ⟨by linarith, ?_⟩
  have e2 : Q - V = (Q - A / n) + (A / n - (V + d * d)) + d * d := by ring
  rw [e2]
  refine (abs_add_three _ _ _).trans ?_
  rw [abs_of_nonneg (a := d * d) dd0]
  have k2 := mul_le_mul_of_nonneg_left hb u0.le
  have k3 : u * e ≤ 1 / 10 * e := mul_le_mul_of_nonneg_right (by linarith) e0.le
  have k4 : 0 ≤ u * (V + d * d) := mul_nonneg u0.le (by linarith)
  have k5 : (n + 5) * u * (d * d) ≤ 1 / 8 * (d * d) := mul_le_mul_of_nonneg_right hn dd0
  linarith

/-- The computed mean and variance. -/
theorem variance_close {f : Fmt} (hf : FloatOrDouble f) (vs : List Fl) (hv : Numbers f vs) (h0 : vs ≠ []) (hn : ((vs.length : Rat) + 5) * roundoff f ≤ 1 / 8) (hM : 4 * size vs + 1 ≤ 2 ^ f.emax)
    (hV : 4 * (vs.length * (variance vs + meanError f vs * meanError f vs)) + 4 ≤ 2 ^ f.emax) :
    ∃ m, average f vs = .ok m ∧ Ieee.Spec.Finite m ∧ |val m - mean vs| ≤ meanError f vs ∧
      Fine f (div f (squares f m vs (ofNat 0)) (ofNat vs.length)) ∧ 0 ≤ val (div f (squares f m vs (ofNat 0)) (ofNat vs.length)) ∧
      |val (div f (squares f m vs (ofNat 0)) (ofNat vs.length)) - variance vs| ≤ 5 / 4 * (vs.length + 5) * roundoff f * variance vs + 6 / 5 * (meanError f vs * meanError f vs) + 3 * tiny f := by
  have w := wide_of hf
  have u0 := un_pos f
  have e0 := et_pos f
  have e1 : et f ≤ 1 / 10 := (et_le w).trans ((pow_le_pow_left₀ u0.le (un_le w) 5).trans (by norm_num))
  have hn : ((vs.length : Rat) + 5) * un f ≤ 1 / 8 := hn
  have hn1 : (vs.length : Rat) * un f ≤ 1 / 8 := le_trans (mul_le_mul_of_nonneg_right (by linarith) u0.le) hn
  obtain ⟨m, a1, a2, a3⟩ := C150_average hf vs hv h0 hn1 hM
  have a3 : |val m - mean vs| ≤ meanError f vs := a3
  have hl : vs.length ≠ 0 := by simpa using h0
  have n1 : (1 : Rat) ≤ vs.length := by
    have : 1 ≤ vs.length := by omega
    exact_mod_cast this
  have hm : Fine f m := by
    refine ⟨a2, ?_⟩
    have e : average f vs = .ok (div f (accumulate f vs (ofNat 0)) (ofNat vs.length)) := if_neg h0
    rw [e] at a1
    cases a1
    exact div_type w (C150_sum hf vs hv hn1 (by linarith)).1 hl
  have hs := squares_mean vs h0 (val m)
  have d1 : |mean vs - val m| ≤ meanError f vs := by
    rw [abs_sub_comm]
    exact a3
  have d2 : (mean vs - val m) * (mean vs - val m) ≤ meanError f vs * meanError f vs := by
    rw [← abs_mul_abs_self (mean vs - val m)]
    exact mul_le_mul d1 d1 (abs_nonneg _) ((abs_nonneg _).trans d1)
  have V0 := variance_nonneg vs
  have hS : (vs.map fun v => (val v - val m) * (val v - val m)).sum ≤ vs.length * (variance vs + meanError f vs * meanError f vs) := by
    rw [hs]
    exact mul_le_mul_of_nonneg_left (by linarith) (by linarith)
  have hb : ∀ v ∈ vs, _ := fun v h =>
    difference_term w (hv v h) hm (by
      have : (val v - val m) * (val v - val m) ≤ (vs.map fun v => (val v - val m) * (val v - val m)).sum := le_sum (fun v => (val v - val m) * (val v - val m)) vs (fun _ _ => mul_self_nonneg _) h
      linarith)
  have ea : (vs.map fun v => |(val v - val m) * (val v - val m)|).sum = (vs.map fun v => (val v - val m) * (val v - val m)).sum := by
    congr 2
    funext p
    exact abs_mul_self _
  obtain ⟨r1, r2⟩ := even_sum w vs (fun v => mul f (sub f v m) (sub f v m)) (fun v => (val v - val m) * (val v - val m)) (a := 4) (by norm_num) (fun v h => (hb v h).1)
    (le_trans (mul_le_mul_of_nonneg_right (by linarith) u0.le) hn) (by rw [ea]; linarith)
  rw [ea, hs] at r2
  have r3 : 0 ≤ val (squares f m vs (ofNat 0)) := by
    rw [squares_eq, show vs.foldl (fun r v => add f r (mul f (sub f v m) (sub f v m))) (ofNat 0) = (vs.map fun v => mul f (sub f v m) (sub f v m)).foldl (add f) (ofNat 0) by rw [List.foldl_map]]
    refine sum_nonneg _ _ ?_ trivial (by norm_num [val, ofNat])
    intro y hy
    obtain ⟨v, h, rfl⟩ := List.mem_map.1 hy
    exact ⟨(hb v h).1.1.1, (hb v h).2⟩
  rw [← squares_eq] at r1 r2
  have en : val (ofNat vs.length) = vs.length := by simp [val, ofNat]
  have first := variance_arith (Q := val (squares f m vs (ofNat 0)) / vs.length) u0 (un_le w) e0 n1 hn V0 d1 r2 (by
    rw [sub_self, abs_zero]
    positivity)
  have nV : variance vs + meanError f vs * meanError f vs ≤ vs.length * (variance vs + meanError f vs * meanError f vs) :=
    le_mul_of_one_le_left (add_nonneg V0 (mul_self_nonneg _)) n1
  have VD := add_nonneg V0 (mul_self_nonneg (meanError f vs))
  obtain ⟨q1, q2⟩ := div_fine w r1.1 (b := ofNat vs.length) trivial (by rw [en]; linarith) (by
    rw [en]
    linarith [first.1])
  rw [en] at q2
  refine ⟨m, a1, a2, a3, ⟨q1, div_type w r1.1 hl⟩, ?_, (variance_arith u0 (un_le w) e0 n1 hn V0 d1 r2 q2).2⟩
  obtain ⟨s, k, hk⟩ := finite_fin r1.1
  have e : div f (squares f m vs (ofNat 0)) (ofNat vs.length) = ofRat f (s != false) (val (squares f m vs (ofNat 0)) / val (ofNat vs.length)) := by
    have : ((vs.length : Nat) : Rat) ≠ 0 := by linarith
    rw [hk]
    simp only [div, ofNat, if_neg this]
  rw [e, en]
  exact ofRat_nonneg (div_nonneg r3 (by linarith))

/-- Mean and variance of any number of values: the variance has a small relative error, and the square of the error of the mean. -/
theorem C150_variance {f : Fmt} (hf : FloatOrDouble f) (vs : List Fl) (hv : Numbers f vs) (h0 : vs ≠ []) (hn : ((vs.length : Rat) + 5) * roundoff f ≤ 1 / 8) (hM : 4 * size vs + 1 ≤ 2 ^ f.emax)
    (hV : 4 * (vs.length * (variance vs + meanError f vs * meanError f vs)) + 4 ≤ 2 ^ f.emax) :
    ∃ m s, meanVar f vs = .ok (m, s) ∧ Ieee.Spec.Finite m ∧ Ieee.Spec.Finite s ∧ |val m - mean vs| ≤ meanError f vs ∧
      |val s - variance vs| ≤ 5 / 4 * (vs.length + 5) * roundoff f * variance vs + 6 / 5 * (meanError f vs * meanError f vs) + 3 * tiny f := by
  obtain ⟨m, h1, h2, h3, h4, _, h5⟩ := variance_close hf vs hv h0 hn hM hV
  refine ⟨m, _, ?_, h2, h4.1, h3, h5⟩
  unfold meanVar
  rw [h1]
  rfl

/-- Mean and standard deviation of any number of values. -/
theorem C150_deviation {f : Fmt} (hf : FloatOrDouble f) (vs : List Fl) (hv : Numbers f vs) (h0 : vs ≠ []) (hn : ((vs.length : Rat) + 5) * roundoff f ≤ 1 / 8) (hM : 4 * size vs + 1 ≤ 2 ^ f.emax)
    (hV : 4 * (vs.length * (variance vs + meanError f vs * meanError f vs)) + 4 ≤ 2 ^ f.emax) :
    ∃ m s, meanStd f vs = .ok (m, s) ∧ Ieee.Spec.Finite m ∧ Ieee.Spec.Finite s ∧ |val m - mean vs| ≤ meanError f vs ∧
      |(val s : ℝ) - Real.sqrt (variance vs)| ≤ 5 / 4 * (vs.length + 7) * (roundoff f : Rat) * Real.sqrt (variance vs) + 6 / 5 * (meanError f vs : Rat) + 2 * Real.sqrt (tiny f : Rat) := by
  have w := wide_of hf
  obtain ⟨m, h1, h2, h3, h4, h6, h5⟩ := variance_close hf vs hv h0 hn hM hV
  have u0 := un_pos f
  have e0 := et_pos f
  have et0 : 0 < tiny f := e0
  have ur0 : 0 < roundoff f := u0
  have hn' : ((vs.length : Rat) + 5) * roundoff f ≤ 1 / 8 := hn
  obtain ⟨r1, r2⟩ := sqrt_close (α := 5 / 4 * (vs.length + 5) * roundoff f) (β := 6 / 5 * (meanError f vs * meanError f vs) + 3 * tiny f) h4 (variance_nonneg vs) (by positivity) (by linarith)
    (by have := mul_self_nonneg (meanError f vs); linarith) (by linarith) h6
  refine ⟨m, _, ?_, h2, r1, h3, r2.trans ?_⟩
  · unfold meanStd
    rw [h1]
    rfl
  have D0 : (0 : ℝ) ≤ (meanError f vs : Rat) := by
    have := (abs_nonneg _).trans h3
    exact_mod_cast this
  have eu : ((roundoff f : Rat) : ℝ) = 1 / 2 ^ f.prec := by unfold roundoff; push_cast; rfl
  have ee : ((tiny f : Rat) : ℝ) = 2 ^ f.emin := by unfold tiny; push_cast; rfl
  have u1 : (1 : ℝ) / 2 ^ f.prec ≤ 1 / 1000 := by
    have := (Rat.cast_le (K := ℝ)).2 ((un_le w).trans (by norm_num : (1 : Rat) / 2 ^ 24 ≤ 1 / 1000))
    have eu' : ((un f : Rat) : ℝ) = 1 / 2 ^ f.prec := eu
    rw [eu'] at this
    push_cast at this
    exact this
  have t1 : (2 : ℝ) ^ f.emin ≤ 1 / 10000 := by
    have := (Rat.cast_le (K := ℝ)).2 ((et_le w).trans ((pow_le_pow_left₀ u0.le (un_le w) 5).trans (by norm_num : ((1 : Rat) / 2 ^ 24) ^ 5 ≤ 1 / 10000)))
    have ee' : ((et f : Rat) : ℝ) = 2 ^ f.emin := ee
    rw [ee'] at this
    push_cast at this
    exact this
  have t0 : (0 : ℝ) < 2 ^ f.emin := zpow_pos (by norm_num) _
  push_cast
  rw [eu, ee]
  generalize ((meanError f vs : Rat) : ℝ) = D at *
  generalize (2 : ℝ) ^ f.emin = t at *
  have s0 := Real.sqrt_nonneg t
  have st : Real.sqrt t * Real.sqrt t = t := Real.mul_self_sqrt t0.le
  have st1 : Real.sqrt t ≤ 1 / 100 := by
    rw [Real.sqrt_le_left (by norm_num)]
    exact t1.trans (by norm_num)
  have sβ : Real.sqrt (6 / 5 * (D * D) + 3 * t) ≤ 11 / 10 * D + 7 / 4 * Real.sqrt t := by
    rw [Real.sqrt_le_left (by positivity)]
    have : 0 ≤ D * Real.sqrt t := by positivity
    have := mul_self_nonneg D
    nlinarith
  have v0 := Real.sqrt_nonneg ((variance vs : Rat) : ℝ)
  have p0 : (0 : ℝ) < 1 / 2 ^ f.prec := by positivity
  have e3 : (3 : ℝ) / 2 / 2 ^ f.prec = 3 / 2 * (1 / 2 ^ f.prec) := by ring
  rw [e3]
  generalize (1 : ℝ) / 2 ^ f.prec = u at *
  generalize Real.sqrt ((variance vs : Rat) : ℝ) = v at *
  have k1 : (1 + u) * Real.sqrt (6 / 5 * (D * D) + 3 * t) ≤ 1001 / 1000 * (11 / 10 * D + 7 / 4 * Real.sqrt t) := mul_le_mul (by linarith) sβ (Real.sqrt_nonneg _) (by norm_num)
  have k2 : 0 ≤ u * v := by positivity
  have k3 : t ≤ 1 / 100 * Real.sqrt t := by
    calc t = Real.sqrt t * Real.sqrt t := st.symm
      _ ≤ 1 / 100 * Real.sqrt t := mul_le_mul_of_nonneg_right st1 s0
  linarith

/-- No values are refused. -/
theorem C150_no_values (f : Fmt) : meanVar f [] = .err ∧ meanStd f [] = .err ∧ average f [] = .err := ⟨rfl, rfl, rfl⟩

/-- The variance of one, two and four. -/
example : ∃ m s, meanVar binary64 [ofNat 1, ofNat 2, ofNat 4] = .ok (m, s) ∧ |val s - 14 / 9| ≤ 1 / 10 ^ 14 := by
  have hh := huge
  have hs := small
  have ev : ∀ n, val (ofNat n) = n := fun n => by simp [val, ofNat]
  have e1 : size [ofNat 1, ofNat 2, ofNat 4] = 7 := by
    simp only [size, List.map_cons, List.map_nil, List.sum_cons, List.sum_nil, ev]
    norm_num
  have e2 : mean [ofNat 1, ofNat 2, ofNat 4] = 7 / 3 := by
    simp only [mean, total, List.map_cons, List.map_nil, List.sum_cons, List.sum_nil, ev, List.length_cons, List.length_nil]
    norm_num
  have e3 : variance [ofNat 1, ofNat 2, ofNat 4] = 14 / 9 := by
    unfold variance
    rw [e2]
    simp only [List.map_cons, List.map_nil, List.sum_cons, List.sum_nil, ev, List.length_cons, List.length_nil]
    norm_num
  have t0 : 0 ≤ tiny binary64 := (et_pos binary64).le
  have er : roundoff binary64 = 1 / 9007199254740992 := by norm_num [roundoff, binary64]
  have e4 : meanError binary64 [ofNat 1, ofNat 2, ofNat 4] ≤ 1 / 10 ^ 14 := by
    unfold meanError
    rw [e1, er]
    norm_num at hs ⊢
    linarith
  have e5 : 0 ≤ meanError binary64 [ofNat 1, ofNat 2, ofNat 4] := by
    unfold meanError
    rw [e1, er]
    norm_num
    linarith
  have e6 : meanError binary64 [ofNat 1, ofNat 2, ofNat 4] * meanError binary64 [ofNat 1, ofNat 2, ofNat 4] ≤ 1 / 10 ^ 14 * (1 / 10 ^ 14) := mul_le_mul e4 e4 e5 (by norm_num)
  obtain ⟨m, s, h1, _, _, _, h5⟩ := C150_variance (f := binary64) (.inr rfl) [ofNat 1, ofNat 2, ofNat 4] (by
    intro c hc
    fin_cases hc
    · exact ⟨trivial, ⟨1, 0, by decide +kernel⟩⟩
    · exact ⟨trivial, ⟨2, 0, by decide +kernel⟩⟩
    · exact ⟨trivial, ⟨4, 0, by decide +kernel⟩⟩) (by simp) (by rw [er]; norm_num) (by rw [e1]; linarith) (by
      rw [e3]
      simp only [List.length_cons, List.length_nil]
      norm_num at e6 ⊢
      norm_num at hh
      linarith)
  refine ⟨m, s, h1, ?_⟩
  rw [e3] at h5
  refine h5.trans ?_
  simp only [List.length_cons, List.length_nil]
  rw [er]
  norm_num at e6 hs ⊢
  linarith

end Xo.LongSum
