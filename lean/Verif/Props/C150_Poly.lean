import Verif.Props.C150_LongSum

/-!
C150: polynomials and weighted averages of any size.
-/
namespace Xo.LongSum
open Num (Fl Fmt binary32 binary64)
open Ieee Norm
open Ieee.Spec (OfType)
open Norm.Spec (FloatOrDouble)
open Spec

namespace Spec

/-- The weighted sum, the sum of the magnitudes in it, and the sum of the weights: pairs of a value and a weight. -/
def weighted (vs : List (Fl × Fl)) : Rat := (vs.map fun p => val p.2 * val p.1).sum
def weightedSize (vs : List (Fl × Fl)) : Rat := (vs.map fun p => |val p.2 * val p.1|).sum
def weights (vs : List (Fl × Fl)) : Rat := (vs.map fun p => val p.2).sum

end Spec

/-- The terms of the loop. -/
def polyTerms (f : Fmt) (v : Fl) (V N : Rat) : Nat → List Fl → Fl → List Term
  | _, [], _ => []
  | i, c :: cs, F => ⟨mul f F c, val c * val v ^ i, 3 / 2 * N * |val c * V ^ i| * et f + et f⟩ :: polyTerms f v V N (i + 1) cs (mul f F v)

theorem polyLoop_eq (f : Fmt) (v : Fl) (V N : Rat) : ∀ (cs : List Fl) (i : Nat) (S F : Fl), polyLoop f v cs S F = ((polyTerms f v V N i cs F).map fun t => t.y).foldl (add f) S
  | [], _, _, _ => rfl
  | c :: cs, i, S, F => polyLoop_eq f v V N cs (i + 1) (add f S (mul f F c)) (mul f F v)

theorem polyTerms_x (f : Fmt) (v : Fl) (V N : Rat) : ∀ (cs : List Fl) (i : Nat) (F : Fl), ((polyTerms f v V N i cs F).map fun t => t.x).sum = polyFrom (val v) i cs
  | [], _, _ => rfl
  | c :: cs, i, F => by
    simp only [polyTerms, List.map_cons, List.sum_cons, polyFrom, polyTerms_x f v V N cs]

theorem polyTerms_size (f : Fmt) (v : Fl) (V N : Rat) : ∀ (cs : List Fl) (i : Nat) (F : Fl), ((polyTerms f v V N i cs F).map fun t => |t.x|).sum = polySize (val v) i cs
  | [], _, _ => rfl
  | c :: cs, i, F => by
    simp only [polyTerms, List.map_cons, List.sum_cons, polySize, polyTerms_size f v V N cs]

theorem polyTerms_β (f : Fmt) (v : Fl) (V N : Rat) : ∀ (cs : List Fl) (i : Nat) (F : Fl), ((polyTerms f v V N i cs F).map fun t => t.β).sum = 3 / 2 * N * polySize V i cs * et f + cs.length * et f
  | [], _, _ => by simp [polyTerms, polySize]
  | c :: cs, i, F => by
    simp only [polyTerms, List.map_cons, List.sum_cons, polySize, polyTerms_β f v V N cs, List.length_cons]
    push_cast
    ring

theorem polyTerms_length (f : Fmt) (v : Fl) (V N : Rat) : ∀ (cs : List Fl) (i : Nat) (F : Fl), (polyTerms f v V N i cs F).length = cs.length
  | [], _, _ => rfl
  | c :: cs, i, F => by simp only [polyTerms, List.length_cons, polyTerms_length f v V N cs]

/-- The error of the powers. -/
def PowerOk (f : Fmt) (v V : Rat) (i : Nat) (F : Fl) : Prop :=
  Ieee.Spec.Finite F ∧ |val F - v ^ (i + 1)| ≤ 9 / 8 * i * un f * |v ^ (i + 1)| + (1 + 2 * i * un f) * i * V ^ (i + 1) * et f

theorem power_bound {u e i P Q E x : Rat} (u0 : 0 < u) (i0 : 0 ≤ i) (hi : i * u ≤ 1 / 24) (P0 : 0 ≤ P) (e0 : 0 ≤ e) (Q0 : 0 ≤ Q) (hE : E = 9 / 8 * i * u * P + (1 + 2 * i * u) * i * Q * e) (h : x ≤ P + E) :
    x ≤ 9 / 8 * P + 5 / 4 * i * Q * e := by
  have k1 : i * u * P ≤ 1 / 24 * P := mul_le_mul_of_nonneg_right hi P0
  have k2 : (1 + 2 * i * u) * (i * Q * e) ≤ 5 / 4 * (i * Q * e) := mul_le_mul_of_nonneg_right (by linarith) (by positivity)
  rw [hE] at h
  linarith

theorem power_next {f : Fmt} (w : Wide f) {v : Fl} {V : Rat} {i : Nat} {F : Fl} (hv : Ieee.Spec.Finite v) (hV : |val v| ≤ V) (hV1 : 1 ≤ V) (hi : (i + 1 : Rat) * un f ≤ 1 / 24) (h : PowerOk f (val v) V i F)
    (hB : 4 * V ^ (i + 2) + 2 ≤ 2 ^ f.emax) : PowerOk f (val v) V (i + 1) (mul f F v) := by
  obtain ⟨hF, h⟩ := h
  have u0 := un_pos f
  have u1 := un_le w
  have e0 := et_pos f
  have e1 : et f ≤ un f := by
    refine (et_le w).trans ?_
    have : un f ^ 4 ≤ 1 := pow_le_one₀ u0.le (u1.trans (by norm_num))
    have e : un f ^ 5 = un f * un f ^ 4 := by ring
    rw [e]
    nlinarith
  norm_num at u1
  have i0 : (0 : Rat) ≤ i := by positivity
  have iu : (i : Rat) * un f ≤ 1 / 24 := by linarith
  have V0 : 0 ≤ V := by linarith
  generalize hx : val v = x at *
  generalize hp : x ^ (i + 1) = p at *
  generalize hq : V ^ (i + 1) = Q at *
  have Q1 : 1 ≤ Q := hq ▸ one_le_pow₀ hV1
  have pQ : |p| ≤ Q := by
    rw [← hp, ← hq, abs_pow]
    exact pow_le_pow_left₀ (abs_nonneg _) hV _
  have ep : x ^ (i + 1 + 1) = p * x := by rw [pow_succ, hp]
  have eq : V ^ (i + 1 + 1) = Q * V := by rw [pow_succ, hq]
  have eq' : V ^ (i + 2) = Q * V := eq
  rw [eq'] at hB
  generalize hE : 9 / 8 * (i : Rat) * un f * |p| + (1 + 2 * i * un f) * i * Q * et f = E at h
  have E0 : 0 ≤ E := (abs_nonneg _).trans h
  have hFb : |val F| ≤ |p| + E := by
    have := abs_add_le (val F - p) p
    rw [sub_add_cancel] at this
    linarith
  have hFx : |val F * x| ≤ (|p| + E) * |x| := by
    rw [abs_mul]
    exact mul_le_mul_of_nonneg_right hFb (abs_nonneg _)
  have hEQ : E ≤ 1 / 4 * Q := by
    have k1 : (i : Rat) * un f * |p| ≤ 1 / 24 * Q := mul_le_mul iu pQ (abs_nonneg _) (by norm_num)
    have k2 : (i : Rat) * et f ≤ 1 / 24 := le_trans (mul_le_mul_of_nonneg_left e1 i0) iu
    have k3 : (1 + 2 * i * un f) * (i * et f * Q) ≤ 5 / 4 * (1 / 24 * Q) :=
      mul_le_mul (by linarith) (mul_le_mul_of_nonneg_right k2 (by linarith)) (by positivity) (by norm_num)
    rw [← hE]
    linarith
  have hfin : 2 * |val F * val v| + 1 ≤ 2 ^ f.emax := by
    rw [hx]
    have k : (|p| + E) * |x| ≤ (5 / 4 * Q) * V := mul_le_mul (by linarith) hV (abs_nonneg _) (by linarith)
    have : 0 ≤ Q * V := by positivity
    linarith
  obtain ⟨m1, m2⟩ := mul_fine w hF hv hfin
  rw [hx] at m2
  refine ⟨m1.1, ?_⟩
  rw [ep, eq]
  have e : val (mul f F v) - p * x = (val (mul f F v) - val F * x) + (val F - p) * x := by ring
  rw [e]
  refine (abs_add_le _ _).trans ?_
  rw [abs_mul (val F - p)]
  have a1 : |val F - p| * |x| ≤ E * |x| := mul_le_mul_of_nonneg_right h (abs_nonneg _)
  have a2 : un f * |val F * x| ≤ un f * ((|p| + E) * |x|) := mul_le_mul_of_nonneg_left hFx u0.le
  have goal : un f * ((|p| + E) * |x|) + et f + E * |x| ≤ 9 / 8 * (i + 1) * un f * |p * x| + (1 + 2 * (i + 1) * un f) * (i + 1) * (Q * V) * et f := by
    rw [abs_mul, ← hE]
    have P0 := abs_nonneg p
    have X0 := abs_nonneg x
    generalize |p| = P at *
    generalize |x| = X at *
    generalize un f = u at *
    generalize et f = e at *
    generalize (i : Rat) = j at *
    -- relative part
    have r1 : u * (9 / 8 * j * u * P) * X ≤ u * (1 / 8 * P) * X := by
      refine mul_le_mul_of_nonneg_right (mul_le_mul_of_nonneg_left ?_ u0.le) X0
      have := mul_le_mul_of_nonneg_right iu P0
      linarith
    -- absolute part
    have QV : 1 ≤ Q * V := by nlinarith
    have QX : Q * X ≤ Q * V := mul_le_mul_of_nonneg_left hV (by linarith)
    have s1 : (1 + u) * ((1 + 2 * j * u) * j * Q * e) * X ≤ (1 + 2 * (j + 1) * u) * (j * (Q * V) * e) := by
      have k1 : (1 + u) * (1 + 2 * j * u) ≤ 1 + 2 * (j + 1) * u := by nlinarith
      have k2 : j * (Q * X) * e ≤ j * (Q * V) * e := mul_le_mul_of_nonneg_right (mul_le_mul_of_nonneg_left QX i0) e0.le
      have := mul_le_mul k1 k2 (by positivity) (by positivity)
      linarith
    have s2 : e ≤ (1 + 2 * (j + 1) * u) * ((Q * V) * e) := by
      have k3 : 1 ≤ 1 + 2 * (j + 1) * u := by
        have : 0 ≤ (j + 1) * u := by positivity
        linarith
      have k4 : 1 * e ≤ Q * V * e := mul_le_mul_of_nonneg_right QV e0.le
      have := mul_le_mul k3 k4 (by linarith) (by linarith)
      linarith
    linarith
  push_cast
  linarith

theorem term_ok {f : Fmt} (w : Wide f) {v : Rat} {V : Rat} {i n : Nat} {F c : Fl} (hc : Ieee.Spec.Finite c) (hV : |v| ≤ V) (hV1 : 1 ≤ V) (hi : i < n) (hn : (n : Rat) * un f ≤ 1 / 24) (h : PowerOk f v V i F)
    (hB : 4 * |val c * V ^ (i + 1)| + 2 ≤ 2 ^ f.emax) : (⟨mul f F c, val c * v ^ (i + 1), 3 / 2 * n * |val c * V ^ (i + 1)| * et f + et f⟩ : Term).Ok f (9 / 8 * n) := by
  obtain ⟨hF, h⟩ := h
  have u0 := un_pos f
  have u1 := un_le w
  have e0 := et_pos f
  have e1 : et f ≤ un f := by
    refine (et_le w).trans ?_
    have : un f ^ 4 ≤ 1 := pow_le_one₀ u0.le (u1.trans (by norm_num))
    have e : un f ^ 5 = un f * un f ^ 4 := by ring
    rw [e]
    nlinarith
  norm_num at u1
  have i0 : (0 : Rat) ≤ i := by positivity
  have hi' : (i : Rat) + 1 ≤ n := by exact_mod_cast hi
  have iu : (i : Rat) * un f ≤ 1 / 24 := le_trans (mul_le_mul_of_nonneg_right (by linarith) u0.le) hn
  generalize hp : v ^ (i + 1) = p at *
  generalize hq : V ^ (i + 1) = Q at *
  have Q1 : 1 ≤ Q := hq ▸ one_le_pow₀ hV1
  have pQ : |p| ≤ Q := by
    rw [← hp, ← hq, abs_pow]
    exact pow_le_pow_left₀ (abs_nonneg _) hV _
  have aQ : |val c * Q| = |val c| * Q := by rw [abs_mul, abs_of_nonneg (a := Q) (by linarith)]
  generalize hE : 9 / 8 * (i : Rat) * un f * |p| + (1 + 2 * i * un f) * i * Q * et f = E at h
  have E0 : 0 ≤ E := (abs_nonneg _).trans h
  have hFb : |val F| ≤ |p| + E := by
    have := abs_add_le (val F - p) p
    rw [sub_add_cancel] at this
    linarith
  have hFc : |val F * val c| ≤ (|p| + E) * |val c| := by
    rw [abs_mul]
    exact mul_le_mul_of_nonneg_right hFb (abs_nonneg _)
  have hEQ : E ≤ 1 / 4 * Q := by
    have k1 : (i : Rat) * un f * |p| ≤ 1 / 24 * Q := mul_le_mul iu pQ (abs_nonneg _) (by norm_num)
    have k2 : (i : Rat) * et f ≤ 1 / 24 := le_trans (mul_le_mul_of_nonneg_left e1 i0) iu
    have k3 : (1 + 2 * i * un f) * (i * et f * Q) ≤ 5 / 4 * (1 / 24 * Q) :=
      mul_le_mul (by linarith) (mul_le_mul_of_nonneg_right k2 (by linarith)) (by positivity) (by norm_num)
    rw [← hE]
    linarith
  have C0 := abs_nonneg (val c)
  obtain ⟨m1, m2⟩ := mul_fine w hF hc (by
    have k : (|p| + E) * |val c| ≤ (5 / 4 * Q) * |val c| := mul_le_mul_of_nonneg_right (by linarith) C0
    have : 0 ≤ Q * |val c| := by positivity
    rw [aQ] at hB
    linarith)
  refine ⟨m1, ?_, by positivity⟩
  show |val (mul f F c) - val c * p| ≤ 9 / 8 * n * un f * |val c * p| + (3 / 2 * n * |val c * Q| * et f + et f)
  have e : val (mul f F c) - val c * p = (val (mul f F c) - val F * val c) + (val F - p) * val c := by ring
  rw [e]
  refine (abs_add_le _ _).trans ?_
  rw [abs_mul (val F - p), aQ, abs_mul (val c)]
  have a1 : |val F - p| * |val c| ≤ E * |val c| := mul_le_mul_of_nonneg_right h C0
  have a2 : un f * |val F * val c| ≤ un f * ((|p| + E) * |val c|) := mul_le_mul_of_nonneg_left hFc u0.le
  have goal : un f * ((|p| + E) * |val c|) + et f + E * |val c| ≤ 9 / 8 * n * un f * (|val c| * |p|) + (3 / 2 * n * (|val c| * Q) * et f + et f) := by
    rw [← hE]
    have P0 := abs_nonneg p
    generalize |p| = P at *
    generalize |val c| = C at *
    generalize un f = u at *
    generalize et f = e at *
    generalize (i : Rat) = j at *
    generalize (n : Rat) = m at *
    have r1 : u * (9 / 8 * j * u * P) * C ≤ u * (1 / 8 * P) * C := by
      refine mul_le_mul_of_nonneg_right (mul_le_mul_of_nonneg_left ?_ u0.le) C0
      have := mul_le_mul_of_nonneg_right iu P0
      linarith
    have r2 : 9 / 8 * (j + 1) * (u * (C * P)) ≤ 9 / 8 * m * (u * (C * P)) := mul_le_mul_of_nonneg_right (by linarith) (by positivity)
    have s1 : (1 + u) * ((1 + 2 * j * u) * j * Q * e) * C ≤ 3 / 2 * (m * (C * Q) * e) := by
      have k1 : (1 + u) * (1 + 2 * j * u) ≤ 3 / 2 := by nlinarith
      have k2 : j * (C * Q) * e ≤ m * (C * Q) * e := mul_le_mul_of_nonneg_right (mul_le_mul_of_nonneg_right (by linarith) (by positivity)) e0.le
      have := mul_le_mul k1 k2 (by positivity) (by norm_num)
      linarith
    linarith
  linarith

theorem polySize_nonneg (v : Rat) : ∀ (cs : List Fl) (i : Nat), 0 ≤ polySize v i cs
  | [], _ => le_refl _
  | c :: cs, i => add_nonneg (abs_nonneg _) (polySize_nonneg v cs (i + 1))

theorem polySize_mono {v V : Rat} (h : |v| ≤ V) : ∀ (cs : List Fl) (i : Nat), polySize v i cs ≤ polySize V i cs
  | [], _ => le_refl _
  | c :: cs, i => by
    refine add_le_add ?_ (polySize_mono h cs (i + 1))
    rw [abs_mul, abs_mul, abs_pow, abs_pow]
    exact mul_le_mul_of_nonneg_left (pow_le_pow_left₀ (abs_nonneg _) (h.trans (le_abs_self V)) _) (abs_nonneg _)

theorem polyTerms_ok {f : Fmt} (w : Wide f) {v : Fl} {V : Rat} {n : Nat} (hv : Ieee.Spec.Finite v) (hV : |val v| ≤ V) (hV1 : 1 ≤ V) (hn : (n : Rat) * un f ≤ 1 / 24) (hB : 4 * V ^ n + 2 ≤ 2 ^ f.emax) :
    ∀ (cs : List Fl) (i : Nat) (F : Fl), i + cs.length = n → (∀ c ∈ cs, Ieee.Spec.Finite c) → (cs ≠ [] → PowerOk f (val v) V i F) → 4 * polySize V (i + 1) cs + 2 ≤ 2 ^ f.emax →
      ∀ t ∈ polyTerms f v V n (i + 1) cs F, t.Ok f (9 / 8 * n)
  | [], _, _, _, _, _, _ => by intro t ht; cases ht
  | c :: cs, i, F, hl, hc, hF, hM => by
    rw [List.length_cons] at hl
    simp only [polySize] at hM
    have p0 := polySize_nonneg V cs (i + 1 + 1)
    have a0 := abs_nonneg (val c * V ^ (i + 1))
    have hF := hF (by simp)
    intro t ht
    rcases List.mem_cons.1 ht with rfl | ht
    · exact term_ok w (hc c (by simp)) hV hV1 (by omega) hn hF (by linarith)
    · refine polyTerms_ok w hv hV hV1 hn hB cs (i + 1) (mul f F v) (by omega) (fun c h => hc c (by simp [h])) (fun hne => ?_) (by linarith) t ht
      have lp : 0 < cs.length := List.length_pos_iff.2 hne
      have hi : (i + 1 : Rat) * un f ≤ 1 / 24 := by
        refine le_trans (mul_le_mul_of_nonneg_right ?_ (un_pos f).le) hn
        have : i + 1 ≤ n := by omega
        exact_mod_cast this
      refine power_next w hv hV hV1 hi hF ?_
      have := pow_le_pow_right₀ hV1 (show i + 2 ≤ n by omega)
      linarith

/-- A polynomial of any degree `n`: three roundings of the sum of the magnitudes of the terms for each power, and `2 n` of the smallest numbers times the terms for arguments below one. -/
theorem C150_polynomial {f : Fmt} (hf : FloatOrDouble f) (c0 : Fl) (cs : List Fl) (v : Fl) (h0 : Ieee.Spec.Finite c0 ∧ OfType f c0) (hc : Numbers f cs) (hv : Ieee.Spec.Finite v)
    (hn : (cs.length : Rat) * roundoff f ≤ 1 / 24) (hB : 4 * max 1 |val v| ^ cs.length + 2 ≤ 2 ^ f.emax) (hM : 5 * polySize (max 1 |val v|) 0 (c0 :: cs) + 4 ≤ 2 ^ f.emax) :
    Ieee.Spec.Finite (poly f c0 cs v) ∧
      |val (poly f c0 cs v) - polyFrom (val v) 0 (c0 :: cs)| ≤
        3 * cs.length * roundoff f * polySize (val v) 0 (c0 :: cs) + 2 * cs.length * tiny f * (polySize (max 1 |val v|) 0 (c0 :: cs) + 1) := by
  have w := wide_of hf
  have u0 := un_pos f
  have u1 := un_le w
  have e0 := et_pos f
  have e1 : et f ≤ un f := by
    refine (et_le w).trans ?_
    have : un f ^ 4 ≤ 1 := pow_le_one₀ u0.le (u1.trans (by norm_num))
    have e : un f ^ 5 = un f * un f ^ 4 := by ring
    rw [e]
    nlinarith
  have hn : (cs.length : Rat) * un f ≤ 1 / 24 := hn
  have hV1 : 1 ≤ max 1 |val v| := le_max_left _ _
  have hV : |val v| ≤ max 1 |val v| := le_max_right _ _
  generalize hVe : max 1 |val v| = V at *
  have hp := polySize_mono hV cs 1
  have hp0 := polySize_nonneg (val v) cs 1
  have ez : polySize V 0 (c0 :: cs) = |val c0| + polySize V 1 cs := by simp [polySize]
  have ez' : polySize (val v) 0 (c0 :: cs) = |val c0| + polySize (val v) 1 cs := by simp [polySize]
  have ef : polyFrom (val v) 0 (c0 :: cs) = val c0 + polyFrom (val v) 1 cs := by simp [polyFrom]
  rw [ez] at hM
  rw [ez, ez', ef]
  have c00 := abs_nonneg (val c0)
  have hok := polyTerms_ok w hv hV hV1 hn hB cs 0 v (by omega) (fun c h => (hc c h).1) (fun _ => ⟨hv, by simp⟩) (by linarith)
  have hβ : 3 / 2 * (cs.length : Rat) * polySize V 1 cs * et f + cs.length * et f ≤ 1 / 4 * polySize V 1 cs + 1 / 4 := by
    have k2 : (cs.length : Rat) * et f ≤ 1 / 24 := le_trans (mul_le_mul_of_nonneg_left e1 (by positivity)) hn
    have := mul_le_mul_of_nonneg_right k2 (hp0.trans hp)
    linarith
  have := sum_close w (a := 9 / 8 * cs.length) (by positivity) (polyTerms f v V cs.length 1 cs v) 0 c0 (val c0) |val c0| 0 hok (by
      rw [polyTerms_length]
      push_cast
      have : 0 ≤ (cs.length : Rat) * un f := by positivity
      linarith) h0 (by
      rw [sub_self, abs_zero]
      positivity) (le_refl _) (le_refl _) (by
      rw [polyTerms_size, polyTerms_β]
      linarith)
  rw [polyTerms_size, polyTerms_β, polyTerms_x, polyTerms_length, ← polyLoop_eq] at this
  refine ⟨this.1.1, this.2.trans ?_⟩
  show _ ≤ 3 * (cs.length : Rat) * un f * _ + 2 * cs.length * et f * _
  push_cast
  have l0 : (0 : Rat) ≤ cs.length := by positivity
  generalize (cs.length : Rat) = n at *
  generalize polySize V 1 cs = P at *
  generalize polySize (val v) 1 cs = p at *
  generalize |val c0| = c at *
  generalize un f = u at *
  generalize et f = e at *
  have k1 : 0 ≤ n * u * (c + p) := by positivity
  have k2 : (1 + 2 * (0 + n) * u) * (0 + (3 / 2 * n * P * e + n * e)) ≤ (13 / 12) * (3 / 2 * n * P * e + n * e) := by
    rw [zero_add, zero_add]
    refine mul_le_mul_of_nonneg_right (by linarith) ?_
    have : 0 ≤ P := hp0.trans hp
    positivity
  have k3 : 0 ≤ n * e * P := by
    have : 0 ≤ P := hp0.trans hp
    positivity
  have k4 : 0 ≤ n * e := by positivity
  have k5 : 0 ≤ n * e * c := by positivity
  linarith

/-- Adding the pairs makes two sums. -/
theorem addWeighted_eq (f : Fmt) : ∀ (vs : List (Fl × Fl)) (a : Avg),
    addWeighted f a vs = ⟨vs.foldl (fun r p => add f r (mul f p.2 p.1)) a.totV, vs.foldl (fun r p => add f r p.2) a.totW⟩
  | [], _ => rfl
  | p :: vs, a => addWeighted_eq f vs (a.add f p.1 p.2)

theorem quotient_arith {u e n A W N D s q Q : Rat} (u0 : 0 < u) (u1 : u ≤ 1 / 2 ^ 24) (e0 : 0 < e) (n0 : 0 ≤ n) (hn : (n + 1) * u ≤ 1 / 8) (W0 : 0 < W) (hs : |s| ≤ A) (hN : |N - s| ≤ 5 / 4 * (n + 1) * u * A + 5 / 4 * n * e)
    (hD : |D - W| ≤ 5 / 4 * n * u * W) (hq : q = N / D) (hQ : |Q - q| ≤ u * |q| + e) :
    3 / 4 * W ≤ D ∧ |q| ≤ 2 * ((A + n * e) / W) ∧ |Q - s / W| ≤ 3 * (n + 1) * u * (A / W) + 2 * n * e / W + e := by
  norm_num at u1
  have A0 : 0 ≤ A := (abs_nonneg _).trans hs
  have nu : n * u ≤ 1 / 8 := by nlinarith
  have nu0 : 0 ≤ n * u := by positivity
  have hDW : 27 / 32 * W ≤ D := by
    have := (abs_le.1 hD).1
    have k : n * u * W ≤ 1 / 8 * W := mul_le_mul_of_nonneg_right nu W0.le
    linarith
  have D0 : 0 < D := by linarith
  have hd : |q - s / W| ≤ 3 / 2 * (2 * n + 1) * u * (A / W) + 3 / 2 * n * e / W := by
    have e1 : q - s / W = ((N - s) * W - s * (D - W)) / (D * W) := by
      rw [hq]
      field_simp
      ring
    rw [e1, abs_div, abs_of_pos (a := D * W) (by positivity), div_le_iff₀ (by positivity)]
    have k1 : |(N - s) * W - s * (D - W)| ≤ (5 / 4 * (n + 1) * u * A + 5 / 4 * n * e) * W + A * (5 / 4 * n * u * W) := by
      refine (abs_sub _ _).trans ?_
      rw [abs_mul, abs_mul, abs_of_pos (a := W) W0]
      exact add_le_add (mul_le_mul_of_nonneg_right hN W0.le) (mul_le_mul hs hD (abs_nonneg _) A0)
    refine k1.trans ?_
    have e2 : (3 / 2 * (2 * n + 1) * u * (A / W) + 3 / 2 * n * e / W) * (D * W) = (3 / 2 * (2 * n + 1) * u * A + 3 / 2 * n * e) * D := by field_simp
    rw [e2]
    have k2 := mul_le_mul_of_nonneg_left hDW (show 0 ≤ 3 / 2 * (2 * n + 1) * u * A + 3 / 2 * n * e by positivity)
    have p1 : 0 ≤ n * u * A * W := by positivity
    have p2 : 0 ≤ u * A * W := by positivity
    have p3 : 0 ≤ n * e * W := by positivity
    linarith
  have hsW : |s / W| ≤ A / W := by
    rw [abs_div, abs_of_pos (a := W) W0]
    exact div_le_div_of_nonneg_right hs W0.le
  have AW : 0 ≤ A / W := by positivity
  have eW : 0 ≤ n * e / W := by positivity
  have r1 : (2 * n + 1) * u ≤ 1 / 4 := by linarith
  have r2 : (2 * n + 1) * u * (A / W) ≤ 1 / 4 * (A / W) := mul_le_mul_of_nonneg_right r1 AW
  have hqb : |q| ≤ (A / W) + (3 / 8 * (A / W) + 3 / 2 * n * e / W) := by
    have := abs_add_le (q - s / W) (s / W)
    rw [sub_add_cancel] at this
    linarith
  have e3 : (3 : Rat) / 2 * n * e / W = 3 / 2 * (n * e / W) := by ring
  have e4 : 2 * n * e / W = 2 * (n * e / W) := by ring
  rw [e3] at hqb hd
  refine ⟨by linarith, ?_, ?_⟩
  · rw [add_div]
    linarith
  · have e5 : Q - s / W = (Q - q) + (q - s / W) := by ring
    rw [e5, e4]
    refine (abs_add_le _ _).trans ?_
    have k := mul_le_mul_of_nonneg_left hqb u0.le
    have p1 : 0 ≤ u * (A / W) := by positivity
    have p2 : u * (n * e / W) ≤ 1 / 10 * (n * e / W) := mul_le_mul_of_nonneg_right (by linarith) eW
    linarith

/-- The average of values with weights that are not negative. -/
theorem C150_weighted {f : Fmt} (hf : FloatOrDouble f) (vs : List (Fl × Fl)) (hv : ∀ p ∈ vs, Ieee.Spec.Finite p.1 ∧ Ieee.Spec.Finite p.2 ∧ OfType f p.2 ∧ 0 ≤ val p.2) (hW : 0 < weights vs)
    (hn : ((vs.length : Rat) + 1) * roundoff f ≤ 1 / 8) (hM : 4 * weightedSize vs + 2 ≤ 2 ^ f.emax) (hM' : 4 * weights vs + 2 ≤ 2 ^ f.emax) (hQ : 4 * ((weightedSize vs + vs.length * tiny f) / weights vs) + 1 ≤ 2 ^ f.emax) :
    Ieee.Spec.Finite ((addWeighted f Avg.make vs).get f) ∧
      |val ((addWeighted f Avg.make vs).get f) - weighted vs / weights vs| ≤
        3 * (vs.length + 1) * roundoff f * (weightedSize vs / weights vs) + 2 * vs.length * tiny f / weights vs + tiny f := by
  have w := wide_of hf
  have u0 := un_pos f
  have u1 := un_le w
  have e0 := et_pos f
  have em : (vs.map fun p => (p.2, p.1)).length = vs.length := List.length_map _
  obtain ⟨n1, n2⟩ := products hf (vs.map fun p => (p.2, p.1)) (by
    intro p hp
    obtain ⟨q, h, rfl⟩ := List.mem_map.1 hp
    exact ⟨(hv q h).2.1, (hv q h).1⟩) (by rw [em]; exact hn) (by
    rw [List.map_map]
    exact hM)
  rw [em, List.map_map, List.map_map, List.foldl_map] at n2
  rw [List.foldl_map] at n1
  have ew : ∀ i, vs.foldl (fun r p => add f r p.2) i = accumulate f (vs.map fun p => p.2) i := fun i => by
    unfold accumulate
    rw [List.foldl_map]
  have e1 : total (vs.map fun p => p.2) = weights vs := by
    unfold total weights
    rw [List.map_map]
    rfl
  have e2 : size (vs.map fun p => p.2) = weights vs := by
    unfold size weights
    rw [List.map_map]
    congr 1
    exact List.map_congr_left fun p hp => abs_of_nonneg (hv p hp).2.2.2
  obtain ⟨w1, w2⟩ := C150_sum hf (vs.map fun p => p.2) (by
    intro v h
    obtain ⟨p, hp, rfl⟩ := List.mem_map.1 h
    exact ⟨(hv p hp).2.1, (hv p hp).2.2.1⟩) (by
      rw [List.length_map]
      have : (vs.length : Rat) * roundoff f ≤ (vs.length + 1) * roundoff f := mul_le_mul_of_nonneg_right (by linarith) u0.le
      linarith) (by rw [e2]; linarith)
  rw [e1, e2, List.length_map] at w2
  have hs : |weighted vs| ≤ weightedSize vs := by
    unfold weighted weightedSize
    clear * -
    induction vs with
    | nil => simp
    | cons v vs ih =>
      simp only [List.map_cons, List.sum_cons]
      exact (abs_add_le _ _).trans (add_le_add (le_refl _) ih)
  rw [addWeighted_eq]
  show Ieee.Spec.Finite (if lt (ofNat 0) (vs.foldl (fun r p => add f r p.2) (ofNat 0)) then _ else _) ∧ |val (if lt (ofNat 0) (vs.foldl (fun r p => add f r p.2) (ofNat 0)) then _ else _) - _| ≤ _
  rw [ew]
  generalize hN : vs.foldl (fun r p => add f r (mul f p.2 p.1)) (ofNat 0) = N at *
  have hN' : vs.foldl (fun r p => add f r (mul f p.2 p.1)) Avg.make.totV = N := hN
  have hD' : vs.foldl (fun r p => add f r p.2) Avg.make.totW = accumulate f (vs.map fun p => p.2) (ofNat 0) := ew _
  simp only [hN', hD']
  generalize accumulate f (vs.map fun p => p.2) (ofNat 0) = D at *
  have n2 : |val N - weighted vs| ≤ 5 / 4 * (vs.length + 1) * un f * weightedSize vs + 5 / 4 * vs.length * et f := n2
  have l0 : (0 : Rat) ≤ vs.length := by positivity
  have first := quotient_arith (q := val N / val D) (Q := val N / val D) u0 u1 e0 l0 hn hW hs n2 w2 rfl (by
    rw [sub_self, abs_zero]
    have := abs_nonneg (val N / val D)
    positivity)
  have D0 : 0 < val D := by linarith [first.1]
  have hlt : lt (ofNat 0) D = true := by
    obtain ⟨t, m, rfl⟩ := finite_fin w1
    have : val (ofNat 0) < val (.fin t m) := by
      have : val (ofNat 0) = 0 := by norm_num [val, ofNat]
      rw [this]
      exact D0
    exact decide_eq_true this
  rw [if_pos hlt]
  obtain ⟨d1, d2⟩ := div_fine w n1.1 w1 D0.ne' (by
    have := first.2.1
    have h : 4 * ((weightedSize vs + vs.length * et f) / weights vs) + 1 ≤ 2 ^ f.emax := hQ
    linarith)
  exact ⟨d1, (quotient_arith (q := val N / val D) u0 u1 e0 l0 hn hW hs n2 w2 rfl d2).2.2⟩

/-! ### Sums that are too long -/

/-- Adding a one to a finite number. -/
theorem add_one {a : Fl} {x y : Rat} (ha : Ieee.Spec.Finite a) (hx : val a = x) (hy : rq binary32 (x + 1) = y) (hb : |y| < 2 ^ binary32.emax) : Ieee.Spec.Finite (add binary32 a (ofNat 1)) ∧ val (add binary32 a (ofNat 1)) = y := by
  obtain ⟨s, m, rfl⟩ := finite_fin ha
  have e1 : val (ofNat 1) = 1 := by norm_num [val, ofNat]
  obtain ⟨t, n, e, e'⟩ := ofRat_finite (f := binary32) (z := s && false) (x := val (.fin s m) + val (ofNat 1)) (by rw [hx, e1, hy]; exact hb)
  have h : add binary32 (.fin s m) (ofNat 1) = ofRat binary32 (s && false) (val (.fin s m) + val (ofNat 1)) := rfl
  rw [h, e, e', hx, e1, hy]
  exact ⟨trivial, rfl⟩

theorem big : (2 : Rat) ^ 24 < 2 ^ binary32.emax := by norm_num [binary32]

/-- Up to 16777216 ones are counted. -/
theorem ones_few : ∀ k : Nat, k ≤ 2 ^ 24 → Ieee.Spec.Finite (accumulate binary32 (List.replicate k (ofNat 1)) (ofNat 0)) ∧ val (accumulate binary32 (List.replicate k (ofNat 1)) (ofNat 0)) = k
  | 0, _ => ⟨trivial, by norm_num [val, ofNat, accumulate]⟩
  | k + 1, hk => by
    obtain ⟨h1, h2⟩ := ones_few k (by omega)
    have e : accumulate binary32 (List.replicate (k + 1) (ofNat 1)) (ofNat 0) = add binary32 (accumulate binary32 (List.replicate k (ofNat 1)) (ofNat 0)) (ofNat 1) := by
      unfold accumulate
      rw [List.replicate_succ', List.foldl_append]
      rfl
    rw [e]
    have hr : rq binary32 ((k : Rat) + 1) = ((k + 1 : Nat) : Rat) := by
      push_cast
      rcases Nat.lt_or_ge (k + 1) (2 ^ 24) with h | h
      · have := rq_mul (f := binary32) (m := ((k + 1 : Nat) : Int)) (e := 0) (by
          rw [abs_of_nonneg (by positivity)]
          exact_mod_cast h) (by decide)
        simpa using this
      · have hk : k + 1 = 2 ^ 24 := by omega
        have hk : (k : Rat) + 1 = 2 ^ 24 := by exact_mod_cast hk
        rw [hk]
        have := rq_mul (f := binary32) (m := 1) (e := 24) (by decide) (by decide)
        norm_num at this ⊢
        exact this
    refine add_one h1 h2 hr ?_
    rw [abs_of_nonneg (by positivity)]
    refine lt_of_le_of_lt ?_ big
    exact_mod_cast hk

theorem ones_more {N : Nat} (hN : N = 2 ^ 24) (n : Nat) :
    Ieee.Spec.Finite (accumulate binary32 (List.replicate (N + n) (ofNat 1)) (ofNat 0)) ∧ val (accumulate binary32 (List.replicate (N + n) (ofNat 1)) (ofNat 0)) = 2 ^ 24 := by
  induction n with
  | zero =>
    obtain ⟨h1, h2⟩ := ones_few N hN.le
    rw [Nat.add_zero]
    refine ⟨h1, h2.trans ?_⟩
    rw [hN]
    norm_num
  | succ n ih =>
    have e : accumulate binary32 (List.replicate (N + (n + 1)) (ofNat 1)) (ofNat 0) = add binary32 (accumulate binary32 (List.replicate (N + n) (ofNat 1)) (ofNat 0)) (ofNat 1) := by
      unfold accumulate
      rw [← Nat.add_assoc, List.replicate_succ', List.foldl_append]
      rfl
    rw [e]
    refine add_one ih.1 ih.2 ?_ (by rw [abs_of_nonneg (by positivity)]; exact big)
    rw [rq_pos (by norm_num)]
    decide +kernel

/-- With `float`, a sum of more than 16777216 ones stays at 16777216 however many are added: the bound on the number of values is needed, and the mean of so many ones is not one. -/
theorem C150_long_sum_violated (n : Nat) :
    Ieee.Spec.Finite (accumulate binary32 (List.replicate (2 ^ 24 + n) (ofNat 1)) (ofNat 0)) ∧
      val (accumulate binary32 (List.replicate (2 ^ 24 + n) (ofNat 1)) (ofNat 0)) = 2 ^ 24 :=
  ones_more rfl n

/-! ### Concrete cases -/

theorem huge : (10 : Rat) ^ 9 ≤ 2 ^ binary64.emax := by
  have : (2 : Rat) ^ (30 : Int) ≤ 2 ^ binary64.emax := zpow_le_zpow_right₀ (by norm_num) (by decide)
  exact le_trans (by norm_num) this

theorem small : tiny binary64 ≤ 1 / 10 ^ 20 := by
  have : tiny binary64 ≤ 2 ^ (-100 : Int) := zpow_le_zpow_right₀ (by norm_num) (by decide)
  exact le_trans this (by norm_num)

/-- A million values of one tenth with `double`. -/
def tenth : Fl := ofRat binary64 false (1 / 10)
def tenths : List Fl := List.replicate 1000000 tenth

theorem tenth_ok : Ieee.Spec.Finite tenth ∧ OfType binary64 tenth ∧ 0 < val tenth ∧ val tenth < 1 := by
  refine ⟨?_, ofRat_ofType wide64.1 _ _, by unfold tenth; decide +kernel, by unfold tenth; decide +kernel⟩
  have : (match tenth with | .fin _ _ => true | _ => false) = true := by unfold tenth; decide +kernel
  generalize tenth = t at this ⊢
  cases t with
  | nan => cases this
  | inf => cases this
  | fin => trivial

theorem tenths_ok : Numbers binary64 tenths ∧ size tenths = 1000000 * val tenth ∧ total tenths = 1000000 * val tenth := by
  obtain ⟨h1, h2, h3, h4⟩ := tenth_ok
  refine ⟨fun v hv => (List.eq_of_mem_replicate hv) ▸ ⟨h1, h2⟩, ?_, ?_⟩
  · unfold size tenths
    rw [List.map_replicate, List.sum_replicate, abs_of_pos h3, nsmul_eq_mul]
    norm_num
  · unfold total tenths
    rw [List.map_replicate, List.sum_replicate, nsmul_eq_mul]
    norm_num

/-- The sum is a hundred thousand to nine digits. -/
example : |val (accumulate binary64 tenths (ofNat 0)) - 1000000 * val tenth| ≤ 1 / 1000 := by
  obtain ⟨h1, h2, h3⟩ := tenths_ok
  obtain ⟨t1, t2, t3, t4⟩ := tenth_ok
  have hl : (tenths.length : Rat) = 1000000 := by unfold tenths; rw [List.length_replicate]; norm_num
  have := (C150_sum (.inr rfl) tenths h1 (by rw [hl]; norm_num [roundoff, binary64]) (by
    rw [h2]
    have := huge
    norm_num at this
    linarith)).2
  rw [h2, h3, hl] at this
  refine this.trans ?_
  norm_num [roundoff, binary64]
  linarith

/-- A vector of a million tenths is about a hundred long. -/
example : |(val (length binary64 tenths) : ℝ) - Real.sqrt (sumSquares tenths)| ≤ 1 / 1000000 := by
  obtain ⟨h1, _, _⟩ := tenths_ok
  obtain ⟨t1, t2, t3, t4⟩ := tenth_ok
  have hl : tenths.length = 1000000 := by unfold tenths; rw [List.length_replicate]
  have hs : sumSquares tenths = 1000000 * (val tenth * val tenth) := by
    unfold sumSquares tenths
    rw [List.map_replicate, List.sum_replicate, nsmul_eq_mul]
    norm_num
  have hq : val tenth * val tenth ≤ 1 := mul_le_one₀ t4.le t3.le t4.le
  have := (C150_length (.inr rfl) tenths h1 (by rw [hl]; norm_num [roundoff, binary64]) (by
    have := huge
    norm_num at this
    rw [hs]
    linarith)).2
  refine this.trans ?_
  have k1 : Real.sqrt (sumSquares tenths) ≤ 1000 := by
    rw [Real.sqrt_le_left (by norm_num), hs]
    have : ((1000000 * (val tenth * val tenth) : Rat) : ℝ) ≤ ((1000000 : Rat) : ℝ) := Rat.cast_le.2 (by linarith)
    refine this.trans (by norm_num)
  have ht : ((tiny binary64 : Rat) : ℝ) ≤ 1 / 10 ^ 20 := by
    have := (Rat.cast_le (K := ℝ)).2 small
    push_cast at this
    exact this
  have ht0 : (0 : ℝ) ≤ ((tiny binary64 : Rat) : ℝ) := by
    have := (et_pos binary64).le
    exact_mod_cast this
  rw [hl]
  have k2 : Real.sqrt (((1000000 : Nat) : ℝ) * (tiny binary64 : Rat)) ≤ 1 / 10 ^ 7 := by
    rw [Real.sqrt_le_left (by norm_num)]
    push_cast
    linarith
  have eu : ((roundoff binary64 : Rat) : ℝ) = 1 / 2 ^ 53 := by unfold roundoff; push_cast; rfl
  rw [eu]
  push_cast at k2 ⊢
  have k3 := mul_le_mul_of_nonneg_left k1 (by norm_num : (0 : ℝ) ≤ 5 / 4 * (1000000 + 3) * (1 / 2 ^ 53))
  refine (add_le_add (add_le_add k3 (mul_le_mul_of_nonneg_left k2 (by norm_num))) ht).trans (by norm_num)

/-- 2 - 3 x + x^3 at one half. -/
example : |val (poly binary64 (ofNat 2) [neg (ofNat 3), ofNat 0, ofNat 1] (.fin false (1 / 2))) - 5 / 8| ≤ 1 / 10 ^ 14 := by
  have hh := huge
  have h := (C150_polynomial (f := binary64) (.inr rfl) (ofNat 2) [neg (ofNat 3), ofNat 0, ofNat 1] (.fin false (1 / 2)) ⟨trivial, ⟨2, 0, by decide +kernel⟩⟩ (by
    intro c hc
    fin_cases hc
    · exact ⟨trivial, ⟨3, 0, by decide +kernel⟩⟩
    · exact ⟨trivial, ⟨0, 0, by decide +kernel⟩⟩
    · exact ⟨trivial, ⟨1, 0, by decide +kernel⟩⟩) trivial (by norm_num [roundoff, binary64]) (le_trans (by norm_num [val]) hh) (le_trans (by norm_num [val, polySize, neg, ofNat]) hh)).2
  have e1 : polyFrom (val (.fin false (1 / 2))) 0 [ofNat 2, neg (ofNat 3), ofNat 0, ofNat 1] = 5 / 8 := by norm_num [val, polyFrom, neg, ofNat]
  have e2 : polySize (val (.fin false (1 / 2))) 0 [ofNat 2, neg (ofNat 3), ofNat 0, ofNat 1] ≤ 4 := by norm_num [val, polySize, neg, ofNat]
  have e3 : polySize (max 1 |val (.fin false (1 / 2))|) 0 [ofNat 2, neg (ofNat 3), ofNat 0, ofNat 1] ≤ 6 := by norm_num [val, polySize, neg, ofNat]
  rw [e1] at h
  refine h.trans ?_
  have hs := small
  have hs0 : 0 < tiny binary64 := et_pos binary64
  have er : roundoff binary64 = 1 / 2 ^ 53 := rfl
  rw [er]
  simp only [List.length_cons, List.length_nil]
  have k1 := mul_le_mul_of_nonneg_left e2 (by norm_num : (0 : Rat) ≤ 3 * ((0 + 1 + 1 + 1 : Nat) : Rat) * (1 / 2 ^ 53))
  have k2 : 2 * ((0 + 1 + 1 + 1 : Nat) : Rat) * tiny binary64 * (polySize (max 1 |val (.fin false (1 / 2))|) 0 [ofNat 2, neg (ofNat 3), ofNat 0, ofNat 1] + 1) ≤ 2 * 3 * (1 / 10 ^ 20) * 7 := by
    have a : 2 * ((0 + 1 + 1 + 1 : Nat) : Rat) * tiny binary64 ≤ 2 * 3 * (1 / 10 ^ 20) := by
      push_cast
      linarith
    have := polySize_nonneg (max 1 |val (.fin false (1 / 2))|) [ofNat 2, neg (ofNat 3), ofNat 0, ofNat 1] 0
    exact mul_le_mul a (by linarith) (by linarith) (by norm_num)
  refine (add_le_add k1 k2).trans (by norm_num)

/-- Three values with weights. -/
example : |val ((addWeighted binary64 Avg.make [(ofNat 1, ofNat 3), (ofNat 2, ofNat 0), (ofNat 5, ofNat 1)]).get binary64) - 2| ≤ 1 / 10 ^ 14 := by
  have hh := huge
  have hs := small
  have hs0 : 0 < tiny binary64 := et_pos binary64
  have w1 : weights [(ofNat 1, ofNat 3), (ofNat 2, ofNat 0), (ofNat 5, ofNat 1)] = 4 := by norm_num [weights, val, ofNat]
  have w2 : weighted [(ofNat 1, ofNat 3), (ofNat 2, ofNat 0), (ofNat 5, ofNat 1)] = 8 := by norm_num [weighted, val, ofNat]
  have w3 : weightedSize [(ofNat 1, ofNat 3), (ofNat 2, ofNat 0), (ofNat 5, ofNat 1)] = 8 := by norm_num [weightedSize, val, ofNat]
  have h := (C150_weighted (f := binary64) (.inr rfl) [(ofNat 1, ofNat 3), (ofNat 2, ofNat 0), (ofNat 5, ofNat 1)] (by
    intro c hc
    fin_cases hc
    · exact ⟨trivial, trivial, ⟨3, 0, by decide +kernel⟩, by norm_num [val, ofNat]⟩
    · exact ⟨trivial, trivial, ⟨0, 0, by decide +kernel⟩, by norm_num [val, ofNat]⟩
    · exact ⟨trivial, trivial, ⟨1, 0, by decide +kernel⟩, by norm_num [val, ofNat]⟩) (by rw [w1]; norm_num) (by norm_num [roundoff, binary64]) (by rw [w3]; exact le_trans (by norm_num) hh)
      (by rw [w1]; exact le_trans (by norm_num) hh) (by
        rw [w1, w3]
        refine le_trans ?_ hh
        simp only [List.length_cons, List.length_nil]
        push_cast
        linarith)).2
  rw [w1, w2, w3] at h
  have er : roundoff binary64 = 1 / 2 ^ 53 := rfl
  rw [er] at h
  simp only [List.length_cons, List.length_nil] at h
  push_cast at h
  have e : (8 : Rat) / 4 = 2 := by norm_num
  rw [e] at h
  refine h.trans ?_
  linarith

end Xo.LongSum
