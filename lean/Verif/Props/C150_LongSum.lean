import Verif.Model.LongSum
import Verif.Lemmas.LongSum
import Verif.Props.C144_Norm

/-!
C150: how far sums, averages, dot products, lengths and polynomials of any size are from the exact values.
-/
namespace Xo.LongSum
open Num (Fl Fmt binary32 binary64)
open Ieee Norm
open Ieee.Spec (OfType)
open Norm.Spec (FloatOrDouble)

namespace Spec

/-- Finite numbers of the type. -/
def Numbers (f : Fmt) (vs : List Fl) : Prop := ∀ v ∈ vs, Ieee.Spec.Finite v ∧ OfType f v

/-- The exact sum. -/
def total (vs : List Fl) : Rat := (vs.map val).sum

/-- The sum of the magnitudes. -/
def size (vs : List Fl) : Rat := (vs.map fun v => |val v|).sum

/-- The exact dot product. -/
def dot (v1 v2 : List Fl) : Rat := ((List.zip v1 v2).map fun p => val p.1 * val p.2).sum

/-- The sum of the magnitudes of the products. -/
def dotSize (v1 v2 : List Fl) : Rat := ((List.zip v1 v2).map fun p => |val p.1 * val p.2|).sum

/-- The exact squared length and the exact squared distance. -/
def sumSquares (v : List Fl) : Rat := (v.map fun e => val e * val e).sum
def squaresBetween (v1 v2 : List Fl) : Rat := ((List.zip v1 v2).map fun p => (val p.1 - val p.2) * (val p.1 - val p.2)).sum

/-- The value of a polynomial with the coefficients `cs`, the first one for the power `i`. -/
def polyFrom (v : Rat) : Nat → List Fl → Rat
  | _, [] => 0
  | i, c :: cs => val c * v ^ i + polyFrom v (i + 1) cs

/-- The sum of the magnitudes of its terms. -/
def polySize (v : Rat) : Nat → List Fl → Rat
  | _, [] => 0
  | i, c :: cs => |val c * v ^ i| + polySize v (i + 1) cs

/-- The rounding error of one operation, and the smallest positive number. -/
def roundoff (f : Fmt) : Rat := 1 / 2 ^ f.prec
def tiny (f : Fmt) : Rat := 2 ^ f.emin

end Spec
open Spec

theorem wide_of {f : Fmt} (hf : FloatOrDouble f) : Wide f := by
  rcases hf with rfl | rfl
  · exact wide32
  · exact wide64

theorem le_sum {α : Type} (g : α → Rat) (l : List α) (hg : ∀ x ∈ l, 0 ≤ g x) {x : α} (hx : x ∈ l) : g x ≤ (l.map g).sum :=
  List.single_le_sum (by
    intro z hz
    obtain ⟨y, hy, rfl⟩ := List.mem_map.1 hz
    exact hg y hy) _ (List.mem_map_of_mem hx)

theorem sum_const {α : Type} (l : List α) (c : Rat) : (l.map fun _ => c).sum = l.length * c := by
  induction l with
  | nil => simp
  | cons x l ih =>
    simp only [List.map_cons, List.sum_cons, ih, List.length_cons]
    push_cast
    ring

theorem fine_zero {f : Fmt} (w : Wide f) : Fine f (ofNat 0) ∧ val (ofNat 0) = 0 := by
  have : val (ofNat 0) = 0 := by norm_num [val, ofNat]
  exact ⟨⟨trivial, ⟨0, f.emin, by positivity, le_refl _, (by have := w.1.range; omega), by simp⟩⟩, this⟩

/-- A sum that starts with zero. -/
theorem sum_zero {f : Fmt} (w : Wide f) {a : Rat} (a0 : 0 ≤ a) (L : List Term) (h : ∀ t ∈ L, t.Ok f a) (hn : ((L.length : Rat) + a) * un f ≤ 1 / 8)
    (hM : 4 * (L.map fun t => |t.x|).sum + 4 * (L.map fun t => t.β).sum < 2 ^ f.emax) :
    Fine f ((L.map fun t => t.y).foldl (add f) (ofNat 0)) ∧
      |val ((L.map fun t => t.y).foldl (add f) (ofNat 0)) - (L.map fun t => t.x).sum| ≤
        5 / 4 * (L.length + a) * un f * (L.map fun t => |t.x|).sum + 5 / 4 * (L.map fun t => t.β).sum := by
  obtain ⟨z1, z2⟩ := fine_zero w
  obtain ⟨h1, h2⟩ := sum_close w a0 L 0 (ofNat 0) 0 0 0 h (by simpa using hn) z1 (by simp [z2]) (by simp) (le_refl _) (by simpa using hM)
  refine ⟨h1, ?_⟩
  simp only [Nat.cast_zero, zero_add] at h2
  refine h2.trans (add_le_add (le_refl _) (mul_le_mul_of_nonneg_right ?_ (List.sum_nonneg ?_)))
  · have : (L.length : Rat) * un f ≤ (L.length + a) * un f := mul_le_mul_of_nonneg_right (by linarith) (un_pos f).le
    linarith
  · intro z hz
    obtain ⟨t, ht, rfl⟩ := List.mem_map.1 hz
    exact (h t ht).2.2

theorem accumulate_eq {f : Fmt} (vs : List Fl) (i : Fl) : accumulate f vs i = ((vs.map fun v => (⟨v, val v, 0⟩ : Term)).map fun t => t.y).foldl (add f) i := by
  rw [List.map_map]
  unfold accumulate
  congr 1
  exact (List.map_id vs).symm

/-- A sum of any number of values, up to an eighth of the precision: no more than one rounding of the sum of the magnitudes for each value. -/
theorem C150_sum {f : Fmt} (hf : FloatOrDouble f) (vs : List Fl) (hv : Numbers f vs) (hn : (vs.length : Rat) * roundoff f ≤ 1 / 8) (hM : 4 * size vs < 2 ^ f.emax) :
    Ieee.Spec.Finite (accumulate f vs (ofNat 0)) ∧ |val (accumulate f vs (ofNat 0)) - total vs| ≤ 5 / 4 * vs.length * roundoff f * size vs := by
  have w := wide_of hf
  obtain ⟨h1, h2⟩ := sum_zero w (le_refl 0) (vs.map fun v => (⟨v, val v, 0⟩ : Term)) (by
    intro t ht
    obtain ⟨v, h, rfl⟩ := List.mem_map.1 ht
    exact ⟨hv v h, by simp, le_refl _⟩) (by rw [List.length_map, add_zero]; exact hn) (by
    have e : (List.map (fun t : Term => t.β) (vs.map fun v => (⟨v, val v, 0⟩ : Term))).sum = 0 := by
      rw [List.map_map, Function.comp_def, sum_const]
      ring
    rw [e]
    simpa [List.map_map, Function.comp_def, size] using hM)
  rw [← accumulate_eq] at h1 h2
  refine ⟨h1.1, ?_⟩
  have e : (List.map (fun t : Term => t.β) (vs.map fun v => (⟨v, val v, 0⟩ : Term))).sum = 0 := by
    rw [List.map_map, Function.comp_def, sum_const]
    ring
  rw [e] at h2
  simp only [List.map_map, Function.comp_def, List.length_map] at h2
  refine h2.trans (le_of_eq ?_)
  unfold size
  show _ = 5 / 4 * (vs.length : Rat) * un f * _
  ring

/-- A quotient with an error in the numerator. -/
theorem div_fine {f : Fmt} (w : Wide f) {a b : Fl} (ha : Ieee.Spec.Finite a) (hb : Ieee.Spec.Finite b) (b0 : val b ≠ 0) (hB : 2 * |val a / val b| + 1 ≤ 2 ^ f.emax) :
    Ieee.Spec.Finite (div f a b) ∧ |val (div f a b) - val a / val b| ≤ un f * |val a / val b| + et f := by
  have h := rq_un f (val a / val b)
  have u0 := un_pos f
  have u1 := un_le w
  have e0 := et_pos f
  have e2 : et f ≤ 1 / 2 := (et_le w).trans ((pow_le_pow_left₀ u0.le u1 5).trans (by norm_num))
  have h2 : |rq f (val a / val b)| < 2 ^ f.emax := by
    have := abs_add_le (rq f (val a / val b) - val a / val b) (val a / val b)
    rw [sub_add_cancel] at this
    have k : un f * |val a / val b| ≤ 1 / 2 * |val a / val b| := mul_le_mul_of_nonneg_right (u1.trans (by norm_num)) (abs_nonneg _)
    linarith [abs_nonneg (val a / val b)]
  obtain ⟨s, m, rfl⟩ := finite_fin ha
  obtain ⟨t, n, rfl⟩ := finite_fin hb
  obtain ⟨h3, h4⟩ := fine_round w (z := s != t) h2
  have n0 : n ≠ 0 := by
    rintro rfl
    apply b0
    cases t <;> norm_num [val]
  have e : div f (.fin s m) (.fin t n) = ofRat f (s != t) (val (.fin s m) / val (.fin t n)) := by
    simp only [div, if_neg n0]
  rw [e]
  exact ⟨h3.1, by rw [h4]; exact h⟩

/-- The average of any number of values. -/
theorem C150_average {f : Fmt} (hf : FloatOrDouble f) (vs : List Fl) (hv : Numbers f vs) (h0 : vs ≠ []) (hn : (vs.length : Rat) * roundoff f ≤ 1 / 8) (hM : 4 * size vs + 1 ≤ 2 ^ f.emax) :
    ∃ m, average f vs = .ok m ∧ Ieee.Spec.Finite m ∧ |val m - total vs / vs.length| ≤ 5 / 4 * (vs.length + 1) * roundoff f * (size vs / vs.length) + tiny f := by
  have w := wide_of hf
  obtain ⟨f1, c1⟩ := C150_sum hf vs hv hn (by linarith)
  have u0 := un_pos f
  have eu : un f = roundoff f := rfl
  have ee : et f = tiny f := rfl
  have n1 : (1 : Rat) ≤ vs.length := by
    have : 1 ≤ vs.length := List.length_pos_iff.2 h0
    exact_mod_cast this
  have hs : |total vs| ≤ size vs := by
    unfold total size
    clear * -
    induction vs with
    | nil => simp
    | cons v vs ih =>
      simp only [List.map_cons, List.sum_cons]
      exact (abs_add_le _ _).trans (add_le_add (le_refl _) ih)
  have s0 : 0 ≤ size vs := (abs_nonneg _).trans hs
  have en : val (ofNat vs.length) = vs.length := by simp [val, ofNat]
  refine ⟨_, if_neg h0, ?_⟩
  have hT : |val (accumulate f vs (ofNat 0))| ≤ 6 / 5 * size vs := by
    have := abs_add_le (val (accumulate f vs (ofNat 0)) - total vs) (total vs)
    rw [sub_add_cancel] at this
    have k : 5 / 4 * (vs.length : Rat) * roundoff f * size vs ≤ 5 / 32 * size vs := mul_le_mul_of_nonneg_right (by linarith) s0
    linarith
  have hD : |val (accumulate f vs (ofNat 0)) / val (ofNat vs.length)| ≤ 6 / 5 * (size vs / vs.length) := by
    rw [en, abs_div, abs_of_pos (a := (vs.length : Rat)) (by linarith), mul_div_assoc']
    exact div_le_div_of_nonneg_right hT (by linarith)
  have hD1 : size vs / vs.length ≤ size vs := div_le_self s0 n1
  obtain ⟨d1, d2⟩ := div_fine w f1 (b := ofNat vs.length) trivial (by rw [en]; linarith) (by linarith)
  refine ⟨d1, ?_⟩
  have e : val (div f (accumulate f vs (ofNat 0)) (ofNat vs.length)) - total vs / vs.length =
      (val (div f (accumulate f vs (ofNat 0)) (ofNat vs.length)) - val (accumulate f vs (ofNat 0)) / val (ofNat vs.length)) + (val (accumulate f vs (ofNat 0)) - total vs) / vs.length := by
    rw [en]
    ring
  rw [e]
  refine (abs_add_le _ _).trans ?_
  have c2 : |(val (accumulate f vs (ofNat 0)) - total vs) / vs.length| ≤ 5 / 4 * vs.length * roundoff f * (size vs / vs.length) := by
    rw [abs_div, abs_of_pos (a := (vs.length : Rat)) (by linarith), mul_div_assoc']
    exact div_le_div_of_nonneg_right c1 (by linarith)
  have c3 := mul_le_mul_of_nonneg_left hD u0.le
  rw [eu] at c3 d2
  rw [ee] at d2
  have q0 : 0 ≤ roundoff f * (size vs / vs.length) := by
    rw [← eu]
    positivity
  linarith

/-- A sum of products, any two finite factors. -/
theorem product_term {f : Fmt} (w : Wide f) {a b : Fl} (ha : Ieee.Spec.Finite a) (hb : Ieee.Spec.Finite b) (hB : 2 * |val a * val b| + 1 ≤ 2 ^ f.emax) :
    (⟨mul f a b, val a * val b, et f⟩ : Term).Ok f 1 := by
  obtain ⟨h1, h2⟩ := mul_fine w ha hb hB
  exact ⟨h1, by rw [one_mul]; exact h2, (et_pos f).le⟩

/-- Sums of terms with the same error. -/
theorem even_sum {f : Fmt} (w : Wide f) {P : Type} (ps : List P) (y : P → Fl) (x : P → Rat) {a : Rat} (a0 : 0 ≤ a) (hok : ∀ p ∈ ps, (⟨y p, x p, et f⟩ : Term).Ok f a)
    (hn : ((ps.length : Rat) + a) * un f ≤ 1 / 8) (hM : 4 * (ps.map fun p => |x p|).sum + 2 ≤ 2 ^ f.emax) :
    Fine f (ps.foldl (fun r p => add f r (y p)) (ofNat 0)) ∧
      |val (ps.foldl (fun r p => add f r (y p)) (ofNat 0)) - (ps.map x).sum| ≤ 5 / 4 * (ps.length + a) * un f * (ps.map fun p => |x p|).sum + 5 / 4 * ps.length * et f := by
  have u0 := un_pos f
  have u1 := un_le w
  have e0 := et_pos f
  have he : et f ≤ un f / 1000 := by
    refine (et_le w).trans ?_
    have : un f ^ 4 ≤ (1 / 10) ^ 4 := pow_le_pow_left₀ u0.le (u1.trans (by norm_num)) 4
    have e : un f ^ 5 = un f * un f ^ 4 := by ring
    rw [e]
    have := mul_le_mul_of_nonneg_left (this.trans (by norm_num : (1 / 10 : Rat) ^ 4 ≤ 1 / 1000)) u0.le
    linarith
  have eb : ((ps.map fun p => (⟨y p, x p, et f⟩ : Term)).map fun t => t.β).sum = ps.length * et f := by
    rw [List.map_map, Function.comp_def, sum_const]
  have hne : (ps.length : Rat) * et f ≤ 1 / 8 := by
    have k := mul_le_mul_of_nonneg_left he (by positivity : (0 : Rat) ≤ ps.length)
    have : 0 ≤ a * un f := by positivity
    nlinarith
  obtain ⟨h1, h2⟩ := sum_zero w a0 (ps.map fun p => (⟨y p, x p, et f⟩ : Term)) (by
    intro t ht
    obtain ⟨p, h, rfl⟩ := List.mem_map.1 ht
    exact hok p h) (by rw [List.length_map]; exact hn) (by
    rw [eb]
    simp only [List.map_map, Function.comp_def]
    linarith)
  rw [eb, List.length_map] at h2
  simp only [List.map_map, Function.comp_def, List.foldl_map] at h1 h2
  refine ⟨h1, h2.trans (le_of_eq ?_)⟩
  ring

/-- Sums of products of pairs. -/
theorem products {f : Fmt} (hf : FloatOrDouble f) (ps : List (Fl × Fl)) (hp : ∀ p ∈ ps, Ieee.Spec.Finite p.1 ∧ Ieee.Spec.Finite p.2) (hn : ((ps.length : Rat) + 1) * roundoff f ≤ 1 / 8)
    (hM : 4 * (ps.map fun p => |val p.1 * val p.2|).sum + 2 ≤ 2 ^ f.emax) :
    Fine f (ps.foldl (fun r p => add f r (mul f p.1 p.2)) (ofNat 0)) ∧
      |val (ps.foldl (fun r p => add f r (mul f p.1 p.2)) (ofNat 0)) - (ps.map fun p => val p.1 * val p.2).sum| ≤
        5 / 4 * (ps.length + 1) * roundoff f * (ps.map fun p => |val p.1 * val p.2|).sum + 5 / 4 * ps.length * tiny f :=
  even_sum (wide_of hf) ps (fun p => mul f p.1 p.2) (fun p => val p.1 * val p.2) (by norm_num) (fun p h => by
    have := le_sum (fun p : Fl × Fl => |val p.1 * val p.2|) ps (fun _ _ => abs_nonneg _) h
    exact product_term (wide_of hf) (hp p h).1 (hp p h).2 (by
      have := abs_nonneg (val p.1 * val p.2)
      linarith)) hn hM

/-- The dot product of two vectors of any number of elements; vectors of different sizes are refused. -/
theorem C150_dot {f : Fmt} (hf : FloatOrDouble f) (v1 v2 : List Fl) (h1 : Numbers f v1) (h2 : Numbers f v2) :
    (v1.length ≠ v2.length → dotProduct f v1 v2 = .err) ∧
    (v1.length = v2.length → ((v1.length : Rat) + 1) * roundoff f ≤ 1 / 8 → 4 * dotSize v1 v2 + 2 ≤ 2 ^ f.emax →
      ∃ d, dotProduct f v1 v2 = .ok d ∧ Ieee.Spec.Finite d ∧ |val d - dot v1 v2| ≤ 5 / 4 * (v1.length + 1) * roundoff f * dotSize v1 v2 + 5 / 4 * v1.length * tiny f) := by
  refine ⟨fun h => if_neg h, fun h hn hM => ⟨_, if_pos h, ?_⟩⟩
  have el : (List.zip v1 v2).length = v1.length := by rw [List.length_zip, ← h, min_self]
  obtain ⟨r1, r2⟩ := products hf (List.zip v1 v2) (fun p hp => ⟨(h1 _ (List.of_mem_zip hp).1).1, (h2 _ (List.of_mem_zip hp).2).1⟩) (by rw [el]; exact hn) hM
  rw [el] at r2
  exact ⟨r1.1, r2⟩

theorem squares_nonneg (v : List Fl) : 0 ≤ sumSquares v := List.sum_nonneg (by
  intro z hz
  obtain ⟨e, _, rfl⟩ := List.mem_map.1 hz
  exact mul_self_nonneg _)

theorem squared_length {f : Fmt} (hf : FloatOrDouble f) (v : List Fl) (hv : Numbers f v) (hn : ((v.length : Rat) + 1) * roundoff f ≤ 1 / 8) (hM : 4 * sumSquares v + 2 ≤ 2 ^ f.emax) :
    Fine f (squaredLength f v) ∧ |val (squaredLength f v) - sumSquares v| ≤ 5 / 4 * (v.length + 1) * roundoff f * sumSquares v + 5 / 4 * v.length * tiny f := by
  have e1 : ((v.map fun e => (e, e)).map fun p : Fl × Fl => |val p.1 * val p.2|).sum = sumSquares v := by
    rw [List.map_map]
    unfold sumSquares
    congr 2
    funext e
    exact abs_mul_self _
  have e2 : ((v.map fun e => (e, e)).map fun p : Fl × Fl => val p.1 * val p.2).sum = sumSquares v := by
    rw [List.map_map]
    rfl
  obtain ⟨r1, r2⟩ := products hf (v.map fun e => (e, e)) (by
    intro p hp
    obtain ⟨e, h, rfl⟩ := List.mem_map.1 hp
    exact ⟨(hv e h).1, (hv e h).1⟩) (by rw [List.length_map]; exact hn) (by rw [e1]; exact hM)
  rw [e1, e2, List.length_map, List.foldl_map] at r2
  rw [List.foldl_map] at r1
  exact ⟨r1, r2⟩

/-- The squared length has a small relative error. -/
theorem C150_squared_length {f : Fmt} (hf : FloatOrDouble f) (v : List Fl) (hv : Numbers f v) (hn : ((v.length : Rat) + 1) * roundoff f ≤ 1 / 8) (hM : 4 * sumSquares v + 2 ≤ 2 ^ f.emax) :
    Ieee.Spec.Finite (squaredLength f v) ∧ |val (squaredLength f v) - sumSquares v| ≤ 5 / 4 * (v.length + 1) * roundoff f * sumSquares v + 5 / 4 * v.length * tiny f :=
  ⟨(squared_length hf v hv hn hM).1.1, (squared_length hf v hv hn hM).2⟩

/-- A root against the exact root, when the number under it has an error. -/
theorem root_arith {α b r s : ℝ} (hα : 0 ≤ α) (hb : 0 ≤ b) (hr : 0 ≤ r) (hs : 0 ≤ s) (h : |r * r - s * s| ≤ α * (s * s) + b * b) : |r - s| ≤ α * s + b := by
  by_contra hc
  have hc : α * s + b < |r - s| := not_le.1 hc
  have e : r * r - s * s = (r - s) * (r + s) := by ring
  rw [e, abs_mul, abs_of_nonneg (a := r + s) (by linarith)] at h
  have d1 : |r - s| ≤ r + s := by
    rw [abs_le]
    constructor <;> linarith
  have pos : 0 < |r - s| := lt_of_le_of_lt (by positivity) hc
  have k1 : (α * s + b) * (r + s) ≤ |r - s| * (r + s) := mul_le_mul_of_nonneg_right hc.le (by linarith)
  have hrs : 0 < r + s := lt_of_lt_of_le pos d1
  have k1' : (α * s + b) * (r + s) < |r - s| * (r + s) := mul_lt_mul_of_pos_right hc hrs
  have k2 : α * s * s ≤ α * s * (r + s) := mul_le_mul_of_nonneg_left (by linarith) (by positivity)
  have k3 : b * b ≤ b * (r + s) := by
    refine mul_le_mul_of_nonneg_left ?_ hb
    have : b ≤ |r - s| := by nlinarith [mul_nonneg hα hs]
    linarith
  nlinarith

/-- The root of a sum with an error. -/
theorem sqrt_close {f : Fmt} {S : Fl} {s α β : Rat} (hS : Fine f S) (hs : 0 ≤ s) (hα : 0 ≤ α) (hα1 : α ≤ 1 / 2) (hβ : 0 ≤ β) (h : |val S - s| ≤ α * s + β) (h0 : 0 ≤ val S) :
    Ieee.Spec.Finite (Norm.sqrt f S) ∧
      |(val (Norm.sqrt f S) : ℝ) - Real.sqrt s| ≤ ((α : ℝ) + 3 / 2 / 2 ^ f.prec) * Real.sqrt s + (1 + 1 / 2 ^ f.prec) * Real.sqrt β + 2 ^ f.emin := by
  obtain ⟨hS, hT⟩ := hS
  obtain ⟨g, m, rfl⟩ := finite_fin hS
  have u0 : (0 : ℝ) < 1 / 2 ^ f.prec := by positivity
  have e0 : (0 : ℝ) < 2 ^ f.emin := zpow_pos (by norm_num) _
  have q1 : Real.sqrt s * Real.sqrt s = s := Real.mul_self_sqrt (by exact_mod_cast hs)
  have q2 : Real.sqrt β * Real.sqrt β = β := Real.mul_self_sqrt (by exact_mod_cast hβ)
  have hv0 : (0 : ℝ) ≤ ((val (.fin g m) : Rat) : ℝ) := by exact_mod_cast h0
  have q3 : Real.sqrt (val (.fin g m) : Rat) * Real.sqrt (val (.fin g m) : Rat) = (val (.fin g m) : Rat) := Real.mul_self_sqrt hv0
  have hα0 : (0 : ℝ) ≤ α := by exact_mod_cast hα
  have hα2 : (α : ℝ) ≤ 1 / 2 := by
    have := (Rat.cast_le (K := ℝ)).2 hα1
    push_cast at this
    exact this
  have hr := root_arith hα0 (Real.sqrt_nonneg β) (Real.sqrt_nonneg (val (.fin g m) : Rat)) (Real.sqrt_nonneg s) (by
    rw [q1, q2, q3]
    have := (Rat.cast_le (K := ℝ)).2 h
    push_cast at this
    exact this)
  have s0 := Real.sqrt_nonneg (s : ℝ)
  have b0 := Real.sqrt_nonneg (β : ℝ)
  have c1 : (α + 3 / 2 / 2 ^ f.prec) * Real.sqrt s = α * Real.sqrt s + 3 / 2 * (1 / 2 ^ f.prec * Real.sqrt s) := by ring
  have c2 : (1 + 1 / 2 ^ f.prec) * Real.sqrt β = Real.sqrt β + 1 / 2 ^ f.prec * Real.sqrt β := by ring
  have k1 : 0 ≤ 1 / 2 ^ f.prec * Real.sqrt s := by positivity
  have k2 : 0 ≤ 1 / 2 ^ f.prec * Real.sqrt β := by positivity
  rw [c1, c2]
  by_cases hm : m = 0
  · subst hm
    have e1 : Norm.sqrt f (.fin g 0) = .fin g 0 := by simp [Norm.sqrt]
    have e2 : val (.fin g 0) = 0 := by cases g <;> norm_num [val]
    rw [e1]
    refine ⟨trivial, ?_⟩
    rw [e2] at hr ⊢
    simp only [Rat.cast_zero, Real.sqrt_zero] at hr ⊢
    linarith
  · have m0 : 0 ≤ m := by
      obtain ⟨k, e, _, _, _, rfl⟩ := hT
      positivity
    have mp : 0 < m := lt_of_le_of_ne m0 (Ne.symm hm)
    have hg : g = false := by
      cases g
      · rfl
      · simp only [val, if_true] at h0
        linarith
    subst hg
    have e1 : Norm.sqrt f (.fin false m) = .fin false (rootVal f m) := by simp [Norm.sqrt, hm]
    have e2 : ∀ x : Rat, val (.fin false x) = x := fun x => by simp [val]
    rw [e1]
    refine ⟨trivial, ?_⟩
    rw [e2] at hr ⊢
    have ha := root_abs f mp
    have e : ((rootVal f m : Rat) : ℝ) - Real.sqrt s = (rootVal f m - Real.sqrt m) + (Real.sqrt m - Real.sqrt s) := by ring
    rw [e]
    refine (abs_add_le _ _).trans ?_
    have hm1 : Real.sqrt m ≤ 3 / 2 * Real.sqrt s + Real.sqrt β := by
      have := (abs_le.1 hr).2
      have k : α * Real.sqrt s ≤ 1 / 2 * Real.sqrt s := mul_le_mul_of_nonneg_right hα2 s0
      linarith
    have hm2 := mul_le_mul_of_nonneg_left hm1 u0.le
    have e3 : Real.sqrt m / 2 ^ f.prec = 1 / 2 ^ f.prec * Real.sqrt m := by ring
    rw [e3] at ha
    nlinarith

theorem ofRat_nonneg {f : Fmt} {z : Bool} {x : Rat} (h : 0 ≤ x) : 0 ≤ val (ofRat f z x) := by
  rcases ofRat_cases (f := f) z x with e | e | ⟨_, s, m, e, e'⟩
  · rw [e.2]; exact le_refl _
  · rw [e.2]; exact le_refl _
  · rw [e, e']; exact rq_nonneg h

theorem square_nonneg {f : Fmt} {a : Fl} (ha : Ieee.Spec.Finite a) : 0 ≤ val (mul f a a) := by
  obtain ⟨s, m, rfl⟩ := finite_fin ha
  exact ofRat_nonneg (mul_self_nonneg _)

/-- The root of a sum of `n` terms. -/
theorem root_sum {f : Fmt} (w : Wide f) {S : Fl} {s : Rat} {n a : Nat} (hS : Fine f S) (hs : 0 ≤ s) (hn : ((n : Rat) + a) * un f ≤ 1 / 8)
    (h : |val S - s| ≤ 5 / 4 * (n + a) * un f * s + 5 / 4 * n * et f) (h0 : 0 ≤ val S) :
    Ieee.Spec.Finite (Norm.sqrt f S) ∧
      |(val (Norm.sqrt f S) : ℝ) - Real.sqrt s| ≤ 5 / 4 * (n + a + 2) * (roundoff f : Rat) * Real.sqrt s + 2 * Real.sqrt (n * (tiny f : Rat)) + (tiny f : Rat) := by
  have u0 := un_pos f
  have e0 := et_pos f
  obtain ⟨r1, r2⟩ := sqrt_close (α := 5 / 4 * (n + a) * un f) (β := 5 / 4 * n * et f) hS hs (by positivity) (by linarith) (by positivity) h h0
  refine ⟨r1, r2.trans ?_⟩
  have eu : ((roundoff f : Rat) : ℝ) = 1 / 2 ^ f.prec := by unfold roundoff; push_cast; rfl
  have eu' : ((un f : Rat) : ℝ) = 1 / 2 ^ f.prec := eu
  have ee : ((tiny f : Rat) : ℝ) = 2 ^ f.emin := by unfold tiny; push_cast; rfl
  have ee' : ((et f : Rat) : ℝ) = 2 ^ f.emin := ee
  have u1 : (1 : ℝ) / 2 ^ f.prec ≤ 1 / 4 := by
    have := (Rat.cast_le (K := ℝ)).2 ((un_le w).trans (by norm_num : (1 : Rat) / 2 ^ 24 ≤ 1 / 4))
    rw [eu'] at this
    push_cast at this
    exact this
  push_cast
  rw [eu, ee, eu', ee']
  have es : Real.sqrt (5 / 4 * (n : ℝ) * 2 ^ f.emin) ≤ 5 / 4 * Real.sqrt (n * 2 ^ f.emin) := by
    rw [mul_assoc, Real.sqrt_mul (by norm_num)]
    refine mul_le_mul_of_nonneg_right ?_ (Real.sqrt_nonneg _)
    rw [Real.sqrt_le_left (by norm_num)]
    norm_num
  have q0 := Real.sqrt_nonneg ((n : ℝ) * 2 ^ f.emin)
  have s0 := Real.sqrt_nonneg (s : ℝ)
  have p0 : (0 : ℝ) < 1 / 2 ^ f.prec := by positivity
  have e3 : (3 : ℝ) / 2 / 2 ^ f.prec = 3 / 2 * (1 / 2 ^ f.prec) := by ring
  rw [e3]
  generalize (1 : ℝ) / 2 ^ f.prec = u at *
  have k1 : (1 + u) * Real.sqrt (5 / 4 * (n : ℝ) * 2 ^ f.emin) ≤ 5 / 4 * (5 / 4 * Real.sqrt (n * 2 ^ f.emin)) :=
    mul_le_mul (by linarith) es (Real.sqrt_nonneg _) (by norm_num)
  have k2 : 0 ≤ u * Real.sqrt s := by positivity
  linarith

/-- The length of a vector of any number of elements. -/
theorem C150_length {f : Fmt} (hf : FloatOrDouble f) (v : List Fl) (hv : Numbers f v) (hn : ((v.length : Rat) + 1) * roundoff f ≤ 1 / 8) (hM : 4 * sumSquares v + 2 ≤ 2 ^ f.emax) :
    Ieee.Spec.Finite (length f v) ∧
      |(val (length f v) : ℝ) - Real.sqrt (sumSquares v)| ≤ 5 / 4 * (v.length + 3) * (roundoff f : Rat) * Real.sqrt (sumSquares v) + 2 * Real.sqrt (v.length * (tiny f : Rat)) + (tiny f : Rat) := by
  obtain ⟨h1, h2⟩ := squared_length hf v hv hn hM
  obtain ⟨r1, r2⟩ := root_sum (wide_of hf) (n := v.length) (a := 1) h1 (squares_nonneg v) (by push_cast; exact hn) (by push_cast; exact h2) (by
    have e : squaredLength f v = (v.map fun e => mul f e e).foldl (add f) (ofNat 0) := by
      rw [List.foldl_map]
      rfl
    rw [e]
    refine sum_nonneg _ _ ?_ trivial (by norm_num [val, ofNat])
    intro y hy
    obtain ⟨e, he, rfl⟩ := List.mem_map.1 hy
    have hb := le_sum (fun e : Fl => val e * val e) v (fun _ _ => mul_self_nonneg _) he
    have hb : val e * val e ≤ sumSquares v := hb
    exact ⟨(mul_fine (wide_of hf) (hv e he).1 (hv e he).1 (by
      rw [abs_mul_self]
      linarith [mul_self_nonneg (val e)])).1.1, square_nonneg (hv e he).1⟩)
  refine ⟨r1, r2.trans (le_of_eq ?_)⟩
  push_cast
  ring

/-- A squared difference. -/
theorem difference_term {f : Fmt} (w : Wide f) {a b : Fl} (ha : Fine f a) (hb : Fine f b) (hB : 4 * ((val a - val b) * (val a - val b)) + 2 ≤ 2 ^ f.emax) :
    (⟨mul f (sub f a b) (sub f a b), (val a - val b) * (val a - val b), et f⟩ : Term).Ok f 4 ∧ 0 ≤ val (mul f (sub f a b) (sub f a b)) := by
  have u0 := un_pos f
  have u1 := un_le w
  norm_num at u1
  have e0 := et_pos f
  have en : val (neg b) = -val b := by
    obtain ⟨t, n, rfl⟩ := finite_fin hb.1
    cases t <;> simp [neg, val]
  have hnb : Fine f (neg b) := ⟨by obtain ⟨t, n, rfl⟩ := finite_fin hb.1; trivial, neg_ofType hb.2⟩
  have hd : val a + val (neg b) = val a - val b := by rw [en]; ring
  generalize hδ : val a - val b = δ at *
  have hδ2 : 2 * |δ| ≤ δ * δ + 1 := by
    have : |δ| * |δ| = δ * δ := abs_mul_abs_self δ
    nlinarith [sq_nonneg (|δ| - 1)]
  obtain ⟨s1, s2⟩ := add_fine w ha hnb (M := |δ|) (by rw [hd]) (by linarith [mul_self_nonneg δ])
  rw [hd] at s2
  have s2 : |val (sub f a b) - δ| ≤ un f * |δ| := s2
  have s1 : Fine f (sub f a b) := s1
  generalize sub f a b = d at *
  generalize hx : val d = x at *
  have hxx : |x * x - δ * δ| ≤ 5 / 2 * un f * (δ * δ) := by
    have e : x * x - δ * δ = (x - δ) * (x - δ) + 2 * δ * (x - δ) := by ring
    rw [e]
    refine (abs_add_le _ _).trans ?_
    rw [abs_mul_self, abs_mul, abs_mul, abs_two]
    have q : (x - δ) * (x - δ) ≤ (un f * |δ|) * (un f * |δ|) := by
      rw [← abs_mul_abs_self (x - δ)]
      exact mul_le_mul s2 s2 (abs_nonneg _) (by positivity)
    have q2 : (un f * |δ|) * (un f * |δ|) = un f * (un f * (δ * δ)) := by
      rw [← abs_mul_abs_self δ]
      ring
    have q3 : 2 * |δ| * |x - δ| ≤ 2 * |δ| * (un f * |δ|) := mul_le_mul_of_nonneg_left s2 (by positivity)
    have q4 : 2 * |δ| * (un f * |δ|) = 2 * (un f * (δ * δ)) := by
      rw [← abs_mul_abs_self δ]
      ring
    have q5 : 0 ≤ un f * (δ * δ) := mul_nonneg u0.le (mul_self_nonneg _)
    have q6 : un f * (un f * (δ * δ)) ≤ 1 / 2 * (un f * (δ * δ)) := mul_le_mul_of_nonneg_right (by linarith) q5
    linarith
  have δ0 := mul_self_nonneg δ
  have uδ : un f * (δ * δ) ≤ 1 / 10 * (δ * δ) := mul_le_mul_of_nonneg_right (by linarith) δ0
  have hx1 : x * x ≤ 5 / 4 * (δ * δ) := by
    have := (abs_le.1 hxx).2
    linarith
  obtain ⟨m1, m2⟩ := mul_fine w s1.1 s1.1 (by rw [hx, abs_mul_self]; linarith)
  rw [hx, abs_mul_self] at m2
  refine ⟨⟨m1, ?_, e0.le⟩, square_nonneg s1.1⟩
  show |val (mul f d d) - δ * δ| ≤ 4 * un f * |δ * δ| + et f
  have e : val (mul f d d) - δ * δ = (val (mul f d d) - x * x) + (x * x - δ * δ) := by ring
  rw [e, abs_mul_self]
  refine (abs_add_le _ _).trans ?_
  have := mul_le_mul_of_nonneg_left hx1 u0.le
  have q5 : 0 ≤ un f * (δ * δ) := mul_nonneg u0.le (mul_self_nonneg _)
  linarith

/-- The distance of two vectors of any number of elements; vectors of different sizes are refused. -/
theorem C150_distance {f : Fmt} (hf : FloatOrDouble f) (v1 v2 : List Fl) (h1 : Numbers f v1) (h2 : Numbers f v2) :
    (v1.length ≠ v2.length → distance f v1 v2 = .err) ∧
    (v1.length = v2.length → ((v1.length : Rat) + 4) * roundoff f ≤ 1 / 8 → 4 * squaresBetween v1 v2 + 2 ≤ 2 ^ f.emax →
      ∃ d, distance f v1 v2 = .ok d ∧ Ieee.Spec.Finite d ∧
        |(val d : ℝ) - Real.sqrt (squaresBetween v1 v2)| ≤
          5 / 4 * (v1.length + 6) * (roundoff f : Rat) * Real.sqrt (squaresBetween v1 v2) + 2 * Real.sqrt (v1.length * (tiny f : Rat)) + (tiny f : Rat)) := by
  refine ⟨fun h => if_neg h, fun h hn hM => ⟨_, if_pos h, ?_⟩⟩
  have w := wide_of hf
  have el : (List.zip v1 v2).length = v1.length := by rw [List.length_zip, ← h, min_self]
  have ea : ((List.zip v1 v2).map fun p => |(val p.1 - val p.2) * (val p.1 - val p.2)|).sum = squaresBetween v1 v2 := by
    unfold squaresBetween
    congr 2
    funext p
    exact abs_mul_self _
  have hb : ∀ p ∈ List.zip v1 v2, _ := fun p hp =>
    difference_term w (h1 _ (List.of_mem_zip hp).1) (h2 _ (List.of_mem_zip hp).2) (by
      have : (val p.1 - val p.2) * (val p.1 - val p.2) ≤ squaresBetween v1 v2 :=
        le_sum (fun p : Fl × Fl => (val p.1 - val p.2) * (val p.1 - val p.2)) (List.zip v1 v2) (fun _ _ => mul_self_nonneg _) hp
      linarith)
  obtain ⟨r1, r2⟩ := even_sum w (List.zip v1 v2) (fun p => mul f (sub f p.1 p.2) (sub f p.1 p.2)) (fun p => (val p.1 - val p.2) * (val p.1 - val p.2)) (a := 4) (by norm_num)
    (fun p hp => (hb p hp).1) (by rw [el]; exact hn) (by rw [ea]; exact hM)
  rw [ea, el] at r2
  obtain ⟨q1, q2⟩ := root_sum w (n := v1.length) (a := 4) (s := squaresBetween v1 v2) r1 (by
      rw [← ea]
      exact List.sum_nonneg (by
        intro z hz
        obtain ⟨e, _, rfl⟩ := List.mem_map.1 hz
        exact abs_nonneg _)) (by push_cast; exact hn) (by push_cast; exact r2) (by
    have e : (List.zip v1 v2).foldl (fun r p => add f r (mul f (sub f p.1 p.2) (sub f p.1 p.2))) (ofNat 0) =
        ((List.zip v1 v2).map fun p => mul f (sub f p.1 p.2) (sub f p.1 p.2)).foldl (add f) (ofNat 0) := by
      rw [List.foldl_map]
    show 0 ≤ val ((List.zip v1 v2).foldl (fun r p => add f r (mul f (sub f p.1 p.2) (sub f p.1 p.2))) (ofNat 0))
    rw [e]
    refine sum_nonneg _ _ ?_ trivial (by norm_num [val, ofNat])
    intro y hy
    obtain ⟨p, hp, rfl⟩ := List.mem_map.1 hy
    exact ⟨(hb p hp).1.1.1, (hb p hp).2⟩)
  refine ⟨q1, q2.trans (le_of_eq ?_)⟩
  push_cast
  ring

end Xo.LongSum
