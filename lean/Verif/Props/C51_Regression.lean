import Verif.Model.Regression
import Verif.Props.C53_Median
import Mathlib.Tactic.FieldSimp
import Mathlib.Tactic.LinearCombination

/-!
C51: regression. C52: polynomials.
-/
namespace Xo
open Stats Regression Spec
variable {K : Type} [Field K] [LinearOrder K]

namespace Spec

/-- The sum of the squared vertical distances of points to the line `c + s x`. -/
def sumSquares (pts : List (K × K)) (c s : K) : K := (pts.map fun p => (p.2 - (c + s * p.1)) ^ 2).sum

end Spec

/-- **C52.** A polynomial object evaluates to the sum of its coefficients times powers of the argument. -/
theorem C52_polynomial (coeff : List K) (v : K) :
    polyEval coeff v = (coeff.zipIdx.map fun ci => ci.1 * v ^ ci.2).sum := by
  have main : ∀ (cs : List K) (r : K) (n : Nat),
      cs.foldl (fun (s : K × K) a => (s.1 + s.2 * a, s.2 * v)) (r, v ^ n) =
        (r + ((cs.zipIdx n).map fun ci => ci.1 * v ^ ci.2).sum, v ^ (n + cs.length)) := by
    intro cs
    induction cs with
    | nil => intro r n; simp
    | cons c cs ih =>
      intro r n
      rw [List.foldl_cons]
      simp only
      rw [← pow_succ, ih]
      simp only [List.zipIdx_cons, List.map_cons, List.sum_cons, List.length_cons, Prod.mk.injEq]
      exact ⟨by ring, by congr 1; omega⟩
  cases coeff with
  | nil => simp [polyEval]
  | cons c cs =>
    have := main cs c 1
    rw [pow_one] at this
    show (cs.foldl (fun (s : K × K) a => (s.1 + s.2 * a, s.2 * v)) (c, v)).1 = _
    rw [this]
    simp

/-- **C52.** A line is offset plus slope times argument, and `intersect_y` finds where it has a given value. -/
theorem C52_line (f : Line K) : (∀ v, polyEval f.coeff v = f.offset + f.slope * v) ∧
    (f.slope ≠ 0 → ∀ y, ∃ x, intersectY f y = .ok x ∧ polyEval f.coeff x = y ∧ ∀ x', polyEval f.coeff x' = y → x' = x) := by
  have h : ∀ v, polyEval f.coeff v = f.offset + f.slope * v := by
    intro v; simp [polyEval, Line.coeff]; ring
  refine ⟨h, fun hs y => ⟨(y - f.offset) / f.slope, by unfold intersectY quot; rw [if_neg hs], ?_, ?_⟩⟩
  · rw [h]; field_simp; ring
  · intro x' hx'
    rw [h] at hx'
    rw [← hx']
    field_simp
    ring

/-! ### Sums over points -/

theorem foldl_pair (pts : List (K × K)) (ax ay : K) :
    pts.foldl (fun (s : K × K) (p : K × K) => (s.1 + (p.1 - ax) * (p.2 - ay), s.2 + (p.1 - ax) * (p.1 - ax))) (0, 0) =
      ((pts.map fun p => (p.1 - ax) * (p.2 - ay)).sum, (pts.map fun p => (p.1 - ax) * (p.1 - ax)).sum) := by
  suffices h : ∀ a b : K, pts.foldl (fun (s : K × K) (p : K × K) =>
      (s.1 + (p.1 - ax) * (p.2 - ay), s.2 + (p.1 - ax) * (p.1 - ax))) (a, b) =
      (a + (pts.map fun p => (p.1 - ax) * (p.2 - ay)).sum, b + (pts.map fun p => (p.1 - ax) * (p.1 - ax)).sum) by
    rw [h]; simp
  induction pts with
  | nil => intro a b; simp
  | cons p pts ih =>
    intro a b
    rw [List.foldl_cons]
    simp only
    rw [ih]
    simp only [List.map_cons, List.sum_cons, Prod.mk.injEq]
    constructor <;> ring

/-- The sums that occur, in terms of the basic ones. -/
theorem sums (pts : List (K × K)) (ax ay c s : K) :
    (pts.map fun p => (p.1 - ax) * (p.2 - ay)).sum = (pts.map fun p => p.1 * p.2).sum - ax * (pts.map (·.2)).sum -
      ay * (pts.map (·.1)).sum + pts.length * (ax * ay) ∧
    (pts.map fun p => (p.1 - ax) * (p.1 - ax)).sum = (pts.map fun p => p.1 * p.1).sum - 2 * ax * (pts.map (·.1)).sum +
      pts.length * (ax * ax) ∧
    sumSquares pts c s = (pts.map fun p => p.2 * p.2).sum - 2 * c * (pts.map (·.2)).sum -
      2 * s * (pts.map fun p => p.1 * p.2).sum + pts.length * (c * c) + 2 * c * s * (pts.map (·.1)).sum +
      s * s * (pts.map fun p => p.1 * p.1).sum := by
  unfold sumSquares
  induction pts with
  | nil => simp
  | cons p pts ih =>
    obtain ⟨h1, h2, h3⟩ := ih
    simp only [List.map_cons, List.sum_cons, List.length_cons, h1, h2, h3]
    push_cast
    refine ⟨by ring, by ring, by ring⟩

variable [IsStrictOrderedRing K]

theorem sum_sq_nonneg (l : List K) : 0 ≤ (l.map fun x => x * x).sum := by
  induction l with
  | nil => simp
  | cons x xs ih => rw [List.map_cons, List.sum_cons]; nlinarith [mul_self_nonneg x]

theorem sum_sq_eq_zero {l : List K} (h : (l.map fun x => x * x).sum = 0) : ∀ x ∈ l, x = 0 := by
  induction l with
  | nil => simp
  | cons y ys ih =>
    rw [List.map_cons, List.sum_cons] at h
    have h1 := mul_self_nonneg y
    have h2 := sum_sq_nonneg ys
    have h3 : y * y = 0 := by linarith
    intro x hx
    rcases List.mem_cons.1 hx with rfl | hx
    · exact mul_self_eq_zero.1 h3
    · exact ih (by linarith) x hx

/-- Abscissae that are not all the same have a positive spread. -/
theorem spread_pos {xs : List K} {a b m : K} (ha : a ∈ xs) (hb : b ∈ xs) (hab : a ≠ b) :
    0 < (xs.map fun x => (x - m) * (x - m)).sum := by
  have e : (xs.map fun x => (x - m) * (x - m)).sum = ((xs.map fun x => x - m).map fun x => x * x).sum := by
    rw [List.map_map]; rfl
  rw [e]
  rcases lt_or_eq_of_le (sum_sq_nonneg (xs.map fun x => x - m)) with h | h
  · exact h
  · have hz := sum_sq_eq_zero h.symm
    have h1 := hz (a - m) (List.mem_map.2 ⟨a, ha, rfl⟩)
    have h2 := hz (b - m) (List.mem_map.2 ⟨b, hb, rfl⟩)
    exact absurd (by linarith) hab

theorem zip_fst {xs ys : List K} (h : xs.length = ys.length) : (xs.zip ys).map (·.1) = xs := by
  rw [List.map_fst_zip]; omega
theorem zip_snd {xs ys : List K} (h : xs.length = ys.length) : (xs.zip ys).map (·.2) = ys := by
  rw [List.map_snd_zip]; omega

/-- The explicit result of linear regression. -/
theorem linear_eq {xs ys : List K} (hlen : xs.length = ys.length) {a b : K} (ha : a ∈ xs) (hb : b ∈ xs) (hab : a ≠ b) :
    let ax := xs.sum / (xs.length : K)
    let ay := ys.sum / (ys.length : K)
    let s := ((xs.zip ys).map fun p => (p.1 - ax) * (p.2 - ay)).sum / (xs.map fun x => (x - ax) * (x - ax)).sum
    linear xs ys = .ok ⟨ay - s * ax, s⟩ := by
  intro ax ay s
  have hx : xs ≠ [] := List.ne_nil_of_mem ha
  have hy : ys ≠ [] := by intro h; rw [h] at hlen; exact hx (List.length_eq_zero_iff.1 hlen)
  unfold linear
  rw [if_pos hlen, (C62_mean_var xs hx).1, (C62_mean_var ys hy).1]
  show (quot _ _).bind _ = _
  rw [foldl_pair]
  simp only
  have e : ((xs.zip ys).map fun p => (p.1 - ax) * (p.1 - ax)).sum = (xs.map fun x => (x - ax) * (x - ax)).sum := by
    conv_rhs => rw [← zip_fst hlen, List.map_map]
    rfl
  have hne : (xs.map fun x => (x - ax) * (x - ax)).sum ≠ 0 := ne_of_gt (spread_pos ha hb hab)
  unfold quot
  rw [e, if_neg hne]
  rfl

/-- **C51.** Linear regression of points with at least two different abscissae gives the line with the smallest sum of
squared distances. -/
theorem C51_least_squares (xs ys : List K) (hlen : xs.length = ys.length) (a b : K) (ha : a ∈ xs) (hb : b ∈ xs)
    (hab : a ≠ b) : ∃ f : Line K, linear xs ys = .ok f ∧
      (∀ c s, sumSquares (xs.zip ys) f.offset f.slope ≤ sumSquares (xs.zip ys) c s) ∧
      ∀ c s, sumSquares (xs.zip ys) c s = sumSquares (xs.zip ys) f.offset f.slope → c = f.offset ∧ s = f.slope := by
  refine ⟨_, linear_eq hlen ha hb hab, ?_⟩
  have hn : (0 : K) < (xs.length : K) := by exact_mod_cast List.length_pos_of_mem ha
  have hdp := spread_pos (m := xs.sum / (xs.length : K)) ha hb hab
  have e : ((xs.zip ys).map fun p => (p.1 - xs.sum / (xs.length : K)) * (p.1 - xs.sum / (xs.length : K))).sum =
      (xs.map fun x => (x - xs.sum / (xs.length : K)) * (x - xs.sum / (xs.length : K))).sum := by
    generalize xs.sum / (xs.length : K) = ax
    conv_rhs => rw [← zip_fst hlen, List.map_map]
    rfl
  rw [← e] at hdp ⊢
  have hzl : ((xs.zip ys).length : K) = (xs.length : K) := by rw [List.length_zip]; congr 1; omega
  have hyl : (ys.length : K) = (xs.length : K) := by rw [hlen]
  have hX : ((xs.zip ys).map (·.1)).sum = xs.sum := by rw [zip_fst hlen]
  have hY : ((xs.zip ys).map (·.2)).sum = ys.sum := by rw [zip_snd hlen]
  rw [hyl]
  obtain ⟨h1, h2, _⟩ := sums (xs.zip ys) (xs.sum / (xs.length : K)) (ys.sum / (xs.length : K)) 0 0
  have h3 := fun c s => (sums (xs.zip ys) 0 0 c s).2.2
  rw [hzl, hX, hY] at h1
  rw [hzl, hX] at h2
  rw [h1]
  rw [h2] at hdp ⊢
  have hsq : ∀ c s, sumSquares (xs.zip ys) c s = ((xs.zip ys).map fun p => p.2 * p.2).sum - 2 * c * ys.sum -
      2 * s * ((xs.zip ys).map fun p => p.1 * p.2).sum + (xs.length : K) * (c * c) + 2 * c * s * xs.sum +
      s * s * ((xs.zip ys).map fun p => p.1 * p.1).sum := by
    intro c s; rw [h3 c s, hzl, hX, hY]
  generalize ((xs.zip ys).map fun p => p.1 * p.1).sum = A at *
  generalize ((xs.zip ys).map fun p => p.1 * p.2).sum = B at *
  generalize ((xs.zip ys).map fun p => p.2 * p.2).sum = C at *
  generalize xs.sum = X at *
  generalize ys.sum = Y at *
  generalize (xs.length : K) = n at *
  simp only
  generalize hD : A - 2 * (X / n) * X + n * (X / n * (X / n)) = D at *
  generalize hs0 : (B - X / n * Y - Y / n * X + n * (X / n * (Y / n))) / D = s0 at *
  have hDs : s0 * D = B - X / n * Y - Y / n * X + n * (X / n * (Y / n)) := by
    rw [← hs0]; field_simp
  -- the difference of the two sums of squares
  have hdiff : ∀ c s, sumSquares (xs.zip ys) c s - sumSquares (xs.zip ys) (Y / n - s0 * (X / n)) s0 =
      (s - s0) ^ 2 * D + n * (c - Y / n + s * (X / n)) ^ 2 := by
    intro c s
    rw [hsq, hsq]
    have hB : B = s0 * D + X / n * Y + Y / n * X - n * (X / n * (Y / n)) := by linear_combination -hDs
    have hA : A = D + 2 * (X / n) * X - n * (X / n * (X / n)) := by linear_combination hD
    rw [hB, hA]
    field_simp
    ring
  constructor
  · intro c s
    have := hdiff c s
    have h4 : 0 ≤ (s - s0) ^ 2 * D := mul_nonneg (sq_nonneg _) (le_of_lt hdp)
    have h5 : 0 ≤ n * (c - Y / n + s * (X / n)) ^ 2 := mul_nonneg (le_of_lt hn) (sq_nonneg _)
    linarith
  · intro c s heq
    have := hdiff c s
    have h4 : 0 ≤ (s - s0) ^ 2 * D := mul_nonneg (sq_nonneg _) (le_of_lt hdp)
    have h5 : 0 ≤ n * (c - Y / n + s * (X / n)) ^ 2 := mul_nonneg (le_of_lt hn) (sq_nonneg _)
    have h6 : (s - s0) ^ 2 * D = 0 := by linarith
    have h7 : n * (c - Y / n + s * (X / n)) ^ 2 = 0 := by linarith
    have h8 : s = s0 := by
      rcases mul_eq_zero.1 h6 with h | h
      · exact sub_eq_zero.1 (pow_eq_zero_iff (by norm_num) |>.1 h)
      · exact absurd h (ne_of_gt hdp)
    have h9 : c - Y / n + s * (X / n) = 0 := by
      rcases mul_eq_zero.1 h7 with h | h
      · exact absurd h (ne_of_gt hn)
      · exact pow_eq_zero_iff (by norm_num) |>.1 h
    subst h8
    exact ⟨by linarith, rfl⟩

/-- **C51.** When the points lie on a line, linear regression returns it. -/
theorem C51_linear (xs : List K) (c s a b : K) (ha : a ∈ xs) (hb : b ∈ xs) (hab : a ≠ b) :
    linear xs (xs.map fun x => c + s * x) = .ok ⟨c, s⟩ := by
  have hz : sumSquares (xs.zip (xs.map fun x => c + s * x)) c s = 0 := by
    unfold sumSquares
    clear ha hb
    induction xs with
    | nil => simp
    | cons x xs ih => simp only [List.map_cons, List.zip_cons_cons, List.sum_cons, ih]; ring
  have hnn : ∀ (pts : List (K × K)) (c s : K), 0 ≤ sumSquares pts c s := by
    intro pts c s
    have := sum_sq_nonneg (pts.map fun p => p.2 - (c + s * p.1))
    rw [List.map_map] at this
    unfold sumSquares
    have e : (fun p : K × K => (p.2 - (c + s * p.1)) ^ 2) = (fun x => x * x) ∘ fun p => p.2 - (c + s * p.1) := by
      funext p; simp [pow_two]
    rw [e]; exact this
  obtain ⟨f', hf', hmin, huniq'⟩ := C51_least_squares xs (xs.map fun x => c + s * x) (by simp) a b ha hb hab
  have h0 : sumSquares (xs.zip (xs.map fun x => c + s * x)) f'.offset f'.slope = 0 :=
    le_antisymm (by rw [← hz]; exact hmin c s) (hnn _ _ _)
  obtain ⟨h1, h2⟩ := huniq' c s (by rw [hz, h0])
  rw [hf', h1, h2]

section
omit [IsStrictOrderedRing K]

/-- Inputs of different sizes and empty inputs are reported. -/
theorem C51_linear_error (xs ys : List K) (h : xs.length ≠ ys.length ∨ xs = []) : linear xs ys = .err := by
  unfold linear
  rcases h with h | h
  · rw [if_neg h]
  · subst h
    split
    · simp [average]
    · rfl

/-- When all abscissae are the same, the slope is not a number. -/
theorem C51_linear_same_abscissae (xs ys : List K) (hlen : xs.length = ys.length) (hx : xs ≠ []) (a : K)
    (h : ∀ x ∈ xs, x = a) (hn : (xs.length : K) ≠ 0) : linear xs ys = .ub := by
  have hy : ys ≠ [] := by intro h; rw [h] at hlen; exact hx (List.length_eq_zero_iff.1 hlen)
  have hrep : xs = List.replicate xs.length a := List.eq_replicate_of_mem h
  have hsum : xs.sum / (xs.length : K) = a := by
    conv_lhs => rw [hrep]
    simp [hn]
  unfold linear
  rw [if_pos hlen, (C62_mean_var xs hx).1, (C62_mean_var ys hy).1]
  show (quot _ _).bind _ = _
  rw [foldl_pair, hsum]
  simp only
  have : ((xs.zip ys).map fun p => (p.1 - a) * (p.1 - a)).sum = 0 := by
    have e : (xs.zip ys).map (fun p => (p.1 - a) * (p.1 - a)) = (xs.zip ys).map fun _ => (0 : K) := by
      apply List.map_congr_left
      intro p hp
      rw [h p.1 (List.of_mem_zip hp).1]
      simp
    rw [e]
    simp
  unfold quot
  rw [this, if_pos rfl]
  rfl

end

/-! ### Equidistant abscissae -/

namespace Spec
/-- The abscissae `x0`, `x0 + h`, ..., in all `n`. -/
def steps (x0 h : K) (n : Nat) : List K := (List.range n).map fun i : Nat => x0 + i * h
end Spec

section
omit [LinearOrder K] [IsStrictOrderedRing K]
theorem steps_succ (x0 h : K) (n : Nat) : steps x0 h (n + 1) = x0 :: steps (x0 + h) h n := by
  unfold steps
  rw [List.range_succ_eq_map, List.map_cons, List.map_map]
  simp only [Nat.cast_zero, zero_mul, add_zero, List.cons.injEq, true_and]
  apply List.map_congr_left
  intro i _
  simp only [Function.comp_apply, Nat.cast_succ]
  ring

theorem steps_length (x0 h : K) (n : Nat) : (steps x0 h n).length = n := by simp [steps]

theorem foldl_steps (ys : List K) (ax ay h : K) : ∀ (acc x : K),
    (ys.foldl (fun (s : K × K) y => (s.1 + (s.2 - ax) * (y - ay), s.2 + h)) (acc, x)).1 =
      acc + (((steps x h ys.length).zip ys).map fun p => (p.1 - ax) * (p.2 - ay)).sum := by
  induction ys with
  | nil => intro acc x; simp [steps]
  | cons y ys ih =>
    intro acc x
    rw [List.foldl_cons]
    simp only
    rw [ih, List.length_cons, steps_succ]
    simp only [List.zip_cons_cons, List.map_cons, List.sum_cons]
    ring
end

theorem steps_sums (n : Nat) : ∀ x0 h : K, (steps x0 h n).sum = n * x0 + h * (n * (n - 1) / 2) ∧
    ((steps x0 h n).map fun x => x * x).sum = n * (x0 * x0) + 2 * x0 * h * (n * (n - 1) / 2) +
      h * h * (n * (n - 1) * (2 * n - 1) / 6) := by
  induction n with
  | zero => intro x0 h; simp [steps]
  | succ n ih =>
    intro x0 h
    obtain ⟨h1, h2⟩ := ih (x0 + h) h
    rw [steps_succ, List.sum_cons, List.map_cons, List.sum_cons, h1, h2]
    push_cast
    constructor <;> field_simp <;> ring

theorem steps_spread (n : Nat) (x0 h m : K) : ((steps x0 h n).map fun x => (x - m) * (x - m)).sum =
    ((steps x0 h n).map fun x => x * x).sum - 2 * m * (steps x0 h n).sum + n * (m * m) := by
  have : ∀ l : List K, (l.map fun x => (x - m) * (x - m)).sum = (l.map fun x => x * x).sum - 2 * m * l.sum + l.length * (m * m) := by
    intro l
    induction l with
    | nil => simp
    | cons x xs ih =>
      simp only [List.map_cons, List.sum_cons, List.length_cons, ih]
      push_cast
      ring
  rw [this, steps_length]

/-- **C51.** Regression of equidistant data gives the same line as regression with the abscissae written out. -/
theorem C51_steps (ys : List K) (x0 h : K) (hy : 2 ≤ ys.length) (hh : h ≠ 0) :
    linearSteps ys x0 h = linear (steps x0 h ys.length) ys ∧ (linearSteps ys x0 h).isOk = true := by
  have hyne : ys ≠ [] := by intro e; rw [e] at hy; simp at hy
  have hn2 : (2 : K) ≤ (ys.length : K) := by exact_mod_cast hy
  have hm0 : x0 ∈ steps x0 h ys.length := by
    unfold steps; exact List.mem_map.2 ⟨0, List.mem_range.2 (by omega), by simp⟩
  have hm1 : x0 + h ∈ steps x0 h ys.length := by
    unfold steps; exact List.mem_map.2 ⟨1, List.mem_range.2 (by omega), by simp⟩
  have hl := linear_eq (steps_length x0 h ys.length) hm0 hm1 (fun e => hh (by linarith))
  simp only at hl
  have hpred : ((ys.length - 1 : Nat) : K) = (ys.length : K) - 1 := by rw [Nat.cast_sub (by omega)]; simp
  have hax : (steps x0 h ys.length).sum / ((steps x0 h ys.length).length : K) = x0 + ((ys.length : K) - 1) * h / 2 := by
    rw [(steps_sums ys.length x0 h).1, steps_length]
    field_simp
  have hden : ((steps x0 h ys.length).map fun x => (x - (x0 + ((ys.length : K) - 1) * h / 2)) *
      (x - (x0 + ((ys.length : K) - 1) * h / 2))).sum =
      ((ys.length : K) - 1) * h / 2 * (((ys.length : K) - 1) * h / 2 + h) * (2 * (((ys.length : K) - 1) * h / 2) + h) / (3 * h) := by
    rw [steps_spread, (steps_sums ys.length x0 h).1, (steps_sums ys.length x0 h).2]
    field_simp
    ring
  have hdpos := spread_pos (m := x0 + ((ys.length : K) - 1) * h / 2) hm0 hm1 (fun e => hh (by linarith))
  rw [hax, hden] at hl
  rw [hden] at hdpos
  have e : linearSteps ys x0 h = linear (steps x0 h ys.length) ys := by
    rw [hl]
    unfold linearSteps
    simp only
    rw [(C62_mean_var ys hyne).1, hpred]
    show (quot _ _).bind _ = _
    rw [foldl_steps, zero_add]
    unfold quot
    rw [if_neg (mul_ne_zero (by norm_num) hh)]
    show (if _ then _ else _ : Res K).bind _ = _
    rw [if_neg (ne_of_gt hdpos)]
    rfl
  rw [e, hl]
  exact ⟨rfl, rfl⟩

/-! ### Median regression -/

section
omit [IsStrictOrderedRing K]
theorem median_eq {l : List K} (hl : l ≠ []) {m : K} (h : IsMedian l m) : median l = .ok m := by
  obtain ⟨m', h1, h2⟩ := (C53_median_value l).1 hl
  obtain ⟨a1, a0⟩ := h (sortedCopy l) (sortedCopy_perm l) (sortedCopy_sorted l)
  obtain ⟨b1, b0⟩ := h2 (sortedCopy l) (sortedCopy_perm l) (sortedCopy_sorted l)
  have : m' = m := by
    rcases Nat.mod_two_eq_zero_or_one l.length with e | e
    · obtain ⟨p, q, hp, hq, hm⟩ := a0 e
      obtain ⟨p', q', hp', hq', hm'⟩ := b0 e
      rw [hp] at hp'; rw [hq] at hq'
      injection hp' with hp'; injection hq' with hq'
      rw [hm, hm', hp', hq']
    · have := (b1 e).symm.trans (a1 e)
      injection this
  rw [h1, this]
end

theorem median_replicate {n : Nat} (hn : 0 < n) (v : K) : median (List.replicate n v) = .ok v := by
  refine median_eq (by intro h; have := congrArg List.length h; simp at this; omega) ?_
  refine isMedian_of_sorted (List.Perm.refl _) ?_ ?_ ?_
  · rw [List.pairwise_replicate]; right; exact le_refl _
  · intro _; rw [List.length_replicate, List.getElem?_replicate, if_pos (by omega)]
  · intro _
    refine ⟨v, v, ?_, ?_, by ring⟩
    · rw [List.length_replicate, List.getElem?_replicate, if_pos (by omega)]
    · rw [List.length_replicate, List.getElem?_replicate, if_pos (by omega)]

theorem median_of_all {l : List K} (hl : l ≠ []) {v : K} (h : ∀ x ∈ l, x = v) : median l = .ok v := by
  rw [List.eq_replicate_of_mem h]
  exact median_replicate (List.length_pos_iff.2 hl) v

section
omit [IsStrictOrderedRing K] [LinearOrder K]
theorem steps_get (x0 h : K) (n i : Nat) (hi : i < n) : (steps x0 h n)[i]? = some (x0 + i * h) := by
  simp [steps, hi]

theorem steps_reverse (x0 h : K) (n : Nat) : (steps x0 h (n + 1)).reverse = steps (x0 + n * h) (-h) (n + 1) := by
  apply List.ext_getElem?
  intro i
  by_cases hi : i < n + 1
  · rw [List.getElem?_reverse (by rw [steps_length]; exact hi), steps_length, steps_get _ _ _ _ (by omega),
      steps_get _ _ _ _ hi]
    rw [show n + 1 - 1 - i = n - i by omega, Nat.cast_sub (by omega)]
    congr 1
    ring
  · rw [List.getElem?_eq_none (by rw [List.length_reverse, steps_length]; omega),
      List.getElem?_eq_none (by rw [steps_length]; omega)]
end

theorem steps_sorted (x0 h : K) (hh : 0 ≤ h) (n : Nat) : (steps x0 h n).Pairwise (· ≤ ·) := by
  unfold steps
  rw [List.pairwise_map]
  refine List.pairwise_lt_range.imp ?_
  intro a b hab
  have : (a : K) ≤ b := by exact_mod_cast le_of_lt hab
  nlinarith

/-- The median of equidistant values is the middle. -/
theorem median_steps (x0 h : K) (n : Nat) : median (steps x0 h (n + 1)) = .ok (x0 + n * h / 2) := by
  have hne : ∀ x0 h : K, steps x0 h (n + 1) ≠ [] := by intro x0 h; rw [steps_succ]; simp
  have key : ∀ x0 h : K, 0 ≤ h → IsMedian (steps x0 h (n + 1)) (x0 + n * h / 2) := by
    intro x0 h hh
    refine isMedian_of_sorted (List.Perm.refl _) (steps_sorted x0 h hh _) ?_ ?_
    · rw [steps_length]
      intro ho
      rw [steps_get _ _ _ _ (by omega)]
      congr 2
      have : n = 2 * ((n + 1) / 2) := by omega
      have hk : (n : K) = 2 * (((n + 1) / 2 : Nat) : K) := by exact_mod_cast this
      rw [hk]; ring
    · rw [steps_length]
      intro he
      refine ⟨_, _, steps_get _ _ _ _ (by omega), steps_get _ _ _ _ (by omega), ?_⟩
      have hk : (n : K) + 1 = 2 * (((n + 1) / 2 : Nat) : K) := by exact_mod_cast (show n + 1 = 2 * ((n + 1) / 2) by omega)
      have hk1 : (((n + 1) / 2 - 1 : Nat) : K) = (((n + 1) / 2 : Nat) : K) - 1 := by
        rw [Nat.cast_sub (by omega)]; simp
      rw [hk1]
      have hn : (n : K) = 2 * (((n + 1) / 2 : Nat) : K) - 1 := by linarith
      rw [hn]; ring
  rcases le_total 0 h with hh | hh
  · exact median_eq (hne _ _) (key x0 h hh)
  · have h1 := (C53_order (steps x0 h (n + 1)) _ (List.reverse_perm _).symm).1
    rw [steps_reverse] at h1
    rw [h1, median_eq (hne _ _) (key _ (-h) (by linarith))]
    congr 1
    ring

section
omit [LinearOrder K] [IsStrictOrderedRing K]
theorem differences_steps (n : Nat) : ∀ y0 d : K, differences (steps y0 d (n + 1)) = List.replicate n d := by
  induction n with
  | zero => intro y0 d; simp [steps, differences]
  | succ n ih =>
    intro y0 d
    rw [steps_succ, steps_succ, differences, ← steps_succ, ih, List.replicate_succ]
    congr 1
    ring
end

/-- **C51.** When equidistant data lies on a line, median-based regression returns it. -/
theorem C51_median (n : Nat) (hn : 2 ≤ n) (x0 h c s : K) (hh : h ≠ 0) :
    linearMedian ((steps x0 h n).map fun x => c + s * x) x0 h = .ok ⟨c, s⟩ := by
  obtain ⟨m, rfl⟩ : ∃ m, n = m + 1 := ⟨n - 1, by omega⟩
  have e : (steps x0 h (m + 1)).map (fun x => c + s * x) = steps (c + s * x0) (s * h) (m + 1) := by
    unfold steps
    rw [List.map_map]
    apply List.map_congr_left
    intro i _
    simp only [Function.comp_apply]
    ring
  rw [e]
  unfold linearMedian
  rw [steps_length, if_pos (by omega), differences_steps, median_replicate (by omega)]
  show (quot _ _).bind _ = _
  unfold quot
  rw [if_neg hh]
  show (median _).bind _ = _
  rw [median_steps]
  show Res.ok _ = _
  simp only [Nat.add_sub_cancel]
  congr 2
  · field_simp
    ring
  · field_simp

section
omit [LinearOrder K] [IsStrictOrderedRing K]
theorem mapM_ok {α β : Type} (f : α → Res β) (g : α → β) : ∀ l : List α, (∀ a ∈ l, f a = .ok (g a)) →
    l.mapM f = .ok (l.map g) := by
  intro l
  induction l with
  | nil => intro _; rfl
  | cons a l ih =>
    intro h
    rw [List.mapM_cons, h a (by simp), ih (fun b hb => h b (by simp [hb]))]
    rfl
end

/-- **C51 (partial).** When the points lie on a line and no two have the same abscissa, repeated median regression returns
it. -/
theorem C51_repeated_median_partial (xs : List K) (c s : K) (hd : xs.Nodup) (hn : 2 ≤ xs.length) :
    repeatedMedian xs (xs.map fun x => c + s * x) = .ok ⟨c, s⟩ := by
  have hz : xs.zip (xs.map fun x => c + s * x) = xs.map fun x => (x, c + s * x) := by
    clear hd hn
    induction xs with
    | nil => rfl
    | cons x xs ih => simp only [List.map_cons, List.zip_cons_cons, ih]
  unfold repeatedMedian
  rw [if_pos ⟨by omega, by simp⟩]
  simp only
  rw [hz]
  generalize hp : (xs.map fun x => (x, c + s * x)) = pts
  have hplen : pts.length = xs.length := by rw [← hp]; simp
  have hpl : ∀ p ∈ pts, p.2 = c + s * p.1 := by
    intro p h
    rw [← hp] at h
    obtain ⟨x, _, rfl⟩ := List.mem_map.1 h
    rfl
  have hpd : (pts.map (·.1)).Nodup := by
    rw [← hp, List.map_map]
    have : ((fun p : K × K => p.1) ∘ fun x => (x, c + s * x)) = id := rfl
    rw [this, List.map_id]
    exact hd
  -- the slopes from one point
  have hsl : ∀ pi ∈ pts.zipIdx, (do let sl1 ← slopesFrom pts pi.2 pi.1; median sl1 : Res K) = .ok s := by
    rintro ⟨p, i⟩ hm
    have hget : pts[i]? = some p := by
      rw [List.mem_zipIdx_iff_getElem?] at hm; exact hm
    obtain ⟨hi, hgi⟩ := List.getElem?_eq_some_iff.1 hget
    have hsplit : pts = pts.take i ++ p :: pts.drop (i + 1) := by
      conv_lhs => rw [← List.take_append_drop i pts, List.drop_eq_getElem_cons hi, hgi]
    have hne : ∀ q ∈ pts.take i ++ pts.drop (i + 1), q.1 ≠ p.1 := by
      intro q hq
      rw [hsplit, List.map_append, List.map_cons, List.nodup_append, List.nodup_cons] at hpd
      rcases List.mem_append.1 hq with h | h
      · exact hpd.2.2 q.1 (List.mem_map_of_mem h) p.1 (by simp)
      · intro e
        exact hpd.2.1.1 (by rw [← e]; exact List.mem_map_of_mem h)
    have hok : slopesFrom pts i p = .ok ((pts.take i ++ pts.drop (i + 1)).map fun _ => s) := by
      unfold slopesFrom
      refine mapM_ok _ _ _ ?_
      intro q hq
      have hq' : q ∈ pts := by
        rw [hsplit]
        rcases List.mem_append.1 hq with h | h
        · exact List.mem_append_left _ h
        · exact List.mem_append_right _ (List.mem_cons_of_mem _ h)
      have h1 : q.1 - p.1 ≠ 0 := sub_ne_zero.2 (hne q hq)
      unfold quot
      rw [if_neg h1, hpl q hq', hpl p (by rw [hsplit]; simp)]
      congr 1
      field_simp
      ring
    show (slopesFrom pts i p).bind _ = _
    rw [hok]
    show median _ = _
    refine median_of_all ?_ (by intro x hx; simp at hx; obtain ⟨_, _, rfl⟩ := hx; rfl)
    intro h
    have := congrArg List.length h
    rw [List.length_map, List.length_append, List.length_take, List.length_drop, List.length_nil] at this
    omega
  have hm := mapM_ok (fun pi : (K × K) × Nat => (do let sl1 ← slopesFrom pts pi.2 pi.1; median sl1 : Res K))
    (fun _ => s) pts.zipIdx hsl
  show (List.mapM (fun pi : (K × K) × Nat => (do let sl1 ← slopesFrom pts pi.2 pi.1; median sl1 : Res K)) pts.zipIdx).bind _ = _
  rw [hm]
  show (median _).bind _ = _
  rw [median_of_all (v := s) (by intro h; have := congrArg List.length h; simp at this; rw [this] at hplen; simp at hplen; omega)
    (by intro x hx; obtain ⟨_, _, rfl⟩ := List.mem_map.1 hx; rfl)]
  show (median _).bind _ = _
  rw [median_of_all (v := c) (by intro h; have := congrArg List.length h; simp at this; rw [this] at hplen; simp at hplen; omega)
    (by intro x hx; obtain ⟨p, hp', rfl⟩ := List.mem_map.1 hx; rw [hpl p hp']; ring)]
  rfl

/-- **C51 is violated** by repeated median regression when two abscissae coincide: a slope is 0/0, which is not a number,
and is then sorted. -/
theorem C51_repeated_median_violated : repeatedMedian [(0 : ℚ), 0, 1] [0, 0, 1] = .ub ∧
    linear [(0 : ℚ), 0, 1] [0, 0, 1] = .ok ⟨0, 1⟩ := by
  constructor
  · simp [repeatedMedian, slopesFrom, quot, List.zipIdx]
  · simpa using C51_linear [(0 : ℚ), 0, 1] 0 1 0 1 (by simp) (by simp) (by norm_num)

/-- Non-vacuity. -/
example : linear [(0 : ℚ), 1, 5] [3, 5, 13] = .ok ⟨3, 2⟩ := by
  have := C51_linear [(0 : ℚ), 1, 5] 3 2 0 1 (by simp) (by simp) (by norm_num)
  norm_num at this
  exact this
example : repeatedMedian [(0 : ℚ), 1, 5] [3, 5, 13] = .ok ⟨3, 2⟩ := by
  have := C51_repeated_median_partial [(0 : ℚ), 1, 5] 3 2 (by norm_num) (by simp)
  norm_num at this
  exact this
example : polyEval [(1 : ℚ), 2, 3] 2 = 17 := by norm_num [polyEval]

end Xo
