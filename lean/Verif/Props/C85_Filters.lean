import Verif.Model.Filter
import Mathlib.Algebra.BigOperators.Group.Finset.Basic
import Mathlib.Algebra.BigOperators.Ring.Finset
import Mathlib.Analysis.SpecificLimits.Basic
import Mathlib.Analysis.Complex.Trigonometric
import Mathlib.Data.List.GetD
import Mathlib.Tactic.Linarith
import Mathlib.Tactic.FieldSimp
import Mathlib.Tactic.Ring

/-!
C85: running averages, differences and filters. An average is the weighted mean of what was added since the last reset; the results of a
`delta` are the differences of successive values; a digital filter computes the difference equation of its coefficients for every input,
and the Butterworth filter passes constant signals and removes the fastest alternating signal; the first-order filter is independent of how
a time span is divided into steps.
-/
namespace Xo.Filt
open Finset

/-! ## Averages -/
namespace Spec
/-- What has been added since the last reset. -/
def sinceReset {K : Type} : List (AvgOp K) → List (K × K)
  | [] => []
  | .add v w :: r => if r.any (fun o => match o with | .reset => true | _ => false) then sinceReset r else (v, w) :: sinceReset r
  | .reset :: r => sinceReset r

/-- The weighted mean. -/
def mean {K : Type} [Field K] (l : List (K × K)) : K := (l.map fun p => p.2 * p.1).sum / (l.map fun p => p.2).sum

/-- The value of a signal `i + 1` samples before position `n`; it is 0 before the start. -/
def past {K : Type} [Field K] (l : List K) (n i : Nat) : K := if i + 1 ≤ n then l.getD (n - (i + 1)) 0 else 0
end Spec

section
variable {K : Type} [Field K] [LinearOrder K]

theorem run_avg (ops : List (AvgOp K)) : ∀ a : Average K, a.run ops =
    (if ops.any (fun o => match o with | .reset => true | _ => false) then
      ⟨((Spec.sinceReset ops).map fun p => p.2 * p.1).sum, ((Spec.sinceReset ops).map fun p => p.2).sum⟩
    else ⟨a.totV + ((Spec.sinceReset ops).map fun p => p.2 * p.1).sum, a.totW + ((Spec.sinceReset ops).map fun p => p.2).sum⟩) := by
  induction ops with
  | nil => intro a; simp [Average.run, Spec.sinceReset]
  | cons o r ih =>
    intro a
    rw [Average.run, ih]
    cases o with
    | reset =>
      simp only [Average.step, Average.reset, Spec.sinceReset, List.any_cons, Bool.true_or, if_true]
      split <;> simp
    | add v w =>
      simp only [Average.step, Average.add, Spec.sinceReset, List.any_cons, Bool.false_or]
      split
      · rfl
      · simp [add_assoc]

/-- The average of a history, as it starts with the constructor. -/
theorem run_make (ops : List (AvgOp K)) : (Average.make : Average K).run ops =
    ⟨((Spec.sinceReset ops).map fun p => p.2 * p.1).sum, ((Spec.sinceReset ops).map fun p => p.2).sum⟩ := by
  rw [run_avg]
  simp [Average.make]

/-- **C85.** The average is the weighted mean of what was added since the last reset. (partial: the weights have a positive sum) -/
theorem C85_average_partial (ops : List (AvgOp K)) (h : 0 < ((Spec.sinceReset ops).map fun p => p.2).sum) :
    ((Average.make : Average K).run ops).get = Spec.mean (Spec.sinceReset ops) := by
  rw [run_make, Average.get, if_pos h, Spec.mean]

/-- Nothing added: the average is 0 and says that it is empty. -/
theorem C85_average_empty (ops : List (AvgOp K)) (h : Spec.sinceReset ops = []) :
    ((Average.make : Average K).run ops).get = 0 ∧ ((Average.make : Average K).run ops).empty = true := by
  rw [run_make, h]
  simp [Average.get, Average.empty]

/-- The average is empty exactly if the weights add up to 0. -/
theorem C85_average_empty_iff (ops : List (AvgOp K)) :
    ((Average.make : Average K).run ops).empty = true ↔ ((Spec.sinceReset ops).map fun p => p.2).sum = 0 := by
  rw [run_make]
  simp [Average.empty]

section
variable [IsStrictOrderedRing K]

theorem wsum_bound (lo hi : K) (l : List (K × K)) (h : ∀ p ∈ l, 0 ≤ p.2 ∧ lo ≤ p.1 ∧ p.1 ≤ hi) :
    (l.map fun p => p.2).sum * lo ≤ (l.map fun p => p.2 * p.1).sum ∧ (l.map fun p => p.2 * p.1).sum ≤ (l.map fun p => p.2).sum * hi := by
  induction l with
  | nil => simp
  | cons p l ih =>
    obtain ⟨h1, h2, h3⟩ := h p (by simp)
    obtain ⟨i1, i2⟩ := ih fun q hq => h q (by simp [hq])
    simp only [List.map_cons, List.sum_cons, add_mul]
    exact ⟨add_le_add (mul_le_mul_of_nonneg_left h2 h1) i1, add_le_add (mul_le_mul_of_nonneg_left h3 h1) i2⟩

/-- With weights that are not negative the average lies between the smallest and the largest value. -/
theorem C85_average_range (ops : List (AvgOp K)) (lo hi : K) (h : ∀ p ∈ Spec.sinceReset ops, 0 ≤ p.2 ∧ lo ≤ p.1 ∧ p.1 ≤ hi)
    (hp : 0 < ((Spec.sinceReset ops).map fun p => p.2).sum) :
    lo ≤ ((Average.make : Average K).run ops).get ∧ ((Average.make : Average K).run ops).get ≤ hi := by
  obtain ⟨h1, h2⟩ := wsum_bound lo hi _ h
  rw [C85_average_partial ops hp, Spec.mean]
  constructor
  · rw [le_div_iff₀ hp, mul_comm]; exact h1
  · rw [div_le_iff₀ hp, mul_comm]; exact h2

/-- **C85 is violated by weights with a negative sum**: the average is 0, although the weighted mean is `v`. -/
theorem C85_average_negative_violated (v w : K) (hv : v ≠ 0) (hw : w < 0) :
    ((Average.make : Average K).run [.add v w]).get = 0 ∧ Spec.mean (Spec.sinceReset [.add v w]) = v ∧ v ≠ 0 := by
  refine ⟨?_, ?_, hv⟩
  · rw [run_make]
    simp [Spec.sinceReset, Average.get, not_lt.2 hw.le]
  · simp only [Spec.sinceReset, Spec.mean, List.any_nil, Bool.false_eq_true, if_false, List.map_cons, List.map_nil, List.sum_cons, List.sum_nil,
      add_zero]
    rw [mul_comm, mul_div_assoc, div_self hw.ne, mul_one]

/-- **C85 is violated**: an average to which values were added says that it is empty if their weights cancel. -/
theorem C85_average_cancel_violated (v u w : K) : ((Average.make : Average K).run [.add v w, .add u (-w)]).empty = true ∧
    Spec.sinceReset [AvgOp.add v w, .add u (-w)] ≠ [] := by
  constructor
  · rw [C85_average_empty_iff]; simp [Spec.sinceReset]
  · simp [Spec.sinceReset]
end

example : ((Average.make : Average ℚ).run [.add 100 1, .reset, .add 1 1, .add 4 2]).get = 3 := by decide +kernel

/-! ## Differences -/

/-- **C85.** Call `n` of a `delta` gives the difference to the value of the call before, and at first to the initial value. -/
theorem C85_delta (p : K) (xs : List K) : (deltas p xs).length = xs.length ∧
    ∀ n x, xs[n]? = some x → (deltas p xs)[n]? = some (x - (if n = 0 then p else xs.getD (n - 1) 0)) := by
  induction xs generalizing p with
  | nil => simp [deltas]
  | cons y ys ih =>
    obtain ⟨h1, h2⟩ := ih y
    refine ⟨by simp [deltas, delta, h1], fun n x hn => ?_⟩
    cases n with
    | zero => simp at hn; simp [deltas, delta, hn]
    | succ m =>
      simp only [List.getElem?_cons_succ] at hn
      rw [deltas]
      simp only [List.getElem?_cons_succ, delta]
      rw [h2 m x hn]
      cases m <;> simp

/-- The differences add up to the difference between the last value and the initial one. -/
theorem C85_delta_sum (p : K) (xs : List K) : (deltas p xs).sum = xs.getLastD p - p := by
  induction xs generalizing p with
  | nil => simp [deltas]
  | cons y ys ih =>
    have e : (y :: ys).getLastD p = ys.getLastD y := by cases ys <;> simp [List.getLast?_cons]
    rw [e, deltas]
    simp only [delta, List.sum_cons, ih]
    ring

example : deltas (0 : ℚ) [3, 5, 4] = [3, 2, -1] := by decide +kernel

/-! ## Digital filters -/

omit [LinearOrder K] in
theorem shift_eq : ∀ (i : Nat) (l : List K), i < l.length → shift i l = l.take 1 ++ l.take i ++ l.drop (i + 1)
  | 0, l, h => by
    cases l with
    | nil => simp at h
    | cons a l => simp [shift]
  | i + 1, l, h => by
    rw [shift, shift_eq i _ (by simp; omega)]
    have e1 : (l.set (i + 1) (l.getD i 0)).take 1 = l.take 1 := by cases l <;> simp
    have e2 : (l.set (i + 1) (l.getD i 0)).take i = l.take i := by rw [List.take_set_of_le (by omega)]
    have e3 : (l.set (i + 1) (l.getD i 0)).drop (i + 1) = l.getD i 0 :: l.drop (i + 2) := by
      rw [List.drop_eq_getElem_cons (by simpa using h), List.drop_set_of_lt (by omega)]
      simp
    have e4 : l.take (i + 1) = l.take i ++ [l.getD i 0] := by
      rw [List.take_succ, List.getD_eq_getElem?_getD, List.getElem?_eq_getElem (by omega)]
      simp
    rw [e1, e2, e3, e4]
    simp

omit [LinearOrder K] in
theorem shift_set (l : List K) (x : K) (h : l.length ≠ 0) : (shift (l.length - 1) l).set 0 x = x :: l.dropLast := by
  rw [shift_eq _ _ (by omega)]
  cases l with
  | nil => simp at h
  | cons a l =>
    simp only [List.take_succ_cons, List.take_zero, List.length_cons, Nat.add_sub_cancel, List.cons_append, List.nil_append, List.set_cons_zero]
    rw [List.drop_of_length_le (by simp), List.append_nil, List.dropLast_eq_take]
    simp

omit [LinearOrder K] in
theorem accumulate_eq (f : Iir K) (n : Nat) (acc : K) : f.accumulate n acc =
    acc + ∑ i ∈ range n, (f.b.getD i 0 * f.x.getD i 0 + f.a.getD i 0 * f.y.getD i 0) := by
  induction n with
  | zero => simp [Iir.accumulate]
  | succ n ih => rw [Iir.accumulate, ih, sum_range_succ]; ring

/-- The state holds the last inputs `hx` and outputs `hy`, newest first, filled up with zeros. -/
def Keeps (f : Iir K) (N : Nat) (hx hy : List K) : Prop :=
  f.x = (hx ++ List.replicate N 0).take N ∧ f.y = (hy ++ List.replicate N 0).take N

omit [LinearOrder K] in
theorem keeps_getD {l h : List K} {N : Nat} (e : l = (h ++ List.replicate N 0).take N) {i : Nat} (hi : i < N) : l.getD i 0 = h.getD i 0 := by
  subst e
  rw [List.getD_eq_getElem?_getD, List.getElem?_take, if_pos hi, List.getElem?_append, List.getD_eq_getElem?_getD]
  split
  · rfl
  · rw [List.getElem?_replicate]
    rename_i hn
    rw [List.getElem?_eq_none (by omega)]
    split <;> rfl

omit [LinearOrder K] in
theorem keeps_push {h : List K} {N : Nat} (x : K) (hN : 0 < N) :
    x :: ((h ++ List.replicate N 0).take N).dropLast = ((x :: h) ++ List.replicate N 0).take N := by
  obtain ⟨m, rfl⟩ : ∃ m, N = m + 1 := ⟨N - 1, by omega⟩
  rw [List.cons_append, List.take_succ_cons, List.dropLast_eq_take, List.take_take]
  simp

omit [LinearOrder K] in
theorem run_keeps (N : Nat) (hN : 0 < N) (xs : List K) : ∀ (f : Iir K) (hx hy : List K), Keeps f N hx hy → ∃ ys, f.run xs = .ok ys ∧
    ys.length = xs.length ∧ ∀ n < xs.length, ys.getD n 0 = f.b0 * xs.getD n 0 +
      ∑ i ∈ range N, (f.b.getD i 0 * ((xs.take n).reverse ++ hx).getD i 0 + f.a.getD i 0 * ((ys.take n).reverse ++ hy).getD i 0) := by
  induction xs with
  | nil => intro f hx hy _; exact ⟨[], rfl, rfl, fun n hn => by simp at hn⟩
  | cons x xs ih =>
    intro f hx hy hk
    have hlen : f.x.length = N := by rw [hk.1]; simp
    have hylen : f.y.length = N := by rw [hk.2]; simp
    have hy0 : f.accumulate N (f.b0 * x) = f.b0 * x + ∑ i ∈ range N, (f.b.getD i 0 * hx.getD i 0 + f.a.getD i 0 * hy.getD i 0) := by
      rw [accumulate_eq]
      congr 1
      refine sum_congr rfl fun i hi => ?_
      rw [keeps_getD hk.1 (mem_range.1 hi), keeps_getD hk.2 (mem_range.1 hi)]
    have hstep : f.step x = .ok (f.accumulate N (f.b0 * x), { f with x := x :: f.x.dropLast, y := f.accumulate N (f.b0 * x) :: f.y.dropLast }) := by
      rw [Iir.step, hlen, if_neg (by omega)]
      have e1 := shift_set f.x x (by omega)
      have e2 := shift_set f.y (f.accumulate N (f.b0 * x)) (by omega)
      rw [hlen] at e1
      rw [hylen] at e2
      rw [e1, e2]
    generalize hyv : f.accumulate N (f.b0 * x) = y at *
    obtain ⟨ys, h1, h2, h3⟩ := ih { f with x := x :: f.x.dropLast, y := y :: f.y.dropLast } (x :: hx) (y :: hy)
      ⟨by rw [← keeps_push x hN, ← hk.1], by rw [← keeps_push y hN, ← hk.2]⟩
    refine ⟨y :: ys, ?_, by simp [h2], ?_⟩
    · rw [Iir.run, hstep]
      simp only [Res.bind_ok, h1]
      rfl
    · intro n hn
      cases n with
      | zero => simpa using hy0
      | succ m =>
        have := h3 m (by simpa using hn)
        simpa using this

omit [LinearOrder K] in
theorem past_eq (l : List K) (n i : Nat) (hn : n ≤ l.length) : (l.take n).reverse.getD i 0 = Spec.past l n i := by
  unfold Spec.past
  rw [List.getD_eq_getElem?_getD]
  by_cases h : i + 1 ≤ n
  · have e : (l.take n).length - 1 - i = n - (i + 1) := by rw [List.length_take, Nat.min_eq_left hn]; omega
    rw [List.getElem?_reverse (by simp; omega), if_pos h, e, List.getElem?_take, if_pos (by omega), List.getD_eq_getElem?_getD]
  · rw [if_neg h, List.getElem?_eq_none (by simp; omega)]
    rfl

omit [LinearOrder K] in
/-- **C85.** A digital filter with `N ≥ 1` coefficients computes its difference equation: output `n` is the weighted sum of the input `n` and
the `N` inputs and outputs before; before the start they are 0. -/
theorem C85_difference_equation (b0 : K) (b a : List K) (hb : b ≠ []) (hl : a.length = b.length) (xs : List K) :
    ∃ ys, (Iir.make b0 b a).run xs = .ok ys ∧ ys.length = xs.length ∧ ∀ n < xs.length, ys.getD n 0 = b0 * xs.getD n 0 +
      (∑ i ∈ range b.length, b.getD i 0 * Spec.past xs n i) + ∑ i ∈ range a.length, a.getD i 0 * Spec.past ys n i := by
  have hN : 0 < b.length := List.length_pos_of_ne_nil hb
  obtain ⟨ys, h1, h2, h3⟩ := run_keeps b.length hN xs (Iir.make b0 b a) [] [] ⟨by simp [Iir.make], by simp [Iir.make]⟩
  refine ⟨ys, h1, h2, fun n hn => ?_⟩
  rw [h3 n hn, hl, add_assoc, ← sum_add_distrib]
  congr 1
  refine sum_congr rfl fun i _ => ?_
  rw [List.append_nil, List.append_nil, past_eq _ _ _ hn.le, past_eq _ _ _ (by omega)]
  rfl

/-- A filter without coefficients writes behind its arrays. -/
theorem C85_no_coefficients_violated (b0 x : K) : (Iir.make b0 [] []).run [x] = .ub := by
  simp [Iir.make, Iir.run, Iir.step]

/-- `velocity` of a filter with one coefficient reads behind the array. -/
theorem C85_velocity_violated (b0 b a : K) : (Iir.make b0 [b] [a]).velocity = .ub := rfl

omit [LinearOrder K] in
theorem past_comb (α β : K) (xs zs ls : List K) (n i : Nat) (h : ∀ m < n, ls.getD m 0 = α * xs.getD m 0 + β * zs.getD m 0) :
    Spec.past ls n i = α * Spec.past xs n i + β * Spec.past zs n i := by
  unfold Spec.past
  split
  · exact h _ (by omega)
  · simp

omit [LinearOrder K] in
/-- **C85.** A digital filter is linear: the output of a combination of two signals is that combination of their outputs. -/
theorem C85_linear (b0 : K) (b a : List K) (hb : b ≠ []) (hl : a.length = b.length) (α β : K) (xs zs ls : List K) (hx : xs.length = ls.length)
    (hz : zs.length = ls.length) (h : ∀ n < ls.length, ls.getD n 0 = α * xs.getD n 0 + β * zs.getD n 0) :
    ∃ ys ws os, (Iir.make b0 b a).run xs = .ok ys ∧ (Iir.make b0 b a).run zs = .ok ws ∧ (Iir.make b0 b a).run ls = .ok os ∧
      ∀ n < ls.length, os.getD n 0 = α * ys.getD n 0 + β * ws.getD n 0 := by
  obtain ⟨ys, h1, h2, h3⟩ := C85_difference_equation b0 b a hb hl xs
  obtain ⟨ws, g1, g2, g3⟩ := C85_difference_equation b0 b a hb hl zs
  obtain ⟨os, k1, k2, k3⟩ := C85_difference_equation b0 b a hb hl ls
  refine ⟨ys, ws, os, h1, g1, k1, fun n => ?_⟩
  induction n using Nat.strongRecOn with
  | ind n ih =>
    intro hn
    rw [k3 n hn, h3 n (by omega), g3 n (by omega), h n hn]
    have e1 : ∑ i ∈ range b.length, b.getD i 0 * Spec.past ls n i =
        α * (∑ i ∈ range b.length, b.getD i 0 * Spec.past xs n i) + β * ∑ i ∈ range b.length, b.getD i 0 * Spec.past zs n i := by
      rw [mul_sum, mul_sum, ← sum_add_distrib]
      refine sum_congr rfl fun i _ => ?_
      rw [past_comb α β xs zs ls n i fun m hm => h m (by omega)]
      ring
    have e2 : ∑ i ∈ range a.length, a.getD i 0 * Spec.past os n i =
        α * (∑ i ∈ range a.length, a.getD i 0 * Spec.past ys n i) + β * ∑ i ∈ range a.length, a.getD i 0 * Spec.past ws n i := by
      rw [mul_sum, mul_sum, ← sum_add_distrib]
      refine sum_congr rfl fun i _ => ?_
      rw [past_comb α β ys ws os n i fun m hm => ih m hm (by omega)]
      ring
    rw [e1, e2]
    ring

omit [LinearOrder K] in
/-- **C85.** Outputs depend on inputs up to their time only: the output of a longer signal begins with the output of its beginning. -/
theorem C85_causal (f : Iir K) (xs zs ys : List K) (h : f.run (xs ++ zs) = .ok ys) : f.run xs = .ok (ys.take xs.length) := by
  induction xs generalizing f ys with
  | nil => simp [Iir.run]
  | cons x xs ih =>
    rw [List.cons_append, Iir.run] at h
    rw [Iir.run]
    cases hs : f.step x with
    | ok r =>
      rw [hs] at h
      simp only [Res.bind_ok] at h ⊢
      cases hr : r.2.run (xs ++ zs) with
      | ok vs =>
        rw [hr] at h
        cases h
        rw [ih _ _ hr]
        rfl
      | err => rw [hr] at h; cases h
      | ub => rw [hr] at h; cases h
    | err => rw [hs] at h; cases h
    | ub => rw [hs] at h; cases h

example : (Iir.make (1 : ℚ) [1, 2] [3, 0]).run [1, 0, 0] = .ok [1, 4, 14] := by decide +kernel

end

/-! ## The low-pass filter -/
open Real Filter Topology

/-- The value of a recurrence with two complex roots `α ± β i` goes to 0 if their magnitude is below 1. -/
theorem recurrence_tendsto (e : ℕ → ℝ) (α β : ℝ) (hβ : β ≠ 0) (hρ : α ^ 2 + β ^ 2 < 1) (N : ℕ)
    (h : ∀ n ≥ N, e (n + 2) = 2 * α * e (n + 1) - (α ^ 2 + β ^ 2) * e n) : Tendsto e atTop (𝓝 0) := by
  set ρ := α ^ 2 + β ^ 2 with hρd
  have hρ0 : 0 ≤ ρ := by positivity
  let V : ℕ → ℝ := fun n => (e (n + 1) - α * e n) ^ 2 + β ^ 2 * e n ^ 2
  have hV : ∀ n, V (N + n) = ρ ^ n * V N := by
    intro n
    induction n with
    | zero => simp
    | succ n ih =>
      have := h (N + n) (by omega)
      have e1 : V (N + (n + 1)) = ρ * V (N + n) := by
        show (e (N + (n + 1) + 1) - α * e (N + (n + 1))) ^ 2 + β ^ 2 * e (N + (n + 1)) ^ 2 =
          ρ * ((e (N + n + 1) - α * e (N + n)) ^ 2 + β ^ 2 * e (N + n) ^ 2)
        rw [show N + (n + 1) + 1 = N + n + 2 by omega, show N + (n + 1) = N + n + 1 by omega, this, hρd]
        ring
      rw [e1, ih]
      ring
  have hb : ∀ n, e (N + n) ^ 2 ≤ ρ ^ n * (V N / β ^ 2) := by
    intro n
    have h1 : β ^ 2 * e (N + n) ^ 2 ≤ V (N + n) := le_add_of_nonneg_left (sq_nonneg _)
    rw [hV n] at h1
    have hp : 0 < β ^ 2 := by positivity
    rw [← mul_div_assoc, le_div_iff₀ hp]
    linarith
  have hlim : Tendsto (fun n => ρ ^ n * (V N / β ^ 2)) atTop (𝓝 0) := by
    have := (tendsto_pow_atTop_nhds_zero_of_lt_one hρ0 hρ).mul_const (V N / β ^ 2)
    simpa using this
  have hsq : Tendsto (fun n => e (N + n) ^ 2) atTop (𝓝 0) := squeeze_zero (fun n => sq_nonneg _) hb hlim
  have habs : Tendsto (fun n => |e (N + n)|) atTop (𝓝 0) := by
    have := (Real.continuous_sqrt.tendsto 0).comp hsq
    simp only [Real.sqrt_zero] at this
    refine this.congr fun n => ?_
    simp [Function.comp, Real.sqrt_sq_eq_abs]
  have h2 : Tendsto (fun n => e (N + n)) atTop (𝓝 0) := (tendsto_zero_iff_abs_tendsto_zero _).2 habs
  have h3 : Tendsto (fun n => e (n + N)) atTop (𝓝 0) := by simpa [add_comm] using h2
  exact (tendsto_add_atTop_iff_nat N).1 h3

/-- The output of the filter for a signal without end, at time `n`. -/
noncomputable def outAt (f : Iir ℝ) (x : ℕ → ℝ) (n : ℕ) : ℝ :=
  match f.run ((List.range (n + 1)).map x) with
  | .ok ys => ys.getD n 0
  | _ => 0

theorem outAt_of_longer (f : Iir ℝ) (x : ℕ → ℝ) (m n : ℕ) (hm : m ≤ n) (ys : List ℝ) (h : f.run ((List.range (n + 1)).map x) = .ok ys) :
    outAt f x m = ys.getD m 0 := by
  have e : (List.range (n + 1)).map x = (List.range (m + 1)).map x ++ (List.range' (m + 1) (n - m)).map x := by
    rw [← List.map_append, List.range_eq_range', List.range_eq_range']
    have := List.range'_append (s := 0) (m := m + 1) (n := n - m) (step := 1)
    rw [Nat.one_mul, Nat.zero_add] at this
    rw [this]
    congr 2
    omega
  rw [e] at h
  have := C85_causal f _ _ _ h
  unfold outAt
  rw [this]
  simp [List.getD_eq_getElem?_getD, List.getElem?_take]

theorem outAt_equation (b0 b1 b2 a1 a2 : ℝ) (x : ℕ → ℝ) (n : ℕ) : outAt (Iir.make b0 [b1, b2] [a1, a2]) x (n + 2) =
    b0 * x (n + 2) + (b1 * x (n + 1) + b2 * x n) + (a1 * outAt (Iir.make b0 [b1, b2] [a1, a2]) x (n + 1) +
      a2 * outAt (Iir.make b0 [b1, b2] [a1, a2]) x n) := by
  obtain ⟨ys, h1, h2, h3⟩ := C85_difference_equation b0 [b1, b2] [a1, a2] (by simp) rfl ((List.range (n + 3)).map x)
  rw [outAt_of_longer _ x (n + 2) (n + 2) le_rfl ys h1, outAt_of_longer _ x (n + 1) (n + 2) (by omega) ys h1,
    outAt_of_longer _ x n (n + 2) (by omega) ys h1, h3 (n + 2) (by simp)]
  have hx : ∀ m < n + 3, ((List.range (n + 3)).map x).getD m 0 = x m := by
    intro m hm
    simp [List.getD_eq_getElem?_getD, hm]
  simp only [List.length_cons, List.length_nil, Nat.zero_add, sum_range_succ, sum_range_zero, Spec.past]
  rw [if_pos (by omega), if_pos (by omega), if_pos (by omega), if_pos (by omega), hx _ (by omega), hx _ (by omega), hx _ (by omega)]
  simp

/-- The coefficients for a cut-off between 0 and half the sampling rate. -/
theorem butterworth_coeff {c : ℝ} (h0 : 0 < c) (h1 : c < 1 / 2) : ∃ k b0 : ℝ, 0 < k ∧ b0 * (1 + √2 * k + k * k) = 1 ∧ 0 < b0 ∧
    butterworth c = Iir.make b0 [2 * b0, b0] [2 * (k * k - 1) * b0, -(1 - √2 * k + k * k) * b0] := by
  have ht : 0 < tan (π * c) := tan_pos_of_pos_of_lt_pi_div_two (by positivity) (by nlinarith [pi_pos])
  have hk : 0 < 1 / tan (π * c) := by positivity
  have hd : 0 < 1 + √2 * (1 / tan (π * c)) + 1 / tan (π * c) * (1 / tan (π * c)) := by positivity
  exact ⟨1 / tan (π * c), 1 / (1 + √2 * (1 / tan (π * c)) + 1 / tan (π * c) * (1 / tan (π * c))), hk, by
    rw [one_div, inv_mul_cancel₀ hd.ne'], by positivity, rfl⟩

/-- The filter forgets: if, from some time on, `y - e` solves the equation for the input, then the output approaches `e`-less. -/
theorem butterworth_settles {c : ℝ} (h0 : 0 < c) (h1 : c < 1 / 2) (x t : ℕ → ℝ) (b0 k : ℝ) (hk : 0 < k) (hb : b0 * (1 + √2 * k + k * k) = 1)
    (hb0 : 0 < b0) (hf : butterworth c = Iir.make b0 [2 * b0, b0] [2 * (k * k - 1) * b0, -(1 - √2 * k + k * k) * b0])
    (ht : ∀ n, t (n + 2) = b0 * (x (n + 2) + 2 * x (n + 1) + x n) + 2 * (k * k - 1) * b0 * t (n + 1) - (1 - √2 * k + k * k) * b0 * t n) :
    Tendsto (fun n => outAt (butterworth c) x n - t n) atTop (𝓝 0) := by
  have hs : √2 * √2 = 2 := Real.mul_self_sqrt (by norm_num)
  have hs0 : 0 < √2 := Real.sqrt_pos.2 (by norm_num)
  have hρ : ((k * k - 1) * b0) ^ 2 + (√2 * k * b0) ^ 2 = (1 - √2 * k + k * k) * b0 := by
    have : (1 - √2 * k + k * k) * b0 = (1 - √2 * k + k * k) * b0 * (b0 * (1 + √2 * k + k * k)) := by rw [hb, mul_one]
    rw [this]
    have : (√2 * k * b0) ^ 2 = 2 * k ^ 2 * b0 ^ 2 := by linear_combination k ^ 2 * b0 ^ 2 * hs
    rw [this]
    have : (1 - √2 * k + k * k) * b0 * (b0 * (1 + √2 * k + k * k)) = ((1 + k * k) ^ 2 - (√2 * √2) * k ^ 2) * b0 ^ 2 := by ring
    rw [this, hs]
    ring
  refine recurrence_tendsto _ ((k * k - 1) * b0) (√2 * k * b0) (by positivity) ?_ 0 fun n _ => ?_
  · rw [hρ]
    nlinarith [mul_pos (mul_pos hs0 hk) hb0]
  · rw [hρ, ht n, hf, outAt_equation]
    ring

/-- **C85.** The low-pass filter passes constant signals: the output approaches the input, for every cut-off below half the sampling rate. -/
theorem C85_lowpass_constant (c : ℝ) (h0 : 0 < c) (h1 : c < 1 / 2) (v : ℝ) : Tendsto (fun n => outAt (butterworth c) (fun _ => v) n) atTop (𝓝 v) := by
  obtain ⟨k, b0, hk, hb, hb0, hf⟩ := butterworth_coeff h0 h1
  have := butterworth_settles h0 h1 (fun _ => v) (fun _ => v) b0 k hk hb hb0 hf fun n => by
    have : v = v * (b0 * (1 + √2 * k + k * k)) := by rw [hb, mul_one]
    linear_combination this
  simpa using this.add_const v

/-- **C85.** It removes the fastest alternating signal. -/
theorem C85_lowpass_alternating (c : ℝ) (h0 : 0 < c) (h1 : c < 1 / 2) (v : ℝ) :
    Tendsto (fun n => outAt (butterworth c) (fun m => (-1) ^ m * v) n) atTop (𝓝 0) := by
  obtain ⟨k, b0, hk, hb, hb0, hf⟩ := butterworth_coeff h0 h1
  have := butterworth_settles h0 h1 (fun m => (-1) ^ m * v) (fun _ => 0) b0 k hk hb hb0 hf fun n => by
    simp only [pow_succ]
    ring
  simpa using this

/-- The conditions can be met. -/
example : (0 : ℝ) < 1 / 10 ∧ (1 / 10 : ℝ) < 1 / 2 := by norm_num

/-! ## The filter of the first order -/

/-- **C85.** Steps with the same input can be joined: the result depends on the sum of the time steps only. -/
theorem C85_first_order_steps (rate c v : ℝ) (dts : List ℝ) : accurateRun rate c (dts.map fun dt => (v, dt)) = accurate rate c v dts.sum := by
  induction dts generalizing c with
  | nil => simp [accurateRun, accurate]
  | cons dt dts ih =>
    rw [List.map_cons, accurateRun, ih, List.sum_cons]
    unfold accurate
    rw [mul_add, Real.exp_add]
    ring

/-- The result lies between the old value and the input. -/
theorem C85_first_order_between (rate c v dt : ℝ) (hr : 0 ≤ rate) (hd : 0 ≤ dt) :
    min c v ≤ accurate rate c v dt ∧ accurate rate c v dt ≤ max c v := by
  have h1 : 0 < exp (-rate * dt) := exp_pos _
  have h2 : exp (-rate * dt) ≤ 1 := by rw [exp_le_one_iff]; nlinarith
  unfold accurate
  rcases le_total c v with h | h
  · rw [min_eq_left h, max_eq_right h]; constructor <;> nlinarith
  · rw [min_eq_right h, max_eq_left h]; constructor <;> nlinarith

/-- Whatever the inputs are, the value stays in the range of the first value and the inputs. -/
theorem C85_first_order_range (rate lo hi : ℝ) (hr : 0 ≤ rate) (l : List (ℝ × ℝ)) : ∀ c, lo ≤ c → c ≤ hi →
    (∀ p ∈ l, lo ≤ p.1 ∧ p.1 ≤ hi ∧ 0 ≤ p.2) → lo ≤ accurateRun rate c l ∧ accurateRun rate c l ≤ hi := by
  induction l with
  | nil => intro c h1 h2 _; exact ⟨h1, h2⟩
  | cons p l ih =>
    obtain ⟨v, dt⟩ := p
    intro c h1 h2 h
    obtain ⟨g1, g2, g3⟩ := h (v, dt) (by simp)
    obtain ⟨k1, k2⟩ := C85_first_order_between rate c v dt hr g3
    exact ih _ ((le_min h1 g1).trans k1) (k2.trans (max_le h2 g2)) fun q hq => h q (by simp [hq])

/-- **C85.** The value approaches a constant input. -/
theorem C85_first_order_settles (rate c v : ℝ) (hr : 0 < rate) : Tendsto (fun t => accurate rate c v t) atTop (𝓝 v) := by
  have h1 : Tendsto (fun t : ℝ => -rate * t) atTop atBot := tendsto_id.const_mul_atTop_of_neg (by linarith)
  have h2 := (Real.tendsto_exp_atBot.comp h1).const_mul (c - v) |>.const_add v
  simpa [accurate, Function.comp] using h2

/-- The fast update stays between the old value and the input. (partial: for time steps up to `1 / rate`) -/
theorem C85_fast_between_partial (rate c v dt : ℝ) (h0 : 0 ≤ dt * rate) (h1 : dt * rate ≤ 1) :
    min c v ≤ fast rate c v dt ∧ fast rate c v dt ≤ max c v := by
  unfold fast
  rcases le_total c v with h | h
  · rw [min_eq_left h, max_eq_right h]; constructor <;> nlinarith
  · rw [min_eq_right h, max_eq_left h]; constructor <;> nlinarith

/-- **C85 is violated by the fast update for longer time steps**: the value moves beyond the input, and for steps above `2 / rate` it is
farther from the input than before. -/
theorem C85_fast_violated (rate c v dt : ℝ) (hc : c < v) (h : 1 < dt * rate) :
    v < fast rate c v dt ∧ (2 < dt * rate → |c - v| < |fast rate c v dt - v|) := by
  unfold fast
  refine ⟨by nlinarith, fun h2 => ?_⟩
  rw [abs_of_neg (by linarith), abs_of_pos (by nlinarith)]
  nlinarith

example : fast 1 0 1 (1 / 2) = 1 / 2 ∧ accurateRun 1 0 [(1, 1), (1, 2)] = accurate 1 0 1 3 := by
  constructor
  · norm_num [fast]
  · have := C85_first_order_steps 1 0 1 [1, 2]
    simp only [List.map_cons, List.map_nil, List.sum_cons, List.sum_nil] at this
    rw [this]
    norm_num

end Xo.Filt
