import Verif.Model.IntAverage
import Mathlib.Algebra.Order.Ring.Int
import Mathlib.Algebra.BigOperators.Group.List.Basic
import Mathlib.Algebra.Order.BigOperators.Group.List
import Mathlib.Tactic.Ring
import Mathlib.Tactic.Linarith
import Mathlib.Tactic.NormNum

/-!
C135: averages and variances of whole numbers are the exact ones, rounded.
-/
namespace Xo.IntAvg.Spec
open Xo.IntAvg

/-- The types of the claim: the four sizes, with or without sign. -/
def Known (t : Ty) : Prop := t.bits = 8 ∨ t.bits = 16 ∨ t.bits = 32 ∨ t.bits = 64

/-- A value of the type. -/
def OfTy (t : Ty) (v : Int) : Prop := t.lo ≤ v ∧ v < t.hi

/-- All the sums of the first few elements are values of the type. -/
def SumsFit (t : Ty) (l : List Int) : Prop := ∀ k, OfTy t (l.take k).sum

/-- `q` is `a / n` rounded towards zero. -/
def RoundsToZero (a : Int) (n : Nat) (q : Int) : Prop :=
  (0 ≤ a → 0 ≤ q ∧ q * n ≤ a ∧ a < q * n + n) ∧ (a ≤ 0 → q ≤ 0 ∧ a ≤ q * n ∧ q * n - n < a)

/-- The sum of the squares of the distances from `m`. -/
def spread (m : Int) (l : List Int) : Int := (l.map fun a => (a - m) * (a - m)).sum

/-- `n^2` times the variance of `n` numbers: `n` times the sum of the squares, less the square of the sum. -/
def varNum (l : List Int) : Int := l.length * (l.map fun a => a * a).sum - l.sum * l.sum

end Xo.IntAvg.Spec

namespace Xo.IntAvg
open Xo.IntAvg.Spec

theorem range_of (t : Ty) (h : Known t) : t.hi = t.lo + 2 ^ t.bits ∧ (0 : Int) < 2 ^ t.bits ∧ t.lo ≤ 0 ∧ 0 < t.hi := by
  obtain ⟨b, s⟩ := t
  rcases h with h | h | h | h <;> simp only at h <;> subst h <;> cases s <;> simp [Ty.hi, Ty.lo]

theorem conv_id {t : Ty} (h : Known t) {v : Int} (hv : OfTy t v) : conv t v = v := by
  obtain ⟨h1, h2, -, -⟩ := range_of t h
  obtain ⟨h3, h4⟩ := hv
  unfold conv
  rw [Int.emod_eq_of_lt (by omega) (by omega)]
  omega

theorem conv_ofTy {t : Ty} (h : Known t) (v : Int) : OfTy t (conv t v) := by
  obtain ⟨h1, h2, -, -⟩ := range_of t h
  have ha := Int.emod_nonneg (v - t.lo) (show (2 : Int) ^ t.bits ≠ 0 by omega)
  have hb := Int.emod_lt_of_pos (v - t.lo) h2
  unfold conv OfTy
  omega

theorem known_promoted {t : Ty} (h : Known t) : Known t.promoted := by
  unfold Ty.promoted
  split
  · exact Or.inr (Or.inr (Or.inl rfl))
  · exact h

theorem ofTy_promoted {t : Ty} (h : Known t) {v : Int} (hv : OfTy t v) : OfTy t.promoted v := by
  obtain ⟨b, s⟩ := t
  unfold OfTy Ty.promoted Ty.lo Ty.hi at *
  rcases h with h | h | h | h <;> simp only at h <;> subst h <;> cases s <;> simp_all <;> omega

theorem plus_fit {t : Ty} (h : Known t) {a b : Int} (hv : OfTy t (a + b)) : plus t a b = .ok (a + b) := by
  have hp := ofTy_promoted h hv
  have hk := known_promoted h
  unfold plus arith
  have hp' : t.promoted.lo ≤ a + b ∧ a + b < t.promoted.hi := hp
  cases hs : t.promoted.signed
  · simp only [Bool.false_eq_true, if_false, Res.bind, conv_id hk hp, conv_id h hv]
  · simp only [if_true, if_pos hp', Res.bind, conv_id h hv]

theorem accumulate_fit {t : Ty} (h : Known t) (l : List Int) (init : Int)
    (hf : ∀ k, OfTy t (init + (l.take k).sum)) : accumulate t l init = .ok (init + l.sum) := by
  induction l generalizing init with
  | nil => simp [accumulate]
  | cons a l ih =>
    have h1 := hf 1
    simp only [List.take_succ_cons, List.take_zero, List.sum_cons, List.sum_nil, add_zero] at h1
    simp only [accumulate, plus_fit h h1, Res.bind]
    rw [ih (init + a) fun k => by have := hf (k + 1); simp only [List.take_succ_cons, List.sum_cons] at this; rwa [add_assoc]]
    simp only [List.sum_cons, add_assoc]

theorem quotient_rounds (a : Int) (n : Nat) (hn : 0 < n) : RoundsToZero a n (quotient a n) := by
  have hn' : (0 : Int) < n := by exact_mod_cast hn
  have key : ∀ c : Int, 0 ≤ c → 0 ≤ c.tdiv n ∧ c.tdiv n * n ≤ c ∧ c < c.tdiv n * n + n := by
    intro c hc
    have h1 := Int.mul_tdiv_add_tmod c n
    have h2 := Int.tmod_nonneg (n : Int) hc
    have h3 := Int.tmod_lt_of_pos c hn'
    have h4 : c.tdiv n * n = n * c.tdiv n := mul_comm _ _
    exact ⟨Int.tdiv_nonneg hc hn'.le, by omega, by omega⟩
  constructor
  · exact fun h => key a h
  · intro h
    have h1 := key (-a) (by omega)
    unfold quotient
    have h2 : (-a).tdiv n = -(a.tdiv n) := Int.neg_tdiv ..
    rw [h2] at h1
    have h3 : -(a.tdiv ↑n) * ↑n = -(a.tdiv ↑n * ↑n) := by ring
    rw [h3] at h1
    omega

/-- The average of whole numbers is the exact average rounded towards zero, whenever the sums of the first few elements are
all values of the type. -/
theorem C135_average_partial (t : Ty) (ht : Known t) (l : List Int) (hl : l ≠ []) (hf : SumsFit t l) :
    ∃ q, average t l = .ok q ∧ RoundsToZero l.sum l.length q := by
  refine ⟨quotient l.sum l.length, ?_, quotient_rounds _ _ (List.length_pos_of_ne_nil hl)⟩
  unfold average
  rw [if_neg hl, accumulate_fit ht l 0 fun k => by rw [zero_add]; exact hf k]
  simp [Res.bind]

/-- The average of no numbers is refused. -/
theorem C135_empty (t : Ty) : average t [] = .err ∧ meanVar t [] = .err := by
  simp [average, meanVar, Res.bind]

theorem sum_bounds (l : List Int) (a b : Int) (h : ∀ x ∈ l, a ≤ x ∧ x ≤ b) :
    a * l.length ≤ l.sum ∧ l.sum ≤ b * l.length := by
  induction l with
  | nil => simp
  | cons x l ih =>
    obtain ⟨h1, h2⟩ := ih fun y hy => h y (List.mem_cons_of_mem _ hy)
    obtain ⟨h3, h4⟩ := h x List.mem_cons_self
    simp only [List.length_cons, List.sum_cons, Nat.cast_add, Nat.cast_one, mul_add, mul_one]
    constructor <;> linarith

/-- The average lies between any bounds of the numbers, whenever the sums are values of the type. -/
theorem C135_between_partial (t : Ty) (ht : Known t) (l : List Int) (hl : l ≠ []) (hf : SumsFit t l) (a b : Int)
    (h : ∀ x ∈ l, a ≤ x ∧ x ≤ b) : ∃ q, average t l = .ok q ∧ a ≤ q ∧ q ≤ b := by
  obtain ⟨q, hq, hr⟩ := C135_average_partial t ht l hl hf
  refine ⟨q, hq, ?_⟩
  obtain ⟨h1, h2⟩ := sum_bounds l a b h
  have hn : (0 : Int) < l.length := by exact_mod_cast List.length_pos_of_ne_nil hl
  rcases le_total 0 l.sum with hs | hs
  · obtain ⟨h3, h4, h5⟩ := hr.1 hs
    constructor
    · by_contra hc
      have : q + 1 ≤ a := by omega
      nlinarith
    · by_contra hc
      have : b + 1 ≤ q := by omega
      nlinarith
  · obtain ⟨h3, h4, h5⟩ := hr.2 hs
    constructor
    · by_contra hc
      have : q + 1 ≤ a := by omega
      nlinarith
    · by_contra hc
      have : b + 1 ≤ q := by omega
      nlinarith

theorem plus_signed {t : Ty} (h : Known t) (h32 : 32 ≤ t.bits) (hs : t.signed = true) (a b : Int) :
    plus t a b = if t.lo ≤ a + b ∧ a + b < t.hi then .ok (a + b) else .ub := by
  have hp : t.promoted = t := if_neg (by omega)
  by_cases hc : t.lo ≤ a + b ∧ a + b < t.hi
  · rw [if_pos hc]; exact plus_fit h hc
  · rw [if_neg hc]
    simp only [plus, hp, arith, hs, if_true, if_neg hc, Res.bind]

/-- For a type with sign of at least 32 bits the condition is needed: with any other numbers the average is undefined
behaviour. -/
theorem C135_overflow (t : Ty) (ht : Known t) (h32 : 32 ≤ t.bits) (hs : t.signed = true) (l : List Int) (hl : l ≠ []) :
    (SumsFit t l ∧ average t l = .ok (l.sum.tdiv l.length)) ∨ (¬SumsFit t l ∧ average t l = .ub) := by
  by_cases hf : SumsFit t l
  · left
    refine ⟨hf, ?_⟩
    unfold average
    rw [if_neg hl, accumulate_fit ht l 0 fun k => by rw [zero_add]; exact hf k]
    simp [Res.bind, quotient]
  · right
    refine ⟨hf, ?_⟩
    have key : ∀ (l : List Int) (init : Int), OfTy t init → (¬∀ k, OfTy t (init + (l.take k).sum)) →
        accumulate t l init = .ub := by
      intro l
      induction l with
      | nil =>
        intro init hi hn
        exact absurd (fun k => by simpa using hi) hn
      | cons a l ih =>
        intro init hi hn
        simp only [accumulate, plus_signed ht h32 hs]
        by_cases hc : t.lo ≤ init + a ∧ init + a < t.hi
        · rw [if_pos hc]
          simp only [Res.bind]
          apply ih _ hc
          intro hall
          apply hn
          intro k
          cases k with
          | zero => simpa using hi
          | succ k =>
            have := hall k
            simpa only [List.take_succ_cons, List.sum_cons, add_assoc] using this
        · rw [if_neg hc]
          simp [Res.bind]
    unfold average
    rw [if_neg hl]
    have h0 : OfTy t 0 := ⟨(range_of t ht).2.2.1, (range_of t ht).2.2.2⟩
    rw [key l 0 h0 fun hall => hf fun k => by have := hall k; rwa [zero_add] at this]
    simp [Res.bind]

/-- Two copies of the largest number of a type with sign have an average that is undefined behaviour; with a type without
sign, or a narrow one, the answer is wrong. -/
theorem C135_large_violated :
    average ⟨32, true⟩ [2 ^ 31 - 1, 2 ^ 31 - 1] = .ub ∧ average ⟨64, true⟩ [2 ^ 63 - 1, 2 ^ 63 - 1] = .ub ∧
      average ⟨32, false⟩ [2 ^ 32 - 1, 2 ^ 32 - 1] = .ok (2 ^ 31 - 1) ∧
      average ⟨64, false⟩ [2 ^ 64 - 1, 2 ^ 64 - 1] = .ok (2 ^ 63 - 1) ∧
      average ⟨8, true⟩ [127, 127] = .ok (-1) ∧ average ⟨16, true⟩ [32767, 32767] = .ok (-1) ∧
      average ⟨8, false⟩ [255, 255] = .ok 127 := by decide +kernel

/-- The order of the numbers decides whether the average is defined. -/
theorem C135_order_violated : average ⟨32, true⟩ [2 ^ 31 - 1, -1, 1] = .ok 715827882 ∧
    average ⟨32, true⟩ [2 ^ 31 - 1, 1, -1] = .ub := by decide +kernel

/-- Accumulating with an operation that always has a value is a fold from the left. -/
theorem C135_operation {α β : Type} (op : β → α → β) (l : List α) (init : β) :
    accumulateOp (fun a b => .ok (op a b)) l init = .ok (l.foldl op init) := by
  induction l generalizing init with
  | nil => rfl
  | cons a l ih => simp only [accumulateOp, Res.bind, ih, List.foldl_cons]

/-- The average of a quantity of the elements, started from a value of its own: the value takes part in the sum and not in
the count. The average of nothing is refused. -/
theorem C135_quantity {α : Type} (f : α → Int) (l : List α) (init : Int) :
    (l = [] → averageOp (fun a b => .ok (a + f b)) l init = .err) ∧
      (l ≠ [] → ∃ q, averageOp (fun a b => .ok (a + f b)) l init = .ok q ∧
        RoundsToZero (init + (l.map f).sum) l.length q) := by
  constructor
  · intro h
    simp [averageOp, h]
  · intro h
    refine ⟨quotient (init + (l.map f).sum) l.length, ?_, quotient_rounds _ _ (List.length_pos_of_ne_nil h)⟩
    unfold averageOp
    rw [if_neg h, C135_operation]
    have : ∀ (l : List α) (init : Int), l.foldl (fun a b => a + f b) init = init + (l.map f).sum := by
      intro l
      induction l with
      | nil => simp
      | cons a l ih =>
        intro init
        simp only [List.foldl_cons, ih, List.map_cons, List.sum_cons, add_assoc]
    simp only [Res.bind, this]

theorem spread_id (m : Int) (l : List Int) :
    spread m l = (l.map fun a => a * a).sum - 2 * m * l.sum + l.length * (m * m) := by
  induction l with
  | nil => simp [spread]
  | cons a l ih =>
    simp only [spread, List.map_cons, List.sum_cons, List.length_cons, Nat.cast_add, Nat.cast_one] at ih ⊢
    rw [ih]; ring

theorem spread_nonneg (m : Int) (l : List Int) : 0 ≤ spread m l := by
  apply List.sum_nonneg
  intro x hx
  obtain ⟨a, -, rfl⟩ := List.mem_map.1 hx
  exact mul_self_nonneg _

/-- The rounded mean costs at most one in the variance: with every intermediate value exact, the reported variance is the
exact one rounded down, or one more. -/
theorem rounding_cost (l : List Int) (hl : l ≠ []) :
    varNum l / (l.length * l.length) ≤ quotient (spread (quotient l.sum l.length) l) l.length ∧
      quotient (spread (quotient l.sum l.length) l) l.length ≤ varNum l / (l.length * l.length) + 1 := by
  have hn : (0 : Int) < l.length := by exact_mod_cast List.length_pos_of_ne_nil hl
  set m := quotient l.sum l.length with hm
  set n : Int := (l.length : Int) with hnn
  have hr := quotient_rounds l.sum l.length (List.length_pos_of_ne_nil hl)
  rw [← hm] at hr
  have hid : n * spread m l = varNum l + (l.sum - m * n) * (l.sum - m * n) := by
    rw [spread_id, varNum, ← hnn]; ring
  have hlt : (l.sum - m * n) * (l.sum - m * n) < n * n := by
    rcases le_total 0 l.sum with hs | hs
    · obtain ⟨-, h4, h5⟩ := hr.1 hs
      rw [← hnn] at h4 h5
      nlinarith
    · obtain ⟨-, h4, h5⟩ := hr.2 hs
      rw [← hnn] at h4 h5
      nlinarith
  have h0 := mul_self_nonneg (l.sum - m * n)
  have hs0 := spread_nonneg m l
  have hq : quotient (spread m l) l.length = (n * spread m l) / (n * n) := by
    unfold quotient
    rw [Int.tdiv_eq_ediv_of_nonneg hs0, ← hnn, Int.mul_ediv_mul_of_pos _ _ hn]
  have hnn0 : 0 < n * n := mul_pos hn hn
  rw [hq, hid]
  constructor
  · exact Int.ediv_le_ediv hnn0 (by omega)
  · have h1 : (varNum l + n * n) / (n * n) = varNum l / (n * n) + 1 := by
      have := Int.add_mul_ediv_right (varNum l) 1 (show n * n ≠ 0 by omega)
      rwa [one_mul] at this
    rw [← h1]
    exact Int.ediv_le_ediv hnn0 (by omega)

theorem squares_fit {t : Ty} (h : Known t) (m : Int) (l : List Int) (acc : Int) (h0 : 0 ≤ acc)
    (hd : ∀ a ∈ l, OfTy t.promoted (a - m)) (hb : acc + spread m l < t.promoted.hi) :
    squares t m l acc = .ok (acc + spread m l) := by
  have hk := known_promoted h
  obtain ⟨-, -, hlo, -⟩ := range_of _ hk
  have har : ∀ v, OfTy t.promoted v → arith t.promoted v = .ok v := by
    intro v hv
    have hv' : t.promoted.lo ≤ v ∧ v < t.promoted.hi := hv
    unfold arith
    cases hs : t.promoted.signed
    · simp [conv_id hk hv]
    · simp [hv']
  induction l generalizing acc with
  | nil => simp [squares, spread]
  | cons a l ih =>
    have hsp : spread m (a :: l) = (a - m) * (a - m) + spread m l := rfl
    have hq := mul_self_nonneg (a - m)
    have hs := spread_nonneg m l
    rw [hsp] at hb
    simp only [squares, har _ (hd a List.mem_cons_self), Res.bind,
      har ((a - m) * (a - m)) ⟨by omega, by omega⟩, har (acc + (a - m) * (a - m)) ⟨by omega, by omega⟩]
    rw [ih _ (by omega) (fun b hb' => hd b (List.mem_cons_of_mem _ hb')) (by omega), hsp]
    congr 1
    ring

/-- The mean and the variance of whole numbers, whenever nothing overflows: the mean is the exact one rounded towards zero,
the variance is the exact one rounded down, or one more than that. The argument of the square root in the standard
deviation is that same whole number. -/
theorem C135_variance_partial (t : Ty) (ht : Known t) (l : List Int) (hl : l ≠ []) (hf : SumsFit t l)
    (hd : ∀ m, RoundsToZero l.sum l.length m → (∀ a ∈ l, OfTy t.promoted (a - m)) ∧ spread m l < t.promoted.hi) :
    ∃ m v, meanVar t l = .ok (m, v) ∧ meanStdArg t l = .ok (m, v) ∧ RoundsToZero l.sum l.length m ∧
      varNum l / (l.length * l.length) ≤ v ∧ v ≤ varNum l / (l.length * l.length) + 1 := by
  have hr := quotient_rounds l.sum l.length (List.length_pos_of_ne_nil hl)
  obtain ⟨hd1, hd2⟩ := hd _ hr
  have ha : average t l = .ok (quotient l.sum l.length) := by
    unfold average
    rw [if_neg hl, accumulate_fit ht l 0 fun k => by rw [zero_add]; exact hf k]
    simp [Res.bind]
  have hsq := squares_fit ht _ l 0 (le_refl _) hd1 (by rw [zero_add]; exact hd2)
  obtain ⟨h1, h2⟩ := rounding_cost l hl
  refine ⟨_, _, ?_, ?_, hr, h1, h2⟩
  · unfold meanVar
    rw [ha]
    simp only [Res.bind, hsq, zero_add]
  · unfold meanStdArg
    rw [ha]
    simp only [Res.bind, hsq, zero_add]

/-- One more does occur: the variance of 0, 2, 2 is 8/9 and is reported as 1, where that of 0, 1 is 1/4 and is reported as
0. -/
theorem C135_variance_violated :
    meanVar ⟨32, true⟩ [0, 2, 2] = .ok (1, 1) ∧ varNum [0, 2, 2] = 8 ∧
      meanVar ⟨32, true⟩ [0, 1] = .ok (0, 0) ∧ varNum [0, 1] = 1 := by decide +kernel

/-- The square of a distance overflows long before the numbers do: the variance of 0 and 100000 is undefined behaviour. -/
theorem C135_square_violated : meanVar ⟨32, true⟩ [0, 100000] = .ub := by decide +kernel

/-- The hypotheses are met by numbers of both signs. -/
example : average ⟨32, true⟩ [-7, 3, -5] = .ok (-3) ∧ meanVar ⟨32, true⟩ [-7, 3, -5] = .ok (-3, 18) := by decide +kernel
example : Known ⟨32, true⟩ ∧ SumsFit ⟨32, true⟩ [-7, 3, -5] := by
  refine ⟨Or.inr (Or.inr (Or.inl rfl)), fun k => ?_⟩
  match k with
  | 0 => simp [OfTy, Ty.lo, Ty.hi]
  | 1 => simp [OfTy, Ty.lo, Ty.hi]
  | 2 => simp [OfTy, Ty.lo, Ty.hi]
  | k + 3 => simp [OfTy, Ty.lo, Ty.hi]
example : RoundsToZero (-9) 3 (-3) ∧ RoundsToZero (-10) 3 (-3) ∧ RoundsToZero 10 3 3 := by
  unfold RoundsToZero; omega

end Xo.IntAvg
