import Verif.Model.Delayer
import Mathlib.Tactic.Linarith
import Mathlib.Tactic.FieldSimp
import Mathlib.Tactic.Ring
import Mathlib.Tactic.NormNum
import Mathlib.Data.List.Induction
import Mathlib.Algebra.Order.Field.Rat
import Mathlib.Algebra.BigOperators.Group.List.Basic

/-!
C59: delayers. Samples come at equal distances `dt`, and one slot of the buffer covers `m` of them, so the delay is
`(n - 1) m dt`.
-/
namespace Xo
variable {K : Type} [Field K] [LinearOrder K]

namespace Spec

/-- The value that belongs to slot `i`: the `i m`-th sample (counted from 1), the initial value for slot 0, zero before. -/
def slotValue (xs : List K) (m : Nat) (init : K) (i : Int) : K :=
  if i < 0 then 0 else if i = 0 then init else xs.getD (i.toNat * m - 1) 0

/-- The mean of the samples of slot `i`, that is of the samples `(i - 1) m + 1` to `i m`. -/
def slotMean (xs : List K) (m : Nat) (init : K) (i : Int) : K :=
  if i < 0 then 0 else if i = 0 then init else ((xs.drop ((i.toNat - 1) * m)).take m).sum / (m : K)

end Spec
open Spec

/-- The buffer holds the last `n` slots, slot `i` at place `i mod n`. -/
def RingHolds (data : List K) (s : Int → K) (j n : Nat) : Prop :=
  data.length = n ∧ ∀ i : Int, (j : Int) - n < i → i ≤ j → data[(i % n).toNat]? = some (s i)

theorem ringHolds_init (init : K) (n : Nat) (hn : 0 < n) (s : Int → K) (h0 : s 0 = init) (hneg : ∀ i < 0, s i = 0) :
    RingHolds (init :: List.replicate (n - 1) 0) s 0 n := by
  refine ⟨by simp; omega, ?_⟩
  intro i h1 h2
  by_cases hi : i = 0
  · subst hi; simp [h0]
  · have hlt : i < 0 := by omega
    have he : i % (n : Int) = i + n := by
      rw [← Int.add_emod_right]
      exact Int.emod_eq_of_lt (by omega) (by omega)
    rw [he, hneg i hlt, show (i + n).toNat = (i + n).toNat - 1 + 1 by omega, List.getElem?_cons_succ,
      List.getElem?_replicate, if_pos (by omega)]

theorem ringHolds_step {data : List K} {s s' : Int → K} {j n : Nat} (hn : 0 < n) (h : RingHolds data s j n) (v : K)
    (hv : s' (j + 1) = v) (hs : ∀ i ≤ (j : Int), s' i = s i) :
    RingHolds (data.set ((j + 1) % n) v) s' (j + 1) n := by
  refine ⟨by rw [List.length_set]; exact h.1, ?_⟩
  intro i h1 h2
  push_cast at h1 h2
  by_cases hi : i = (j : Int) + 1
  · subst hi
    have : (((j : Int) + 1) % n).toNat = (j + 1) % n := by
      have : ((j : Int) + 1) % n = (((j + 1) % n : Nat) : Int) := by push_cast; rfl
      rw [this, Int.toNat_natCast]
    rw [this, List.getElem?_set_self (by rw [h.1]; exact Nat.mod_lt _ hn), hv]
  · have hne : (j + 1) % n ≠ (i % n).toNat := by
      intro e
      have h3 : 0 ≤ i % (n : Int) := Int.emod_nonneg _ (by omega)
      have e' : (((j + 1 : Nat) : Int)) % n = i % n := by
        have : (((j + 1) % n : Nat) : Int) = ((i % (n : Int)).toNat : Int) := by rw [e]
        rw [Int.toNat_of_nonneg h3] at this
        rw [← this]
        push_cast
        rfl
      have hd : (n : Int) ∣ (((j + 1 : Nat) : Int) - i) := Int.dvd_of_emod_eq_zero (by
        rw [Int.sub_emod, e', sub_self, Int.zero_emod])
      obtain ⟨q, hq⟩ := hd
      push_cast at hq
      have hq0 : 0 < q := by
        by_contra hq0
        have : (n : Int) * q ≤ 0 := Int.mul_nonpos_of_nonneg_of_nonpos (by omega) (by omega)
        omega
      have : (n : Int) * 1 ≤ n * q := Int.mul_le_mul_of_nonneg_left (by omega) (by omega)
      omega
    rw [List.getElem?_set_ne hne, h.2 i (by omega) (by omega), hs i (by omega)]

/-- Reading the two oldest slots. -/
theorem ringHolds_read {data : List K} {s : Int → K} {j n : Nat} (hn : 2 ≤ n) (h : RingHolds data s j n) :
    data[(j % n + data.length + 2) % data.length]? = some (s ((j : Int) + 2 - n)) ∧
    data[(j % n + data.length + 1) % data.length]? = some (s ((j : Int) + 1 - n)) := by
  have key : ∀ a : Nat, 1 ≤ a → a ≤ 2 → data[(j % n + n + a) % n]? = some (s ((j : Int) + a - n)) := by
    intro a h1 h2
    have e : ((((j : Int) + a - n) % n)).toNat = (j % n + n + a) % n := by
      have h3 : ((j : Int) + a - n) % n = ((j + a : Nat) : Int) % n := by
        rw [Int.sub_emod_right]; push_cast; rfl
      have h4 : (j % n + n + a) % n = (j + a) % n := by
        rw [show j % n + n + a = j % n + a + n by omega, Nat.add_mod_right, Nat.mod_add_mod]
      rw [h3, h4]
      have : ((j + a : Nat) : Int) % n = (((j + a) % n : Nat) : Int) := by push_cast; rfl
      rw [this, Int.toNat_natCast]
    rw [← e]
    exact h.2 _ (by omega) (by omega)
  rw [h.1]
  exact ⟨by simpa using key 2 (by omega) (by omega), by simpa using key 1 (by omega) (by omega)⟩

theorem slotValue_append (xs : List K) (x : K) (m : Nat) (init : K) (i : Int) (hm : 0 < m) (h : i.toNat * m ≤ xs.length) :
    slotValue (xs ++ [x]) m init i = slotValue xs m init i := by
  unfold slotValue
  split
  · rfl
  · split
    · rfl
    · next h1 h2 =>
      have : 0 < i.toNat * m := Nat.mul_pos (by omega) hm
      rw [List.getD_eq_getElem?_getD, List.getD_eq_getElem?_getD, List.getElem?_append_left (by omega)]

/-- Quotient and remainder of the next number. -/
theorem divmod_succ (k m : Nat) (hm : 0 < m) :
    (k % m + 1 = m → (k + 1) / m = k / m + 1 ∧ (k + 1) % m = 0 ∧ k + 1 = (k / m + 1) * m) ∧
    (k % m + 1 ≠ m → (k + 1) / m = k / m ∧ (k + 1) % m = k % m + 1) := by
  have hdm := Nat.div_add_mod k m
  have hml := Nat.mod_lt k hm
  generalize k / m = q at *
  generalize k % m = r at *
  subst hdm
  constructor
  · intro h
    have e : m * q + r + 1 = m * (q + 1) := by rw [Nat.mul_succ]; omega
    rw [e]
    exact ⟨Nat.mul_div_cancel_left _ hm, Nat.mul_mod_right _ _, Nat.mul_comm _ _⟩
  · intro h
    rw [Nat.add_assoc, Nat.mul_add_div hm, Nat.mul_add_mod]
    exact ⟨by rw [Nat.div_eq_of_lt (by omega), Nat.add_zero], Nat.mod_eq_of_lt (by omega)⟩

variable [IsStrictOrderedRing K]

/-- The state of a delayer after any sequence of samples. -/
theorem delayer_state (n m : Nat) (hn : 2 ≤ n) (hm : 0 < m) (dt init : K) (hdt : 0 < dt) (xs : List K) :
    ∃ d0, Delayer.make n (((n - 1 : Nat) : K) * (m * dt)) init = .ok d0 ∧
      let d := xs.foldl (fun d x => d.add x dt) d0
      d.window = m * dt ∧ d.time = ((xs.length % m : Nat) : K) * dt ∧ d.idx = (xs.length / m) % n ∧
      RingHolds d.data (slotValue xs m init) (xs.length / m) n := by
  have hn1 : (0 : K) < ((n - 1 : Nat) : K) := by exact_mod_cast (show 0 < n - 1 by omega)
  have hm1 : (0 : K) < m := by exact_mod_cast hm
  have hpos : (0 : K) < ((n - 1 : Nat) : K) * (m * dt) := by positivity
  refine ⟨_, by unfold Delayer.make; rw [if_pos hpos], ?_⟩
  induction xs using List.reverseRecOn with
  | nil =>
    simp only [List.foldl_nil, List.length_nil, Nat.zero_mod, Nat.zero_div, Nat.cast_zero, zero_mul]
    exact ⟨by field_simp, trivial, trivial, ringHolds_init init n (by omega) _ (by simp [slotValue]) (fun i hi => by simp [slotValue, hi])⟩
  | append_singleton xs x ih =>
    simp only [List.foldl_append, List.foldl_cons, List.foldl_nil, List.length_append, List.length_cons, List.length_nil]
    simp only at ih
    obtain ⟨hw, ht, hi, hh⟩ := ih
    generalize xs.foldl (fun d x => Delayer.add d x dt) _ = d at *
    obtain ⟨w, t, ix, dat⟩ := d
    simp only at hw ht hi hh
    subst hw ht hi
    have hdm := Nat.div_add_mod xs.length m
    have hml := Nat.mod_lt xs.length hm
    unfold Delayer.add
    simp only
    by_cases hr : xs.length % m + 1 = m
    · obtain ⟨hdiv, hmod, hk⟩ := (divmod_succ xs.length m hm).1 hr
      have hcast : ((xs.length % m : Nat) : K) + 1 = m := by exact_mod_cast hr
      rw [if_pos (by nlinarith), hdiv, hmod]
      refine ⟨rfl, ?_, ?_, ?_⟩
      · push_cast; nlinarith
      · rw [hh.1, Nat.mod_add_mod]
      · simp only
        rw [hh.1, Nat.mod_add_mod]
        refine ringHolds_step (by omega) hh x ?_ ?_
        · generalize xs.length / m = j at hk ⊢
          unfold slotValue
          rw [if_neg (by omega), if_neg (by omega), show ((j : Int) + 1).toNat = j + 1 by omega, ← hk]
          simp [List.getD]
        · intro i hi
          refine slotValue_append xs x m init i hm (le_trans (Nat.mul_le_mul_right _ ?_) (Nat.div_mul_le_self xs.length m))
          generalize xs.length / m = j at hi ⊢
          omega
    · obtain ⟨hdiv, hmod⟩ := (divmod_succ xs.length m hm).2 hr
      have hle : ((xs.length % m : Nat) : K) + 2 ≤ m := by exact_mod_cast (show xs.length % m + 2 ≤ m by omega)
      rw [if_neg (by rw [not_lt]; nlinarith), hdiv, hmod]
      refine ⟨rfl, by push_cast; ring, rfl, hh.1, ?_⟩
      intro i h1 h2
      rw [hh.2 i h1 h2, slotValue_append xs x m init i hm (le_trans (Nat.mul_le_mul_right _ ?_) (Nat.div_mul_le_self xs.length m))]
      generalize xs.length / m = j at h2 ⊢
      omega

/-- **C59.** What a delayer returns after any sequence of samples: the interpolation between its two oldest slots. -/
theorem C59_value (n m : Nat) (hn : 2 ≤ n) (hm : 0 < m) (dt init : K) (hdt : 0 < dt) (xs : List K) :
    ∃ d0, Delayer.make n (((n - 1 : Nat) : K) * (m * dt)) init = .ok d0 ∧
      (xs.foldl (fun d x => d.add x dt) d0).delayed =
        .ok (((xs.length % m : Nat) : K) / m * slotValue xs m init ((xs.length / m : Nat) + 2 - n) +
          (1 - ((xs.length % m : Nat) : K) / m) * slotValue xs m init ((xs.length / m : Nat) + 1 - n)) := by
  obtain ⟨d0, h0, hw, ht, hi, hh⟩ := delayer_state n m hn hm dt init hdt xs
  refine ⟨d0, h0, ?_⟩
  obtain ⟨r1, r2⟩ := ringHolds_read hn hh
  unfold Delayer.delayed
  simp only
  rw [hi, r1, r2, hw, ht]
  show Res.ok _ = _
  have hm1 : (m : K) ≠ 0 := by exact_mod_cast (show m ≠ 0 by omega)
  congr 1
  have e : ((xs.length % m : Nat) : K) * dt / (m * dt) = ((xs.length % m : Nat) : K) / m := by
    field_simp
  rw [e]

/-- **C59 (partial).** With one sample per slot the value is exactly the sample `n - 1` steps before, once there is one. -/
theorem C59_exact_partial (n : Nat) (hn : 2 ≤ n) (dt init : K) (hdt : 0 < dt) (xs : List K) (hx : n ≤ xs.length) :
    ∃ d0, Delayer.make n (((n - 1 : Nat) : K) * dt) init = .ok d0 ∧
      ∃ x, xs[xs.length - 1 - (n - 1)]? = some x ∧ (xs.foldl (fun d x => d.add x dt) d0).delayed = .ok x := by
  obtain ⟨d0, h0, h⟩ := C59_value n 1 hn (by omega) dt init hdt xs
  rw [Nat.cast_one, one_mul] at h0
  have hi : xs.length - 1 - (n - 1) < xs.length := by omega
  refine ⟨d0, h0, xs[xs.length - 1 - (n - 1)], List.getElem?_eq_getElem hi, ?_⟩
  rw [h]
  simp only [Nat.mod_one, Nat.cast_zero, zero_div, zero_mul, zero_add, sub_zero, one_mul, Nat.div_one]
  congr 1
  unfold slotValue
  rw [if_neg (by omega), if_neg (by omega)]
  have e : ((xs.length : Int) + 1 - n).toNat * 1 - 1 = xs.length - 1 - (n - 1) := by omega
  rw [e, List.getD_eq_getElem?_getD, List.getElem?_eq_getElem hi, Option.getD_some]

/-- **C59 (partial).** Inputs that change steadily are delayed exactly, with any number of samples per slot. -/
theorem C59_steady_partial (n m : Nat) (hn : 2 ≤ n) (hm : 0 < m) (dt init a b : K) (hdt : 0 < dt) (k : Nat) (hk : n * m ≤ k) :
    ∃ d0, Delayer.make n (((n - 1 : Nat) : K) * (m * dt)) init = .ok d0 ∧
      (((List.range k).map fun i : Nat => a + b * ((i : K) + 1)).foldl (fun d x => d.add x dt) d0).delayed =
        .ok (a + b * ((k : K) - ((n - 1 : Nat) : K) * m)) := by
  obtain ⟨d0, h0, h⟩ := C59_value n m hn hm dt init hdt ((List.range k).map fun i : Nat => a + b * ((i : K) + 1))
  refine ⟨d0, h0, ?_⟩
  rw [h]
  simp only [List.length_map, List.length_range]
  have hj : n ≤ k / m := (Nat.le_div_iff_mul_le hm).2 hk
  have hslot : ∀ i : Int, 1 ≤ i → i ≤ (k / m : Nat) →
      slotValue ((List.range k).map fun i : Nat => a + b * ((i : K) + 1)) m init i = a + b * ((i : K) * m) := by
    intro i h1 h2
    unfold slotValue
    rw [if_neg (by omega), if_neg (by omega)]
    obtain ⟨p, rfl⟩ : ∃ p : Nat, i = p := ⟨i.toNat, by omega⟩
    rw [Int.toNat_natCast]
    have hp : p * m ≤ k := le_trans (Nat.mul_le_mul_right m (show p ≤ k / m by omega)) (Nat.div_mul_le_self _ _)
    have hp0 : 0 < p * m := Nat.mul_pos (by omega) hm
    rw [List.getD_eq_getElem?_getD, List.getElem?_map, List.getElem?_range (by omega), Option.map_some, Option.getD_some]
    rw [Nat.cast_sub (by omega)]
    push_cast
    ring
  rw [hslot _ (by omega) (by omega), hslot _ (by omega) (by omega)]
  have hm1 : (m : K) ≠ 0 := by exact_mod_cast (show m ≠ 0 by omega)
  have hkk : (k : K) = m * ((k / m : Nat) : K) + ((k % m : Nat) : K) := by exact_mod_cast (Nat.div_add_mod k m).symm
  rw [Nat.cast_sub (show 1 ≤ n by omega), hkk]
  generalize k / m = q
  push_cast
  congr 1
  field_simp
  ring

/-- **C59 is violated** before the delay has passed: with any initial value other than zero a new delayer returns zero,
because only the first element of its buffer is given the initial value. -/
theorem C59_initial_violated (n : Nat) (hn : 2 ≤ n) (delay init : K) (hd : 0 < delay) :
    ∃ d0, Delayer.make n delay init = .ok d0 ∧ d0.delayed = .ok 0 := by
  refine ⟨_, by unfold Delayer.make; rw [if_pos hd], ?_⟩
  have hh : RingHolds (init :: List.replicate (n - 1) (0 : K)) (slotValue [] 1 init) 0 n :=
    ringHolds_init init n (by omega) _ (by simp [slotValue]) (fun i hi => by simp [slotValue, hi])
  obtain ⟨r1, r2⟩ := ringHolds_read hn hh
  rw [Nat.zero_mod] at r1 r2
  unfold Delayer.delayed
  simp only
  rw [r1, r2]
  show Res.ok _ = _
  congr 1
  have : slotValue ([] : List K) 1 init ((0 : Nat) + 1 - n) = 0 := by unfold slotValue; rw [if_pos (by omega)]
  rw [this]
  simp

/-- **C59 is violated** with more than one sample per slot: an input that comes between two slots is lost. -/
theorem C59_lost_sample_violated : ∃ d0 : Delayer ℚ, Delayer.make 2 2 0 = .ok d0 ∧
    ([0, 0, 1, 0, 0].foldl (fun d x => d.add x 1) d0).delayed = .ok 0 := by
  obtain ⟨d0, h0, h⟩ := C59_value (K := ℚ) 2 2 (by omega) (by omega) 1 0 (by norm_num) [0, 0, 1, 0, 0]
  refine ⟨d0, by simpa using h0, ?_⟩
  rw [h]
  norm_num [slotValue, show Int.toNat 2 = 2 from rfl]

/-! ### Smooth delayer -/

theorem slotMean_append (xs : List K) (x : K) (m : Nat) (init : K) (i : Int) (h : i.toNat * m ≤ xs.length) :
    slotMean (xs ++ [x]) m init i = slotMean xs m init i := by
  unfold slotMean
  split
  · rfl
  · split
    · rfl
    · next h1 h2 =>
      have e : i.toNat * m = (i.toNat - 1) * m + m := by
        rw [← Nat.succ_mul]; congr 1; omega
      rw [List.drop_append_of_le_length (by omega), List.take_append_of_le_length (by rw [List.length_drop]; omega)]

/-- The state of a smooth delayer after any sequence of samples. -/
theorem smooth_state (n m : Nat) (hn : 2 ≤ n) (hm : 0 < m) (dt init : K) (hdt : 0 < dt) (xs : List K) :
    ∃ d0, SmoothDelayer.make n (((n : K) - 1 / 2) * (m * dt)) init = .ok d0 ∧
      let d := xs.foldl (fun d x => d.add x dt) d0
      d.window = m * dt ∧ d.time = ((xs.length % m : Nat) : K) * dt ∧ d.idx = (xs.length / m) % n ∧
      d.inter = (xs.drop (xs.length / m * m)).sum * dt ∧
      RingHolds d.data (slotMean xs m init) (xs.length / m) n := by
  have hn1 : (2 : K) ≤ n := by exact_mod_cast hn
  have hm1 : (0 : K) < m := by exact_mod_cast hm
  have hn2 : (0 : K) < (n : K) - 1 / 2 := by linarith
  have hpos : (0 : K) < ((n : K) - 1 / 2) * (m * dt) := by positivity
  refine ⟨_, by unfold SmoothDelayer.make; rw [if_pos hpos], ?_⟩
  induction xs using List.reverseRecOn with
  | nil =>
    simp only [List.foldl_nil, List.length_nil, Nat.zero_mod, Nat.zero_div, Nat.cast_zero, zero_mul, List.drop_nil, List.sum_nil]
    refine ⟨?_, trivial, trivial, trivial, ringHolds_init init n (by omega) _ (by simp [slotMean]) (fun i hi => by simp [slotMean, hi])⟩
    rw [mul_comm, mul_div_assoc, div_self (ne_of_gt hn2), mul_one]
  | append_singleton xs x ih =>
    simp only [List.foldl_append, List.foldl_cons, List.foldl_nil, List.length_append, List.length_cons, List.length_nil]
    simp only at ih
    obtain ⟨hw, ht, hi, hin, hh⟩ := ih
    generalize xs.foldl (fun d x => SmoothDelayer.add d x dt) _ = d at *
    obtain ⟨w, t, ir, ix, dat⟩ := d
    simp only at hw ht hi hin hh
    subst hw ht hi hin
    have hdm := Nat.div_add_mod xs.length m
    have hml := Nat.mod_lt xs.length hm
    have hle : xs.length / m * m ≤ xs.length := Nat.div_mul_le_self _ _
    unfold SmoothDelayer.add
    simp only
    by_cases hr : xs.length % m + 1 = m
    · obtain ⟨hdiv, hmod, hk⟩ := (divmod_succ xs.length m hm).1 hr
      have hcast : ((xs.length % m : Nat) : K) + 1 = m := by exact_mod_cast hr
      have htime : ((xs.length % m : Nat) : K) * dt + dt = m * dt := by rw [← hcast]; ring
      rw [if_pos (by rw [htime]), hdiv, hmod, htime, sub_self, zero_add]
      refine ⟨rfl, by simp, ?_, ?_, ?_⟩
      · rw [hh.1, Nat.mod_add_mod]
      · simp only; rw [← hk, List.drop_eq_nil_of_le (by simp)]; simp
      · simp only
        rw [hh.1, Nat.mod_add_mod]
        refine ringHolds_step (by omega) hh _ ?_ ?_
        · generalize xs.length / m = j at hk hle ⊢
          have hj : (j + 1) * m = j * m + m := by rw [Nat.add_mul, Nat.one_mul]
          unfold slotMean
          rw [if_neg (by omega), if_neg (by omega), show ((j : Int) + 1).toNat = j + 1 by omega,
            Nat.add_sub_cancel, List.drop_append_of_le_length hle,
            List.take_of_length_le (by rw [List.length_append, List.length_drop, List.length_singleton]; omega), List.sum_append]
          simp only [List.sum_cons, List.sum_nil, add_zero]
          field_simp
        · intro i hi
          refine slotMean_append xs x m init i (le_trans (Nat.mul_le_mul_right _ ?_) hle)
          generalize xs.length / m = j at hi ⊢
          omega
    · obtain ⟨hdiv, hmod⟩ := (divmod_succ xs.length m hm).2 hr
      have hle2 : ((xs.length % m : Nat) : K) + 2 ≤ m := by exact_mod_cast (show xs.length % m + 2 ≤ m by omega)
      rw [if_neg (by rw [ge_iff_le, not_le]; nlinarith), hdiv, hmod]
      refine ⟨rfl, by push_cast; ring, rfl, ?_, hh.1, ?_⟩
      · simp only
        rw [List.drop_append_of_le_length hle, List.sum_append]
        simp only [List.sum_cons, List.sum_nil, add_zero]
        ring
      · intro i h1 h2
        rw [hh.2 i h1 h2, slotMean_append xs x m init i (le_trans (Nat.mul_le_mul_right _ ?_) hle)]
        generalize xs.length / m = j at h2 ⊢
        omega

/-- **C59.** What a smooth delayer returns after any sequence of samples: the interpolation between the means of its two
oldest slots, so no sample is lost. -/
theorem C59_smooth (n m : Nat) (hn : 2 ≤ n) (hm : 0 < m) (dt init : K) (hdt : 0 < dt) (xs : List K) :
    ∃ d0, SmoothDelayer.make n (((n : K) - 1 / 2) * (m * dt)) init = .ok d0 ∧
      (xs.foldl (fun d x => d.add x dt) d0).delayed =
        .ok (((xs.length % m : Nat) : K) / m * slotMean xs m init ((xs.length / m : Nat) + 2 - n) +
          (1 - ((xs.length % m : Nat) : K) / m) * slotMean xs m init ((xs.length / m : Nat) + 1 - n)) := by
  obtain ⟨d0, h0, hw, ht, hi, _, hh⟩ := smooth_state n m hn hm dt init hdt xs
  refine ⟨d0, h0, ?_⟩
  obtain ⟨r1, r2⟩ := ringHolds_read hn hh
  unfold SmoothDelayer.delayed Delayer.delayed
  simp only
  rw [hi, r1, r2, hw, ht]
  show Res.ok _ = _
  have hm1 : (m : K) ≠ 0 := by exact_mod_cast (show m ≠ 0 by omega)
  congr 1
  have e : ((xs.length % m : Nat) : K) * dt / (m * dt) = ((xs.length % m : Nat) : K) / m := by
    field_simp
  rw [e]

/-- A delay that is not positive is reported. -/
theorem C59_delay_error (n : Nat) (delay init : K) (h : delay ≤ 0) :
    (Delayer.make n delay init).isOk = false ∧ (SmoothDelayer.make n delay init).isOk = false := by
  constructor
  · unfold Delayer.make; rw [if_neg (not_lt.2 h)]; rfl
  · unfold SmoothDelayer.make; rw [if_neg (not_lt.2 h)]; rfl

/-- Non-vacuity: a delay of two samples. -/
example : ∃ d0 : Delayer ℚ, Delayer.make 3 2 7 = .ok d0 ∧ ∃ x, [(1 : ℚ), 2, 3, 4][4 - 1 - (3 - 1)]? = some x ∧
    ([(1 : ℚ), 2, 3, 4].foldl (fun d x => d.add x 1) d0).delayed = .ok x := by
  obtain ⟨d0, h0, x, hx, h⟩ := C59_exact_partial (K := ℚ) 3 (by omega) 1 7 (by norm_num) [1, 2, 3, 4] (by simp)
  exact ⟨d0, by simpa using h0, x, hx, h⟩

/-! ### Any distance of the samples -/

/-- **C59.** For samples at any equal distance that is not larger than a slot, slot `i` holds the sample that is nearest in time to the
slot's end, and no error accumulates: the time since the last slot is what remains of the total time. The value that is returned
interpolates between the two oldest slots. -/
theorem C59_nearest (n : Nat) (hn : 2 ≤ n) (W dt init : K) (hdt : 0 < dt) (hW : dt ≤ W) (xs : List K) :
    ∃ d0, Delayer.make n (((n - 1 : Nat) : K) * W) init = .ok d0 ∧
      ∃ (k : Nat) (s : Int → K) (w : K), s 0 = init ∧ (∀ i < 0, s i = 0) ∧
        (∀ i : Nat, 1 ≤ i → i ≤ k → ∃ j : Nat, 1 ≤ j ∧ xs[j - 1]? = some (s i) ∧
          (i : K) * W - dt / 2 < (j : K) * dt ∧ (j : K) * dt ≤ (i : K) * W + dt / 2) ∧
        (xs.length : K) * dt = (k : K) * W + w * W ∧ -(dt / 2) < w * W ∧ w * W ≤ W - dt / 2 ∧
        (xs.foldl (fun d x => d.add x dt) d0).delayed = .ok (w * s ((k : Int) + 2 - n) + (1 - w) * s ((k : Int) + 1 - n)) := by
  have hn1 : (0 : K) < ((n - 1 : Nat) : K) := by exact_mod_cast (show 0 < n - 1 by omega)
  have hW0 : (0 : K) < W := lt_of_lt_of_le hdt hW
  have hpos : (0 : K) < ((n - 1 : Nat) : K) * W := by positivity
  refine ⟨_, by unfold Delayer.make; rw [if_pos hpos], ?_⟩
  have key : ∀ xs : List K, ∃ (k : Nat) (s : Int → K), s 0 = init ∧ (∀ i < 0, s i = 0) ∧
      (∀ i : Nat, 1 ≤ i → i ≤ k → ∃ j : Nat, 1 ≤ j ∧ xs[j - 1]? = some (s i) ∧
        (i : K) * W - dt / 2 < (j : K) * dt ∧ (j : K) * dt ≤ (i : K) * W + dt / 2) ∧
      (let d := xs.foldl (fun d x => d.add x dt) (⟨((n - 1 : Nat) : K) * W / ((n - 1 : Nat) : K), 0, 0, init :: List.replicate (n - 1) 0⟩ : Delayer K)
       d.window = W ∧ (xs.length : K) * dt = (k : K) * W + d.time ∧ -(dt / 2) < d.time ∧ d.time ≤ W - dt / 2 ∧
       d.idx = k % n ∧ RingHolds d.data s k n) := by
    intro xs
    induction xs using List.reverseRecOn with
    | nil =>
      refine ⟨0, fun i => if i = 0 then init else 0, by simp, fun i hi => if_neg (by omega), by intro i h1 h2; omega, ?_⟩
      simp only [List.foldl_nil, List.length_nil, Nat.cast_zero, zero_mul, Nat.zero_mod, add_zero]
      exact ⟨by field_simp, trivial, by linarith, by linarith, trivial,
        ringHolds_init init n (by omega) _ (by simp) (fun i hi => if_neg (by omega))⟩
    | append_singleton xs x ih =>
      obtain ⟨k, s, h0, hneg, hs, hw, ht, hl, hu, hi, hh⟩ := ih
      simp only [List.foldl_append, List.foldl_cons, List.foldl_nil, List.length_append, List.length_cons, List.length_nil]
      generalize xs.foldl (fun d x => Delayer.add d x dt) _ = d at *
      obtain ⟨w, t, ix, dat⟩ := d
      simp only at hw ht hi hh hl hu
      subst hw hi
      have hgrow : ∀ (j : Nat) (v : K), xs[j]? = some v → (xs ++ [x])[j]? = some v := by
        intro j v hj
        rw [List.getElem?_append_left (List.getElem?_eq_some_iff.1 hj).1]; exact hj
      unfold Delayer.add
      simp only
      by_cases hc : t + dt + 1 / 2 * dt > w
      · rw [if_pos hc]
        refine ⟨k + 1, fun i => if i = (k : Int) + 1 then x else s i, ?_, ?_, ?_, rfl, ?_, ?_, ?_, ?_, ?_⟩
        · beta_reduce; rw [if_neg (by omega)]; exact h0
        · intro i hi; beta_reduce; rw [if_neg (by omega)]; exact hneg i hi
        · intro i h1 h2
          by_cases he : i = k + 1
          · subst he
            refine ⟨xs.length + 1, by omega, ?_, ?_, ?_⟩
            · simp
            · push_cast; linarith
            · push_cast; linarith
          · obtain ⟨j, hj1, hj2, hj3, hj4⟩ := hs i h1 (by omega)
            refine ⟨j, hj1, ?_, hj3, hj4⟩
            beta_reduce; rw [if_neg (by omega)]
            exact hgrow _ _ hj2
        · push_cast; linarith
        · simp only; linarith
        · simp only; linarith
        · simp only; rw [hh.1, Nat.mod_add_mod]
        · simp only
          rw [hh.1, Nat.mod_add_mod]
          exact ringHolds_step (by omega) hh x (by simp) (fun i hi => if_neg (by omega))
      · rw [if_neg hc]
        refine ⟨k, s, h0, hneg, ?_, rfl, ?_, ?_, ?_, rfl, hh⟩
        · intro i h1 h2
          obtain ⟨j, hj1, hj2, hj3, hj4⟩ := hs i h1 h2
          exact ⟨j, hj1, hgrow _ _ hj2, hj3, hj4⟩
        · push_cast; linarith
        · simp only; linarith
        · simp only; linarith
  obtain ⟨k, s, h0, hneg, hs, hw, ht, hl, hu, hi, hh⟩ := key xs
  generalize xs.foldl (fun d x => Delayer.add d x dt) _ = d at *
  obtain ⟨w, t, ix, dat⟩ := d
  simp only at hw ht hi hh hl hu
  subst hw hi
  obtain ⟨r1, r2⟩ := ringHolds_read hn hh
  have e : t / w * w = t := by field_simp
  refine ⟨k, s, t / w, h0, hneg, hs, by rw [e]; exact ht, by rw [e]; exact hl, by rw [e]; exact hu, ?_⟩
  unfold Delayer.delayed
  simp only
  rw [r1, r2]
  rfl

/-- Three samples per two slots. -/
example : ∃ d0 : Delayer ℚ, Delayer.make 2 3 0 = .ok d0 ∧ ([5, 6, 7].foldl (fun d x => d.add x 2) d0).delayed = .ok 6 := by
  refine ⟨_, rfl, by decide +kernel⟩

end Xo
