import Verif.Model.Rng
import Mathlib.NumberTheory.LucasPrimality
import Mathlib.Tactic.NormNum.Prime
import Mathlib.GroupTheory.OrderOfElement
import Mathlib.Algebra.Order.Field.Basic
import Mathlib.Tactic.Ring
import Mathlib.Tactic.Linarith
import Mathlib.Tactic.Positivity
import Mathlib.FieldTheory.Finite.Basic
import Mathlib.Data.Int.Interval

/-!
C99: random numbers. The linear congruential engines go through all numbers from 1 to 2³¹ - 2 before they repeat; numbers lie in the interval
that was asked for; whole numbers are equally frequent; seeding starts the same sequence again.
-/
namespace Xo.Rng

/-- The value after `n` more draws. -/
def Spec.draw (a x : Nat) : Nat → Nat
  | 0 => x
  | n + 1 => next a (Spec.draw a x n)
open Spec

/-- The values of the engines. -/
def Spec.Value (x : Nat) : Prop := 1 ≤ x ∧ x ≤ 2147483646

/-- The two multipliers. -/
def Spec.Engine (a : Nat) : Prop := a = 48271 ∨ a = 16807

theorem prime_factors {q : Nat} (hq : q.Prime) (h : q ∣ 2147483646) : q = 2 ∨ q = 3 ∨ q = 7 ∨ q = 11 ∨ q = 31 ∨ q = 151 ∨ q = 331 := by
  have e : 2147483646 = 2 * (3 * (3 * (7 * (11 * (31 * (151 * 331)))))) := by norm_num
  rw [e] at h
  have p : ∀ r : Nat, r.Prime → q ∣ r → q = r := fun r hr hd => (Nat.prime_dvd_prime_iff_eq hq hr).1 hd
  rcases hq.dvd_mul.1 h with h | h
  · exact Or.inl (p 2 (by norm_num) h)
  rcases hq.dvd_mul.1 h with h | h
  · exact Or.inr (Or.inl (p 3 (by norm_num) h))
  rcases hq.dvd_mul.1 h with h | h
  · exact Or.inr (Or.inl (p 3 (by norm_num) h))
  rcases hq.dvd_mul.1 h with h | h
  · exact Or.inr (Or.inr (Or.inl (p 7 (by norm_num) h)))
  rcases hq.dvd_mul.1 h with h | h
  · exact Or.inr (Or.inr (Or.inr (Or.inl (p 11 (by norm_num) h))))
  rcases hq.dvd_mul.1 h with h | h
  · exact Or.inr (Or.inr (Or.inr (Or.inr (Or.inl (p 31 (by norm_num) h)))))
  rcases hq.dvd_mul.1 h with h | h
  · exact Or.inr (Or.inr (Or.inr (Or.inr (Or.inr (Or.inl (p 151 (by norm_num) h))))))
  · exact Or.inr (Or.inr (Or.inr (Or.inr (Or.inr (Or.inr (p 331 (by norm_num) h))))))

theorem cast_pow_eq_one (a n : Nat) : ((a : ZMod modulus) ^ n = 1) ↔ a ^ n % 2147483647 = 1 := by
  rw [show (1 : ZMod modulus) = ((1 : Nat) : ZMod modulus) by simp, ← Nat.cast_pow, ZMod.natCast_eq_natCast_iff, Nat.ModEq]
  rfl

/-- Powers modulo the modulus by repeated squaring, for evaluation. -/
def powMod : Nat → Nat → Nat → Nat
  | 0, _, _ => 1
  | f + 1, a, n => if n % 2 = 0 then powMod f (a * a % 2147483647) (n / 2) else a * powMod f (a * a % 2147483647) (n / 2) % 2147483647

theorem powMod_eq : ∀ f a n, n < 2 ^ f → powMod f a n % 2147483647 = a ^ n % 2147483647 := by
  intro f
  induction f with
  | zero => intro a n h; have : n = 0 := by omega
            subst this; rfl
  | succ f ih =>
    intro a n h
    have h2 := ih (a * a % 2147483647) (n / 2) (by rw [pow_succ] at h; omega)
    have e : (a * a % 2147483647) ^ (n / 2) % 2147483647 = a ^ (2 * (n / 2)) % 2147483647 := by
      rw [← Nat.pow_mod, pow_mul, pow_two]
    rw [e] at h2
    unfold powMod
    split
    · rw [h2, show 2 * (n / 2) = n by omega]
    · rw [Nat.mod_mod, Nat.mul_mod, h2, ← Nat.mul_mod, ← pow_succ', show 2 * (n / 2) + 1 = n by omega]

theorem pow_ne {a n : Nat} (hn : n < 2 ^ 31) (h : (powMod 31 a n % 2147483647 == 1) = false) : ¬ (a : ZMod modulus) ^ n = 1 := by
  rw [cast_pow_eq_one, ← powMod_eq 31 a n hn]
  simpa using h

theorem pow_full {a : Nat} (ha : Engine a) : (a : ZMod modulus) ^ 2147483646 = 1 := by
  rw [cast_pow_eq_one, ← powMod_eq 31 a _ (by norm_num)]
  rcases ha with rfl | rfl <;> decide +kernel

theorem pow_part {a : Nat} (ha : Engine a) (q : Nat) (hq : q.Prime) (hd : q ∣ 2147483646) : (a : ZMod modulus) ^ (2147483646 / q) ≠ 1 := by
  rcases prime_factors hq hd with rfl | rfl | rfl | rfl | rfl | rfl | rfl <;> rcases ha with rfl | rfl <;>
    exact pow_ne (by norm_num) (by decide +kernel)

theorem modulus_prime : Nat.Prime modulus := lucas_primality modulus ((16807 : Nat) : ZMod modulus) (pow_full (Or.inr rfl)) (pow_part (Or.inr rfl))

instance : Fact (Nat.Prime modulus) := ⟨modulus_prime⟩

theorem order_engine {a : Nat} (ha : Engine a) : orderOf (a : ZMod modulus) = 2147483646 :=
  orderOf_eq_of_pow_and_pow_div_prime (by norm_num) (pow_full ha) (pow_part ha)

theorem value_cast {x : Nat} (h : Value x) : (x : ZMod modulus) ≠ 0 := by
  rw [Ne, ZMod.natCast_eq_zero_iff]
  intro hd
  have := Nat.le_of_dvd (by have := h.1; omega) hd
  have := h.2
  unfold modulus at *
  omega

theorem value_iff (x : Nat) (hx : x < modulus) : Value x ↔ (x : ZMod modulus) ≠ 0 := by
  refine ⟨value_cast, fun h => ?_⟩
  have h0 : x ≠ 0 := by rintro rfl; exact h (by simp)
  unfold modulus at hx
  constructor <;> omega

theorem cast_inj {x y : Nat} (hx : x < modulus) (hy : y < modulus) (h : (x : ZMod modulus) = y) : x = y := by
  rw [ZMod.natCast_eq_natCast_iff, Nat.ModEq, Nat.mod_eq_of_lt hx, Nat.mod_eq_of_lt hy] at h
  exact h

theorem value_lt {x : Nat} (h : Value x) : x < modulus := by have := h.2; unfold modulus; omega

theorem next_lt (a x : Nat) : next a x < modulus := Nat.mod_lt _ (by decide)

theorem next_cast (a x : Nat) : (next a x : ZMod modulus) = a * x := by
  unfold next
  rw [ZMod.natCast_mod, Nat.cast_mul]

theorem engine_cast {a : Nat} (ha : Engine a) : (a : ZMod modulus) ≠ 0 :=
  value_cast (by unfold Value; rcases ha with rfl | rfl <;> omega)

theorem next_value {a x : Nat} (ha : Engine a) (hx : Value x) : Value (next a x) := by
  rw [value_iff _ (next_lt a x), next_cast]
  exact mul_ne_zero (engine_cast ha) (value_cast hx)

theorem draw_value {a x : Nat} (ha : Engine a) (hx : Value x) (n : Nat) : Value (draw a x n) := by
  induction n with
  | zero => exact hx
  | succ n ih => exact next_value ha ih

theorem draw_cast (a x n : Nat) : (draw a x n : ZMod modulus) = (a : ZMod modulus) ^ n * x := by
  induction n with
  | zero => simp [draw]
  | succ n ih => rw [draw, next_cast, ih]; ring

theorem draw_add (a x n k : Nat) : draw a x (n + k) = draw a (draw a x n) k := by
  induction k with
  | zero => rfl
  | succ k ih => rw [← Nat.add_assoc, draw, ih, draw]

/-- **C99.** From every seed, every value lies between 1 and 2³¹ - 2; the engine never gets stuck at zero. -/
theorem C99_values {a : Nat} (ha : Engine a) (s n : Nat) : Value (seedState s) ∧ Value (draw a (seedState s) n) := by
  have : Value (seedState s) := by
    unfold seedState
    split
    · constructor <;> omega
    · have : s % modulus < modulus := Nat.mod_lt _ (by decide)
      unfold modulus at *
      constructor <;> omega
  exact ⟨this, draw_value ha this n⟩

/-- **C99.** The values repeat after 2³¹ - 2 draws, and not before. -/
theorem C99_period {a x : Nat} (ha : Engine a) (hx : Value x) (n k : Nat) : draw a x n = draw a x k ↔ n % 2147483646 = k % 2147483646 := by
  have h1 : draw a x n = draw a x k ↔ (a : ZMod modulus) ^ n = (a : ZMod modulus) ^ k := by
    constructor
    · intro h
      have := congrArg (fun y : Nat => (y : ZMod modulus)) h
      simp only [draw_cast] at this
      exact mul_right_cancel₀ (value_cast hx) this
    · intro h
      refine cast_inj (value_lt (draw_value ha hx n)) (value_lt (draw_value ha hx k)) ?_
      rw [draw_cast, draw_cast, h]
  rw [h1]
  have h2 : orderOf (Units.mk0 (a : ZMod modulus) (engine_cast ha)) = 2147483646 := by
    rw [← orderOf_units, Units.val_mk0, order_engine ha]
  have h3 := pow_eq_pow_iff_modEq (x := Units.mk0 (a : ZMod modulus) (engine_cast ha)) (n := n) (m := k)
  rw [h2, Nat.ModEq] at h3
  rw [← h3, Units.ext_iff]
  simp

/-- **C99.** Among any 2³¹ - 2 values in a row, each number from 1 to 2³¹ - 2 occurs exactly once. -/
theorem C99_each_once {a x : Nat} (ha : Engine a) (hx : Value x) (n0 y : Nat) (hy : Value y) :
    ∃ i, (i < 2147483646 ∧ draw a x (n0 + i) = y) ∧ ∀ j, j < 2147483646 → draw a x (n0 + j) = y → j = i := by
  have inj : ∀ i j, i < 2147483646 → j < 2147483646 → draw a x (n0 + i) = draw a x (n0 + j) → i = j := by
    intro i j hi hj h
    rw [C99_period ha hx] at h
    omega
  have hs : (Finset.range 2147483646).image (fun i => draw a x (n0 + i)) = Finset.Icc 1 2147483646 := by
    refine Finset.eq_of_subset_of_card_le ?_ ?_
    · intro z hz
      rw [Finset.mem_image] at hz
      obtain ⟨i, -, rfl⟩ := hz
      exact Finset.mem_Icc.2 (draw_value ha hx _)
    · rw [Finset.card_image_of_injOn, Finset.card_range, Nat.card_Icc]
      intro i hi j hj h
      exact inj i j (Finset.mem_range.1 hi) (Finset.mem_range.1 hj) h
  have : y ∈ (Finset.range 2147483646).image (fun i => draw a x (n0 + i)) := by rw [hs]; exact Finset.mem_Icc.2 hy
  rw [Finset.mem_image] at this
  obtain ⟨i, hi, h⟩ := this
  have hi := Finset.mem_range.1 hi
  exact ⟨i, ⟨hi, h⟩, fun j hj h' => inj j i hj hi (h'.trans h.symm)⟩

/-- **C99 (partial: seeds from 1 to 2³¹ - 2).** Different seeds give sequences that differ in every place. -/
theorem C99_seeds_partial {a : Nat} (ha : Engine a) (s t n : Nat) (hs : Value s) (ht : Value t) (hst : s ≠ t) :
    draw a (seedState s) n ≠ draw a (seedState t) n := by
  have e : ∀ {s}, Value s → seedState s = s := by
    intro s hs
    unfold seedState
    rw [Nat.mod_eq_of_lt (value_lt hs), if_neg (by have := hs.1; omega)]
  rw [e hs, e ht]
  intro h
  apply hst
  refine cast_inj (value_lt hs) (value_lt ht) ?_
  have := congrArg (fun y : Nat => (y : ZMod modulus)) h
  simp only [draw_cast] at this
  exact mul_left_cancel₀ (pow_ne_zero _ (engine_cast ha)) this

/-- **C99 is violated by other seeds**: a seed and the seed that is larger by 2³¹ - 1 are the same, and so are 0 and 1. -/
theorem C99_seeds_violated (s : Nat) : seedState (s + 2147483647) = seedState s ∧ seedState 0 = seedState 1 := by
  refine ⟨?_, by decide⟩
  unfold seedState modulus
  rw [Nat.add_mod_right]

/-- **C99.** Seeding starts the sequence of that seed, whatever was done before. -/
theorem C99_reseed {K : Type} [Field K] (a k fuel x s : Nat) (ops ops' : List (Op K)) :
    (run a k fuel x (ops ++ .seed s :: ops')).1.drop (ops.length + 1) = (run a k fuel (seedState s) ops').1 := by
  induction ops generalizing x with
  | nil => rfl
  | cons op ops ih =>
    rw [List.cons_append, run]
    simp only [List.length_cons, List.drop_succ_cons]
    exact ih _

section Real
variable {K : Type} [Field K] [LinearOrder K] [IsStrictOrderedRing K]

theorem canonLoop_spec {a : Nat} (ha : Engine a) : ∀ (k x : Nat) (sum tmp : K), Value x → 0 ≤ sum → sum ≤ tmp - 1 → 1 ≤ tmp →
    0 ≤ (canonLoop a k x sum tmp).1 ∧ (canonLoop a k x sum tmp).1 ≤ (canonLoop a k x sum tmp).2.1 - 1 ∧
    1 ≤ (canonLoop a k x sum tmp).2.1 ∧ (canonLoop a k x sum tmp).2.2 = draw a x k := by
  intro k
  induction k with
  | zero => intro x sum tmp hx h0 h1 h2; exact ⟨h0, h1, h2, rfl⟩
  | succ k ih =>
    intro x sum tmp hx h0 h1 h2
    have hv := next_value ha hx
    have g1 : (1 : K) ≤ (next a x : K) := by exact_mod_cast hv.1
    have g2 : (next a x : K) ≤ (range : K) := by
      have : next a x ≤ range := hv.2
      exact_mod_cast this
    have hr : (1 : K) ≤ (range : K) := le_trans g1 g2
    obtain ⟨i1, i2, i3, i4⟩ := ih (next a x) (sum + ((next a x : K) - 1) * tmp) (tmp * (range : K)) hv
      (by have := mul_nonneg (sub_nonneg.2 g1) (le_trans zero_le_one h2); linarith)
      (by
        have : ((next a x : K) - 1) * tmp ≤ ((range : K) - 1) * tmp := mul_le_mul_of_nonneg_right (by linarith) (by linarith)
        have e : ((range : K) - 1) * tmp = tmp * range - tmp := by ring
        rw [e] at this
        linarith)
      (by nlinarith)
    rw [canonLoop]
    refine ⟨i1, i2, i3, ?_⟩
    rw [i4, show k + 1 = 1 + k from Nat.add_comm _ _, draw_add]
    rfl

/-- **C99.** A real number drawn from an interval lies in it, the upper end excluded, after any number of other draws from any seed. It takes `k`
values of the engine. -/
theorem C99_uniform {a x : Nat} (ha : Engine a) (hx : Value x) (k : Nat) (lo hi : K) (h : lo < hi) :
    lo ≤ (uniform a k lo hi x).1 ∧ (uniform a k lo hi x).1 < hi ∧ (uniform a k lo hi x).2 = draw a x k := by
  obtain ⟨i1, i2, i3, i4⟩ := canonLoop_spec (K := K) ha k x 0 1 hx le_rfl (by simp) le_rfl
  unfold uniform canonical
  simp only []
  generalize canonLoop a k x (0 : K) 1 = c at *
  have hpos : (0 : K) < c.2.1 := lt_of_lt_of_le zero_lt_one i3
  have c0 : 0 ≤ c.1 / c.2.1 := div_nonneg i1 hpos.le
  have c1 : c.1 / c.2.1 < 1 := by rw [div_lt_one hpos]; linarith
  refine ⟨?_, ?_, i4⟩
  · have := mul_nonneg c0 (sub_nonneg.2 h.le)
    linarith
  · have := mul_lt_mul_of_pos_right c1 (sub_pos.2 h)
    linarith

/-- **C99.** A `float` is the fraction of the interval that the value of the engine is of all values: each of 2³¹ - 2 equidistant numbers is
as likely as the others, because each value of the engine is. -/
theorem C99_uniform_float (a x : Nat) (lo hi : K) : (uniform a 1 lo hi x).1 = lo + (hi - lo) * ((next a x : K) - 1) / 2147483646 := by
  unfold uniform canonical canonLoop canonLoop
  simp only [range, modulus]
  push_cast
  ring

/-- The components of a vector are drawn one after the other, in order, and lie in the interval. -/
theorem C99_vec3 {a x : Nat} (ha : Engine a) (hx : Value x) (k : Nat) (lo hi : K) (h : lo < hi) :
    (uniformVec3 a k lo hi x).1.1 = (uniform a k lo hi x).1 ∧
    (uniformVec3 a k lo hi x).1.2.1 = (uniform a k lo hi (draw a x k)).1 ∧
    (uniformVec3 a k lo hi x).1.2.2 = (uniform a k lo hi (draw a x (2 * k))).1 ∧
    (uniformVec3 a k lo hi x).2 = draw a x (3 * k) ∧
    (∀ v, v = (uniformVec3 a k lo hi x).1.1 ∨ v = (uniformVec3 a k lo hi x).1.2.1 ∨ v = (uniformVec3 a k lo hi x).1.2.2 → lo ≤ v ∧ v < hi) := by
  have u := fun (y : Nat) (hy : Value y) => C99_uniform ha hy k lo hi h
  have u1 := u x hx
  have u2 := u _ (draw_value ha hx k)
  have u3 := u _ (draw_value ha hx (2 * k))
  have e2 : draw a (draw a x k) k = draw a x (2 * k) := by rw [← draw_add, Nat.two_mul]
  have e3 : draw a (draw a x (2 * k)) k = draw a x (3 * k) := by rw [← draw_add]; congr 1; omega
  unfold uniformVec3
  simp only [u1.2.2, u2.2.2, e2, u3.2.2, e3, true_and]
  rintro v (rfl | rfl | rfl)
  · exact ⟨u1.1, u1.2.1⟩
  · exact ⟨u2.1, u2.2.1⟩
  · exact ⟨u3.1, u3.2.1⟩
end Real

/-! ### Whole numbers -/

/-- The value with which the loop ends is the first one that is accepted. -/
theorem reject_spec {a past : Nat} : ∀ (n fuel x : Nat), n < fuel → (∀ i, i < n → ¬ draw a x (i + 1) - 1 < past) → draw a x (n + 1) - 1 < past →
    reject a past fuel x = .ok (draw a x (n + 1)) := by
  intro n
  induction n with
  | zero =>
    intro fuel x hf _ h
    obtain ⟨f, rfl⟩ : ∃ f, fuel = f + 1 := ⟨fuel - 1, by omega⟩
    have h : next a x - 1 < past := h
    rw [reject, if_pos h]
    rfl
  | succ n ih =>
    intro fuel x hf hn h
    obtain ⟨f, rfl⟩ : ∃ f, fuel = f + 1 := ⟨fuel - 1, by omega⟩
    have h0 : ¬ next a x - 1 < past := hn 0 (by omega)
    have e : ∀ i, draw a x (i + 1) = draw a (next a x) i := fun i => by rw [Nat.add_comm, draw_add]; rfl
    rw [reject, if_neg h0, ih f (next a x) (by omega) (fun i hi => by rw [← e]; exact hn (i + 1) (by omega)) (by rw [← e]; exact h), ← e]

/-- A draw for a small interval: if some value among the first `k` is accepted, the first such value decides. -/
theorem narrow_spec {a x u k fuel : Nat} (hk : k < fuel) (hu : u < 2147483645)
    (h : draw a x (k + 1) - 1 < (u + 1) * (2147483645 / (u + 1))) :
    ∃ n, n ≤ k ∧ draw a x (n + 1) - 1 < (u + 1) * (2147483645 / (u + 1)) ∧
      narrow a fuel u x = .ok ((draw a x (n + 1) - 1) / (2147483645 / (u + 1)), draw a x (n + 1)) ∧
      (draw a x (n + 1) - 1) / (2147483645 / (u + 1)) ≤ u := by
  have hex : ∃ n, draw a x (n + 1) - 1 < (u + 1) * (2147483645 / (u + 1)) := ⟨k, h⟩
  have hs : 1 ≤ 2147483645 / (u + 1) := by
    rw [Nat.one_le_div_iff (by omega)]; omega
  classical
  have hle : Nat.find hex ≤ k := Nat.find_min' hex h
  have hg := Nat.find_spec hex
  have hmin := fun j (hj : j < Nat.find hex) => Nat.find_min hex hj
  generalize Nat.find hex = n at *
  have hrej := reject_spec n fuel x (by omega) hmin hg
  refine ⟨n, hle, hg, ?_, ?_⟩
  · unfold narrow
    simp only [range, modulus]
    rw [show (2147483647 - 1 - 1 : Nat) = 2147483645 from rfl, hrej]
    rfl
  · have : (draw a x (n + 1) - 1) / (2147483645 / (u + 1)) < u + 1 := by
      rw [Nat.div_lt_iff_lt_mul (by omega)]
      exact hg
    omega

/-- The loop for a wide interval. The values 1 and `a` that follow each other end it at the latest: one of them is used for the high part,
which is then zero. -/
theorem wide_spec {a x u fuel : Nat} (ha : Engine a) (hx : Value x) (hu : 2147483646 ≤ u) (hu2 : u < 2 ^ 32) (hf : 2147483648 ≤ fuel) :
    ∀ (n j k : Nat), j ≤ k + 1 → k + 1 < n + j → k < 2147483646 → draw a x (k + 1) = 1 →
      ∃ v y, wide a fuel u n (draw a x j) = .ok (v, y) ∧ v ≤ u ∧ Value y := by
  have hq : u / 2147483646 = 1 ∨ u / 2147483646 = 2 := by omega
  have hA : 1 ≤ a ∧ a ≤ 48271 := by rcases ha with rfl | rfl <;> omega
  have hs : 715827881 ≤ 2147483645 / (u / 2147483646 + 1) := by rcases hq with h | h <;> rw [h] <;> decide
  have hp : 48271 < (u / 2147483646 + 1) * (2147483645 / (u / 2147483646 + 1)) := by rcases hq with h | h <;> rw [h] <;> decide
  intro n
  induction n with
  | zero => intro j k h1 h2; omega
  | succ n ih =>
    intro j k hj hn hk hk1
    -- the high part
    have key : ∀ i, j + (i + 1) ≤ k + 2 → draw a (draw a x j) (i + 1) - 1 < (u / 2147483646 + 1) * (2147483645 / (u / 2147483646 + 1)) →
        narrow a fuel (u / 2147483646) (draw a x j) =
          .ok ((draw a (draw a x j) (i + 1) - 1) / (2147483645 / (u / 2147483646 + 1)), draw a (draw a x j) (i + 1)) →
        (draw a (draw a x j) (i + 1) - 1) / (2147483645 / (u / 2147483646 + 1)) ≤ u / 2147483646 →
        ∃ v y, wide a fuel u (n + 1) (draw a x j) = .ok (v, y) ∧ v ≤ u ∧ Value y := by
      intro i hi h1 h2 h3
      rw [← draw_add] at h1 h2 h3
      have hv : Value (next a (draw a x (j + (i + 1)))) := next_value ha (draw_value ha hx _)
      have hv2 := hv.2
      have hv1 := hv.1
      rw [wide, show range = 2147483646 from rfl, h2, Out.bind_ok]
      simp only []
      generalize hh : (draw a x (j + (i + 1)) - 1) / (2147483645 / (u / 2147483646 + 1)) = h at *
      have e1 : 2147483646 * h % 2 ^ 64 = 2147483646 * h := Nat.mod_eq_of_lt (by omega)
      have e2 : (2147483646 * h + (next a (draw a x (j + (i + 1))) - 1)) % 2 ^ 64 =
        2147483646 * h + (next a (draw a x (j + (i + 1))) - 1) := Nat.mod_eq_of_lt (by omega)
      rw [e1, e2]
      by_cases hc : u < 2147483646 * h + (next a (draw a x (j + (i + 1))) - 1) ∨
          2147483646 * h + (next a (draw a x (j + (i + 1))) - 1) < 2147483646 * h
      · rw [if_pos hc]
        have hne : ¬ j + (i + 1) = k + 1 := by
          intro e
          rw [e, hk1] at hh
          have : h = 0 := by rw [← hh]; exact Nat.div_eq_of_lt (by omega)
          omega
        have hne2 : ¬ j + (i + 1) = k + 2 := by
          intro e
          have e3 : draw a x (k + 2) = a := by
            show next a (draw a x (k + 1)) = a
            rw [hk1]
            unfold next modulus
            omega
          rw [e, e3] at hh
          have : h = 0 := by rw [← hh]; exact Nat.div_eq_of_lt (by omega)
          omega
        exact ih (j + (i + 1) + 1) k (by omega) (by omega) hk hk1
      · rw [if_neg hc]
        exact ⟨_, _, rfl, by omega, hv⟩
    by_cases hjk : j = k + 1
    · have e3 : draw a (draw a x j) (0 + 1) = a := by
        rw [hjk, hk1]
        show next a 1 = a
        unfold next modulus
        omega
      obtain ⟨i, h0, h1, h2, h3⟩ := narrow_spec (a := a) (x := draw a x j) (u := u / 2147483646) (k := 0) (fuel := fuel) (by omega) (by omega)
        (by rw [e3]; omega)
      exact key i (by omega) h1 h2 h3
    · obtain ⟨d, rfl⟩ : ∃ d, k = j + d := ⟨k - j, by omega⟩
      obtain ⟨i, h0, h1, h2, h3⟩ := narrow_spec (a := a) (x := draw a x j) (u := u / 2147483646) (k := d) (fuel := fuel) (by omega) (by omega)
        (by rw [← draw_add, show j + (d + 1) = j + d + 1 from by omega, hk1]; omega)
      exact key i (by omega) h1 h2 h3

/-- **C99 (partial: types of up to 32 bits).** Drawing a whole number from an interval ends, and the number lies in the interval. -/
theorem C99_int_partial {a x : Nat} (ha : Engine a) (hx : Value x) (lo hi : Int) (h : lo ≤ hi) (hr : hi - lo < 2 ^ 32) (fuel : Nat)
    (hf : 2147483648 ≤ fuel) : ∃ v y, uniformInt a fuel lo hi x = .ok (v, y) ∧ lo ≤ v ∧ v ≤ hi ∧ Value y := by
  generalize hu : (hi - lo).toNat = u
  obtain ⟨i, ⟨hi1, hi2⟩, -⟩ := C99_each_once ha hx 1 1 ⟨le_rfl, by omega⟩
  rw [Nat.add_comm] at hi2
  unfold uniformInt
  simp only [hu, show range - 1 = 2147483645 from rfl]
  by_cases h1 : u < 2147483645
  · rw [if_pos h1]
    have hs : 1 ≤ 2147483645 / (u + 1) := by
      rw [Nat.one_le_div_iff (by omega)]; omega
    obtain ⟨n, h0, h2, h3, h4⟩ := narrow_spec (a := a) (x := x) (k := i) (fuel := fuel) (u := u) (by omega) h1
      (by rw [hi2]; exact Nat.mul_pos (by omega) hs)
    refine ⟨_, _, by rw [h3]; rfl, Int.le_add_of_nonneg_right (Int.natCast_nonneg _), ?_, draw_value ha hx (n + 1)⟩
    generalize (draw a x (n + 1) - 1) / (2147483645 / (u + 1)) = q at *
    omega
  · rw [if_neg h1]
    by_cases h2 : u = 2147483645
    · rw [if_pos h2]
      have hv := next_value ha hx
      have := hv.1
      have := hv.2
      exact ⟨_, _, rfl, by omega, by omega, hv⟩
    · rw [if_neg h2]
      obtain ⟨v, y, e1, e2, e3⟩ := wide_spec ha hx (u := u) (fuel := fuel) (by omega) (by omega) hf fuel 0 i (by omega) (by omega) hi1 hi2
      rw [show draw a x 0 = x from rfl] at e1
      exact ⟨_, _, by rw [e1]; rfl, by omega, by omega, e3⟩

theorem int_fair (u v : Nat) (hu : u < 2147483645) (hv : v ≤ u) :
    ((Finset.Icc 1 2147483646).filter fun g => g - 1 < (u + 1) * (2147483645 / (u + 1)) ∧ (g - 1) / (2147483645 / (u + 1)) = v).card =
      2147483645 / (u + 1) := by
  have hs : 1 ≤ 2147483645 / (u + 1) := by
    rw [Nat.one_le_div_iff (by omega)]; omega
  have hm : (u + 1) * (2147483645 / (u + 1)) ≤ 2147483645 := Nat.mul_div_le _ _
  generalize 2147483645 / (u + 1) = s at *
  have h1 : (v + 1) * s ≤ (u + 1) * s := Nat.mul_le_mul_right _ (by omega)
  have : ((Finset.Icc 1 2147483646).filter fun g => g - 1 < (u + 1) * s ∧ (g - 1) / s = v) = Finset.Icc (v * s + 1) ((v + 1) * s) := by
    ext g
    simp only [Finset.mem_filter, Finset.mem_Icc]
    rw [Nat.div_eq_iff (by omega)]
    have e : (v + 1) * s = v * s + s := by ring
    constructor
    · rintro ⟨⟨g1, g2⟩, g3, g4, g5⟩
      constructor <;> omega
    · rintro ⟨g1, g2⟩
      refine ⟨⟨by omega, by omega⟩, by omega, by omega, by omega⟩
  rw [this, Nat.card_Icc]
  have e : (v + 1) * s = v * s + s := by ring
  omega

theorem next_inj {a x y : Nat} (ha : Engine a) (hx : Value x) (hy : Value y) (h : next a x = next a y) : x = y := by
  refine cast_inj (value_lt hx) (value_lt hy) ?_
  have := congrArg (fun z : Nat => (z : ZMod modulus)) h
  simp only [next_cast] at this
  exact mul_left_cancel₀ (engine_cast ha) this

theorem next_surj {a y : Nat} (ha : Engine a) (hy : Value y) : ∃ x, Value x ∧ next a x = y := by
  obtain ⟨i, ⟨-, h⟩, -⟩ := C99_each_once ha hy 1 y hy
  rw [Nat.add_comm] at h
  exact ⟨draw a y i, draw_value ha hy i, h⟩

theorem int_one (a x : Nat) (lo hi v : Int) (hr : hi - lo < 2147483645) :
    uniformInt a 1 lo hi x = .ok (v, next a x) ↔
      next a x - 1 < ((hi - lo).toNat + 1) * (2147483645 / ((hi - lo).toNat + 1)) ∧
      lo + (((next a x - 1) / (2147483645 / ((hi - lo).toNat + 1)) : Nat) : Int) = v := by
  unfold uniformInt
  simp only []
  rw [if_pos (by unfold range modulus; omega)]
  unfold narrow reject
  rw [show (range - 1 : Nat) = 2147483645 from rfl]
  simp only []
  split
  · next h =>
    constructor
    · intro e
      have e : Out.ok (lo + (((next a x - 1) / (2147483645 / ((hi - lo).toNat + 1)) : Nat) : Int), next a x) = .ok (v, next a x) := e
      injection e with e
      injection e with e
      exact ⟨h, e⟩
    · rintro ⟨-, e⟩
      rw [← e]
      rfl
  · next h =>
    constructor
    · intro e
      cases e
    · rintro ⟨e, -⟩
      exact absurd e h

/-- **C99.** Every number of the interval is the outcome of the first draw for equally many states of the engine, so that, over the period, all
numbers are equally frequent. -/
theorem C99_int_fair {a : Nat} (ha : Engine a) (lo hi v : Int) (hr : hi - lo < 2147483645) (h1 : lo ≤ v) (h2 : v ≤ hi) :
    ((Finset.Icc 1 2147483646).filter fun x => uniformInt a 1 lo hi x = .ok (v, next a x)).card = 2147483645 / ((hi - lo).toNat + 1) := by
  rw [← int_fair (hi - lo).toNat (v - lo).toNat (by omega) (by omega)]
  refine Finset.card_bij (fun x _ => next a x) ?_ ?_ ?_
  · intro x hx
    rw [Finset.mem_filter, int_one a x lo hi v hr] at hx
    obtain ⟨hx, h3, h4⟩ := hx
    rw [Finset.mem_filter]
    refine ⟨Finset.mem_Icc.2 (next_value ha (Finset.mem_Icc.1 hx)), h3, ?_⟩
    generalize (next a x - 1) / (2147483645 / ((hi - lo).toNat + 1)) = q at *
    omega
  · intro x hx y hy h
    exact next_inj ha (Finset.mem_Icc.1 (Finset.mem_filter.1 hx).1) (Finset.mem_Icc.1 (Finset.mem_filter.1 hy).1) h
  · intro g hg
    rw [Finset.mem_filter] at hg
    obtain ⟨hg, h3, h4⟩ := hg
    obtain ⟨x, hx, rfl⟩ := next_surj ha (Finset.mem_Icc.1 hg)
    refine ⟨x, ?_, rfl⟩
    rw [Finset.mem_filter, int_one a x lo hi v hr]
    refine ⟨Finset.mem_Icc.2 hx, h3, ?_⟩
    generalize (next a x - 1) / (2147483645 / ((hi - lo).toNat + 1)) = q at *
    omega

theorem reject_ok {a past g : Nat} (ha : Engine a) : ∀ (fuel x : Nat), Value x → reject a past fuel x = .ok g → Value g := by
  intro fuel
  induction fuel with
  | zero => intro x _ h; cases h
  | succ n ih =>
    intro x hx h
    rw [reject] at h
    split at h
    · injection h with h; rw [← h]; exact next_value ha hx
    · exact ih _ (next_value ha hx) h

/-- A number from a wide interval is determined by the value of the engine for the high part, since the low part is the value after it. -/
theorem wide_ok {a u fuel v y : Nat} (ha : Engine a) (hu : u < 2 ^ 32) : ∀ (n x : Nat), Value x → wide a fuel u n x = .ok (v, y) →
    ∃ z, Value z ∧ y = next a z ∧
      v = (range * ((z - 1) / ((range - 1) / (u / range + 1))) % 2 ^ 64 + (y - 1)) % 2 ^ 64 := by
  intro n
  induction n with
  | zero => intro x _ h; cases h
  | succ n ih =>
    intro x hx h
    rw [wide] at h
    unfold narrow at h
    simp only [] at h
    cases hr : reject a ((u / range + 1) * ((range - 1) / (u / range + 1))) fuel x with
    | ok z =>
      have hz := reject_ok ha fuel x hx hr
      rw [hr] at h
      simp only [Out.bind_ok] at h
      split at h
      · exact ih _ (next_value ha hz) h
      · injection h with h
        injection h with h1 h2
        exact ⟨z, hz, h2.symm, by rw [← h1, ← h2]⟩
    | err => rw [hr] at h; cases h
    | ub => rw [hr] at h; cases h
    | div => rw [hr] at h; cases h

/-- **C99, wide intervals (violated).** However many numbers an interval has, at most 2³¹ - 2 of them ever occur, whatever the seed and
however many numbers have been drawn: so from an interval with more numbers, such as all of `int`, some are never drawn. -/
theorem C99_wide_violated {a : Nat} (ha : Engine a) (lo hi : Int) (hr : hi - lo < 2 ^ 32) (hw : 2147483646 ≤ hi - lo) :
    (∀ S : Finset Int, (∀ v ∈ S, ∃ x fuel y, Value x ∧ uniformInt a fuel lo hi x = .ok (v, y)) → S.card ≤ 2147483646) ∧
    ∃ v, lo ≤ v ∧ v ≤ hi ∧ ∀ x fuel y, Value x → uniformInt a fuel lo hi x ≠ .ok (v, y) := by
  have key : ∀ x fuel v y, Value x → uniformInt a fuel lo hi x = .ok (v, y) → ∃ z, Value z ∧ y = next a z ∧
      v = lo + (((range * ((z - 1) / ((range - 1) / ((hi - lo).toNat / range + 1))) % 2 ^ 64 + (y - 1)) % 2 ^ 64 : Nat) : Int) := by
    intro x fuel v y hx h
    unfold uniformInt at h
    simp only [] at h
    rw [if_neg (by unfold range modulus; omega), if_neg (by unfold range modulus; omega)] at h
    cases hq : wide a fuel (hi - lo).toNat fuel x with
    | ok p =>
      obtain ⟨w, y'⟩ := p
      rw [hq] at h
      simp only [Out.bind_ok] at h
      injection h with h
      injection h with h1 h2
      subst h2
      obtain ⟨z, h3, h4, h5⟩ := wide_ok ha (by omega) fuel x hx hq
      exact ⟨z, h3, h4, by rw [← h1, ← h5]⟩
    | err => rw [hq] at h; cases h
    | ub => rw [hq] at h; cases h
    | div => rw [hq] at h; cases h
  have h1 : ∀ S : Finset Int, (∀ v ∈ S, ∃ x fuel y, Value x ∧ uniformInt a fuel lo hi x = .ok (v, y)) → S.card ≤ 2147483646 := by
    intro S hS
    have h2 : ∀ v ∈ S, ∃ z, Value z ∧
        v = lo + (((range * ((z - 1) / ((range - 1) / ((hi - lo).toNat / range + 1))) % 2 ^ 64 + (next a z - 1)) % 2 ^ 64 : Nat) : Int) := by
      intro v hv
      obtain ⟨x, fuel, y, hx, h⟩ := hS v hv
      obtain ⟨z, h3, h4, h5⟩ := key x fuel v y hx h
      exact ⟨z, h3, by rw [← h4]; exact h5⟩
    choose! g hg1 hg2 using h2
    have h3 := Finset.card_le_card_of_injOn (s := S) (t := Finset.Icc 1 2147483646) g (fun v hv => Finset.mem_coe.2 (Finset.mem_Icc.2 (hg1 v hv)))
      (fun v hv w hw e => by rw [hg2 v hv, hg2 w hw, e])
    rwa [Nat.card_Icc] at h3
  refine ⟨h1, ?_⟩
  by_contra hc
  push Not at hc
  have h2 := h1 (Finset.Icc lo hi) fun v hv => by
    obtain ⟨h3, h4⟩ := Finset.mem_Icc.1 hv
    obtain ⟨x, fuel, y, h5, h6⟩ := hc v h3 h4
    exact ⟨x, fuel, y, h5, h6⟩
  rw [Int.card_Icc] at h2
  omega

/-! ### Examples -/

/-- A number from all of `int`, for which two values of the engine are used. -/
example : uniformInt 16807 2 (-2147483648) 2147483647 1 = .ok (-1865008400, 282475249) := by decide +kernel

example : Value (seedState 123) ∧ seedState 123 = 123 ∧ draw 48271 123 1 = 5937333 ∧ draw 16807 1 2 = 282475249 := by
  unfold Value; decide +kernel

example : uniformInt 48271 10 1 6 123 = .ok (1, 5937333) := by decide +kernel

example : (uniform 16807 1 (0 : ℚ) 1 1).1 = 16806 / 2147483646 := by
  rw [C99_uniform_float]
  norm_num [next, modulus]

end Xo.Rng
