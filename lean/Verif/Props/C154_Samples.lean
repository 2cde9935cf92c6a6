import Verif.Model.SampleFl
import Verif.Props.C131_Accuracy

/-!
C154: values between samples, with rounding.
-/
namespace Xo.SampFl
open Num (Fl Fmt binary32 binary64)
open Ieee Norm LongSum
open Ieee.Spec (OfType num IsNan)
open Norm.Spec (FloatOrDouble)
open LongSum.Spec

namespace Spec

/-- The straight line between samples `i` and `i + 1`, at a position. -/
def segment (l : Nat → Rat) (i : Nat) (p : Rat) : Rat := l i + (p - i) * (l (i + 1) - l i)

/-- The number of the samples around a position; the first or the last pair for positions outside. -/
def pair (n : Nat) (p : Rat) : Nat := (min (max ⌊p⌋ 0) ((n : Int) - 2)).toNat

/-- The exact polygon through `n` samples; outside of them the first and the last line go on. -/
def polygon (n : Nat) (l : Nat → Rat) (p : Rat) : Rat := segment l (pair n p) p

/-- The samples, as numbers. -/
def samples (l : List Fl) (i : Nat) : Rat := val (l.getD i (ofNat 0))

end Spec
open Spec

theorem ofInt_fine {f : Fmt} (w : Wide f) {k : Int} (h : |k| < 2 ^ 24) : Fine f (ofInt f k) ∧ val (ofInt f k) = k := by
  have hp : (2 : Int) ^ 24 ≤ 2 ^ f.prec := pow_le_pow_right₀ (by norm_num) w.ok.prec
  have he : f.emin ≤ 0 := by have := w.small; omega
  have e : rq f ((k : Int) : Rat) = k := by
    have := rq_mul (f := f) (m := k) (e := 0) (by linarith) he
    simpa using this
  have hk : |((k : Int) : Rat)| < 2 ^ 24 := by exact_mod_cast h
  have := fine_round w (z := false) (x := k) (by
    rw [e]
    have := one_le w
    norm_num at this hk ⊢
    linarith)
  rw [e] at this
  exact this

theorem nonneg_le {f : Fmt} {x : Fl} (h : Fine f x) : le x (ofNat 0) = true ↔ val x ≤ 0 := by
  rw [le_iff (fine_number h) id, num_fine h]
  simp [num, ofNat]

theorem fine_fin {f : Fmt} {x : Fl} (h : Fine f x) : ∃ s m, x = .fin s m := finite_fin h.1

/-- **C154, before the samples.** An index of zero or less, also minus infinity, gives the first sample. -/
theorem C154_first (f : Fmt) (a : Fl) (l : List Fl) (x : Fl) (hx : ¬ IsNan x) (h : num x ≤ num (ofNat 0)) : lerpSpan f (a :: l) x = .ok a := by
  unfold lerpSpan
  rw [if_pos (by simp), if_pos ((le_iff hx id).2 h)]
  rfl

/-- **C154, behind the samples.** An index from the one of the last sample on, in the range of `int`, gives the last sample. -/
theorem C154_last {f : Fmt} (l : List Fl) (a : Fl) (x : Fl) (hx : Fine f x) (h : (l.length : Rat) ≤ val x) (hi : val x < 2 ^ 31 - 1) :
    lerpSpan f (l ++ [a]) x = .ok a := by
  unfold lerpSpan
  rw [if_pos (by simp)]
  by_cases h0 : val x ≤ 0
  · rw [if_pos ((nonneg_le hx).2 h0)]
    have : l.length = 0 := by
      have : (l.length : Rat) ≤ 0 := h.trans h0
      exact_mod_cast le_antisymm this (by positivity)
    rw [List.length_eq_zero_iff.1 this]
    rfl
  · rw [if_neg (by rw [nonneg_le hx]; exact h0)]
    obtain ⟨s, m, rfl⟩ := fine_fin hx
    have hl : (l.length : Int) ≤ ⌊val (.fin s m)⌋ := by
      rw [Int.le_floor]
      exact_mod_cast h
    have hu : ⌊val (.fin s m)⌋ < 2 ^ 31 - 1 := by
      rw [Int.floor_lt]
      norm_num at hi ⊢
      exact hi
    dsimp only
    rw [if_neg (by omega), if_neg (by omega), if_pos (by simp; omega)]
    simp [Res.ofOptionUb]

/-- **C154, between the samples.** Between two neighbouring samples the result is within six roundings of the straight line. -/
theorem C154_between {f : Fmt} (hf : FloatOrDouble f) (before behind : List Fl) (a b x : Fl) (ha : Ieee.Spec.Finite a ∧ OfType f a) (hb : Ieee.Spec.Finite b ∧ OfType f b)
    (hx : Ieee.Spec.Finite x ∧ OfType f x) (hn : before.length < 2 ^ 24) (h0 : (before.length : Rat) ≤ val x) (h00 : 0 < val x) (h1 : val x < before.length + 1)
    (hB : 4 * (|val a| + |val b|) + 4 ≤ 2 ^ f.emax) :
    ∃ v, lerpSpan f (before ++ a :: b :: behind) x = .ok v ∧ Ieee.Spec.Finite v ∧
      |val v - (val a + (val x - before.length) * (val b - val a))| ≤ 6 * roundoff f * (|val a| + |val b|) + 2 * tiny f := by
  have w := wide_of hf
  have hfl : ⌊val x⌋ = (before.length : Int) := by
    rw [Int.floor_eq_iff]
    exact ⟨by exact_mod_cast h0, by exact_mod_cast h1⟩
  obtain ⟨c1, c2⟩ := ofInt_fine w (k := before.length) (by rw [abs_of_nonneg (by positivity)]; exact_mod_cast hn)
  have c2 : val (ofInt f before.length) = before.length := by rw [c2]; simp
  have d0 : 0 ≤ val x - before.length := by linarith
  have d1 : val x - before.length ≤ 1 := by linarith
  have u0 := un_pos f
  have u1 := un_le w
  obtain ⟨t1, t2⟩ := sub_fine w hx c1 (by
    rw [c2, abs_of_nonneg d0]
    have := one_le w
    norm_num at this ⊢
    linarith)
  rw [c2, abs_of_nonneg d0] at t2
  obtain ⟨r1, r2⟩ := lerp_close w (α := un f) (β := 0) ha hb t1.1 d0 d1 u0.le (by norm_num at u1; linarith) le_rfl (by norm_num) (by linarith) hB
  refine ⟨lerp f a b (sub f x (ofInt f before.length)), ?_, r1.1, r2.trans ?_⟩
  · unfold lerpSpan
    rw [if_pos (by simp), if_neg (by rw [nonneg_le hx]; linarith)]
    obtain ⟨s, m, rfl⟩ := fine_fin hx
    dsimp only
    rw [hfl, if_neg (by omega), if_neg (by omega), if_neg (by simp)]
    simp
  · have hS : |val b - val a| ≤ |val a| + |val b| := by
      have := abs_sub (val b) (val a)
      linarith
    have k1 := mul_le_mul_of_nonneg_left hS u0.le
    have k3 : 0 ≤ un f * (|val a| + |val b|) := by positivity
    show _ ≤ 6 * un f * (|val a| + |val b|) + 2 * et f
    linarith

/-- **C154, at the samples.** At a whole index the result is the sample, exactly. -/
theorem C154_at {f : Fmt} (hf : FloatOrDouble f) (before behind : List Fl) (a b x : Fl) (ha : Ieee.Spec.Finite a ∧ OfType f a) (hb : Ieee.Spec.Finite b ∧ OfType f b)
    (hx : Ieee.Spec.Finite x ∧ OfType f x) (hn : before.length < 2 ^ 24) (h0 : val x = before.length) (h00 : before ≠ [])
    (hB : 2 * |val b - val a| < 2 ^ f.emax) :
    ∃ v, lerpSpan f (before ++ a :: b :: behind) x = .ok v ∧ Ieee.Spec.Finite v ∧ val v = val a := by
  have w := wide_of hf
  have hfl : ⌊val x⌋ = (before.length : Int) := by
    rw [h0]; simp
  obtain ⟨c1, c2⟩ := ofInt_fine w (k := before.length) (by rw [abs_of_nonneg (by positivity)]; exact_mod_cast hn)
  have c2 : val (ofInt f before.length) = before.length := by rw [c2]; simp
  have h48 := one_le w
  have l0 : 0 < before.length := List.length_pos_of_ne_nil h00
  obtain ⟨t1, t2⟩ := sub_fine w hx c1 (by
    rw [c2, h0, sub_self, abs_zero]
    norm_num at h48 ⊢
    linarith)
  rw [c2, h0, sub_self, abs_zero, MulZeroClass.mul_zero, sub_zero] at t2
  have t3 : val (sub f x (ofInt f before.length)) = 0 := abs_eq_zero.1 (le_antisymm t2 (abs_nonneg _))
  obtain ⟨d1, -⟩ := sub_fine w hb ha hB
  have m1 : Fine f (mul f (sub f x (ofInt f before.length)) (sub f b a)) ∧ val (mul f (sub f x (ofInt f before.length)) (sub f b a)) = 0 := by
    obtain ⟨s, m, e⟩ := fine_fin t1
    obtain ⟨s', m', e'⟩ := fine_fin d1
    rw [e] at t3
    rw [e, e']
    show Fine f (ofRat f _ _) ∧ val (ofRat f _ _) = 0
    rw [t3, zero_mul]
    have := fine_round w (z := s != s') (x := 0) (by
      rw [rq_zero, abs_zero]
      positivity)
    rw [rq_zero] at this
    exact this
  have r1 : Fine f (lerp f a b (sub f x (ofInt f before.length))) ∧ val (lerp f a b (sub f x (ofInt f before.length))) = val a := by
    obtain ⟨s, m, e⟩ := fine_fin m1.1
    obtain ⟨s', m', rfl⟩ := fine_fin ha
    have m1 := m1.2
    unfold lerp
    rw [e] at m1 ⊢
    show Fine f (ofRat f _ _) ∧ val (ofRat f _ _) = _
    rw [m1, add_zero]
    have e1 := rq_val (f := f) ha.2
    have := fine_round w (z := s' && s) (x := val (.fin s' m')) (by
      rw [e1]
      exact val_lt ha.2)
    rw [e1] at this
    exact this
  refine ⟨lerp f a b (sub f x (ofInt f before.length)), ?_, r1.1.1, r1.2⟩
  unfold lerpSpan
  rw [if_pos (by simp), if_neg (by
    rw [nonneg_le hx, h0]
    have : (0 : Rat) < before.length := by exact_mod_cast l0
    linarith)]
  obtain ⟨s, m, rfl⟩ := fine_fin hx
  dsimp only
  rw [hfl, if_neg (by omega), if_neg (by omega), if_neg (by simp)]
  simp

/-- **C154, no samples.** There is an error message. -/
theorem C154_empty (f : Fmt) (x : Fl) : lerpSpan f [] x = .err := rfl

/-- **C154 is violated** for an index that is not a number, or larger than an `int`, also infinite: converting it is undefined, although
there are samples and smaller indices give the last one. -/
theorem C154_index_violated (f : Fmt) (a : Fl) (l : List Fl) : (∀ x, IsNan x → lerpSpan f (a :: l) x = .ub) ∧ lerpSpan f (a :: l) (.inf false) = .ub ∧
    ∀ x, Fine f x → 2 ^ 31 - 1 ≤ val x → lerpSpan f (a :: l) x = .ub := by
  refine ⟨fun x hx => ?_, by simp [lerpSpan, le, lt, eq, ofNat], fun x hx h => ?_⟩
  · unfold lerpSpan
    rw [if_pos (by simp), if_neg (by rw [le_nan_left hx]; simp)]
    cases x with
    | nan s => rfl
    | inf s => rfl
    | fin s m => exact absurd hx id
  · unfold lerpSpan
    rw [if_pos (by simp), if_neg (by rw [nonneg_le hx]; norm_num at h ⊢; linarith)]
    obtain ⟨s, m, rfl⟩ := fine_fin hx
    have : 2 ^ 31 - 1 ≤ ⌊val (.fin s m)⌋ := by
      rw [Int.le_floor]
      norm_num at h ⊢
      exact h
    dsimp only
    by_cases c : 2 ^ 31 ≤ ⌊val (.fin s m)⌋
    · rw [if_pos c]
    · rw [if_neg c, if_pos (by omega)]

/-- **C154 is violated** for samples that are far apart: at the index of a sample the result is not a number, if the difference to the next one is
too large for the type. -/
theorem C154_far_apart_violated : lerpSpan binary32 [ofNat 0, .fin false (maxVal binary32), .fin true (maxVal binary32)] (ofNat 1) = .ok (.nan false) := by
  decide +kernel

/-! ## Functions on a regular grid -/

theorem segment_lipschitz {l : Nat → Rat} {D : Rat} {n : Nat} (hD : ∀ i, i + 1 < n → |l (i + 1) - l i| ≤ D) : ∀ (d i : Nat), i + d + 1 < n → ∀ p q : Rat,
    p ≤ q → (0 < d → p ≤ i + 1 ∧ (i : Rat) + d ≤ q) → |segment l i p - segment l (i + d) q| ≤ D * (q - p)
  | 0, i, hn, p, q, hpq, _ => by
    have e : segment l i p - segment l (i + 0) q = -((q - p) * (l (i + 1) - l i)) := by
      simp only [segment, Nat.add_zero]; ring
    rw [e, abs_neg, abs_mul, abs_of_nonneg (by linarith)]
    have := mul_le_mul_of_nonneg_left (hD i (by omega)) (show 0 ≤ q - p by linarith)
    linarith
  | d + 1, i, hn, p, q, hpq, h => by
    obtain ⟨h1, h2⟩ := h (by omega)
    push_cast at h2
    have d0 : (0 : Rat) ≤ d := by positivity
    have ih := segment_lipschitz hD d (i + 1) (by omega) ((i : Rat) + 1) q (by linarith) (fun _ => ⟨by push_cast; linarith, by push_cast; linarith⟩)
    have e : segment l (i + 1) ((i : Rat) + 1) = segment l i ((i : Rat) + 1) := by
      simp only [segment]; push_cast; ring
    rw [e, show i + 1 + d = i + (d + 1) by omega] at ih
    have e2 : segment l i p - segment l i ((i : Rat) + 1) = -(((i : Rat) + 1 - p) * (l (i + 1) - l i)) := by
      simp only [segment]; ring
    have k : |segment l i p - segment l i ((i : Rat) + 1)| ≤ D * ((i : Rat) + 1 - p) := by
      rw [e2, abs_neg, abs_mul, abs_of_nonneg (by linarith)]
      have := mul_le_mul_of_nonneg_left (hD i (by omega)) (show 0 ≤ (i : Rat) + 1 - p by linarith)
      linarith
    have e3 : segment l i p - segment l (i + (d + 1)) q = (segment l i p - segment l i ((i : Rat) + 1)) + (segment l i ((i : Rat) + 1) - segment l (i + (d + 1)) q) := by ring
    rw [e3]
    refine (abs_add_le _ _).trans ?_
    linarith

/-- The polygon does not rise or fall faster than its samples. -/
theorem polygon_lipschitz {l : Nat → Rat} {D : Rat} {n : Nat} (hn : 2 ≤ n) (hD : ∀ i, i + 1 < n → |l (i + 1) - l i| ≤ D) (p q : Rat) :
    |polygon n l p - polygon n l q| ≤ D * |p - q| := by
  have key : ∀ p q : Rat, p ≤ q → |polygon n l p - polygon n l q| ≤ D * (q - p) := by
    intro p q hpq
    have hfl : ⌊p⌋ ≤ ⌊q⌋ := Int.floor_le_floor hpq
    have hle : pair n p ≤ pair n q := by unfold pair; omega
    obtain ⟨d, hd⟩ := Nat.exists_eq_add_of_le hle
    have := segment_lipschitz hD d (pair n p) (by rw [← hd]; unfold pair; omega) p q hpq (by
      intro hd0
      have h1 : ⌊p⌋ ≤ pair n p := by unfold pair at hd ⊢; omega
      have h2 : (pair n q : Int) ≤ ⌊q⌋ := by unfold pair at hd ⊢; omega
      constructor
      · have := Int.lt_floor_add_one p
        have h1 : ((⌊p⌋ : Int) : Rat) ≤ pair n p := by exact_mod_cast h1
        linarith
      · have := Int.floor_le q
        have h2 : ((pair n q : Nat) : Rat) ≤ ((⌊q⌋ : Int) : Rat) := by exact_mod_cast h2
        rw [hd] at h2
        push_cast at h2
        linarith)
    rw [← hd] at this
    exact this
  rcases le_total p q with h | h
  · rw [abs_of_nonpos (by linarith : p - q ≤ 0), neg_sub]
    exact key p q h
  · rw [abs_sub_comm, abs_of_nonneg (by linarith : 0 ≤ p - q)]
    exact key q p h

/-- The error of `(1 - w) a + w b`. -/
theorem mix_arith {u η a b ω W V P Q R : Rat} (u0 : 0 < u) (u1 : u ≤ 1 / 2 ^ 24) (η0 : 0 < η) (η1 : η ≤ 1 / 10) (hω : |ω| ≤ 2) (hW : |W - ω| ≤ u * |ω|) (hV : |V - (1 - W)| ≤ u * |1 - W|)
    (hP : |P - V * a| ≤ u * |V * a| + η) (hQ : |Q - W * b| ≤ u * |W * b| + η) (hR : |R - (P + Q)| ≤ u * |P + Q|) :
    |1 - W| ≤ 4 ∧ |V * a| ≤ 4 * |a| ∧ |W * b| ≤ 3 * |b| ∧ |P + Q| ≤ 5 * (|a| + |b|) + 1 ∧ |R - (a + ω * (b - a))| ≤ 20 * u * (|a| + |b|) + 3 * η := by
  norm_num at u1
  have a0 := abs_nonneg a
  have b0 := abs_nonneg b
  have w1 : |W - ω| ≤ 2 * u := hW.trans (by have := mul_le_mul_of_nonneg_left hω u0.le; linarith)
  have w2 : |W| ≤ 2 + 2 * u := by
    have := abs_add_le (W - ω) ω
    rw [sub_add_cancel] at this
    linarith
  have w3 : |1 - W| ≤ 3 + 2 * u := by
    have := abs_sub 1 W
    rw [abs_one] at this
    linarith
  have hu2 : u * (3 + 2 * u) ≤ 301 / 100 * u := by
    have := mul_le_mul_of_nonneg_left (show 3 + 2 * u ≤ 301 / 100 by linarith) u0.le
    linarith
  have v1 : |V - (1 - ω)| ≤ 502 / 100 * u := by
    have e : V - (1 - ω) = (V - (1 - W)) + -(W - ω) := by ring
    rw [e]
    refine (abs_add_le _ _).trans ?_
    rw [abs_neg]
    have := mul_le_mul_of_nonneg_left w3 u0.le
    linarith
  have v2 : |V| ≤ 3 + 502 / 100 * u := by
    have := abs_add_le (V - (1 - ω)) (1 - ω)
    rw [sub_add_cancel] at this
    have h := abs_sub 1 ω
    rw [abs_one] at h
    linarith
  have va : |V * a| ≤ 301 / 100 * |a| := by
    rw [abs_mul]
    exact mul_le_mul_of_nonneg_right (by linarith) a0
  have wb : |W * b| ≤ 201 / 100 * |b| := by
    rw [abs_mul]
    exact mul_le_mul_of_nonneg_right (by linarith) b0
  have p1 : |P - (1 - ω) * a| ≤ 805 / 100 * u * |a| + η := by
    have e : P - (1 - ω) * a = (P - V * a) + (V - (1 - ω)) * a := by ring
    rw [e]
    refine (abs_add_le _ _).trans ?_
    rw [abs_mul (V - (1 - ω))]
    have k1 := mul_le_mul_of_nonneg_right v1 a0
    have k2 := mul_le_mul_of_nonneg_left va u0.le
    have : 0 ≤ u * |a| := by positivity
    linarith
  have q1 : |Q - ω * b| ≤ 402 / 100 * u * |b| + η := by
    have e : Q - ω * b = (Q - W * b) + (W - ω) * b := by ring
    rw [e]
    refine (abs_add_le _ _).trans ?_
    rw [abs_mul (W - ω)]
    have k1 := mul_le_mul_of_nonneg_right w1 b0
    have k2 := mul_le_mul_of_nonneg_left wb u0.le
    have : 0 ≤ u * |b| := by positivity
    linarith
  have pq : |P + Q| ≤ 302 / 100 * (|a| + |b|) + 2 * η + 0 := by
    have h1 := abs_add_le P Q
    have h2 : |P| ≤ |P - V * a| + |V * a| := by
      have := abs_add_le (P - V * a) (V * a)
      rwa [sub_add_cancel] at this
    have h3 : |Q| ≤ |Q - W * b| + |W * b| := by
      have := abs_add_le (Q - W * b) (W * b)
      rwa [sub_add_cancel] at this
    have k1 := mul_le_mul_of_nonneg_left va u0.le
    have k2 := mul_le_mul_of_nonneg_left wb u0.le
    have k3 : u * |a| ≤ 1 / 1000 * |a| := mul_le_mul_of_nonneg_right (by linarith) a0
    have k4 : u * |b| ≤ 1 / 1000 * |b| := mul_le_mul_of_nonneg_right (by linarith) b0
    linarith
  refine ⟨by linarith, by linarith, by linarith, by linarith, ?_⟩
  have e : R - (a + ω * (b - a)) = (R - (P + Q)) + (P - (1 - ω) * a) + (Q - ω * b) := by ring
  rw [e]
  refine (abs_add_le _ _).trans ?_
  have h1 := abs_add_le (R - (P + Q)) (P - (1 - ω) * a)
  have k1 := mul_le_mul_of_nonneg_left pq u0.le
  have k2 : u * η ≤ 1 / 10 * η := mul_le_mul_of_nonneg_right (by linarith) η0.le
  have k3 : 0 ≤ u * |a| := by positivity
  have k4 : 0 ≤ u * |b| := by positivity
  linarith

/-- The value of a function on a regular grid at an index. -/
theorem eval_at {f : Fmt} (w : Wide f) {r : Regular} {x : Fl} {n : Nat} (hn : r.data.length = n) (n2 : 2 ≤ n) (n3 : n ≤ 2 ^ 22)
    (hd : ∀ v ∈ r.data, Fine f v) {S : Rat} (hS : ∀ v ∈ r.data, |val v| ≤ S) (hB : 20 * S + 4 ≤ 2 ^ f.emax)
    (hi : Fine f (div f (sub f x r.base) r.step)) (h0 : -1 ≤ val (div f (sub f x r.base) r.step)) (h1 : val (div f (sub f x r.base) r.step) ≤ n) :
    ∃ v, r.eval f x = .ok v ∧ Ieee.Spec.Finite v ∧
      |val v - polygon n (samples r.data) (val (div f (sub f x r.base) r.step))| ≤ 40 * un f * S + 3 * et f := by
  unfold Regular.eval
  obtain ⟨s, m, e⟩ := fine_fin hi
  rw [e] at hi h0 h1 ⊢
  generalize hp : val (.fin s m) = p at h0 h1
  have hf0 : -1 ≤ ⌊p⌋ := by rw [Int.le_floor]; exact_mod_cast h0
  have hf1 : ⌊p⌋ ≤ n := by
    have : ((⌊p⌋ : Int) : Rat) ≤ n := (Int.floor_le p).trans h1
    exact_mod_cast this
  dsimp only
  rw [hp, hn, if_neg (by omega)]
  have hlb : (if ⌊p⌋ < 0 then 0 else if ⌊p⌋ > (n : Int) - 2 then (n : Int) - 2 else ⌊p⌋) = ((pair n p : Nat) : Int) := by
    unfold pair
    split <;> [skip; split] <;> omega
  rw [hlb]
  generalize hi' : pair n p = i
  have hin : i + 1 < n := by rw [← hi']; unfold pair; omega
  have hω : |p - i| ≤ 2 := by
    have g1 := Int.floor_le p
    have g2 := Int.lt_floor_add_one p
    rw [abs_le]
    have c1 : (i : Int) ≤ ⌊p⌋ + 1 := by rw [← hi']; unfold pair; omega
    have c1' : ((i : Nat) : Rat) ≤ ((⌊p⌋ : Int) : Rat) + 1 := by exact_mod_cast c1
    constructor
    · linarith
    · rcases le_or_gt ⌊p⌋ ((n : Int) - 2) with c | c
      · have c2 : ⌊p⌋ ≤ (i : Int) := by rw [← hi']; unfold pair; omega
        have c2' : ((⌊p⌋ : Int) : Rat) ≤ ((i : Nat) : Rat) := by exact_mod_cast c2
        linarith
      · have c2 : (i : Int) = (n : Int) - 2 := by rw [← hi']; unfold pair; omega
        have c2' : ((i : Nat) : Rat) = (n : Rat) - 2 := by exact_mod_cast c2
        linarith
  have ga : r.data[i]? = some (r.data[i]'(by omega)) := List.getElem?_eq_getElem _
  have gb : r.data[i + 1]? = some (r.data[i + 1]'(by omega)) := List.getElem?_eq_getElem _
  generalize ha : r.data[i]'(by omega) = a at ga
  generalize hb : r.data[i + 1]'(by omega) = b at gb
  have fa := hd a (ha ▸ List.getElem_mem _)
  have fb := hd b (hb ▸ List.getElem_mem _)
  have sa := hS a (ha ▸ List.getElem_mem _)
  have sb := hS b (hb ▸ List.getElem_mem _)
  rw [Int.toNat_natCast, ga, gb]
  refine ⟨_, rfl, ?_⟩
  have u0 := un_pos f
  have u1 := un_le w
  have e0 := et_pos f
  have e2 : et f ≤ 1 / 10 := (et_le w).trans ((pow_le_pow_left₀ u0.le u1 5).trans (by norm_num))
  have h48 := one_le w
  norm_num at h48
  have a0 := abs_nonneg (val a)
  have b0 := abs_nonneg (val b)
  obtain ⟨c1, c2⟩ := ofInt_fine w (k := i) (by rw [abs_of_nonneg (by positivity)]; norm_num at n3 ⊢; omega)
  have c2 : val (ofInt f i) = i := by rw [c2]; simp
  obtain ⟨t1, t2⟩ := sub_fine w hi c1 (by rw [hp, c2]; linarith)
  rw [hp, c2] at t2
  have o1 := (ofInt_fine w (k := 1) (by norm_num)).1
  have one : Fine f (ofNat 1) ∧ val (ofNat 1) = 1 := by
    refine ⟨⟨trivial, ?_⟩, by simp [val, ofNat]⟩
    have hw := w.small
    obtain ⟨hh, q1, q2, q3⟩ := w.half
    exact ⟨1, 0, Nat.one_lt_two_pow (by have := w.ok.prec; omega), by omega, by have := w.ok.prec; omega, by simp⟩
  have ar1 := mix_arith (a := 0) (b := 0) (V := 1 - val (sub f (.fin s m) (ofInt f i))) (P := 0) (Q := 0) (R := 0) u0 u1 e0 e2 hω t2 (by rw [sub_self, abs_zero]; positivity)
    (by simp [e0.le]) (by simp [e0.le]) (by simp)
  obtain ⟨v1, v2⟩ := sub_fine w one.1 t1 (by rw [one.2]; linarith [ar1.1])
  rw [one.2] at v2
  have ar2 := mix_arith (a := val a) (b := val b) (P := val (sub f (ofNat 1) (sub f (.fin s m) (ofInt f i))) * val a) (Q := val (sub f (.fin s m) (ofInt f i)) * val b)
    (R := val (sub f (ofNat 1) (sub f (.fin s m) (ofInt f i))) * val a + val (sub f (.fin s m) (ofInt f i)) * val b) u0 u1 e0 e2 hω t2 v2
    (by rw [sub_self, abs_zero]; positivity) (by rw [sub_self, abs_zero]; positivity) (by rw [sub_self, abs_zero]; positivity)
  obtain ⟨p1, p2⟩ := mul_fine w v1.1 fa.1 (by linarith [ar2.2.1])
  obtain ⟨q1, q2⟩ := mul_fine w t1.1 fb.1 (by linarith [ar2.2.2.1])
  have ar3 := mix_arith (R := val (mul f (sub f (ofNat 1) (sub f (.fin s m) (ofInt f i))) a) + val (mul f (sub f (.fin s m) (ofInt f i)) b)) u0 u1 e0 e2 hω t2 v2 p2 q2
    (by rw [sub_self, abs_zero]; positivity)
  obtain ⟨r1, r2⟩ := add_fine w p1 q1 (M := |val (mul f (sub f (ofNat 1) (sub f (.fin s m) (ofInt f i))) a) + val (mul f (sub f (.fin s m) (ofInt f i)) b)|) le_rfl (by
    linarith [ar3.2.2.2.1])
  have fin := (mix_arith u0 u1 e0 e2 hω t2 v2 p2 q2 r2).2.2.2.2
  refine ⟨r1.1, ?_⟩
  have ep : polygon n (samples r.data) p = val a + (p - i) * (val b - val a) := by
    unfold polygon segment samples
    rw [hi', List.getD_eq_getElem?_getD, List.getD_eq_getElem?_getD, ga, gb]
    rfl
  rw [ep]
  refine fin.trans ?_
  have := mul_le_mul_of_nonneg_left (show |val a| + |val b| ≤ 2 * S by linarith) u0.le
  linarith

/-- **C154, regular grids.** At an argument on the grid, or between its points, the result is close to the exact polygon through the samples: within forty
roundings of the largest sample, and as much as the polygon can change in four roundings of the distance from the first point. -/
theorem C154_regular {f : Fmt} (hf : FloatOrDouble f) (r : Regular) (x : Fl) (n2 : 2 ≤ r.data.length) (n3 : r.data.length ≤ 2 ^ 22)
    (hv : ∀ v ∈ x :: r.base :: r.step :: r.data, Ieee.Spec.Finite v ∧ OfType f v) (S D : Rat) (hS : ∀ v ∈ r.data, |val v| ≤ S) (hB : 20 * S + 4 ≤ 2 ^ f.emax)
    (hD : ∀ i, i + 1 < r.data.length → |samples r.data (i + 1) - samples r.data i| ≤ D)
    (hs : 0 < val r.step) (h0 : val r.base ≤ val x) (h1 : val x ≤ val r.base + (r.data.length - 1) * val r.step) (hX : 2 * (val x - val r.base) < 2 ^ f.emax) :
    ∃ v, r.eval f x = .ok v ∧ Ieee.Spec.Finite v ∧
      |val v - polygon r.data.length (samples r.data) ((val x - val r.base) / val r.step)| ≤
        40 * roundoff f * S + 3 * tiny f + D * (4 * roundoff f * ((val x - val r.base) / val r.step) + tiny f) := by
  have w := wide_of hf
  have gx : Fine f x := hv x (by simp)
  have gb : Fine f r.base := hv r.base (by simp)
  have gs : Fine f r.step := hv r.step (by simp)
  have hd : ∀ v ∈ r.data, Fine f v := fun v h => hv v (by simp [h])
  have u0 := un_pos f
  have u1 := un_le w
  have e0 := et_pos f
  have e2 : et f ≤ 1 / 10 := (et_le w).trans ((pow_le_pow_left₀ u0.le u1 5).trans (by norm_num))
  have dn : 0 ≤ val x - val r.base := by linarith
  obtain ⟨a1, a2⟩ := sub_fine w gx gb (by rw [abs_of_nonneg dn]; exact hX)
  rw [abs_of_nonneg dn] at a2
  have t0 : 0 ≤ (val x - val r.base) / val r.step := div_nonneg dn hs.le
  have nr : (r.data.length : Rat) ≤ 4194304 := by norm_num at n3; exact_mod_cast n3
  have nr2 : (2 : Rat) ≤ r.data.length := by exact_mod_cast n2
  have t1 : (val x - val r.base) / val r.step ≤ r.data.length - 1 := (div_le_iff₀ hs).2 (by linarith)
  have b2 : |val r.step - val r.step| ≤ un f * val r.step := by rw [sub_self, abs_zero]; positivity
  have first := ratio_arith (T := val (sub f x r.base) / val r.step) u0 u1 dn hs a2 b2 (η := 0) (by
    rw [sub_self, abs_zero]
    positivity)
  have h48 := one_le w
  norm_num at h48
  obtain ⟨c1, c2⟩ := div_fine w a1.1 gs.1 hs.ne' (by linarith [first.2.1])
  obtain ⟨-, -, g⟩ := ratio_arith u0 u1 dn hs a2 b2 c2
  have ct : Fine f (div f (sub f x r.base) r.step) := ⟨c1, div_ofType w.ok _ _⟩
  have small : 31 / 10 * un f * ((val x - val r.base) / val r.step) ≤ 9 / 10 := by
    have k : un f * ((val x - val r.base) / val r.step) ≤ 1 / 2 ^ 24 * 2 ^ 22 := mul_le_mul u1 (by norm_num; linarith) t0 (by norm_num)
    norm_num at k
    linarith
  obtain ⟨g1, g2⟩ := abs_le.1 g
  obtain ⟨v, v1, v2, v3⟩ := eval_at w rfl n2 n3 hd hS hB ct (by linarith) (by linarith)
  refine ⟨v, v1, v2, ?_⟩
  have lp := polygon_lipschitz n2 hD (val (div f (sub f x r.base) r.step)) ((val x - val r.base) / val r.step)
  have D0 : 0 ≤ D := (abs_nonneg _).trans (hD 0 (by omega))
  have e : val v - polygon r.data.length (samples r.data) ((val x - val r.base) / val r.step) =
      (val v - polygon r.data.length (samples r.data) (val (div f (sub f x r.base) r.step))) +
      (polygon r.data.length (samples r.data) (val (div f (sub f x r.base) r.step)) - polygon r.data.length (samples r.data) ((val x - val r.base) / val r.step)) := by ring
  rw [e]
  refine (abs_add_le _ _).trans ?_
  have k := mul_le_mul_of_nonneg_left g D0
  have k2 : 0 ≤ D * (un f * ((val x - val r.base) / val r.step)) := by positivity
  show _ ≤ 40 * un f * S + 3 * et f + D * (4 * un f * ((val x - val r.base) / val r.step) + et f)
  linarith

/-- The error of `xmin + i step`. -/
theorem node_arith {u η s i x st M N B : Rat} (u0 : 0 < u) (u1 : u ≤ 1 / 2 ^ 24) (η0 : 0 < η) (s0 : 0 ≤ s) (i0 : 0 ≤ i) (hs : |st - s| ≤ 31 / 10 * u * s + η)
    (hM : |M - i * st| ≤ u * |i * st| + η) (hN : |N - (x + M)| ≤ u * |x + M|) (hB : |x + i * s| ≤ B) (hB2 : i * s ≤ 2 * B) :
    |i * st| ≤ 2 * (i * s) + i * η ∧ |x + M| ≤ 2 * B + 2 * (i + 1) * η ∧ |N - (x + i * s)| ≤ 10 * u * B + 2 * (i + 1) * η := by
  norm_num at u1
  have is0 : 0 ≤ i * s := mul_nonneg i0 s0
  have iη : 0 ≤ i * η := mul_nonneg i0 η0.le
  have B0 : 0 ≤ B := (abs_nonneg _).trans hB
  have a1 : |i * st - i * s| ≤ 31 / 10 * (u * (i * s)) + i * η := by
    rw [← mul_sub, abs_mul, abs_of_nonneg i0]
    have := mul_le_mul_of_nonneg_left hs i0
    linarith
  have us : u * (i * s) ≤ 1 / 1000 * (i * s) := mul_le_mul_of_nonneg_right (by linarith) is0
  have a2 : |i * st| ≤ 101 / 100 * (i * s) + i * η := by
    have := abs_add_le (i * st - i * s) (i * s)
    rw [sub_add_cancel, abs_of_nonneg is0] at this
    linarith
  have a3 : |M - i * s| ≤ 42 / 10 * (u * (i * s)) + (101 / 100 * (i * η) + η) := by
    have e : M - i * s = (M - i * st) + (i * st - i * s) := by ring
    rw [e]
    refine (abs_add_le _ _).trans ?_
    have k := mul_le_mul_of_nonneg_left a2 u0.le
    have k2 : u * (i * η) ≤ 1 / 1000 * (i * η) := mul_le_mul_of_nonneg_right (by linarith) iη
    have k3 : 0 ≤ u * (i * s) := by positivity
    linarith
  have uB : u * (i * s) ≤ 2 * (u * B) := by
    have := mul_le_mul_of_nonneg_left hB2 u0.le
    linarith
  have uB2 : u * B ≤ 1 / 1000 * B := mul_le_mul_of_nonneg_right (by linarith) B0
  have a4 : |x + M| ≤ 101 / 100 * B + (101 / 100 * (i * η) + η) := by
    have e : x + M = (x + i * s) + (M - i * s) := by ring
    rw [e]
    refine (abs_add_le _ _).trans ?_
    linarith
  refine ⟨by linarith, by linarith, ?_⟩
  have e : N - (x + i * s) = (N - (x + M)) + (M - i * s) := by ring
  rw [e]
  refine (abs_add_le _ _).trans ?_
  have k := mul_le_mul_of_nonneg_left a4 u0.le
  have k2 : u * (i * η) ≤ 1 / 1000 * (i * η) := mul_le_mul_of_nonneg_right (by linarith) iη
  have k3 : u * η ≤ 1 / 1000 * η := mul_le_mul_of_nonneg_right (by linarith) η0.le
  have k4 : 0 ≤ u * B := by positivity
  linarith

/-- **C154, the grid.** The samples are the values of the given function at points that are close to evenly spread ones: within ten roundings of the
larger end. -/
theorem C154_grid {f : Fmt} (hf : FloatOrDouble f) (n : Nat) (xmin xmax : Fl) (fn : Fl → Fl) (n2 : 2 ≤ n) (n3 : n ≤ 2 ^ 22)
    (ha : Ieee.Spec.Finite xmin ∧ OfType f xmin) (hb : Ieee.Spec.Finite xmax ∧ OfType f xmax) (h : val xmin ≤ val xmax) (B : Rat) (hB1 : |val xmin| ≤ B) (hB2 : |val xmax| ≤ B)
    (hB : 8 * B + 2 ^ 25 ≤ 2 ^ f.emax) :
    (Regular.make f n xmin xmax fn).data.length = n ∧ (Regular.make f n xmin xmax fn).base = xmin ∧
    |val (Regular.make f n xmin xmax fn).step - (val xmax - val xmin) / ((n : Rat) - 1)| ≤ 4 * roundoff f * ((val xmax - val xmin) / ((n : Rat) - 1)) + tiny f ∧
    ∀ i, i < n → ∃ t, (Regular.make f n xmin xmax fn).data[i]? = some (fn t) ∧ Ieee.Spec.Finite t ∧
      |val t - (val xmin + i * ((val xmax - val xmin) / ((n : Rat) - 1)))| ≤ 10 * roundoff f * B + 2 * (i + 1) * tiny f := by
  have w := wide_of hf
  refine ⟨by simp [Regular.make], rfl, ?_⟩
  have u0 := un_pos f
  have u1 := un_le w
  have e0 := et_pos f
  have e2 : et f ≤ 1 / 10 := (et_le w).trans ((pow_le_pow_left₀ u0.le u1 5).trans (by norm_num))
  have dn : 0 ≤ val xmax - val xmin := by linarith
  obtain ⟨x1, x2⟩ := abs_le.1 hB1
  obtain ⟨y1, y2⟩ := abs_le.1 hB2
  norm_num at hB
  obtain ⟨a1, a2⟩ := sub_fine w hb ha (by rw [abs_of_nonneg dn]; linarith)
  rw [abs_of_nonneg dn] at a2
  have nr2 : (2 : Rat) ≤ n := by exact_mod_cast n2
  have nr3 : (n : Rat) ≤ 4194304 := by norm_num at n3; exact_mod_cast n3
  obtain ⟨c1, c2⟩ := ofInt_fine w (k := (n : Int) - 1) (by rw [abs_of_nonneg (by omega)]; norm_num at n3 ⊢; omega)
  have c2 : val (ofInt f ((n : Int) - 1)) = (n : Rat) - 1 := by rw [c2]; push_cast; ring
  have d0 : (0 : Rat) < (n : Rat) - 1 := by linarith
  have b2 : |val (ofInt f ((n : Int) - 1)) - ((n : Rat) - 1)| ≤ un f * ((n : Rat) - 1) := by rw [c2, sub_self, abs_zero]; positivity
  have first := ratio_arith (T := val (sub f xmax xmin) / val (ofInt f ((n : Int) - 1))) u0 u1 dn d0 a2 b2 (η := 0) (by
    rw [sub_self, abs_zero]
    positivity)
  have s0 : 0 ≤ (val xmax - val xmin) / ((n : Rat) - 1) := div_nonneg dn d0.le
  have sB : (val xmax - val xmin) / ((n : Rat) - 1) ≤ val xmax - val xmin := div_le_self dn (by linarith)
  obtain ⟨g1, g2⟩ := div_fine w a1.1 c1.1 (by rw [c2]; linarith) (by linarith [first.2.1])
  obtain ⟨-, -, g⟩ := ratio_arith u0 u1 dn d0 a2 b2 g2
  have gs : Fine f (div f (sub f xmax xmin) (ofInt f ((n : Int) - 1))) := ⟨g1, div_ofType w.ok _ _⟩
  constructor
  · refine g.trans ?_
    have : 0 ≤ un f * ((val xmax - val xmin) / ((n : Rat) - 1)) := by positivity
    show _ ≤ 4 * un f * _ + et f
    linarith
  intro i hi
  obtain ⟨k1, k2⟩ := ofInt_fine w (k := (i : Int)) (by rw [abs_of_nonneg (by omega)]; norm_num at n3 ⊢; omega)
  have k2 : val (ofInt f (i : Int)) = (i : Rat) := by rw [k2]; simp
  have i0 : (0 : Rat) ≤ i := by positivity
  have i1 : (i : Rat) ≤ (n : Rat) - 1 := by
    have : (i : Rat) + 1 ≤ n := by exact_mod_cast hi
    linarith
  have is1 : (i : Rat) * ((val xmax - val xmin) / ((n : Rat) - 1)) ≤ val xmax - val xmin := by
    calc _ ≤ ((n : Rat) - 1) * ((val xmax - val xmin) / ((n : Rat) - 1)) := mul_le_mul_of_nonneg_right i1 s0
      _ = _ := by field_simp
  have is0 : 0 ≤ (i : Rat) * ((val xmax - val xmin) / ((n : Rat) - 1)) := mul_nonneg i0 s0
  have hB3 : |val xmin + (i : Rat) * ((val xmax - val xmin) / ((n : Rat) - 1))| ≤ B := abs_le.2 ⟨by linarith, by linarith⟩
  have hB4 : (i : Rat) * ((val xmax - val xmin) / ((n : Rat) - 1)) ≤ 2 * B := by linarith
  have iη : (i : Rat) * et f ≤ 4194304 * (1 / 10) := mul_le_mul (by linarith) e2 e0.le (by norm_num)
  have ar1 := node_arith (M := (i : Rat) * val (div f (sub f xmax xmin) (ofInt f ((n : Int) - 1))))
    (N := val xmin + (i : Rat) * val (div f (sub f xmax xmin) (ofInt f ((n : Int) - 1)))) u0 u1 e0 s0 i0 g (by rw [sub_self, abs_zero]; positivity)
    (by rw [sub_self, abs_zero]; positivity) hB3 hB4
  obtain ⟨m1, m2⟩ := mul_fine w k1.1 gs.1 (by rw [k2]; linarith [ar1.1])
  rw [k2] at m2
  have ar2 := node_arith (N := val xmin + val (mul f (ofInt f i) (div f (sub f xmax xmin) (ofInt f ((n : Int) - 1))))) u0 u1 e0 s0 i0 g m2
    (by rw [sub_self, abs_zero]; positivity) hB3 hB4
  obtain ⟨r1, r2⟩ := add_fine w ha m1 (M := |val xmin + val (mul f (ofInt f i) (div f (sub f xmax xmin) (ofInt f ((n : Int) - 1))))|) le_rfl (by
    linarith [ar2.2.1])
  refine ⟨add f xmin (mul f (ofInt f i) (div f (sub f xmax xmin) (ofInt f ((n : Int) - 1)))), ?_, r1.1, (node_arith u0 u1 e0 s0 i0 g m2 r2 hB3 hB4).2.2⟩
  simp [Regular.make, hi]

/-- **C154 is violated** for arguments far outside of a grid, infinite ones and what is not a number: the conversion of the index to `int` is undefined. -/
theorem C154_regular_violated (f : Fmt) (r : Regular) :
    (∀ x, IsNan (div f (sub f x r.base) r.step) → r.eval f x = .ub) ∧
    (∀ x s, div f (sub f x r.base) r.step = .inf s → r.eval f x = .ub) ∧
    ∀ x, Ieee.Spec.Finite (div f (sub f x r.base) r.step) → 2 ^ 31 ≤ |val (div f (sub f x r.base) r.step)| - 1 → r.eval f x = .ub := by
  refine ⟨fun x h => ?_, fun x s h => ?_, fun x h h2 => ?_⟩
  · unfold Regular.eval
    cases e : div f (sub f x r.base) r.step with
    | nan s => rfl
    | inf s => rfl
    | fin s m => rw [e] at h; exact absurd h id
  · unfold Regular.eval
    rw [h]
  · unfold Regular.eval
    obtain ⟨s, m, e⟩ := finite_fin h
    rw [e] at h2 ⊢
    generalize hp : val (.fin s m) = p at h2
    dsimp only
    rw [hp, if_pos]
    norm_num at h2 ⊢
    rcases abs_cases p with ⟨c, -⟩ | ⟨c, -⟩
    · right
      rw [Int.le_floor]
      push_cast
      linarith
    · left
      rw [Int.floor_lt]
      push_cast
      linarith

/-- A third of the way between samples 10 and 20, and at an end. -/
example : lerpSpan binary32 [ofNat 5, ofNat 10, ofNat 20] (.fin false (5 / 4)) = .ok (.fin false (25 / 2)) ∧
    lerpSpan binary32 [ofNat 5, ofNat 10, ofNat 20] (ofNat 7) = .ok (ofNat 20) := by
  decide +kernel

/-- A tenth is not a number of the type, so the grid of eleven points between zero and one is not evenly spread. -/
example : ((Regular.make binary32 11 (ofNat 0) (ofNat 1) id).data[7]?).map val = some (11744051 / 16777216) ∧
    ((Regular.make binary32 11 (ofNat 0) (ofNat 1) id).eval binary32 (.fin false (1 / 4))).isOk := by
  decide +kernel

/-- The accuracy theorem speaks about this grid. -/
example : ∃ v, (Regular.eval binary32 ⟨ofNat 0, ofNat 2, [ofNat 1, ofNat 5, ofNat 2]⟩ (ofNat 3)) = .ok v ∧ Ieee.Spec.Finite v ∧
    |val v - polygon 3 (samples [ofNat 1, ofNat 5, ofNat 2]) ((val (ofNat 3) - val (ofNat 0)) / val (ofNat 2))| ≤
      40 * roundoff binary32 * 5 + 3 * tiny binary32 + 4 * (4 * roundoff binary32 * ((val (ofNat 3) - val (ofNat 0)) / val (ofNat 2)) + tiny binary32) := by
  refine C154_regular (Or.inl rfl) ⟨ofNat 0, ofNat 2, [ofNat 1, ofNat 5, ofNat 2]⟩ (ofNat 3) (by simp) (by simp) ?_ 5 4 ?_ ?_ ?_ ?_ ?_ ?_ ?_
  · intro v hv
    refine ⟨?_, ?_⟩
    · simp at hv; rcases hv with rfl | rfl | rfl | rfl | rfl | rfl <;> trivial
    · simp at hv
      have key : ∀ k : Nat, k < 8 → OfType binary32 (ofNat k) := fun k hk =>
        ⟨k, 0, by have : (8 : Nat) ≤ 2 ^ binary32.prec := by decide
                  omega, by decide, by decide, by simp⟩
      rcases hv with rfl | rfl | rfl | rfl | rfl | rfl <;> exact key _ (by norm_num)
  · intro v hv; simp at hv; rcases hv with rfl | rfl | rfl <;> norm_num [val, ofNat]
  · norm_num [binary32]
  · intro i hi
    have : i = 0 ∨ i = 1 := by simp at hi; omega
    rcases this with rfl | rfl <;> norm_num [samples, val, ofNat]
  · norm_num [val, ofNat]
  · norm_num [val, ofNat]
  · norm_num [val, ofNat]
  · norm_num [val, ofNat, binary32]

end Xo.SampFl
