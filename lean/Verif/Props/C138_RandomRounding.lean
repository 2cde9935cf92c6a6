import Verif.Model.IeeeRandom
import Verif.Props.C136_FilterRounding
import Verif.Props.C137_VarianceRounding

/-!
# C138: random numbers between two bounds, with rounding
-/
namespace Xo
namespace Ieee
open Num Spec
open Spec (Finite)

variable {f : Fmt} {σ : Type}

theorem rq_pow (hf : f.Ok) {k : Int} (hk : f.emin ≤ k) : rq f (2 ^ k) = 2 ^ k := by
  have := rq_mul (f := f) (m := 1) (e := k) (by
    rw [abs_one]
    have := hf.prec
    exact one_lt_pow₀ (by norm_num) (by omega)) hk
  simpa using this

/-- A scale: positive and not above a power of two. -/
def ScaleOk (j : Nat) (t : Fl) : Prop := ∃ m, t = .fin false m ∧ 1 ≤ m ∧ m ≤ 2 ^ (32 * j : Int)

theorem sign_false {s : Bool} {m : Rat} (h : OfType f (.fin s m)) (hv : 0 < val (.fin s m)) : s = false ∧ val (.fin s m) = m := by
  cases s
  · exact ⟨rfl, rfl⟩
  · have := binary_nonneg h
    simp only [val, if_true] at hv
    linarith

theorem scale_ok (hf : f.Ok) (hmin : f.emin ≤ 0) (hmax : 64 < f.emax) {r : Nat} (h1 : 1 ≤ r) (h2 : r ≤ 2 ^ 32) {j : Nat} (hj : j < 2)
    {t : Fl} (h : ScaleOk j t) : ScaleOk (j + 1) (scale f r t) := by
  obtain ⟨m, rfl, h3, h4⟩ := h
  have hr1 : (1 : Rat) ≤ r := by exact_mod_cast h1
  have hr2 : (r : Rat) ≤ 2 ^ 32 := by exact_mod_cast h2
  have hge : 1 ≤ m * r := by nlinarith
  have hle : m * r ≤ 2 ^ (32 * (j + 1 : Nat) : Int) := by
    have e : (2 : Rat) ^ (32 * (j + 1 : Nat) : Int) = 2 ^ (32 * j : Int) * 2 ^ 32 := by
      rw [show (32 * (j + 1 : Nat) : Int) = 32 * j + 32 by push_cast; ring, zpow_add₀ (by norm_num)]
      norm_num
    rw [e]
    exact mul_le_mul h4 hr2 (by positivity) (two_pos' _).le
  have g1 : 1 ≤ rq f (m * r) := by
    have := rq_mono hf hge
    have e := rq_pow hf (k := 0) hmin
    rw [zpow_zero] at e
    rwa [e] at this
  have g2 : rq f (m * r) ≤ 2 ^ (32 * (j + 1 : Nat) : Int) := by
    have := rq_mono hf hle
    rwa [rq_pow hf (by push_cast; omega)] at this
  have g3 : |rq f (m * r)| < 2 ^ f.emax := by
    rw [abs_of_pos (by linarith)]
    refine lt_of_le_of_lt g2 (two_lt_iff.2 ?_)
    push_cast
    omega
  obtain ⟨s', m', e, hv⟩ := ofRat_finite (z := false) g3
  have ht : OfType f (.fin s' m') := by rw [← e]; exact ofRat_ofType hf _ _
  obtain ⟨rfl, e2⟩ := sign_false ht (by rw [hv]; linarith)
  rw [hv] at e2
  exact ⟨m', e, by rw [← e2]; exact g1, by rw [← e2]; exact g2⟩

/-- What is not negative stays so when multiplied by a scale or divided by it. -/
theorem mul_scale {a : Fl} (ha : NonNeg a) {m : Rat} (hm : 1 ≤ m) : NonNeg (mul f a (.fin false m)) ∧ NonNeg (div f a (.fin false m)) := by
  obtain ⟨k1, k2⟩ := ha
  rw [num_zero] at k2
  unfold NonNeg
  rw [num_zero]
  have hm0 : m ≠ 0 := by linarith
  rcases a with q | q | ⟨q, x⟩
  · exact absurd trivial k1
  · cases q
    · have e : mul f (.inf false) (.fin false m) = .inf (false != false) := if_neg hm0
      rw [e]
      exact ⟨⟨id, k2⟩, ⟨id, k2⟩⟩
    · exact absurd k2 (not_le.2 (WithBot.bot_lt_coe _))
  · rw [num_fin, WithBot.coe_le_coe, WithTop.coe_le_coe] at k2
    have e : div f (.fin q x) (.fin false m) = ofRat f (q != false) (val (.fin q x) / val (.fin false m)) := if_neg hm0
    have hm' : 0 ≤ val (.fin false m) := by simp only [val]; norm_num; linarith
    refine ⟨⟨ofRat_not_nan _ _, ?_⟩, ?_⟩
    · rw [num_mul]
      exact R_nonneg (mul_nonneg k2 hm')
    · rw [e]
      refine ⟨ofRat_not_nan _ _, ?_⟩
      rw [num_ofRat]
      exact R_nonneg (div_nonneg k2 hm')

theorem loop_ok (hf : f.Ok) (hmin : f.emin ≤ 0) (hmax : 64 < f.emax) (e : Engine σ) (h1 : 1 ≤ e.range) (h2 : e.range ≤ 2 ^ 32) (k : Nat) :
    ∀ (j : Nat), j + k ≤ 2 → ∀ (x : σ) (sum tmp : Fl), NonNeg sum → ScaleOk j tmp →
      NonNeg (canonLoop f e k x sum tmp).1 ∧ ScaleOk (j + k) (canonLoop f e k x sum tmp).2.1 := by
  induction k with
  | zero => intro j _ x sum tmp hs ht; exact ⟨hs, ht⟩
  | succ k ih =>
    intro j hj x sum tmp hs ht
    have ht' := scale_ok hf hmin hmax h1 h2 (by omega) ht
    obtain ⟨m, rfl, hm, -⟩ := ht
    have hg : NonNeg (ofRat f false ((e.draw x).1 : Rat)) := by
      refine ⟨ofRat_not_nan _ _, ?_⟩
      rw [num_zero, num_ofRat]
      exact R_nonneg (Nat.cast_nonneg _)
    rw [show j + (k + 1) = j + 1 + k by ring]
    exact ih (j + 1) (by omega) _ _ _ (add_nonneg' hs (mul_scale hg hm).1) ht'

/-- **C138, unit interval.** Whatever one or two values an engine with at most 2^32 values gives, the number made of them is
a number of the type from zero to below one. -/
theorem C138_canonical (hf : f.Ok) (hmin : f.emin + f.prec ≤ 0) (hmax : 64 < f.emax) (e : Engine σ) (h1 : 1 ≤ e.range)
    (h2 : e.range ≤ 2 ^ 32) {k : Nat} (hk : k ≤ 2) (x : σ) : Part f (canonical f e k x).1 := by
  have hp := hf.prec
  obtain ⟨k1, m, e2, hm, -⟩ := loop_ok hf (by omega) hmax e h1 h2 k 0 (by omega) x (ofNat 0) (ofNat 1) ⟨id, le_refl _⟩
    ⟨1, by simp [ofNat], le_refl _, by simp⟩
  have hd := (mul_scale (f := f) k1 hm).2
  have ht : OfType f (div f (canonLoop f e k x (ofNat 0) (ofNat 1)).1 (.fin false m)) := div_ofType hf _ _
  unfold canonical
  simp only
  rw [e2]
  generalize div f (canonLoop f e k x (ofNat 0) (ofNat 1)).1 (.fin false m) = v at hd ht
  have hone : num (ofNat 1) = ((1 : Rat) : WithTop Rat) := by simp [num, ofNat]
  by_cases hc : le (ofNat 1) v = true
  · rw [if_pos hc]
    have hP : (1 : Rat) ≤ 2 ^ f.prec := one_le_pow₀ (by norm_num)
    have hP' : (0 : Rat) < 1 / 2 ^ f.prec := by positivity
    have hP1 : (1 : Rat) / 2 ^ f.prec ≤ 1 := by rw [div_le_one (by positivity)]; exact hP
    refine ⟨⟨2 ^ f.prec - 1, -(f.prec : Int), ?_, by omega, by omega, ?_⟩, trivial, ?_, ?_⟩
    · have : 0 < 2 ^ f.prec := by positivity
      omega
    · rw [Nat.cast_sub (Nat.one_le_two_pow), zpow_neg, zpow_natCast]
      push_cast
      field_simp
    · rw [num_zero, num_fin, WithBot.coe_le_coe, WithTop.coe_le_coe]
      simp only [val]
      norm_num
      simpa using hP1
    · rw [hone, num_fin, WithBot.coe_lt_coe, WithTop.coe_lt_coe]
      simp only [val]
      norm_num
  · rw [if_neg hc]
    have hlt : num v < num (ofNat 1) := by
      rw [← not_le]
      intro h
      exact hc ((le_iff id hd.1).2 h)
    refine ⟨ht, ?_, hd.2, hlt⟩
    obtain ⟨n1, n2⟩ := hd
    rw [num_zero] at n2
    rw [hone] at hlt
    rcases v with q | q | ⟨q, y⟩
    · exact absurd trivial n1
    · cases q
      · exact absurd hlt (not_lt.2 (WithBot.coe_le_coe.2 le_top))
      · exact absurd n2 (not_le.2 (WithBot.bot_lt_coe _))
    · trivial

theorem add_comm_fin (a b : Fl) (ha : Finite a) (hb : Finite b) : add f a b = add f b a := by
  obtain ⟨s, x, rfl⟩ := finite_form' ha
  obtain ⟨t, y, rfl⟩ := finite_form' hb
  show ofRat f _ _ = ofRat f _ _
  rw [Bool.and_comm, add_comm]

/-- **C138, range.** `uniform` of two finite bounds, whose difference is not too big for the type, gives a finite number that
is not below the lower bound and not above the upper bound, for every engine and every state of it. -/
theorem C138_uniform_partial (hf : f.Ok) (hmin : f.emin + f.prec ≤ 0) (hmax : 64 < f.emax) (e : Engine σ) (h1 : 1 ≤ e.range)
    (h2 : e.range ≤ 2 ^ 32) {k : Nat} (hk : k ≤ 2) {lo hi : Fl} (hlo : OfType f lo) (hhi : OfType f hi) (hlf : Finite lo)
    (hhf : Finite hi) (hle : num lo ≤ num hi) (hd : Finite (sub f hi lo)) (x : σ) :
    Finite (uniform f e k lo hi x).1 ∧ num lo ≤ num (uniform f e k lo hi x).1 ∧ num (uniform f e k lo hi x).1 ≤ num hi := by
  have hc := C138_canonical hf hmin hmax e h1 h2 hk x
  obtain ⟨p, u, ep, h0, hu⟩ := part_form (f := f) hf (le_refl _) hc
  obtain ⟨s, a, rfl⟩ := finite_form' hlf
  obtain ⟨t, b, rfl⟩ := finite_form' hhf
  obtain ⟨r, m, e1, -⟩ := sub_finite hd
  have hb := inside hf hlo hhi e1 h0 hu (p != r)
  unfold uniform
  simp only
  rw [ep, e1]
  have e3 : mul f (.fin p u) (.fin r m) = ofRat f (p != r) (val (.fin p u) * val (.fin r m)) := rfl
  rw [e3]
  have hfin : Finite (ofRat f (p != r) (val (.fin p u) * val (.fin r m))) := by
    by_contra hnf
    have := hb.1
    generalize ofRat f (p != r) (val (.fin p u) * val (.fin r m)) = q at this hnf
    rcases q with z | z | ⟨z, y⟩
    · exact this
    · exact this
    · exact hnf trivial
  rw [add_comm_fin _ (.fin s a) hfin trivial]
  refine ⟨hb.1, ?_⟩
  rcases hb.2 with h | h
  · exact h
  · exact ⟨hle.trans h.1, h.2.trans hle⟩

/-- **C138, sequences and vectors.** The same for every number of a sequence of calls, and for the three components of
`uniform_vec3`. -/
theorem C138_sequence_partial (hf : f.Ok) (hmin : f.emin + f.prec ≤ 0) (hmax : 64 < f.emax) (e : Engine σ) (h1 : 1 ≤ e.range)
    (h2 : e.range ≤ 2 ^ 32) {k : Nat} (hk : k ≤ 2) (bs : List (Fl × Fl))
    (h : ∀ b ∈ bs, OfType f b.1 ∧ OfType f b.2 ∧ Finite b.1 ∧ Finite b.2 ∧ num b.1 ≤ num b.2 ∧ Finite (sub f b.2 b.1)) (x : σ) :
    List.Forall₂ (fun b v => Spec.Finite v ∧ num b.1 ≤ num v ∧ num v ≤ num b.2) bs (uniforms f e k bs x) ∧
    ∀ b ∈ bs, ∀ v, v = (uniformVec3 f e k b.1 b.2 x).1.1 ∨ v = (uniformVec3 f e k b.1 b.2 x).1.2.1 ∨
        v = (uniformVec3 f e k b.1 b.2 x).1.2.2 → Spec.Finite v ∧ num b.1 ≤ num v ∧ num v ≤ num b.2 := by
  constructor
  · induction bs generalizing x with
    | nil => exact .nil
    | cons b bs ih =>
      obtain ⟨a1, a2, a3, a4, a5, a6⟩ := h b (.head _)
      exact .cons (C138_uniform_partial hf hmin hmax e h1 h2 hk a1 a2 a3 a4 a5 a6 x) (ih (fun c hc => h c (.tail _ hc)) _)
  · intro b hb v hv
    obtain ⟨a1, a2, a3, a4, a5, a6⟩ := h b hb
    rcases hv with rfl | rfl | rfl
    · exact C138_uniform_partial hf hmin hmax e h1 h2 hk a1 a2 a3 a4 a5 a6 _
    · exact C138_uniform_partial hf hmin hmax e h1 h2 hk a1 a2 a3 a4 a5 a6 _
    · exact C138_uniform_partial hf hmin hmax e h1 h2 hk a1 a2 a3 a4 a5 a6 _

theorem canon_state (e : Engine σ) (k : Nat) (x : σ) (sum tmp : Fl) : (canonLoop f e k x sum tmp).2.2 = (fun y => (e.draw y).2)^[k] x := by
  induction k generalizing x sum tmp with
  | zero => rfl
  | succ k ih => exact ih _ _ _

/-- **C138, steps.** Every call uses up `k` values of the engine, whatever the bounds are: the number in the place `i` of a sequence is the one that a generator
gives first whose engine has gone on by `k * i` values. The components of `uniform_vec3` are the numbers of three calls. -/
theorem C138_steps (e : Engine σ) (k : Nat) (bs : List (Fl × Fl)) (x : σ) :
    (∀ i : Nat, (uniforms f e k bs x)[i]? = bs[i]?.map fun b => (uniform f e k b.1 b.2 ((fun y => (e.draw y).2)^[k * i] x)).1) ∧
    ∀ lo hi : Fl, uniforms f e k [(lo, hi), (lo, hi), (lo, hi)] x =
      [(uniformVec3 f e k lo hi x).1.1, (uniformVec3 f e k lo hi x).1.2.1, (uniformVec3 f e k lo hi x).1.2.2] := by
  refine ⟨?_, fun _ _ => rfl⟩
  induction bs generalizing x with
  | nil => intro i; simp [uniforms]
  | cons b bs ih =>
    intro i
    cases i with
    | zero => simp [uniforms]
    | succ i =>
      obtain ⟨lo, hi⟩ := b
      show (uniforms f e k bs (uniform f e k lo hi x).2)[i]? = _
      rw [ih, List.getElem?_cons_succ]
      have : (uniform f e k lo hi x).2 = (fun y => (e.draw y).2)^[k] x := canon_state e k x _ _
      rw [this, ← Function.iterate_add_apply, Nat.mul_succ]

/-- The hypotheses are met by both types and by the engines, and a generator of `double` numbers gives different numbers. -/
example : binary32.emin + binary32.prec ≤ 0 ∧ 64 < binary32.emax ∧ binary64.emin + binary64.prec ≤ 0 ∧ 64 < binary64.emax ∧
    1 ≤ (minstd Rng.fast).range ∧ (minstd Rng.fast).range ≤ 2 ^ 32 ∧
    uniforms binary64 (minstd Rng.fast) 2 [(ofNat 0, ofNat 1), (ofNat 0, ofNat 1)] (Rng.seedState 1) ≠
      uniforms binary64 (minstd Rng.fast) 2 [(ofNat 0, ofNat 1), (ofNat 0, ofNat 1)] (Rng.seedState 2) := by decide +kernel

/-- **C138, equal bounds.** The number between a bound and itself is that bound. -/
theorem C138_equal (hf : f.Ok) (hmin : f.emin + f.prec ≤ 0) (hmax : 64 < f.emax) (e : Engine σ) (h1 : 1 ≤ e.range)
    (h2 : e.range ≤ 2 ^ 32) {k : Nat} (hk : k ≤ 2) {lo : Fl} (hlo : OfType f lo) (hlf : Finite lo) (x : σ) :
    num (uniform f e k lo lo x).1 = num lo := by
  have hd : Finite (sub f lo lo) := by
    obtain ⟨s, a, rfl⟩ := finite_form' hlf
    show Finite (ofRat f _ (val (.fin s a) + val (.fin (!s) a)))
    rw [show val (.fin s a) + val (.fin (!s) a) = 0 by cases s <;> simp [val]]
    rw [show ofRat f (s && !s) 0 = .fin (s && !s) 0 from if_pos rfl]
    trivial
  obtain ⟨-, h3, h4⟩ := C138_uniform_partial hf hmin hmax e h1 h2 hk hlo hlo hlf hlf (le_refl _) hd x
  exact le_antisymm h4 h3

/-- **C138, the upper bound, violated.** The numbers should be below the upper bound. The first `float` between 16 and 17 of a
`random_number_generator_fast` with the seed 247665088 is 17. With the seed 9 and `double`, the number between 1 and the next
number is that next number. A difference of the bounds that is too big makes the result infinite. -/
theorem C138_upper_violated :
    (uniform binary32 (minstd Rng.fast) 1 (ofNat 16) (ofNat 17) (Rng.seedState 247665088)).1 = ofNat 17 ∧
    (uniform binary64 (minstd Rng.fast) 2 (ofNat 1) (.fin false (1 + 1 / 2 ^ 52)) (Rng.seedState 9)).1
      = .fin false (1 + 1 / 2 ^ 52) ∧
    (uniform binary32 (minstd Rng.fast) 1 (.fin true (maxVal binary32)) (.fin false (maxVal binary32)) 5).1 = .inf false := by
  refine ⟨by decide +kernel, ?_, by decide +kernel⟩
  decide +kernel

end Ieee
end Xo
