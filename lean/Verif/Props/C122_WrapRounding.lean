import Verif.Props.C121_Rounding

/-!
# C122: wrapped floating-point values, with rounding

`wrap`, `wrapped` and `pos_mod`, for `float`, `double` and any wider type.
-/
namespace Xo
namespace Ieee
open Num Spec Xo.Spec

variable {f : Fmt}

theorem fmod_fin (s t : Bool) (x y : Rat) (h : y ≠ 0) : fmod (.fin s x) (.fin t y) = .fin s (x - ⌊x / y⌋ * y) := by
  simp only [fmod]; rw [if_neg h]

theorem fmod_range {x y : Rat} (h : 0 < y) : 0 ≤ x - ⌊x / y⌋ * y ∧ x - ⌊x / y⌋ * y < y := by
  have h1 := Int.floor_le (x / y)
  have h2 := Int.lt_floor_add_one (x / y)
  rw [le_div_iff₀ h] at h1
  rw [div_lt_iff₀ h] at h2
  constructor <;> linarith

/-- The remainder is a number of the type: nothing is rounded. -/
theorem fmod_ofType (hf : f.Ok) {s t : Bool} {x y : Rat} (hx : OfType f (.fin s x)) (hy : OfType f (.fin t y)) (h0 : y ≠ 0) :
    OfType f (fmod (.fin s x) (.fin t y)) := by
  rw [fmod_fin _ _ _ _ h0]
  have hy0 : 0 < y := lt_of_le_of_ne (binary_nonneg hy) (Ne.symm h0)
  have hx0 : 0 ≤ x := binary_nonneg hx
  obtain ⟨r0, r1⟩ := fmod_range (x := x) hy0
  have hq : 0 ≤ ⌊x / y⌋ := Int.floor_nonneg.2 (div_nonneg hx0 hy0.le)
  have rx : x - ⌊x / y⌋ * y ≤ x := by
    have : (0 : Rat) ≤ ⌊x / y⌋ * y := mul_nonneg (by exact_mod_cast hq) hy0.le
    linarith
  obtain ⟨m, e, hm, he1, he2, hxe⟩ := hx
  obtain ⟨n, g, hn, hg1, hg2, hye⟩ := hy
  show Binary _ _ _ (x - ⌊x / y⌋ * y)
  set q := ⌊x / y⌋ with hqd
  have key : ∀ (k : Int) (b : Nat) (c : Int), f.emin ≤ c → c ≤ f.emax - f.prec → b ≤ 2 ^ f.prec - 1 → x - q * y = k * 2 ^ c →
      x - q * y ≤ b * 2 ^ c → Binary f.prec f.emin f.emax (x - q * y) := by
    intro k b c hc1 hc2 hb hk hle
    have hcp := two_pos' c
    have hk0 : 0 ≤ k := by
      rw [hk] at r0
      have := nonneg_of_mul_nonneg_left r0 hcp
      exact_mod_cast this
    have hkb : k ≤ b := by
      rw [hk] at hle
      have := le_of_mul_le_mul_right hle hcp
      exact_mod_cast this
    have hp : 0 < 2 ^ f.prec := Nat.two_pow_pos _
    refine ⟨k.toNat, c, by omega, hc1, hc2, ?_⟩
    rw [hk]
    congr 1
    have : ((k.toNat : Nat) : Int) = k := by omega
    exact_mod_cast (congrArg (Int.cast (R := Rat)) this).symm
  rcases le_total e g with h | h
  · refine key (m - q * n * 2 ^ (g - e).toNat) m e he1 he2 (by omega) ?_ (by rw [← hxe]; exact rx)
    rw [hxe, hye, two_split h]
    push_cast
    ring
  · refine key (m * 2 ^ (e - g).toNat - q * n) n g hg1 hg2 (by omega) ?_ (by rw [← hye]; exact r1.le)
    rw [hxe, hye, two_split h]
    push_cast
    ring

/-- A number of the type that is below a rounded number is not above the number itself. -/
theorem le_of_lt_rq (hf : f.Ok) {s : Bool} {r X : Rat} (h : OfType f (.fin s r)) (hlt : val (.fin s r) < rq f X) :
    val (.fin s r) ≤ X := by
  by_contra hc
  have := rq_mono hf (not_le.1 hc).le
  rw [rq_val h] at this
  linarith

theorem rq_pos_of_mul (hf : f.Ok) {X : Rat} (hX : 0 < X) (hk : ∃ k : Int, X = k * 2 ^ f.emin) : 0 < rq f X := by
  have hp := hf.prec
  obtain ⟨k, hk⟩ := hk
  have hk1 : 1 ≤ k := by
    by_contra hc
    have : (k : Rat) ≤ 0 := by exact_mod_cast (by omega : k ≤ 0)
    have := mul_nonpos_of_nonpos_of_nonneg this (two_pos' f.emin).le
    linarith
  have h1 : ((1 : Int) : Rat) * 2 ^ f.emin ≤ X := by
    rw [hk]; exact mul_le_mul_of_nonneg_right (by exact_mod_cast hk1) (two_pos' _).le
  have h2 := rq_mono hf h1
  rw [rq_mul (by rw [abs_one]; exact one_lt_pow₀ (by norm_num) (by omega)) (le_refl _)] at h2
  have := two_pos' f.emin
  push_cast at h2
  linarith

theorem val_le_abs (s : Bool) (m : Rat) (h : 0 ≤ m) : val (.fin s m) ≤ m ∧ -m ≤ val (.fin s m) := by
  cases s <;> simp [val] <;> linarith

/-- **C122, range.** A wrapped value lies between the limits, the upper one included, whatever is rounded on the way, if the
differences are not too big for the type. -/
theorem C122_range (hf : f.Ok) {p s t : Bool} {w x y : Rat} (hl : OfType f (.fin s x))
    (hu : OfType f (.fin t y)) (hlt : val (.fin s x) < val (.fin t y))
    (hd : Finite (sub f (.fin p w) (.fin s x))) (hW : Finite (sub f (.fin t y) (.fin s x))) :
    ∃ r m, wrap f (.fin p w) (.fin s x) (.fin t y) = .fin r m ∧ val (.fin s x) ≤ val (.fin r m) ∧ val (.fin r m) ≤ val (.fin t y) := by
  obtain ⟨p1, w1, e1, v1⟩ := sub_finite hd
  obtain ⟨p2, w2, e2, v2⟩ := sub_finite hW
  have ho1 : OfType f (.fin p1 w1) := e1 ▸ add_ofType hf _ _
  have ho2 : OfType f (.fin p2 w2) := e2 ▸ add_ofType hf _ _
  have hXpos : 0 < val (.fin t y) - val (.fin s x) := sub_pos.2 hlt
  have hWpos : 0 < val (.fin p2 w2) := by rw [v2]; exact rq_pos_of_mul hf hXpos (diff_mul hu hl)
  have hw2 : 0 ≤ w2 := binary_nonneg ho2
  have hw2' : val (.fin p2 w2) = w2 := by
    cases p2
    · simp [val]
    · have := (val_le_abs true w2 hw2); simp [val] at hWpos; linarith
  have hw2ne : w2 ≠ 0 := by rw [hw2'] at hWpos; exact hWpos.ne'
  obtain ⟨r0, r1⟩ := fmod_range (x := w1) (lt_of_le_of_ne hw2 (Ne.symm hw2ne))
  have hof := fmod_ofType hf ho1 ho2 hw2ne
  rw [fmod_fin _ _ _ _ hw2ne] at hof
  set ρ := w1 - ⌊w1 / w2⌋ * w2 with hρ
  -- the remainder is not above the exact length
  have hρX : ρ ≤ val (.fin t y) - val (.fin s x) := by
    have h1 : OfType f (.fin false ρ) := hof
    have := le_of_lt_rq hf h1 (X := val (.fin t y) - val (.fin s x)) (by rw [← v2, hw2']; simpa [val] using r1)
    simpa [val] using this
  have finish : ∀ (a : Bool) (b : Rat) (z : Bool), val (.fin s x) ≤ val (.fin p1 ρ) + val (.fin a b) →
      val (.fin p1 ρ) + val (.fin a b) ≤ val (.fin t y) →
      ∃ r m, add f (.fin p1 ρ) (.fin a b) = .fin r m ∧ val (.fin s x) ≤ val (.fin r m) ∧ val (.fin r m) ≤ val (.fin t y) := by
    intro a b z h1 h2
    have q1 := rq_mono hf h1
    have q2 := rq_mono hf h2
    rw [rq_val hl] at q1
    rw [rq_val hu] at q2
    obtain ⟨r, m, e3, v3⟩ := ofRat_finite (f := f) (z := (p1 && a)) (x := val (.fin p1 ρ) + val (.fin a b)) (by
      obtain ⟨a1, a2⟩ := abs_lt.1 (val_lt hl)
      obtain ⟨b1, b2⟩ := abs_lt.1 (val_lt hu)
      rw [abs_lt]
      constructor <;> linarith)
    exact ⟨r, m, e3, by rw [v3]; exact q1, by rw [v3]; exact q2⟩
  unfold wrap
  rw [e1, e2, fmod_fin _ _ _ _ hw2ne, ← hρ]
  by_cases hc : le (ofNat 0) (.fin p1 w1) = true
  · rw [if_pos hc]
    have hc' := (le_iff (a := ofNat 0) (b := .fin p1 w1) id id).1 hc
    rw [num_fin, num_zero, WithBot.coe_le_coe, WithTop.coe_le_coe] at hc'
    have hpos : val (.fin p1 ρ) = ρ := by
      cases p1
      · simp [val]
      · have : w1 = 0 := by
          have := binary_nonneg ho1
          simp [val] at hc'
          linarith
        simp [val, hρ, this]
    refine finish s x false ?_ ?_ <;> rw [hpos] <;> linarith
  · rw [if_neg hc]
    have hb := val_le_abs p1 ρ r0
    have hneg : val (.fin p1 ρ) ≤ 0 := by
      have hc' : num (.fin p1 w1) < num (ofNat 0) := by
        rw [← not_le, ← le_iff id id]; exact hc
      rw [num_fin, num_zero, WithBot.coe_lt_coe, WithTop.coe_lt_coe] at hc'
      cases p1
      · exfalso
        have := binary_nonneg ho1
        simp [val] at hc'
        linarith
      · simp [val]; exact r0
    refine finish t y false ?_ ?_ <;> linarith [hb.2]

example : wrap binary32 (.fin true 90) (.fin true 180) (.fin false 180) = .fin true 90 ∧
    wrap binary32 (.fin false 370) (.fin false 0) (.fin false 360) = .fin false 10 ∧
    wrap binary32 (.fin true 10) (.fin false 0) (.fin false 360) = .fin false 350 := by decide +kernel

/-- **C122, exact.** With the lower limit zero, a value that is not negative is wrapped without any rounding: the result
differs from it by a multiple of the upper limit, and is below the upper limit. -/
theorem C122_exact_partial (hf : f.Ok) {t : Bool} {w y : Rat} (hv : OfType f (.fin false w)) (hu : OfType f (.fin t y))
    (hy : 0 < val (.fin t y)) :
    ∃ r m, wrap f (.fin false w) (ofNat 0) (.fin t y) = .fin r m ∧ 0 ≤ val (.fin r m) ∧ val (.fin r m) < val (.fin t y) ∧
      ∃ k : Int, w = val (.fin r m) + k * val (.fin t y) := by
  have hy0 := binary_nonneg hu
  have hyv : t = false ∧ 0 < y := by
    cases t
    · exact ⟨rfl, by simpa [val] using hy⟩
    · simp [val] at hy; linarith
  obtain ⟨rfl, hyp⟩ := hyv
  have hw0 : 0 ≤ w := binary_nonneg hv
  have same : ∀ {m : Rat}, OfType f (.fin false m) → ∃ s, sub f (.fin false m) (ofNat 0) = .fin s m ∧ val (.fin s m) = m := by
    intro m hm
    have hm0 : 0 ≤ m := binary_nonneg hm
    have hr : num (sub f (.fin false m) (.fin false ((0 : Nat) : Rat))) = ((m : Rat) : WithTop Rat) := by
      rw [num_sub, show val (.fin false m) - val (.fin false ((0 : Nat) : Rat)) = val (.fin false m) by simp [val], R_val hf hm, num_fin]
      simp [val]
    obtain ⟨s, n, e, v⟩ := finite_of_num hr
    have ho : OfType f (.fin s n) := e ▸ add_ofType hf _ _
    have hn0 : 0 ≤ n := binary_nonneg ho
    have : n = m := by
      cases s
      · simpa [val] using v
      · simp [val] at v; linarith
    subst this
    exact ⟨s, e, v⟩
  obtain ⟨s1, e1, v1⟩ := same hv
  obtain ⟨s2, e2, v2⟩ := same hu
  unfold wrap
  rw [e1, e2, fmod_fin _ _ _ _ hyp.ne']
  have hc : le (ofNat 0) (.fin s1 w) = true := by
    rw [le_iff id id, num_fin, num_zero, WithBot.coe_le_coe, WithTop.coe_le_coe, v1]; exact hw0
  rw [if_pos hc]
  obtain ⟨r0, r1⟩ := fmod_range (x := w) hyp
  have hof := fmod_ofType hf (s := s1) (t := s2) hv hu hyp.ne'
  rw [fmod_fin _ _ _ _ hyp.ne'] at hof
  set ρ := w - ⌊w / y⌋ * y with hρ
  have hvρ : val (.fin s1 ρ) = ρ := by
    cases s1
    · simp [val]
    · have : w = 0 := by simp [val] at v1; linarith
      simp [val, hρ, this]
  have hr : num (add f (.fin s1 ρ) (.fin false ((0 : Nat) : Rat))) = ((ρ : Rat) : WithTop Rat) := by
    rw [num_add, show val (.fin s1 ρ) + val (.fin false ((0 : Nat) : Rat)) = val (.fin s1 ρ) by simp [val], R_val hf hof, num_fin, hvρ]
  obtain ⟨s, n, e, v⟩ := finite_of_num hr
  refine ⟨s, n, e, by rw [v]; exact r0, by rw [v]; simpa [val] using r1, ⌊w / y⌋, ?_⟩
  rw [v, hρ]; simp [val]

/-- **C122, violated.** A small negative value is wrapped to the upper limit itself, which is no value of the half-open range. -/
theorem C122_upper_violated :
    wrap binary32 (.fin true (1 / 2 ^ 40)) (ofNat 0) (.fin false 360) = .fin false 360 ∧
    wrap binary64 (.fin true (1 / 2 ^ 60)) (ofNat 0) (.fin false 360) = .fin false 360 ∧
    posMod binary64 (.fin true (1 / 2 ^ 60)) (.fin false 360) = .fin false 360 := by decide +kernel

/-- **C122, violated.** A finite value whose distance from the lower limit is too big for the type is wrapped to NaN, and so
is every value if the limits are equal. -/
theorem C122_nan_violated (hf : f.Ok) :
    IsNan (wrap f (.fin false (maxVal f)) (.fin true (maxVal f)) (ofNat 0)) ∧
    ∀ (v : Fl) (s : Bool) (x : Rat), IsNan (wrap f v (.fin s x) (.fin s x)) := by
  constructor
  · have e1 : sub f (.fin false (maxVal f)) (.fin true (maxVal f)) = .inf false := by
      show ofRat f _ _ = _
      refine ofRat_top (rq_big hf ?_)
      simpa [val] using max_double hf
    have hn : ∀ b, IsNan (fmod (.inf false) b) := by intro b; cases b <;> exact trivial
    have ha : ∀ n b : Fl, IsNan n → IsNan (add f n b) := by
      intro n b h; cases n <;> first | exact absurd h id | exact trivial
    unfold wrap
    rw [e1]
    split <;> exact ha _ _ (hn _)
  · intro v s x
    have e : sub f (.fin s x) (.fin s x) = .fin (s && !s) 0 := by
      show ofRat f _ (val (.fin s x) + val (.fin (!s) x)) = _
      rw [show val (.fin s x) + val (.fin (!s) x) = 0 by cases s <;> simp [val]]
      simp [ofRat]
    have hn : ∀ a, IsNan (fmod a (.fin (s && !s) 0)) := by
      intro a; rcases a with r | r | ⟨r, m⟩
      · exact trivial
      · exact trivial
      · simp only [fmod]; rw [if_pos trivial]; trivial
    have ha : ∀ n b : Fl, IsNan n → IsNan (add f n b) := by
      intro n b h; cases n <;> first | exact absurd h id | exact trivial
    unfold wrap
    rw [e]
    split <;> exact ha _ _ (hn _)

/-- **C122, violated.** The positive remainder of any finite number that is not negative, for an infinite divisor, is NaN,
although `fmod` returns the number. -/
theorem C122_posmod_inf_violated (f : Fmt) (x : Rat) (h : 0 ≤ x) :
    fmod (.fin false x) (.inf false) = .fin false x ∧ IsNan (posMod f (.fin false x) (.inf false)) := by
  refine ⟨rfl, ?_⟩
  unfold posMod
  have hc : lt (.fin false x) (ofNat 0) = false := by
    rw [lt_false id id, num_fin, num_zero, WithBot.coe_le_coe, WithTop.coe_le_coe]; simpa [val] using h
  rw [hc]
  have : mul f (ofNat (if false = true then 1 else 0)) (.inf false) = .nan false := by simp [mul, ofNat]
  rw [this]
  trivial

end Ieee
end Xo
