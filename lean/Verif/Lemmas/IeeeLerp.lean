import Verif.Lemmas.Ieee

/-! Part of a rounded difference is not above the difference. -/
namespace Xo
namespace Ieee
open Num Spec

variable {f : Fmt}

/-- A number of a type that is below one is so by at least one unit. -/
theorem below_one (hf : f.Ok) {s : Bool} {u : Rat} (h : OfType f (.fin s u)) (h1 : val (.fin s u) < 1) :
    val (.fin s u) * 2 ^ f.prec ≤ 2 ^ f.prec - 1 := by
  obtain ⟨m, e, hm, -, -, hv⟩ := val_mul h
  have hp := hf.prec
  have hP : (0 : Rat) < 2 ^ f.prec := by positivity
  rw [hv] at h1 ⊢
  rcases le_or_gt (-(f.prec : Int)) e with he | he
  · -- a multiple of the unit
    have e1 : (2 : Rat) ^ e * 2 ^ f.prec = ((2 ^ (e + f.prec).toNat : Int) : Rat) := by
      rw [← zpow_natCast, ← zpow_add₀ (by norm_num)]
      push_cast
      rw [← zpow_natCast]
      congr 1
      omega
    rw [mul_assoc, e1]
    have h2 : (m : Rat) * 2 ^ e * 2 ^ f.prec < 1 * 2 ^ f.prec := mul_lt_mul_of_pos_right h1 hP
    rw [mul_assoc, e1, one_mul] at h2
    have h3 : m * 2 ^ (e + f.prec).toNat < 2 ^ f.prec := by exact_mod_cast h2
    have h4 : m * 2 ^ (e + f.prec).toNat ≤ 2 ^ f.prec - 1 := by omega
    exact_mod_cast h4
  · -- below a half
    have h2 : (m : Rat) ≤ 2 ^ f.prec := by exact_mod_cast ((le_abs_self m).trans hm.le)
    have h3 : (2 : Rat) ^ e ≤ 2 ^ (-(f.prec : Int) - 1) := two_mono (by omega)
    have e1 : (2 : Rat) ^ (-(f.prec : Int) - 1) * 2 ^ f.prec = 1 / 2 := by
      rw [← zpow_natCast, ← zpow_add₀ (by norm_num), show -(f.prec : Int) - 1 + f.prec = -1 by ring]
      norm_num
    have h4 : (2 : Rat) ^ e * 2 ^ f.prec ≤ 1 / 2 := by
      rw [← e1]; exact mul_le_mul_of_nonneg_right h3 hP.le
    have h5 : (m : Rat) * (2 ^ e * 2 ^ f.prec) ≤ 2 ^ f.prec * (2 ^ e * 2 ^ f.prec) :=
      mul_le_mul_of_nonneg_right h2 (mul_nonneg (two_pos' e).le hP.le)
    have h6 : (2 : Rat) ^ f.prec * (2 ^ e * 2 ^ f.prec) ≤ 2 ^ f.prec * (1 / 2) := mul_le_mul_of_nonneg_left h4 hP.le
    have h7 : (2 : Rat) ≤ 2 ^ f.prec := by
      calc (2 : Rat) = 2 ^ 1 := by norm_num
        _ ≤ 2 ^ f.prec := pow_le_pow_right₀ (by norm_num) (by omega)
    rw [mul_assoc]
    linarith

/-- Less than the whole of a rounded difference is not above the difference. -/
theorem part_le (hf : f.Ok) {x t : Rat} (hx : 0 ≤ x) (hk : ∃ k : Int, x = k * 2 ^ f.emin) (ht0 : 0 ≤ t)
    (ht : t * 2 ^ f.prec ≤ 2 ^ f.prec - 1) : rq f (t * rq f x) ≤ x := by
  rcases eq_or_lt_of_le hx with h | hx
  · rw [← h, rq_zero, mul_zero, rq_zero]
  have hp := hf.prec
  have hP : (0 : Rat) < 2 ^ f.prec := by positivity
  have ht1 : t ≤ 1 := by
    by_contra hc
    rw [not_le] at hc
    have := mul_lt_mul_of_pos_right hc hP
    linarith
  set u := ulpExp f x with hu
  have hup := two_pos' u
  have hmin : f.emin ≤ u := by rw [hu]; unfold ulpExp; omega
  set r := rhe (x / 2 ^ u) with hr
  have hd : rq f x = (r : Rat) * 2 ^ u := rq_pos hx
  have hn0 : 0 ≤ r := le_rhe (by push_cast; positivity)
  have hn1 : r ≤ 2 ^ f.prec := rhe_le (by rw [div_le_iff₀ hup]; push_cast; exact (log_ulp hf hx).le)
  have hself : rq f (rq f x) = rq f x := by
    rw [hd]
    rcases eq_or_lt_of_le hn1 with h | h
    · have : (r : Rat) * 2 ^ u = ((1 : Int) : Rat) * 2 ^ ((f.prec : Int) + u) := by
        rw [h, zpow_add₀ (by norm_num), zpow_natCast]; push_cast; ring
      rw [this, rq_mul (by rw [abs_one]; exact one_lt_pow₀ (by norm_num) (by omega)) (by omega)]
    · rw [rq_mul (by rw [abs_of_nonneg hn0]; exact h) hmin]
  have hd0 : 0 ≤ rq f x := rq_nonneg hx.le
  have hle : t * rq f x ≤ rq f x := by
    have := mul_le_mul_of_nonneg_right ht1 hd0
    linarith
  rcases le_or_gt (rq f x) x with hdx | hdx
  · -- rounded down
    have := rq_mono hf hle
    rw [hself] at this
    linarith
  -- rounded up
  have hlt : f.emin < u := by
    rcases eq_or_lt_of_le hmin with he | hlt
    · exfalso
      obtain ⟨k, hk⟩ := hk
      have e1 : x / 2 ^ u = k := by rw [← he, hk, mul_div_cancel_right₀ _ (two_pos' _).ne']
      have e2 : rq f x = x := by rw [hd, hr, e1, rhe_eq (n := k) (by simp), ← he, ← hk]
      linarith
    · exact hlt
  have hul : u = Int.log 2 x - ((f.prec : Int) - 1) := by rw [hu] at hlt ⊢; unfold ulpExp at hlt ⊢; omega
  have hxu : (2 : Rat) ^ (f.prec - 1) ≤ x / 2 ^ u := by
    rw [le_div_iff₀ hup, ← zpow_natCast, ← zpow_add₀ (by norm_num)]
    refine (two_mono ?_).trans (log2_le x hx)
    omega
  have hrx : x / 2 ^ u < r := by rw [div_lt_iff₀ hup, ← hd]; exact hdx
  have hr1 : (2 : Int) ^ (f.prec - 1) < r := by exact_mod_cast hxu.trans_lt hrx
  have hhalf : (r : Rat) - 1 / 2 ≤ x / 2 ^ u := by
    have := (abs_le.1 (rhe_close (x / 2 ^ u))).2
    rw [← hr] at this
    linarith
  have hgoal : ((r - 1 : Int) : Rat) * 2 ^ u ≤ x := by
    have h1 : ((r - 1 : Int) : Rat) ≤ x / 2 ^ u := by push_cast; linarith
    have := mul_le_mul_of_nonneg_right h1 hup.le
    rwa [div_mul_cancel₀ _ hup.ne'] at this
  refine le_trans ?_ hgoal
  have hrep : rq f (((r - 1 : Int) : Rat) * 2 ^ u) = ((r - 1 : Int) : Rat) * 2 ^ u := by
    refine rq_mul ?_ hmin
    have : (0 : Int) < 2 ^ (f.prec - 1) := by positivity
    rw [abs_of_nonneg (by omega)]
    omega
  -- what is left of the rounded difference
  have htd : t * rq f x * 2 ^ f.prec ≤ (2 ^ f.prec - 1) * ((r : Rat) * 2 ^ u) := by
    rw [← hd, mul_right_comm]
    exact mul_le_mul_of_nonneg_right ht hd0
  rcases eq_or_lt_of_le hn1 with h | h
  · -- a power of two
    have hrq : (r : Rat) = 2 ^ f.prec := by rw [h]; push_cast; rfl
    have : t * rq f x ≤ ((r - 1 : Int) : Rat) * 2 ^ u := by
      have h2 : t * rq f x * 2 ^ f.prec ≤ ((r - 1 : Int) : Rat) * 2 ^ u * 2 ^ f.prec := by
        refine htd.trans (le_of_eq ?_)
        push_cast
        rw [hrq]; ring
      exact le_of_mul_le_mul_right h2 hP
    rw [← hrep]
    exact rq_mono hf this
  · -- more than half a unit is missing
    have hmiss : t * rq f x < ((r : Rat) - 1 / 2) * 2 ^ u := by
      have h2 : (2 : Rat) ^ f.prec < 2 * r := by
        have : (2 : Int) ^ f.prec < 2 * r := by
          have e : (2 : Int) ^ f.prec = 2 * 2 ^ (f.prec - 1) := by
            conv_lhs => rw [show f.prec = (f.prec - 1) + 1 by omega, pow_succ]
            ring
          omega
        exact_mod_cast this
      have h3 : t * rq f x * 2 ^ f.prec < ((r : Rat) - 1 / 2) * 2 ^ u * 2 ^ f.prec := by
        refine htd.trans_lt ?_
        have : ((r : Rat) - 1 / 2) * 2 ^ u * 2 ^ f.prec - (2 ^ f.prec - 1) * ((r : Rat) * 2 ^ u)
            = ((r : Rat) - 2 ^ f.prec / 2) * 2 ^ u := by ring
        have h4 : 0 < ((r : Rat) - 2 ^ f.prec / 2) * 2 ^ u := mul_pos (by linarith) hup
        linarith
      exact lt_of_mul_lt_mul_right h3 hP.le
    rcases le_or_gt (t * rq f x) (((r - 1 : Int) : Rat) * 2 ^ u) with hc | hc
    · rw [← hrep]
      exact rq_mono hf hc
    · set y := t * rq f x with hy
      have hr10 : (2 : Int) ^ (f.prec - 1) ≤ r - 1 := by omega
      have hr10' : (2 : Rat) ^ (f.prec - 1) ≤ ((r - 1 : Int) : Rat) := by exact_mod_cast hr10
      have hy0 : 0 < y := by
        refine lt_trans (mul_pos ?_ hup) hc
        have : (0 : Rat) < 2 ^ (f.prec - 1) := by positivity
        linarith
      have hyu : ulpExp f y = u := by
        have h5 : (2 : Rat) ^ ((f.prec : Int) - 1 + u) ≤ y := by
          rw [zpow_add₀ (by norm_num), show (f.prec : Int) - 1 = ((f.prec - 1 : Nat) : Int) by omega, zpow_natCast]
          exact (mul_le_mul_of_nonneg_right hr10' hup.le).trans hc.le
        have h6 : y < 2 ^ ((f.prec : Int) + u) := by
          rw [zpow_add₀ (by norm_num), zpow_natCast]
          refine hmiss.trans ?_
          have : (r : Rat) < 2 ^ f.prec := by exact_mod_cast h
          exact mul_lt_mul_of_pos_right (by linarith) hup
        have h7 := two_lt_iff.1 (h5.trans_lt (lt_log2 y))
        have h8 := two_lt_iff.1 ((log2_le y hy0).trans_lt h6)
        unfold ulpExp
        omega
      rw [rq_pos hy0]
      unfold rndVal
      rw [hyu]
      have : rhe (y / 2 ^ u) = r - 1 := by
        apply rhe_eq
        have h5 : y / 2 ^ u < (r : Rat) - 1 / 2 := by rw [div_lt_iff₀ hup]; exact hmiss
        have h6 : ((r - 1 : Int) : Rat) < y / 2 ^ u := by rw [lt_div_iff₀ hup]; exact hc
        push_cast at h6 ⊢
        rw [abs_lt]
        constructor <;> linarith
      rw [this]

/-- What interpolation computes, where nothing is too big. -/
theorem lerp_core (hf : f.Ok) {s t : Bool} {x y w : Rat} (ha : OfType f (.fin s x)) (hb : OfType f (.fin t y))
    (hle : val (.fin s x) ≤ val (.fin t y)) (hw : 0 ≤ w) (hw1 : w * 2 ^ f.prec ≤ 2 ^ f.prec - 1) :
    let m := rq f (val (.fin s x) + rq f (w * rq f (val (.fin t y) - val (.fin s x))))
    val (.fin s x) ≤ m ∧ m ≤ val (.fin t y) := by
  have h1 := part_le hf (sub_nonneg.2 hle) (diff_mul hb ha) hw hw1
  have h2 : 0 ≤ rq f (w * rq f (val (.fin t y) - val (.fin s x))) := rq_nonneg (mul_nonneg hw (rq_nonneg (sub_nonneg.2 hle)))
  constructor
  · conv_lhs => rw [← rq_val ha]
    exact rq_mono hf (by linarith)
  · conv_rhs => rw [← rq_val hb]
    exact rq_mono hf (by linarith)

theorem lerp_core_down (hf : f.Ok) {s t : Bool} {x y w : Rat} (ha : OfType f (.fin s x)) (hb : OfType f (.fin t y))
    (hle : val (.fin t y) ≤ val (.fin s x)) (hw : 0 ≤ w) (hw1 : w * 2 ^ f.prec ≤ 2 ^ f.prec - 1) :
    let m := rq f (val (.fin s x) + rq f (w * rq f (val (.fin t y) - val (.fin s x))))
    val (.fin t y) ≤ m ∧ m ≤ val (.fin s x) := by
  have e : ∀ r z, val (.fin (!r) z) = -val (.fin r z) := fun r z => num_neg (a := .fin r z) r z
  have h := lerp_core hf (s := !s) (t := !t) (x := x) (y := y) (w := w) ha hb
    (by rw [e, e]; exact neg_le_neg hle) hw hw1
  simp only [e] at h
  have e1 : rq f (-val (.fin s x) + rq f (w * rq f (-val (.fin t y) - -val (.fin s x))))
      = -rq f (val (.fin s x) + rq f (w * rq f (val (.fin t y) - val (.fin s x)))) := by
    rw [← rq_neg]
    congr 1
    rw [show -val (.fin t y) - -val (.fin s x) = -(val (.fin t y) - val (.fin s x)) by ring, rq_neg, mul_neg, rq_neg]
    ring
  rw [e1] at h
  constructor
  · linarith [h.2]
  · linarith [h.1]

end Ieee
end Xo
