import Verif.Model.IeeeColor
import Verif.Props.C65_Color
import Verif.Props.C120_Nan
import Verif.Props.C121_Rounding

/-!
# C124: components of colours and bytes, with the rounding of `float`
-/
namespace Xo
namespace Ieee
open Num Spec Xo.Spec

theorem clamp01 {v : Fl} (hv : ¬ IsNan v) : num (ofNat 0) ≤ num (clamp v (ofNat 0) (ofNat 1)) ∧
    num (clamp v (ofNat 0) (ofNat 1)) ≤ num (ofNat 1) := by
  have h : num (ofNat 0) ≤ num (ofNat 1) := by
    show (((_ : Rat) : WithTop Rat) : WithBot (WithTop Rat)) ≤ (((_ : Rat) : WithTop Rat) : WithBot (WithTop Rat))
    rw [WithBot.coe_le_coe, WithTop.coe_le_coe]; norm_num
  have := C120_clamp hv (lo := ofNat 0) (hi := ofNat 1) id id h
  exact ⟨this.1, this.2.1⟩

theorem clamp01_fin {v : Fl} (hv : ¬ IsNan v) :
    ∃ s m, clamp v (ofNat 0) (ofNat 1) = .fin s m ∧ 0 ≤ val (.fin s m) ∧ val (.fin s m) ≤ 1 := by
  obtain ⟨h0, h1⟩ := clamp01 hv
  have n1 : num (ofNat 1) = (((1 : Rat) : WithTop Rat) : WithBot (WithTop Rat)) := by simp [num, ofNat]
  rw [num_zero] at h0
  rw [n1] at h1
  rcases hc : clamp v (ofNat 0) (ofNat 1) with s | s | ⟨s, m⟩
  · rw [hc] at h0; exact absurd h0 (by simp [num])
  · rw [hc] at h0 h1
    cases s
    · exact absurd h1 (not_le.2 (WithBot.coe_lt_coe.2 (WithTop.coe_lt_top _)))
    · exact absurd h0 (by simp [num])
  · rw [hc, num_fin, WithBot.coe_le_coe, WithTop.coe_le_coe] at h0 h1
    exact ⟨s, m, rfl, h0, h1⟩

variable {f : Fmt}

/-- What is rounded to a byte. -/
theorem byte_eq (hf : f.Ok) (hmin : f.emin ≤ 0) (hmax : 8 ≤ f.emax) {v : Fl} (hv : ¬ IsNan v) : ∃ s m, clamp v (ofNat 0) (ofNat 1) = .fin s m ∧
    0 ≤ val (.fin s m) ∧ val (.fin s m) ≤ 1 ∧ 0 ≤ rq f (val (.fin s m) * 255) ∧ rq f (val (.fin s m) * 255) ≤ 255 ∧
    floatToByte f v = .ok ⌊rq f (val (.fin s m) * 255) + 1 / 2⌋.toNat := by
  obtain ⟨s, m, e, h0, h1⟩ := clamp01_fin hv
  have hp := hf.prec
  have hr := hf.range
  have q0 : 0 ≤ rq f (val (.fin s m) * 255) := rq_nonneg (by linarith)
  have e255 : rq f 255 = 255 := by
    have := rq_mul (f := f) (m := 255) (e := 0) (by
      rw [abs_of_nonneg (by norm_num)]
      calc (255 : Int) < 2 ^ 24 := by norm_num
        _ ≤ 2 ^ f.prec := pow_le_pow_right₀ (by norm_num) hp) hmin
    simpa using this
  have q1 : rq f (val (.fin s m) * 255) ≤ 255 := by
    have := rq_mono hf (show val (.fin s m) * 255 ≤ 255 by linarith)
    rwa [e255] at this
  refine ⟨s, m, e, h0, h1, q0, q1, ?_⟩
  unfold floatToByte
  rw [e]
  have hbig : (255 : Rat) < 2 ^ f.emax := by
    calc (255 : Rat) < 2 ^ (8 : Int) := by norm_num
      _ ≤ 2 ^ f.emax := two_mono hmax
  obtain ⟨r, n, e2, v2⟩ := ofRat_finite (f := f) (z := (s != false)) (x := val (.fin s m) * 255) (by
    rw [abs_of_nonneg q0]; linarith)
  have e3 : mul f (.fin s m) (ofNat 255) = .fin r n := by
    show ofRat f _ (val (.fin s m) * val (.fin false ((255 : Nat) : Rat))) = _
    rw [show val (.fin false ((255 : Nat) : Rat)) = 255 by simp [val]]
    exact e2
  rw [e3]
  show Res.ok _ = _
  rw [v2]

/-- **C124, range and order.** Every number, infinite ones included, becomes a byte; a larger number never becomes a smaller
byte; numbers up to zero become 0, and numbers from one on become 255. -/
theorem C124_range {v w : Fl} (hv : ¬ IsNan v) (hw : ¬ IsNan w) :
    ∃ a b, floatToByte binary32 v = .ok a ∧ floatToByte binary32 w = .ok b ∧ a ≤ 255 ∧ (num v ≤ num w → a ≤ b) ∧
      (num v ≤ num (ofNat 0) → a = 0) ∧ (num (ofNat 1) ≤ num v → a = 255) := by
  have hf := binary32_ok
  obtain ⟨s, m, e1, h0, h1, q0, q1, b1⟩ := byte_eq hf (by decide) (by decide) hv
  obtain ⟨t, n, e2, g0, g1, p0, p1, b2⟩ := byte_eq hf (by decide) (by decide) hw
  have n01 : num (ofNat 0) ≤ num (ofNat 1) := by
    show (((_ : Rat) : WithTop Rat) : WithBot (WithTop Rat)) ≤ (((_ : Rat) : WithTop Rat) : WithBot (WithTop Rat))
    rw [WithBot.coe_le_coe, WithTop.coe_le_coe]; norm_num
  refine ⟨_, _, b1, b2, ?_, fun hle => ?_, fun hle => ?_, fun hle => ?_⟩
  · have : ⌊rq binary32 (val (.fin s m) * 255) + 1 / 2⌋ < 256 := Int.floor_lt.2 (by push_cast; linarith)
    omega
  · have hcm : num (clamp v (ofNat 0) (ofNat 1)) ≤ num (clamp w (ofNat 0) (ofNat 1)) := by
      obtain ⟨a1, a2, a3, a4, a5⟩ := C120_clamp hv (lo := ofNat 0) (hi := ofNat 1) id id n01
      obtain ⟨c1, c2, c3, c4, c5⟩ := C120_clamp hw (lo := ofNat 0) (hi := ofNat 1) id id n01
      rcases lt_or_ge (num v) (num (ofNat 0)) with h | h
      · rw [a4 h]; exact c1
      · rcases lt_or_ge (num (ofNat 1)) (num w) with h' | h'
        · rw [c5 h']; exact a2
        · rw [a3 h (hle.trans h'), c3 (h.trans hle) h']; exact hle
    rw [e1, e2, num_fin, num_fin, WithBot.coe_le_coe, WithTop.coe_le_coe] at hcm
    refine Int.toNat_le_toNat (Int.floor_mono ?_)
    have := rq_mono hf (show val (.fin s m) * 255 ≤ val (.fin t n) * 255 by linarith)
    linarith
  · have hz : num (clamp v (ofNat 0) (ofNat 1)) = num (ofNat 0) := by
      obtain ⟨a1, a2, a3, a4, a5⟩ := C120_clamp hv (lo := ofNat 0) (hi := ofNat 1) id id n01
      rcases lt_or_ge (num v) (num (ofNat 0)) with h | h
      · rw [a4 h]
      · rw [a3 h (hle.trans n01)]; exact le_antisymm hle h
    rw [e1, num_fin, num_zero, WithBot.coe_inj, WithTop.coe_inj] at hz
    rw [hz, zero_mul, rq_zero]; norm_num
  · have hz : num (clamp v (ofNat 0) (ofNat 1)) = num (ofNat 1) := by
      obtain ⟨a1, a2, a3, a4, a5⟩ := C120_clamp hv (lo := ofNat 0) (hi := ofNat 1) id id n01
      rcases lt_or_ge (num (ofNat 1)) (num v) with h | h
      · rw [a5 h]
      · rw [a3 (n01.trans hle) h]; exact le_antisymm h hle
    rw [e1, num_fin, show num (ofNat 1) = (((1 : Rat) : WithTop Rat) : WithBot (WithTop Rat)) by simp [num, ofNat],
      WithBot.coe_inj, WithTop.coe_inj] at hz
    have e255 : rq binary32 255 = 255 := by
      have := rq_mul (f := binary32) (m := 255) (e := 0) (by decide) (by decide)
      simpa using this
    rw [hz, one_mul, e255, show ⌊(255 : Rat) + 1 / 2⌋ = 255 from Int.floor_eq_iff.2 (by norm_num)]; rfl

example : floatToByte binary32 (.fin false (1 / 2)) = .ok 128 ∧ floatToByte binary32 (.inf false) = .ok 255 ∧
    floatToByte binary32 (.fin true 3) = .ok 0 := by decide +kernel

/-- All 256 bytes, one by one: the whole domain. -/
theorem all_bytes : ∀ b : Fin 256, floatToByte binary32 (byteToFloat binary32 b) = .ok b.val := by decide +kernel

theorem byte_back {b : Nat} (h : b < 256) : floatToByte binary32 (byteToFloat binary32 b) = .ok b := all_bytes ⟨b, h⟩

/-- **C124, colour numbers.** Converting any 24-bit or 32-bit colour number to components of type `float` and back gives the
same number, with all rounding. -/
theorem C124_hex (x : Nat) :
    (x < 2 ^ 24 → hexRgb binary32 (fromHexRgb binary32 x) = .ok x) ∧
    (x < 2 ^ 32 → hexRgba binary32 (fromHexRgba binary32 x) = .ok x) := by
  have h0 := Col.getByte_lt x 24
  have h1 := Col.getByte_lt x 16
  have h2 := Col.getByte_lt x 8
  have h3 := Col.getByte_lt x 0
  constructor
  · intro hx
    simp only [hexRgb, fromHexRgb]
    rw [byte_back h1, byte_back h2, byte_back h3]
    show Res.ok (_ ||| _) = _
    rw [Col.or_bytes3 _ _ _ h2 h3]
    simp only [Col.getByte_eq]
    congr 1
    omega
  · intro hx
    simp only [hexRgba, fromHexRgba]
    rw [byte_back h0, byte_back h1, byte_back h2, byte_back h3]
    show Res.ok (_ ||| _) = _
    rw [Col.or_bytes4 _ _ _ _ h1 h2 h3]
    simp only [Col.getByte_eq]
    congr 1
    omega

example : hexRgba binary32 (fromHexRgba binary32 0x12345678) = .ok 0x12345678 := (C124_hex _).2 (by norm_num)

/-- **C124, violated.** NaN has undefined behaviour. -/
theorem C124_nan_violated {v : Fl} (h : IsNan v) (f : Fmt) : floatToByte f v = .ub := by
  have e : clamp v (ofNat 0) (ofNat 1) = v := (C120_clamp_nan_violated v (ofNat 0) (ofNat 1)).1 h |>.1
  unfold floatToByte
  rw [e]
  cases v <;> first | rfl | exact absurd h id

/-- **C124, violated.** The byte is not always the nearest: the number is rounded twice. Here 255 times the component is below
128.5, but the byte is 129. -/
theorem C124_nearest_violated :
    OfType binary32 (.fin false (8454401 / 16777216)) ∧ (8454401 / 16777216 : Rat) * 255 < 128 + 1 / 2 ∧
    floatToByte binary32 (.fin false (8454401 / 16777216)) = .ok 129 :=
  ⟨⟨8454401, -24, by decide, by decide, by decide, by norm_num⟩, by norm_num, by decide +kernel⟩

/-- **C124, distance.** For components from zero to one, the byte differs from 255 times the component by at most a half and
two to the power of -17. -/
theorem C124_close_partial {s : Bool} {m : Rat} (h0 : 0 ≤ val (.fin s m)) (h1 : val (.fin s m) ≤ 1) :
    ∃ a, floatToByte binary32 (.fin s m) = .ok a ∧ |(a : Rat) - 255 * val (.fin s m)| ≤ 1 / 2 + 1 / 2 ^ 17 := by
  have hf := binary32_ok
  have hv : ¬ IsNan (.fin s m) := id
  obtain ⟨t, n, e1, g0, g1, q0, q1, b1⟩ := byte_eq hf (by decide) (by decide) hv
  refine ⟨_, b1, ?_⟩
  have n01 : num (ofNat 0) ≤ num (ofNat 1) := by
    show (((_ : Rat) : WithTop Rat) : WithBot (WithTop Rat)) ≤ (((_ : Rat) : WithTop Rat) : WithBot (WithTop Rat))
    rw [WithBot.coe_le_coe, WithTop.coe_le_coe]; norm_num
  have hc : clamp (.fin s m) (ofNat 0) (ofNat 1) = .fin s m := by
    refine (C120_clamp hv (lo := ofNat 0) (hi := ofNat 1) id id n01).2.2.1 ?_ ?_
    · rw [num_zero, num_fin, WithBot.coe_le_coe, WithTop.coe_le_coe]; exact h0
    · rw [num_fin, show num (ofNat 1) = (((1 : Rat) : WithTop Rat) : WithBot (WithTop Rat)) by simp [num, ofNat],
        WithBot.coe_le_coe, WithTop.coe_le_coe]; exact h1
  rw [hc] at e1
  cases e1
  set x := val (.fin s m) * 255 with hx
  have herr : |rq binary32 x - x| ≤ 1 / 2 ^ 17 := by
    rcases eq_or_lt_of_le (show 0 ≤ x by rw [hx]; linarith) with h | h
    · rw [← h, rq_zero]; norm_num
    · rw [rq_pos h]
      unfold rndVal
      set u := ulpExp binary32 x with hu
      have hup := two_pos' u
      have hule : u ≤ -16 := by
        have h8 : x < 2 ^ (8 : Int) := by rw [hx]; norm_num; linarith
        have hl := two_lt_iff.1 (lt_of_le_of_lt (log2_le x h) h8)
        rw [hu]; unfold ulpExp
        show max (Int.log 2 x - ((24 : Int) - 1)) (-149) ≤ -16
        omega
      have h3 := rhe_close (x / 2 ^ u)
      have e : (rhe (x / 2 ^ u) : Rat) * 2 ^ u - x = (rhe (x / 2 ^ u) - x / 2 ^ u) * 2 ^ u := by field_simp
      rw [e, abs_mul, abs_of_pos hup]
      have h4 : (2 : Rat) ^ u ≤ 2 ^ (-16 : Int) := two_mono hule
      calc |(rhe (x / 2 ^ u) : Rat) - x / 2 ^ u| * 2 ^ u ≤ 1 / 2 * 2 ^ (-16 : Int) :=
            mul_le_mul h3 h4 hup.le (by norm_num)
        _ = 1 / 2 ^ 17 := by norm_num
  have hfl : ((⌊rq binary32 x + 1 / 2⌋.toNat : Nat) : Rat) = (⌊rq binary32 x + 1 / 2⌋ : Rat) := by
    have : (0 : Int) ≤ ⌊rq binary32 x + 1 / 2⌋ := Int.floor_nonneg.2 (by linarith)
    rw [← Int.cast_natCast, Int.toNat_of_nonneg this]
  rw [hfl]
  have f1 := Int.floor_le (rq binary32 x + 1 / 2)
  have f2 := Int.lt_floor_add_one (rq binary32 x + 1 / 2)
  obtain ⟨a1, a2⟩ := abs_le.1 herr
  rw [abs_le]
  constructor <;> rw [mul_comm (255 : Rat)] <;> linarith

end Ieee
end Xo
