import Verif.Model.Color
import Verif.Props.C49_Wrap
import Mathlib.Tactic.Linarith
import Mathlib.Tactic.FieldSimp
import Mathlib.Tactic.Positivity
import Mathlib.Tactic.NormNum
import Mathlib.Tactic.IntervalCases

/-!
C65: colours.
-/
namespace Xo
namespace Col
open Math

/-! ## Specification -/

namespace Spec
section
variable {K : Type} [Field K] [LinearOrder K] [FloorRing K]

/-- Distance from full intensity at the position `x` on the colour circle of circumference 6: 0 on `[-2, 0]`, rising to
1 on `[0, 1]`, 1 on `[1, 3]`, falling to 0 on `[3, 4]`. -/
def weight (x : K) : K :=
  let k := x - 6 * (⌊x / 6⌋ : K)
  max 0 (min (min k (4 - k)) 1)

/-- The usual definition of the colour with hue `H` in degrees, saturation `S` and value `V`: the three components are
the same function of the hue, a third of the circle apart. -/
def hsv (H S V : K) : K × K × K :=
  (V - V * S * weight (5 + H / 60), V - V * S * weight (3 + H / 60), V - V * S * weight (1 + H / 60))
end
end Spec

section
variable {K : Type} [Field K] [LinearOrder K] [IsStrictOrderedRing K] [FloorRing K]

/-! ## Hexadecimal colours -/

theorem getByte_lt (x s : Nat) : getByte x s < 256 := by
  unfold getByte
  have := Nat.and_le_right (n := x >>> s) (m := 255)
  omega

theorem getByte_eq (x s : Nat) : getByte x s = x / 2 ^ s % 256 := by
  unfold getByte
  rw [Nat.shiftRight_eq_div_pow]
  exact Nat.and_two_pow_sub_one_eq_mod _ 8

theorem floor_mid {v : K} {n : ℤ} (h1 : (n : K) ≤ v + 1 / 2) (h2 : v + 1 / 2 < n + 1) : ⌊v + 1 / 2⌋ = n := by
  rw [Int.floor_eq_iff]; exact ⟨h1, h2⟩

/-- A component within half a step of `n / 255` is converted to `n`. -/
theorem toByte_near (v : K) (n : Nat) (hn : n ≤ 255) (h : |v - (n : K) / 255| < 1 / 510) : toByte v = n := by
  obtain ⟨h1, h2⟩ := abs_lt.1 h
  have hn' : (n : K) ≤ 255 := by exact_mod_cast hn
  have hn0 : (0 : K) ≤ n := Nat.cast_nonneg n
  have e : (n : K) = 255 * ((n : K) / 255) := by field_simp
  generalize hq : (n : K) / 255 = q at *
  have key : floatToByte v = (n : ℤ) := by
    unfold floatToByte roundC clamp
    have hnn : ((n : ℤ) : K) = (n : K) := by norm_cast
    split_ifs with c1 c2 c3 c4 c5
    all_goals first
      | (refine floor_mid ?_ ?_ <;> rw [hnn] <;> linarith)
      | (exfalso; linarith)
  unfold toByte; rw [key]; simp

theorem toByte_exact (n : Nat) (hn : n ≤ 255) : toByte (1 / 255 * (n : K)) = n := by
  apply toByte_near _ _ hn
  rw [show (1 : K) / 255 * n - n / 255 = 0 by field_simp; ring]
  simp

theorem or_bytes3 (a b c : Nat) (hb : b < 256) (hc : c < 256) :
    a <<< 16 ||| b <<< 8 ||| c = a * 65536 + b * 256 + c := by
  have h1 : b <<< 8 ||| c = b <<< 8 + c := (Nat.shiftLeft_add_eq_or_of_lt (by omega) b).symm
  have h2 : a <<< 16 ||| (b <<< 8 + c) = a <<< 16 + (b <<< 8 + c) :=
    (Nat.shiftLeft_add_eq_or_of_lt (by rw [Nat.shiftLeft_eq]; omega) a).symm
  rw [Nat.or_assoc, h1, h2, Nat.shiftLeft_eq, Nat.shiftLeft_eq]; omega

theorem or_bytes4 (a b c d : Nat) (hb : b < 256) (hc : c < 256) (hd : d < 256) :
    a <<< 24 ||| b <<< 16 ||| c <<< 8 ||| d = a * 16777216 + b * 65536 + c * 256 + d := by
  have h2 : a <<< 24 ||| (b * 65536 + c * 256 + d) = a <<< 24 + (b * 65536 + c * 256 + d) :=
    (Nat.shiftLeft_add_eq_or_of_lt (by omega) a).symm
  rw [Nat.or_assoc, Nat.or_assoc, ← Nat.or_assoc (b <<< 16), or_bytes3 _ _ _ hc hd, h2, Nat.shiftLeft_eq]; omega

theorem toByte_le (v : K) : toByte v ≤ 255 := by
  have := (C71_float_to_byte v).2.1
  unfold toByte; omega

/-- **C65.** Converting any 24-bit colour number to components and back gives the same number; the colour is opaque. -/
theorem C65_hex_rgb (x : Nat) (hx : x < 2 ^ 24) :
    hexRgb (fromHexRgb x : Color K) = x ∧ (fromHexRgb x : Color K).a = 1 := by
  refine ⟨?_, rfl⟩
  have h1 := getByte_lt x 16
  have h2 := getByte_lt x 8
  have h3 := getByte_lt x 0
  simp only [hexRgb, fromHexRgb, ofFloat]
  rw [toByte_exact _ (by omega), toByte_exact _ (by omega), toByte_exact _ (by omega), or_bytes3 _ _ _ h2 h3]
  simp only [getByte_eq]
  omega

/-- **C65.** Converting any 32-bit colour number to components and back gives the same number. -/
theorem C65_hex_rgba (x : Nat) (hx : x < 2 ^ 32) : hexRgba (fromHexRgba x : Color K) = x := by
  have h1 := getByte_lt x 24
  have h2 := getByte_lt x 16
  have h3 := getByte_lt x 8
  have h4 := getByte_lt x 0
  simp only [hexRgba, fromHexRgba, ofFloat]
  rw [toByte_exact _ (by omega), toByte_exact _ (by omega), toByte_exact _ (by omega), toByte_exact _ (by omega),
    or_bytes4 _ _ _ _ h2 h3 h4]
  simp only [getByte_eq]
  omega

example : hexRgba (fromHexRgba 0x12345678 : Color ℚ) = 0x12345678 := C65_hex_rgba _ (by norm_num)

/-- **C65.** The same with rounded components: as long as every component is less than half a step (1/510) away from the
exact one, converting back gives the same number. Rounding to `float` is off by less than 1/10000000. -/
theorem C65_hex_rounded (x : Nat) (hx : x < 2 ^ 32) (c : Color K)
    (hr : |c.r - (fromHexRgba x : Color K).r| < 1 / 510) (hg : |c.g - (fromHexRgba x : Color K).g| < 1 / 510)
    (hb : |c.b - (fromHexRgba x : Color K).b| < 1 / 510) (ha : |c.a - (fromHexRgba x : Color K).a| < 1 / 510) :
    hexRgba c = x := by
  have h1 := getByte_lt x 24
  have h2 := getByte_lt x 16
  have h3 := getByte_lt x 8
  have h4 := getByte_lt x 0
  have e : ∀ n : Nat, (1 : K) / 255 * (n : K) = (n : K) / 255 := fun n => by ring
  simp only [fromHexRgba, ofFloat, e] at hr hg hb ha
  simp only [hexRgba]
  rw [toByte_near _ _ (by omega) hr, toByte_near _ _ (by omega) hg, toByte_near _ _ (by omega) hb,
    toByte_near _ _ (by omega) ha, or_bytes4 _ _ _ _ h2 h3 h4]
  simp only [getByte_eq]
  omega

theorem toByte_close (v : K) (h0 : 0 ≤ v) (h1 : v ≤ 1) : |1 / 255 * (toByte v : K) - v| ≤ 1 / 510 := by
  have hc : clamp v 0 1 = v := by
    unfold clamp; rw [if_neg (not_lt.2 h0), if_neg (not_lt.2 h1)]
  have hp : (0 : K) ≤ v * 255 := by linarith
  have hf : (0 : ℤ) ≤ ⌊v * 255 + 1 / 2⌋ := Int.floor_nonneg.2 (by linarith)
  have e : (toByte v : K) = (⌊v * 255 + 1 / 2⌋ : ℤ) := by
    unfold toByte floatToByte roundC
    rw [hc, if_pos hp]
    have : ((⌊v * 255 + 1 / 2⌋.toNat : ℤ) : K) = (⌊v * 255 + 1 / 2⌋ : ℤ) := by rw [Int.toNat_of_nonneg hf]
    exact_mod_cast this
  rw [e, abs_le]
  have a1 := Int.floor_le (v * 255 + 1 / 2)
  have a2 := Int.lt_floor_add_one (v * 255 + 1 / 2)
  constructor <;> linarith

/-- **C65.** In the other direction, converting components in `[0, 1]` to a number and back changes each of them by at
most half a step. -/
theorem C65_hex_close (c : Color K) (hr : 0 ≤ c.r ∧ c.r ≤ 1) (hg : 0 ≤ c.g ∧ c.g ≤ 1) (hb : 0 ≤ c.b ∧ c.b ≤ 1)
    (ha : 0 ≤ c.a ∧ c.a ≤ 1) :
    hexRgba c < 2 ^ 32 ∧ |(fromHexRgba (hexRgba c) : Color K).r - c.r| ≤ 1 / 510 ∧
      |(fromHexRgba (hexRgba c) : Color K).g - c.g| ≤ 1 / 510 ∧
      |(fromHexRgba (hexRgba c) : Color K).b - c.b| ≤ 1 / 510 ∧
      |(fromHexRgba (hexRgba c) : Color K).a - c.a| ≤ 1 / 510 := by
  have l1 := toByte_le c.r
  have l2 := toByte_le c.g
  have l3 := toByte_le c.b
  have l4 := toByte_le c.a
  have e : hexRgba c = toByte c.r * 16777216 + toByte c.g * 65536 + toByte c.b * 256 + toByte c.a :=
    or_bytes4 _ _ _ _ (by omega) (by omega) (by omega)
  have e1 : getByte (hexRgba c) 24 = toByte c.r := by rw [getByte_eq, e]; omega
  have e2 : getByte (hexRgba c) 16 = toByte c.g := by rw [getByte_eq, e]; omega
  have e3 : getByte (hexRgba c) 8 = toByte c.b := by rw [getByte_eq, e]; omega
  have e4 : getByte (hexRgba c) 0 = toByte c.a := by rw [getByte_eq, e]; omega
  refine ⟨by rw [e]; omega, ?_, ?_, ?_, ?_⟩
  · simp only [fromHexRgba, ofFloat, e1]; exact toByte_close _ hr.1 hr.2
  · simp only [fromHexRgba, ofFloat, e2]; exact toByte_close _ hg.1 hg.2
  · simp only [fromHexRgba, ofFloat, e3]; exact toByte_close _ hb.1 hb.2
  · simp only [fromHexRgba, ofFloat, e4]; exact toByte_close _ ha.1 ha.2

/-! ## Opaque colours -/

/-- **C65, partial.** Colours made without an alpha value from `float`s, the named colours and those of a hexadecimal
number of 24 bits are opaque. Missing: colours made from `double`s (see below) and negative hues. -/
theorem C65_opaque_partial (r g b : K) (x : Nat) :
    (default : Color K).a = 1 ∧ (ofFloat r g b).a = 1 ∧ (red r g).a = 1 ∧ (orange r g).a = 1 ∧ (yellow r g).a = 1 ∧
    (green r g).a = 1 ∧ (cyan r g).a = 1 ∧ (blue r g).a = 1 ∧ (magenta r g).a = 1 ∧ (white r).a = 1 ∧
    (fromHexRgb x : Color K).a = 1 := ⟨rfl, rfl, rfl, rfl, rfl, rfl, rfl, rfl, rfl, rfl, rfl⟩

/-- A colour made from `double`s takes its blue component as alpha: it is opaque only if blue is 1, whether or not an
alpha value was given. -/
theorem C65_opaque_violated (r g b a : K) :
    ((ofDouble r g b).a = 1 ↔ b = 1) ∧ ((ofDouble r g b a).a = a ↔ b = a) := ⟨Iff.rfl, Iff.rfl⟩

example : (ofDouble (1 : ℚ) 0 0).a = 0 := rfl

/-- Multiplication with an `int` or `float` scales all four components. -/
theorem C65_scale (s : K) (c : Color K) :
    (smul s c).r = s * c.r ∧ (smul s c).g = s * c.g ∧ (smul s c).b = s * c.b ∧ (smul s c).a = s * c.a ∧
    (∀ t, smul s (smul t c) = smul (s * t) c) ∧ smul 1 c = c ∧ (∀ d, smul s (add c d) = add (smul s c) (smul s d)) := by
  refine ⟨rfl, rfl, rfl, rfl, fun t => ?_, ?_, fun d => ?_⟩
  · ext <;> simp only [smul, ofFloat] <;> ring
  · ext <;> simp [smul, ofFloat]
  · ext <;> simp only [smul, add, ofFloat] <;> ring

/-- Multiplication with a `double` replaces alpha by the scaled blue component: it agrees with the one with a `float`
exactly if the factor is 0 or blue equals alpha. In particular `1.0 * red` is transparent. -/
theorem C65_scale_violated (s : K) (c : Color K) : smulDouble s c = smul s c ↔ s = 0 ∨ c.b = c.a := by
  rw [Color.ext_iff]
  simp only [smulDouble, smul, ofDouble, ofFloat, true_and]
  constructor
  · intro h
    rcases mul_eq_mul_left_iff.1 h with h | h
    · exact Or.inr h
    · exact Or.inl h
  · rintro (h | h)
    · rw [h]; ring
    · rw [h]

example : (smulDouble 1 (red (1 : ℚ) 1)).a = 0 := by norm_num [smulDouble, red, ofDouble, ofFloat]

/-- Adding and subtracting a colour gives the colour back; the null colour is neutral. -/
theorem C65_add (x y : Color K) : sub (add x y) y = x ∧ add x null = x ∧ add x y = add y x := by
  refine ⟨?_, ?_, ?_⟩ <;> ext <;> simp only [add, sub, null, ofFloat] <;> ring

/-! ## The order -/

/-- **C65.** `==` holds exactly for colours with equal components, and `<` is a total order that agrees with it. -/
theorem C65_order (x y z : Color K) :
    (eq x y = true ↔ x = y) ∧ lt x x = false ∧ (lt x y = true → lt y z = true → lt x z = true) ∧
    (lt x y = true ∨ x = y ∨ lt y x = true) ∧ (lt x y = true → lt y x = false) := by
  have key : ∀ x y : Color K, lt x y = true ↔ x.r < y.r ∨ x.r = y.r ∧ (x.g < y.g ∨ x.g = y.g ∧
      (x.b < y.b ∨ x.b = y.b ∧ x.a < y.a)) := by
    intro x y
    unfold lt
    split_ifs with h1 h2 h3
    · simp [h1, h2, h3]
    · simp [h1, h2, h3]
    · simp [h1, h2]
    · simp [h1]
  refine ⟨?_, ?_, ?_, ?_, ?_⟩
  · simp [eq, Color.ext_iff]
  · simp [lt]
  · simp only [key]
    intro h1 h2
    rcases h1 with h1 | ⟨h1, h1' | ⟨h1', h1'' | ⟨h1'', h1'''⟩⟩⟩ <;>
      rcases h2 with h2 | ⟨h2, h2' | ⟨h2', h2'' | ⟨h2'', h2'''⟩⟩⟩
    · exact Or.inl (h1.trans h2)
    · exact Or.inl (h2 ▸ h1)
    · exact Or.inl (h2 ▸ h1)
    · exact Or.inl (h2 ▸ h1)
    · exact Or.inl (h1 ▸ h2)
    · exact Or.inr ⟨h1.trans h2, Or.inl (h1'.trans h2')⟩
    · exact Or.inr ⟨h1.trans h2, Or.inl (h2' ▸ h1')⟩
    · exact Or.inr ⟨h1.trans h2, Or.inl (h2' ▸ h1')⟩
    · exact Or.inl (h1 ▸ h2)
    · exact Or.inr ⟨h1.trans h2, Or.inl (h1' ▸ h2')⟩
    · exact Or.inr ⟨h1.trans h2, Or.inr ⟨h1'.trans h2', Or.inl (h1''.trans h2'')⟩⟩
    · exact Or.inr ⟨h1.trans h2, Or.inr ⟨h1'.trans h2', Or.inl (h2'' ▸ h1'')⟩⟩
    · exact Or.inl (h1 ▸ h2)
    · exact Or.inr ⟨h1.trans h2, Or.inl (h1' ▸ h2')⟩
    · exact Or.inr ⟨h1.trans h2, Or.inr ⟨h1'.trans h2', Or.inl (h1'' ▸ h2'')⟩⟩
    · exact Or.inr ⟨h1.trans h2, Or.inr ⟨h1'.trans h2', Or.inr ⟨h1''.trans h2'', h1'''.trans h2'''⟩⟩⟩
  · simp only [key, Color.ext_iff]
    rcases lt_trichotomy x.r y.r with h1 | h1 | h1
    · exact Or.inl (Or.inl h1)
    · rcases lt_trichotomy x.g y.g with h2 | h2 | h2
      · exact Or.inl (Or.inr ⟨h1, Or.inl h2⟩)
      · rcases lt_trichotomy x.b y.b with h3 | h3 | h3
        · exact Or.inl (Or.inr ⟨h1, Or.inr ⟨h2, Or.inl h3⟩⟩)
        · rcases lt_trichotomy x.a y.a with h4 | h4 | h4
          · exact Or.inl (Or.inr ⟨h1, Or.inr ⟨h2, Or.inr ⟨h3, h4⟩⟩⟩)
          · exact Or.inr (Or.inl ⟨h1, h2, h3, h4⟩)
          · exact Or.inr (Or.inr (Or.inr ⟨h1.symm, Or.inr ⟨h2.symm, Or.inr ⟨h3.symm, h4⟩⟩⟩))
        · exact Or.inr (Or.inr (Or.inr ⟨h1.symm, Or.inr ⟨h2.symm, Or.inl h3⟩⟩))
      · exact Or.inr (Or.inr (Or.inr ⟨h1.symm, Or.inl h2⟩))
    · exact Or.inr (Or.inr (Or.inl h1))
  · intro h
    by_contra h'
    have h' : lt y x = true := by simpa using h'
    rw [key] at h h'
    rcases h with h1 | ⟨h1, h1' | ⟨h1', h1'' | ⟨h1'', h1'''⟩⟩⟩ <;>
      rcases h' with h2 | ⟨h2, h2' | ⟨h2', h2'' | ⟨h2'', h2'''⟩⟩⟩ <;> linarith

/-! ## Hue, saturation and value -/

theorem weight_of (x k : K) (j : ℤ) (hx : x = 6 * j + k) (h0 : 0 ≤ k) (h6 : k < 6) :
    Spec.weight x = max 0 (min (min k (4 - k)) 1) := by
  have : ⌊x / 6⌋ = j := by
    rw [Int.floor_eq_iff, hx]
    constructor
    · rw [le_div_iff₀ (by norm_num)]; linarith
    · rw [div_lt_iff₀ (by norm_num)]; linarith
  unfold Spec.weight
  simp only [this]
  rw [show x - 6 * (j : K) = k by rw [hx]; ring]

theorem weight_rise (x k : K) (j : ℤ) (hx : x = 6 * j + k) (h0 : 0 ≤ k) (h1 : k ≤ 1) : Spec.weight x = k := by
  rw [weight_of x k j hx h0 (by linarith), min_eq_left (b := 4 - k) (by linarith), min_eq_left h1, max_eq_right h0]

theorem weight_high (x k : K) (j : ℤ) (hx : x = 6 * j + k) (h0 : 1 ≤ k) (h1 : k ≤ 3) : Spec.weight x = 1 := by
  rw [weight_of x k j hx (by linarith) (by linarith), min_eq_right (le_min h0 (by linarith)), max_eq_right zero_le_one]

theorem weight_fall (x k : K) (j : ℤ) (hx : x = 6 * j + k) (h0 : 3 ≤ k) (h1 : k ≤ 4) : Spec.weight x = 4 - k := by
  rw [weight_of x k j hx (by linarith) (by linarith), min_eq_right (b := 4 - k) (by linarith),
    min_eq_left (by linarith), max_eq_right (by linarith)]

theorem weight_zero (x k : K) (j : ℤ) (hx : x = 6 * j + k) (h0 : 4 ≤ k) (h1 : k < 6) : Spec.weight x = 0 := by
  rw [weight_of x k j hx (by linarith) h1, min_eq_right (b := 4 - k) (by linarith),
    min_eq_left (by linarith), max_eq_left (by linarith)]

theorem hsvSector_eq (h s v : K) (h0 : 0 ≤ h) (h6 : h < 6) :
    hsvSector h s v = ⟨v - v * s * Spec.weight (5 + h), v - v * s * Spec.weight (3 + h),
      v - v * s * Spec.weight (1 + h), 1⟩ := by
  obtain ⟨n, hn⟩ : ∃ n : ℤ, ⌊h⌋ = n := ⟨_, rfl⟩
  obtain ⟨a1, a2⟩ := Int.floor_eq_iff.1 hn
  have hn0 : 0 ≤ n := hn ▸ Int.floor_nonneg.2 h0
  have hn6 : n < 6 := hn ▸ Int.floor_lt.2 (by exact_mod_cast h6)
  unfold hsvSector
  simp only [hn, ofFloat]
  interval_cases n <;> push_cast at a1 a2 ⊢
  · rw [if_pos ⟨by linarith, by linarith⟩, weight_zero (5 + h) (5 + h) 0 (by push_cast; ring) (by linarith) (by linarith),
      weight_fall (3 + h) (3 + h) 0 (by push_cast; ring) (by linarith) (by linarith),
      weight_high (1 + h) (1 + h) 0 (by push_cast; ring) (by linarith) (by linarith)]
    ext <;> simp only <;> ring
  · rw [if_neg (by rintro ⟨_, _⟩; linarith), if_pos ⟨by linarith, by linarith⟩,
      weight_rise (5 + h) (h - 1) 1 (by push_cast; ring) (by linarith) (by linarith),
      weight_zero (3 + h) (3 + h) 0 (by push_cast; ring) (by linarith) (by linarith),
      weight_high (1 + h) (1 + h) 0 (by push_cast; ring) (by linarith) (by linarith)]
    ext <;> simp only <;> ring
  · rw [if_neg (by rintro ⟨_, _⟩; linarith), if_neg (by rintro ⟨_, _⟩; linarith), if_pos ⟨by linarith, by linarith⟩,
      weight_high (5 + h) (h - 1) 1 (by push_cast; ring) (by linarith) (by linarith),
      weight_zero (3 + h) (3 + h) 0 (by push_cast; ring) (by linarith) (by linarith),
      weight_fall (1 + h) (1 + h) 0 (by push_cast; ring) (by linarith) (by linarith)]
    ext <;> simp only <;> ring
  · rw [if_neg (by rintro ⟨_, _⟩; linarith), if_neg (by rintro ⟨_, _⟩; linarith), if_neg (by rintro ⟨_, _⟩; linarith),
      if_pos ⟨by linarith, by linarith⟩,
      weight_high (5 + h) (h - 1) 1 (by push_cast; ring) (by linarith) (by linarith),
      weight_rise (3 + h) (h - 3) 1 (by push_cast; ring) (by linarith) (by linarith),
      weight_zero (1 + h) (1 + h) 0 (by push_cast; ring) (by linarith) (by linarith)]
    ext <;> simp only <;> ring
  · rw [if_neg (by rintro ⟨_, _⟩; linarith), if_neg (by rintro ⟨_, _⟩; linarith), if_neg (by rintro ⟨_, _⟩; linarith),
      if_neg (by rintro ⟨_, _⟩; linarith), if_pos ⟨by linarith, by linarith⟩,
      weight_fall (5 + h) (h - 1) 1 (by push_cast; ring) (by linarith) (by linarith),
      weight_high (3 + h) (h - 3) 1 (by push_cast; ring) (by linarith) (by linarith),
      weight_zero (1 + h) (1 + h) 0 (by push_cast; ring) (by linarith) (by linarith)]
    ext <;> simp only <;> ring
  · rw [if_neg (by rintro ⟨_, _⟩; linarith), if_neg (by rintro ⟨_, _⟩; linarith), if_neg (by rintro ⟨_, _⟩; linarith),
      if_neg (by rintro ⟨_, _⟩; linarith), if_neg (by rintro ⟨_, _⟩; linarith), if_pos ⟨by linarith, by linarith⟩,
      weight_zero (5 + h) (h - 1) 1 (by push_cast; ring) (by linarith) (by linarith),
      weight_high (3 + h) (h - 3) 1 (by push_cast; ring) (by linarith) (by linarith),
      weight_rise (1 + h) (h - 5) 1 (by push_cast; ring) (by linarith) (by linarith)]
    ext <;> simp only <;> ring

theorem weight_periodic (x : K) (n : ℤ) : Spec.weight (x + 6 * n) = Spec.weight x := by
  unfold Spec.weight
  have : ⌊(x + 6 * n) / 6⌋ = ⌊x / 6⌋ + n := by
    rw [show (x + 6 * n) / 6 = x / 6 + n by field_simp, Int.floor_add_intCast]
  simp only [this]
  push_cast
  rw [show x + 6 * (n : K) - 6 * ((⌊x / 6⌋ : K) + n) = x - 6 * (⌊x / 6⌋ : K) by ring]

/-- **C65, partial.** For every hue that is not negative, `color_from_hsv` gives the opaque colour with the components
of the usual definition. Missing: negative hues. -/
theorem C65_hsv_partial (H S V : K) (hH : 0 ≤ H) :
    ((fromHsv H S V).r, (fromHsv H S V).g, (fromHsv H S V).b) = Spec.hsv H S V ∧ (fromHsv H S V).a = 1 := by
  obtain ⟨m, h1, h2, h3, n, h4⟩ := fmod_nonneg hH (show (0 : K) < 360 by norm_num)
  have e : fromHsv H S V = hsvSector (m / 60) S V := by simp [fromHsv, h1]
  have hd : H / 60 = m / 60 + 6 * n := by rw [h4]; field_simp; ring
  rw [e, hsvSector_eq _ _ _ (by positivity) (by rw [div_lt_iff₀ (by norm_num)]; linarith)]
  refine ⟨?_, rfl⟩
  unfold Spec.hsv
  rw [hd, ← add_assoc, ← add_assoc, ← add_assoc, weight_periodic, weight_periodic, weight_periodic]

/-- **C65, partial.** The colour depends on the hue only up to full turns, for hues that are not negative. -/
theorem C65_hsv_periodic_partial (H S V : K) (n : ℕ) (hH : 0 ≤ H) : fromHsv (H + 360 * n) S V = fromHsv H S V := by
  have hn : (0 : K) ≤ 360 * n := by positivity
  obtain ⟨a1, a2⟩ := C65_hsv_partial H S V hH
  obtain ⟨b1, b2⟩ := C65_hsv_partial (H + 360 * n) S V (by linarith)
  have hd : (H + 360 * n) / 60 = H / 60 + 6 * ((n : ℤ) : K) := by push_cast; field_simp; ring
  have e : Spec.hsv (H + 360 * n) S V = Spec.hsv H S V := by
    unfold Spec.hsv
    rw [hd, ← add_assoc, ← add_assoc, ← add_assoc, weight_periodic, weight_periodic, weight_periodic]
  have := b1.trans (e.trans a1.symm)
  simp only [Prod.mk.injEq] at this
  ext
  · exact this.1
  · exact this.2.1
  · exact this.2.2
  · rw [a2, b2]

/-- A negative hue that is not a full turn gives black with alpha 0, so hues are not periodic below 0. -/
theorem C65_hsv_violated (H S V : K) (h1 : -360 < H) (h2 : H < 0) : fromHsv H S V = ⟨0, 0, 0, 0⟩ := by
  have hf : fmod H 360 = some H := by
    unfold fmod
    rw [if_neg (by norm_num)]
    have : trunc (H / 360) = 0 := by
      unfold trunc
      have hlt : H / 360 < 0 := div_neg_of_neg_of_pos h2 (by norm_num)
      rw [if_neg (not_le.2 hlt), Int.ceil_eq_zero_iff]
      constructor
      · rw [lt_div_iff₀ (by norm_num)]; linarith
      · exact hlt.le
    rw [this]; simp
  have hlt : H / 60 < 0 := div_neg_of_neg_of_pos h2 (by norm_num)
  unfold fromHsv
  rw [hf]
  simp only [hsvSector]
  rw [if_neg (by rintro ⟨_, _⟩; linarith), if_neg (by rintro ⟨_, _⟩; linarith), if_neg (by rintro ⟨_, _⟩; linarith),
    if_neg (by rintro ⟨_, _⟩; linarith), if_neg (by rintro ⟨_, _⟩; linarith), if_neg (by rintro ⟨_, _⟩; linarith)]
  rfl

/-- So a hue of −60 degrees is not the one of 300 degrees. -/
theorem C65_hsv_periodic_violated : fromHsv (-60 + 360 : ℚ) 1 1 ≠ fromHsv (-60 : ℚ) 1 1 := by
  rw [C65_hsv_violated (-60 : ℚ) 1 1 (by norm_num) (by norm_num)]
  have h := (C65_hsv_partial (-60 + 360 : ℚ) 1 1 (by norm_num)).2
  intro e
  rw [e] at h
  norm_num at h

theorem fromHsv_lt (H S V : K) (h0 : 0 ≤ H) (h1 : H < 360) : fromHsv H S V = hsvSector (H / 60) S V := by
  have hf : fmod H 360 = some H := by
    unfold fmod
    rw [if_neg (by norm_num)]
    have : trunc (H / 360) = 0 := by
      unfold trunc
      rw [if_pos (by positivity), Int.floor_eq_zero_iff]
      exact ⟨by positivity, by rw [div_lt_one (by norm_num)]; exact h1⟩
    rw [this]; simp
  simp [fromHsv, hf]

/-- **C65.** The named colours are those at the documented hues: red 0, orange 30, yellow 60, green 120, cyan 180,
blue 240, magenta 300 degrees; without saturation every hue is white. -/
theorem C65_named (br sat : K) :
    fromHsv 0 sat br = red br sat ∧ fromHsv 30 sat br = orange br sat ∧ fromHsv 60 sat br = yellow br sat ∧
    fromHsv 120 sat br = green br sat ∧ fromHsv 180 sat br = cyan br sat ∧ fromHsv 240 sat br = blue br sat ∧
    fromHsv 300 sat br = magenta br sat ∧ (∀ H, 0 ≤ H → fromHsv H 0 br = white br) := by
  have two : ∀ n : ℕ, ⌊((n : ℕ) : K)⌋ = n := fun n => Int.floor_natCast n
  have f0 : ⌊(0 : K)⌋ = 0 := Int.floor_zero
  have f1 : ⌊(1 : K)⌋ = 1 := Int.floor_one
  have f2 : ⌊(2 : K)⌋ = 2 := by simpa using two 2
  have f3 : ⌊(3 : K)⌋ = 3 := by simpa using two 3
  have f4 : ⌊(4 : K)⌋ = 4 := by simpa using two 4
  have f5 : ⌊(5 : K)⌋ = 5 := by simpa using two 5
  have fh : ⌊(1 / 2 : K)⌋ = 0 := by rw [Int.floor_eq_zero_iff]; constructor <;> norm_num
  refine ⟨?_, ?_, ?_, ?_, ?_, ?_, ?_, ?_⟩
  · rw [fromHsv_lt _ _ _ (by norm_num) (by norm_num), show (0 : K) / 60 = 0 by norm_num]
    simp only [hsvSector, f0, red, ofFloat]; norm_num
  · rw [fromHsv_lt _ _ _ (by norm_num) (by norm_num), show (30 : K) / 60 = 1 / 2 by norm_num]
    simp only [hsvSector, fh, orange, ofFloat]; norm_num; ring
  · rw [fromHsv_lt _ _ _ (by norm_num) (by norm_num), show (60 : K) / 60 = 1 by norm_num]
    simp only [hsvSector, f1, yellow, ofFloat]; norm_num
  · rw [fromHsv_lt _ _ _ (by norm_num) (by norm_num), show (120 : K) / 60 = 2 by norm_num]
    simp only [hsvSector, f2, green, ofFloat]; norm_num
  · rw [fromHsv_lt _ _ _ (by norm_num) (by norm_num), show (180 : K) / 60 = 3 by norm_num]
    simp only [hsvSector, f3, cyan, ofFloat]; norm_num
  · rw [fromHsv_lt _ _ _ (by norm_num) (by norm_num), show (240 : K) / 60 = 4 by norm_num]
    simp only [hsvSector, f4, blue, ofFloat]; norm_num
  · rw [fromHsv_lt _ _ _ (by norm_num) (by norm_num), show (300 : K) / 60 = 5 by norm_num]
    simp only [hsvSector, f5, magenta, ofFloat]; norm_num
  · intro H hH
    obtain ⟨h1, h2⟩ := C65_hsv_partial H 0 br hH
    unfold Spec.hsv at h1
    simp only [mul_zero, zero_mul, sub_zero, Prod.mk.injEq] at h1
    ext
    · exact h1.1
    · exact h1.2.1
    · exact h1.2.2
    · exact h2

/-- On the circle, at every hue one component has weight 0, one has weight 1, and all weights are in `[0, 1]`. -/
theorem weights (h : K) :
    (Spec.weight (5 + h) = 0 ∨ Spec.weight (3 + h) = 0 ∨ Spec.weight (1 + h) = 0) ∧
    (Spec.weight (5 + h) = 1 ∨ Spec.weight (3 + h) = 1 ∨ Spec.weight (1 + h) = 1) ∧
    (∀ x : K, 0 ≤ Spec.weight x ∧ Spec.weight x ≤ 1) := by
  have red : ∃ g : K, 0 ≤ g ∧ g < 6 ∧ ∀ c : K, Spec.weight (c + h) = Spec.weight (c + g) := by
    refine ⟨h - 6 * ⌊h / 6⌋, ?_, ?_, fun c => ?_⟩
    · have := Int.floor_le (h / 6); rw [le_div_iff₀ (by norm_num)] at this; linarith
    · have := Int.lt_floor_add_one (h / 6); rw [div_lt_iff₀ (by norm_num)] at this; linarith
    · rw [← weight_periodic (c + (h - 6 * ⌊h / 6⌋)) ⌊h / 6⌋]; congr 1; ring
  obtain ⟨g, g0, g6, e⟩ := red
  refine ⟨?_, ?_, fun x => ?_⟩
  · rw [e, e, e]
    rcases lt_or_ge g 1 with h1 | h1
    · left; exact weight_zero _ (5 + g) 0 (by push_cast; ring) (by linarith) (by linarith)
    rcases lt_or_ge g 3 with h3 | h3
    · right; left; exact weight_zero _ (3 + g) 0 (by push_cast; ring) (by linarith) (by linarith)
    rcases lt_or_ge g 5 with h5 | h5
    · right; right; exact weight_zero _ (1 + g) 0 (by push_cast; ring) (by linarith) (by linarith)
    · left; exact weight_zero _ (g - 1) 1 (by push_cast; ring) (by linarith) (by linarith)
  · rw [e, e, e]
    rcases le_or_gt g 2 with h2 | h2
    · right; right; exact weight_high _ (1 + g) 0 (by push_cast; ring) (by linarith) (by linarith)
    rcases le_or_gt g 4 with h4 | h4
    · left; exact weight_high _ (g - 1) 1 (by push_cast; ring) (by linarith) (by linarith)
    · right; left; exact weight_high _ (g - 3) 1 (by push_cast; ring) (by linarith) (by linarith)
  · unfold Spec.weight
    exact ⟨le_max_left _ _, max_le zero_le_one (min_le_right _ _)⟩

/-- **C65.** What saturation and value mean: for hues that are not negative, saturation in `[0, 1]` and value at least 0,
the largest component is the value and the smallest is `V (1 − S)`; all components are between them. -/
theorem C65_value_saturation (H S V : K) (hH : 0 ≤ H) (hS0 : 0 ≤ S) (hV : 0 ≤ V) :
    max (fromHsv H S V).r (max (fromHsv H S V).g (fromHsv H S V).b) = V ∧
    min (fromHsv H S V).r (min (fromHsv H S V).g (fromHsv H S V).b) = V * (1 - S) := by
  obtain ⟨e, _⟩ := C65_hsv_partial H S V hH
  unfold Spec.hsv at e
  simp only [Prod.mk.injEq] at e
  obtain ⟨e1, e2, e3⟩ := e
  rw [e1, e2, e3]
  obtain ⟨w1, w2, w3⟩ := weights (H / 60)
  have hp : 0 ≤ V * S := mul_nonneg hV hS0
  have b : ∀ x : K, 0 ≤ V * S * Spec.weight x ∧ V * S * Spec.weight x ≤ V * S := fun x =>
    ⟨mul_nonneg hp (w3 x).1, mul_le_of_le_one_right hp (w3 x).2⟩
  have b5 := b (5 + H / 60)
  have b3 := b (3 + H / 60)
  have b1 := b (1 + H / 60)
  constructor
  · apply le_antisymm
    · refine max_le (by linarith) (max_le (by linarith) (by linarith))
    · rcases w1 with w | w | w <;> rw [w]
      · exact le_max_of_le_left (by linarith)
      · exact le_max_of_le_right (le_max_of_le_left (by linarith))
      · exact le_max_of_le_right (le_max_of_le_right (by linarith))
  · apply le_antisymm
    · rcases w2 with w | w | w <;> rw [w]
      · exact min_le_of_left_le (by linarith)
      · exact min_le_of_right_le (min_le_of_left_le (by linarith))
      · exact min_le_of_right_le (min_le_of_right_le (by linarith))
    · refine le_min (by linarith) (le_min (by linarith) (by linarith))

/-- **C65.** `clamp` brings all components between the bounds and leaves those that are there. -/
theorem C65_clamp (c : Color K) (l u : K) (h : l ≤ u) :
    (∀ v ∈ [(clampColor c l u).r, (clampColor c l u).g, (clampColor c l u).b, (clampColor c l u).a], l ≤ v ∧ v ≤ u) ∧
    ((∀ v ∈ [c.r, c.g, c.b, c.a], l ≤ v ∧ v ≤ u) → clampColor c l u = c) := by
  have k1 : ∀ v : K, l ≤ clamp v l u ∧ clamp v l u ≤ u := by
    intro v; unfold clamp; split_ifs <;> constructor <;> linarith
  have k2 : ∀ v : K, l ≤ v ∧ v ≤ u → clamp v l u = v := by
    rintro v ⟨h1, h2⟩; unfold clamp; rw [if_neg (not_lt.2 h1), if_neg (not_lt.2 h2)]
  constructor
  · intro v hv
    simp only [clampColor, List.mem_cons, List.not_mem_nil, or_false] at hv
    rcases hv with rfl | rfl | rfl | rfl <;> exact k1 _
  · intro hc
    ext
    · exact k2 _ (hc _ (by simp))
    · exact k2 _ (hc _ (by simp))
    · exact k2 _ (hc _ (by simp))
    · exact k2 _ (hc _ (by simp))

end

end Col
end Xo
