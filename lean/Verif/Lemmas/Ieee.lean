import Verif.Model.Ieee
import Verif.Spec.Ieee
import Verif.Lemmas.NumFmt

/-! Lemmas about IEEE arithmetic: rounding keeps the order, numbers of the format are kept. -/
namespace Xo
namespace Num
open Xo.Spec

theorem rhe_mono {x y : Rat} (h : x ≤ y) : rhe x ≤ rhe y := by
  have hf := Int.floor_mono h
  have up : ∀ z : Rat, rhe z ≤ ⌊z⌋ + 1 := fun z => by unfold rhe; split_ifs <;> omega
  have lo : ∀ z : Rat, ⌊z⌋ ≤ rhe z := fun z => by unfold rhe; split_ifs <;> omega
  rcases eq_or_lt_of_le hf with he | hl
  · unfold rhe
    rw [he]
    split_ifs <;> first | omega | (exfalso; linarith)
  · have := up x; have := lo y; omega

theorem ulpExp_mono {f : Fmt} {x y : Rat} (hx : 0 < x) (h : x ≤ y) : ulpExp f x ≤ ulpExp f y := by
  have : Int.log 2 x ≤ Int.log 2 y := Int.log_mono_right hx h
  unfold ulpExp; omega

/-- Rounding keeps the order. -/
theorem rndVal_mono {f : Fmt} (hf : f.Ok) {x y : Rat} (hx : 0 < x) (h : x ≤ y) : rndVal f x ≤ rndVal f y := by
  have hp := hf.prec
  have hy : 0 < y := lt_of_lt_of_le hx h
  rcases eq_or_lt_of_le (ulpExp_mono (f := f) hx h) with he | hl
  · unfold rndVal
    rw [he]
    have hu := two_pos' (ulpExp f y)
    exact mul_le_mul_of_nonneg_right (by exact_mod_cast rhe_mono (div_le_div_of_nonneg_right h hu.le)) hu.le
  · have e : ulpExp f y = Int.log 2 y - ((f.prec : Int) - 1) := by unfold ulpExp at hl ⊢; omega
    have h1 : Int.log 2 x + 1 ≤ Int.log 2 y := by unfold ulpExp at hl; omega
    have hmin : f.emin ≤ ulpExp f x := by unfold ulpExp; omega
    have h2 : x ≤ 2 ^ (Int.log 2 y) := (lt_log2 x).le.trans (two_mono h1)
    have h3 := rnd_val_le_pow (f := f) hx (k := Int.log 2 y) (by omega) (by omega) h2
    have h4 := pow_le_rnd_val (f := f) hy (k := Int.log 2 y) (by omega) (by omega) (log2_le y hy) (by omega)
    exact h3.trans h4

theorem rnd_eq (f : Fmt) (x : Rat) : rnd f x = if 2 ^ f.emax ≤ rndVal f x then none else some (rndVal f x) := rfl

theorem rndVal_nonneg {f : Fmt} {x : Rat} (hx : 0 < x) : 0 ≤ rndVal f x := by
  have hu := two_pos' (ulpExp f x)
  have h0 : 0 ≤ rhe (x / 2 ^ ulpExp f x) := le_rhe (by push_cast; positivity)
  unfold rndVal
  exact mul_nonneg (by exact_mod_cast h0) hu.le

theorem rndVal_exact {f : Fmt} (hf : f.Ok) {x : Rat} (hx : 0 < x) (h : Binary f.prec f.emin f.emax x) :
    rndVal f x = x ∧ x < 2 ^ f.emax := by
  have := rnd_some (rnd_exact hf hx h)
  exact ⟨this.1.symm, this.2⟩

theorem binary_nonneg {p : Nat} {a b : Int} {x : Rat} (h : Binary p a b x) : 0 ≤ x := by
  obtain ⟨m, e, _, _, _, rfl⟩ := h
  have := two_pos' e
  positivity

theorem binary_zero {f : Fmt} (hf : f.Ok) : Binary f.prec f.emin f.emax 0 :=
  ⟨0, f.emin, by positivity, le_refl _, by have := hf.range; omega, by norm_num⟩

end Num

namespace Ieee
open Num Spec Xo.Spec

variable {f : Fmt}

theorem num_fin (s : Bool) (m : Rat) : num (.fin s m) = ((val (.fin s m) : Rat) : WithTop Rat) := rfl

theorem num_zero : num (ofNat 0) = (((0 : Rat) : WithTop Rat) : WithBot (WithTop Rat)) := by simp [num, ofNat]

theorem num_neg {a : Fl} (s : Bool) (m : Rat) : val (neg (.fin s m)) = -val (.fin s m) := by cases s <;> simp [val, neg]

theorem lt_iff {a b : Fl} (ha : ¬ IsNan a) (hb : ¬ IsNan b) : lt a b = true ↔ num a < num b := by
  rcases a with s | s | ⟨s, x⟩
  · exact absurd trivial ha
  · rcases b with t | t | ⟨t, y⟩
    · exact absurd trivial hb
    · cases s <;> cases t <;> simp [lt, num]
    · cases s <;> simp [lt, num]
  · rcases b with t | t | ⟨t, y⟩
    · exact absurd trivial hb
    · cases t
      · simp only [lt, num, Bool.not_false, true_iff]
        exact WithBot.coe_lt_coe.2 (WithTop.coe_lt_top _)
      · simp [lt, num]
    · simp only [lt, num_fin, decide_eq_true_eq, WithBot.coe_lt_coe, WithTop.coe_lt_coe]

theorem eq_iff {a b : Fl} (ha : ¬ IsNan a) (hb : ¬ IsNan b) : eq a b = true ↔ num a = num b := by
  rcases a with s | s | ⟨s, x⟩
  · exact absurd trivial ha
  · rcases b with t | t | ⟨t, y⟩
    · exact absurd trivial hb
    · cases s <;> cases t <;> simp [eq, num]
    · cases s <;> simp [eq, num]
  · rcases b with t | t | ⟨t, y⟩
    · exact absurd trivial hb
    · cases t <;> simp [eq, num]
    · simp only [eq, num_fin, decide_eq_true_eq, WithBot.coe_inj, WithTop.coe_inj]

theorem le_iff {a b : Fl} (ha : ¬ IsNan a) (hb : ¬ IsNan b) : le a b = true ↔ num a ≤ num b := by
  unfold le
  rw [Bool.or_eq_true, lt_iff ha hb, eq_iff ha hb, le_iff_lt_or_eq]

theorem lt_false {a b : Fl} (ha : ¬ IsNan a) (hb : ¬ IsNan b) : lt a b = false ↔ num b ≤ num a := by
  rw [← Bool.not_eq_true, lt_iff ha hb, not_lt]

theorem lt_nan_left {a b : Fl} (h : IsNan a) : lt a b = false := by
  cases a <;> first | rfl | exact absurd h id

theorem lt_nan_right {a b : Fl} (h : IsNan b) : lt a b = false := by
  cases b <;> first | (cases a <;> rfl) | exact absurd h id

theorem eq_nan_left {a b : Fl} (h : IsNan a) : eq a b = false := by
  cases a <;> first | rfl | exact absurd h id

theorem eq_nan_right {a b : Fl} (h : IsNan b) : eq a b = false := by
  cases b <;> first | (cases a <;> rfl) | exact absurd h id

theorem le_nan_left {a b : Fl} (h : IsNan a) : le a b = false := by
  unfold le; rw [lt_nan_left h, eq_nan_left h]; rfl

theorem le_nan_right {a b : Fl} (h : IsNan b) : le a b = false := by
  unfold le; rw [lt_nan_right h, eq_nan_right h]; rfl

/-! ## Rounding -/

/-- A number rounded, as a number. -/
def R (f : Fmt) (x : Rat) : WithBot (WithTop Rat) := num (ofRat f false x)

theorem num_ofRat (z : Bool) (x : Rat) : num (ofRat f z x) = R f x := by
  unfold R ofRat
  split
  · cases z <;> simp [num]
  · rfl

theorem ofRat_not_nan (z : Bool) (x : Rat) : ¬ IsNan (ofRat f z x) := by
  unfold ofRat
  split
  · exact id
  · unfold roundFl
    split <;> exact id

theorem R_zero : R f 0 = ((0 : Rat) : WithTop Rat) := by simp [R, ofRat, num]

theorem R_pos {x : Rat} (hx : 0 < x) :
    R f x = if 2 ^ f.emax ≤ rndVal f x then ((⊤ : WithTop Rat) : WithBot (WithTop Rat)) else ((rndVal f x : Rat) : WithTop Rat) := by
  unfold R ofRat
  rw [if_neg hx.ne', abs_of_pos hx, decide_eq_false (not_lt.2 hx.le)]
  unfold roundFl
  rw [rnd_eq]
  split <;> rename_i h
  · split at h
    · cases h
    · rename_i h'
      rw [if_neg h']
      cases h; simp [num]
  · split at h
    · rename_i h'; rw [if_pos h']; rfl
    · cases h

theorem R_neg {x : Rat} (hx : x < 0) :
    R f x = if 2 ^ f.emax ≤ rndVal f (-x) then (⊥ : WithBot (WithTop Rat)) else ((-rndVal f (-x) : Rat) : WithTop Rat) := by
  unfold R ofRat
  rw [if_neg hx.ne, abs_of_neg hx, decide_eq_true hx]
  unfold roundFl
  rw [rnd_eq]
  split <;> rename_i h
  · split at h
    · cases h
    · rename_i h'
      rw [if_neg h']
      cases h; simp [num]
  · split at h
    · rename_i h'; rw [if_pos h']; rfl
    · cases h

theorem R_nonneg {x : Rat} (hx : 0 ≤ x) : (((0 : Rat) : WithTop Rat) : WithBot (WithTop Rat)) ≤ R f x := by
  rcases eq_or_lt_of_le hx with rfl | h
  · rw [R_zero]
  · rw [R_pos h]
    split
    · exact WithBot.coe_le_coe.2 le_top
    · exact WithBot.coe_le_coe.2 (WithTop.coe_le_coe.2 (rndVal_nonneg h))

theorem R_nonpos {x : Rat} (hx : x ≤ 0) : R f x ≤ (((0 : Rat) : WithTop Rat) : WithBot (WithTop Rat)) := by
  rcases eq_or_lt_of_le hx with rfl | h
  · rw [R_zero]
  · rw [R_neg h]
    split
    · exact bot_le
    · exact WithBot.coe_le_coe.2 (WithTop.coe_le_coe.2 (by have := rndVal_nonneg (f := f) (neg_pos.2 h); linarith))

/-- Rounding keeps the order. -/
theorem R_mono (hf : f.Ok) {x y : Rat} (h : x ≤ y) : R f x ≤ R f y := by
  rcases lt_or_ge 0 x with hx | hx
  · have hm := rndVal_mono hf hx h
    rw [R_pos hx, R_pos (lt_of_lt_of_le hx h)]
    split
    · rw [if_pos (by linarith)]
    · split
      · exact WithBot.coe_le_coe.2 le_top
      · exact WithBot.coe_le_coe.2 (WithTop.coe_le_coe.2 hm)
  · rcases lt_or_ge y 0 with hy | hy
    · have hm := rndVal_mono hf (neg_pos.2 hy) (neg_le_neg h)
      rw [R_neg hy, R_neg (lt_of_le_of_lt h hy)]
      split
      · exact bot_le
      · rw [if_neg (by linarith)]
        exact WithBot.coe_le_coe.2 (WithTop.coe_le_coe.2 (by linarith))
    · exact (R_nonpos hx).trans (R_nonneg hy)

/-- A value of the type is kept. -/
theorem R_exact (hf : f.Ok) {x : Rat} (h : Binary f.prec f.emin f.emax |x|) : R f x = ((x : Rat) : WithTop Rat) := by
  rcases lt_trichotomy x 0 with hx | rfl | hx
  · rw [abs_of_neg hx] at h
    obtain ⟨h1, h2⟩ := rndVal_exact hf (neg_pos.2 hx) h
    rw [R_neg hx, h1, if_neg (not_le.2 h2), neg_neg]
  · exact R_zero
  · rw [abs_of_pos hx] at h
    obtain ⟨h1, h2⟩ := rndVal_exact hf hx h
    rw [R_pos hx, h1, if_neg (not_le.2 h2)]

theorem abs_val {s : Bool} {m : Rat} (h : OfType f (.fin s m)) : |val (.fin s m)| = m := by
  have := binary_nonneg h
  cases s
  · simp [val, abs_of_nonneg this]
  · simp [val, abs_of_nonneg this]

theorem R_val (hf : f.Ok) {s : Bool} {m : Rat} (h : OfType f (.fin s m)) : R f (val (.fin s m)) = num (.fin s m) := by
  rw [num_fin]
  exact R_exact hf (by rw [abs_val h]; exact h)

theorem ofRat_ofType (hf : f.Ok) (z : Bool) (x : Rat) : OfType f (ofRat f z x) := by
  unfold ofRat
  split
  · exact binary_zero hf
  · rename_i h
    unfold roundFl
    split
    · rename_i r hr
      exact rnd_binary hf (abs_pos.2 h) hr
    · trivial

/-- Symmetry. -/
theorem ofRat_neg (z : Bool) (x : Rat) : ofRat f (!z) (-x) = neg (ofRat f z x) := by
  unfold ofRat
  by_cases h : x = 0
  · simp [h, neg]
  · rw [if_neg h, if_neg (neg_ne_zero.2 h), abs_neg]
    have : decide (-x < 0) = !decide (x < 0) := by
      rcases lt_or_gt_of_ne h with h' | h'
      · rw [decide_eq_false (by linarith), decide_eq_true h']; rfl
      · rw [decide_eq_true (by linarith), decide_eq_false (by linarith)]; rfl
    rw [this]
    unfold roundFl
    split <;> rfl

theorem neg_ofType {a : Fl} (h : OfType f a) : OfType f (neg a) := by cases a <;> exact h

theorem add_ofType (hf : f.Ok) (a b : Fl) : OfType f (add f a b) := by
  rcases a with s | s | ⟨s, x⟩ <;> rcases b with t | t | ⟨t, y⟩ <;> simp only [add] <;>
    first | exact ofRat_ofType hf _ _ | (split <;> trivial) | trivial

theorem mul_ofType (hf : f.Ok) (a b : Fl) : OfType f (mul f a b) := by
  rcases a with s | s | ⟨s, x⟩ <;> rcases b with t | t | ⟨t, y⟩ <;> simp only [mul] <;>
    first | exact ofRat_ofType hf _ _ | (split <;> trivial) | trivial

theorem div_ofType (hf : f.Ok) (a b : Fl) : OfType f (div f a b) := by
  rcases a with s | s | ⟨s, x⟩ <;> rcases b with t | t | ⟨t, y⟩ <;> simp only [div] <;>
    first | exact binary_zero hf | (split_ifs <;> first | exact ofRat_ofType hf _ _ | trivial) | trivial

theorem num_add (s t : Bool) (x y : Rat) : num (add f (.fin s x) (.fin t y)) = R f (val (.fin s x) + val (.fin t y)) :=
  num_ofRat _ _

theorem num_sub (s t : Bool) (x y : Rat) : num (sub f (.fin s x) (.fin t y)) = R f (val (.fin s x) - val (.fin t y)) := by
  unfold sub
  rw [show neg (.fin t y) = .fin (!t) y from rfl, num_add, sub_eq_add_neg, ← num_neg (a := .fin t y)]
  rfl

theorem num_mul (s t : Bool) (x y : Rat) : num (mul f (.fin s x) (.fin t y)) = R f (val (.fin s x) * val (.fin t y)) :=
  num_ofRat _ _

theorem num_div (s t : Bool) (x y : Rat) (h : y ≠ 0) :
    num (div f (.fin s x) (.fin t y)) = R f (val (.fin s x) / val (.fin t y)) := by
  simp only [div]
  rw [if_neg h, num_ofRat]

theorem div_nat (s : Bool) (x : Rat) (n : Nat) (h : n ≠ 0) :
    div f (.fin s x) (ofNat n) = ofRat f (s != false) (val (.fin s x) / val (.fin false (n : Rat))) := by
  simp only [div, ofNat]
  rw [if_neg (by exact_mod_cast h)]

/-- A number that is finite. -/
theorem finite_of_num {a : Fl} {x : Rat} (h : num a = ((x : Rat) : WithTop Rat)) : ∃ s m, a = .fin s m ∧ val (.fin s m) = x := by
  rcases a with s | s | ⟨s, m⟩
  · simp [num] at h
  · cases s <;> simp [num] at h
  · exact ⟨s, m, rfl, WithTop.coe_inj.1 (WithBot.coe_inj.1 (by rw [← num_fin]; exact h))⟩

/-! ## Rounding without regard to the largest number -/

/-- A number rounded to the precision of the format, as if there were no largest number. -/
def rq (f : Fmt) (x : Rat) : Rat := if x = 0 then 0 else if x < 0 then -rndVal f (-x) else rndVal f x

theorem rq_zero : rq f 0 = 0 := if_pos rfl

theorem rq_neg (x : Rat) : rq f (-x) = -rq f x := by
  unfold rq
  rcases lt_trichotomy x 0 with h | h | h
  · rw [if_neg (by linarith), if_neg (by linarith), if_neg h.ne, if_pos h, neg_neg]
  · simp [h]
  · rw [if_neg (by linarith), if_pos (by linarith), if_neg h.ne', if_neg (by linarith), neg_neg]

theorem rq_pos {x : Rat} (h : 0 < x) : rq f x = rndVal f x := by unfold rq; rw [if_neg h.ne', if_neg (by linarith)]

theorem rq_nonneg {x : Rat} (h : 0 ≤ x) : 0 ≤ rq f x := by
  rcases eq_or_lt_of_le h with h | h
  · rw [← h, rq_zero]
  · rw [rq_pos h]; exact rndVal_nonneg h

theorem rq_mono (hf : f.Ok) {x y : Rat} (h : x ≤ y) : rq f x ≤ rq f y := by
  rcases lt_or_ge 0 x with hx | hx
  · rw [rq_pos hx, rq_pos (by linarith)]; exact rndVal_mono hf hx h
  · rcases lt_or_ge y 0 with hy | hy
    · have := rndVal_mono hf (neg_pos.2 hy) (neg_le_neg h)
      have e1 := rq_neg (f := f) x
      have e2 := rq_neg (f := f) y
      rw [rq_pos (by linarith)] at e1 e2
      linarith
    · have h1 := rq_nonneg (f := f) hy
      have h2 := rq_nonneg (f := f) (neg_nonneg.2 hx)
      rw [rq_neg] at h2
      linarith

/-- Numbers with few enough bits are kept. -/
theorem rndVal_mul {m : Nat} {e : Int} (hm : m < 2 ^ f.prec) (he : f.emin ≤ e) (h0 : 0 < m) :
    rndVal f (m * 2 ^ e) = m * 2 ^ e := by
  have hx : (0 : Rat) < m * 2 ^ e := mul_pos (by exact_mod_cast h0) (two_pos' e)
  have hu : ulpExp f (m * 2 ^ e) ≤ e := by
    have h1 := log2_le _ hx
    have h2 : (m : Rat) * 2 ^ e < 2 ^ ((f.prec : Int) + e) := by
      rw [zpow_add₀ (by norm_num), zpow_natCast]
      exact mul_lt_mul_of_pos_right (by exact_mod_cast hm) (two_pos' e)
    have h3 := two_lt_iff.1 (lt_of_le_of_lt h1 h2)
    unfold ulpExp; omega
  unfold rndVal
  set u := ulpExp f (m * 2 ^ e) with hu'
  have hup := two_pos' u
  have e1 : (m : Rat) * 2 ^ e / 2 ^ u = ((m * 2 ^ (e - u).toNat : Int) : Rat) := by
    rw [div_eq_iff hup.ne', two_split hu]
    push_cast
    ring
  rw [e1, rhe_eq (n := (m * 2 ^ (e - u).toNat : Int)) (by simp), ← e1]
  field_simp

/-- The same for a number with a sign. -/
theorem rq_mul {m : Int} {e : Int} (hm : |m| < 2 ^ f.prec) (he : f.emin ≤ e) : rq f (m * 2 ^ e) = m * 2 ^ e := by
  rcases lt_trichotomy m 0 with h | h | h
  · have e1 : (m : Rat) = -((m.natAbs : Nat) : Rat) := by
      have : m = -(m.natAbs : Int) := by omega
      exact_mod_cast congrArg (Int.cast (R := Rat)) this
    have hlt : m.natAbs < 2 ^ f.prec := by
      rw [Int.abs_eq_natAbs] at hm; exact_mod_cast hm
    rw [e1, neg_mul, rq_neg, rq_pos (mul_pos (by exact_mod_cast (by omega)) (two_pos' e)), rndVal_mul hlt he (by omega)]
  · rw [h]; simp [rq_zero]
  · have e1 : (m : Rat) = ((m.natAbs : Nat) : Rat) := by
      have : m = ((m.natAbs : Nat) : Int) := by omega
      rw [← Int.cast_natCast, ← this]
    have hlt : m.natAbs < 2 ^ f.prec := by
      rw [Int.abs_eq_natAbs] at hm; exact_mod_cast hm
    rw [e1, rq_pos (mul_pos (by exact_mod_cast (by omega)) (two_pos' e)), rndVal_mul hlt he (by omega)]

theorem val_mul {s : Bool} {x : Rat} (h : OfType f (.fin s x)) :
    ∃ m e : Int, |m| < 2 ^ f.prec ∧ f.emin ≤ e ∧ e ≤ f.emax - f.prec ∧ val (.fin s x) = m * 2 ^ e := by
  obtain ⟨m, e, hm, h1, h2, rfl⟩ := h
  cases s
  · exact ⟨m, e, by rw [Nat.abs_cast]; exact_mod_cast hm, h1, h2, by simp [val]⟩
  · exact ⟨-m, e, by rw [abs_neg, Nat.abs_cast]; exact_mod_cast hm, h1, h2, by simp [val]⟩

theorem rq_val {s : Bool} {x : Rat} (h : OfType f (.fin s x)) : rq f (val (.fin s x)) = val (.fin s x) := by
  obtain ⟨m, e, hm, h1, _, h2⟩ := val_mul h
  rw [h2, rq_mul hm h1]

theorem rq_two_val {s : Bool} {x : Rat} (h : OfType f (.fin s x)) : rq f (2 * val (.fin s x)) = 2 * val (.fin s x) := by
  obtain ⟨m, e, hm, h1, _, h2⟩ := val_mul h
  have : 2 * val (.fin s x) = m * 2 ^ (e + 1) := by rw [h2, zpow_add₀ (by norm_num), zpow_one]; ring
  rw [this, rq_mul hm (by omega)]

/-- The result of an operation: infinite, or the rounded number. -/
theorem ofRat_cases (z : Bool) (x : Rat) :
    (2 ^ f.emax ≤ rq f x ∧ ofRat f z x = .inf false) ∨ (rq f x ≤ -2 ^ f.emax ∧ ofRat f z x = .inf true) ∨
    (|rq f x| < 2 ^ f.emax ∧ ∃ s m, ofRat f z x = .fin s m ∧ val (.fin s m) = rq f x) := by
  have hp := two_pos' f.emax
  rcases lt_trichotomy x 0 with h | h | h
  · have hr : rq f x = -rndVal f (-x) := by unfold rq; rw [if_neg h.ne, if_pos h]
    have h0 := rndVal_nonneg (f := f) (neg_pos.2 h)
    rw [hr]
    unfold ofRat
    rw [if_neg h.ne, abs_of_neg h, decide_eq_true h]
    unfold roundFl
    rw [rnd_eq]
    by_cases hc : 2 ^ f.emax ≤ rndVal f (-x)
    · rw [if_pos hc]; exact .inr (.inl ⟨by linarith, rfl⟩)
    · rw [if_neg hc]
      exact .inr (.inr ⟨by rw [abs_neg, abs_of_nonneg h0]; exact not_le.1 hc, _, _, rfl, by simp [val]⟩)
  · subst h
    rw [rq_zero, abs_zero]
    exact .inr (.inr ⟨hp, z, 0, by simp [ofRat], by simp [val]⟩)
  · have hr := rq_pos (f := f) h
    have h0 := rndVal_nonneg (f := f) h
    rw [hr]
    unfold ofRat
    rw [if_neg h.ne', abs_of_pos h, decide_eq_false (not_lt.2 h.le)]
    unfold roundFl
    rw [rnd_eq]
    by_cases hc : 2 ^ f.emax ≤ rndVal f x
    · rw [if_pos hc]; exact .inl ⟨hc, rfl⟩
    · rw [if_neg hc]
      exact .inr (.inr ⟨by rw [abs_of_nonneg h0]; exact not_le.1 hc, _, _, rfl, by simp [val]⟩)

theorem ofRat_finite {z : Bool} {x : Rat} (h : |rq f x| < 2 ^ f.emax) : ∃ s m, ofRat f z x = .fin s m ∧ val (.fin s m) = rq f x := by
  obtain ⟨h1, h2⟩ := abs_lt.1 h
  rcases ofRat_cases (f := f) z x with h' | h' | h'
  · linarith [h'.1]
  · linarith [h'.1]
  · exact h'.2

theorem finite_ofRat {z : Bool} {x : Rat} (h : Finite (ofRat f z x)) :
    |rq f x| < 2 ^ f.emax ∧ ∃ s m, ofRat f z x = .fin s m ∧ val (.fin s m) = rq f x := by
  rcases ofRat_cases (f := f) z x with h' | h' | h'
  · rw [h'.2] at h; exact absurd h id
  · rw [h'.2] at h; exact absurd h id
  · exact h'

theorem ofRat_top {z : Bool} {x : Rat} (h : 2 ^ f.emax ≤ rq f x) : ofRat f z x = .inf false := by
  have hp := two_pos' f.emax
  rcases ofRat_cases (f := f) z x with h' | h' | h'
  · exact h'.2
  · linarith [h'.1]
  · linarith [(abs_lt.1 h'.1).2]

theorem val_lt {s : Bool} {x : Rat} (h : OfType f (.fin s x)) : |val (.fin s x)| < 2 ^ f.emax := by
  obtain ⟨m, e, hm, h1, h2, h3⟩ := val_mul h
  rw [h3, abs_mul, abs_of_pos (two_pos' e)]
  have h4 : |(m : Rat)| < 2 ^ f.prec := by exact_mod_cast hm
  calc |(m : Rat)| * 2 ^ e < 2 ^ f.prec * 2 ^ e := mul_lt_mul_of_pos_right h4 (two_pos' e)
    _ = 2 ^ ((f.prec : Int) + e) := by rw [zpow_add₀ (by norm_num), zpow_natCast]
    _ ≤ 2 ^ f.emax := two_mono (by omega)

/-- Too big numbers become infinite. -/
theorem rq_big (hf : f.Ok) {x : Rat} (h : 2 ^ f.emax ≤ x) : 2 ^ f.emax ≤ rq f x := by
  have hr := hf.range
  have hp := hf.prec
  have e : (2 : Rat) ^ f.emax = ((1 : Int) : Rat) * 2 ^ f.emax := by simp
  have h1 := rq_mono hf h
  rw [e, rq_mul (by rw [abs_one]; exact one_lt_pow₀ (by norm_num) (by omega)) (by omega)] at h1
  rw [e]
  exact h1

/-- Half of a rounded difference is not above the difference. -/
theorem half_le (hf : f.Ok) {x : Rat} (hx : 0 ≤ x) (hk : ∃ k : Int, x = k * 2 ^ f.emin) : rq f (rq f x / 2) ≤ x := by
  rcases eq_or_lt_of_le hx with h | hx
  · rw [← h, rq_zero, zero_div, rq_zero]
  have hp := hf.prec
  set u := ulpExp f x with hu
  have hup := two_pos' u
  have hmin : f.emin ≤ u := by rw [hu]; unfold ulpExp; omega
  have hd : rq f x = (rhe (x / 2 ^ u) : Rat) * 2 ^ u := rq_pos hx
  have hn0 : 0 ≤ rhe (x / 2 ^ u) := le_rhe (by push_cast; positivity)
  have hn1 : rhe (x / 2 ^ u) ≤ 2 ^ f.prec := rhe_le (by
    rw [div_le_iff₀ hup]; push_cast; exact (log_ulp hf hx).le)
  rcases eq_or_lt_of_le hmin with he | hlt
  · -- the difference is exact
    obtain ⟨k, hk⟩ := hk
    have e1 : x / 2 ^ u = k := by rw [← he, hk, mul_div_cancel_right₀ _ (two_pos' _).ne']
    have e2 : rq f x = x := by rw [hd, e1, rhe_eq (n := k) (by simp), ← he, ← hk]
    have h3 := rq_mono hf (show x / 2 ≤ x by linarith)
    rw [e2]
    rw [e2] at h3
    exact h3
  · -- half of it is exact
    have hul : u = Int.log 2 x - ((f.prec : Int) - 1) := by rw [hu] at hlt ⊢; unfold ulpExp at hlt ⊢; omega
    have hux : (2 : Rat) ^ u ≤ x := (two_mono (by omega)).trans (log2_le x hx)
    have e1 : rq f x / 2 = (rhe (x / 2 ^ u) : Rat) * 2 ^ (u - 1) := by
      rw [hd, zpow_sub₀ (by norm_num), zpow_one]; ring
    have e2 : rq f (rq f x / 2) = rq f x / 2 := by
      rcases eq_or_lt_of_le hn1 with h | h
      · have : rq f x / 2 = ((1 : Int) : Rat) * 2 ^ ((f.prec : Int) + (u - 1)) := by
          rw [e1, h, zpow_add₀ (by norm_num), zpow_natCast]; push_cast; ring
        rw [this, rq_mul (by rw [abs_one]; exact one_lt_pow₀ (by norm_num) (by omega)) (by omega)]
      · rw [e1, rq_mul (by rw [abs_of_nonneg hn0]; exact h) (by omega)]
    rw [e2, hd]
    have h3 := (abs_le.1 (rhe_close (x / 2 ^ u))).2
    have h4 : (rhe (x / 2 ^ u) : Rat) * 2 ^ u ≤ (x / 2 ^ u + 1 / 2) * 2 ^ u := mul_le_mul_of_nonneg_right (by linarith) hup.le
    have h5 : (x / 2 ^ u + 1 / 2) * 2 ^ u = x + 2 ^ u / 2 := by field_simp
    linarith

/-- A difference of values of the type is a multiple of the smallest one. -/
theorem diff_mul {s t : Bool} {x y : Rat} (hx : OfType f (.fin s x)) (hy : OfType f (.fin t y)) :
    ∃ k : Int, val (.fin s x) - val (.fin t y) = k * 2 ^ f.emin := by
  obtain ⟨m, e, _, h1, _, h2⟩ := val_mul hx
  obtain ⟨n, g, _, h3, _, h4⟩ := val_mul hy
  refine ⟨m * 2 ^ (e - f.emin).toNat - n * 2 ^ (g - f.emin).toNat, ?_⟩
  rw [h2, h4, two_split h1, two_split h3]
  push_cast
  ring

end Ieee
end Xo
