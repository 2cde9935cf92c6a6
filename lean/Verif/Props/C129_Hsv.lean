import Verif.Props.C129_ColorNode
import Verif.Props.C65_Color
import Verif.Lemmas.Norm

/-!
C129: a colour given as hue, saturation and value, with rounding.
-/
namespace Xo.ColNode
open Num (Fl Fmt binary32)
open Ieee
open Ieee.Spec (OfType)

abbrev U : Rat := 1 / 2 ^ 24
abbrev E : Rat := 1 / 2 ^ 149

theorem rq32 (x : Rat) : |rq binary32 x - x| ≤ U * |x| + E := by
  have h := Norm.rq_abs binary32 x
  norm_num [binary32] at h ⊢
  linarith

/-- A number near an exact one. -/
def Close (k : Rat) (A : Fl) (a : Rat) : Prop := (∃ g m, A = .fin g m) ∧ |val A - a| ≤ k * U

theorem close_round {k k' x a : Rat} {z : Bool} (h : |x - a| ≤ k * U) (hx : |a| ≤ 1) (hk : 0 ≤ k) (hk1 : k ≤ 20) (hk' : k + 11 / 10 ≤ k') :
    Close k' (ofRat binary32 z x) a := by
  have r := rq32 x
  have hx2 : |x| ≤ 1 + k * U := by
    have := abs_sub_abs_le_abs_sub x a
    linarith
  norm_num [U, E] at r h hx2
  have hr : |rq binary32 x - a| ≤ (k + 11 / 10) * U := by
    have e : rq binary32 x - a = (rq binary32 x - x) + (x - a) := by ring
    rw [e]
    refine (abs_add_le _ _).trans ?_
    norm_num
    linarith
  have hb : |rq binary32 x| < 2 ^ binary32.emax := by
    have := abs_sub_abs_le_abs_sub (rq binary32 x) a
    norm_num at hr
    have : (2 : Rat) ^ binary32.emax = 2 ^ 128 := rfl
    norm_num at this
    rw [this]
    linarith
  obtain ⟨g, m, e, v⟩ := ofRat_finite (z := z) hb
  rw [e]
  refine ⟨⟨g, m, rfl⟩, ?_⟩
  rw [v]
  exact hr.trans (mul_le_mul_of_nonneg_right hk' (by norm_num))

theorem close_exact {g : Bool} {m a : Rat} (h : val (.fin g m) = a) : Close 0 (.fin g m) a := ⟨⟨g, m, rfl⟩, by rw [h]; simp⟩

theorem close_sub {k l n : Rat} {A B : Fl} {a b : Rat} (hA : Close k A a) (hB : Close l B b) (hk : 0 ≤ k) (hl : 0 ≤ l) (hkl : k + l ≤ 20) (hab : |a - b| ≤ 1) (hn : k + l + 11 / 10 ≤ n) :
    Close n (sub binary32 A B) (a - b) := by
  obtain ⟨⟨g, m, rfl⟩, h1⟩ := hA
  obtain ⟨⟨t, y, rfl⟩, h2⟩ := hB
  have e : val (.fin g m) + val (neg (.fin t y)) = val (.fin g m) - val (.fin t y) := by cases t <;> simp [val, neg] <;> ring
  have key : |val (.fin g m) + val (neg (.fin t y)) - (a - b)| ≤ (k + l) * U := by
    have e2 : val (.fin g m) - val (.fin t y) - (a - b) = (val (.fin g m) - a) - (val (.fin t y) - b) := by ring
    rw [e, e2]
    refine (abs_sub _ _).trans ?_
    linarith
  exact close_round key hab (by linarith) hkl hn

theorem close_mul {k l n : Rat} {A B : Fl} {a b : Rat} (hA : Close k A a) (hB : Close l B b) (hk : 0 ≤ k) (hl : 0 ≤ l) (hkl : k + l ≤ 18) (ha : |a| ≤ 1) (hb : |b| ≤ 1) (hn : k + l + 12 / 10 ≤ n) :
    Close n (mul binary32 A B) (a * b) := by
  obtain ⟨⟨g, m, rfl⟩, h1⟩ := hA
  obtain ⟨⟨t, y, rfl⟩, h2⟩ := hB
  have key : |val (.fin g m) * val (.fin t y) - a * b| ≤ (k + l + 1 / 10) * U := by
    have e2 : val (.fin g m) * val (.fin t y) - a * b = (val (.fin g m) - a) * (val (.fin t y) - b) + a * (val (.fin t y) - b) + (val (.fin g m) - a) * b := by ring
    rw [e2]
    have p1 : |(val (.fin g m) - a) * (val (.fin t y) - b)| ≤ (k * U) * (l * U) := by
      rw [abs_mul]
      exact mul_le_mul h1 h2 (abs_nonneg _) (by positivity)
    have p2 : |a * (val (.fin t y) - b)| ≤ 1 * (l * U) := by
      rw [abs_mul]
      exact mul_le_mul ha h2 (abs_nonneg _) (by norm_num)
    have p3 : |(val (.fin g m) - a) * b| ≤ (k * U) * 1 := by
      rw [abs_mul]
      exact mul_le_mul h1 hb (abs_nonneg _) (by positivity)
    have p4 : k * l ≤ 400 := by nlinarith
    have e3 : (k * U) * (l * U) ≤ 1 / 10 * U := by
      have : (k * U) * (l * U) = (k * l) * (U * U) := by ring
      rw [this]
      norm_num
      linarith
    refine (abs_add_le _ _).trans (le_trans (add_le_add ((abs_add_le _ _).trans (add_le_add (p1.trans e3) p2)) p3) (le_of_eq ?_))
    ring
  refine close_round (k := k + l + 1 / 10) key ?_ (by linarith) (by linarith) (by linarith)
  rw [abs_mul]
  exact mul_le_one₀ ha (abs_nonneg _) hb

/-! The colour circle. -/

theorem weight_step {x y : Rat} (h : x ≤ y) (h1 : y ≤ x + 1) : |Col.Spec.weight y - Col.Spec.weight x| ≤ y - x := by
  obtain ⟨j, k, hx, k0, k6⟩ : ∃ (j : ℤ) (k : Rat), x = 6 * j + k ∧ 0 ≤ k ∧ k < 6 := by
    refine ⟨⌊x / 6⌋, x - 6 * ⌊x / 6⌋, by ring, ?_, ?_⟩
    · have := Int.floor_le (x / 6)
      rw [le_div_iff₀ (by norm_num)] at this
      linarith
    · have := Int.lt_floor_add_one (x / 6)
      rw [div_lt_iff₀ (by norm_num)] at this
      linarith
  rw [Col.weight_of x k j hx k0 k6]
  by_cases c : k + (y - x) < 6
  · rw [Col.weight_of y (k + (y - x)) j (by linarith) (by linarith) c, abs_le]
    constructor
    · rcases max_cases 0 (min (min (k + (y - x)) (4 - (k + (y - x)))) 1) with ⟨a, b⟩ | ⟨a, b⟩ <;>
      rcases max_cases 0 (min (min k (4 - k)) 1) with ⟨a', b'⟩ | ⟨a', b'⟩ <;>
      rcases min_cases (min (k + (y - x)) (4 - (k + (y - x)))) 1 with ⟨p, _⟩ | ⟨p, _⟩ <;>
      rcases min_cases (min k (4 - k)) 1 with ⟨p', _⟩ | ⟨p', _⟩ <;>
      rcases min_cases (k + (y - x)) (4 - (k + (y - x))) with ⟨q, _⟩ | ⟨q, _⟩ <;>
      rcases min_cases k (4 - k) with ⟨q', _⟩ | ⟨q', _⟩ <;> linarith
    · rcases max_cases 0 (min (min (k + (y - x)) (4 - (k + (y - x)))) 1) with ⟨a, b⟩ | ⟨a, b⟩ <;>
      rcases max_cases 0 (min (min k (4 - k)) 1) with ⟨a', b'⟩ | ⟨a', b'⟩ <;>
      rcases min_cases (min (k + (y - x)) (4 - (k + (y - x)))) 1 with ⟨p, _⟩ | ⟨p, _⟩ <;>
      rcases min_cases (min k (4 - k)) 1 with ⟨p', _⟩ | ⟨p', _⟩ <;>
      rcases min_cases (k + (y - x)) (4 - (k + (y - x))) with ⟨q, _⟩ | ⟨q, _⟩ <;>
      rcases min_cases k (4 - k) with ⟨q', _⟩ | ⟨q', _⟩ <;> linarith
  · rw [Col.weight_of y (k + (y - x) - 6) (j + 1) (by push_cast; linarith) (by linarith) (by linarith)]
    have z : max 0 (min (min k (4 - k)) 1) = 0 := max_eq_left ((min_le_left _ _).trans ((min_le_right _ _).trans (by linarith)))
    rw [z, sub_zero, abs_of_nonneg (le_max_left _ _)]
    exact max_le (by linarith) ((min_le_left _ _).trans ((min_le_left _ _).trans (by linarith)))

theorem weight_near {x y d : Rat} (h : |x - y| ≤ d) (hd : d ≤ 1) : |Col.Spec.weight x - Col.Spec.weight y| ≤ d := by
  obtain ⟨h1, h2⟩ := abs_le.1 h
  rcases le_total x y with c | c
  · rw [abs_sub_comm]
    exact (weight_step c (by linarith)).trans (by linarith)
  · exact (weight_step c (by linarith)).trans (by linarith)

theorem le_nat (n : Nat) (g : Bool) (m : Rat) : le (ofNat n) (.fin g m) = decide ((n : Rat) ≤ val (.fin g m)) := by
  have : val (ofNat n) = n := rfl
  simp only [le, lt, eq, ofNat]
  rw [Bool.eq_iff_iff]
  simp only [Bool.or_eq_true, decide_eq_true_eq]
  rw [← ofNat, this]
  exact le_iff_lt_or_eq.symm

theorem lt_nat (n : Nat) (g : Bool) (m : Rat) : lt (.fin g m) (ofNat n) = decide (val (.fin g m) < (n : Rat)) := rfl

/-- The remainder of a `float` by 360 is well below 360. -/
theorem rem_top {x : Rat} (h : Xo.Spec.Binary 24 (-149) 128 x) : 0 ≤ x - ⌊x / 360⌋ * 360 ∧ x - ⌊x / 360⌋ * 360 ≤ 360 - 1 / 2 ^ 15 := by
  obtain ⟨m, e, hm, h1, _, hx⟩ := h
  have f1 := Int.floor_le (x / 360)
  have f2 := Int.lt_floor_add_one (x / 360)
  rw [le_div_iff₀ (by norm_num)] at f1
  rw [div_lt_iff₀ (by norm_num)] at f2
  refine ⟨by linarith, ?_⟩
  by_cases c : -15 ≤ e
  · obtain ⟨k, rfl⟩ : ∃ k : Nat, e = -15 + k := ⟨(e + 15).toNat, by omega⟩
    have ex : x = ((m * 2 ^ k : Nat) : Int) / 2 ^ 15 := by
      rw [hx, zpow_add₀ (by norm_num), zpow_natCast, zpow_neg]
      push_cast
      norm_num
      ring
    have i : ((m * 2 ^ k : Nat) : Int) - ⌊x / 360⌋ * (360 * 2 ^ 15) < 360 * 2 ^ 15 := by
      have : ((((m * 2 ^ k : Nat) : Int) - ⌊x / 360⌋ * (360 * 2 ^ 15) : Int) : Rat) < ((360 * 2 ^ 15 : Int) : Rat) := by
        have e2 : (((m * 2 ^ k : Nat) : Int) : Rat) = x * 2 ^ 15 := by rw [ex]; field_simp
        rw [Int.cast_sub, e2]
        push_cast
        norm_num
        linarith
      exact_mod_cast this
    have i2 : ((m * 2 ^ k : Nat) : Int) - ⌊x / 360⌋ * (360 * 2 ^ 15) ≤ 360 * 2 ^ 15 - 1 := by omega
    have i3 : ((((m * 2 ^ k : Nat) : Int) - ⌊x / 360⌋ * (360 * 2 ^ 15) : Int) : Rat) ≤ ((360 * 2 ^ 15 - 1 : Int) : Rat) := by exact_mod_cast i2
    have e2 : (((m * 2 ^ k : Nat) : Int) : Rat) = x * 2 ^ 15 := by rw [ex]; field_simp
    rw [Int.cast_sub, e2] at i3
    push_cast at i3
    norm_num at i3 ⊢
    linarith
  · have h2 : (2 : Rat) ^ e ≤ 2 ^ (-16 : Int) := zpow_le_zpow_right₀ (by norm_num) (by omega)
    have h3 : (m : Rat) ≤ 2 ^ 24 := by exact_mod_cast hm.le
    have h4 : x ≤ 2 ^ 24 * 2 ^ (-16 : Int) := by
      rw [hx]
      exact mul_le_mul h3 h2 (zpow_pos (by norm_num) _).le (by norm_num)
    have h5 : (0 : Rat) ≤ x := by rw [hx]; exact mul_nonneg (by positivity) (zpow_pos (by norm_num) _).le
    have h6 : (0 : Rat) ≤ (⌊x / 360⌋ : Rat) := by exact_mod_cast Int.floor_nonneg.2 (by positivity)
    norm_num [zpow_neg] at h4 ⊢
    linarith

theorem six : rq binary32 ((360 - 1 / 2 ^ 15) / 60) < 6 := by decide +kernel

theorem floor_val {g : Bool} {m : Rat} (h : 0 ≤ val (.fin g m)) : ∃ t k, floorFl (.fin g m) = .fin t k ∧ val (.fin t k) = ⌊val (.fin g m)⌋ := by
  refine ⟨_, _, rfl, ?_⟩
  have k0 : 0 ≤ ⌊val (.fin g m)⌋ := Int.floor_nonneg.2 h
  have k1 : (0 : Rat) ≤ (⌊val (.fin g m)⌋ : Rat) := by exact_mod_cast k0
  have d1 : decide (⌊val (.fin g m)⌋ < 0) = false := by simp [k0]
  rw [d1, Bool.false_or, abs_of_nonneg k1]
  by_cases c : ⌊val (.fin g m)⌋ = 0
  · rw [c]
    cases g <;> simp [val]
  · have d2 : decide (⌊val (.fin g m)⌋ = 0) = false := by simpa using c
    rw [d2, Bool.and_false]
    rfl

/-- The hue divided by 60, in the range of the sectors. -/
theorem hue {s : Bool} {x : Rat} (ht : OfType binary32 (.fin s x)) (h0 : 0 ≤ val (.fin s x)) :
    ∃ g m, div binary32 (fmod (.fin s x) (ofNat 360)) (ofNat 60) = .fin g m ∧ 0 ≤ val (.fin g m) ∧ val (.fin g m) < 6 ∧
      ∃ n : ℤ, |val (.fin g m) - (val (.fin s x) / 60 - 6 * n)| ≤ 61 / 10 * U := by
  have hb : Xo.Spec.Binary 24 (-149) 128 x := ht
  obtain ⟨r0, r1⟩ := rem_top hb
  have x0 : 0 ≤ x := by
    obtain ⟨m, e, _, _, _, rfl⟩ := hb
    exact mul_nonneg (by positivity) (zpow_pos (by norm_num) _).le
  have hv : val (.fin s x) = x := by
    cases s with
    | false => rfl
    | true =>
      have : val (.fin true x) = -x := rfl
      rw [this] at h0 ⊢
      linarith
  have hr : val (.fin s (x - ⌊x / 360⌋ * 360)) = x - ⌊x / 360⌋ * 360 := by
    cases s with
    | false => rfl
    | true =>
      have : val (.fin true x) = -x := rfl
      rw [this] at h0
      have : x = 0 := by linarith
      subst this
      simp [val]
  set y := x - ⌊x / 360⌋ * 360 with hy
  have q := rq32 (y / 60)
  have q0 : 0 ≤ rq binary32 (y / 60) := rq_nonneg (by positivity)
  have q6 : rq binary32 (y / 60) < 6 := (rq_mono Num.binary32_ok (div_le_div_of_nonneg_right r1 (by norm_num))).trans_lt six
  have hbig : |rq binary32 (y / 60)| < 2 ^ binary32.emax := by
    rw [abs_of_nonneg q0]
    refine q6.trans ?_
    have : (2 : Rat) ^ binary32.emax = 2 ^ 128 := rfl
    rw [this]
    norm_num
  obtain ⟨g, m, e, v⟩ := ofRat_finite (z := s != false) hbig
  refine ⟨g, m, ?_, by rw [v]; exact q0, by rw [v]; exact q6, ⌊x / 360⌋, ?_⟩
  · have e1 : fmod (.fin s x) (ofNat 360) = .fin s y := by
      have c : ¬ ((360 : Nat) : Rat) = 0 := by norm_num
      simp only [fmod, ofNat, if_neg c]
      norm_num [hy]
    rw [e1, ← e]
    have c : ¬ ((60 : Nat) : Rat) = 0 := by norm_num
    simp only [div, ofNat, if_neg c]
    show ofRat binary32 (s != false) (val (.fin s y) / val (ofNat 60)) = _
    rw [hr]
    rfl
  · rw [v, hv]
    have e2 : x / 60 - 6 * ⌊x / 360⌋ = y / 60 := by rw [hy]; ring
    rw [e2]
    refine q.trans ?_
    rw [abs_of_nonneg (by positivity)]
    have : y / 60 ≤ 6 := by linarith
    norm_num
    linarith

theorem mix {k : Rat} {A : Fl} {a v s w w' : Rat} (h : Close k A a) (ha : a = v - v * s * w) (hv0 : 0 ≤ v) (hv : v ≤ 1) (hs0 : 0 ≤ s) (hs : s ≤ 1) (hw : |w - w'| ≤ 61 / 10 * U) (hk : k ≤ 9) :
    |val A - (v - v * s * w')| ≤ 16 * U := by
  have e : val A - (v - v * s * w') = (val A - a) - v * s * (w - w') := by rw [ha]; ring
  rw [e]
  refine (abs_sub _ _).trans ?_
  rw [abs_mul, abs_of_nonneg (mul_nonneg hv0 hs0)]
  have : v * s * |w - w'| ≤ 1 * (61 / 10 * U) := mul_le_mul (mul_le_one₀ hv hs0 hs) hw (abs_nonneg _) (by norm_num)
  have h2 : k * U ≤ 9 * U := mul_le_mul_of_nonneg_right hk (by norm_num)
  have h3 := h.2.trans h2
  norm_num at this h3 ⊢
  linarith

/-- **C129, hue.** For every `float` hue that is not negative, and saturation and value between zero and one, the components are those of the usual definition up to sixteen roundings, and the colour is opaque. -/
theorem C129_hsv_colour (H S V : Fl) (hH : Ieee.Spec.Finite H ∧ OfType binary32 H ∧ 0 ≤ val H) (hS : Ieee.Spec.Finite S ∧ 0 ≤ val S ∧ val S ≤ 1) (hV : Ieee.Spec.Finite V ∧ 0 ≤ val V ∧ val V ≤ 1) :
    |val (fromHsv H S V).r - (Col.Spec.hsv (val H) (val S) (val V)).1| ≤ 16 / 2 ^ 24 ∧
    |val (fromHsv H S V).g - (Col.Spec.hsv (val H) (val S) (val V)).2.1| ≤ 16 / 2 ^ 24 ∧
    |val (fromHsv H S V).b - (Col.Spec.hsv (val H) (val S) (val V)).2.2| ≤ 16 / 2 ^ 24 ∧ (fromHsv H S V).a = ofNat 1 := by
  obtain ⟨hH1, hH2, hH3⟩ := hH
  obtain ⟨hS1, s0, s1⟩ := hS
  obtain ⟨hV1, v0, v1⟩ := hV
  cases H with
  | nan => exact hH1.elim
  | inf => exact hH1.elim
  | fin sg x =>
  cases S with
  | nan => exact hS1.elim
  | inf => exact hS1.elim
  | fin a2 m2 =>
  cases V with
  | nan => exact hV1.elim
  | inf => exact hV1.elim
  | fin a3 m3 =>
  obtain ⟨g, m, eh, h0, h6, n, hn⟩ := hue hH2 hH3
  obtain ⟨t, k, ef, hf⟩ := floor_val h0
  generalize hs : val (.fin a2 m2) = s at *
  generalize hv : val (.fin a3 m3) = v at *
  generalize hh : val (.fin g m) = h at *
  have one : Close 0 (ofNat 1) 1 := close_exact (by norm_num [val])
  have cS : Close 0 (.fin a2 m2) s := close_exact hs
  have cV : Close 0 (.fin a3 m3) v := close_exact hv
  have cH : Close 0 (.fin g m) h := close_exact hh
  have f0 := Int.fract_nonneg h
  have f1 := (Int.fract_lt_one h).le
  have cf : Close 2 (sub binary32 (.fin g m) (.fin t k)) (h - ⌊h⌋) :=
    close_sub cH (close_exact hf) (by norm_num) (by norm_num) (by norm_num) (by rw [← Int.fract, abs_of_nonneg f0]; exact f1) (by norm_num)
  rw [← Int.fract] at cf
  have sf0 : 0 ≤ s * Int.fract h := mul_nonneg s0 f0
  have sf1 : s * Int.fract h ≤ 1 := mul_le_one₀ s1 f0 f1
  have sg0 : 0 ≤ s * (1 - Int.fract h) := mul_nonneg s0 (by linarith)
  have sg1 : s * (1 - Int.fract h) ≤ 1 := mul_le_one₀ s1 (by linarith) (by linarith)
  have ab : ∀ {a : Rat}, 0 ≤ a → a ≤ 1 → |a| ≤ 1 := fun h0 h1 => by rw [abs_of_nonneg h0]; exact h1
  have cP := close_mul (n := 9) cV (close_sub (n := 2) one cS (by norm_num) (by norm_num) (by norm_num) (ab (by linarith) (by linarith)) (by norm_num)) (by norm_num) (by norm_num) (by norm_num) (ab v0 v1) (ab (by linarith) (by linarith)) (by norm_num)
  have cQ := close_mul (n := 9) cV (close_sub (n := 9 / 2) one (close_mul (n := 33 / 10) cS cf (by norm_num) (by norm_num) (by norm_num) (ab s0 s1) (ab f0 f1) (by norm_num)) (by norm_num) (by norm_num) (by norm_num)
    (ab (by linarith) (by linarith)) (by norm_num)) (by norm_num) (by norm_num) (by norm_num) (ab v0 v1) (ab (by linarith) (by linarith)) (by norm_num)
  have cG := close_sub (n := 31 / 10) one cf (by norm_num) (by norm_num) (by norm_num) (ab (by linarith) (by linarith)) (by norm_num)
  have cT := close_mul (n := 9) cV (close_sub (n := 11 / 2) one (close_mul (n := 44 / 10) cS cG (by norm_num) (by norm_num) (by norm_num) (ab s0 s1) (ab (by linarith) (by linarith)) (by norm_num)) (by norm_num) (by norm_num) (by norm_num)
    (ab (by linarith) (by linarith)) (by norm_num)) (by norm_num) (by norm_num) (by norm_num) (ab v0 v1) (ab (by linarith) (by linarith)) (by norm_num)
  have cV' : Close 9 (.fin a3 m3) v := ⟨cV.1, cV.2.trans (by norm_num)⟩
  have W : ∀ c : Rat, |Col.Spec.weight (c + h) - Col.Spec.weight (c + val (.fin sg x) / 60)| ≤ 61 / 10 * U := fun c => by
    have := Col.weight_periodic (c + (val (.fin sg x) / 60 - 6 * n)) n
    have e : c + (val (.fin sg x) / 60 - 6 * (n : Rat)) + 6 * n = c + val (.fin sg x) / 60 := by ring
    rw [e] at this
    rw [this]
    refine weight_near ?_ (by norm_num)
    have e2 : c + h - (c + (val (.fin sg x) / 60 - 6 * (n : Rat))) = h - (val (.fin sg x) / 60 - 6 * n) := by ring
    rw [e2]
    exact hn
  have sec := Col.hsvSector_eq h s v h0 h6
  have e16 : (16 : Rat) / 2 ^ 24 = 16 * U := by norm_num
  rw [e16]
  unfold Col.Spec.hsv
  simp only [fromHsv]
  rw [eh, ef]
  simp only [le_nat, lt_nat, hh, Nat.cast_zero, Nat.cast_one, Nat.cast_ofNat]
  unfold Col.hsvSector at sec
  have ee : h - (⌊h⌋ : Rat) = Int.fract h := rfl
  simp only [ee] at sec
  have fin : ∀ {R G B : Fl} {r g' b : Rat}, Close 9 R r → Close 9 G g' → Close 9 B b →
      (Col.ofFloat r g' b = (⟨v - v * s * Col.Spec.weight (5 + h), v - v * s * Col.Spec.weight (3 + h), v - v * s * Col.Spec.weight (1 + h), 1⟩ : Col.Color Rat)) →
      |val R - (v - v * s * Col.Spec.weight (5 + val (.fin sg x) / 60))| ≤ 16 * U ∧ |val G - (v - v * s * Col.Spec.weight (3 + val (.fin sg x) / 60))| ≤ 16 * U ∧
      |val B - (v - v * s * Col.Spec.weight (1 + val (.fin sg x) / 60))| ≤ 16 * U ∧ ofNat 1 = ofNat 1 := by
    intro R G B r g' b cR cG cB he
    simp only [Col.ofFloat, Col.Color.mk.injEq] at he
    exact ⟨mix cR he.1 v0 v1 s0 s1 (W 5) (by norm_num), mix cG he.2.1 v0 v1 s0 s1 (W 3) (by norm_num), mix cB he.2.2.1 v0 v1 s0 s1 (W 1) (by norm_num), rfl⟩
  by_cases b1 : h < 1
  · rw [if_pos ⟨h0, b1⟩] at sec
    rw [if_pos (by simp [h0, b1])]
    exact fin cV' cT cP sec
  by_cases b2 : h < 2
  · rw [if_neg (by rintro ⟨_, _⟩; linarith), if_pos ⟨by linarith, b2⟩] at sec
    rw [if_neg (by simp [b1]), if_pos (by simp [not_lt.1 b1, b2])]
    exact fin cQ cV' cP sec
  by_cases b3 : h < 3
  · rw [if_neg (by rintro ⟨_, _⟩; linarith), if_neg (by rintro ⟨_, _⟩; linarith), if_pos ⟨by linarith, b3⟩] at sec
    rw [if_neg (by simp [b1]), if_neg (by simp [b2]), if_pos (by simp [not_lt.1 b2, b3])]
    exact fin cP cV' cT sec
  by_cases b4 : h < 4
  · rw [if_neg (by rintro ⟨_, _⟩; linarith), if_neg (by rintro ⟨_, _⟩; linarith), if_neg (by rintro ⟨_, _⟩; linarith), if_pos ⟨by linarith, b4⟩] at sec
    rw [if_neg (by simp [b1]), if_neg (by simp [b2]), if_neg (by simp [b3]), if_pos (by simp [not_lt.1 b3, b4])]
    exact fin cP cQ cV' sec
  by_cases b5 : h < 5
  · rw [if_neg (by rintro ⟨_, _⟩; linarith), if_neg (by rintro ⟨_, _⟩; linarith), if_neg (by rintro ⟨_, _⟩; linarith), if_neg (by rintro ⟨_, _⟩; linarith), if_pos ⟨by linarith, b5⟩] at sec
    rw [if_neg (by simp [b1]), if_neg (by simp [b2]), if_neg (by simp [b3]), if_neg (by simp [b4]), if_pos (by simp [not_lt.1 b4, b5])]
    exact fin cT cP cV' sec
  · rw [if_neg (by rintro ⟨_, _⟩; linarith), if_neg (by rintro ⟨_, _⟩; linarith), if_neg (by rintro ⟨_, _⟩; linarith), if_neg (by rintro ⟨_, _⟩; linarith), if_neg (by rintro ⟨_, _⟩; linarith), if_pos ⟨by linarith, h6⟩] at sec
    rw [if_neg (by simp [b1]), if_neg (by simp [b2]), if_neg (by simp [b3]), if_neg (by simp [b4]), if_neg (by simp [b5]), if_pos (by simp [not_lt.1 b5, h6])]
    exact fin cV' cP cQ sec

/-- Non-vacuity: the hue 90 at half saturation, and a hue of several turns. -/
example : |val (fromHsv (ofNat 90) (.fin false (1 / 2)) (ofNat 1)).g - 1| ≤ 16 / 2 ^ 24 := by
  have h := (C129_hsv_colour (ofNat 90) (.fin false (1 / 2)) (ofNat 1) ⟨trivial, ⟨90, 0, by norm_num [binary32], by norm_num [binary32], by norm_num [binary32], by norm_num⟩, by norm_num [val, ofNat]⟩
    ⟨trivial, by norm_num [val], by norm_num [val]⟩ ⟨trivial, by norm_num [val, ofNat], by norm_num [val, ofNat]⟩).2.1
  have e : (Col.Spec.hsv (val (ofNat 90)) (val (.fin false (1 / 2))) (val (ofNat 1))).2.1 = 1 := by decide +kernel
  rwa [e] at h

example : fromHsv (ofNat 1170) (.fin false (1 / 2)) (ofNat 1) = ⟨.fin false (3 / 4), ofNat 1, .fin false (1 / 2), ofNat 1⟩ := by decide +kernel

end Xo.ColNode
