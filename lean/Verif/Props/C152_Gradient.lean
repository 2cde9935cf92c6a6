import Verif.Model.ColorGradient
import Verif.Props.C131_Accuracy
import Verif.Props.C123_AverageRounding

/-!
C152: colour gradients.
-/
namespace Xo.Ieee
open Num (Fl Fmt binary32 binary64)
open Norm LongSum
open Ieee.Spec (OfType num IsNan)
open Norm.Spec (FloatOrDouble)
open LongSum.Spec

namespace Spec

/-- The four components of a colour. -/
def components : List (Rgba → Fl) := [Rgba.r, Rgba.g, Rgba.b, Rgba.a]

/-- The colours of a gradient: finite values with different numbers, well below the largest number, and components from zero to one. -/
structure Colours (f : Fmt) (l : List (Fl × Rgba)) : Prop where
  key : ∀ p ∈ l, Ieee.Spec.Finite p.1 ∧ OfType f p.1 ∧ 4 * |val p.1| < 2 ^ f.emax
  distinct : l.Pairwise fun p q => val p.1 ≠ val q.1
  component : ∀ p ∈ l, ∀ k ∈ components, Ieee.Spec.Finite (k p.2) ∧ OfType f (k p.2) ∧ 0 ≤ val (k p.2) ∧ val (k p.2) ≤ 1

end Spec
open Spec (components Colours line)

/-- The points of one component. -/
def points (k : Rgba → Fl) (m : List (Fl × Rgba)) : Pts := m.map fun p => (p.1, k p.2)

theorem upper_points (k : Rgba → Fl) (m : List (Fl × Rgba)) (x : Fl) : upperBound (points k m) x = (m.takeWhile fun p => !lt x p.1).length := by
  unfold upperBound points
  rw [List.takeWhile_map, List.length_map]
  rfl

theorem lerp_component {k : Rgba → Fl} (hk : k ∈ components) (f : Fmt) (c1 c2 : Rgba) (t : Fl) : k (c1.lerp f c2 t) = lerp f (k c1) (k c2) t := by
  unfold components at hk
  simp only [List.mem_cons, List.not_mem_nil, or_false] at hk
  rcases hk with rfl | rfl | rfl | rfl <;> rfl

theorem gradient_component {k : Rgba → Fl} (hk : k ∈ components) (f : Fmt) (m : List (Fl × Rgba)) (x : Fl) : (gradient f m x).map k = lerpMap f (points k m) x := by
  unfold gradient lerpMap
  have hl : (points k m).length = m.length := List.length_map _
  have hg : ∀ i, (points k m)[i]? = m[i]?.map (fun p : Fl × Rgba => (p.1, k p.2)) := fun i => List.getElem?_map
  simp only [upper_points, hl, hg]
  generalize (m.takeWhile fun p => !lt x p.1).length = n
  by_cases h0 : m.length = 0
  · simp only [h0]
    rfl
  rw [if_pos h0, if_pos h0]
  by_cases h1 : n = m.length
  · rw [if_pos h1, if_pos h1]
    cases m[n - 1]? <;> rfl
  rw [if_neg h1, if_neg h1]
  by_cases h2 : n = 0
  · rw [if_pos h2, if_pos h2]
    cases m[n]? <;> rfl
  rw [if_neg h2, if_neg h2]
  cases m[n - 1]? with
  | none => rfl
  | some p0 =>
    cases m[n]? with
    | none => rfl
    | some p1 => exact congrArg Res.ok (lerp_component hk f _ _ _)

/-- Results by component. -/
theorem by_component {r : Res Rgba} (h : ∃ v, r.map Rgba.r = .ok v) : ∃ c, r = .ok c := by
  cases r with
  | ok c => exact ⟨c, rfl⟩
  | err => obtain ⟨v, hv⟩ := h; cases hv
  | ub => obtain ⟨v, hv⟩ := h; cases hv

theorem colours_perm {f : Fmt} {l m : List (Fl × Rgba)} (h : Colours f l) (hp : m.Perm l) : Colours f m where
  key p hm := h.key p (hp.mem_iff.1 hm)
  distinct := (hp.pairwise_iff (R := fun (p q : Fl × Rgba) => val p.1 ≠ val q.1) fun h => h.symm).2 h.distinct
  component p hm := h.component p (hp.mem_iff.1 hm)

theorem colours_fine {f : Fmt} {l : List (Fl × Rgba)} (h : Colours f l) {p : Fl × Rgba} (hp : p ∈ l) : Fine f p.1 := ⟨(h.key p hp).1, (h.key p hp).2.1⟩

/-- The stored keys increase. -/
theorem stored_keys {f : Fmt} {l m : List (Fl × Rgba)} (h : Colours f l) (hs : Stores l m) : m.Pairwise fun p q => val p.1 < val q.1 := by
  have c := colours_perm h hs.1
  have := hs.2.and c.distinct
  refine this.imp_of_mem ?_
  rintro p q hp hq ⟨h1, h2⟩
  have e := (lt_false (fine_number (colours_fine c hq)) (fine_number (colours_fine c hp))).1 h1
  exact lt_of_le_of_ne ((num_le_num (colours_fine c hp) (colours_fine c hq)).1 e) h2

theorem stored_sorted {f : Fmt} {l m : List (Fl × Rgba)} (h : Colours f l) (hs : Stores l m) (k : Rgba → Fl) : Spec.Sorted (points k m) := by
  have c := colours_perm h hs.1
  refine ⟨?_, ?_⟩
  · intro p hp
    obtain ⟨q, hq, rfl⟩ := List.mem_map.1 hp
    exact fine_number (colours_fine c hq)
  · unfold points
    rw [List.pairwise_map]
    exact (stored_keys h hs).imp_of_mem fun hp hq hlt => (num_lt_num (colours_fine c hp) (colours_fine c hq)).2 hlt

/-- Where a value is among the stored keys. -/
theorem locate {m : List (Fl × Rgba)} (hm : m.Pairwise fun p q => val p.1 < val q.1) (h0 : m ≠ []) (x : Rat) :
    (∃ p b, m = p :: b ∧ x < val p.1) ∨ (∃ a p, m = a ++ [p] ∧ val p.1 ≤ x) ∨ ∃ a p q b, m = a ++ p :: q :: b ∧ val p.1 ≤ x ∧ x < val q.1 := by
  induction m with
  | nil => exact absurd rfl h0
  | cons p m ih =>
    by_cases h : x < val p.1
    · exact .inl ⟨p, m, rfl, h⟩
    · cases m with
      | nil => exact .inr (.inl ⟨[], p, rfl, not_lt.1 h⟩)
      | cons q m =>
        rcases ih (List.pairwise_cons.1 hm).2 (by simp) with ⟨r, b, e, hx⟩ | ⟨a, r, e, hx⟩ | ⟨a, r, s, b, e, h1, h2⟩
        · cases e
          exact .inr (.inr ⟨[], p, q, m, rfl, not_lt.1 h, hx⟩)
        · exact .inr (.inl ⟨p :: a, r, by rw [e]; rfl, hx⟩)
        · exact .inr (.inr ⟨p :: a, r, s, b, by rw [e]; rfl, h1, h2⟩)

/-- One rounding above one. -/
theorem rq_above {f : Fmt} (hf : FloatOrDouble f) : rq f (1 + un f) = 1 := by
  rcases hf with rfl | rfl <;> decide +kernel

theorem unit_sum {f : Fmt} (hf : FloatOrDouble f) {y D : Rat} (y0 : 0 ≤ y) (y1 : y ≤ 1) (hD : D ≤ 1 - y) : rq f (y + rq f D) ≤ 1 := by
  have w := wide_of hf
  have u0 := un_pos f
  have hm : f.emin ≤ -f.prec ∧ f.emin ≤ 0 := by rcases hf with rfl | rfl <;> decide
  set z : Int := ⌈(1 - y) * 2 ^ f.prec⌉ with hz
  have p0 : (0 : Rat) < 2 ^ f.prec := by positivity
  have z1 : (1 - y) * 2 ^ f.prec ≤ z := Int.le_ceil _
  have z2 : (z : Rat) < (1 - y) * 2 ^ f.prec + 1 := Int.ceil_lt_add_one _
  have z3 : z ≤ 2 ^ f.prec := by
    rw [hz, Int.ceil_le]
    push_cast
    exact mul_le_of_le_one_left p0.le (by linarith)
  have z4 : 0 ≤ z := Int.ceil_nonneg (mul_nonneg (by linarith) p0.le)
  have eu : un f = 2 ^ (-(f.prec : Int)) := by
    unfold un
    rw [zpow_neg, zpow_natCast, one_div]
  have hr : rq f (z * 2 ^ (-(f.prec : Int))) = z * 2 ^ (-(f.prec : Int)) := by
    rcases lt_or_eq_of_le z3 with h | h
    · exact rq_mul (by rw [abs_of_nonneg z4]; exact h) hm.1
    · have : (z : Rat) * 2 ^ (-(f.prec : Int)) = 1 := by
        rw [h]
        push_cast
        rw [zpow_neg, zpow_natCast, mul_inv_cancel₀ p0.ne']
      rw [this]
      exact rq_one w.1 hm.2
  have hq : (2 : Rat) ^ f.prec * 2 ^ (-(f.prec : Int)) = 1 := by
    rw [zpow_neg, zpow_natCast, mul_inv_cancel₀ p0.ne']
  have q0 : (0 : Rat) < 2 ^ (-(f.prec : Int)) := zpow_pos (by norm_num) _
  have hle : D ≤ z * 2 ^ (-(f.prec : Int)) := by
    have := mul_le_mul_of_nonneg_right z1 q0.le
    rw [mul_assoc, hq, mul_one] at this
    linarith
  have h1 : rq f D ≤ z * 2 ^ (-(f.prec : Int)) := by
    rw [← hr]
    exact rq_mono w.1 hle
  have h2 : (z : Rat) * 2 ^ (-(f.prec : Int)) ≤ (1 - y) + un f := by
    have := mul_le_mul_of_nonneg_right z2.le q0.le
    rw [add_mul, mul_assoc, hq, one_mul, mul_one, ← eu] at this
    rw [← eu]
    exact this
  calc rq f (y + rq f D) ≤ rq f (1 + un f) := rq_mono w.1 (by linarith)
    _ = 1 := rq_above hf

theorem sub_rounds {f : Fmt} {a b : Fl} (ha : Ieee.Spec.Finite a) (hb : Ieee.Spec.Finite b) (h : Ieee.Spec.Finite (sub f a b)) : val (sub f a b) = rq f (val a - val b) := by
  obtain ⟨s, x, rfl⟩ := finite_fin ha
  obtain ⟨t, y, rfl⟩ := finite_fin hb
  obtain ⟨r, m, e1, e2⟩ := sub_finite h
  rw [e1, e2]

theorem mul_rounds {f : Fmt} {a b : Fl} (ha : Ieee.Spec.Finite a) (hb : Ieee.Spec.Finite b) (h : Ieee.Spec.Finite (mul f a b)) : val (mul f a b) = rq f (val a * val b) := by
  obtain ⟨s, x, rfl⟩ := finite_fin ha
  obtain ⟨t, y, rfl⟩ := finite_fin hb
  obtain ⟨_, r, m, e1, e2⟩ := finite_ofRat (f := f) h
  have e1 : mul f (.fin s x) (.fin t y) = .fin r m := e1
  rw [e1, e2]

/-- Interpolation between values from zero to one stays there. -/
theorem lerp_unit {f : Fmt} (hf : FloatOrDouble f) {y0 y1 T : Fl} (h0 : Fine f y0) (h1 : Fine f y1) (hT : Ieee.Spec.Finite T) (t0 : 0 ≤ val T) (t1 : val T ≤ 1)
    (a0 : 0 ≤ val y0) (a1 : val y0 ≤ 1) (b0 : 0 ≤ val y1) (b1 : val y1 ≤ 1) :
    Fine f (lerp f y0 y1 T) ∧ 0 ≤ val (lerp f y0 y1 T) ∧ val (lerp f y0 y1 T) ≤ 1 := by
  have w := wide_of hf
  have hh : (16 : Rat) ≤ 2 ^ f.emax := by
    have : (2 : Rat) ^ (4 : Int) ≤ 2 ^ f.emax := zpow_le_zpow_right₀ (by norm_num) (by rcases hf with rfl | rfl <;> decide)
    exact le_trans (by norm_num) this
  have hm : f.emin ≤ 0 := by rcases hf with rfl | rfl <;> decide
  have ab : |val y1 - val y0| ≤ 1 := abs_le.2 ⟨by linarith, by linarith⟩
  obtain ⟨d1, d2⟩ := sub_fine w h1 h0 (by linarith)
  have u1 := un_le w
  have u0 := un_pos f
  norm_num at u1
  have hD : |val (sub f y1 y0)| ≤ 2 := by
    have := abs_add_le (val (sub f y1 y0) - (val y1 - val y0)) (val y1 - val y0)
    rw [sub_add_cancel] at this
    have := mul_le_mul_of_nonneg_left ab u0.le
    linarith
  have hTD : |val T * val (sub f y1 y0)| ≤ 2 := by
    rw [abs_mul, abs_of_nonneg t0]
    calc val T * |val (sub f y1 y0)| ≤ 1 * 2 := mul_le_mul t1 hD (abs_nonneg _) (by norm_num)
      _ = 2 := by norm_num
  obtain ⟨p1, p2⟩ := mul_fine w hT d1.1 (by linarith)
  have vD := sub_rounds h1.1 h0.1 d1.1
  have vP := mul_rounds hT d1.1 p1.1
  have rD : rq f (val (sub f y1 y0)) = val (sub f y1 y0) := by
    obtain ⟨s, x, e⟩ := finite_fin d1.1
    have := d1.2
    rw [e] at this ⊢
    exact rq_val this
  have r0 : rq f (val y0) = val y0 := by
    obtain ⟨s, x, e⟩ := finite_fin h0.1
    have := h0.2
    rw [e] at this ⊢
    exact rq_val this
  have lo : 0 ≤ val y0 + val (mul f T (sub f y1 y0)) ∧ rq f (val y0 + val (mul f T (sub f y1 y0))) ≤ 1 := by
    rcases le_total 0 (val (sub f y1 y0)) with hd | hd
    · have k1 : 0 ≤ val (mul f T (sub f y1 y0)) := by
        rw [vP]
        exact rq_nonneg (mul_nonneg t0 hd)
      have k2 : val (mul f T (sub f y1 y0)) ≤ rq f (val y1 - val y0) := by
        rw [vP, ← vD, ← rD]
        refine rq_mono w.1 ?_
        rw [rD]
        exact mul_le_of_le_one_left hd t1
      refine ⟨by linarith, ?_⟩
      calc rq f (val y0 + val (mul f T (sub f y1 y0))) ≤ rq f (val y0 + rq f (val y1 - val y0)) := rq_mono w.1 (by linarith)
        _ ≤ 1 := unit_sum hf a0 a1 (by linarith)
    · have k1 : val (mul f T (sub f y1 y0)) ≤ 0 := by
        rw [vP]
        have := rq_mono (f := f) w.1 (show val T * val (sub f y1 y0) ≤ 0 from mul_nonpos_of_nonneg_of_nonpos t0 hd)
        rwa [rq_zero] at this
      have k2 : -val y0 ≤ val (mul f T (sub f y1 y0)) := by
        have e1 : -val y0 ≤ val (sub f y1 y0) := by
          rw [vD]
          calc -val y0 = rq f (-val y0) := by rw [rq_neg, r0]
            _ ≤ rq f (val y1 - val y0) := rq_mono w.1 (by linarith)
        rw [vP]
        calc -val y0 ≤ val (sub f y1 y0) := e1
          _ = rq f (val (sub f y1 y0)) := rD.symm
          _ ≤ rq f (val T * val (sub f y1 y0)) := rq_mono w.1 (by
            have := mul_le_mul_of_nonpos_right t1 hd
            linarith)
      refine ⟨by linarith, ?_⟩
      calc rq f (val y0 + val (mul f T (sub f y1 y0))) ≤ rq f 1 := rq_mono w.1 (by linarith)
        _ = 1 := rq_one w.1 hm
  have hB : |val y0 + val (mul f T (sub f y1 y0))| ≤ 5 := by
    have g : |val (mul f T (sub f y1 y0))| ≤ 4 := by
      have := abs_add_le (val (mul f T (sub f y1 y0)) - val T * val (sub f y1 y0)) (val T * val (sub f y1 y0))
      rw [sub_add_cancel] at this
      have e2 : et f ≤ 1 / 10 := (et_le w).trans ((pow_le_pow_left₀ u0.le (un_le w) 5).trans (by norm_num))
      have := mul_le_mul_of_nonneg_left hTD u0.le
      linarith
    refine (abs_add_le _ _).trans ?_
    rw [abs_of_nonneg a0]
    linarith
  obtain ⟨r1, -⟩ := add_fine w h0 p1 hB (by linarith)
  have e : val (lerp f y0 y1 T) = rq f (val y0 + val (mul f T (sub f y1 y0))) := add_finite h0.1 p1.1 r1.1
  refine ⟨r1, ?_, ?_⟩
  · rw [e]
    exact rq_nonneg lo.1
  · rw [e]
    exact lo.2

theorem segment_of {f : Fmt} (w : Wide f) {x0 x1 : Fl} (h0 : Fine f x0) (h1 : Fine f x1) (k0 : 4 * |val x0| < 2 ^ f.emax) (k1 : 4 * |val x1| < 2 ^ f.emax) (h : val x0 < val x1) : Seg f x0 x1 where
  ty0 := h0.2
  ty1 := h1.2
  fin0 := h0.1
  fin1 := h1.1
  lt := h
  diff := (sub_fine w h1 h0 (by
    have := abs_sub (val x1) (val x0)
    linarith)).1.1

theorem fine_component {f : Fmt} {l : List (Fl × Rgba)} (h : Colours f l) {p : Fl × Rgba} (hp : p ∈ l) {k : Rgba → Fl} (hk : k ∈ components) : Fine f (k p.2) :=
  ⟨(h.component p hp k hk).1, (h.component p hp k hk).2.1⟩

/-- The result between two stored neighbours. -/
theorem between_stored {f : Fmt} (hf : FloatOrDouble f) {m a b : List (Fl × Rgba)} {p q : Fl × Rgba} (c : Colours f m) (hk : m.Pairwise fun p q => val p.1 < val q.1) (e : m = a ++ p :: q :: b)
    {x : Fl} (hx : Fine f x) (h0 : val p.1 ≤ val x) (h1 : val x < val q.1) :
    ∃ r, gradient f m x = .ok r ∧ ∀ k ∈ components, Fine f (k r) ∧ 0 ≤ val (k r) ∧ val (k r) ≤ 1 ∧
      |val (k r) - line (val p.1) (val (k p.2)) (val q.1) (val (k q.2)) (val x)| ≤ 16 * roundoff f + 2 * tiny f := by
  have w := wide_of hf
  have hp : p ∈ m := by rw [e]; simp
  have hq : q ∈ m := by rw [e]; simp
  have gp := colours_fine c hp
  have gq := colours_fine c hq
  have hh : (16 : Rat) ≤ 2 ^ f.emax := by
    have : (2 : Rat) ^ (4 : Int) ≤ 2 ^ f.emax := zpow_le_zpow_right₀ (by norm_num) (by rcases hf with rfl | rfl <;> decide)
    exact le_trans (by norm_num) this
  have hm : f.emin ≤ 0 ∧ 1 ≤ f.emax := by rcases hf with rfl | rfl <;> decide
  have hsort : ∀ k, Spec.Sorted (points k m) := fun k => by
    refine ⟨?_, ?_⟩
    · intro p hp
      obtain ⟨q, hq, rfl⟩ := List.mem_map.1 hp
      exact fine_number (colours_fine c hq)
    · unfold points
      rw [List.pairwise_map]
      exact hk.imp_of_mem fun hp hq hlt => (num_lt_num (colours_fine c hp) (colours_fine c hq)).2 hlt
  have hmap : ∀ k, lerpMap f (points k m) x = .ok (lerpAt f (p.1, k p.2) (q.1, k q.2) x) := fun k => by
    have := hsort k
    have ep : points k m = points k a ++ (p.1, k p.2) :: (q.1, k q.2) :: points k b := by
      rw [e]
      simp [points]
    rw [ep] at this ⊢
    exact map_segment this (fine_number hx) ((num_le_num gp hx).2 h0) ((num_lt_num hx gq).2 h1)
  obtain ⟨r, hr⟩ := by_component (r := gradient f m x) ⟨_, (gradient_component (k := Rgba.r) (by simp [components]) f m x).trans (hmap _)⟩
  refine ⟨r, hr, fun k hkc => ?_⟩
  have ek : k r = lerpAt f (p.1, k p.2) (q.1, k q.2) x := by
    have := (gradient_component hkc f m x).trans (hmap k)
    rw [hr] at this
    exact Res.ok.inj this
  obtain ⟨cp1, cp2, cp3, cp4⟩ := c.component p hp k hkc
  obtain ⟨cq1, cq2, cq3, cq4⟩ := c.component q hq k hkc
  have k0 := (c.key p hp).2.2
  have k1 := (c.key q hq).2.2
  obtain ⟨s, u, e1, t0, t1, -⟩ := seg_param w.1 hm.1 hm.2 (segment_of w gp gq k0 k1 (h0.trans_lt h1)) hx.2 hx.1 h0 h1.le
  have hu := lerp_unit hf (fine_component c hp hkc) (fine_component c hq hkc) (T := .fin s u) trivial t0 t1 cp3 cp4 cq3 cq4
  have ha := lerpAt_close w gp (fine_component c hp hkc) gq (fine_component c hq hkc) hx (h0.trans_lt h1) h0 h1.le (by
    have := abs_le.1 (le_refl |val p.1|)
    have := abs_le.1 (le_refl |val q.1|)
    linarith) (by
    rw [abs_of_nonneg cp3, abs_of_nonneg cq3]
    linarith)
  rw [ek]
  have el : lerpAt f (p.1, k p.2) (q.1, k q.2) x = lerp f (k p.2) (k q.2) (.fin s u) := by
    unfold lerpAt
    rw [e1]
  refine ⟨ha.1, ?_, ?_, ha.2.trans ?_⟩
  · rw [el]
    exact hu.2.1
  · rw [el]
    exact hu.2.2
  · rw [abs_of_nonneg cp3, abs_of_nonneg cq3]
    have u0 := un_pos f
    have : un f * (val (k p.2) + val (k q.2)) ≤ un f * 2 := mul_le_mul_of_nonneg_left (by linarith) u0.le
    change _ ≤ 16 * un f + 2 * et f
    linarith

theorem stored_colours {f : Fmt} {l m : List (Fl × Rgba)} (h : Colours f l) (hs : Stores l m) : Colours f m := colours_perm h hs.1

/-- **C152, outside.** At and beyond the largest value the gradient has its colour, and before the smallest value its colour. -/
theorem C152_outside {f : Fmt} {l m : List (Fl × Rgba)} (h : Colours f l) (hs : Stores l m) {p : Fl × Rgba} (hp : p ∈ l) {x : Fl} (hx : ¬ IsNan x) :
    ((∀ q ∈ l, val q.1 ≤ val p.1) → num p.1 ≤ num x → gradient f m x = .ok p.2) ∧ ((∀ q ∈ l, val p.1 ≤ val q.1) → num x < num p.1 → gradient f m x = .ok p.2) := by
  have c := stored_colours h hs
  have hk := stored_keys h hs
  have hpm := hs.1.mem_iff.2 hp
  refine ⟨fun hmax hle => ?_, fun hmin hlt => ?_⟩
  · rcases List.eq_nil_or_concat m with rfl | ⟨a, q, rfl⟩
    · simp at hpm
    have eq : q = p := by
      rcases List.mem_append.1 (by simpa using hpm : p ∈ a ++ [q]) with ha | ha
      · have := (List.pairwise_append.1 (by simpa using hk : (a ++ [q]).Pairwise _)).2.2 p ha q (by simp)
        have := hmax q (hs.1.mem_iff.1 (by simp))
        linarith
      · exact (List.mem_singleton.1 ha).symm
    subst eq
    have hu : ((a.concat q).takeWhile fun p => !lt x p.1) = a.concat q := by
      have := takeWhile_split (fun p : Fl × Rgba => !lt x p.1) (a.concat q) [] ?_ (by simp)
      · rwa [List.append_nil] at this
      intro r hr
      have : lt x r.1 = false := by
        refine (lt_false hx (fine_number (colours_fine c hr))).2 (le_trans ?_ hle)
        exact (num_le_num (colours_fine c hr) (colours_fine c hpm)).2 (hmax r (hs.1.mem_iff.1 hr))
      simp [this]
    unfold gradient
    rw [if_pos (by simp)]
    simp only [hu, if_true]
    rw [List.concat_eq_append]
    simp [Res.ofOptionUb, Res.map]
  · cases m with
    | nil => simp at hpm
    | cons q a =>
      have eq : q = p := by
        rcases List.mem_cons.1 hpm with ha | ha
        · exact ha.symm
        · have := (List.pairwise_cons.1 hk).1 p ha
          have := hmin q (hs.1.mem_iff.1 (by simp))
          linarith
      subst eq
      have hu : ((q :: a).takeWhile fun p => !lt x p.1) = [] := by
        have : lt x q.1 = true := (lt_iff hx (fine_number (colours_fine c hpm))).2 hlt
        simp [List.takeWhile_cons, this]
      unfold gradient
      rw [if_pos (by simp)]
      simp only [hu]
      simp [Res.ofOptionUb, Res.map]

/-- **C152, the given colours.** At each given value the gradient has the given colour. -/
theorem C152_given {f : Fmt} (hf : FloatOrDouble f) {l m : List (Fl × Rgba)} (h : Colours f l) (hs : Stores l m) {p : Fl × Rgba} (hp : p ∈ l) :
    ∃ c, gradient f m p.1 = .ok c ∧ ∀ k ∈ components, num (k c) = num (k p.2) := by
  have w := wide_of hf
  have c := stored_colours h hs
  have hk := stored_keys h hs
  have hm : f.emin ≤ 0 ∧ 1 ≤ f.emax := by rcases hf with rfl | rfl <;> decide
  have hh : (16 : Rat) ≤ 2 ^ f.emax := by
    have : (2 : Rat) ^ (4 : Int) ≤ 2 ^ f.emax := zpow_le_zpow_right₀ (by norm_num) (by rcases hf with rfl | rfl <;> decide)
    exact le_trans (by norm_num) this
  obtain ⟨a, b, e⟩ := List.append_of_mem (hs.1.mem_iff.2 hp)
  have hp' : p ∈ m := hs.1.mem_iff.2 hp
  have hpt : ∀ k ∈ components, ∃ v, lerpMap f (points k m) p.1 = .ok v ∧ num v = num (k p.2) := fun k hkc => by
    have hsort := stored_sorted h hs k
    have ep : points k m = points k a ++ (p.1, k p.2) :: points k b := by
      rw [e]
      simp [points]
    rw [ep] at hsort ⊢
    refine C131_map_points w.1 hm.1 hm.2 hsort (colours_fine c hp').1 (fine_component c hp' hkc).1 (fine_component c hp' hkc).2 ?_
    intro q hq
    cases b with
    | nil => simp [points] at hq
    | cons r b =>
      simp only [points, List.map_cons, List.head?_cons, Option.some.injEq] at hq
      subst hq
      have hr : r ∈ m := by rw [e]; simp
      have hlt : val p.1 < val r.1 := by
        rw [e] at hk
        exact (List.pairwise_cons.1 (List.pairwise_append.1 hk).2.1).1 r (by simp)
      refine ⟨segment_of w (colours_fine c hp') (colours_fine c hr) (c.key p hp').2.2 (c.key r hr).2.2 hlt, (fine_component c hr hkc).1, ?_⟩
      obtain ⟨_, _, c1, c2⟩ := c.component p hp' k hkc
      obtain ⟨_, _, c3, c4⟩ := c.component r hr k hkc
      refine (sub_fine w (fine_component c hr hkc) (fine_component c hp' hkc) ?_).1.1
      have : |val (k r.2) - val (k p.2)| ≤ 1 := abs_le.2 ⟨by linarith, by linarith⟩
      linarith
  obtain ⟨v, hv, -⟩ := hpt Rgba.r (by simp [components])
  obtain ⟨r, hr⟩ := by_component (r := gradient f m p.1) ⟨_, (gradient_component (k := Rgba.r) (by simp [components]) f m p.1).trans hv⟩
  refine ⟨r, hr, fun k hkc => ?_⟩
  obtain ⟨v, hv, hn⟩ := hpt k hkc
  have := (gradient_component hkc f m p.1).trans hv
  rw [hr] at this
  rw [← hn]
  exact congrArg num (Res.ok.inj this)

/-- **C152, between.** Between two neighbouring values each component is within sixteen roundings of the straight line between the two colours. -/
theorem C152_between {f : Fmt} (hf : FloatOrDouble f) {l m : List (Fl × Rgba)} (h : Colours f l) (hs : Stores l m) {p q : Fl × Rgba} (hp : p ∈ l) (hq : q ∈ l)
    (hn : ∀ r ∈ l, val r.1 ≤ val p.1 ∨ val q.1 ≤ val r.1) {x : Fl} (hx : Ieee.Spec.Finite x) (ht : OfType f x) (h0 : val p.1 ≤ val x) (h1 : val x < val q.1) :
    ∃ c, gradient f m x = .ok c ∧ ∀ k ∈ components, Ieee.Spec.Finite (k c) ∧
      |val (k c) - line (val p.1) (val (k p.2)) (val q.1) (val (k q.2)) (val x)| ≤ 16 * roundoff f + 2 * tiny f := by
  have c := stored_colours h hs
  have hk := stored_keys h hs
  have hpm := hs.1.mem_iff.2 hp
  have hqm := hs.1.mem_iff.2 hq
  rcases locate hk (List.ne_nil_of_mem hpm) (val x) with ⟨r, b, e, g⟩ | ⟨a, r, e, g⟩ | ⟨a, r, s, b, e, g0, g1⟩
  · rw [e] at hpm hk
    rcases List.mem_cons.1 hpm with rfl | hb
    · linarith
    · have := (List.pairwise_cons.1 hk).1 p hb
      linarith
  · rw [e] at hqm hk
    rcases List.mem_append.1 hqm with ha | ha
    · have := (List.pairwise_append.1 hk).2.2 q ha r (by simp)
      linarith
    · have : q = r := by simpa using ha
      subst this
      linarith
  · have hrl : r ∈ l := hs.1.mem_iff.1 (by rw [e]; simp)
    have hsl : s ∈ l := hs.1.mem_iff.1 (by rw [e]; simp)
    have kk := hk
    rw [e] at kk hpm hqm
    have k1 := List.pairwise_append.1 kk
    have k2 := List.pairwise_cons.1 k1.2.1
    have k3 := List.pairwise_cons.1 k2.2
    have ep : p = r := by
      rcases List.mem_append.1 hpm with ha | ha
      · have := k1.2.2 p ha r (by simp)
        rcases hn r hrl with h | h <;> linarith
      · rcases List.mem_cons.1 ha with ha | ha
        · exact ha
        · rcases List.mem_cons.1 ha with rfl | ha
          · linarith
          · have := k3.1 p ha
            linarith
    have eq : q = s := by
      rcases List.mem_append.1 hqm with ha | ha
      · have := k1.2.2 q ha r (by simp)
        linarith
      · rcases List.mem_cons.1 ha with rfl | ha
        · linarith
        · rcases List.mem_cons.1 ha with ha | ha
          · exact ha
          · have := k3.1 q ha
            rcases hn s hsl with h | h <;> linarith
    subst ep eq
    obtain ⟨r, h2, h3⟩ := between_stored hf c hk e ⟨hx, ht⟩ h0 h1
    exact ⟨r, h2, fun k hkc => ⟨(h3 k hkc).1.1, (h3 k hkc).2.2.2⟩⟩

/-- **C152, range.** Every finite value has a colour, and its components are from zero to one. -/
theorem C152_range {f : Fmt} (hf : FloatOrDouble f) {l m : List (Fl × Rgba)} (h : Colours f l) (hs : Stores l m) (h0 : l ≠ []) {x : Fl} (hx : Ieee.Spec.Finite x) (ht : OfType f x) :
    ∃ c, gradient f m x = .ok c ∧ ∀ k ∈ components, Ieee.Spec.Finite (k c) ∧ 0 ≤ val (k c) ∧ val (k c) ≤ 1 := by
  have c := stored_colours h hs
  have hk := stored_keys h hs
  have g : Fine f x := ⟨hx, ht⟩
  have hm : m ≠ [] := fun e => by
    have hp := hs.1
    rw [e] at hp
    exact h0 hp.nil_eq.symm
  have fin : ∀ p ∈ m, ∀ k ∈ components, Ieee.Spec.Finite (k p.2) ∧ 0 ≤ val (k p.2) ∧ val (k p.2) ≤ 1 := fun p hp k hkc =>
    ⟨(c.component p hp k hkc).1, (c.component p hp k hkc).2.2⟩
  rcases locate hk hm (val x) with ⟨r, b, e, g1⟩ | ⟨a, r, e, g1⟩ | ⟨a, r, s, b, e, g0, g1⟩
  · have hr : r ∈ m := by rw [e]; simp
    refine ⟨r.2, (C152_outside h hs (hs.1.mem_iff.1 hr) (fine_number g)).2 ?_ ((num_lt_num g (colours_fine c hr)).2 g1), fin r hr⟩
    intro q hq
    have hq := hs.1.mem_iff.2 hq
    rw [e] at hq hk
    rcases List.mem_cons.1 hq with rfl | hb
    · exact le_rfl
    · exact ((List.pairwise_cons.1 hk).1 q hb).le
  · have hr : r ∈ m := by rw [e]; simp
    refine ⟨r.2, (C152_outside h hs (hs.1.mem_iff.1 hr) (fine_number g)).1 ?_ ((num_le_num (colours_fine c hr) g).2 g1), fin r hr⟩
    intro q hq
    have hq := hs.1.mem_iff.2 hq
    rw [e] at hq hk
    rcases List.mem_append.1 hq with ha | ha
    · exact ((List.pairwise_append.1 hk).2.2 q ha r (by simp)).le
    · have : q = r := by simpa using ha
      rw [this]
  · obtain ⟨r, h2, h3⟩ := between_stored hf c hk e g g0 g1
    exact ⟨r, h2, fun k hkc => ⟨(h3 k hkc).1.1, (h3 k hkc).2.1, (h3 k hkc).2.2.1⟩⟩

/-- **C152, no colours.** A gradient without colours is refused when it is used. -/
theorem C152_empty (f : Fmt) {m : List (Fl × Rgba)} (hs : Stores [] m) (x : Fl) : gradient f m x = .err := by
  have : m = [] := hs.1.eq_nil
  subst this
  rfl

/-- **C152, two colours for one value, violated.** For a jump from red to green at one, the library may keep the two colours in either order: at one it shows either colour. -/
theorem C152_jump_violated :
    ∃ (l m n : List (Fl × Rgba)) (red green : Rgba), l = [(ofNat 0, red), (ofNat 1, red), (ofNat 1, green), (ofNat 2, green)] ∧ red ≠ green ∧ Stores l m ∧ Stores l n ∧
      gradient binary32 m (ofNat 1) = .ok green ∧ gradient binary32 n (ofNat 1) = .ok red := by
  refine ⟨_, [(ofNat 0, ⟨ofNat 1, ofNat 0, ofNat 0, ofNat 1⟩), (ofNat 1, ⟨ofNat 1, ofNat 0, ofNat 0, ofNat 1⟩), (ofNat 1, ⟨ofNat 0, ofNat 1, ofNat 0, ofNat 1⟩), (ofNat 2, ⟨ofNat 0, ofNat 1, ofNat 0, ofNat 1⟩)],
    [(ofNat 0, ⟨ofNat 1, ofNat 0, ofNat 0, ofNat 1⟩), (ofNat 1, ⟨ofNat 0, ofNat 1, ofNat 0, ofNat 1⟩), (ofNat 1, ⟨ofNat 1, ofNat 0, ofNat 0, ofNat 1⟩), (ofNat 2, ⟨ofNat 0, ofNat 1, ofNat 0, ofNat 1⟩)],
    ⟨ofNat 1, ofNat 0, ofNat 0, ofNat 1⟩, ⟨ofNat 0, ofNat 1, ofNat 0, ofNat 1⟩, rfl, by decide +kernel, ⟨by decide +kernel, by decide +kernel⟩, ⟨by decide +kernel, by decide +kernel⟩, by decide +kernel, by decide +kernel⟩

/-- Blue at minus one, white at three, given in the other order. -/
theorem blue_white : Colours binary32 [(ofNat 3, ⟨ofNat 1, ofNat 1, ofNat 1, ofNat 1⟩), (neg (ofNat 1), ⟨ofNat 0, ofNat 0, ofNat 1, ofNat 1⟩)] where
  key p hp := by
    have hh : (16 : Rat) ≤ 2 ^ binary32.emax := by
      have : (2 : Rat) ^ (4 : Int) ≤ 2 ^ binary32.emax := zpow_le_zpow_right₀ (by norm_num) (by decide)
      exact le_trans (by norm_num) this
    fin_cases hp
    · exact ⟨trivial, ⟨3, 0, by decide +kernel⟩, lt_of_lt_of_le (by decide +kernel) hh⟩
    · exact ⟨trivial, ⟨1, 0, by decide +kernel⟩, lt_of_lt_of_le (by decide +kernel) hh⟩
  distinct := by decide +kernel
  component p hp k hk := by
    have one : Ieee.Spec.Finite (ofNat 1) ∧ OfType binary32 (ofNat 1) ∧ 0 ≤ val (ofNat 1) ∧ val (ofNat 1) ≤ 1 := ⟨trivial, ⟨1, 0, by decide +kernel⟩, by decide +kernel, by decide +kernel⟩
    have zero : Ieee.Spec.Finite (ofNat 0) ∧ OfType binary32 (ofNat 0) ∧ 0 ≤ val (ofNat 0) ∧ val (ofNat 0) ≤ 1 := ⟨trivial, ⟨0, 0, by decide +kernel⟩, by decide +kernel, by decide +kernel⟩
    fin_cases hp <;> fin_cases hk <;> first | exact one | exact zero

/-- A quarter of the way from blue to white. -/
example : ∃ c, gradient binary32 [(neg (ofNat 1), ⟨ofNat 0, ofNat 0, ofNat 1, ofNat 1⟩), (ofNat 3, ⟨ofNat 1, ofNat 1, ofNat 1, ofNat 1⟩)] (ofNat 0) = .ok c ∧
    ∀ k ∈ components, Ieee.Spec.Finite (k c) ∧ 0 ≤ val (k c) ∧ val (k c) ≤ 1 :=
  C152_range (.inl rfl) blue_white ⟨by decide +kernel, by decide +kernel⟩ (by simp) trivial ⟨0, 0, by decide +kernel⟩

end Xo.Ieee
