import Verif.Model.SmoothClampFl
import Verif.Props.C121_Rounding
import Verif.Props.C159_Powers

/-!
C160: the smooth clamp, with rounding.
-/
namespace Xo.SmoothFl
open Num (Fl Fmt binary32 binary64)
open Ieee Norm LongSum
open Ieee.Spec (OfType num IsNan)
open Norm.Spec (FloatOrDouble)
open LongSum.Spec

namespace Spec

/-- What is needed of the hyperbolic tangent of the library: it is zero at zero, never falls, and stays between -1 and 1. -/
structure TanhLike (t : Fl → Fl) : Prop where
  finite : ∀ x, ¬ IsNan x → Ieee.Spec.Finite (t x)
  range : ∀ x, ¬ IsNan x → -1 ≤ val (t x) ∧ val (t x) ≤ 1
  zero : ∀ x, ¬ IsNan x → num x = ((0 : Rat) : WithTop Rat) → val (t x) = 0
  mono : ∀ x y, ¬ IsNan x → ¬ IsNan y → num x ≤ num y → val (t x) ≤ val (t y)

/-- The arguments of a clamp: numbers of the type that are not at the upper end of its range, in order. -/
structure Arguments (f : Fmt) (mn mx lb ub : Fl) : Prop where
  finite : Ieee.Spec.Finite mn ∧ Ieee.Spec.Finite mx ∧ Ieee.Spec.Finite lb ∧ Ieee.Spec.Finite ub
  ofType : OfType f mn ∧ OfType f mx ∧ OfType f lb ∧ OfType f ub
  low : val mn < val lb
  mid : val lb ≤ val ub
  high : val ub < val mx
  size : 16 * |val mn| ≤ 2 ^ f.emax ∧ 16 * |val mx| ≤ 2 ^ f.emax

end Spec
open Spec

theorem lt_val {f : Fmt} {a b : Fl} (ha : Fine f a) (hb : Fine f b) : lt a b = true ↔ val a < val b := by
  rw [lt_iff (fine_number ha) (fine_number hb), num_fine ha, num_fine hb]
  simp

/-- A quotient by a positive number keeps the order. -/
theorem div_mono {f : Fmt} (hf : f.Ok) {d : Fl} (hd : Fine f d) (d0 : 0 < val d) (a b : Fl) (ha : ¬ IsNan a) (hb : ¬ IsNan b) (h : num a ≤ num b) :
    ¬ IsNan (div f a d) ∧ ¬ IsNan (div f b d) ∧ num (div f a d) ≤ num (div f b d) := by
  obtain ⟨s, m, rfl⟩ := finite_fin hd.1
  have mn : 0 ≤ m := by
    obtain ⟨k, e, -, -, -, hm⟩ := hd.2
    rw [hm]
    exact mul_nonneg (Nat.cast_nonneg k) (zpow_pos (by norm_num) _).le
  have s0 : s = false := by
    cases s
    · rfl
    · simp only [val, if_true] at d0
      linarith
  subst s0
  have m0 : m ≠ 0 := by rintro rfl; norm_num [val] at d0
  have nn : ∀ c, ¬ IsNan c → ¬ IsNan (div f c (.fin false m)) := by
    intro c hc
    rcases c with r | r | ⟨r, k⟩
    · exact absurd trivial hc
    · exact id
    · simp only [div, if_neg m0]
      exact ofRat_not_nan _ _
  refine ⟨nn a ha, nn b hb, ?_⟩
  rcases a with r | r | ⟨r, k⟩
  · exact absurd trivial ha
  · cases r
    · rcases b with t | t | ⟨t, n⟩
      · exact absurd trivial hb
      · cases t
        · exact le_refl _
        · exact absurd h (by simp [num])
      · exact absurd h (not_le.2 (WithBot.coe_lt_coe.2 (WithTop.coe_lt_top _)))
    · exact bot_le
  · rcases b with t | t | ⟨t, n⟩
    · exact absurd trivial hb
    · cases t
      · have : ∀ c : WithBot (WithTop Rat), c ≤ num (.inf false) := fun c => by
          cases c
          · exact bot_le
          · exact WithBot.coe_le_coe.2 le_top
        exact this _
      · exact absurd h (by simp [num])
    · rw [num_div _ _ _ _ m0, num_div _ _ _ _ m0]
      rw [num_fin, num_fin, WithBot.coe_le_coe, WithTop.coe_le_coe] at h
      exact R_mono hf (div_le_div_of_nonneg_right h d0.le)

/-- The number given to the tangent. -/
abbrev arg (f : Fmt) (d L v : Fl) : Fl := div f (sub f v L) d

theorem arg_mono {f : Fmt} (hf : f.Ok) {d L v w : Fl} (hd : Fine f d) (d0 : 0 < val d) (hL : Fine f L) (hv : Fine f v) (hw : Fine f w) (h : val v ≤ val w) :
    ¬ IsNan (arg f d L v) ∧ ¬ IsNan (arg f d L w) ∧ num (arg f d L v) ≤ num (arg f d L w) := by
  obtain ⟨s, m, rfl⟩ := finite_fin hL.1
  obtain ⟨sv, kv, rfl⟩ := finite_fin hv.1
  obtain ⟨sw, kw, rfl⟩ := finite_fin hw.1
  refine div_mono hf hd d0 _ _ (ofRat_not_nan _ _) (ofRat_not_nan _ _) ?_
  rw [num_sub, num_sub]
  exact R_mono hf (by linarith)

theorem arg_zero {f : Fmt} {d L : Fl} (hd : Fine f d) (d0 : 0 < val d) (hL : Fine f L) : num (arg f d L L) = ((0 : Rat) : WithTop Rat) := by
  obtain ⟨s, m, rfl⟩ := finite_fin hL.1
  obtain ⟨t, k, rfl⟩ := finite_fin hd.1
  have m0 : k ≠ 0 := by rintro rfl; cases t <;> norm_num [val] at d0
  have e : val (.fin s m) + val (neg (.fin s m)) = 0 := by rw [num_neg (a := .fin s m), add_neg_cancel]
  have e1 : sub f (.fin s m) (.fin s m) = .fin (s && !s) 0 := by
    show ofRat f (s && !s) (val (.fin s m) + val (neg (.fin s m))) = _
    rw [e]
    exact if_pos rfl
  show num (div f (sub f (.fin s m) (.fin s m)) (.fin t k)) = _
  rw [e1, num_div _ _ _ _ m0]
  have : val (.fin (s && !s) 0) = 0 := by cases s <;> norm_num [val]
  rw [this, zero_div, R_zero]

/-- What the tangent gives. -/
theorem tangent {f : Fmt} (hf : f.Ok) {t : Fl → Fl} (ht : TanhLike t) {d L v w : Fl} (hd : Fine f d) (d0 : 0 < val d) (hL : Fine f L) (hv : Fine f v) (hw : Fine f w) :
    (Ieee.Spec.Finite (t (arg f d L v)) ∧ -1 ≤ val (t (arg f d L v)) ∧ val (t (arg f d L v)) ≤ 1) ∧ (val v ≤ val L → val (t (arg f d L v)) ≤ 0) ∧ (val L ≤ val v → 0 ≤ val (t (arg f d L v))) ∧
    (val v ≤ val w → val (t (arg f d L v)) ≤ val (t (arg f d L w))) := by
  have n := (arg_mono hf hd d0 hL hv hv le_rfl).1
  have nL := (arg_mono hf hd d0 hL hL hL le_rfl).1
  have z := ht.zero _ nL (arg_zero hd d0 hL)
  refine ⟨⟨ht.finite _ n, ht.range _ n⟩, fun h => ?_, fun h => ?_, fun h => ?_⟩
  · obtain ⟨a, b, c⟩ := arg_mono hf hd d0 hL hv hL h
    rw [← z]; exact ht.mono _ _ a b c
  · obtain ⟨a, b, c⟩ := arg_mono hf hd d0 hL hL hv h
    rw [← z]; exact ht.mono _ _ a b c
  · obtain ⟨a, b, c⟩ := arg_mono hf hd d0 hL hv hw h
    exact ht.mono _ _ a b c

/-- A width. -/
theorem width {f : Fmt} (w : Wide f) {a b : Fl} (ha : Fine f a) (hb : Fine f b) (h : val a < val b) (A : 16 * |val a| ≤ 2 ^ f.emax) (B : 16 * |val b| ≤ 2 ^ f.emax) :
    Fine f (sub f b a) ∧ 0 < val (sub f b a) ∧ 6 * val (sub f b a) ≤ 2 ^ f.emax ∧ |val (sub f b a) - (val b - val a)| ≤ un f * (val b - val a) := by
  have u0 := un_pos f
  have u1 := un_le w
  norm_num at u1
  have D : |val b - val a| = val b - val a := abs_of_pos (by linarith)
  have hb1 := one_le w
  norm_num at hb1
  rw [← abs_neg] at A
  have A' := neg_le_abs (val a)
  rw [abs_neg] at A
  have B' := le_abs_self (val b)
  obtain ⟨g, e⟩ := sub_fine w hb ha (by rw [D]; linarith)
  rw [D] at e
  refine ⟨g, ?_, ?_, e⟩
  all_goals
    have := abs_le.1 e
    have : un f * (val b - val a) ≤ 1 / 16777216 * (val b - val a) := mul_le_mul_of_nonneg_right u1 (by linarith)
    linarith

/-- Width times tangent, and the sum with the border. -/
theorem side {f : Fmt} (w : Wide f) {d L T : Fl} (hd : Fine f d) (d0 : 0 < val d) (hL : Fine f L) (hT : Ieee.Spec.Finite T) (t1 : -1 ≤ val T) (t2 : val T ≤ 1)
    (D : 6 * val d ≤ 2 ^ f.emax) (B : 16 * |val L| ≤ 2 ^ f.emax) :
    Fine f (add f (mul f d T) L) ∧ val (add f (mul f d T) L) = rq f (rq f (val d * val T) + val L) ∧ |rq f (val d * val T)| ≤ val d := by
  have hb1 := one_le w
  norm_num at hb1
  have a1 : |val d * val T| ≤ val d := by
    rw [abs_mul, abs_of_pos d0]
    have := mul_le_mul_of_nonneg_left (abs_le.2 ⟨t1, t2⟩) d0.le
    linarith
  obtain ⟨g, -⟩ := mul_fine w hd.1 hT (by linarith)
  have e := Ieee.mul_rounds hd.1 hT g.1
  have a2 : |rq f (val d * val T)| ≤ val d := by
    rw [abs_le] at a1 ⊢
    have r := SoftCl.fine_rq hd
    have k1 := rq_mono w.1 a1.1
    have k2 := rq_mono w.1 a1.2
    rw [rq_neg, r] at k1
    rw [r] at k2
    exact ⟨k1, k2⟩
  have a3 := abs_add_le (val (mul f d T)) (val L)
  rw [e] at a3
  obtain ⟨g2, -⟩ := add_fine w g hL le_rfl (by rw [e]; linarith)
  refine ⟨g2, ?_, a2⟩
  rw [SoftCl.add_rounds g.1 hL.1 g2.1, e]

/-- The borders are not at the end of the range either. -/
theorem borders {f : Fmt} {mn mx lb ub : Fl} (h : Arguments f mn mx lb ub) : 16 * |val lb| ≤ 2 ^ f.emax ∧ 16 * |val ub| ≤ 2 ^ f.emax := by
  have h1 := h.low
  have h2 := h.mid
  have h3 := h.high
  obtain ⟨s1, s2⟩ := h.size
  have k1 := abs_le.1 (show |val mn| ≤ 2 ^ f.emax / 16 by linarith)
  have k2 := abs_le.1 (show |val mx| ≤ 2 ^ f.emax / 16 by linarith)
  have k3 : |val lb| ≤ 2 ^ f.emax / 16 := abs_le.2 ⟨by linarith, by linarith⟩
  have k4 : |val ub| ≤ 2 ^ f.emax / 16 := abs_le.2 ⟨by linarith, by linarith⟩
  exact ⟨by linarith, by linarith⟩

/-- The three branches. -/
theorem branches {f : Fmt} (hf : FloatOrDouble f) {t : Fl → Fl} (ht : TanhLike t) {mn mx lb ub v : Fl} (h : Arguments f mn mx lb ub) (hv : Fine f v) :
    Fine f (smoothClamped f t v mn mx lb ub) ∧
    (val v < val lb → val (smoothClamped f t v mn mx lb ub) = rq f (rq f (val (sub f lb mn) * val (t (arg f (sub f lb mn) lb v))) + val lb) ∧
      val (smoothClamped f t v mn mx lb ub) ≤ val lb ∧ rq f (val lb - val (sub f lb mn)) ≤ val (smoothClamped f t v mn mx lb ub)) ∧
    (val ub < val v → val (smoothClamped f t v mn mx lb ub) = rq f (rq f (val (sub f mx ub) * val (t (arg f (sub f mx ub) ub v))) + val ub) ∧
      val ub ≤ val (smoothClamped f t v mn mx lb ub) ∧ val (smoothClamped f t v mn mx lb ub) ≤ rq f (val ub + val (sub f mx ub))) ∧
    (val lb ≤ val v → val v ≤ val ub → smoothClamped f t v mn mx lb ub = v) := by
  have w := wide_of hf
  obtain ⟨b1, b2⟩ := borders h
  obtain ⟨n1, n2, n3, n4⟩ := h.finite
  obtain ⟨o1, o2, o3, o4⟩ := h.ofType
  have f1 : Fine f mn := ⟨n1, o1⟩
  have f2 : Fine f mx := ⟨n2, o2⟩
  have f3 : Fine f lb := ⟨n3, o3⟩
  have f4 : Fine f ub := ⟨n4, o4⟩
  have hm := h.mid
  obtain ⟨d1, d2, d3, -⟩ := width w f1 f3 h.low h.size.1 b1
  obtain ⟨e1, e2, e3, -⟩ := width w f4 f2 h.high b2 h.size.2
  obtain ⟨⟨p1, p2, p3⟩, p4, -, -⟩ := tangent w.1 ht d1 d2 f3 hv hv
  obtain ⟨⟨q1, q2, q3⟩, -, q4, -⟩ := tangent w.1 ht e1 e2 f4 hv hv
  obtain ⟨l1, l2, l3⟩ := side w d1 d2 f3 p1 p2 p3 d3 b1
  obtain ⟨m1, m2, m3⟩ := side w e1 e2 f4 q1 q2 q3 e3 b2
  have r3 := SoftCl.fine_rq f3
  have r4 := SoftCl.fine_rq f4
  unfold smoothClamped
  by_cases c1 : val v < val lb
  · rw [if_pos ((lt_val hv f3).2 c1)]
    refine ⟨l1, fun _ => ⟨l2, ?_, ?_⟩, fun c => absurd c (by linarith), fun c => absurd c (by linarith)⟩
    · rw [l2]
      have z : rq f (val (sub f lb mn) * val (t (arg f (sub f lb mn) lb v))) ≤ 0 := by
        have := rq_mono w.1 (mul_nonpos_of_nonneg_of_nonpos d2.le (p4 c1.le))
        rwa [rq_zero] at this
      have := rq_mono w.1 (show rq f (val (sub f lb mn) * val (t (arg f (sub f lb mn) lb v))) + val lb ≤ val lb by linarith)
      rwa [r3] at this
    · rw [l2]
      exact rq_mono w.1 (by linarith [(abs_le.1 l3).1])
  · rw [if_neg (by rw [lt_val hv f3]; exact c1)]
    by_cases c2 : val ub < val v
    · rw [if_pos ((lt_val f4 hv).2 c2)]
      refine ⟨m1, fun c => absurd c c1, fun _ => ⟨m2, ?_, ?_⟩, fun _ c => absurd c (by linarith)⟩
      · rw [m2]
        have z : 0 ≤ rq f (val (sub f mx ub) * val (t (arg f (sub f mx ub) ub v))) := rq_nonneg (mul_nonneg e2.le (q4 c2.le))
        have := rq_mono w.1 (show val ub ≤ rq f (val (sub f mx ub) * val (t (arg f (sub f mx ub) ub v))) + val ub by linarith)
        rwa [r4] at this
      · rw [m2]
        exact rq_mono w.1 (by linarith [(abs_le.1 m3).2])
    · rw [if_neg (by rw [lt_val f4 hv]; exact c2)]
      exact ⟨hv, fun c => absurd c c1, fun c => absurd c c2, fun _ _ => rfl⟩

/-- **C160, the middle.** Numbers between the borders are kept. -/
theorem C160_middle {f : Fmt} (hf : FloatOrDouble f) {t : Fl → Fl} (ht : TanhLike t) (mn mx lb ub v : Fl) (h : Arguments f mn mx lb ub) (hv : Ieee.Spec.Finite v) (tv : OfType f v)
    (h1 : val lb ≤ val v) (h2 : val v ≤ val ub) : smoothClamped f t v mn mx lb ub = v :=
  (branches hf ht h ⟨hv, tv⟩).2.2.2 h1 h2

/-- **C160, order.** The clamp is a finite number and never falls, also across the borders. -/
theorem C160_order {f : Fmt} (hf : FloatOrDouble f) {t : Fl → Fl} (ht : TanhLike t) (mn mx lb ub v w : Fl) (h : Arguments f mn mx lb ub) (hv : Ieee.Spec.Finite v) (tv : OfType f v)
    (hw : Ieee.Spec.Finite w) (tw : OfType f w) (hvw : val v ≤ val w) :
    Ieee.Spec.Finite (smoothClamped f t v mn mx lb ub) ∧ val (smoothClamped f t v mn mx lb ub) ≤ val (smoothClamped f t w mn mx lb ub) := by
  have wd := wide_of hf
  have fv : Fine f v := ⟨hv, tv⟩
  have fw : Fine f w := ⟨hw, tw⟩
  obtain ⟨b1, b2⟩ := borders h
  obtain ⟨n1, n2, n3, n4⟩ := h.finite
  obtain ⟨o1, o2, o3, o4⟩ := h.ofType
  obtain ⟨d1, d2, -, -⟩ := width wd ⟨n1, o1⟩ ⟨n3, o3⟩ h.low h.size.1 b1
  obtain ⟨e1, e2, -, -⟩ := width wd ⟨n4, o4⟩ ⟨n2, o2⟩ h.high b2 h.size.2
  have hm := h.mid
  obtain ⟨g, vl, vh, vm⟩ := branches hf ht h fv
  obtain ⟨-, wl, wh, wm⟩ := branches hf ht h fw
  refine ⟨g.1, ?_⟩
  rcases lt_or_ge (val v) (val lb) with c1 | c1
  · rcases lt_or_ge (val w) (val lb) with c2 | c2
    · rw [(vl c1).1, (wl c2).1]
      refine rq_mono wd.1 (add_le_add_left (rq_mono wd.1 (mul_le_mul_of_nonneg_left ?_ d2.le)) _)
      exact (tangent wd.1 ht d1 d2 ⟨n3, o3⟩ fv fw).2.2.2 hvw
    · rcases lt_or_ge (val ub) (val w) with c3 | c3
      · linarith [(vl c1).2.1, (wh c3).2.1]
      · rw [wm c2 c3]
        linarith [(vl c1).2.1]
  · rcases lt_or_ge (val ub) (val v) with c2 | c2
    · have c3 : val ub < val w := by linarith
      rw [(vh c2).1, (wh c3).1]
      refine rq_mono wd.1 (add_le_add_left (rq_mono wd.1 (mul_le_mul_of_nonneg_left ?_ e2.le)) _)
      exact (tangent wd.1 ht e1 e2 ⟨n4, o4⟩ fv fw).2.2.2 hvw
    · rw [vm c1 c2]
      rcases lt_or_ge (val ub) (val w) with c3 | c3
      · linarith [(wh c3).2.1]
      · rw [wm (by linarith) c3]
        exact hvw

/-- The lowest and the highest possible result. -/
theorem extreme {f : Fmt} (w : Wide f) {a b d : Rat} (ha : Grid f d) (hb : Grid f b) (h : |d - (b - a)| ≤ un f * |b - a|) : |rq f (b - d) - a| ≤ 3 * un f * (|a| + |b|) := by
  have u0 := un_pos f
  have u1 := un_le w
  norm_num at u1
  have g : Grid f (b - d) := by rw [sub_eq_add_neg]; exact grid_add hb (grid_neg ha)
  have e := rq_grid g
  have k1 := abs_sub b a
  have k2 : |b - d| ≤ |a| + un f * |b - a| := by
    have := abs_add_le a (-(d - (b - a)))
    rw [abs_neg, show a + -(d - (b - a)) = b - d by ring] at this
    linarith
  have k3 := mul_le_mul_of_nonneg_left k1 u0.le
  have a0 := abs_nonneg a
  have b0 := abs_nonneg b
  have k4 := mul_le_mul_of_nonneg_left (k2.trans (add_le_add_right k3 _)) u0.le
  have k5 : un f * (un f * (|b| + |a|)) ≤ un f * (1 / 16777216 * (|b| + |a|)) := mul_le_mul_of_nonneg_left (mul_le_mul_of_nonneg_right u1 (by linarith)) u0.le
  have p1 := mul_nonneg u0.le a0
  have p2 := mul_nonneg u0.le b0
  have k6 := abs_sub_le (rq f (b - d)) (b - d) a
  rw [show b - d - a = -(d - (b - a)) by ring, abs_neg] at k6
  linarith

/-- **C160, range.** The result leaves the range from `min` to `max` by no more than the roundings of the widths and of the last sum. -/
theorem C160_range_partial {f : Fmt} (hf : FloatOrDouble f) {t : Fl → Fl} (ht : TanhLike t) (mn mx lb ub v : Fl) (h : Arguments f mn mx lb ub) (hv : Ieee.Spec.Finite v) (tv : OfType f v) :
    val mn - 3 * roundoff f * (|val mn| + |val lb|) ≤ val (smoothClamped f t v mn mx lb ub) ∧
    val (smoothClamped f t v mn mx lb ub) ≤ val mx + 3 * roundoff f * (|val mx| + |val ub|) := by
  have w := wide_of hf
  have u0 := un_pos f
  show _ - 3 * un f * _ ≤ _ ∧ _ ≤ _ + 3 * un f * _
  obtain ⟨b1, b2⟩ := borders h
  obtain ⟨n1, n2, n3, n4⟩ := h.finite
  obtain ⟨o1, o2, o3, o4⟩ := h.ofType
  have f3 : Fine f lb := ⟨n3, o3⟩
  have f4 : Fine f ub := ⟨n4, o4⟩
  have hl := h.low
  have hm := h.mid
  have hh := h.high
  obtain ⟨d1, -, -, d4⟩ := width w ⟨n1, o1⟩ f3 h.low h.size.1 b1
  obtain ⟨e1, -, -, e4⟩ := width w f4 ⟨n2, o2⟩ h.high b2 h.size.2
  have x1 := extreme w (a := val mn) d1.grid f3.grid (by rwa [abs_of_pos (show 0 < val lb - val mn by linarith)])
  have x2 := extreme w (a := val mx) (d := -val (sub f mx ub)) (grid_neg e1.grid) f4.grid (by
    rw [abs_sub_comm (val ub) (val mx), abs_of_pos (show 0 < val mx - val ub by linarith), show -val (sub f mx ub) - (val ub - val mx) = -(val (sub f mx ub) - (val mx - val ub)) by ring, abs_neg]
    exact e4)
  rw [sub_neg_eq_add] at x2
  have y1 := abs_le.1 x1
  have y2 := abs_le.1 x2
  have z1 : 0 ≤ 3 * un f * (|val mn| + |val lb|) := by positivity
  have z2 : 0 ≤ 3 * un f * (|val mx| + |val ub|) := by positivity
  obtain ⟨-, vl, vh, vm⟩ := branches hf ht h ⟨hv, tv⟩
  rcases lt_or_ge (val v) (val lb) with c1 | c1
  · obtain ⟨-, k1, k2⟩ := vl c1
    exact ⟨by linarith, by linarith⟩
  · rcases lt_or_ge (val ub) (val v) with c2 | c2
    · obtain ⟨-, k1, k2⟩ := vh c2
      exact ⟨by linarith, by linarith⟩
    · rw [vm c1 c2]
      exact ⟨by linarith, by linarith⟩

/-- **C160, range, violated.** If the width is rounded up, numbers far below come out below `min`, whatever tangent is used that is -1 far below zero. -/
theorem C160_range_violated (t : Fl → Fl) (ht : ∀ x, lt x (.fin true 20) = true → t x = .fin true 1) :
    smoothClamped binary32 t (.fin true 1000) (.fin true (3 / 2 ^ 25)) (.fin false 9) (.fin false 1) (.fin false 2) = .fin true (1 / 2 ^ 23) ∧ val (.fin true (1 / 2 ^ 23)) < val (.fin true (3 / 2 ^ 25)) := by
  refine ⟨?_, by decide +kernel⟩
  unfold smoothClamped
  rw [if_pos (by decide +kernel), ht _ (by decide +kernel)]
  decide +kernel

/-- A step is such a function, and so are the numbers of an example. -/
def step : Fl → Fl := fun x => if lt x (ofNat 0) then .fin true 1 else if lt (ofNat 0) x then .fin false 1 else .fin false 0

theorem step_like : TanhLike step := by
  have c : ∀ x, step x = .fin true 1 ∨ step x = .fin false 1 ∨ step x = .fin false 0 := fun x => by
    unfold step
    split
    · exact Or.inl rfl
    · split
      · exact Or.inr (Or.inl rfl)
      · exact Or.inr (Or.inr rfl)
  have n0 : ¬ IsNan (ofNat 0) := id
  refine ⟨fun x _ => ?_, fun x _ => ?_, fun x hx h => ?_, fun x y hx hy h => ?_⟩
  · rcases c x with e | e | e <;> rw [e] <;> trivial
  · rcases c x with e | e | e <;> rw [e] <;> norm_num [val]
  · unfold step
    rw [if_neg (by rw [lt_iff hx n0, h, num_zero]; exact lt_irrefl _), if_neg (by rw [lt_iff n0 hx, h, num_zero]; exact lt_irrefl _)]
    norm_num [val]
  · unfold step
    by_cases a : num x < num (ofNat 0)
    · rw [if_pos ((lt_iff hx n0).2 a)]
      split
      · exact le_rfl
      · split <;> norm_num [val]
    · rw [if_neg (by rw [lt_iff hx n0]; exact a)]
      have a' : ¬ num y < num (ofNat 0) := fun k => a (lt_of_le_of_lt h k)
      rw [if_neg (show ¬ lt y (ofNat 0) = true by rw [lt_iff hy n0]; exact a')]
      by_cases b : num (ofNat 0) < num x
      · rw [if_pos ((lt_iff n0 hx).2 b), if_pos ((lt_iff n0 hy).2 (lt_of_lt_of_le b h))]
      · rw [if_neg (show ¬ lt (ofNat 0) x = true by rw [lt_iff n0 hx]; exact b)]
        split <;> norm_num [val]

example : Arguments binary32 (.fin true 1) (.fin false 9) (.fin false 1) (.fin false 2) := by
  refine ⟨⟨trivial, trivial, trivial, trivial⟩, ⟨⟨1, 0, ?_⟩, ⟨9, 0, ?_⟩, ⟨1, 0, ?_⟩, ⟨2, 0, ?_⟩⟩, ?_, ?_, ?_, ?_, ?_⟩ <;> first | decide +kernel | norm_num [binary32]

end Xo.SmoothFl
