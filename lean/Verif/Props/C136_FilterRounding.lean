import Verif.Model.IeeeFilter
import Verif.Props.C121_Inside

/-!
# C136: a first-order filter stays within its inputs, with rounding
-/
namespace Xo
namespace Ieee
open Num Spec

variable {f g : Fmt}

namespace Spec
/-- A factor that a filter may use: a finite number of the type, from zero to below one. -/
def Part (g : Fmt) (w : Fl) : Prop :=
  OfType g w ∧ Finite w ∧ num (ofNat 0) ≤ num w ∧ num w < num (ofNat 1)
end Spec

theorem part_form (hg : g.Ok) (hfg : g.prec ≤ f.prec) {w : Fl} (h : Part g w) :
    ∃ p u, w = .fin p u ∧ 0 ≤ val (.fin p u) ∧ val (.fin p u) * 2 ^ f.prec ≤ 2 ^ f.prec - 1 := by
  obtain ⟨ht, hfin, h0, h1⟩ := h
  rcases w with s | s | ⟨p, u⟩
  · exact absurd hfin id
  · exact absurd hfin id
  · have e0 : num (ofNat 0) = ((0 : Rat) : WithTop Rat) := num_zero
    have e1 : num (ofNat 1) = ((1 : Rat) : WithTop Rat) := by simp [num, ofNat]
    rw [e0, num_fin, WithBot.coe_le_coe, WithTop.coe_le_coe] at h0
    rw [e1, num_fin, WithBot.coe_lt_coe, WithTop.coe_lt_coe] at h1
    refine ⟨p, u, rfl, h0, ?_⟩
    have h2 := below_one hg ht h1
    have hP : (0 : Rat) < 2 ^ g.prec := by positivity
    have e2 : (2 : Rat) ^ f.prec = 2 ^ g.prec * 2 ^ (f.prec - g.prec) := by rw [← pow_add]; congr 1; omega
    have h3 : (1 : Rat) ≤ 2 ^ (f.prec - g.prec) := one_le_pow₀ (by norm_num)
    rw [e2]
    have h4 := mul_le_mul_of_nonneg_right h2 (show (0 : Rat) ≤ 2 ^ (f.prec - g.prec) by linarith)
    nlinarith

theorem finite_form' {a : Fl} (h : Finite a) : ∃ s m, a = .fin s m := by
  rcases a with s | s | ⟨s, m⟩
  · exact absurd h id
  · exact absurd h id
  · exact ⟨s, m, rfl⟩

/-- **C136, fast update.** If `rate * dt` is at least zero and below one and the difference is not too big for the type, the
new value is finite and lies between the old value and the input. -/
theorem C136_fast (hf : f.Ok) (hg : g.Ok) (hfg : g.prec ≤ f.prec) {s : Filt} {v dt : Fl} (hs : OfType f s.value)
    (hsf : Finite s.value) (hv : OfType f v) (hvf : Finite v) (hd : Finite (sub f v s.value))
    (hp : Part g (mul g dt s.rate)) : Between s.value v (s.fast f g v dt).value := by
  obtain ⟨p, u, e, h0, h1⟩ := part_form (f := f) hg hfg hp
  rcases s with ⟨sv, sr⟩
  obtain ⟨a, x, rfl⟩ := finite_form' hsf
  obtain ⟨b, y, rfl⟩ := finite_form' hvf
  obtain ⟨r, m, e1, -⟩ := sub_finite hd
  show Between _ _ (add f _ (mul f (mul g dt sr) _))
  simp only at e hs
  rw [e, e1]
  exact inside hf hs hv e1 h0 h1 _

/-- **C136, accurate update.** The same if the exponential function of the platform gives a number from zero to below one. -/
theorem C136_accurate (hf : f.Ok) (hg : g.Ok) (hfg : g.prec ≤ f.prec) {ex : Fl → Fl} {s : Filt} {v dt : Fl}
    (hs : OfType f s.value) (hsf : Finite s.value) (hv : OfType f v) (hvf : Finite v) (hd : Finite (sub f s.value v))
    (hp : Part g (ex (mul g (neg s.rate) dt))) : Between s.value v (s.accurate f g ex v dt).value := by
  obtain ⟨p, u, e, h0, h1⟩ := part_form (f := f) hg hfg hp
  rcases s with ⟨sv, sr⟩
  obtain ⟨a, x, rfl⟩ := finite_form' hsf
  obtain ⟨b, y, rfl⟩ := finite_form' hvf
  obtain ⟨r, m, e1, -⟩ := sub_finite hd
  show Between _ _ (add f _ (mul f _ (ex (mul g (neg sr) dt))))
  simp only at e hs
  rw [e, e1]
  have h := inside hf hv hs e1 h0 h1 (r != p)
  have e2 : mul f (.fin r m) (.fin p u) = ofRat f (r != p) (val (.fin p u) * val (.fin r m)) := by
    show ofRat f _ _ = _
    rw [mul_comm]
  rw [e2]
  exact ⟨h.1, h.2.symm⟩

/-- What a call must fulfil: the value or input lies in the range, and the factor is from zero to below one. -/
def Fits (f g : Fmt) (ex : Fl → Fl) (lo hi : Fl) (rate : Fl) : List FiltOp → Prop
  | [] => True
  | .accurate v dt :: os =>
    (OfType f v ∧ num lo ≤ num v ∧ num v ≤ num hi ∧ Part g (ex (mul g (neg rate) dt))) ∧ Fits f g ex lo hi rate os
  | .fast v dt :: os => (OfType f v ∧ num lo ≤ num v ∧ num v ≤ num hi ∧ Part g (mul g dt rate)) ∧ Fits f g ex lo hi rate os
  | .setValue v :: os => (OfType f v ∧ num lo ≤ num v ∧ num v ≤ num hi) ∧ Fits f g ex lo hi rate os
  | .setRate r :: os => Fits f g ex lo hi r os

theorem finite_between {lo hi v : Fl} (h1 : Finite lo) (h2 : Finite hi) (h3 : num lo ≤ num v)
    (h4 : num v ≤ num hi) : Finite v := by
  obtain ⟨a, x, rfl⟩ := finite_form' h1
  obtain ⟨b, y, rfl⟩ := finite_form' h2
  rcases v with s | s | ⟨s, m⟩
  · exact absurd h3 (not_le.2 (WithBot.bot_lt_coe _))
  · cases s
    · exact absurd h4 (not_le.2 (WithBot.coe_lt_coe.2 (WithTop.coe_lt_top _)))
    · exact absurd h3 (not_le.2 (WithBot.bot_lt_coe _))
  · trivial

/-- Differences within a range are not too big if the width of the range is not. -/
theorem sub_between (hf : f.Ok) {lo hi a b : Fl} (h1 : Finite lo) (h2 : Finite hi) (hw : Finite (sub f hi lo))
    (ha : Finite a) (hb : Finite b) (h3 : num lo ≤ num a) (h4 : num a ≤ num hi) (h5 : num lo ≤ num b) (h6 : num b ≤ num hi) :
    Finite (sub f a b) := by
  obtain ⟨s1, l, rfl⟩ := finite_form' h1
  obtain ⟨s2, h, rfl⟩ := finite_form' h2
  obtain ⟨s3, x, rfl⟩ := finite_form' ha
  obtain ⟨s4, y, rfl⟩ := finite_form' hb
  simp only [num_fin, WithBot.coe_le_coe, WithTop.coe_le_coe] at h3 h4 h5 h6
  have e : ∀ r z, val (.fin (!r) z) = -val (.fin r z) := fun r z => num_neg (a := .fin r z) r z
  obtain ⟨hw1, -⟩ := finite_ofRat (f := f) hw
  rw [e] at hw1
  have hle := rq_mono hf (show val (.fin s3 x) + -val (.fin s4 y) ≤ val (.fin s2 h) + -val (.fin s1 l) by linarith)
  have hge := rq_mono hf (show -(val (.fin s2 h) + -val (.fin s1 l)) ≤ val (.fin s3 x) + -val (.fin s4 y) by linarith)
  rw [rq_neg] at hge
  have hb := abs_lt.1 hw1
  have : |rq f (val (.fin s3 x) + -val (.fin s4 y))| < 2 ^ f.emax := abs_lt.2 ⟨by linarith, by linarith⟩
  rw [← e] at this
  obtain ⟨s5, m5, e5, -⟩ := ofRat_finite (z := s3 && !s4) this
  have e6 : sub f (.fin s3 x) (.fin s4 y) = .fin s5 m5 := e5
  rw [e6]; trivial

theorem between_range {lo hi a b v : Fl} (h : Between a b v) (h1 : num lo ≤ num a) (h2 : num a ≤ num hi) (h3 : num lo ≤ num b)
    (h4 : num b ≤ num hi) : num lo ≤ num v ∧ num v ≤ num hi := by
  rcases h.2 with ⟨h5, h6⟩ | ⟨h5, h6⟩
  · exact ⟨h1.trans h5, h6.trans h4⟩
  · exact ⟨h3.trans h5, h6.trans h2⟩

/-- **C136, every history.** If the value at the start and all inputs lie in a range whose width is not too big for the type,
and all factors are from zero to below one, then all values of the filter are finite and lie in that range. -/
theorem C136_range (hf : f.Ok) (hg : g.Ok) (hfg : g.prec ≤ f.prec) {ex : Fl → Fl} {lo hi : Fl} (h1 : Finite lo) (h2 : Finite hi)
    (hw : Finite (sub f hi lo)) (ops : List FiltOp) (s : Filt) (hs : OfType f s.value) (hn : Finite s.value)
    (h3 : num lo ≤ num s.value) (h4 : num s.value ≤ num hi)
    (hfit : Fits f g ex lo hi s.rate ops) :
    ∀ v ∈ s.outputs f g ex ops, Finite v ∧ num lo ≤ num v ∧ num v ≤ num hi := by
  induction ops generalizing s with
  | nil => intro v hv; exact absurd hv (by simp [Filt.outputs])
  | cons o os ih =>
    have key : OfType f (s.step f g ex o).value ∧ Finite (s.step f g ex o).value ∧ num lo ≤ num (s.step f g ex o).value ∧
        num (s.step f g ex o).value ≤ num hi ∧ Fits f g ex lo hi (s.step f g ex o).rate os := by
      cases o with
      | accurate v dt =>
        obtain ⟨⟨a1, a2, a3, a4⟩, a5⟩ := hfit
        have hvf := finite_between h1 h2 a2 a3
        have hb := C136_accurate hf hg hfg hs hn a1 hvf (sub_between hf h1 h2 hw hn hvf h3 h4 a2 a3) a4
        have hr := between_range hb h3 h4 a2 a3
        exact ⟨add_ofType hf _ _, hb.1, hr.1, hr.2, a5⟩
      | fast v dt =>
        obtain ⟨⟨a1, a2, a3, a4⟩, a5⟩ := hfit
        have hvf := finite_between h1 h2 a2 a3
        have hb := C136_fast hf hg hfg hs hn a1 hvf (sub_between hf h1 h2 hw hvf hn a2 a3 h3 h4) a4
        have hr := between_range hb h3 h4 a2 a3
        exact ⟨add_ofType hf _ _, hb.1, hr.1, hr.2, a5⟩
      | setValue v =>
        obtain ⟨⟨a1, a2, a3⟩, a5⟩ := hfit
        exact ⟨a1, finite_between h1 h2 a2 a3, a2, a3, a5⟩
      | setRate r => exact ⟨hs, hn, h3, h4, hfit⟩
    obtain ⟨k1, k2, k3, k4, k5⟩ := key
    intro v hvm
    rcases List.mem_cons.1 hvm with rfl | hvm
    · exact ⟨k2, k3, k4⟩
    · exact ih _ k1 k2 k3 k4 k5 v hvm

/-- The hypotheses are met: a filter of `double` values with `float` times follows the input 10 from 0, by half of the
difference each time. -/
example : Part binary32 (mul binary32 (.fin false (1 / 4)) (.fin false 2)) ∧
    Filt.outputs binary64 binary32 id ⟨.fin false 0, .fin false 2⟩
      [.fast (.fin false 10) (.fin false (1 / 4)), .fast (.fin false 10) (.fin false (1 / 4)), .setValue (.fin false 1)] =
      [.fin false 5, .fin false (15 / 2), .fin false 1] := by
  refine ⟨?_, by decide +kernel⟩
  have e : mul binary32 (.fin false (1 / 4)) (.fin false 2) = .fin false (1 / 2) := by decide +kernel
  rw [e]
  refine ⟨⟨1, -1, by decide, by decide, by decide, by norm_num⟩, trivial, by decide +kernel, by decide +kernel⟩

/-- **C136, rest.** An input equal to the value changes nothing, whatever the finite factor. -/
theorem C136_rest (hf : f.Ok) {ex : Fl → Fl} {s : Filt} {v dt : Fl} (hs : OfType f s.value) (hsf : Finite s.value)
    (hvf : Finite v) (h : num v = num s.value) :
    (Finite (mul g dt s.rate) → num (s.fast f g v dt).value = num s.value) ∧
      (Finite (ex (mul g (neg s.rate) dt)) → num (s.accurate f g ex v dt).value = num s.value) := by
  rcases s with ⟨sv, sr⟩
  obtain ⟨a, x, rfl⟩ := finite_form' hsf
  obtain ⟨b, y, rfl⟩ := finite_form' hvf
  simp only [num_fin, WithBot.coe_eq_coe, WithTop.coe_eq_coe] at h
  have hv0 : ∀ z : Bool, val (.fin z 0) = 0 := fun z => by cases z <;> simp [val]
  have e : ∀ r z, val (.fin (!r) z) = -val (.fin r z) := fun r z => num_neg (a := .fin r z) r z
  constructor
  · intro hw
    obtain ⟨p, u, e1⟩ := finite_form' hw
    show num (add f (.fin a x) (mul f (mul g dt sr) (sub f (.fin b y) (.fin a x)))) = num (.fin a x)
    simp only at e1
    rw [e1]
    have e2 : sub f (.fin b y) (.fin a x) = .fin (b && !a) 0 := by
      show ofRat f _ (val (.fin b y) + val (.fin (!a) x)) = _
      rw [e, h, add_neg_cancel]
      simp [ofRat]
    have e3 : mul f (.fin p u) (.fin (b && !a) 0) = .fin (p != (b && !a)) 0 := by
      show ofRat f _ (val (.fin p u) * val (.fin (b && !a) 0)) = _
      rw [hv0, mul_zero]
      simp [ofRat]
    rw [e2, e3, num_add, hv0, add_zero]
    exact R_val hf hs
  · intro hw
    obtain ⟨p, u, e1⟩ := finite_form' hw
    show num (add f (.fin b y) (mul f (sub f (.fin a x) (.fin b y)) (ex (mul g (neg sr) dt)))) = num (.fin a x)
    simp only at e1
    rw [e1]
    have e2 : sub f (.fin a x) (.fin b y) = .fin (a && !b) 0 := by
      show ofRat f _ (val (.fin a x) + val (.fin (!b) y)) = _
      rw [e, h, add_neg_cancel]
      simp [ofRat]
    have e3 : mul f (.fin (a && !b) 0) (.fin p u) = .fin ((a && !b) != p) 0 := by
      show ofRat f _ (val (.fin (a && !b) 0) * val (.fin p u)) = _
      rw [hv0, zero_mul]
      simp [ofRat]
    rw [e2, e3, num_add, hv0, add_zero, h]
    exact R_val hf hs

/-- **C136, approaching, violated.** In exact arithmetic a steady input is approached as closely as one likes. With `float`, a
filter at 1 stays there for ever when the input is the next number and the factor is a quarter; the accurate update does the
same when the exponential function gives three quarters. -/
theorem C136_stall_violated (n : Nat) :
    Filt.outputs binary32 binary32 (fun _ => .fin false (3 / 4)) ⟨.fin false 1, .fin false 1⟩
      (List.replicate n (.fast (.fin false (1 + 1 / 2 ^ 23)) (.fin false (1 / 4)))) = List.replicate n (.fin false 1) ∧
    Filt.outputs binary32 binary32 (fun _ => .fin false (3 / 4)) ⟨.fin false 1, .fin false 1⟩
      (List.replicate n (.accurate (.fin false (1 + 1 / 2 ^ 23)) (.fin false (1 / 4)))) = List.replicate n (.fin false 1) := by
  have k1 : Filt.fast binary32 binary32 ⟨.fin false 1, .fin false 1⟩ (.fin false (1 + 1 / 2 ^ 23)) (.fin false (1 / 4))
      = ⟨.fin false 1, .fin false 1⟩ := by decide +kernel
  have k2 : Filt.accurate binary32 binary32 (fun _ => .fin false (3 / 4)) ⟨.fin false 1, .fin false 1⟩
      (.fin false (1 + 1 / 2 ^ 23)) (.fin false (1 / 4)) = ⟨.fin false 1, .fin false 1⟩ := by decide +kernel
  induction n with
  | zero => exact ⟨rfl, rfl⟩
  | succ n ih =>
    simp only [List.replicate_succ]
    constructor
    · simp only [Filt.outputs, Filt.step]
      rw [k1, ih.1]
    · simp only [Filt.outputs, Filt.step]
      rw [k2, ih.2]

/-- **C136, the whole difference, violated.** With the factor one the fast update passes the input 3 and gives 4. When no
time passes the accurate update, whose factor is then one, changes 3 into 4. A difference that is too big for the type makes
the value infinite, and the next update makes it NaN. -/
theorem C136_whole_violated :
    (Filt.fast binary32 binary32 ⟨.fin true 16777216, .fin false 1⟩ (.fin false 3) (.fin false 1)).value = .fin false 4 ∧
    (Filt.accurate binary32 binary32 (fun _ => .fin false 1) ⟨.fin false 3, .fin false 1⟩ (.fin true 16777216) (.fin false 0)).value
      = .fin false 4 ∧
    Filt.outputs binary32 binary32 id ⟨.fin true (maxVal binary32), .fin false 1⟩
      [.fast (.fin false (maxVal binary32)) (.fin false (1 / 2)), .fast (.fin false 0) (.fin false (1 / 2))] =
      [.inf false, .nan false] := by decide +kernel

end Ieee
end Xo
