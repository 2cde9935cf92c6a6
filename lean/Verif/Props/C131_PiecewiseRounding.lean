import Verif.Model.IeeeInterp
import Verif.Props.C121_Rounding

/-!
C131: piecewise linear functions with rounding. For `float`, `double` and any wider type.
-/
namespace Xo.Ieee
open Num _root_.Xo.Ieee.Spec
variable {f : Fmt}

namespace Spec

/-- Keys that are numbers, each smaller than the next. -/
def Sorted (m : Pts) : Prop := (∀ p ∈ m, ¬ IsNan p.1) ∧ m.Pairwise fun p q => num p.1 < num q.1

/-- `y` is the value given last for the key `x`. -/
def Last (ps : List (Fl × Fl)) (x y : Fl) : Prop := ∃ a x' b, ps = a ++ (x', y) :: b ∧ num x' = num x ∧ ∀ p ∈ b, num p.1 ≠ num x

end Spec
open _root_.Xo.Ieee.Spec

theorem takeWhile_split {α : Type} (p : α → Bool) (a b : List α) (ha : ∀ x ∈ a, p x = true) (hb : ∀ x, b.head? = some x → p x = false) :
    (a ++ b).takeWhile p = a := by
  induction a with
  | nil =>
    cases b with
    | nil => rfl
    | cons x t => simp [hb x rfl]
  | cons x t ih => simp [ha x (by simp), ih fun y hy => ha y (by simp [hy])]

theorem lower_eq {a b : Pts} {x : Fl} (hx : ¬ IsNan x) (hs : Sorted (a ++ b)) (ha : ∀ p ∈ a, num p.1 < num x)
    (hb : ∀ p, b.head? = some p → num x ≤ num p.1) : lowerBound (a ++ b) x = a.length := by
  unfold lowerBound
  rw [takeWhile_split]
  · intro p hp
    exact (lt_iff (hs.1 p (by simp [hp])) hx).2 (ha p hp)
  · intro p hp
    exact (lt_false (hs.1 p (List.mem_append_right _ (List.mem_of_mem_head? hp))) hx).2 (hb p hp)

theorem upper_eq {a b : Pts} {x : Fl} (hx : ¬ IsNan x) (hs : Sorted (a ++ b)) (ha : ∀ p ∈ a, num p.1 ≤ num x)
    (hb : ∀ p, b.head? = some p → num x < num p.1) : upperBound (a ++ b) x = a.length := by
  unfold upperBound
  rw [takeWhile_split]
  · intro p hp
    rw [(lt_false hx (hs.1 p (by simp [hp]))).2 (ha p hp)]
    rfl
  · intro p hp
    rw [(lt_iff hx (hs.1 p (List.mem_append_right _ (List.mem_of_mem_head? hp)))).2 (hb p hp)]
    rfl

/-- Every sorted list splits before the first key that is not smaller. -/
theorem split_lower {m : Pts} (hs : Sorted m) (x : Fl) : ∃ a b, m = a ++ b ∧ (∀ p ∈ a, num p.1 < num x) ∧ ∀ p ∈ b, num x ≤ num p.1 := by
  induction m with
  | nil => exact ⟨[], [], rfl, by simp, by simp⟩
  | cons p t ih =>
    have h2 := List.pairwise_cons.1 hs.2
    by_cases hp : num p.1 < num x
    · obtain ⟨a, b, e, h1, h3⟩ := ih ⟨fun q hq => hs.1 q (by simp [hq]), h2.2⟩
      refine ⟨p :: a, b, by rw [e]; rfl, ?_, h3⟩
      intro q hq
      rcases List.mem_cons.1 hq with rfl | hq
      · exact hp
      · exact h1 q hq
    · refine ⟨[], p :: t, rfl, by simp, ?_⟩
      intro q hq
      rcases List.mem_cons.1 hq with rfl | hq
      · exact not_lt.1 hp
      · exact (not_lt.1 hp).trans (h2.1 q hq).le

theorem insertIdx_len {α : Type} (a b : List α) (x : α) : (a ++ b).insertIdx a.length x = a ++ x :: b := by
  induction a with
  | nil => rfl
  | cons y t ih => simp [ih]

theorem sorted_unique {m : Pts} (hs : m.Pairwise fun p q => num p.1 < num q.1) {p q : Fl × Fl} (hp : p ∈ m) (hq : q ∈ m) (h : num p.1 = num q.1) :
    p = q := by
  induction m with
  | nil => cases hp
  | cons r t ih =>
    have h2 := List.pairwise_cons.1 hs
    rcases List.mem_cons.1 hp with rfl | hp' <;> rcases List.mem_cons.1 hq with rfl | hq'
    · rfl
    · exact absurd h (h2.1 q hq').ne
    · exact absurd h.symm (h2.1 p hp').ne
    · exact ih h2.2 hp' hq'

theorem insert_spec {m : Pts} (hs : Sorted m) {x y : Fl} (hx : ¬ IsNan x) :
    Sorted (insertPoint m (x, y)) ∧ (∃ x', (x', y) ∈ insertPoint m (x, y) ∧ num x' = num x) ∧
    ∀ x' y', num x' ≠ num x → ((x', y') ∈ insertPoint m (x, y) ↔ (x', y') ∈ m) := by
  obtain ⟨a, b, rfl, ha, hb⟩ := split_lower hs x
  have hl := lower_eq hx hs ha fun p hp => hb p (List.mem_of_mem_head? hp)
  have hpw := List.pairwise_append.1 hs.2
  have hins : (a ++ b).insertIdx a.length (x, y) = a ++ (x, y) :: b := by
    exact insertIdx_len a b _
  have ok : (∀ p ∈ b, num x ≠ num p.1) → Sorted (a ++ (x, y) :: b) := by
    intro hne
    refine ⟨?_, ?_⟩
    · intro p hp
      rcases List.mem_append.1 hp with h | h
      · exact hs.1 p (by simp [h])
      · rcases List.mem_cons.1 h with rfl | h
        · exact hx
        · exact hs.1 p (by simp [h])
    · refine List.pairwise_append.2 ⟨hpw.1, List.pairwise_cons.2 ⟨fun p hp => lt_of_le_of_ne (hb p hp) (hne p hp), hpw.2.1⟩, ?_⟩
      intro p hp q hq
      rcases List.mem_cons.1 hq with rfl | hq
      · exact ha p hp
      · exact hpw.2.2 p hp q hq
  have mem : ∀ (x' y' : Fl), num x' ≠ num x → ((x', y') ∈ a ++ (x, y) :: b ↔ (x', y') ∈ a ++ b) := by
    intro x' y' hne
    simp only [List.mem_append, List.mem_cons, Prod.mk.injEq]
    constructor
    · rintro (h | ⟨rfl, -⟩ | h)
      · exact .inl h
      · exact absurd rfl hne
      · exact .inr h
    · rintro (h | h)
      · exact .inl h
      · exact .inr (.inr h)
  unfold insertPoint
  simp only [hl]
  cases hbq : b with
  | nil =>
    subst hbq
    simp only [List.append_nil, List.getElem?_eq_none (le_refl a.length)]
    rw [List.append_nil] at hins
    rw [hins]
    refine ⟨ok (by simp), ⟨x, by simp, rfl⟩, fun x' y' hne => by rw [mem x' y' hne, List.append_nil]⟩
  | cons q t =>
    subst hbq
    have hg : (a ++ q :: t)[a.length]? = some q := by simp
    simp only [hg]
    have hqn : ¬ IsNan q.1 := hs.1 q (by simp)
    by_cases he : eq q.1 x = true
    · rw [if_pos he]
      have hq := (eq_iff hqn hx).1 he
      have hset : (a ++ q :: t).set a.length (q.1, y) = a ++ (q.1, y) :: t := by simp
      rw [hset]
      refine ⟨⟨?_, ?_⟩, ⟨q.1, by simp, hq⟩, ?_⟩
      · intro p hp
        rcases List.mem_append.1 hp with h | h
        · exact hs.1 p (by simp [h])
        · rcases List.mem_cons.1 h with rfl | h
          · exact hqn
          · exact hs.1 p (by simp [h])
      · have h2 := List.pairwise_cons.1 hpw.2.1
        refine List.pairwise_append.2 ⟨hpw.1, List.pairwise_cons.2 ⟨h2.1, h2.2⟩, ?_⟩
        intro p hp r hr
        rcases List.mem_cons.1 hr with rfl | hr
        · exact hpw.2.2 p hp q (by simp)
        · exact hpw.2.2 p hp r (by simp [hr])
      · intro x' y' hne
        have e1 : (x', y') ≠ (q.1, y) := fun h => hne (by rw [(Prod.mk.inj h).1]; exact hq)
        have e2 : (x', y') ≠ q := fun h => hne (by rw [← hq, ← h])
        simp only [List.mem_append, List.mem_cons, e1, e2, false_or]
    · rw [if_neg he, hins]
      have hne : num q.1 ≠ num x := fun h => he ((eq_iff hqn hx).2 h)
      have hlt : num x < num q.1 := lt_of_le_of_ne (hb q (by simp)) (Ne.symm hne)
      refine ⟨ok ?_, ⟨x, by simp, rfl⟩, mem⟩
      intro p hp
      rcases List.mem_cons.1 hp with rfl | hp
      · exact hne.symm
      · exact (hlt.trans ((List.pairwise_cons.1 hpw.2.1).1 p hp)).ne

/-- **C131, points.** After every sequence of inserted points whose keys are numbers, the function holds one point for each key,
with the value given last, in increasing order. Zero and minus zero are one key. -/
theorem C131_points (ps : List (Fl × Fl)) (h : ∀ p ∈ ps, ¬ IsNan p.1) :
    Sorted (ofPoints ps) ∧ (∀ x y, Last ps x y → ∃ x', (x', y) ∈ ofPoints ps ∧ num x' = num x) ∧
    ∀ x y, (x, y) ∈ ofPoints ps → Last ps x y := by
  induction ps using List.reverseRecOn with
  | nil =>
    refine ⟨⟨by simp [ofPoints], List.Pairwise.nil⟩, ?_, by simp [ofPoints]⟩
    rintro x y ⟨a, x', b, e, -, -⟩
    simp at e
  | append_singleton ps p ih =>
    obtain ⟨h1, h2, h3⟩ := ih fun q hq => h q (by simp [hq])
    have hp : ¬ IsNan p.1 := h p (by simp)
    have hof : ofPoints (ps ++ [p]) = insertPoint (ofPoints ps) (p.1, p.2) := by simp [ofPoints, List.foldl_append]
    obtain ⟨s1, ⟨x0, s2, s2'⟩, s3⟩ := insert_spec h1 (y := p.2) hp
    rw [hof]
    refine ⟨s1, ?_, ?_⟩
    · rintro x y ⟨a, x', b, e, hx', hb⟩
      rcases List.eq_nil_or_concat b with rfl | ⟨b', q, rfl⟩
      · have := List.append_inj_right' e (by simp)
        simp only [List.cons.injEq, and_true] at this
        subst this
        exact ⟨x0, s2, s2'.trans hx'⟩
      · have e2 : ps ++ [p] = (a ++ (x', y) :: b') ++ [q] := by simp [e]
        obtain ⟨e3, e4⟩ := List.append_inj' e2 rfl
        simp only [List.cons.injEq, and_true] at e4
        subst e4
        obtain ⟨x2, h4, h5⟩ := h2 x y ⟨a, x', b', e3, hx', fun r hr => hb r (by simp [hr])⟩
        refine ⟨x2, (s3 x2 y ?_).2 h4, h5⟩
        rw [h5]
        exact (hb p (by simp)).symm
    · intro x y hxy
      by_cases hne : num x = num p.1
      · have hy : y = p.2 := by
          by_contra hc
          exact hc (Prod.mk.inj (sorted_unique s1.2 hxy s2 (hne.trans s2'.symm))).2
        subst hy
        exact ⟨ps, p.1, [], rfl, hne.symm, by simp⟩
      · obtain ⟨a, x', b, e, h4, h5⟩ := h3 x y ((s3 x y hne).1 hxy)
        refine ⟨a, x', b ++ [p], by rw [e]; simp, h4, ?_⟩
        intro q hq
        rcases List.mem_append.1 hq with hq | hq
        · exact h5 q hq
        · rw [List.mem_singleton.1 hq]; exact Ne.symm hne

/-! The segment of a function. -/

/-- The value belongs to the segment between two neighbouring points; the first and last segment go on outside. -/
theorem linear_segment {a b : Pts} {p0 p1 : Fl × Fl} (hs : Sorted (a ++ p0 :: p1 :: b)) {x : Fl} (hx : ¬ IsNan x)
    (h0 : a = [] ∨ num p0.1 < num x) (h1 : b = [] ∨ num x ≤ num p1.1) : linear f (a ++ p0 :: p1 :: b) x = .ok (lerpAt f p0 p1 x) := by
  have hpw := List.pairwise_append.1 hs.2
  have h01 := List.pairwise_cons.1 hpw.2.1
  have h1b := List.pairwise_cons.1 h01.2
  have hlt : num p0.1 < num p1.1 := h01.1 p1 (by simp)
  have g0 : (a ++ p0 :: p1 :: b)[a.length]? = some p0 := by simp
  have g1 : (a ++ p0 :: p1 :: b)[a.length + 1]? = some p1 := by
    rw [List.getElem?_append_right (by omega), show a.length + 1 - a.length = 1 by omega]; rfl
  have hlen : (a ++ p0 :: p1 :: b).length = a.length + 2 + b.length := by simp; omega
  have key : (let it := lowerBound (a ++ p0 :: p1 :: b) x
      if it = (a ++ p0 :: p1 :: b).length then it - 1 else if it = 0 then it + 1 else it) = a.length + 1 := by
    by_cases c0 : num p0.1 < num x
    · by_cases c1 : num x ≤ num p1.1
      · have : lowerBound (a ++ p0 :: p1 :: b) x = a.length + 1 := by
          have e := lower_eq (a := a ++ [p0]) (b := p1 :: b) hx (by simpa using hs) (by
            intro q hq
            rcases List.mem_append.1 hq with hq | hq
            · exact (hpw.2.2 q hq p0 (by simp)).trans c0
            · rw [List.mem_singleton.1 hq]; exact c0) (by
            intro q hq; cases hq; exact c1)
          simpa using e
        simp only [this, hlen]
        rw [if_neg (by omega), if_neg (by omega)]
      · have hb := h1.resolve_right c1
        subst hb
        have : lowerBound (a ++ [p0, p1]) x = a.length + 2 := by
          have e := lower_eq (a := a ++ [p0, p1]) (b := []) hx (by simpa using hs) (by
            intro q hq
            rcases List.mem_append.1 hq with hq | hq
            · exact (hpw.2.2 q hq p0 (by simp)).trans c0
            · rcases List.mem_cons.1 hq with rfl | hq
              · exact c0
              · rw [List.mem_singleton.1 hq]; exact not_le.1 c1) (by intro q hq; cases hq)
          simpa using e
        simp only [this, hlen]
        rw [if_pos (by simp)]
        omega
    · have ha := h0.resolve_right c0
      subst ha
      have : lowerBound ([] ++ p0 :: p1 :: b) x = 0 := by
        have e := lower_eq (a := []) (b := p0 :: p1 :: b) hx (by simpa using hs) (by simp) (by
          intro q hq; cases hq; exact not_lt.1 c0)
        simpa using e
      simp only [this, hlen]
      have hz : ¬ (0 = ([] : Pts).length + 2 + b.length) := by simp; omega
      rw [if_neg hz]
      rfl
  unfold linear
  rw [if_pos (by rw [hlen]; omega)]
  simp only at key ⊢
  rw [key, show a.length + 1 - 1 = a.length by omega, g0, g1]

/-- The keys are finite numbers of the type, and their difference is not too big for it. -/
structure Seg (f : Fmt) (x0 x1 : Fl) : Prop where
  ty0 : OfType f x0
  ty1 : OfType f x1
  fin0 : Finite x0
  fin1 : Finite x1
  lt : val x0 < val x1
  diff : Finite (sub f x1 x0)

theorem finite_form {a : Fl} (h : Finite a) : ∃ s m, a = .fin s m := by
  cases a with
  | nan n => cases h
  | inf n => cases h
  | fin s m => exact ⟨s, m, rfl⟩

/-- A difference of different numbers is not rounded to zero. -/
theorem diff_pos (hf : f.Ok) {s t : Bool} {x y : Rat} (hx : OfType f (.fin s x)) (hy : OfType f (.fin t y))
    (h : val (.fin t y) < val (.fin s x)) : 0 < rq f (val (.fin s x) - val (.fin t y)) := by
  obtain ⟨k, hk⟩ := diff_mul hx hy
  have hp := zpow_pos (show (0 : Rat) < 2 by norm_num) f.emin
  have hk1 : 1 ≤ k := by
    by_contra hc
    have : (k : Rat) ≤ 0 := by exact_mod_cast (by omega : k ≤ 0)
    have := mul_nonpos_of_nonpos_of_nonneg this hp.le
    linarith
  have h1 : (2 : Rat) ^ f.emin ≤ val (.fin s x) - val (.fin t y) := by
    rw [hk]
    have : (1 : Rat) ≤ k := by exact_mod_cast hk1
    nlinarith
  have h2 := rq_mono hf h1
  have h3 : rq f ((2 : Rat) ^ f.emin) = 2 ^ f.emin := by
    have := rq_mul (f := f) (m := 1) (e := f.emin) (by simpa using one_lt_pow₀ (by norm_num : (1 : Int) < 2) (by have := hf.prec; omega)) le_rfl
    simpa using this
  rw [h3] at h2
  linarith

theorem rq_one (hf : f.Ok) (hmin : f.emin ≤ 0) : rq f 1 = 1 := by
  have := rq_mul (f := f) (m := 1) (e := 0) (by simpa using one_lt_pow₀ (by norm_num : (1 : Int) < 2) (by have := hf.prec; omega)) hmin
  simpa using this

/-- The parameter of a key in a segment. -/
theorem seg_param (hf : f.Ok) (hmin : f.emin ≤ 0) (hmax : 1 ≤ f.emax) {x0 x1 x : Fl} (h : Seg f x0 x1) (hx : OfType f x) (hxf : Finite x)
    (h0 : val x0 ≤ val x) (h1 : val x ≤ val x1) :
    ∃ p u, div f (sub f x x0) (sub f x1 x0) = .fin p u ∧ 0 ≤ val (.fin p u) ∧ val (.fin p u) ≤ 1 ∧
      val (.fin p u) = rq f (rq f (val x - val x0) / rq f (val x1 - val x0)) := by
  obtain ⟨s0, m0, rfl⟩ := finite_form h.fin0
  obtain ⟨s1, m1, rfl⟩ := finite_form h.fin1
  obtain ⟨s, m, rfl⟩ := finite_form hxf
  have hd := diff_pos hf h.ty1 h.ty0 h.lt
  obtain ⟨r1, n1, e1, v1⟩ := sub_finite h.diff
  have hq0 : 0 ≤ rq f (val (.fin s m) - val (.fin s0 m0)) := rq_nonneg (by linarith)
  have hq1 : rq f (val (.fin s m) - val (.fin s0 m0)) ≤ rq f (val (.fin s1 m1) - val (.fin s0 m0)) := rq_mono hf (by linarith)
  have hbig : |rq f (val (.fin s1 m1) - val (.fin s0 m0))| < 2 ^ f.emax := by
    have := (finite_ofRat (f := f) h.diff).1
    rwa [show val (.fin s1 m1) + val (.fin (!s0) m0) = val (.fin s1 m1) - val (.fin s0 m0) by
      rw [show val (.fin (!s0) m0) = -val (.fin s0 m0) from num_neg (a := .fin s0 m0) s0 m0]; ring] at this
  obtain ⟨r2, n2, e2, v2⟩ : ∃ r n, sub f (.fin s m) (.fin s0 m0) = .fin r n ∧ val (.fin r n) = rq f (val (.fin s m) - val (.fin s0 m0)) := by
    have hx2 : val (.fin s m) + val (.fin (!s0) m0) = val (.fin s m) - val (.fin s0 m0) := by
      rw [show val (.fin (!s0) m0) = -val (.fin s0 m0) from num_neg (a := .fin s0 m0) s0 m0]; ring
    obtain ⟨r, n, h3, h4⟩ := ofRat_finite (f := f) (z := (s && !s0)) (x := val (.fin s m) + val (.fin (!s0) m0)) (by
      rw [hx2, abs_of_nonneg hq0]
      rw [abs_of_pos hd] at hbig
      linarith)
    exact ⟨r, n, h3, by rw [h4, hx2]⟩
  rw [e1, e2]
  have hn1 : n1 ≠ 0 := by
    rintro rfl
    rw [← v1] at hd
    cases r1 <;> simp [val] at hd
  have hdiv : div f (.fin r2 n2) (.fin r1 n1) = ofRat f (r2 != r1) (val (.fin r2 n2) / val (.fin r1 n1)) := by
    simp only [div]
    rw [if_neg hn1]
  have ht0 : 0 ≤ rq f (val (.fin s m) - val (.fin s0 m0)) / rq f (val (.fin s1 m1) - val (.fin s0 m0)) := div_nonneg hq0 hd.le
  have ht1 : rq f (val (.fin s m) - val (.fin s0 m0)) / rq f (val (.fin s1 m1) - val (.fin s0 m0)) ≤ 1 := (div_le_one hd).2 hq1
  have hone := rq_one hf hmin
  have hr0 := rq_nonneg (f := f) ht0
  have hr1 := rq_mono hf ht1
  rw [hone] at hr1
  have hlt1 : (1 : Rat) < 2 ^ f.emax := by
    have := zpow_lt_zpow_right₀ (by norm_num : (1 : Rat) < 2) (show (0 : Int) < f.emax by omega)
    simpa using this
  rw [hdiv, v1, v2]
  obtain ⟨p, u, h3, h4⟩ := ofRat_finite (f := f) (z := (r2 != r1)) (by rw [abs_of_nonneg hr0]; linarith)
  exact ⟨p, u, h3, by rw [h4]; exact hr0, by rw [h4]; exact hr1, h4⟩

/-- **C131, order.** In a segment whose second value is not smaller than the first, a larger key gives a value that is not
smaller, if the differences of keys and values are not too big for the type. -/
theorem C131_mono (hf : f.Ok) (hmin : f.emin ≤ 0) (hmax : 1 ≤ f.emax) {a b : Pts} {x0 y0 x1 y1 : Fl} (hs : Sorted (a ++ (x0, y0) :: (x1, y1) :: b))
    (hx : Seg f x0 x1) (hy0 : Finite y0) (hy1 : Finite y1) (hd : Finite (sub f y1 y0)) (hle : val y0 ≤ val y1) {x x' : Fl}
    (ht : OfType f x) (ht' : OfType f x') (hfx : Finite x) (hfx' : Finite x') (h0 : val x0 < val x) (h : val x ≤ val x') (h1 : val x' ≤ val x1) :
    ∃ v w, linear f (a ++ (x0, y0) :: (x1, y1) :: b) x = .ok v ∧ linear f (a ++ (x0, y0) :: (x1, y1) :: b) x' = .ok w ∧
      ¬ IsNan v ∧ ¬ IsNan w ∧ num v ≤ num w := by
  obtain ⟨p, u, e1, -, -, v1⟩ := seg_param hf hmin hmax hx ht hfx h0.le (h.trans h1)
  obtain ⟨q, w, e2, -, -, v2⟩ := seg_param hf hmin hmax hx ht' hfx' (h0.le.trans h) h1
  obtain ⟨s0, m0, rfl⟩ := finite_form hy0
  obtain ⟨s1, m1, rfl⟩ := finite_form hy1
  obtain ⟨r0, k0, rfl⟩ := finite_form hx.fin0
  obtain ⟨r1, k1, rfl⟩ := finite_form hx.fin1
  obtain ⟨r, k, rfl⟩ := finite_form hfx
  obtain ⟨r', k', rfl⟩ := finite_form hfx'
  have hd' := diff_pos hf hx.ty1 hx.ty0 hx.lt
  have hm : val (.fin p u) ≤ val (.fin q w) := by
    rw [v1, v2]
    exact rq_mono hf (div_le_div_of_nonneg_right (rq_mono hf (by linarith)) hd'.le)
  refine ⟨_, _, linear_segment hs (by simp [IsNan]) (.inr ?_) (.inr ?_), linear_segment hs (by simp [IsNan]) (.inr ?_) (.inr ?_), ?_⟩
  · simp only [num_fin, WithBot.coe_lt_coe, WithTop.coe_lt_coe]; exact h0
  · simp only [num_fin, WithBot.coe_le_coe, WithTop.coe_le_coe]; exact h.trans h1
  · simp only [num_fin, WithBot.coe_lt_coe, WithTop.coe_lt_coe]; exact h0.trans_le h
  · simp only [num_fin, WithBot.coe_le_coe, WithTop.coe_le_coe]; exact h1
  · simp only [lerpAt]
    rw [e1, e2]
    exact C121_lerp_mono hf hle hd hm

/-- **C131, range and points.** If also the difference of the values is a number of the type, the values in a segment lie between
those of its ends, and at its second end the value is that of the point. -/
theorem C131_range_partial (hf : f.Ok) (hmin : f.emin ≤ 0) (hmax : 1 ≤ f.emax) {a b : Pts} {x0 y0 x1 y1 : Fl}
    (hs : Sorted (a ++ (x0, y0) :: (x1, y1) :: b)) (hx : Seg f x0 x1) (hy0 : Finite y0) (hy1 : Finite y1) (hty0 : OfType f y0) (hty1 : OfType f y1)
    (hd : Xo.Spec.Binary f.prec f.emin f.emax |val y1 - val y0|) (hle : val y0 ≤ val y1) {x : Fl}
    (ht : OfType f x) (hfx : Finite x) (h0 : val x0 < val x) (h1 : val x ≤ val x1) :
    ∃ v, linear f (a ++ (x0, y0) :: (x1, y1) :: b) x = .ok v ∧ num y0 ≤ num v ∧ num v ≤ num y1 ∧ (val x = val x1 → num v = num y1) := by
  obtain ⟨p, u, e1, g0, g1, v1⟩ := seg_param hf hmin hmax hx ht hfx h0.le h1
  obtain ⟨s0, m0, rfl⟩ := finite_form hy0
  obtain ⟨s1, m1, rfl⟩ := finite_form hy1
  obtain ⟨r0, k0, rfl⟩ := finite_form hx.fin0
  obtain ⟨r1, k1, rfl⟩ := finite_form hx.fin1
  obtain ⟨r, k, rfl⟩ := finite_form hfx
  have hl := C121_lerp_range_partial hf hty0 hty1 hd hle (p := p) (u := u) g0 g1
  refine ⟨_, linear_segment hs (by simp [IsNan]) (.inr ?_) (.inr ?_), ?_, ?_, ?_⟩
  · simp only [num_fin, WithBot.coe_lt_coe, WithTop.coe_lt_coe]; exact h0
  · simp only [num_fin, WithBot.coe_le_coe, WithTop.coe_le_coe]; exact h1
  · simp only [lerpAt]; rw [e1]; exact hl.2.1
  · simp only [lerpAt]; rw [e1]; exact hl.2.2
  · intro he
    simp only [lerpAt]
    rw [e1]
    refine le_antisymm hl.2.2 ?_
    rw [← hl.1]
    have hd' := diff_pos hf hx.ty1 hx.ty0 hx.lt
    have hfin : Finite (sub f (.fin s1 m1) (.fin s0 m0)) := by
      have hs : num (sub f (.fin s1 m1) (.fin s0 m0)) = ((val (.fin s1 m1) - val (.fin s0 m0) : Rat) : WithTop Rat) := by
        rw [num_sub]; exact R_exact hf hd
      obtain ⟨r1, m1, e1, -⟩ := finite_of_num hs
      rw [e1]; trivial
    refine (C121_lerp_mono hf hle hfin (p := false) (u := ((1 : Nat) : Rat)) ?_).2.2
    rw [v1, he, div_self hd'.ne', rq_one hf hmin]
    simp [val]

/-- **C131, first point.** At the first key the value is that of the first point. -/
theorem C131_first (hf : f.Ok) (hmin : f.emin ≤ 0) (hmax : 1 ≤ f.emax) {b : Pts} {x0 y0 x1 y1 : Fl}
    (hs : Sorted ((x0, y0) :: (x1, y1) :: b)) (hx : Seg f x0 x1) (hy0 : Finite y0) (hy1 : Finite y1) (hty0 : OfType f y0)
    (hd : Finite (sub f y1 y0)) : ∃ v, linear f ((x0, y0) :: (x1, y1) :: b) x0 = .ok v ∧ num v = num y0 := by
  obtain ⟨p, u, e1, g0, g1, v1⟩ := seg_param hf hmin hmax hx hx.ty0 hx.fin0 le_rfl hx.lt.le
  obtain ⟨s0, m0, rfl⟩ := finite_form hy0
  obtain ⟨s1, m1, rfl⟩ := finite_form hy1
  obtain ⟨r0, k0, rfl⟩ := finite_form hx.fin0
  obtain ⟨r1, k1, rfl⟩ := finite_form hx.fin1
  refine ⟨_, linear_segment (a := []) hs (by simp [IsNan]) (.inl rfl) (.inr ?_), ?_⟩
  · simp only [num_fin, WithBot.coe_le_coe, WithTop.coe_le_coe]; exact hx.lt.le
  · simp only [lerpAt]
    rw [e1]
    have hu : u = 0 := by
      rw [sub_self, rq_zero, zero_div, rq_zero] at v1
      cases p <;> simpa [val] using v1
    subst hu
    exact (C121_lerp_start hf hty0 hd p p 0).1

/-- **C131, points, violated.** With `float`, the function through (0, -16777216), (1, 3) and (2, 3) has the value 4 at 1, and 3 at
3/2: it misses its point and falls although its values rise. -/
theorem C131_point_violated :
    linear binary32 (ofPoints [(ofNat 0, .fin true 16777216), (ofNat 1, ofNat 3), (ofNat 2, ofNat 3)]) (ofNat 1) = .ok (ofNat 4) ∧
    linear binary32 (ofPoints [(ofNat 0, .fin true 16777216), (ofNat 1, ofNat 3), (ofNat 2, ofNat 3)]) (.fin false (3 / 2)) = .ok (ofNat 3) := by
  decide +kernel

/-- **C131, large values, violated.** If the difference of two values is too big, the value at the first point is not a number. -/
theorem C131_overflow_violated :
    linear binary32 (ofPoints [(ofNat 0, .fin true (maxVal binary32)), (ofNat 1, .fin false (maxVal binary32))]) (ofNat 0) = .ok (.nan false) ∧
    linear binary64 (ofPoints [(ofNat 0, .fin true (maxVal binary64)), (ofNat 1, .fin false (maxVal binary64))]) (ofNat 0) = .ok (.nan false) := by
  decide +kernel

/-- **C131, no number.** For a key that is not a number the result is not a number; with fewer than two points the call is refused. -/
theorem C131_nan (m : Pts) {x : Fl} (hx : IsNan x) :
    (2 ≤ m.length → ∃ v, linear f m x = .ok v ∧ IsNan v) ∧ (m.length < 2 → ∀ x, linear f m x = .err) := by
  refine ⟨fun h => ?_, fun h x => ?_⟩
  · have hl : lowerBound m x = 0 := by
      unfold lowerBound
      cases m with
      | nil => rfl
      | cons p t => simp [lt_nan_right hx]
    obtain ⟨p0, p1, t, rfl⟩ : ∃ p0 p1 t, m = p0 :: p1 :: t := by
      match m, h with
      | p0 :: p1 :: t, _ => exact ⟨p0, p1, t, rfl⟩
    unfold linear
    rw [if_pos h, hl]
    simp only [List.length_cons]
    refine ⟨_, rfl, ?_⟩
    cases x with
    | nan n =>
      show IsNan (lerp f p0.2 p1.2 (.nan n))
      unfold lerp
      show IsNan (add f p0.2 (.nan n))
      cases p0.2 <;> trivial
    | inf n => cases hx
    | fin s r => cases hx
  · unfold linear
    rw [if_neg (by omega)]

/-! `lerp_map`. -/

theorem map_segment {a b : Pts} {p0 p1 : Fl × Fl} (hs : Sorted (a ++ p0 :: p1 :: b)) {x : Fl} (hx : ¬ IsNan x)
    (h0 : num p0.1 ≤ num x) (h1 : num x < num p1.1) : lerpMap f (a ++ p0 :: p1 :: b) x = .ok (lerpAt f p0 p1 x) := by
  have hpw := List.pairwise_append.1 hs.2
  have g0 : (a ++ p0 :: p1 :: b)[a.length]? = some p0 := by simp
  have g1 : (a ++ p0 :: p1 :: b)[a.length + 1]? = some p1 := by
    rw [List.getElem?_append_right (by omega), show a.length + 1 - a.length = 1 by omega]; rfl
  have hlen : (a ++ p0 :: p1 :: b).length = a.length + 2 + b.length := by simp; omega
  have hub : upperBound (a ++ p0 :: p1 :: b) x = a.length + 1 := by
    have e := upper_eq (a := a ++ [p0]) (b := p1 :: b) hx (by simpa using hs) (by
      intro q hq
      rcases List.mem_append.1 hq with hq | hq
      · exact (hpw.2.2 q hq p0 (by simp)).le.trans h0
      · rw [List.mem_singleton.1 hq]; exact h0) (by
      intro q hq; cases hq; exact h1)
    simpa using e
  unfold lerpMap
  rw [if_pos (by rw [hlen]; omega)]
  simp only [hub, hlen]
  rw [if_neg (by omega), if_neg (by omega), show a.length + 1 - 1 = a.length by omega, g0, g1]

/-- **C131, `lerp_map` outside.** From the last key on the result is the last value, before the first key it is the first value. -/
theorem C131_map_outside {m : Pts} {p : Fl × Fl} {x : Fl} (hx : ¬ IsNan x) :
    (Sorted (m ++ [p]) → num p.1 ≤ num x → lerpMap f (m ++ [p]) x = .ok p.2) ∧
    (Sorted (p :: m) → num x < num p.1 → lerpMap f (p :: m) x = .ok p.2) := by
  refine ⟨fun hs h => ?_, fun hs h => ?_⟩
  · have hpw := List.pairwise_append.1 hs.2
    have hub : upperBound (m ++ [p]) x = m.length + 1 := by
      have e := upper_eq (a := m ++ [p]) (b := []) hx (by simpa using hs) (by
        intro q hq
        rcases List.mem_append.1 hq with hq | hq
        · exact (hpw.2.2 q hq p (by simp)).le.trans h
        · rw [List.mem_singleton.1 hq]; exact h) (by intro q hq; cases hq)
      simpa using e
    unfold lerpMap
    rw [if_pos (by simp), hub]
    simp [Res.ofOptionUb, Res.map]
  · have hub : upperBound (p :: m) x = 0 := by
      have e := upper_eq (a := []) (b := p :: m) hx hs (by simp) (by intro q hq; cases hq; exact h)
      simpa using e
    unfold lerpMap
    rw [if_pos (by simp), hub]
    simp [Res.ofOptionUb, Res.map]

/-- **C131, `lerp_map` at its points.** At every key the result is the value of that key. -/
theorem C131_map_points (hf : f.Ok) (hmin : f.emin ≤ 0) (hmax : 1 ≤ f.emax) {a b : Pts} {x y : Fl} (hs : Sorted (a ++ (x, y) :: b))
    (hx : Finite x) (hy : Finite y) (hty : OfType f y) (hd : ∀ q, b.head? = some q → Seg f x q.1 ∧ Finite q.2 ∧ Finite (sub f q.2 y)) :
    ∃ v, lerpMap f (a ++ (x, y) :: b) x = .ok v ∧ num v = num y := by
  have hxn : ¬ IsNan x := by obtain ⟨s, m, rfl⟩ := finite_form hx; exact id
  cases b with
  | nil => exact ⟨y, (C131_map_outside hxn).1 hs le_rfl, rfl⟩
  | cons q b =>
    obtain ⟨h1, h2, h3⟩ := hd q rfl
    have hpw := List.pairwise_append.1 hs.2
    have hlt : num x < num q.1 := (List.pairwise_cons.1 hpw.2.1).1 q (by simp)
    refine ⟨_, map_segment hs hxn le_rfl hlt, ?_⟩
    obtain ⟨p, u, e1, g0, g1, v1⟩ := seg_param hf hmin hmax h1 h1.ty0 h1.fin0 le_rfl h1.lt.le
    simp only [lerpAt]
    rw [e1]
    have hu : u = 0 := by
      rw [sub_self, rq_zero, zero_div, rq_zero] at v1
      cases p <;> simpa [val] using v1
    subst hu
    obtain ⟨s0, m0, rfl⟩ := finite_form hy
    obtain ⟨x1, y1⟩ := q
    obtain ⟨s1, m1, hq⟩ := finite_form h2
    simp only at hq h3 ⊢
    subst hq
    exact (C121_lerp_start hf hty h3 p p 0).1

/-- **C131, `lerp_map`, violated.** With `float`, between the points (-16777216, -16777216) and (1, 3) it takes the value 4, and falls
to 3 at the last point. -/
theorem C131_map_violated :
    lerpMap binary32 (ofPoints [(.fin true 16777216, .fin true 16777216), (ofNat 1, ofNat 3)]) (.fin false (1 / 2)) = .ok (ofNat 4) ∧
    lerpMap binary32 (ofPoints [(.fin true 16777216, .fin true 16777216), (ofNat 1, ofNat 3)]) (ofNat 1) = .ok (ofNat 3) := by
  decide +kernel

example : Sorted (ofPoints [(ofNat 2, ofNat 5), (ofNat 0, ofNat 1), (ofNat 2, ofNat 9)]) ∧
    ofPoints [(ofNat 2, ofNat 5), (ofNat 0, ofNat 1), (ofNat 2, ofNat 9)] = [(ofNat 0, ofNat 1), (ofNat 2, ofNat 9)] :=
  ⟨(C131_points _ (by decide)).1, by decide +kernel⟩
example : binary32.emin ≤ 0 ∧ (1 : Int) ≤ binary32.emax ∧ binary64.emin ≤ 0 ∧ (1 : Int) ≤ binary64.emax := by decide
example : linear binary64 [(ofNat 0, ofNat 1), (ofNat 2, ofNat 9)] (ofNat 1) = .ok (ofNat 5) := by decide +kernel

end Xo.Ieee
