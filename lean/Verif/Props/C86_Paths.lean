import Verif.Model.PathAlg
import Mathlib.Data.List.Basic
import Mathlib.Analysis.Normed.Group.Basic
import Mathlib.Tactic.Linarith
import Mathlib.Tactic.Ring

/-!
C86: comparing with a tolerance, and points on a path. The comparisons with a tolerance are consistent with each other; the length of a
path is the sum of its steps; a point that is inserted at a distance from the start lies there and does not change the length of the path.
-/
namespace Xo.PathAlg

/-! ## Comparisons -/
section
variable {K : Type} [Field K] [LinearOrder K] [IsStrictOrderedRing K]

/-- **C86.** `equal` means that the relative error of the second value is at most `e`. -/
theorem C86_equal (e v1 v2 : K) (h : v1 ≠ 0) : equal e v1 v2 = true ↔ |v2 / v1 - 1| ≤ e := by
  rw [equal, decide_eq_true_iff]
  have h1 : v2 / v1 - 1 = (v2 - v1) / v1 := by rw [sub_div, div_self h]
  rw [h1, abs_div, div_le_iff₀ (abs_pos.2 h), abs_sub_comm v1 v2, mul_comm]

/-- Every value equals itself; nothing but 0 equals 0. -/
theorem C86_equal_zero (e v : K) (h0 : 0 ≤ e) (h1 : e < 1) : equal e v v = true ∧ (equal e 0 v = true ↔ v = 0) ∧ (equal e v 0 = true ↔ v = 0) := by
  refine ⟨?_, ?_, ?_⟩
  · simp only [equal, sub_self, abs_zero, decide_eq_true_iff]; positivity
  · simp [equal]
  · simp only [equal, sub_zero, decide_eq_true_iff]
    constructor
    · intro h
      by_contra hv
      have : 0 < |v| := abs_pos.2 hv
      nlinarith
    · rintro rfl; simp

omit [Field K] [IsStrictOrderedRing K] in
/-- (helper) -/
theorem tri (a b : K) : a < b ∨ a = b ∨ b < a := lt_trichotomy a b

/-- **C86.** Of "less and not equal", "equal" and "greater and not equal" exactly one holds; the comparisons with "or equal" are their
negations. -/
theorem C86_trichotomy (e v1 v2 : K) (h0 : 0 ≤ e) :
    (lessNotEqual e v1 v2 = true ∧ equal e v1 v2 = false ∧ greaterNotEqual e v1 v2 = false) ∨
    (lessNotEqual e v1 v2 = false ∧ equal e v1 v2 = true ∧ greaterNotEqual e v1 v2 = false) ∨
    (lessNotEqual e v1 v2 = false ∧ equal e v1 v2 = false ∧ greaterNotEqual e v1 v2 = true) := by
  unfold lessNotEqual greaterNotEqual
  cases he : equal e v1 v2 with
  | true => simp
  | false =>
    rcases tri v1 v2 with h | h | h
    · simp [h, h.le]
    · subst h
      have : equal e v1 v1 = true := by simp only [equal, sub_self, abs_zero, decide_eq_true_iff]; positivity
      rw [this] at he
      cases he
    · simp [h, h.le]

theorem C86_or_equal (e v1 v2 : K) (h0 : 0 ≤ e) : lessOrEqual e v1 v2 = !greaterNotEqual e v1 v2 ∧ greaterOrEqual e v1 v2 = !lessNotEqual e v1 v2 := by
  unfold lessOrEqual greaterOrEqual lessNotEqual greaterNotEqual
  cases he : equal e v1 v2 with
  | true => simp
  | false =>
    rcases tri v1 v2 with h | h | h
    · simp [h, h.le]
    · subst h
      have : equal e v1 v1 = true := by simp only [equal, sub_self, abs_zero, decide_eq_true_iff]; positivity
      rw [this] at he
      cases he
    · simp [h, h.le]

/-- **C86 is violated**: `equal` is not symmetric, for any tolerance; so `a ≤ b` and `b ≥ a` differ. -/
theorem C86_symmetric_violated (e : K) (h0 : 0 < e) (h1 : e < 1) : ∃ a b : K, equal e a b = true ∧ equal e b a = false ∧
    greaterOrEqual e b a = false ∧ lessOrEqual e a b = true := by
  have e1 : equal e 1 (1 - e) = true := by
    simp only [equal, decide_eq_true_iff, sub_sub_cancel, abs_of_pos h0, abs_one, one_mul, le_refl]
  have e2 : equal e (1 - e) 1 = false := by
    simp only [equal, decide_eq_false_iff_not, not_le, sub_sub_cancel_left, abs_neg, abs_of_pos h0, abs_of_pos (sub_pos.2 h1)]
    nlinarith
  refine ⟨1, 1 - e, e1, e2, ?_, ?_⟩
  · simp only [greaterOrEqual, e2, Bool.or_false, decide_eq_false_iff_not, not_lt, gt_iff_lt]
    linarith
  · simp [lessOrEqual, e1]

example : equal (1 / 100 : ℚ) 100 101 = true ∧ equal (1 / 100 : ℚ) 100 102 = false := by decide +kernel
end

/-! ## Paths -/
variable {V : Type} [NormedAddCommGroup V] [NormedSpace ℝ V]

namespace Spec
/-- The length of the way along the points. -/
def wayLength : List V → ℝ
  | [] => 0
  | [_] => 0
  | a :: b :: r => dist a b + wayLength (b :: r)
end Spec

omit [NormedSpace ℝ V] in
theorem lengthLoop_eq (b : V) (r : List V) (acc : ℝ) : lengthLoop b r acc = acc + Spec.wayLength (b :: r) := by
  induction r generalizing b acc with
  | nil => simp [lengthLoop, Spec.wayLength]
  | cons c r ih => rw [lengthLoop, ih, Spec.wayLength, dist_comm, dist_eq_norm]; ring

omit [NormedSpace ℝ V] in
/-- **C86.** The length of a path is the sum of the distances between successive points; a path without points is an error. -/
theorem C86_length (path : List V) : pathLength path = if path = [] then .err else .ok (Spec.wayLength path) := by
  cases path with
  | nil => rfl
  | cons b r => rw [pathLength, lengthLoop_eq, zero_add, if_neg (by simp)]

omit [NormedSpace ℝ V] in
theorem way_append (a : List V) (p : V) (b : List V) : Spec.wayLength (a ++ p :: b) = Spec.wayLength (a ++ [p]) + Spec.wayLength (p :: b) := by
  induction a with
  | nil => simp [Spec.wayLength]
  | cons x a ih =>
    cases a with
    | nil => simp [Spec.wayLength]
    | cons y a =>
      simp only [List.cons_append, Spec.wayLength] at ih ⊢
      rw [ih]
      ring

omit [NormedSpace ℝ V] in
theorem way_nonneg (l : List V) : 0 ≤ Spec.wayLength l := by
  match l with
  | [] => simp [Spec.wayLength]
  | [_] => simp [Spec.wayLength]
  | a :: b :: r => rw [Spec.wayLength]; exact add_nonneg dist_nonneg (way_nonneg (b :: r))

omit [NormedSpace ℝ V] in
/-- A path is at least as long as the distance between its ends, and as long as its reverse. -/
theorem C86_length_ends (a : V) (r : List V) : dist a (r.getLastD a) ≤ Spec.wayLength (a :: r) := by
  induction r generalizing a with
  | nil => simp [Spec.wayLength]
  | cons b r ih =>
    have e : (b :: r).getLastD a = r.getLastD b := by cases r <;> simp [List.getLast?_cons]
    rw [e, Spec.wayLength]
    exact (dist_triangle a b _).trans (add_le_add le_rfl (ih b))

omit [NormedSpace ℝ V] in
theorem C86_length_reverse (l : List V) : Spec.wayLength l.reverse = Spec.wayLength l := by
  match l with
  | [] => rfl
  | [_] => rfl
  | a :: b :: r =>
    have ih := C86_length_reverse (b :: r)
    rw [List.reverse_cons, List.reverse_cons, List.append_assoc, List.singleton_append, way_append, ← List.reverse_cons, ih]
    simp only [Spec.wayLength, add_zero, dist_comm]
    ring

/-- What `insert_path_point` promises: the path with at most one more point at the returned index, the same length, and the way to the point
at the index is `len`, up to the tolerance. -/
structure Spec.Inserted (e : ℝ) (path : List V) (len : ℝ) (i : Nat) (path' : List V) : Prop where
  inside : i < path'.length
  same : path' = path ∨ path'.eraseIdx i = path
  length : Spec.wayLength path' = Spec.wayLength path
  place : |Spec.wayLength (path'.take (i + 1)) - len| ≤ e * len

theorem insertLoop_spec (e : ℝ) (h0 : 0 ≤ e) (r : List V) : ∀ (init : List V) (p : V) (len L : ℝ), 0 < len →
    L = Spec.wayLength (init ++ [p]) + len → L ≤ Spec.wayLength (init ++ p :: r) →
    Spec.Inserted e (init ++ p :: r) L (insertLoop e (init ++ [p]) p r len).1 (insertLoop e (init ++ [p]) p r len).2 := by
  induction r with
  | nil =>
    intro init p len L hl hL htot
    linarith
  | cons q r ih =>
    intro init p len L hl hL htot
    have hw : 0 ≤ Spec.wayLength (init ++ [p]) := way_nonneg _
    have hL0 : len ≤ L := by linarith
    have hnorm : ‖q - p‖ = dist p q := by rw [dist_comm, dist_eq_norm]
    have hsplit : Spec.wayLength (init ++ [p, q]) = Spec.wayLength (init ++ [p]) + dist p q := by
      rw [way_append]; simp [Spec.wayLength]
    have hlist : (init ++ [p]) ++ q :: r = init ++ p :: q :: r := by simp
    rw [insertLoop]
    beta_reduce
    simp only [hnorm]
    by_cases he : equal e len (dist p q) = true
    · rw [if_pos he, hlist]
      rw [equal, decide_eq_true_iff, abs_of_pos hl] at he
      refine ⟨by simp, .inl rfl, rfl, ?_⟩
      have ht : (init ++ p :: q :: r).take ((init ++ [p]).length + 1) = init ++ [p, q] := by
        rw [show (init ++ [p]).length + 1 = init.length + 2 by simp, List.take_length_add_append]; rfl
      rw [ht, hsplit, hL, add_sub_add_left_eq_sub, abs_sub_comm]
      nlinarith
    · rw [if_neg he]
      by_cases hlt : len < dist p q
      · rw [if_pos hlt]
        have hd : 0 < dist p q := hl.trans hlt
        have hm1 : dist p (p + (len / dist p q) • (q - p)) = len := by
          rw [dist_comm, dist_eq_norm, add_sub_cancel_left, norm_smul, hnorm, Real.norm_eq_abs, abs_of_pos (by positivity)]
          field_simp
        have hm2 : dist (p + (len / dist p q) • (q - p)) q = dist p q - len := by
          have : q - (p + (len / dist p q) • (q - p)) = (1 - len / dist p q) • (q - p) := by rw [sub_smul, one_smul]; abel
          rw [dist_comm, dist_eq_norm, this, norm_smul, hnorm, Real.norm_eq_abs, abs_of_nonneg (by
            rw [sub_nonneg, div_le_one hd]; exact hlt.le)]
          field_simp
        generalize p + (len / dist p q) • (q - p) = m at *
        have hlist2 : (init ++ [p]) ++ m :: q :: r = init ++ p :: m :: q :: r := by simp
        rw [hlist2]
        refine ⟨by simp, .inr ?_, ?_, ?_⟩
        · rw [show (init ++ [p]).length = init.length + 1 by simp, List.eraseIdx_append_of_length_le (by omega)]
          simp
        · rw [way_append init p (m :: q :: r), way_append init p (q :: r)]
          simp only [Spec.wayLength]
          rw [hm1, hm2]
          ring
        · have ht : (init ++ p :: m :: q :: r).take ((init ++ [p]).length + 1) = init ++ [p, m] := by
            rw [show (init ++ [p]).length + 1 = init.length + 2 by simp, List.take_length_add_append]; rfl
          rw [ht, way_append]
          simp only [Spec.wayLength, add_zero]
          rw [hm1, hL, sub_self, abs_zero]
          positivity
      · rw [if_neg hlt]
        have hne : len ≠ dist p q := by
          rintro hh
          apply he
          rw [← hh, equal, decide_eq_true_iff, sub_self, abs_zero]
          positivity
        have hgt : dist p q < len := lt_of_le_of_ne (not_lt.1 hlt) (Ne.symm hne)
        have := ih (init ++ [p]) q (len - dist p q) L (by linarith) (by rw [List.append_assoc, List.singleton_append, hsplit, hL]; ring)
          (by rw [hlist]; exact htot)
        rw [hlist] at this
        exact this

/-- **C86.** A point inserted at a distance up to the length of the path lies at that distance from the start, along the path, up to the
tolerance; the other points stay, and so does the length of the path. -/
theorem C86_insert (e : ℝ) (h0 : 0 ≤ e) (h1 : e < 1) (path : List V) (len : ℝ) (hp : 2 ≤ path.length) (hl : 0 ≤ len)
    (hu : len ≤ Spec.wayLength path) : ∃ i path', insertPathPoint e path len = .ok (i, path') ∧ Spec.Inserted e path len i path' := by
  match path, hp with
  | p :: q :: r, _ =>
    rw [insertPathPoint]
    rcases hl.eq_or_lt with h | h
    · subst h
      rw [if_pos (by simp [lessOrEqual, equal])]
      exact ⟨0, _, rfl, by simp, .inl rfl, rfl, by simp [Spec.wayLength]⟩
    · have : lessOrEqual e len 0 = false := by
        simp only [lessOrEqual, equal, sub_zero, Bool.or_eq_false_iff, decide_eq_false_iff_not, not_lt, not_le, abs_of_pos h]
        exact ⟨h.le, by nlinarith⟩
      rw [if_neg (by simp [this])]
      exact ⟨_, _, rfl, insertLoop_spec e h0 (q :: r) [] p len len h (by simp [Spec.wayLength]) hu⟩

/-- With no tolerance the place is exact. -/
theorem C86_insert_exact (path : List V) (len : ℝ) (hp : 2 ≤ path.length) (hl : 0 ≤ len) (hu : len ≤ Spec.wayLength path) :
    ∃ i path', insertPathPoint 0 path len = .ok (i, path') ∧ Spec.wayLength (path'.take (i + 1)) = len := by
  obtain ⟨i, path', h1, h2⟩ := C86_insert 0 le_rfl one_pos path len hp hl hu
  refine ⟨i, path', h1, ?_⟩
  have := h2.place
  rw [zero_mul] at this
  exact sub_eq_zero.1 (abs_eq_zero.1 (le_antisymm this (abs_nonneg _)))

theorem insertLoop_beyond (e : ℝ) (h0 : 0 ≤ e) (r : List V) : ∀ (init : List V) (p : V) (len L : ℝ), 0 < len →
    L = Spec.wayLength (init ++ [p]) + len → Spec.wayLength (init ++ p :: r) < L →
    (insertLoop e (init ++ [p]) p r len).2 = init ++ p :: r ∧ ((insertLoop e (init ++ [p]) p r len).1 = (init ++ p :: r).length - 1 ∨
      |Spec.wayLength ((init ++ p :: r).take ((insertLoop e (init ++ [p]) p r len).1 + 1)) - L| ≤ e * L) := by
  induction r with
  | nil => intro init p len L _ _ _; simp [insertLoop]
  | cons q r ih =>
    intro init p len L hl hL htot
    have hw : 0 ≤ Spec.wayLength (init ++ [p]) := way_nonneg _
    have hnorm : ‖q - p‖ = dist p q := by rw [dist_comm, dist_eq_norm]
    have hsplit : Spec.wayLength (init ++ [p, q]) = Spec.wayLength (init ++ [p]) + dist p q := by
      rw [way_append]; simp [Spec.wayLength]
    have hlist : (init ++ [p]) ++ q :: r = init ++ p :: q :: r := by simp
    have hge : Spec.wayLength (init ++ [p]) + dist p q < L := by
      have h1 := way_append init p (q :: r)
      have h2 := way_nonneg (q :: r)
      rw [Spec.wayLength] at h1
      linarith
    rw [insertLoop]
    beta_reduce
    simp only [hnorm]
    by_cases he : equal e len (dist p q) = true
    · rw [if_pos he, hlist]
      rw [equal, decide_eq_true_iff, abs_of_pos hl] at he
      refine ⟨rfl, .inr ?_⟩
      have ht : (init ++ p :: q :: r).take ((init ++ [p]).length + 1) = init ++ [p, q] := by
        rw [show (init ++ [p]).length + 1 = init.length + 2 by simp, List.take_length_add_append]; rfl
      rw [ht, hsplit, hL, add_sub_add_left_eq_sub, abs_sub_comm]
      nlinarith
    · rw [if_neg he, if_neg (by linarith)]
      have := ih (init ++ [p]) q (len - dist p q) L (by linarith) (by rw [List.append_assoc, List.singleton_append, hsplit, hL]; ring)
        (by rw [hlist]; exact htot)
      rw [hlist] at this
      exact this

/-- **C86.** A negative distance gives the first point, and a distance beyond the end the last one (or one at that distance, up to the
tolerance); the path stays. A path of fewer than two points is an error. -/
theorem C86_insert_outside (e : ℝ) (h0 : 0 ≤ e) (path : List V) (hp : 2 ≤ path.length) (len : ℝ) :
    (len < 0 → insertPathPoint e path len = .ok (0, path)) ∧
    (e < 1 → Spec.wayLength path < len → ∃ i, insertPathPoint e path len = .ok (i, path) ∧
      (i = path.length - 1 ∨ |Spec.wayLength (path.take (i + 1)) - len| ≤ e * len)) := by
  match path, hp with
  | p :: q :: r, _ =>
    rw [insertPathPoint]
    refine ⟨fun h => by rw [if_pos (by simp [lessOrEqual, h])], fun h1 h => ?_⟩
    have hpos : 0 < len := (way_nonneg _).trans_lt h
    have : lessOrEqual e len 0 = false := by
      simp only [lessOrEqual, equal, sub_zero, Bool.or_eq_false_iff, decide_eq_false_iff_not, not_lt, not_le, abs_of_pos hpos]
      exact ⟨hpos.le, by nlinarith⟩
    rw [if_neg (by simp [this])]
    obtain ⟨g1, g2⟩ := insertLoop_beyond e h0 (q :: r) [] p len len hpos (by simp [Spec.wayLength]) h
    simp only [List.nil_append] at g1 g2
    refine ⟨(insertLoop e [p] p (q :: r) len).1, ?_, g2⟩
    exact congrArg Res.ok (Prod.ext rfl g1)

theorem C86_insert_short (e : ℝ) (path : List V) (hp : path.length < 2) (len : ℝ) : insertPathPoint e path len = .err := by
  match path, hp with
  | [], _ => rfl
  | [_], _ => rfl

/-- A point inside the second step. -/
example : insertPathPoint (0 : ℝ) [(0 : ℝ), 1, 3] 2 = .ok (2, [0, 1, 2, 3]) ∧ Spec.wayLength [(0 : ℝ), 1, 3] = 3 := by
  constructor
  · norm_num [insertPathPoint, insertLoop, lessOrEqual, equal]
  · norm_num [Spec.wayLength, Real.dist_eq]

end Xo.PathAlg
