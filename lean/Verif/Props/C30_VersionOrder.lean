import Verif.Model.Version

/-!
C30: version comparison. The build number is compared only if both builds are positive, so a version without build is
equal to every build of it. That makes `<` transitive but `==` and `<=` not.
-/
namespace Xo
namespace Version

/-- What the comparison means: the numbers are compared in the order major, minor, patch. -/
theorem compare_neg (a b : Version) : compare a b < 0 ↔
    a.major < b.major ∨ a.major = b.major ∧ (a.minor < b.minor ∨ a.minor = b.minor ∧ (a.patch < b.patch ∨
      a.patch = b.patch ∧ 0 < a.build ∧ 0 < b.build ∧ a.build < b.build)) := by
  unfold compare
  repeat' split
  all_goals omega

theorem compare_zero (a b : Version) : compare a b = 0 ↔
    a.major = b.major ∧ a.minor = b.minor ∧ a.patch = b.patch ∧ (a.build ≤ 0 ∨ b.build ≤ 0 ∨ a.build = b.build) := by
  unfold compare
  repeat' split
  all_goals omega

theorem compare_swap (a b : Version) : compare a b = -compare b a := by
  unfold compare
  repeat' split
  all_goals omega

end Version

open Version

/-- **C30.** Comparison in terms of the numbers, for all versions. -/
theorem C30_meaning (a b : Version) :
    (lt a b = true ↔ a.major < b.major ∨ a.major = b.major ∧ (a.minor < b.minor ∨ a.minor = b.minor ∧
      (a.patch < b.patch ∨ a.patch = b.patch ∧ 0 < a.build ∧ 0 < b.build ∧ a.build < b.build))) ∧
    (eq a b = true ↔ a.major = b.major ∧ a.minor = b.minor ∧ a.patch = b.patch ∧
      (a.build ≤ 0 ∨ b.build ≤ 0 ∨ a.build = b.build)) := by
  unfold lt eq
  simp only [decide_eq_true_eq, compare_neg, compare_zero, and_self]

/-- **C30.** Exactly one of `<`, `==`, `>` holds, the other operators are their combinations, and swapping the arguments
swaps `<` and `>`. -/
theorem C30_trichotomy (a b : Version) :
    ((lt a b = true ∧ eq a b = false ∧ gt a b = false) ∨ (lt a b = false ∧ eq a b = true ∧ gt a b = false) ∨
      (lt a b = false ∧ eq a b = false ∧ gt a b = true)) ∧
    le a b = (lt a b || eq a b) ∧ ge a b = (gt a b || eq a b) ∧ ne a b = !eq a b ∧ gt a b = lt b a ∧ eq a b = eq b a := by
  have h := compare_swap a b
  unfold lt eq gt le ge ne
  generalize compare a b = x at *
  generalize compare b a = y at *
  subst h
  refine ⟨?_, ?_, ?_, ?_, ?_, ?_⟩
  · rcases Int.lt_trichotomy y 0 with h | h | h
    · right; right; simp; omega
    · right; left; simp; omega
    · left; simp; omega
  all_goals
    rw [Bool.eq_iff_iff]
    simp
    try omega

/-- **C30.** `<` is a strict order on all versions. -/
theorem C30_lt_strict (a b c : Version) : lt a a = false ∧ (lt a b = true → lt b c = true → lt a c = true) := by
  unfold lt
  simp only [decide_eq_false_iff_not, decide_eq_true_eq, compare_neg]
  constructor <;> omega

/-- **C30.** `is_at_least` is the negation of `is_below`. -/
theorem C30_at_least_below (v : Version) (maj min patch bld : Int) :
    isAtLeast v maj min patch bld = !isBelow v maj min patch bld := by
  unfold isAtLeast isBelow ge lt
  rw [Bool.eq_iff_iff]; simp

/-- **C30 (partial).** `<=` is transitive, and `==` too, unless the middle version has no build while the outer ones have. -/
theorem C30_transitive_partial (a b c : Version) (h : 0 < b.build ∨ a.build ≤ 0 ∨ c.build ≤ 0) :
    (le a b = true → le b c = true → le a c = true) ∧ (eq a b = true → eq b c = true → eq a c = true) := by
  have e : ∀ x y : Version, compare x y ≤ 0 ↔ compare x y < 0 ∨ compare x y = 0 := by intros; omega
  unfold le eq
  simp only [decide_eq_true_eq, e, compare_neg, compare_zero]
  constructor <;> omega

/-- **C30.** In particular on versions which all have builds, or all have none. -/
theorem C30_preorder_partial (P : Version → Prop) (hP : (∀ v, P v → 0 < v.build) ∨ (∀ v, P v → v.build ≤ 0)) :
    (∀ a, P a → le a a = true) ∧ (∀ a b, P a → P b → le a b = true ∨ le b a = true) ∧
    (∀ a b c, P a → P b → P c → le a b = true → le b c = true → le a c = true) ∧
    (∀ a b c, P a → P b → P c → eq a b = true → eq b c = true → eq a c = true) ∧
    (∀ a b c, P a → P b → P c → eq a b = true → lt b c = true → lt a c = true) := by
  have hh : ∀ a b c, P a → P b → P c → 0 < b.build ∨ a.build ≤ 0 ∨ c.build ≤ 0 := by
    intro a b c ha hb hc
    rcases hP with h | h
    · exact Or.inl (h b hb)
    · exact Or.inr (Or.inl (h a ha))
  refine ⟨?_, ?_, fun a b c ha hb hc => (C30_transitive_partial a b c (hh a b c ha hb hc)).1,
    fun a b c ha hb hc => (C30_transitive_partial a b c (hh a b c ha hb hc)).2, ?_⟩
  · intro a _
    unfold le
    simp only [decide_eq_true_eq]
    have : compare a a = 0 := by rw [compare_zero]; omega
    omega
  · intro a b _ _
    have := compare_swap a b
    unfold le
    simp only [decide_eq_true_eq]
    omega
  · intro a b c ha hb hc
    unfold eq lt
    simp only [decide_eq_true_eq, compare_zero, compare_neg]
    rcases hP with h | h
    · have := h a ha; have := h b hb; have := h c hc; omega
    · have := h a ha; have := h b hb; have := h c hc; omega

/-- **C30 is violated**: whenever the same numbers occur with two different builds and without build, `==` and `<=` are not
transitive. -/
theorem C30_transitive_violated (maj min patch b1 b2 : Int) (p1 p2 p3 : Str) (h2 : 0 < b2) (h : b2 < b1) :
    let a : Version := ⟨maj, min, patch, b1, p1⟩
    let m : Version := ⟨maj, min, patch, 0, p2⟩
    let c : Version := ⟨maj, min, patch, b2, p3⟩
    eq a m = true ∧ eq m c = true ∧ eq a c = false ∧ le a m = true ∧ le m c = true ∧ le a c = false := by
  simp only [eq, le, decide_eq_true_eq, decide_eq_false_iff_not]
  have e : ∀ x y : Version, compare x y ≤ 0 ↔ compare x y < 0 ∨ compare x y = 0 := by intros; omega
  simp only [e, compare_neg, compare_zero]
  refine ⟨?_, ?_, ?_, ?_, ?_, ?_⟩ <;> simp <;> omega

example : eq ⟨1, 2, 3, 7, []⟩ ⟨1, 2, 3, 0, []⟩ = true ∧ eq ⟨1, 2, 3, 0, []⟩ ⟨1, 2, 3, 5, []⟩ = true ∧
    gt ⟨1, 2, 3, 7, []⟩ ⟨1, 2, 3, 5, []⟩ = true := by decide

end Xo
