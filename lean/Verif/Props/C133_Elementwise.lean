import Verif.Model.Scale3
import Mathlib.Algebra.BigOperators.Fin
import Mathlib.Data.List.Perm.Basic
import Mathlib.Tactic.Ring
import Mathlib.Tactic.Linarith
import Mathlib.Tactic.FieldSimp
import Mathlib.Tactic.FinCases
import Mathlib.Tactic.NormNum

/-!
C133: scaling, comparing and mirroring vectors act element by element, and undo each other.
-/
namespace Xo.Geom.Spec
open Xo.Geom
variable {K : Type}

/-- Element `i` of a vector. -/
def el (v : Vec3 K) : Fin 3 → K := ![v.x, v.y, v.z]

/-- Two vectors with the same elements are the same. -/
theorem el_ext {a b : Vec3 K} (h : ∀ i, el a i = el b i) : a = b :=
  Vec3.ext (h 0) (h 1) (h 2)

/-- The factor a history of scalings brings to element `i`. -/
def factor [Field K] (i : Fin 3) : List (Scale.Op K) → K
  | [] => 1
  | .mul s :: os => el s i * factor i os
  | .div s :: os => (el s i)⁻¹ * factor i os

/-- Every scale a history divides by has three elements that are not zero. -/
def Divides [Field K] (os : List (Scale.Op K)) : Prop := ∀ s, Scale.Op.div s ∈ os → ∀ i, el s i ≠ 0

end Xo.Geom.Spec

namespace Xo.Geom
open Xo.Geom.Spec

section field
variable {K : Type} [Field K] [DecidableEq K]

theorem all_el {s : Vec3 K} : ¬(s.x = 0 ∨ s.y = 0 ∨ s.z = 0) ↔ ∀ i, el s i ≠ 0 := by
  constructor
  · intro h i
    have h' : s.x ≠ 0 ∧ s.y ≠ 0 ∧ s.z ≠ 0 := by
      refine ⟨fun e => h (Or.inl e), fun e => h (Or.inr (Or.inl e)), fun e => h (Or.inr (Or.inr e))⟩
    fin_cases i
    · exact h'.1
    · exact h'.2.1
    · exact h'.2.2
  · rintro h (e | e | e)
    · exact h 0 e
    · exact h 1 e
    · exact h 2 e

omit [DecidableEq K] in
theorem apply_el (s v : Vec3 K) (i : Fin 3) : el (Scale.apply s v) i = el s i * el v i := by
  fin_cases i <;> rfl

theorem unapply_some {v s u : Vec3 K} (h : Scale.unapply v s = some u) :
    (∀ i, el s i ≠ 0) ∧ ∀ i, el u i = el v i / el s i := by
  simp only [Scale.unapply] at h
  split at h
  · cases h
  · rename_i h0
    cases h
    exact ⟨all_el.1 h0, fun i => by fin_cases i <;> rfl⟩

theorem unapply_none {v s : Vec3 K} : Scale.unapply v s = none ↔ ¬∀ i, el s i ≠ 0 := by
  rw [← all_el, not_not]
  simp only [Scale.unapply]
  split <;> simp_all

/-- A scale times a vector multiplies element by element; so does a scale times a scale. -/
theorem C133_scale (s t v : Vec3 K) (i : Fin 3) :
    el (Scale.apply s v) i = el s i * el v i ∧ el (Scale.mul s t) i = el s i * el t i ∧
      el (Scale.uniform v.x) i = v.x ∧ el (Scale.one : Vec3 K) i = 1 := by
  refine ⟨apply_el s v i, ?_, ?_, ?_⟩ <;> fin_cases i <;> simp [el, Scale.mul, Scale.uniform, Scale.one, mul_comm]

/-- Two scales one after the other are their product; a scale that is one in each element, and no other, changes no
vector. -/
theorem C133_compose (s t v : Vec3 K) :
    Scale.apply s (Scale.apply t v) = Scale.apply (Scale.mul s t) v ∧
      (Scale.isOne s = true ↔ ∀ u, Scale.apply s u = u) ∧ Scale.isOne (Scale.one : Vec3 K) = true := by
  refine ⟨?_, ?_, ?_⟩
  · ext <;> simp only [Scale.apply, Scale.mul] <;> ring
  · simp only [Scale.isOne, Bool.and_eq_true, beq_iff_eq]
    constructor
    · rintro ⟨⟨h0, h1⟩, h2⟩ u
      ext <;> simp [Scale.apply, h0, h1, h2]
    · intro h
      have := h ⟨1, 1, 1⟩
      simp only [Scale.apply, mul_one] at this
      exact ⟨⟨congrArg Vec3.x this, congrArg Vec3.y this⟩, congrArg Vec3.z this⟩
  · simp [Scale.isOne, Scale.one]

/-- Dividing by a scale undoes multiplying by it, and the other way round, whenever no element of the scale is zero; with
a zero element there is no quotient. -/
theorem C133_inverse (s v : Vec3 K) :
    ((∀ i, el s i ≠ 0) → Scale.unapply (Scale.apply s v) s = some v ∧
        ∃ u, Scale.unapply v s = some u ∧ Scale.apply s u = v) ∧
      ((∃ i, el s i = 0) → Scale.unapply v s = none) := by
  constructor
  · intro h
    have h0 := all_el.2 h
    have hx : s.x ≠ 0 := h 0
    have hy : s.y ≠ 0 := h 1
    have hz : s.z ≠ 0 := h 2
    refine ⟨?_, ?_⟩
    · simp only [Scale.unapply, if_neg h0, Scale.apply, Option.some.injEq]
      ext <;> simp [hx, hy, hz]
    · refine ⟨_, if_neg h0, ?_⟩
      ext <;> simp only [Scale.apply] <;> field_simp
  · rintro ⟨i, hi⟩
    exact unapply_none.2 fun h => h i hi

/-- Scales divide as they multiply. -/
theorem C133_quotient (a b : Vec3 K) (h : ∀ i, el b i ≠ 0) :
    Scale.div (Scale.mul a b) b = some a ∧ ∃ q, Scale.div a b = some q ∧ Scale.mul q b = a := by
  have h0 := all_el.2 h
  have hx : b.x ≠ 0 := h 0
  have hy : b.y ≠ 0 := h 1
  have hz : b.z ≠ 0 := h 2
  refine ⟨?_, ?_⟩
  · simp only [Scale.div, if_neg h0, Scale.mul, Option.some.injEq]
    ext <;> simp [hx, hy, hz]
  · refine ⟨_, if_neg h0, ?_⟩
    ext <;> simp only [Scale.mul] <;> field_simp

/-- After every history of multiplications and divisions by scales each element is what it was times the factor of the
history for that element. -/
theorem C133_history (os : List (Scale.Op K)) (v u : Vec3 K) (h : Scale.run v os = some u) (i : Fin 3) :
    el u i = factor i os * el v i := by
  induction os generalizing v with
  | nil => cases h; simp [factor]
  | cons o os ih =>
    cases o with
    | mul s =>
      rw [ih _ h, apply_el]
      simp only [factor]; ring
    | div s =>
      simp only [Scale.run, Option.bind_eq_some_iff] at h
      obtain ⟨m, hm, hr⟩ := h
      rw [ih m hr, (unapply_some hm).2 i]
      simp only [factor, div_eq_mul_inv]; ring

/-- A history has a result exactly when no scale it divides by has a zero element. -/
theorem C133_defined (os : List (Scale.Op K)) (v : Vec3 K) : (Scale.run v os).isSome = true ↔ Divides os := by
  induction os generalizing v with
  | nil => simp [Scale.run, Divides]
  | cons o os ih =>
    cases o with
    | mul s =>
      simp only [Scale.run, ih, Divides]
      simp
    | div s =>
      cases hs : Scale.unapply v s with
      | none =>
        simp only [Scale.run, hs, Option.bind_none, Option.isSome_none, Bool.false_eq_true, false_iff]
        exact fun hd => unapply_none.1 hs (hd s List.mem_cons_self)
      | some m =>
        simp only [Scale.run, hs, Option.bind_some, ih]
        constructor
        · intro hd t ht
          rcases List.mem_cons.1 ht with ht | ht
          · cases ht; exact (unapply_some hs).1
          · exact hd t ht
        · exact fun hd t ht => hd t (List.mem_cons_of_mem _ ht)

omit [DecidableEq K] in
theorem factor_perm {os ps : List (Scale.Op K)} (h : os.Perm ps) (i : Fin 3) : factor i os = factor i ps := by
  induction h with
  | nil => rfl
  | cons o _ ih => cases o <;> simp only [factor, ih]
  | swap a b l => cases a <;> cases b <;> simp only [factor] <;> ring
  | trans _ _ ih1 ih2 => rw [ih1, ih2]

/-- The order of a history of scalings does not matter. -/
theorem C133_order {os ps : List (Scale.Op K)} (h : os.Perm ps) (v : Vec3 K) : Scale.run v os = Scale.run v ps := by
  have hd : Divides os ↔ Divides ps :=
    ⟨fun hd s hs => hd s (h.mem_iff.2 hs), fun hd s hs => hd s (h.mem_iff.1 hs)⟩
  cases ho : Scale.run v os with
  | none =>
    cases hp : Scale.run v ps with
    | none => rfl
    | some u =>
      have := hd.2 ((C133_defined ps v).1 (by rw [hp]; rfl))
      have := (C133_defined os v).2 this
      rw [ho] at this
      cases this
  | some w =>
    cases hp : Scale.run v ps with
    | none =>
      have := hd.1 ((C133_defined os v).1 (by rw [ho]; rfl))
      have := (C133_defined ps v).2 this
      rw [hp] at this
      cases this
    | some u =>
      have : w = u := el_ext fun i => by rw [C133_history os v w ho i, C133_history ps v u hp i, factor_perm h i]
      rw [this]

/-- Reading by index gives the three elements in order, as a walk from begin to end does; any other index is undefined
behaviour. The unit vector of an index has one there and zero elsewhere, and picks that element from any vector. -/
theorem C133_index (v : Vec3 K) (i : Nat) :
    (v.get i = if h : i < 3 then .ok (el v ⟨i, h⟩) else .ub) ∧ v.toList = (List.finRange 3).map (el v) ∧
      (∀ h : i < 3, Vec3.dot v (Vec3.axis i) = el v ⟨i, h⟩) ∧ (3 ≤ i → Vec3.axis i = (Vec3.zero : Vec3 K)) := by
  refine ⟨?_, rfl, ?_, ?_⟩
  · match i with
    | 0 => simp [Vec3.get, el]
    | 1 => simp [Vec3.get, el]
    | 2 => simp [Vec3.get, el]
    | n + 3 => simp [Vec3.get]
  · intro h
    match i with
    | 0 => simp [Vec3.dot, Vec3.axis, el]
    | 1 => simp [Vec3.dot, Vec3.axis, el]
    | 2 => simp [Vec3.dot, Vec3.axis, el]
  · intro h
    have h0 : i ≠ 0 := by omega
    have h1 : i ≠ 1 := by omega
    have h2 : i ≠ 2 := by omega
    simp [Vec3.axis, Vec3.zero, h0, h1, h2]

/-- The axes by name: each negative unit vector is the negation of the unit vector. -/
theorem C133_axes : Vec3.axis 0 = (Vec3.unitX : Vec3 K) ∧ Vec3.axis 1 = (Vec3.unitY : Vec3 K) ∧
    Vec3.axis 2 = (Vec3.unitZ : Vec3 K) ∧ Vec3.negUnitX = Vec3.neg (Vec3.unitX : Vec3 K) ∧
    Vec3.negUnitY = Vec3.neg (Vec3.unitY : Vec3 K) ∧ Vec3.negUnitZ = Vec3.neg (Vec3.unitZ : Vec3 K) := by
  simp [Vec3.axis, Vec3.unitX, Vec3.unitY, Vec3.unitZ, Vec3.negUnitX, Vec3.negUnitY, Vec3.negUnitZ, Vec3.neg]

/-- Two vectors compare equal exactly when they are the same in each element; the null test is comparison with zero. -/
theorem C133_equality (a b : Vec3 K) :
    (Vec3.eq a b = true ↔ a = b) ∧ (Vec3.isNull a = true ↔ a = Vec3.zero) := by
  constructor
  · simp only [Vec3.eq, Bool.and_eq_true, beq_iff_eq, Vec3.ext_iff, and_assoc]
  · simp only [Vec3.isNull, Bool.and_eq_true, beq_iff_eq, Vec3.ext_iff, and_assoc, Vec3.zero]

/-- Division of vectors and of a number by a vector: element by element, and only when no divisor is zero. -/
theorem C133_divide (a b : Vec3 K) (s : K) :
    ((∀ i, el b i ≠ 0) → (∃ q, Vec3.divv a b = some q ∧ (∀ i, el q i = el a i / el b i) ∧ Vec3.mul q b = a) ∧
        ∃ q, Vec3.sdiv s b = some q ∧ (∀ i, el q i = s / el b i) ∧ Vec3.mul q b = Vec3.diagonal s) ∧
      ((∃ i, el b i = 0) → Vec3.divv a b = none ∧ Vec3.sdiv s b = none) := by
  constructor
  · intro h
    have h0 := all_el.2 h
    have hx : b.x ≠ 0 := h 0
    have hy : b.y ≠ 0 := h 1
    have hz : b.z ≠ 0 := h 2
    refine ⟨⟨_, if_neg h0, fun i => by fin_cases i <;> rfl, ?_⟩, ⟨_, if_neg h0, fun i => by fin_cases i <;> rfl, ?_⟩⟩
    · ext <;> simp only [Vec3.mul] <;> field_simp
    · ext <;> simp only [Vec3.mul, Vec3.diagonal] <;> field_simp
  · rintro ⟨i, hi⟩
    have h0 : b.x = 0 ∨ b.y = 0 ∨ b.z = 0 := by
      by_contra hc
      exact all_el.1 hc i hi
    exact ⟨if_pos h0, if_pos h0⟩

end field

section ordered
variable {K : Type} [Field K] [LinearOrder K] [IsStrictOrderedRing K]

/-- The Manhattan length is never negative, is zero for the null vector alone, obeys the triangle inequality, scales with
the size of a factor, and bounds the length: its square lies between the squared length and three times that. -/
theorem C133_manhattan (a b : Vec3 K) (s : K) :
    0 ≤ Vec3.manhattan a ∧ (Vec3.manhattan a = 0 ↔ a = Vec3.zero) ∧
      Vec3.manhattan (Vec3.add a b) ≤ Vec3.manhattan a + Vec3.manhattan b ∧
      Vec3.manhattan (Vec3.smul s a) = |s| * Vec3.manhattan a ∧
      Vec3.sqLen a ≤ Vec3.manhattan a ^ 2 ∧ Vec3.manhattan a ^ 2 ≤ 3 * Vec3.sqLen a := by
  have hx := abs_nonneg a.x
  have hy := abs_nonneg a.y
  have hz := abs_nonneg a.z
  refine ⟨?_, ?_, ?_, ?_, ?_, ?_⟩
  · simp only [Vec3.manhattan]; linarith
  · simp only [Vec3.manhattan, Vec3.ext_iff, Vec3.zero]
    constructor
    · intro h
      refine ⟨?_, ?_, ?_⟩ <;> apply abs_eq_zero.1 <;> linarith
    · rintro ⟨h0, h1, h2⟩
      simp [h0, h1, h2]
  · simp only [Vec3.manhattan, Vec3.add]
    have := abs_add_le a.x b.x
    have := abs_add_le a.y b.y
    have := abs_add_le a.z b.z
    linarith
  · simp only [Vec3.manhattan, Vec3.smul, abs_mul]; ring
  · simp only [Vec3.manhattan, Vec3.sqLen, ← abs_mul_abs_self a.x, ← abs_mul_abs_self a.y, ← abs_mul_abs_self a.z]
    nlinarith [mul_nonneg hx hy, mul_nonneg hy hz, mul_nonneg hx hz]
  · simp only [Vec3.manhattan, Vec3.sqLen, ← abs_mul_abs_self a.x, ← abs_mul_abs_self a.y, ← abs_mul_abs_self a.z]
    nlinarith [sq_nonneg (|a.x| - |a.y|), sq_nonneg (|a.y| - |a.z|), sq_nonneg (|a.x| - |a.z|)]

/-- The absolute value of a vector has no negative element, the same squared length and the same Manhattan length; taking
it twice changes nothing. -/
theorem C133_abs (a : Vec3 K) :
    (∀ i, el (Vec3.abs a) i = |el a i|) ∧ Vec3.abs (Vec3.abs a) = Vec3.abs a ∧
      Vec3.sqLen (Vec3.abs a) = Vec3.sqLen a ∧ Vec3.manhattan (Vec3.abs a) = Vec3.manhattan a := by
  refine ⟨fun i => by fin_cases i <;> rfl, ?_, ?_, ?_⟩
  · simp [Vec3.abs]
  · simp [Vec3.abs, Vec3.sqLen]
  · simp [Vec3.abs, Vec3.manhattan]

/-- Clamping puts every element between the bounds, leaves elements that lie there alone, and does nothing the second
time. -/
theorem C133_clamp (v : Vec3 K) (lb ub : K) (h : lb ≤ ub) :
    (∀ i, lb ≤ el (Vec3.clamp v lb ub) i ∧ el (Vec3.clamp v lb ub) i ≤ ub) ∧
      (∀ i, lb ≤ el v i → el v i ≤ ub → el (Vec3.clamp v lb ub) i = el v i) ∧
      (∀ i, el v i < lb → el (Vec3.clamp v lb ub) i = lb) ∧ (∀ i, ub < el v i → el (Vec3.clamp v lb ub) i = ub) ∧
      Vec3.clamp (Vec3.clamp v lb ub) lb ub = Vec3.clamp v lb ub := by
  have hc : ∀ a : K, (lb ≤ Math.clamp a lb ub ∧ Math.clamp a lb ub ≤ ub) ∧ (lb ≤ a → a ≤ ub → Math.clamp a lb ub = a) ∧
      (a < lb → Math.clamp a lb ub = lb) ∧ (ub < a → Math.clamp a lb ub = ub) := by
    intro a
    simp only [Math.clamp]
    refine ⟨?_, ?_, ?_, ?_⟩
    · split
      · exact ⟨le_refl _, h⟩
      · split
        · exact ⟨h, le_refl _⟩
        · exact ⟨by order, by order⟩
    · intro h1 h2
      rw [if_neg (by order), if_neg (by order)]
    · intro h1
      rw [if_pos h1]
    · intro h1
      rw [if_neg (by order), if_pos h1]
  have he : ∀ i, el (Vec3.clamp v lb ub) i = Math.clamp (el v i) lb ub := fun i => by fin_cases i <;> rfl
  refine ⟨fun i => ?_, fun i h1 h2 => ?_, fun i h1 => ?_, fun i h1 => ?_, ?_⟩
  · rw [he]; exact (hc _).1
  · rw [he]; exact (hc _).2.1 h1 h2
  · rw [he]; exact (hc _).2.2.1 h1
  · rw [he]; exact (hc _).2.2.2 h1
  · simp only [Vec3.clamp]
    have hi : ∀ a : K, Math.clamp (Math.clamp a lb ub) lb ub = Math.clamp a lb ub := fun a =>
      (hc _).2.1 (hc a).1.1 (hc a).1.2
    simp only [hi]

/-- Comparison with a tolerance: two vectors agree exactly when in each element the difference is at most the tolerance
times the size of the first. Every vector agrees with itself when the tolerance is not negative. -/
theorem C133_tolerance (e : K) (a b : Vec3 K) :
    (Vec3.equal e a b = true ↔ ∀ i, |el a i - el b i| ≤ |el a i| * e) ∧ (0 ≤ e → Vec3.equal e a a = true) := by
  have h : ∀ a b : Vec3 K, Vec3.equal e a b = true ↔ ∀ i, |el a i - el b i| ≤ |el a i| * e := by
    intro a b
    simp only [Vec3.equal, PathAlg.equal, Bool.and_eq_true, decide_eq_true_eq]
    constructor
    · rintro ⟨⟨h0, h1⟩, h2⟩ i
      fin_cases i
      · exact h0
      · exact h1
      · exact h2
    · intro h
      exact ⟨⟨h 0, h 1⟩, h 2⟩
  refine ⟨h a b, fun he => (h a a).2 fun i => ?_⟩
  rw [sub_self, abs_zero]
  exact mul_nonneg (abs_nonneg _) he

/-- Comparison with a tolerance depends on the order of the two vectors, for every tolerance above zero and below one: it
accepts a vector against one that is smaller by the tolerance, and refuses the same two the other way round. -/
theorem C133_tolerance_violated (e : K) (h0 : 0 < e) (h1 : e < 1) :
    ∃ a b : Vec3 K, Vec3.equal e a b = true ∧ Vec3.equal e b a = false := by
  refine ⟨⟨1, 1, 1⟩, ⟨1 - e, 1, 1⟩, ?_, ?_⟩
  · simp [Vec3.equal, PathAlg.equal, abs_of_pos h0, h0.le]
  · have : ¬ e ≤ (1 - e) * e := by nlinarith
    have h2 : |1 - e| = 1 - e := abs_of_pos (by linarith)
    have h3 : |1 - e - 1| = e := by rw [show 1 - e - 1 = -e by ring, abs_neg, abs_of_pos h0]
    simp [Vec3.equal, PathAlg.equal, h2, abs_of_pos h0, this]

/-- The test for unit length accepts exactly the vectors whose squared length differs from one by at most the tolerance
times itself; the null vector never passes, and a vector of length one always does. -/
theorem C133_normalized (e : K) (he : 0 ≤ e) (v : Vec3 K) :
    (Vec3.isNormalized e v = true ↔ |Vec3.sqLen v - 1| ≤ Vec3.sqLen v * e) ∧
      (Vec3.sqLen v = 1 → Vec3.isNormalized e v = true) ∧ Vec3.isNormalized e (Vec3.zero : Vec3 K) = false := by
  have hn : 0 ≤ Vec3.sqLen v := by
    have := mul_self_nonneg v.x; have := mul_self_nonneg v.y; have := mul_self_nonneg v.z
    simp only [Vec3.sqLen]; linarith
  have h : Vec3.isNormalized e v = true ↔ |Vec3.sqLen v - 1| ≤ Vec3.sqLen v * e := by
    have : Vec3.isNormalized e v = decide (|Vec3.sqLen v - 1| ≤ |Vec3.sqLen v| * e) := rfl
    rw [this, abs_of_nonneg hn, decide_eq_true_eq]
  refine ⟨h, fun h1 => h.2 ?_, ?_⟩
  · rw [h1, sub_self, abs_zero, one_mul]; exact he
  · simp [Vec3.isNormalized, PathAlg.equal, Vec3.zero]

/-- Mirrored limits: a rotation vector lies within the limits exactly when its mirror image lies within the mirrored
limits; mirroring limits twice gives them back. -/
theorem C133_limits [FloorRing K] (l : Vec3 (Bounds K)) (v : Vec3 K) :
    ((∀ i, Bounds.isWithin (el (mirrorLimits l) i) (el (Vec3.mirrorAxis v) i) = true) ↔
        ∀ i, Bounds.isWithin (el l i) (el v i) = true) ∧ mirrorLimits (mirrorLimits l) = l := by
  have hb : ∀ (b : Bounds K) (a : K), Bounds.isWithin (mirrorBounds b) (-a) = Bounds.isWithin b a := by
    intro b a
    simp only [Bounds.isWithin, mirrorBounds, ge_iff_le, neg_le_neg_iff]
    rw [Bool.and_comm]
  constructor
  · apply forall_congr'
    intro i
    fin_cases i
    · simp [el, mirrorLimits, Vec3.mirrorAxis, hb]
    · simp [el, mirrorLimits, Vec3.mirrorAxis, hb]
    · simp [el, mirrorLimits, Vec3.mirrorAxis]
  · simp [mirrorLimits, mirrorBounds]

end ordered

/-- The conditional forms mirror when asked to and otherwise change nothing; asking twice gives the value back, for every
kind of value that mirrors back in two steps. -/
theorem C133_if {α : Type} (mirror : α → α) (hm : ∀ a, mirror (mirror a) = a) (a : α) (m : Bool) :
    mirrorIf mirror a true = mirroredBy mirror a ∧ mirrorIf mirror a false = a ∧
      mirrorIf mirror (mirrorIf mirror a m) m = a ∧ mirroredBy mirror (mirroredBy mirror a) = a := by
  refine ⟨rfl, rfl, ?_, hm a⟩
  cases m
  · rfl
  · exact hm a

/-- The hypotheses are met: a vector, a history that divides, and its result. -/
example : Divides [.mul ⟨2, 3, 4⟩, .div (⟨1, 5, -1⟩ : Vec3 ℚ)] ∧
    Scale.run (⟨1, 2, 3⟩ : Vec3 ℚ) [.mul ⟨2, 3, 4⟩, .div ⟨1, 5, -1⟩] = some ⟨2, 6/5, -12⟩ := by
  constructor
  · intro s hs i
    simp only [List.mem_cons, Scale.Op.div.injEq, reduceCtorEq, List.not_mem_nil, or_false, false_or] at hs
    subst hs
    fin_cases i <;> simp [el]
  · decide +kernel
example : ∀ a : Vec3 ℚ, Vec3.mirror (Vec3.mirror a) = a := fun a => by simp [Vec3.mirror]

end Xo.Geom
