import Verif.Model.Vec4
import Mathlib.Tactic.Ring
import Mathlib.Tactic.Linarith
import Mathlib.Tactic.FieldSimp
import Mathlib.Tactic.FinCases
import Mathlib.Tactic.NormNum

/-!
C132: arithmetic with vectors of four numbers acts on each of the four numbers.
-/
namespace Xo.Geom.Spec
open Xo.Geom
variable {K : Type} [Field K]

/-- Number `i` of a vector. -/
def comp (v : Vec4 K) : Fin 4 → K := ![v.x, v.y, v.z, v.w]

/-- What an assignment does to number `i` on its own. -/
def scalar (i : Fin 4) : Vec4.Op K → K → K
  | .add v, a => a + comp v i
  | .sub v, a => a - comp v i
  | .neg, a => -a
  | .mul s, a => a * s
  | .div s, a => a / s

/-- What a history does to number `i` on its own. -/
def scalars (i : Fin 4) (os : List (Vec4.Op K)) (a : K) : K := os.foldl (fun b o => scalar i o b) a

/-- A history that divides by zero nowhere. -/
def Defined (os : List (Vec4.Op K)) : Prop := ∀ s, Vec4.Op.div s ∈ os → s ≠ 0

/-- The total that the additions of a history bring to the last number. -/
def added : List (Vec4.Op K) → K
  | [] => 0
  | .add v :: os => v.w + added os
  | _ :: os => added os

end Xo.Geom.Spec

namespace Xo.Geom
open Xo.Geom.Spec Vec4
variable {K : Type} [Field K] [DecidableEq K]

/-- Reading by index gives the four numbers in order; any other index is undefined behaviour. -/
theorem C132_index (v : Vec4 K) (i : Nat) : v.get i = if h : i < 4 then .ok (comp v ⟨i, h⟩) else .ub := by
  match i with
  | 0 => simp [Vec4.get, comp]
  | 1 => simp [Vec4.get, comp]
  | 2 => simp [Vec4.get, comp]
  | 3 => simp [Vec4.get, comp]
  | n + 4 => simp [Vec4.get]

/-- Writing by index changes that number and no other. -/
theorem C132_write (v : Vec4 K) (i : Nat) (a : K) :
    (∃ h : i < 4, ∃ u, v.set i a = .ok u ∧ ∀ j, comp u j = if j = ⟨i, h⟩ then a else comp v j) ∨
      (4 ≤ i ∧ v.set i a = .ub) := by
  match i with
  | 0 => exact Or.inl ⟨by omega, _, rfl, fun j => by fin_cases j <;> simp [comp]⟩
  | 1 => exact Or.inl ⟨by omega, _, rfl, fun j => by fin_cases j <;> simp [comp]⟩
  | 2 => exact Or.inl ⟨by omega, _, rfl, fun j => by fin_cases j <;> simp [comp]⟩
  | 3 => exact Or.inl ⟨by omega, _, rfl, fun j => by fin_cases j <;> simp [comp]⟩
  | n + 4 => exact Or.inr ⟨by omega, rfl⟩

/-- The unit vectors: unit vector `i` has one at place `i` and zero elsewhere; the zero vector has zero everywhere. -/
theorem C132_units (j : Fin 4) :
    comp (zero : Vec4 K) j = 0 ∧ comp (unitX : Vec4 K) j = (if j = 0 then 1 else 0) ∧
      comp (unitY : Vec4 K) j = (if j = 1 then 1 else 0) ∧ comp (unitZ : Vec4 K) j = (if j = 2 then 1 else 0) ∧
      comp (unitW : Vec4 K) j = (if j = 3 then 1 else 0) := by
  fin_cases j <;> simp [comp, zero, unitX, unitY, unitZ, unitW]

theorem step_three {v u : Vec4 K} {o : Op K} (h : step v o = some u) (i : Fin 3) :
    comp u i.castSucc = scalar i.castSucc o (comp v i.castSucc) := by
  cases o with
  | add a => cases h; fin_cases i <;> simp [comp, scalar, add]
  | sub a => cases h; fin_cases i <;> simp [comp, scalar, subAssign]
  | neg => cases h; fin_cases i <;> simp [comp, scalar, neg]
  | mul s => cases h; fin_cases i <;> simp [comp, scalar, smul]
  | div s =>
    simp only [step, divs] at h
    split at h
    · cases h
    · cases h
      fin_cases i <;> simp [comp, scalar, div_eq_mul_inv]

theorem step_last {v u : Vec4 K} {o : Op K} (h : step v o = some u) :
    ∀ os, u.w + added os = v.w + added (o :: os) := by
  intro os
  cases o with
  | add a => cases h; simp only [add, added]; ring
  | sub a => cases h; simp [subAssign, added]
  | neg => cases h; simp [neg, added]
  | mul s => cases h; simp [smul, added]
  | div s =>
    simp only [step, divs] at h
    split at h
    · cases h
    · cases h; simp [added]

theorem step_some (v : Vec4 K) (o : Op K) : (step v o).isSome = true ↔ ∀ s, o = .div s → s ≠ 0 := by
  cases o with
  | add a => simp [step]
  | sub a => simp [step]
  | neg => simp [step]
  | mul s => simp [step]
  | div s =>
    by_cases hs : s = 0 <;> simp [step, divs, hs]

/-- A history of assignments has a result exactly when it divides by zero nowhere. -/
theorem C132_defined (os : List (Op K)) (v : Vec4 K) : (run v os).isSome = true ↔ Defined os := by
  induction os generalizing v with
  | nil => simp [run, Defined]
  | cons o os ih =>
    have h := step_some v o
    cases hs : step v o with
    | none =>
      rw [hs] at h
      simp only [run, hs, Option.bind_none, Option.isSome_none, Bool.false_eq_true, false_iff] at h ⊢
      intro hd
      exact h fun s hs => hd s (hs ▸ List.mem_cons_self)
    | some u =>
      rw [hs] at h
      simp only [Option.isSome_some, true_iff] at h
      simp only [run, hs, Option.bind_some, ih u]
      constructor
      · intro hd s hm
        rcases List.mem_cons.1 hm with hm | hm
        · exact h s hm.symm
        · exact hd s hm
      · exact fun hd s hm => hd s (List.mem_cons_of_mem _ hm)

/-- After every history of assignments the first three numbers are what the same history does to each of them alone. The
property asks it of the fourth as well. -/
theorem C132_three_partial (os : List (Op K)) (v u : Vec4 K) (h : run v os = some u) (i : Fin 3) :
    comp u i.castSucc = scalars i.castSucc os (comp v i.castSucc) := by
  induction os generalizing v with
  | nil => cases h; rfl
  | cons o os ih =>
    simp only [run, Option.bind_eq_some_iff] at h
    obtain ⟨m, hm, hr⟩ := h
    rw [ih m hr, step_three hm i]
    rfl

/-- Additions act on all four numbers: a history of additions alone does to every number what it does to that number. -/
theorem C132_add_partial (os : List (Op K)) (ho : ∀ o ∈ os, ∃ a, o = .add a) (v : Vec4 K) :
    ∃ u, run v os = some u ∧ ∀ i, comp u i = scalars i os (comp v i) := by
  induction os generalizing v with
  | nil => exact ⟨v, rfl, fun _ => rfl⟩
  | cons o os ih =>
    obtain ⟨a, rfl⟩ := ho o List.mem_cons_self
    obtain ⟨u, hu, hc⟩ := ih (fun o ho' => ho o (List.mem_cons_of_mem _ ho')) (add v a)
    refine ⟨u, hu, fun i => ?_⟩
    rw [hc i]
    have : comp (add v a) i = scalar i (.add a) (comp v i) := by
      fin_cases i <;> simp [comp, scalar, add]
    rw [this]
    rfl

/-- The fourth number after every history is what it was plus what was added: subtractions, negations, products and
quotients pass it by. -/
theorem C132_last (os : List (Op K)) (v u : Vec4 K) (h : run v os = some u) : u.w = v.w + added os := by
  induction os generalizing v with
  | nil => cases h; simp [added]
  | cons o os ih =>
    simp only [run, Option.bind_eq_some_iff] at h
    obtain ⟨m, hm, hr⟩ := h
    rw [ih m hr, step_last hm os]

/-- Subtracting a vector does not subtract its fourth number, whenever that is not zero: then subtracting what was added
does not give the vector back. -/
theorem C132_sub_violated (v a : Vec4 K) (ha : a.w ≠ 0) :
    comp (subAssign v a) 3 ≠ comp v 3 - comp a 3 ∧ subAssign (add v a) a ≠ v := by
  constructor
  · simp only [comp, subAssign, Matrix.cons_val]
    intro h
    apply ha
    have := sub_eq_self.1 h.symm
    exact this
  · intro h
    have := congrArg Vec4.w h
    simp only [subAssign, add, add_eq_left] at this
    exact ha this

/-- A vector plus its negation is not zero, whenever the fourth number is not zero (and two is not zero). -/
theorem C132_neg_violated (v : Vec4 K) (h2 : (2 : K) ≠ 0) (hv : v.w ≠ 0) : add v (neg v) ≠ zero := by
  intro h
  have := congrArg Vec4.w h
  simp only [neg, add, zero] at this
  have h' : (2 : K) * v.w = 0 := by rw [two_mul]; exact this
  rcases mul_eq_zero.1 h' with h' | h'
  · exact h2 h'
  · exact hv h'

/-- Multiplying by any number other than one, or dividing by it, leaves the fourth number wrong whenever it is not zero.
-/
theorem C132_scale_violated (v : Vec4 K) (s : K) (hs : s ≠ 1) (hv : v.w ≠ 0) :
    comp (smul s v) 3 ≠ comp v 3 * s ∧ (s ≠ 0 → ∃ u, divs v s = some u ∧ comp u 3 ≠ comp v 3 / s) := by
  constructor
  · simp only [comp, smul, Matrix.cons_val]
    intro h
    have : v.w * (s - 1) = 0 := by rw [mul_sub, ← h]; ring
    rcases mul_eq_zero.1 this with h' | h'
    · exact hv h'
    · exact hs (sub_eq_zero.1 h')
  · intro h0
    refine ⟨_, if_neg h0, ?_⟩
    simp only [comp, Matrix.cons_val]
    intro h
    rw [eq_div_iff h0] at h
    have : v.w * (s - 1) = 0 := by rw [mul_sub, h]; ring
    rcases mul_eq_zero.1 this with h' | h'
    · exact hv h'
    · exact hs (sub_eq_zero.1 h')

/-- The null test answers yes exactly for the vector of four zeros. -/
theorem C132_null (v : Vec4 K) : v.isNull = true ↔ ∀ i, comp v i = 0 := by
  simp only [isNull, Bool.and_eq_true, beq_iff_eq, comp]
  constructor
  · rintro ⟨⟨⟨h0, h1⟩, h2⟩, h3⟩ i
    fin_cases i <;> simp [h0, h1, h2, h3]
  · intro h
    exact ⟨⟨⟨h 0, h 1⟩, h 2⟩, h 3⟩

/-- The squared length is the sum of the squares of all four numbers; it is zero for the null vector and no other. -/
theorem C132_squared_length {K : Type} [Field K] [LinearOrder K] [IsStrictOrderedRing K] (v : Vec4 K) :
    v.sqLen = ∑ i, comp v i ^ 2 ∧ 0 ≤ v.sqLen ∧ (v.sqLen = 0 ↔ v.isNull = true) := by
  refine ⟨?_, ?_, ?_⟩
  · simp only [sqLen, Fin.sum_univ_four, comp, Matrix.cons_val]
    ring
  · have := mul_self_nonneg v.x; have := mul_self_nonneg v.y
    have := mul_self_nonneg v.z; have := mul_self_nonneg v.w
    simp only [sqLen]; linarith
  · have h0 := mul_self_nonneg v.x; have h1 := mul_self_nonneg v.y
    have h2 := mul_self_nonneg v.z; have h3 := mul_self_nonneg v.w
    simp only [sqLen, isNull, Bool.and_eq_true, beq_iff_eq]
    constructor
    · intro h
      refine ⟨⟨⟨?_, ?_⟩, ?_⟩, ?_⟩ <;> apply mul_self_eq_zero.1 <;> linarith
    · rintro ⟨⟨⟨h0, h1⟩, h2⟩, h3⟩
      rw [h0, h1, h2, h3]; ring

/-- The length is the square root of the squared length, is never negative, is zero for the null vector alone, and obeys
the triangle inequality for sums. -/
theorem C132_length (a b : Vec4 ℝ) :
    0 ≤ a.len ∧ a.len ^ 2 = a.sqLen ∧ (a.len = 0 ↔ a = zero) ∧ (add a b).len ≤ a.len + b.len := by
  have hq : ∀ v : Vec4 ℝ, v.len = Real.sqrt v.sqLen := fun v => rfl
  have hn : ∀ v : Vec4 ℝ, 0 ≤ v.sqLen := fun v => (C132_squared_length v).2.1
  refine ⟨Real.sqrt_nonneg _, ?_, ?_, ?_⟩
  · rw [hq, Real.sq_sqrt (hn a)]
  · rw [hq, Real.sqrt_eq_zero (hn a), (C132_squared_length a).2.2]
    simp only [isNull, Bool.and_eq_true, beq_iff_eq]
    constructor
    · rintro ⟨⟨⟨h0, h1⟩, h2⟩, h3⟩
      exact Vec4.ext h0 h1 h2 h3
    · rintro rfl
      exact ⟨⟨⟨rfl, rfl⟩, rfl⟩, rfl⟩
  · have ha := Real.sqrt_nonneg a.sqLen
    have hb := Real.sqrt_nonneg b.sqLen
    have hA := Real.mul_self_sqrt (hn a)
    have hB := Real.mul_self_sqrt (hn b)
    rw [hq, hq, hq]
    apply Real.sqrt_le_iff.2
    refine ⟨by linarith, ?_⟩
    have hcs : (a.x * b.x + a.y * b.y + a.z * b.z + a.w * b.w) ≤ Real.sqrt a.sqLen * Real.sqrt b.sqLen := by
      rw [← Real.sqrt_mul (hn a)]
      apply Real.le_sqrt_of_sq_le
      simp only [sqLen]
      nlinarith [sq_nonneg (a.x * b.y - a.y * b.x), sq_nonneg (a.x * b.z - a.z * b.x),
        sq_nonneg (a.x * b.w - a.w * b.x), sq_nonneg (a.y * b.z - a.z * b.y), sq_nonneg (a.y * b.w - a.w * b.y),
        sq_nonneg (a.z * b.w - a.w * b.z)]
    have hs : (add a b).sqLen = a.sqLen + b.sqLen + 2 * (a.x * b.x + a.y * b.y + a.z * b.z + a.w * b.w) := by
      simp only [sqLen, add]; ring
    rw [hs]
    nlinarith

/-- Doubling a vector doubles its length only when its fourth number is zero. -/
theorem C132_length_violated (a : Vec4 ℝ) : (smul 2 a).len = 2 * a.len ↔ a.w = 0 := by
  have hq : ∀ v : Vec4 ℝ, v.len = Real.sqrt v.sqLen := fun v => rfl
  have hn : ∀ v : Vec4 ℝ, 0 ≤ v.sqLen := fun v => (C132_squared_length v).2.1
  have h2 : (2 : ℝ) * Real.sqrt a.sqLen = Real.sqrt (4 * a.sqLen) := by
    rw [Real.sqrt_mul (by norm_num), show (4 : ℝ) = 2 ^ 2 by norm_num, Real.sqrt_sq (by norm_num)]
  rw [hq, hq, h2, Real.sqrt_inj (hn _) (by have := hn a; linarith)]
  simp only [sqLen, smul]
  constructor
  · intro h
    have : a.w * a.w = 0 := by linarith
    exact mul_self_eq_zero.1 this
  · intro h
    rw [h]; ring

/-- A history that meets the hypotheses, with an answer that shows the fourth number passed by. -/
example : run (⟨1, 2, 3, 4⟩ : Vec4 ℚ) [.add ⟨1, 1, 1, 1⟩, .mul 2, .sub ⟨1, 1, 1, 1⟩, .div 3, .neg] =
    some ⟨-1, -5/3, -7/3, 5⟩ := by decide +kernel

end Xo.Geom
