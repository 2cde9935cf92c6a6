import Verif.Lemmas.FlatSet

/-! C02: `flat_set` is a finite set under every history. -/
namespace Xo
open Spec
variable {K : Type} [LinearOrder K]

namespace FlatSet

/-- One API call on the model. The report is 1 for "inserted" / the number of erased elements. -/
def step (m : FlatSet K) : SetOp K → FlatSet K × Nat
  | .insert k => ((m.insert k).1, if (m.insert k).2 then 1 else 0)
  | .erase k => m.erase k
  | .clear => (FlatSet.empty, 0)

def run (m : FlatSet K) : List (SetOp K) → FlatSet K × List Nat
  | [] => (m, [])
  | op :: ops =>
    let (m1, o) := m.step op
    let (m2, os) := run m1 ops
    (m2, o :: os)

end FlatSet
open FlatSet

theorem C02_step (m : FlatSet K) (s : ASet K) (hr : Rel m s) (op : SetOp K) :
    Rel (m.step op).1 (s.step op).1 ∧ (m.step op).2 = (s.step op).2 := by
  obtain ⟨l⟩ := m
  cases op with
  | clear => exact ⟨⟨List.Pairwise.nil, by simp [FlatSet.step, FlatSet.empty, ASet.step]⟩, rfl⟩
  | insert k =>
    rcases locate l hr.1 k with ⟨as, cs, rfl, h1, h2⟩ | ⟨as, cs, rfl, h1, h2⟩
    · simp only [FlatSet.step, ASet.step, insert_hit h1 h2, rel_hit hr]
      refine ⟨⟨hr.1, fun k' => ?_⟩, rfl⟩
      have := hr.2 k'; simp only [List.mem_append, List.mem_cons] at this
      by_cases hk : k' = k
      · subst hk; simp
      · simpa [hk] using this
    · simp only [FlatSet.step, ASet.step, insert_miss h1 h2, rel_miss hr h1 h2]
      refine ⟨⟨sorted_put h1 h2 hr.1, fun k' => ?_⟩, rfl⟩
      have := hr.2 k'; simp only [List.mem_append] at this
      by_cases hk : k' = k
      · subst hk; simp
      · simpa [hk] using this
  | erase k =>
    rcases locate l hr.1 k with ⟨as, cs, rfl, h1, h2⟩ | ⟨as, cs, rfl, h1, h2⟩
    · simp only [FlatSet.step, ASet.step, erase_hit h1 h2, rel_hit hr]
      refine ⟨⟨sorted_del hr.1, fun k' => ?_⟩, rfl⟩
      have := hr.2 k'; simp only [List.mem_append, List.mem_cons] at this
      by_cases hk : k' = k
      · subst hk
        have n1 : k' ∉ as := fun h => lt_irrefl _ (h1 _ h)
        have n2 : k' ∉ cs := fun h => lt_irrefl _ (h2 _ h)
        simp [n1, n2]
      · simpa [hk] using this
    · simp only [FlatSet.step, ASet.step, erase_miss h1 h2, rel_miss hr h1 h2]
      refine ⟨⟨hr.1, fun k' => ?_⟩, by simp⟩
      have := hr.2 k'; simp only [List.mem_append] at this
      by_cases hk : k' = k
      · subst hk; have := rel_miss hr h1 h2; simp_all
      · simpa [hk] using this

theorem C02_run (ops : List (SetOp K)) : ∀ (m : FlatSet K) (s : ASet K), Rel m s →
    Rel (m.run ops).1 (s.run ops).1 ∧ (m.run ops).2 = (s.run ops).2 := by
  induction ops with
  | nil => intro m s h; exact ⟨h, rfl⟩
  | cons op ops ih =>
    intro m s h
    have h1 := C02_step m s h op
    have h2 := ih _ _ h1.1
    simp only [FlatSet.run, ASet.run]
    exact ⟨h2.1, by rw [h1.2, h2.2]⟩

/-- **C02.** After any history from the empty set every report equals that of a mathematical set, membership
and count agree, iteration is strictly ascending and visits exactly the members, and the bounds count the
elements below / not above their argument. -/
theorem C02_flat_set_is_finite_set (ops : List (SetOp K)) :
    let r := (FlatSet.empty : FlatSet K).run ops
    let s := ASet.run (fun _ => false) ops
    r.2 = s.2 ∧
    (∀ k, r.1.contains k = s.1 k) ∧
    (∀ k, r.1.count k = if s.1 k then 1 else 0) ∧
    (∀ k, r.1.lowerBound k = r.1.data.countP (fun e => decide (e < k))) ∧
    (∀ k, r.1.upperBound k = r.1.data.countP (fun e => decide (e ≤ k))) ∧
    r.1.data.Pairwise (· < ·) ∧
    (∀ k, k ∈ r.1.data ↔ s.1 k = true) ∧
    r.1.size = r.1.data.length := by
  have h := C02_run ops (FlatSet.empty : FlatSet K) (fun _ => false)
    ⟨List.Pairwise.nil, by simp [FlatSet.empty]⟩
  simp only
  generalize (FlatSet.empty : FlatSet K).run ops = r at h
  generalize ASet.run (fun _ => false) ops = s at h
  obtain ⟨⟨l⟩, outs⟩ := r
  obtain ⟨s, os⟩ := s
  obtain ⟨hr, ho⟩ := h
  replace hr : Rel ⟨l⟩ s := hr
  refine ⟨ho, ?_, ?_, ?_, ?_, hr.1, hr.2, rfl⟩
  all_goals
    intro k
    rcases locate l hr.1 k with ⟨as, cs, rfl, h1, h2⟩ | ⟨as, cs, rfl, h1, h2⟩
  · simp only [contains_hit h1 h2, rel_hit hr]
  · simp only [contains_miss h1 h2, rel_miss hr h1 h2]
  · simp only [count_hit h1 h2, rel_hit hr]; rfl
  · simp only [count_miss h1 h2, rel_miss hr h1 h2]; rfl
  · rw [lb_hit h1 h2, List.countP_append, List.countP_cons,
      List.countP_eq_length.2 (by simpa using h1),
      List.countP_eq_zero.2 (by simpa using fun a hc => le_of_lt (h2 a hc))]
    simp
  · rw [lb_miss h1 h2, List.countP_append,
      List.countP_eq_length.2 (by simpa using h1),
      List.countP_eq_zero.2 (by simpa using fun a hc => le_of_lt (h2 a hc))]
    simp
  · rw [ub_hit h1 h2, List.countP_append, List.countP_cons,
      List.countP_eq_length.2 (by simpa using fun a hc => le_of_lt (h1 a hc)),
      List.countP_eq_zero.2 (by simpa using h2)]
    simp
  · rw [ub_miss h1 h2, List.countP_append,
      List.countP_eq_length.2 (by simpa using fun a hc => le_of_lt (h1 a hc)),
      List.countP_eq_zero.2 (by simpa using h2)]
    simp

example : (FlatSet.empty : FlatSet Nat).run [.insert 5, .insert 2, .insert 5, .erase 2, .erase 2, .insert 9] =
    (⟨[5, 9]⟩, [1, 1, 0, 1, 0, 1]) := by decide +kernel

end Xo
