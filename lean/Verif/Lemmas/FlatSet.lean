import Verif.Lemmas.FlatMap
import Mathlib.Data.List.Basic

/-! Helper lemmas about weakly sorted vectors (`flat_set`, `sorted_vector`, brace-initialised containers). -/
namespace Xo
variable {K V : Type} [LinearOrder K]

/-- Split of a weakly sorted list by a key function. -/
theorem wsplit {α} (f : α → K) (l : List α) (h : l.Pairwise fun a b => ¬ f b < f a) (k : K) :
    ∃ as ms cs, l = as ++ (ms ++ cs) ∧ (∀ a ∈ as, f a < k) ∧ (∀ m ∈ ms, f m = k) ∧ (∀ c ∈ cs, k < f c) := by
  induction l with
  | nil => exact ⟨[], [], [], by simp⟩
  | cons x xs ih =>
    have hx := List.pairwise_cons.1 h
    obtain ⟨as, ms, cs, e, h1, h2, h3⟩ := ih hx.2
    rcases lt_trichotomy (f x) k with hlt | heq | hgt
    · refine ⟨x :: as, ms, cs, by simp [e], ?_, h2, h3⟩
      intro a ha; rcases List.mem_cons.1 ha with rfl | ha
      · exact hlt
      · exact h1 a ha
    · have has : as = [] := by
        cases as with
        | nil => rfl
        | cons a as =>
          have := hx.1 a (by simp [e])
          exact absurd (lt_of_lt_of_eq (h1 a (by simp)) heq.symm) this
      subst has
      refine ⟨[], x :: ms, cs, by simp [e], by simp, ?_, h3⟩
      intro a ha; rcases List.mem_cons.1 ha with rfl | ha
      · exact heq
      · exact h2 a ha
    · refine ⟨[], [], x :: xs, by simp, by simp, by simp, ?_⟩
      intro c hc; rcases List.mem_cons.1 hc with rfl | hc
      · exact hgt
      · exact lt_of_lt_of_le hgt (not_lt.1 (hx.1 c hc))

theorem bound_lt_split {α} {f : α → K} {as ms cs : List α} {k : K}
    (h1 : ∀ a ∈ as, f a < k) (h2 : ∀ m ∈ ms, f m = k) (h3 : ∀ c ∈ cs, k < f c) :
    bound (as ++ (ms ++ cs)) (fun e => decide (f e < k)) = as.length := by
  refine bound_append as _ _ (by simpa using h1) ?_
  intro b hb
  rcases List.mem_append.1 hb with hb | hb
  · simp [h2 b hb]
  · simpa using le_of_lt (h3 b hb)

theorem bound_le_split {α} {f : α → K} {as ms cs : List α} {k : K}
    (h1 : ∀ a ∈ as, f a < k) (h2 : ∀ m ∈ ms, f m = k) (h3 : ∀ c ∈ cs, k < f c) :
    bound (as ++ (ms ++ cs)) (fun e => !decide (k < f e)) = (as ++ ms).length := by
  rw [← List.append_assoc]
  refine bound_append _ _ _ ?_ (by simpa using h3)
  intro b hb
  rcases List.mem_append.1 hb with hb | hb
  · simpa using le_of_lt (h1 b hb)
  · simp [h2 b hb]

namespace FlatSet

def Sorted (l : List K) : Prop := l.Pairwise fun a b => a < b

theorem locate (l : List K) (h : Sorted l) (k : K) :
    (∃ as cs, l = as ++ k :: cs ∧ (∀ a ∈ as, a < k) ∧ (∀ c ∈ cs, k < c)) ∨
    (∃ as cs, l = as ++ cs ∧ (∀ a ∈ as, a < k) ∧ (∀ c ∈ cs, k < c)) := by
  obtain ⟨as, ms, cs, e, h1, h2, h3⟩ := wsplit id l (h.imp fun hab => not_lt_of_gt hab) k
  match ms, h2, e with
  | [], _, e => right; exact ⟨as, cs, by simpa using e, h1, h3⟩
  | [m], h2, e => left; exact ⟨as, cs, by simpa [h2 m (by simp)] using (h2 m (by simp)) ▸ e, h1, h3⟩
  | m :: m' :: ms, h2, e =>
    rw [e] at h
    have := (List.pairwise_append.1 h).2.1
    have := (List.pairwise_cons.1 this).1 m' (by simp)
    have e1 : m = k := h2 m (by simp)
    have e2 : m' = k := h2 m' (by simp)
    rw [e1, e2] at this
    exact absurd this (lt_irrefl _)

section
variable {as cs : List K} {k : K} (h1 : ∀ a ∈ as, a < k) (h2 : ∀ c ∈ cs, k < c)
include h1 h2

theorem lb_hit : lowerBound ⟨as ++ k :: cs⟩ k = as.length := by
  have := bound_lt_split (f := id) (ms := [k]) h1 (by simp) h2
  simpa [lowerBound] using this

theorem lb_miss : lowerBound ⟨as ++ cs⟩ k = as.length := by
  have := bound_lt_split (f := id) (ms := []) h1 (by simp) h2
  simpa [lowerBound] using this

theorem ub_hit : upperBound ⟨as ++ k :: cs⟩ k = as.length + 1 := by
  have := bound_le_split (f := id) (ms := [k]) h1 (by simp) h2
  simpa [upperBound] using this

theorem ub_miss : upperBound ⟨as ++ cs⟩ k = as.length := by
  have := bound_le_split (f := id) (ms := []) h1 (by simp) h2
  simpa [upperBound] using this

theorem findIt_hit : findIt ⟨as ++ k :: cs⟩ k = as.length := by
  simp only [findIt, lb_hit h1 h2]; simp [hitAt]

omit h1 in
theorem hit_miss : hitAt ⟨as ++ cs⟩ as.length k = false := by
  unfold hitAt
  cases cs with
  | nil => simp
  | cons c cs => simpa using (ne_of_lt (h2 c (by simp))).symm

theorem findIt_miss : findIt ⟨as ++ cs⟩ k = (as ++ cs).length := by
  simp only [findIt, lb_miss h1 h2, hit_miss h2]; simp

theorem contains_hit : contains ⟨as ++ k :: cs⟩ k = true := by
  simp [contains, findIt_hit h1 h2]

theorem contains_miss : contains ⟨as ++ cs⟩ k = false := by
  unfold contains; rw [findIt_miss h1 h2]; simp

theorem count_hit : count ⟨as ++ k :: cs⟩ k = 1 := by
  have ha : as.countP (fun e => decide (e = k)) = 0 := by
    rw [List.countP_eq_zero]; intro a ha; simpa using ne_of_lt (h1 a ha)
  have hc : cs.countP (fun e => decide (e = k)) = 0 := by
    rw [List.countP_eq_zero]; intro a ha; simpa using (ne_of_lt (h2 a ha)).symm
  simp [count, List.countP_append, ha, hc]

theorem count_miss : count ⟨as ++ cs⟩ k = 0 := by
  unfold count; rw [List.countP_eq_zero]
  intro a ha
  rcases List.mem_append.1 ha with ha | ha
  · simpa using ne_of_lt (h1 a ha)
  · simpa using (ne_of_lt (h2 a ha)).symm

theorem insert_hit : insert ⟨as ++ k :: cs⟩ k = (⟨as ++ k :: cs⟩, false) := by
  simp only [insert, lb_hit h1 h2]; simp [hitAt]

theorem insert_miss : insert ⟨as ++ cs⟩ k = (⟨as ++ k :: cs⟩, true) := by
  simp only [insert, lb_miss h1 h2, hit_miss h2, insertIdx_append_length]; simp

theorem erase_hit : erase ⟨as ++ k :: cs⟩ k = (⟨as ++ cs⟩, 1) := by
  simp only [erase, findIt_hit h1 h2, eraseIdx_append_length]; simp

theorem erase_miss : erase ⟨as ++ cs⟩ k = (⟨as ++ cs⟩, 0) := by
  unfold erase; rw [findIt_miss h1 h2]; simp

theorem sorted_put (hs : Sorted (as ++ cs)) : Sorted (as ++ k :: cs) := by
  unfold Sorted at *
  rw [List.pairwise_append] at *
  refine ⟨hs.1, List.pairwise_cons.2 ⟨h2, hs.2.1⟩, ?_⟩
  intro a ha b hb
  rcases List.mem_cons.1 hb with rfl | hb
  · exact h1 a ha
  · exact hs.2.2 a ha b hb

omit h1 h2 in
theorem sorted_del (hs : Sorted (as ++ k :: cs)) : Sorted (as ++ cs) := by
  unfold Sorted at *
  rw [List.pairwise_append] at *
  exact ⟨hs.1, (List.pairwise_cons.1 hs.2.1).2, fun a ha b hb => hs.2.2 a ha b (List.mem_cons_of_mem _ hb)⟩

end

/-- Refinement relation to a mathematical set. -/
def Rel (m : FlatSet K) (s : Spec.ASet K) : Prop := Sorted m.data ∧ ∀ k, k ∈ m.data ↔ s k = true

theorem rel_hit {as cs : List K} {k : K} {s : Spec.ASet K} (hr : Rel ⟨as ++ k :: cs⟩ s) : s k = true :=
  (hr.2 k).1 (by simp)

theorem rel_miss {as cs : List K} {k : K} {s : Spec.ASet K} (hr : Rel ⟨as ++ cs⟩ s)
    (h1 : ∀ a ∈ as, a < k) (h2 : ∀ c ∈ cs, k < c) : s k = false := by
  cases hk : s k with
  | false => rfl
  | true =>
    rcases List.mem_append.1 ((hr.2 k).2 hk) with h | h
    · exact absurd (h1 _ h) (lt_irrefl _)
    · exact absurd (h2 _ h) (lt_irrefl _)

end FlatSet

theorem runLength_append {ms cs : List K} {k : K} (h2 : ∀ m ∈ ms, m = k) (h3 : ∀ c ∈ cs, k < c) :
    SortedVector.runLength k (ms ++ cs) = ms.length := by
  induction ms with
  | nil =>
    cases cs with
    | nil => rfl
    | cons c cs => simp [SortedVector.runLength, (ne_of_lt (h3 c (by simp))).symm]
  | cons m ms ih =>
    simp [SortedVector.runLength, h2 m (by simp), ih (fun x hx => h2 x (by simp [hx]))]

end Xo
