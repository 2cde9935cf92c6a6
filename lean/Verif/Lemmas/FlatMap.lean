import Verif.Model.FlatMap
import Verif.Spec.Map
import Verif.Lemmas.Bound
import Mathlib.Order.Basic

namespace Xo
variable {K V : Type} [LinearOrder K]

theorem insertIdx_append_length {α} (as cs : List α) (x : α) :
    (as ++ cs).insertIdx as.length x = as ++ x :: cs := by
  induction as with
  | nil => simp
  | cons a as ih => simp [ih]

theorem eraseIdx_append_length {α} (as cs : List α) (x : α) :
    (as ++ x :: cs).eraseIdx as.length = as ++ cs := by
  induction as with
  | nil => simp
  | cons a as ih => simp [ih]

theorem set_append_length {α} (as cs : List α) (x y : α) :
    (as ++ x :: cs).set as.length y = as ++ y :: cs := by
  induction as with
  | nil => simp
  | cons a as ih => simp [ih]

namespace FlatMap

/-- The representation invariant: keys strictly ascending. -/
def Sorted (l : List (K × V)) : Prop := l.Pairwise fun a b => a.1 < b.1

/-- Either the key occurs, at a definite place, or there is a definite gap for it. -/
theorem locate (l : List (K × V)) (h : Sorted l) (k : K) :
    (∃ as v cs, l = as ++ (k, v) :: cs ∧ (∀ a ∈ as, a.1 < k) ∧ (∀ c ∈ cs, k < c.1)) ∨
    (∃ as cs, l = as ++ cs ∧ (∀ a ∈ as, a.1 < k) ∧ (∀ c ∈ cs, k < c.1)) := by
  induction l with
  | nil => right; exact ⟨[], [], by simp⟩
  | cons x xs ih =>
    have hx := List.pairwise_cons.1 h
    rcases lt_trichotomy x.1 k with hlt | heq | hgt
    · rcases ih hx.2 with ⟨as, v, cs, e, h1, h2⟩ | ⟨as, cs, e, h1, h2⟩
      · left; refine ⟨x :: as, v, cs, by simp [e], ?_, h2⟩
        intro a ha; rcases List.mem_cons.1 ha with rfl | ha
        · exact hlt
        · exact h1 a ha
      · right; refine ⟨x :: as, cs, by simp [e], ?_, h2⟩
        intro a ha; rcases List.mem_cons.1 ha with rfl | ha
        · exact hlt
        · exact h1 a ha
    · left; refine ⟨[], x.2, xs, ?_, by simp, ?_⟩
      · obtain ⟨a, b⟩ := x; simp at heq; simp [heq]
      · intro c hc; rw [← heq]; exact hx.1 c hc
    · right; refine ⟨[], x :: xs, by simp, by simp, ?_⟩
      intro c hc; rcases List.mem_cons.1 hc with rfl | hc
      · exact hgt
      · exact lt_trans hgt (hx.1 c hc)

theorem sorted_append {as cs : List (K × V)} {k : K} (hs : Sorted (as ++ cs))
    (h1 : ∀ a ∈ as, a.1 < k) (h2 : ∀ c ∈ cs, k < c.1) (v : V) : Sorted (as ++ (k, v) :: cs) := by
  unfold Sorted at *
  rw [List.pairwise_append] at *
  refine ⟨hs.1, ?_, ?_⟩
  · rw [List.pairwise_cons]; exact ⟨h2, hs.2.1⟩
  · intro a ha b hb
    rcases List.mem_cons.1 hb with rfl | hb
    · exact h1 a ha
    · exact hs.2.2 a ha b hb

theorem sorted_remove {as cs : List (K × V)} {x : K × V} (hs : Sorted (as ++ x :: cs)) :
    Sorted (as ++ cs) := by
  unfold Sorted at *
  rw [List.pairwise_append] at *
  exact ⟨hs.1, (List.pairwise_cons.1 hs.2.1).2, fun a ha b hb => hs.2.2 a ha b (List.mem_cons_of_mem _ hb)⟩

theorem lb_eq {as bs : List (K × V)} {k : K} (h1 : ∀ a ∈ as, a.1 < k) (h2 : ∀ b ∈ bs, ¬ b.1 < k) :
    lowerBound ⟨as ++ bs⟩ k = as.length := by
  unfold lowerBound
  exact bound_append as bs _ (by simpa using h1) (by simpa using h2)

theorem ub_eq {as bs : List (K × V)} {k : K} (h1 : ∀ a ∈ as, ¬ k < a.1) (h2 : ∀ b ∈ bs, k < b.1) :
    upperBound ⟨as ++ bs⟩ k = as.length := by
  unfold upperBound
  exact bound_append as bs _ (by simpa using h1) (by simpa using h2)

section hit
variable {as cs : List (K × V)} {k : K} {v : V} (h1 : ∀ a ∈ as, a.1 < k) (h2 : ∀ c ∈ cs, k < c.1)
include h1 h2

theorem lb_hit : lowerBound ⟨as ++ (k, v) :: cs⟩ k = as.length :=
  lb_eq h1 (by
    intro b hb; rcases List.mem_cons.1 hb with rfl | hb
    · exact lt_irrefl _
    · exact not_lt_of_gt (h2 b hb))

theorem entry_hit : entryAt ⟨as ++ (k, v) :: cs⟩ as.length k = some v := by
  simp [entryAt]

theorem findIt_hit : findIt ⟨as ++ (k, v) :: cs⟩ k = as.length := by
  simp only [findIt, lb_hit h1 h2, entry_hit h1 h2]; simp

theorem find_hit : find ⟨as ++ (k, v) :: cs⟩ k = some v := by
  simp [find, findIt_hit h1 h2]

theorem contains_hit : contains ⟨as ++ (k, v) :: cs⟩ k = true := by
  simp [contains, findIt_hit h1 h2]

theorem at_hit : at' ⟨as ++ (k, v) :: cs⟩ k = .ok v := by
  simp [at', findIt_hit h1 h2]

theorem count_hit : count ⟨as ++ (k, v) :: cs⟩ k = 1 := by
  have ha : as.countP (fun e => decide (e.1 = k)) = 0 := by
    rw [List.countP_eq_zero]; intro a ha; simpa using ne_of_lt (h1 a ha)
  have hc : cs.countP (fun e => decide (e.1 = k)) = 0 := by
    rw [List.countP_eq_zero]; intro a ha; simpa using (ne_of_lt (h2 a ha)).symm
  simp [count, List.countP_append, List.countP_cons, ha, hc]

theorem erase_hit : erase ⟨as ++ (k, v) :: cs⟩ k = (⟨as ++ cs⟩, 1) := by
  simp only [erase, findIt_hit h1 h2, eraseIdx_append_length]; simp

theorem insert_hit (w : V) : insert ⟨as ++ (k, v) :: cs⟩ k w = (⟨as ++ (k, v) :: cs⟩, false) := by
  simp only [insert, lb_hit h1 h2, entry_hit h1 h2]; simp

theorem assign_hit (w : V) : assign ⟨as ++ (k, v) :: cs⟩ k w = ⟨as ++ (k, w) :: cs⟩ := by
  simp only [assign, lb_hit h1 h2, entry_hit h1 h2, set_append_length]; simp

theorem read_hit (d : V) : getOrDefault d ⟨as ++ (k, v) :: cs⟩ k = (⟨as ++ (k, v) :: cs⟩, v) := by
  simp only [getOrDefault, lb_hit h1 h2, entry_hit h1 h2]

end hit

section miss
variable {as cs : List (K × V)} {k : K} (h1 : ∀ a ∈ as, a.1 < k) (h2 : ∀ c ∈ cs, k < c.1)
include h1 h2

theorem lb_miss : lowerBound ⟨as ++ cs⟩ k = as.length :=
  lb_eq h1 fun b hb => not_lt_of_gt (h2 b hb)

theorem entry_miss : entryAt ⟨as ++ cs⟩ as.length k = none := by
  unfold entryAt
  cases cs with
  | nil => simp
  | cons c cs =>
    have := (ne_of_lt (h2 c (by simp))).symm
    simp [this]

theorem findIt_miss : findIt ⟨as ++ cs⟩ k = (as ++ cs).length := by
  simp only [findIt, lb_miss h1 h2, entry_miss h1 h2]; simp

theorem find_miss : find ⟨as ++ cs⟩ k = none := by
  unfold find; rw [findIt_miss h1 h2]; simp

theorem contains_miss : contains ⟨as ++ cs⟩ k = false := by
  unfold contains; rw [findIt_miss h1 h2]; simp

theorem at_miss : at' ⟨as ++ cs⟩ k = .err := by
  unfold at'; rw [findIt_miss h1 h2]; simp

theorem count_miss : count ⟨as ++ cs⟩ k = 0 := by
  unfold count; rw [List.countP_eq_zero]
  intro a ha
  rcases List.mem_append.1 ha with ha | ha
  · simpa using ne_of_lt (h1 a ha)
  · simpa using (ne_of_lt (h2 a ha)).symm

theorem erase_miss : erase ⟨as ++ cs⟩ k = (⟨as ++ cs⟩, 0) := by
  unfold erase; rw [findIt_miss h1 h2]; simp

theorem insert_miss (w : V) : insert ⟨as ++ cs⟩ k w = (⟨as ++ (k, w) :: cs⟩, true) := by
  simp only [insert, lb_miss h1 h2, entry_miss h1 h2, insertIdx_append_length]; simp

theorem assign_miss (w : V) : assign ⟨as ++ cs⟩ k w = ⟨as ++ (k, w) :: cs⟩ := by
  simp only [assign, lb_miss h1 h2, entry_miss h1 h2, insertIdx_append_length]; simp

theorem read_miss (d : V) : getOrDefault d ⟨as ++ cs⟩ k = (⟨as ++ (k, d) :: cs⟩, d) := by
  simp only [getOrDefault, lb_miss h1 h2, entry_miss h1 h2, insertIdx_append_length]

end miss

/-- Refinement relation: sorted, and the entries are exactly those of the abstract map. -/
def Rel (m : FlatMap K V) (s : Spec.AMap K V) : Prop :=
  Sorted m.data ∧ ∀ k v, (k, v) ∈ m.data ↔ s k = some v

theorem rel_hit {as cs : List (K × V)} {k : K} {v : V} {s : Spec.AMap K V}
    (hr : Rel ⟨as ++ (k, v) :: cs⟩ s) : s k = some v := (hr.2 k v).1 (by simp)

theorem rel_miss {as cs : List (K × V)} {k : K} {s : Spec.AMap K V}
    (hr : Rel ⟨as ++ cs⟩ s) (h1 : ∀ a ∈ as, a.1 < k) (h2 : ∀ c ∈ cs, k < c.1) : s k = none := by
  cases hk : s k with
  | none => rfl
  | some v =>
    have := (hr.2 k v).2 hk
    rcases List.mem_append.1 this with h | h
    · exact absurd (h1 _ h) (lt_irrefl _)
    · exact absurd (h2 _ h) (lt_irrefl _)

theorem rel_put {as cs : List (K × V)} {k : K} {s : Spec.AMap K V} (w : V)
    (hs : Sorted (as ++ cs)) (hr : ∀ k' v, k' ≠ k → ((k', v) ∈ as ++ cs ↔ s k' = some v))
    (h1 : ∀ a ∈ as, a.1 < k) (h2 : ∀ c ∈ cs, k < c.1) :
    Rel ⟨as ++ (k, w) :: cs⟩ (s.update k (some w)) := by
  refine ⟨sorted_append hs h1 h2 w, ?_⟩
  intro k' v'
  unfold Spec.AMap.update
  by_cases hk : k' = k
  · subst hk
    simp only [if_true, Option.some.injEq]
    constructor
    · intro h
      rcases List.mem_append.1 h with h | h
      · exact absurd (h1 _ h) (lt_irrefl _)
      · rcases List.mem_cons.1 h with h | h
        · exact ((Prod.mk.injEq ..).mp h).2.symm
        · exact absurd (h2 _ h) (lt_irrefl _)
    · rintro rfl; simp
  · rw [if_neg hk, ← hr k' v' hk]
    simp [hk]

theorem rel_del {as cs : List (K × V)} {k : K} {s : Spec.AMap K V}
    (hs : Sorted (as ++ cs)) (hr : ∀ k' v, k' ≠ k → ((k', v) ∈ as ++ cs ↔ s k' = some v))
    (h1 : ∀ a ∈ as, a.1 < k) (h2 : ∀ c ∈ cs, k < c.1) :
    Rel ⟨as ++ cs⟩ (s.update k none) := by
  refine ⟨hs, ?_⟩
  intro k' v'
  unfold Spec.AMap.update
  by_cases hk : k' = k
  · subst hk
    simp only [if_true]
    constructor
    · intro h
      rcases List.mem_append.1 h with h | h
      · exact absurd (h1 _ h) (lt_irrefl _)
      · exact absurd (h2 _ h) (lt_irrefl _)
    · rintro ⟨⟩
  · rw [if_neg hk, ← hr k' v' hk]

theorem rel_others_hit {as cs : List (K × V)} {k : K} {v : V} {s : Spec.AMap K V}
    (hr : Rel ⟨as ++ (k, v) :: cs⟩ s) :
    ∀ k' v', k' ≠ k → ((k', v') ∈ as ++ cs ↔ s k' = some v') := by
  intro k' v' hk
  rw [← hr.2 k' v']
  simp [hk]

theorem update_self {s : Spec.AMap K V} {k : K} {v : Option V} (h : s k = v) : s.update k v = s := by
  funext k'; unfold Spec.AMap.update; split
  · next e => rw [e, h]
  · rfl

end FlatMap
end Xo
