import Verif.Model.Stats
import Mathlib.Data.List.Sort
import Mathlib.Tactic.Linarith
import Mathlib.Tactic.NormNum
import Mathlib.Tactic.Ring
import Mathlib.Algebra.BigOperators.Group.List.Basic
import Mathlib.Algebra.Order.Field.Rat

/-!
C53: medians. C62: averages, variances, sorted indices, top averages.
-/
namespace Xo
open Stats
variable {K : Type} [Field K] [LinearOrder K]

namespace Spec

/-- `m` is the median of `l`: in every sorted arrangement `s` of `l` it is the middle element, or the mean of the two
middle elements. -/
def IsMedian (l : List K) (m : K) : Prop :=
  ∀ s : List K, s.Perm l → s.Pairwise (· ≤ ·) →
    (l.length % 2 = 1 → s[l.length / 2]? = some m) ∧
    (l.length % 2 = 0 → ∃ a b, s[l.length / 2 - 1]? = some a ∧ s[l.length / 2]? = some b ∧ m = (a + b) / 2)

end Spec
open Spec

theorem sortedCopy_perm (l : List K) : (sortedCopy l).Perm l := List.mergeSort_perm _ _

theorem sortedCopy_sorted (l : List K) : (sortedCopy l).Pairwise (· ≤ ·) := by
  have := List.pairwise_mergeSort (le := fun a b : K => decide (a ≤ b)) (by simpa using fun a b c => le_trans)
    (by simpa using le_total) l
  simpa [sortedCopy] using this

theorem sorted_unique {s t : List K} (hp : s.Perm t) (hs : s.Pairwise (· ≤ ·)) (ht : t.Pairwise (· ≤ ·)) : s = t :=
  List.Perm.eq_of_pairwise (fun a b _ _ h1 h2 => le_antisymm h1 h2) hs ht hp

theorem sortedCopy_length (l : List K) : (sortedCopy l).length = l.length := (sortedCopy_perm l).length_eq

/-- There is exactly one median of a non-empty list. -/
theorem isMedian_of_sorted {l s : List K} {m : K} (hp : s.Perm l) (hs : s.Pairwise (· ≤ ·))
    (h1 : l.length % 2 = 1 → s[l.length / 2]? = some m)
    (h0 : l.length % 2 = 0 → ∃ a b, s[l.length / 2 - 1]? = some a ∧ s[l.length / 2]? = some b ∧ m = (a + b) / 2) :
    IsMedian l m := by
  intro t ht hts
  have : t = s := sorted_unique (ht.trans hp.symm) hts hs
  subst this
  exact ⟨h1, h0⟩

theorem foldl_max_mem (xs : List K) : ∀ x : K, xs.foldl (fun m y => if m < y then y else m) x ∈ x :: xs ∧
    ∀ y ∈ x :: xs, y ≤ xs.foldl (fun m y => if m < y then y else m) x := by
  induction xs with
  | nil => intro x; simp
  | cons z zs ih =>
    intro x
    rw [List.foldl_cons]
    by_cases h : x < z
    · rw [if_pos h]
      obtain ⟨h1, h2⟩ := ih z
      refine ⟨List.mem_cons_of_mem _ h1, ?_⟩
      intro y hy
      rcases List.mem_cons.1 hy with rfl | hy
      · exact le_trans (le_of_lt h) (h2 z (by simp))
      · exact h2 y hy
    · rw [if_neg h]
      obtain ⟨h1, h2⟩ := ih x
      refine ⟨?_, ?_⟩
      · rcases List.mem_cons.1 h1 with h1 | h1
        · rw [h1]; simp
        · exact List.mem_cons_of_mem _ (List.mem_cons_of_mem _ h1)
      · intro y hy
        rcases List.mem_cons.1 hy with rfl | hy
        · exact h2 _ (by simp)
        · rcases List.mem_cons.1 hy with rfl | hy
          · exact le_trans (not_lt.1 h) (h2 x (by simp))
          · exact h2 y (List.mem_cons_of_mem _ hy)

theorem foldl_min_mem (xs : List K) : ∀ x : K, xs.foldl (fun m y => if y < m then y else m) x ∈ x :: xs ∧
    ∀ y ∈ x :: xs, xs.foldl (fun m y => if y < m then y else m) x ≤ y := by
  induction xs with
  | nil => intro x; simp
  | cons z zs ih =>
    intro x
    rw [List.foldl_cons]
    by_cases h : z < x
    · rw [if_pos h]
      obtain ⟨h1, h2⟩ := ih z
      refine ⟨List.mem_cons_of_mem _ h1, ?_⟩
      intro y hy
      rcases List.mem_cons.1 hy with rfl | hy
      · exact le_trans (h2 z (by simp)) (le_of_lt h)
      · exact h2 y hy
    · rw [if_neg h]
      obtain ⟨h1, h2⟩ := ih x
      refine ⟨?_, ?_⟩
      · rcases List.mem_cons.1 h1 with h1 | h1
        · rw [h1]; simp
        · exact List.mem_cons_of_mem _ (List.mem_cons_of_mem _ h1)
      · intro y hy
        rcases List.mem_cons.1 hy with rfl | hy
        · exact h2 _ (by simp)
        · rcases List.mem_cons.1 hy with rfl | hy
          · exact le_trans (h2 x (by simp)) (not_lt.1 h)
          · exact h2 y (List.mem_cons_of_mem _ hy)

/-- The largest and the smallest value of a non-empty container. -/
theorem C62_extremes (l : List K) (hl : l ≠ []) :
    (∃ m ∈ l, maxValue l = .ok m ∧ ∀ x ∈ l, x ≤ m) ∧ (∃ m ∈ l, minValue l = .ok m ∧ ∀ x ∈ l, m ≤ x) := by
  cases l with
  | nil => exact absurd rfl hl
  | cons x xs =>
    exact ⟨⟨_, (foldl_max_mem xs x).1, rfl, (foldl_max_mem xs x).2⟩, ⟨_, (foldl_min_mem xs x).1, rfl, (foldl_min_mem xs x).2⟩⟩

/-- **C53.** Whatever rearrangement `std::nth_element` makes of a non-empty container, the result is the median. -/
theorem C53_median (l r : List K) (hl : l ≠ []) (hr : NthElement l (l.length / 2) r) :
    ∃ m, medianAfter r = .ok m ∧ IsMedian l m := by
  obtain ⟨hp, hm⟩ := hr
  have hlen : r.length = l.length := hp.length_eq
  have hpos : 0 < l.length := List.length_pos_iff.2 hl
  have hh : l.length / 2 < r.length := by omega
  obtain ⟨a, ha⟩ : ∃ a, r[l.length / 2]? = some a := ⟨_, List.getElem?_eq_getElem hh⟩
  obtain ⟨hlo, hhi⟩ := hm a ha
  -- a sorted arrangement: sort the two parts
  have hsplit : r = r.take (l.length / 2) ++ a :: r.drop (l.length / 2 + 1) := by
    conv_lhs => rw [← List.take_append_drop (l.length / 2) r]
    congr 1
    rw [List.drop_eq_getElem_cons hh]
    rw [List.getElem?_eq_getElem hh] at ha
    injection ha with ha
    rw [ha]
  generalize hA : r.take (l.length / 2) = A at *
  have hAlen : A.length = l.length / 2 := by rw [← hA, List.length_take]; omega
  have hB : ∀ x ∈ r.drop (l.length / 2 + 1), a ≤ x := by
    intro x hx
    refine hhi x ?_
    rw [List.drop_eq_getElem_cons hh]
    exact List.mem_cons_of_mem _ hx
  generalize r.drop (l.length / 2 + 1) = B at *
  have hs : (sortedCopy A ++ a :: sortedCopy B).Pairwise (· ≤ ·) := by
    rw [List.pairwise_append, List.pairwise_cons]
    refine ⟨sortedCopy_sorted A, ⟨?_, sortedCopy_sorted B⟩, ?_⟩
    · intro x hx; exact hB x ((sortedCopy_perm B).mem_iff.1 hx)
    · intro x hx y hy
      have h1 := hlo x ((sortedCopy_perm A).mem_iff.1 hx)
      rcases List.mem_cons.1 hy with rfl | hy
      · exact h1
      · exact le_trans h1 (hB y ((sortedCopy_perm B).mem_iff.1 hy))
  have hsp : (sortedCopy A ++ a :: sortedCopy B).Perm l := by
    refine List.Perm.trans ?_ hp
    rw [hsplit]
    exact List.Perm.append (sortedCopy_perm A) (List.Perm.cons _ (sortedCopy_perm B))
  have hget : (sortedCopy A ++ a :: sortedCopy B)[l.length / 2]? = some a := by
    rw [List.getElem?_append_right (by rw [sortedCopy_length]; omega), sortedCopy_length, hAlen]
    simp
  unfold medianAfter
  rw [if_neg (by omega)]
  simp only [hlen]
  by_cases hodd : l.length % 2 = 1
  · rw [if_pos hodd, ha]
    exact ⟨a, rfl, isMedian_of_sorted hsp hs (fun _ => hget) (fun h => by omega)⟩
  · rw [if_neg hodd, ha, hA]
    have hApos : A ≠ [] := by intro h; rw [h] at hAlen; simp at hAlen; omega
    obtain ⟨x, xs, rfl⟩ := List.exists_cons_of_ne_nil hApos
    obtain ⟨hb1, hb2⟩ := foldl_max_mem xs x
    generalize hb : xs.foldl (fun m y => if m < y then y else m) x = b at hb1 hb2
    have hmax : maxElement (x :: xs) = some b := by rw [← hb]; rfl
    rw [hmax]
    refine ⟨(a + b) / 2, rfl, isMedian_of_sorted hsp hs (fun h => by omega) (fun _ => ⟨b, a, ?_, hget, by ring⟩)⟩
    have hlen2 : l.length / 2 - 1 < (sortedCopy (x :: xs)).length := by rw [sortedCopy_length, hAlen]; omega
    rw [List.getElem?_append_left hlen2]
    -- the last element of the sorted first part is its maximum
    have hmem : b ∈ sortedCopy (x :: xs) := (sortedCopy_perm _).mem_iff.2 hb1
    obtain ⟨i, hi, hib⟩ := List.mem_iff_getElem.1 hmem
    rw [List.getElem?_eq_getElem hlen2]
    congr 1
    apply le_antisymm
    · exact hb2 _ ((sortedCopy_perm _).mem_iff.1 (List.getElem_mem hlen2))
    · have hsorted := sortedCopy_sorted (x :: xs)
      rw [List.pairwise_iff_getElem] at hsorted
      have hi' : i < (x :: xs).length := by rw [sortedCopy_length] at hi; exact hi
      rcases Nat.lt_or_ge i (l.length / 2 - 1) with h | h
      · rw [← hib]; exact hsorted i _ hi hlen2 h
      · have : i = l.length / 2 - 1 := by omega
        subst this
        rw [← hib]

/-- Sorting is one of the permitted rearrangements. -/
theorem nthElement_sorted (l : List K) (h : Nat) : NthElement l h (sortedCopy l) := by
  refine ⟨sortedCopy_perm l, ?_⟩
  intro m hm
  have hs := sortedCopy_sorted l
  obtain ⟨hlt, hm⟩ := List.getElem?_eq_some_iff.1 hm
  rw [List.pairwise_iff_getElem] at hs
  constructor
  · intro x hx
    obtain ⟨i, hi, hix⟩ := List.mem_take_iff_getElem.1 hx
    rw [← hix, ← hm]
    exact hs i h (by omega) hlt (by omega)
  · intro x hx
    obtain ⟨i, hi, hix⟩ := List.mem_drop_iff_getElem.1 hx
    rw [← hix, ← hm]
    rcases Nat.eq_zero_or_pos i with rfl | h0
    · simp
    · exact hs h _ hlt (by omega) (by omega)

/-- **C53.** `median` gives the median, and an error for an empty container. -/
theorem C53_median_value (l : List K) : (l ≠ [] → ∃ m, median l = .ok m ∧ IsMedian l m) ∧ median ([] : List K) = .err := by
  refine ⟨fun hl => C53_median l _ hl (nthElement_sorted l _), ?_⟩
  simp [median, medianAfter, sortedCopy]

/-- **C53.** `median_slow` gives the median too. -/
theorem C53_median_slow (l : List K) : (l ≠ [] → ∃ m, medianSlow l = .ok m ∧ IsMedian l m) ∧
    medianSlow ([] : List K) = .err := by
  refine ⟨fun hl => ?_, by simp [medianSlow]⟩
  have hpos : 0 < l.length := List.length_pos_iff.2 hl
  have hget : ∀ i, i ≤ l.length / 2 → ∃ a, (partialSortCopy l (l.length / 2 + 1))[i]? = some a ∧ (sortedCopy l)[i]? = some a := by
    intro i hi
    have hil : i < (sortedCopy l).length := by rw [sortedCopy_length]; omega
    refine ⟨(sortedCopy l)[i], ?_, List.getElem?_eq_getElem hil⟩
    unfold partialSortCopy
    rw [List.getElem?_append_left (by rw [List.length_take, sortedCopy_length]; omega), List.getElem?_take,
      if_pos (by omega), List.getElem?_eq_getElem hil]
  obtain ⟨a, ha1, ha2⟩ := hget (l.length / 2) (le_refl _)
  obtain ⟨b, hb1, hb2⟩ := hget (l.length / 2 - 1) (by omega)
  unfold medianSlow
  simp only
  rw [if_pos hpos, ha1, hb1]
  by_cases hodd : l.length % 2 = 1
  · rw [if_pos hodd]
    exact ⟨a, rfl, isMedian_of_sorted (sortedCopy_perm l) (sortedCopy_sorted l) (fun _ => ha2) (fun h => by omega)⟩
  · rw [if_neg hodd]
    exact ⟨(a + b) / 2, rfl, isMedian_of_sorted (sortedCopy_perm l) (sortedCopy_sorted l) (fun h => by omega)
      (fun _ => ⟨b, a, hb2, ha2, by ring⟩)⟩

/-- The median does not depend on the order of the data. -/
theorem C53_order (l l' : List K) (h : l.Perm l') : median l = median l' ∧ medianSlow l = medianSlow l' := by
  have : sortedCopy l = sortedCopy l' :=
    sorted_unique ((sortedCopy_perm l).trans (h.trans (sortedCopy_perm l').symm)) (sortedCopy_sorted l) (sortedCopy_sorted l')
  constructor
  · unfold median; rw [this]
  · unfold medianSlow partialSortCopy; rw [this, h.length_eq]

/-- **C53 is violated** for integers: the mean of two middle elements is truncated, and their sum may overflow. -/
theorem C53_int_violated : middleInt 1 2 = .ok 1 ∧ middleInt (-1) (-2) = .ok (-1) ∧
    ∀ a b : Int, 2 ^ 31 ≤ a + b → middleInt a b = .ub := by
  refine ⟨by decide, by decide, ?_⟩
  intro a b h
  unfold middleInt
  rw [if_pos (Or.inr h)]

/-! ### C62 -/

theorem accumulate_eq (l : List K) (v : K) : accumulate l v = v + l.sum := by
  unfold accumulate
  induction l generalizing v with
  | nil => simp
  | cons x xs ih => rw [List.foldl_cons, ih, List.sum_cons]; ring

theorem squares_eq (l : List K) (mean : K) : squares l mean = (l.map fun x => (x - mean) ^ 2).sum := by
  unfold squares
  suffices h : ∀ v : K, l.foldl (fun acc x => acc + (x - mean) * (x - mean)) v = v + (l.map fun x => (x - mean) ^ 2).sum by
    rw [h, zero_add]
  induction l with
  | nil => intro v; simp
  | cons x xs ih => intro v; rw [List.foldl_cons, ih, List.map_cons, List.sum_cons]; ring

/-- **C62.** Average, variance and standard deviation of a non-empty container are the textbook ones; an empty
container is an error. -/
theorem C62_mean_var (l : List K) (hl : l ≠ []) :
    average l 0 = .ok (l.sum / (l.length : K)) ∧
    meanVar l = .ok (l.sum / (l.length : K), (l.map fun x => (x - l.sum / (l.length : K)) ^ 2).sum / (l.length : K)) ∧
    (∀ sqrt : K → K, meanStd sqrt l =
      .ok (l.sum / (l.length : K), sqrt ((l.map fun x => (x - l.sum / (l.length : K)) ^ 2).sum / (l.length : K)))) ∧
    average ([] : List K) 0 = .err ∧ meanVar ([] : List K) = .err := by
  have h1 : average l 0 = .ok (l.sum / (l.length : K)) := by
    unfold average; rw [if_pos hl, accumulate_eq, zero_add]
  refine ⟨h1, ?_, ?_, ?_, ?_⟩
  · unfold meanVar
    rw [if_pos hl, h1]
    show Res.ok _ = _
    rw [squares_eq]
  · intro sqrt
    unfold meanStd
    rw [if_pos hl, h1]
    show Res.ok _ = _
    rw [squares_eq]
  · simp [average]
  · simp [meanVar]

/-- **C62.** Every outcome of `sorted_indices` with a strict weak order is a permutation of the indices, and the data is
ordered when visited in that order. -/
theorem C62_sorted_indices {α : Type} (pred : α → α → Prop) (cont : List α) (r : List Nat)
    (h : SortedIndices pred cont r) :
    r.Perm (List.range cont.length) ∧ r.Nodup ∧ (∀ i, i ∈ r ↔ i < cont.length) ∧
    ∃ s : List α, s.Perm cont ∧ r.map (fun i => cont[i]?) = s.map some ∧ s.Pairwise fun a b => ¬pred b a := by
  obtain ⟨hp, hs⟩ := h
  refine ⟨hp, hp.nodup_iff.2 List.nodup_range, fun i => by rw [hp.mem_iff, List.mem_range], ?_⟩
  have hmem : ∀ i ∈ r, i < cont.length := fun i hi => by rw [hp.mem_iff, List.mem_range] at hi; exact hi
  have hsome : (r.pmap (fun i (hi : i < cont.length) => cont[i]) hmem).map some = r.map fun i => cont[i]? := by
    apply List.ext_getElem
    · simp
    · intro i h1 h2
      simp at h2
      have := hmem r[i] (List.getElem_mem h2)
      simp [this]
  refine ⟨r.pmap (fun i (hi : i < cont.length) => cont[i]) hmem, ?_, ?_, ?_⟩
  · have h1 : ((r.pmap (fun i (hi : i < cont.length) => cont[i]) hmem).map some).Perm
        ((List.range cont.length).map fun i => cont[i]?) := by
      refine List.Perm.trans (List.Perm.of_eq ?_) (hp.map _)
      exact hsome
    have h2 : (List.range cont.length).map (fun i => cont[i]?) = cont.map some := by
      apply List.ext_getElem
      · simp
      · intro i h1 h2
        simp at h2
        simp
    rw [h2] at h1
    have := h1.filterMap id
    simpa using this
  · exact hsome.symm
  · rw [List.pairwise_pmap]
    refine hs.imp_of_mem ?_
    intro a b ha hb h1 h2 h3 h4
    exact h1 ⟨_, _, List.getElem?_eq_getElem h3, List.getElem?_eq_getElem h2, h4⟩

/-- **C62 (partial).** `top_average` gives the average of the `count` smallest elements. -/
theorem C62_top_average_partial (l s : List K) (hp : s.Perm l) (hs : s.Pairwise (· ≤ ·)) (count : Nat) (h0 : 0 < count)
    (hc : count ≤ l.length) : topAverage l count = .ok ((s.take count).sum / (count : K)) := by
  have e : sortedCopy l = s := sorted_unique ((sortedCopy_perm l).trans hp.symm) (sortedCopy_sorted l) hs
  have hlen : (s.take count).length = count := by rw [List.length_take, hp.length_eq]; omega
  unfold topAverage partialSortCopy average
  rw [e, Nat.sub_eq_zero_of_le hc, List.replicate_zero, List.append_nil, if_pos, accumulate_eq, zero_add, hlen]
  intro h
  rw [h] at hlen
  simp at hlen
  omega

/-- With a count beyond the size, zeros are averaged in; with a count of zero it is an error. -/
theorem C62_top_average_padding (l : List K) (count : Nat) (hc : l.length < count) :
    topAverage l count = .ok (l.sum / (count : K)) ∧ topAverage l 0 = .err := by
  have hlen : ((sortedCopy l).take count ++ List.replicate (count - l.length) (0 : K)).length = count := by
    simp [sortedCopy_length]; omega
  constructor
  · unfold topAverage partialSortCopy average
    rw [if_pos, accumulate_eq, zero_add, hlen]
    · congr 2
      rw [List.sum_append, List.take_of_length_le (by rw [sortedCopy_length]; omega), (sortedCopy_perm l).sum_eq]
      simp
    · intro h
      rw [h] at hlen
      simp at hlen
      omega
  · simp [topAverage, partialSortCopy, average]

variable [IsStrictOrderedRing K]

/-- **C62 is violated** by `top_average`: whenever not all elements are equal, the "top" of one is the smallest, not the
largest element. -/
theorem C62_top_average_violated (l : List K) (a b : K) (ha : a ∈ l) (hb : b ∈ l) (hab : a < b) :
    ∃ v, topAverage l 1 = .ok v ∧ (∀ x ∈ l, v ≤ x) ∧ v < b := by
  have hpos : 0 < l.length := List.length_pos_of_mem ha
  rw [C62_top_average_partial l _ (sortedCopy_perm l) (sortedCopy_sorted l) 1 (by omega) hpos]
  have hne : sortedCopy l ≠ [] := by intro h; have := sortedCopy_length l; rw [h] at this; simp at this; omega
  obtain ⟨x, xs, hx⟩ := List.exists_cons_of_ne_nil hne
  have hsorted := sortedCopy_sorted l
  rw [hx, List.pairwise_cons] at hsorted
  have hmin : ∀ y ∈ l, x ≤ y := by
    intro y hy
    rw [← (sortedCopy_perm l).mem_iff, hx] at hy
    rcases List.mem_cons.1 hy with rfl | hy
    · exact le_refl _
    · exact hsorted.1 y hy
  refine ⟨x, by rw [hx]; simp, hmin, lt_of_le_of_lt (hmin a ha) hab⟩

/-- Non-vacuity. -/
example : NthElement [(3 : ℚ), 1, 2] 1 [1, 2, 3] ∧ IsMedian [(3 : ℚ), 1, 2] 2 ∧ topAverage [(3 : ℚ), 1, 2] 2 = .ok ((1 + 2) / 2) := by
  have hs : ([1, 2, 3] : List ℚ).Pairwise (· ≤ ·) := by norm_num
  refine ⟨⟨by decide, ?_⟩, isMedian_of_sorted (s := [1, 2, 3]) (by decide) hs (by simp) (by simp), ?_⟩
  · intro m hm
    simp at hm
    subst hm
    constructor <;> intro x hx <;> simp at hx
    · subst hx; norm_num
    · rcases hx with rfl | rfl <;> norm_num
  · simpa using C62_top_average_partial [(3 : ℚ), 1, 2] [1, 2, 3] (by decide) hs 2 (by omega) (by simp)
example : SortedIndices (· < ·) [(3 : ℚ), 1, 2] [1, 2, 0] := by
  refine ⟨by decide, ?_⟩
  simp
  norm_num

end Xo
