import Verif.Props.C27_Replace

/-!
C28: `find_nth_str`. Occurrences are counted from 1 and may overlap.
-/
namespace Xo

namespace Spec
instance (pat s : Str) (i : Nat) : Decidable (OccursAt pat s i) := by unfold OccursAt; infer_instance

/-- The positions where `pat` occurs in `s`, ascending. -/
def occurrences (pat s : Str) : List Nat := (List.range (s.length + 1)).filter (fun i => OccursAt pat s i)
end Spec

open Spec

theorem occursAt_drop {pat s : Str} {p k : Nat} (hp : p ≤ s.length) : OccursAt pat (s.drop p) k ↔ OccursAt pat s (p + k) := by
  simp only [OccursAt, List.length_drop, List.drop_drop]
  constructor <;> rintro ⟨h1, h2⟩ <;> exact ⟨by omega, h2⟩

/-- The first entry of a filtered range that is at least `p`. -/
theorem strFind_eq (s pat : Str) (p : Nat) : strFind s pat p = (occurrences pat s).find? (fun i => p ≤ i) := by
  by_cases hp : p ≤ s.length
  · have h := strFind_spec s pat p hp
    cases hf : strFind s pat p with
    | none =>
      rw [hf] at h
      symm
      rw [List.find?_eq_none]
      intro i hi
      simp only [occurrences, List.mem_filter, List.mem_range, decide_eq_true_eq] at hi
      simp only [decide_eq_true_eq]
      intro hpi
      exact h (i - p) ((occursAt_drop hp).2 (by rw [show p + (i - p) = i by omega]; exact hi.2))
    | some j =>
      rw [hf] at h
      obtain ⟨h1, h2, h3⟩ := h
      rw [occursAt_drop hp, show p + (j - p) = j by omega] at h2
      symm
      have hsub : (List.range (s.length + 1)).find? (fun i => decide (OccursAt pat s i) && decide (p ≤ i)) = some j := by
        rw [List.find?_range_eq_some]
        refine ⟨by simp [h2, h1], ?_, ?_⟩
        · simp only [List.mem_range]; have := h2.1; omega
        · intro i hi
          by_cases hpi : p ≤ i
          · have : ¬ OccursAt pat s i := by
              intro ho
              refine h3 (i - p) (by omega) ((occursAt_drop hp).2 ?_)
              rw [show p + (i - p) = i by omega]; exact ho
            simp [this]
          · simp [hpi]
      unfold occurrences
      rw [List.find?_filter]
      simpa using hsub
  · unfold strFind
    rw [if_pos (by omega)]
    symm
    rw [List.find?_eq_none]
    intro i hi
    simp only [occurrences, List.mem_filter, List.mem_range] at hi
    simp only [decide_eq_true_eq]
    omega

/-- In an ascending list, the first entry beyond the `k`-th is the next one. -/
theorem find?_after (l : List Nat) (hs : l.Pairwise (· < ·)) (k i : Nat) (h : l[k]? = some i) :
    l.find? (fun j => i + 1 ≤ j) = l[k + 1]? := by
  induction l generalizing k with
  | nil => simp at h
  | cons x l ih =>
    rw [List.pairwise_cons] at hs
    cases k with
    | zero =>
      simp only [List.getElem?_cons_zero, Option.some.injEq] at h
      subst h
      rw [List.find?_cons_of_neg (by simp), List.getElem?_cons_succ]
      cases l with
      | nil => rfl
      | cons y l =>
        have := hs.1 y (by simp)
        rw [List.find?_cons_of_pos (by simp; omega)]; rfl
    | succ k =>
      simp only [List.getElem?_cons_succ] at h
      have := hs.1 i (List.mem_of_getElem? h)
      rw [List.find?_cons_of_neg (by simp; omega), ih hs.2 k h, List.getElem?_cons_succ]

theorem occurrences_sorted (pat s : Str) : (occurrences pat s).Pairwise (· < ·) :=
  (List.pairwise_lt_range).filter _

/-- **C28 (partial: the pattern does not occur at position 0, and `n ≥ 1`).** `find_nth_str` returns the position of the
`n`-th occurrence, or nothing if there are fewer. -/
theorem C28_find_nth_partial (s pat : Str) (n : Nat) (hn : 1 ≤ n) (h0 : ¬ OccursAt pat s 0) :
    findNthStr s pat n = (occurrences pat s)[n - 1]? := by
  have pos : ∀ i ∈ occurrences pat s, 0 < i := by
    intro i hi
    simp only [occurrences, List.mem_filter, decide_eq_true_eq] at hi
    rcases Nat.eq_zero_or_pos i with rfl | h
    · exact absurd hi.2 h0
    · exact h
  have loop : ∀ (m k i : Nat), (occurrences pat s)[k]? = some i →
      findNthLoop s pat m i = (occurrences pat s)[k + m]? := by
    intro m
    induction m with
    | zero => intro k i h; rw [findNthLoop, Nat.add_zero, h]
    | succ m ih =>
      intro k i h
      have hi := pos i (List.mem_of_getElem? h)
      rw [findNthLoop, if_pos hi, strFind_eq, find?_after _ (occurrences_sorted pat s) k i h]
      cases hk : (occurrences pat s)[k + 1]? with
      | none =>
        symm
        rw [List.getElem?_eq_none_iff] at hk ⊢
        omega
      | some j =>
        simp only
        rw [ih (k + 1) j hk]
        congr 1
        omega
  obtain ⟨m, rfl⟩ : ∃ m, n = m + 1 := ⟨n - 1, by omega⟩
  unfold findNthStr
  rw [findNthLoop, if_neg (by omega), strFind_eq]
  have : (occurrences pat s).find? (fun i => 0 ≤ i) = (occurrences pat s)[0]? := by
    cases occurrences pat s <;> simp
  rw [this]
  cases h : (occurrences pat s)[0]? with
  | none =>
    symm
    rw [List.getElem?_eq_none_iff] at h ⊢
    omega
  | some i =>
    simp only
    rw [loop m 0 i h]
    congr 1
    omega

/-- **C28 is violated** whenever the pattern occurs at position 0: then the answer is 0 for every `n`, also if there are
more occurrences or fewer than `n`. -/
theorem C28_match_at_start_violated (s pat : Str) (h0 : OccursAt pat s 0) (n : Nat) : findNthStr s pat n = some 0 := by
  unfold findNthStr
  induction n with
  | zero => rfl
  | succ n ih =>
    have hm : 0 ∈ occurrences pat s := by simp [occurrences, h0]
    have : strFind s pat 0 = some 0 := by
      rw [strFind_eq]
      cases ho : occurrences pat s with
      | nil => rw [ho] at hm; simp at hm
      | cons x l =>
        have hs := occurrences_sorted pat s
        rw [ho] at hs hm
        rcases List.mem_cons.1 hm with rfl | hm
        · simp
        · have := (List.pairwise_cons.1 hs).1 0 hm
          omega
    rw [findNthLoop, if_neg (by omega), this]
    exact ih

/-- Both cases occur: `b` in `abcb` and `a` in `aba`, where the second `a` is not found. -/
example : findNthStr "abcb".toList "b".toList 2 = some 3 ∧ occurrences "b".toList "abcb".toList = [1, 3] ∧
    findNthStr "aba".toList "a".toList 2 = some 0 ∧ occurrences "a".toList "aba".toList = [0, 2] := by decide +kernel

end Xo
