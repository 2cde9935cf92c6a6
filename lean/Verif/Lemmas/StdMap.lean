import Verif.Model.StdMap
import Mathlib.Order.Defs.LinearOrder

/-!
`StdMap` with a total order is a finite map.
-/
namespace Xo.StdMap
variable {K V : Type} [LinearOrder K]

/-- The order of a key type as a comparator. -/
def cmp (a b : K) : Bool := decide (a < b)

/-- Keys strictly ascend. -/
def Sorted (m : StdMap K V) : Prop := m.data.Pairwise fun a b => a.1 < b.1

theorem sorted_empty : Sorted (empty : StdMap K V) := List.Pairwise.nil

theorem find_empty (k : K) : (empty : StdMap K V).find cmp k = none := rfl

theorem mem_putL (l : List (K × V)) (k : K) (v : V) :
    ∀ e ∈ putL cmp l k v, e.1 = k ∨ ∃ e' ∈ l, e'.1 = e.1 := by
  induction l with
  | nil => intro e he; simp [putL] at he; subst he; exact .inl rfl
  | cons x l ih =>
    intro e he
    simp only [putL, cmp, decide_eq_true_eq] at he
    split at he
    · rcases List.mem_cons.1 he with rfl | he
      · exact .inr ⟨e, by simp, rfl⟩
      · rcases ih e he with h | ⟨e', h1, h2⟩
        · exact .inl h
        · exact .inr ⟨e', by simp [h1], h2⟩
    · split at he
      · rcases List.mem_cons.1 he with rfl | he
        · exact .inl rfl
        · exact .inr ⟨e, he, rfl⟩
      · rcases List.mem_cons.1 he with rfl | he
        · exact .inr ⟨x, by simp, rfl⟩
        · exact .inr ⟨e, by simp [he], rfl⟩

theorem sorted_put {m : StdMap K V} (h : m.Sorted) (k : K) (v : V) : (m.put cmp k v).Sorted := by
  obtain ⟨l⟩ := m
  simp only [Sorted, put] at *
  induction l with
  | nil => simp [putL]
  | cons x l ih =>
    rw [List.pairwise_cons] at h
    simp only [putL, cmp, decide_eq_true_eq]
    split
    · next hx =>
      refine List.pairwise_cons.2 ⟨fun e he => ?_, ih h.2⟩
      rcases mem_putL l k v e he with h1 | ⟨e', h1, h2⟩
      · rw [h1]; exact hx
      · rw [← h2]; exact h.1 e' h1
    · split
      · next hk =>
        refine List.pairwise_cons.2 ⟨fun e he => ?_, List.pairwise_cons.2 h⟩
        rcases List.mem_cons.1 he with rfl | he
        · exact hk
        · exact lt_trans hk (h.1 e he)
      · exact List.pairwise_cons.2 ⟨fun e he => h.1 e he, h.2⟩

theorem findL_none_of_lt (l : List (K × V)) (k : K) (h : ∀ e ∈ l, k < e.1) : findL cmp l k = none := by
  cases l with
  | nil => rfl
  | cons x l =>
    have hx := h x (by simp)
    simp [findL, cmp, hx, not_lt_of_gt hx]

theorem find_put {m : StdMap K V} (h : m.Sorted) (k : K) (v : V) (k' : K) :
    (m.put cmp k v).find cmp k' = if k' = k then some v else m.find cmp k' := by
  obtain ⟨l⟩ := m
  simp only [Sorted, put, find] at *
  induction l with
  | nil =>
    simp only [putL, findL, cmp, decide_eq_true_eq]
    split
    · next h1 => rw [if_neg (ne_of_gt h1)]
    · next h1 =>
      split
      · next h2 => rw [if_neg (ne_of_lt h2)]
      · next h2 => rw [if_pos (le_antisymm (not_lt.1 h1) (not_lt.1 h2))]
  | cons x l ih =>
    rw [List.pairwise_cons] at h
    have ih := ih h.2
    simp only [putL, cmp, decide_eq_true_eq]
    split
    · next hx =>
      simp only [findL, cmp, decide_eq_true_eq]
      split
      · exact ih
      · next h1 =>
        have hne : k' ≠ k := fun e => h1 (e ▸ hx)
        rw [if_neg hne]
    · next hx =>
      split
      · next hk =>
        simp only [findL, cmp, decide_eq_true_eq]
        split
        · next h1 => rw [if_neg (ne_of_gt h1)]
        · next h1 =>
          split
          · next h2 =>
            rw [if_neg (ne_of_lt h2), if_neg (not_lt_of_gt (lt_trans h2 hk)), if_pos (lt_trans h2 hk)]
          · next h2 => rw [if_pos (le_antisymm (not_lt.1 h1) (not_lt.1 h2))]
      · next hk =>
        have hxk : x.1 = k := le_antisymm (not_lt.1 hk) (not_lt.1 hx)
        simp only [findL, cmp, decide_eq_true_eq]
        split
        · next h1 => rw [if_neg (by rw [← hxk]; exact ne_of_gt h1)]
        · next h1 =>
          split
          · next h2 => rw [if_neg (by rw [← hxk]; exact ne_of_lt h2)]
          · next h2 => rw [if_pos (by rw [← hxk]; exact le_antisymm (not_lt.1 h1) (not_lt.1 h2))]

theorem putL_length (l : List (K × V)) (k : K) (v : V) (h : l.Pairwise fun a b => a.1 < b.1) :
    (putL cmp l k v).length = if (findL cmp l k).isSome then l.length else l.length + 1 := by
  induction l with
  | nil => rfl
  | cons x l ih =>
    rw [List.pairwise_cons] at h
    simp only [putL, findL, cmp, decide_eq_true_eq]
    split
    · rw [List.length_cons, ih h.2]; split <;> rfl
    · split <;> rfl

end Xo.StdMap
