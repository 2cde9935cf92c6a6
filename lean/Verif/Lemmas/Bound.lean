import Verif.Model.Basic
import Mathlib.Data.List.TakeWhile

/-! The halving loop finds the partition point of every partitioned list. -/
namespace Xo

theorem bsearch_spec {α} (l : List α) (p : α → Bool) (n : Nat) (hn : n ≤ l.length)
    (hlt : ∀ i (hi : i < l.length), i < n → p l[i] = true)
    (hge : ∀ i (hi : i < l.length), n ≤ i → p l[i] = false) :
    ∀ len first, first ≤ n → n ≤ first + len → first + len ≤ l.length →
      bsearch l p first len = n := by
  intro len
  induction len using Nat.strongRecOn with
  | _ len ih =>
    intro first h1 h2 h3
    rw [bsearch]
    by_cases h0 : len = 0
    · simp only [h0, dite_true]; omega
    · simp only [h0, dite_false]
      have hlt' : first + len / 2 < l.length := by omega
      rw [List.getElem?_eq_getElem hlt']
      simp only
      by_cases hp : p l[first + len / 2] = true
      · rw [if_pos hp]
        have : first + len / 2 < n := by
          rcases Nat.lt_or_ge (first + len / 2) n with h | h
          · exact h
          · rw [hge _ hlt' h] at hp; cases hp
        exact ih _ (by omega) _ (by omega) (by omega) (by omega)
      · rw [if_neg hp]
        have : n ≤ first + len / 2 := by
          rcases Nat.lt_or_ge (first + len / 2) n with h | h
          · exact absurd (hlt _ hlt' h) hp
          · exact h
        exact ih _ (by omega) _ (by omega) (by omega) (by omega)

/-- On `as ++ bs` with `p` true on `as` and false on `bs` the search returns `as.length`. -/
theorem bound_append {α} (as bs : List α) (p : α → Bool)
    (h1 : ∀ a ∈ as, p a = true) (h2 : ∀ b ∈ bs, p b = false) :
    bound (as ++ bs) p = as.length := by
  unfold bound
  apply bsearch_spec
  · simp
  · intro i hi hlt
    rw [List.getElem_append_left hlt]
    exact h1 _ (List.getElem_mem _)
  · intro i hi hge
    rw [List.getElem_append_right hge]
    exact h2 _ (List.getElem_mem _)
  · omega
  · simp
  · simp

/-- A list sorted by a relation that `p` respects downwards is split by `takeWhile`/`dropWhile`. -/
theorem bound_eq_takeWhile {α} (l : List α) (p : α → Bool)
    (hp : l.Pairwise fun a b => p b = true → p a = true) :
    bound l p = (l.takeWhile p).length := by
  have key : ∀ b ∈ l.dropWhile p, p b = false := by
    induction l with
    | nil => simp
    | cons x xs ih =>
      intro b hb
      rw [List.pairwise_cons] at hp
      by_cases hx : p x = true
      · rw [List.dropWhile_cons_of_pos hx] at hb
        exact ih hp.2 b hb
      · rw [List.dropWhile_cons_of_neg hx] at hb
        rcases List.mem_cons.1 hb with rfl | hb
        · simpa using hx
        · cases hpb : p b with
          | false => rfl
          | true => exact absurd (hp.1 b hb hpb) hx
  have := bound_append (l.takeWhile p) (l.dropWhile p) p
    (fun a ha => (List.mem_takeWhile_imp ha)) key
  rwa [List.takeWhile_append_dropWhile] at this

end Xo
