import Verif.Model.ContainerTools
import Mathlib.Data.List.Basic

/-!
C68: element search, counting, copying and the filtering view of container_tools.h and view_if.h, compared with what
they mean: which positions of the sequence satisfy the predicate.
-/
namespace Xo
namespace Cont
variable {α β : Type}

/-! ## Searching -/

theorem findFrom_spec (p : α → Bool) (l : List α) (i : Nat) (hi : i ≤ l.length) :
    i ≤ findFrom p l i ∧ findFrom p l i ≤ l.length ∧
      (∀ j a, i ≤ j → j < findFrom p l i → l[j]? = some a → p a = false) ∧
      (∀ a, l[findFrom p l i]? = some a → p a = true) := by
  fun_induction findFrom p l i with
  | case1 i h hp =>
    refine ⟨Nat.le_refl _, hi, fun j a h1 h2 => by omega, fun a ha => ?_⟩
    rw [List.getElem?_eq_getElem h] at ha
    cases ha; exact hp
  | case2 i h hp ih =>
    obtain ⟨h1, h2, h3, h4⟩ := ih (by omega)
    refine ⟨by omega, h2, fun j a hj1 hj2 ha => ?_, h4⟩
    rcases Nat.eq_or_lt_of_le hj1 with rfl | hlt
    · rw [List.getElem?_eq_getElem h] at ha
      cases ha; simpa using hp
    · exact h3 j a hlt hj2 ha
  | case3 i h =>
    refine ⟨Nat.le_refl _, hi, fun j a h1 h2 => by omega, fun a ha => ?_⟩
    rw [List.getElem?_eq_none (by omega)] at ha
    cases ha

/-- `find` and `find_if` return the position of the first element that satisfies the predicate, or `end()` if there
is none: no element before it does, and if it is not `end()` the element there does. -/
theorem C68_find (p : α → Bool) (l : List α) :
    find p l ≤ l.length ∧ (∀ j a, j < find p l → l[j]? = some a → p a = false) ∧
      (∀ a, l[find p l]? = some a → p a = true) := by
  obtain ⟨_, h2, h3, h4⟩ := findFrom_spec p l 0 (by omega)
  exact ⟨h2, fun j a => h3 j a (by omega), h4⟩

example : find (fun n : Nat => n % 2 == 0) [3, 5, 8, 2] = 2 ∧ find (fun n : Nat => n == 7) [3, 5] = 2 := by
  decide +kernel

/-- `find_index` and `find_index_if` from a start index return index `j` exactly if it is the first index, not
before the start, whose element satisfies the predicate. -/
theorem C68_find_index (p : α → Bool) (l : List α) (start j : Nat) :
    findIndex p l start = some j ↔
      start ≤ j ∧ (∃ a, l[j]? = some a ∧ p a = true) ∧ ∀ k a, start ≤ k → k < j → l[k]? = some a → p a = false := by
  fun_induction findIndex p l start with
  | case1 i h hp =>
    constructor
    · intro e
      obtain rfl : i = j := by simpa using e
      exact ⟨Nat.le_refl _, ⟨l[i], List.getElem?_eq_getElem h, hp⟩, fun k a h1 h2 => by omega⟩
    · rintro ⟨h1, _, h3⟩
      rcases Nat.eq_or_lt_of_le h1 with rfl | hlt
      · rfl
      · have := h3 i l[i] (Nat.le_refl _) hlt (List.getElem?_eq_getElem h)
        rw [hp] at this; cases this
  | case2 i h hp ih =>
    rw [ih]
    constructor
    · rintro ⟨h1, h2, h3⟩
      refine ⟨by omega, h2, fun k a hk1 hk2 ha => ?_⟩
      rcases Nat.eq_or_lt_of_le hk1 with rfl | hlt
      · rw [List.getElem?_eq_getElem h] at ha
        cases ha; simpa using hp
      · exact h3 k a hlt hk2 ha
    · rintro ⟨h1, ⟨a, h2, h2'⟩, h3⟩
      refine ⟨?_, ⟨a, h2, h2'⟩, fun k b hk => h3 k b (by omega)⟩
      rcases Nat.eq_or_lt_of_le h1 with rfl | hlt
      · rw [List.getElem?_eq_getElem h] at h2
        cases h2; exact absurd h2' hp
      · exact hlt
  | case3 i h =>
    constructor
    · intro e; cases e
    · rintro ⟨h1, ⟨a, h2, _⟩, _⟩
      rw [List.getElem?_eq_none (by omega)] at h2; cases h2

/-- They return `no_index` exactly if no element from the start index on satisfies the predicate. -/
theorem C68_find_index_none (p : α → Bool) (l : List α) (start : Nat) :
    findIndex p l start = none ↔ ∀ k a, start ≤ k → l[k]? = some a → p a = false := by
  fun_induction findIndex p l start with
  | case1 i h hp =>
    constructor
    · intro e; cases e
    · intro h'
      have := h' i l[i] (Nat.le_refl _) (List.getElem?_eq_getElem h)
      rw [hp] at this; cases this
  | case2 i h hp ih =>
    rw [ih]
    constructor
    · intro h' k a hk ha
      rcases Nat.eq_or_lt_of_le hk with rfl | hlt
      · rw [List.getElem?_eq_getElem h] at ha
        cases ha; simpa using hp
      · exact h' k a hlt ha
    · intro h' k a hk; exact h' k a (by omega)
  | case3 i h =>
    simp only [true_iff]
    intro k a hk ha
    rw [List.getElem?_eq_none (by omega)] at ha; cases ha

example : findIndex (fun n : Nat => n == 5) [5, 3, 5, 1] 1 = some 2 ∧
    findIndex (fun n : Nat => n == 5) [5, 3, 5, 1] 3 = none := by decide +kernel

/-- Searching for successive occurrences: restarting after each hit finds every index whose element satisfies the
predicate, so the loop `i = find_index_if( c, p, i + 1 )` misses none. -/
theorem C68_find_index_next (p : α → Bool) (l : List α) (start j k : Nat) (a : α)
    (hj : findIndex p l start = some j) (hk : start ≤ k) (ha : l[k]? = some a) (hp : p a = true) (hne : k ≠ j) :
    ∃ m, findIndex p l (j + 1) = some m ∧ m ≤ k := by
  obtain ⟨_, _, h3⟩ := (C68_find_index p l start j).1 hj
  have hjk : j < k := by
    rcases Nat.lt_or_ge k j with hlt | hge
    · have := h3 k a hk hlt ha; rw [hp] at this; cases this
    · omega
  cases hm : findIndex p l (j + 1) with
  | none =>
    have := (C68_find_index_none p l (j + 1)).1 hm k a hjk ha
    rw [hp] at this; cases this
  | some m =>
    refine ⟨m, rfl, ?_⟩
    obtain ⟨_, _, h3'⟩ := (C68_find_index p l (j + 1) m).1 hm
    rcases Nat.lt_or_ge k m with hlt | hge
    · have := h3' k a hjk hlt ha; rw [hp] at this; cases this
    · exact hge

theorem findRefFrom_eq (p : α → Bool) (l : List α) (i : Nat) :
    findRefFrom p l i = Res.ofOptionErr ((l.drop i).find? p) := by
  fun_induction findRefFrom p l i with
  | case1 i h hp => rw [List.drop_eq_getElem_cons h, List.find?_cons_of_pos hp]; rfl
  | case2 i h hp ih => rw [List.drop_eq_getElem_cons h, List.find?_cons_of_neg hp, ih]
  | case3 i h => rw [List.drop_eq_nil_of_le (by omega)]; rfl

/-- `find_ref_if` returns the first element that satisfies the predicate; it throws exactly if there is none. -/
theorem C68_find_ref (p : α → Bool) (l : List α) :
    (∀ a, findRef p l = .ok a ↔
      p a = true ∧ ∃ before after, l = before ++ a :: after ∧ ∀ b ∈ before, p b = false) ∧
    (findRef p l = .err ↔ ∀ a ∈ l, p a = false) ∧ findRef p l ≠ .ub := by
  have e : findRef p l = Res.ofOptionErr (l.find? p) := by simpa [findRef] using findRefFrom_eq p l 0
  rw [e]
  refine ⟨fun a => ?_, ?_, ?_⟩
  · have := List.find?_eq_some_iff_append (p := p) (b := a) (xs := l)
    cases hf : l.find? p with
    | none =>
      rw [hf] at this
      constructor
      · intro h; cases h
      · rintro ⟨h1, b, c, h2, h3⟩
        have := this.2 ⟨h1, b, c, h2, fun x hx => by simpa using h3 x hx⟩
        cases this
    | some x =>
      rw [hf] at this
      have e' : (Res.ofOptionErr (some x) = Res.ok a) ↔ some x = some a := by
        simp [Res.ofOptionErr]
      rw [e', this]
      constructor
      · rintro ⟨h1, b, c, h2, h3⟩; exact ⟨h1, b, c, h2, fun x hx => by simpa using h3 x hx⟩
      · rintro ⟨h1, b, c, h2, h3⟩; exact ⟨h1, b, c, h2, fun x hx => by simpa using h3 x hx⟩
  · cases hf : l.find? p with
    | none => simpa [Res.ofOptionErr] using hf
    | some x =>
      constructor
      · intro h; cases h
      · intro h
        have h1 := List.find?_some hf
        rw [h x (List.mem_of_find?_eq_some hf)] at h1; cases h1
  · cases l.find? p <;> simp [Res.ofOptionErr]

theorem containsFrom_iff (p : α → Bool) (l : List α) (i : Nat) :
    containsFrom p l i = (l.drop i).any p := by
  fun_induction containsFrom p l i with
  | case1 i h hp => rw [List.drop_eq_getElem_cons h, List.any_cons, hp]; rfl
  | case2 i h hp ih =>
    rw [List.drop_eq_getElem_cons h, List.any_cons, ih]
    simp [show p l[i] = false by simpa using hp]
  | case3 i h => rw [List.drop_eq_nil_of_le (by omega)]; rfl

/-- `contains` and `contains_if` say whether some element satisfies the predicate. -/
theorem C68_contains (p : α → Bool) (l : List α) : contains p l = true ↔ ∃ a ∈ l, p a = true := by
  rw [contains, containsFrom_iff]; simp

theorem find_lt_iff (p : α → Bool) (l : List α) : find p l < l.length ↔ ∃ a ∈ l, p a = true := by
  obtain ⟨h1, h2, h3⟩ := C68_find p l
  constructor
  · intro h
    exact ⟨l[find p l], List.getElem_mem h, h3 _ (List.getElem?_eq_getElem h)⟩
  · rintro ⟨a, ha, hp⟩
    obtain ⟨j, hj⟩ := List.mem_iff_getElem?.1 ha
    rcases Nat.lt_or_ge (find p l) l.length with h | h
    · exact h
    · have hj' : j < l.length := (List.getElem?_eq_some_iff.1 hj).1
      have := h2 j a (by omega) hj
      rw [hp] at this; cases this

/-- `any_of` says whether some element satisfies the predicate, `none_of` whether no element does. -/
theorem C68_any_none (p : α → Bool) (l : List α) :
    (anyOf p l = true ↔ ∃ a ∈ l, p a = true) ∧ (noneOf p l = true ↔ ∀ a ∈ l, p a = false) := by
  have h1 := (C68_find p l).1
  have h2 := find_lt_iff p l
  constructor
  · rw [← h2]; simp only [anyOf, bne_iff_ne]; omega
  · have : (∀ a ∈ l, p a = false) ↔ ¬ ∃ a ∈ l, p a = true := by simp
    rw [this, ← h2]; simp only [noneOf, beq_iff_eq]; omega

theorem countFrom_eq (p : α → Bool) (l : List α) (i c : Nat) :
    countFrom p l i c = c + ((l.drop i).filter p).length := by
  fun_induction countFrom p l i c with
  | case1 i c h ih =>
    rw [List.drop_eq_getElem_cons h, ih, List.filter_cons]
    cases p l[i] <;> simp <;> omega
  | case2 i c h => rw [List.drop_eq_nil_of_le (by omega)]; rfl

/-- `count` and `count_if` return the number of elements that satisfy the predicate. -/
theorem C68_count (p : α → Bool) (l : List α) : count p l = (l.filter p).length := by
  rw [count, countFrom_eq]; simp

theorem forEachFrom_eq {σ : Type} (l : List α) (fn : α → σ → σ) (i : Nat) (s : σ) :
    forEachFrom l fn i s = (l.drop i).foldl (fun t a => fn a t) s := by
  fun_induction forEachFrom l fn i s with
  | case1 i s h ih => rw [List.drop_eq_getElem_cons h, ih]; rfl
  | case2 i s h => rw [List.drop_eq_nil_of_le (by omega)]; rfl

/-- `for_each` calls the function once for every element, in order: recording the elements gives the sequence. -/
theorem C68_for_each (l : List α) : forEach l (fun a seen => seen ++ [a]) [] = l := by
  rw [forEach, forEachFrom_eq, List.drop_zero]
  suffices h : ∀ acc : List α, l.foldl (fun t a => t ++ [a]) acc = acc ++ l by simpa using h []
  induction l with
  | nil => simp
  | cons a l ih => intro acc; simp [ih]

/-- For any function with a state, `for_each` has the effect of calling it on the elements one after the other. -/
theorem C68_for_each_state {σ : Type} (fn : α → σ → σ) (s : σ) :
    forEach [] fn s = s ∧ ∀ l a, forEach (l ++ [a]) fn s = fn a (forEach l fn s) := by
  constructor
  · simp [forEach, forEachFrom_eq]
  · intro l a; simp [forEach, forEachFrom_eq]

/-! ## Copying -/

theorem copyFrom_spec (f : α → β) (src : List α) (ib ie : Nat) (dst : List β) (ob : Nat)
    (h1 : ib ≤ ie) (h2 : ie ≤ src.length) (h3 : ob + (ie - ib) ≤ dst.length) :
    copyFrom f src ib ie dst ob =
      .ok (dst.take ob ++ ((src.drop ib).take (ie - ib)).map f ++ dst.drop (ob + (ie - ib)), ob + (ie - ib)) := by
  fun_induction copyFrom f src ib ie dst ob with
  | case1 => simp
  | case2 ib dst ob hne h ho ih =>
    rw [ih (by omega) (by simpa using by omega)]
    have e : ie - ib = (ie - (ib + 1)) + 1 := by omega
    rw [e, List.drop_eq_getElem_cons h, List.take_succ_cons, List.map_cons]
    have e1 : (dst.set ob (f src[ib])).take (ob + 1) = dst.take ob ++ [f src[ib]] := by
      rw [List.take_succ, List.getElem?_set_self ho]
      simp [List.take_set, List.set_eq_of_length_le (l := dst.take ob) (i := ob) (by simp; omega)]
    have e2 : (dst.set ob (f src[ib])).drop (ob + 1 + (ie - (ib + 1))) = dst.drop (ob + (ie - (ib + 1) + 1)) := by
      rw [List.drop_set_of_lt (by omega)]; congr 1; omega
    rw [e1, e2]
    have e3 : ob + 1 + (ie - (ib + 1)) = ob + (ie - (ib + 1) + 1) := by omega
    rw [e3]
    simp [List.append_assoc]
  | case3 ib dst ob hne h ho => omega
  | case4 ib dst ob hne h => omega

/-- `copy` and `copy_cast` of the range `[ib, ie)` to `ob`, with room in the target: exactly the positions
`[ob, ob + (ie − ib))` are overwritten, with the (cast) elements in order, and the end of that range is returned. -/
theorem C68_copy (f : α → β) (src : List α) (ib ie : Nat) (dst : List β) (ob : Nat)
    (h1 : ib ≤ ie) (h2 : ie ≤ src.length) (h3 : ob + (ie - ib) ≤ dst.length) :
    ∃ dst', copyFrom f src ib ie dst ob = .ok (dst', ob + (ie - ib)) ∧ dst'.length = dst.length ∧
      (∀ k, k < ie - ib → dst'[ob + k]? = (src[ib + k]?).map f) ∧
      (∀ k, k < ob ∨ ob + (ie - ib) ≤ k → dst'[k]? = dst[k]?) := by
  refine ⟨_, copyFrom_spec f src ib ie dst ob h1 h2 h3, ?_, ?_, ?_⟩
  · simp; omega
  · intro k hk
    rw [List.append_assoc, List.getElem?_append_right (by simp; omega), List.getElem?_append_left (by simp; omega)]
    simp only [List.length_take, List.getElem?_map]
    rw [show ob + k - min ob dst.length = k by omega, List.getElem?_take_of_lt hk, List.getElem?_drop]
  · intro k hk
    rcases hk with hk | hk
    · rw [List.append_assoc, List.getElem?_append_left (by simp; omega), List.getElem?_take_of_lt hk]
    · rw [List.getElem?_append_right (by simp; omega), List.getElem?_drop]
      congr 1; simp; omega

example : copyFrom (fun n : Nat => (n : Int)) [1, 2, 3] 1 3 [7, 8, 9, 10] 1 = .ok ([7, 2, 3, 10], 3) := by
  decide +kernel

/-- Without enough room `copy` writes behind the target: undefined behaviour ("no range checking"). -/
theorem C68_copy_short (f : α → β) (src : List α) (ib ie : Nat) (dst : List β) (ob : Nat)
    (h1 : ib ≤ ie) (h2 : ie ≤ src.length) (h3 : dst.length < ob + (ie - ib)) :
    ob ≤ dst.length → copyFrom f src ib ie dst ob = .ub := by
  fun_induction copyFrom f src ib ie dst ob with
  | case1 => omega
  | case2 ib dst ob hne h ho ih => intro _; exact ih (by omega) (by simpa using by omega) (by simpa using by omega)
  | case3 ib dst ob hne h ho => intro _; rfl
  | case4 ib dst ob hne h => omega

/-- `copy_container` and `copy_cast` of containers throw if the target is shorter than the source and otherwise
replace its first elements; they never write outside the target. -/
theorem C68_copy_container (f : α → β) (src : List α) (dst : List β) :
    copyContainer f src dst =
      if src.length ≤ dst.length then .ok (src.map f ++ dst.drop src.length) else .err := by
  unfold copyContainer
  split
  · rename_i h
    rw [copyFrom_spec f src 0 src.length dst 0 (by omega) (Nat.le_refl _) (by omega)]
    simp [Res.map]
  · rfl

/-- `copy_to_range` with enough input fills exactly `[ob, oe)` with the next elements and returns the first input
position it did not use. -/
theorem C68_copy_to_range (src : List α) (ib : Nat) (dst : List α) (ob oe : Nat)
    (h1 : ob ≤ oe) (h2 : oe ≤ dst.length) (h3 : ib + (oe - ob) ≤ src.length) :
    copyToRange src ib dst ob oe =
      .ok (dst.take ob ++ (src.drop ib).take (oe - ob) ++ dst.drop oe, ib + (oe - ob)) := by
  fun_induction copyToRange src ib dst ob oe with
  | case1 => simp
  | case2 ib dst ob hne h ho ih =>
    rw [ih (by omega) (by simpa using h2) (by omega)]
    have e : oe - ob = (oe - (ob + 1)) + 1 := by omega
    rw [e, List.drop_eq_getElem_cons h, List.take_succ_cons]
    have e1 : (dst.set ob src[ib]).take (ob + 1) = dst.take ob ++ [src[ib]] := by
      rw [List.take_succ, List.getElem?_set_self ho]
      simp [List.take_set, List.set_eq_of_length_le (l := dst.take ob) (i := ob) (by simp; omega)]
    have e2 : (dst.set ob src[ib]).drop oe = dst.drop oe := List.drop_set_of_lt (by omega)
    have e3 : ib + 1 + (oe - (ob + 1)) = ib + (oe - (ob + 1) + 1) := by omega
    rw [e1, e2, e3]; simp
  | case3 ib dst ob hne h ho => omega
  | case4 ib dst ob hne h => omega

/-- Reading consecutive blocks with `copy_to_range`, each from where the last one stopped, reads the input in order:
filling a container and then a second one gives the same as filling one container of the total size. -/
theorem C68_copy_blocks (src : List α) (ib : Nat) (d1 d2 : List α) (h : ib + d1.length + d2.length ≤ src.length) :
    ∃ r1 r2 p, copyToCont src ib d1 = .ok (r1, p) ∧ copyToCont src p d2 = .ok (r2, ib + (d1 ++ d2).length) ∧
      copyToCont src ib (d1 ++ d2) = .ok (r1 ++ r2, ib + (d1 ++ d2).length) := by
  refine ⟨(src.drop ib).take d1.length, (src.drop (ib + d1.length)).take d2.length, ib + d1.length, ?_, ?_, ?_⟩
  · rw [copyToCont, C68_copy_to_range _ _ _ _ _ (by omega) (by omega) (by omega)]; simp
  · rw [copyToCont, C68_copy_to_range _ _ _ _ _ (by omega) (by omega) (by omega)]; simp; omega
  · rw [copyToCont, C68_copy_to_range _ _ _ _ _ (by omega) (by omega) (by simp; omega)]
    simp only [List.take_zero, Nat.sub_zero, List.drop_length, List.append_nil, List.nil_append]
    rw [List.length_append, List.take_add, List.drop_drop]

/-! ## Adding at the end -/

/-- `append` keeps the first sequence and adds the second; `emplace_back_get_index` returns the index of the new
element; `back_index` is the index of the last element, `no_index` for an empty sequence. -/
theorem C68_append_back (l m : List α) (a : α) :
    (∀ k, k < l.length → (append l m)[k]? = l[k]?) ∧ (∀ k, (append l m)[l.length + k]? = m[k]?) ∧
    (emplaceBackGetIndex l a).1[(emplaceBackGetIndex l a).2]? = some a ∧
    (∀ k, k < l.length → (emplaceBackGetIndex l a).1[k]? = l[k]?) ∧
    backIndex (emplaceBackGetIndex l a).1 = some (emplaceBackGetIndex l a).2 ∧
    (backIndex l = none ↔ l = []) ∧
    (∀ k, backIndex l = some k → l[k]? = l.getLast?) := by
  refine ⟨fun k hk => List.getElem?_append_left hk, fun k => ?_, ?_, fun k hk => List.getElem?_append_left hk, ?_, ?_, ?_⟩
  · simp [append, List.getElem?_append_right]
  · simp [emplaceBackGetIndex]
  · simp [backIndex, emplaceBackGetIndex]
  · cases l <;> simp [backIndex]
  · intro k hk
    cases l with
    | nil => simp [backIndex] at hk
    | cons x l =>
      simp only [backIndex, List.length_cons] at hk
      rw [if_pos (by omega)] at hk
      cases hk
      rw [List.getLast?_eq_getElem?]; simp

/-! ## The filtering view -/

namespace ViewIf

theorem nextMatch_spec (v : ViewIf α) (pos : Nat) (h1 : pos ≤ v.last) (h2 : v.last ≤ v.elems.length) :
    ∃ q, v.nextMatch pos = .ok q ∧ pos ≤ q ∧ q ≤ v.last ∧
      ((v.elems.take v.last).drop pos).filter v.pred = ((v.elems.take v.last).drop q).filter v.pred ∧
      (∀ h : q < v.elems.length, q ≠ v.last → v.pred v.elems[q] = true) := by
  fun_induction nextMatch v pos with
  | case1 => exact ⟨_, rfl, Nat.le_refl _, Nat.le_refl _, rfl, fun _ h => absurd rfl h⟩
  | case2 pos hne h hp => exact ⟨pos, rfl, Nat.le_refl _, h1, rfl, fun _ _ => hp⟩
  | case3 pos hne h hp ih =>
    obtain ⟨q, e, h3, h4, h5, h6⟩ := ih (by omega)
    refine ⟨q, e, by omega, h4, ?_, h6⟩
    rw [← h5, List.drop_eq_getElem_cons (by simp; omega), List.filter_cons]
    simp [hp]
  | case4 pos hne h => omega

theorem end_eq (v : ViewIf α) : v.end = .ok v.last := by
  unfold «end» nextMatch; simp

theorem loop_spec (v : ViewIf α) (h2 : v.last ≤ v.elems.length) (fuel : Nat) : ∀ pos acc, pos ≤ v.last →
    (∀ h : pos < v.elems.length, pos ≠ v.last → v.pred v.elems[pos] = true) → v.last - pos < fuel →
    v.loop fuel pos acc = some (.ok (acc ++ ((v.elems.take v.last).drop pos).filter v.pred)) := by
  induction fuel with
  | zero => intro pos acc h1 h3 h4; omega
  | succ n ih =>
    intro pos acc h1 h3 h4
    rw [loop, end_eq]
    simp only
    by_cases he : pos = v.last
    · subst he; simp
    · have hlt : pos < v.elems.length := by omega
      obtain ⟨q, e, g1, g2, g3, g4⟩ := nextMatch_spec v (pos + 1) (by omega) h2
      have hd : v.deref pos = .ok v.elems[pos] := by simp [deref, List.getElem?_eq_getElem hlt]
      have hn : v.next pos = .ok q := by rw [next, if_pos hlt, e]
      rw [if_neg he, hd, hn]
      simp only
      rw [ih q _ g2 g4 (by omega), List.drop_eq_getElem_cons (i := pos) (by simp; omega), List.filter_cons, ← g3]
      simp [h3 hlt he]

end ViewIf

/-- Iterating over a filtering view of the range `[first, last)` visits exactly the elements of the range that satisfy
the predicate, in order, each once, and ends after at most one step per element. -/
theorem C68_view (v : ViewIf α) (h1 : v.first ≤ v.last) (h2 : v.last ≤ v.elems.length) (fuel : Nat)
    (hf : v.last - v.first < fuel) :
    v.visit fuel = some (.ok (((v.elems.take v.last).drop v.first).filter v.pred)) := by
  obtain ⟨q, e, g1, g2, g3, g4⟩ := ViewIf.nextMatch_spec v v.first h1 h2
  rw [ViewIf.visit, ViewIf.begin, e]
  simp only
  rw [ViewIf.loop_spec v h2 fuel q [] g2 g4 (by omega), g3, List.nil_append]

/-- A view of a whole container visits the elements of the container that satisfy the predicate. -/
theorem C68_view_container (l : List α) (p : α → Bool) :
    (ViewIf.ofCont l p).visit (l.length + 1) = some (.ok (l.filter p)) := by
  have := C68_view (ViewIf.ofCont l p) (by simp [ViewIf.ofCont]) (by simp [ViewIf.ofCont]) (l.length + 1)
    (by simp [ViewIf.ofCont])
  simpa [ViewIf.ofCont] using this

example : (ViewIf.ofCont [1, 2, 4, 5, 6, 7] (fun n : Nat => n % 2 == 0)).visit 7 = some (.ok [2, 4, 6]) := by
  decide +kernel

/-- The number of visited elements is what `count_if` returns. -/
theorem C68_view_count (l : List α) (p : α → Bool) :
    ∃ r, (ViewIf.ofCont l p).visit (l.length + 1) = some (.ok r) ∧ r.length = count p l :=
  ⟨_, C68_view_container l p, (C68_count p l).symm⟩

end Cont
end Xo
