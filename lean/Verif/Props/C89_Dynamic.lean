import Verif.Model.Dyn
import Mathlib.Analysis.InnerProductSpace.PiL2
import Mathlib.Tactic.Ring
import Mathlib.Tactic.Linarith
import Mathlib.Tactic.FieldSimp

/-!
# C89: dynamic arrays, vectors and matrices
-/
namespace Xo.Dyn

namespace Spec
variable {α : Type}

/-- The arrays as plain lists; `none` is an array whose content was moved away. A call is `none` if it uses such an array, writes outside of
an array or copies an array to itself. -/
def step (s : Nat → Option (List α)) : DynArr.Op α → Option (Nat → Option (List α))
  | .make i n v => some fun k => if k = i then some (List.replicate n v) else s k
  | .copy i j => if i = j then none else (s j).map fun l k => if k = i then some l else s k
  | .move i j => if i = j then some s else (s j).map fun l k => if k = i then some l else if k = j then none else s k
  | .resize i n v => some fun k => if k = i then some (List.replicate n v) else s k
  | .clear i => some fun k => if k = i then some [] else s k
  | .fill i v => (s i).map fun l k => if k = i then some (l.map fun _ => v) else s k
  | .set i k v => (s i).bind fun l => if k < l.length then some fun x => if x = i then some (l.set k v) else s x else none

/-- A history of calls. -/
def run (s : Nat → Option (List α)) : List (DynArr.Op α) → Option (Nat → Option (List α))
  | [] => some s
  | o :: os => (step s o).bind fun s' => run s' os

/-- An array shows the elements of a list. -/
def Shows (a : DynArr α) (l : List α) : Prop :=
  a.size = .ok l.length ∧ a.isEmpty = l.isEmpty ∧ a.elems = .ok l ∧ (∀ i, a.get i = Res.ofOptionUb l[i]?) ∧
  ∀ i, a.at' i = Res.ofOptionErr l[i]?

end Spec

namespace DynArr
variable {α : Type}

/-- The representation of a list. -/
def Rep (a : DynArr α) (l : List α) : Prop := (a = ⟨none, .null⟩ ∧ l = []) ∨ a = ⟨some l, .own l.length⟩

theorem Rep.shows {a : DynArr α} {l : List α} (h : Rep a l) : Spec.Shows a l := by
  rcases h with ⟨rfl, rfl⟩ | rfl
  · refine ⟨rfl, rfl, rfl, fun i => rfl, fun i => ?_⟩
    simp [at', size, Res.ofOptionErr]
  · refine ⟨rfl, ?_, by simp [elems], fun i => rfl, fun i => ?_⟩
    · cases l <;> simp [isEmpty]
    · simp only [at', size, get, Res.bind_ok]
      by_cases h : l.length ≤ i
      · rw [if_pos h, List.getElem?_eq_none h]; rfl
      · rw [if_neg h]; simp [List.getElem?_eq_getElem (by omega : i < l.length), Res.ofOptionErr]

theorem step_rep {s s' : Nat → DynArr α} {t t' : Nat → Option (List α)} {o : Op α} (h : ∀ i l, t i = some l → Rep (s i) l)
    (ht : Spec.step t o = some t') : ∃ s', step s o = .ok s' ∧ ∀ i l, t' i = some l → Rep (s' i) l := by
  cases o with
  | make i n v =>
    cases ht
    refine ⟨_, rfl, fun k l e => ?_⟩
    simp only [put]
    by_cases hk : k = i
    · simp only [hk, if_true, Option.some.injEq] at e ⊢; subst e; right; simp [DynArr.make]
    · simp only [hk, if_false] at e ⊢; exact h _ _ e
  | copy i j =>
    simp only [Spec.step] at ht
    by_cases hij : i = j
    · simp [hij] at ht
    · simp only [if_neg hij] at ht
      cases hj : t j with
      | none => simp [hj] at ht
      | some l =>
        simp only [hj, Option.map_some, Option.some.injEq] at ht
        subst ht
        obtain ⟨h1, _, h3, _⟩ := (h j l hj).shows
        refine ⟨put s i ⟨some l, .own l.length⟩, ?_, fun k l' e => ?_⟩
        · simp [step, hij, copy, h1, h3, Res.map]
        · simp only [put]
          by_cases hk : k = i
          · simp only [hk, if_true, Option.some.injEq] at e ⊢; subst e; right; rfl
          · simp only [hk, if_false] at e ⊢; exact h _ _ e
  | move i j =>
    simp only [Spec.step] at ht
    by_cases hij : i = j
    · simp only [hij, if_true, Option.some.injEq] at ht
      subst ht
      exact ⟨s, by simp [step, hij], h⟩
    · simp only [if_neg hij] at ht
      cases hj : t j with
      | none => simp [hj] at ht
      | some l =>
        simp only [hj, Option.map_some, Option.some.injEq] at ht
        subst ht
        refine ⟨_, by simp only [step, if_neg hij]; rfl, fun k l' e => ?_⟩
        simp only [put]
        by_cases hk : k = i
        · simp only [hk, if_true, Option.some.injEq] at e ⊢; subst e; exact h j l hj
        · by_cases hk' : k = j
          · simp [hk'] at e; exact absurd e.1.symm hij
          · simp only [hk, hk', if_false] at e ⊢; exact h _ _ e
  | resize i n v =>
    cases ht
    refine ⟨_, rfl, fun k l e => ?_⟩
    simp only [put]
    by_cases hk : k = i
    · simp only [hk, if_true, Option.some.injEq] at e ⊢; subst e; right; simp [DynArr.resize]
    · simp only [hk, if_false] at e ⊢; exact h _ _ e
  | clear i =>
    cases ht
    refine ⟨_, rfl, fun k l e => ?_⟩
    simp only [put]
    by_cases hk : k = i
    · simp only [hk, if_true, Option.some.injEq] at e ⊢; subst e; left; exact ⟨rfl, rfl⟩
    · simp only [hk, if_false] at e ⊢; exact h _ _ e
  | fill i v =>
    simp only [Spec.step] at ht
    cases hi : t i with
    | none => simp [hi] at ht
    | some l =>
      simp only [hi, Option.map_some, Option.some.injEq] at ht
      subst ht
      rcases h i l hi with ⟨e1, rfl⟩ | e1
      · refine ⟨put s i (s i), by simp [step, assign, e1, Res.map], fun k l' e => ?_⟩
        simp only [put]
        by_cases hk : k = i
        · simp only [hk, if_true, Option.some.injEq] at e ⊢; subst e; left; exact ⟨e1, rfl⟩
        · simp only [hk, if_false] at e ⊢; exact h _ _ e
      · refine ⟨put s i ⟨some (l.map fun _ => v), .own l.length⟩, by simp [step, assign, e1, Res.map], fun k l' e => ?_⟩
        simp only [put]
        by_cases hk : k = i
        · simp only [hk, if_true, Option.some.injEq] at e ⊢; subst e; right; simp
        · simp only [hk, if_false] at e ⊢; exact h _ _ e
  | set i x v =>
    simp only [Spec.step] at ht
    cases hi : t i with
    | none => simp [hi] at ht
    | some l =>
      simp only [hi, Option.bind_some] at ht
      by_cases hx : x < l.length
      · simp only [if_pos hx, Option.some.injEq] at ht
        subst ht
        rcases h i l hi with ⟨e1, rfl⟩ | e1
        · simp at hx
        · refine ⟨put s i ⟨some (l.set x v), .own l.length⟩, by simp [step, set, e1, Res.map, hx], fun k l' e => ?_⟩
          simp only [put]
          by_cases hk : k = i
          · simp only [hk, if_true, Option.some.injEq] at e ⊢; subst e; right; simp
          · simp only [hk, if_false] at e ⊢; exact h _ _ e
      · simp [hx] at ht

/-- **C89.** Arrays behave as plain lists: after every history of calls that does not use moved arrays and does not copy an array to itself,
every array shows exactly the elements of its list. In particular, copies are independent of each other. -/
theorem C89_array_partial (os : List (Op α)) (t : Nat → Option (List α)) (h : Spec.run (fun _ => some []) os = some t) :
    ∃ s, run (fun _ => DynArr.empty) os = .ok s ∧ ∀ i l, t i = some l → Spec.Shows (s i) l := by
  suffices ∀ (os : List (Op α)) (s : Nat → DynArr α) (t t' : Nat → Option (List α)), (∀ i l, t i = some l → Rep (s i) l) →
      Spec.run t os = some t' → ∃ s', run s os = .ok s' ∧ ∀ i l, t' i = some l → Rep (s' i) l by
    obtain ⟨s, h1, h2⟩ := this os (fun _ => DynArr.empty) _ t (fun i l e => by cases e; left; exact ⟨rfl, rfl⟩) h
    exact ⟨s, h1, fun i l e => (h2 i l e).shows⟩
  intro os
  induction os with
  | nil => intro s t t' h e; cases e; exact ⟨s, rfl, h⟩
  | cons o os ih =>
    intro s t t' h e
    simp only [Spec.run] at e
    cases hs : Spec.step t o with
    | none => simp [hs] at e
    | some t1 =>
      obtain ⟨s1, e1, h1⟩ := step_rep (s' := s) h hs
      obtain ⟨s2, e2, h2⟩ := ih s1 t1 t' h1 (by simpa [hs] using e)
      exact ⟨s2, by simp only [run, e1, Res.bind]; exact e2, h2⟩

example : ∃ t, Spec.run (fun _ => some []) [.make 0 2 (5 : Nat), .copy 1 0, .set 1 0 7, .move 2 1, .clear 1] = some t ∧
    t 0 = some [5, 5] ∧ t 1 = some [] ∧ t 2 = some [7, 5] := ⟨_, rfl, rfl, rfl, rfl⟩

theorem eqLoop_eq [DecidableEq α] (l m : List α) (x y : EndP) (k i : Nat) (h1 : l.length = i + k) (h2 : m.length = i + k) :
    eqLoop ⟨some l, x⟩ ⟨some m, y⟩ i k = .ok (decide (l.drop i = m.drop i)) := by
  induction k generalizing i with
  | zero => simp [eqLoop, List.drop_of_length_le (by omega : l.length ≤ i), List.drop_of_length_le (by omega : m.length ≤ i)]
  | succ k ih =>
    have a : i < l.length := by omega
    have b : i < m.length := by omega
    rw [List.drop_eq_getElem_cons a, List.drop_eq_getElem_cons b]
    simp only [eqLoop, get, Option.bind_some, List.getElem?_eq_getElem a, List.getElem?_eq_getElem b, Res.ofOptionUb_some, Res.bind_ok]
    by_cases h : l[i] = m[i]
    · rw [if_neg (by simpa using h), ih (i + 1) (by omega) (by omega)]; simp only [List.cons.injEq, h, true_and]
    · rw [if_pos h]; simp only [List.cons.injEq, h, false_and, decide_false]

/-- Two arrays are equal exactly if they show the same elements. -/
theorem C89_array_eq [DecidableEq α] (a b : DynArr α) (l m : List α) (ha : Rep a l) (hb : Rep b m) : a.eq b = .ok (decide (l = m)) := by
  rcases ha with ⟨rfl, rfl⟩ | rfl <;> rcases hb with ⟨rfl, rfl⟩ | rfl
  · simp [eq, size, eqLoop]
  · cases m <;> simp [eq, size, eqLoop]
  · cases l <;> simp [eq, size, eqLoop]
  · simp only [eq, size, Res.bind_ok]
    by_cases h : l.length = m.length
    · rw [if_pos h, eqLoop_eq l m _ _ l.length 0 (by omega) (by omega)]; simp
    · rw [if_neg h]; simp; intro e; exact h (by rw [e])

/-- **C89 is violated by moved arrays**: after an array with elements was moved, its size is undefined and it says that it is not empty,
although it has no elements. -/
theorem C89_moved_violated (l : List α) : let a := (move ⟨some l, .own l.length⟩).2
    a.size = .ub ∧ a.elems = .ub ∧ a.copy = .ub ∧ a.isEmpty = false := ⟨rfl, rfl, rfl, rfl⟩

/-- **C89.** After a move between two arrays the target has the block, and no element can be reached through the source; other arrays are as
before. -/
theorem C89_move_block (s : Nat → DynArr α) (i j : Nat) (hij : i ≠ j) :
    ∃ s', step s (.move i j) = .ok s' ∧ s' i = s j ∧ (∀ k, (s' j).get k = .ub) ∧ ∀ k, k ≠ i → k ≠ j → s' k = s k := by
  refine ⟨_, by simp only [step, if_neg hij]; rfl, by simp [put, move], fun k => ?_, fun k h1 h2 => by simp [put, h1, h2]⟩
  simp [put, Ne.symm hij, move, get, Res.ofOptionUb]

/-- **C89 is violated by copying an array to itself**: this is undefined for every array. -/
theorem C89_self_copy_violated (s : Nat → DynArr α) (i : Nat) : step s (.copy i i) = .ub := by simp [step]

/-- **C89 is violated by `resize`**: all elements are lost, also those with indices below the new size. -/
theorem C89_resize_violated (l : List α) (v : α) (n : Nat) :
    Spec.Shows ((⟨some l, .own l.length⟩ : DynArr α).resize n v) (List.replicate n v) :=
  Rep.shows (Or.inr (by simp [resize]))

end DynArr

/-! ## Vectors -/
namespace Vec

section
variable {K : Type} [Field K]

/-- The elements of sums, differences, negatives and multiples; vectors of different sizes are refused. -/
theorem C89_vec_elements (u v : List K) (s : K) :
    (u.length = v.length → ∃ a b, add u v = .ok a ∧ sub u v = .ok b ∧ a.length = u.length ∧ b.length = u.length ∧
      ∀ (i : Nat) x y, u[i]? = some x → v[i]? = some y → a[i]? = some (x + y) ∧ b[i]? = some (x - y)) ∧
    (u.length ≠ v.length → add u v = .err ∧ sub u v = .err ∧ dot u v = .err) ∧
    (neg u).length = u.length ∧ (smul s u).length = u.length ∧
    ∀ (i : Nat) x, u[i]? = some x → (neg u)[i]? = some (-x) ∧ (smul s u)[i]? = some (s * x) := by
  refine ⟨fun h => ⟨_, _, if_pos h, if_pos h, by simp [h], by simp [h], ?_⟩, fun h => ⟨if_neg h, if_neg h, if_neg h⟩, by simp [neg],
    by simp [smul], ?_⟩
  · intro i x y hx hy
    simp [List.getElem?_zipWith, hx, hy]
  · intro i x hx
    simp [neg, smul, hx, mul_comm]

theorem sqLen_eq (v : List K) : sqLen v = (v.map fun x => x ^ 2).sum := by
  have : ∀ (v : List K) a, v.foldl (fun sum e => sum + e * e) a = a + (v.map fun x => x ^ 2).sum := by
    intro v
    induction v with
    | nil => simp
    | cons x v ih => intro a; rw [List.foldl_cons, ih]; simp; ring
  rw [sqLen, this, zero_add]

theorem foldl_zip {β : Type} (g : β → K) (v : List β) (a : K) : v.foldl (fun r p => r + g p) a = a + (v.map g).sum := by
  induction v generalizing a with
  | nil => simp
  | cons x v ih => rw [List.foldl_cons, ih]; simp [add_assoc]

theorem sum_range (g : K → K → K) (u v : List K) (h : u.length = v.length) :
    ((List.zip u v).map fun p => g p.1 p.2).sum = ∑ i : Fin u.length, g u[i] (v.getD i 0) := by
  induction u generalizing v with
  | nil => cases v <;> simp at h ⊢
  | cons x u ih =>
    cases v with
    | nil => simp at h
    | cons y v =>
      simp only [List.length_cons, List.zip_cons_cons, List.map_cons, List.sum_cons]
      rw [ih v (by simpa using h), Fin.sum_univ_succ]
      simp

theorem dot_eq (u v : List K) (h : u.length = v.length) : dot u v = .ok (∑ i : Fin u.length, u[i] * v.getD i 0) := by
  rw [dot, if_pos h, foldl_zip (fun p : K × K => p.1 * p.2), zero_add, sum_range (fun a b => a * b) u v h]

/-- **C89.** Dividing by a number other than zero divides each element; it undoes the multiplication. -/
theorem C89_vec_div [DecidableEq K] (u : List K) (s : K) : (s = 0 → Vec.div u s = none) ∧
    (s ≠ 0 → ∃ w, Vec.div u s = some w ∧ w.length = u.length ∧ (∀ (i : Nat) x, u[i]? = some x → w[i]? = some (x / s)) ∧ smul s w = u) := by
  constructor
  · intro h; simp [Vec.div, h]
  · intro h
    refine ⟨smul (1 / s) u, by simp [Vec.div, h], by simp [smul], ?_, ?_⟩
    · intro i x hx; simp [smul, hx, div_eq_mul_inv]
    · simp only [smul, List.map_map]
      conv_rhs => rw [← List.map_id u]
      refine List.map_congr_left fun x _ => ?_
      simp [h]

/-- Vectors of the same size form a vector space. -/
theorem C89_vec_space (u v w : List K) (s t : K) (h : u.length = v.length) (h' : v.length = w.length) :
    add u v = add v u ∧ ((add u v).bind fun a => add a w) = ((add v w).bind fun b => add u b) ∧
    add u (List.replicate u.length 0) = .ok u ∧ add u (neg u) = .ok (List.replicate u.length 0) ∧ sub u v = add u (neg v) ∧
    smul 1 u = u ∧ smul (s * t) u = smul s (smul t u) ∧ add (smul s u) (smul t u) = .ok (smul (s + t) u) ∧
    add (smul s u) (smul s v) = (add u v).map (smul s) := by
  refine ⟨?_, ?_, ?_, ?_, ?_, ?_, ?_, ?_, ?_⟩
  · simp only [add, h, if_true]; rw [List.zipWith_comm_of_comm (comm := add_comm)]
  · simp only [add, h, h', if_true, Res.bind, List.length_zipWith, min_self, Res.ok.injEq]
    apply List.ext_getElem?
    intro i
    simp only [List.getElem?_zipWith]
    cases u[i]? <;> cases v[i]? <;> cases w[i]? <;> simp [add_assoc]
  · simp only [add, List.length_replicate, if_true, Res.ok.injEq]
    apply List.ext_getElem?
    intro i
    simp only [List.getElem?_zipWith, List.getElem?_replicate]
    by_cases hi : i < u.length <;> simp [hi]
  · simp only [add, neg, List.length_map, if_true, Res.ok.injEq]
    apply List.ext_getElem?
    intro i
    simp only [List.getElem?_zipWith, List.getElem?_replicate, List.getElem?_map]
    by_cases hi : i < u.length <;> simp [hi]
  · simp only [add, sub, neg, List.length_map, h, if_true, Res.ok.injEq]
    apply List.ext_getElem?
    intro i
    simp only [List.getElem?_zipWith, List.getElem?_map]
    cases u[i]? <;> cases v[i]? <;> simp [sub_eq_add_neg]
  · simp [smul]
  · simp only [smul, List.map_map]
    apply List.map_congr_left
    intro x _
    simp only [Function.comp]; ring
  · simp only [add, smul, List.length_map, if_true, Res.ok.injEq]
    apply List.ext_getElem?
    intro i
    simp only [List.getElem?_zipWith, List.getElem?_map]
    cases u[i]? <;> simp [mul_add]
  · simp only [add, smul, List.length_map, h, if_true, Res.map, Res.ok.injEq]
    apply List.ext_getElem?
    intro i
    simp only [List.getElem?_zipWith, List.getElem?_map]
    cases u[i]? <;> cases v[i]? <;> simp [add_mul]

/-- The scalar product is symmetric and linear, and gives the squared length. -/
theorem C89_dot (u v w a : List K) (s : K) (h : u.length = v.length) (h' : v.length = w.length) (ha : add v w = .ok a) :
    dot u v = dot v u ∧ dot u u = .ok (sqLen u) ∧
    ∃ x y, dot u v = .ok x ∧ dot u w = .ok y ∧ dot u a = .ok (x + y) ∧ dot u (smul s v) = .ok (s * x) := by
  have hal : a = List.zipWith (· + ·) v w := by simp only [add, h', if_true, Res.ok.injEq] at ha; exact ha.symm
  have g1 : ∀ i : Fin u.length, v.getD i 0 + w.getD i 0 = a.getD i 0 := by
    intro i
    have h1 : (i : Nat) < v.length := by omega
    have h2 : (i : Nat) < w.length := by omega
    simp [hal, List.getD_eq_getElem?_getD, List.getElem?_zipWith, h1, h2]
  refine ⟨?_, ?_, _, _, dot_eq u v h, dot_eq u w (by omega), ?_, ?_⟩
  · have : ∀ (u v : List K), (List.zip u v).foldl (fun r p => r + p.1 * p.2) 0 = (List.zip v u).foldl (fun r p => r + p.1 * p.2) 0 := by
      intro u v
      rw [foldl_zip (fun p : K × K => p.1 * p.2), foldl_zip (fun p : K × K => p.1 * p.2), ← List.zip_swap v u, List.map_map]
      congr 2
      apply List.map_congr_left
      rintro ⟨x, y⟩ _
      simp [mul_comm]
    simp only [dot, h, if_true]
    rw [this]
  · rw [dot, if_pos rfl, foldl_zip (fun p : K × K => p.1 * p.2), zero_add, sqLen_eq]
    congr 2
    clear g1 hal ha h h'
    induction u with
    | nil => rfl
    | cons x u ih => simp only [List.zip_cons_cons, List.map_cons, List.cons.injEq]; exact ⟨by ring, ih⟩
  · rw [dot_eq u a (by rw [hal]; simp [h, h']), ← Finset.sum_add_distrib]
    congr 1
    refine Finset.sum_congr rfl fun i _ => ?_
    rw [← g1 i, mul_add]
  · rw [dot_eq u _ (by simp [smul, h]), Finset.mul_sum]
    congr 1
    refine Finset.sum_congr rfl fun i _ => ?_
    have h1 : (i : Nat) < v.length := by omega
    simp [smul, List.getD_eq_getElem?_getD, h1]
    ring

/-- A vector is null exactly if all its elements are zero. -/
theorem C89_null [DecidableEq K] (v : List K) : isNull v = true ↔ v = List.replicate v.length 0 := by
  simp [isNull, List.eq_replicate_iff]

/-- Equality of vectors of the same size. -/
theorem C89_vec_eq_partial [DecidableEq K] (u v : List K) (h : u.length = v.length) : eq u v = .ok (decide (u = v)) := if_pos h

/-- **C89 is violated by vectors of different sizes**: to compare them throws, instead of saying that they differ. -/
theorem C89_vec_eq_violated [DecidableEq K] (u v : List K) (h : u.length ≠ v.length) : eq u v = .err := if_neg h

end

/-! ### Lengths and distances over the real numbers -/

/-- The vector as a point of Euclidean space. -/
noncomputable def pt (n : Nat) (v : List ℝ) : EuclideanSpace ℝ (Fin n) := WithLp.toLp 2 fun i => v.getD i 0

theorem len_eq (v : List ℝ) : len v = ‖pt v.length v‖ := by
  rw [len, EuclideanSpace.norm_eq]
  congr 1
  have := dot_eq v v rfl
  have h2 := (C89_dot v v v _ 0 rfl rfl (if_pos rfl)).2.1
  rw [this] at h2
  have h3 : sqLen v = ∑ i : Fin v.length, v[i] * v.getD i 0 := (Res.ok.inj h2).symm
  rw [h3]
  refine Finset.sum_congr rfl fun i _ => ?_
  simp [pt]
  ring

theorem distance_eq (u v : List ℝ) (h : u.length = v.length) : distance u v = .ok (dist (pt u.length u) (pt u.length v)) := by
  rw [distance, if_pos h, foldl_zip (fun p : ℝ × ℝ => (p.1 - p.2) * (p.1 - p.2)), zero_add,
    sum_range (fun a b => (a - b) * (a - b)) u v h, EuclideanSpace.dist_eq]
  congr 2
  refine Finset.sum_congr rfl fun i _ => ?_
  simp [pt, Real.dist_eq]
  ring

theorem pt_inj (u v : List ℝ) (h : u.length = v.length) (e : pt u.length u = pt u.length v) : u = v := by
  apply List.ext_getElem h
  intro i h1 h2
  have := congrFun (congrArg WithLp.ofLp e) ⟨i, h1⟩
  simpa [pt, h2] using this

/-- The distance is a metric on vectors of the same size, and refuses others. -/
theorem C89_distance (u v w : List ℝ) (h : u.length = v.length) (h' : v.length = w.length) :
    ∃ a b c, distance u v = .ok a ∧ distance v w = .ok b ∧ distance u w = .ok c ∧ distance v u = .ok a ∧ 0 ≤ a ∧ (a = 0 ↔ u = v) ∧
      c ≤ a + b := by
  have h1 := distance_eq u v h
  have h2 := distance_eq v w h'
  have h3 := distance_eq u w (by omega)
  have h4 := distance_eq v u h.symm
  rw [← h] at h2 h4
  refine ⟨_, _, _, h1, h2, h3, ?_, dist_nonneg, ?_, dist_triangle _ _ _⟩
  · rw [h4, dist_comm]
  · rw [dist_eq_zero]
    exact ⟨pt_inj u v h, fun e => by rw [e]⟩

theorem C89_distance_refused (u v : List ℝ) (h : u.length ≠ v.length) : distance u v = .err := if_neg h

/-- The length of a vector: the distance to the null vector, compatible with multiples, and never exceeded by the scalar product. -/
theorem C89_length (u v : List ℝ) (s : ℝ) (h : u.length = v.length) :
    distance u (List.replicate u.length 0) = .ok (len u) ∧ 0 ≤ len u ∧ (len u = 0 ↔ isNull u = true) ∧
    len (smul s u) = |s| * len u ∧ len u ^ 2 = sqLen u ∧ ∃ d, dot u v = .ok d ∧ |d| ≤ len u * len v := by
  refine ⟨?_, Real.sqrt_nonneg _, ?_, ?_, ?_, _, dot_eq u v h, ?_⟩
  · rw [distance_eq _ _ (by simp), len_eq]
    congr 1
    rw [show pt u.length (List.replicate u.length (0 : ℝ)) = 0 by
      ext i; simp [pt], dist_zero_right]
  · rw [len_eq, norm_eq_zero, C89_null]
    constructor
    · intro e
      apply pt_inj u _ (by simp)
      rw [e]
      ext i; simp [pt]
    · intro e
      generalize u.length = n at e ⊢
      rw [e]
      ext i; simp [pt, List.getElem?_replicate]
  · rw [len_eq, len_eq, ← Real.norm_eq_abs, ← norm_smul]
    have hl : (smul s u).length = u.length := by simp [smul]
    rw [hl]
    congr 1
    ext i
    simp [pt, smul, mul_comm]
  · rw [len, Real.sq_sqrt]
    rw [sqLen_eq]
    apply List.sum_nonneg
    intro x hx
    simp only [List.mem_map] at hx
    obtain ⟨y, _, rfl⟩ := hx
    positivity
  · have e : (∑ i : Fin u.length, u[i] * v.getD i 0) = inner ℝ (pt u.length u) (pt u.length v) := by
      rw [PiLp.inner_apply]
      refine Finset.sum_congr rfl fun i _ => ?_
      simp [pt, mul_comm]
    rw [e, len_eq, len_eq, ← h]
    exact abs_real_inner_le_norm _ _

/-- Normalising gives the old length, and a vector in the same direction of length one, unless the length is at most the smallest step of
the number type; then the vector is not changed. -/
theorem C89_normalize (eps : ℝ) (he : 0 ≤ eps) (v : List ℝ) :
    (normalize eps v).1 = len v ∧ (eps < len v → len (normalize eps v).2 = 1 ∧ smul (len v) (normalize eps v).2 = v) ∧
    (len v ≤ eps → (normalize eps v).2 = v) := by
  refine ⟨?_, ?_, ?_⟩
  · simp only [normalize]; split <;> rfl
  · intro h
    have h0 : len v ≠ 0 := by linarith
    simp only [normalize]
    rw [if_pos h]
    constructor
    · rw [(C89_length v v _ rfl).2.2.2.1, abs_of_nonneg (one_div_nonneg.2 (by linarith))]
      field_simp
    · simp only [smul, List.map_map]
      conv_rhs => rw [← List.map_id v]
      apply List.map_congr_left
      intro x _
      simp only [Function.comp, id]
      field_simp
  · intro h
    simp only [normalize]
    rw [if_neg (not_lt.2 h)]

example : dot [(1 : ℚ), 2] [3, -4] = .ok (-5) := by norm_num [dot]

end Vec

/-! ## Matrices -/
namespace Mat
variable {α : Type}

/-- A matrix with `c` columns and `r` rows. -/
def Sized (m : Mat α) (c r : Nat) : Prop := m.cols = c ∧ m.data.length = r * c

theorem index_lt {c r col row : Nat} (h1 : col < c) (h2 : row < r) : row * c + col < r * c := by
  calc row * c + col < row * c + c := by omega
    _ = (row + 1) * c := by ring
    _ ≤ r * c := Nat.mul_le_mul_right c h2

theorem index_inj {c col row col' row' : Nat} (h1 : col < c) (h2 : col' < c) (h : row * c + col = row' * c + col') : row = row' ∧ col = col' := by
  have hc : 0 < c := by omega
  have e1 : (row * c + col) / c = row := by rw [mul_comm, Nat.mul_add_div hc, Nat.div_eq_of_lt h1, add_zero]
  have e2 : (row' * c + col') / c = row' := by rw [mul_comm, Nat.mul_add_div hc, Nat.div_eq_of_lt h2, add_zero]
  have : row = row' := by rw [← e1, ← e2, h]
  subst this
  exact ⟨rfl, by omega⟩

/-- A new matrix has the given sizes and value. The number of rows of a matrix without columns is 0. -/
theorem C89_mat_make (c r : Nat) (v : α) : (make c r v).cols = c ∧ (make c r v).rows = (if c = 0 then 0 else r) ∧
    ∀ col row, col < c → row < r → (make c r v).get col row = .ok v := by
  refine ⟨rfl, ?_, ?_⟩
  · simp only [make, rows]
    by_cases hc : c = 0
    · simp [hc]
    · by_cases hr : r = 0
      · simp [hr, hc]
      · simp [hc, hr, List.isEmpty_iff]
  · intro col row h1 h2
    simp [make, get, List.getElem?_replicate, index_lt h1 h2]

theorem Sized.rows {m : Mat α} {c r : Nat} (h : m.Sized c r) : m.rows = if c = 0 then 0 else r := by
  obtain ⟨h1, h2⟩ := h
  simp only [Mat.rows]
  by_cases hc : c = 0
  · rw [if_pos hc, if_pos]
    rw [hc] at h2
    simpa using h2
  · rw [if_neg hc, h1, h2, Nat.mul_div_cancel _ (by omega)]
    by_cases hr : r = 0
    · simp [hr]
    · rw [if_neg]
      intro e
      rw [List.isEmpty_iff] at e
      rw [e] at h2
      simp at h2
      omega

/-- Writing an element changes this element only. -/
theorem C89_mat_set (m : Mat α) (c r : Nat) (h : m.Sized c r) (col row : Nat) (h1 : col < c) (h2 : row < r) (v : α) :
    ∃ n, m.set col row v = .ok n ∧ n.Sized c r ∧
      ∀ col' row', col' < c → row' < r → n.get col' row' = if col' = col ∧ row' = row then .ok v else m.get col' row' := by
  obtain ⟨hc, hl⟩ := h
  refine ⟨{ m with data := m.data.set (row * m.cols + col) v }, ?_, ⟨hc, by simp [hl]⟩, ?_⟩
  · rw [set, if_pos]
    rw [hc, hl]; exact index_lt h1 h2
  · intro col' row' h3 h4
    simp only [get, List.getElem?_set]
    by_cases e : row * m.cols + col = row' * m.cols + col'
    · rw [if_pos e, if_pos (by rw [hc, hl]; exact index_lt h1 h2)]
      obtain ⟨a, b⟩ := index_inj (by omega) (by omega) e
      rw [if_pos ⟨b.symm, a.symm⟩]; rfl
    · rw [if_neg e, if_neg]
      rintro ⟨rfl, rfl⟩
      exact e rfl

theorem get_ok (m : Mat α) (c r : Nat) (h : m.Sized c r) (col row : Nat) (h1 : col < c) (h2 : row < r) : ∃ v, m.get col row = .ok v := by
  obtain ⟨hc, hl⟩ := h
  have : row * m.cols + col < m.data.length := by rw [hc, hl]; exact index_lt h1 h2
  exact ⟨m.data[row * m.cols + col], by simp [get, this]⟩

theorem copyCols_spec (m : Mat α) (c r : Nat) (h : m.Sized c r) (n : Mat α) (c' r' : Nat) (hn : n.Sized c' r') (row : Nat) (h1 : row < r)
    (h2 : row < r') (k : Nat) (hk : k ≤ c) (hk' : k ≤ c') :
    ∃ p, m.copyCols row k n = .ok p ∧ p.Sized c' r' ∧ ∀ col' row', col' < c' → row' < r' →
      p.get col' row' = if col' < k ∧ row' = row then m.get col' row' else n.get col' row' := by
  induction k with
  | zero => exact ⟨n, rfl, hn, by simp⟩
  | succ k ih =>
    obtain ⟨p, e, hp, hg⟩ := ih (by omega) (by omega)
    obtain ⟨v, hv⟩ := get_ok m c r h k row (by omega) h1
    obtain ⟨q, e2, hq, hg2⟩ := C89_mat_set p c' r' hp k row (by omega) h2 v
    refine ⟨q, by simp [copyCols, e, hv, e2], hq, ?_⟩
    intro col' row' a b
    rw [hg2 col' row' a b, hg col' row' a b]
    by_cases e3 : row' = row
    · subst e3
      by_cases e4 : col' = k
      · subst e4; simp [hv]
      · by_cases e5 : col' < k
        · simp [e4, e5, show col' < k + 1 by omega]
        · simp [e4, e5, show ¬ col' < k + 1 by omega]
    · simp [e3]

theorem copyRows_spec (m : Mat α) (c r : Nat) (h : m.Sized c r) (n : Mat α) (c' r' : Nat) (hn : n.Sized c' r') (cm : Nat) (hk : cm ≤ c)
    (hk' : cm ≤ c') (j : Nat) (h1 : j ≤ r) (h2 : j ≤ r') :
    ∃ p, m.copyRows cm j n = .ok p ∧ p.Sized c' r' ∧ ∀ col' row', col' < c' → row' < r' →
      p.get col' row' = if col' < cm ∧ row' < j then m.get col' row' else n.get col' row' := by
  induction j with
  | zero => exact ⟨n, rfl, hn, by simp⟩
  | succ j ih =>
    obtain ⟨p, e, hp, hg⟩ := ih (by omega) (by omega)
    obtain ⟨q, e2, hq, hg2⟩ := copyCols_spec m c r h p c' r' hp j (by omega) (by omega) cm hk hk'
    refine ⟨q, by simp [copyRows, e, e2], hq, ?_⟩
    intro col' row' a b
    rw [hg2 col' row' a b, hg col' row' a b]
    by_cases e3 : col' < cm
    · by_cases e4 : row' = j
      · subst e4; simp [e3]
      · by_cases e5 : row' < j
        · simp [e3, e4, e5, show row' < j + 1 by omega]
        · simp [e3, e4, e5, show ¬ row' < j + 1 by omega]
    · simp [e3]

/-- **C89.** Resizing a matrix keeps the elements that are in both sizes, and all others have the default value. -/
theorem C89_mat_resize (m : Mat α) (c r : Nat) (h : m.Sized c r) (dflt : α) (c' r' : Nat) :
    ∃ n, m.resize dflt c' r' = .ok n ∧ n.Sized c' r' ∧ ∀ col row, col < c' → row < r' →
      n.get col row = if col < c ∧ row < r then m.get col row else .ok dflt := by
  have hr := h.rows
  have hm : (make c' r' dflt).Sized c' r' := ⟨rfl, by simp [make]⟩
  obtain ⟨n, e, hn, hg⟩ := copyRows_spec m c r h (make c' r' dflt) c' r' hm (min c c') (Nat.min_le_left _ _) (Nat.min_le_right _ _)
    (min m.rows r') (by rw [hr]; split <;> omega) (Nat.min_le_right _ _)
  refine ⟨n, by rw [resize, h.1]; exact e, hn, ?_⟩
  intro col row h1 h2
  rw [hg col row h1 h2, hr, (C89_mat_make c' r' dflt).2.2 col row h1 h2]
  by_cases hc : c = 0
  · simp [hc]
  · rw [if_neg hc]
    by_cases h3 : col < c ∧ row < r
    · rw [if_pos h3, if_pos ⟨by omega, by omega⟩]
    · rw [if_neg h3, if_neg (by omega)]

example : (⟨2, [1, 2, 3, 4]⟩ : Mat Nat).Sized 2 2 ∧ (⟨2, [1, 2, 3, 4]⟩ : Mat Nat).resize 0 3 1 = .ok ⟨3, [1, 2, 0]⟩ := ⟨⟨rfl, rfl⟩, rfl⟩

section
variable {K : Type} [Field K]

theorem mulRow_spec (m : Mat K) (n : Nat) (h : m.Sized n n) (v : List K) (hv : v.length = n) (row : Nat) (hr : row < n) (k : Nat) (hk : k ≤ n) :
    m.mulRow v row k = .ok (∑ j ∈ Finset.range k, m.data.getD (j * n + row) 0 * v.getD j 0) := by
  induction k with
  | zero => rfl
  | succ k ih =>
    have h1 : k * m.cols + row < m.data.length := by rw [h.1, h.2]; exact index_lt hr (by omega)
    have h2 : k < v.length := by omega
    rw [mulRow, ih (by omega), Finset.sum_range_succ]
    simp [get, h1, h2, h.1 ▸ h1]
    simp [h.1]

/-- **C89 is violated by the product of a matrix and a vector**: it swaps rows and columns, so that for square matrices the result is that of
the transposed matrix. -/
theorem C89_mat_mul_violated (m : Mat K) (n : Nat) (h : m.Sized n n) (v : List K) (hv : v.length = n) :
    ∃ r, m.mul v = .ok r ∧ r.length = n ∧
      ∀ i, i < n → r.getD i 0 = ∑ j ∈ Finset.range n, m.data.getD (j * n + i) 0 * v.getD j 0 := by
  have key : ∀ k, k ≤ n → ∃ r, m.mulRows v k = .ok r ∧ r.length = k ∧
      ∀ i, i < k → r.getD i 0 = ∑ j ∈ Finset.range n, m.data.getD (j * n + i) 0 * v.getD j 0 := by
    intro k
    induction k with
    | zero => intro _; exact ⟨[], rfl, rfl, by simp⟩
    | succ k ih =>
      intro hk
      obtain ⟨r, e, hl, hg⟩ := ih (by omega)
      refine ⟨r ++ [∑ j ∈ Finset.range n, m.data.getD (j * n + k) 0 * v.getD j 0], by simp only [mulRows, e, h.1, mulRow_spec m n h v hv k (by omega) n (Nat.le_refl _), Res.bind_ok, Res.pure_eq], by simp [hl], ?_⟩
      intro i hi
      by_cases e2 : i = k
      · subst e2; simp [hl]
      · have : i < r.length := by omega
        rw [← hg i (by omega)]
        simp [List.getD_eq_getElem?_getD, List.getElem?_append_left this]
  obtain ⟨r, e, hl, hg⟩ := key n (Nat.le_refl _)
  refine ⟨r, ?_, hl, hg⟩
  have hr : m.rows = n := by rw [h.rows]; split <;> omega
  rw [mul, if_pos (by rw [h.1, hv]), hr, e]

/-- **C89 is violated by matrices with more columns than rows**: the product reads behind the end. -/
theorem C89_mat_mul_wide_violated (m : Mat K) (c r : Nat) (h : m.Sized c r) (hr : 0 < r) (hc : r < c) (v : List K) (hv : v.length = c) :
    m.mul v = .ub := by
  have hrows : m.rows = r := by rw [h.rows, if_neg (by omega)]
  have hrow : ∀ k, r < k → k ≤ c → m.mulRow v 0 k = .ub := by
    intro k
    induction k with
    | zero => omega
    | succ k ih =>
      intro h1 h2
      rw [mulRow]
      by_cases h3 : r < k
      · rw [ih h3 (by omega)]; rfl
      · have hk : k = r := by omega
        have hg : m.get 0 k = .ub := by
          simp only [get]
          rw [List.getElem?_eq_none (by rw [h.1, h.2, hk]; omega)]
          rfl
        rw [hg]
        have : ∀ j, j ≤ r → ∃ s, m.mulRow v 0 j = .ok s := by
          intro j
          induction j with
          | zero => intro _; exact ⟨0, rfl⟩
          | succ j ih2 =>
            intro hj
            obtain ⟨s, e⟩ := ih2 (by omega)
            obtain ⟨a, ea⟩ := get_ok m c r h 0 j (by omega) (by omega)
            have hv' : j < v.length := by omega
            exact ⟨s + a * v[j], by simp [mulRow, e, ea, hv']⟩
        obtain ⟨s, e⟩ := this k (by omega)
        rw [e]; rfl
  have hub : ∀ k, 0 < k → m.mulRows v k = .ub := by
    intro k
    induction k with
    | zero => omega
    | succ k ih =>
      intro _
      rw [mulRows]
      by_cases hk : 0 < k
      · rw [ih hk]; rfl
      · have : k = 0 := by omega
        subst this
        rw [h.1, hrow c hc (Nat.le_refl _)]; rfl
  rw [mul, if_pos (by rw [h.1, hv]), hrows, hub r hr]

example : (⟨2, [1, 2, 3, 4]⟩ : Mat ℚ).mul [1, 0] = .ok [1, 2] := by norm_num [mul, rows, mulRows, mulRow, get]

end
end Mat
end Xo.Dyn
