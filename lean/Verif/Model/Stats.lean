import Verif.Model.Basic
import Mathlib.Algebra.Order.Field.Basic

/-!
Model of /repo/xo/container/container_algorithms.h over an ordered field (no rounding); NaN elements, with which the
sorting algorithms of the standard library have undefined behaviour, are outside the model.
-/
namespace Xo
namespace Stats
variable {K : Type} [Field K] [LinearOrder K]

/-- `accumulate` (container_algorithms.h:13-19, 28-31). -/
def accumulate (l : List K) (init : K) : K := l.foldl (fun a x => a + x) init

/-- `average` (container_algorithms.h:38-42, 50-53). -/
def average (l : List K) (v : K) : Res K :=
  if l ≠ [] then .ok (accumulate l v / (l.length : K)) else .err

/-- The loop of `mean_var` and `mean_std` (container_algorithms.h:63-65, 78-80). -/
def squares (l : List K) (mean : K) : K := l.foldl (fun acc x => acc + (x - mean) * (x - mean)) 0

/-- `mean_var` (container_algorithms.h:59-71). -/
def meanVar (l : List K) : Res (K × K) :=
  if l ≠ [] then do
    let mean ← average l 0
    pure (mean, squares l mean / (l.length : K))
  else .err

/-- `mean_std` (container_algorithms.h:73-85); `sqrt` stands for `std::sqrt`. -/
def meanStd (sqrt : K → K) (l : List K) : Res (K × K) :=
  if l ≠ [] then do
    let mean ← average l 0
    pure (mean, sqrt (squares l mean / (l.length : K)))
  else .err

/-- What the standard allows as the outcome of `std::sort` with a strict weak order `lt`. -/
def StdSort {α : Type} (lt : α → α → Prop) (l r : List α) : Prop := r.Perm l ∧ r.Pairwise fun a b => ¬lt b a

/-- `sorted_indices` (container_algorithms.h:87-96): `r` is a possible result for `cont` and `pred`. -/
def SortedIndices {α : Type} (pred : α → α → Prop) (cont : List α) (r : List Nat) : Prop :=
  StdSort (fun i1 i2 : Nat => ∃ x y, cont[i1]? = some x ∧ cont[i2]? = some y ∧ pred x y) (List.range cont.length) r

/-- A sorted copy: with a linear order all outcomes of `std::sort` are the same list, `sorted_copy`
(container_algorithms.h:112-114). -/
def sortedCopy (l : List K) : List K := l.mergeSort fun a b => decide (a ≤ b)

/-- `std::partial_sort_copy` into a vector of `k` zeros (container_algorithms.h:119-120, 149-150). -/
def partialSortCopy (l : List K) (k : Nat) : List K :=
  (sortedCopy l).take k ++ List.replicate (k - l.length) 0

/-- `median_slow` (container_algorithms.h:116-123). -/
def medianSlow (l : List K) : Res K :=
  let n := l.length
  if n > 0 then
    let v := partialSortCopy l (n / 2 + 1)
    if n % 2 = 1 then Res.ofOptionUb v[n / 2]?
    else do
      let a ← Res.ofOptionUb v[n / 2]?
      let b ← Res.ofOptionUb v[n / 2 - 1]?
      pure ((a + b) / 2)
  else .err

/-- What the standard allows as the outcome of `std::nth_element( b, b + h, e )`. -/
def NthElement (l : List K) (h : Nat) (r : List K) : Prop :=
  r.Perm l ∧ ∀ m, r[h]? = some m → (∀ x ∈ r.take h, x ≤ m) ∧ ∀ x ∈ r.drop h, m ≤ x

/-- `std::max_element`: the first largest element. -/
def maxElement : List K → Option K
  | [] => none
  | x :: xs => some (xs.foldl (fun m y => if m < y then y else m) x)

/-- `std::min_element`: the first smallest element. -/
def minElement : List K → Option K
  | [] => none
  | x :: xs => some (xs.foldl (fun m y => if y < m then y else m) x)

/-- `min_value` (container_algorithms.h:98-103): an empty container has no element to dereference. -/
def minValue (l : List K) : Res K := Res.ofOptionUb (minElement l)

/-- `max_value` (container_algorithms.h:105-110). -/
def maxValue (l : List K) : Res K := Res.ofOptionUb (maxElement l)

/-- `median_non_const` (container_algorithms.h:125-133) after `std::nth_element` has rearranged the data to `r`. -/
def medianAfter (r : List K) : Res K :=
  if r.length = 0 then .err
  else
    let h := r.length / 2
    if r.length % 2 = 1 then Res.ofOptionUb r[h]?
    else do
      let a ← Res.ofOptionUb r[h]?
      let b ← Res.ofOptionUb (maxElement (r.take h))
      pure ((a + b) / 2)

/-- `median` (container_algorithms.h:135-141), with sorting as the outcome of `std::nth_element`; `C53_median` shows that
all permitted outcomes give the same result. -/
def median (l : List K) : Res K := medianAfter (sortedCopy l)

/-- `top_average` (container_algorithms.h:147-152). -/
def topAverage (l : List K) (count : Nat) : Res K := average (partialSortCopy l count) 0

/-- `median_non_const` of 32-bit integers (container_algorithms.h:125-133), given the two middle elements of an even
number: the sum can overflow, the division truncates. -/
def middleInt (a b : Int) : Res Int :=
  if a + b < -2 ^ 31 ∨ 2 ^ 31 ≤ a + b then .ub else .ok ((a + b).tdiv 2)

end Stats
end Xo
