import Verif.Lemmas.FlatSet

/-! C04: `sorted_vector` is a sorted multiset under every history. -/
namespace Xo
open Spec
variable {K : Type} [LinearOrder K]

namespace SortedVector

def step (m : SortedVector K) : BagOp K → SortedVector K
  | .insert k => m.insert k
  | .removeAll k => m.remove k

def run (m : SortedVector K) (ops : List (BagOp K)) : SortedVector K := ops.foldl step m

def Rel (m : SortedVector K) (b : K → Nat) : Prop :=
  m.data.Pairwise (fun x y => ¬ y < x) ∧ ∀ k, m.data.count k = b k

end SortedVector
open SortedVector

theorem C04_step (m : SortedVector K) (b : K → Nat) (hr : SortedVector.Rel m b) (op : BagOp K) :
    SortedVector.Rel (m.step op) (bagStep b op) := by
  obtain ⟨l⟩ := m
  obtain ⟨hs, hb⟩ := hr
  have hb : ∀ k, l.count k = b k := hb
  cases op with
  | insert e =>
    obtain ⟨as, ms, cs, rfl, h1, h2, h3⟩ := wsplit id l hs e
    have hi : SortedVector.insert ⟨as ++ (ms ++ cs)⟩ e = ⟨(as ++ ms) ++ e :: cs⟩ := by
      have := bound_le_split h1 h2 h3
      simp only [id] at this
      simp only [SortedVector.insert, this]
      rw [← List.append_assoc, insertIdx_append_length]
    simp only [SortedVector.step, bagStep, hi]
    constructor
    · show List.Pairwise _ ((as ++ ms) ++ e :: cs)
      rw [← List.append_assoc] at hs
      replace hs : ((as ++ ms) ++ cs).Pairwise (fun x y => ¬ y < x) := hs
      rw [List.pairwise_append] at hs ⊢
      refine ⟨hs.1, List.pairwise_cons.2 ⟨fun c hc => not_lt_of_gt (h3 c hc), hs.2.1⟩, ?_⟩
      intro a ha x hx
      rcases List.mem_cons.1 hx with rfl | hx
      · rcases List.mem_append.1 ha with ha | ha
        · exact not_lt_of_gt (h1 a ha)
        · have : a = x := h2 a ha
          rw [this]; exact lt_irrefl _
      · exact hs.2.2 a ha x hx
    · intro k
      have := hb k
      simp only [List.count_append, List.count_cons] at this ⊢
      by_cases hk : k = e
      · subst hk; simp; omega
      · have : (e == k) = false := by simpa using Ne.symm hk
        simp [hk, this]; omega
  | removeAll e =>
    obtain ⟨as, ms, cs, rfl, h1, h2, h3⟩ := wsplit id l hs e
    have hcas : as.count e = 0 := List.count_eq_zero.2 fun h => lt_irrefl _ (h1 e h)
    have hccs : cs.count e = 0 := List.count_eq_zero.2 fun h => lt_irrefl _ (h3 e h)
    have lb : bound (as ++ (ms ++ cs)) (fun x => decide (x < e)) = as.length := bound_lt_split h1 h2 h3
    have hrm : SortedVector.remove ⟨as ++ (ms ++ cs)⟩ e = ⟨as ++ cs⟩ := by
      match ms, h2 with
      | [], _ =>
        have hf : SortedVector.findIt ⟨as ++ ([] ++ cs)⟩ e = (as ++ ([] ++ cs)).length := by
          simp only [SortedVector.findIt, lb]
          cases cs with
          | nil => simp
          | cons c cs => simp [(ne_of_lt (h3 c (by simp)) : e ≠ c).symm]
        simp only [SortedVector.remove, hf]; simp
      | m :: ms, h2 =>
        have hm : m = e := h2 m (by simp)
        have hf : SortedVector.findIt ⟨as ++ (m :: ms ++ cs)⟩ e = as.length := by
          simp only [SortedVector.findIt, lb]; simp [hm]
        have hd : (as ++ (m :: ms ++ cs)).drop (as.length + 1) = ms ++ cs := by
          rw [List.drop_append]; simp
        have hrl : SortedVector.runLength e (ms ++ cs) = ms.length :=
          runLength_append (fun x hx => h2 x (by simp [hx])) h3
        simp only [SortedVector.remove, hf, hd, hrl]
        have hd2 : (as ++ (m :: ms ++ cs)).drop (as.length + 1 + ms.length) = cs := by
          rw [show as ++ (m :: ms ++ cs) = (as ++ m :: ms) ++ cs by simp]
          exact List.drop_left' (by simp; omega)
        rw [hd2]; simp
    simp only [SortedVector.step, bagStep, hrm]
    constructor
    · show List.Pairwise _ (as ++ cs)
      replace hs : (as ++ (ms ++ cs)).Pairwise (fun x y => ¬ y < x) := hs
      rw [List.pairwise_append] at hs ⊢
      exact ⟨hs.1, (List.pairwise_append.1 hs.2.1).2.1, fun a ha c hc =>
        hs.2.2 a ha c (List.mem_append_right _ hc)⟩
    · intro k
      have := hb k
      simp only [List.count_append] at this ⊢
      by_cases hk : k = e
      · subst hk; simp [hcas, hccs]
      · have hms : ms.count k = 0 := List.count_eq_zero.2 fun h => hk (h2 k h)
        simp [hk]; omega

/-- **C04.** After any history from the empty vector the elements are in ascending order, their multiplicities
are those of the abstract multiset, and `find( e )` succeeds exactly if `e` is present, pointing at an element
equal to `e` (the first one). -/
theorem C04_sorted_vector_is_sorted_bag (ops : List (BagOp K)) :
    let m := (SortedVector.empty : SortedVector K).run ops
    m.data.Pairwise (· ≤ ·) ∧
    (∀ k, m.data.count k = bagRun ops k) ∧
    (∀ k, (m.findIt k < m.data.length ↔ 0 < bagRun ops k) ∧
          (m.findIt k < m.data.length → m.data[m.findIt k]? = some k ∧ k ∉ m.data.take (m.findIt k)) ∧
          m.findIt k ≤ m.data.length) := by
  have gen : ∀ (ops : List (BagOp K)) m b, SortedVector.Rel m b →
      SortedVector.Rel (m.run ops) (ops.foldl bagStep b) := by
    intro ops
    induction ops with
    | nil => intro m b h; exact h
    | cons op ops ih => intro m b h; exact ih _ _ (C04_step m b h op)
  have h : SortedVector.Rel ((SortedVector.empty : SortedVector K).run ops) (bagRun ops) :=
    gen ops _ _ ⟨List.Pairwise.nil, by simp [SortedVector.empty]⟩
  generalize (SortedVector.empty : SortedVector K).run ops = m at h
  generalize bagRun ops = b at h
  obtain ⟨l⟩ := m
  obtain ⟨hs, hb⟩ := h
  replace hs : l.Pairwise (fun x y => ¬ y < x) := hs
  have hb : ∀ k, l.count k = b k := hb
  refine ⟨hs.imp fun h => not_lt.1 h, hb, fun k => ?_⟩
  rw [← hb k]
  obtain ⟨as, ms, cs, rfl, h1, h2, h3⟩ := wsplit id l hs k
  have hcas : as.count k = 0 := List.count_eq_zero.2 fun h => lt_irrefl _ (h1 k h)
  have hccs : cs.count k = 0 := List.count_eq_zero.2 fun h => lt_irrefl _ (h3 k h)
  have lb : bound (as ++ (ms ++ cs)) (fun x => decide (x < k)) = as.length := bound_lt_split h1 h2 h3
  match ms, h2 with
  | [], _ =>
    have hf : SortedVector.findIt ⟨as ++ ([] ++ cs)⟩ k = (as ++ ([] ++ cs)).length := by
      simp only [SortedVector.findIt, lb]
      cases cs with
      | nil => simp
      | cons c cs => simp [(ne_of_lt (h3 c (by simp)) : k ≠ c).symm]
    rw [hf]
    simp only [List.count_append, hcas, hccs]; simp
  | m :: ms, h2 =>
    have hm : m = k := h2 m (by simp)
    have hf : SortedVector.findIt ⟨as ++ (m :: ms ++ cs)⟩ k = as.length := by
      simp only [SortedVector.findIt, lb]; simp [hm]
    rw [hf]
    have : k ∉ as := fun h => lt_irrefl _ (h1 k h)
    simp [hm, this]; omega

/-- A brace-initialised `sorted_vector` is the sorted multiset of the listed elements. -/
theorem C04_init (l : List K) :
    (SortedVector.ofList l).data.Pairwise (· ≤ ·) ∧ (SortedVector.ofList l).data.Perm l := by
  refine ⟨?_, List.mergeSort_perm _ _⟩
  have := List.pairwise_mergeSort (le := fun a b : K => !decide (b < a)) ?_ ?_ l
  · exact this.imp (by simp)
  · intro a b c; simp only [Bool.not_eq_true', decide_eq_false_iff_not, not_lt]; exact le_trans
  · intro a b; simp only [Bool.or_eq_true, Bool.not_eq_true', decide_eq_false_iff_not, not_lt]; exact le_total _ _

example : (SortedVector.empty : SortedVector Nat).run
    [.insert 4, .insert 2, .insert 4, .insert 7, .removeAll 4, .removeAll 5, .insert 2] = ⟨[2, 2, 7]⟩ := by
  decide +kernel

end Xo
