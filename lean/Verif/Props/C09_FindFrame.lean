import Verif.Lemmas.Bound
import Verif.Model.Vec
import Mathlib.Algebra.Order.Field.Basic
import Mathlib.Algebra.Order.Ring.Rat
import Mathlib.Tactic.Linarith

/-!
C09: `find_frame_index` (/repo/xo/container/storage_tools.h:24-49) returns a nearest frame. The code compares with
the previous frame only when `first > 1`; it should be `first > 0`, so frame 0 is missed.
-/
namespace Xo
variable {K : Type} [Field K] [LinearOrder K] [IsStrictOrderedRing K]

/-- `find_frame_index( sto, val, ch )` (storage_tools.h:24-49) on the values `xs` of channel `ch`; `none` is
`no_index`. The loop (storage_tools.h:33-41) is the library's halving loop. Floating point is exact arithmetic
in an ordered field. `sto.empty()` (no data) is modelled as "no frames". -/
def findFrameIndex (xs : List K) (val : K) : Res (Option Nat) :=
  if xs.length = 0 then .ok none
  else
    let first := min (bsearch xs (fun x => decide (x < val)) 0 xs.length) (xs.length - 1)
    if first > 1 then
      (Vec.get xs (first - 1)).bind fun a => (Vec.get xs first).bind fun b =>
        if val - a < b - val then .ok (some (first - 1)) else .ok (some first)
    else .ok (some first)

/-- `i` is a frame whose value is nearest to `val`. -/
def Nearest (xs : List K) (val : K) (i : Nat) : Prop :=
  ∃ x, xs[i]? = some x ∧ ∀ y ∈ xs, |val - x| ≤ |val - y|

theorem C09_split (xs : List K) (hs : xs.Pairwise (· ≤ ·)) (val : K) :
    ∃ as bs, xs = as ++ bs ∧ (∀ a ∈ as, a < val) ∧ (∀ b ∈ bs, val ≤ b) ∧
      bsearch xs (fun x => decide (x < val)) 0 xs.length = as.length := by
  refine ⟨xs.takeWhile (fun x => decide (x < val)), xs.dropWhile (fun x => decide (x < val)),
    (List.takeWhile_append_dropWhile).symm, ?_, ?_, ?_⟩
  · intro a ha; simpa using List.mem_takeWhile_imp ha
  · intro b hb
    induction xs with
    | nil => simp at hb
    | cons x xs ih =>
      by_cases hx : x < val
      · rw [List.dropWhile_cons_of_pos (by simpa using hx)] at hb
        exact ih (List.pairwise_cons.1 hs).2 hb
      · rw [List.dropWhile_cons_of_neg (by simpa using hx)] at hb
        rcases List.mem_cons.1 hb with rfl | hb
        · exact not_lt.1 hx
        · exact le_trans (not_lt.1 hx) ((List.pairwise_cons.1 hs).1 b hb)
  · have := bound_eq_takeWhile xs (fun x => decide (x < val)) (hs.imp fun {a b} h => by
      simp only [decide_eq_true_eq]; exact fun hb => lt_of_le_of_lt h hb)
    exact this

/-- **C09, what the code guarantees.** For any ascending channel with at least one frame the call returns a frame,
and that frame is nearest to `val`, except in one situation: the result is frame 1 and frame 0 is strictly nearer.
In particular the result is nearest whenever it is not 1. -/
theorem C09_nearest_frame_partial (xs : List K) (hne : xs ≠ []) (hs : xs.Pairwise (· ≤ ·)) (val : K) :
    ∃ i, findFrameIndex xs val = .ok (some i) ∧
      (Nearest xs val i ∨ (i = 1 ∧ ∃ x0 x1, xs[0]? = some x0 ∧ xs[1]? = some x1 ∧
        x0 < val ∧ val ≤ x1 ∧ val - x0 < x1 - val)) := by
  obtain ⟨as, bs, e, h1, h2, hb⟩ := C09_split xs hs val
  have hlen : xs.length ≠ 0 := by simpa using hne
  unfold findFrameIndex
  rw [if_neg hlen, hb]
  subst e
  have hsort := List.pairwise_append.1 hs
  rcases bs with _ | ⟨b, bs⟩
  · -- every frame is below val: the last frame is nearest
    rcases List.eq_nil_or_concat as with rfl | ⟨as', a, rfl⟩
    · simp at hne
    · rw [List.concat_eq_append] at *
      have hfirst : min (as' ++ [a]).length ((as' ++ [a] ++ []).length - 1) = as'.length := by simp
      simp only [hfirst]
      have hnear : Nearest (as' ++ [a] ++ []) val as'.length := by
        refine ⟨a, by simp, ?_⟩
        intro y hy
        have hya : y ≤ a := by
          simp only [List.append_nil] at hy
          rcases List.mem_append.1 hy with hy | hy
          · have := (List.pairwise_append.1 hsort.1).2.2 y hy a (by simp)
            exact this
          · rw [List.mem_singleton.1 hy]
        have ha := h1 a (by simp)
        have hy' : y < val := lt_of_le_of_lt hya ha
        rw [abs_of_pos (sub_pos.2 ha), abs_of_pos (sub_pos.2 hy')]; linarith
      split
      · next hgt =>
        have hp : as'.length - 1 < as'.length := by omega
        have e1 : Vec.get (as' ++ [a] ++ []) (as'.length - 1) = .ok as'[as'.length - 1] := by
          apply Vec.get_ok; rw [List.append_nil, List.getElem?_append_left hp]; exact List.getElem?_eq_getElem hp
        have e2 : Vec.get (as' ++ [a] ++ []) as'.length = .ok a := by
          apply Vec.get_ok; simp
        rw [e1, e2]
        simp only [Res.bind]
        have ha := h1 a (by simp)
        have hy : as'[as'.length - 1] < val := h1 _ (by simp)
        rw [if_neg (by linarith)]
        exact ⟨_, rfl, Or.inl hnear⟩
      · exact ⟨_, rfl, Or.inl hnear⟩
  · have hbv := h2 b (by simp)
    have hfirst : min as.length ((as ++ b :: bs).length - 1) = as.length := by simp
    rw [hfirst]
    -- candidates: the last of `as` and `b`
    have hb_min : ∀ y ∈ b :: bs, |val - b| ≤ |val - y| := by
      intro y hy
      have hby : b ≤ y := by
        rcases List.mem_cons.1 hy with rfl | hy
        · exact le_refl _
        · exact (List.pairwise_cons.1 hsort.2.1).1 y hy
      rw [abs_of_nonpos (by linarith), abs_of_nonpos (by linarith)]; linarith
    have ha_min : ∀ (i : Nat) (hi : i < as.length), i = as.length - 1 → ∀ y ∈ as, |val - as[i]| ≤ |val - y| := by
      intro i hi hie y hy
      obtain ⟨j, hj, rfl⟩ := List.getElem_of_mem hy
      have hle : as[j] ≤ as[i] := by
        rcases Nat.lt_or_ge j i with hlt | hge
        · exact List.pairwise_iff_getElem.1 hsort.1 j i hj hi hlt
        · have : j = i := by omega
          subst this; exact le_refl _
      have q1 := h1 _ (List.getElem_mem hi)
      have q2 := h1 _ (List.getElem_mem hj)
      rw [abs_of_pos (sub_pos.2 q1), abs_of_pos (sub_pos.2 q2)]; linarith
    rcases Nat.lt_or_ge 1 as.length with hgt | hle
    · rw [if_pos hgt]
      have hi : as.length - 1 < as.length := by omega
      have e1 : Vec.get (as ++ b :: bs) (as.length - 1) = .ok as[as.length - 1] := by
        apply Vec.get_ok; rw [List.getElem?_append_left hi]; exact List.getElem?_eq_getElem hi
      have e2 : Vec.get (as ++ b :: bs) as.length = .ok b := by
        apply Vec.get_ok; simp
      have q1 : as[as.length - 1] < val := h1 _ (List.getElem_mem hi)
      rw [e1, e2]; simp only [Res.bind]
      split
      · next hc =>
        refine ⟨_, rfl, Or.inl ⟨as[as.length - 1], by rw [List.getElem?_append_left hi]; exact List.getElem?_eq_getElem hi, ?_⟩⟩
        intro y hy
        rcases List.mem_append.1 hy with hy | hy
        · exact ha_min _ hi rfl y hy
        · refine le_trans ?_ (hb_min y hy)
          rw [abs_of_pos (sub_pos.2 q1), abs_of_nonpos (by linarith)]; linarith
      · next hc =>
        refine ⟨_, rfl, Or.inl ⟨b, by simp, ?_⟩⟩
        intro y hy
        rcases List.mem_append.1 hy with hy | hy
        · refine le_trans ?_ (ha_min _ hi rfl y hy)
          rw [abs_of_pos (sub_pos.2 q1), abs_of_nonpos (by linarith)]; linarith
        · exact hb_min y hy
    · rw [if_neg (by omega)]
      refine ⟨_, rfl, ?_⟩
      rcases as with _ | ⟨a, _ | ⟨a', as⟩⟩
      · left
        exact ⟨b, by simp, by simpa using hb_min⟩
      · have ha := h1 a (by simp)
        rcases lt_or_ge (val - a) (b - val) with hc | hc
        · right; exact ⟨by simp, a, b, by simp, by simp, ha, hbv, hc⟩
        · left
          refine ⟨b, by simp, ?_⟩
          intro y hy
          rcases List.mem_append.1 hy with hy | hy
          · rw [List.mem_singleton.1 hy, abs_of_pos (sub_pos.2 ha), abs_of_nonpos (by linarith)]; linarith
          · exact hb_min y hy
      · simp at hle

/-- An empty storage gives `no_index`. -/
theorem C09_empty (val : K) : findFrameIndex [] val = .ok none := by simp [findFrameIndex]

/-- **C09 is violated**: for the channel `0, 10` and the value `1` the call returns frame 1, although frame 0 is
nearer. -/
theorem C09_nearest_frame_violated :
    findFrameIndex [(0 : ℚ), 10] 1 = .ok (some 1) ∧ ¬ Nearest [(0 : ℚ), 10] 1 1 := by
  constructor
  · obtain ⟨as, bs, e, h1, h2, hb⟩ := C09_split [(0 : ℚ), 10] (by simp) 1
    have : as.length = 1 := by
      match as, bs, e with
      | [], _, e => simp at e; subst e; have := h2 0 (by simp); norm_num at this
      | [a], _, _ => rfl
      | a :: b :: as, _, e =>
        simp at e; obtain ⟨_, rfl, _⟩ := e; have := h1 10 (by simp); norm_num at this
    simp [findFrameIndex]
    have hb' : bsearch [(0 : ℚ), 10] (fun x => decide (x < 1)) 0 2 = 1 := by rw [← this]; exact hb
    rw [hb']
  · rintro ⟨x, hx, h⟩
    simp at hx
    subst hx
    have := h 0 (by simp)
    norm_num [abs] at this

/-- Non-vacuity: the partial theorem applies to an ascending channel with repeated values. -/
example : ([0, 1, 1, 4, 9] : List ℚ).Pairwise (· ≤ ·) ∧ ([0, 1, 1, 4, 9] : List ℚ) ≠ [] := by
  refine ⟨?_, by simp⟩
  simp; norm_num

end Xo
