import Verif.Model.Time
import Mathlib.Data.List.Basic

/-!
C43: interval checkers.
-/
namespace Xo
open Time

namespace Spec

/-- The answers expected: a check succeeds exactly if it is at least one interval after the last success (`last`;
before the first success: after time zero). -/
def fires (interval last : Int) : List Int → List Bool
  | [] => []
  | t :: ts => if t ≥ last + interval then true :: fires interval t ts else false :: fires interval last ts

end Spec
open Spec

/-- Time stamps that are not negative never overflow. -/
theorem check_eq (c : Checker) (t : Int) (hc : 0 ≤ c.previous ∧ c.previous < 2 ^ 63) (ht : 0 ≤ t ∧ t < 2 ^ 63) :
    c.check t = .ok (if t ≥ c.previous + c.interval then ({ c with previous := t }, true) else (c, false)) := by
  unfold Checker.check sub i64
  rw [if_pos (show InRange (t - c.previous) from ⟨by omega, by omega⟩)]
  simp only [Res.bind]
  by_cases h : t - c.previous ≥ c.interval
  · rw [if_pos h, if_pos (by omega)]
  · rw [if_neg h, if_neg (by omega)]

/-- **C43.** For all time stamps from zero on, the answers are the expected ones. -/
theorem C43_checks (interval : Int) (ts : List Int) (h : ∀ t ∈ ts, 0 ≤ t ∧ t < 2 ^ 63) :
    (Checker.new interval).run ts = .ok (fires interval 0 ts) := by
  have gen : ∀ (c : Checker), 0 ≤ c.previous ∧ c.previous < 2 ^ 63 →
      c.run ts = .ok (fires c.interval c.previous ts) := by
    induction ts with
    | nil => intro c _; rfl
    | cons t ts ih =>
      intro c hc
      have ht := h t (by simp)
      have ih := ih (fun u hu => h u (List.mem_cons_of_mem _ hu))
      simp only [Checker.run, check_eq c t hc ht, Res.bind, fires]
      by_cases hh : t ≥ c.previous + c.interval
      · rw [if_pos hh, if_pos hh, ih _ ht]
      · rw [if_neg hh, if_neg hh, ih _ hc]
  exact gen _ (by simp [Checker.new])

theorem fires_length (interval last : Int) (ts : List Int) : (fires interval last ts).length = ts.length := by
  induction ts generalizing last with
  | nil => rfl
  | cons t ts ih => simp only [fires]; split <;> simp [ih]

/-- **C43, at most once per interval.** Two successes of a run, with no success in between, are at least one interval
apart. -/
theorem C43_apart (interval last : Int) (ts : List Int) (i j : Nat) (hij : i < j) (ti tj : Int)
    (hi : ts[i]? = some ti) (hj : ts[j]? = some tj) (fi : (fires interval last ts)[i]? = some true)
    (fj : (fires interval last ts)[j]? = some true)
    (between : ∀ k, i < k → k < j → (fires interval last ts)[k]? = some false) : tj - ti ≥ interval := by
  induction ts generalizing last i j with
  | nil => cases hi
  | cons t ts ih =>
    have next : ∀ (l : Int) (ts : List Int) (j : Nat), ts[j]? = some tj → (fires interval l ts)[j]? = some true →
        (∀ k, k < j → (fires interval l ts)[k]? = some false) → tj - l ≥ interval := by
      intro l ts
      induction ts with
      | nil => intro j h; cases h
      | cons u us ihu =>
        intro j hj fj hb
        by_cases hu : u ≥ l + interval
        · cases j with
          | zero => simp at hj; omega
          | succ j => have := hb 0 (by omega); simp [fires, hu] at this
        · simp only [fires, hu, if_false] at fj hb
          cases j with
          | zero => simp at fj
          | succ j =>
            refine ihu j (by simpa using hj) (by simpa using fj) (fun k hk => ?_)
            have := hb (k + 1) (by omega)
            simpa using this
    obtain ⟨j, rfl⟩ : ∃ k, j = k + 1 := ⟨j - 1, by omega⟩
    by_cases ht : t ≥ last + interval
    · simp only [fires, ht, if_true] at fi fj between
      cases i with
      | zero =>
        simp at hi
        subst hi
        refine next t ts j (by simpa using hj) (by simpa using fj) (fun k hk => ?_)
        have := between (k + 1) (by omega) (by omega)
        simpa using this
      | succ i =>
        refine ih t i j (by omega) (by simpa using hi) (by simpa using hj) (by simpa using fi) (by simpa using fj) ?_
        intro k h1 h2
        have := between (k + 1) (by omega) (by omega)
        simpa using this
    · simp only [fires, ht, if_false] at fi fj between
      cases i with
      | zero => simp at fi
      | succ i =>
        refine ih last i j (by omega) (by simpa using hi) (by simpa using hj) (by simpa using fi) (by simpa using fj)
          ?_
        intro k h1 h2
        have := between (k + 1) (by omega) (by omega)
        simpa using this

/-- **C43, always after an interval.** After a success at `ti`, a later check at least one interval later succeeds,
unless one in between did. -/
theorem C43_due (interval last : Int) (ts : List Int) (i j : Nat) (hij : i < j) (ti tj : Int)
    (hi : ts[i]? = some ti) (hj : ts[j]? = some tj) (fi : (fires interval last ts)[i]? = some true)
    (between : ∀ k, i < k → k < j → (fires interval last ts)[k]? = some false) (h : tj - ti ≥ interval) :
    (fires interval last ts)[j]? = some true := by
  have next : ∀ (l : Int) (ts : List Int) (j : Nat), ts[j]? = some tj →
      (∀ k, k < j → (fires interval l ts)[k]? = some false) → tj - l ≥ interval →
      (fires interval l ts)[j]? = some true := by
    intro l ts
    induction ts with
    | nil => intro j h; cases h
    | cons u us ihu =>
      intro j hj hb hd
      by_cases hu : u ≥ l + interval
      · cases j with
        | zero => simp [fires, hu]
        | succ j => have := hb 0 (by omega); simp [fires, hu] at this
      · simp only [fires, hu, if_false] at hb ⊢
        cases j with
        | zero => simp at hj; omega
        | succ j =>
          have := ihu j (by simpa using hj) (fun k hk => by have := hb (k + 1) (by omega); simpa using this) hd
          simpa using this
  induction ts generalizing last i j with
  | nil => cases hi
  | cons t ts ih =>
    obtain ⟨j, rfl⟩ : ∃ k, j = k + 1 := ⟨j - 1, by omega⟩
    by_cases ht : t ≥ last + interval
    · simp only [fires, ht, if_true] at fi between ⊢
      cases i with
      | zero =>
        simp at hi
        subst hi
        have := next t ts j (by simpa using hj) (fun k hk => by
          have := between (k + 1) (by omega) (by omega); simpa using this) h
        simpa using this
      | succ i =>
        have := ih t i j (by omega) (by simpa using hi) (by simpa using hj) (by simpa using fi) (fun k h1 h2 => by
          have := between (k + 1) (by omega) (by omega); simpa using this)
        simpa using this
    · simp only [fires, ht, if_false] at fi between ⊢
      cases i with
      | zero => simp at fi
      | succ i =>
        have := ih last i j (by omega) (by simpa using hi) (by simpa using hj) (by simpa using fi) (fun k h1 h2 => by
          have := between (k + 1) (by omega) (by omega); simpa using this)
        simpa using this

/-- The first success: a checker used from time zero on first fires one interval after time zero, not at the first
check. -/
theorem C43_first (interval t : Int) (ht : 0 ≤ t ∧ t < 2 ^ 63) :
    (Checker.new interval).run [t] = .ok [decide (t ≥ interval)] := by
  rw [C43_checks _ _ (by simpa using ht)]
  by_cases h : t ≥ interval <;> simp [fires, h]

/-- Non-vacuity. -/
example : (Checker.new 10).run [3, 12, 15, 21, 22, 40] = .ok [false, true, false, false, true, true] := by decide
example : fires 10 0 [3, 12, 15, 21, 22, 40] = [false, true, false, false, true, true] := by decide

end Xo
