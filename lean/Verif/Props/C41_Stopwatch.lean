import Verif.Model.Timer
import Mathlib.Data.List.Basic

/-!
C41: stopwatches.
-/
namespace Xo

namespace Spec

/-- The splits of one round, in order: name and interval since the last operation. -/
abbrev Round := List (String × Int)

/-- What happened since the last `clear`: the rounds before, the current round, and the clock at the last
operation. -/
structure Laps where
  rounds : List Round
  current : Round
  last : Int

def Laps.step (l : Laps) (now : Int) : Stopwatch.Op → Laps
  | .split name => ⟨l.rounds, l.current ++ [(name, now - l.last)], now⟩
  | .restart => ⟨l.rounds ++ [l.current], [], now⟩
  | .clear => ⟨[], [], now⟩

def Laps.run (l : Laps) (h : List (Int × Stopwatch.Op)) : Laps := h.foldl (fun l x => l.step x.1 x.2) l

/-- The intervals at position `i`, over all rounds that got that far. -/
def Laps.at (l : Laps) (i : Nat) : List (String × Int) := (l.rounds ++ [l.current]).filterMap (·[i]?)

end Spec
open Spec Stopwatch

theorem Laps.at_split (l : Laps) (i : Nat) (now : Int) (name : String) :
    (l.step now (.split name)).at i =
      if i = l.current.length then l.at i ++ [(name, now - l.last)] else l.at i := by
  unfold Laps.at Laps.step
  simp only [List.filterMap_append]
  split
  · next h =>
    subst h
    simp
  · next h =>
    rw [List.append_right_inj]
    simp only [List.filterMap_cons, List.filterMap_nil]
    rcases Nat.lt_or_gt_of_ne h with h | h
    · rw [List.getElem?_append_left h]
    · rw [List.getElem?_eq_none (by simp only [List.length_append, List.length_singleton]; omega),
        List.getElem?_eq_none (by omega)]

theorem Laps.at_restart (l : Laps) (i : Nat) (now : Int) : (l.step now .restart).at i = l.at i := by
  unfold Laps.at Laps.step
  simp [List.filterMap_cons]

/-- The invariant: position by position. -/
structure LapsRel (s : State) (l : Laps) : Prop where
  epoch : s.epoch = l.last
  current : s.current = l.current.length
  le : s.current ≤ s.times.length
  names : s.names.length = s.times.length
  time : ∀ i, s.times[i]? = if l.at i = [] then none else some ((l.at i).map (·.2)).sum
  name : ∀ i, s.names[i]? = (l.at i).head?.map (·.1)

theorem laps_step {s : State} {l : Laps} (h : LapsRel s l) (now : Int) (o : Op) :
    LapsRel (step s now o) (l.step now o) := by
  cases o with
  | clear =>
    refine ⟨rfl, rfl, by simp [step, clear], rfl, ?_, ?_⟩ <;> intro i <;>
      simp [step, clear, Laps.step, Laps.at]
  | restart =>
    refine ⟨rfl, rfl, by simp [step, restart], h.names, ?_, ?_⟩
    · intro i; rw [Laps.at_restart]; exact h.time i
    · intro i; rw [Laps.at_restart]; exact h.name i
  | split name =>
    have hi : (Timer.restart s.epoch now).2 = now - l.last := by simp [Timer.restart, h.epoch]
    simp only [step, split]
    by_cases hc : s.current ≥ s.times.length
    · have hlen : s.times.length = l.current.length := by have := h.le; have := h.current; omega
      have hnil : l.at l.current.length = [] := by
        have := h.time l.current.length
        rw [List.getElem?_eq_none (by omega)] at this
        by_contra hne
        rw [if_neg hne] at this
        cases this
      rw [if_pos hc]
      refine ⟨rfl, by simp [Laps.step, h.current], by simp; exact h.le, by simp [h.names], ?_, ?_⟩
      · intro i
        rw [Laps.at_split]
        by_cases hil : i = l.current.length
        · subst hil
          rw [if_pos rfl, hnil, ← hlen]
          simp [hi]
        · rw [if_neg hil, ← h.time i]
          rcases Nat.lt_or_gt_of_ne hil with h' | h'
          · rw [List.getElem?_append_left (by omega)]
          · rw [List.getElem?_eq_none (by simp; omega), List.getElem?_eq_none (by omega)]
      · intro i
        rw [Laps.at_split]
        have hn := h.names
        by_cases hil : i = l.current.length
        · subst hil
          rw [if_pos rfl, hnil, ← hlen, ← hn]
          simp
        · rw [if_neg hil, ← h.name i]
          rcases Nat.lt_or_gt_of_ne hil with h' | h'
          · rw [List.getElem?_append_left (by omega)]
          · rw [List.getElem?_eq_none (by simp; omega), List.getElem?_eq_none (by omega)]
    · rw [if_neg hc]
      have hcur : s.current = l.current.length := h.current
      have hne : l.at l.current.length ≠ [] := by
        intro he
        have := h.time l.current.length
        rw [he, if_pos rfl, List.getElem?_eq_none_iff] at this
        omega
      refine ⟨rfl, by simp [Laps.step, h.current], by simp; omega, by simp [h.names], ?_, ?_⟩
      · intro i
        rw [Laps.at_split, List.getElem?_modify, hcur]
        by_cases hil : i = l.current.length
        · subst hil
          have := h.time l.current.length
          rw [if_neg hne] at this
          rw [if_pos rfl, if_neg (by simp), this]
          simp [hi]
        · have : ¬ l.current.length = i := fun e => hil e.symm
          simp only [if_neg hil, if_neg this]
          rw [← h.time i]
          cases s.times[i]? <;> rfl
      · intro i
        rw [Laps.at_split]
        by_cases hil : i = l.current.length
        · subst hil
          rw [if_pos rfl, List.head?_append_of_ne_nil _ hne]
          exact h.name _
        · rw [if_neg hil]
          exact h.name i

/-- **C41.** After any history of splits, restarts and clears: the time at a position is the sum, over all rounds
since the last clear, of the intervals at that position; its name is the one given when it was first reached; and
there is one entry for each position some round reached. -/
theorem C41_splits (t0 : Int) (h : List (Int × Op)) (i : Nat) :
    (run (new t0) h).times[i]? =
      (if (Laps.run ⟨[], [], t0⟩ h).at i = [] then none
       else some (((Laps.run ⟨[], [], t0⟩ h).at i).map (·.2)).sum) ∧
    (run (new t0) h).names[i]? = ((Laps.run ⟨[], [], t0⟩ h).at i).head?.map (·.1) := by
  have gen : ∀ (s : State) (l : Laps), LapsRel s l → LapsRel (run s h) (l.run h) := by
    induction h with
    | nil => intro s l hr; exact hr
    | cons x h ih => intro s l hr; exact ih _ _ (laps_step hr x.1 x.2)
  have := gen (new t0) ⟨[], [], t0⟩
    ⟨rfl, rfl, by simp [new], rfl, by intro i; simp [new, Laps.at], by intro i; simp [new, Laps.at]⟩
  exact ⟨this.time i, this.name i⟩

/-- Every entry has a name and a time, and `size()` counts both. -/
theorem C41_sizes (t0 : Int) (h : List (Int × Op)) :
    (run (new t0) h).names.length = (run (new t0) h).times.length := by
  have := C41_splits t0 h
  apply Nat.le_antisymm
  · by_contra hc
    have h1 := (this (run (new t0) h).times.length)
    rw [List.getElem?_eq_none (Nat.le_refl _)] at h1
    obtain ⟨h1, h2⟩ := h1
    rw [List.getElem?_eq_getElem (by omega)] at h2
    split at h1
    · next he => rw [he] at h2; cases h2
    · cases h1
  · by_contra hc
    have h1 := (this (run (new t0) h).names.length)
    rw [List.getElem?_eq_none (Nat.le_refl _) (l := (run (new t0) h).names)] at h1
    obtain ⟨h1, h2⟩ := h1
    rw [List.getElem?_eq_getElem (by omega)] at h1
    split at h1
    · cases h1
    · next he =>
      cases hx : (Laps.run ⟨[], [], t0⟩ h).at (run (new t0) h).names.length with
      | nil => exact he hx
      | cons a b => rw [hx] at h2; cases h2

theorem setOrAdd_new (l : List (String × Int)) (k : String) (v : Int) (h : ∀ x ∈ l, x.1 ≠ k) :
    setOrAdd l k v = l ++ [(k, v)] := by
  unfold setOrAdd
  have : l.findIdx? (fun x => x.1 == k) = none := by
    rw [List.findIdx?_eq_none_iff]
    intro x hx
    simpa using h x hx
  rw [this]

/-- The report lists all splits in order and then their total, unless a split is named `TOTAL`. -/
theorem C41_report (s : State) (h : "TOTAL" ∉ s.names) :
    report s = s.names.zip s.times ++ [("TOTAL", s.times.sum)] := by
  unfold report
  apply setOrAdd_new
  intro x hx e
  have := (List.of_mem_zip (a := x.1) (b := x.2) hx).1
  rw [e] at this
  exact h this

/-- Beyond C41: a split named `TOTAL` is lost from the report. -/
theorem C41_total_name_lost : report ⟨0, 2, [5, 7], ["TOTAL", "b"]⟩ = [("TOTAL", 12), ("b", 7)] := by decide

/-- Non-vacuity: two rounds, the second one longer. -/
example : run (new 100) [(103, .split "a"), (108, .split "b"), (110, .restart), (111, .split "a"), (113, .split "b"),
    (120, .split "c")] = ⟨120, 3, [4, 7, 7], ["a", "b", "c"]⟩ := by decide

end Xo
