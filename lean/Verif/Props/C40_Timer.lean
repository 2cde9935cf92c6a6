import Verif.Model.Timer

/-!
C40: timers.
-/
namespace Xo

namespace Spec

/-- A timer as a user sees it: the time accumulated, and since when it runs. -/
structure Watch where
  acc : Int
  since : Option Int

/-- The time shown at `now`: the accumulated time, and the running interval. -/
def Watch.shown (w : Watch) (now : Int) : Int := w.acc + (w.since.map (now - ·)).getD 0

/-- What is expected of the operations; `pause` and `restart` return the time shown. -/
def Watch.step (w : Watch) (now : Int) : Timer.Op → Watch × Option Int
  | .pause => (⟨w.shown now, none⟩, some (w.shown now))
  | .resume => (⟨w.shown now, some now⟩, none)
  | .restart => (⟨0, some now⟩, some (w.shown now))
  | .set t => (⟨t, w.since.map fun _ => now⟩, none)

def Watch.run (w : Watch) : List (Int × Timer.Op) → Watch × List (Option Int)
  | [] => (w, [])
  | (now, o) :: h =>
    ((Watch.run (w.step now o).1 h).1, (w.step now o).2 :: (Watch.run (w.step now o).1 h).2)

/-- Uses for which the timer works: pause and restart while running, resume while paused, set to times that are not
negative; the clock does not go back, and a running timer shows less than the clock. -/
def Watch.Ok (w : Watch) (now : Int) : Timer.Op → Prop
  | .pause => w.since.isSome
  | .resume => w.since = none ∧ w.acc < now
  | .restart => w.since.isSome
  | .set t => 0 ≤ t ∧ (w.since.isSome → t < now)

/-- A history of such uses, from clock reading `lo` on. -/
def Watch.Allowed (w : Watch) (lo : Int) : List (Int × Timer.Op) → Prop
  | [] => True
  | (now, o) :: h => lo ≤ now ∧ w.Ok now o ∧ (w.step now o).1.Allowed now h

/-- An alternation of pause and resume, with restarts while running, from clock reading `lo` on. -/
def Watch.Alternating (w : Watch) (lo : Int) : List (Int × Timer.Op) → Prop
  | [] => True
  | (now, o) :: h => lo ≤ now ∧ (match o with
      | .pause => w.since.isSome = true
      | .resume => w.since = none
      | .restart => w.since.isSome = true
      | .set _ => False) ∧ (w.step now o).1.Alternating now h

end Spec
open Spec Timer

/-- How `epoch_` represents a timer. -/
def TimerRel (epoch : Int) (w : Watch) (lo : Int) : Prop :=
  0 ≤ w.acc ∧ match w.since with
    | some s => epoch = s - w.acc ∧ 0 < epoch ∧ s ≤ lo
    | none => epoch = -w.acc

theorem timer_shown {epoch : Int} {w : Watch} {lo : Int} (h : TimerRel epoch w lo) (now : Int) :
    elapsed epoch now = w.shown now := by
  obtain ⟨acc, since⟩ := w
  obtain ⟨h0, h⟩ := h
  cases since with
  | none =>
    simp only at h h0
    simp only [elapsed, Watch.shown, Option.map_none, Option.getD_none]
    rw [if_neg (by omega)]; omega
  | some s =>
    simp only at h
    simp only [elapsed, Watch.shown, Option.map_some, Option.getD_some]
    rw [if_pos h.2.1]; omega

theorem timer_step {epoch : Int} {w : Watch} {lo : Int} (hlo : 0 < lo) (h : TimerRel epoch w lo) (now : Int)
    (hn : lo ≤ now) (o : Op) (ok : w.Ok now o) :
    TimerRel (step epoch now o).1 (w.step now o).1 now ∧ (step epoch now o).2 = (w.step now o).2 := by
  obtain ⟨acc, since⟩ := w
  obtain ⟨h0, h⟩ := h
  cases since with
  | none =>
    simp only at h h0
    cases o with
    | pause => simp [Watch.Ok] at ok
    | restart => simp [Watch.Ok] at ok
    | resume =>
      simp only [Watch.Ok, true_and] at ok
      simp only [step, resume, Watch.step, TimerRel, Watch.shown, Option.map_none, Option.getD_none]
      refine ⟨⟨by omega, by omega, by omega, by omega⟩, trivial⟩
    | set t =>
      simp only [Watch.Ok] at ok
      simp only [step, Timer.set, isRunning, Watch.step, TimerRel, Option.map_none]
      have : ¬ epoch > 0 := by omega
      simp only [this, decide_false, Bool.false_eq_true, if_false]
      exact ⟨⟨ok.1, trivial⟩, trivial⟩
  | some s =>
    simp only at h
    obtain ⟨h1, h2, h3⟩ := h
    cases o with
    | pause =>
      simp only [step, pause, Watch.step, TimerRel, Watch.shown, Option.map_some, Option.getD_some]
      simp only at h0
      refine ⟨⟨by omega, by omega⟩, ?_⟩
      congr 1; omega
    | resume => simp [Watch.Ok] at ok
    | restart =>
      simp only [step, restart, Watch.step, TimerRel, Watch.shown, Option.map_some, Option.getD_some]
      refine ⟨⟨by omega, by omega, by omega, by omega⟩, ?_⟩
      congr 1; omega
    | set t =>
      simp only [Watch.Ok, Option.isSome_some, true_implies] at ok
      simp only [step, Timer.set, isRunning, Watch.step, TimerRel, Option.map_some]
      have : epoch > 0 := h2
      simp only [this, decide_true, if_true]
      exact ⟨⟨ok.1, trivial, by omega, by omega⟩, trivial⟩

theorem timer_run {epoch : Int} {w : Watch} {lo : Int} (hlo : 0 < lo) (h : TimerRel epoch w lo)
    (hist : List (Int × Op)) (ha : w.Allowed lo hist) :
    (∃ lo', TimerRel (run epoch hist).1 (w.run hist).1 lo') ∧ (run epoch hist).2 = (w.run hist).2 := by
  induction hist generalizing epoch w lo with
  | nil => exact ⟨⟨lo, h⟩, rfl⟩
  | cons x hist ih =>
    obtain ⟨now, o⟩ := x
    obtain ⟨h1, h2, h3⟩ := ha
    obtain ⟨hr, ho⟩ := timer_step hlo h now h1 o h2
    obtain ⟨i1, i2⟩ := ih (by omega) hr h3
    exact ⟨i1, by simp only [run, Watch.run, ho, i2]⟩

/-- **C40 (partial).** For every allowed history from a positive clock reading on, a timer shows the accumulated
running time at every moment, and `pause` and `restart` return the time shown. Missing: `restart` and `set` outside
the allowed uses, where it fails. -/
theorem C40_timer_partial (start : Bool) (t0 : Int) (h0 : 0 < t0) (hist : List (Int × Op))
    (ha : Watch.Allowed ⟨0, if start then some t0 else none⟩ t0 hist) :
    (∀ now, elapsed (run (new start t0) hist).1 now = ((Watch.mk 0 (if start then some t0 else none)).run hist).1.shown now) ∧
    (run (new start t0) hist).2 = ((Watch.mk 0 (if start then some t0 else none)).run hist).2 := by
  have hr : TimerRel (new start t0) ⟨0, if start then some t0 else none⟩ t0 := by
    cases start <;> simp [TimerRel, new, h0]
  obtain ⟨⟨lo, h1⟩, h2⟩ := timer_run h0 hr hist ha
  exact ⟨fun now => timer_shown h1 now, h2⟩

/-- Alternations are allowed: the time shown stays below the time since the start. -/
theorem alternating_allowed (t0 : Int) (h0 : 0 < t0) (w : Watch) (lo : Int) (hlo : t0 ≤ lo) (hist : List (Int × Op))
    (hw : w.acc + (w.since.map (lo - ·)).getD 0 ≤ lo - t0) (h : w.Alternating lo hist) : w.Allowed lo hist := by
  induction hist generalizing w lo with
  | nil => trivial
  | cons x hist ih =>
    obtain ⟨now, o⟩ := x
    obtain ⟨acc, since⟩ := w
    obtain ⟨h1, h2, h3⟩ := h
    refine ⟨h1, ?_, ih _ now (by omega) ?_ h3⟩
    · cases o with
      | pause => exact h2
      | resume =>
        simp only at h2
        subst h2
        simp only [Option.map_none, Option.getD_none] at hw
        exact ⟨rfl, by simp only; omega⟩
      | restart => exact h2
      | set t => exact h2.elim
    · cases since with
      | none =>
        simp only [Option.map_none, Option.getD_none] at hw
        cases o with
        | pause => simp at h2
        | resume => simp only [Watch.step, Watch.shown, Option.map_some, Option.map_none, Option.getD_some,
            Option.getD_none]; omega
        | restart => simp at h2
        | set t => exact h2.elim
      | some s =>
        simp only [Option.map_some, Option.getD_some] at hw
        cases o with
        | pause => simp only [Watch.step, Watch.shown, Option.map_some, Option.map_none, Option.getD_some,
            Option.getD_none]; omega
        | resume => simp at h2
        | restart => simp only [Watch.step, Option.map_some, Option.getD_some]; omega
        | set t => exact h2.elim

/-- **C40, alternation.** For any alternation of pause and resume, with restarts while running, the timer shows the
total of the running intervals, without any further condition than a positive clock. -/
theorem C40_alternation (start : Bool) (t0 : Int) (h0 : 0 < t0) (hist : List (Int × Op))
    (ha : Watch.Alternating ⟨0, if start then some t0 else none⟩ t0 hist) :
    (∀ now, elapsed (run (new start t0) hist).1 now = ((Watch.mk 0 (if start then some t0 else none)).run hist).1.shown now) ∧
    (run (new start t0) hist).2 = ((Watch.mk 0 (if start then some t0 else none)).run hist).2 :=
  C40_timer_partial start t0 h0 hist (alternating_allowed t0 h0 _ t0 (Int.le_refl _) hist (by cases start <;> simp) ha)

/-- **C40 is violated for `restart` while paused.** It returns the clock reading plus the time shown. -/
theorem C40_restart_paused_violated (a now : Int) (ha : 0 ≤ a) (hn : 0 < now) :
    elapsed (-a) now = a ∧ (restart (-a) now).2 = now + a ∧ (restart (-a) now).2 ≠ a := by
  simp only [elapsed, restart]
  rw [if_neg (by omega)]
  omega

/-- **C40 is violated for `set` while running to a time not less than the clock reading**: the timer stops, showing
the difference. -/
theorem C40_set_running_violated (epoch now t : Int) (he : 0 < epoch) (ht : now ≤ t) :
    isRunning (Timer.set epoch now t) = false ∧ ∀ now', elapsed (Timer.set epoch now t) now' = t - now := by
  have h1 : Timer.set epoch now t = now - t := by simp [Timer.set, isRunning, he]
  have h2 : ¬ now - t > 0 := by omega
  rw [h1]
  refine ⟨by simp only [isRunning, h2, decide_false], fun now' => ?_⟩
  unfold elapsed
  rw [if_neg h2]; omega

/-- **C40 is violated for `set` to a negative time while paused**: the timer starts, showing the clock reading plus
the time set. -/
theorem C40_set_paused_violated (epoch now t : Int) (he : epoch ≤ 0) (ht : t < 0) :
    isRunning (Timer.set epoch now t) = true ∧ ∀ now', elapsed (Timer.set epoch now t) now' = now' + t := by
  have h1 : ¬ epoch > 0 := by omega
  have h2 : -t > 0 := by omega
  simp [Timer.set, isRunning, h1, elapsed, ht]

/-- Beyond C40: `pause` while paused adds the clock reading, and `resume` while running makes the time negative. -/
theorem C40_pause_twice (a now : Int) (ha : 0 ≤ a) (hn : 0 < now) (now' : Int) :
    elapsed (pause (-a) now).1 now' = now + a := by
  unfold elapsed
  rw [if_neg (by simp only [pause]; omega)]
  simp only [pause]; omega

theorem C40_resume_twice (epoch now : Int) (he : 0 < epoch) (hn : 0 < now) :
    elapsed (resume epoch now) now = -epoch := by
  unfold elapsed
  rw [if_pos (by simp only [resume]; omega)]
  simp only [resume]; omega

/-- Non-vacuity: a history with all operations. -/
example : Watch.Allowed ⟨0, some 100⟩ 100
    [(110, .pause), (120, .resume), (125, .pause), (126, .set 50), (130, .resume), (140, .restart), (141, .set 7)] := by
  simp [Watch.Allowed, Watch.Ok, Watch.step, Watch.shown]
example : Watch.Alternating ⟨0, some 100⟩ 100 [(110, .pause), (120, .resume), (125, .pause)] := by
  simp [Watch.Alternating, Watch.step, Watch.shown]
example : run 100 [(110, .pause), (120, .resume), (125, .pause)] = (-15, [some 10, none, some 15]) := by decide

end Xo
