import Verif.Model.TestCase
import Mathlib.Data.List.Basic
import Mathlib.Data.List.Perm.Basic

/-!
C61: test cases.
-/
namespace Xo
open Test

namespace Spec

/-- The part of a run before an exception leaves the test function. -/
def performed : List Action → List Action
  | [] => []
  | .throws _ :: _ => []
  | .throwsOther :: _ => []
  | a :: as => a :: performed as

/-- The exception that leaves the test function. -/
def escapes : List Action → Option String
  | [] => none
  | .throws w :: _ => some w
  | _ :: as => escapes as

/-- A run fails if some check fails (or throws), or an exception leaves the function. -/
def Fails (as : List Action) : Prop :=
  Action.check false ∈ performed as ∨ Action.checkThrows ∈ performed as ∨ (escapes as).isSome

/-- No exception that is not a `std::exception`. -/
def Standard (as : List Action) : Prop := Action.throwsOther ∉ as

instance (as : List Action) : Decidable (Fails as) := inferInstanceAs (Decidable (_ ∨ _ ∨ _))

end Spec
open Spec

/-- **C61, counters.** In every run, from consistent counters, `checks = passed + failed`. -/
theorem C61_counters (r r' : Result) (as : List Action) (h0 : r.checks = r.passed + r.failed)
    (h : tryRun r as = some r') : r'.checks = r'.passed + r'.failed := by
  induction as generalizing r with
  | nil => cases h; exact h0
  | cons a as ih =>
    cases a with
    | check b =>
      refine ih (r.check b) ?_ h
      cases b <;> simp [Result.check] <;> omega
    | checkThrows =>
      refine ih (r.check false) ?_ h
      simp [Result.check]; omega
    | throws w => cases h; exact h0
    | throwsOther => cases h

/-- What a run adds to the counters. -/
theorem C61_counts (r r' : Result) (as : List Action) (h : tryRun r as = some r') :
    r'.checks = r.checks + (performed as).length ∧
    r'.passed = r.passed + (performed as).count (.check true) ∧
    r'.failed = r.failed + (performed as).count (.check false) + (performed as).count .checkThrows ∧
    r'.error = (escapes as).getD r.error := by
  induction as generalizing r with
  | nil => cases h; simp [performed, escapes]
  | cons a as ih =>
    cases a with
    | check b =>
      obtain ⟨h1, h2, h3, h4⟩ := ih (r.check b) h
      cases b <;> simp [Result.check, performed, escapes] at * <;> refine ⟨by omega, by omega, by omega, h4⟩
    | checkThrows =>
      obtain ⟨h1, h2, h3, h4⟩ := ih (r.check false) h
      simp [Result.check, performed, escapes] at *
      refine ⟨by omega, by omega, by omega, h4⟩
    | throws w => cases h; simp [performed, escapes]
    | throwsOther => cases h

theorem tryRun_some (r : Result) (as : List Action) (h : Standard as) : ∃ r', tryRun r as = some r' := by
  induction as generalizing r with
  | nil => exact ⟨r, rfl⟩
  | cons a as ih =>
    have h' : Standard as := fun hm => h (List.mem_cons_of_mem _ hm)
    cases a with
    | check b => exact ih _ h'
    | checkThrows => exact ih _ h'
    | throws w => exact ⟨_, rfl⟩
    | throwsOther => exact absurd List.mem_cons_self h

/-- A fresh test case is successful exactly if its run does not fail, unless it fails by an exception without
message. -/
theorem success_iff (as : List Action) (r' : Result) (h : tryRun {} as = some r') (he : escapes as ≠ some "") :
    r'.success = false ↔ Fails as := by
  obtain ⟨_, _, h3, h4⟩ := C61_counts {} r' as h
  unfold Result.success Fails
  rw [← List.count_pos_iff, ← List.count_pos_iff]
  rw [Bool.and_eq_false_iff, h4]
  simp only [Nat.zero_add] at h3
  constructor
  · rintro (hf | hf)
    · have : r'.failed ≠ 0 := by simpa using hf
      omega
    · cases hx : escapes as with
      | none => rw [hx] at hf; simp at hf
      | some w => right; right; rfl
  · rintro (hf | hf | hf)
    · left; simp; omega
    · left; simp; omega
    · right
      cases hx : escapes as with
      | none => rw [hx] at hf; cases hf
      | some w =>
        rw [hx] at he
        simpa using fun e => he (by rw [e])

theorem go_spec (ts : List (List Action)) (hs : ∀ as ∈ ts, Standard as) (he : ∀ as ∈ ts, escapes as ≠ some "")
    (done : List Result) (total : Result) (failed : Nat) :
    ∃ d t, runTests.go (ts.map fun as => ({}, as)) done total failed =
      some (d, t, failed + ts.countP fun as => decide (Fails as)) := by
  induction ts generalizing done total failed with
  | nil => exact ⟨_, _, rfl⟩
  | cons as ts ih =>
    obtain ⟨r', hr⟩ := tryRun_some {} as (hs as (by simp))
    have hsucc := success_iff as r' hr (he as (by simp))
    simp only [List.map_cons, runTests.go, hr]
    obtain ⟨d, t, h⟩ := ih (fun a ha => hs a (List.mem_cons_of_mem _ ha)) (fun a ha => he a (List.mem_cons_of_mem _ ha))
      (done ++ [r']) (total.add r') (failed + if !r'.success then 1 else 0)
    refine ⟨d, t, h.trans ?_⟩
    rw [List.countP_cons]
    by_cases hf : Fails as
    · rw [hsucc.2 hf]; simp [hf]; omega
    · have : r'.success = true := by
        cases hx : r'.success
        · exact absurd (hsucc.1 hx) hf
        · rfl
      rw [this]; simp [hf]

/-- **C61, number of failed tests (partial).** On the first run, `run_tests` returns the number of test cases with a
failed check or an exception, if no exception has an empty message and all are `std::exception`s. Missing: exceptions
with an empty message, later runs, where it fails. -/
theorem C61_failed_partial (ts : List (List Action)) (hs : ∀ as ∈ ts, Standard as)
    (he : ∀ as ∈ ts, escapes as ≠ some "") :
    ∃ d t, runTests (ts.map fun as => ({}, as)) = some (d, t, ts.countP fun as => decide (Fails as)) := by
  obtain ⟨d, t, h⟩ := go_spec ts hs he [] {} 0
  exact ⟨d, t, by rw [Nat.zero_add] at h; exact h⟩

/-- **C61, order.** The order of the tests does not matter. -/
theorem C61_order (ts ts' : List (List Action)) (hp : ts.Perm ts') (hs : ∀ as ∈ ts, Standard as)
    (he : ∀ as ∈ ts, escapes as ≠ some "") :
    ∃ n d t d' t', runTests (ts.map fun as => ({}, as)) = some (d, t, n) ∧
      runTests (ts'.map fun as => ({}, as)) = some (d', t', n) := by
  obtain ⟨d, t, h⟩ := C61_failed_partial ts hs he
  obtain ⟨d', t', h'⟩ := C61_failed_partial ts' (fun a ha => hs a (hp.mem_iff.2 ha)) (fun a ha => he a (hp.mem_iff.2 ha))
  refine ⟨_, d, t, d', t', h, ?_⟩
  rw [h', hp.countP_eq]

/-- **C61 is violated for exceptions without message.** A test case whose performed checks all pass and that is then
left by an exception with an empty message counts as a success. -/
theorem C61_empty_message_violated (as : List Action) (r' : Result) (h : tryRun {} as = some r')
    (hc : ∀ a ∈ performed as, a = .check true) (he : escapes as = some "") : r'.success = true ∧ Fails as := by
  obtain ⟨_, _, h3, h4⟩ := C61_counts {} r' as h
  rw [he] at h4
  have z1 : (performed as).count (.check false) = 0 := List.count_eq_zero.2 fun hm => by simpa using hc _ hm
  have z2 : (performed as).count .checkThrows = 0 := List.count_eq_zero.2 fun hm => by simpa using hc _ hm
  refine ⟨?_, Or.inr (Or.inr (by rw [he]; rfl))⟩
  unfold Result.success
  simp only [Option.getD_some] at h4
  rw [h4]
  simp at h3 ⊢
  omega

/-- **C61 is violated on later runs.** A test case that failed once counts as failed in every later run, also if all
its checks now pass. -/
theorem C61_later_run_violated (r r' : Result) (as : List Action) (h : tryRun r as = some r') (hf : r.failed ≠ 0) :
    r'.success = false := by
  obtain ⟨_, _, h3, _⟩ := C61_counts r r' as h
  unfold Result.success
  rw [Bool.and_eq_false_iff]
  left; simp; omega

/-- Beyond C61: something else than a `std::exception` ends `run_tests`. -/
theorem C61_other_exception (r : Result) (ts : List (Result × List Action)) :
    runTests ((r, [.throwsOther]) :: ts) = none := rfl

/-- Non-vacuity. -/
example : (runTests [({}, [.check true, .check true]), ({}, [.check true, .checkThrows]), ({}, [.throws "x", .check true]),
    ({}, [])]).map (fun x => x.2.2) = some 2 := by decide
example : (runTests [({}, [.check true, .throws ""])]).map (fun x => x.2.2) = some 0 := by decide

/-- **C61, totals.** The total that `run_tests` reports is the sum over the test cases, and it contains every message. -/
theorem C61_total (ts : List (Result × List Action)) (d : List Result) (t : Result) (n : Nat) (h : runTests ts = some (d, t, n)) :
    d.length = ts.length ∧ (∀ (i : Nat) r as, ts[i]? = some (r, as) → d[i]? = tryRun r as) ∧
    t.checks = (d.map (·.checks)).sum ∧ t.passed = (d.map (·.passed)).sum ∧ t.failed = (d.map (·.failed)).sum := by
  have key : ∀ (ts : List (Result × List Action)) (done : List Result) (total : Result) (failed : Nat) (d : List Result) (t : Result) (n : Nat),
      runTests.go ts done total failed = some (d, t, n) →
      ∃ new, d = done ++ new ∧ new.length = ts.length ∧ (∀ (i : Nat) r as, ts[i]? = some (r, as) → new[i]? = tryRun r as) ∧
        t.checks = total.checks + (new.map (·.checks)).sum ∧ t.passed = total.passed + (new.map (·.passed)).sum ∧
        t.failed = total.failed + (new.map (·.failed)).sum := by
    intro ts
    induction ts with
    | nil =>
      intro done total failed d t n h
      cases h
      exact ⟨[], by simp, rfl, by simp, rfl, rfl, rfl⟩
    | cons a ts ih =>
      intro done total failed d t n h
      obtain ⟨r, as⟩ := a
      rw [runTests.go] at h
      cases hr : tryRun r as with
      | none => rw [hr] at h; cases h
      | some r' =>
        rw [hr] at h
        obtain ⟨new, h1, h2, h3, h4, h5, h6⟩ := ih _ _ _ _ _ _ h
        refine ⟨r' :: new, by rw [h1]; simp, by simp [h2], ?_, ?_, ?_, ?_⟩
        · intro i q bs hq
          cases i with
          | zero => simp at hq; obtain ⟨rfl, rfl⟩ := hq; simp [hr]
          | succ i => simpa using h3 i q bs (by simpa using hq)
        · rw [h4]; simp [Result.add, Nat.add_assoc]
        · rw [h5]; simp [Result.add, Nat.add_assoc]
        · rw [h6]; simp [Result.add, Nat.add_assoc]
  obtain ⟨new, h1, h2, h3, h4, h5, h6⟩ := key ts [] {} 0 d t n h
  rw [List.nil_append] at h1
  subst h1
  exact ⟨h2, h3, by simpa using h4, by simpa using h5, by simpa using h6⟩

/-- **C61, messages.** Two messages are joined by a semicolon. -/
theorem C61_messages (a b : Result) : (a.add b).error = (if a.error = "" then b.error else a.error ++ "; " ++ b.error) := by
  unfold Result.add
  by_cases h : a.error = ""
  · simp [h]
  · simp [h, String.append_assoc]

end Xo
