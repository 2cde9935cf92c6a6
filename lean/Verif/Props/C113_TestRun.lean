import Verif.Model.TestRun
import Verif.Props.C61_TestCase

/-!
C113: running tests in parallel, and what the log says about them.
-/
namespace Xo.TRun
open Test (Result Action)

namespace Spec

/-- A schedule after which no thread can go on. -/
def Whole (debug : Bool) (cs : List Case) (sched : List Nat) (s : State) : Prop :=
  steps debug (launch cs) sched = some s ∧ ∀ i, step debug s i = none

/-- The lines of one thread. -/
def linesOf (i : Nat) (log : List (Nat × Line)) : List Line := (log.filter (·.1 = i)).map Prod.snd

/-- The thread is about to write a line. -/
def Writes : Phase → Prop
  | .startWrite | .failWrite _ | .endWrite _ => True
  | _ => False

instance (p : Phase) : Decidable (Writes p) := by cases p <;> simp only [Writes] <;> infer_instance

/-- The checks that a run makes, with their outcomes. -/
def outcomes : List Act → List Bool
  | [] => []
  | .check b _ :: as => b :: outcomes as
  | .checkThrows _ :: as => false :: outcomes as
  | _ :: _ => []

/-- The exception that leaves the test function: its message, or nothing if it is no `std::exception`. -/
def leaves : List Act → Option (Option String)
  | [] => none
  | .throws w :: _ => some (some w)
  | .throwsOther :: _ => some none
  | _ :: as => leaves as

/-- The messages of the checks that fail. -/
def complaints : List Act → List String
  | [] => []
  | .check true _ :: as => complaints as
  | .check false m :: as => m :: complaints as
  | .checkThrows w :: as => w :: complaints as
  | _ :: _ => []

/-- The last line about a test case that ran for the first time: the exception; or how many checks passed; or that there were none; or how many failed,
unless there was only one. -/
def lastLines (name : String) (os : List Bool) : Option (Option String) → List Line
  | some none => []
  | some (some w) => [⟨.critical, name ++ ": EXCEPTION: " ++ w⟩]
  | none =>
    if os = [] then [⟨.warning, name ++ ":  empty test case"⟩]
    else if false ∉ os then [⟨.info, "PASSED: " ++ name ++ " (" ++ toString os.length ++ (if os.length = 1 then " check)" else " checks)")⟩]
    else if os.length = 1 then []
    else [⟨.error, "FAILED: " ++ name ++ " (" ++ toString (os.count false) ++ " of " ++ toString os.length ++ " checks)"⟩]

/-- Everything that is logged about a test case that runs for the first time. -/
def report (debug : Bool) (name : String) (as : List Act) : List Line :=
  (if debug then [⟨.debug, "STARTING: " ++ name⟩] else []) ++ (complaints as).map (fun m => ⟨.error, "FAILED: " ++ name ++ " (" ++ m ++ ")"⟩) ++
    lastLines name (outcomes as) (leaves as)

end Spec
open _root_.Xo.TRun.Spec

/-- What is still to come from a thread. -/
def rest (debug : Bool) (t : Thread) : List Line × Option Result :=
  match t.ph with
  | .start | .startWrite =>
    let q := ending t.name (runBody t.name t.res t.todo)
    ((if debug then [starting t.name] else []) ++ q.1, q.2)
  | .body => ending t.name (runBody t.name t.res t.todo)
  | .failWait m =>
    let q := ending t.name (runBody t.name (t.res.check false) t.todo)
    (failedCheck t.name m :: q.1, q.2)
  | .failWrite m =>
    let q := ending t.name (runBody t.name t.res t.todo)
    (failedCheck t.name m :: q.1, q.2)
  | .endWait ok | .endWrite ok => (endLines t ok, some t.res)
  | .done => ([], some t.res)
  | .thrown => ([], none)

theorem ending_cons (name : String) (l : Line) (q : List Line × Option (Result × Bool)) :
    ending name (l :: q.1, q.2) = (l :: (ending name q).1, (ending name q).2) := by
  obtain ⟨ls, o⟩ := q
  match o with
  | none => rfl
  | some (r, true) => rfl
  | some (r, false) => rfl

/-- A step writes the first of the lines that are to come. -/
theorem rest_step (debug : Bool) (i : Nat) (t : Thread) (m : Option Nat) (r : Thread × Option Nat × List Line)
    (h : stepThread debug i t m = some r) :
    (rest debug t).1 = r.2.2 ++ (rest debug r.1).1 ∧ (rest debug t).2 = (rest debug r.1).2 := by
  obtain ⟨name, todo, res, ph⟩ := t
  cases ph with
  | start => cases h; exact ⟨rfl, rfl⟩
  | startWrite => cases h; exact ⟨rfl, rfl⟩
  | body =>
    match todo with
    | [] => cases h; exact ⟨rfl, rfl⟩
    | .check true s :: as => cases h; exact ⟨rfl, rfl⟩
    | .check false s :: as => cases h; simp only [rest, runBody, act, ending_cons]; exact ⟨rfl, trivial⟩
    | .checkThrows w :: as => cases h; simp only [rest, runBody, act, ending_cons]; exact ⟨rfl, trivial⟩
    | .throws w :: as => cases h; exact ⟨rfl, rfl⟩
    | .throwsOther :: as => cases h; exact ⟨rfl, rfl⟩
  | failWait s =>
    simp only [stepThread] at h
    split at h
    · cases h; exact ⟨rfl, rfl⟩
    · cases h
  | failWrite s => cases h; exact ⟨rfl, rfl⟩
  | endWait ok =>
    simp only [stepThread] at h
    split at h
    · cases h; exact ⟨rfl, rfl⟩
    · cases h
  | endWrite ok => cases h; exact ⟨by simp [rest], rfl⟩
  | done => cases h
  | thrown => cases h

/-- The steps that a thread has before it, at most. -/
def weight (t : Thread) : Nat :=
  match t.ph with
  | .start => 3 * t.todo.length + 5
  | .startWrite => 3 * t.todo.length + 4
  | .body => 3 * t.todo.length + 3
  | .failWait _ => 3 * t.todo.length + 5
  | .failWrite _ => 3 * t.todo.length + 4
  | .endWait _ => 2
  | .endWrite _ => 1
  | .done => 0
  | .thrown => 0

theorem weight_step (debug : Bool) (i : Nat) (t : Thread) (m : Option Nat) (r : Thread × Option Nat × List Line)
    (h : stepThread debug i t m = some r) : weight r.1 < weight t := by
  obtain ⟨name, todo, res, ph⟩ := t
  cases ph with
  | start => cases h; simp [weight]
  | startWrite => cases h; simp [weight]
  | body =>
    match todo with
    | [] => cases h; simp [weight]
    | .check true s :: as => cases h; simp [weight, act]
    | .check false s :: as => cases h; simp [weight, act] <;> omega
    | .checkThrows w :: as => cases h; simp [weight, act] <;> omega
    | .throws w :: as => cases h; simp [weight, act] <;> omega
    | .throwsOther :: as => cases h; simp [weight, act]
  | failWait s =>
    simp only [stepThread] at h
    split at h
    · cases h; simp [weight]
    · cases h
  | failWrite s => cases h; simp [weight]
  | endWait ok =>
    simp only [stepThread] at h
    split at h
    · cases h; simp [weight]
    · cases h
  | endWrite ok => cases h; simp [weight]
  | done => cases h
  | thrown => cases h

/-- Has the mutex. -/
def Has : Phase → Prop
  | .failWrite _ | .endWrite _ => True
  | _ => False

/-- The mutex belongs to who says so. -/
def Inv (s : State) : Prop :=
  (∀ i t, s.threads[i]? = some t → (Has t.ph ↔ s.mutex = some i)) ∧ ∀ i, s.mutex = some i → i < s.threads.length

theorem mutex_step (debug : Bool) (i : Nat) (t : Thread) (m : Option Nat) (r : Thread × Option Nat × List Line) (h : stepThread debug i t m = some r)
    (hm : Has t.ph ↔ m = some i) : (Has r.1.ph ↔ r.2.1 = some i) ∧ ∀ j, j ≠ i → (r.2.1 = some j ↔ m = some j) := by
  obtain ⟨name, todo, res, ph⟩ := t
  have key : ∀ p : Phase, ¬ Has ph → ¬ Has p → (Has p ↔ m = some i) ∧ ∀ j, j ≠ i → (m = some j ↔ m = some j) :=
    fun p h1 h2 => ⟨⟨fun h => absurd h h2, fun h => absurd (hm.2 h) h1⟩, fun _ _ => Iff.rfl⟩
  cases ph with
  | start => cases h; exact key _ id id
  | startWrite => cases h; exact key _ id id
  | body =>
    match todo with
    | [] => cases h; exact key _ id id
    | .check true s :: as => cases h; exact key .body id id
    | .check false s :: as => cases h; exact key (.failWait s) id id
    | .checkThrows w :: as => cases h; exact key (.failWait w) id id
    | .throws w :: as => cases h; exact key (.endWait false) id id
    | .throwsOther :: as => cases h; exact key .thrown id id
  | failWait s =>
    simp only [stepThread] at h
    split at h
    · rename_i h0
      cases h
      subst h0
      exact ⟨⟨fun _ => rfl, fun _ => trivial⟩, fun j hj => by simp; exact fun e => hj e.symm⟩
    · cases h
  | failWrite s =>
    cases h
    have : m = some i := hm.1 trivial
    subst this
    exact ⟨⟨fun h => h.elim, fun h => by cases h⟩, fun j hj => by simp; exact fun e => hj e.symm⟩
  | endWait ok =>
    simp only [stepThread] at h
    split at h
    · rename_i h0
      cases h
      subst h0
      exact ⟨⟨fun _ => rfl, fun _ => trivial⟩, fun j hj => by simp; exact fun e => hj e.symm⟩
    · cases h
  | endWrite ok =>
    cases h
    have : m = some i := hm.1 trivial
    subst this
    exact ⟨⟨fun h => h.elim, fun h => by cases h⟩, fun j hj => by simp; exact fun e => hj e.symm⟩
  | done => cases h
  | thrown => cases h

theorem step_some (debug : Bool) (s s' : State) (i : Nat) (h : step debug s i = some s') :
    ∃ t r, s.threads[i]? = some t ∧ stepThread debug i t s.mutex = some r ∧
      s' = ⟨s.threads.set i r.1, r.2.1, s.log ++ r.2.2.map fun l => (i, l)⟩ := by
  unfold step at h
  split at h
  · cases h
  · rename_i t ht
    cases hr : stepThread debug i t s.mutex with
    | none => rw [hr] at h; cases h
    | some r => rw [hr] at h; cases h; exact ⟨t, r, ht, hr, rfl⟩

theorem inv_step (debug : Bool) (s s' : State) (i : Nat) (h : step debug s i = some s') (hi : Inv s) : Inv s' := by
  obtain ⟨t, r, ht, hr, rfl⟩ := step_some debug s s' i h
  have hm := mutex_step debug i t s.mutex r hr (hi.1 i t ht)
  have hlen : i < s.threads.length := by
    rcases Nat.lt_or_ge i s.threads.length with h | h
    · exact h
    · rw [List.getElem?_eq_none h] at ht; cases ht
  refine ⟨fun j u hu => ?_, fun j hj => ?_⟩
  · simp only [List.getElem?_set] at hu
    split at hu
    · rename_i e
      subst e
      first | rw [if_pos hlen] at hu | skip
      cases hu
      exact hm.1
    · rename_i e
      exact (hi.1 j u hu).trans (hm.2 j (fun x => e x.symm)).symm
  · rcases Decidable.em (j = i) with e | e
    · subst e; simpa using hlen
    · simpa using hi.2 j ((hm.2 j e).1 hj)

theorem inv_steps (debug : Bool) (is : List Nat) : ∀ s s' : State, steps debug s is = some s' → Inv s → Inv s' := by
  induction is with
  | nil => intro s s' h hi; cases h; exact hi
  | cons i is ih =>
    intro s s' h hi
    simp only [steps, Option.bind_eq_some_iff] at h
    obtain ⟨s1, h1, h2⟩ := h
    exact ih s1 s' h2 (inv_step debug s s1 i h1 hi)

theorem inv_launch (cs : List Case) : Inv (launch cs) := by
  refine ⟨fun i t ht => ?_, fun i h => by cases h⟩
  simp only [launch, List.getElem?_map, Option.map_eq_some_iff] at ht
  obtain ⟨c, _, rfl⟩ := ht
  exact ⟨fun h => h.elim, fun h => by cases h⟩

/-- Is at its end. -/
def Ended : Phase → Prop
  | .done | .thrown => True
  | _ => False

theorem stuck (debug : Bool) (s : State) (hi : Inv s) (h : ∀ i, step debug s i = none) (j : Nat) (t : Thread) (ht : s.threads[j]? = some t) :
    Ended t.ph := by
  have hstep : ∀ i u, s.threads[i]? = some u → stepThread debug i u s.mutex = none := by
    intro i u hu
    have := h i
    simp only [step, hu, Option.map_eq_none_iff] at this
    exact this
  have hnone : s.mutex = none := by
    cases hm : s.mutex with
    | none => rfl
    | some i =>
      obtain ⟨u, hu⟩ : ∃ u, s.threads[i]? = some u := ⟨_, List.getElem?_eq_getElem (hi.2 i hm)⟩
      have h1 := (hi.1 i u hu).2 hm
      have h2 := hstep i u hu
      obtain ⟨name, todo, res, ph⟩ := u
      cases ph <;> first | exact h1.elim | cases h2
  have h2 := hstep j t ht
  rw [hnone] at h2
  obtain ⟨name, todo, res, ph⟩ := t
  cases ph with
  | body => cases todo <;> cases h2
  | done => trivial
  | thrown => trivial
  | _ => simp [stepThread] at h2

theorem linesOf_append (i : Nat) (a b : List (Nat × Line)) : linesOf i (a ++ b) = linesOf i a ++ linesOf i b := by simp [linesOf]

theorem linesOf_own (i : Nat) (ls : List Line) : linesOf i (ls.map fun l => (i, l)) = ls := by
  induction ls with
  | nil => rfl
  | cons l ls ih => simp [linesOf] at ih ⊢; exact ih

theorem linesOf_other (i j : Nat) (h : j ≠ i) (ls : List Line) : linesOf j (ls.map fun l => (i, l)) = [] := by
  have h' : ¬ i = j := fun e => h e.symm
  simp [linesOf, h']

/-- What the threads have written together with what is to come stays the same. -/
theorem total_step (debug : Bool) (s s' : State) (i : Nat) (h : step debug s i = some s') (j : Nat) (t : Thread) (ht : s.threads[j]? = some t) :
    ∃ t', s'.threads[j]? = some t' ∧ linesOf j s'.log ++ (rest debug t').1 = linesOf j s.log ++ (rest debug t).1 ∧
      (rest debug t').2 = (rest debug t).2 := by
  obtain ⟨u, r, hu, hr, rfl⟩ := step_some debug s s' i h
  have hlen : i < s.threads.length := by
    rcases Nat.lt_or_ge i s.threads.length with h | h
    · exact h
    · rw [List.getElem?_eq_none h] at hu; cases hu
  rcases Decidable.em (i = j) with e | e
  · subst e
    rw [hu] at ht
    cases ht
    have := rest_step debug i _ s.mutex r hr
    refine ⟨r.1, by simp [hlen], ?_, this.2.symm⟩
    rw [linesOf_append, linesOf_own, this.1]
    simp
  · refine ⟨t, by simp [List.getElem?_set, e, ht], ?_, rfl⟩
    rw [linesOf_append, linesOf_other i j (fun x => e x.symm)]
    simp

theorem total_steps (debug : Bool) (is : List Nat) : ∀ s s' : State, steps debug s is = some s' → ∀ j t, s.threads[j]? = some t →
    ∃ t', s'.threads[j]? = some t' ∧ linesOf j s'.log ++ (rest debug t').1 = linesOf j s.log ++ (rest debug t).1 ∧
      (rest debug t').2 = (rest debug t).2 := by
  induction is with
  | nil => intro s s' h j t ht; cases h; exact ⟨t, ht, rfl, rfl⟩
  | cons i is ih =>
    intro s s' h j t ht
    simp only [steps, Option.bind_eq_some_iff] at h
    obtain ⟨s1, h1, h2⟩ := h
    obtain ⟨t1, ht1, ha, hb⟩ := total_step debug s s1 i h1 j t ht
    obtain ⟨t2, ht2, hc, hd⟩ := ih s1 s' h2 j t1 ht1
    exact ⟨t2, ht2, hc.trans ha, hd.trans hb⟩

theorem length_step (debug : Bool) (s s' : State) (i : Nat) (h : step debug s i = some s') : s'.threads.length = s.threads.length := by
  obtain ⟨u, r, hu, hr, rfl⟩ := step_some debug s s' i h
  simp

theorem length_steps (debug : Bool) (is : List Nat) : ∀ s s' : State, steps debug s is = some s' → s'.threads.length = s.threads.length := by
  induction is with
  | nil => intro s s' h; cases h; rfl
  | cons i is ih =>
    intro s s' h
    simp only [steps, Option.bind_eq_some_iff] at h
    obtain ⟨s1, h1, h2⟩ := h
    exact (ih s1 s' h2).trans (length_step debug s s1 i h1)

/-- **C113, every schedule.** When the threads have come to an end (in whatever order they took turns), every test case has finished, with the results and
the lines, in their order, that it has when it runs by itself. -/
theorem C113_every_schedule (debug : Bool) (cs : List Case) (sched : List Nat) (s : State) (h : Whole debug cs sched s) (i : Nat) (c : Case)
    (hc : cs[i]? = some c) : ∃ t, s.threads[i]? = some t ∧ linesOf i s.log = (run debug c).1 ∧
      (∀ r, (run debug c).2 = some r → t.ph = .done ∧ t.res = r) ∧ ((run debug c).2 = none → t.ph = .thrown) := by
  have h0 : (launch cs).threads[i]? = some ⟨c.name, c.acts, c.res, .start⟩ := by simp [launch, hc]
  obtain ⟨t, ht, hl, hr⟩ := total_steps debug sched (launch cs) s h.1 i _ h0
  have he := stuck debug s (inv_steps debug sched _ _ h.1 (inv_launch cs)) h.2 i t ht
  have hr' : (rest debug t).2 = (run debug c).2 := hr
  have hl' : linesOf i s.log ++ (rest debug t).1 = (run debug c).1 := hl
  refine ⟨t, ht, ?_, fun r hrr => ?_, fun hrr => ?_⟩
  · obtain ⟨name, todo, res, ph⟩ := t
    cases ph <;> first | exact he.elim | simpa [rest] using hl'
  · rw [hrr] at hr'
    obtain ⟨name, todo, res, ph⟩ := t
    cases ph <;> first | exact he.elim | skip
    · cases hr'; exact ⟨rfl, rfl⟩
    · cases hr'
  · rw [hrr] at hr'
    obtain ⟨name, todo, res, ph⟩ := t
    cases ph <;> first | exact he.elim | skip
    · cases hr'
    · rfl

theorem weight_sum (debug : Bool) (s s' : State) (i : Nat) (h : step debug s i = some s') :
    (s'.threads.map weight).sum < (s.threads.map weight).sum := by
  obtain ⟨u, r, hu, hr, rfl⟩ := step_some debug s s' i h
  have hw := weight_step debug i u s.mutex r hr
  have key : ∀ (k : Nat) (l : List Thread), l[k]? = some u → ((l.set k r.1).map weight).sum < (l.map weight).sum := by
    intro k l
    induction l generalizing k with
    | nil => intro h; cases h
    | cons b l ih2 =>
      intro hb
      cases k with
      | zero => simp at hb; subst hb; simp; exact hw
      | succ k =>
        simp at hb
        have := ih2 k hb
        simp only [List.set_cons_succ, List.map_cons, List.sum_cons]
        omega
  exact key i s.threads hu

/-- **C113, it ends.** However the threads take turns, they come to an end after at most three steps for every action and five for every test case. -/
theorem C113_ends (debug : Bool) (cs : List Case) (sched : List Nat) (s : State) (h : steps debug (launch cs) sched = some s) :
    sched.length ≤ (cs.map fun c => 3 * c.acts.length + 5).sum := by
  have key : ∀ (is : List Nat) (s s' : State), steps debug s is = some s' → is.length + (s'.threads.map weight).sum ≤ (s.threads.map weight).sum := by
    intro is
    induction is with
    | nil => intro s s' h; cases h; simp
    | cons i is ih =>
      intro s s' h
      simp only [steps, Option.bind_eq_some_iff] at h
      obtain ⟨s1, h1, h2⟩ := h
      have a := ih s1 s' h2
      have b := weight_sum debug s s1 i h1
      simp only [List.length_cons]
      omega
  have := key sched _ _ h
  have e : ((launch cs).threads.map weight) = cs.map fun c => 3 * c.acts.length + 5 := by
    simp [launch, weight, Function.comp_def]
  rw [e] at this
  omega

/-- **C113, no deadlock.** Every schedule can be continued to one after which all test cases have finished. -/
theorem C113_no_deadlock (debug : Bool) (cs : List Case) (sched : List Nat) (s : State) (h : steps debug (launch cs) sched = some s) :
    ∃ more s', Whole debug cs (sched ++ more) s' := by
  have app : ∀ (a b : List Nat) (s s1 : State), steps debug s a = some s1 → steps debug s (a ++ b) = steps debug s1 b := by
    intro a
    induction a with
    | nil => intro b s s1 h; cases h; rfl
    | cons i a ih =>
      intro b s s1 h
      simp only [steps, Option.bind_eq_some_iff] at h
      obtain ⟨s2, h1, h2⟩ := h
      simp only [List.cons_append, steps, h1, Option.bind_some]
      exact ih b s2 s1 h2
  suffices key : ∀ (n : Nat) (s : State), (s.threads.map weight).sum ≤ n → ∃ more s', steps debug s more = some s' ∧ ∀ i, step debug s' i = none by
    obtain ⟨more, s', h1, h2⟩ := key _ s (Nat.le_refl _)
    exact ⟨more, s', (app sched more _ s h).trans h1, h2⟩
  intro n
  induction n with
  | zero =>
    intro s hs
    refine ⟨[], s, rfl, fun i => ?_⟩
    cases hi : step debug s i with
    | none => rfl
    | some s' => have := weight_sum debug s s' i hi; omega
  | succ n ih =>
    intro s hs
    rcases Classical.em (∀ i, step debug s i = none) with h | h
    · exact ⟨[], s, rfl, h⟩
    · obtain ⟨i, hi⟩ := Classical.not_forall.1 h
      cases hs1 : step debug s i with
      | none => exact absurd hs1 hi
      | some s1 =>
        have := weight_sum debug s s1 i hs1
        obtain ⟨more, s', h1, h2⟩ := ih s1 (by omega)
        exact ⟨i :: more, s', by simp only [steps, hs1, Option.bind_some]; exact h1, h2⟩

/-- The results are those of C61. -/
theorem C113_results (debug : Bool) (c : Case) : (run debug c).2 = Test.tryRun c.res (c.acts.map Act.plain) := by
  obtain ⟨name, res, acts⟩ := c
  simp only [run]
  induction acts generalizing res with
  | nil => rfl
  | cons a as ih =>
    match a with
    | .check true m => exact ih (res.check true)
    | .check false m => simp only [runBody, ending_cons]; exact ih (res.check false)
    | .checkThrows w => simp only [runBody, ending_cons]; exact ih (res.check false)
    | .throws w => rfl
    | .throwsOther => rfl

theorem collect_runAll (debug : Bool) (cs : List Case) : ∀ (ts : List Thread) (out : List Line) (total : Result) (n : Nat), ts.length = cs.length →
    (∀ (i : Nat) (c : Case), cs[i]? = some c → ∃ t : Thread, ts[i]? = some t ∧ (∀ r, (run debug c).2 = some r → t.ph = .done ∧ t.res = r) ∧
      ((run debug c).2 = none → t.ph = .thrown)) → (runAll debug cs out total n).2 = collect ts total n := by
  induction cs with
  | nil =>
    intro ts out total n hl _
    have : ts = [] := List.length_eq_zero_iff.1 hl
    subst this
    rfl
  | cons c cs ih =>
    intro ts out total n hl h
    match ts, hl with
    | t :: ts, hl =>
      have hl : ts.length = cs.length := by simpa using hl
      obtain ⟨t', ht, h1, h2⟩ := h 0 c rfl
      simp at ht
      subst ht
      have hn := fun i c' hc => h (i + 1) c' hc
      simp only [List.getElem?_cons_succ] at hn
      simp only [runAll, collect]
      cases hr : (run debug c).2 with
      | none => simp [h2 hr]
      | some r =>
        have := h1 r hr
        simp only [this.1, this.2, if_true]
        exact ih ts _ _ _ hl hn

/-- **C113, same verdict.** In parallel as many tests fail as one after the other (or something is thrown, in both cases). -/
theorem C113_same_verdict (debug : Bool) (cs : List Case) (sched : List Nat) (s : State) (h : Whole debug cs sched s) :
    (finishAsync s.threads).map Prod.fst = (runTests debug cs).2 := by
  have hl : s.threads.length = cs.length := by
    rw [length_steps debug sched _ _ h.1]; simp [launch]
  have := collect_runAll debug cs s.threads [] {} 0 hl fun i c hc => by
    obtain ⟨t, ht, _, h1, h2⟩ := C113_every_schedule debug cs sched s h i c hc
    exact ⟨t, ht, h1, h2⟩
  unfold runTests finishAsync
  rw [← this]
  cases hq : runAll debug cs [] {} 0 with
  | mk out o =>
    cases o with
    | none => rfl
    | some q => rfl

/-- What is written when all threads have ended, next to their lines: "successfully" exactly if no test failed. -/
theorem C113_last_line (ts : List Thread) (n : Nat) (l : Line) (h : finishAsync ts = some (n, l)) : (n = 0 ↔ l.level = .info) ∧ (n ≠ 0 ↔ l.level = .error) := by
  unfold finishAsync at h
  cases hc : collect ts {} 0 with
  | none => rw [hc] at h; cases h
  | some q =>
    rw [hc] at h
    simp only [Option.map_some, Option.some.injEq, Prod.mk.injEq] at h
    obtain ⟨rfl, rfl⟩ := h
    split
    · rename_i e; simp [e]
    · rename_i e; simp [e]

/-- **C113, one writer (partial).** Two threads do not write at the same time, unless it is the first line of one of them. -/
theorem C113_one_writer_partial (debug : Bool) (cs : List Case) (sched : List Nat) (s : State) (h : steps debug (launch cs) sched = some s) (i j : Nat)
    (t u : Thread) (hij : i ≠ j) (ht : s.threads[i]? = some t) (hu : s.threads[j]? = some u) (hw : Writes t.ph) (hx : Writes u.ph) :
    t.ph = .startWrite ∨ u.ph = .startWrite := by
  have hi := inv_steps debug sched _ _ h (inv_launch cs)
  have h1 := hi.1 i t ht
  have h2 := hi.1 j u hu
  obtain ⟨name, todo, res, ph⟩ := t
  obtain ⟨name', todo', res', ph'⟩ := u
  have key : Has ph → Has ph' → False := fun a b => by
    have e1 := h1.1 a
    have e2 := h2.1 b
    rw [e1] at e2
    exact hij (Option.some.inj e2)
  cases ph with
  | startWrite => exact .inl rfl
  | failWrite m => cases ph' with
    | startWrite => exact .inr rfl
    | failWrite m' => exact (key trivial trivial).elim
    | endWrite m' => exact (key trivial trivial).elim
    | _ => exact hx.elim
  | endWrite m => cases ph' with
    | startWrite => exact .inr rfl
    | failWrite m' => exact (key trivial trivial).elim
    | endWrite m' => exact (key trivial trivial).elim
    | _ => exact hx.elim
  | _ => exact hw.elim

/-- **C113, violated.** The first lines are written without the mutex: with two test cases or more, and a sink that takes lines of level debug, two threads can
write at the same time. -/
theorem C113_start_overlap_violated (c d : Case) (cs : List Case) : ∃ (sched : List Nat) (s : State) (t u : Thread),
    steps true (launch (c :: d :: cs)) sched = some s ∧ s.threads[0]? = some t ∧ s.threads[1]? = some u ∧ Writes t.ph ∧ Writes u.ph ∧
      (∀ s', step true s 0 = some s' → s'.log = [(0, ⟨.debug, "STARTING: " ++ c.name⟩)]) ∧
      ∀ s', step true s 1 = some s' → s'.log = [(1, ⟨.debug, "STARTING: " ++ d.name⟩)] :=
  ⟨[0, 1], _, _, _, rfl, rfl, rfl, trivial, trivial, fun s' h => by cases h; rfl, fun s' h => by cases h; rfl⟩

theorem runBody_lines (name : String) (as : List Act) : ∀ r : Result, (runBody name r as).1 = (complaints as).map (failedCheck name) := by
  induction as with
  | nil => intro r; rfl
  | cons a as ih =>
    intro r
    match a with
    | .check true m => exact ih _
    | .check false m => simp only [runBody, complaints, List.map_cons, ih]
    | .checkThrows w => simp only [runBody, complaints, List.map_cons, ih]
    | .throws w => rfl
    | .throwsOther => rfl

/-- The results behind `try_run_func`. -/
def after (r : Result) (os : List Bool) : Result :=
  { r with checks := r.checks + os.length, passed := r.passed + os.count true, failed := r.failed + os.count false }

theorem runBody_results (name : String) (as : List Act) : ∀ r : Result, (runBody name r as).2 = match leaves as with
    | none => some (after r (outcomes as), true)
    | some (some w) => some ({ after r (outcomes as) with error := w }, false)
    | some none => none := by
  induction as with
  | nil => intro r; rfl
  | cons a as ih =>
    intro r
    have e : ∀ b, after (r.check b) (outcomes as) = after r (b :: outcomes as) := by
      intro b
      cases b <;> simp [after, Result.check] <;> omega
    match a with
    | .check true m => simp only [runBody, leaves, outcomes, ih, e]
    | .check false m => simp only [runBody, leaves, outcomes, ih, e]
    | .checkThrows w => simp only [runBody, leaves, outcomes, ih, e]
    | .throws w => rfl
    | .throwsOther => rfl

/-- **C113, the log.** What is logged about a test case that runs for the first time. -/
theorem C113_report (debug : Bool) (name : String) (as : List Act) : (run debug ⟨name, {}, as⟩).1 = report debug name as := by
  have h1 := runBody_lines name as {}
  have h2 := runBody_results name as {}
  simp only [run, report, List.append_assoc]
  congr 1
  cases hq : runBody name {} as with
  | mk ls o =>
    rw [hq] at h1 h2
    simp only at h1 h2
    subst h1
    rw [h2]
    match hl : leaves as with
    | some none => simp only [ending, lastLines, List.append_nil]; rfl
    | some (some w) => simp only [ending, lastLines]; rfl
    | none =>
      simp only [ending, lastLines]
      congr 1
      generalize outcomes as = os
      have hc : os.count true + os.count false = os.length := by
        induction os with
        | nil => rfl
        | cons b os ih => cases b <;> simp <;> omega
      have hf : os.count false = 0 ↔ false ∉ os := List.count_eq_zero
      unfold lastLine
      by_cases h0 : os = []
      · subst h0; rfl
      · have hp : 0 < os.length := List.length_pos_iff.2 h0
        rw [if_neg h0]
        by_cases hm : false ∉ os
        · have hz := hf.2 hm
          have ht : os.count true = os.length := by omega
          have hs : (after {} os).success = true := by simp [Result.success, after, hz]
          have hpass : (after {} os).passed = os.length := by simp [after, ht]
          rw [if_pos hs, if_pos hm, hpass, if_pos hp]
        · have hz : ¬ os.count false = 0 := fun h => hm (hf.1 h)
          have hs : ¬ (after {} os).success = true := by simp [Result.success, after, hz]
          rw [if_neg hs, if_neg hm]
          have hck : (after {} os).checks = os.length := by simp [after]
          have hfl : (after {} os).failed = os.count false := by simp [after]
          rw [hck, hfl]
          by_cases h1 : os.length = 1
          · rw [if_pos h1, if_neg (show ¬ 1 < os.length by omega)]
          · rw [if_neg h1, if_pos (show 1 < os.length by omega)]

theorem complaints_nil (as : List Act) : complaints as = [] ↔ false ∉ outcomes as := by
  induction as with
  | nil => simp [complaints, outcomes]
  | cons a as ih =>
    match a with
    | .check true m => simp [complaints, outcomes, ih]
    | .check false m => simp [complaints, outcomes]
    | .checkThrows w => simp [complaints, outcomes]
    | .throws w => simp [complaints, outcomes]
    | .throwsOther => simp [complaints, outcomes]

/-- **C113, the log tells (partial).** A test case that runs for the first time, and is left by no exception without a message: it counts as failed exactly
if there is a line of level error or critical about it. -/
theorem C113_log_tells_partial (debug : Bool) (name : String) (as : List Act) (r : Result) (h : (run debug ⟨name, {}, as⟩).2 = some r)
    (he : leaves as ≠ some (some "")) :
    r.success = false ↔ ∃ l ∈ (run debug ⟨name, {}, as⟩).1, l.level = .error ∨ l.level = .critical := by
  rw [C113_report]
  have h2 := runBody_results name as {}
  have hf : (outcomes as).count false = 0 ↔ false ∉ outcomes as := List.count_eq_zero
  have hcn := complaints_nil as
  simp only [run] at h
  cases hq : runBody name {} as with
  | mk ls o =>
    rw [hq] at h h2
    simp only at h2
    match hl : leaves as with
    | some none => rw [hl] at h2; subst h2; cases h
    | some (some w) =>
      rw [hl] at h2
      subst h2
      simp only [ending, Option.some.injEq] at h
      subst h
      constructor
      · intro _
        exact ⟨⟨.critical, name ++ ": EXCEPTION: " ++ w⟩, by simp [report, lastLines, hl], .inr rfl⟩
      · intro _
        have hw : w ≠ "" := fun e => he (by rw [hl, e])
        simp [Result.success, hw]
    | none =>
      rw [hl] at h2
      subst h2
      simp only [ending, Option.some.injEq] at h
      subst h
      constructor
      · intro hs
        have : ¬ complaints as = [] := by
          intro hc
          have := hf.2 (hcn.1 hc)
          simp [Result.success, after, this] at hs
        obtain ⟨m, ms, hm⟩ := List.exists_cons_of_ne_nil this
        exact ⟨⟨.error, "FAILED: " ++ name ++ " (" ++ m ++ ")"⟩, by simp [report, hm], .inl rfl⟩
      · rintro ⟨l, hl1, hl2⟩
        by_cases hz : false ∉ outcomes as
        · exfalso
          have hc := hcn.2 hz
          simp only [report, hc, hl, lastLines, List.map_nil, List.append_nil, List.mem_append] at hl1
          rcases hl1 with hl1 | hl1
          · split at hl1
            · simp at hl1; subst hl1; rcases hl2 with h | h <;> cases h
            · cases hl1
          · split at hl1
            · simp at hl1; subst hl1; rcases hl2 with h | h <;> cases h
            · first | rw [if_pos hz] at hl1 | skip
              simp at hl1; subst hl1; rcases hl2 with h | h <;> cases h
        · have : ¬ (outcomes as).count false = 0 := fun h => hz (hf.1 h)
          simp [Result.success, after, this]

/-- **C113, violated.** A test case that an exception without a message leaves, and in which no check failed, is logged as critical but counts as passed; with
no other test cases, everything is reported as clear. -/
theorem C113_empty_message_violated (debug : Bool) (name : String) (as : List Act) (h : leaves as = some (some "")) (hf : false ∉ outcomes as) :
    (∃ l ∈ (runTests debug [⟨name, {}, as⟩]).1, l.level = .critical) ∧ (runTests debug [⟨name, {}, as⟩]).2 = some 0 := by
  have hr := C113_report debug name as
  have h2 := runBody_results name as {}
  have hz : (outcomes as).count false = 0 := List.count_eq_zero.2 hf
  rw [h] at h2
  have hres : (run debug ⟨name, {}, as⟩).2 = some { after {} (outcomes as) with error := "" } := by
    simp only [run]
    cases hq : runBody name {} as with
    | mk ls o => rw [hq] at h2; simp only at h2; subst h2; rfl
  have hs : ({ after {} (outcomes as) with error := "" } : Result).success = true := by simp [Result.success, after, hz]
  simp only [runTests, runAll, hres, hs]
  refine ⟨⟨⟨.critical, name ++ ": EXCEPTION: " ++ ""⟩, ?_, rfl⟩, rfl⟩
  rw [hr]
  simp [report, lastLines, h]

/-- **C113, violated.** The results of earlier runs are kept: a test case that an exception left once counts as failed ever after, and nothing at all is logged
about that when it runs well with at most one check. -/
theorem C113_silent_violated (name w : String) (hw : w ≠ "") (as as' : List Act) (ha : as = .throws w :: as') (bs : List Act) (hb : outcomes bs = [] ∨
    outcomes bs = [true]) (hl : leaves bs = none) :
    ∃ r, (run false ⟨name, {}, as⟩).2 = some r ∧ (run false ⟨name, r, bs⟩).1 = [] ∧ ∃ r', (run false ⟨name, r, bs⟩).2 = some r' ∧ r'.success = false := by
  subst ha
  refine ⟨{ error := w }, rfl, ?_⟩
  have h1 := runBody_lines name bs { error := w }
  have h2 := runBody_results name bs { error := w }
  have hc : complaints bs = [] := (complaints_nil bs).2 (by rcases hb with h | h <;> simp [h])
  rw [hc] at h1
  rw [hl] at h2
  simp only [run]
  cases hq : runBody name { error := w } bs with
  | mk ls o =>
    rw [hq] at h1 h2
    simp only [List.map_nil] at h1 h2
    subst h1 h2
    have hs : (after { error := w } (outcomes bs)).success = false := by simp [Result.success, after, hw]
    refine ⟨?_, _, rfl, hs⟩
    simp only [ending, lastLine, hs]
    rcases hb with h | h <;> simp [h, after]

/-- Not vacuous: two test cases, one of which fails, in a schedule where they take turns. -/
example : ∃ sched s, Whole true [⟨"a", {}, [.check true "x", .check false "y"]⟩, ⟨"b", {}, [.check true "z"]⟩] sched s ∧
    s.log = [(1, ⟨.debug, "STARTING: b"⟩), (0, ⟨.debug, "STARTING: a"⟩), (0, ⟨.error, "FAILED: a (y)"⟩), (1, ⟨.info, "PASSED: b (1 check)"⟩),
      (0, ⟨.error, "FAILED: a (1 of 2 checks)"⟩)] ∧ (finishAsync s.threads).map Prod.fst = some 1 := by
  refine ⟨[1, 0, 1, 0, 0, 0, 1, 0, 1, 0, 1, 1, 0, 0, 0], _, ⟨rfl, fun i => ?_⟩, by decide +kernel, by decide +kernel⟩
  match i with
  | 0 => rfl
  | 1 => rfl
  | _ + 2 => rfl

end Xo.TRun
