import Verif.Model.Log
import Mathlib.Data.List.Basic
import Mathlib.Data.List.Nodup
import Mathlib.Order.Fin.Basic

/-!
C36: log sinks.
-/
namespace Xo

namespace Spec
open Log

/-- What a user knows of a sink: its level and thread filter, and whether it is registered. -/
structure SinkInfo where
  sink : Sink
  registered : Bool

/-- The bookkeeping a user can do by hand: a sink is registered by its construction, by `add_sink` and by
`set_log_level`, until `remove_sink` or its destruction. -/
def book (b : Nat → Option SinkInfo) : Op → Nat → Option SinkInfo
  | .create i o, j => if j = i then some ⟨o, true⟩ else b j
  | .destroy i, j => if j = i then none else b j
  | .add i, j => if j = i then (b j).map fun x => { x with registered := true } else b j
  | .remove i, j => if j = i then (b j).map fun x => { x with registered := false } else b j
  | .setLevel i l, j => if j = i then (b j).map fun x => ⟨{ x.sink with level := l }, true⟩ else b j
  | .setMode i t, j => if j = i then (b j).map fun x => { x with sink := { x.sink with thread := t } } else b j

/-- Whether a sink wants a message of level `l` from thread `t`. -/
def Wants (b : Nat → Option SinkInfo) (i t : Nat) (l : Level) : Prop :=
  ∃ x, b i = some x ∧ x.registered = true ∧ x.sink.level ≤ l ∧ (x.sink.thread = none ∨ x.sink.thread = some t)

end Spec
open Spec Log

/-- The bookkeeping of a whole history. -/
def Spec.bookAll (ops : List Op) : Nat → Option SinkInfo := ops.foldl book (fun _ => none)

structure LogInv (s : State) (b : Nat → Option SinkInfo) : Prop where
  nodup : s.sinks.Nodup
  objs : ∀ i, s.objs i = (b i).map (·.sink)
  sinks : ∀ i, i ∈ s.sinks ↔ ∃ x, b i = some x ∧ x.registered = true
  lowest : ∀ i ∈ s.sinks, ∀ o, s.objs i = some o → s.lowest ≤ o.level

theorem update_lowest (s : State) (i : Nat) (hi : i ∈ s.sinks) (o : Sink) (ho : s.objs i = some o) :
    (update s).lowest ≤ o.level := by
  unfold update
  simp only
  have mono : ∀ (l : List Nat) (v : Level), (l.foldl (fun v i => match s.objs i with
      | some o => if o.level < v then o.level else v
      | none => v) v) ≤ v := by
    intro l
    induction l with
    | nil => intro v; exact Nat.le_refl _
    | cons a l ih =>
      intro v
      refine le_trans (ih _) ?_
      simp only
      cases s.objs a with
      | none => exact Nat.le_refl _
      | some o =>
        show (if o.level < v then o.level else v) ≤ v
        by_cases h : o.level < v
        · rw [if_pos h]; exact le_of_lt h
        · rw [if_neg h]
  have gen : ∀ (l : List Nat) (v : Level), i ∈ l → (l.foldl (fun v i => match s.objs i with
      | some o => if o.level < v then o.level else v
      | none => v) v) ≤ o.level := by
    intro l
    induction l with
    | nil => intro v h; cases h
    | cons a l ih =>
      intro v h
      rcases List.mem_cons.1 h with rfl | h
      · rw [List.foldl_cons, ho]
        refine le_trans (mono l _) ?_
        show (if o.level < v then o.level else v) ≤ o.level
        by_cases h : o.level < v
        · rw [if_pos h]
        · rw [if_neg h]; exact not_lt.1 h
      · exact ih _ h
  exact gen _ _ hi

theorem addSink_inv (s : State) (i : Nat) (hn : s.sinks.Nodup) :
    (addSink s i).sinks.Nodup ∧ (addSink s i).objs = s.objs ∧ (∀ j, j ∈ (addSink s i).sinks ↔ j = i ∨ j ∈ s.sinks) ∧
    ∀ j ∈ (addSink s i).sinks, ∀ o, (addSink s i).objs j = some o → (addSink s i).lowest ≤ o.level := by
  refine ⟨?_, ?_, ?_, fun j hj o ho => update_lowest _ j hj o ho⟩
  · unfold addSink
    show List.Nodup (State.sinks _)
    split
    · exact hn
    · next h =>
      show (s.sinks ++ [i]).Nodup
      rw [List.nodup_append]
      exact ⟨hn, by simp, by intro a ha b hb; simp at hb; subst hb; rintro rfl; exact h ha⟩
  · unfold addSink
    show State.objs _ = _
    split <;> rfl
  · intro j
    unfold addSink
    show j ∈ State.sinks _ ↔ _
    split
    · next h => exact ⟨Or.inr, fun hj => hj.elim (fun e => e ▸ h) id⟩
    · show j ∈ s.sinks ++ [i] ↔ _
      rw [List.mem_append, List.mem_singleton, or_comm]

theorem removeSink_inv (s : State) (i : Nat) (hn : s.sinks.Nodup) :
    (removeSink s i).sinks.Nodup ∧ (removeSink s i).objs = s.objs ∧
    (∀ j, j ∈ (removeSink s i).sinks ↔ j ≠ i ∧ j ∈ s.sinks) ∧
    ∀ j ∈ (removeSink s i).sinks, ∀ o, (removeSink s i).objs j = some o → (removeSink s i).lowest ≤ o.level :=
  ⟨hn.erase i, rfl, fun _ => hn.mem_erase_iff, fun j hj o ho => update_lowest _ j hj o ho⟩

theorem log_step {s s' : State} {b : Nat → Option SinkInfo} (I : LogInv s b) (o : Op) (h : step s o = .ok s') :
    LogInv s' (book b o) := by
  cases o with
  | create i o =>
    simp only [step] at h
    cases ho : s.objs i with
    | some _ => rw [ho] at h; cases h
    | none =>
      rw [ho] at h
      cases h
      obtain ⟨h1, h2, h3, h4⟩ := addSink_inv { s with objs := fun j => if j = i then some o else s.objs j } i I.nodup
      refine ⟨h1, ?_, ?_, h4⟩
      · intro j
        rw [h2]
        simp only [book]
        split
        · rfl
        · exact I.objs j
      · intro j
        rw [h3, I.sinks]
        simp only [book]
        by_cases hj : j = i <;> simp [hj]
  | destroy i =>
    simp only [step] at h
    cases ho : s.objs i with
    | none => rw [ho] at h; cases h
    | some _ =>
      rw [ho] at h
      cases h
      obtain ⟨h1, h2, h3, h4⟩ := removeSink_inv s i I.nodup
      refine ⟨h1, ?_, ?_, ?_⟩
      · intro j
        simp only [book, h2]
        split
        · rfl
        · exact I.objs j
      · intro j
        simp only
        rw [h3, I.sinks]
        simp only [book]
        by_cases hj : j = i <;> simp [hj]
      · intro j hj o' ho'
        simp only at ho'
        split at ho'
        · cases ho'
        · exact h4 j hj o' ho'
  | add i =>
    simp only [step] at h
    cases ho : s.objs i with
    | none => rw [ho] at h; cases h
    | some o0 =>
      rw [ho] at h
      cases h
      obtain ⟨h1, h2, h3, h4⟩ := addSink_inv s i I.nodup
      have hb : ∃ x, b i = some x := by
        have := I.objs i
        rw [ho] at this
        cases hb : b i with
        | none => rw [hb] at this; cases this
        | some x => exact ⟨x, rfl⟩
      obtain ⟨x, hb⟩ := hb
      refine ⟨h1, ?_, ?_, h4⟩
      · intro j
        rw [h2, I.objs j]
        simp only [book]
        split
        · cases b j <;> rfl
        · rfl
      · intro j
        rw [h3, I.sinks]
        simp only [book]
        by_cases hj : j = i
        · subst hj; simp [hb]
        · simp [hj]
  | remove i =>
    simp only [step] at h
    cases ho : s.objs i with
    | none => rw [ho] at h; cases h
    | some o0 =>
      rw [ho] at h
      cases h
      obtain ⟨h1, h2, h3, h4⟩ := removeSink_inv s i I.nodup
      refine ⟨h1, ?_, ?_, h4⟩
      · intro j
        rw [h2, I.objs j]
        simp only [book]
        split
        · cases b j <;> rfl
        · rfl
      · intro j
        rw [h3, I.sinks]
        simp only [book]
        by_cases hj : j = i
        · subst hj; cases b j <;> simp
        · simp [hj]
  | setLevel i l =>
    simp only [step] at h
    cases ho : s.objs i with
    | none => rw [ho] at h; cases h
    | some o0 =>
      rw [ho] at h
      cases h
      obtain ⟨r1, r2, r3, r4⟩ := removeSink_inv (assignLevel s i l) i I.nodup
      obtain ⟨h1, h2, h3, h4⟩ := addSink_inv (removeSink (assignLevel s i l) i) i r1
      have hb : ∃ x, b i = some x := by
        have := I.objs i
        rw [ho] at this
        cases hb : b i with
        | none => rw [hb] at this; cases this
        | some x => exact ⟨x, rfl⟩
      obtain ⟨x, hb⟩ := hb
      refine ⟨h1, ?_, ?_, h4⟩
      · intro j
        rw [h2, r2]
        simp only [book, assignLevel]
        by_cases hj : j = i
        · subst hj
          rw [if_pos rfl, if_pos rfl, I.objs j]
          cases b j <;> rfl
        · rw [if_neg hj, if_neg hj, I.objs j]
      · intro j
        rw [h3, r3]
        show j = i ∨ j ≠ i ∧ j ∈ s.sinks ↔ _
        rw [I.sinks]
        simp only [book]
        by_cases hj : j = i
        · subst hj; simp [hb]
        · simp [hj]
  | setMode i t =>
    simp only [step] at h
    cases ho : s.objs i with
    | none => rw [ho] at h; cases h
    | some o0 =>
      rw [ho] at h
      cases h
      refine ⟨I.nodup, ?_, ?_, ?_⟩
      · intro j
        simp only [book]
        by_cases hj : j = i
        · subst hj
          rw [if_pos rfl, if_pos rfl]
          have := I.objs j
          rw [ho] at this
          cases hb : b j with
          | none => rw [hb] at this; cases this
          | some x => rw [hb] at this; cases this; rfl
        · rw [if_neg hj, if_neg hj, I.objs j]
      · intro j
        show j ∈ s.sinks ↔ _
        rw [I.sinks]
        simp only [book]
        by_cases hj : j = i
        · subst hj; cases b j <;> simp
        · simp [hj]
      · intro j hj o' ho'
        simp only at ho'
        split at ho'
        · next e =>
          subst e
          cases ho'
          exact I.lowest j hj o0 ho
        · exact I.lowest j hj o' ho'

theorem log_inv (ops : List Op) (s : State) (h : run init ops = .ok s) : LogInv s (bookAll ops) := by
  have gen : ∀ (ops : List Op) (s0 s : State) (b : Nat → Option SinkInfo), LogInv s0 b → run s0 ops = .ok s →
      LogInv s (ops.foldl book b) := by
    intro ops
    induction ops with
    | nil => intro s0 s b I h; cases h; exact I
    | cons o ops ih =>
      intro s0 s b I h
      simp only [run] at h
      cases hs : step s0 o with
      | err => rw [hs] at h; cases h
      | ub => rw [hs] at h; cases h
      | ok s1 => rw [hs] at h; exact ih s1 s _ (log_step I o hs) h
  exact gen ops init s _ ⟨List.nodup_nil, fun _ => rfl, by simp [init], by simp [init]⟩ h

theorem wants_iff {s : State} {b : Nat → Option SinkInfo} (I : LogInv s b) (i t : Nat) (l : Level) :
    i ∈ logString s t l ↔ Wants b i t l := by
  unfold logString Wants
  rw [List.mem_filter, I.sinks, I.objs]
  constructor
  · rintro ⟨⟨x, hx, hr⟩, h⟩
    rw [hx] at h
    refine ⟨x, hx, hr, ?_⟩
    simp only [Option.map_some, Sink.test] at h
    cases ht : x.sink.thread with
    | none => rw [ht] at h; exact ⟨by simpa using h, Or.inl rfl⟩
    | some t' =>
      rw [ht] at h
      simp only [ge_iff_le, Bool.and_eq_true, decide_eq_true_eq, beq_iff_eq] at h
      exact ⟨h.1, Or.inr (by rw [h.2])⟩
  · rintro ⟨x, hx, hr, hl, ht⟩
    refine ⟨⟨x, hx, hr⟩, ?_⟩
    rw [hx]
    simp only [Option.map_some, Sink.test]
    rcases ht with ht | ht <;> rw [ht] <;> simp [hl]

/-- The quick check never suppresses anything. -/
theorem message_eq {s : State} {b : Nat → Option SinkInfo} (I : LogInv s b) (t : Nat) (l : Level) :
    message s t l = logString s t l := by
  unfold message
  split
  · rfl
  · next h =>
    symm
    rw [List.eq_nil_iff_forall_not_mem]
    intro i hi
    have hi' := hi
    unfold logString at hi'
    rw [List.mem_filter] at hi'
    obtain ⟨hm, ht⟩ := hi'
    apply h
    unfold testLogLevel
    have hlow : ¬ l < s.lowest := by
      cases ho : s.objs i with
      | none => rw [ho] at ht; cases ht
      | some o =>
        rw [ho] at ht
        have h1 := I.lowest i hm o ho
        have h2 : o.level ≤ l := by
          simp only [Sink.test] at ht
          cases hth : o.thread <;> rw [hth] at ht
          · simpa using ht
          · simp only [ge_iff_le, Bool.and_eq_true, decide_eq_true_eq] at ht; exact ht.1
        exact not_lt.2 (le_trans h1 h2)
    rw [if_neg hlow, List.any_eq_true]
    exact ⟨i, hm, ht⟩

/-- **C36.** After any history, a message of any level from any thread is handled exactly once by every sink that
wants it, and by no other; the quick check of the global level changes nothing. -/
theorem C36_message (ops : List Op) (s : State) (h : run init ops = .ok s) (t : Nat) (l : Level) :
    (∀ i, Wants (bookAll ops) i t l → (message s t l).count i = 1) ∧
    (∀ i, ¬Wants (bookAll ops) i t l → (message s t l).count i = 0) ∧
    message s t l = logString s t l ∧ vmessage s t l = logString s t l := by
  have I := log_inv ops s h
  have hn : (logString s t l).Nodup := I.nodup.filter _
  rw [show vmessage s t l = message s t l from rfl, message_eq I]
  refine ⟨fun i hw => ?_, fun i hw => ?_, rfl, rfl⟩
  · rw [hn.count, if_pos ((wants_iff I i t l).2 hw)]
  · exact List.count_eq_zero.2 (fun hm => hw ((wants_iff I i t l).1 hm))

/-- `test_log_level` tells exactly whether some sink wants a message. -/
theorem C36_test (ops : List Op) (s : State) (h : run init ops = .ok s) (t : Nat) (l : Level) :
    testLogLevel s t l = true ↔ ∃ i, Wants (bookAll ops) i t l := by
  have I := log_inv ops s h
  constructor
  · intro ht
    unfold testLogLevel at ht
    split at ht
    · cases ht
    · rw [List.any_eq_true] at ht
      obtain ⟨i, hi, hh⟩ := ht
      exact ⟨i, (wants_iff I i t l).1 (List.mem_filter.2 ⟨hi, hh⟩)⟩
  · rintro ⟨i, hw⟩
    have hm := (wants_iff I i t l).2 hw
    by_contra hc
    have := message_eq I t l
    unfold message at this
    rw [if_neg hc] at this
    rw [← this] at hm
    cases hm

/-- Operations on existing sinks, and creation of new ones, are always defined. -/
theorem C36_defined (s : State) (i : Nat) :
    (s.objs i ≠ none → ∀ l t, (step s (.setLevel i l)).isOk ∧ (step s (.add i)).isOk ∧ (step s (.remove i)).isOk ∧
      (step s (.destroy i)).isOk ∧ (step s (.setMode i t)).isOk) ∧
    (s.objs i = none → ∀ o, (step s (.create i o)).isOk) := by
  constructor
  · intro h l t
    cases ho : s.objs i with
    | none => exact absurd ho h
    | some o => simp [step, ho, Res.isOk]
  · intro h o
    simp [step, h, Res.isOk]

/-- **C36 is violated between threads.** While one thread is inside `set_log_level` (after its first two statements),
the sink is not registered: a message of another thread does not reach it, whatever its old and new level. -/
theorem C36_set_level_window_violated (ops : List Op) (s : State) (h : run init ops = .ok s) (i : Nat) (l : Level)
    (t : Nat) (m : Level) : (message (removeSink (assignLevel s i l) i) t m).count i = 0 := by
  have I := log_inv ops s h
  have := (removeSink_inv (assignLevel s i l) i I.nodup).2.2.1 i
  rw [List.count_eq_zero]
  intro hm
  unfold message at hm
  split at hm
  · exact (this.1 (List.mem_filter.1 hm).1).1 rfl
  · cases hm

/-- Beyond C36: `set_log_level` on a sink that was removed registers it again. -/
theorem C36_set_level_registers (b : Nat → Option SinkInfo) (i : Nat) (x : SinkInfo) (hx : b i = some x) (l : Level) :
    ∃ y, book b (.setLevel i l) i = some y ∧ y.registered = true := by
  simp [book, hx]

/-- Non-vacuity. -/
example : ∃ s, run init [.create 0 ⟨3, none⟩, .create 1 ⟨5, some 7⟩, .setLevel 0 2, .remove 1, .add 1, .create 2 ⟨1, none⟩,
    .destroy 2] = .ok s ∧ message s 7 5 = [0, 1] ∧ message s 8 5 = [0] ∧ message s 7 1 = [] := by
  refine ⟨_, rfl, ?_⟩
  decide

end Xo
