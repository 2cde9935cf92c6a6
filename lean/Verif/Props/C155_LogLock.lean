import Verif.Model.LogLock
import Mathlib.Data.List.Nodup
import Mathlib.Tactic.Linarith
import Mathlib.Tactic.NormNum

/-!
C155: logging never blocks for good.
-/
namespace Xo.LogLock

namespace Spec

/-- All threads have made all their calls. -/
def Finished (st : St) : Prop := ∀ h ∈ st.threads, h.code = []

/-- Handlers that only write. -/
def Quiet (s : Sink) : Prop := s.kind = .plain ∨ s.kind = .console

/-- The sinks that a call brings along are quiet. -/
def QuietCall : Call → Prop
  | .add s => Quiet s
  | .setLevel s => Quiet s
  | _ => True

/-- What a message of level `l` writes with these sinks: one entry for each sink that wants it, in order. -/
def deliveries (sinks : List Sink) (l : Nat) : List (Nat × Nat) := (sinks.filter fun s => s.level ≤ l).map fun s => (s.id, l)

/-- The thread is on its way through the list of sinks. -/
def Delivering (h : Thread) : Prop := ∃ l i, 0 < i ∧ Instr.next l i ∈ h.code

end Spec
open Spec

/-! ## The order of the instructions -/

/-- All loops over the sinks are still to begin. -/
def Fresh (c : List Instr) : Prop := ∀ l i, Instr.next l i ∈ c → i = 0

/-- The code of a thread that holds the shared lock, the exclusive lock, the lock of the console. -/
inductive Shape : Bool → Bool → Bool → List Instr → Prop where
  | nil : Shape false false false []
  | lockS {c} : Shape true false false c → Fresh c → Shape false false false (.lockS :: c)
  | unlockS {c} : Shape false false false c → Shape true false false (.unlockS :: c)
  | next {c l i} : Shape true false false c → Fresh c → Shape true false false (.next l i :: c)
  | scan {c l} : Shape true false false c → Shape true false false (.scan l :: c)
  | flushAll {c} : Shape true false false c → Shape true false false (.flushAll :: c)
  | write {c id l b} : Shape true false b c → Shape true false b (.write id l :: c)
  | lockC {c} : Shape true false true c → Shape true false false (.lockC :: c)
  | unlockC {c} : Shape true false false c → Shape true false true (.unlockC :: c)
  | lockX {c} : Shape false true false c → Shape false false false (.lockX :: c)
  | unlockX {c} : Shape false false false c → Shape false true false (.unlockX :: c)
  | put {c s} : Shape false true false c → Quiet s → Shape false true false (.put s :: c)
  | drop {c id} : Shape false true false c → Shape false true false (.drop id :: c)
  | guarded {c l} : Shape false false false c → Shape false false false (.guarded l :: c)

theorem Shape.fresh {s x b : Bool} {c : List Instr} (h : Shape s x b c) : s = false → Fresh c := by
  induction h <;> intro hs <;> first | cases hs | skip
  case nil => intro l i hi; cases hi
  case lockS h f _ =>
    intro l i hi
    rcases List.mem_cons.1 hi with e | hi
    · cases e
    · exact f l i hi
  all_goals
    intro l i hi
    rcases List.mem_cons.1 hi with e | hi
    · cases e
    · rename_i ih
      first
        | exact ih rfl l i hi
        | exact ‹false = false → Fresh _› rfl l i hi

theorem shape_call {k : Call} (hk : QuietCall k) {c : List Instr} (h : Shape false false false c) : Shape false false false (k.code ++ c) := by
  have hf := h.fresh rfl
  have f1 : ∀ l, Fresh (Instr.next l 0 :: .unlockS :: c) := by
    intro l l' i hi
    simp at hi
    rcases hi with ⟨-, rfl⟩ | hi
    · rfl
    · exact hf _ _ hi
  have f2 : Fresh (.unlockS :: c) := by
    intro l' i hi
    simp at hi
    exact hf _ _ hi
  cases k with
  | string l => exact .lockS (.next (.unlockS h) f2) (f1 l)
  | messagef l =>
    refine .lockS (.scan (.unlockS (.guarded h))) ?_
    intro l' i hi
    simp at hi
    exact hf _ _ hi
  | errorf l =>
    refine .lockS (.scan (.unlockS (.guarded (.lockS (.flushAll (.unlockS h)) ?_)))) ?_ <;>
    · intro l' i hi
      simp at hi
      exact hf _ _ hi
  | flush =>
    refine .lockS (.flushAll (.unlockS h)) ?_
    intro l' i hi
    simp at hi
    exact hf _ _ hi
  | add s => exact .lockX (.put (.unlockX h) hk)
  | remove id => exact .lockX (.drop (.unlockX h))
  | setLevel s => exact .lockX (.drop (.unlockX (.lockX (.put (.unlockX h) hk))))

theorem shape_calls {cs : List Call} (h : ∀ k ∈ cs, QuietCall k) : Shape false false false (cs.flatMap Call.code) := by
  induction cs with
  | nil => exact .nil
  | cons k cs ih =>
    rw [List.flatMap_cons]
    exact shape_call (h k (by simp)) (ih fun k' h' => h k' (by simp [h']))

theorem shape_handler {s : Sink} (hs : Quiet s) (l : Nat) {c : List Instr} (h : Shape true false false c) : Shape true false false (s.handler l ++ c) := by
  unfold Sink.handler
  rcases hs with e | e <;> rw [e]
  · exact .write h
  · exact .lockC (.write (.unlockC h))

/-! ## The invariant -/

/-- The locks are held by the threads that are between taking and releasing them, and the sinks are quiet. -/
structure Inv (st : St) : Prop where
  shape : ∀ t h, st.threads[t]? = some h → Shape (decide (t ∈ st.readers)) (decide (st.writer = some t)) (decide (st.console = some t)) h.code
  nodup : st.readers.Nodup
  excl : st.writer ≠ none → st.readers = []
  quiet : ∀ s ∈ st.sinks, Quiet s
  rd : ∀ t ∈ st.readers, t < st.threads.length
  wr : ∀ t, st.writer = some t → t < st.threads.length
  con : ∀ t, st.console = some t → t < st.threads.length

theorem inv_start (calls : List (List Call)) (sinks : List Sink) (hc : ∀ cs ∈ calls, ∀ k ∈ cs, QuietCall k) (hs : ∀ s ∈ sinks, Quiet s) : Inv (start calls sinks) := by
  refine ⟨?_, List.nodup_nil, fun _ => rfl, hs, by simp [start], by simp [start], by simp [start]⟩
  intro t h ht
  simp only [start, List.getElem?_map, Option.map_eq_some_iff] at ht
  obtain ⟨cs, h1, rfl⟩ := ht
  exact shape_calls (hc cs (List.mem_of_getElem? h1))

/-- The threads after a step of thread `t`. -/
theorem set_cases {l : List Thread} {t u : Nat} {h' h : Thread} (e : (l.set t h')[u]? = some h) : (u = t ∧ h = h') ∨ (u ≠ t ∧ l[u]? = some h) := by
  by_cases hu : u = t
  · subst hu
    rw [List.getElem?_set_self'] at e
    left
    cases hl : l[u]? <;> rw [hl] at e <;> simp at e
    exact ⟨rfl, e.symm⟩
  · right
    rw [List.getElem?_set_ne (Ne.symm hu)] at e
    exact ⟨hu, e⟩

theorem inv_step {prefer : Bool} {st st' : St} {t : Nat} (hi : Inv st) (h : step prefer st t = some st') : Inv st' := by
  unfold step at h
  cases ht : st.threads[t]? with
  | none => rw [ht] at h; cases h
  | some th =>
    rw [ht] at h; dsimp only at h
    have tl : t < st.threads.length := (List.getElem?_eq_some_iff.1 ht).1
    have sh := hi.shape t th ht
    generalize e1 : decide (t ∈ st.readers) = b1 at sh
    generalize e2 : decide (st.writer = some t) = b2 at sh
    generalize e3 : decide (st.console = some t) = b3 at sh
    -- a step that changes no lock and keeps the shape
    have keep : ∀ (h' : Thread) (sinks : List Sink), Shape b1 b2 b3 h'.code → (∀ s ∈ sinks, Quiet s) →
        Inv { st with threads := st.threads.set t h', sinks := sinks } := by
      intro h' sinks s1 s2
      refine ⟨?_, hi.nodup, hi.excl, s2, fun u hu => by simpa using hi.rd u hu, fun u hu => by simpa using hi.wr u hu, fun u hu => by simpa using hi.con u hu⟩
      intro u h2 hu
      rcases set_cases hu with ⟨rfl, rfl⟩ | ⟨-, hu⟩
      · show Shape (decide (u ∈ st.readers)) (decide (st.writer = some u)) (decide (st.console = some u)) _
        rw [e1, e2, e3]; exact s1
      · exact hi.shape u h2 hu
    cases hc : th.code with
    | nil => rw [hc] at h; simp at h
    | cons a c =>
      rw [hc] at h sh
      cases sh with
      | lockS s f =>
        simp only at h
        split at h
        · rename_i hw
          cases h
          have n1 : t ∉ st.readers := by simpa using e1
          refine ⟨?_, List.nodup_cons.2 ⟨n1, hi.nodup⟩, fun h0 => absurd hw.1 h0, hi.quiet, ?_, fun u hu => by simpa using hi.wr u hu, fun u hu => by simpa using hi.con u hu⟩
          · intro u h2 hu
            rcases set_cases hu with ⟨rfl, rfl⟩ | ⟨ne, hu⟩
            · show Shape (decide (u ∈ u :: st.readers)) (decide (st.writer = some u)) (decide (st.console = some u)) _
              rw [e2, e3]; simpa using s
            · have := hi.shape u h2 hu
              show Shape (decide (u ∈ t :: st.readers)) _ _ _
              have e : decide (u ∈ t :: st.readers) = decide (u ∈ st.readers) := by simp [ne]
              rw [e]; exact this
          · intro u hu
            simp only [List.length_set]
            rcases List.mem_cons.1 hu with rfl | hu
            · exact tl
            · exact hi.rd u hu
        · cases h
      | unlockS s =>
        simp only at h
        cases h
        have n1 : t ∈ st.readers := by simpa using e1
        have wn : st.writer = none := by
          by_contra c
          rw [hi.excl c] at n1; cases n1
        refine ⟨?_, hi.nodup.erase t, fun h0 => absurd wn h0, hi.quiet, fun u hu => by simpa using hi.rd u (List.mem_of_mem_erase hu), fun u hu => by simpa using hi.wr u hu, fun u hu => by simpa using hi.con u hu⟩
        intro u h2 hu
        rcases set_cases hu with ⟨rfl, rfl⟩ | ⟨ne, hu⟩
        · show Shape (decide (u ∈ st.readers.erase u)) (decide (st.writer = some u)) (decide (st.console = some u)) _
          have e : decide (u ∈ st.readers.erase u) = false := by simp [hi.nodup.mem_erase_iff]
          rw [e, e2, e3]; exact s
        · have := hi.shape u h2 hu
          show Shape (decide (u ∈ st.readers.erase t)) _ _ _
          have e : decide (u ∈ st.readers.erase t) = decide (u ∈ st.readers) := by simp [hi.nodup.mem_erase_iff, ne]
          rw [e]; exact this
      | lockX s =>
        simp only at h
        split at h
        · rename_i hw
          cases h
          refine ⟨?_, hi.nodup, fun _ => hw.2, hi.quiet, fun u hu => by simpa using hi.rd u hu, ?_, fun u hu => by simpa using hi.con u hu⟩
          · intro u h2 hu
            rcases set_cases hu with ⟨rfl, rfl⟩ | ⟨ne, hu⟩
            · show Shape (decide (u ∈ st.readers)) (decide (some u = some u)) (decide (st.console = some u)) _
              rw [e1, e3]; simpa using s
            · have := hi.shape u h2 hu
              show Shape _ (decide (some t = some u)) _ _
              have e : decide (some t = some u) = decide (st.writer = some u) := by simp [hw.1, Ne.symm ne]
              rw [e]; exact this
          · intro u hu
            cases hu
            simpa using tl
        · cases h
      | unlockX s =>
        simp only at h
        cases h
        have n1 : st.writer = some t := by simpa using e2
        refine ⟨?_, hi.nodup, fun h0 => absurd rfl h0, hi.quiet, fun u hu => by simpa using hi.rd u hu, fun u hu => by simp at hu, fun u hu => by simpa using hi.con u hu⟩
        intro u h2 hu
        rcases set_cases hu with ⟨rfl, rfl⟩ | ⟨ne, hu⟩
        · show Shape (decide (u ∈ st.readers)) (decide (none = some u)) (decide (st.console = some u)) _
          rw [e1, e3]; simpa using s
        · have := hi.shape u h2 hu
          show Shape _ (decide (none = some u)) _ _
          have e : decide (none = some u) = decide (st.writer = some u) := by simp [n1, Ne.symm ne]
          rw [e]; exact this
      | lockC s =>
        simp only at h
        split at h
        · rename_i hw
          cases h
          refine ⟨?_, hi.nodup, hi.excl, hi.quiet, fun u hu => by simpa using hi.rd u hu, fun u hu => by simpa using hi.wr u hu, ?_⟩
          · intro u h2 hu
            rcases set_cases hu with ⟨rfl, rfl⟩ | ⟨ne, hu⟩
            · show Shape (decide (u ∈ st.readers)) (decide (st.writer = some u)) (decide (some u = some u)) _
              rw [e1, e2]; simpa using s
            · have := hi.shape u h2 hu
              show Shape _ _ (decide (some t = some u)) _
              have e : decide (some t = some u) = decide (st.console = some u) := by simp [hw, Ne.symm ne]
              rw [e]; exact this
          · intro u hu
            cases hu
            simpa using tl
        · cases h
      | unlockC s =>
        simp only at h
        cases h
        have n1 : st.console = some t := by simpa using e3
        refine ⟨?_, hi.nodup, hi.excl, hi.quiet, fun u hu => by simpa using hi.rd u hu, fun u hu => by simpa using hi.wr u hu, fun u hu => by simp at hu⟩
        intro u h2 hu
        rcases set_cases hu with ⟨rfl, rfl⟩ | ⟨ne, hu⟩
        · show Shape (decide (u ∈ st.readers)) (decide (st.writer = some u)) (decide (none = some u)) _
          rw [e1, e2]; simpa using s
        · have := hi.shape u h2 hu
          show Shape _ _ (decide (none = some u)) _
          have e : decide (none = some u) = decide (st.console = some u) := by simp [n1, Ne.symm ne]
          rw [e]; exact this
      | next s f =>
        simp only at h
        split at h
        · cases h
          exact keep _ st.sinks s hi.quiet
        · rename_i k hk
          cases h
          refine keep _ st.sinks ?_ hi.quiet
          show Shape _ _ _ (_ ++ _)
          split
          · exact shape_handler (hi.quiet k (List.mem_of_getElem? hk)) _ (.next s f)
          · exact .next s f
      | scan s => simp only at h; cases h; exact keep _ st.sinks s hi.quiet
      | flushAll s => simp only at h; cases h; exact keep _ st.sinks s hi.quiet
      | write s => simp only at h; cases h; exact keep _ st.sinks s hi.quiet
      | put s q =>
        simp only at h
        cases h
        refine keep _ _ s ?_
        intro k hk
        split at hk
        · exact hi.quiet k hk
        · rcases List.mem_append.1 hk with hk | hk
          · exact hi.quiet k hk
          · rw [List.mem_singleton.1 hk]; exact q
      | drop s =>
        simp only at h
        cases h
        exact keep _ _ s fun k hk => hi.quiet k (List.mem_of_mem_eraseP hk)
      | guarded s =>
        simp only at h
        cases h
        refine keep _ st.sinks ?_ hi.quiet
        show Shape _ _ _ (_ ++ _)
        split
        · exact shape_call (k := .string _) trivial s
        · exact s

theorem inv_run {prefer : Bool} : ∀ {sched : List Nat} {st st' : St}, Inv st → run prefer st sched = some st' → Inv st'
  | [], _, _, hi, h => by cases h; exact hi
  | t :: ts, st, st', hi, h => by
    rw [run, Option.bind_eq_some_iff] at h
    obtain ⟨s1, h1, h2⟩ := h
    exact inv_run (inv_step hi h1) h2

/-! ## Somebody can go on -/

theorem step_some {prefer : Bool} {st : St} (hi : Inv st) (hf : ¬ Finished st) : ∃ t, (step prefer st t).isSome := by
  have get : ∀ t, t < st.threads.length → ∃ h, st.threads[t]? = some h := fun t ht => ⟨_, List.getElem?_eq_getElem ht⟩
  cases hc : st.console with
  | some t =>
    obtain ⟨h, ht⟩ := get t (hi.con t hc)
    have sh := hi.shape t h ht
    rw [hc] at sh
    generalize decide (t ∈ st.readers) = b1 at sh
    generalize decide (st.writer = some t) = b2 at sh
    simp only [decide_true] at sh
    refine ⟨t, ?_⟩
    unfold step
    rw [ht]; dsimp only
    generalize h.code = c at sh
    cases sh <;> simp
  | none =>
    cases hw : st.writer with
    | some t =>
      obtain ⟨h, ht⟩ := get t (hi.wr t hw)
      have sh := hi.shape t h ht
      rw [hw] at sh
      generalize decide (t ∈ st.readers) = b1 at sh
      generalize decide (st.console = some t) = b2 at sh
      simp only [decide_true] at sh
      refine ⟨t, ?_⟩
      unfold step
      rw [ht]; dsimp only
      generalize h.code = c at sh
      cases sh <;> simp
    | none =>
      cases hr : st.readers with
      | cons t r =>
        have tm : t ∈ st.readers := by rw [hr]; simp
        obtain ⟨h, ht⟩ := get t (hi.rd t tm)
        have sh := hi.shape t h ht
        rw [decide_eq_true tm] at sh
        generalize decide (st.writer = some t) = b1 at sh
        generalize decide (st.console = some t) = b2 at sh
        refine ⟨t, ?_⟩
        unfold step
        rw [ht]; dsimp only
        generalize h.code = c at sh
        cases sh <;> simp [hc]
        split <;> rfl
      | nil =>
        by_cases wt : st.waiting = true
        · unfold St.waiting at wt
          rw [List.any_eq_true] at wt
          obtain ⟨h, hm, hl⟩ := wt
          obtain ⟨t, ht⟩ := List.mem_iff_getElem?.1 hm
          refine ⟨t, ?_⟩
          unfold step
          rw [ht]; dsimp only
          cases hcode : h.code with
          | nil => rw [hcode] at hl; simp at hl
          | cons a c =>
            rw [hcode] at hl
            simp at hl
            subst hl
            simp [hw, hr]
        · unfold Finished at hf
          push_neg at hf
          obtain ⟨h, hm, hne⟩ := hf
          obtain ⟨t, ht⟩ := List.mem_iff_getElem?.1 hm
          have sh := hi.shape t h ht
          rw [hc, hw, hr] at sh
          simp only [List.not_mem_nil, decide_false, reduceCtorEq] at sh
          refine ⟨t, ?_⟩
          unfold step
          rw [ht]; dsimp only
          generalize h.code = c at sh hne
          cases sh <;> simp [hw, hr, wt]
          exact hne rfl

/-! ## Every schedule comes to an end -/

/-- The number of sinks that code still adds. -/
def puts (c : List Instr) : Nat := (c.filter fun a => match a with | .put _ => true | _ => false).length

/-- A bound for the steps of an instruction with at most `N` sinks. -/
def cost (N : Nat) : Instr → Nat
  | .next _ i => 1 + 4 * (N - i)
  | .guarded _ => 4 + 4 * N
  | _ => 1

/-- A bound for the steps of code. -/
def costs (N : Nat) (c : List Instr) : Nat := (c.map (cost N)).sum

theorem sum_set {l : List Thread} {t : Nat} {h h' : Thread} (e : l[t]? = some h) (f : Thread → Nat) : ((l.set t h').map f).sum + f h = (l.map f).sum + f h' := by
  induction l generalizing t with
  | nil => simp at e
  | cons a l ih =>
    cases t with
    | zero =>
      simp at e
      subst e
      simp only [List.set_cons_zero, List.map_cons, List.sum_cons]
      omega
    | succ t =>
      simp only [List.getElem?_cons_succ] at e
      have := ih e
      simp only [List.set_cons_succ, List.map_cons, List.sum_cons]
      omega

/-- The sinks there are and will be. -/
def room (st : St) : Nat := st.sinks.length + (st.threads.map fun h => puts h.code).sum

/-- A bound for the steps of all threads. -/
def total (N : Nat) (st : St) : Nat := (st.threads.map fun h => costs N h.code).sum

theorem step_less {prefer : Bool} {st st' : St} {t N : Nat} (hi : Inv st) (hN : room st ≤ N) (h : step prefer st t = some st') : room st' ≤ N ∧ total N st' < total N st := by
  unfold step at h
  cases ht : st.threads[t]? with
  | none => rw [ht] at h; cases h
  | some th =>
    rw [ht] at h; dsimp only at h
    -- it is enough to look at the thread
    have key : ∀ (h' : Thread) (st' : St), st'.threads = st.threads.set t h' → st'.sinks.length + puts h'.code ≤ st.sinks.length + puts th.code →
        costs N h'.code < costs N th.code → room st' ≤ N ∧ total N st' < total N st := by
      intro h' st' e k1 k2
      have s1 := sum_set ht (h' := h') (fun h => puts h.code)
      have s2 := sum_set ht (h' := h') (fun h => costs N h.code)
      unfold room total at *
      rw [e]
      omega
    cases hc : th.code with
    | nil => rw [hc] at h; simp at h
    | cons a c =>
      rw [hc] at h
      rw [hc] at key
      cases a with
      | lockS => simp only at h; split at h <;> cases h; exact key _ _ rfl (by simp [puts]) (by simp [costs, cost])
      | unlockS => simp only at h; cases h; exact key _ _ rfl (by simp [puts]) (by simp [costs, cost])
      | lockX => simp only at h; split at h <;> cases h; exact key _ _ rfl (by simp [puts]) (by simp [costs, cost])
      | unlockX => simp only at h; cases h; exact key _ _ rfl (by simp [puts]) (by simp [costs, cost])
      | lockC => simp only at h; split at h <;> cases h; exact key _ _ rfl (by simp [puts]) (by simp [costs, cost])
      | unlockC => simp only at h; cases h; exact key _ _ rfl (by simp [puts]) (by simp [costs, cost])
      | write id l => simp only at h; cases h; exact key _ _ rfl (by simp [puts]) (by simp [costs, cost])
      | flushAll => simp only at h; cases h; exact key _ _ rfl (by simp [puts]) (by simp [costs, cost])
      | scan l => simp only at h; cases h; exact key _ _ rfl (by simp [puts]) (by simp [costs, cost])
      | drop id =>
        simp only at h; cases h
        refine key _ _ rfl ?_ (by simp [costs, cost])
        have := List.length_eraseP_le (p := fun s : Sink => decide (s.id = id)) (l := st.sinks)
        simp only [puts, List.filter_cons] at this ⊢
        simpa using this
      | put s =>
        simp only at h; cases h
        refine key _ _ rfl ?_ (by simp [costs, cost])
        simp only [puts, List.filter_cons]
        split <;> simp <;> omega
      | guarded l =>
        simp only at h; cases h
        refine key _ _ rfl ?_ ?_
        · split <;> simp [puts, logString]
        · split <;> simp [costs, cost, logString] <;> omega
      | next l i =>
        simp only at h
        split at h
        · cases h
          exact key _ _ rfl (by simp [puts]) (by simp [costs, cost])
        · rename_i k hk
          cases h
          have il : i < st.sinks.length := (List.getElem?_eq_some_iff.1 hk).1
          have iN : i < N := by
            unfold room at hN
            omega
          have hq := hi.quiet k (List.mem_of_getElem? hk)
          refine key _ _ rfl ?_ ?_
          · split
            · unfold Sink.handler
              rcases hq with e | e <;> rw [e] <;> simp [puts]
            · simp [puts]
          · split
            · unfold Sink.handler
              rcases hq with e | e <;> rw [e] <;> simp [costs, cost] <;> omega
            · simp [costs, cost]
              omega

theorem run_short {prefer : Bool} {N : Nat} : ∀ {sched : List Nat} {st st' : St}, Inv st → room st ≤ N → run prefer st sched = some st' → sched.length + total N st' ≤ total N st
  | [], _, _, _, _, h => by cases h; simp
  | t :: ts, st, st', hi, hN, h => by
    rw [run, Option.bind_eq_some_iff] at h
    obtain ⟨s1, h1, h2⟩ := h
    obtain ⟨k1, k2⟩ := step_less hi hN h1
    have := run_short (inv_step hi h1) k1 h2
    simp only [List.length_cons]
    omega

theorem run_append {prefer : Bool} : ∀ (s1 s2 : List Nat) (st : St), run prefer st (s1 ++ s2) = (run prefer st s1).bind fun st' => run prefer st' s2
  | [], _, _ => rfl
  | t :: ts, s2, st => by
    simp only [List.cons_append, run, Option.bind_assoc]
    cases step prefer st t with
    | none => rfl
    | some s => exact run_append ts s2 s

/-- **C155, no deadlock.** Whatever calls the threads make and however they take turns, as long as the handlers of the sinks only write: while a call is still to be made, some thread
can go on. `p` and `q` say which lock was preferred so far and is preferred now. -/
theorem C155_no_deadlock_partial (p q : Bool) (calls : List (List Call)) (sinks : List Sink) (hc : ∀ cs ∈ calls, ∀ k ∈ cs, QuietCall k) (hs : ∀ s ∈ sinks, Quiet s)
    (sched : List Nat) (st : St) (h : run p (start calls sinks) sched = some st) (hf : ¬ Finished st) : ∃ t st', step q st t = some st' := by
  obtain ⟨t, ht⟩ := step_some (prefer := q) (inv_run (inv_start calls sinks hc hs) h) hf
  obtain ⟨st', e⟩ := Option.isSome_iff_exists.1 ht
  exact ⟨t, st', e⟩

/-- **C155, all calls return.** There is a number of steps that no schedule exceeds; so every schedule that goes on while it can ends with all calls made. -/
theorem C155_all_return_partial (p q : Bool) (calls : List (List Call)) (sinks : List Sink) (hc : ∀ cs ∈ calls, ∀ k ∈ cs, QuietCall k) (hs : ∀ s ∈ sinks, Quiet s) :
    ∃ n, ∀ sched st, run p (start calls sinks) sched = some st → sched.length ≤ n ∧ ((∀ t, step q st t = none) → Finished st) := by
  refine ⟨total (room (start calls sinks)) (start calls sinks), fun sched st h => ⟨?_, ?_⟩⟩
  · have := run_short (inv_start calls sinks hc hs) le_rfl h
    omega
  · intro hn
    by_contra hf
    obtain ⟨t, st', e⟩ := C155_no_deadlock_partial p q calls sinks hc hs sched st h hf
    rw [hn t] at e
    cases e

/-- **C155, the list of sinks stands still.** No sink is added or removed while a thread is on its way through the list of sinks. -/
theorem C155_exclusive_partial (prefer : Bool) (calls : List (List Call)) (sinks : List Sink) (hc : ∀ cs ∈ calls, ∀ k ∈ cs, QuietCall k) (hs : ∀ s ∈ sinks, Quiet s)
    (sched : List Nat) (st st' : St) (t : Nat) (h : run prefer (start calls sinks) sched = some st) (h' : step prefer st t = some st') (hne : st'.sinks ≠ st.sinks) :
    ∀ th ∈ st.threads, ¬ Delivering th := by
  have hi := inv_run (inv_start calls sinks hc hs) h
  have key : st.writer = some t := by
    unfold step at h'
    cases ht : st.threads[t]? with
    | none => rw [ht] at h'; cases h'
    | some h0 =>
      rw [ht] at h'; dsimp only at h'
      have sh := hi.shape t h0 ht
      generalize decide (t ∈ st.readers) = b1 at sh
      generalize e2 : decide (st.writer = some t) = b2 at sh
      generalize decide (st.console = some t) = b3 at sh
      generalize h0.code = c at sh h'
      cases sh <;> simp only at h'
      case put => simpa using e2
      case drop => simpa using e2
      all_goals
        exfalso
        revert h'
        (repeat' split) <;> intro h' <;> cases h' <;> exact hne rfl
  intro th hm ⟨l, i, i0, hin⟩
  obtain ⟨u, hu⟩ := List.mem_iff_getElem?.1 hm
  have sh := hi.shape u th hu
  have : decide (u ∈ st.readers) = false := by rw [hi.excl (by rw [key]; simp)]; rfl
  have := sh.fresh this l i hin
  omega

/-! ## What a message writes -/

/-- What the thread will write before it releases the shared lock. -/
def pending (sinks : List Sink) : List Instr → List (Nat × Nat)
  | [] => []
  | .unlockS :: _ => []
  | .write id l :: c => (id, l) :: pending sinks c
  | .next l i :: c => deliveries (sinks.drop i) l ++ pending sinks c
  | _ :: c => pending sinks c

theorem pending_handler {s : Sink} (hs : Quiet s) (sinks : List Sink) (l : Nat) (c : List Instr) : pending sinks (s.handler l ++ c) = (s.id, l) :: pending sinks c := by
  unfold Sink.handler
  rcases hs with e | e <;> rw [e] <;> rfl

/-- While thread `t` keeps the shared lock, what it has written and will write stays the same. -/
theorem pending_step {prefer : Bool} {st st' : St} {t u : Nat} {h h' : Thread} (hi : Inv st) (hs : step prefer st u = some st') (hr : t ∈ st.readers) (ht : st.threads[t]? = some h)
    (ht' : st'.threads[t]? = some h') (hrel : h'.released = h.released) : t ∈ st'.readers ∧ st'.sinks = st.sinks ∧ h'.wrote ++ pending st'.sinks h'.code = h.wrote ++ pending st.sinks h.code := by
  have wn : st.writer = none := by
    by_contra c
    rw [hi.excl c] at hr; cases hr
  unfold step at hs
  cases hu : st.threads[u]? with
  | none => rw [hu] at hs; cases hs
  | some x =>
    rw [hu] at hs; dsimp only at hs
    have sh := hi.shape u x hu
    rw [wn] at sh
    simp only [reduceCtorEq, decide_false] at sh
    generalize e1 : decide (u ∈ st.readers) = b1 at sh
    generalize decide (st.console = some u) = b3 at sh
    have ul : u < st.threads.length := (List.getElem?_eq_some_iff.1 hu).1
    -- the threads afterwards
    have pick : ∀ y : Thread, st'.threads = st.threads.set u y → (t = u ∧ h = x ∧ h' = y) ∨ (t ≠ u ∧ h' = h) := by
      intro y e
      rw [e] at ht'
      rcases set_cases ht' with ⟨rfl, rfl⟩ | ⟨ne, e2⟩
      · left
        rw [ht] at hu
        cases hu
        exact ⟨rfl, rfl, rfl⟩
      · right
        rw [ht] at e2
        cases e2
        exact ⟨ne, rfl⟩
    have other : ∀ y : Thread, st'.threads = st.threads.set u y → t ∈ st'.readers → st'.sinks = st.sinks →
        y.wrote ++ pending st.sinks y.code = x.wrote ++ pending st.sinks x.code →
        t ∈ st'.readers ∧ st'.sinks = st.sinks ∧ h'.wrote ++ pending st'.sinks h'.code = h.wrote ++ pending st.sinks h.code := by
      intro y e k1 k2 k3
      refine ⟨k1, k2, ?_⟩
      rw [k2]
      rcases pick y e with ⟨rfl, rfl, rfl⟩ | ⟨-, rfl⟩
      · exact k3
      · rfl
    cases hc : x.code with
    | nil => rw [hc] at hs; simp at hs
    | cons a c =>
      rw [hc] at hs sh other
      cases sh with
      | lockS s f =>
        simp only at hs
        split at hs <;> cases hs
        exact other _ rfl (List.mem_cons_of_mem _ hr) rfl rfl
      | unlockS s =>
        simp only at hs
        cases hs
        rcases pick _ rfl with ⟨rfl, rfl, rfl⟩ | ⟨ne, rfl⟩
        · simp at hrel
        · exact ⟨(hi.nodup.mem_erase_iff).2 ⟨ne, hr⟩, rfl, rfl⟩
      | lockX s =>
        simp only at hs
        split at hs
        · rename_i hw
          rw [hw.2] at hr; cases hr
        · cases hs
      | lockC s =>
        simp only at hs
        split at hs <;> cases hs
        exact other _ rfl hr rfl rfl
      | unlockC s => simp only at hs; cases hs; exact other _ rfl hr rfl rfl
      | next s f =>
        simp only at hs
        split at hs
        · rename_i hk
          cases hs
          refine other _ rfl hr rfl ?_
          have : st.sinks.length ≤ _ := List.getElem?_eq_none_iff.1 hk
          simp [pending, List.drop_eq_nil_of_le this, deliveries]
        · rename_i k hk
          cases hs
          refine other _ rfl hr rfl ?_
          obtain ⟨kl, ke⟩ := List.getElem?_eq_some_iff.1 hk
          have hq := hi.quiet k (List.mem_of_getElem? hk)
          simp only [pending]
          rw [List.drop_eq_getElem_cons kl, ke]
          split
          · rename_i le
            rw [pending_handler hq]
            simp [pending, deliveries, le]
          · rename_i le
            simp [pending, deliveries, le]
      | scan s => simp only at hs; cases hs; exact other _ rfl hr rfl rfl
      | flushAll s => simp only at hs; cases hs; exact other _ rfl hr rfl rfl
      | write s =>
        simp only at hs
        cases hs
        refine other _ rfl hr rfl ?_
        simp [pending]
      | guarded s =>
        simp only at hs
        cases hs
        rcases pick _ rfl with ⟨rfl, rfl, rfl⟩ | ⟨ne, rfl⟩
        · have : t ∉ st.readers := by simpa using e1
          exact absurd hr this
        · exact ⟨hr, rfl, rfl⟩

/-- The number of releases never goes down. -/
theorem released_step {prefer : Bool} {st st' : St} {t u : Nat} {h : Thread} (hs : step prefer st u = some st') (ht : st.threads[t]? = some h) :
    ∃ h', st'.threads[t]? = some h' ∧ h.released ≤ h'.released := by
  have tl : t < st.threads.length := (List.getElem?_eq_some_iff.1 ht).1
  unfold step at hs
  cases hu : st.threads[u]? with
  | none => rw [hu] at hs; cases hs
  | some x =>
    rw [hu] at hs; dsimp only at hs
    have pick : ∀ y : Thread, st'.threads = st.threads.set u y → x.released ≤ y.released → ∃ h', st'.threads[t]? = some h' ∧ h.released ≤ h'.released := by
      intro y e k
      rw [e]
      by_cases c : u = t
      · subst c
        rw [ht] at hu
        cases hu
        exact ⟨y, by rw [List.getElem?_set_self tl], k⟩
      · exact ⟨h, by rw [List.getElem?_set_ne c]; exact ht, le_rfl⟩
    cases hc : x.code with
    | nil => rw [hc] at hs; simp at hs
    | cons a c =>
      rw [hc] at hs
      cases a <;> simp only at hs <;> (try split at hs) <;> cases hs <;> exact pick _ rfl (by simp)

theorem released_run {prefer : Bool} : ∀ {sched : List Nat} {st st' : St} {t : Nat} {h : Thread}, run prefer st sched = some st' → st.threads[t]? = some h →
    ∃ h', st'.threads[t]? = some h' ∧ h.released ≤ h'.released
  | [], _, _, _, h, hr, ht => by cases hr; exact ⟨h, ht, le_rfl⟩
  | u :: us, st, st', t, h, hr, ht => by
    rw [run, Option.bind_eq_some_iff] at hr
    obtain ⟨s1, h1, h2⟩ := hr
    obtain ⟨x, x1, x2⟩ := released_step h1 ht
    obtain ⟨y, y1, y2⟩ := released_run h2 x1
    exact ⟨y, y1, x2.trans y2⟩

theorem pending_run {prefer : Bool} : ∀ {sched : List Nat} {st st' : St} {t : Nat} {h h' : Thread}, Inv st → run prefer st sched = some st' → t ∈ st.readers → st.threads[t]? = some h →
    st'.threads[t]? = some h' → h'.released = h.released → st'.sinks = st.sinks ∧ h'.wrote ++ pending st'.sinks h'.code = h.wrote ++ pending st.sinks h.code
  | [], _, _, _, h, h', _, hr, _, ht, ht', _ => by
    cases hr
    rw [ht] at ht'
    cases ht'
    exact ⟨rfl, rfl⟩
  | u :: us, st, st', t, h, h', hi, hr, hm, ht, ht', hrel => by
    rw [run, Option.bind_eq_some_iff] at hr
    obtain ⟨s1, h1, h2⟩ := hr
    obtain ⟨x, x1, x2⟩ := released_step h1 ht
    obtain ⟨y, y1, y2⟩ := released_run h2 x1
    rw [ht'] at y1
    cases y1
    have e : x.released = h.released := by omega
    obtain ⟨k1, k2, k3⟩ := pending_step hi h1 hm ht x1 e
    obtain ⟨m1, m2⟩ := pending_run (inv_step hi h1) h2 k1 x1 ht' (by omega)
    exact ⟨m1.trans k2, m2.trans k3⟩

/-- **C155, delivery.** However the threads take turns: between the moment a thread gets the lock to log a message and the moment it is about to release it, it writes the message
once to every sink that was registered and wants it, in their order, and to no other. -/
theorem C155_delivery_partial (prefer : Bool) (calls : List (List Call)) (sinks : List Sink) (hc : ∀ cs ∈ calls, ∀ k ∈ cs, QuietCall k) (hs : ∀ s ∈ sinks, Quiet s)
    (sched during : List Nat) (t l : Nat) (st locked st' : St) (before after : Thread) (rest rest' : List Instr)
    (h : run prefer (start calls sinks) sched = some st) (hb : st.threads[t]? = some before) (hl : before.code = logString l ++ rest) (hk : step prefer st t = some locked)
    (hd : run prefer locked during = some st') (ha : st'.threads[t]? = some after) (hu : after.code = .unlockS :: rest') (hrel : after.released = before.released) :
    st'.sinks = st.sinks ∧ after.wrote = before.wrote ++ deliveries st.sinks l := by
  have hi := inv_run (inv_start calls sinks hc hs) h
  have hi2 := inv_step hi hk
  have tl : t < st.threads.length := (List.getElem?_eq_some_iff.1 hb).1
  unfold step at hk
  rw [hb] at hk
  simp only [hl, logString, List.cons_append, List.nil_append] at hk
  split at hk <;> cases hk
  obtain ⟨k1, k2⟩ := pending_run (t := t) (h := { before with code := .next l 0 :: .unlockS :: rest }) hi2 hd (by simp) (by simp [tl]) ha hrel
  refine ⟨k1, ?_⟩
  rw [hu] at k2
  simpa [pending] using k2

/-! ## Handlers that log or change sinks -/

/-- **C155 is violated** for a sink that changes its own level while it handles a message: the thread waits for itself. -/
theorem C155_change_violated (prefer : Bool) : ∃ st, run prefer (start [[.string 0]] [⟨7, 0, .changing⟩]) [0, 0, 0] = some st ∧ ¬ Finished st ∧ ∀ t, step prefer st t = none := by
  have e : run prefer (start [[.string 0]] [⟨7, 0, .changing⟩]) [0, 0, 0] =
      some ⟨[⟨removeSink 7 ++ addSink ⟨7, 0, .changing⟩ ++ [.next 0 1, .unlockS], false, [(7, 0)], 0⟩], [⟨7, 0, .changing⟩], [0], none, none⟩ := by
    cases prefer <;> rfl
  refine ⟨_, e, fun hf => ?_, fun t => ?_⟩
  · have := hf _ (List.mem_singleton.2 rfl)
    simp [removeSink] at this
  · cases t with
    | zero => cases prefer <;> rfl
    | succ t => cases prefer <;> rfl

/-- **C155 is violated** for a sink that logs while it handles a message, even at a level that it does not want itself: if another thread waits to remove a sink and is preferred, both
wait for good. -/
theorem C155_log_violated : ∃ st, run true (start [[.string 1], [.flush, .remove 8]] [⟨7, 1, .logging⟩]) [0, 0, 0, 1, 1, 1] = some st ∧ ¬ Finished st ∧ ∀ t, step true st t = none := by
  have e : run true (start [[.string 1], [.flush, .remove 8]] [⟨7, 1, .logging⟩]) [0, 0, 0, 1, 1, 1] =
      some ⟨[⟨logString 0 ++ [.next 1 1, .unlockS], false, [(7, 1)], 0⟩, ⟨removeSink 8, false, [], 1⟩], [⟨7, 1, .logging⟩], [0], none, none⟩ := by
    rfl
  refine ⟨_, e, fun hf => ?_, fun t => ?_⟩
  · have := hf _ (List.mem_cons_self ..)
    simp [logString] at this
  · match t with
    | 0 => rfl
    | 1 => rfl
    | t + 2 => rfl

/-- Two threads that log to a console and a file while a third replaces the file: the theorems speak about them, and the schedule below makes all calls. -/
example : (∀ cs ∈ ([[.messagef 3], [.errorf 4], [.remove 2, .add ⟨3, 0, .plain⟩]] : List (List Call)), ∀ k ∈ cs, QuietCall k) ∧
    (∀ s ∈ ([⟨1, 2, .console⟩, ⟨2, 4, .plain⟩] : List Sink), Quiet s) ∧
    ((run false (start [[.messagef 3], [.errorf 4], [.remove 2, .add ⟨3, 0, .plain⟩]] [⟨1, 2, .console⟩, ⟨2, 4, .plain⟩])
      ([0, 1, 0, 1, 0, 1, 0, 1, 0, 1, 0, 1, 0, 0, 0] ++ List.replicate 5 1 ++ List.replicate 3 0 ++ List.replicate 5 1 ++ List.replicate 6 2)).map
        fun st => (st.threads.map (·.code), st.threads.map (·.wrote), st.sinks.map (·.id))) = some ([[], [], []], [[(1, 3)], [(1, 4), (2, 4)], []], [1, 3]) := by
  refine ⟨?_, ?_, ?_⟩
  · simp [QuietCall, Quiet]
  · simp [Quiet]
  · decide +kernel

end Xo.LogLock
