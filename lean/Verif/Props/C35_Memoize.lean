import Verif.Model.Memo
import Verif.Lemmas.StdMap
import Verif.Lemmas.SharedMutex
import Mathlib.Data.List.Count
import Mathlib.Order.Lattice
import Mathlib.Data.Nat.Basic

/-!
C35: memoization is transparent, and the wrapped function runs at most once per argument.
-/
namespace Xo
variable {K R : Type} [LinearOrder K]
open StdMap (cmp)

/-! ### `memoize` -/

/-- State after the calls `past`: entries are the results of the successful arguments called so far. -/
def Memo.Inv (f : K → Res R) (m : Memo K R) (past : List K) : Prop :=
  m.mem.Sorted ∧
  (∀ a r, m.mem.find cmp a = some r ↔ a ∈ past ∧ f a = .ok r) ∧
  (∀ a r, f a = .ok r → m.calls.count a = if a ∈ past then 1 else 0) ∧
  (∀ a, (∀ r, f a ≠ .ok r) → m.calls.count a = past.count a)

theorem C35_call (f : K → Res R) (m : Memo K R) (past : List K) (h : m.Inv f past) (a : K) :
    (m.call cmp f a).1 = f a ∧ (m.call cmp f a).2.Inv f (a :: past) := by
  obtain ⟨hs, hm, hc, he⟩ := h
  unfold Memo.call
  cases hf : m.mem.find cmp a with
  | some r =>
    have ⟨hp, hfa⟩ := (hm a r).1 hf
    refine ⟨hfa.symm, hs, ?_, ?_, ?_⟩
    · intro b q
      rw [hm b q]
      constructor
      · rintro ⟨h1, h2⟩; exact ⟨List.mem_cons_of_mem _ h1, h2⟩
      · rintro ⟨h1, h2⟩
        rcases List.mem_cons.1 h1 with rfl | h1
        · exact ⟨hp, h2⟩
        · exact ⟨h1, h2⟩
    · intro b q hb
      rw [hc b q hb]
      by_cases hba : b = a
      · subst hba; simp [hp]
      · simp [hba]
    · intro b hb
      rw [he b hb, List.count_cons]
      have : (a == b) = false := by
        simp only [beq_eq_false_iff_ne, ne_eq]; rintro rfl; exact hb r hfa
      simp [this]
  | none =>
    have hnot : ∀ r, f a = .ok r → a ∉ past := by
      intro r hr hp
      rw [(hm a r).2 ⟨hp, hr⟩] at hf; cases hf
    cases hfa : f a with
    | ok r =>
      refine ⟨rfl, StdMap.sorted_put hs a r, ?_, ?_, ?_⟩
      · intro b q
        rw [StdMap.find_put hs]
        split
        · next hb => subst hb; simp [hfa]
        · next hb => rw [hm b q]; simp [hb]
      · intro b q hb
        have := hc b q hb
        by_cases hba : b = a
        · subst hba
          rw [if_neg (hnot r hfa)] at this
          simp [this]
        · have h' : (a == b) = false := by simp [Ne.symm hba]
          simp [List.count_cons, h', this, hba]
      · intro b hb
        have h' : (a == b) = false := by
          simp only [beq_eq_false_iff_ne, ne_eq]; rintro rfl; exact hb r hfa
        simp [List.count_cons, h', he b hb]
    | err =>
      refine ⟨rfl, hs, ?_, ?_, ?_⟩
      · intro b q
        rw [hm b q]
        by_cases hba : b = a
        · subst hba; simp [hfa]
        · simp [hba]
      · intro b q hb
        have hba : b ≠ a := by rintro rfl; rw [hb] at hfa; cases hfa
        have h' : (a == b) = false := by simp [Ne.symm hba]
        simp [List.count_cons, h', hc b q hb, hba]
      · intro b hb
        simp only [List.count_cons, he b hb]
    | ub =>
      refine ⟨rfl, hs, ?_, ?_, ?_⟩
      · intro b q
        rw [hm b q]
        by_cases hba : b = a
        · subst hba; simp [hfa]
        · simp [hba]
      · intro b q hb
        have hba : b ≠ a := by rintro rfl; rw [hb] at hfa; cases hfa
        have h' : (a == b) = false := by simp [Ne.symm hba]
        simp [List.count_cons, h', hc b q hb, hba]
      · intro b hb
        simp only [List.count_cons, he b hb]

theorem C35_run (f : K → Res R) (args : List K) :
    ∀ (m : Memo K R) (past : List K), m.Inv f past →
      (m.run cmp f args).1 = args.map f ∧ (m.run cmp f args).2.Inv f (args.reverse ++ past) := by
  induction args with
  | nil => intro m past h; exact ⟨rfl, h⟩
  | cons a args ih =>
    intro m past h
    have h1 := C35_call f m past h a
    have h2 := ih _ _ h1.2
    simp only [Memo.run, List.map_cons]
    exact ⟨by rw [h1.1, h2.1], by simpa using h2.2⟩

/-- **C35, single thread.** For every history of calls with a totally ordered argument type, every call returns
what the function returns (or throws what it throws), and the function has been called exactly once for each
argument on which it returns. -/
theorem C35_memoize_transparent (f : K → Res R) (args : List K) :
    let r := (Memo.empty : Memo K R).run cmp f args
    r.1 = args.map f ∧
    (∀ a v, f a = .ok v → r.2.calls.count a = if a ∈ args then 1 else 0) := by
  have h := C35_run f args (Memo.empty : Memo K R) []
    ⟨StdMap.sorted_empty, by simp [Memo.empty, StdMap.find_empty], by simp [Memo.empty], by simp [Memo.empty]⟩
  refine ⟨h.1, fun a v ha => ?_⟩
  have := h.2.2.2.1 a v ha
  simpa using this

/-- A failure is not remembered: a function that throws is called again for every call. So "at most once" holds
for arguments on which it returns only. -/
theorem C35_at_most_once_violated_for_throwing (f : K → Res R) (a : K) (ha : ∀ r, f a ≠ .ok r) (n : Nat) :
    ((Memo.empty : Memo K R).run cmp f (List.replicate n a)).2.calls.count a = n := by
  have h := C35_run f (List.replicate n a) (Memo.empty : Memo K R) []
    ⟨StdMap.sorted_empty, by simp [Memo.empty, StdMap.find_empty], by simp [Memo.empty], by simp [Memo.empty]⟩
  have := h.2.2.2.2 a ha
  simpa using this

/-- If two arguments compare neither below nor above each other (a floating-point NaN and any number), the second
call returns the result of the first. -/
theorem C35_incomparable_arguments_collide {K R : Type} (lt : K → K → Bool) (f : K → Res R) (a b : K) (r : R)
    (ha : f a = .ok r) (h1 : lt a b = false) (h2 : lt b a = false) :
    ((Memo.empty : Memo K R).run lt f [a, b]).1 = [.ok r, .ok r] := by
  simp [Memo.run, Memo.call, Memo.empty, StdMap.find, StdMap.empty, StdMap.findL, StdMap.put, StdMap.putL, ha, h1, h2]

/-- Doubles with NaN as `none`. -/
def nanLt : Option Int → Option Int → Bool
  | some a, some b => decide (a < b)
  | _, _ => false

/-- **C35 is violated for floating-point arguments.** With the order of `double`, calling the memoized function
with 1 and then with NaN gives the value of 1 for NaN. -/
theorem C35_transparent_violated_for_nan :
    ∃ (f : Option Int → Res Int) (args : List (Option Int)),
      ((Memo.empty : Memo (Option Int) Int).run nanLt f args).1 ≠ args.map f :=
  ⟨fun a => .ok (a.getD 0), [some 1, none], by decide +kernel⟩

/-- Non-vacuity: a function on three arguments, one of which throws. -/
example : (Memo.empty.run cmp (fun n : Nat => if n = 2 then .err else .ok (n * n)) [3, 2, 3, 2, 5]).1
    = [.ok 9, .err, .ok 9, .err, .ok 25] ∧
    (Memo.empty.run cmp (fun n : Nat => if n = 2 then .err else .ok (n * n)) [3, 2, 3, 2, 5]).2.calls
    = [5, 2, 2, 3] := by decide +kernel

/-! ### `memoize` around a function that calls the memoizer -/

namespace Spec

/-- Running a program without any memory, in `n` steps. -/
inductive PlainEval {K R : Type} (body : K → MemoProg K R) : MemoProg K R → Nat → Res R → Prop
  | ret {r} : PlainEval body (.ret r) 0 (.ok r)
  | throw : PlainEval body .throw 0 .err
  | callOk {a next v n1 n2 o} : PlainEval body (body a) n1 (.ok v) → PlainEval body (next v) n2 o →
      PlainEval body (.call a next) (n1 + n2 + 1) o
  | callErr {a next n1} : PlainEval body (body a) n1 .err → PlainEval body (.call a next) (n1 + 1) .err

end Spec

theorem PlainEval_unique {body : K → MemoProg K R} {p : MemoProg K R} {n n' : Nat} {o o' : Res R}
    (h : Spec.PlainEval body p n o) (h' : Spec.PlainEval body p n' o') : n = n' ∧ o = o' := by
  induction h generalizing n' o' with
  | ret => cases h'; exact ⟨rfl, rfl⟩
  | throw => cases h'; exact ⟨rfl, rfl⟩
  | callOk _ _ ih1 ih2 =>
    cases h' with
    | callOk h1 h2 =>
      obtain ⟨rfl, e⟩ := ih1 h1; cases e
      obtain ⟨rfl, e⟩ := ih2 h2
      exact ⟨rfl, e⟩
    | callErr h1 => have := (ih1 h1).2; cases this
  | callErr _ ih1 =>
    cases h' with
    | callOk h1 h2 => have := (ih1 h1).2; cases this
    | callErr h1 => obtain ⟨rfl, _⟩ := ih1 h1; exact ⟨rfl, rfl⟩

/-- Every entry is what the function returns without memory. -/
def Memo.Sound (body : K → MemoProg K R) (m : StdMap K R) : Prop :=
  m.Sorted ∧ ∀ a v, m.find cmp a = some v → ∃ n, Spec.PlainEval body (body a) n (.ok v)

theorem memoEval_sound {body : K → MemoProg K R} {m m' : StdMap K R} {p : MemoProg K R} {log : List K} {o : Res R}
    (h : MemoEval cmp body m p m' log o) (hs : Memo.Sound body m) :
    Memo.Sound body m' ∧ (∃ n, Spec.PlainEval body p n o) ∧
    (∀ a v, m.find cmp a = some v → m'.find cmp a = some v) ∧
    (∀ a ∈ log, m.find cmp a = none) ∧
    (∀ r, o = .ok r → ∀ a ∈ log, (m'.find cmp a).isSome) ∧
    (∀ n, Spec.PlainEval body p n o → ∀ a ∈ log, ∃ n' r, n' < n ∧ Spec.PlainEval body (body a) n' r) ∧
    log.Nodup := by
  induction h with
  | ret => exact ⟨hs, ⟨0, .ret⟩, fun _ _ h => h, by simp, by simp, by simp, List.nodup_nil⟩
  | throw => exact ⟨hs, ⟨0, .throw⟩, fun _ _ h => h, by simp, by simp, by simp, List.nodup_nil⟩
  | @hit m a next v m' log o hf _ ih =>
    obtain ⟨h1, ⟨n, h2⟩, h3, h4, h5, h6, h7⟩ := ih hs
    obtain ⟨na, hna⟩ := hs.2 a v hf
    refine ⟨h1, ⟨na + n + 1, .callOk hna h2⟩, h3, h4, h5, ?_, h7⟩
    intro k hk b hb
    obtain ⟨rfl, _⟩ := PlainEval_unique hk (.callOk hna h2)
    obtain ⟨n', r, hlt, hp⟩ := h6 n h2 b hb
    exact ⟨n', r, by omega, hp⟩
  | @missOk m a next v m1 log1 m' log2 o hf _ _ ih1 ih2 =>
    obtain ⟨a1, ⟨na, a2⟩, a3, a4, a5, a6, a7⟩ := ih1 hs
    have hs2 : Memo.Sound body (m1.put cmp a v) := by
      refine ⟨StdMap.sorted_put a1.1 a v, fun b w hb => ?_⟩
      rw [StdMap.find_put a1.1] at hb
      split at hb
      · next e => subst e; cases hb; exact ⟨na, a2⟩
      · exact a1.2 b w hb
    obtain ⟨b1, ⟨nb, b2⟩, b3, b4, b5, b6, b7⟩ := ih2 hs2
    have hanot : a ∉ log1 := by
      intro hm
      obtain ⟨n', r, hlt, hp⟩ := a6 na a2 a hm
      obtain ⟨e, _⟩ := PlainEval_unique hp a2
      omega
    have up : ∀ b w, m1.find cmp b = some w → (m'.find cmp b).isSome := by
      intro b w hb
      by_cases hba : b = a
      · subst hba
        have : (m1.put cmp b v).find cmp b = some v := by rw [StdMap.find_put a1.1]; simp
        rw [b3 b v this]; rfl
      · have : (m1.put cmp a v).find cmp b = some w := by rw [StdMap.find_put a1.1, if_neg hba]; exact hb
        rw [b3 b w this]; rfl
    have low : ∀ b, (m1.put cmp a v).find cmp b = none → b ≠ a ∧ m1.find cmp b = none := by
      intro b hb
      rw [StdMap.find_put a1.1] at hb
      split at hb
      · cases hb
      · next e => exact ⟨e, hb⟩
    have low1 : ∀ b, m1.find cmp b = none → m.find cmp b = none := by
      intro b hb
      cases hm : m.find cmp b with
      | none => rfl
      | some w => rw [a3 b w hm] at hb; cases hb
    refine ⟨b1, ⟨na + nb + 1, .callOk a2 b2⟩, ?_, ?_, ?_, ?_, ?_⟩
    · intro b w hb
      have h1 := a3 b w hb
      have hba : b ≠ a := by rintro rfl; rw [hf] at hb; cases hb
      exact b3 b w (by rw [StdMap.find_put a1.1, if_neg hba]; exact h1)
    · intro b hb
      rcases List.mem_cons.1 hb with rfl | hb
      · exact hf
      · rcases List.mem_append.1 hb with hb | hb
        · exact a4 b hb
        · exact low1 b (low b (b4 b hb)).2
    · intro r hr b hb
      rcases List.mem_cons.1 hb with rfl | hb
      · have : (m1.put cmp b v).find cmp b = some v := by rw [StdMap.find_put a1.1]; simp
        rw [b3 b v this]; rfl
      · rcases List.mem_append.1 hb with hb | hb
        · have := a5 v rfl b hb
          obtain ⟨w, hw⟩ := Option.isSome_iff_exists.1 this
          exact up b w hw
        · exact b5 r hr b hb
    · intro n hn b hb
      obtain ⟨rfl, _⟩ := PlainEval_unique hn (.callOk a2 b2)
      rcases List.mem_cons.1 hb with rfl | hb
      · exact ⟨na, .ok v, by omega, a2⟩
      · rcases List.mem_append.1 hb with hb | hb
        · obtain ⟨n', r, hlt, hp⟩ := a6 na a2 b hb
          exact ⟨n', r, by omega, hp⟩
        · obtain ⟨n', r, hlt, hp⟩ := b6 nb b2 b hb
          exact ⟨n', r, by omega, hp⟩
    · rw [List.nodup_cons, List.nodup_append]
      refine ⟨?_, a7, b7, ?_⟩
      · rw [List.mem_append]
        rintro (h | h)
        · exact hanot h
        · exact (low a (b4 a h)).1 rfl
      · rintro x hx y hy rfl
        have h1 := a5 v rfl x hx
        rw [(low x (b4 x hy)).2] at h1; cases h1
  | @missErr m a next m1 log1 hf _ ih1 =>
    obtain ⟨a1, ⟨na, a2⟩, a3, a4, a5, a6, a7⟩ := ih1 hs
    have hanot : a ∉ log1 := by
      intro hm
      obtain ⟨n', r, hlt, hp⟩ := a6 na a2 a hm
      obtain ⟨e, _⟩ := PlainEval_unique hp a2
      omega
    refine ⟨a1, ⟨na + 1, .callErr a2⟩, a3, ?_, by simp, ?_, List.nodup_cons.2 ⟨hanot, a7⟩⟩
    · intro b hb
      rcases List.mem_cons.1 hb with rfl | hb
      · exact hf
      · exact a4 b hb
    · intro n hn b hb
      obtain ⟨rfl, _⟩ := PlainEval_unique hn (.callErr a2)
      rcases List.mem_cons.1 hb with rfl | hb
      · exact ⟨na, .err, by omega, a2⟩
      · obtain ⟨n', r, hlt, hp⟩ := a6 na a2 b hb
        exact ⟨n', r, by omega, hp⟩

/-- **C35, recursive functions.** If the wrapped function calls the memoizer (a recursive definition) and a call
ends, then from any memory holding correct entries it ends with what plain recursion gives; no argument is
evaluated twice during the call, none that was remembered is evaluated, and the memory stays correct and keeps all
entries. -/
theorem C35_recursive_transparent (body : K → MemoProg K R) (m m' : StdMap K R) (a : K) (log : List K) (o : Res R)
    (hs : Memo.Sound body m) (h : MemoEval cmp body m (.call a .ret) m' log o) :
    (∃ n, Spec.PlainEval body (body a) n o) ∧ log.Nodup ∧ (∀ b ∈ log, m.find cmp b = none) ∧
    Memo.Sound body m' ∧ (∀ b v, m.find cmp b = some v → m'.find cmp b = some v) := by
  obtain ⟨h1, ⟨n, h2⟩, h3, h4, _, _, h7⟩ := memoEval_sound h hs
  refine ⟨?_, h7, h4, h1, h3⟩
  cases h2 with
  | callOk e1 e2 => cases e2; exact ⟨_, e1⟩
  | callErr e1 => exact ⟨_, e1⟩

/-- Fibonacci through the memoizer. -/
def fibBody : Nat → MemoProg Nat Nat
  | 0 => .ret 0
  | 1 => .ret 1
  | n + 2 => .call (n + 1) fun x => .call n fun y => .ret (x + y)

/-- Non-vacuity: the memoized `fib 3` evaluates 3, 2, 1, 0 once each and gives 2. -/
example : ∃ m', MemoEval cmp fibBody StdMap.empty (.call 3 .ret) m' [3, 2, 1, 0] (.ok 2) := by
  refine ⟨_, .missOk (v := 2) (log1 := [2, 1, 0]) (log2 := []) (by rfl) (.missOk (v := 1) (log1 := [1, 0]) (log2 := []) (by rfl)
    (.missOk (v := 1) (log1 := []) (log2 := [0]) (by rfl) .ret (.missOk (v := 0) (log1 := []) (log2 := []) (by decide +kernel) .ret .ret))
    (.hit (v := 1) (by decide +kernel) .ret)) .ret⟩

example : Memo.Sound fibBody (StdMap.empty : StdMap Nat Nat) := ⟨StdMap.sorted_empty, by simp [StdMap.find_empty]⟩

/-! ### `memoize_thread_safe` -/

namespace MemoTs

/-- What a thread holds at each point. -/
def mode : MemoPc K → LockMode
  | .idle => .nothing
  | .wantShared _ => .nothing
  | .shared _ => .shared
  | .wantUnique _ => .nothing
  | .unique _ => .unique
  | .running _ => .unique

/-- What holds between any two steps of any threads. -/
structure Inv (f : K → Res R) (s : MemoTs K R) : Prop where
  lock : LockInv s.mtx fun t => mode (s.pc t)
  sorted : s.mem.Sorted
  sound : ∀ a r, s.mem.find cmp a = some r → f a = .ok r
  fresh : ∀ t a, s.pc t = .running a → s.mem.find cmp a = none ∧ (∀ r, f a = .ok r → s.calls.count a = 1)
  calls : ∀ a r, f a = .ok r → (∀ t, s.pc t ≠ .running a) →
    s.calls.count a = if (s.mem.find cmp a).isSome then 1 else 0
  results : ∀ t a o, (t, a, o) ∈ s.results → o = f a ∧ (∀ r, o = .ok r → (s.mem.find cmp a).isSome)

theorem inv_init (f : K → Res R) : Inv f (init : MemoTs K R) := by
  refine ⟨LockInv.free, StdMap.sorted_empty, ?_, ?_, ?_, ?_⟩ <;>
    simp [init, StdMap.find_empty]

/-- A step that touches only the mutex, the program counter of `t` (neither before nor after inside `func_`) and
the results. -/
theorem inv_quiet {f : K → Res R} {s : MemoTs K R} (h : Inv f s) (t : Nat) (p : MemoPc K) (m : SharedMutex)
    (res : List (Nat × K × Res R))
    (hold : ∀ a, s.pc t ≠ .running a) (hnew : ∀ a, p ≠ .running a)
    (hl : LockInv m (setPc (fun u => mode (s.pc u)) t (mode p)))
    (hres : ∀ t a o, (t, a, o) ∈ res → o = f a ∧ (∀ r, o = .ok r → (s.mem.find cmp a).isSome)) :
    Inv f { s with mtx := m, pc := setPc s.pc t p, results := res } := by
  have hpc : ∀ u a, setPc s.pc t p u = .running a ↔ s.pc u = .running a := by
    intro u a
    by_cases hu : u = t
    · subst hu; simp [hold a, hnew a]
    · rw [setPc_ne _ _ hu]
  refine ⟨?_, h.sorted, h.sound, ?_, ?_, hres⟩
  · show LockInv m fun u => mode (setPc s.pc t p u)
    rw [LockInv.comp_setPc]; exact hl
  · intro u a hu; exact h.fresh u a ((hpc u a).1 hu)
  · intro a r ha hn
    exact h.calls a r ha fun u hu => hn u ((hpc u a).2 hu)

theorem inv_step (f : K → Res R) (s s' : MemoTs K R) (h : Inv f s) (t : Nat) (arg : K)
    (hs : s.step cmp f t arg = some s') : Inv f s' := by
  unfold step at hs
  cases hp : s.pc t with
  | idle =>
    simp only [hp] at hs; cases hs
    exact inv_quiet h t _ s.mtx s.results (by simp [hp]) (by simp)
      (h.lock.stay t (by simp [hp, mode])) h.results
  | wantShared a =>
    simp only [hp] at hs
    cases hm : s.mtx.lockShared t with
    | none => simp [hm] at hs
    | some m =>
      simp only [hm] at hs; cases hs
      exact inv_quiet h t _ m s.results (by simp [hp]) (by simp)
        (h.lock.lockShared (by simp [hp, mode]) hm) h.results
  | shared a =>
    simp only [hp] at hs
    cases hf : s.mem.find cmp a with
    | some r =>
      simp only [hf] at hs; cases hs
      refine inv_quiet h t _ _ _ (by simp [hp]) (by simp) (h.lock.unlockShared (by simp [hp, mode])) ?_
      intro t' a' o hm
      rcases List.mem_cons.1 hm with e | hm
      · cases e; exact ⟨(h.sound a r hf).symm, fun _ _ => by rw [hf]; rfl⟩
      · exact h.results t' a' o hm
    | none =>
      simp only [hf] at hs; cases hs
      exact inv_quiet h t _ _ s.results (by simp [hp]) (by simp) (h.lock.unlockShared (by simp [hp, mode])) h.results
  | wantUnique a =>
    simp only [hp] at hs
    cases hm : s.mtx.lock t with
    | none => simp [hm] at hs
    | some m =>
      simp only [hm] at hs; cases hs
      exact inv_quiet h t _ m s.results (by simp [hp]) (by simp) (h.lock.lock hm) h.results
  | unique a =>
    simp only [hp] at hs
    cases hf : s.mem.find cmp a with
    | some r =>
      simp only [hf] at hs; cases hs
      refine inv_quiet h t _ _ _ (by simp [hp]) (by simp) (h.lock.unlock (by simp [hp, mode])) ?_
      intro t' a' o hm
      rcases List.mem_cons.1 hm with e | hm
      · cases e; exact ⟨(h.sound a r hf).symm, fun _ _ => by rw [hf]; rfl⟩
      · exact h.results t' a' o hm
    | none =>
      simp only [hf] at hs; cases hs
      have hno : ∀ b u, s.pc u ≠ .running b := by
        intro b u hu
        have : u = t := h.lock.unique_owner (by simp [hu, mode]) (by simp [hp, mode])
        subst this; rw [hp] at hu; cases hu
      refine ⟨?_, h.sorted, h.sound, ?_, ?_, h.results⟩
      · show LockInv s.mtx fun u => mode (setPc s.pc t (.running a) u)
        rw [LockInv.comp_setPc]; exact h.lock.stay t (by simp [hp, mode])
      · intro u b hu
        by_cases hut : u = t
        · subst hut
          simp only [setPc_same, MemoPc.running.injEq] at hu; subst hu
          refine ⟨hf, fun r hr => ?_⟩
          have := h.calls a r hr (hno a)
          simp only [hf, Option.isSome, Bool.false_eq_true, if_false] at this
          simp [this]
        · simp only [setPc_ne _ _ hut] at hu; exact absurd hu (hno b u)
      · intro b r hb hn
        have hba : a ≠ b := by rintro rfl; exact hn t (by simp)
        have := h.calls b r hb (hno b)
        have h' : (a == b) = false := by simp [hba]
        simp only [List.count_cons, h']
        simpa using this
  | running a =>
    simp only [hp] at hs
    have hfr := h.fresh t a hp
    have hrun : ∀ u b, s.pc u = .running b → u = t ∧ b = a := by
      intro u b hu
      have : u = t := h.lock.unique_owner (by simp [hu, mode]) (by simp [hp, mode])
      subst this; rw [hp] at hu; cases hu; exact ⟨rfl, rfl⟩
    have hidle : ∀ u b, setPc s.pc t MemoPc.idle u ≠ .running b := by
      intro u b hu
      by_cases hut : u = t
      · subst hut; simp at hu
      · rw [setPc_ne _ _ hut] at hu; exact hut (hrun u b hu).1
    have hlock : LockInv s.mtx.unlock fun u => mode (setPc s.pc t (.idle : MemoPc K) u) := by
      rw [LockInv.comp_setPc]; exact h.lock.unlock (by simp [hp, mode])
    have hother : ∀ b, b ≠ a → ∀ u, s.pc u ≠ .running b := fun b hb u hu => hb (hrun u b hu).2
    have hbad : ∀ o, (∀ r, o ≠ .ok r) → f a = o → Inv f { s with
        mtx := s.mtx.unlock, pc := setPc s.pc t .idle, results := (t, a, o) :: s.results } := by
      intro o ho hfa
      refine ⟨hlock, h.sorted, h.sound, fun u b hu => absurd hu (hidle u b), ?_, ?_⟩
      · intro b r hb _
        have hba : b ≠ a := by rintro rfl; rw [hb] at hfa; exact ho r hfa.symm
        exact h.calls b r hb (hother b hba)
      · intro t' a' o' hm
        rcases List.mem_cons.1 hm with e | hm
        · cases e; exact ⟨hfa.symm, fun r hr => absurd hr (ho r)⟩
        · exact h.results t' a' o' hm
    cases hfa : f a with
    | ok r =>
      simp only [hfa] at hs; cases hs
      refine ⟨hlock, StdMap.sorted_put h.sorted a r, ?_, fun u b hu => absurd hu (hidle u b), ?_, ?_⟩
      · intro b q hb
        simp only [StdMap.find_put h.sorted] at hb
        split at hb
        · next e => subst e; cases hb; exact hfa
        · exact h.sound b q hb
      · intro b q hb _
        simp only [StdMap.find_put h.sorted]
        by_cases hba : b = a
        · subst hba; simp [hfr.2 r hfa]
        · rw [if_neg hba]; exact h.calls b q hb (hother b hba)
      · intro t' a' o hm
        simp only [StdMap.find_put h.sorted]
        rcases List.mem_cons.1 hm with e | hm
        · cases e; exact ⟨hfa.symm, by simp⟩
        · have := h.results t' a' o hm
          refine ⟨this.1, fun q hq => ?_⟩
          split
          · rfl
          · exact this.2 q hq
    | err => simp only [hfa] at hs; cases hs; exact hbad .err (by simp) hfa
    | ub => simp only [hfa] at hs; cases hs; exact hbad .ub (by simp) hfa

theorem inv_run (f : K → Res R) (sched : List (Nat × K)) :
    ∀ s : MemoTs K R, Inv f s → Inv f (s.run cmp f sched) := by
  induction sched with
  | nil => intro s h; exact h
  | cons x sched ih =>
    intro s h
    obtain ⟨t, a⟩ := x
    simp only [run]
    apply ih
    cases hs : s.step cmp f t a with
    | none => simpa using h
    | some s' => simpa using inv_step f s s' h t a hs

end MemoTs

/-- **C35, any interleaving.** For any number of threads and any schedule, every finished call returned what the
function returns for its argument, and the function has been called at most once for each argument on which it
returns — exactly once if some call for it has finished. -/
theorem C35_thread_safe_transparent (f : K → Res R) (sched : List (Nat × K)) :
    let s := (MemoTs.init : MemoTs K R).run cmp f sched
    (∀ t a o, (t, a, o) ∈ s.results → o = f a) ∧
    (∀ a r, f a = .ok r → s.calls.count a ≤ 1) ∧
    (∀ t a r, (t, a, .ok r) ∈ s.results → s.calls.count a = 1) := by
  have h := MemoTs.inv_run f sched MemoTs.init (MemoTs.inv_init f)
  intro s
  have cnt : ∀ a r, f a = .ok r → s.calls.count a ≤ 1 ∧ ((s.mem.find cmp a).isSome → s.calls.count a = 1) := by
    intro a r ha
    by_cases hr : ∃ t, s.pc t = .running a
    · obtain ⟨t, ht⟩ := hr
      have := (h.fresh t a ht).2 r ha
      change s.calls.count a = 1 at this
      omega
    · have := h.calls a r ha fun t ht => hr ⟨t, ht⟩
      change s.calls.count a = if (s.mem.find cmp a).isSome then 1 else 0 at this
      refine ⟨by rw [this]; split <;> omega, fun hm => by rw [this, if_pos hm]⟩
  refine ⟨fun t a o hm => (h.results t a o hm).1, fun a r ha => (cnt a r ha).1, fun t a r hm => ?_⟩
  have hres := h.results t a (.ok r) hm
  exact (cnt a r hres.1.symm).2 (hres.2 r rfl)

/-- No data race: while a thread changes the memory no other thread is reading or changing it. -/
theorem C35_no_data_race (f : K → Res R) (sched : List (Nat × K)) (t u : Nat) (a b : K)
    (ht : ((MemoTs.init : MemoTs K R).run cmp f sched).pc t = .running a) :
    ((MemoTs.init : MemoTs K R).run cmp f sched).pc u ≠ .shared b ∧
    (((MemoTs.init : MemoTs K R).run cmp f sched).pc u = .running b → u = t) := by
  have h := MemoTs.inv_run f sched MemoTs.init (MemoTs.inv_init f)
  refine ⟨fun hu => ?_, fun hu => ?_⟩
  · exact h.lock.no_shared (t := t) (u := u) (by simp [ht, MemoTs.mode]) (by simp [hu, MemoTs.mode])
  · exact h.lock.unique_owner (by simp [hu, MemoTs.mode]) (by simp [ht, MemoTs.mode])

/-- No deadlock: whatever the schedule so far, some thread that is inside a call can move, if there is one. -/
theorem C35_no_deadlock (f : K → Res R) (sched : List (Nat × K)) (t : Nat) (arg : K)
    (ht : ((MemoTs.init : MemoTs K R).run cmp f sched).pc t ≠ .idle) :
    ∃ u, ((MemoTs.init : MemoTs K R).run cmp f sched).pc u ≠ .idle ∧
      (((MemoTs.init : MemoTs K R).run cmp f sched).step cmp f u arg).isSome := by
  have h := MemoTs.inv_run f sched MemoTs.init (MemoTs.inv_init f)
  generalize (MemoTs.init : MemoTs K R).run cmp f sched = s at h ht
  by_cases hh : ∃ u, MemoTs.mode (s.pc u) ≠ .nothing
  · obtain ⟨u, hu⟩ := hh
    refine ⟨u, fun e => hu (by rw [e]; rfl), ?_⟩
    unfold MemoTs.step
    cases hp : s.pc u with
    | idle => simp
    | wantShared a => simp [hp, MemoTs.mode] at hu
    | wantUnique a => simp [hp, MemoTs.mode] at hu
    | shared a => simp only []; split <;> rfl
    | unique a => simp only []; split <;> rfl
    | running a => simp only []; split <;> rfl
  · have hn : ∀ u, MemoTs.mode (s.pc u) = .nothing := fun u => by
      by_contra hc; exact hh ⟨u, hc⟩
    have he := h.lock.enabled_of_free hn t
    refine ⟨t, ht, ?_⟩
    unfold MemoTs.step
    cases hp : s.pc t with
    | idle => simp
    | wantShared a =>
      obtain ⟨m, hm⟩ := Option.isSome_iff_exists.1 he.2
      simp [hm]
    | wantUnique a =>
      obtain ⟨m, hm⟩ := Option.isSome_iff_exists.1 he.1
      simp [hm]
    | shared a => simp only []; split <;> rfl
    | unique a => simp only []; split <;> rfl
    | running a => simp only []; split <;> rfl

/-- Beyond C35: while the wrapped function runs, nobody can take the lock that a call begins with. A wrapped
function that calls the memoizer itself (or waits for a thread that does) never returns, although the version
without locks supports it. -/
theorem C35_recursive_call_blocks (f : K → Res R) (sched : List (Nat × K)) (t : Nat) (a : K)
    (ht : ((MemoTs.init : MemoTs K R).run cmp f sched).pc t = .running a) (u : Nat) :
    ((MemoTs.init : MemoTs K R).run cmp f sched).mtx.lockShared u = none := by
  have h := MemoTs.inv_run f sched MemoTs.init (MemoTs.inv_init f)
  have hw := (h.lock.writer t).2 (by simp [ht, MemoTs.mode])
  simp [SharedMutex.lockShared, hw]

/-- Non-vacuity: two threads race for argument 3; both miss, the second finds the entry of the first. -/
def memoRace : MemoTs Nat Nat :=
  MemoTs.init.run cmp (fun n => .ok (n * n))
    [(0, 3), (1, 3), (0, 0), (1, 0), (0, 0), (1, 0), (0, 0), (1, 0), (0, 0), (0, 0), (1, 0), (1, 0)]

example : memoRace.results = [(1, 3, .ok 9), (0, 3, .ok 9)] ∧ memoRace.calls = [3] := by decide +kernel

/-- Non-vacuity: thread 0 inside the wrapped function. -/
example : ((MemoTs.init : MemoTs Nat Nat).run cmp (fun n => .ok (n * n))
    [(0, 3), (0, 0), (0, 0), (0, 0), (0, 0)]).pc 0 = .running 3 := by decide +kernel

end Xo
