import Verif.Model.SharedMutex
import Mathlib.Data.List.Basic

/-!
The owners of a shared mutex agree with what the threads believe to hold.
-/
namespace Xo

/-- What a thread holds. -/
inductive LockMode where
  | nothing
  | shared
  | unique
  deriving DecidableEq

/-- The mutex owners are exactly the threads that hold it, and an exclusive owner is alone. -/
structure LockInv (m : SharedMutex) (held : Nat → LockMode) : Prop where
  writer : ∀ t, m.writer = some t ↔ held t = .unique
  readers : ∀ t, t ∈ m.readers ↔ held t = .shared
  excl : m.writer ≠ none → m.readers = []

namespace LockInv
variable {m m' : SharedMutex} {held : Nat → LockMode}

theorem comp_setPc {P : Type} (mode : P → LockMode) (pc : Nat → P) (t : Nat) (p : P) :
    (fun u => mode (setPc pc t p u)) = setPc (fun u => mode (pc u)) t (mode p) := by
  funext u; unfold setPc; split <;> rfl

theorem free : LockInv SharedMutex.free fun _ => .nothing := by
  constructor <;> simp [SharedMutex.free]

/-- A step that neither takes nor releases. -/
theorem stay (h : LockInv m held) (t : Nat) {x : LockMode} (hx : held t = x) : LockInv m (setPc held t x) := by
  have : setPc held t x = held := by
    funext u; unfold setPc; split
    · next e => rw [e, hx]
    · rfl
  rw [this]; exact h

theorem lockShared (h : LockInv m held) {t : Nat} (ht : held t = .nothing) (he : m.lockShared t = some m') :
    LockInv m' (setPc held t .shared) := by
  unfold SharedMutex.lockShared at he
  split at he
  · next hw =>
    cases he
    refine ⟨fun u => ?_, fun u => ?_, by simp⟩
    · have := h.writer u
      by_cases hu : u = t
      · subst hu; simp
      · rw [setPc_ne _ _ hu, ← this, hw]
    · by_cases hu : u = t
      · subst hu; simp
      · rw [setPc_ne _ _ hu, ← h.readers u]; simp [hu]
  · cases he

theorem unlockShared (h : LockInv m held) {t : Nat} (ht : held t = .shared) :
    LockInv (m.unlockShared t) (setPc held t .nothing) := by
  refine ⟨fun u => ?_, fun u => ?_, fun hw => ?_⟩
  · by_cases hu : u = t
    · subst hu
      have := h.writer u
      simp [SharedMutex.unlockShared, this, ht]
    · rw [setPc_ne _ _ hu]; exact h.writer u
  · by_cases hu : u = t
    · subst hu; simp [SharedMutex.unlockShared]
    · rw [setPc_ne _ _ hu, ← h.readers u]; simp [SharedMutex.unlockShared, hu]
  · have := h.excl hw
    simp [SharedMutex.unlockShared, this]

theorem lock (h : LockInv m held) {t : Nat} (he : m.lock t = some m') :
    LockInv m' (setPc held t .unique) := by
  unfold SharedMutex.lock at he
  split at he
  · next hw =>
    cases he
    refine ⟨fun u => ?_, fun u => ?_, by simp⟩
    · by_cases hu : u = t
      · subst hu; simp
      · rw [setPc_ne _ _ hu, ← h.writer u, hw.1]; simp [Ne.symm hu]
    · by_cases hu : u = t
      · subst hu; simp
      · rw [setPc_ne _ _ hu, ← h.readers u, hw.2]
  · cases he

theorem unlock (h : LockInv m held) {t : Nat} (ht : held t = .unique) :
    LockInv m.unlock (setPc held t .nothing) := by
  have hw := (h.writer t).2 ht
  have hr := h.excl (by rw [hw]; simp)
  refine ⟨fun u => ?_, fun u => ?_, by simp [SharedMutex.unlock]⟩
  · by_cases hu : u = t
    · subst hu; simp [SharedMutex.unlock]
    · rw [setPc_ne _ _ hu, ← h.writer u, hw]; simp [SharedMutex.unlock, Ne.symm hu]
  · by_cases hu : u = t
    · subst hu; simp [SharedMutex.unlock, hr]
    · rw [setPc_ne _ _ hu, ← h.readers u]; simp [SharedMutex.unlock]

/-- At most one thread holds the mutex exclusively. -/
theorem unique_owner (h : LockInv m held) {t u : Nat} (ht : held t = .unique) (hu : held u = .unique) : t = u := by
  have h1 := (h.writer t).2 ht
  have h2 := (h.writer u).2 hu
  rw [h1] at h2; exact Option.some.inj h2

/-- Nobody holds the mutex shared while it is held exclusively. -/
theorem no_shared (h : LockInv m held) {t u : Nat} (ht : held t = .unique) : held u ≠ .shared := by
  intro hu
  have h1 := (h.writer t).2 ht
  have h2 := (h.readers u).2 hu
  rw [h.excl (by rw [h1]; simp)] at h2; simp at h2

/-- If nobody holds the mutex, `lock` and `lock_shared` are enabled. -/
theorem enabled_of_free (h : LockInv m held) (hn : ∀ t, held t = .nothing) (t : Nat) :
    (m.lock t).isSome ∧ (m.lockShared t).isSome := by
  have h1 : m.writer = none := by
    cases hw : m.writer with
    | none => rfl
    | some u => have := (h.writer u).1 hw; rw [hn u] at this; cases this
  have h2 : m.readers = [] := by
    rw [List.eq_nil_iff_forall_not_mem]
    intro u hu
    have := (h.readers u).1 hu; rw [hn u] at this; cases this
  simp [SharedMutex.lock, SharedMutex.lockShared, h1, h2]

end LockInv
end Xo
