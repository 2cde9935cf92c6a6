/-!
Model of `std::shared_mutex` (external to /repo; used in memoize.h:71 and file_resource_cache.h:99): any number of
shared owners or one exclusive owner. Threads are natural numbers. An operation that would block is not enabled.
-/
namespace Xo

/-- The owners of a shared mutex. -/
structure SharedMutex where
  readers : List Nat
  writer : Option Nat
  deriving Repr, DecidableEq

namespace SharedMutex

/-- An unowned mutex. -/
def free : SharedMutex := ⟨[], none⟩

/-- `lock_shared()`: enabled if there is no exclusive owner. -/
def lockShared (m : SharedMutex) (t : Nat) : Option SharedMutex :=
  if m.writer = none then some ⟨t :: m.readers, none⟩ else none

/-- `unlock_shared()`. -/
def unlockShared (m : SharedMutex) (t : Nat) : SharedMutex := ⟨m.readers.filter (· != t), m.writer⟩

/-- `lock()`: enabled if there is no owner at all. -/
def lock (m : SharedMutex) (t : Nat) : Option SharedMutex :=
  if m.writer = none ∧ m.readers = [] then some ⟨[], some t⟩ else none

/-- `unlock()`. -/
def unlock (m : SharedMutex) : SharedMutex := ⟨m.readers, none⟩

end SharedMutex

/-- The program counters of the threads after thread `t` moved to `p`. -/
def setPc {P : Type} (pc : Nat → P) (t : Nat) (p : P) : Nat → P := fun u => if u = t then p else pc u

@[simp] theorem setPc_same {P : Type} (pc : Nat → P) (t : Nat) (p : P) : setPc pc t p t = p := by simp [setPc]

theorem setPc_ne {P : Type} (pc : Nat → P) {t u : Nat} (p : P) (h : u ≠ t) : setPc pc t p u = pc u := by
  simp [setPc, h]

end Xo
