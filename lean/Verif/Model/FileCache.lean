import Verif.Model.Basic
import Verif.Model.StdMap
import Verif.Model.SharedMutex

/-!
Model of /repo/xo/utility/file_resource_cache.h with any number of threads and a file system that changes at any
moment.

* `K` are the names, `C` file contents, `T` resources. `create p c` is the outcome of `create_( p )` when the file
  has contents `c`; a missing file makes it throw. Reading the contents is one atomic step, made after the
  modification time was read.
* Times are seconds. `file_exists` and `last_write_time` (/repo/xo/filesystem/filesystem.cpp:143-147, 308-330) look
  at the file system at the moment of their step.
* `clone_` returns an equal resource and does not throw; `create_` does not return null.
* Fields marked ghost are not in the program; they record what the claims are about.
-/
namespace Xo
variable {K C T : Type}

/-- `cached_item` (file_resource_cache.h:93-97); `src` is ghost: time and contents of the file `data` was created
from. -/
structure CacheItem (C T : Type) where
  fileTime : Nat
  lastChecked : Nat
  data : T
  src : Nat × C
  deriving Repr, DecidableEq

/-- Where a thread is inside `operator()` (file_resource_cache.h:24-85). -/
inductive CachePc (K : Type) where
  | idle
  /-- before line 26 -/
  | wantShared (p : K)
  /-- lines 28-36 and 59-61, holding the shared lock -/
  | shared (p : K)
  /-- before line 40, with `wall_time` -/
  | wantCheck (p : K) (wall : Nat)
  /-- lines 41-46, holding the exclusive lock -/
  | check (p : K) (wall : Nat)
  /-- line 47, inside `create_`, holding the exclusive lock -/
  | reloading (p : K)
  /-- before line 64 -/
  | wantNew (p : K)
  /-- lines 66-71, holding the exclusive lock -/
  | new (p : K)
  /-- lines 72-74, inside `create_`, holding the exclusive lock -/
  | creating (p : K) (fileTime wall : Nat)
  /-- before lines 53 and 80 -/
  | wantShared2 (p : K)
  /-- line 84, holding the shared lock -/
  | shared2 (p : K)
  deriving Repr, DecidableEq

/-- The cache, its threads and the file system. -/
structure FileCache (K C T : Type) where
  items : StdMap K (CacheItem C T)
  mtx : SharedMutex
  pc : Nat → CachePc K
  /-- modification time and contents of each file -/
  files : K → Option (Nat × C)
  clock : Nat
  /-- ghost: everything ever written -/
  past : List (K × Nat × C)
  /-- ghost: modification time of the last write of each file -/
  lastTime : K → Nat
  /-- ghost: no write had an earlier modification time than the one before -/
  mono : Bool
  /-- ghost: the modification time read last for a name -/
  checked : K → Option Nat
  /-- ghost: `create_` threw on line 47 for this name -/
  reloadFailed : K → Bool
  /-- ghost: names and recorded file times of the successful `create_` calls -/
  created : List (K × Nat)
  /-- ghost: the contents the successful `create_` calls read -/
  loaded : List (K × Nat × C)
  /-- ghost: finished calls; a returned resource comes with the modification time read last for the name and the
  file it was created from -/
  results : List (Nat × K × Res (T × Option Nat × Nat × C))

/-- What can happen next: a thread makes a step (an idle thread calls the cache with the name given), a file is
written or removed, or time passes. -/
inductive CacheEv (K C : Type) where
  | thread (t : Nat) (p : K)
  | write (p : K) (time : Nat) (c : C)
  | remove (p : K)
  | tick (n : Nat)
  deriving Repr, DecidableEq

namespace FileCache
variable [DecidableEq K] (lt : K → K → Bool) (create : K → C → Res T)

def init : FileCache K C T :=
  ⟨StdMap.empty, SharedMutex.free, fun _ => .idle, fun _ => none, 0, [], fun _ => 0, true, fun _ => none,
   fun _ => false, [], [], []⟩

def upd {V : Type} (f : K → V) (p : K) (v : V) : K → V := fun q => if q = p then v else f q

/-- `create_( p )` on the file system as it is. -/
def make (files : K → Option (Nat × C)) (p : K) : Res (T × Nat × C) :=
  match files p with
  | none => .err
  | some mc => (create p mc.2).map fun d => (d, mc)

/-- A call ends with a report. -/
def finish (s : FileCache K C T) (t : Nat) (m : SharedMutex) (p : K) (o : Res (T × Option Nat × Nat × C)) :
    FileCache K C T :=
  { s with mtx := m, pc := setPc s.pc t .idle, results := (t, p, o) :: s.results }

/-- `operator()` (file_resource_cache.h:24-85), one atomic step of thread `t`; `none` if it is blocked. -/
def act (s : FileCache K C T) (t : Nat) (arg : K) : Option (FileCache K C T) :=
  match s.pc t with
  | .idle => some { s with pc := setPc s.pc t (.wantShared arg) }
  | .wantShared p =>
    match s.mtx.lockShared t with
    | some m => some { s with mtx := m, pc := setPc s.pc t (.shared p) }
    | none => none
  | .shared p =>
    match s.items.find lt p with
    | some it =>
      if it.lastChecked + 3 < s.clock then
        some { s with mtx := s.mtx.unlockShared t, pc := setPc s.pc t (.wantCheck p s.clock) }
      else some (s.finish t (s.mtx.unlockShared t) p (.ok (it.data, s.checked p, it.src)))
    | none =>
      match s.files p with
      | none => some (s.finish t (s.mtx.unlockShared t) p .err)
      | some _ => some { s with mtx := s.mtx.unlockShared t, pc := setPc s.pc t (.wantNew p) }
  | .wantCheck p w =>
    match s.mtx.lock t with
    | some m => some { s with mtx := m, pc := setPc s.pc t (.check p w) }
    | none => none
  | .check p w =>
    match s.items.find lt p with
    | none => none
    | some it =>
      match s.files p with
      | none => some (finish { s with items := s.items.put lt p { it with lastChecked := w } } t s.mtx.unlock p .err)
      | some mc =>
        if mc.1 ≠ it.fileTime then
          some { s with items := s.items.put lt p { it with lastChecked := w, fileTime := mc.1 },
                        checked := upd s.checked p (some mc.1), pc := setPc s.pc t (.reloading p) }
        else
          some { s with items := s.items.put lt p { it with lastChecked := w },
                        checked := upd s.checked p (some mc.1), mtx := s.mtx.unlock,
                        pc := setPc s.pc t (.wantShared2 p) }
  | .reloading p =>
    match s.items.find lt p with
    | none => none
    | some it =>
      match make create s.files p with
      | .ok (d, mc) =>
        some { s with items := s.items.put lt p { it with data := d, src := mc },
                      created := (p, it.fileTime) :: s.created, loaded := (p, mc) :: s.loaded,
                      mtx := s.mtx.unlock, pc := setPc s.pc t (.wantShared2 p) }
      | _ => some (finish { s with reloadFailed := upd s.reloadFailed p true } t s.mtx.unlock p .err)
  | .wantNew p =>
    match s.mtx.lock t with
    | some m => some { s with mtx := m, pc := setPc s.pc t (.new p) }
    | none => none
  | .new p =>
    match s.items.find lt p with
    | some _ => some { s with mtx := s.mtx.unlock, pc := setPc s.pc t (.wantShared2 p) }
    | none =>
      match s.files p with
      | none => some (s.finish t s.mtx.unlock p .err)
      | some mc => some { s with checked := upd s.checked p (some mc.1),
                                 pc := setPc s.pc t (.creating p mc.1 s.clock) }
  | .creating p ft w =>
    match make create s.files p with
    | .ok (d, mc) =>
      some { s with items := s.items.put lt p ⟨ft, w, d, mc⟩, created := (p, ft) :: s.created,
                    loaded := (p, mc) :: s.loaded, mtx := s.mtx.unlock, pc := setPc s.pc t (.wantShared2 p) }
    | _ => some (s.finish t s.mtx.unlock p .err)
  | .wantShared2 p =>
    match s.mtx.lockShared t with
    | some m => some { s with mtx := m, pc := setPc s.pc t (.shared2 p) }
    | none => none
  | .shared2 p =>
    match s.items.find lt p with
    | some it => some (s.finish t (s.mtx.unlockShared t) p (.ok (it.data, s.checked p, it.src)))
    | none => none

/-- The next event; a blocked thread stays where it is. -/
def step (s : FileCache K C T) : CacheEv K C → FileCache K C T
  | .thread t p => (s.act lt create t p).getD s
  | .write p mt c => { s with files := upd s.files p (some (mt, c)), past := (p, mt, c) :: s.past,
                              lastTime := upd s.lastTime p mt, mono := s.mono && decide (s.lastTime p ≤ mt) }
  | .remove p => { s with files := upd s.files p none }
  | .tick n => { s with clock := s.clock + n }

/-- A history of events. -/
def run (s : FileCache K C T) : List (CacheEv K C) → FileCache K C T
  | [] => s
  | e :: es => run (s.step lt create e) es

end FileCache
end Xo
