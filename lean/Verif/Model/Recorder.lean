import Verif.Model.Storage
import Mathlib.Algebra.Field.Basic

/-!
Users of `storage`: the recorder of debug values (/repo/xo/system/debug_storage.cpp), frames by label and vectors in
frames (/repo/xo/container/storage.h, /repo/xo/container/storage_tools.h), means and covariances of channels
(/repo/xo/utility/data_algorithms.h).
-/
namespace Xo.Recorder
variable {T L : Type} [DecidableEq L]

/-- `storage_.back()` (storage.h:114-115); `frame_size() - 1` wraps around without frames, and the access that follows is outside the data. -/
def back (s : Storage T L) : Res Nat := if s.frames = 0 then .ub else .ok (s.frames - 1)

/-- `auto_storage_writer::write` (debug_storage.cpp:19-24). `sent` is `constants<T>::sentinel()`; `storage_.empty()` asks for cells
(storage.h:99). A not-a-number differs from the sentinel, so that it is treated as any other value. -/
def write [DecidableEq T] (ldflt : L) (sent : T) (s : Storage T L) (label : L) (v : T) : Res (Storage T L) :=
  match s.findOrAddChannel ldflt label sent with
  | (.ok idx, s1) =>
    (if s1.data.isEmpty then .ok (s1.addFrame sent)
     else (back s1).bind fun f => (s1.get f idx).bind fun x => .ok (if x ≠ sent then s1.addFrame sent else s1)).bind fun s2 =>
    (back s2).bind fun f => s2.write f idx v
  | (.err, _) => .err
  | (.ub, _) => .ub

/-- A sequence of calls of `write_debug` (debug_storage.cpp:35-38) from the start of the program (debug_storage.cpp:28). -/
def record [DecidableEq T] (ldflt : L) (sent : T) (s : Storage T L) : List (L × T) → Res (Storage T L)
  | [] => .ok s
  | w :: ws => (write ldflt sent s w.1 w.2).bind fun s' => record ldflt sent s' ws

/-- `get_channel( label )` (storage.h:155). -/
def channel (s : Storage T L) (label : L) : Res (List T) :=
  (s.labels.findOrThrow label).bind fun c => s.getChannel c

/-! ### Frames -/

/-- `f[ label ] = v` for a `frame` (storage.h:39): the channel is added if it is missing, with `T()` in all frames. -/
def frameSet (ldflt : L) (dflt : T) (s : Storage T L) (f : Nat) (label : L) (v : T) : Res (Storage T L) :=
  match s.findOrAddChannel ldflt label dflt with
  | (.ok idx, s1) => s1.write f idx v
  | (.err, _) => .err
  | (.ub, _) => .ub

/-- A `const_frame` (storage.h:28-34): the offset of the frame is computed once. -/
structure ConstFrame where
  ofs : Nat

/-- `const_frame( s, f )` (storage.h:29). -/
def constFrame (s : Storage T L) (f : Nat) : ConstFrame := ⟨f * s.channels⟩

/-- `f[ label ]` for a `const_frame` (storage.h:31). -/
def frameGet (s : Storage T L) (f : ConstFrame) (label : L) : Res T :=
  (s.labels.findOrThrow label).bind fun c => Vec.get s.data (f.ofs + c)

/-- `write( f, str, v )` for a number of components (storage_tools.h:50-61): each component has a channel of its own; a `vec3` has
`.x .y .z`, a quaternion `.w .x .y .z`, in this order. The names `str + suffix` are given as labels. -/
def writeAll (ldflt : L) (dflt : T) (f : Nat) : List (L × T) → Storage T L → Res (Storage T L)
  | [], s => .ok s
  | c :: cs, s => (frameSet ldflt dflt s f c.1 c.2).bind (writeAll ldflt dflt f cs)

/-- `read( f, str, v )` (storage_tools.h:63-74). -/
def readAll (f : ConstFrame) : List L → Storage T L → Res (List T)
  | [], _ => .ok []
  | l :: ls, s => (frameGet s f l).bind fun x => (readAll f ls s).bind fun xs => .ok (x :: xs)

/-- The labels of a `vec3` (storage_tools.h:51-53, 64-66). -/
def vecLabels (str : String) : List String := [str ++ ".x", str ++ ".y", str ++ ".z"]

/-- The labels of a quaternion (storage_tools.h:57-60, 70-73). -/
def quatLabels (str : String) : List String := [str ++ ".w", str ++ ".x", str ++ ".y", str ++ ".z"]

/-- `write( f, str, vec3 )` (storage_tools.h:50-54). -/
def writeVec (dflt : T) (s : Storage T String) (f : Nat) (str : String) (x y z : T) : Res (Storage T String) :=
  writeAll "" dflt f ((vecLabels str).zip [x, y, z]) s

/-- `write( f, str, quat )` (storage_tools.h:56-61). -/
def writeQuat (dflt : T) (s : Storage T String) (f : Nat) (str : String) (w x y z : T) : Res (Storage T String) :=
  writeAll "" dflt f ((quatLabels str).zip [w, x, y, z]) s

/-- `read( f, str, vec3 )` (storage_tools.h:63-67). -/
def readVec (s : Storage T String) (f : ConstFrame) (str : String) : Res (List T) := readAll f (vecLabels str) s

/-- `read( f, str, quat )` (storage_tools.h:69-74). -/
def readQuat (s : Storage T String) (f : ConstFrame) (str : String) : Res (List T) := readAll f (quatLabels str) s

/-! ### Means and covariances -/
section
variable {K : Type} [Field K] [DecidableEq K]

/-- The first loops of `compute_channel_means` (data_algorithms.h:14-17). -/
def sums (s : Storage K L) : Res (List K) :=
  loopUp (fun row (m : List K) =>
    loopUp (fun col (m : List K) => (s.get row col).bind fun x => (Vec.get m col).bind fun y => Vec.set m col (y + x))
      0 s.channels m) 0 s.frames (List.replicate s.channels 0)

/-- `compute_channel_means` (data_algorithms.h:10-22). Division by zero of floating point numbers gives something that is not a number:
`none`. -/
def means (s : Storage K L) : Res (List (Option K)) :=
  (sums s).bind fun m => .ok (m.map fun x => if (s.frames : K) = 0 then none else some (x / s.frames))

/-- The inner loop of `compute_covariance` (data_algorithms.h:36-38), for means `a` and `b`. -/
def covSum (s : Storage K L) (row col : Nat) (a b : K) : Res K :=
  loopUp (fun i v => (s.get i row).bind fun x => (s.get i col).bind fun y => .ok (v + (x - a) * (y - b))) 0 s.frames 0

/-- `compute_covariance` (data_algorithms.h:24-43): the value of each element; `none` if it is not a number. -/
def covariance (s : Storage K L) : Res (List (List (Option K))) :=
  (means s).bind fun m =>
  (List.range s.channels).mapM fun row => (List.range s.channels).mapM fun col =>
    (Vec.get m row).bind fun a => (Vec.get m col).bind fun b =>
    match a, b with
    | some a, some b => (covSum s row col a b).bind fun v => .ok (if (s.frames : K) = 0 then none else some (v / s.frames))
    | _, _ => .ok none

end
end Xo.Recorder
