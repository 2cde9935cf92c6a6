import Verif.Model.Mat33
import Verif.Model.Norm

/-!
`quat_from_mat33` (/repo/xo/geometry/mat33.h:17-46) and the axes of a quaternion (/repo/xo/geometry/quat.h:229-251) with rounding; the square root is that of IEEE 754.
-/
namespace Xo.MatFl
open Num (Fl Fmt)
open Ieee Geom

/-- `m[row][col]` (mat33_type.h:20-23). -/
def el (m : Mat33 Fl) (row col : Nat) : Fl := (m.at? row col).getD (.nan false)

/-- The index of the largest number on the diagonal (mat33.h:31-33). -/
def largest (m : Mat33 Fl) : Nat :=
  let i := if lt (el m 0 0) (el m 1 1) then 1 else 0
  if lt (el m i i) (el m 2 2) then 2 else i

/-- Writing `q_xyz[i]` (mat33.h:36-41). -/
def put (q : Quat Fl) (i : Nat) (v : Fl) : Quat Fl :=
  match i with
  | 0 => { q with x := v }
  | 1 => { q with y := v }
  | _ => { q with z := v }

/-- `quat_from_mat33` (mat33.h:17-46). The members of `q` are not set at first; every member is written in both branches. -/
def toQuat (f : Fmt) (m : Mat33 Fl) : Quat Fl :=
  let t := add f (add f m.e00 m.e11) m.e22
  if lt (ofNat 0) t then
    let root := Norm.sqrt f (add f t (ofNat 1))
    let w := mul f (.fin false (1 / 2)) root
    let root := div f (.fin false (1 / 2)) root
    ⟨w, mul f (sub f m.e21 m.e12) root, mul f (sub f (el m 0 2) (el m 2 0)) root, mul f (sub f (el m 1 0) (el m 0 1)) root⟩
  else
    let i := largest m
    let j := (i + 1) % 3
    let k := (j + 1) % 3
    let root := Norm.sqrt f (add f (sub f (sub f (el m i i) (el m j j)) (el m k k)) (ofNat 1))
    let q : Quat Fl := put ⟨.nan false, .nan false, .nan false, .nan false⟩ i (mul f (.fin false (1 / 2)) root)
    let root := div f (.fin false (1 / 2)) root
    let q : Quat Fl := { q with w := mul f (sub f (el m k j) (el m j k)) root }
    let q := put q j (mul f (add f (el m j i) (el m i j)) root)
    put q k (mul f (add f (el m k i) (el m i k)) root)

/-- `local_x_axis` (quat.h:229-235). -/
def localX (f : Fmt) (q : Quat Fl) : Vec3 Fl :=
  let ty := add f q.y q.y
  let tz := add f q.z q.z
  ⟨sub f (ofNat 1) (add f (mul f ty q.y) (mul f tz q.z)), add f (mul f ty q.x) (mul f tz q.w), sub f (mul f tz q.x) (mul f ty q.w)⟩

/-- `local_y_axis` (quat.h:237-243). -/
def localY (f : Fmt) (q : Quat Fl) : Vec3 Fl :=
  let tx := add f q.x q.x
  let ty := add f q.y q.y
  let tz := add f q.z q.z
  ⟨sub f (mul f ty q.x) (mul f tz q.w), sub f (ofNat 1) (add f (mul f tx q.x) (mul f tz q.z)), add f (mul f tz q.y) (mul f tx q.w)⟩

/-- `local_z_axis` (quat.h:245-251). -/
def localZ (f : Fmt) (q : Quat Fl) : Vec3 Fl :=
  let tx := add f q.x q.x
  let ty := add f q.y q.y
  let tz := add f q.z q.z
  ⟨add f (mul f tz q.x) (mul f ty q.w), sub f (mul f tz q.y) (mul f tx q.w), sub f (ofNat 1) (add f (mul f tx q.x) (mul f ty q.y))⟩

end Xo.MatFl
