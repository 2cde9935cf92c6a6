import Verif.Model.GeomReal

/-!
# 3×3 matrices (xo/geometry/mat33_type.h, mat33.h)

The numbers are exact reals. `quat_from_mat33` takes a constant matrix but uses the index operator, which is only declared for matrices
that can be changed; the model is that of a non-constant `operator[]`.
-/

namespace Xo.Geom
open Classical

/-- `mat33_` (mat33_type.h:8-25): nine numbers, row by row. -/
structure Mat33 (K : Type) where
  (e00 e01 e02 e10 e11 e12 e20 e21 e22 : K)

namespace Mat33
variable {K : Type}

/-- `m[row][col]` (mat33_type.h:22-23): the number at `row * 3 + col` counted from the first; behind the last number the behaviour is
undefined. -/
def at? (m : Mat33 K) (row col : Nat) : Option K :=
  [m.e00, m.e01, m.e02, m.e10, m.e11, m.e12, m.e20, m.e21, m.e22][row * 3 + col]?

/-- `mat33_from_axes` (mat33.h:9-11). -/
def fromAxes (x y z : Vec3 K) : Mat33 K := ⟨x.x, y.x, z.x, x.y, y.y, z.y, x.z, y.z, z.z⟩

/-- `mat33_from_diagonal` (mat33.h:13-15). -/
def fromDiagonal [Field K] (d : Vec3 K) : Mat33 K := ⟨d.x, 0, 0, 0, d.y, 0, 0, 0, d.z⟩

/-- `m[row][col]` for valid indices (0 outside). -/
noncomputable def el (m : Mat33 ℝ) (row col : Nat) : ℝ := (m.at? row col).getD 0

/-- The index of the largest number on the diagonal (mat33.h:31-33). -/
noncomputable def largest (m : Mat33 ℝ) : Nat :=
  let i := if m.el 1 1 > m.el 0 0 then 1 else 0
  if m.el 2 2 > m.el i i then 2 else i

/-- Writing `q_xyz[i]` (mat33.h:37). -/
def put (q : Quat ℝ) (i : Nat) (v : ℝ) : Quat ℝ :=
  match i with
  | 0 => { q with x := v }
  | 1 => { q with y := v }
  | _ => { q with z := v }

/-- `quat_from_mat33` (mat33.h:18-46). The members of `q` are not set at first; every member is written in both branches. -/
noncomputable def toQuat (m : Mat33 ℝ) : Quat ℝ :=
  let t := m.e00 + m.e11 + m.e22
  if t > 0 then
    let root := √(t + 1)
    let w := 0.5 * root
    let root := 0.5 / root
    ⟨w, (m.e21 - m.e12) * root, (m.el 0 2 - m.el 2 0) * root, (m.el 1 0 - m.el 0 1) * root⟩
  else
    let i := m.largest
    let j := (i + 1) % 3
    let k := (j + 1) % 3
    let root := √(m.el i i - m.el j j - m.el k k + 1)
    let q : Quat ℝ := put ⟨0, 0, 0, 0⟩ i (0.5 * root)
    let root := 0.5 / root
    let q : Quat ℝ := { q with w := (m.el k j - m.el j k) * root }
    let q := put q j ((m.el j i + m.el i j) * root)
    put q k ((m.el k i + m.el i k) * root)

end Mat33
end Xo.Geom
