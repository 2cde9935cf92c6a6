import Verif.Model.Storage
import Mathlib.Algebra.Order.Floor.Ring
import Mathlib.Algebra.Order.Field.Basic

/-!
Tables by label (/repo/xo/container/table.h:34-35, 66-72), values between frames of a storage
(/repo/xo/container/storage.h:117-124), and vectors without labels (/repo/xo/container/label_vector.h:67-77).
-/
namespace Xo.TabL
open Xo
variable {T L : Type} [DecidableEq L]

/-- `operator()( row, col )` with labels (table.h:67): the cell it refers to. C++ does not say which argument is evaluated
first: `rowFirst`. -/
def access (ldflt : L) (dflt : T) (rowFirst : Bool) (t : Table T L) (r c : L) : Res (Nat × Nat) × Table T L :=
  if rowFirst then
    match t.getOrAddRow r dflt with
    | .ok (i, t1) => match t1.getOrAddColumn ldflt dflt c dflt with
      | (.ok j, t2) => (.ok (i, j), t2)
      | (.err, t2) => (.err, t2)
      | (.ub, t2) => (.ub, t2)
    | .err => (.err, t)
    | .ub => (.ub, t)
  else
    match t.getOrAddColumn ldflt dflt c dflt with
    | (.ok j, t1) => match t1.getOrAddRow r dflt with
      | .ok (i, t2) => (.ok (i, j), t2)
      | .err => (.err, t1)
      | .ub => (.ub, t1)
    | (.err, t1) => (.err, t1)
    | (.ub, t1) => (.ub, t1)

/-- `t( row, col ) = v` (table.h:64, 67). -/
def put (ldflt : L) (dflt : T) (rowFirst : Bool) (t : Table T L) (r c : L) (v : T) : Res Unit × Table T L :=
  match access ldflt dflt rowFirst t r c with
  | (.ok (i, j), t1) => match t1.write i j v with
    | .ok t2 => (.ok (), t2)
    | .err => (.err, t1)
    | .ub => (.ub, t1)
  | (.err, t1) => (.err, t1)
  | (.ub, t1) => (.ub, t1)

/-- Reading `t( row, col )` of a table that is not const (table.h:64, 67). -/
def look (ldflt : L) (dflt : T) (rowFirst : Bool) (t : Table T L) (r c : L) : Res T × Table T L :=
  match access ldflt dflt rowFirst t r c with
  | (.ok (i, j), t1) => (t1.get i j, t1)
  | (.err, t1) => (.err, t1)
  | (.ub, t1) => (.ub, t1)

/-- `operator()( row, label )` of a const table (table.h:69); `no_index` is not below the number of columns. -/
def lookCol (t : Table T L) (i : Nat) (c : L) : Res T :=
  match t.colLabels.find c with
  | some j => t.get i j
  | none => .err

/-- `back_row( col )` (table.h:71-72); without rows, `row_size() - 1` is the largest number. -/
def backRow (t : Table T L) (c : Nat) : Res T := if t.rows = 0 then .err else t.get (t.rows - 1) c

/-- A `label_vector< void >` (label_vector.h:67-77) is the number of channels. `add()` (label_vector.h:71). -/
def addVoid (n : Nat) : Nat × Nat := (n, n + 1)

section Between
variable {K : Type} [Field K] [LinearOrder K] [FloorRing K]

/-- `get_interpolated_value( frame_idx, channel )` (storage.h:117-124). A negative number converted to `index_t` is
undefined. The channel is not checked. `frame0 + 1` does not overflow: no floating-point number is 2^64 - 1. -/
def between (s : Storage K L) (x : K) (channel : Nat) : Res K :=
  if ⌊x⌋ < 0 ∨ 2 ^ 64 ≤ ⌊x⌋ then .ub
  else if ⌊x⌋.toNat + 1 < s.frames then
    let w := x - ⌊x⌋
    let ofs := ⌊x⌋.toNat * s.channels + channel
    (Vec.get s.data ofs).bind fun a => (Vec.get s.data (ofs + s.channels)).bind fun b => .ok ((1 - w) * a + w * b)
  else .err

end Between
end Xo.TabL
