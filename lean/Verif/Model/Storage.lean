import Verif.Model.Vec
import Verif.Model.Indexed

/-!
Model of /repo/xo/container/storage.h and /repo/xo/container/table.h.
`T()` is the parameter `dflt`, `L()` the parameter `ldflt`.
-/
namespace Xo

/-- `storage` (storage.h:161-165). The number of channels is the number of labels (storage.h:93). -/
structure Storage (T L : Type) where
  frames : Nat
  labels : LabelVector L
  data : List T

namespace Storage
variable {T L : Type} [DecidableEq L]

/-- `channel_size()` (storage.h:93). -/
def channels (s : Storage T L) : Nat := s.labels.size

/-- `storage( frames, channels, value )` (storage.h:44). -/
def make (ldflt : L) (frames channels : Nat) (v : T) : Storage T L :=
  ⟨frames, LabelVector.ofSize ldflt channels, List.replicate (channels * frames) v⟩

/-- Inner and outer loop of `resize` (storage.h:132-134), copying old cells into `new_data`. -/
def copyCells (old : List T) (frames ch nch : Nat) (new : List T) : Res (List T) :=
  loopUp (fun fi new =>
    loopUp (fun ci new => (Vec.get old (ch * fi + ci)).bind fun x => Vec.set new (nch * fi + ci) x) 0 ch new)
    0 frames new

/-- `resize` (storage.h:126-147). -/
def resize (ldflt : L) (s : Storage T L) (nframes nch : Nat) (v : T) : Res (Storage T L) :=
  if nframes < s.frames ∨ nch < s.channels then .err
  else if nch > s.channels then
    (if s.frames > 1 then copyCells s.data s.frames s.channels nch (List.replicate (nch * nframes) v)
     else .ok (Vec.resize s.data (nframes * nch) v)).bind fun data =>
    (s.labels.resize ldflt nch).bind fun labels => .ok ⟨nframes, labels, data⟩
  else .ok ⟨nframes, s.labels, Vec.resize s.data (nframes * nch) v⟩

/-- `add_channel( label, value )` (storage.h:48-51). The state is returned also when labelling fails. -/
def addChannel (ldflt : L) (s : Storage T L) (label : L) (v : T) : Res Nat × Storage T L :=
  match s.resize ldflt s.frames (s.channels + 1) v with
  | .ok s1 => match s1.labels.set (s1.channels - 1) label with
    | .ok labels => (.ok (s1.channels - 1), { s1 with labels := labels })
    | .err => (.err, s1)
    | .ub => (.ub, s1)
  | .err => (.err, s)
  | .ub => (.ub, s)

/-- `operator()( frame, channel )` (storage.h:105-106): unchecked. -/
def get (s : Storage T L) (f c : Nat) : Res T := Vec.get s.data (f * s.channels + c)

/-- Assignment through `operator()( frame, channel )` (storage.h:106): unchecked. -/
def write (s : Storage T L) (f c : Nat) (v : T) : Res (Storage T L) :=
  (Vec.set s.data (f * s.channels + c) v).bind fun d => .ok { s with data := d }

/-- `add_channel( label, data )` (storage.h:54-60). -/
def addChannelData (ldflt : L) (dflt : T) (s : Storage T L) (label : L) (d : List T) : Res Nat × Storage T L :=
  match s.resize ldflt (max s.frames d.length) (s.channels + 1) dflt with
  | .ok s1 => match s1.labels.set (s1.channels - 1) label with
    | .ok labels =>
      let s2 : Storage T L := { s1 with labels := labels }
      match loopUp (fun fi s => (Vec.get d fi).bind fun x => s.write fi (s2.channels - 1) x) 0 d.length s2 with
      | .ok s3 => (.ok (s2.channels - 1), s3)
      | .err => (.err, s2)
      | .ub => (.ub, s2)
    | .err => (.err, s1)
    | .ub => (.ub, s1)
  | .err => (.err, s)
  | .ub => (.ub, s)

/-- `add_frame( value )` (storage.h:81). -/
def addFrame (s : Storage T L) (v : T) : Storage T L :=
  { s with data := Vec.resize s.data (s.data.length + s.channels) v, frames := s.frames + 1 }

/-- `add_frame( data )` (storage.h:84-90); `std::copy` to the last `channel_size()` elements. -/
def addFrameData (dflt : T) (s : Storage T L) (d : List T) : Res (Storage T L) :=
  if d.length = s.channels then
    let data := Vec.resize s.data (s.data.length + s.channels) dflt
    .ok { s with data := data.take (data.length - s.channels) ++ d, frames := s.frames + 1 }
  else .err

/-- `find_or_add_channel` (storage.h:69-72). -/
def findOrAddChannel (ldflt : L) (s : Storage T L) (label : L) (v : T) : Res Nat × Storage T L :=
  match s.labels.find label with
  | some i => (.ok i, s)
  | none => s.addChannel ldflt label v

/-- `get_channel( index )` (storage.h:149-154). -/
def getChannel (s : Storage T L) (c : Nat) : Res (List T) :=
  (List.range s.frames).mapM fun f => s.get f c

end Storage

/-- `table` (table.h:79-81). -/
structure Table (T L : Type) where
  rowLabels : LabelVector L
  colLabels : LabelVector L
  data : List T

namespace Table
variable {T L : Type} [DecidableEq L]

/-- `row_size()` (table.h:59). -/
def rows (t : Table T L) : Nat := t.rowLabels.size
/-- `column_size()` (table.h:60). -/
def cols (t : Table T L) : Nat := t.colLabels.size

/-- `table( rows, cols )` (table.h:20). -/
def make (ldflt : L) (dflt : T) (rows cols : Nat) : Table T L :=
  ⟨LabelVector.ofSize ldflt rows, LabelVector.ofSize ldflt cols, List.replicate (rows * cols) dflt⟩

/-- `add_row` (table.h:23-27). -/
def addRow (t : Table T L) (label : L) (v : T) : Res (Nat × Table T L) :=
  (t.rowLabels.add label).bind fun r =>
    .ok (r.2.size - 1, { t with rowLabels := r.2, data := Vec.resize t.data (r.2.size * t.cols) v })

/-- The in-place backward copy of `resize` (table.h:52-54). -/
def moveCells (oldRows oldCols rows cols : Nat) (v : T) (data : List T) : Res (List T) :=
  loopDown (fun ri data =>
    loopDown (fun ci data =>
      (if ri < oldRows ∧ ci < oldCols then Vec.get data (oldCols * ri + ci) else .ok v).bind fun x =>
        Vec.set data (cols * ri + ci) x) cols data) rows data

/-- `resize` (table.h:47-57). The buffer is made `row_size() * cols` long, with the old number of rows. -/
def resize (ldflt : L) (dflt : T) (t : Table T L) (rows cols : Nat) (v : T) : Res (Table T L) :=
  if rows < t.rows ∨ cols < t.cols then .err
  else
    (moveCells t.rows t.cols rows cols v (Vec.resize t.data (t.rows * cols) dflt)).bind fun data =>
    (t.colLabels.resize ldflt cols).bind fun cl =>
    (t.rowLabels.resize ldflt rows).bind fun rl => .ok ⟨rl, cl, data⟩

/-- `add_column` (table.h:29-32). The state is returned also when labelling fails. -/
def addColumn (ldflt : L) (dflt : T) (t : Table T L) (label : L) (v : T) : Res Nat × Table T L :=
  match t.resize ldflt dflt t.rows (t.cols + 1) v with
  | .ok t1 => match t1.colLabels.set (t1.cols - 1) label with
    | .ok cl => (.ok (t1.cols - 1), { t1 with colLabels := cl })
    | .err => (.err, t1)
    | .ub => (.ub, t1)
  | .err => (.err, t)
  | .ub => (.ub, t)

/-- `operator()( row, col )` (table.h:63-64): checked by `xo_assert`. -/
def get (t : Table T L) (r c : Nat) : Res T :=
  if r < t.rows ∧ c < t.cols then Vec.get t.data (r * t.cols + c) else .err

/-- Assignment through `operator()( row, col )` (table.h:64). -/
def write (t : Table T L) (r c : Nat) (v : T) : Res (Table T L) :=
  if r < t.rows ∧ c < t.cols then (Vec.set t.data (r * t.cols + c) v).bind fun d => .ok { t with data := d }
  else .err

/-- `get_or_add_row` (table.h:37-40). -/
def getOrAddRow (t : Table T L) (label : L) (v : T) : Res (Nat × Table T L) :=
  match t.rowLabels.find label with
  | some i => .ok (i, t)
  | none => t.addRow label v

/-- `get_or_add_column` (table.h:42-45). -/
def getOrAddColumn (ldflt : L) (dflt : T) (t : Table T L) (label : L) (v : T) : Res Nat × Table T L :=
  match t.colLabels.find label with
  | some i => (.ok i, t)
  | none => t.addColumn ldflt dflt label v

end Table
end Xo
