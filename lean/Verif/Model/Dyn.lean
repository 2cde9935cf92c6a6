import Verif.Model.Basic
import Mathlib.Algebra.Order.Field.Basic
import Mathlib.Analysis.SpecialFunctions.Sqrt

/-!
Model of /repo/xo/container/dynarray.h, /repo/xo/geometry/dynvec.h and dynmat.h. Numbers are elements of a field or real numbers (no
rounding).
-/
namespace Xo.Dyn

/-! ## `dynarray` -/

/-- Where `end_` (dynarray.h:53) points: nowhere, `n` elements behind the begin of the own block, or into a block that belongs to another
array. -/
inductive EndP where
  | null
  | own (n : Nat)
  | foreign
  deriving DecidableEq

/-- `dynarray` (dynarray.h:11-54): the block it owns and the end pointer. -/
structure DynArr (α : Type) where
  data : Option (List α)
  fin : EndP
  deriving DecidableEq

namespace DynArr
variable {α : Type}

/-- `dynarray()` (dynarray.h:18). -/
def empty : DynArr α := ⟨none, .null⟩
/-- `size` (dynarray.h:42): the difference of two pointers, undefined if they are not of the same block. -/
def size (a : DynArr α) : Res Nat :=
  match a.data, a.fin with
  | none, .null => .ok 0
  | some _, .own n => .ok n
  | _, _ => .ub
/-- `empty` (dynarray.h:41): the comparison of the two pointers. -/
def isEmpty (a : DynArr α) : Bool :=
  match a.data, a.fin with
  | none, .null => true
  | some _, .own n => n = 0
  | _, _ => false
/-- `dynarray( n, v )` (dynarray.h:19) with `assign` (dynarray.h:44). -/
def make (n : Nat) (v : α) : DynArr α := ⟨some (List.replicate n v), .own n⟩
/-- `assign( v )` (dynarray.h:44). -/
def assign (a : DynArr α) (v : α) : Res (DynArr α) :=
  match a.data, a.fin with
  | none, .null => .ok a
  | some l, .own n => .ok ⟨some (List.replicate n v ++ l.drop n), .own n⟩
  | _, _ => .ub
/-- The elements from `begin` to `end` (dynarray.h:33-39). -/
def elems (a : DynArr α) : Res (List α) :=
  match a.data, a.fin with
  | none, .null => .ok []
  | some l, .own n => .ok (l.take n)
  | _, _ => .ub
/-- The copy constructor (dynarray.h:20). -/
def copy (o : DynArr α) : Res (DynArr α) := do
  let n ← o.size
  let l ← o.elems
  pure ⟨some l, .own n⟩
/-- The move constructor (dynarray.h:21): the new array and the old one, which keeps its end pointer. -/
def move (o : DynArr α) : DynArr α × DynArr α :=
  (⟨o.data, o.fin⟩, ⟨none, match o.fin with | .null => .null | _ => .foreign⟩)
/-- `operator[]` (dynarray.h:26-27). -/
def get (a : DynArr α) (i : Nat) : Res α := Res.ofOptionUb (a.data.bind (·[i]?))
/-- Writing through `operator[]` (dynarray.h:26). -/
def set (a : DynArr α) (i : Nat) (v : α) : Res (DynArr α) :=
  match a.data with
  | some l => if i < l.length then .ok { a with data := some (l.set i v) } else .ub
  | none => .ub
/-- `at` (dynarray.h:29-30). -/
def at' (a : DynArr α) (i : Nat) : Res α := do
  let n ← a.size
  if n ≤ i then .err else a.get i
/-- `resize` (dynarray.h:46). -/
def resize (_ : DynArr α) (n : Nat) (v : α) : DynArr α := ⟨some (List.replicate n v), .own n⟩
/-- `clear` (dynarray.h:47). -/
def clear (_ : DynArr α) : DynArr α := ⟨none, .null⟩

/-- The loop of `operator==` (dynarray.h:59-62), from the index `i` on. -/
def eqLoop [DecidableEq α] (a b : DynArr α) (i : Nat) : Nat → Res Bool
  | 0 => .ok true
  | k + 1 => do
    let x ← a.get i
    let y ← b.get i
    if x ≠ y then .ok false else eqLoop a b (i + 1) k
/-- `operator==` (dynarray.h:56-66). -/
def eq [DecidableEq α] (a b : DynArr α) : Res Bool := do
  let m ← a.size
  let n ← b.size
  if m = n then eqLoop a b 0 m else .ok false

/-- A call that changes one of the arrays of a program, which are numbered. -/
inductive Op (α : Type) where
  | make (i n : Nat) (v : α)
  | copy (i j : Nat)
  | move (i j : Nat)
  | resize (i n : Nat) (v : α)
  | clear (i : Nat)
  | fill (i : Nat) (v : α)
  | set (i k : Nat) (v : α)

/-- A variable gets a new content. -/
def put {β : Type} (s : Nat → β) (i : Nat) (a : β) : Nat → β := fun k => if k = i then a else s k

/-- One call. Copying an array to itself deletes the block and then subtracts pointers of different blocks (dynarray.h:22); moving an array
to itself changes nothing (dynarray.h:23 with the self-move of `unique_ptr`). -/
def step (s : Nat → DynArr α) : Op α → Res (Nat → DynArr α)
  | .make i n v => .ok (put s i (DynArr.make n v))
  | .copy i j => if i = j then .ub else ((s j).copy).map (put s i)
  | .move i j => if i = j then .ok s else .ok (put (put s j (s j).move.2) i (s j).move.1)
  | .resize i n v => .ok (put s i ((s i).resize n v))
  | .clear i => .ok (put s i (s i).clear)
  | .fill i v => ((s i).assign v).map (put s i)
  | .set i k v => ((s i).set k v).map (put s i)

/-- A history of calls. -/
def run (s : Nat → DynArr α) : List (Op α) → Res (Nat → DynArr α)
  | [] => .ok s
  | o :: os => (step s o).bind fun s' => run s' os

end DynArr

/-! ## `dynvec`: the elements of its array -/
namespace Vec
variable {K : Type} [Field K]

/-- `operator==` (dynvec.h:56-62). -/
def eq [DecidableEq K] (v1 v2 : List K) : Res Bool := if v1.length = v2.length then .ok (decide (v1 = v2)) else .err
/-- `operator+`, `operator+=` (dynvec.h:67-82); the loop over the index is a `zipWith`. -/
def add (v1 v2 : List K) : Res (List K) := if v1.length = v2.length then .ok (List.zipWith (· + ·) v1 v2) else .err
/-- `operator-`, `operator-=` (dynvec.h:85-100). -/
def sub (v1 v2 : List K) : Res (List K) := if v1.length = v2.length then .ok (List.zipWith (· - ·) v1 v2) else .err
/-- Unary `operator-` (dynvec.h:103). -/
def neg (v : List K) : List K := v.map (-·)
/-- `operator*` with a number (dynvec.h:106-108). -/
def smul (s : K) (v : List K) : List K := v.map (· * s)
/-- `operator/` (dynvec.h:109-112); division by zero is not a number. -/
def div [DecidableEq K] (v : List K) (s : K) : Option (List K) := if s = 0 then none else some (smul (1 / s) v)
/-- `squared_length` (dynvec.h:45). -/
def sqLen (v : List K) : K := v.foldl (fun sum e => sum + e * e) 0
/-- `is_null` (dynvec.h:46). -/
def isNull [DecidableEq K] (v : List K) : Bool := v.all fun e => decide (e = 0)
/-- `dot_product` (dynvec.h:132-139). -/
def dot (v1 v2 : List K) : Res K :=
  if v1.length = v2.length then .ok ((List.zip v1 v2).foldl (fun r p => r + p.1 * p.2) 0) else .err

/-- `length` (dynvec.h:44). -/
noncomputable def len (v : List ℝ) : ℝ := √(sqLen v)
/-- `distance` (dynvec.h:118-125). -/
noncomputable def distance (v1 v2 : List ℝ) : Res ℝ :=
  if v1.length = v2.length then .ok (√((List.zip v1 v2).foldl (fun sum p => sum + (p.1 - p.2) * (p.1 - p.2)) 0)) else .err
open Classical in
/-- `normalize` (dynvec.h:128): the length and the new vector. -/
noncomputable def normalize (eps : ℝ) (v : List ℝ) : ℝ × List ℝ :=
  let l := len v
  if l > eps then (l, smul (1 / l) v) else (l, v)

end Vec

/-! ## `dynmat` -/

/-- `dynmat` (dynmat.h:9-47). -/
structure Mat (α : Type) where
  cols : Nat
  data : List α

namespace Mat
variable {α : Type}

/-- `dynmat( col, row, value )` (dynmat.h:16-17). -/
def make (col row : Nat) (v : α) : Mat α := ⟨col, List.replicate (row * col) v⟩
/-- `operator()( col, row )` (dynmat.h:19-20). -/
def get (m : Mat α) (col row : Nat) : Res α := Res.ofOptionUb m.data[row * m.cols + col]?
/-- Writing through `operator()( col, row )` (dynmat.h:20). -/
def set (m : Mat α) (col row : Nat) (v : α) : Res (Mat α) :=
  if row * m.cols + col < m.data.length then .ok { m with data := m.data.set (row * m.cols + col) v } else .ub
/-- `rows` (dynmat.h:37). -/
def rows (m : Mat α) : Nat := if m.data.isEmpty then 0 else m.data.length / m.cols
/-- The inner loop of `resize` (dynmat.h:27-28): the columns before `c` of row `r`. -/
def copyCols (m : Mat α) (r : Nat) : Nat → Mat α → Res (Mat α)
  | 0, n => .ok n
  | c + 1, n => do
    let n ← m.copyCols r c n
    let v ← m.get c r
    n.set c r v
/-- The outer loop of `resize` (dynmat.h:26-28): the rows before `r`. -/
def copyRows (m : Mat α) (cmin : Nat) : Nat → Mat α → Res (Mat α)
  | 0, n => .ok n
  | r + 1, n => do
    let n ← m.copyRows cmin r n
    m.copyCols r cmin n
/-- `resize` (dynmat.h:22-30). -/
def resize (m : Mat α) (dflt : α) (newcols newrows : Nat) : Res (Mat α) :=
  m.copyRows (min m.cols newcols) (min m.rows newrows) (make newcols newrows dflt)

/-- The inner loop of `operator*` (dynmat.h:57-58). -/
def mulRow {K : Type} [Field K] (m : Mat K) (v : List K) (row : Nat) : Nat → Res K
  | 0 => .ok 0
  | col + 1 => do
    let s ← m.mulRow v row col
    let a ← m.get row col
    let b ← Res.ofOptionUb v[col]?
    pure (s + a * b)
/-- The outer loop of `operator*` (dynmat.h:54-60). -/
def mulRows {K : Type} [Field K] (m : Mat K) (v : List K) : Nat → Res (List K)
  | 0 => .ok []
  | row + 1 => do
    let r ← m.mulRows v row
    let s ← m.mulRow v row m.cols
    pure (r ++ [s])
/-- `operator*` (dynmat.h:50-62). The check of the sizes uses a macro that is not defined (`flut_assert`), so that the operator cannot be
compiled when used; the model takes it as `xo_assert`. -/
def mul {K : Type} [Field K] (m : Mat K) (v : List K) : Res (List K) :=
  if m.cols = v.length then m.mulRows v m.rows else .err

end Mat
end Xo.Dyn
