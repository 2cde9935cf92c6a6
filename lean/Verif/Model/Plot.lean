import Verif.Model.Basic
import Mathlib.Algebra.Order.Floor.Ring
import Mathlib.Algebra.Field.Basic

/-!
Model of /repo/xo/numerical/console_plot.h. Numbers are elements of a field with an order; `none` is NaN. Rounding and overflow to infinity are
not modelled. Text is a list of rows of character codes.
-/
namespace Xo.Plot

variable {K : Type} [Field K] [LinearOrder K] [FloorRing K]

/-- What is written to the console. -/
inductive Shown where
  | message (s : String)
  | rows (g : List (List Nat))
  deriving DecidableEq

/-- The range of `int`. -/
def intOk (i : Int) : Bool := decide (-2147483648 ≤ i ∧ i ≤ 2147483647)

/-- The argument of the functions for column `xi` (console_plot.h:30). With one column it is `0 / 0`. -/
def arg (xmin xspan : K) (w xi : Nat) : Option K :=
  if w - 1 = 0 then none else some (xmin + (xi : K) * xspan / ((w - 1 : Nat) : K))

/-- The values of all functions (console_plot.h:25-35). -/
def values (fns : List (Option K → Option K)) (xmin xspan : K) (w : Nat) : List (List (Option K)) :=
  fns.map fun f => (List.range w).map fun xi => f (arg xmin xspan w xi)

/-- `y_min = std::min( y_min, y )` (console_plot.h:32) : NaN is not smaller. -/
def lower (m : K) : Option K → K
  | some y => if y < m then y else m
  | none => m

/-- `y_max = std::max( y_max, y )` (console_plot.h:33). -/
def upper (m : K) : Option K → K
  | some y => if m < y then y else m
  | none => m

/-- `static_cast<int>( std::floor( 0.5 + ( n - 1 ) * ( v - lo ) / span ) )` (console_plot.h:39, 41). A span of zero gives NaN or infinity; the
conversion of those, and of numbers outside `int`, is undefined. -/
def quantize (n : Nat) (lo span : K) : Option K → Res Int
  | none => .ub
  | some v =>
    if span = 0 then .ub
    else
      let i := ⌊(1 : K) / 2 + ((n - 1 : Nat) : K) * (v - lo) / span⌋
      if intOk i then .ok i else .ub

/-- `grid_y` (console_plot.h:40-41). Overflow of the subtraction is undefined. -/
def gridY (h : Nat) (lo span : K) (v : Option K) : Res Int :=
  quantize h lo span v >>= fun i => if intOk ((h : Int) - 1 - i) then .ok ((h : Int) - 1 - i) else .ub

/-- `str[ i ][ j ] = c` : undefined outside the rows. -/
def setCell (g : List (List Nat)) (i j : Int) (c : Nat) : Res (List (List Nat)) :=
  if 0 ≤ i ∧ 0 ≤ j then
    match g[i.toNat]? with
    | some row => if j.toNat < row.length then .ok (g.set i.toNat (row.set j.toNat c)) else .ub
    | none => .ub
  else .ub

/-- A loop of such assignments. -/
def paint (g : List (List Nat)) : List (Res Int × Int × Nat) → Res (List (List Nat))
  | [] => .ok g
  | (i, j, c) :: l => i >>= fun i => setCell g i j c >>= fun g => paint g l

/-- `plot_chars` (console_plot.h:56). -/
def plotChars : List Nat := [219, 178, 177, 176]

/-- The assignments of the vertical axis (console_plot.h:53-54). -/
def axisMarks (h : Nat) (yi0 xi0 : Int) : List (Res Int × Int × Nat) :=
  (List.range h).map fun (yi : Nat) =>
    (.ok (yi : Int), xi0, if yi = 0 then 194 else if (yi : Int) = yi0 then 197 else if yi = h - 1 then 193 else 179)

/-- The assignments of the functions (console_plot.h:57-61). -/
def fnMarks (h w : Nat) (ymin yspan : K) (ys : Nat → Nat → Option K) (n : Nat) : List (Res Int × Int × Nat) :=
  (List.range n).flatMap fun (k : Nat) => (List.range w).map fun (xi : Nat) => (gridY h ymin yspan (ys k xi), (xi : Int), plotChars.getD (k % 4) 0)

/-- The rows with the horizontal lines (console_plot.h:43-49). -/
def lines (h w : Nat) (yi0 : Int) : List (List Nat) :=
  let g := List.replicate h (List.replicate w 32)
  let g := g.set 0 (List.replicate w 196)
  let g := g.set (h - 1) (List.replicate w 196)
  if 0 ≤ yi0 ∧ yi0 < h then g.set yi0.toNat (List.replicate w 196) else g

/-- `console_plot` (console_plot.h:10-65). `tmax` and `tmin` are `std::numeric_limits<T>::max()` and `min()`. -/
def plot (tmax tmin : K) (fns : List (Option K → Option K)) (xmin xmax : K) (width height : Int) : Res Shown :=
  if width < 1 ∨ height < 1 then .ok (.message "width and height must be > 1")
  else if xmax ≤ xmin then .ok (.message "x_min must be smaller than x_max")
  else
    let w := width.toNat
    let h := height.toNat
    let xspan := xmax - xmin
    let ys := values fns xmin xspan w
    let ymin := ys.flatten.foldl lower tmax
    let ymax := ys.flatten.foldl upper tmin
    let yspan := ymax - ymin
    gridY h ymin yspan (some 0) >>= fun yi0 =>
    quantize w xmin xspan (some 0) >>= fun xi0 =>
    (if xmin ≤ 0 ∧ 0 ≤ xmax then paint (lines h w yi0) (axisMarks h yi0 xi0) else .ok (lines h w yi0)) >>= fun g =>
    paint g (fnMarks h w ymin yspan (fun k xi => ((ys[k]?).bind (·[xi]?)).getD none) fns.length) >>= fun g =>
    .ok (.rows g)

end Xo.Plot
