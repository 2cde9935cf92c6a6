import Verif.Model.Storage
import Verif.Model.StorageText
import Verif.Model.DataFile

/-!
Tables as text: `operator<<` and `read_table` of /repo/xo/container/table.h:84-126. The streams are those of `Verif.Model.DataFile`.
-/
namespace Xo.TabText
open Xo Xo.DataFile Xo.Num

variable {T : Type}

/-- One line (table.h:86-89, 93-96): a text, and the others with a tab before each. -/
def line (first : Str) (ts : List Str) : Str := first ++ (ts.map ('\t' :: ·)).flatten ++ ['\n']

/-- `operator<<` (table.h:84-100). `out` is the text of a value. -/
def writeTable (out : T → Str) (t : Table T Str) : Res Str :=
  ((List.range t.rows).mapM fun r => (t.rowLabels.at' r).bind fun l =>
    ((List.range t.cols).mapM fun c => t.get r c).bind fun vs => .ok (line l (vs.map out))).bind fun ls =>
  .ok (line "Row".toList t.colLabels.labels ++ ls.flatten)

/-- `std::getline` (table.h:106) on a new stream: the line and the stream. -/
def getLine (s : Str) : Str × IS :=
  match s.dropWhile (· ≠ '\n') with
  | [] => (s, ⟨[], true, s.isEmpty⟩)
  | _ :: r => (s.takeWhile (· ≠ '\n'), ⟨r, false, false⟩)

/-- The columns (table.h:107-109). The table is not looked at after an error. -/
def addColumns (zero : T) : List Str → Table T Str → Res (Table T Str)
  | [], t => .ok t
  | l :: ls, t => match t.addColumn [] zero l zero with
    | (.ok _, t') => addColumns zero ls t'
    | (.err, _) => .err
    | (.ub, _) => .ub

/-- The values of a row (table.h:115-116), from column `i`; `n` more. A stream that is not good leaves the value as it is, which is the default of
the new row. -/
def readCells (e : Ext T) : Nat → Nat → IS → Table T Str → Res (IS × Table T Str)
  | _, 0, s, t => .ok (s, t)
  | i, n + 1, s, t => (t.write (t.rows - 1) i (e s).1).bind fun t' => readCells e (i + 1) n (e s).2 t'

/-- The rows (table.h:110-118), in at most `fuel` rounds; `none` when these do not suffice. -/
def readRows (e : Ext T) (zero : T) : Nat → IS → Table T Str → Option (Res (Table T Str))
  | 0, s, t => if s.good then none else some (.ok t)
  | fuel + 1, s, t =>
    if s.good then
      let w := extWord s
      if w.2.good then
        match (t.addRow w.1 zero).bind fun r => readCells e 0 r.2.cols w.2 r.2 with
        | .ok p => readRows e zero fuel p.1 p.2
        | .err => some .err
        | .ub => some .ub
      else readRows e zero fuel w.2 t
    else some (.ok t)

/-- `read_table` (table.h:102-120) of a stream with this text; `load_table` (table.h:122-126) of a file with it. -/
def readTable (e : Ext T) (zero : T) (hasHeader : Bool) (fuel : Nat) (text : Str) : Option (Res (Table T Str)) :=
  match addColumns zero ((splitStr (getLine text).1 " \t".toList).drop (if hasHeader then 1 else 0)) (Table.make [] zero 0 0) with
  | .ok t => readRows e zero fuel (getLine text).2 t
  | .err => some .err
  | .ub => some .ub

/-- The const `operator()( row, col )` with labels (table.h:66): it has no `return`. -/
def constGet (_ : Table T Str) (_ _ : Str) : Res T := .ub

/-! ### Floating point values -/

/-- An optional sign, and what is behind it. -/
def signPart : Str → Str × Str
  | '-' :: t => (['-'], t)
  | '+' :: t => (['+'], t)
  | t => ([], t)

/-- A decimal point with digits. -/
def fracPart : Str → Str × Str
  | '.' :: t => ('.' :: t.takeWhile isDigitC, t.dropWhile isDigitC)
  | t => ([], t)

/-- An exponent: the letter, a sign and digits. -/
def expPart : Str → Str × Str
  | [] => ([], [])
  | c :: t => if c = 'e' ∨ c = 'E' then (c :: (signPart t).1 ++ (signPart t).2.takeWhile isDigitC, (signPart t).2.dropWhile isDigitC) else ([], c :: t)

/-- The characters that `is >> x` takes for a floating point number, and those behind them. An exponent needs digits before it. -/
def realSplit (s : Str) : Str × Str :=
  let sg := signPart s
  let ip := sg.2.takeWhile isDigitC
  let fr := fracPart (sg.2.dropWhile isDigitC)
  let ex := if ip = [] ∧ fr.1.length ≤ 1 then ([], fr.2) else expPart fr.2
  (sg.1 ++ ip ++ fr.1 ++ ex.1, ex.2)

/-- The number: all the characters have to be used by `strtod`, and a number out of range fails. -/
def readRealChars (f : Fmt) (s : Str) : Option Fl × Str :=
  (match strtod f (realSplit s).1 with
    | some (.fin b x) => if strtodRest (realSplit s).1 = [] then some (.fin b x) else none
    | _ => none, (realSplit s).2)

/-- `is >> x` for a `float` or `double`. -/
def extReal (f : Fmt) : Ext Fl := formatted (.fin false 0) (readRealChars f)

end Xo.TabText
