/-!
Specification of a growing matrix. Nothing here refers to the model.
-/
namespace Xo.Spec

/-- A matrix with `rows` rows and `cols` columns; `cell r c` is meaningful for `r < rows`, `c < cols`. -/
structure Matrix (T : Type) where
  rows : Nat
  cols : Nat
  cell : Nat → Nat → T

variable {T : Type}

/-- Growing keeps every existing cell and fills the new ones with `v`. -/
def Matrix.grow (m : Matrix T) (rows cols : Nat) (v : T) : Matrix T :=
  ⟨rows, cols, fun r c => if r < m.rows ∧ c < m.cols then m.cell r c else v⟩

/-- Writing changes exactly one cell. -/
def Matrix.write (m : Matrix T) (r c : Nat) (v : T) : Matrix T :=
  { m with cell := fun r' c' => if r' = r ∧ c' = c then v else m.cell r' c' }

/-- A new last row with given contents. -/
def Matrix.addRow (m : Matrix T) (d : List T) (dflt : T) : Matrix T :=
  ⟨m.rows + 1, m.cols, fun r c => if r < m.rows then m.cell r c else d.getD c dflt⟩

/-- A new last column with given contents; if it is longer than the matrix is high, new rows are added. Cells not
covered are `dflt`. -/
def Matrix.addCol (m : Matrix T) (d : List T) (dflt : T) : Matrix T :=
  ⟨max m.rows d.length, m.cols + 1, fun r c =>
    if c < m.cols then (if r < m.rows then m.cell r c else dflt) else d.getD r dflt⟩

end Xo.Spec
