import Verif.Model.Array

/-!
# Model of `getKVector.From` and `getKMatrix.From`

A `mat.VecDense` is the list of its entries, a `mat.Dense` the list of its rows, both with the number of
columns; a `KVector` or `KMatrix` that is passed through is the same slice, which is not visible here.
-/

namespace Verif

open GoNum

variable {R : Type} [GoNum R]

/-- Arguments of `getKVector.From`. -/
inductive VecInput (R : Type)
  | kvector (l : List R)
  | vecDense (l : List R)
  | vecDensePtr (l : Option (List R))
  | floats (l : List R)
  | ints (l : List Int)
  | other

/-- `VecDenseToKVector` (`symbolic/constant_vector.go:448-454`): entry by entry. -/
def vecDenseToKVector (l : List R) : List R := (List.range l.length).map (fun i => l.getD i zero)

/-- `getKVector.From` for `[]float64` (`get/KVector/from.go:32-36`). -/
def fromFloats (l : List R) : Go (List R) := do
  let d ← newVecDense l
  return vecDenseToKVector d

/-- `getKVector.From` (`get/KVector/from.go:22-52`); `*converted` with a nil pointer panics. -/
def kvectorFrom : VecInput R → Go (List R)
  | .kvector l => .ok l
  | .vecDense l => .ok (vecDenseToKVector l)
  | .vecDensePtr (some l) => .ok (vecDenseToKVector l)
  | .vecDensePtr none => .error .other
  | .floats l => fromFloats l
  | .ints l => fromFloats (l.map ofInt)
  | .other => .error .unsupported

/-- Arguments of `getKMatrix.From`; a dense matrix has its number of columns and its rows. -/
inductive MatInput (R : Type)
  | kmatrix (rows : List (List R))
  | dense (nCols : Nat) (rows : List (List R))
  | densePtr (d : Option (Nat × List (List R)))
  | floats (rows : List (List R))
  | other

/-- `DenseToKMatrix` (`symbolic/constant_matrix.go:510-527`): entry by entry. -/
def denseToKMatrix (nCols : Nat) (rows : List (List R)) : List (List R) :=
  (List.range rows.length).map fun i => (List.range nCols).map fun j => (rows.getD i []).getD j zero

/-- `getKMatrix.From` for `[][]float64` (`get/KMatrix/from.go:26-54`). -/
def fromRows (rows : List (List R)) : Go (List (List R)) :=
  match rows with
  | [] => .error .index
  | row0 :: _ => do
    rows.forM (fun row => if row.length ≠ row0.length then throw .dimension else pure ())
    return rows.map (fun row => row.map (fun x => x))

/-- `getKMatrix.From` (`get/KMatrix/from.go:15-64`). -/
def kmatrixFrom : MatInput R → Go (List (List R))
  | .kmatrix rows => .ok rows
  | .dense c rows => .ok (denseToKMatrix c rows)
  | .densePtr (some (c, rows)) => .ok (denseToKMatrix c rows)
  | .densePtr none => .error .other
  | .floats rows => fromRows rows
  | .other => .error .unsupported

end Verif
