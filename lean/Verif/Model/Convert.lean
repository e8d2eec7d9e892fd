import Verif.Model.Args

/-!
# Conversions between kinds, standard constants and queries

Function-by-function model of the conversion methods `ToMonomialVector`, `ToPolynomialVector`,
`ToMonomialMatrix`, `ToPolynomialMatrix`, `ToVecDense`, of `OnesVector`, `ZerosVector`, `OnesMatrix`,
`ZerosMatrix` and `Identity`, and of the queries `IsZero`, `IsConstant`, `IsConstantVector`,
`MonomialIndex`, `NumVariables`, `VariableIDs`, `IsSquare` and `IsPolynomialLike`.
-/

namespace Verif

open GoNum

variable {R : Type}

section
variable [GoNum R]

/-! ## Conversions of vectors -/

/-- `KVector.ToMonomialVector` (`symbolic/constant_vector.go:457-472`). -/
def kvToMonoVec (l : List R) : Go (List (Mono R)) := do
  Vec.check (.k l)
  return l.map kToMono

/-- `MonomialVector.ToPolynomialVector` (`symbolic/monomial_vector.go:458-473`). -/
def mvToPolyVec (l : List (Mono R)) : Go (List (Poly R)) := do
  Vec.check (.m l)
  return l.map Mono.toPoly

/-- `KVector.ToPolynomialVector` (`symbolic/constant_vector.go:475-477`): through
`ToMonomialVector`. -/
def kvToPolyVec (l : List R) : Go (List (Poly R)) := do mvToPolyVec (← kvToMonoVec l)

/-- `VariableVector.ToMonomialVector` (`symbolic/variable_vector.go:417-433`). -/
def vvToMonoVec (l : List (Var R)) : Go (List (Mono R)) := do
  Vec.check (.v l)
  return l.map Var.toMono

/-- `VariableVector.ToPolynomialVector` (`symbolic/variable_vector.go:436-452`). -/
def vvToPolyVec (l : List (Var R)) : Go (List (Poly R)) := do
  Vec.check (.v l)
  return l.map Var.toPoly

/-- `VariableVector.Copy` (`symbolic/variable_vector.go:295-307`): `append` entry by entry. -/
def vvCopy (l : List (Var R)) : Go (List (Var R)) :=
  (List.range l.length).foldlM (fun (out : List (Var R)) (i : Nat) => do
    return out ++ [← goGet l i]) []

/-- `KVector.ToVecDense` (`symbolic/constant_vector.go:439-445`): `mat.NewVecDense` panics for length
zero. -/
def kvToVecDense (l : List R) : Go (List R) := newVecDense l

/-! ## Conversions of matrices -/

/-- The loops of `KMatrix.ToMonomialMatrix` and `KMatrix.ToPolynomialMatrix`: the size is read from
the first row, then every `km[i][j]` is accessed. -/
def kmConvert {α : Type} (f : R → α) (rows : List (List R)) : Go (List (List α)) := do
  let d ← Mat.dims (.k rows)
  (List.range d.1).mapM (fun (i : Nat) => (List.range d.2).mapM (fun (j : Nat) => do
    return f (← goGet2 rows i j)))

/-- `KMatrix.ToMonomialMatrix` (`symbolic/constant_matrix.go:530-545`). -/
def kmToMonoMat (rows : List (List R)) : Go (List (List (Mono R))) := kmConvert kToMono rows

/-- `KMatrix.ToPolynomialMatrix` (`symbolic/constant_matrix.go:548-563`). -/
def kmToPolyMat (rows : List (List R)) : Go (List (List (Poly R))) := kmConvert kToPoly rows

/-- `VariableMatrix.ToMonomialMatrix` (`symbolic/variable_matrix.go:521-538`). -/
def vmToMonoMat (rows : List (List (Var R))) : Go (List (List (Mono R))) := do
  Mat.check (.v rows)
  return rows.map (·.map Var.toMono)

/-- `VariableMatrix.ToPolynomialMatrix` (`symbolic/variable_matrix.go:541-558`). -/
def vmToPolyMat (rows : List (List (Var R))) : Go (List (List (Poly R))) := do
  Mat.check (.v rows)
  return rows.map (·.map Var.toPoly)

/-! ## Standard constants -/

/-- `make([]float64, n)`, filled with `c`, then `mat.NewVecDense(n, elts)`: `make` panics for a
negative length, gonum for length zero. -/
def filledVector (n : Int) (c : R) : Go (List R) :=
  if n < 0 then throw .index else newVecDense (List.replicate n.toNat c)

/-- `OnesVector` (`symbolic/constant_vector.go:392-400`). -/
def onesVector (n : Int) : Go (List R) := filledVector n one

/-- `ZerosVector` (`symbolic/constant_vector.go:404-412`). -/
def zerosVector (n : Int) : Go (List R) := filledVector n zero

/-- `make([]float64, nR*nC)`, filled with `c`, then `mat.NewDense(nR, nC, elts)`, which panics if a
dimension is negative or zero (gonum `mat/dense.go`, `NewDense`). -/
def filledMatrix (r c : Int) (x : R) : Go (List (List R)) :=
  if r * c < 0 then throw .index
  else if r ≤ 0 ∨ c ≤ 0 then throw .empty
  else pure (List.replicate r.toNat (List.replicate c.toNat x))

/-- `OnesMatrix` (`symbolic/constant_matrix.go:448-457`). -/
def onesMatrix (r c : Int) : Go (List (List R)) := filledMatrix r c one

/-- `ZerosMatrix` (`symbolic/constant_matrix.go:435-445`). -/
def zerosMatrix (r c : Int) : Go (List (List R)) := filledMatrix r c zero

/-- gonum `Dense.Set(i, j, x)`. -/
def denseSet (rows : List (List R)) (i j : Nat) (x : R) : Go (List (List R)) := do
  let row ← goGet rows i
  let _ ← goGet row j
  return rows.set i (row.set j x)

/-- `Identity` (`symbolic/constant_matrix.go:461-472`): zeros, then the diagonal is overwritten. -/
def identity (n : Int) : Go (List (List R)) := do
  let zeroBase ← zerosMatrix n n
  (List.range n.toNat).foldlM (fun acc (i : Nat) => denseSet acc i i one) zeroBase

/-! ## Queries -/

/-- `Monomial.IsZero` (`symbolic/monomial.go:382-391`). -/
def Mono.isZero (m : Mono R) : Go Bool := do
  m.check
  return feq m.coeff zero

/-- `Monomial.IsConstant` (`symbolic/monomial.go:370-379`) as called from outside, with its `Check`. -/
def Mono.isConstantCall (m : Mono R) : Go Bool := do
  m.check
  return m.isConstant

/-- `Polynomial.ConstantMonomialIndex` (`symbolic/polynomial.go:226-242`) as called from outside, with
its `Check` and `-1` for no constant term. -/
def Poly.constantMonomialIndex (p : Poly R) : Go Int := do
  p.check
  match p.constantIndex with
  | none => return -1
  | some i => return i

/-- `MonomialVector.IsConstant` (`symbolic/monomial_vector.go:439-455`). -/
def mvIsConstant (l : List (Mono R)) : Go Bool := do
  Vec.check (.m l)
  return l.all Mono.isConstant

/-- `PolynomialVector.IsConstantVector` (`symbolic/polynomial_vector.go:396-406`): no `Check`, and
`&&` stops asking after the first entry that is not constant. -/
def pvIsConstantVector (l : List (Poly R)) : Go Bool :=
  l.foldlM (fun (acc : Bool) p => if acc then p.isConstant else pure false) true

/-- The loop of `Polynomial.MonomialIndex`. -/
def monoIndexLoop (mIn : Mono R) : List (Mono R) → Int → Go Int
  | [], _ => pure (-1)
  | m :: l, i => do
    if ← m.matchesFormOf mIn then return i
    monoIndexLoop mIn l (i + 1)

/-- `Polynomial.MonomialIndex` (`symbolic/polynomial.go:270-291`). -/
def Poly.monomialIndex (p : Poly R) (mIn : Mono R) : Go Int := do
  p.check
  mIn.check
  monoIndexLoop mIn p.monos 0

/-- `NumVariables` (`symbolic/expression.go:76-78`). -/
def numVariables (e : Expr R) : Go Nat := do return (← e.variables).length

/-- `VariableIDs` (`symbolic/expression.go:81-90`). -/
def variableIDs (e : Expr R) : Go (List Nat) := do return (← e.variables).map (·.id)

/-- `IsSquare` (`symbolic/matrix_expression.go:139-142`). -/
def isSquare (a : Mat R) : Go Bool := do
  let d ← a.dims
  return decide (d.1 = d.2)

end

/-- `IsPolynomialLike` and `ToPolynomialLike` (`symbolic/polynomial_like.go:76-99`,
`polynomial_like_scalar.go:88-136`, `polynomial_like_vector.go:101-149`,
`polynomial_like_matrix.go:84-131`): unlike `ToExpression`, pointers to gonum values are not
accepted. -/
def Arg.toPolynomialLike : Arg R → Option (Expr R)
  | .e a => some a
  | .f64 c => some (.s (.k c))
  | .vec l => some (.v (.k l))
  | .dense rows => some (.m (.k rows))
  | .vecPtr _ => none
  | .densePtr _ => none
  | .int _ => none
  | .other => none

end Verif
