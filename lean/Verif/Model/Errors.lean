import Verif.Model.Text

/-!
# Model of the error values of `smErrors`

Elsewhere a panic is only a tag (`Err`).  Here the errors that the checks of `smErrors` return are
values, and `text` is what their method `Error` returns.  `Error` calls `Dims` and `Len` of the
operands again, so it can panic itself.
-/

namespace Verif

variable {R : Type}

/-- A value of the interface `MatrixLike` (`smErrors/matrix_like.go:3-5`): the name of its type as
`%T` prints it, the method `Dims` and, for a value that is also `VectorLike`
(`smErrors/vector_like.go:9-12`), the method `Len`. -/
structure MatrixLike where
  goType : List Char
  dims : Go (Nat × Nat)
  len : Option (Go Nat)

/-- The error types of `smErrors` whose text depends on dimensions, indices, types or names. -/
inductive SmError
  /-- `MatrixDimensionError` (`smErrors/matrix_dimension_error.go:18-22`) -/
  | matrixDim (op : List Char) (arg1 arg2 : MatrixLike)
  /-- `VectorDimensionError` (`smErrors/vector_dimension_error.go:12-16`); the arguments are
  `VectorLike`, so their `Len` is stored -/
  | vectorDim (op : List Char) (len1 len2 : Go Nat)
  /-- `InvalidVectorIndexError` (`smErrors/out_of_bounds_error.go:11-14`) -/
  | vecIndex (i : Int) (e : MatrixLike)
  /-- `InvalidMatrixIndexError` (`smErrors/out_of_bounds_error.go:16-20`) -/
  | matIndex (i j : Int) (e : MatrixLike)
  /-- `NegativeExponentError` (`smErrors/negative_exponent.go:13-15`) -/
  | negExponent (n : Int)
  /-- `MatrixColumnMismatchError` (`smErrors/matrix_column_mismatch.go:5-9`) -/
  | columnMismatch (expected actual row : Nat)
  /-- `EmptyMatrixError` (`smErrors/empty_matrix.go:13-15`) -/
  | emptyMatrix (e : MatrixLike)
  /-- `EmptyVectorError` (`smErrors/empty_vector.go:13-15`) -/
  | emptyVector (e : MatrixLike)
  /-- `EmptyLinearCoeffsError` (`smErrors/empty_linear_coeffs.go:13-15`) -/
  | emptyLinearCoeffs (goType : List Char)
  /-- `LinearExpressionRequiredError` (`smErrors/linear_expression_required.go:5-8`) -/
  | linearRequired (op : List Char) (goType : List Char)
  /-- `EqualityConstraintRequiredError` (`smErrors/equality_constraint_required.go:3-5`) -/
  | equalityRequired (op : List Char)
  /-- `InequalityConstraintRequiredError` (`smErrors/inequality_constraint_required.go:3-5`) -/
  | inequalityRequired (op : List Char)
  /-- `UnsupportedInputError` (`smErrors/unsupported_input.go:12-15`) -/
  | unsupported (function : List Char) (goType : List Char)

/-- One of the two loops of `ArgDimsAsStrings` (`smErrors/matrix_dimension_error.go:34-57`). -/
def dimsString (d : Nat × Nat) : List Char :=
  '(' :: joinLoop 2 [','] [intChars d.1, intChars d.2] ++ [')']

/-- `fmt.Sprintf("%v", d)` of the slice that `Dims` returns. -/
def dimsSlice (d : Nat × Nat) : List Char :=
  '[' :: intChars d.1 ++ ' ' :: intChars d.2 ++ [']']

/-- `Error` of the error types: `matrix_dimension_error.go:24-32`, `vector_dimension_error.go:18-25`,
`out_of_bounds_error.go:22-30` and `32-41`, `negative_exponent.go:18-20`,
`matrix_column_mismatch.go:11-18`, `empty_matrix.go:18-24`, `empty_vector.go:18-24`,
`empty_linear_coeffs.go:18-24`, `linear_expression_required.go:10-16`,
`equality_constraint_required.go:7-9`, `inequality_constraint_required.go:7-9`,
`unsupported_input.go:17-23`.  `CanNotGetLinearCoeffOfConstantError` (`linear_coeffs.go:17-23`), which
prints the whole expression, is in `Verif/Model/LinError.lean`. -/
def SmError.text : SmError → Go (List Char)
  | .matrixDim op a b => do
    let d1 ← a.dims
    let d2 ← b.dims
    return "dimension error: Cannot perform ".toList ++ op ++ " between expression of dimension ".toList ++
      dimsString d1 ++ " and expression of dimension ".toList ++ dimsString d2
  | .vectorDim op a b => do
    let n1 ← a
    let n2 ← b
    return "vector dimension error: Cannot perform ".toList ++ op ++
      " between expression of dimension ".toList ++ intChars n1 ++
      " and expression of dimension ".toList ++ intChars n2
  | .vecIndex i e => do
    let d ← e.dims
    return "out of bounds error: index ".toList ++ intChars i ++ " is out of bounds for ".toList ++ e.goType ++
      " object of dimension ".toList ++ dimsSlice d
  | .matIndex i j e => do
    let d ← e.dims
    return "out of bounds error: index (".toList ++ intChars i ++ ", ".toList ++ intChars j ++
      ") is out of bounds for ".toList ++ e.goType ++ " object of dimension ".toList ++ dimsSlice d
  | .negExponent n => return "received negative exponent (".toList ++ intChars n ++
      "); expected non-negative exponent".toList
  | .columnMismatch n m i => return "matrix column mismatch error: expected ".toList ++ intChars n ++
      " columns, received ".toList ++ intChars m ++ " in row ".toList ++ intChars i
  | .emptyMatrix e => return "empty matrix error: the matrix of type ".toList ++ e.goType ++
      " is empty".toList
  | .emptyVector e => return "empty vector error: the vector of type ".toList ++ e.goType ++
      " is empty".toList
  | .emptyLinearCoeffs t => return "the expression of type ".toList ++ t ++
      " has no variables to compute linear coefficients for".toList
  | .linearRequired op t => return "Linear expression required for operation ".toList ++ op ++
      "; received an expression which is not linear (".toList ++ t ++ [')', '.']
  | .equalityRequired op => return "Equality constraint required for operation: ".toList ++ op
  | .inequalityRequired op => return "Inequality constraint required for operation: ".toList ++ op
  | .unsupported f t => return "unsupported input error: ".toList ++ f ++
      " does not support input of type ".toList ++ t

/-! ## The checks, with the errors they return -/

/-- `CheckDimensionsInAddition` (`smErrors/matrix_dimension_error.go:59-74`). -/
def additionError (l r : MatrixLike) : Go (Option SmError) := do
  let dl ← l.dims
  let dr ← r.dims
  if dl = dr ∨ isScalarDims dl ∨ isScalarDims dr then return none
  else return some (.matrixDim "Plus".toList l r)

/-- `CheckDimensionsInSubtraction` (`smErrors/matrix_dimension_error.go:82-97`). -/
def subtractionError (l r : MatrixLike) : Go (Option SmError) := do
  let dl ← l.dims
  let dr ← r.dims
  if dl = dr ∨ isScalarDims dl ∨ isScalarDims dr then return none
  else return some (.matrixDim "Minus".toList l r)

/-- `CheckDimensionsInMultiplication` (`smErrors/matrix_dimension_error.go:109-130`). -/
def multiplicationError (l r : MatrixLike) : Go (Option SmError) := do
  let dl ← l.dims
  let dr ← r.dims
  if dl.2 = dr.1 ∨ isScalarDims dl ∨ isScalarDims dr then return none
  else return some (.matrixDim "Multiply".toList l r)

/-- Loop of `CheckDimensionsInHStack` and `CheckDimensionsInVStack`. -/
def neighboursError (op : List Char) : List (MatrixLike × Nat) → Option SmError
  | a :: b :: l => if b.2 = a.2 then neighboursError op (b :: l) else some (.matrixDim op a.1 b.1)
  | _ => none

/-- `CheckDimensionsInHStack` (`smErrors/matrix_dimension_error.go:141-164`). -/
def hstackError (es : List MatrixLike) : Go (Option SmError) := do
  let ns ← es.mapM (fun e => do return (e, (← e.dims).1))
  return neighboursError "HStack".toList ns

/-- `CheckDimensionsInVStack` (`smErrors/matrix_dimension_error.go:175-198`). -/
def vstackError (es : List MatrixLike) : Go (Option SmError) := do
  let ns ← es.mapM (fun e => do return (e, (← e.dims).2))
  return neighboursError "VStack".toList ns

/-- `smErrors.CheckDimensionsInComparison` (`smErrors/matrix_dimension_error.go:200-225`): two columns
are asserted to be `VectorLike`. -/
def comparisonError (a b : MatrixLike) (op : List Char) : Go (Option SmError) := do
  let da ← a.dims
  let db ← b.dims
  if da = db ∨ isScalarDims da ∨ isScalarDims db then return none
  else if da.2 = 1 ∧ db.2 = 1 then
    match a.len, b.len with
    | some n, some m => return some (.vectorDim ("Comparison (".toList ++ op ++ [')']) n m)
    | _, _ => throw .typeAssert
  else return some (.matrixDim op a b)

/-- `CheckIndexOnVector` (`smErrors/out_of_bounds_error.go:44-52`). -/
def vectorIndexError (i : Int) (e : MatrixLike) : Go (Option SmError) := do
  let d ← e.dims
  if i < 0 ∨ (d.1 : Int) ≤ i then return some (.vecIndex i e) else return none

/-- `CheckIndexOnMatrix` (`smErrors/out_of_bounds_error.go:60-81`). -/
def matrixIndexError (i j : Int) (e : MatrixLike) : Go (Option SmError) := do
  let d ← e.dims
  if i < 0 ∨ (d.1 : Int) ≤ i then return some (.matIndex i j e)
  else if j < 0 ∨ (d.2 : Int) ≤ j then return some (.matIndex i j e)
  else return none

/-- The loop over the rows in `Check` of a matrix (`variable_matrix.go:44-54`,
`monomial_matrix.go:39-49`, `polynomial_matrix.go:39-49`) and in `getKMatrix.From`
(`get/KMatrix/from.go:31-42`). -/
def columnsError {α : Type} (n : Nat) : Nat → List (List α) → Option SmError
  | _, [] => none
  | i, row :: l => if row.length ≠ n then some (.columnMismatch n row.length i) else columnsError n (i + 1) l

/-- The tests of the shape in `Check` of a matrix (`variable_matrix.go:33-54`,
`monomial_matrix.go:32-49`, `polynomial_matrix.go:32-49`). -/
def rowsError {α : Type} (e : MatrixLike) (rows : List (List α)) : Option SmError :=
  match rows with
  | [] => some (.emptyMatrix e)
  | r0 :: _ => columnsError r0.length 0 rows

section
variable [GoNum R]

/-- An expression as a `MatrixLike`. -/
def Expr.like (e : Expr R) : MatrixLike where
  goType := match e with
    | .s (.k _) => "symbolic.K".toList
    | .s (.var _) => "symbolic.Variable".toList
    | .s (.mono _) => "symbolic.Monomial".toList
    | .s (.poly _) => "symbolic.Polynomial".toList
    | .v (.k _) => "symbolic.KVector".toList
    | .v (.v _) => "symbolic.VariableVector".toList
    | .v (.m _) => "symbolic.MonomialVector".toList
    | .v (.p _) => "symbolic.PolynomialVector".toList
    | .m (.k _) => "symbolic.KMatrix".toList
    | .m (.v _) => "symbolic.VariableMatrix".toList
    | .m (.m _) => "symbolic.MonomialMatrix".toList
    | .m (.p _) => "symbolic.PolynomialMatrix".toList
  dims := e.dims
  len := match e with
    | .v a => some a.len
    | _ => none

/-- `symbolic.CheckDimensionsInComparison` (`symbolic/utils.go:130-145`). -/
def Expr.compareError (a b : Expr R) (sense : Sense) : Go (Option SmError) := do
  let da ← a.dims
  let db ← b.dims
  if da = db ∨ a.isScalarType ∨ b.isScalarType then return none
  else return some (.matrixDim ("Comparison (".toList ++ (← sense.chars) ++ [')']) a.like b.like)

/-- The beginning of `Plus` of a vector or matrix, up to `panic(err)`: `constant_vector.go:80-99`,
`variable_vector.go:87-107`, `monomial_vector.go:98-117`, `polynomial_vector.go:123-140`,
`constant_matrix.go:59-77`, `variable_matrix.go:104-124`, `monomial_matrix.go:97-114`,
`polynomial_matrix.go:93-115`. -/
def Expr.plusError (a b : Expr R) : Go (Option SmError) := do
  a.check
  b.check
  additionError a.like b.like

/-- The beginning of `Minus` of a vector or matrix: `constant_vector.go:143-162`,
`variable_vector.go:140-162`, `monomial_vector.go:144-163`, `polynomial_vector.go:170-192`,
`constant_matrix.go:140-160`, `variable_matrix.go:163-188`, `monomial_matrix.go:209-226`,
`polynomial_matrix.go:191-213`. -/
def Expr.minusError (a b : Expr R) : Go (Option SmError) := do
  a.check
  b.check
  subtractionError a.like b.like

/-- The beginning of `Multiply` of a vector or matrix: `constant_vector.go:275-294`,
`variable_vector.go:178-195`, `monomial_vector.go:189-208`, `polynomial_vector.go:208-224`,
`constant_matrix.go:188-208`, `variable_matrix.go:215-235`, `monomial_matrix.go:242-262`,
`polynomial_matrix.go:229-251`. -/
def Expr.mulError (a b : Expr R) : Go (Option SmError) := do
  a.check
  b.check
  multiplicationError a.like b.like

/-- The beginning of `Comparison` of a vector or matrix: `constant_vector.go:212-230`,
`variable_vector.go:246-263`, `monomial_vector.go:267-286`, `polynomial_vector.go:289-307`,
`constant_matrix.go:363-382`, `variable_matrix.go:339-359`, `monomial_matrix.go:361-378`,
`polynomial_matrix.go:343-365`. -/
def Expr.comparisonError (a b : Expr R) (sense : Sense) : Go (Option SmError) := do
  a.check
  b.check
  a.compareError b sense

/-- The dimension test of `MatrixMultiplyTemplate` (`symbolic/matrix_expression.go:187-199`): unlike that
of `Multiply`, it does not accept a 1 by 1 matrix next to any other. -/
def mulTemplateError (a b : Mat R) : Go (Option SmError) := do
  let da ← a.dims
  let db ← b.dims
  if da.2 ≠ db.1 then return some (.matrixDim "MatrixMultiplyTemplate".toList (Expr.m a).like (Expr.m b).like)
  else return none

/-- The dimension test of `MatrixPlusTemplate` (`symbolic/matrix_expression.go:245-257`). -/
def plusTemplateError (a b : Mat R) : Go (Option SmError) := do
  let da ← a.dims
  let db ← b.dims
  if da.1 ≠ db.1 ∨ da.2 ≠ db.2 then
    return some (.matrixDim "MatrixPlusTemplate".toList (Expr.m a).like (Expr.m b).like)
  else return none

/-- The dimension test of `VectorConstraint.Check` (`symbolic/vector_constraint.go:74`). -/
def VCon.dimError (c : VCon R) : Go (Option SmError) := do
  Verif.comparisonError (Expr.v c.lhs).like (Expr.v c.rhs).like (← c.sense.chars)

end

end Verif
