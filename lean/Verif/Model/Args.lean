import Verif.Model.Constraint

/-!
# Model of operations with numbers and gonum values as arguments

The methods `Plus`, `Minus`, `Multiply` and `Comparison` take an `interface{}`.  Besides expressions
they accept `float64`, `int`, `mat.VecDense`, `*mat.VecDense`, `mat.Dense` and `*mat.Dense`, each kind
of receiver its own selection.  Here a gonum vector is the list of its entries and a gonum matrix the
list of its rows; nil pointers are not modelled.  Sums and products computed by gonum are written with
the operations of `GoNum` in the order of the indices, which gonum does not promise.
-/

namespace Verif

open GoNum

variable {R : Type}

/-- An argument of type `interface{}`. -/
inductive Arg (R : Type)
  | e (a : Expr R)
  | f64 (c : R)
  | int (n : Int)
  | vec (l : List R)
  | vecPtr (l : List R)
  | dense (rows : List (List R))
  | densePtr (rows : List (List R))
  | other

/-- `IsExpression` and `ToExpression` (`symbolic/expression.go:93-116`, `scalar_expression.go:96-144`,
`vector_expression.go:102-153`, `matrix_expression.go:84-136`): `int` is not an expression. -/
def Arg.toExpr : Arg R → Option (Expr R)
  | .e a => some a
  | .f64 c => some (.s (.k c))
  | .vec l => some (.v (.k l))
  | .vecPtr l => some (.v (.k l))
  | .dense rows => some (.m (.k rows))
  | .densePtr rows => some (.m (.k rows))
  | .int _ => none
  | .other => none

section
variable [GoNum R]

/-- `if IsExpression(rightIn) { ... }`: `Check` of the argument and a test of the dimensions. -/
def Arg.checkWith (x : Arg R) (f : Nat × Nat → Go Unit) : Go Unit :=
  match x.toExpr with
  | none => pure ()
  | some y => do
    y.check
    f (← y.dims)

/-- A result that is simplified once more before it is returned. -/
def again (x : Go (Expr R)) : Go (Expr R) := do
  let out ← x
  out.asSimplified

/-! ## Plus -/

/-- `KVector.Plus(float64)` (`symbolic/constant_vector.go:109-121`). -/
def kvPlusF64 (l : List R) (c : R) : Go (Expr R) := do
  if l.length = 1 then return .s (.k (add (← goGet l 0) c))
  let ones ← newVecDense (List.replicate l.length (one : R))
  again (Expr.plus (.v (.k l)) (.v (.k (ones.map (fun x => mul c x)))))

/-- `Plus` with any argument: `K` (`symbolic/constant.go:67-122`), `Variable` (`variable.go:73-132`),
`Monomial` (`monomial.go:52-118`), `Polynomial` (`polynomial.go:67-187`), `KVector`
(`constant_vector.go:80-140`), `VariableVector` (`variable_vector.go:87-136`), `MonomialVector`
(`monomial_vector.go:98-141`), `PolynomialVector` (`polynomial_vector.go:123-167`), `KMatrix`
(`constant_matrix.go:59-137`), `VariableMatrix` (`variable_matrix.go:104-160`), `MonomialMatrix`
(`monomial_matrix.go:97-206`), `PolynomialMatrix` (`polynomial_matrix.go:93-187`). -/
def Expr.plusArg (a : Expr R) (x : Arg R) : Go (Expr R) :=
  match a, x with
  | a, .e e => a.plus e
  | .s (.k c), x =>
    match x with
    | .int n => Expr.plus (.s (.k c)) (.s (.k (ofInt n)))
    | .f64 d => Expr.plus (.s (.k c)) (.s (.k d))
    | .vec l => Expr.plus (.s (.k c)) (.v (.k l))
    | .vecPtr l => Expr.plus (.s (.k c)) (.v (.k l))
    | .dense rows => Expr.plus (.s (.k c)) (.m (.k rows))
    | .densePtr rows => Expr.plus (.s (.k c)) (.m (.k rows))
    | _ => throw .unsupported
  | .s (.var w), x => do
    w.check
    match x with
    | .f64 d => again (Expr.plus (.s (.var w)) (.s (.k d)))
    | .int n => again (Expr.plus (.s (.var w)) (.s (.k (ofInt n))))
    | .vec l => again (Expr.plus (.s (.var w)) (.v (.k l)))
    | .vecPtr l => again (Expr.plus (.s (.var w)) (.v (.k l)))
    | _ => throw .unsupported
  | .s (.mono q), x => do
    q.check
    x.checkWith (checkDimAdd (1, 1))
    match x with
    | .f64 d => again (Expr.plus (.s (.mono q)) (.s (.k d)))
    | _ => throw .unsupported
  | .s (.poly p), x => do
    p.check
    match x with
    | .f64 d => again (Expr.plus (.s (.poly p)) (.s (.k d)))
    | _ => throw .unsupported
  | .v a, x => do
    a.check
    x.checkWith (checkDimAdd (← a.dims))
    match a, x with
    | .k l, .f64 d => kvPlusF64 l d
    | .k l, .vec r => again (Expr.plus (.v (.k l)) (.v (.k r)))
    | .k l, .vecPtr r => again (Expr.plus (.v (.k l)) (.v (.k r)))
    | .v l, .f64 d => again (Expr.plus (.v (.v l)) (.s (.k d)))
    | .v l, .int n => again (Expr.plus (.v (.v l)) (.s (.k (ofInt n))))
    | .v l, .vec r => again (Expr.plus (.v (.v l)) (.v (.k r)))
    | .v l, .vecPtr r => again (Expr.plus (.v (.v l)) (.v (.k r)))
    | .m l, .f64 d => again (Expr.plus (.v (.m l)) (.s (.k d)))
    | .m l, .int n => again (Expr.plus (.v (.m l)) (.s (.k (ofInt n))))
    | .p l, .f64 d => again (Expr.plus (.v (.p l)) (.s (.k d)))
    | _, _ => throw .unsupported
  | .m a, x => do
    a.check
    x.checkWith (checkDimAdd (← a.dims))
    match a, x with
    | .k rows, .f64 d => Expr.plus (.m (.k rows)) (.s (.k d))
    | .k rows, .dense r => again (Expr.plus (.m (.k rows)) (.m (.k r)))
    | .k rows, .densePtr r => again (again (Expr.plus (.m (.k rows)) (.m (.k r))))
    | .v rows, .f64 d => Expr.plus (.m (.v rows)) (.s (.k d))
    | .m rows, .f64 d => Expr.plus (.m (.m rows)) (.s (.k d))
    | .p rows, .f64 d => again (Expr.plus (.m (.p rows)) (.s (.k d)))
    | _, _ => throw .unsupported

/-! ## Minus -/

/-- `Minus` with any argument (`constant.go:125-156`, `variable.go:136-172`, `monomial.go:121-152`,
`polynomial.go:190-222`, `constant_vector.go:143-193`, `variable_vector.go:140-175`,
`monomial_vector.go:144-186`, `polynomial_vector.go:170-205`, `constant_matrix.go:140-185`,
`variable_matrix.go:163-212`, `monomial_matrix.go:209-239`, `polynomial_matrix.go:191-226`): whatever
`IsExpression` accepts is converted first. -/
def Expr.minusArg (a : Expr R) (x : Arg R) : Go (Expr R) :=
  match x.toExpr with
  | some e => a.minus e
  | none => do
    a.check
    throw .unsupported

/-! ## Multiply -/

/-- Dot product as computed by gonum. -/
def dot (xs ys : List R) : R := (List.zipWith mul xs ys).foldl add zero

/-- `KMatrix.Multiply(*mat.VecDense)` (`symbolic/constant_matrix.go:237-252`); `MulVec` panics unless
the inner dimensions agree. -/
def kmMulVecDense (rows : List (List R)) (l : List R) : Go (Expr R) := do
  let ks ← kToDense rows
  let d ← rowDims ks
  if d.2 ≠ l.length then throw .dimension
  let prod := ks.map (fun row => dot row l)
  if prod.length = 1 then return .s (.k (← goGet prod 0)) else return .v (.k prod)

/-- `KMatrix.Multiply(*mat.Dense)` (`symbolic/constant_matrix.go:275-298`); `Mul` panics unless the
inner dimensions agree. -/
def kmMulDense (rows : List (List R)) (r : List (List R)) : Go (Expr R) := do
  let ks ← kToDense rows
  let d ← rowDims ks
  let dr ← rowDims r
  if d.2 ≠ dr.1 then throw .dimension
  let prod := ks.map (fun row => (List.range dr.2).map (fun j => dot row (r.map (fun q => q.getD j zero))))
  if d.1 = 1 ∧ dr.2 = 1 then return .s (.k (← goGet2 prod 0 0))
  else if dr.2 = 1 then return .v (.k (← prod.mapM (fun row => goGet row 0)))
  else return .m (.k prod)

/-- `Multiply` with any argument: `K` (`symbolic/constant.go:245-287`), `Variable`
(`variable.go:274-351`), `Monomial` (`monomial.go:155-236`), `Polynomial` (`polynomial.go:294-376`),
`KVector` (`constant_vector.go:275-366`), `VariableVector` (`variable_vector.go:178-223`),
`MonomialVector` (`monomial_vector.go:189-230`), `PolynomialVector` (`polynomial_vector.go:208-263`),
`KMatrix` (`constant_matrix.go:188-314`), `VariableMatrix` (`variable_matrix.go:215-311`),
`MonomialMatrix` (`monomial_matrix.go:242-330`), `PolynomialMatrix` (`polynomial_matrix.go:229-313`).
`KMatrix` accepts `*mat.VecDense` but not `mat.VecDense`. -/
def Expr.mulArg (a : Expr R) (x : Arg R) : Go (Expr R) :=
  match a, x with
  | a, .e e => a.mul e
  | a, .f64 c => a.mulF64 c
  | .s (.k c), .int n => Expr.mul (.s (.k c)) (.s (.k (ofInt n)))
  | .s (.k _), _ => throw .unsupported
  | .s (.var w), x => do
    w.check
    x.checkWith (checkDimMul (1, 1))
    match x with
    | .int n => again (Expr.mul (.s (.var w)) (.s (.k (ofInt n))))
    | .vec l => again (Expr.mul (.s (.var w)) (.v (.k l)))
    | .vecPtr l => again (again (Expr.mul (.s (.var w)) (.v (.k l))))
    | _ => throw .unsupported
  | .s (.mono q), x => do
    q.check
    x.checkWith (checkDimMul (1, 1))
    match x with
    | .int n => Expr.mul (.s (.mono q)) (.s (.k (ofInt n)))
    | _ => throw .unsupported
  | .s (.poly p), _ => do
    p.check
    throw .unsupported
  | .v a, x => do
    a.check
    x.checkWith (checkDimMul (← a.dims))
    match a, x with
    | .k l, .vec r => again (Expr.mul (.v (.k l)) (.v (.k r)))
    | .k l, .vecPtr r => again (again (Expr.mul (.v (.k l)) (.v (.k r))))
    | _, _ => throw .unsupported
  | .m a, x => do
    a.check
    x.checkWith (checkDimMul (← a.dims))
    match a, x with
    | .k rows, .vecPtr l => again (kmMulVecDense rows l)
    | .k rows, .dense r => again (again (kmMulDense rows r))
    | .k rows, .densePtr r => again (kmMulDense rows r)
    | .v rows, .vec l => again (Expr.mul (.m (.v rows)) (.v (.k l)))
    | .v rows, .vecPtr l => again (Expr.mul (.m (.v rows)) (.v (.k l)))
    | .v rows, .dense r => again (Expr.mul (.m (.v rows)) (.m (.k r)))
    | .v rows, .densePtr r => again (Expr.mul (.m (.v rows)) (.m (.k r)))
    | _, _ => throw .unsupported

/-! ## Comparison -/

/-- `Comparison` with any argument: `K` (`symbolic/constant.go:177-242`), `Variable`
(`variable.go:196-242`), `Monomial` (`monomial.go:271-316`), `Polynomial` (`polynomial.go:391-435`),
`KVector` (`constant_vector.go:212-272`), `VariableVector` (`variable_vector.go:246-292`),
`MonomialVector` (`monomial_vector.go:267-332`), `PolynomialVector` (`polynomial_vector.go:289-360`),
`KMatrix` (`constant_matrix.go:363-419`), `VariableMatrix` (`variable_matrix.go:339-393`),
`MonomialMatrix` (`monomial_matrix.go:361-429`), `PolynomialMatrix` (`polynomial_matrix.go:343-397`).
`KMatrix` rejects `float64`, `VariableMatrix` rejects `*mat.Dense`. -/
def Expr.comparisonArg (a : Expr R) (x : Arg R) (sense : Sense) : Go (Con R) :=
  match a, x with
  | a, .e e => a.comparison e sense
  | .s (.k c), x =>
    match x with
    | .f64 d => Expr.comparison (.s (.k c)) (.s (.k d)) sense
    | .vec l => Expr.comparison (.s (.k c)) (.v (.k l)) sense
    | .vecPtr l => Expr.comparison (.s (.k c)) (.v (.k l)) sense
    | _ => throw .unsupported
  | .s a, x => do
    a.check
    match x with
    | .f64 d => Expr.comparison (.s a) (.s (.k d)) sense
    | .int n => Expr.comparison (.s a) (.s (.k (ofInt n))) sense
    | _ => throw .unsupported
  | .v a, x => do
    a.check
    match x.toExpr with
    | some e => do
      e.check
      checkDimCompare (.v a) e
    | none => pure ()
    match a, x with
    | .k l, .f64 d => Expr.comparison (.v (.k l)) (.s (.k d)) sense
    | .k l, .int n => Expr.comparison (.v (.k l)) (.s (.k (ofInt n))) sense
    | .k l, .vec r => Expr.comparison (.v (.k l)) (.v (.k r)) sense
    | .k l, .vecPtr r => Expr.comparison (.v (.k l)) (.v (.k r)) sense
    | .v l, .vec r => Expr.comparison (.v (.v l)) (.v (.k r)) sense
    | .v l, .vecPtr r => Expr.comparison (.v (.v l)) (.v (.k r)) sense
    | .m l, .f64 d => Expr.comparison (.v (.m l)) (.s (.k d)) sense
    | .p l, .f64 d => Expr.comparison (.v (.p l)) (.s (.k d)) sense
    | .p l, .vec r => Expr.comparison (.v (.p l)) (.v (.k r)) sense
    | .p l, .vecPtr r => Expr.comparison (.v (.p l)) (.v (.k r)) sense
    | _, _ => throw .unsupported
  | .m a, x => do
    a.check
    match x.toExpr with
    | some e => do
      e.check
      checkDimCompare (.m a) e
    | none => pure ()
    match a, x with
    | .k rows, .dense r => Expr.comparison (.m (.k rows)) (.m (.k r)) sense
    | .k rows, .densePtr r => Expr.comparison (.m (.k rows)) (.m (.k r)) sense
    | .v rows, .f64 d => Expr.comparison (.m (.v rows)) (.s (.k d)) sense
    | .v rows, .dense r => Expr.comparison (.m (.v rows)) (.m (.k r)) sense
    | .m rows, .f64 d => Expr.comparison (.m (.m rows)) (.s (.k d)) sense
    | .m rows, .dense r => Expr.comparison (.m (.m rows)) (.m (.k r)) sense
    | .m rows, .densePtr r => Expr.comparison (.m (.m rows)) (.m (.k r)) sense
    | .p rows, .f64 d => Expr.comparison (.m (.p rows)) (.s (.k d)) sense
    | .p rows, .dense r => Expr.comparison (.m (.p rows)) (.m (.k r)) sense
    | .p rows, .densePtr r => Expr.comparison (.m (.p rows)) (.m (.k r)) sense
    | _, _ => throw .unsupported

end

end Verif
