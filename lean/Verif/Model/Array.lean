import Verif.Model.Scalar

/-!
# Vector and matrix expressions

Function-by-function model of `symbolic/vector_expression.go`, `matrix_expression.go`,
`expression.go`, `constant_vector.go`, `variable_vector.go`, `monomial_vector.go`,
`polynomial_vector.go`, `constant_matrix.go`, `variable_matrix.go`, `monomial_matrix.go`,
`polynomial_matrix.go` and of the dimension and index checks of `smErrors`.

Arguments are expressions.  A `float64`, `int`, `mat.VecDense` or `mat.Dense` argument is converted
to `K`, `KVector` or `KMatrix` by the first cases of each method; see `Model/Args` for which methods
accept them.  A call of a method with a nil interface is not modelled.
-/

namespace Verif

variable {R : Type}

/-- The four implementations of `VectorExpression` (`symbolic/vector_expression.go:102-121`). -/
inductive Vec (R : Type)
  | k (l : List R)
  | v (l : List (Var R))
  | m (l : List (Mono R))
  | p (l : List (Poly R))
  deriving DecidableEq

/-- The four implementations of `MatrixExpression` (`symbolic/matrix_expression.go:84-102`): a slice
of rows. -/
inductive Mat (R : Type)
  | k (rows : List (List R))
  | v (rows : List (List (Var R)))
  | m (rows : List (List (Mono R)))
  | p (rows : List (List (Poly R)))
  deriving DecidableEq

/-- `Expression`: a scalar, a vector or a matrix (`symbolic/expression.go:93-95`). -/
inductive Expr (R : Type)
  | s (a : Scalar R)
  | v (a : Vec R)
  | m (a : Mat R)
  deriving DecidableEq

/-- `ToScalarExpressions` (`constant_vector.go:512-518`, `variable_vector.go:500-506`,
`monomial_vector.go:564-570`, `polynomial_vector.go:519-525`). -/
def Vec.entries : Vec R → List (Scalar R)
  | .k l => l.map .k
  | .v l => l.map .var
  | .m l => l.map .mono
  | .p l => l.map .poly

/-- The entries of a matrix, row by row, as scalars. -/
def Mat.entries : Mat R → List (List (Scalar R))
  | .k rows => rows.map (·.map .k)
  | .v rows => rows.map (·.map .var)
  | .m rows => rows.map (·.map .mono)
  | .p rows => rows.map (·.map .poly)

/-- Go slice access `l[i]` with its run-time panic. -/
def goGet {α : Type} (l : List α) (i : Int) : Go α :=
  if i < 0 then throw .index
  else match l[i.toNat]? with
    | some a => pure a
    | none => throw .index

/-- Go slice access `l[i][j]`. -/
def goGet2 {α : Type} (l : List (List α)) (i j : Int) : Go α := do goGet (← goGet l i) j

/-! ## smErrors: dimension and index checks -/

/-- `CheckIndexOnVector` (`smErrors/out_of_bounds_error.go:44-52`). -/
def checkIndexVec (i : Int) (dims : Nat × Nat) : Go Unit :=
  if i < 0 ∨ (dims.1 : Int) ≤ i then throw .index else pure ()

/-- `CheckIndexOnMatrix` (`smErrors/out_of_bounds_error.go:60-81`). -/
def checkIndexMat (i j : Int) (dims : Nat × Nat) : Go Unit :=
  if i < 0 ∨ (dims.1 : Int) ≤ i then throw .index
  else if j < 0 ∨ (dims.2 : Int) ≤ j then throw .index
  else pure ()

/-- `smErrors.IsScalarExpression` (`smErrors/matrix_like.go:13-17`): by dimensions only, so a vector
of length one and a 1 by 1 matrix count as scalars. -/
def isScalarDims (d : Nat × Nat) : Bool := decide (d = (1, 1))

/-- `CheckDimensionsInAddition` (`smErrors/matrix_dimension_error.go:59-74`);
`CheckDimensionsInSubtraction` (`82-97`) is the same test. -/
def checkDimAdd (l r : Nat × Nat) : Go Unit :=
  if l = r ∨ isScalarDims l ∨ isScalarDims r then pure () else throw .dimension

/-- `CheckDimensionsInMultiplication` (`smErrors/matrix_dimension_error.go:109-130`). -/
def checkDimMul (l r : Nat × Nat) : Go Unit :=
  if l.2 = r.1 ∨ isScalarDims l ∨ isScalarDims r then pure () else throw .dimension

/-- Loop of `CheckDimensionsInHStack` (`smErrors/matrix_dimension_error.go:149-160`) and of
`CheckDimensionsInVStack` (`183-194`): neighbours must agree. -/
def checkNeighbours : List Nat → Go Unit
  | a :: b :: l => if b = a then checkNeighbours (b :: l) else throw .dimension
  | _ => pure ()

section
variable [GoNum R]
open GoNum

/-! ## Check, Dims, Len -/

/-- `Check` of a vector (`constant_vector.go:26-28`, `variable_vector.go:329-343`,
`monomial_vector.go:27-43`, `polynomial_vector.go:18-34`).  Empty constant and variable vectors are
accepted. -/
def Vec.check : Vec R → Go Unit
  | .k _ => pure ()
  | .v l => l.forM Var.check
  | .m l => if l = [] then throw .check else l.forM Mono.check
  | .p l => if l = [] then throw .check else l.forM Poly.check

/-- The part of `Check` shared by the three non-constant matrix kinds: not empty, all rows as long
as the first, all entries valid (`variable_matrix.go:33-72`, `monomial_matrix.go:32-63`,
`polynomial_matrix.go:32-63`). -/
def checkRows {α : Type} (rows : List (List α)) (chk : α → Go Unit) : Go Unit :=
  match rows with
  | [] => throw .check
  | r0 :: _ => do
    rows.forM (fun row => if row.length ≠ r0.length then throw .check else pure ())
    rows.forM (fun row => row.forM chk)

/-- `Check` of a matrix; `KMatrix.Check` accepts everything (`constant_matrix.go:16-18`). -/
def Mat.check : Mat R → Go Unit
  | .k _ => pure ()
  | .v rows => checkRows rows Var.check
  | .m rows => checkRows rows Mono.check
  | .p rows => checkRows rows Poly.check

/-- `Check` on the interface. -/
def Expr.check : Expr R → Go Unit
  | .s a => a.check
  | .v a => a.check
  | .m a => a.check

/-- `Len` of a vector; only `PolynomialVector.Len` checks first (`polynomial_vector.go:37-49`,
`constant_vector.go:21`, `variable_vector.go:22-31`, `monomial_vector.go:64-66`). -/
def Vec.len : Vec R → Go Nat
  | .k l => pure l.length
  | .v l => pure l.length
  | .m l => pure l.length
  | .p l => do
    Vec.check (.p l)
    return l.length

/-- `Dims` of a vector: `(Len, 1)` (`constant_vector.go:384-386`, `variable_vector.go:324-326`,
`monomial_vector.go:70-72`, `polynomial_vector.go:283-285`). -/
def Vec.dims (a : Vec R) : Go (Nat × Nat) := do return (← a.len, 1)

/-- `[]int{len(m), len(m[0])}`. -/
def rowDims {α : Type} : List (List α) → Go (Nat × Nat)
  | [] => throw .index
  | r0 :: rest => pure (rest.length + 1, r0.length)

/-- `Dims` of a matrix (`constant_matrix.go:49-56`, `variable_matrix.go:92-101`,
`monomial_matrix.go:87-94`, `polynomial_matrix.go:83-90`): checks, then reads the first row. -/
def Mat.dims (a : Mat R) : Go (Nat × Nat) := do
  a.check
  match a with
  | .k rows => rowDims rows
  | .v rows => rowDims rows
  | .m rows => rowDims rows
  | .p rows => rowDims rows

/-- `Dims` on the interface; scalars are 1 by 1. -/
def Expr.dims : Expr R → Go (Nat × Nat)
  | .s _ => pure (1, 1)
  | .v a => a.dims
  | .m a => a.dims

/-! ## At, AtVec -/

/-- `AtVec` (`constant_vector.go:49-61`, `variable_vector.go:55-66`, `monomial_vector.go:406-415`,
`polynomial_vector.go:72-86`). -/
def Vec.atVec (a : Vec R) (i : Int) : Go (Scalar R) :=
  match a with
  | .k l => do
    checkIndexMat i 0 (l.length, 1)
    return .k (← goGet l i)
  | .v l => do
    checkIndexMat i 0 (l.length, 1)
    return .var (← goGet l i)
  | .m l => do
    Vec.check (.m l)
    return .mono (← goGet l i)
  | .p l => do
    Vec.check (.p l)
    checkIndexVec i (← Vec.dims (.p l))
    return .poly (← goGet l i)

/-- `At` of a vector (`constant_vector.go:34-46`, `variable_vector.go:37-52`,
`monomial_vector.go:386-403`, `polynomial_vector.go:55-69`). -/
def Vec.at (a : Vec R) (i j : Int) : Go (Scalar R) :=
  match a with
  | .k l => do
    checkIndexMat i j (l.length, 1)
    Vec.atVec (.k l) i
  | .v l => do
    Vec.check (.v l)
    checkIndexMat i j (l.length, 1)
    return .var (← goGet l i)
  | .m l => do
    Vec.check (.m l)
    checkIndexMat i j (l.length, 1)
    return .mono (← goGet l i)
  | .p l => do
    Vec.check (.p l)
    checkIndexMat i j (← Vec.dims (.p l))
    return .poly (← goGet l i)

/-- `KMatrix.ToDense` (`symbolic/constant_matrix.go:21-41`): the number of columns is that of the
first row, a shorter row is an index panic, and `mat.NewDense` panics on zero columns. -/
def kToDense (rows : List (List R)) : Go (List (List R)) := do
  let d ← rowDims rows
  if d.2 = 0 then throw .empty
  rows.mapM (fun row => (List.range d.2).mapM (fun (j : Nat) => goGet row j))

/-- `At` of a matrix (`constant_matrix.go:422-425`, `variable_matrix.go:442-451`,
`monomial_matrix.go:479-488`, `polynomial_matrix.go:448-465`). -/
def Mat.at (a : Mat R) (i j : Int) : Go (Scalar R) :=
  match a with
  | .k rows => do
    let d ← kToDense rows
    return .k (← goGet2 d i j)
  | .v rows => do
    Mat.check (.v rows)
    return .var (← goGet2 rows i j)
  | .m rows => do
    Mat.check (.m rows)
    return .mono (← goGet2 rows i j)
  | .p rows => do
    Mat.check (.p rows)
    checkIndexMat i j (← Mat.dims (.p rows))
    return .poly (← goGet2 rows i j)

/-- `At` on the interface.  Scalars check themselves and the index (`constant.go:350-360`,
`variable.go:555-571`, `monomial.go:702-716`, `polynomial.go:777-792`). -/
def Expr.at (e : Expr R) (i j : Int) : Go (Scalar R) :=
  match e with
  | .s a => do
    a.check
    checkIndexMat i j (1, 1)
    return a
  | .v a => a.at i j
  | .m a => a.at i j

/-! ## Concretize -/

/-- Conversion of an entry to `Polynomial` (`vector_expression.go:202-210`). -/
def Scalar.toPoly : Scalar R → Poly R
  | .k c => kToPoly c
  | .var v => v.toPoly
  | .mono m => m.toPoly
  | .poly p => p

/-- Conversion of an entry to `Monomial` (`vector_expression.go:227-240`). -/
def Scalar.toMono : Scalar R → Go (Mono R)
  | .k c => pure (kToMono c)
  | .var v => pure v.toMono
  | .mono m => pure m
  | .poly _ => throw .unsupported

/-- Entry that has to be a `Variable` (`vector_expression.go:250-260`). -/
def Scalar.toVar : Scalar R → Go (Var R)
  | .var v => pure v
  | _ => throw .unsupported

/-- Entry that has to be a `K` (`vector_expression.go:269-279`). -/
def Scalar.toK : Scalar R → Go R
  | .k c => pure c
  | _ => throw .other

def Scalar.isK : Scalar R → Bool | .k _ => true | _ => false
def Scalar.isVar : Scalar R → Bool | .var _ => true | _ => false
def Scalar.isMono : Scalar R → Bool | .mono _ => true | _ => false
def Scalar.isPoly : Scalar R → Bool | .poly _ => true | _ => false

/-- `ConcretizeVectorExpression` (`symbolic/vector_expression.go:156-299`). -/
def concretizeVec (l : List (Scalar R)) : Go (Vec R) := do
  if l = [] then throw .empty
  if l.any Scalar.isPoly then return .p (l.map Scalar.toPoly)
  else if l.any Scalar.isMono || (l.any Scalar.isK && l.any Scalar.isVar) then
    return .m (← l.mapM Scalar.toMono)
  else if l.all Scalar.isVar then return .v (← l.mapM Scalar.toVar)
  else if l.any Scalar.isK then return .k (← l.mapM Scalar.toK)
  else throw .other

/-- `ConcretizeMatrixExpression` (`symbolic/matrix_expression.go:304-488`). -/
def concretizeMat (rows : List (List (Scalar R))) : Go (Mat R) := do
  match rows with
  | [] => throw .empty
  | r0 :: _ => rows.forM (fun row => if row.length ≠ r0.length then throw .other else pure ())
  let l := rows.flatten
  if l.any Scalar.isPoly then return .p (rows.map (·.map Scalar.toPoly))
  else if l.any Scalar.isMono || (l.any Scalar.isVar && l.any Scalar.isK) then
    return .m (← rows.mapM (·.mapM Scalar.toMono))
  else if l.all Scalar.isVar then return .v (← rows.mapM (·.mapM Scalar.toVar))
  else if l.any Scalar.isK then return .k (← rows.mapM (·.mapM Scalar.toK))
  else throw .other

/-- `ConcretizeExpression([]ScalarExpression)` (`symbolic/expression.go:256-263`): a vector of
length one becomes a scalar. -/
def concretizeV (l : List (Scalar R)) : Go (Expr R) := do
  let v ← concretizeVec l
  let d ← v.dims
  if d.1 = 1 then return .s (← v.at 0 0) else return .v v

/-- `ConcretizeExpression([][]ScalarExpression)` (`symbolic/expression.go:265-279`): a 1 by 1 matrix
becomes a scalar, a matrix with one column becomes a vector. -/
def concretizeM (rows : List (List (Scalar R))) : Go (Expr R) := do
  let m ← concretizeMat rows
  let d ← m.dims
  if d.1 = 1 ∧ d.2 = 1 then return .s (← m.at 0 0)
  else if d.2 = 1 then
    return .v (← concretizeVec (← (List.range d.1).mapM (fun (i : Nat) => m.at i 0)))
  else return .m m

/-! ## AsSimplifiedExpression -/

/-- `AsSimplifiedExpression` of a vector (`constant_vector.go:507-509`, `variable_vector.go:495-497`,
`monomial_vector.go:541-561`, `polynomial_vector.go:409-441`). -/
def Vec.asSimplified (a : Vec R) : Go (Vec R) :=
  match a with
  | .k l => return .k l
  | .v l => return .v l
  | .m l => do
    Vec.check (.m l)
    concretizeVec (← l.mapM Mono.asSimplified)
  | .p l => do
    Vec.check (.p l)
    concretizeVec (← l.mapM Poly.asSimplified)

/-- `AsSimplifiedExpression` of a matrix (`constant_matrix.go:589-591`, `variable_matrix.go:600-602`,
`monomial_matrix.go:600-627`, `polynomial_matrix.go:490-517`); `Dims` contains the `Check`. -/
def Mat.asSimplified (a : Mat R) : Go (Mat R) :=
  match a with
  | .k rows => return .k rows
  | .v rows => return .v rows
  | .m rows => do
    Mat.check (.m rows)
    concretizeMat (← rows.mapM (·.mapM Mono.asSimplified))
  | .p rows => do
    Mat.check (.p rows)
    concretizeMat (← rows.mapM (·.mapM Poly.asSimplified))

/-- `AsSimplifiedExpression` on the interface. -/
def Expr.asSimplified : Expr R → Go (Expr R)
  | .s a => do return .s (← a.asSimplified)
  | .v a => do return .v (← a.asSimplified)
  | .m a => do return .m (← a.asSimplified)

/-! ## Vector Plus and Multiply -/

/-- `VectorPlusTemplate` (`symbolic/vector_expression.go:390-416`). -/
def vecPlusTemplate (a : Vec R) (right : Expr R) : Go (Expr R) :=
  match right with
  | .s b => do
    concretizeV (← a.entries.mapM (fun x => x.plus b))
  | .v b => do
    concretizeV (← a.entries.zipIdx.mapM (fun xi => do
      let y ← b.atVec xi.2
      xi.1.plus y))
  | .m _ => throw .unsupported

/-- `VectorMultiplyTemplate` (`symbolic/vector_expression.go:365-386`). -/
def vecMulTemplate (a : Vec R) (right : Expr R) : Go (Expr R) :=
  match right with
  | .s b => do
    concretizeV (← a.entries.mapM (fun x => x.mul b))
  | _ => throw .unsupported

/-- `Plus` of the four vector kinds on an expression (`constant_vector.go:80-140`,
`variable_vector.go:87-136`, `monomial_vector.go:98-141`, `polynomial_vector.go:123-167`): they
differ only in the non-expression arguments. -/
def Vec.plus (a : Vec R) (e : Expr R) : Go (Expr R) := do
  a.check
  e.check
  checkDimAdd (← a.dims) (← e.dims)
  let out ← vecPlusTemplate a e
  out.asSimplified

/-- `Multiply` of a vector by a scalar expression: `KVector` (`constant_vector.go:306-336`),
`VariableVector` (`variable_vector.go:204-205`), `MonomialVector` (`monomial_vector.go:216-217`) and
`PolynomialVector` (`polynomial_vector.go:232-247`, which accepts only `K` and `Polynomial`). -/
def Vec.mulScalar (a : Vec R) (b : Scalar R) : Go (Expr R) := do
  a.check
  b.check
  checkDimMul (← a.dims) (1, 1)
  let out ← match a, b with
    | .p _, .var _ => throw .unsupported
    | .p _, .mono _ => throw .unsupported
    | _, _ => vecMulTemplate a (.s b)
  out.asSimplified

/-- `Multiply` of a vector (`constant_vector.go:275-366`, `variable_vector.go:178-223`,
`monomial_vector.go:189-230`, `polynomial_vector.go:208-263`).  A vector argument that passes the
dimension test is read at index 0 only. -/
def Vec.mul (a : Vec R) (e : Expr R) : Go (Expr R) :=
  match e with
  | .s b => a.mulScalar b
  | .v b => do
    a.check
    b.check
    checkDimMul (← a.dims) (← b.dims)
    let out ← match a, b with
      | .k _, .k l => do a.mulScalar (.k (← goGet l 0))
      | .k _, .v l => do a.mulScalar (.var (← goGet l 0))
      | .v _, _ => do a.mulScalar (← b.atVec 0)
      | .p _, .p l => do a.mulScalar (.poly (← goGet l 0))
      | _, _ => throw .unsupported
    out.asSimplified
  | .m b => do
    a.check
    b.check
    checkDimMul (← a.dims) (← b.dims)
    throw .unsupported

/-! ## Matrix Plus -/

/-- `MatrixPlusTemplate` (`symbolic/matrix_expression.go:232-269`). -/
def matPlusTemplate (a b : Mat R) : Go (Mat R) := do
  a.check
  b.check
  let da ← a.dims
  let db ← b.dims
  if da ≠ db then throw .dimension
  concretizeMat (← (List.range da.1).mapM (fun (i : Nat) => (List.range da.2).mapM (fun (j : Nat) => do
    let x ← a.at i j
    let y ← b.at i j
    x.plus y)))

/-- A matrix filled with the constant `c`, as built from `OnesMatrix` and `Scale`
(`constant_matrix.go:448-458`, `variable_matrix.go:134-138`); `mat.NewDense` panics on a zero
dimension. -/
def constRows (d : Nat × Nat) (c : R) : Go (List (List R)) :=
  if d.1 = 0 ∨ d.2 = 0 then throw .empty
  else return List.replicate d.1 (List.replicate d.2 (mul c one))

/-- `KMatrix.Plus` (`symbolic/constant_matrix.go:59-137`). -/
def kmPlus (rows : List (List R)) (e : Expr R) : Go (Expr R) := do
  e.check
  let d ← rowDims rows
  checkDimAdd d (← e.dims)
  match e with
  | .s (.k c) => do
    let cs ← constRows d c
    let ks ← kToDense rows
    return .m (.k (List.zipWith (List.zipWith add) cs ks))
  | .s (.var v) => do
    let out ← matPlusTemplate (.k rows) (.v (List.replicate d.1 (List.replicate d.2 v)))
    let out ← out.asSimplified
    return .m (← out.asSimplified)
  | .m b => do
    let out ← matPlusTemplate (.k rows) b
    return .m (← out.asSimplified)
  | _ => throw .unsupported

/-- `VariableMatrix.Plus(KMatrix)` (`symbolic/variable_matrix.go:140-150`): each sum is asserted to be
a `Polynomial`, `right[ii][jj]` is a plain slice access. -/
def vmPlusK (rows : List (List (Var R))) (ks : List (List R)) : Go (Expr R) := do
  let out ← rows.zipIdx.mapM (fun ri => ri.1.zipIdx.mapM (fun xj => do
    let c ← goGet2 ks ri.2 xj.2
    match ← xj.1.plus (.k c) with
    | .poly p => pure p
    | _ => throw .typeAssert))
  return .m (.p out)

/-- `VariableMatrix.Plus` (`symbolic/variable_matrix.go:104-160`). -/
def vmPlus (rows : List (List (Var R))) (e : Expr R) : Go (Expr R) := do
  Mat.check (.v rows)
  e.check
  let d ← rowDims rows
  checkDimAdd d (← e.dims)
  match e with
  | .s (.k c) => do
    let cs ← constRows d c
    vmPlusK rows cs
  | .m (.k ks) => vmPlusK rows ks
  | _ => throw .unsupported

/-- One entry of `MonomialMatrix.Plus` (`symbolic/monomial_matrix.go:126-131`): the list of monomials
is kept as it is, the result of `Simplify` is thrown away. -/
def mmPlusEntry (m : Mono R) (ms : List (Mono R)) : Go (Poly R) := do
  let _ ← Poly.simplify ⟨m :: ms⟩
  return ⟨m :: ms⟩

/-- `MonomialMatrix.Plus` (`symbolic/monomial_matrix.go:97-206`). -/
def mmPlus (rows : List (List (Mono R))) (e : Expr R) : Go (Expr R) := do
  Mat.check (.m rows)
  e.check
  checkDimAdd (← rowDims rows) (← e.dims)
  match e with
  | .s b => do
    let ms := b.toPoly.monos
    return .m (.p (← rows.mapM (·.mapM (fun m => mmPlusEntry m ms))))
  | .m (.p ps) => do
    let out ← rows.zipIdx.mapM (fun ri => ri.1.zipIdx.mapM (fun mj => do
      let p ← goGet2 ps ri.2 mj.2
      mmPlusEntry mj.1 p.monos))
    return .m (.p out)
  | _ => throw .unsupported

/-- `PolynomialMatrix.Plus` (`symbolic/polynomial_matrix.go:93-187`). -/
def pmPlus (rows : List (List (Poly R))) (e : Expr R) : Go (Expr R) := do
  Mat.check (.p rows)
  e.check
  checkDimAdd (← rowDims rows) (← e.dims)
  match e with
  | .s (.k c) => do
    let out ← concretizeM (← rows.mapM (·.mapM (fun p => p.plus (.k c))))
    out.asSimplified
  | .s (.mono m) => do
    let out ← concretizeM (← rows.mapM (·.mapM (fun p => p.plus (.poly m.toPoly))))
    let out ← out.asSimplified
    out.asSimplified
  | .s (.poly q) => do
    let out ← concretizeM (← rows.mapM (·.mapM (fun p => p.plus (.poly q))))
    out.asSimplified
  | .m (.k ks) => do
    let out ← concretizeM (← rows.zipIdx.mapM (fun ri => ri.1.zipIdx.mapM (fun pj => do
      let c ← Mat.at (.k ks) ri.2 pj.2
      pj.1.plus c)))
    out.asSimplified
  | .m (.p ps) => do
    let out ← concretizeM (← rows.zipIdx.mapM (fun ri => ri.1.zipIdx.mapM (fun pj => do
      let q ← goGet2 ps ri.2 pj.2
      pj.1.plus (.poly q))))
    out.asSimplified
  | _ => throw .unsupported

/-- `Plus` of a matrix on the interface. -/
def Mat.plus (a : Mat R) (e : Expr R) : Go (Expr R) :=
  match a with
  | .k rows => kmPlus rows e
  | .v rows => vmPlus rows e
  | .m rows => mmPlus rows e
  | .p rows => pmPlus rows e

/-! ## Plus on the interface -/

/-- `Polynomial.Plus` on vectors (`symbolic/polynomial.go:140-158`) and matrices (`160-176`). -/
def Poly.plusExpr (p : Poly R) (e : Expr R) : Go (Expr R) :=
  match e with
  | .s b => do return .s (← p.plus b)
  | .v b => do
    p.check
    b.check
    let n ← b.len
    let out ← if n = 1 then do pure (Expr.s (← p.plus (← b.atVec 0)))
      else do concretizeV (← (List.range n).mapM (fun (i : Nat) => do p.plus (← b.atVec i)))
    out.asSimplified
  | .m b => do
    p.check
    b.check
    let d ← b.dims
    let out ← if d.1 = 1 ∧ d.2 = 1 then do pure (Expr.s (← p.plus (← b.at 0 0)))
      else do
        concretizeM (← (List.range d.1).mapM (fun (i : Nat) => (List.range d.2).mapM (fun (j : Nat) => do
          p.plus (← b.at i j))))
    out.asSimplified

/-- `Plus` on the interface.  `K.Plus` (`constant.go:67-122`) and `Variable.Plus`
(`variable.go:73-132`) hand vectors (and for `K` matrices) over to the other operand,
`Monomial.Plus` (`monomial.go:52-118`) accepts scalars only. -/
def Expr.plus (a e : Expr R) : Go (Expr R) :=
  match a, e with
  | .s a, .s b => do return .s (← a.plus b)
  | .s (.k c), .v b => do
    b.check
    b.plus (.s (.k c))
  | .s (.k c), .m b => do
    b.check
    b.plus (.s (.k c))
  | .s (.var x), .v b => do
    x.check
    let out ← b.plus (.s (.var x))
    out.asSimplified
  | .s (.var x), .m _ => do
    x.check
    throw .unsupported
  | .s (.mono x), e => do
    x.check
    e.check
    checkDimAdd (1, 1) (← e.dims)
    throw .unsupported
  | .s (.poly p), e => p.plusExpr e
  | .v a, e => a.plus e
  | .m a, e => a.plus e

/-! ## Matrix Multiply -/

/-- The inner sum of `MatrixMultiplyTemplate` (`symbolic/matrix_expression.go:206-210`). -/
def mulEntry (a b : Mat R) (n : Nat) (i j : Nat) : Go (Scalar R) := do
  let sum ← (List.range n).foldlM (fun acc (k : Nat) => do
    let x ← a.at i k
    let y ← b.at k j
    acc.plus (← x.mul y)) (Scalar.k zero)
  sum.asSimplified

/-- `MatrixMultiplyTemplate` (`symbolic/matrix_expression.go:174-228`). -/
def matMulTemplate (a b : Mat R) : Go (Expr R) := do
  a.check
  b.check
  let da ← a.dims
  let db ← b.dims
  if da.2 ≠ db.1 then throw .dimension
  concretizeM (← (List.range da.1).mapM (fun (i : Nat) => (List.range db.2).mapM (fun (j : Nat) =>
    mulEntry a b da.2 i j)))

/-- `Variable.Multiply` on a vector (`symbolic/variable.go:338-339`, `351`); the dimension test holds
because a variable is a scalar. -/
def Var.mulVec (v : Var R) (b : Vec R) : Go (Expr R) := do
  v.check
  b.check
  checkDimMul (1, 1) (← b.dims)
  let out ← vecMulTemplate b (.s (.var v))
  out.asSimplified

/-- `Variable.Multiply` on a `*mat.VecDense` (`symbolic/variable.go:333-337`, `351`): converted in two
steps, each of which simplifies. -/
def Var.mulVecDense (v : Var R) (l : List R) : Go (Expr R) := do
  let out ← v.mulVec (.k l)
  let out ← out.asSimplified
  out.asSimplified

/-- `KMatrix.Multiply` (`symbolic/constant_matrix.go:188-314`).  `Variable`, `Monomial` and all
vectors but `VariableVector` are unsupported. -/
def kmMul (rows : List (List R)) (e : Expr R) : Go (Expr R) := do
  e.check
  let d ← rowDims rows
  checkDimMul d (← e.dims)
  match e with
  | .s (.k c) => do
    let ks ← kToDense rows
    return .m (.k (ks.map (·.map (fun x => mul c x))))
  | .s (.poly q) => do
    let out ← concretizeM (← (List.range d.1).mapM (fun (i : Nat) => (List.range d.2).mapM (fun (j : Nat) => do
      let x ← goGet2 rows i j
      (kToPoly x).mul (.poly q))))
    out.asSimplified
  | .v (.v l) =>
    if d.1 = 1 then do
      let out ← l.zipIdx.foldlM (fun (acc : Scalar R) vi => do
        let x ← goGet2 rows 0 vi.2
        acc.plus (← vi.1.mul (.k x))) (Scalar.k zero)
      return .s (← out.asSimplified)
    else do
      let out ← (List.range d.2).foldlM (fun (acc : Expr R) (j : Nat) => do
        let ks ← kToDense rows
        let col ← ks.mapM (fun row => goGet row j)
        let v ← goGet l j
        acc.plus (← v.mulVecDense col)) (Expr.v (.k (List.replicate d.1 zero)))
      out.asSimplified
  | .m b => do
    let out ← matMulTemplate (.k rows) b
    out.asSimplified
  | _ => throw .unsupported

/-- `VariableMatrix.Multiply` (`symbolic/variable_matrix.go:215-311`). -/
def vmMul (rows : List (List (Var R))) (e : Expr R) : Go (Expr R) := do
  Mat.check (.v rows)
  e.check
  let d ← rowDims rows
  checkDimMul d (← e.dims)
  match e with
  | .s (.k c) => do
    let ms ← rows.mapM (·.mapM (fun v => do
      match ← v.mul (.k c) with
      | .mono m => pure m
      | _ => throw .typeAssert))
    Expr.asSimplified (.m (.m ms))
  | .v (.k l) => do
    let prods ← rows.mapM (fun row => row.zipIdx.foldlM (fun (acc : Scalar R) xk => do
      let c ← goGet l xk.2
      acc.plus (← xk.1.mul (.k c))) (Scalar.k zero))
    let out ← concretizeV prods
    out.asSimplified
  | .v (.v l) => do
    let out ← (List.range d.2).foldlM (fun (acc : Expr R) (j : Nat) => do
      let col ← rows.mapM (fun row => goGet row j)
      let v ← goGet l j
      acc.plus (← Vec.mul (.v col) (.s (.var v)))) (Expr.s (.k zero))
    out.asSimplified
  | .m b => do
    let out ← matMulTemplate (.v rows) b
    out.asSimplified
  | _ => throw .unsupported

/-- One row of `MonomialMatrix.Multiply(VariableVector)` with several rows
(`symbolic/monomial_matrix.go:297-302`): every partial sum is asserted to be a `Polynomial`. -/
def mmRowMul (row : List (Mono R)) (l : List (Var R)) : Go (Scalar R) := do
  let m0 ← goGet row 0
  let v0 ← goGet l 0
  let init ← m0.toPoly.mul (.var v0)
  (row.zipIdx.drop 1).foldlM (fun (acc : Scalar R) mj => do
    let v ← goGet l mj.2
    let t ← mj.1.toPoly.mul (.var v)
    match ← acc.plus t with
    | .poly p => pure (.poly p)
    | _ => throw .typeAssert) init

/-- `MonomialMatrix.Multiply` (`symbolic/monomial_matrix.go:242-330`). -/
def mmMul (rows : List (List (Mono R))) (e : Expr R) : Go (Expr R) := do
  Mat.check (.m rows)
  e.check
  let d ← rowDims rows
  checkDimMul d (← e.dims)
  match e with
  | .s (.k c) => return .m (.m (rows.map (·.map (·.mulK c))))
  | .v (.v l) =>
    if d.1 = 1 then do
      let row ← goGet rows 0
      let out ← row.zipIdx.foldlM (fun (acc : Scalar R) mi => do
        let v ← goGet l mi.2
        acc.plus (← mi.1.mul (.var v))) (Scalar.k zero)
      return .s (← out.asSimplified)
    else do
      return .v (← concretizeVec (← rows.mapM (fun row => mmRowMul row l)))
  | .m b => matMulTemplate (.m rows) b
  | _ => throw .unsupported

/-- `PolynomialMatrix.Multiply` (`symbolic/polynomial_matrix.go:229-313`). -/
def pmMul (rows : List (List (Poly R))) (e : Expr R) : Go (Expr R) := do
  Mat.check (.p rows)
  e.check
  let d ← rowDims rows
  checkDimMul d (← e.dims)
  match e with
  | .s (.k c) => do
    let out ← concretizeM (← rows.mapM (·.mapM (fun p => p.mul (.k c))))
    out.asSimplified
  | .v (.v l) => do
    let sums ← rows.mapM (fun row => row.zipIdx.foldlM (fun (acc : Scalar R) pj => do
      let v ← goGet l pj.2
      acc.plus (← pj.1.mul (.var v))) (Scalar.k zero))
    if d.1 = 1 then do
      let out ← goGet sums 0
      return .s (← out.asSimplified)
    else concretizeV sums
  | .m b => matMulTemplate (.p rows) b
  | _ => throw .unsupported

/-- `Multiply` of a matrix on the interface. -/
def Mat.mul (a : Mat R) (e : Expr R) : Go (Expr R) :=
  match a with
  | .k rows => kmMul rows e
  | .v rows => vmMul rows e
  | .m rows => mmMul rows e
  | .p rows => pmMul rows e

/-- `Multiply` on the interface.  `K.Multiply` (`constant.go:245-287`) and `Monomial.Multiply`
(`monomial.go:155-236`) accept scalars only, `Variable.Multiply` (`variable.go:274-351`) also
vectors, `Polynomial.Multiply` (`polynomial.go:294-376`) hands vectors and matrices over to the other
operand. -/
def Expr.mul (a e : Expr R) : Go (Expr R) :=
  match a, e with
  | .s a, .s b => do return .s (← a.mul b)
  | .s (.k _), e => do
    e.check
    throw .unsupported
  | .s (.var x), .v b => x.mulVec b
  | .s (.var x), .m b => do
    x.check
    b.check
    checkDimMul (1, 1) (← b.dims)
    throw .unsupported
  | .s (.mono x), e => do
    x.check
    e.check
    checkDimMul (1, 1) (← e.dims)
    throw .unsupported
  | .s (.poly p), .v b => do
    p.check
    b.check
    let out ← b.mul (.s (.poly p))
    out.asSimplified
  | .s (.poly p), .m b => do
    p.check
    b.check
    let out ← b.mul (.s (.poly p))
    out.asSimplified
  | .v a, e => a.mul e
  | .m a, e => a.mul e

/-! ## Minus, Power -/

/-- `e.Multiply(c)` with a `float64` argument: every method converts to `K` and, except for
`KMatrix`, `MonomialMatrix`, `Monomial`, `K` and `VariableVector`, simplifies the result a second time
(`variable.go:295`, `polynomial.go:317`, `constant_vector.go:305`, `variable_vector.go:203`,
`monomial_vector.go:215`, `polynomial_vector.go:231`, `constant_matrix.go:214-220`,
`variable_matrix.go:243`, `monomial_matrix.go:270`, `polynomial_matrix.go:258`). -/
def Expr.mulF64 (e : Expr R) (c : R) : Go (Expr R) :=
  match e with
  | .s (.k d) => return .s (.k (GoNum.mul d c))
  | .s (.mono x) => do return .s (← x.mul (.k c))
  | .v (.v l) => Vec.mul (.v l) (.s (.k c))
  | .m (.k rows) => kmMul rows (.s (.k c))
  | .m (.m rows) => mmMul rows (.s (.k c))
  | e => do
    let out ← e.mul (.s (.k c))
    out.asSimplified

/-- `Minus(left, right)` (`symbolic/expression.go:119-123`). -/
def Expr.minusGen (a b : Expr R) : Go (Expr R) := do
  let nb ← b.mulF64 negOne
  a.plus nb

/-- `Minus` on the interface (`constant_vector.go:143-193`, `variable_vector.go:140-175`,
`monomial_vector.go:144-186`, `polynomial_vector.go:170-205`, `constant_matrix.go:140-185`,
`variable_matrix.go:163-212`, `monomial_matrix.go:209-239`, `polynomial_matrix.go:191-226`, scalars
`constant.go:125-156`, `variable.go:136-172`, `monomial.go:121-152`, `polynomial.go:190-222`).
`KVector.Minus` does not accept matrices. -/
def Expr.minus (a b : Expr R) : Go (Expr R) :=
  match a with
  | .s (.k _) => do
    b.check
    a.minusGen b
  | .s (.poly p) => do
    p.check
    b.check
    a.minusGen b
  | .v (.k l) => do
    b.check
    checkDimAdd (l.length, 1) (← b.dims)
    match b with
    | .m _ => throw .unsupported
    | b => a.minusGen b
  | _ => do
    a.check
    b.check
    checkDimAdd (← a.dims) (← b.dims)
    a.minusGen b

/-- Loop of `VectorPowerTemplate` (`symbolic/vector_expression.go:355-358`). -/
def Vec.power (a : Vec R) (n : Int) : Go (Scalar R) := do
  a.check
  if n < 0 then throw .negExponent
  if (← a.len) ≠ 1 then throw .other
  (List.range n.toNat).foldlM (fun (acc : Scalar R) _ => do
    acc.mul (← a.atVec 0)) (Scalar.k one)

/-- The identity matrix `K(0).Plus(Identity(n))` (`symbolic/constant_matrix.go:462-472`,
`matrix_expression.go:165`). -/
def identityRows (n : Nat) : List (List R) :=
  (List.range n).map (fun i => (List.range n).map (fun j => if i = j then one else zero))

/-- `MatrixPowerTemplate` (`symbolic/matrix_expression.go:145-170`): every partial product is asserted
to be a `MatrixExpression`. -/
def Mat.power (a : Mat R) (n : Int) : Go (Mat R) := do
  a.check
  let d ← a.dims
  if d.1 ≠ d.2 then throw .other
  if n < 0 then throw .negExponent
  if d.1 = 0 then throw .empty
  let start ← match ← kmPlus (identityRows d.1) (.s (.k zero)) with
    | .m b => pure b
    | _ => throw .typeAssert
  (List.range n.toNat).foldlM (fun (acc : Mat R) _ => do
    match ← acc.mul (.m a) with
    | .m b => pure b
    | _ => throw .typeAssert) start

/-! ## Transpose, HStack, VStack -/

/-- Rows and columns of a slice of rows exchanged; reads `rows[j][i]` for `j` over the rows and `i`
over the columns of the first row. -/
def transposeRows {α : Type} (rows : List (List α)) (c : Nat) : Go (List (List α)) :=
  (List.range c).mapM (fun (i : Nat) => rows.mapM (fun row => goGet row (i : Int)))

/-- `Transpose` of a vector: a matrix with one row (`constant_vector.go:369-381`,
`variable_vector.go:310-321`, `monomial_vector.go:233-249`, `polynomial_vector.go:266-280`).  An empty
`KVector` panics in `mat.NewVecDense`. -/
def Vec.transpose (a : Vec R) : Go (Mat R) :=
  match a with
  | .k l => if l = [] then throw .empty else return .k [l]
  | .v l => do
    Vec.check (.v l)
    return .v [l]
  | .m l => do
    Vec.check (.m l)
    return .m [l]
  | .p l => do
    Vec.check (.p l)
    return .p [l]

/-- `Transpose` of a matrix (`constant_matrix.go:318-338`, `variable_matrix.go:314-336`,
`monomial_matrix.go:333-358`, `polynomial_matrix.go:316-340`). -/
def Mat.transpose (a : Mat R) : Go (Mat R) :=
  match a with
  | .k rows => do
    let ks ← kToDense rows
    let d ← rowDims rows
    return .k (← transposeRows ks d.2)
  | .v rows => do
    let d ← Mat.dims (.v rows)
    return .v (← transposeRows rows d.2)
  | .m rows => do
    let d ← Mat.dims (.m rows)
    return .m (← transposeRows rows d.2)
  | .p rows => do
    let d ← Mat.dims (.p rows)
    return .p (← transposeRows rows d.2)

/-- `Transpose` on the interface; scalars return themselves (`constant.go:295`, `variable.go:373`,
`monomial.go:239-247`, `polynomial.go:379-387`). -/
def Expr.transpose (e : Expr R) : Go (Expr R) :=
  match e with
  | .s (.mono x) => do
    x.check
    return .s (.mono x)
  | .s (.poly p) => do
    p.check
    return .s (.poly p)
  | .s a => return .s a
  | .v a => do return .m (← a.transpose)
  | .m a => do return .m (← a.transpose)

/-- The entries `eIn.At(row, 0), eIn.At(row, 1), ...` of one row. -/
def Expr.row (e : Expr R) (i : Nat) (c : Nat) : Go (List (Scalar R)) :=
  (List.range c).mapM (fun (j : Nat) => e.at i j)

/-- `HStack` (`symbolic/expression.go:156-200`). -/
def hstack (es : List (Expr R)) : Go (Expr R) := do
  if es = [] then throw .other
  let ds ← es.mapM Expr.dims
  checkNeighbours (ds.map (·.1))
  let r ← match ds with
    | [] => throw .other
    | d :: _ => pure d.1
  concretizeM (← (List.range r).mapM (fun (i : Nat) => do
    return (← (es.zip ds).mapM (fun ed => ed.1.row i ed.2.2)).flatten))

/-- `VStack` (`symbolic/expression.go:203-243`). -/
def vstack (es : List (Expr R)) : Go (Expr R) := do
  if es = [] then throw .other
  let ds ← es.mapM Expr.dims
  checkNeighbours (ds.map (·.2))
  concretizeM (← (es.zip ds).mapM (fun ed =>
    (List.range ed.2.1).mapM (fun (i : Nat) => ed.1.row i ed.2.2))).flatten

/-! ## Variables, Constant, Degree, LinearCoeff -/

/-- `Variables` on the interface (`constant_vector.go:64`, `variable_vector.go:69`,
`monomial_vector.go:46-61`, `polynomial_vector.go:89-95`, `constant_matrix.go:44`,
`variable_matrix.go:75-89`, `monomial_matrix.go:67-84`, `polynomial_matrix.go:66-80`). -/
def Expr.variables (e : Expr R) : Go (List (Var R)) :=
  match e with
  | .s a => return a.variables
  | .v (.k _) => return []
  | .v (.v l) => return uniqueVars l
  | .v (.m l) => do
    Vec.check (.m l)
    return uniqueVars (l.flatMap Mono.variables)
  | .v (.p l) => return uniqueVars (l.flatMap Poly.variables)
  | .m (.k _) => return []
  | .m (.v rows) => do
    Mat.check (.v rows)
    return uniqueVars rows.flatten
  | .m (.m rows) => do
    Mat.check (.m rows)
    return uniqueVars (rows.flatten.flatMap Mono.variables)
  | .m (.p rows) => do
    Mat.check (.p rows)
    return uniqueVars (rows.flatten.flatMap Poly.variables)

/-- `mat.NewVecDense` panics on length zero. -/
def newVecDense (l : List R) : Go (List R) := if l = [] then throw .empty else return l

/-- `Constant` of a vector (`constant_vector.go:75-77`, `variable_vector.go:74-77`,
`monomial_vector.go:75-95`, `polynomial_vector.go:98-113`). -/
def Vec.constant (a : Vec R) : Go (List R) :=
  match a with
  | .k l => newVecDense l
  | .v l => newVecDense (l.map (fun _ => zero))
  | .m l => do
    Vec.check (.m l)
    return l.map Mono.constant
  | .p l => do
    Vec.check (.p l)
    l.mapM Poly.constant

/-- `Constant` of a matrix (`constant_matrix.go:428-430`, `variable_matrix.go:455-457`,
`monomial_matrix.go:491-512`, `polynomial_matrix.go:469-487`).  `ZerosMatrix` panics on zero
columns. -/
def Mat.constant (a : Mat R) : Go (List (List R)) :=
  match a with
  | .k rows => kToDense rows
  | .v rows => do
    let d ← Mat.dims (.v rows)
    if d.2 = 0 then throw .empty
    return rows.map (·.map (fun _ => zero))
  | .m rows => do
    let d ← Mat.dims (.m rows)
    if d.2 = 0 then throw .empty
    return rows.map (·.map Mono.constant)
  | .p rows => do
    let d ← Mat.dims (.p rows)
    if d.2 = 0 then throw .empty
    rows.mapM (·.mapM Poly.constant)

/-- The maximum loop of the `Degree` methods (`monomial_vector.go:484-490`,
`polynomial_vector.go:473-480`, `monomial_matrix.go:553-561`, `polynomial_matrix.go:562-569`). -/
def maxDegreeLoop {α : Type} (deg : α → Go Int) (l : List α) : Go Int :=
  l.foldlM (fun d x => do
    let dx ← deg x
    return (if dx > d then dx else d)) 0

/-- `Degree` on the interface; a `VariableVector` or `VariableMatrix` has degree 1 even if empty
(`variable_vector.go:456`, `variable_matrix.go:562`). -/
def Expr.degree (e : Expr R) : Go Int :=
  match e with
  | .s a => a.degree
  | .v (.k _) => return 0
  | .v (.v _) => return 1
  | .v (.m l) => do
    Vec.check (.m l)
    maxDegreeLoop Mono.degree l
  | .v (.p l) => do
    Vec.check (.p l)
    maxDegreeLoop Poly.degree l
  | .m (.k _) => return 0
  | .m (.v _) => return 1
  | .m (.m rows) => do
    Mat.check (.m rows)
    maxDegreeLoop Mono.degree rows.flatten
  | .m (.p rows) => do
    Mat.check (.p rows)
    maxDegreeLoop Poly.degree rows.flatten

/-- `LinearCoeff` of a vector: `PolynomialLikeVector_SharedLinearCoeffCalc`
(`symbolic/polynomial_like_vector.go:156-196`).  `mat.NewDense` panics on zero rows. -/
def Vec.linearCoeff (a : Vec R) (wrt : List (List (Var R))) : Go (List (List R)) := do
  a.check
  let ws ← match wrt with
    | [] => Expr.variables (.v a)
    | [w] => pure w
    | _ => throw .tooManyInputs
  if ws.isEmpty then throw .linCoeffConst
  let n ← a.len
  if n = 0 then throw .empty
  (List.range n).mapM (fun (i : Nat) => do
    let x ← a.atVec i
    x.linearCoeff [ws])

/-! ## Substitute -/

/-- `VectorSubstituteTemplate` (`symbolic/vector_expression.go:302-328`); `KVector.Substitute` returns
the receiver (`constant_vector.go:491-493`). -/
def Vec.substitute (a : Vec R) (vIn : Var R) (s : Scalar R) : Go (Vec R) :=
  match a with
  | .k l => return .k l
  | a => do
    a.check
    vIn.check
    s.check
    let n ← a.len
    concretizeVec (← (List.range n).mapM (fun (i : Nat) => do
      let x ← a.atVec i
      x.substitute vIn s))

/-- `MatrixSubstituteTemplate` (`symbolic/matrix_expression.go:273-301`); `KMatrix.Substitute` returns
the receiver (`constant_matrix.go:571-573`). -/
def Mat.substitute (a : Mat R) (vIn : Var R) (s : Scalar R) : Go (Mat R) :=
  match a with
  | .k rows => return .k rows
  | a => do
    a.check
    vIn.check
    s.check
    let d ← a.dims
    concretizeMat (← (List.range d.1).mapM (fun (i : Nat) => (List.range d.2).mapM (fun (j : Nat) => do
      let x ← a.at i j
      x.substitute vIn s)))

/-- `SubstituteAccordingTo` of a vector (`variable_vector.go:466-487`, `monomial_vector.go:502-521`,
`polynomial_vector.go:491-511`, `constant_vector.go:497-499`): the substitutions are made one after
the other, in the iteration order of the map. -/
def Vec.substMap (a : Vec R) (sm : SubMap R) : Go (Vec R) :=
  match a with
  | .k l => return .k l
  | a => do
    a.check
    checkSubMap sm
    sm.foldlM (fun (acc : Vec R) kv => acc.substitute kv.1 kv.2) a

/-- `SubstituteAccordingTo` of a matrix (`variable_matrix.go:572-592`, `monomial_matrix.go:573-592`,
`polynomial_matrix.go:579-599`, `constant_matrix.go:577-579`). -/
def Mat.substMap (a : Mat R) (sm : SubMap R) : Go (Mat R) :=
  match a with
  | .k rows => return .k rows
  | a => do
    a.check
    checkSubMap sm
    sm.foldlM (fun (acc : Mat R) kv => acc.substitute kv.1 kv.2) a

/-- `Substitute` on the interface. -/
def Expr.substitute (e : Expr R) (vIn : Var R) (s : Scalar R) : Go (Expr R) :=
  match e with
  | .s a => do return .s (← a.substitute vIn s)
  | .v a => do return .v (← a.substitute vIn s)
  | .m a => do return .m (← a.substitute vIn s)

/-- `SubstituteAccordingTo` on the interface. -/
def Expr.substMap (e : Expr R) (sm : SubMap R) : Go (Expr R) :=
  match e with
  | .s a => do return .s (← a.substMap sm)
  | .v a => do return .v (← a.substMap sm)
  | .m a => do return .m (← a.substMap sm)

/-! ## DerivativeWrt -/

/-- The receiver after `Monomial.DerivativeWrt` (`symbolic/monomial.go:519-526`): the exponent slice is
shared with the returned monomial and decremented in place. -/
def Mono.afterDerivative (m : Mono R) (v : Var R) : Mono R :=
  match findVar v m.vars with
  | none => m
  | some i =>
    if m.exps[i]? = some 1 then m else { m with exps := m.exps.modify i (· - 1) }

/-- The expression `polynomial.DerivativeWrt(vIn).(Polynomial)` of `polynomial_vector.go:389` and
`polynomial_matrix.go:439`. -/
def Poly.derivPoly (p : Poly R) (v : Var R) : Go (Poly R) := do
  match ← p.derivative v with
  | .poly q => pure q
  | _ => throw .typeAssert

/-- `DerivativeWrt` of a vector, returned value (`constant_vector.go:416-418`,
`variable_vector.go:349-372`, `monomial_vector.go:335-379`, `polynomial_vector.go:383-393`).
`MonomialVector` differentiates each entry twice in a row and keeps the second result, which sees the
exponents left by the first call. -/
def Vec.derivative (a : Vec R) (v : Var R) : Go (Vec R) :=
  match a with
  | .k l => do return .k (← newVecDense (l.map (fun _ => zero)))
  | .v l => do
    Vec.check (.v l)
    v.check
    return .k (← newVecDense (l.map (fun w => if w.id = v.id then one else zero)))
  | .m l => do
    Vec.check (.m l)
    let ds ← l.mapM (fun m => do
      let d1 ← m.derivative v
      let d2 ← (m.afterDerivative v).derivative v
      return (d1.isMono, d2))
    if ds.any (·.1) then
      return .m (← ds.mapM (fun d => match d.2 with
        | .mono x => pure x
        | .k c => pure (kToMono c)
        | _ => throw .other))
    else
      return .k (← ds.mapM (fun d => match d.2 with
        | .k c => pure c
        | _ => throw .typeAssert))
  | .p l => do
    return .p (← l.mapM (fun p => p.derivPoly v))

/-- `DerivativeWrt` of a matrix, returned value (`constant_matrix.go:476-478`,
`variable_matrix.go:415-439`, `monomial_matrix.go:450-476`, `polynomial_matrix.go:419-445`). -/
def Mat.derivative (a : Mat R) (v : Var R) : Go (Mat R) :=
  match a with
  | .k rows => do
    let d ← rowDims rows
    if d.2 = 0 then throw .empty
    return .k (List.replicate d.1 (List.replicate d.2 zero))
  | .v rows => do
    let d ← Mat.dims (.v rows)
    if d.2 = 0 then throw .empty
    return .k (rows.map (·.map (fun w => if w.id = v.id then one else zero)))
  | .m rows => do
    Mat.check (.m rows)
    v.check
    concretizeMat (← rows.mapM (·.mapM (fun m => m.derivative v)))
  | .p rows => do
    Mat.check (.p rows)
    v.check
    return .p (← rows.mapM (·.mapM (fun p => p.derivPoly v)))

/-- `DerivativeWrt` on the interface. -/
def Expr.derivative (e : Expr R) (v : Var R) : Go (Expr R) :=
  match e with
  | .s a => do return .s (← a.derivative v)
  | .v a => do return .v (← a.derivative v)
  | .m a => do return .m (← a.derivative v)

end

end Verif
