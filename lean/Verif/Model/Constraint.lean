import Verif.Model.Array

/-!
# Constraints

Function-by-function model of `symbolic/constr_sense.go`, `constraint.go`, `scalar_constraint.go`,
`vector_constraint.go`, `matrix_constraint.go` and of the `Comparison` methods.

Arguments are expressions, as in `Model/Array`.  `float64`, `int`, `mat.VecDense` and `mat.Dense`
arguments of `Comparison` are outside the model.  Pointers to constraints are not modelled.
-/

namespace Verif

variable {R : Type}

/-- `ConstrSense` (`symbolic/constr_sense.go:8-15`): a byte; only three values are meaningful. -/
inductive Sense
  | eq
  | le
  | ge
  | bad (byte : Nat)
  deriving DecidableEq

/-- `ConstrSense.Check` (`symbolic/constr_sense.go:32-43`). -/
def Sense.check : Sense → Go Unit
  | .bad _ => throw .check
  | _ => pure ()

/-- `ScalarConstraint` (`symbolic/scalar_constraint.go:13-17`). -/
structure SCon (R : Type) where
  lhs : Scalar R
  rhs : Scalar R
  sense : Sense
  deriving DecidableEq

/-- `VectorConstraint` (`symbolic/vector_constraint.go:11-15`). -/
structure VCon (R : Type) where
  lhs : Vec R
  rhs : Vec R
  sense : Sense
  deriving DecidableEq

/-- `MatrixConstraint` (`symbolic/matrix_constraint.go:11-15`). -/
structure MCon (R : Type) where
  lhs : Mat R
  rhs : Mat R
  sense : Sense
  deriving DecidableEq

/-- The implementations of `Constraint` (`symbolic/constraint.go:7-31`). -/
inductive Con (R : Type)
  | s (c : SCon R)
  | v (c : VCon R)
  | m (c : MCon R)
  deriving DecidableEq

/-- `Left` (`scalar_constraint.go:20-22`, `vector_constraint.go:84-86`, `matrix_constraint.go:18-20`). -/
def Con.left : Con R → Expr R
  | .s c => .s c.lhs
  | .v c => .v c.lhs
  | .m c => .m c.lhs

/-- `Right` (`scalar_constraint.go:25-27`, `vector_constraint.go:89-91`, `matrix_constraint.go:23-25`). -/
def Con.right : Con R → Expr R
  | .s c => .s c.rhs
  | .v c => .v c.rhs
  | .m c => .m c.rhs

/-- `ConstrSense` (`scalar_constraint.go:60-62`, `vector_constraint.go:94-96`,
`matrix_constraint.go:28-30`). -/
def Con.sense : Con R → Sense
  | .s c => c.sense
  | .v c => c.sense
  | .m c => c.sense

section
variable [GoNum R]
open GoNum

/-! ## Comparison -/

/-- `IsScalarExpression` (`symbolic/scalar_expression.go:96-113`): by type. -/
def Expr.isScalarType : Expr R → Bool
  | .s _ => true
  | _ => false

/-- `symbolic.CheckDimensionsInComparison` (`symbolic/utils.go:130-145`). -/
def checkDimCompare (a e : Expr R) : Go Unit := do
  let da ← a.dims
  let de ← e.dims
  if da = de ∨ a.isScalarType ∨ e.isScalarType then pure () else throw .dimension

/-- `Comparison` of a scalar: `K` (`constant.go:177-242`), `Variable` (`variable.go:196-242`),
`Monomial` (`monomial.go:271-316`), `Polynomial` (`polynomial.go:391-435`).  Only `K` accepts vectors,
and of those only constants and variables. -/
def Scalar.comparison (a : Scalar R) (e : Expr R) (sense : Sense) : Go (Con R) := do
  a.check
  e.check
  match a, e with
  | a, .s b => return .s ⟨a, b, sense⟩
  | .k c, .v (.k l) => return .v ⟨.k (l.map (fun _ => c)), .k l, sense⟩
  | .k c, .v (.v l) => return .v ⟨.k (l.map (fun _ => c)), .v l, sense⟩
  | _, _ => throw .unsupported

/-- The constant vector built from `OnesVector(n)` and `ScaleVec` (`constant_vector.go:235-238`,
`monomial_vector.go:295-296`, `polynomial_vector.go:316-317`); `mat.NewVecDense` panics on length
zero. -/
def constVec (n : Nat) (c : R) : Go (List R) := newVecDense (List.replicate n (GoNum.mul c one))

/-- `Comparison` of a vector: `KVector` (`constant_vector.go:212-272`), `VariableVector`
(`variable_vector.go:246-292`), `MonomialVector` (`monomial_vector.go:267-332`), `PolynomialVector`
(`polynomial_vector.go:289-360`). -/
def Vec.comparison (a : Vec R) (e : Expr R) (sense : Sense) : Go (Con R) := do
  a.check
  e.check
  checkDimCompare (.v a) e
  match a, e with
  | .v _, .s _ => throw .unsupported
  | a, .s (.k c) => do
    let l ← constVec (← a.len) c
    return .v ⟨a, .k l, sense⟩
  | .m _, .v (.p _) => throw .unsupported
  | a, .v b => return .v ⟨a, b, sense⟩
  | _, _ => throw .unsupported

/-- `Comparison` of a matrix: `KMatrix` (`constant_matrix.go:363-419`), `VariableMatrix`
(`variable_matrix.go:339-393`), `MonomialMatrix` (`monomial_matrix.go:361-429`), `PolynomialMatrix`
(`polynomial_matrix.go:343-397`, constants only). -/
def Mat.comparison (a : Mat R) (e : Expr R) (sense : Sense) : Go (Con R) := do
  a.check
  e.check
  checkDimCompare (.m a) e
  match a, e with
  | a, .s (.k c) => do
    let cs ← constRows (← a.dims) c
    return .m ⟨a, .k cs, sense⟩
  | .p rows, .m (.k ks) => return .m ⟨.p rows, .k ks, sense⟩
  | .p _, .m _ => throw .unsupported
  | a, .m b => return .m ⟨a, b, sense⟩
  | _, _ => throw .unsupported

/-- `Comparison` on the interface. -/
def Expr.comparison (a e : Expr R) (sense : Sense) : Go (Con R) :=
  match a with
  | .s a => a.comparison e sense
  | .v a => a.comparison e sense
  | .m a => a.comparison e sense

/-- `LessEq`: `Comparison(e, SenseLessThanEqual)` for every kind (for example `constant.go:166-168`,
`constant_matrix.go:342-345`). -/
def Expr.lessEq (a e : Expr R) : Go (Con R) := a.comparison e .le

/-- `GreaterEq`: `Comparison(e, SenseGreaterThanEqual)` (for example `constant_matrix.go:349-352`). -/
def Expr.greaterEq (a e : Expr R) : Go (Con R) := a.comparison e .ge

/-- `Eq`: `Comparison(e, SenseEqual)` (for example `constant.go:172-174`). -/
def Expr.eqTo (a e : Expr R) : Go (Con R) := a.comparison e .eq

/-! ## Check, IsLinear, Variables -/

/-- `ScalarConstraint.Check` (`symbolic/scalar_constraint.go:65-86`). -/
def SCon.check (c : SCon R) : Go Unit := do
  c.lhs.check
  c.rhs.check
  c.sense.check

/-- `VectorConstraint.Check` (`symbolic/vector_constraint.go:52-81`).  The dimension test is
`smErrors.CheckDimensionsInComparison` (`smErrors/matrix_dimension_error.go:200-225`): equal
dimensions, or one side of length one. -/
def VCon.check (c : VCon R) : Go Unit := do
  c.lhs.check
  c.rhs.check
  c.sense.check
  checkDimAdd (← c.lhs.dims) (← c.rhs.dims)

/-- `MatrixConstraint.Check` (`symbolic/matrix_constraint.go:35-81`). -/
def MCon.check (c : MCon R) : Go Unit := do
  c.lhs.check
  c.rhs.check
  let dl ← c.lhs.dims
  let dr ← c.rhs.dims
  if dl.1 ≠ dr.1 then throw .dimension
  if dl.2 ≠ dr.2 then throw .dimension
  c.sense.check

/-- `Check` on the interface. -/
def Con.check : Con R → Go Unit
  | .s c => c.check
  | .v c => c.check
  | .m c => c.check

/-- `IsLinear` (`symbolic/expression.go:129-138`). -/
def Expr.isLinear (e : Expr R) : Go Bool := do
  return decide ((← e.degree) ≤ 1)

/-- `IsLinear` of a constraint (`scalar_constraint.go:31-33`, `vector_constraint.go:100-102`,
`matrix_constraint.go:119-121`): the right side first, with `&&`. -/
def Con.isLinear (c : Con R) : Go Bool := do
  if ← c.right.isLinear then c.left.isLinear else return false

/-- `varsMap[v] = true` with `map[Variable]bool` (`symbolic/constraint.go:57-73`). -/
def addKey (acc : List (Var R)) (v : Var R) : List (Var R) :=
  if acc.any (fun w => w.keyEq v) then acc else acc ++ [v]

/-- `VariablesInThisConstraint` (`symbolic/constraint.go:55-82`), which is `Variables` for the three
kinds.  The keys of a Go map are listed in an unspecified order; the model lists them in the order of
insertion. -/
def Con.variables (c : Con R) : Go (List (Var R)) := do
  c.check
  return ((← c.left.variables) ++ (← c.right.variables)).foldl addKey []

/-! ## ScalarConstraint -/

/-- `ScalarConstraint.Simplify` (`symbolic/scalar_constraint.go:37-57`); also
`AsSimplifiedConstraint` (`245-247`). -/
def SCon.simplify (c : SCon R) : Go (SCon R) :=
  match c.rhs with
  | .k _ => return c
  | _ => do
    let d ← c.lhs.minus c.rhs
    let l ← d.plusF64 (← c.rhs.constant)
    return ⟨l, .k (← c.rhs.constant), c.sense⟩

/-- The linearity test of the four `Linear...Representation` methods
(`scalar_constraint.go:99-113`, `148-162`, `vector_constraint.go:115-129`, `180-194`). -/
def Con.requireLinear (c : Con R) : Go Unit := do
  if ← c.isLinear then pure () else throw .notLinear

/-- `ScalarConstraint.LinearInequalityConstraintRepresentation`
(`symbolic/scalar_constraint.go:91-135`). -/
def SCon.linearIneq (c : SCon R) (wrt : List (List (Var R))) : Go (List R × R) := do
  c.check
  Con.requireLinear (.s c)
  let d ← c.lhs.minus c.rhs
  let A ← d.linearCoeff wrt
  let A := if c.sense = .ge then A.map (fun x => mul negOne x) else A
  let b := sub (← c.rhs.constant) (← c.lhs.constant)
  return (A, if c.sense = .ge then neg b else b)

/-- `ScalarConstraint.LinearEqualityConstraintRepresentation`
(`symbolic/scalar_constraint.go:140-184`). -/
def SCon.linearEq (c : SCon R) (wrt : List (List (Var R))) : Go (List R × R) := do
  c.check
  Con.requireLinear (.s c)
  if c.sense ≠ .eq then throw .equalityRequired
  let d ← c.lhs.minus c.rhs
  let A ← d.linearCoeff wrt
  return (A, sub (← c.rhs.constant) (← c.lhs.constant))

/-- `ScalarConstraint.Substitute` (`symbolic/scalar_constraint.go:188-207`). -/
def SCon.substitute (c : SCon R) (v : Var R) (s : Scalar R) : Go (SCon R) := do
  c.check
  return ⟨← c.lhs.substitute v s, ← c.rhs.substitute v s, c.sense⟩

/-- `ScalarConstraint.SubstituteAccordingTo` (`symbolic/scalar_constraint.go:211-230`). -/
def SCon.substMap (c : SCon R) (sm : SubMap R) : Go (SCon R) := do
  c.check
  return ⟨← c.lhs.substMap sm, ← c.rhs.substMap sm, c.sense⟩

/-- The sense after multiplication by `factor` (`symbolic/scalar_constraint.go:270-277`). -/
def flipSense (s : Sense) (factor : R) : Sense :=
  if lt factor zero then
    match s with
    | .le => .ge
    | .ge => .le
    | s => s
  else s

/-- `ScalarConstraint.ScaleBy` (`symbolic/scalar_constraint.go:256-285`). -/
def SCon.scaleBy (c : SCon R) (factor : R) : Go (SCon R) := do
  c.check
  let l ← c.lhs.mulF64 factor
  let r ← c.rhs.mulF64 factor
  return ⟨l, r, flipSense c.sense factor⟩

/-- The comparison of the bounds (`symbolic/scalar_constraint.go:329-380`) after scaling; `a`, `b` are
the constants of the right sides. -/
def boundsImply (s t : Sense) (a b : R) : Go Bool :=
  if ¬ (s = t ∨ s = .eq ∨ t = .eq) then return false
  else match s, t with
  | .le, .le => return le a b
  | .le, _ => return false
  | .ge, .ge => return le b a
  | .ge, _ => return false
  | .eq, .eq => return feq a b
  | .eq, .le => return le a b
  | .eq, .ge => return le b a
  | .eq, .bad _ => return false
  | .bad _, _ => throw .other

/-- The scalar case of `ScalarConstraint.ImpliesThisIsAlsoSatisfied`
(`symbolic/scalar_constraint.go:288-393`). -/
def SCon.impliesS (c o : SCon R) : Go Bool := do
  c.check
  o.check
  let c ← c.simplify
  let o ← o.simplify
  let cv ← Con.variables (.s c)
  let ov ← Con.variables (.s o)
  if cv.length = 1 ∧ ov.length = 1 ∧ (unionOfVariables [cv, ov]).length = 1 then
    let cc ← goGet (← c.lhs.linearCoeff [cv]) 0
    let oc ← goGet (← o.lhs.linearCoeff [ov]) 0
    let c ← c.scaleBy (div one cc)
    let o ← o.scaleBy (div one oc)
    boundsImply c.sense o.sense (← c.rhs.constant) (← o.rhs.constant)
  else return false

/-- `ScalarConstraint.ImpliesThisIsAlsoSatisfied` (`symbolic/scalar_constraint.go:288-393`): always
false for vector and matrix constraints. -/
def SCon.implies (c : SCon R) (o : Con R) : Go Bool :=
  match o with
  | .s o => c.impliesS o
  | o => do
    c.check
    o.check
    let _ ← c.simplify
    return false

/-- `ScalarConstraint.IsNonnegativityConstraint` (`symbolic/scalar_constraint.go:398-448`). -/
def SCon.isNonneg (c : SCon R) : Go Bool := do
  c.check
  let c ← c.simplify
  let vs ← Con.variables (.s c)
  if vs.length ≠ 1 then return false
  if (← c.lhs.degree) ≠ 1 then return false
  match c.rhs with
  | .k r => do
    if !feq r zero then return false
    let a ← goGet (← c.lhs.linearCoeff []) 0
    return ((lt zero a && decide (c.sense = .ge)) || (lt a zero && decide (c.sense = .le)))
  | _ => throw .typeAssert

/-! ## VectorConstraint -/

/-- `VectorConstraint.Len` (`symbolic/vector_constraint.go:258-267`). -/
def VCon.len (c : VCon R) : Go Nat := do
  c.check
  c.lhs.len

/-- `VectorConstraint.Dims` (`symbolic/vector_constraint.go:19-28`). -/
def VCon.dims (c : VCon R) : Go (Nat × Nat) := do
  c.check
  c.lhs.dims

/-- `VectorConstraint.AtVec` (`symbolic/vector_constraint.go:31-49`). -/
def VCon.atVec (c : VCon R) (i : Int) : Go (SCon R) := do
  c.check
  checkIndexVec i (← c.dims)
  return ⟨← c.lhs.atVec i, ← c.rhs.atVec i, c.sense⟩

/-- A type assertion `.(VectorExpression)` or `.(PolynomialLikeVector)`. -/
def Expr.asVec : Expr R → Go (Vec R)
  | .v a => pure a
  | _ => throw .typeAssert

/-- A type assertion `.(MatrixExpression)`. -/
def Expr.asMat : Expr R → Go (Mat R)
  | .m a => pure a
  | _ => throw .typeAssert

/-- The left side minus the right side without its constants (`vector_constraint.go:141-144` and
`206-209`). -/
def VCon.newLHS (c : VCon R) : Go (Vec R) := do
  let r ← (← Expr.minus (.v c.rhs) (.v (.k (← c.rhs.constant)))).asVec
  (← Expr.minus (.v c.lhs) (.v r)).asVec

/-- `newRHS.SubVec(&rightConst, &leftConst)` (`vector_constraint.go:153-158` and `214-218`):
`mat.VecDense.SubVec` panics when the lengths differ. -/
def VCon.newRHS (c : VCon R) : Go (List R) := do
  let n ← c.lhs.len
  if n = 0 then throw .empty
  let rc ← c.rhs.constant
  let lc ← c.lhs.constant
  if rc.length ≠ lc.length ∨ n ≠ rc.length then throw .dimension
  return List.zipWith sub rc lc

/-- `VectorConstraint.LinearInequalityConstraintRepresentation`
(`symbolic/vector_constraint.go:107-167`). -/
def VCon.linearIneq (c : VCon R) (wrt : List (List (Var R))) : Go (List (List R) × List R) := do
  c.check
  Con.requireLinear (.v c)
  if c.sense = .eq then throw .inequalityRequired
  let d ← c.newLHS
  let A ← d.linearCoeff wrt
  let A := if c.sense = .ge then A.map (fun row => row.map (fun x => mul negOne x)) else A
  let b ← c.newRHS
  return (A, if c.sense = .ge then b.map (fun x => mul negOne x) else b)

/-- `VectorConstraint.LinearEqualityConstraintRepresentation`
(`symbolic/vector_constraint.go:172-223`). -/
def VCon.linearEq (c : VCon R) (wrt : List (List (Var R))) : Go (List (List R) × List R) := do
  c.check
  Con.requireLinear (.v c)
  if c.sense ≠ .eq then throw .equalityRequired
  let d ← c.newLHS
  let A ← d.linearCoeff wrt
  let b ← c.newRHS
  return (A, b)

/-- `VectorConstraint.Substitute` (`symbolic/vector_constraint.go:226-239`). -/
def VCon.substitute (c : VCon R) (v : Var R) (s : Scalar R) : Go (VCon R) := do
  c.check
  return ⟨← c.lhs.substitute v s, ← c.rhs.substitute v s, c.sense⟩

/-- `VectorConstraint.SubstituteAccordingTo` (`symbolic/vector_constraint.go:242-255`). -/
def VCon.substMap (c : VCon R) (sm : SubMap R) : Go (VCon R) := do
  c.check
  return ⟨← c.lhs.substMap sm, ← c.rhs.substMap sm, c.sense⟩

/-- `VectorConstraint.AsSimplifiedConstraint` (`symbolic/vector_constraint.go:270-294`). -/
def VCon.simplify (c : VCon R) : Go (VCon R) := do
  c.check
  let l ← Expr.minus (.v c.lhs) (.v (.k (← c.lhs.constant)))
  let r ← Expr.minus (.v c.rhs) (.v (.k (← c.rhs.constant)))
  let newL ← l.minus r
  let newR ← Expr.minus (.v (.k (← c.rhs.constant))) (.v (.k (← c.lhs.constant)))
  return ⟨← newL.asVec, ← newR.asVec, c.sense⟩

/-- The loop of `VectorConstraint.ImpliesThisIsAlsoSatisfied`
(`symbolic/vector_constraint.go:320-324`): stop at the first entry that implies the other. -/
def anyImplies (o : SCon R) : List (Go (SCon R)) → Go Bool
  | [] => return false
  | x :: xs => do
    if ← (← x).impliesS o then return true else anyImplies o xs

/-- `VectorConstraint.ImpliesThisIsAlsoSatisfied` (`symbolic/vector_constraint.go:302-336`). -/
def VCon.implies (c : VCon R) (o : Con R) : Go Bool := do
  c.check
  o.check
  match o with
  | .s o => do
    let n ← c.len
    anyImplies o ((List.range n).map (fun (i : Nat) => c.atVec i))
  | _ => return false

/-! ## MatrixConstraint -/

/-- `MatrixConstraint.Dims` (`symbolic/matrix_constraint.go:85-94`). -/
def MCon.dims (c : MCon R) : Go (Nat × Nat) := do
  c.check
  c.lhs.dims

/-- `MatrixConstraint.At` (`symbolic/matrix_constraint.go:97-115`). -/
def MCon.at (c : MCon R) (i j : Int) : Go (SCon R) := do
  c.check
  checkIndexMat i j (← c.dims)
  return ⟨← c.lhs.at i j, ← c.rhs.at i j, c.sense⟩

/-- `MatrixConstraint.Substitute` (`symbolic/matrix_constraint.go:124-138`). -/
def MCon.substitute (c : MCon R) (v : Var R) (s : Scalar R) : Go (MCon R) := do
  c.check
  return ⟨← c.lhs.substitute v s, ← c.rhs.substitute v s, c.sense⟩

/-- `MatrixConstraint.SubstituteAccordingTo` (`symbolic/matrix_constraint.go:142-156`). -/
def MCon.substMap (c : MCon R) (sm : SubMap R) : Go (MCon R) := do
  c.check
  return ⟨← c.lhs.substMap sm, ← c.rhs.substMap sm, c.sense⟩

/-- `MatrixConstraint.AsSimplifiedConstraint` (`symbolic/matrix_constraint.go:159-177`). -/
def MCon.simplify (c : MCon R) : Go (MCon R) := do
  let l ← Expr.minus (.m c.lhs) (.m (.k (← c.lhs.constant)))
  let r ← Expr.minus (.m c.rhs) (.m (.k (← c.rhs.constant)))
  let newL ← l.minus r
  let newR ← Expr.minus (.m (.k (← c.rhs.constant))) (.m (.k (← c.lhs.constant)))
  return ⟨← newL.asMat, ← newR.asMat, c.sense⟩

/-- The index pairs of an `r` by `c` matrix, row by row (`symbolic/constraint.go:102-106`,
`matrix_constraint.go:203-209`). -/
def indexPairs (d : Nat × Nat) : List (Nat × Nat) :=
  (List.range d.1).flatMap (fun i => (List.range d.2).map (fun j => (i, j)))

/-- `MatrixConstraint.ImpliesThisIsAlsoSatisfied` (`symbolic/matrix_constraint.go:185-222`). -/
def MCon.implies (c : MCon R) (o : Con R) : Go Bool := do
  c.check
  o.check
  match o with
  | .s o => do
    let d ← c.dims
    anyImplies o ((indexPairs d).map (fun ij => c.at ij.1 ij.2))
  | _ => return false

/-! ## The interface -/

/-- `ImpliesThisIsAlsoSatisfied` on the interface. -/
def Con.implies (c o : Con R) : Go Bool :=
  match c with
  | .s c => c.implies o
  | .v c => c.implies o
  | .m c => c.implies o

/-- `Substitute` on the interface. -/
def Con.substitute (c : Con R) (v : Var R) (s : Scalar R) : Go (Con R) :=
  match c with
  | .s c => do return .s (← c.substitute v s)
  | .v c => do return .v (← c.substitute v s)
  | .m c => do return .m (← c.substitute v s)

/-- `SubstituteAccordingTo` on the interface. -/
def Con.substMap (c : Con R) (sm : SubMap R) : Go (Con R) :=
  match c with
  | .s c => do return .s (← c.substMap sm)
  | .v c => do return .v (← c.substMap sm)
  | .m c => do return .m (← c.substMap sm)

/-- `AsSimplifiedConstraint` on the interface. -/
def Con.simplify (c : Con R) : Go (Con R) :=
  match c with
  | .s c => do return .s (← c.simplify)
  | .v c => do return .v (← c.simplify)
  | .m c => do return .m (← c.simplify)

/-- One step of `CompileConstraintsIntoScalarConstraints` (`symbolic/constraint.go:93-114`). -/
def Con.compile (c : Con R) : Go (List (SCon R)) :=
  match c with
  | .s c => return [c]
  | .v c => do
    let n ← c.len
    (List.range n).mapM (fun (i : Nat) => c.atVec i)
  | .m c => do
    let d ← c.dims
    (indexPairs d).mapM (fun ij => c.at ij.1 ij.2)

/-- `CompileConstraintsIntoScalarConstraints` (`symbolic/constraint.go:86-118`). -/
def compileAll (cs : List (Con R)) : Go (List (SCon R)) := do
  return (← cs.mapM Con.compile).flatten

end

end Verif
