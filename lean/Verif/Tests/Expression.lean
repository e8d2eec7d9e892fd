import Verif.Tests.Base

/-!
# `/repo/testing/symbolic/expression_test.go`, `scalar_expression_test.go`, `vector_expression_test.go`,
`matrix_expression_test.go` on the model
-/

namespace Verif.Tests.Expression

def bm : Mono ℚ := ⟨1.2, [1], [nv 0, nv 1]⟩
def bmm : Mat ℚ := .m [[bm, bm], [bm, bm]]
def mm2 : Mat ℚ := .m [[nm 0, nm 0], [nm 0, nm 0]]

/-- The kind of the result is the vector kind. -/
def vecTy (t : Ty) : Go (Vec ℚ) → Bool := returns (fun v => decide (ty (.v v) = t))
def matTy (t : Ty) : Go (Mat ℚ) → Bool := returns (fun m => decide (ty (.m m) = t))

/-- NumVariables1 -/
example : gives 1 (numVariables (sv (nv 0))) := by decide +kernel
/-- VariableIDs1 -/
example : gives [7] (variableIDs (sv (nv 7))) := by decide +kernel
/-- ToExpression1 -/
example : (Arg.other : Arg ℚ).toExpr = none := by decide +kernel
/-- HStack1 -/
example : (fun r => hasDims 1 2 r && hasTy .VariableMatrix r) (hstack [sv (nv 0), sv (nv 1)]) := by
  decide +kernel
/-- HStack2 -/
example : (fun r => hasDims 1 4 r && hasTy .MonomialMatrix r) (hstack [sk 1, sk 2, sk 3, sv (nv
    0)]) := by decide +kernel
/-- HStack3 -/
example : (fun r => hasDims 11 2 r && hasTy .MonomialMatrix r) (hstack [vk (ones 11), vv (nvs 0
    11)]) := by decide +kernel
/-- HStack4 -/
example : panicsWith .dimension (hstack [mk (List.replicate 3 (ones 2)), vv (nvs 0 2)]) := by
  decide +kernel
/-- HStack5 -/
example : (fun r => hasDims 3 3 r && hasTy .MonomialMatrix r) (hstack [mk (List.replicate 3 (ones
    2)), vv (nvs 0 3)]) := by decide +kernel
/-- HStack6 -/
example : panics (hstack ([] : List (Expr ℚ))) := by decide +kernel
/-- VStack1 -/
example : (fun r => hasDims 2 1 r && hasTy .VariableVector r) (vstack [sv (nv 0), sv (nv 1)]) := by
  decide +kernel
/-- VStack2 -/
example : (fun r => hasDims 4 1 r && hasTy .MonomialVector r) (vstack [sk 1, sk 2, sk 3, sv (nv
    0)]) := by decide +kernel
/-- VStack3 -/
example : (fun r => hasDims 22 1 r && hasTy .MonomialVector r) (vstack [vk (ones 11), vv (nvs 0
    11)]) := by decide +kernel
/-- VStack4 -/
example : panicsWith .dimension (vstack [mk (List.replicate 3 (ones 2)), vv (nvs 0 2)]) := by
  decide +kernel
/-- VStack5 -/
example : panicsWith .dimension (vstack [mk (List.replicate 3 (ones 2)), mk (List.replicate 2
    (ones 3))]) := by decide +kernel
/-- VStack6 -/
example : (fun r => hasDims 6 2 r && hasTy .MonomialMatrix r) (vstack [mk (List.replicate 3 (ones
    2)), mv (nvm 0 3 2)]) := by decide +kernel
/-- VStack7 -/
example : panics (vstack ([] : List (Expr ℚ))) := by decide +kernel
/-- ConcretizeExpression1 -/
example : (fun r => hasDims 3 1 r && hasTy .MonomialVector r) (concretizeV [.k 1, .k 2, .var (nv
    0)]) := by decide +kernel
/-- ConcretizeExpression2 -/
example : (fun r => hasDims 1 1 r && hasTy .K r) (concretizeV [.k (1 : ℚ)]) := by decide +kernel
/-- ConcretizeExpression3 -/
example : (fun r => hasDims 3 2 r && hasTy .MonomialMatrix r) (concretizeM [[.k 1, .k 2], [.k 3,
    .var (nv 0)], [.k 4, .var (nv 1)]]) := by decide +kernel
/-- ScalarExpression_IsScalarExpression1 -/
example : ((Arg.f64 (3 : ℚ)).toExpr.map ty) = some .K := by decide +kernel
/-- ScalarExpression_ToScalarExpression1 -/
example : (Arg.other : Arg ℚ).toPolynomialLike = none := by decide +kernel
/-- ScalarExpression_ToScalarExpression2 -/
example : ((Arg.f64 (3 : ℚ)).toPolynomialLike.map ty) = some .K := by decide +kernel
/-- ScalarExpression_ToScalarExpression3 -/
example : ((Arg.e (vv (nvs 0 2))).toExpr.map Expr.isScalarType) = some false := by decide +kernel
/-- ScalarExpression_IsLinear1 -/
example : gives true (sk 3).isLinear := by decide +kernel
/-- ScalarExpression_IsLinear2 -/
example : gives false (sm (m1 3 0 5)).isLinear := by decide +kernel
/-- ScalarExpression_ScalarPowerTemplate1 -/
example : panicsWith .check (Scalar.power (.mono ⟨2, [1, 2], [nv 0]⟩) 2) := by decide +kernel
/-- ScalarExpression_ScalarPowerTemplate2 -/
example : panicsWith .negExponent (Scalar.power (.k (2 : ℚ)) (-2)) := by decide +kernel
/-- VectorExpression_ToVectorExpression1 -/
example : ((Arg.e (sk 2)).toExpr.map Expr.isScalarType) = some true := by decide +kernel
/-- VectorExpression_ConcretizeVectorExpression1 -/
example : vecTy .KVector (concretizeVec [.k 2, .k 3, .k 4, .k 5]) := by decide +kernel
/-- VectorExpression_ConcretizeVectorExpression2 -/
example : vecTy .VariableVector (concretizeVec ((nvs 0 4).map .var)) := by decide +kernel
/-- VectorExpression_ConcretizeVectorExpression3 -/
example : vecTy .MonomialVector (concretizeVec ((nvs 0 4).map (fun v => .mono v.toMono))) := by
  decide +kernel
/-- VectorExpression_ConcretizeVectorExpression4 -/
example : vecTy .PolynomialVector (concretizeVec ((nvs 0 4).map (fun v => .poly v.toPoly))) := by
  decide +kernel
/-- VectorExpression_ConcretizeVectorExpression5 -/
example : vecTy .MonomialVector (concretizeVec [.k 2, .var (nv 0), .k 3, .var (nv 1), .k 4, .var
    (nv 2), .k 5, .var (nv 3)]) := by decide +kernel
/-- VectorExpression_ConcretizeVectorExpression6 -/
example : vecTy .PolynomialVector (concretizeVec [.k 2, .poly (np 0)]) := by decide +kernel
/-- VectorExpression_ConcretizeVectorExpression7 -/
example : panics (concretizeVec ([] : List (Scalar ℚ))) := by decide +kernel
/-- VectorExpression_ConcretizeVectorExpression8 -/
example : returns (fun v => ty (.v v) = .PolynomialVector ∧ v.len.toOption = some 3)
    (concretizeVec [.poly (np 0), .mono (nm 1), .var (nv 2)]) := by decide +kernel
/-- VectorExpression_VectorSubstituteTemplate1 -/
example : panicsWith .check ((vv [nv 0, badVar]).substitute (nv 1) (.var (nv 2))) := by
  decide +kernel
/-- VectorExpression_VectorSubstituteTemplate2 -/
example : panicsWith .check ((vv (nvs 0 2)).substitute badVar (.var (nv 2))) := by decide +kernel
/-- VectorExpression_VectorSubstituteTemplate3 -/
example : panicsWith .check ((vv (nvs 0 2)).substitute (nv 2) (.var badVar)) := by decide +kernel
/-- VectorExpression_VectorPowerTemplate1 -/
example : panicsWith .check (Vec.power (.v [nv 0, badVar]) 2) := by decide +kernel
/-- VectorExpression_VectorPowerTemplate2 -/
example : panicsWith .negExponent (Vec.power (.v (nvs 0 2)) (-1)) := by decide +kernel
/-- MatrixExpression_ToMatrixExpression1 -/
example : (Arg.int 3 : Arg ℚ).toExpr = none := by decide +kernel
/-- MatrixExpression_ConcretizeMatrixExpression1 -/
example : matTy .KMatrix (concretizeMat [[.k 1, .k 2, .k 3], [.k 4, .k 5, .k 6], [.k 7, .k 8, .k
    9]]) := by decide +kernel
/-- MatrixExpression_ConcretizeMatrixExpression2 -/
example : matTy .MonomialMatrix (concretizeMat [[.mono (nm 0), .mono (nm 0)], [.mono (nm 0), .mono
    (nm 0)]]) := by decide +kernel
/-- MatrixExpression_ConcretizeMatrixExpression3 -/
example : matTy .PolynomialMatrix (concretizeMat [[.poly (np 0), .poly (np 0)], [.poly (np 0),
    .poly (np 0)]]) := by decide +kernel
/-- MatrixExpression_ConcretizeMatrixExpression4 -/
example : matTy .VariableMatrix (concretizeMat (List.replicate 3 [.var (nv 0), .var (nv 0)])) := by
  decide +kernel
/-- MatrixExpression_ConcretizeMatrixExpression5 -/
example : matTy .MonomialMatrix (concretizeMat [[.k 2, .var (nv 0)], [.var (nv 0), .k 2]]) := by
  decide +kernel
/-- MatrixExpression_MatrixPowerTemplate1 -/
example : panicsWith .check (bmm.power 2) := by decide +kernel
/-- MatrixExpression_MatrixPowerTemplate2 -/
example : panics (Mat.power (.m [[nm 0, nm 0]]) 2) := by decide +kernel
/-- MatrixExpression_MatrixPowerTemplate3 -/
example : panicsWith .negExponent (mm2.power (-2)) := by decide +kernel
/-- MatrixExpression_MatrixSubstituteTemplate1 -/
example : panicsWith .check (bmm.substitute (nv 2) (.var (nv 3))) := by decide +kernel
/-- MatrixExpression_MatrixSubstituteTemplate2 -/
example : panicsWith .check (mm2.substitute badVar (.var (nv 3))) := by decide +kernel
/-- MatrixExpression_MatrixSubstituteTemplate3 -/
example : panicsWith .check (mm2.substitute (nv 1) (.mono bm)) := by decide +kernel
/-- MatrixExpression_MatrixMultiplyTemplate1 -/
example : panicsWith .check ((Expr.m bmm).mulArg (.e (.m bmm))) := by decide +kernel
/-- MatrixExpression_MatrixMultiplyTemplate2 -/
example : panicsWith .dimension ((mk [[1, 2, 3], [4, 5, 6]]).mulArg (.e (mk [[7, 8], [9, 10]])))
    := by decide +kernel
/-- MatrixExpression_MatrixMultiplyTemplate3 -/
example : panicsWith .check ((mk [[1, 2], [3, 4]]).mulArg (.e (mv [[badVar, badVar], [badVar,
    badVar]]))) := by decide +kernel

end Verif.Tests.Expression
