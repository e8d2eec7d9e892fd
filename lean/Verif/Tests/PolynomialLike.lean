import Verif.Tests.Base

/-!
# `/repo/testing/symbolic/polynomial_like_test.go`, `polynomial_like_vector_test.go`,
`polynomial_like_matrix_test.go`, `/repo/testing/get` on the model
-/

namespace Verif.Tests.PolynomialLike

def ident3 : List (List ℚ) := [[1, 0, 0], [0, 1, 0], [0, 0, 1]]

/-- The value is accepted and is of this kind. -/
def is (t : Ty) (a : Arg ℚ) : Bool := decide (a.toPolynomialLike.map ty = some t)

/-- IsPolynomialLike1, ToPolynomialLike1 -/
example : is .Variable (.e (sv (nv 0))) := by decide +kernel
/-- IsPolynomialLike2, ToPolynomialLike4 -/
example : (Arg.other : Arg ℚ).toPolynomialLike = none := by decide +kernel
/-- ToPolynomialLike2 -/
example : is .KMatrix (.e (mk [[1, 0], [0, 1]])) := by decide +kernel
/-- ToPolynomialLike3 -/
example : is .VariableVector (.e (vv (nvs 0 2))) := by decide +kernel
/-- Vector: IsPolynomialLikeVector1, ToPolynomialLikeVector1 -/
example : returns (fun l => is .KVector (.e (vk l))) (kvectorFrom (.ints [3, 4, 5])) := by
  decide +kernel
/-- Vector: IsPolynomialLikeVector2 -/
example : is .VariableVector (.e (vv (nvs 0 3))) := by decide +kernel
/-- Vector: IsPolynomialLikeVector3, ToPolynomialLikeVector4 -/
example : returns (fun l => is .PolynomialVector (.e (vp l))) (vvToPolyVec (nvs 0 3)) := by
  decide +kernel
/-- Vector: IsPolynomialLikeVector4, ToPolynomialLikeVector5 -/
example : returns (fun l => is .KVector (.vec l)) (onesVector 3) := by decide +kernel
/-- Vector: ToPolynomialLikeVector2 -/
example : returns (fun l => is .MonomialVector (.e (vm l))) (vvToMonoVec (nvs 0 3)) := by
  decide +kernel
/-- Vector: ToPolynomialLikeVector3 -/
example : ((Arg.e (sv (nv 0))).toPolynomialLike.map Expr.isScalarType) = some true := by
  decide +kernel
/-- Matrix: IsPolynomialLikeMatrix1, ToPolynomialLikeMatrix2 -/
example : returns (fun l => is .KMatrix (.dense l)) (identity 10) := by decide +kernel
/-- Matrix: IsPolynomialLikeMatrix2, ToPolynomialLikeMatrix3 -/
example : is .VariableMatrix (.e (mv (nvm 0 3 3))) := by decide +kernel
/-- Matrix: IsPolynomialLikeMatrix3, ToPolynomialLikeMatrix4 -/
example : returns (fun l => is .MonomialMatrix (.e (mm l))) (kmToMonoMat ident3) := by
  decide +kernel
/-- Matrix: IsPolynomialLikeMatrix4, ToPolynomialLikeMatrix5 -/
example : returns (fun l => is .PolynomialMatrix (.e (mp l))) (vmToPolyMat (nvm 0 3 3)) := by
  decide +kernel
/-- Matrix: ToPolynomialLikeMatrix1 -/
example : ((Arg.e (sv (nv 0))).toPolynomialLike.map Expr.isScalarType) = some true := by
  decide +kernel
/-- getKMatrix.From1 -/
example : gives [[1, 2, 3], [4, 5, 6], [7, 8, 9]] (kmatrixFrom (.densePtr (some (3, [[(1 : ℚ), 2,
    3], [4, 5, 6], [7, 8, 9]])))) := by decide +kernel
/-- getKMatrix.From2 -/
example : gives (List.replicate 3 (ones 2)) (kmatrixFrom (.dense 2 (List.replicate 3 (ones 2))))
    := by decide +kernel
/-- getKMatrix.From3 -/
example : gives (List.replicate 3 (ones 2)) (kmatrixFrom (.kmatrix (denseToKMatrix 2
    (List.replicate 3 (ones 2))))) := by decide +kernel
/-- getKMatrix.From4 -/
example : panicsWith .unsupported (kmatrixFrom (.other : MatInput ℚ)) := by decide +kernel
/-- getKMatrix.From5 -/
example : gives [[1, 2, 3], [4, 5, 6]] (kmatrixFrom (.floats [[(1 : ℚ), 2, 3], [4, 5, 6]])) := by
  decide +kernel
/-- getKMatrix.From6 -/
example : panicsWith .dimension (kmatrixFrom (.floats [[(1 : ℚ), 2, 3], [4, 5]])) := by
  decide +kernel
/-- getKVector.From1 -/
example : panics (kvectorFrom (.other : VecInput ℚ)) := by decide +kernel
/-- getKVector.From2 -/
example : gives [1, 2, 3] (kvectorFrom (.floats [(1 : ℚ), 2, 3])) := by decide +kernel
/-- getKVector.From3 -/
example : gives [1, 2, 3] (kvectorFrom (.vecDensePtr (some [(1 : ℚ), 2, 3]))) := by decide +kernel
/-- getKVector.From4 -/
example : gives [1, 2, 3] (kvectorFrom (.kvector (vecDenseToKVector [(1 : ℚ), 2, 3]))) := by
  decide +kernel

end Verif.Tests.PolynomialLike
