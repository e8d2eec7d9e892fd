import Verif.Tests.Base

/-!
# `/repo/testing/symbolic/constant_matrix_test.go` on the model
-/

namespace Verif.Tests.ConstantMatrix

def eye : List (List ℚ) := identityRows 3
def km1 : Expr ℚ := mk eye
def a : Expr ℚ := mk [[1, 2, 3], [4, 5, 6]]
def badM : Expr ℚ := sm ⟨0, [], [nv 0, nv 1]⟩
def onesM (r c : Nat) : List (List ℚ) := List.replicate r (ones c)

/-- `DenseToKMatrix(Identity(3))`, `DenseToKMatrix(OnesMatrix(2, 4))` -/
example : returns (fun i => denseToKMatrix 3 i = eye) (identity 3) ∧
    returns (fun i => denseToKMatrix 4 i = onesM 2 4) (onesMatrix 2 4) := by decide +kernel
/-- Variables1 -/
example : gives [] km1.variables := by decide +kernel
/-- Plus1 -/
example : panicsWith .dimension (km1.plusArg (.dense (identityRows 4))) := by decide +kernel
/-- Plus2, Plus3 -/
example : gives (mk (eye.map (·.map (· + 3.14)))) (km1.plusArg (.f64 3.14)) ∧
    gives (mk (eye.map (·.map (· + 3.14)))) (km1.plusArg (.e (sk 3.14))) := by decide +kernel
/-- Plus4 -/
example : panicsWith .check (km1.plusArg (.e badM)) := by decide +kernel
/-- Plus5 -/
example : hasTy .KMatrix (do
    km1.plusArg (.e (mp (← kmToPolyMat (← kmatrixFrom (.dense 3 (← onesMatrix 3 3))))))) := by
  decide +kernel
/-- Plus6 -/
example : returns (fun e => lens e = [[2, 1, 1], [1, 2, 1], [1, 1, 2]])
    (km1.plusArg (.e (sv (nv 0)))) := by decide +kernel
/-- Plus7 -/
example : panicsWith .unsupported (km1.plusArg .other) := by decide +kernel
/-- Multiply1 -/
example : panicsWith .check (km1.mulArg (.e badM)) := by decide +kernel
/-- Multiply2 -/
example : panicsWith .dimension (km1.mulArg (.e (mk (onesM 2 4)))) := by decide +kernel
/-- Multiply3, Multiply4 -/
example : gives (mk (eye.map (·.map (· * 3.14)))) (km1.mulArg (.f64 3.14)) ∧
    gives (mk (eye.map (·.map (· * 3.14)))) (km1.mulArg (.e (sk 3.14))) := by decide +kernel
/-- Multiply5 -/
example : panicsWith .unsupported (km1.mulArg .other) := by decide +kernel
/-- Multiply6 -/
example : gives (mk (onesM 3 2)) (km1.mulArg (.e (mk (onesM 3 2)))) := by decide +kernel
/-- Multiply7 -/
example : gives (vk [2, 2, 2]) ((mk (onesM 3 2)).mulArg (.dense (onesM 2 1))) := by decide +kernel
/-- Multiply8 -/
example : gives (sk 3) ((mk (onesM 1 3)).mulArg (.dense (onesM 3 1))) := by decide +kernel
/-- Multiply9 -/
example : polyLens 3 ((mk (onesM 2 3)).mulArg (.e (vv (nvs 0 3)))) ∧
    hasTy .PolynomialVector ((mk (onesM 2 3)).mulArg (.e (vv (nvs 0 3)))) := by decide +kernel
/-- Multiply10 -/
example : polyLen 3 ((mk (onesM 1 3)).mulArg (.e (vv (nvs 0 3)))) := by decide +kernel

/-- The entries other than 0 of the 38 by 57 matrix of Multiply11, row by row. -/
def sparse : List (List (Nat × ℚ)) := [
  [(0, 1), (1, 0.95)], [(2, 0.95), (3, 1)], [(4, 1), (5, 0.95)], [(6, 1)], [(7, 1)],
  [(8, 1), (9, 0.95)], [(10, 0.95)], [(11, 0.95)], [(12, 1)], [(13, 1), (14, 0.95)],
  [(15, 1), (16, 0.95)], [(17, 0.95)], [(18, 1), (19, 0.95)], [(20, 1)], [(21, 1)],
  [(22, 1), (23, 0.95), (24, 0.95)], [(25, 1)], [(26, 1)], [(27, 0.95)], [(28, 1)],
  [(29, 1), (30, 0.95)], [(31, 0.95)], [(32, 1)], [(33, 0.95), (34, 1)], [(35, 1), (36, 0.95)],
  [(37, 1)], [(38, 1)], [(39, 1), (40, 0.95)], [(41, 0.95)], [(42, 0.95), (43, 1)],
  [(44, 1), (45, 0.95)], [(46, 0.95), (47, 1)], [(48, 0.95), (49, 1)], [(50, 0.95), (51, 1)],
  [(52, 0.95)], [(53, 0.95)], [(54, 1), (55, 0.95)], [(56, 0.95)]]

/-- The vector `b` of Multiply11. -/
def b : List ℚ := [
  38, 5, 2, 33, 28, 14, 2, 48, 8, 133, 117, 34, 48, 20, 16, 50, 30, 75, 10, 40, 6, 70, 10, 5,
  167, 13, 2, 118, 12, 98, 67, 157, 55, 2, 4, 4, 25, 4]

/-- Multiply11 -/
example : ok (do
    let A ← kmatrixFrom (.dense 57 (sparse.map (fun r =>
      (List.range 57).map (fun j => (r.lookup j).getD 0))))
    (← (mk A).mulArg (.e (vv (nvs 0 57)))).comparisonArg (.e (vk (← kvectorFrom (.floats b)))) .eq) := by
  decide +kernel
/-- Transpose1 -/
example : gives (mk [[1, 4], [2, 5], [3, 6]]) a.transpose := by decide +kernel
/-- LessEq1 -/
example : hasSense .Matrix .le (a.comparisonArg (.e a) .le) ∧
    conDims 2 3 (a.comparisonArg (.e a) .le) := by decide +kernel
/-- LessEq2 -/
example : panicsWith .dimension (a.comparisonArg (.e (mv (nvm 0 3 2))) .le) := by decide +kernel
/-- GreaterEq1 -/
example : hasSense .Matrix .ge (a.comparisonArg (.e a) .ge) ∧
    conDims 2 3 (a.comparisonArg (.e a) .ge) := by decide +kernel
/-- GreaterEq2 -/
example : panicsWith .unsupported (a.comparisonArg .other .ge) := by decide +kernel
/-- Eq1 -/
example : panicsWith .check (a.comparisonArg (.e badM) .eq) := by decide +kernel
/-- Eq2 -/
example : hasSense .Matrix .eq (a.comparisonArg (.e (mv (nvm 0 2 3))) .eq) ∧
    conDims 2 3 (a.comparisonArg (.e (mv (nvm 0 2 3))) .eq) := by decide +kernel
/-- Comparison1 -/
example : returns (fun c => cty c = .Matrix ∧ c.sense = .ge ∧
    c.right = mk (List.replicate 2 [3, 3, 3])) (a.comparisonArg (.e (sk 3)) .ge) := by
  decide +kernel
/-- Constant1 -/
example : gives [[1, 2, 3], [4, 5, 6]] (Mat.constant (.k [[(1 : ℚ), 2, 3], [4, 5, 6]])) := by
  decide +kernel
/-- String1 -/
example : returns (fun s => ["1", "2", "3", "4", "5", "6"].all (fun t => contains t.toList s))
    (a.chars fmt) := by decide +kernel
/-- DerivativeWrt1 -/
example : gives (mk (List.replicate 2 [0, 0, 0])) (a.derivative (nv 0)) := by decide +kernel
/-- Degree1 -/
example : gives 0 a.degree := by decide +kernel
/-- Substitute1 -/
example : gives a (a.substitute (nv 0) (.var (nv 1))) := by decide +kernel
/-- SubstituteAccordingTo1 -/
example : gives a (a.substMap [(nv 0, .var (nv 1))]) := by decide +kernel
/-- Power1 -/
example : gives (.k [[1, 2, 3], [4, 5, 6], [7, 8, 9]])
    (Mat.power (.k [[(1 : ℚ), 2, 3], [4, 5, 6], [7, 8, 9]]) 1) := by decide +kernel
/-- Power2 -/
example : gives (.k [[1, 0, 0], [0, 4, 0], [0, 0, 9]])
    (Mat.power (.k [[(1 : ℚ), 0, 0], [0, 2, 0], [0, 0, 3]]) 2) := by decide +kernel
/-- AsSimplifiedExpression1 -/
example : gives a a.asSimplified := by decide +kernel
/-- Minus1 -/
example : gives (mk [[1, -2, 3], [-4, 5, -6]])
    (do (mk [[1, -2, 3], [-4, 5, -6]]).minusArg (.dense (← zerosMatrix 2 3))) := by decide +kernel

end Verif.Tests.ConstantMatrix
