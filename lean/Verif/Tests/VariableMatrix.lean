import Verif.Tests.Base

/-!
# `/repo/testing/symbolic/variable_matrix_test.go` on the model
-/

namespace Verif.Tests.VariableMatrix

def x22 : Expr ℚ := mv (nvm 0 2 2)
def x32 : Expr ℚ := mv (nvm 0 3 2)
def x13 : Expr ℚ := mv (nvm 0 1 3)
def empty : Expr ℚ := mv []
def bad1 : Expr ℚ := mv [[badVar]]
def bad22 : Expr ℚ := mv [[badVar, badVar], [badVar, badVar]]
/-- A monomial with a variable and no exponent. -/
def badM : Expr ℚ := sm ⟨1, [], [nv 9]⟩
def k32 : Expr ℚ := mk [[1, 2], [3, 4], [5, 6]]
def k22 : Expr ℚ := mk [[1, 2], [3, 4]]

/-- Check1 -/
example : panicsWith .check empty.check := by decide +kernel
/-- Check2 -/
example : panicsWith .check (mv [[badVar, badVar], [badVar]]).check := by decide +kernel
/-- Check3 -/
example : panicsWith .check bad1.check := by decide +kernel
/-- Check4 -/
example : ok x22.check := by decide +kernel
/-- Variables1 -/
example : panics empty.variables := by decide +kernel
/-- Variables2 -/
example : gives 4 (numVariables x22) := by decide +kernel
/-- Variables3 -/
example : gives 1 (numVariables (mv [[nv 0, nv 0], [nv 0, nv 0]])) := by decide +kernel
/-- Dims1 -/
example : panics empty.dims := by decide +kernel
/-- Dims2 -/
example : hasDims 2 2 (pure x22) := by decide +kernel
/-- Plus1 -/
example : panics (empty.plusArg (.e empty)) := by decide +kernel
/-- Plus2 -/
example : panics (x22.plusArg (.e bad22)) := by decide +kernel
/-- Plus3 -/
example : panics (x22.plusArg (.e k32)) := by decide +kernel
/-- Plus4 -/
example : hasTy .PolynomialMatrix (x22.plusArg (.e k22)) ∧ polyLens 2 (x22.plusArg (.e k22)) := by
  decide +kernel
/-- Plus5 -/
example : hasTy .PolynomialMatrix (x22.plusArg (.f64 1)) ∧ polyLens 2 (x22.plusArg (.f64 1)) := by
  decide +kernel
/-- Plus6 -/
example : panics (x22.plusArg .other) := by decide +kernel
/-- Minus1 -/
example : panics (bad1.minusArg (.e bad1)) := by decide +kernel
/-- Minus2 -/
example : panics (x22.minusArg (.e badM)) := by decide +kernel
/-- Minus3 -/
example : panics (x22.minusArg (.e k32)) := by decide +kernel
/-- Minus4 -/
example : hasTy .PolynomialMatrix (x22.minusArg (.densePtr [[1, 2], [3, 4]])) ∧
    polyLens 2 (x22.minusArg (.densePtr [[1, 2], [3, 4]])) := by decide +kernel
/-- Minus5 -/
example : hasTy .PolynomialMatrix (x22.minusArg (.f64 2)) ∧ polyLens 2 (x22.minusArg (.f64 2)) := by
  decide +kernel
/-- Minus6 -/
example : panics (x22.minusArg .other) := by decide +kernel
/-- Multiply1 -/
example : panics (empty.mulArg (.e empty)) := by decide +kernel
/-- Multiply2 -/
example : panics (x22.mulArg (.e bad22)) := by decide +kernel
/-- Multiply3 -/
example : panics (x22.mulArg (.e k32)) := by decide +kernel
/-- Multiply4 -/
example : hasTy .PolynomialMatrix (x22.mulArg (.e k22)) ∧ polyLens 2 (x22.mulArg (.e k22)) := by
  decide +kernel
/-- Multiply5 -/
example : returns (fun
    | .m (.m l) => l.all (·.all (fun m => m.vars.length == 1 && m.coeff == 2))
    | _ => false) (x22.mulArg (.f64 2)) := by decide +kernel
/-- Multiply6 -/
example : panics (x22.mulArg .other) := by decide +kernel
/-- Multiply7 -/
example : hasTy .PolynomialVector (x32.mulArg (.e (mk [[1], [2]]))) ∧
    polyLens 2 (x32.mulArg (.e (mk [[1], [2]]))) := by decide +kernel
/-- Multiply8 -/
example : polyLen 3 (x13.mulArg (.e (mk [[1], [2], [3]]))) := by decide +kernel
/-- Multiply9 -/
example : hasTy .PolynomialVector (x32.mulArg (.e (vk [1, 2]))) ∧
    polyLens 2 (x32.mulArg (.e (vk [1, 2]))) := by decide +kernel
/-- Multiply10 -/
example : polyLen 3 (x13.mulArg (.e (vk [1, 2, 3]))) := by decide +kernel
/-- Multiply11 -/
example : hasTy .PolynomialVector (x32.mulArg (.dense [[1], [2]])) ∧
    polyLens 2 (x32.mulArg (.dense [[1], [2]])) := by decide +kernel
/-- Multiply12 -/
example : hasTy .PolynomialVector (x32.mulArg (.densePtr [[1], [2]])) ∧
    polyLens 2 (x32.mulArg (.densePtr [[1], [2]])) := by decide +kernel
/-- Multiply13 -/
example : polyLen 3 (x13.mulArg (.vecPtr [1, 2, 3])) := by decide +kernel
/-- Multiply14 -/
example : polyLen 3 (x13.mulArg (.vec [1, 2, 3])) := by decide +kernel
/-- Multiply15 -/
example : hasTy .PolynomialVector (x32.mulArg (.e (vv (nvs 6 2)))) ∧
    polyLens 2 (x32.mulArg (.e (vv (nvs 6 2)))) := by decide +kernel
/-- Multiply16 -/
example : hasTy .PolynomialMatrix ((mv (nvm 0 2 3)).mulArg
      (.e (mm [[nm 6, nm 7], [nm 8, nm 9], [nm 10, nm 11]]))) ∧
    polyLens 3 ((mv (nvm 0 2 3)).mulArg
      (.e (mm [[nm 6, nm 7], [nm 8, nm 9], [nm 10, nm 11]]))) := by decide +kernel
/-- Transpose1 -/
example : panics empty.transpose := by decide +kernel
/-- Transpose2 -/
example : returns (fun
    | .m (.v l) => l.map (·.map (·.id)) == [[0, 2, 4], [1, 3, 5]]
    | _ => false) x32.transpose := by decide +kernel
/-- LessEq1 -/
example : panics (bad1.comparisonArg (.e bad1) .le) := by decide +kernel
/-- LessEq2 -/
example : hasSides .le .VariableMatrix .KMatrix (x22.comparisonArg (.f64 2) .le) := by
  decide +kernel
/-- GreaterEq1 -/
example : panics (x32.comparisonArg (.e (mm [[nm 6], [nm 7]])) .ge) := by decide +kernel
/-- Eq1 -/
example : panics ((mv [[nv 0]]).comparisonArg (.e badM) .eq) := by decide +kernel
/-- Eq2 -/
example : hasCTy .Matrix
    (x22.comparisonArg (.e (mm [[nm 4, nm 5], [nm 6, nm 7]])) .eq) := by decide +kernel

end Verif.Tests.VariableMatrix
