import Verif.Tests.Base

/-!
# `/repo/testing/symbolic/variable_test.go` on the model
-/

namespace Verif.Tests.Variable

def x : Expr ℚ := sv (nv 0)
def y : Expr ℚ := sv (nv 1)
def bad : Expr ℚ := sv badVar
def p : Poly ℚ := ⟨[m1 3.14 0 2, m1 2.71 0 4]⟩

/-- Constant1 -/
example : hasConst 0 (pure x) := by decide +kernel
/-- LinearCoeff1 -/
example : gives [1] ((nv 0).linearCoeff []) := by decide +kernel
/-- LinearCoeff2 -/
example : panics ((nv 0).linearCoeff [[]]) := by decide +kernel
/-- LinearCoeff3 -/
example : gives [0, 0, 0, 1, 0] ((nv 3).linearCoeff [nvs 0 5]) := by decide +kernel
/-- LinearCoeff4 -/
example : panics (badVar.linearCoeff []) := by decide +kernel
/-- LinearCoeff5 -/
example : panics ((nv 0).linearCoeff [[nv 0], [nv 0]]) := by decide +kernel
/-- Plus1 -/
example : polyLen 2 (x.plusArg (.f64 3.14)) ∧ hasConst 3.14 (x.plusArg (.f64 3.14)) := by
  decide +kernel
/-- Plus2 -/
example : polyLen 2 (x.plusArg (.e (sk 3.14))) ∧ hasConst 3.14 (x.plusArg (.e (sk 3.14))) := by
  decide +kernel
/-- Plus3 -/
example : polyLen 2 (x.plusArg (.e y)) ∧ hasConst 0 (x.plusArg (.e y)) := by decide +kernel
/-- Plus4 -/
example : gives (sm (m1 2 0 1)) (x.plusArg (.e x)) := by decide +kernel
/-- Plus5 -/
example : panics (bad.plusArg .other) := by decide +kernel
/-- Plus6 -/
example : polyLen 2 (x.plusArg (.e (sm (m1 3.14 0 2)))) ∧
    hasConst 0 (x.plusArg (.e (sm (m1 3.14 0 2)))) := by decide +kernel
/-- Plus7 -/
example : polyLen 3 (x.plusArg (.e (sp p))) ∧ hasConst 0 (x.plusArg (.e (sp p))) := by decide +kernel
/-- Plus8 -/
example : panics (x.plusArg .other) := by decide +kernel
/-- Plus9 -/
example : hasTy .PolynomialVector (x.plusArg (.vecPtr [1, 2, 3])) ∧
    hasDims 3 1 (x.plusArg (.vecPtr [1, 2, 3])) := by decide +kernel
/-- Minus1, Minus2, Minus6 -/
example : polyLen 2 (x.minusArg (.f64 3.14)) ∧ hasConst (-3.14) (x.minusArg (.f64 3.14)) := by
  decide +kernel
/-- Minus3 -/
example : panics (x.minusArg .other) := by decide +kernel
/-- Minus4 -/
example : panics (bad.minusArg (.f64 3.4)) := by decide +kernel
/-- Minus5 -/
example : panicsWith .check (x.minusArg (.e bad)) := by decide +kernel
/-- LessEq1 -/
example : hasSides .le .Variable .K (x.comparisonArg (.f64 3.14) .le) := by decide +kernel
/-- LessEq2 -/
example : panics (bad.comparisonArg (.f64 3.14) .le) := by decide +kernel
/-- GreaterEq1 -/
example : hasSides .ge .Variable .Monomial (x.comparisonArg (.e (sm (m1 3.14 0 2))) .ge) := by
  decide +kernel
/-- GreaterEq2 -/
example : panics (x.comparisonArg (.e (sm ⟨3.14, [2, 3], [nv 0]⟩)) .ge) := by decide +kernel
/-- Eq1 -/
example : hasSides .eq .Variable .Variable (x.comparisonArg (.e y) .eq) := by decide +kernel
/-- Eq2 -/
example : panics (x.comparisonArg .other .eq) := by decide +kernel
/-- Comparison1 -/
example : hasSides .le .Variable .Polynomial (x.comparisonArg (.e (sp p)) .le) := by decide +kernel
/-- Multiply1 -/
example : panics (bad.mulArg (.f64 3.14)) := by decide +kernel
/-- Multiply2 -/
example : gives (sm (m1 1 0 2)) (x.mulArg (.e x)) := by decide +kernel
/-- Multiply3 -/
example : gives (sm (m2 1 0 1 1 1)) (x.mulArg (.e y)) := by decide +kernel
/-- Multiply4 -/
example : hasTy .MonomialVector (x.mulArg (.vecPtr [1, 2, 3])) ∧
    returns (fun e => coeffs e = [[1, 2, 3]]) (x.mulArg (.vecPtr [1, 2, 3])) := by decide +kernel
/-- Multiply5 -/
example : hasTy .Polynomial (x.mulArg (.e (sp p))) ∧
    returns (fun e => coeffs e = [[3.14, 2.71]]) (x.mulArg (.e (sp p))) := by decide +kernel
/-- Multiply6 -/
example : panicsWith .check (x.mulArg (.e bad)) := by decide +kernel
/-- String1 -/
example : returns (contains "x_".toList) (x.chars fmt) := by decide +kernel
/-- Transpose1 -/
example : gives x x.transpose := by decide +kernel
/-- NewBinaryVariable1 -/
example : (newVar (R := ℚ) true 0 (fun _ => [])).1.vtype = 66 := by decide +kernel
/-- NewBinaryVariable2 -/
example : (newVar (R := ℚ) true 1 (newVar false 1 (fun _ => [])).2).1.vtype = 66 ∧
    0 < (newVar (R := ℚ) true 1 (newVar false 1 (fun _ => [])).2).1.id := by decide +kernel
/-- DerivativeWrt1 -/
example : panicsWith .check (bad.derivative badVar) := by decide +kernel
/-- DerivativeWrt2 -/
example : hasConst 0 (x.derivative (nv 1)) := by decide +kernel
/-- DerivativeWrt3 -/
example : hasConst 1 (x.derivative (nv 0)) := by decide +kernel
/-- DerivativeWrt4 -/
example : panicsWith .check (x.derivative badVar) := by decide +kernel
/-- Substitute1 -/
example : panicsWith .check (bad.substitute badVar (.var badVar)) := by decide +kernel
/-- Substitute2 -/
example : panicsWith .check (x.substitute badVar (.var (nv 0))) := by decide +kernel
/-- Substitute3 -/
example : panicsWith .check (x.substitute (nv 1) (.var badVar)) := by decide +kernel
/-- Substitute4 -/
example : gives x (do
    let s ← (Scalar.var (nv 1)).plusF64 3.114
    x.substitute (nv 1) s) := by decide +kernel
/-- Substitute5 -/
example : hasTy .Monomial (x.substitute (nv 0) (.mono (m0 3.14))) := by decide +kernel
/-- SubstituteAccordingTo1 -/
example : panicsWith .check (bad.substMap [(badVar, .var badVar)]) := by decide +kernel
/-- SubstituteAccordingTo2 -/
example : panicsWith .check (x.substMap [(nv 0, .var badVar)]) := by decide +kernel
/-- SubstituteAccordingTo3 -/
example : gives y (x.substMap [(nv 0, .var (nv 1))]) := by decide +kernel
/-- SubstituteAccordingTo4 -/
example : gives x (x.substMap [(nv 1, .var (nv 0))]) := by decide +kernel
/-- Power1 -/
example : gives (.mono (m1 1 0 3)) ((Scalar.var (nv 0)).power 3) := by decide +kernel

end Verif.Tests.Variable
