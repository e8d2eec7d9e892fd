import Verif.Tests.Base

/-!
# `/repo/testing/symbolic/monomial_test.go` on the model
-/

namespace Verif.Tests.Monomial

/-- Two exponents for one variable. -/
def bad : Mono ℚ := ⟨3.14, [1, 2], [nv 0]⟩

/-- Check1 -/
example : panicsWith .check bad.check := by decide +kernel
/-- Check2 -/
example : ok (m0 3.14).check := by decide +kernel
/-- Check3 -/
example : ok (m2 3.14 0 1 1 2).check := by decide +kernel
/-- Plus1 -/
example : hasTy .K ((sm (m0 3.14)).plusArg (.f64 3.14)) := by decide +kernel
/-- Plus2 -/
example : polyLen 2 ((sm (m2 3.14 0 1 1 7)).plusArg (.f64 3.14)) ∧
    ok ((sm (m2 3.14 0 1 1 7)).plusArg (.f64 3.14) >>= Expr.check) := by decide +kernel
/-- Plus3 -/
example : returns (fun e => decide (ty e = .Monomial) && (monos e).all (fun m => ok m.check &&
    decide (m.vars = [nv 0]))) ((sm (m1 3.14 0 1)).plusArg (.e (sv (nv 0)))) := by decide +kernel
/-- Plus4 -/
example : polyLen 2 ((sm (m1 3.14 0 1)).plusArg (.e (sv (nv 1)))) ∧
    ok ((sm (m1 3.14 0 1)).plusArg (.e (sv (nv 1))) >>= Expr.check) := by decide +kernel
/-- Plus5 -/
example : panics ((sm bad).plusArg (.e (sm bad))) := by decide +kernel
/-- Plus6 -/
example : panics ((sm (m1 3.14 0 1)).plusArg (.e (sv badVar))) := by decide +kernel
/-- Plus7 -/
example : panics ((sm (m1 3.14 0 1)).plusArg .other) := by decide +kernel
/-- Plus8 -/
example : polyLen 3 ((sm (m1 3.14 0 1)).plusArg (.e (sp ⟨[m1 3.14 1 1, kToMono 3.14]⟩))) ∧
    ok ((sm (m1 3.14 0 1)).plusArg (.e (sp ⟨[m1 3.14 1 1, kToMono 3.14]⟩)) >>= Expr.check) := by
  decide +kernel
/-- Minus1 -/
example : panicsWith .check ((sm bad).minusArg (.e (sm bad))) := by decide +kernel
/-- Minus2 -/
example : panics ((sm (m1 3.14 0 1)).minusArg (.e (sv badVar))) := by decide +kernel
/-- Minus3 -/
example : polyLen 2 ((sm (m1 3.14 0 2)).minusArg (.f64 3.14)) := by decide +kernel
/-- Minus4 -/
example : panicsWith .unsupported ((sm (m1 3.14 0 1)).minusArg .other) := by decide +kernel
/-- Multiply1 -/
example : panics ((sm bad).mulArg (.e (sm bad))) := by decide +kernel
/-- Multiply2 -/
example : panics ((sm (m1 3.14 0 1)).mulArg (.e (sv badVar))) := by decide +kernel
/-- Multiply3 -/
example : panics ((sm (m1 3.14 0 1)).mulArg .other) := by decide +kernel
/-- Multiply4 -/
example : gives (sm (m1 (3.14 * 3.14) 0 2)) ((sm (m1 3.14 0 2)).mulArg (.f64 3.14)) := by
  decide +kernel
/-- Multiply5 -/
example : polyLen 2 ((sm (m2 3.14 0 1 1 2)).mulArg (.e (sp ⟨[m1 3.14 0 1, kToMono 3.14]⟩))) := by
  decide +kernel
/-- Transpose1 -/
example : panics (sm bad).transpose := by decide +kernel
/-- Transpose2 -/
example : gives (sm (m1 3.14 0 1)) (sm (m1 3.14 0 1)).transpose := by decide +kernel
/-- LessEq1 -/
example : panics ((sm bad).comparisonArg (.e (sm bad)) .le) := by decide +kernel
/-- LessEq2 -/
example : hasSense .Scalar .le ((sm (m1 3.14 0 1)).comparisonArg (.f64 3.14) .le) := by
  decide +kernel
/-- GreaterEq1 -/
example : panics ((sm (m1 3.14 0 1)).comparisonArg (.e (sv badVar)) .ge) := by decide +kernel
/-- GreaterEq2 -/
example : hasSense .Scalar .ge ((sm (m1 3.14 0 1)).comparisonArg (.e (sv (nv 0))) .ge) := by
  decide +kernel
/-- Eq1 -/
example : hasSense .Scalar .eq ((sm (m1 3.14 0 1)).comparisonArg (.e (sp (np 0))) .eq) := by
  decide +kernel
/-- Eq2 -/
example : hasSense .Scalar .eq ((sm (m1 3.14 0 1)).comparisonArg (.e (sm (nm 0))) .eq) := by
  decide +kernel
/-- Comparison1 -/
example : panics ((sm (m1 3.14 0 1)).comparisonArg .other .eq) := by decide +kernel
/-- Constant1 -/
example : (m1 3.14 0 1).constant = 0 := by decide +kernel
/-- Constant2 -/
example : (m0 3.14).constant = 3.14 := by decide +kernel
/-- LinearCoeff1 -/
example : gives [0, 0] ((m2 3.14 0 1 1 2).linearCoeff []) := by decide +kernel
/-- LinearCoeff2 -/
example : gives [3.14] ((m1 3.14 0 1).linearCoeff []) := by decide +kernel
/-- LinearCoeff3 -/
example : gives [0, 0, 0, 3.14, 0] ((m1 3.14 3 1).linearCoeff [[nv 0, nv 1, nv 2, nv 3, nv 4]]) := by
  decide +kernel
/-- LinearCoeff4 -/
example : panics (Mono.linearCoeff ⟨3.14, [1], [nv 0, nv 1]⟩ []) := by decide +kernel
/-- LinearCoeff5 -/
example : panicsWith .tooManyInputs
    ((m1 3.14 0 1).linearCoeff [(List.range 5).map nv, (List.range 5).map (fun i => nv (5 + i))]) := by
  decide +kernel
/-- IsConstant1 -/
example : gives false (m1 3.14 0 1).isConstantCall := by decide +kernel
/-- IsConstant2 -/
example : panics bad.isConstantCall := by decide +kernel
/-- IsDegreeOneContainingVariable1 -/
example : gives false ((m1 3.14 1 1).isDegreeOne (nv 0)) := by decide +kernel
/-- IsDegreeOneContainingVariable2 -/
example : panics (bad.isDegreeOne (nv 1)) := by decide +kernel
/-- IsDegreeOneContainingVariable3 -/
example : panics ((m1 3.14 0 1).isDegreeOne badVar) := by decide +kernel
/-- DerivativeWrt1 -/
example : panics ((sm bad).derivative (nv 1)) := by decide +kernel
/-- DerivativeWrt2 -/
example : gives (sk 3.14) ((sm (m1 3.14 0 1)).derivative (nv 0)) := by decide +kernel
/-- DerivativeWrt3 -/
example : gives (sk 0) ((sm (m1 3.14 1 1)).derivative (nv 0)) := by decide +kernel
/-- DerivativeWrt4 -/
example : gives (sm (m1 (3.14 * 2) 0 1)) ((sm (m1 3.14 0 2)).derivative (nv 0)) := by decide +kernel
/-- DerivativeWrt5 -/
example : gives (sm (m1 3.14 1 2)) ((sm (m2 3.14 0 1 1 2)).derivative (nv 0)) := by decide +kernel
/-- String1 -/
example : returns (fun s => contains (nv 0).name.toList s && contains (nv 1).name.toList s)
    ((m2 3.14 0 1 1 2).chars fmt) := by decide +kernel
/-- String2 -/
example : panics (bad.chars fmt) := by decide +kernel
/-- At1 -/
example : gives (.mono (m2 3.14 0 1 1 2)) ((sm (m2 3.14 0 1 1 2)).at 0 0) := by decide +kernel
/-- AsSimplifiedExpression1 -/
example : panics bad.asSimplified := by decide +kernel
/-- AsSimplifiedExpression2 -/
example : gives (.mono (m1 3.14 0 2)) (m1 3.14 0 2).asSimplified := by decide +kernel
/-- AsSimplifiedExpression3 -/
example : gives (.k 3.14) (m1 3.14 0 0).asSimplified := by decide +kernel
/-- AsSimplifiedExpression4 -/
example : gives (.k 3.14) (m0 3.14).asSimplified := by decide +kernel
/-- AsSimplifiedExpression5 -/
example : gives (.k 0) (m1 0 0 2).asSimplified := by decide +kernel
/-- AsSimplifiedExpression6 -/
example : gives (.var (nv 0)) (m1 1 0 1).asSimplified := by decide +kernel

end Verif.Tests.Monomial
