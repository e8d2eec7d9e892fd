import Verif.Tests.Base

/-!
# `/repo/testing/symbolic/polynomial_test.go` on the model
-/

namespace Verif.Tests.Polynomial

/-- Check1 -/
example : panicsWith .check badPoly.check := by decide +kernel
/-- Check2 -/
example : panicsWith .check (Poly.check ⟨[⟨1, [1, 2], [nv 0]⟩]⟩) := by decide +kernel
/-- Check3 -/
example : ok (Poly.check ⟨[m1 1 0 1]⟩) := by decide +kernel
/-- Check4 -/
example : panicsWith .check (Poly.check ⟨[m1 1 0 1, ⟨1, [1, 2], [nv 1]⟩]⟩) := by decide +kernel
/-- Variables1 -/
example : gives 0 (numVariables (sp ⟨[m0 3.14]⟩)) := by decide +kernel
/-- Variables2 -/
example : gives [0] (variableIDs (sp ⟨[m1 1 0 1]⟩)) := by decide +kernel
/-- Variables3 -/
example : gives [0, 1, 2] (variableIDs (sp ⟨[⟨1, [1, 2, 3], [nv 0, nv 1, nv 2]⟩]⟩)) := by
  decide +kernel
/-- Variables4 -/
example : gives [0, 1, 2] (variableIDs (sp ⟨[⟨1, [1, 2, 3], [nv 0, nv 1, nv 2]⟩,
    ⟨1, [5, 6, 7], [nv 0, nv 1, nv 2]⟩]⟩)) := by decide +kernel
/-- Dims1 -/
example : gives (1, 1) (sp ⟨[m1 1 0 1, m1 1 1 1, m1 1 2 1]⟩).dims := by decide +kernel
/-- Plus1 (the sum is 5.85 also in `float64`) -/
example : gives (sk 5.85) ((sp ⟨[m0 3.14]⟩).plusArg (.e (sk 2.71))) := by decide +kernel
/-- Plus2 -/
example : panics ((sp badPoly).plusArg (.e (sp badPoly))) := by decide +kernel
/-- Plus3 -/
example : gives (sm (m1 3 0 1)) ((sp ⟨[m1 2 0 1]⟩).plusArg (.e (sv (nv 0)))) := by decide +kernel
/-- Plus4 -/
example : panics ((sp (np 0)).plusArg .other) := by decide +kernel
/-- Plus5 -/
example : panics ((sp (np 0)).plusArg (.e (sp badPoly))) := by decide +kernel
/-- Plus6 -/
example : hasTy .Polynomial ((sp (np 0)).plusArg (.e (vk [3.14]))) := by decide +kernel
/-- Plus7 -/
example : hasTy .PolynomialVector ((sp (np 0)).plusArg (.e (vp [np 1, np 2, np 3]))) ∧
    hasDims 3 1 ((sp (np 0)).plusArg (.e (vp [np 1, np 2, np 3]))) := by decide +kernel
/-- Plus8 -/
example : hasTy .Polynomial ((sp (np 0)).plusArg (.e (mk [[3.14]]))) := by decide +kernel
/-- Plus9 -/
example : hasTy .PolynomialMatrix ((sp (np 0)).plusArg (.e (mk [[3.14, 2.71, 1, 0]]))) ∧
    hasDims 1 4 ((sp (np 0)).plusArg (.e (mk [[3.14, 2.71, 1, 0]]))) := by decide +kernel
/-- Minus1 -/
example : panics ((sp badPoly).minusArg (.e (sp badPoly))) := by decide +kernel
/-- Minus2 -/
example : panics ((sp (np 0)).minusArg (.e (sm badMono))) := by decide +kernel
/-- Minus3 -/
example : polyLen 2 ((sp ⟨[m1 1 0 1]⟩).minusArg (.e (sv (nv 1)))) := by decide +kernel
/-- Minus4 -/
example : polyLen 2 ((sp (np 0)).minusArg (.f64 3.14)) := by decide +kernel
/-- Minus5 -/
example : panics ((sp (np 0)).minusArg .other) := by decide +kernel
/-- ConstantMonomialIndex1 -/
example : panics badPoly.constantMonomialIndex := by decide +kernel
/-- VariableMonomialIndex1 -/
example : gives (some 1) (Poly.variableIndex ⟨[m2 1 0 1 1 2, nm 1]⟩ (nv 1)) := by decide +kernel
/-- VariableMonomialIndex2 -/
example : panics (badPoly.variableIndex (nv 0)) := by decide +kernel
/-- VariableMonomialIndex3 -/
example : panics ((np 0).variableIndex badVar) := by decide +kernel
/-- MonomialIndex1 -/
example : gives 0 (Poly.monomialIndex ⟨[m2 1 0 1 1 2, nm 1]⟩ (m2 1 0 1 1 2)) := by decide +kernel
/-- MonomialIndex2 -/
example : panics (badPoly.monomialIndex (nm 0)) := by decide +kernel
/-- MonomialIndex3 -/
example : panics ((np 0).monomialIndex badMono) := by decide +kernel
/-- LinearCoeff1, LinearCoeff4 -/
example : panicsWith .linCoeffConst (Poly.linearCoeff ⟨[m0 3.14]⟩ []) := by decide +kernel
/-- LinearCoeff2 -/
example : gives [0, 0, 0]
    (Poly.linearCoeff ⟨[m1 1 0 2, m1 1 1 2, m2 1 0 2 1 1, m2 1 1 2 1 1]⟩ []) := by decide +kernel
/-- LinearCoeff3 -/
example : panics (badPoly.linearCoeff []) := by decide +kernel
/-- LinearCoeff5 -/
example : gives [0, 0] (Poly.linearCoeff ⟨[m0 3.14]⟩ [[nv 0, nv 1]]) := by decide +kernel
/-- LinearCoeff6 -/
example : gives [1, 1, 1, 0] (Poly.linearCoeff ⟨[m1 1 0 1, m1 1 1 1, m1 1 2 1, m1 3.14 3 2]⟩
    [[nv 0, nv 1, nv 2, nv 3]]) := by decide +kernel
/-- Multiply1, Multiply7 -/
example : panicsWith .check ((sp badPoly).mulArg (.e (sp badPoly))) := by decide +kernel
/-- Multiply2, Multiply4 -/
example : panics ((sp (np 0)).mulArg .other) := by decide +kernel
/-- Multiply3 -/
example : polyLen 2 ((sp ⟨[m1 1 0 1, m1 2 1 2]⟩).mulArg (.e (sp ⟨[m1 1 1 3]⟩))) := by
  decide +kernel
/-- Multiply5 -/
example : hasTy .Monomial ((sp (np 0)).mulArg (.f64 3.14)) ∧
    gives 1 ((sp (np 0)).mulArg (.f64 3.14) >>= numVariables) := by decide +kernel
/-- Multiply6 -/
example : polyLen 4 ((sp ⟨[nm 0, nm 1]⟩).mulArg (.e (sp ⟨[nm 2, nm 3]⟩))) := by decide +kernel
/-- Multiply8 -/
example : gives [[3.14, 2.71], [1, 0]]
    ((sp (np 0)).mulArg (.e (mk [[3.14, 2.71], [1, 0]])) >>= fun
      | .m (.m rows) => pure (rows.map (·.map (·.coeff)))
      | _ => throw .other) := by decide +kernel
/-- Transpose1 -/
example : gives (sp (np 0)) (sp (np 0)).transpose := by decide +kernel
/-- Transpose2 -/
example : panicsWith .check (sp badPoly).transpose := by decide +kernel
/-- LessEq1 -/
example : panics ((sp badPoly).comparisonArg (.e (sp badPoly)) .le) := by decide +kernel
/-- LessEq2 -/
example : hasCTy .Scalar ((sp (np 0)).comparisonArg (.f64 3.14) .le) := by decide +kernel
/-- GreaterEq1 -/
example : panics ((sp (np 0)).comparisonArg (.e (sv badVar)) .ge) := by decide +kernel
/-- GreaterEq2 -/
example : hasCTy .Scalar ((sp (np 0)).comparisonArg (.e (sm (nm 1))) .ge) := by decide +kernel
/-- Eq1 -/
example : panics ((sp (np 0)).comparisonArg .other .eq) := by decide +kernel
/-- Eq2 -/
example : hasCTy .Scalar ((sp (np 0)).comparisonArg (.e (sp (np 1))) .eq) := by decide +kernel
/-- Comparison1 -/
example : hasCTy .Scalar ((sp (np 0)).comparisonArg (.e (sv (nv 1))) .eq) := by decide +kernel
/-- Constant1 -/
example : gives 1 (Poly.constant ⟨[m0 1, m1 2 0 1]⟩) := by decide +kernel
/-- Constant2 -/
example : panics badPoly.constant := by decide +kernel
/-- Simplify1 -/
example : panics badPoly.simplify := by decide +kernel
/-- Simplify2 -/
example : gives ⟨[m0 0]⟩ (Poly.simplify ⟨[m0 0]⟩) := by decide +kernel
/-- DerivativeWrt1 -/
example : panics ((sp badPoly).derivative (nv 0)) := by decide +kernel
/-- DerivativeWrt2 -/
example : panicsWith .check ((sp (np 0)).derivative badVar) := by decide +kernel
/-- DerivativeWrt3 -/
example : gives (sk 0) ((sp ⟨[m1 1 0 1, m1 2 1 2]⟩).derivative (nv 2)) := by decide +kernel
/-- Degree1 -/
example : panics (sp badPoly).degree := by decide +kernel
/-- IsLinear1 -/
example : gives true (sp ⟨[m1 1 0 1, m1 1 1 1, m1 1 2 1]⟩).isLinear := by decide +kernel
/-- IsConstant1 -/
example : panics badPoly.isConstant := by decide +kernel
/-- IsConstant2 -/
example : gives true (Poly.isConstant ⟨[m0 3.14]⟩) := by decide +kernel
/-- Substitute1 -/
example : panics (badPoly.substitute (nv 0) (.var (nv 1))) := by decide +kernel
/-- Substitute2 -/
example : gives (.mono (m1 3 1 1)) (do
    let s ← (Scalar.var (nv 1)).mulF64 3
    Poly.substitute ⟨[m1 1 0 1]⟩ (nv 0) s) := by decide +kernel
/-- Substitute3 -/
example : panicsWith .check ((np 0).substitute badVar (.var (nv 1))) := by decide +kernel
/-- SubstituteWith4 -/
example : returns (fun r => decide (ty r = .Polynomial) &&
      (monos r).all (fun m => !m.isConstant || m.coeff == 3)) (do
    let x := (List.range 20).map nv
    let p ← (sk 1).plusArg (.e (← (← (vv x).transpose).mulArg (.vec (List.replicate 20 1))))
    p.substitute (nv 0) (.k 2)) := by decide +kernel
/-- SubstituteAccordingTo1 -/
example : (do
    let p ← (← (← (sk 3).mulArg (.e (sv (nv 0)))).minusArg
      (.e (← (sk 4).mulArg (.e (sv (nv 1)))))).plusArg (.e (sk 5))
    let sub1 ← p.substMap [(nv 0, .k 5)]
    let sub2 ← p.substMap [(newVarValue false 0 1, .k 5)]
    pure (decide (ty sub1 = .Polynomial) &&
      (monos sub1).any (fun m => m.isConstant && m.coeff == 20) &&
      (monos sub1).all (fun m => !m.isConstant || m.coeff == 20) &&
      (monos sub1).any (fun m => decide (m.vars = [nv 1]) && m.coeff == -4) &&
      decide (sub2 = p)) : Go Bool) = .ok true := by decide +kernel
/-- String1 -/
example : panics (badPoly.chars fmt) := by decide +kernel
/-- String2: the test asks for the signs only -/
example : gives "-2 x_0 - 4 x_1 + 5 x_2".toList (do
    let p ← (← (vv [nv 0, nv 1, nv 2]).transpose).mulArg (.vec [-2, -4, 5])
    if ty p = .Polynomial then p.chars fmt else throw .other) := by decide +kernel

end Verif.Tests.Polynomial
