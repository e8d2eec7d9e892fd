import Verif.Tests.Base

/-!
# `/repo/testing/symbolic/constant_test.go` on the model

Numbers that the tests compare up to a tolerance are compared exactly, over the rationals.
-/

namespace Verif.Tests.Constant

def k : Expr ℚ := sk 3.14
/-- `Variable{Lower: 1, Upper: 0}` -/
def bad : Expr ℚ := sv ⟨0, 1, 0, 0, "", 0⟩

/-- ToMonomial1 -/
example : kToMono (3.14 : ℚ) = ⟨3.14, [], []⟩ := by decide +kernel
/-- Check1 -/
example : ok k.check := by decide +kernel
/-- Variables1 -/
example : gives [] k.variables := by decide +kernel
/-- Constant1 -/
example : hasConst 3.14 (pure k) := by decide +kernel
/-- LinearCoeff1 -/
example : panicsWith .linCoeffConst ((Scalar.k (3.14 : ℚ)).linearCoeff []) := by decide +kernel
/-- LinearCoeff2 -/
example : gives [0, 0] ((Scalar.k 3.14).linearCoeff [[nv 0, nv 1]]) := by decide +kernel
/-- Plus1 -/
example : gives (sk 5.85) (k.plusArg (.e (sk 2.71))) := by decide +kernel
/-- Plus2 -/
example : gives (sk 5.85) (k.plusArg (.f64 2.71)) := by decide +kernel
/-- Plus3 -/
example : panicsWith .check (k.plusArg (.e bad)) := by decide +kernel
/-- Plus4 -/
example : returns (fun e => decide (ty e = .Polynomial) && (monos e).length == 2 &&
    ((monos e).filter Mono.isConstant).map (·.coeff) == [3.14] &&
    ((monos e).filter (!·.isConstant)).map (·.vars.length) == [1]) (k.plusArg (.e (sv (nv 0)))) := by
  decide +kernel
/-- Plus5 -/
example : gives (sk 4.14) (k.plusArg (.e (sm (m0 1)))) := by decide +kernel
/-- Plus6 -/
example : returns (fun e => decide (ty e = .Polynomial) && (monos e).length == 2 &&
    ((monos e).filter Mono.isConstant).map (·.coeff) == [4.14] &&
    ((monos e).filter (!·.isConstant)).map (·.vars.length) == [1])
    (k.plusArg (.e (sp ⟨[nm 0, m0 1]⟩))) := by decide +kernel
/-- Plus7 -/
example : gives (vk [4.14, 4.14, 4.14, 4.14]) (k.plusArg (.vec (ones 4))) := by decide +kernel
/-- Plus8 -/
example : gives (vk [4.14, 4.14, 4.14, 4.14]) (k.plusArg (.vecPtr (ones 4))) := by decide +kernel
/-- Plus9 -/
example : gives (vk [4.14, 4.14, 4.14, 4.14]) (k.plusArg (.e (vk (vecDenseToKVector (ones 4))))) := by
  decide +kernel
/-- Plus10 -/
example : returns (fun
    | .v (.p l) => l.length == 5 && l.all (fun p => p.monos.length == 2 && p.constantIndex.isSome)
    | _ => false) (k.plusArg (.e (vp ((nvs 0 5).map Var.toPoly)))) := by decide +kernel
/-- Plus11 -/
example : panicsWith .unsupported (k.plusArg .other) := by decide +kernel
/-- Plus12 -/
example : gives (sk 5.14) (k.plusArg (.int 2)) := by decide +kernel
/-- Minus1 -/
example : gives (sk 0.43) (k.minusArg (.e (sk 2.71))) := by decide +kernel
/-- Minus2 -/
example : gives (sk 0.43) (k.minusArg (.f64 2.71)) := by decide +kernel
/-- Minus3 -/
example : panicsWith .unsupported (k.minusArg .other) := by decide +kernel
/-- Minus4 -/
example : gives (sk 1.14) (k.minusArg (.f64 2)) := by decide +kernel
/-- Minus5 -/
example : panicsWith .check (k.minusArg (.e bad)) := by decide +kernel
/-- LessEq1 -/
example : gives (.s ⟨.k 3.14, .var (nv 0), .le⟩) (k.comparisonArg (.e (sv (nv 0))) .le) := by
  decide +kernel
/-- LessEq2 -/
example : panicsWith .check (k.comparisonArg (.e bad) .le) := by decide +kernel
/-- GreaterEq1 -/
example : gives (.v ⟨.k [3.14, 3.14, 3.14, 3.14], .k (ones 4), .ge⟩)
    (k.comparisonArg (.vec (ones 4)) .ge) := by decide +kernel
/-- GreaterEq2 -/
example : gives (.v ⟨.k [3.14, 3.14, 3.14, 3.14], .v (nvs 0 4), .ge⟩)
    (k.comparisonArg (.e (vv (nvs 0 4))) .ge) := by decide +kernel
/-- Eq1 -/
example : gives (.s ⟨.k 3.14, .mono (m0 2.71), .eq⟩) (k.comparisonArg (.e (sm (m0 2.71))) .eq) := by
  decide +kernel
/-- Comparison1 -/
example : panicsWith .unsupported (k.comparisonArg .other .eq) := by decide +kernel
/-- Comparison2 -/
example : gives (.s ⟨.k 3.14, .k 2.71, .eq⟩) (k.comparisonArg (.f64 2.71) .eq) := by decide +kernel
/-- Comparison3 -/
example : gives (.v ⟨.k [3.14, 3.14, 3.14, 3.14], .k (ones 4), .eq⟩)
    (k.comparisonArg (.vecPtr (ones 4)) .eq) := by decide +kernel
/-- Multiply1 -/
example : panicsWith .check (k.mulArg (.e (sm ⟨2.71, [1], []⟩))) := by decide +kernel
/-- Multiply2 -/
example : gives (sk 6.28) (k.mulArg (.int 2)) := by decide +kernel
/-- Multiply3 -/
example : panicsWith .unsupported (k.mulArg .other) := by decide +kernel
/-- Transpose1 -/
example : gives k k.transpose := by decide +kernel
/-- DerivativeWrt1 -/
example : gives (sk 0) (k.derivative (nv 0)) := by decide +kernel
/-- Substitute1 -/
example : gives k (k.substitute (nv 0) (.var (nv 1))) := by decide +kernel
/-- Substitute2 -/
example : gives k (k.substitute (nv 0) (.k 2.71)) := by decide +kernel
/-- SubstituteAccordingTo1 -/
example : gives k (do
    let s ← (Scalar.var (nv 1)).minus (.k 1)
    k.substMap [(nv 0, s)]) := by decide +kernel

end Verif.Tests.Constant
