import Verif.Tests.Base

/-!
# `/repo/testing/symbolic/monomial_vector_test.go` on the model
-/

namespace Verif.Tests.MonomialVector

def x2 : Expr ℚ := vm [nm 0, nm 1]
def empty : Expr ℚ := vm []
def nms (i n : Nat) : Expr ℚ := vm ((nvs i n).map Var.toMono)
def p13 : Expr ℚ := mp [[np 2, np 3, np 4]]

/-- Check1 -/
example : panicsWith .check empty.check := by decide +kernel
/-- Check2 -/
example : panicsWith .check (vm [⟨1, [1, 2], [nv 0]⟩]).check := by decide +kernel
/-- Check3 -/
example : ok (vm [m0 3.14]).check := by decide +kernel
/-- Variables1 -/
example : panicsWith .check empty.variables := by decide +kernel
/-- Variables2 -/
example : gives 2 (numVariables (vm [m1 1 0 1, m1 1 1 1])) := by decide +kernel
/-- Variables3 -/
example : gives 1 (numVariables (vm [m1 1 0 1, m1 1 0 1])) := by decide +kernel
/-- Len1 -/
example : gives 2 (Vec.len (.m [m1 1 0 1, m1 1 0 1])) := by decide +kernel
/-- Dims1 -/
example : hasDims 2 1 (pure (vm [m1 1 0 1, m1 1 0 1])) := by decide +kernel
/-- Constant1 -/
example : panics (Vec.constant (.m ([] : List (Mono ℚ)))) := by decide +kernel
/-- Constant2 -/
example : gives [0, 0, 0, 0] (Vec.constant (.m [m1 1 2 4, m1 1 0 1, m2 1 0 1 1 1,
    ⟨1, [1, 1, 1, 1], nvs 0 4⟩])) := by decide +kernel
/-- Constant3 -/
example : gives [3.14, 3.14, 0, 0] (Vec.constant (.m [m0 3.14, m0 3.14, m2 1 0 1 1 1,
    ⟨1, [1, 1, 1, 1], nvs 0 4⟩])) := by decide +kernel
/-- Plus1 -/
example : panics (empty.plusArg (.f64 3.14)) := by decide +kernel
/-- Plus2 -/
example : panics (x2.plusArg (.e (mm []))) := by decide +kernel
/-- Plus3 -/
example : panicsWith .dimension (x2.plusArg (.e p13)) := by decide +kernel
/-- Plus4 -/
example : returns (fun
    | .v (.m l) => l.all (fun m => m.vars.length == 1 && m.exps == [1])
    | _ => false) (x2.plusArg (.e x2)) := by decide +kernel
/-- Plus5 -/
example : panicsWith .check (x2.plusArg (.e (mm []))) := by decide +kernel
/-- Plus6 -/
example : hasTy .KVector (do
    (vm (← kvToMonoVec [1, 2, 3, 4, 5])).plusArg (.e (sk 3.14))) := by decide +kernel
/-- Plus7 -/
example : returns (fun
    | .v (.p l) => l.all (fun p => p.monos.length == 2)
    | _ => false) ((nms 0 10).plusArg (.e (sk 3.14))) := by decide +kernel
/-- Plus8 -/
example : panics ((nms 0 10).plusArg .other) := by decide +kernel
/-- Plus9 -/
example : hasTy .MonomialVector (x2.plusArg (.e x2)) := by decide +kernel
/-- Plus10 -/
example : hasTy .PolynomialVector (x2.plusArg (.e (vm [nm 0, nm 0]))) := by decide +kernel
/-- Plus11 -/
example : hasTy .MonomialVector ((vm [nm 0, nm 0]).plusArg (.e (sm (nm 0)))) := by decide +kernel
/-- Plus12 -/
example : hasTy .PolynomialVector ((vm [nm 0, nm 0]).plusArg (.e (sm (nm 1)))) := by
  decide +kernel
/-- Minus1 -/
example : panics (empty.minusArg (.f64 3.14)) := by decide +kernel
/-- Minus2 -/
example : panics (x2.minusArg (.e (mm []))) := by decide +kernel
/-- Minus3 -/
example : panicsWith .dimension (x2.minusArg (.e p13)) := by decide +kernel
/-- Minus4 -/
example : returns (fun
    | .v (.p l) => l.all (fun p => p.monos.length == 2 &&
        p.monos.all (fun m => m.isConstant || (m.vars == [nv 0] && m.exps == [1])))
    | _ => false) ((vm [nm 0, nm 0]).minusArg (.f64 3.14)) := by decide +kernel
/-- Minus5 -/
example : returns (fun
    | .v (.p l) => l.map (fun p => (p.monos.length,
        (p.monos.filter (·.isConstant)).map (·.coeff))) == [(2, [-1]), (2, [-2])]
    | _ => false) (x2.minusArg (.vecPtr [1, 2])) := by decide +kernel
/-- Multiply1 -/
example : panics (empty.mulArg (.f64 3.14)) := by decide +kernel
/-- Multiply2 -/
example : panics (x2.mulArg (.e (mm []))) := by decide +kernel
/-- Multiply3 -/
example : panics (x2.mulArg (.e (mm [[nm 2, nm 3, nm 4], [nm 5, nm 6, nm 7]]))) := by
  decide +kernel
/-- Multiply4 -/
example : returns (fun e => ty e = .MonomialVector ∧ coeffs e = [[3.14, 3.14]])
    (x2.mulArg (.f64 3.14)) := by decide +kernel
/-- Multiply5 -/
example : panics (x2.mulArg .other) := by decide +kernel
/-- Transpose1 -/
example : panics empty.transpose := by decide +kernel
/-- Transpose2 -/
example : hasTy .MonomialMatrix (vm [nm 0, nm 1, nm 2]).transpose ∧
    hasDims 1 3 (vm [nm 0, nm 1, nm 2]).transpose := by decide +kernel
/-- LessEq1 -/
example : hasCTy .Vector ((nms 0 4).comparisonArg (.e (vk [1, 2, 3, 4])) .le) ∧
    gives (4, 1) (do ((← (nms 0 4).comparisonArg (.e (vk [1, 2, 3, 4])) .le)).left.dims) := by
  decide +kernel
/-- GreaterEq1 -/
example : hasCTy .Vector ((nms 0 5).comparisonArg (.e (sk 3.14)) .ge) ∧
    gives (5, 1) (do ((← (nms 0 5).comparisonArg (.e (sk 3.14)) .ge)).right.dims) := by
  decide +kernel
/-- Eq1 -/
example : panics (empty.comparisonArg (.f64 3.14) .eq) := by decide +kernel
/-- Eq2 -/
example : hasSides .eq .MonomialVector .VariableVector
    ((nms 0 5).comparisonArg (.e (vv (nvs 0 5))) .eq) := by decide +kernel
/-- Comparison1 -/
example : panics ((nms 0 10).comparisonArg .other .le) := by decide +kernel
/-- Comparison2 -/
example : hasSides .le .MonomialVector .MonomialVector
    ((nms 0 10).comparisonArg (.e (nms 10 10)) .le) := by decide +kernel
/-- Derivative1 -/
example : panics (empty.derivative (nv 0)) := by decide +kernel
/-- Derivative2 -/
example : gives (vk [0, 0]) ((vm [m1 3.14 0 1, m1 3.14 1 1]).derivative (nv 2)) := by
  decide +kernel
/-- Derivative3 -/
example : gives (vk [3.14, 3.14]) ((vm [m1 3.14 0 1, m1 3.14 0 1]).derivative (nv 0)) := by
  decide +kernel
/-- Derivative4 -/
example : gives (vk [3.14, 0]) ((vm [m1 3.14 0 1, m1 3.14 1 1]).derivative (nv 0)) := by
  decide +kernel
/-- Degree1 -/
example : panicsWith .check empty.degree := by decide +kernel
/-- Degree2 -/
example : gives 2 (vm [m1 3.14 0 2, m1 3.14 1 1]).degree := by decide +kernel
/-- Power1 -/
example : panics (Vec.power (.m ((nvs 0 10).map Var.toMono)) 3) := by decide +kernel
/-- Power2 -/
example : gives (.mono (m1 (3.14 ^ 3) 0 3)) (Vec.power (.m [m1 3.14 0 1]) 3) := by decide +kernel
/-- LinearCoeff1 -/
example : gives (List.replicate 11 [0, 0]) (Vec.linearCoeff
    (.m ((List.range 11).map (fun i => m2 3.14 0 1 1 (i + 1)))) []) := by decide +kernel
/-- AsSimplifiedExpression1 -/
example : panics empty.asSimplified := by decide +kernel
/-- AsSimplifiedExpression2 -/
example : gives (vk [3.14, 2.71, 1.41]) (vm [m0 3.14, m0 2.71, m0 1.41]).asSimplified := by
  decide +kernel

end Verif.Tests.MonomialVector
