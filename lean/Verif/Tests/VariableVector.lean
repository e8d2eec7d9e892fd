import Verif.Tests.Base

/-!
# `/repo/testing/symbolic/variable_vector_test.go` on the model

Vectors of length 111 are shortened to length 11, and the invalid entry moves from 100 to 7.
-/

namespace Verif.Tests.VariableVector

def x : Expr ℚ := vv (nvs 0 11)
def bad : Expr ℚ := vv (nvs 0 7 ++ badVar :: nvs 8 3)

/-- Len1 -/
example : gives 111 (Vec.len (.v (nvs 0 111))) := by decide +kernel
/-- AtVec1 -/
example : (List.range 11).all (fun i => returns (fun e => e = .var (nv i))
    (Vec.atVec (.v (nvs 0 11)) i)) := by decide +kernel
/-- Variables1 -/
example : gives 111 (numVariables (vv (nvs 0 111))) := by decide +kernel
/-- Constant1 -/
example : gives (List.replicate 111 0) (Vec.constant (.v (nvs 0 111))) := by decide +kernel
/-- LinearCoeff1 -/
example : gives (identityRows 11) (Vec.linearCoeff (.v (nvs 0 11)) []) := by decide +kernel
/-- LinearCoeff2 -/
example : gives ((List.range 11).map (fun i => if i % 2 = 0 then [1, 0] else [0, 1]))
    (Vec.linearCoeff (.v ((List.range 11).map (fun i => nv (i % 2)))) []) := by decide +kernel
/-- Plus1 -/
example : panicsWith .dimension (x.plusArg (.e (vv (nvs 11 5)))) := by decide +kernel
/-- Plus2 -/
example : panicsWith .check (bad.plusArg (.e (vv (nvs 20 11)))) := by decide +kernel
/-- Plus3 -/
example : panicsWith .check (x.plusArg (.e bad)) := by decide +kernel
/-- Plus4 -/
example : hasTy .PolynomialVector (x.plusArg (.e (vk (ones 11)))) := by decide +kernel
/-- Plus5, Plus6 -/
example : hasTy .PolynomialVector (x.plusArg (.vec (ones 11))) := by decide +kernel
/-- Plus7 -/
example : panicsWith .unsupported (x.plusArg .other) := by decide +kernel
/-- Minus1 -/
example : panicsWith .check ((vv [badVar]).minusArg (.e (vv [badVar]))) := by decide +kernel
/-- Minus2 -/
example : panicsWith .dimension (x.minusArg (.e (vv (nvs 11 10)))) := by decide +kernel
/-- Minus3 -/
example : panicsWith .check (x.minusArg (.e (vv [badVar]))) := by decide +kernel
/-- Minus4 -/
example : hasTy .PolynomialVector (x.minusArg (.e (vv (nvs 11 11)))) := by decide +kernel
/-- Multiply1 -/
example : panicsWith .check (bad.mulArg (.e (sk 3.14))) := by decide +kernel
/-- Multiply2 -/
example : panicsWith .check (x.mulArg (.e (vv [badVar]))) := by decide +kernel
/-- Multiply3 -/
example : panicsWith .dimension (x.mulArg (.e (vv (nvs 11 5)))) := by decide +kernel
/-- Multiply4 -/
example : returns (fun e => ty e = .MonomialVector ∧ coeffs e = [List.replicate 11 3.14])
    (x.mulArg (.e (sk 3.14))) := by decide +kernel
/-- Multiply5 -/
example : panicsWith .unsupported (x.mulArg .other) := by decide +kernel
/-- Multiply6 -/
example : returns (fun e => ty e = .MonomialVector ∧ coeffs e = [List.replicate 11 1])
    (x.mulArg (.e (sp (np 11)))) := by decide +kernel
/-- Multiply7 -/
example : returns (fun e => ty e = .MonomialVector ∧ coeffs e = [List.replicate 11 1])
    (do x.mulArg (.e (vp (← vvToPolyVec (nvs 11 1))))) := by decide +kernel
/-- Multiply8 -/
example : hasTy .Polynomial (do
    let v := vv (nvs 0 1)
    let q ← (← (← v.transpose).mulArg (.e (mk (← identity 1)))).mulArg (.e v)
    let l ← (← (vk (ones 1)).transpose).mulArg (.e v)
    (← q.plusArg (.e l)).plusArg (.f64 3.14)) := by decide +kernel
/-- Multiply9 -/
example : hasTy .Monomial ((vv (nvs 0 1)).mulArg (.e (sk 3.14))) := by decide +kernel
/-- Multiply10 -/
example : hasTy .MonomialVector ((vv (nvs 0 10)).mulArg (.e (sm (nm 10)))) := by decide +kernel
/-- Multiply11 -/
example : hasTy .Monomial ((vv (nvs 0 1)).mulArg (.e (sm (nm 1)))) := by decide +kernel
/-- Multiply12 -/
example : returns (fun
    | .v (.m l) => l.length == 11 && l.all (fun m => m.vars.any (fun v => v.id == 11))
    | _ => false) (x.mulArg (.e (sv (nv 11)))) := by decide +kernel
/-- Comparison1 -/
example : panicsWith .check (bad.comparisonArg (.e (sk 3.14)) .le) := by decide +kernel
/-- Comparison2 -/
example : panicsWith .check (x.comparisonArg (.e (vv [badVar])) .le) := by decide +kernel
/-- Comparison3 -/
example : panicsWith .dimension (x.comparisonArg (.e (vv (nvs 11 5))) .le) := by decide +kernel
/-- Comparison4 -/
example : panicsWith .unsupported (x.comparisonArg .other .le) := by decide +kernel
/-- LessEq1 -/
example : hasSides .le .VariableVector .KVector (x.comparisonArg (.vec (ones 11)) .le) := by
  decide +kernel
/-- GreaterEq1 -/
example : hasSides .ge .VariableVector .KVector (x.comparisonArg (.vec (ones 11)) .ge) := by
  decide +kernel
/-- Eq1 -/
example : hasSides .eq .VariableVector .PolynomialVector
    (do x.comparisonArg (.e (vp (← kvToPolyVec (ones 11)))) .eq) := by decide +kernel
/-- Copy1: lists are values; writing to a copy leaves the original -/
example : returns (fun l => ((l.set 7 (nv 11))[7]?.map (·.id), (nvs 0 11)[7]?.map (·.id)) =
    (some 11, some 7)) (vvCopy (nvs 0 11)) := by decide +kernel
/-- Transpose1 -/
example : hasDims 1 11 x.transpose := by decide +kernel
/-- Transpose2 -/
example : panicsWith .check bad.transpose := by decide +kernel
/-- String1 -/
example : returns (fun s => (List.range 11).all (fun i => contains (nv i).name.toList s))
    (x.chars fmt) := by decide +kernel
/-- Power1 -/
example : returns (fun e => sty e = .Monomial) (Vec.power (.v (nvs 0 1)) 2) := by decide +kernel

end Verif.Tests.VariableVector
