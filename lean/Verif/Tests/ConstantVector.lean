import Verif.Tests.Base

/-!
# `/repo/testing/symbolic/constant_vector_test.go` on the model
-/

namespace Verif.Tests.ConstantVector

def kv (n : Nat) : Expr ℚ := vk (vecDenseToKVector (ones n))

/-- Len1 -/
example : gives 0 (Vec.len (.k ([] : List ℚ))) := by decide +kernel
/-- Len2 -/
example : gives 101 (Vec.len (.k (vecDenseToKVector (ones 101)))) := by decide +kernel
/-- Check1 -/
example : ok (kv 3).check := by decide +kernel
/-- AtVec1 -/
example : gives (.k 1) (Vec.atVec (.k (ones 3)) 0) := by decide +kernel
/-- AtVec2 -/
example : panics (Vec.atVec (.k (ones 3)) 3) := by decide +kernel
/-- Variables1 -/
example : gives [] (kv 3).variables := by decide +kernel
/-- LinearCoeff1 -/
example : gives (List.replicate 11 (List.replicate 13 0))
    (Vec.linearCoeff (.k (ones 11)) [nvs 0 13]) := by decide +kernel
/-- Constant1 -/
example : gives (ones 11) (Vec.constant (.k (ones 11))) := by decide +kernel
/-- Plus1 -/
example : panicsWith .dimension ((kv 3).plusArg (.e (kv 4))) := by decide +kernel
/-- Plus2 -/
example : panicsWith .check ((kv 3).plusArg (.e (vv [⟨1001, 0, -1, 0, "", 0⟩, nv 1, nv 2]))) := by
  decide +kernel
/-- Plus3 -/
example : gives (vk [4.14, 4.14, 4.14]) ((kv 3).plusArg (.f64 3.14)) := by decide +kernel
/-- Plus4 -/
example : gives (vk [4.14, 4.14, 4.14]) ((kv 3).plusArg (.e (sk 3.14))) := by decide +kernel
/-- Plus5, Plus6 -/
example : gives (vk [4.14, 3.71, 2.41]) ((kv 3).plusArg (.vecPtr [3.14, 2.71, 1.41])) := by
  decide +kernel
/-- Plus7 -/
example : gives (vk [4.14, 3.71, 2.41]) (do
    (kv 3).plusArg (.e (vm (← kvToMonoVec [3.14, 2.71, 1.41])))) := by decide +kernel
/-- Plus8 -/
example : returns (fun
    | .v (.p l) => l.map (·.monos.length) == [2, 2, 2]
    | _ => false) ((kv 3).plusArg (.e (vp [⟨[m1 3.14 0 1]⟩, ⟨[m1 2.71 1 1]⟩, ⟨[m1 1.41 2 1]⟩]))) := by
  decide +kernel
/-- Plus9 -/
example : panics ((kv 3).plusArg .other) := by decide +kernel
/-- Plus10 -/
example : hasTy .K ((kv 1).plusArg (.f64 3.14)) := by decide +kernel
/-- LessEq1 -/
example : panicsWith .dimension ((kv 3).comparisonArg (.e (kv 4)) .le) := by decide +kernel
/-- GreaterEq1 -/
example : hasSides .ge .KVector .VariableVector ((kv 5).comparisonArg (.e (vv (nvs 0 5))) .ge) := by
  decide +kernel
/-- Eq1 -/
example : hasSides .eq .KVector .KVector ((kv 5).comparisonArg (.vecPtr [1, 1, 1, 1, 1]) .eq) := by
  decide +kernel
/-- Comparison1 -/
example : panicsWith .unsupported ((kv 3).comparisonArg .other .eq) := by decide +kernel
/-- Comparison2 -/
example : hasSides .eq .KVector .KVector ((kv 3).comparisonArg (.f64 3.14) .eq) := by decide +kernel
/-- Comparison3 -/
example : gives (.v ⟨.k (ones 3), .k [3, 3, 3], .eq⟩) ((kv 3).comparisonArg (.int 3) .eq) := by
  decide +kernel
/-- Comparison4 -/
example : gives (.v ⟨.k (ones 3), .k [3, 3, 3], .eq⟩) ((kv 3).comparisonArg (.e (sk 3)) .eq) := by
  decide +kernel
/-- Multiply1 -/
example : panicsWith .unsupported ((kv 3).mulArg .other) := by decide +kernel
/-- Multiply2 -/
example : panicsWith .dimension ((kv 3).mulArg (.e (vv (nvs 0 4)))) := by decide +kernel
/-- Multiply3 -/
example : panics ((kv 3).mulArg (.e (vp []))) := by decide +kernel
/-- Multiply4 -/
example : panics ((kv 3).mulArg .other) := by decide +kernel
/-- Multiply5 -/
example : gives (vk [3.14, 3.14, 3.14]) ((kv 3).mulArg (.f64 3.14)) := by decide +kernel
/-- Multiply6 -/
example : gives (vk [3.14, 3.14, 3.14]) ((kv 3).mulArg (.vecPtr [3.14])) := by decide +kernel
/-- Multiply7 -/
example : returns (fun e => decide (e = vm [m1 3.14 0 1, m1 3.14 0 1, m1 3.14 0 1])) (do
    (← (kv 3).mulArg (.f64 3.14)).mulArg (.e (vv [nv 0]))) := by decide +kernel
/-- Multiply8 -/
example : hasTy .K ((kv 1).mulArg (.f64 3.14)) := by decide +kernel
/-- Multiply9 -/
example : hasTy .Variable ((kv 1).mulArg (.e (sv ⟨1001, 0, 1, 0, "dummy", 0⟩))) := by decide +kernel
/-- Multiply10 -/
example : hasTy .Monomial ((kv 1).mulArg (.e (sm (m1 3.14 0 1)))) := by decide +kernel
/-- Multiply11 -/
example : hasTy .Monomial ((kv 1).mulArg (.e (sp ⟨[m1 3.14 0 1]⟩))) := by decide +kernel
/-- Multiply12 -/
example : hasTy .MonomialVector ((kv 10).mulArg (.e (sm (m1 3.14 0 1)))) := by decide +kernel
/-- Multiply13 -/
example : returns (fun
    | .v (.m l) => l.all (fun m => m.vars.length == 1)
    | _ => false) ((kv 10).mulArg (.e (sp ⟨[m1 3.14 0 1]⟩))) := by decide +kernel
/-- AsSimplifiedExpression1 -/
example : gives (kv 3) (kv 3).asSimplified := by decide +kernel

end Verif.Tests.ConstantVector
