import Verif.Tests.Base

/-!
# `/repo/testing/symbolic/constraint_test.go`, `constr_sense_test.go` on the model
-/

namespace Verif.Tests.Constraint

/-- IsConstraint1 -/
example : isConstraint (.other : ConArg ℚ) = false := by decide +kernel
/-- IsConstraint2 -/
example : isConstraint (.con (.s ⟨.var (nv 0), .mono (m2 1 0 1 1 2), .le⟩)) = true := by
  decide +kernel
/-- IsConstraint3 -/
example : isConstraint (.con (.v ⟨.v (nvs 0 11), .k (ones 11), .le⟩)) = true := by decide +kernel
/-- IsConstraint4 -/
example : isConstraint (.con (.m (⟨.k [[1, 0], [0, 1]], .k [[0, 0], [0, 0]], .ge⟩ : MCon ℚ))) =
    true := by decide +kernel
/-- IsConstraint5 -/
example : isConstraint (.ptr (some (.s ⟨.var (nv 0), .mono (m2 1 0 1 1 2), .le⟩))) = true := by
  decide +kernel
/-- IsConstraint6 -/
example : isConstraint (.ptr (some (.v ⟨.v (nvs 0 11), .k (ones 11), .le⟩))) = true := by
  decide +kernel
/-- IsConstraint7 -/
example : isConstraint (.ptr (some (.m (⟨.k [[1, 0], [0, 1]], .k [[0, 0], [0, 0]], .ge⟩ : MCon
    ℚ)))) = true := by decide +kernel
/-- VariablesInThisConstraint1 -/
example : returns (fun l => l.length = 5) (Con.s (⟨.mono ⟨1, [1, 2, 1], [nv 1, nv 2, nv 3]⟩, .mono
    ⟨1, [3, 1, 1], [nv 3, nv 4, nv 5]⟩, .eq⟩ : SCon ℚ)).variables := by decide +kernel
/-- CompileConstraintsIntoScalarConstraints1 -/
example : returns (fun l => l.length = 3) (do compileAll [← (vv (nvs 0 3)).comparisonArg (.vec
    (ones 3)) .le]) := by decide +kernel
/-- CompileConstraintsIntoScalarConstraints2 -/
example : returns (fun l => l.length = 19) (do compileAll [← (mv (nvm 0 4 4)).comparisonArg
    (.dense (List.replicate 4 (ones 4))) .le, ← (vv (nvs 16 2)).comparisonArg (.vec (ones 2)) .le,
    ← (sv (nv 18)).comparisonArg (.f64 (-3)) .le]) := by decide +kernel
/-- ConstrSense_String1 -/
example : gives ['='] Sense.eq.chars := by decide +kernel
/-- ConstrSense_String2 -/
example : gives ['<', '='] Sense.le.chars := by decide +kernel
/-- ConstrSense_String3 -/
example : gives ['>', '='] Sense.ge.chars := by decide +kernel

end Verif.Tests.Constraint
