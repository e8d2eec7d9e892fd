import Verif.Tests.Base

/-!
# `/repo/testing/symbolic/matrix_constraint_test.go` on the model
-/

namespace Verif.Tests.MatrixConstraint

def ident (n : Nat) : List (List ℚ) :=
  (List.range n).map (fun i => (List.range n).map (fun j => if i = j then 1 else 0))

def zeros (r c : Nat) : List (List ℚ) := List.replicate r (List.replicate c 0)

def good : MCon ℚ := ⟨.k (ident 3), .k (zeros 3 3), .le⟩
def emptyL : MCon ℚ := ⟨.m [], .k (zeros 3 4), .le⟩
def row : MCon ℚ := ⟨.m [List.replicate 4 (nm 0)], .k (zeros 1 4), .le⟩
def vs : MCon ℚ := ⟨.v (nvm 0 3 3), .k (List.replicate 3 (ones 3)), .le⟩

/-- Left1 -/
example : (Con.m good).left = .m (.k (ident 3)) := by decide +kernel
/-- Right1 -/
example : (Con.m good).right = .m (.k (zeros 3 3)) := by decide +kernel
/-- Check1 -/
example : panics (MCon.check ⟨.k (ident 3), .k (zeros 3 2), .le⟩) := by decide +kernel
/-- Check2 -/
example : panicsWith .check (MCon.check ⟨.m [], .k (zeros 3 3), .le⟩) := by decide +kernel
/-- Check3 -/
example : panicsWith .check (MCon.check ⟨.k (ident 3), .m [], .le⟩) := by decide +kernel
/-- Check4 -/
example : panics (MCon.check ⟨.k (ident 4), .k (zeros 3 3), .le⟩) := by decide +kernel
/-- Check5 -/
example : panics (MCon.check { good with sense := .bad 12 }) := by decide +kernel
/-- Check6 -/
example : ok good.check := by decide +kernel
/-- Dims1 -/
example : gives (3, 4) (MCon.dims ⟨.k (zeros 3 4), .k (zeros 3 4), .le⟩) := by decide +kernel
/-- At1 -/
example : returns (fun c => sty c.lhs = .Monomial ∧ sty c.rhs = .K) (row.at 0 2) := by
  decide +kernel
/-- At2 -/
example : panicsWith .index (MCon.at ⟨.k (zeros 3 4), .k (zeros 3 4), .le⟩ 3 0) := by decide +kernel
/-- At3 -/
example : panicsWith .check (emptyL.at 0 0) := by decide +kernel
/-- Substitute1 -/
example : panicsWith .check (emptyL.substitute (nv 0) (.var (nv 1))) := by decide +kernel
/-- Substitute2 -/
example : returns (fun c => ty (.m c.lhs) = .MonomialMatrix ∧ ty (.m c.rhs) = .KMatrix) (do
    row.substitute (nv 0) (← Scalar.plus (.var (nv 1)) (.var (nv 1)))) := by decide +kernel
/-- SubstituteAccordingTo1 -/
example : panicsWith .check (emptyL.substMap []) := by decide +kernel
/-- SubstituteAccordingTo2 -/
example : returns (fun c => ty (.m c.lhs) = .MonomialMatrix ∧ ty (.m c.rhs) = .KMatrix) (do
    row.substMap [(nv 0, ← Scalar.plus (.var (nv 1)) (.var (nv 1)))]) := by decide +kernel
/-- AsSimplifiedConstraint1 -/
example : panicsWith .check emptyL.simplify := by decide +kernel
/-- Variables1 -/
example : returns (fun l => l.length = 9 ∧ l.Nodup) (Con.m vs).variables := by decide +kernel
/-- ImpliesThisIsAlsoSatisfied1 -/
example : gives true (do vs.implies (.s (← vs.at 0 1))) := by decide +kernel
/-- ImpliesThisIsAlsoSatisfied2 -/
example : panics (MCon.implies ⟨.v (nvm 0 3 2), .k (List.replicate 3 (ones 3)), .le⟩ (.m good)) :=
    by decide +kernel
/-- Constraint_ImpliesThisIsAlsoSatisfied3 -/
example : panicsWith .check (vs.implies (.s ⟨.mono ⟨0, [1], []⟩, .k 5, .eq⟩)) := by decide +kernel

end Verif.Tests.MatrixConstraint
