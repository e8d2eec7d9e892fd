import Verif.Tests.Base

/-!
# `/repo/testing/symbolic/scalar_constraint_test.go` on the model
-/

namespace Verif.Tests.ScalarConstraint

def x : Expr ℚ := sv (nv 0)
def y : Expr ℚ := sv (nv 1)
def x2 : Expr ℚ := vv (nvs 0 2)

/-- The left side of most tests on the representations: `x.Transpose().Multiply(OnesVector(2))`. -/
def sum2 : Go (Expr ℚ) := do (← x2.transpose).mulArg (.e (vk (ones 2)))

/-- `x.Transpose().Multiply(x)` -/
def sq2 : Go (Expr ℚ) := do (← x2.transpose).mulArg (.e x2)

/-- A constraint whose left side fails its check. -/
def badL : SCon ℚ := ⟨.mono ⟨1, [1], []⟩, .var (nv 0), .le⟩

def xy : SCon ℚ := ⟨.mono (m2 1 0 1 1 1), .k 3.14, .le⟩

/-- Left1 -/
example : ty (Con.s (⟨.var (nv 0), .mono (m2 1 0 1 1 2), .le⟩ : SCon ℚ)).left = .Variable := by
  decide +kernel
/-- Right1 -/
example : gives 2 (numVariables (Con.s (⟨.var (nv 0), .mono (m2 1 0 1 1 2), .le⟩ : SCon ℚ)).right)
    := by decide +kernel
/-- IsLinear1 -/
example : gives true (Con.s (⟨.k 3.14, .var (nv 0), .le⟩ : SCon ℚ)).isLinear := by decide +kernel
/-- IsLinear2 -/
example : gives false (Con.s (⟨.k 3.14, .mono (m2 1 0 1 1 2), .le⟩ : SCon ℚ)).isLinear := by
  decide +kernel
/-- Simplify1 -/
example : returns (fun c => sty c.lhs = .Variable ∧ sty c.rhs = .K) (SCon.simplify ⟨.var (nv 0),
    .k 3.14, .le⟩) := by decide +kernel
/-- Simplify2 -/
example : returns (fun c => sty c.lhs = .Polynomial ∧ c.rhs = .k 0) (SCon.simplify ⟨.k 3.14, .var
    (nv 0), .le⟩) := by decide +kernel
/-- Check1 -/
example : panicsWith .check (SCon.check ⟨.var badVar, .k 3.14, .le⟩) := by decide +kernel
/-- Check2 -/
example : panicsWith .check (SCon.check ⟨.k 3.14, .var badVar, .le⟩) := by decide +kernel
/-- Check3 -/
example : panics (SCon.check ⟨.k 3.14, .mono (m1 1 0 1), .bad 63⟩) := by decide +kernel
/-- Check4 -/
example : ok (SCon.check ⟨.k 3.14, .mono (m1 1 0 1), .le⟩) := by decide +kernel
/-- LinearInequalityConstraintRepresentation1 -/
example : gives ([1, 1], 2.5) (withS (cmp sum2 .le (.e (sk 2.5))) (·.linearIneq [])) := by
  decide +kernel
/-- LinearInequalityConstraintRepresentation2 -/
example : gives ([-1, -1], -2.5) (withS (cmp sum2 .ge (.e (sk 2.5))) (·.linearIneq [])) := by
  decide +kernel
/-- LinearInequalityConstraintRepresentation3 -/
example : gives ([1, 0], 2.5) (withS (do cmp sum2 .le (.e (← (sv (nv 1)).plusArg (.e (sk 2.5)))))
    (·.linearIneq [nvs 0 2])) := by decide +kernel
/-- LinearInequalityConstraintRepresentation4 -/
example : panicsWith .notLinear (withS (cmp sq2 .le (.e (sk 2.5))) (·.linearIneq [])) := by
  decide +kernel
/-- LinearInequalityConstraintRepresentation5 -/
example : panicsWith .notLinear (withS (do cmp (pure (sk 2.5)) .le (.e (← sq2))) (·.linearIneq
    [])) := by decide +kernel
/-- LinearInequalityConstraintRepresentation6 -/
example : gives ([1, 0], 2.1) (withS (cmp (pure x) .le (.e (sk 2.1))) (·.linearIneq [nvs 0 2])) :=
    by decide +kernel
/-- LinearEqualityConstraintRepresentation1 -/
example : gives ([1, 1], 2.5) (withS (cmp sum2 .eq (.e (sk 2.5))) (·.linearEq [])) := by
  decide +kernel
/-- LinearEqualityConstraintRepresentation2 -/
example : panicsWith .equalityRequired (withS (cmp sum2 .le (.e (sk 2.5))) (·.linearEq [])) := by
  decide +kernel
/-- LinearEqualityConstraintRepresentation3 -/
example : panicsWith .notLinear (withS (cmp sq2 .eq (.e (sk 2.5))) (·.linearEq [])) := by
  decide +kernel
/-- LinearEqualityConstraintRepresentation4 -/
example : panicsWith .notLinear (withS (do cmp (pure (sk 2.5)) .eq (.e (← sq2))) (·.linearEq []))
    := by decide +kernel
/-- LinearEqualityConstraintRepresentation5 -/
example : gives ([1, 0], 2.1) (withS (cmp (pure x) .eq (.e (sk 2.1))) (·.linearEq [nvs 0 2])) := by
  decide +kernel
/-- Substitute1 -/
example : panicsWith .check (badL.substitute (nv 0) (.k 1)) := by decide +kernel
/-- Substitute2 -/
example : returns (fun c => sty c.lhs = .Polynomial ∧ c.rhs = .k 3.14 ∧ c.sense = .le)
    (xy.substitute (nv 0) (.poly ⟨[nm 1, nm 0]⟩)) := by decide +kernel
/-- SubstituteAccordingTo1 -/
example : panicsWith .check (badL.substMap []) := by decide +kernel
/-- SubstituteAccordingTo2 -/
example : returns (fun c => sty c.lhs = .Polynomial ∧ c.rhs = .k 3.14 ∧ c.sense = .le)
    (xy.substMap [(nv 0, .poly ⟨[nm 1, nm 0]⟩)]) := by decide +kernel
/-- String1 -/
example : returns (fun s => contains ['x', '_', '0'] s && contains ['<', '='] s && contains (fmt
    3) s) ((⟨.var (nv 0), .k 3, .le⟩ : SCon ℚ).chars fmt) := by decide +kernel
/-- ScaleBy1 -/
example : panicsWith .check (badL.scaleBy 2) := by decide +kernel
/-- ScaleBy2 -/
example : returns (fun c => sty c.lhs = .Monomial ∧ c.rhs = .k (-6.28) ∧ c.sense = .ge)
    (xy.scaleBy (-2)) := by decide +kernel
/-- ScaleBy3 -/
example : returns (fun c => sty c.lhs = .Monomial ∧ c.rhs = .k 6.28 ∧ c.sense = .le) (xy.scaleBy
    2) := by decide +kernel
/-- ScaleBy4 -/
example : returns (fun c => c.sense = .le) (SCon.scaleBy ⟨.mono (m1 1 0 1), .k 3.14, .ge⟩ (-2)) :=
    by decide +kernel
/-- Variables1 -/
example : returns (fun l => l.length = 2) (Con.s xy).variables := by decide +kernel
/-- Variables2 -/
example : panicsWith .check (Con.s badL).variables := by decide +kernel
/-- ImpliesThisIsAlsoSatisfied1 -/
example : panicsWith .check (implies (pure (.s badL)) (cmp (pure x) .ge (.e (sk 1)))) := by
  decide +kernel
/-- ImpliesThisIsAlsoSatisfied2 -/
example : panicsWith .check (implies (pure (.s xy)) (pure (.s { badL with sense := .ge }))) := by
  decide +kernel
/-- ImpliesThisIsAlsoSatisfied3 -/
example : gives false (implies (cmp (x.plusArg (.e y)) .le (.e (sk 3))) (cmp (pure y) .ge (.e (sk
    1)))) := by decide +kernel
/-- ImpliesThisIsAlsoSatisfied4 -/
example : gives true (implies (cmp (pure x) .le (.f64 3)) (cmp (pure x) .le (.f64 4))) := by
  decide +kernel
/-- ImpliesThisIsAlsoSatisfied5 -/
example : gives true (implies (cmp (pure x) .ge (.f64 4)) (cmp (pure x) .ge (.f64 3))) := by
  decide +kernel
/-- ImpliesThisIsAlsoSatisfied6 -/
example : gives true (implies (cmp (pure x) .eq (.f64 3)) (cmp (pure x) .le (.f64 4))) := by
  decide +kernel
/-- ImpliesThisIsAlsoSatisfied7 -/
example : gives true (implies (cmp (pure x) .eq (.f64 3)) (cmp (pure x) .ge (.f64 2))) := by
  decide +kernel
/-- ImpliesThisIsAlsoSatisfied8 -/
example : gives true (implies (cmp (x.mulArg (.int (-2))) .le (.f64 4)) (cmp (x.mulArg (.int
    (-2))) .le (.f64 5))) := by decide +kernel
/-- ImpliesThisIsAlsoSatisfied9 -/
example : gives false (implies (cmp (x.mulArg (.int 2)) .ge (.f64 4)) (cmp (x.mulArg (.int 2)) .ge
    (.f64 5))) := by decide +kernel
/-- ImpliesThisIsAlsoSatisfied10 -/
example : gives false (implies (cmp (x.mulArg (.int 2)) .eq (.f64 4)) (cmp (x.mulArg (.int 2)) .eq
    (.f64 5))) := by decide +kernel
/-- ImpliesThisIsAlsoSatisfied11 -/
example : gives false (implies (cmp (x.mulArg (.int 2)) .le (.f64 1)) (cmp (x.mulArg (.int 10))
    .le (.f64 2))) := by decide +kernel
/-- ImpliesThisIsAlsoSatisfied12 -/
example : gives false (implies (cmp (x.mulArg (.int (-2))) .le (.f64 2)) (cmp (x.mulArg (.int
    (-10))) .le (.f64 4))) := by decide +kernel
/-- AsSimplifiedConstraint1 -/
example : returns (fun c => sty c.lhs = .Polynomial ∧ c.rhs = .k 4 ∧ c.sense = .le) (SCon.simplify
    ⟨.mono (m2 2 0 1 1 1), .poly ⟨[m1 1 0 1, m1 3 1 1, m0 4]⟩, .le⟩) := by decide +kernel
/-- IsNonnegativityConstraint1 -/
example : gives true (withS (cmp (pure x) .ge (.int 0)) SCon.isNonneg) := by decide +kernel
/-- IsNonnegativityConstraint2 -/
example : panicsWith .check (SCon.isNonneg ⟨.mono ⟨2, [1, 1], [nv 0]⟩, .k 0, .ge⟩) := by
  decide +kernel
/-- IsNonnegativityConstraint3 -/
example : gives false (withS (cmp (x.plusArg (.e y)) .ge (.int 0)) SCon.isNonneg) := by
  decide +kernel
/-- IsNonnegativityConstraint4 -/
example : gives false (withS (cmp (pure x) .le (.int 0)) SCon.isNonneg) := by decide +kernel
/-- IsNonnegativityConstraint5 -/
example : gives true (withS (cmp ((sk 2).mulArg (.e x)) .ge (.int 0)) SCon.isNonneg) := by
  decide +kernel
/-- IsNonnegativityConstraint6 -/
example : gives false (withS (cmp (pure x) .ge (.int 3)) SCon.isNonneg) := by decide +kernel
/-- IsNonnegativityConstraint7 -/
example : gives true (withS (cmp ((sk (-1)).mulArg (.e x)) .le (.int 0)) SCon.isNonneg) := by
  decide +kernel
/-- IsNonnegativityConstraint8 -/
example : gives false (withS (cmp (do return .s (← Scalar.power (.var (nv 0)) 2)) .ge (.int 0))
    SCon.isNonneg) := by decide +kernel

end Verif.Tests.ScalarConstraint
