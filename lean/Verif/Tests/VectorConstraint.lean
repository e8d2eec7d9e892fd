import Verif.Tests.Base

/-!
# `/repo/testing/symbolic/vector_constraint_test.go` on the model
-/

namespace Verif.Tests.VectorConstraint

def x7 : Vec ℚ := .v (nvs 0 7)
def one7 : Vec ℚ := .k (ones 7)

/-- Sides of different lengths. -/
def badC (s : Sense) : VCon ℚ := ⟨one7, .v (nvs 0 8), s⟩

/-- `x.Plus(x.Transpose().Multiply(x))` -/
def quad : Go (Expr ℚ) := do
  let x := Expr.v x7
  let sq ← (← x.transpose).mulArg (.e x)
  x.plusArg (.e sq)

/-- `ZerosVector(2)` plus both variables -/
def sum2 : Go (Expr ℚ) := do
  (← (vk [0, 0]).plusArg (.e (sv (nv 0)))).plusArg (.e (sv (nv 1)))

def r12 : Arg ℚ := .vecPtr [1, 2]

def badSub : VCon ℚ :=
  ⟨.m (List.replicate 6 (m0 1) ++ [⟨1, [1, 0], [nv 0]⟩]), .v (nvs 1 7), .le⟩

def monoC : VCon ℚ := ⟨.m ((nvs 0 7).map Var.toMono), one7, .le⟩

/-- Check1 -/
example : panicsWith .dimension (VCon.check ⟨.k (ones 3), .v (nvs 0 4), .le⟩) := by decide +kernel
/-- Check2 -/
example : ok (VCon.check ⟨.k (ones 3), .v (nvs 0 3), .le⟩) := by decide +kernel
/-- Dims1 -/
example : gives (10, 1) (VCon.dims ⟨.k (ones 10), .v (nvs 0 10), .le⟩) := by decide +kernel
/-- Dims2 -/
example : panicsWith .dimension (VCon.dims ⟨.k (ones 10), .v (nvs 0 11), .le⟩) := by decide +kernel
/-- AtVec1 -/
example : (List.range 7).all (fun i => returns (fun c => c.lhs = .k 1 ∧ sty c.rhs = .Variable ∧
    c.sense = .le) (VCon.atVec ⟨one7, x7, .le⟩ i)) := by decide +kernel
/-- AtVec2 -/
example : panicsWith .index (VCon.atVec ⟨one7, x7, .le⟩ 7) := by decide +kernel
/-- AtVec3 -/
example : panicsWith .dimension ((badC .le).atVec 6) := by decide +kernel
/-- LinearInequalityConstraintRepresentation1 -/
example : panicsWith .dimension ((badC .le).linearIneq []) := by decide +kernel
/-- LinearInequalityConstraintRepresentation2 -/
example : panicsWith .notLinear (withV (do cmp (pure (.v one7)) .le (.e (← quad))) (·.linearIneq
    [])) := by decide +kernel
/-- LinearInequalityConstraintRepresentation3 -/
example : returns (fun r => r.1.length = 2 ∧ (r.1.all (·.length = 2)) ∧ r.2 = [1, 2]) (withV (cmp
    sum2 .le r12) (·.linearIneq [])) := by decide +kernel
/-- LinearInequalityConstraintRepresentation4 -/
example : returns (fun r => r.1.length = 2 ∧ (r.1.all (·.length = 2)) ∧ r.2 = [1, 2]) (withV (cmp
    (pure (vv (nvs 0 2))) .le r12) (·.linearIneq [])) := by decide +kernel
/-- LinearInequalityConstraintRepresentation5 -/
example : panicsWith .notLinear (withV (cmp quad .ge (.e (.v one7))) (·.linearIneq [])) := by
  decide +kernel
/-- LinearInequalityConstraintRepresentation6 -/
example : returns (fun r => r.1.length = 2 ∧ (r.1.all (·.length = 2)) ∧ r.2 = [-1, -2]) (withV
    (cmp sum2 .ge r12) (·.linearIneq [])) := by decide +kernel
/-- LinearInequalityConstraintRepresentation7 -/
example : panicsWith .inequalityRequired (VCon.linearIneq ⟨one7, x7, .eq⟩ []) := by decide +kernel
/-- LinearInequalityConstraintRepresentation8 -/
example : returns (fun r => r.1.length = 2 ∧ (r.1.all (·.length = 2)) ∧ r.2 = [1, 2]) (withV (cmp
    ((sv (nv 0)).plusArg (.vec [0, 0])) .le r12) (·.linearIneq [nvs 0 2])) := by decide +kernel
/-- LinearEqualityConstraintRepresentation1 -/
example : panicsWith .dimension ((badC .eq).linearEq []) := by decide +kernel
/-- LinearEqualityConstraintRepresentation2 -/
example : panicsWith .notLinear (withV (cmp quad .eq (.e (.v one7))) (·.linearEq [])) := by
  decide +kernel
/-- LinearEqualityConstraintRepresentation3 -/
example : panicsWith .notLinear (withV (do cmp (pure (.v one7)) .eq (.e (← quad))) (·.linearEq
    [])) := by decide +kernel
/-- LinearEqualityConstraintRepresentation4 -/
example : gives ([[1, 0], [0, 1]], [1, 2]) (withV (cmp (pure (vv (nvs 0 2))) .eq r12) (·.linearEq
    [])) := by decide +kernel
/-- LinearEqualityConstraintRepresentation5 -/
example : panicsWith .equalityRequired (VCon.linearEq ⟨one7, x7, .le⟩ []) := by decide +kernel
/-- Substitute1 -/
example : panicsWith .check (badSub.substitute (nv 0) (.mono (m1 1 0 3))) := by decide +kernel
/-- Substitute2 -/
example : returns (fun c => ty (.v c.lhs) = .PolynomialVector ∧ ty (.v c.rhs) = .KVector ∧ c.sense
    = .le) (monoC.substitute (nv 0) (.poly ⟨[nm 0, nm 1]⟩)) := by decide +kernel
/-- SubstituteAccordingTo1 -/
example : panicsWith .check (badSub.substMap [(nv 0, .mono (m1 1 0 3))]) := by decide +kernel
/-- SubstituteAccordingTo2 -/
example : returns (fun c => ty (.v c.lhs) = .PolynomialVector ∧ ty (.v c.rhs) = .KVector ∧ c.sense
    = .le) (monoC.substMap [(nv 0, .poly ⟨[nm 0, nm 1]⟩)]) := by decide +kernel
/-- AsSimplifiedConstraint1 -/
example : panicsWith .dimension (badC .le).simplify := by decide +kernel
/-- AsSimplifiedConstraint2 -/
example : returns (fun c => coeffs c.left = [List.replicate 7 (-1)] ∧ ty c.left = .MonomialVector
    ∧ ty c.right = .KVector ∧ c.sense = .le) (do Con.simplify (.v ⟨.m ((nvs 0 7).map Var.toMono),
    (← (← (← (Expr.v x7).mulArg (.f64 2)).plusArg (.e (.v one7))).asVec), .le⟩)) := by
    decide +kernel
/-- Variables1 -/
example : returns (fun l => l.length = 14 ∧ (nvs 0 14).all (fun v => decide (v ∈ l))) (Con.v (⟨x7,
    .v (nvs 7 7), .le⟩ : VCon ℚ)).variables := by decide +kernel
/-- ImpliesThisIsAlsoSatisfied1 -/
example : panicsWith .dimension (VCon.implies ⟨x7, .v (nvs 14 6), .le⟩ (.v ⟨x7, .v (nvs 7 7),
    .le⟩)) := by decide +kernel
/-- ImpliesThisIsAlsoSatisfied2 -/
example : panicsWith .dimension (VCon.implies ⟨x7, .v (nvs 7 7), .le⟩ (.v ⟨x7, .v (nvs 14 6),
    .le⟩)) := by decide +kernel
/-- ImpliesThisIsAlsoSatisfied3 -/
example : gives false (VCon.implies ⟨.v (nvs 0 2), .k [1, 1], .le⟩ (.v ⟨.v (nvs 0 2), .k [2, 2],
    .le⟩)) := by decide +kernel
/-- ImpliesThisIsAlsoSatisfied4 -/
example : gives true (VCon.implies ⟨.v (nvs 0 2), .k [1, 1], .le⟩ (.s ⟨.var (nv 0), .k 1, .le⟩))
    := by decide +kernel

end Verif.Tests.VectorConstraint
