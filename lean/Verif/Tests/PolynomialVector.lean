import Verif.Tests.Base

/-!
# `/repo/testing/symbolic/polynomial_vector_test.go` on the model
-/

namespace Verif.Tests.PolynomialVector

def nps (i n : Nat) : List (Poly ℚ) := (nvs i n).map Var.toPoly
def x : Expr ℚ := vp (nps 0 20)
def empty : Expr ℚ := vp []

/-- The right side of the vector constraint has this length. -/
def rightLen (n : Nat) (c : Go (Con ℚ)) : Bool := hasCTy .Vector c && conDimsR n 1 c

/-- Check1 -/
example : panicsWith .check empty.check := by decide +kernel
/-- Check2 -/
example : panicsWith .check (vp (nps 0 11 ++ badPoly :: nps 12 8)).check := by decide +kernel
/-- Check3 -/
example : ok x.check := by decide +kernel
/-- Length1, Len1 -/
example : gives 20 (Vec.len (.p (nps 0 20))) := by decide +kernel
/-- Length2 -/
example : panicsWith .check (Vec.len (.p ([] : List (Poly ℚ)))) := by decide +kernel
/-- AtVec1 -/
example : returns (fun a => sty a = .Polynomial) (Vec.atVec (.p (nps 0 20)) 0) := by
  decide +kernel
/-- AtVec2 -/
example : panicsWith .index (Vec.atVec (.p (nps 0 20)) 20) := by decide +kernel
/-- AtVec3 -/
example : panicsWith .check (Vec.atVec (.p ([] : List (Poly ℚ))) 0) := by decide +kernel
/-- Variables1 -/
example : gives 0 (numVariables (vp (List.replicate 20 (m0 1).toPoly))) := by decide +kernel
/-- Variables2 -/
example : gives 3 (numVariables (vp [(m0 3.14).toPoly, (m2 0 1 2 1 2).toPoly,
    ⟨[⟨0, [3, 5, 11], [nv 1, nv 2, nv 3]⟩]⟩])) := by decide +kernel
/-- Variables3 -/
example : gives 3 (numVariables (vp [(m0 3.14).toPoly, (m2 0 1 2 1 2).toPoly,
    (m2 0 1 3 3 11).toPoly])) := by decide +kernel
/-- Constant1 -/
example : panicsWith .check (Vec.constant (.p ([] : List (Poly ℚ)))) := by decide +kernel
/-- Constant2 -/
example : gives (List.replicate 20 0) (Vec.constant (.p (nps 0 20))) := by decide +kernel
/-- Constant3 -/
example : gives [3.14, 0] (Vec.constant (.p [(m0 3.14).toPoly, np 0])) := by decide +kernel
/-- LinearCoeff1 -/
example : panicsWith .check (Vec.linearCoeff (.p ([] : List (Poly ℚ))) []) := by decide +kernel
/-- LinearCoeff2 -/
example : panicsWith .linCoeffConst (Vec.linearCoeff
    (.p ((List.range 20).map (fun (i : Nat) => (m0 (i : ℚ)).toPoly))) []) := by decide +kernel
/-- LinearCoeff3 -/
example : gives (List.replicate 20 (List.replicate 20 0)) (Vec.linearCoeff
    (.p ((List.range 20).map (fun (i : Nat) => (m1 0 i 2).toPoly))) []) := by decide +kernel
/-- LinearCoeff4 -/
example : gives ((List.range 20).map (fun i => (List.range 20).map (fun j =>
    if i = j then (i : ℚ) else 0))) (Vec.linearCoeff
    (.p ((List.range 20).map (fun (i : Nat) => (m1 (i : ℚ) i 1).toPoly))) []) := by decide +kernel
/-- LinearCoeff5 -/
example : gives [[0, 0]] (Vec.linearCoeff (.p [np 1]) [[nv 0, nv 2]]) := by decide +kernel
/-- LinearCoeff6 -/
example : panicsWith .tooManyInputs
    (Vec.linearCoeff (.p [np 1]) [[nv 0, nv 2], [nv 0, nv 2]]) := by decide +kernel
/-- Plus1 -/
example : panicsWith .check (empty.plusArg (.e empty)) := by decide +kernel
/-- Plus2 -/
example : panicsWith .check (x.plusArg (.e empty)) := by decide +kernel
/-- Plus3, Plus4 -/
example : polyLens 2 (x.plusArg (.f64 3.14)) := by decide +kernel
/-- Plus5 -/
example : returns (fun e => ty e = .MonomialVector ∧ coeffs e = [List.replicate 20 2])
    (x.plusArg (.e x)) := by decide +kernel
/-- Plus6 -/
example : polyLens 2 (x.plusArg (.e (sp (np 20)))) := by decide +kernel
/-- Plus7 -/
example : panicsWith .dimension (x.plusArg (.e (vp (nps 20 2)))) := by decide +kernel
/-- Plus8 -/
example : panicsWith .unsupported (x.plusArg .other) := by decide +kernel
/-- Minus1 -/
example : panicsWith .check (empty.minusArg (.e empty)) := by decide +kernel
/-- Minus2 -/
example : panicsWith .check (x.minusArg (.e (vm []))) := by decide +kernel
/-- Minus3 -/
example : panicsWith .dimension (x.minusArg (.e (vp (nps 20 2)))) := by decide +kernel
/-- Minus4 -/
example : polyLens 2 (x.minusArg (.vec (ones 20))) ∧ hasDims 20 1 (x.minusArg (.vec (ones 20))) := by
  decide +kernel
/-- Minus5 -/
example : polyLens 2 (x.minusArg (.f64 3.14)) ∧ hasDims 20 1 (x.minusArg (.f64 3.14)) := by
  decide +kernel
/-- Minus6 -/
example : panicsWith .unsupported (x.minusArg .other) := by decide +kernel
/-- Multiply1 -/
example : panicsWith .check (empty.mulArg (.f64 3.14)) := by decide +kernel
/-- Multiply2 -/
example : panicsWith .check (x.mulArg (.e empty)) := by decide +kernel
/-- Multiply3 -/
example : returns (fun e => ty e = .MonomialVector ∧ coeffs e = [List.replicate 20 3.14])
    (x.mulArg (.e (sk 3.14))) := by decide +kernel
/-- Multiply4 -/
example : returns (fun e => ty e = .MonomialVector ∧ coeffs e = [List.replicate 20 3.14])
    (x.mulArg (.f64 3.14)) := by decide +kernel
/-- Multiply5 -/
example : returns (fun
    | .v (.m l) => l.all (fun m => gives 2 (sm m).degree)
    | _ => false) ((vp (nps 0 10)).mulArg (.e (sp (np 10)))) := by decide +kernel
/-- Multiply6 -/
example : panicsWith .dimension (x.mulArg (.e (vp (nps 20 2)))) := by decide +kernel
/-- Multiply7 -/
example : hasTy .MonomialVector (x.mulArg (.e (vp (nps 20 1)))) ∧
    hasDims 20 1 (x.mulArg (.e (vp (nps 20 1)))) := by decide +kernel
/-- Transpose1 -/
example : hasTy .PolynomialMatrix (vp (nps 0 3)).transpose ∧
    hasDims 1 3 (vp (nps 0 3)).transpose := by decide +kernel
/-- Transpose2 -/
example : panicsWith .check empty.transpose := by decide +kernel
/-- Dims1 -/
example : hasDims 20 1 (pure x) := by decide +kernel
/-- Comparison1 -/
example : panicsWith .check (empty.comparisonArg (.e empty) .ge) := by decide +kernel
/-- Comparison2 -/
example : panicsWith .check (x.comparisonArg (.e empty) .ge) := by decide +kernel
/-- Comparison3 -/
example : rightLen 20 (x.comparisonArg (.f64 3.14) .ge) := by decide +kernel
/-- Comparison4 -/
example : rightLen 20 (x.comparisonArg (.e (vp (nps 20 20))) .ge) := by decide +kernel
/-- Comparison5 -/
example : rightLen 20 (x.comparisonArg (.vec (ones 20)) .ge) := by decide +kernel
/-- LessEq1 -/
example : panics ((vp (nps 0 3)).comparisonArg (.e (vm ((nvs 3 4).map Var.toMono))) .le) := by
  decide +kernel
/-- LessEq2 -/
example : hasCTy .Vector
    ((vp (nps 0 3)).comparisonArg (.e (vm ((nvs 3 3).map Var.toMono))) .le) := by decide +kernel
/-- GreaterEq1 -/
example : panics ((vp (nps 0 3)).comparisonArg .other .ge) := by decide +kernel

/-- The polynomials `x + 3.14` of Simplify1. -/
def sum1 (i : Nat) : Go (Poly ℚ) := do
  match ← (sv (nv i)).plusArg (.f64 3.14) with
  | .s (.poly p) => return p
  | _ => throw .typeAssert

/-- The polynomials `x + 3.14 + 2.17 + 1.1` of Simplify2. -/
def sum3 (i : Nat) : Go (Poly ℚ) := do
  let a ← (sv (nv i)).plusArg (.f64 3.14)
  let b ← a.plusArg (.f64 2.17)
  match ← b.plusArg (.e (sm (m0 1.1))) with
  | .s (.poly p) => return p
  | _ => throw .typeAssert

/-- Simplify1 -/
example : polyLens 2 (do (vp (← (List.range 20).mapM sum1)).asSimplified) := by decide +kernel
/-- Simplify2, AsSimplifiedExpression1 -/
example : polyLens 2 (do (vp (← (List.range 20).mapM sum3)).asSimplified) := by decide +kernel

end Verif.Tests.PolynomialVector
