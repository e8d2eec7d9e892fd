import Verif.Tests.Base

/-!
# `/repo/testing/symbolic/monomial_matrix_test.go` on the model
-/

namespace Verif.Tests.MonomialMatrix

/-- A matrix filled with one monomial. -/
def fill (r c : Nat) (m : Mono ℚ) : Expr ℚ := mm (List.replicate r (List.replicate c m))
def x22 : Expr ℚ := fill 2 2 (nm 0)
def x32 : Expr ℚ := fill 3 2 (nm 0)
def empty : Expr ℚ := mm []
/-- A monomial with two exponents and one variable. -/
def badM : Mono ℚ := ⟨1, [1, 2], [nv 0]⟩
def ragged : Expr ℚ := mm [[badM, badM], [badM], [badM, badM]]
def rows3 : List (List (Mono ℚ)) := [[nm 0, nm 1, nm 2], [nm 0, nm 1, nm 2]]

/-- Every entry is a polynomial of `n` monomials, one of them the variable, and the entries have a
constant monomial as told. -/
def entries (n : Nat) (f : Nat → Nat → Poly ℚ → Bool) : Go (Expr ℚ) → Bool := returns (fun
  | .m (.p l) => l.zipIdx.all (fun r => r.1.zipIdx.all (fun p => p.1.monos.length == n &&
      returns (fun i => i.isSome) (p.1.variableIndex (nv 0)) && f r.2 p.2 p.1))
  | _ => false)

/-- Check1 -/
example : panicsWith .check empty.check := by decide +kernel
/-- Check2 -/
example : panicsWith .check ragged.check := by decide +kernel
/-- Check3 -/
example : panicsWith .check (mm [[badM]]).check := by decide +kernel
/-- Check4 -/
example : ok (fill 3 2 (m1 1 0 3)).check := by decide +kernel
/-- Variables1 -/
example : gives 1 (numVariables (fill 3 2 (m1 1 0 3))) := by decide +kernel
/-- Variables2 -/
example : gives 3 (numVariables (mm [[m1 1 0 3, m1 1 0 3], [m1 1 0 3, m1 1 0 3],
    [⟨10, [3, 5, 9], nvs 0 3⟩, ⟨10, [3, 5, 9], nvs 0 3⟩]])) := by decide +kernel
/-- Variables3 -/
example : panics empty.variables := by decide +kernel
/-- Dims1 -/
example : hasDims 3 2 (pure (fill 3 2 (m1 1 0 3))) := by decide +kernel
/-- Plus1 -/
example : panics (ragged.plusArg (.e ragged)) := by decide +kernel
/-- Plus2 -/
example : panicsWith .check (x22.plusArg (.e empty)) := by decide +kernel
/-- Plus3 -/
example : panicsWith .dimension (x32.plusArg (.e x22)) := by decide +kernel
/-- Plus4 -/
example : entries 2 (fun _ _ p => returns (fun i => (p.monos[i.toNat]?.map (·.coeff)) == some 1)
    p.constantMonomialIndex) (x22.plusArg (.f64 1)) := by decide +kernel
/-- Plus5 -/
example : entries 2 (fun _ _ _ => true) (x22.plusArg (.e (sv (nv 1)))) := by decide +kernel
/-- Plus6 -/
example : entries 2 (fun _ _ _ => true) (x22.plusArg (.e (sm (nm 1)))) := by decide +kernel
/-- Plus7 -/
example : entries 3 (fun _ _ _ => true) (x22.plusArg (.e (sp ⟨[nm 1, nm 2]⟩))) := by decide +kernel
/-- Plus8 -/
example : entries 3 (fun i j p => i != 1 || j != 1 ||
      returns (fun i => i != -1) p.constantMonomialIndex) (do
    let p4 : Poly ℚ := ⟨[nm 1, nm 2]⟩
    match ← (sm (nm 1)).plusArg (.f64 3) with
    | .s (.poly q) => x22.plusArg (.e (mp [[p4, p4], [p4, q]]))
    | _ => throw .typeAssert) := by decide +kernel
/-- Plus9 -/
example : panics (x22.plusArg .other) := by decide +kernel
/-- Minus1 -/
example : panics (ragged.minusArg (.e ragged)) := by decide +kernel
/-- Minus2 -/
example : panicsWith .check (x22.minusArg (.e empty)) := by decide +kernel
/-- Minus3 -/
example : panicsWith .dimension (x32.minusArg (.e x22)) := by decide +kernel
/-- Minus4 -/
example : entries 2 (fun _ _ p => returns (fun i => (p.monos[i.toNat]?.map (·.coeff)) == some (-1))
    p.constantMonomialIndex) (x22.minusArg (.f64 1)) := by decide +kernel
/-- Multiply1 -/
example : panics (empty.mulArg (.e empty)) := by decide +kernel
/-- Multiply2 -/
example : panicsWith .check (x22.mulArg (.e empty)) := by decide +kernel
/-- Multiply3 -/
example : panicsWith .dimension (x22.mulArg (.e (mk (List.replicate 3 (ones 2))))) := by
  decide +kernel
/-- Multiply4 -/
example : returns (fun e => ty e = .MonomialMatrix ∧ coeffs e = [[2, 2], [2, 2]])
    (x22.mulArg (.f64 2)) := by decide +kernel
/-- Multiply5 -/
example : returns (fun
    | .v (.p l) => l.length == 3 && l.all (fun p => p.monos.length == 3 &&
        [nm 0, nm 1, nm 2].all (fun m => gives (-1) (p.monomialIndex m)))
    | _ => false) ((mm [[nm 0, nm 0, nm 0], [nm 1, nm 1, nm 1], [nm 2, nm 2, nm 2]]).mulArg
      (.e (vv (nvs 0 3)))) := by decide +kernel
/-- Multiply6 -/
example : returns (fun
    | .s (.poly p) => p.monos.all (fun m => m.exps == [2])
    | _ => false) ((mm [[nm 0, nm 1, nm 2]]).mulArg (.e (vv (nvs 0 3)))) := by decide +kernel
/-- Multiply7 -/
example : panics (x22.mulArg .other) := by decide +kernel
/-- Multiply8 -/
example : hasTy .MonomialMatrix (x22.mulArg (.e (mk [[1, 1], [1, 1]]))) ∧
    hasDims 2 2 (x22.mulArg (.e (mk [[1, 1], [1, 1]]))) := by decide +kernel
/-- Transpose1 -/
example : hasDims 3 2 (mm rows3).transpose := by decide +kernel
/-- Transpose2 -/
example : panics empty.transpose := by decide +kernel
/-- Comparison1 -/
example : panics (empty.comparisonArg (.e empty) .eq) := by decide +kernel
/-- Comparison2 -/
example : hasCTy .Matrix (x22.comparisonArg (.densePtr [[1, 2], [3, 4]]) .le) ∧
    conDims 2 2 (x22.comparisonArg (.densePtr [[1, 2], [3, 4]]) .le) := by decide +kernel
/-- LessEq1 -/
example : panics (x22.comparisonArg (.e (vv [])) .le) := by decide +kernel
/-- LessEq2 -/
example : hasSense .Matrix .le (x22.comparisonArg (.f64 2) .le) ∧
    conDims 2 2 (x22.comparisonArg (.f64 2) .le) := by decide +kernel
/-- GreaterEq1 -/
example : panics (x32.comparisonArg (.e (mv (nvm 1 2 2))) .ge) := by decide +kernel
/-- GreaterEq2 -/
example : hasSense .Matrix .ge (x22.comparisonArg (.e (mv (nvm 1 2 2))) .ge) ∧
    conDims 2 2 (x22.comparisonArg (.e (mv (nvm 1 2 2))) .ge) := by decide +kernel
/-- Eq1 -/
example : panics (empty.comparisonArg .other .eq) := by decide +kernel
/-- Eq2 -/
example : hasSense .Matrix .eq
    (do x22.comparisonArg (.e (mp (← vmToPolyMat (nvm 1 2 2)))) .eq) := by decide +kernel
/-- DerivativeWrt1 -/
example : panicsWith .check (empty.derivative (nv 0)) := by decide +kernel
/-- DerivativeWrt2 -/
example : panicsWith .check (x22.derivative badVar) := by decide +kernel
/-- DerivativeWrt3 -/
example : gives (mk [[1, 0], [1, 0]])
    ((mm [[nm 0, nm 1], [nm 0, nm 1]]).derivative (nv 0)) := by decide +kernel
/-- Constant1 -/
example : gives [[0, 0, 0], [0, 0, 0]] (Mat.constant (.m rows3)) := by decide +kernel
/-- Constant2 -/
example : gives (identityRows 3) (Mat.constant (.m [[m0 1, nm 0, nm 1], [nm 0, m0 1, nm 2],
    [nm 1, nm 2, m0 1]])) := by decide +kernel
/-- Constant3 -/
example : panics (Mat.constant (.m ([] : List (List (Mono ℚ))))) := by decide +kernel
/-- String1 -/
example : returns (fun s => (List.range 3).all (fun i =>
      returns (fun t => contains t s) ((sm (nm i)).chars fmt)))
    ((mm rows3).chars fmt) := by decide +kernel
/-- String2 -/
example : panics (empty.chars fmt) := by decide +kernel
/-- Degree1 -/
example : panicsWith .check empty.degree := by decide +kernel
/-- Degree2 -/
example : gives 9 (mm [[nm 0, nm 1, nm 2], [nm 0, ⟨3.14, [1, 3, 5], nvs 0 3⟩, nm 2]]).degree := by
  decide +kernel
/-- Substitute1 -/
example : polyLens 2 (do
    match ← (sv (nv 0)).plusArg (.e (sv (nv 1))) with
    | .s q => x22.substitute (nv 0) q
    | _ => throw .typeAssert) := by decide +kernel
/-- SubstituteAccordingTo1 -/
example : polyLens 2 (do
    match ← (sv (nv 0)).plusArg (.e (sv (nv 1))) with
    | .s q => x22.substMap [(nv 0, q)]
    | _ => throw .typeAssert) := by decide +kernel
/-- SubstituteAccordingTo2 -/
example : panicsWith .check (empty.substMap []) := by decide +kernel
/-- SubstituteAccordingTo3 -/
example : panicsWith .check (x22.substMap [(nv 0, .var badVar)]) := by decide +kernel
/-- AsSimplifiedExpression1 -/
example : gives (mk [[1, 2], [3, 4]]) (mm [[m0 1, m0 2], [m0 3, m0 4]]).asSimplified := by
  decide +kernel
/-- AsSimplifiedExpression2 -/
example : panics empty.asSimplified := by decide +kernel
/-- Power1 -/
example : gives (.k [[7, 10], [15, 22]])
    (Mat.power (.m [[m0 1, m0 2], [m0 3, m0 4]]) 2) := by decide +kernel

end Verif.Tests.MonomialMatrix
