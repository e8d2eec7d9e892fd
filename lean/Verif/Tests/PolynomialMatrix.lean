import Verif.Tests.Base

/-!
# `/repo/testing/symbolic/polynomial_matrix_test.go` on the model
-/

namespace Verif.Tests.PolynomialMatrix

/-- A matrix filled with one polynomial. -/
def fill (r c : Nat) (p : Poly ℚ) : Expr ℚ := mp (List.replicate r (List.replicate c p))
def x22 : Expr ℚ := fill 2 2 (np 0)
def x32 : Expr ℚ := fill 3 2 (np 0)
def x31 : Expr ℚ := fill 3 1 (np 0)
/-- Different variables. -/
def y (r c : Nat) : Expr ℚ := mp ((nvm 0 r c).map (·.map Var.toPoly))
def empty : Expr ℚ := mp []
/-- A polynomial of one invalid monomial. -/
def badP : Poly ℚ := ⟨[⟨1, [1, 2], [nv 0]⟩]⟩

/-- The polynomial `x + c` or `x - c` by the calls of the tests. -/
def plusC (c : ℚ) : Go (Poly ℚ) := do
  match ← (sv (nv 0)).plusArg (.f64 c) with
  | .s (.poly p) => return p
  | _ => throw .typeAssert
def minusC (c : ℚ) : Go (Poly ℚ) := do
  match ← (sp (np 0)).minusArg (.f64 c) with
  | .s (.poly p) => return p
  | _ => throw .typeAssert

/-- Check1 -/
example : panicsWith .check empty.check := by decide +kernel
/-- Check2 -/
example : panicsWith .check (mp [[badP, badP], [badP], [badP, badP]]).check := by decide +kernel
/-- Check3 -/
example : panicsWith .check (mp [[np 0, np 0], [np 0, np 0], [np 0, badP]]).check := by
  decide +kernel
/-- Check4 -/
example : ok x32.check := by decide +kernel
/-- Variables1 -/
example : gives 1 (numVariables x32) := by decide +kernel
/-- Variables2 -/
example : panics empty.variables := by decide +kernel
/-- Dims1 -/
example : hasDims 3 2 (pure x32) := by decide +kernel
/-- Dims2 -/
example : panics empty.dims := by decide +kernel
/-- Plus1 -/
example : panics (empty.plusArg (.e empty)) := by decide +kernel
/-- Plus2 -/
example : panicsWith .dimension (x32.plusArg (.e x22)) := by decide +kernel
/-- Plus3 -/
example : polyLens 2 (x32.plusArg (.f64 1)) := by decide +kernel
/-- Plus4 -/
example : hasTy .MonomialMatrix (x32.plusArg (.e x32)) := by decide +kernel
/-- Plus5 -/
example : polyLens 3 (do
    let p2 ← (← (sv (nv 0)).plusArg (.e (sv (nv 1)))).plusArg (.e (sv (nv 2)))
    x32.plusArg (.e p2)) := by decide +kernel
/-- Plus6 -/
example : polyLens 2 (x32.plusArg (.e (sm (nm 1)))) := by decide +kernel
/-- Plus7 -/
example : polyLens 2 (x32.plusArg (.e (mk (List.replicate 3 [1, 1])))) := by decide +kernel
/-- Plus8 -/
example : panicsWith .check (x32.plusArg (.e (sv badVar))) := by decide +kernel
/-- Plus9 -/
example : panics (x32.plusArg .other) := by decide +kernel
/-- Minus1 -/
example : panics (empty.minusArg (.e empty)) := by decide +kernel
/-- Minus2 -/
example : panicsWith .dimension (x32.minusArg (.e x22)) := by decide +kernel
/-- Minus3 -/
example : panics (x32.minusArg (.e (sm ⟨0, [], [nv 0]⟩))) := by decide +kernel
/-- Minus4 -/
example : hasTy .PolynomialVector (x31.minusArg (.f64 1)) ∧ polyLens 2 (x31.minusArg (.f64 1)) := by
  decide +kernel
/-- Minus5 -/
example : panics (x31.minusArg .other) := by decide +kernel
/-- Multiply1 -/
example : panics (empty.mulArg (.e empty)) := by decide +kernel
/-- Multiply2 -/
example : panicsWith .check (x22.mulArg (.e empty)) := by decide +kernel
/-- Multiply3 -/
example : panicsWith .dimension (x22.mulArg (.e (vk [1, 2.1, 3.14]))) := by decide +kernel
/-- Multiply4 -/
example : returns (fun e => ty e = .MonomialVector ∧ coeffs e = [[3.14, 3.14, 3.14]])
    (x31.mulArg (.f64 3.14)) := by decide +kernel
/-- Multiply5 -/
example : returns (fun
    | .s (.poly p) => p.monos.length == 3 &&
        p.monos.all (fun m => m.vars.length == 2 && m.exps == [1, 1])
    | _ => false) ((y 1 3).mulArg (.e (vv (nvs 3 3)))) := by decide +kernel
/-- Multiply6 -/
example : returns (fun e => ty e = .PolynomialVector ∧ lens e = [[3, 3]])
    ((y 2 3).mulArg (.e (vv (nvs 6 3)))) := by decide +kernel
/-- Multiply7 -/
example : panics ((y 1 3).mulArg .other) := by decide +kernel
/-- Multiply8 -/
example : panics ((y 1 3).mulArg (.e (mv []))) := by decide +kernel
/-- Multiply9 -/
example : hasTy .PolynomialMatrix ((y 2 3).mulArg (.e (mk [[1, 2], [3, 4], [5, 6]]))) ∧
    hasDims 2 2 ((y 2 3).mulArg (.e (mk [[1, 2], [3, 4], [5, 6]]))) := by decide +kernel
/-- Transpose1 -/
example : returns (fun
    | .m (.p l) => l.map (·.map (fun p => p.constant.toOption)) ==
        [[some 1, some 3, some 5], [some 2, some 4, some 6]]
    | _ => false) (do
    (mp [[← plusC 1, ← plusC 2], [← plusC 3, ← plusC 4], [← plusC 5, ← plusC 6]]).transpose) := by
  decide +kernel
/-- Transpose2 -/
example : panics empty.transpose := by decide +kernel
/-- LessEq1 -/
example : panics (empty.comparisonArg (.e empty) .le) := by decide +kernel
/-- GreaterEq1 -/
example : hasCTy .Matrix ((y 2 2).comparisonArg (.e (mk [[0, 0], [0, 0]])) .ge) := by
  decide +kernel
/-- GreaterEq2 -/
example : panics ((y 2 2).comparisonArg (.e (mv [])) .ge) := by decide +kernel
/-- Eq1 -/
example : hasSides .eq .PolynomialMatrix .KMatrix
    ((y 2 2).comparisonArg (.densePtr [[1, 2], [3, 4]]) .eq) := by decide +kernel
/-- Eq2 -/
example : panics ((y 2 2).comparisonArg (.densePtr [[1, 2], [3, 4], [5, 6]]) .eq) := by
  decide +kernel
/-- Eq3 -/
example : panics ((y 2 2).comparisonArg .other .eq) := by decide +kernel
/-- Comparison1 -/
example : hasSides .le .PolynomialMatrix .KMatrix ((y 2 2).comparisonArg (.f64 3.14) .le) := by
  decide +kernel
/-- DerivativeWrt1 -/
example : panics (empty.derivative (nv 0)) := by decide +kernel
/-- DerivativeWrt2 -/
example : panics (do (mp (← vmToPolyMat (nvm 0 3 2))).derivative badVar) := by decide +kernel
/-- DerivativeWrt3 -/
example : polyLens 1 (do (fill 3 2 (← minusC 3.14)).derivative (nv 0)) := by decide +kernel
/-- At1 -/
example : panics (empty.at 0 0) := by decide +kernel
/-- At2 -/
example : panics (x32.at 3 0) := by decide +kernel
/-- Constant1 -/
example : panics (Mat.constant (.p ([] : List (List (Poly ℚ))))) := by decide +kernel
/-- Constant2 -/
example : gives (List.replicate 3 [1, 1]) (do
    match ← (mp (← vmToPolyMat (nvm 0 3 2))).plusArg (.f64 1) with
    | .m a => a.constant
    | _ => throw .typeAssert) := by decide +kernel
/-- String1 -/
example : returns (fun s => returns (fun t => contains t s) ((sp (np 0)).chars fmt))
    (x32.chars fmt) := by decide +kernel
/-- AsSimplifiedExpression1 -/
example : returns (fun e => ty e = .PolynomialMatrix ∧ lens e = List.replicate 3 [2, 2])
    (do (fill 3 2 (← minusC 3.14)).asSimplified) := by decide +kernel

end Verif.Tests.PolynomialMatrix
