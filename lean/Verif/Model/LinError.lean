import Verif.Model.Errors

/-!
# Model of the errors that `LinearCoeff` panics with when there are no variables

Elsewhere these panics are the tag `Err.linCoeffConst`.  Here they are values with the expression they carry, and
`text` is what their method `Error` returns.  `fmt` is the format of a `float64` under the verb `%v`; `%v` of an
expression is its `String`, which does not panic because `LinearCoeff` has checked the expression.
-/

namespace Verif

variable {R : Type} [GoNum R]

/-- The two error types. -/
inductive LinError (R : Type)
  /-- `EmptyLinearCoeffsError` (`smErrors/empty_linear_coeffs.go:13-15`) -/
  | empty (e : Expr R)
  /-- `CanNotGetLinearCoeffOfConstantError` (`smErrors/linear_coeffs.go:13-15`) -/
  | ofConstant (e : Expr R)

/-- `Error` (`smErrors/empty_linear_coeffs.go:18-24`, `smErrors/linear_coeffs.go:17-23`). -/
def LinError.text (fmt : R → List Char) : LinError R → Go (List Char)
  | .empty e => (SmError.emptyLinearCoeffs e.like.goType).text
  | .ofConstant e => do
    let s ← e.chars fmt
    return "linear coefficients error: cannot find linear coefficients of object ".toList ++ s ++ " (type ".toList ++
      e.like.goType ++ ") which represents a constant (i.e., this is a polynomial that equals a constant like 3.14)!".toList

/-- The beginning of `LinearCoeff` of a scalar, up to the panic: `symbolic/constant.go:48-60`,
`variable.go:36-56`, `monomial.go:331-351`, `polynomial.go:627-649`. -/
def Scalar.linearCoeffError (e : Scalar R) (wrt : List (List (Var R))) : Go (Option (LinError R)) :=
  match e with
  | .k c =>
    match wrt with
    | [] => return some (.empty (.s (.k c)))
    | w :: _ => return (if w.isEmpty then some (.empty (.s (.k c))) else none)
  | .var v => do
    v.check
    let ws ← wrtOrDefault [v] wrt
    return (if ws.isEmpty then some (.ofConstant (.s (.var v))) else none)
  | .mono m => do
    m.check
    let ws ← wrtOrDefault m.vars wrt
    return (if ws.isEmpty then some (.ofConstant (.s (.mono m))) else none)
  | .poly p => do
    p.check
    let ws ← wrtOrDefault p.variables wrt
    return (if ws.isEmpty then some (.ofConstant (.s (.poly p))) else none)

/-- The beginning of `LinearCoeff` of a vector, up to the panic
(`symbolic/polynomial_like_vector.go:157-179`). -/
def Vec.linearCoeffError (a : Vec R) (wrt : List (List (Var R))) : Go (Option (LinError R)) := do
  a.check
  let ws ← match wrt with
    | [] => Expr.variables (.v a)
    | [w] => pure w
    | _ => throw .tooManyInputs
  return (if ws.isEmpty then some (.ofConstant (.v a)) else none)

end Verif
