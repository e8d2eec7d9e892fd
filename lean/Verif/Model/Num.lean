/-!
# Numbers and panics

`GoNum R` is the interface of `float64` that the library uses.  It has **no laws**.  Theorems that
only assume `[GoNum R]` therefore hold for IEEE arithmetic too (`GoNum Float` below).  Value
theorems use the exact instance for linearly ordered fields, in `Verif.Spec`.
-/

namespace Verif

/-- The operations on `float64` used by `/repo/symbolic`: literals `0.0`, `1.0`, `+`, `*`, `-`,
`/`, unary `-`, `float64(int)`, and the comparisons `==`, `<`, `<=` as Booleans. -/
class GoNum (R : Type) where
  zero : R
  one : R
  add : R → R → R
  mul : R → R → R
  sub : R → R → R
  div : R → R → R
  neg : R → R
  ofInt : Int → R
  feq : R → R → Bool
  lt : R → R → Bool
  le : R → R → Bool

/-- IEEE doubles are an instance (used only to show that the interface is inhabited by them). -/
instance : GoNum Float where
  zero := 0.0
  one := 1.0
  add := (· + ·)
  mul := (· * ·)
  sub := (· - ·)
  div := (· / ·)
  neg := fun x => -x
  ofInt := Float.ofInt
  feq := fun a b => a == b
  lt := fun a b => decide (a < b)
  le := fun a b => decide (a ≤ b)

/-- The kinds of panic.  Error texts are not modelled. -/
inductive Err
  | check            -- a failed `Check()` of an operand
  | dimension        -- smErrors.MatrixDimensionError and friends
  | unsupported      -- smErrors.UnsupportedInputError, "Unexpected type ..."
  | negExponent      -- smErrors.NegativeExponentError
  | index            -- Go index out of range, gonum row access, smErrors.OutOfBounds
  | typeAssert       -- failed type assertion `x.(T)`
  | linCoeffConst    -- CanNotGetLinearCoeffOfConstantError / EmptyLinearCoeffsError
  | tooManyInputs    -- variadic argument used more than once
  | notLinear        -- smErrors.LinearExpressionRequiredError
  | equalityRequired -- smErrors.EqualityConstraintRequiredError
  | inequalityRequired -- smErrors.InequalityConstraintRequiredError
  | empty            -- empty vector/matrix/argument list
  | other            -- any other `panic(fmt.Errorf(...))`
  deriving DecidableEq, Repr

/-- A Go computation: it returns a value or panics. -/
abbrev Go (α : Type) := Except Err α

end Verif
