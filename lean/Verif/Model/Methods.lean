import Verif.Model.Args

/-!
# The comparison methods as they are called

`LessEq`, `GreaterEq` and `Eq` take an `interface{}` and pass it to `Comparison` with their sense.  The other
methods that only forward to a template are modelled where the template is: `Power`
(`constant.go:341-343`, `variable.go:547-549`, `monomial.go:696-698`, `polynomial.go:769-771` to `Scalar.power`;
`constant_vector.go:502-504`, `variable_vector.go:490-492`, `monomial_vector.go:524-526`,
`polynomial_vector.go:514-516` to `Vec.power`; `constant_matrix.go:583-585`, `variable_matrix.go:595-597`,
`monomial_matrix.go:595-597`, `polynomial_matrix.go:602-604` to `Mat.power`), `Substitute`
(`variable_vector.go:461-463`, `monomial_vector.go:497-499`, `polynomial_vector.go:486-488`,
`variable_matrix.go:567-569`, `monomial_matrix.go:568-570`, `polynomial_matrix.go:574-576` to `Vec.substitute` and
`Mat.substitute`), `LinearCoeff` (`constant_vector.go:70-72`, `variable_vector.go:81-83`,
`monomial_vector.go:536-538`, `polynomial_vector.go:118-120` to `Vec.linearCoeff`), `Dims` of scalars
(`constant.go:290-292`, `variable.go:354-356`, `monomial.go:47-49`, `polynomial.go:53-55` in `Expr.dims`), `Degree`
of constants (`constant_vector.go:485-487`, `constant_matrix.go:566-568` in `Expr.degree`), `Variables` of
constraints (`scalar_constraint.go:250-252`, `vector_constraint.go:297-299`, `matrix_constraint.go:180-182` to
`Con.variables`) and `AsSimplifiedConstraint` of a scalar constraint (`scalar_constraint.go:245-247` to
`SCon.simplify`).
-/

namespace Verif

variable {R : Type} [GoNum R]

/-- `LessEq` (`constant.go:160-162`, `variable.go:176-178`, `monomial.go:251-253`, `polynomial.go:438-440`,
`constant_vector.go:196-198`, `variable_vector.go:227-229`, `monomial_vector.go:252-254`,
`polynomial_vector.go:364-366`, `constant_matrix.go:342-345`, `variable_matrix.go:397-399`,
`monomial_matrix.go:433-435`, `polynomial_matrix.go:401-403`). -/
def Expr.lessEqArg (a : Expr R) (x : Arg R) : Go (Con R) := a.comparisonArg x .le

/-- `GreaterEq` (`constant.go:166-168`, `variable.go:182-184`, `monomial.go:258-260`, `polynomial.go:443-445`,
`constant_vector.go:201-203`, `variable_vector.go:233-235`, `monomial_vector.go:257-259`,
`polynomial_vector.go:371-373`, `constant_matrix.go:349-352`, `variable_matrix.go:403-405`,
`monomial_matrix.go:439-441`, `polynomial_matrix.go:407-409`). -/
def Expr.greaterEqArg (a : Expr R) (x : Arg R) : Go (Con R) := a.comparisonArg x .ge

/-- `Eq` (`constant.go:172-174`, `variable.go:188-190`, `monomial.go:264-266`, `polynomial.go:448-450`,
`constant_vector.go:206-208`, `variable_vector.go:239-242`, `monomial_vector.go:262-264`,
`polynomial_vector.go:378-380`, `constant_matrix.go:356-359`, `variable_matrix.go:409-411`,
`monomial_matrix.go:445-447`, `polynomial_matrix.go:413-415`). -/
def Expr.eqArg (a : Expr R) (x : Arg R) : Go (Con R) := a.comparisonArg x .eq

end Verif
