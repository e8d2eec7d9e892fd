{"id": "C01", "title": "Scalar Plus denotes polynomial addition", "statement": "For any two well-formed scalar expressions a and b (constant, Variable, Monomial or Polynomial), a.Plus(b) returns (does not panic) a well-formed scalar expression that denotes, as an element of the multivariate polynomial ring, exactly the sum of the polynomials denoted by a and b; in particular it evaluates to a+b at every assignment of the variables.", "quantifier": "for all pairs of well-formed scalar expressions of every kind and size, and all assignments", "why_tests_cant": "Infinitely many polynomials with any number of terms, variables and exponent patterns; an error appears only for particular combinations of factor order and exponents that a finite table of sums does not contain.", "anchors": ["symbolic/monomial.go:Monomial.Plus", "symbolic/monomial.go:Monomial.MatchesFormOf", "symbolic/polynomial.go:Polynomial.Plus", "symbolic/variable.go:Variable.Plus", "symbolic/constant.go:K.Plus"]}
{"id": "C02", "title": "Scalar Multiply denotes polynomial multiplication", "statement": "For any two well-formed scalar expressions a and b, a.Multiply(b) returns a well-formed scalar expression denoting the product of the two denoted polynomials.", "quantifier": "for all pairs of well-formed scalar expressions, and all assignments", "why_tests_cant": "The product of two polynomials depends on all pairs of terms; tests check a few literals.", "anchors": ["symbolic/monomial.go:Monomial.Multiply", "symbolic/polynomial.go:Polynomial.Multiply", "symbolic/variable.go:Variable.Multiply", "symbolic/constant.go:K.Multiply"]}
{"id": "C03", "title": "Scalar Minus denotes subtraction", "statement": "For any two well-formed scalar expressions a and b, a.Minus(b) returns a well-formed scalar expression denoting a-b; in particular a.Minus(a) denotes zero.", "quantifier": "for all pairs of well-formed scalar expressions", "why_tests_cant": "Unbounded input space; cancellation depends on every term being matched with its negation.", "anchors": ["symbolic/expression.go:Minus", "symbolic/polynomial.go:Polynomial.Minus", "symbolic/monomial.go:Monomial.Minus", "symbolic/variable.go:Variable.Minus", "symbolic/constant.go:K.Minus"]}
{"id": "C04", "title": "Power is repeated multiplication", "statement": "For any well-formed scalar expression b and any integer n>=0, b.Power(n) returns an expression denoting the n-th power of b (1 for n=0); for every n<0 it panics with a negative-exponent error.", "quantifier": "for all well-formed scalar expressions and all integers n", "why_tests_cant": "n is unbounded; tests only cover small powers.", "anchors": ["symbolic/scalar_expression.go:ScalarPowerTemplate"]}
{"id": "C05", "title": "Algebraic laws up to meaning", "statement": "Commutativity, associativity, distributivity, neutral elements and additive inverses hold for Plus/Multiply/Minus on scalar expressions when results are compared by the polynomial they denote.", "quantifier": "for all triples of well-formed scalar expressions", "why_tests_cant": "A law over triples of arbitrary expressions is a universally quantified statement; the mixed-type dispatch has 64 type triples with unbounded contents.", "anchors": ["symbolic/polynomial.go", "symbolic/monomial.go", "symbolic/variable.go", "symbolic/constant.go"]}
{"id": "C06", "title": "Simplification never changes the meaning", "statement": "Polynomial.Simplify and AsSimplifiedExpression (on every scalar kind) denote the same polynomial as their receiver.", "quantifier": "for all well-formed scalar expressions", "why_tests_cant": "The merge loop may combine any pair of the arbitrarily many terms; one wrong merge pattern is enough to break it.", "anchors": ["symbolic/polynomial.go:Polynomial.Simplify", "symbolic/polynomial.go:Polynomial.AsSimplifiedExpression", "symbolic/monomial.go:Monomial.AsSimplifiedExpression"]}
{"id": "C07", "title": "Simplify produces a normal form", "statement": "After Simplify no term has coefficient zero (unless the polynomial is the single term 0), at most one term is constant, no two terms have the same powers of the same variables, and simplifying again changes nothing; hence two polynomials denoting the same thing simplify to the same set of terms.", "quantifier": "for all well-formed polynomials", "why_tests_cant": "Normal-form and idempotence claims quantify over all inputs and over pairs of terms in the output.", "anchors": ["symbolic/polynomial.go:Polynomial.Simplify"]}
{"id": "C08", "title": "AsSimplifiedExpression returns the smallest kind", "statement": "AsSimplifiedExpression (hence every Plus result) is a constant exactly when the denoted polynomial is constant, a Variable exactly when it denotes one variable, and a Monomial exactly when it denotes a single other term.", "quantifier": "for all well-formed scalar expressions", "why_tests_cant": "An if-and-only-if about every expression; a test shows only individual directions on examples.", "anchors": ["symbolic/polynomial.go:Polynomial.AsSimplifiedExpression", "symbolic/monomial.go:Monomial.AsSimplifiedExpression"]}
{"id": "C09", "title": "DerivativeWrt is the formal partial derivative", "statement": "For every well-formed scalar expression e and valid variable v, e.DerivativeWrt(v) denotes the formal partial derivative of e with respect to v.", "quantifier": "for all well-formed scalar expressions and variables", "why_tests_cant": "Unbounded exponents and numbers of terms and factors.", "anchors": ["symbolic/monomial.go:Monomial.DerivativeWrt", "symbolic/polynomial.go:Polynomial.DerivativeWrt", "symbolic/variable.go:Variable.DerivativeWrt", "symbolic/constant.go:K.DerivativeWrt"]}
{"id": "C10", "title": "Differentiation leaves its operand unchanged", "statement": "Calling DerivativeWrt on an expression does not change what that expression (or any other expression the caller holds) denotes, so a gradient computed by differentiating the same object with respect to several variables one after another is the true gradient.", "quantifier": "for all heaps, all expressions in them and all sequences of differentiation calls", "why_tests_cant": "The corruption happens through shared slices and is visible only in a later use of another object; example tests look at the returned value only.", "anchors": ["symbolic/monomial.go:Monomial.DerivativeWrt", "symbolic/polynomial.go:Polynomial.Copy", "symbolic/polynomial.go:Polynomial.DerivativeWrt", "symbolic/polynomial_vector.go:PolynomialVector.DerivativeWrt"]}
{"id": "C11", "title": "Differentiation of vectors and matrices is entrywise", "statement": "For every well-formed vector or matrix expression, DerivativeWrt(v) returns an expression of the same shape whose entries denote the partial derivatives of the entries.", "quantifier": "for all vector and matrix expressions and variables", "why_tests_cant": "Arbitrary sizes and exponents; the defect needs an exponent of at least 2 in a monomial vector.", "anchors": ["symbolic/monomial_vector.go:MonomialVector.DerivativeWrt", "symbolic/polynomial_vector.go:PolynomialVector.DerivativeWrt", "symbolic/variable_vector.go:VariableVector.DerivativeWrt", "symbolic/constant_vector.go:KVector.DerivativeWrt", "symbolic/monomial_matrix.go:MonomialMatrix.DerivativeWrt", "symbolic/polynomial_matrix.go:PolynomialMatrix.DerivativeWrt"]}
{"id": "C12", "title": "Substitute is composition", "statement": "For every well-formed scalar expression e, variable v and scalar expression s, e.Substitute(v,s) denotes e with v replaced by s and every other variable kept; equivalently its value at an assignment is the value of e at the assignment updated with the value of s at v.", "quantifier": "for all well-formed e, v, s and all assignments", "why_tests_cant": "Quantifies over three unbounded objects and all assignments.", "anchors": ["symbolic/monomial.go:Monomial.Substitute", "symbolic/polynomial.go:Polynomial.Substitute", "symbolic/variable.go:Variable.Substitute", "symbolic/constant.go:K.Substitute"]}
{"id": "C13", "title": "SubstituteAccordingTo is simultaneous on scalars", "statement": "For every scalar expression and substitution map, SubstituteAccordingTo denotes the simultaneous replacement of all mapped variables (swap maps swap), and with a map of constants for all variables it returns the constant obtained by evaluating the expression.", "quantifier": "for all scalar expressions and all substitution maps", "why_tests_cant": "Maps of any size with overlapping keys and values; simultaneity is only visible for overlapping ones.", "anchors": ["symbolic/monomial.go:Monomial.SubstituteAccordingTo", "symbolic/polynomial.go:Polynomial.SubstituteAccordingTo", "symbolic/variable.go:Variable.SubstituteAccordingTo", "symbolic/utils.go:CheckSubstitutionMap"]}
{"id": "C14", "title": "Map substitution does not depend on map iteration order", "statement": "For vectors and matrices, SubstituteAccordingTo yields the same entries whatever order the runtime iterates over the map, and those entries are the simultaneous substitution of the entries.", "quantifier": "for all vector/matrix expressions, all maps and all iteration orders", "why_tests_cant": "Go randomises map iteration; a passing test run shows one order only.", "anchors": ["symbolic/variable_vector.go:VariableVector.SubstituteAccordingTo", "symbolic/monomial_vector.go:MonomialVector.SubstituteAccordingTo", "symbolic/polynomial_vector.go:PolynomialVector.SubstituteAccordingTo", "symbolic/variable_matrix.go:VariableMatrix.SubstituteAccordingTo"]}
{"id": "C15", "title": "LinearCoeff reads the linear coefficients", "statement": "For every well-formed scalar expression e and non-empty list of valid variables, e.LinearCoeff(vars) returns (does not panic) the vector whose i-th entry is the coefficient of the i-th variable's first-degree term in the polynomial e denotes.", "quantifier": "for all scalar expressions and all non-empty variable lists", "why_tests_cant": "Requires all combinations of expression kind and variable list, including lists that do not contain the variable.", "anchors": ["symbolic/monomial.go:Monomial.LinearCoeff", "symbolic/polynomial.go:Polynomial.LinearCoeff", "symbolic/variable.go:Variable.LinearCoeff", "symbolic/constant.go:K.LinearCoeff"]}
{"id": "C16", "title": "Constant reads the constant term", "statement": "For every well-formed scalar expression e, e.Constant() is the constant term of the polynomial e denotes (its value when all variables are zero).", "quantifier": "for all well-formed scalar expressions", "why_tests_cant": "Depends on all terms, including several constant terms in an unsimplified polynomial.", "anchors": ["symbolic/polynomial.go:Polynomial.Constant", "symbolic/monomial.go:Monomial.Constant", "symbolic/variable.go:Variable.Constant", "symbolic/constant.go:K.Constant"]}
{"id": "C17", "title": "Affine reconstruction", "statement": "If IsLinear(e) then e denotes Constant() plus the dot product of LinearCoeff(vars) with vars, for any duplicate-free variable list covering the variables of e.", "quantifier": "for all linear scalar expressions, all covering variable lists", "why_tests_cant": "Links three API functions for all inputs; tests look at each one in isolation.", "anchors": ["symbolic/expression.go:IsLinear", "symbolic/polynomial.go:Polynomial.LinearCoeff", "symbolic/polynomial.go:Polynomial.Constant"]}
{"id": "C18", "title": "Degree is the total degree", "statement": "Degree() of a scalar expression is at least the total degree of the polynomial it denotes, with equality on simplified expressions; consequently IsLinear/IsQuadratic answer correctly on simplified expressions.", "quantifier": "for all well-formed scalar expressions", "why_tests_cant": "Equality must exclude every possible cancellation between terms.", "anchors": ["symbolic/polynomial.go:Polynomial.Degree", "symbolic/monomial.go:Monomial.Degree", "symbolic/expression.go:IsLinear", "symbolic/expression.go:IsQuadratic"]}
{"id": "C19", "title": "Variables() is complete and duplicate free", "statement": "e.Variables() contains no two variables with the same ID and contains every variable the denoted polynomial depends on.", "quantifier": "for all well-formed scalar, vector and matrix expressions", "why_tests_cant": "A completeness and uniqueness claim over lists of any length.", "anchors": ["symbolic/polynomial.go:Polynomial.Variables", "symbolic/monomial.go:Monomial.Variables", "symbolic/variable.go:UniqueVars", "symbolic/variable_vector.go:VariableVector.Variables"]}
{"id": "C20", "title": "UniqueVars and UnionOfVariables implement set union", "statement": "UniqueVars keeps exactly one variable per ID, namely the first occurrence, in order of first occurrence; UnionOfVariables has as IDs exactly the union; both are idempotent.", "quantifier": "for all lists of variables", "why_tests_cant": "Lists of any length with any pattern of repetition.", "anchors": ["symbolic/variable.go:UniqueVars", "symbolic/variable.go:UnionOfVariables", "symbolic/utils.go:FindInSlice", "symbolic/utils.go:Unique"]}
{"id": "C21", "title": "New variables are fresh", "statement": "Every variable returned by NewVariable/NewContinuousVariable/NewBinaryVariable/NewVariableVector/NewVariableMatrix in an environment has an ID different from every variable created in or tracked by that environment before, and the environment tracks it afterwards.", "quantifier": "for all sequences of creation and TrackVariable calls on any number of environments", "why_tests_cant": "A property of all histories; the failing histories interleave TrackVariable with creation.", "anchors": ["symbolic/variable.go:NewContinuousVariable", "symbolic/variable.go:NewBinaryVariable", "symbolic/variable_vector.go:NewVariableVector", "symbolic/variable_matrix.go:NewVariableMatrixClassic", "symbolic/basic_environment.go:BasicEnvironment.TrackVariable"]}
{"id": "C22", "title": "Concurrent variable creation yields distinct IDs", "statement": "When several goroutines create variables in the same environment concurrently, all returned variables have distinct IDs.", "quantifier": "for all numbers of goroutines and all schedules", "why_tests_cant": "Depends on the schedule; a test run exercises one of exponentially many.", "anchors": ["symbolic/variable.go:NewContinuousVariable", "symbolic/basic_environment.go:BasicEnvironment.TrackVariable"]}
{"id": "C23", "title": "Variables of different environments stay distinct", "statement": "Two variables created in different environments are never identified by arithmetic: their sum has two variables and x-y is not zero.", "quantifier": "for all pairs of environments and variables", "why_tests_cant": "Tests almost always use the default environment only.", "anchors": ["symbolic/variable.go:Variable.Plus", "symbolic/utils.go:FindInSlice", "symbolic/variable.go:Variable.Substitute"]}
{"id": "C24", "title": "Addition of vectors is entrywise with correct broadcasting", "statement": "For vector expressions of equal length, or a vector and a scalar, Plus returns the entrywise sum with the same length; operands of different length greater than one are rejected with a dimension error.", "quantifier": "for all vector expressions of every kind and every length", "why_tests_cant": "Arbitrary lengths and 16+ type combinations.", "anchors": ["symbolic/vector_expression.go:VectorPlusTemplate", "symbolic/constant_vector.go:KVector.Plus", "symbolic/variable_vector.go:VariableVector.Plus", "symbolic/monomial_vector.go:MonomialVector.Plus", "symbolic/polynomial_vector.go:PolynomialVector.Plus"]}
{"id": "C25", "title": "Scaling a vector is entrywise", "statement": "Multiplying a vector expression by a scalar expression multiplies every entry and keeps the length.", "quantifier": "for all vectors and scalars", "why_tests_cant": "Arbitrary lengths and type combinations.", "anchors": ["symbolic/vector_expression.go:VectorMultiplyTemplate", "symbolic/variable_vector.go:VariableVector.Multiply"]}
{"id": "C26", "title": "Matrix product has the textbook entries", "statement": "For matrix expressions of compatible shapes the entry (i,j) of the product denotes the sum over k of left(i,k)*right(k,j), and the shape is rows(left) x cols(right).", "quantifier": "for all compatible matrices of every size", "why_tests_cant": "Sizes are unbounded.", "anchors": ["symbolic/matrix_expression.go:MatrixMultiplyTemplate", "symbolic/constant_matrix.go:KMatrix.Multiply"]}
{"id": "C27", "title": "Matrix addition is entrywise", "statement": "For matrix expressions of equal shape Plus returns the entrywise sum with the same shape and does not panic.", "quantifier": "for all matrices of every kind and size", "why_tests_cant": "Sizes unbounded; the failing cases depend on the kinds and on zero entries.", "anchors": ["symbolic/matrix_expression.go:MatrixPlusTemplate", "symbolic/variable_matrix.go:VariableMatrix.Plus", "symbolic/constant_matrix.go:KMatrix.Plus", "symbolic/polynomial_matrix.go:PolynomialMatrix.Plus"]}
{"id": "C28", "title": "Transpose swaps indices and is an involution", "statement": "Transpose of an r x c expression is c x r with entry (j,i) equal to entry (i,j); transposing twice gives back the same shape and entries.", "quantifier": "for all well-formed expressions of every shape", "why_tests_cant": "Sizes unbounded, ragged inputs must be excluded by Check.", "anchors": ["symbolic/constant_matrix.go:KMatrix.Transpose", "symbolic/variable_matrix.go:VariableMatrix.Transpose", "symbolic/variable_vector.go:VariableVector.Transpose", "symbolic/polynomial_matrix.go:PolynomialMatrix.Transpose"]}
{"id": "C29", "title": "HStack and VStack place every block correctly", "statement": "HStack/VStack of shape-compatible expressions returns the block row/column: its shape is the sum of the widths/heights and each entry is the corresponding entry of the corresponding block.", "quantifier": "for all non-empty lists of expressions", "why_tests_cant": "Any number of blocks of any sizes.", "anchors": ["symbolic/expression.go:HStack", "symbolic/expression.go:VStack", "symbolic/matrix_expression.go:ConcretizeMatrixExpression"]}
{"id": "C30", "title": "Concretize keeps entries", "statement": "ConcretizeVectorExpression/ConcretizeMatrixExpression return an expression with the same shape whose entries denote the same polynomials as the given scalars, and panic only on empty or ragged input.", "quantifier": "for all non-empty lists/tables of scalar expressions", "why_tests_cant": "The result type depends on the mix of kinds in arbitrarily long lists.", "anchors": ["symbolic/vector_expression.go:ConcretizeVectorExpression", "symbolic/matrix_expression.go:ConcretizeMatrixExpression", "symbolic/expression.go:ConcretizeExpression"]}
{"id": "C31", "title": "Dimension checks accept exactly the compatible shapes", "statement": "CheckDimensionsInAddition/Subtraction/Comparison/Multiplication/HStack/VStack return no error exactly for the shape combinations on which the operation is mathematically defined (equal shapes or a scalar operand; inner dimensions equal or a scalar operand; equal heights/widths).", "quantifier": "for all shapes", "why_tests_cant": "An equivalence over all pairs of natural numbers.", "anchors": ["smErrors/matrix_dimension_error.go:CheckDimensionsInAddition", "smErrors/matrix_dimension_error.go:CheckDimensionsInMultiplication", "smErrors/matrix_dimension_error.go:CheckDimensionsInHStack", "smErrors/matrix_dimension_error.go:CheckDimensionsInVStack", "symbolic/utils.go:CheckDimensionsInComparison"]}
{"id": "C32", "title": "Index checks accept exactly the valid indices", "statement": "At/AtVec succeed exactly when 0<=i<rows and 0<=j<cols and panic with an out-of-bounds error otherwise.", "quantifier": "for all shapes and all integers i, j", "why_tests_cant": "All integers including negative ones.", "anchors": ["smErrors/out_of_bounds_error.go:CheckIndexOnVector", "smErrors/out_of_bounds_error.go:CheckIndexOnMatrix"]}
{"id": "C33", "title": "Comparison builds the constraint that was asked for", "statement": "a.LessEq(b), a.GreaterEq(b), a.Eq(b) return constraints satisfied by exactly the assignments with a<=b, a>=b, a=b; a.LessEq(b) and b.GreaterEq(a) have the same solutions.", "quantifier": "for all scalar expressions and assignments", "why_tests_cant": "Quantifies over all assignments.", "anchors": ["symbolic/constant.go:K.Comparison", "symbolic/variable.go:Variable.Comparison", "symbolic/monomial.go:Monomial.Comparison", "symbolic/polynomial.go:Polynomial.Comparison"]}
{"id": "C34", "title": "Simplifying a constraint preserves its solutions and isolates the constant", "statement": "ScalarConstraint.Simplify returns a constraint with the same sense and the same solution set, whose right side is a constant and whose left side has no constant term.", "quantifier": "for all well-formed scalar constraints and all assignments", "why_tests_cant": "Solution sets are infinite.", "anchors": ["symbolic/scalar_constraint.go:ScalarConstraint.Simplify", "symbolic/scalar_constraint.go:ScalarConstraint.AsSimplifiedConstraint"]}
{"id": "C35", "title": "Scaling a constraint by a non-zero factor preserves its solutions", "statement": "ScaleBy(f) with f nonzero returns a constraint with the same solution set (flipping inequality senses for negative f).", "quantifier": "for all well-formed constraints, factors and assignments", "why_tests_cant": "All factors of both signs and all assignments.", "anchors": ["symbolic/scalar_constraint.go:ScalarConstraint.ScaleBy"]}
{"id": "C36", "title": "Linear inequality representation is equivalent to the constraint", "statement": "For a linear <= or >= constraint and a duplicate-free variable list covering its variables, LinearInequalityConstraintRepresentation(vars) returns (A,b) such that an assignment satisfies the constraint iff A.x <= b.", "quantifier": "for all linear inequality constraints, variable lists and assignments", "why_tests_cant": "Equivalence of solution sets; sign and constant errors vanish on symmetric test data.", "anchors": ["symbolic/scalar_constraint.go:ScalarConstraint.LinearInequalityConstraintRepresentation", "symbolic/vector_constraint.go:VectorConstraint.LinearInequalityConstraintRepresentation"]}
{"id": "C37", "title": "Linear equality representation is equivalent to the constraint", "statement": "For a linear equality constraint and a covering variable list, LinearEqualityConstraintRepresentation(vars) returns (C,d) such that an assignment satisfies the constraint iff C.x = d; for any other sense it panics.", "quantifier": "for all linear equality constraints, variable lists and assignments", "why_tests_cant": "Equivalence of solution sets.", "anchors": ["symbolic/scalar_constraint.go:ScalarConstraint.LinearEqualityConstraintRepresentation", "symbolic/vector_constraint.go:VectorConstraint.LinearEqualityConstraintRepresentation"]}
{"id": "C38", "title": "ImpliesThisIsAlsoSatisfied is sound", "statement": "If c1.ImpliesThisIsAlsoSatisfied(c2) returns true then every assignment satisfying c1 satisfies c2.", "quantifier": "for all pairs of well-formed constraints and all assignments", "why_tests_cant": "A false positive is found only by quantifying over assignments and over constraints with constants on the left side or nonlinear terms.", "anchors": ["symbolic/scalar_constraint.go:ScalarConstraint.ImpliesThisIsAlsoSatisfied", "symbolic/vector_constraint.go:VectorConstraint.ImpliesThisIsAlsoSatisfied", "symbolic/matrix_constraint.go:MatrixConstraint.ImpliesThisIsAlsoSatisfied"]}
{"id": "C39", "title": "IsNonnegativityConstraint recognises exactly x>=0", "statement": "IsNonnegativityConstraint returns true exactly when the solution set of the constraint is {x >= 0} for one variable x.", "quantifier": "for all well-formed scalar constraints", "why_tests_cant": "An equivalence with a set of assignments.", "anchors": ["symbolic/scalar_constraint.go:ScalarConstraint.IsNonnegativityConstraint"]}
{"id": "C40", "title": "Compiling constraints preserves the feasible set", "statement": "CompileConstraintsIntoScalarConstraints returns scalar constraints whose conjunction is satisfied by exactly the assignments that satisfy all entries of all given scalar, vector and matrix constraints; the number of outputs is the total number of entries.", "quantifier": "for all lists of well-formed constraints and all assignments", "why_tests_cant": "Any number of constraints of any size.", "anchors": ["symbolic/constraint.go:CompileConstraintsIntoScalarConstraints", "symbolic/vector_constraint.go:VectorConstraint.AtVec", "symbolic/matrix_constraint.go:MatrixConstraint.At"]}
{"id": "C41", "title": "Substitution in constraints commutes with satisfaction", "statement": "An assignment satisfies c.Substitute(v,s) iff the assignment updated at v with the value of s satisfies c.", "quantifier": "for all scalar constraints, variables, expressions and assignments", "why_tests_cant": "Quantifies over all assignments.", "anchors": ["symbolic/scalar_constraint.go:ScalarConstraint.Substitute", "symbolic/scalar_constraint.go:ScalarConstraint.SubstituteAccordingTo"]}
{"id": "C42", "title": "Quadratic forms", "statement": "For n>=2, x a vector of n variables and Q an n x n constant matrix, x.Transpose().Multiply(Q).Multiply(x) is a scalar denoting the sum over i,j of Q[i][j]*x_i*x_j.", "quantifier": "for all n, all Q and all variable vectors (with repetitions)", "why_tests_cant": "n and Q are unbounded; intermediate types depend on which entries of Q are zero or one.", "anchors": ["README.md", "symbolic/variable_vector.go:VariableVector.Transpose", "symbolic/variable_matrix.go:VariableMatrix.Multiply", "symbolic/monomial_matrix.go:MonomialMatrix.Multiply", "symbolic/polynomial_matrix.go:PolynomialMatrix.Multiply"]}
{"id": "C43", "title": "Malformed operands are rejected", "statement": "Every arithmetic method panics when its receiver fails Check, and when a malformed expression is passed as an argument; no operation on well-formed operands returns an expression that fails Check.", "quantifier": "for all receivers and arguments", "why_tests_cant": "Quantifies over all malformed values and all argument kinds.", "anchors": ["symbolic/monomial.go:Monomial.Check", "symbolic/polynomial.go:Polynomial.Check", "symbolic/variable.go:Variable.Check"]}
{"id": "C44", "title": "Reading shared expressions concurrently is safe", "statement": "Multiplying the same Monomial by different expressions from several goroutines gives each goroutine the product it would obtain alone.", "quantifier": "for all schedules and all slice capacities", "why_tests_cant": "Needs a particular interleaving and spare slice capacity.", "anchors": ["symbolic/monomial.go:Monomial.Multiply"]}
{"id": "C45", "title": "getKVector.From and getKMatrix.From keep the data", "statement": "From returns a KVector/KMatrix with exactly the entries of the given slice/dense value, in the same positions.", "quantifier": "for all inputs of every supported type and size", "why_tests_cant": "All sizes, including empty and ragged input.", "anchors": ["get/KVector/from.go:From", "get/KMatrix/from.go:From"]}
{"id": "C46", "title": "Matrix Power is repeated multiplication", "statement": "For a square matrix expression and n>=0, Power(n) denotes the n-th matrix power (identity for n=0); non-square matrices and negative exponents are rejected.", "quantifier": "for all square matrices and all integers n", "why_tests_cant": "n and the size are unbounded.", "anchors": ["symbolic/matrix_expression.go:MatrixPowerTemplate"]}
{"id": "C47", "title": "Feasible-set equivalence of vector linear representations", "statement": "For a linear vector constraint and covering duplicate-free variable list, the returned (A,b) satisfies: an assignment satisfies all entries iff A x <= b entrywise (resp. C x = d).", "quantifier": "for all linear vector constraints, variable lists and assignments", "why_tests_cant": "Any number of rows and columns.", "anchors": ["symbolic/vector_constraint.go:VectorConstraint.LinearInequalityConstraintRepresentation", "symbolic/vector_constraint.go:VectorConstraint.LinearEqualityConstraintRepresentation", "symbolic/polynomial_like_vector.go:PolynomialLikeVector_SharedLinearCoeffCalc"]}
{"id": "C48", "title": "Numbers and gonum values act as the constants they denote", "statement": "Plus, Minus, Multiply and Comparison called with a float64, an int, a mat.VecDense, a *mat.VecDense, a mat.Dense or a *mat.Dense either reject the argument because its type is not supported by the receiver, or return exactly what they return for the constant expression K, KVector or KMatrix with the same value (the same expression, or the same rejection). float64 is supported by every receiver in Plus, Minus and Multiply. The one combination without a constant counterpart, KMatrix times *mat.VecDense (KMatrix rejects KVector), returns the matrix-vector product.", "quantifier": "for all well-formed receivers of all twelve kinds and all argument values of all types", "why_tests_cant": "Each receiver converts arguments in its own switch, some of them twice and with an extra simplification or through gonum; agreement has to hold for every value, shape and kind.", "anchors": ["symbolic/constant.go:K.Plus", "symbolic/constant_vector.go:KVector.Plus", "symbolic/constant_matrix.go:KMatrix.Multiply", "symbolic/variable.go:Variable.Multiply", "symbolic/variable_matrix.go:VariableMatrix.Comparison", "symbolic/expression.go:ToExpression"]}
{"id": "C49", "title": "Operations return simplified expressions", "statement": "What Plus, Minus and Multiply return is already simplified: AsSimplifiedExpression returns it unchanged (same kind, same terms, same order). AsSimplifiedExpression itself is idempotent on scalars, vectors and matrices.", "quantifier": "for all well-formed operands of all twelve kinds and all shapes", "why_tests_cant": "Every receiver ends in its own way, some with the kind-dependent simplification of each entry; the result has to be a fixed point for every operand.", "anchors": ["symbolic/expression.go:Expression", "symbolic/polynomial.go:Polynomial.Plus", "symbolic/monomial.go:Monomial.Multiply", "symbolic/monomial_matrix.go:MonomialMatrix.Plus", "symbolic/constant.go:K.Minus"]}
{"id": "C50", "title": "Every expression that can be built is well formed", "statement": "Starting from constants, variables with valid bounds and non-empty rectangular arrays of them, whatever a program obtains by any sequence of Plus, Minus, Multiply (with expressions or with numbers and gonum values), Power, Transpose, AsSimplifiedExpression, HStack, VStack, At, AtVec, ToMonomial, ToPolynomial, Concretize*, Substitute, SubstituteAccordingTo and DerivativeWrt is well formed: Check accepts it, its entries form a non-empty rectangle, exponents and variables of every monomial match, and no monomial repeats a variable.", "quantifier": "for all programs, of any length, over all inputs", "why_tests_cant": "An invariant of arbitrarily long programs over every pair of kinds.", "anchors": ["symbolic/expression.go:Expression", "symbolic/monomial.go:Monomial.Check", "symbolic/polynomial.go:Polynomial.Check", "symbolic/matrix_expression.go:ConcretizeMatrixExpression"]}
{"id": "C51", "title": "Multiplying monomials leaves the caller's data unchanged", "statement": "Monomial.Multiply(Monomial) changes neither its receiver nor its argument nor any other slice of variables the caller holds, and returns the product of the values, however the slices of variables share arrays.", "quantifier": "for all monomials, all slices in memory (array, offset, length, capacity) and all programs of multiplications and struct copies", "why_tests_cant": "Depends on the capacity of slices and on which other slices share an array; needs every program and every layout.", "anchors": ["symbolic/monomial.go:Monomial.Multiply", "symbolic/variable.go:UniqueVars"]}
{"id": "C52", "title": "Conversions between kinds keep the entries; queries answer by meaning", "statement": "ToMonomialVector, ToPolynomialVector, ToMonomialMatrix, ToPolynomialMatrix and Copy return an array of the same shape whose entries denote the same polynomials and mention the same variables. OnesVector, ZerosVector, OnesMatrix, ZerosMatrix and Identity return the matrices named, for all positive sizes. IsZero, IsConstant, IsConstantVector, IsSquare, NumVariables, VariableIDs and MonomialIndex answer according to the polynomials denoted, and ToPolynomialLike accepts what ToExpression accepts.", "quantifier": "for all vectors and matrices of every kind and size, all sizes and all monomials", "why_tests_cant": "All shapes (including ragged and empty slices), all entries and all orders of factors.", "anchors": ["symbolic/constant_vector.go:KVector.ToPolynomialVector", "symbolic/constant_matrix.go:KMatrix.ToMonomialMatrix", "symbolic/constant_matrix.go:Identity", "symbolic/polynomial.go:Polynomial.MonomialIndex", "symbolic/polynomial_like.go:ToPolynomialLike"]}
{"id": "C53", "title": "Printed expressions can be told apart", "statement": "String never panics on a well-formed expression. Two expressions that print the same text have the same type (constants, variables, monomials and polynomials printing alike), the same shape and, entry by entry, the same terms in the same order, hence denote the same polynomials; two scalar constraints that print the same text have the same sense and the same terms on both sides; and the brackets in the text of a vector or matrix match.", "quantifier": "for all well-formed expressions of every kind and size, all variables and all scalar constraints", "why_tests_cant": "Injectivity of the rendering over all pairs of expressions.", "anchors": ["symbolic/monomial.go:Monomial.String", "symbolic/polynomial.go:Polynomial.String", "symbolic/constant_matrix.go:KMatrix.String", "symbolic/monomial_matrix.go:MonomialMatrix.String", "symbolic/scalar_constraint.go:ScalarConstraint.String"]}
{"id": "C54", "title": "No silent wrong results", "statement": "Whenever Plus, Minus or Multiply returns a value, whatever the kinds of the operands, the shapes of the operands fit (equal for sums and differences, equal inner dimensions for products, or one operand is a scalar), the result has the shape of the sum, difference or product, is well formed, mentions only variables of the operands, and its entries denote the entries of the mathematical sum, difference or product.", "quantifier": "for all pairs of expressions of every kind and every size", "why_tests_cant": "Quantifies over all sizes, all sixteen pairs of array kinds and all entries; tests sample a few.", "anchors": ["symbolic/matrix_expression.go:MatrixMultiplyTemplate", "symbolic/matrix_expression.go:MatrixPlusTemplate", "symbolic/vector_expression.go:VectorPlusTemplate", "symbolic/monomial_matrix.go:MonomialMatrix.Multiply", "symbolic/expression.go:Minus"]}
{"id": "C55", "title": "Simplifying a matrix constraint preserves its solutions and isolates the constants", "statement": "MatrixConstraint.AsSimplifiedConstraint returns a constraint with the same sense and the same solution set; every entry of its right side is a constant, no entry of its left side has a constant term, and it mentions no variable that the original did not mention.", "quantifier": "for all well-formed matrix constraints, of any shape and of any kind of matrix on either side, and all assignments", "why_tests_cant": "Solution sets are infinite, and the outcome depends on the kinds of both sides and on the entries that cancel, so a handful of matrices says nothing about the rest.", "anchors": ["symbolic/matrix_constraint.go:MatrixConstraint.AsSimplifiedConstraint", "symbolic/variable_matrix.go:VariableMatrix.Plus", "symbolic/monomial_matrix.go:MonomialMatrix.Plus", "symbolic/polynomial_matrix.go:PolynomialMatrix.Minus"]}
{"id": "C56", "title": "Vector Power is the power of the only entry", "statement": "For a vector expression with exactly one entry and n>=0, Power(n) is a scalar expression denoting the n-th power of that entry; vectors of any other length, negative exponents and malformed vectors are rejected.", "quantifier": "for all vectors of every kind and all integers n", "why_tests_cant": "n, the length and the entry are unbounded.", "anchors": ["symbolic/vector_expression.go:VectorPowerTemplate"]}
{"id": "C57", "title": "With 0/1 variables arithmetic is exact", "statement": "At every assignment where the variables involved take at most one nonzero value, in particular at every 0/1 assignment, Plus, Minus, Multiply, Power (n>=0), AsSimplifiedExpression, Substitute and SubstituteAccordingTo of well-formed scalars return and have exactly the right value, with no condition on the terms, and simplifying, scaling and substituting in a scalar constraint keeps whether it holds; for vectors and matrices of every kind the same is true of whatever Plus, Minus, Multiply and AsSimplifiedConstraint return. For Plus these are the only such assignments.", "quantifier": "for all well-formed operands of every kind and all such assignments", "why_tests_cant": "The operands, their degrees and the assignments are unbounded.", "anchors": ["symbolic/polynomial.go:Plus", "symbolic/polynomial.go:Multiply", "symbolic/monomial.go:MatchesFormOf", "symbolic/scalar_constraint.go:AsSimplifiedConstraint"]}
{"id": "C58", "title": "With coefficients of few bits float64 arithmetic is exact", "statement": "If the coefficients of the operands are multiples of 2^-u (integers for u=0) and the sum of the absolute values of the coefficients the operation can produce is at most 2^53 units, then Plus, Minus, Multiply, Power, AsSimplifiedExpression, DerivativeWrt, Substitute and SubstituteAccordingTo of scalars on float64 return exactly the expression exact arithmetic returns, or panic exactly when it panics, and Constant, Degree and LinearCoeff read the exact numbers. So at 0/1 assignments, and where no two terms are rearrangements of each other, the float64 results have exactly the right value. One unit more and it is false: 2^53 x + x is 2^53 x.", "quantifier": "for all scalar operands, well-formed or not, with such coefficients and bounds that are not NaN, and all u", "why_tests_cant": "The operands, exponents and coefficients are unbounded; rounding could go wrong for any of about 2^53 coefficients.", "anchors": ["symbolic/polynomial.go:Plus", "symbolic/polynomial.go:Multiply", "symbolic/polynomial.go:Simplify", "symbolic/monomial.go:DerivativeWrt", "symbolic/polynomial.go:Substitute"]}
{"id": "C59", "title": "With coefficients of few bits float64 vectors, matrices and constraints are exact", "statement": "If the coefficients of every entry are multiples of 2^-u and the sums of the absolute values the operation can produce are at most 2^53 units, then Plus, Minus, Multiply, Power, AsSimplifiedExpression, Transpose, HStack, VStack, DerivativeWrt and Substitute of vectors and matrices on float64 return exactly what exact arithmetic returns, or panic exactly when it panics; so do Comparison, AsSimplifiedConstraint, Substitute, ScaleBy, IsLinear, IsNonnegativityConstraint, the linear representations and CompileConstraintsIntoScalarConstraints of constraints, and ImpliesThisIsAlsoSatisfied if the coefficients it divides by are powers of two. With other coefficients ImpliesThisIsAlsoSatisfied is unsound on float64: 49x <= 49 is said to imply x <= 1-2^-53.", "quantifier": "for all operands and constraints of every kind and shape, well-formed or not, with such coefficients and bounds that are not NaN, and all u", "why_tests_cant": "The shapes, exponents and coefficients are unbounded; rounding could go wrong for any of about 2^53 coefficients, and the division by a coefficient only fails for particular ones.", "anchors": ["symbolic/polynomial_matrix.go:Multiply", "symbolic/polynomial_vector.go:Plus", "symbolic/vector_constraint.go:AsSimplifiedConstraint", "symbolic/scalar_constraint.go:ImpliesThisIsAlsoSatisfied", "symbolic/scalar_constraint.go:LinearInequalityConstraintRepresentation"]}
{"id": "C60", "title": "FindInSlice returns an index of the value", "statement": "FindInSlice(x, s) returns no error and an index i with s[i] == x if there is one, else -1 and no error; if the type of s does not fit x it returns -1 and an error. It never panics. IsConstraint is true exactly for the three constraint types and pointers to them.", "quantifier": "for all values and slices of every type", "why_tests_cant": "Slices are unbounded and the combinations of types are many; the tests search distinct values only and never search a uint64 in a slice of another type, where the call panics.", "anchors": ["symbolic/utils.go:FindInSlice", "symbolic/constraint.go:IsConstraint"]}
{"id": "C61", "title": "Invalid substitution maps are rejected", "statement": "CheckSubstitutionMap returns nil exactly if every key passes Check, every value passes Check and every value is a scalar expression. SubstituteAccordingTo of every expression and constraint panics on every other map; on a valid map it is the substitution of the scalars in the map.", "quantifier": "for all maps with values of every kind and all receivers of every kind", "why_tests_cant": "The invalid entry may be anywhere in a map of any size, and the receiver may be any expression; some receivers never look at the map.", "anchors": ["symbolic/utils.go:CheckSubstitutionMap", "symbolic/polynomial_matrix.go:SubstituteAccordingTo", "symbolic/constant.go:SubstituteAccordingTo", "symbolic/vector_constraint.go:SubstituteAccordingTo"]}
{"id": "C62", "title": "Programs of degree at most two, or in one variable, are exact from end to end", "statement": "Take any program that starts from constants and checked variables and makes any number of calls of Plus, Minus, Multiply, Power, AsSimplifiedExpression, DerivativeWrt, Substitute and SubstituteAccordingTo on scalars, each on earlier results. If every intermediate result has formal degree at most two, or is a polynomial of any degree in one variable, then the program does not panic; the final scalar is well-formed, mentions only variables of the program, and denotes exactly the polynomial the program means, so it has the right value everywhere. Constant and LinearCoeff of it are the coefficients of that polynomial; the difference of two such programs is the constant 0 exactly if they mean the same polynomial; and the linear (in)equality representation of a comparison of two programs of degree at most one describes exactly the intended set. Without the condition on degrees, and whatever the arithmetic of the numbers, such a program still returns without panic a well-formed scalar that mentions only variables of the program.", "quantifier": "for all programs of any length, all numbers of variables, and all assignments", "why_tests_cant": "The programs are unbounded in length and combine the calls in every order; a defect may need the result of one call as the operand of another.", "anchors": ["symbolic/polynomial.go:Plus", "symbolic/polynomial.go:Multiply", "symbolic/polynomial.go:Substitute", "symbolic/monomial.go:DerivativeWrt", "symbolic/scalar_constraint.go:LinearInequalityConstraintRepresentation"]}
{"id": "C63", "title": "Programs over scalars, vectors and matrices give no silently wrong result", "statement": "Take any program that starts from numbers, checked variables, and vectors and matrices of these, and makes any number of calls of Plus, Minus, Multiply, Power, Transpose, AsSimplifiedExpression, At, HStack, VStack, Substitute, SubstituteAccordingTo and DerivativeWrt, each on earlier results (scalars with arrays included). If all its calls return, then the final expression has the right shape, is well-formed, mentions only variables of the program, and every entry is exactly the polynomial the program means, so At gives the right value everywhere. Two programs that mean the same matrix give results equal in every entry; and a constraint between two results is satisfied by exactly the assignments at which the two matrices compare in every entry.", "quantifier": "for all programs of any length, all shapes, all numbers of variables, and all assignments", "why_tests_cant": "The programs are unbounded in length and shape and combine the calls in every order; each pair of kinds has its own code path, and a defect may need the result of one path as the operand of another.", "anchors": ["symbolic/polynomial_matrix.go:Multiply", "symbolic/polynomial_vector.go:Plus", "symbolic/constant_matrix.go:Multiply", "symbolic/variable_vector.go:Multiply", "symbolic/expression.go:HStack", "symbolic/expression.go:VStack"]}
{"id": "C64", "title": "Arithmetic leaves the caller's scalar expressions unchanged", "statement": "Calling Plus, Minus, Multiply, Power, AsSimplifiedExpression, Substitute, SubstituteAccordingTo or Copy on scalar expressions changes the exponents of no expression the caller holds, however exponent slices are shared between expressions and also if a call panics and the panic is recovered; every call returns or panics as if expressions were immutable values, and the same call gives the same outcome before and after any such program. Products and powers share no exponent slice with anything held before, so differentiating them changes no other expression.", "quantifier": "for all memories with any sharing of slices, all expressions in them (well formed or not) and all finite programs of these calls", "why_tests_cant": "Sharing is invisible in a returned value; an example test would have to hold every combination of operands and results and compare all of them after every later call.", "anchors": ["symbolic/monomial.go:Monomial.Plus", "symbolic/monomial.go:Monomial.Multiply", "symbolic/monomial.go:Monomial.Copy", "symbolic/polynomial.go:Polynomial.Copy", "symbolic/polynomial.go:Polynomial.Plus", "symbolic/polynomial.go:Polynomial.Simplify", "symbolic/monomial.go:Monomial.Substitute", "symbolic/polynomial.go:Polynomial.SubstituteAccordingTo"]}
{"id": "C65", "title": "Arithmetic on vectors and matrices leaves the caller's expressions unchanged", "statement": "Calling Plus, Minus, Multiply, Power, AsSimplifiedExpression, Transpose, At, HStack, VStack, ConcretizeExpression, Substitute or SubstituteAccordingTo on scalars, vectors and matrices changes no expression the caller holds, however exponent slices and backing arrays are shared and also if a call panics and the panic is recovered; every call returns or panics as if expressions were immutable values. A program that uses older expressions only as factors, bases and subtrahends changes none of them, whatever it differentiates.", "quantifier": "for all memories with any sharing of slices and backing arrays, all expressions in them (well formed or not) and all finite programs of these calls", "why_tests_cant": "Which slices the entries of a result share with the operands and with each other is invisible in the result; it shows only when some later DerivativeWrt writes to a shared slice, so a test would need every pair of operation and later derivative.", "anchors": ["symbolic/vector_expression.go:VectorPlusTemplate", "symbolic/matrix_expression.go:MatrixPlusTemplate", "symbolic/matrix_expression.go:MatrixMultiplyTemplate", "symbolic/monomial_matrix.go:MonomialMatrix.Plus", "symbolic/monomial_vector.go:MonomialVector.Plus", "symbolic/polynomial_vector.go:PolynomialVector.SubstituteAccordingTo", "symbolic/polynomial_vector.go:PolynomialVector.DerivativeWrt", "symbolic/polynomial_matrix.go:PolynomialMatrix.Plus"]}
{"id": "C66", "title": "DerivativeWrt of a computed scalar returns the derivative of what its receiver stands for", "statement": "In any program of Plus, Minus, Multiply, Power, AsSimplifiedExpression, Substitute, SubstituteAccordingTo, Copy and DerivativeWrt on scalar expressions, starting from literals, every DerivativeWrt call returns (or panics as) the derivative of the value its receiver has when the call is made, although exponent slices are shared and earlier calls wrote to them. A call that succeeds lowers by one the exponent of the variable in exactly those held monomials whose slice is one of the receiver's, unless that exponent is one; a call that panics changes nothing. The condition is that no Polynomial literal is made from monomials that share a slice.", "quantifier": "for all memories in which no expression uses a slice twice, all finite programs of these calls with recovered panics, and all variables", "why_tests_cant": "DerivativeWrt writes to slices it reads later in the same call, so whether its result is right depends on which slices the receiver's terms share, which depends on the whole history of the program.", "anchors": ["symbolic/monomial.go:Monomial.DerivativeWrt", "symbolic/polynomial.go:Polynomial.DerivativeWrt", "symbolic/polynomial.go:Polynomial.Simplify", "symbolic/polynomial.go:Polynomial.Plus", "symbolic/monomial.go:Monomial.Plus", "symbolic/polynomial.go:Polynomial.Copy"]}
{"id": "C67", "title": "Error texts say what happened", "statement": "When two operands, an index, a stack or the rows of a matrix are rejected, the text of the error names the operation, and the dimensions, indices, type or row lengths it contains are the true ones: for two operands the dimensions of the left and the right operand in that order, for HStack and VStack those of the first two neighbours that differ, for an index the indices asked for, the type and the dimensions of the object, for a matrix the expected and actual number of columns and the number of the first row that is wrong, for a vector constraint the sense and both lengths. The checks report nothing for operands that are compatible, and two different situations never give the same text.", "quantifier": "for all well formed expressions of any shapes, all integer indices, all lists of expressions and all lists of rows, for every number type", "why_tests_cant": "There are infinitely many dimensions and indices; tests compare the texts of a few. That the text determines the dimensions (no two situations share a text) is a statement about all pairs.", "anchors": ["smErrors/matrix_dimension_error.go:18-225", "smErrors/vector_dimension_error.go:12-25", "smErrors/out_of_bounds_error.go:11-81", "smErrors/negative_exponent.go:13-20", "smErrors/matrix_column_mismatch.go:5-18", "smErrors/empty_matrix.go:13-24", "symbolic/utils.go:130-145", "symbolic/vector_constraint.go:52-81"]}
{"id": "C68", "title": "Goroutines may do arithmetic on shared expressions", "statement": "Several goroutines that call Plus, Minus, Multiply, Power, Substitute, AsSimplifiedExpression and Copy on scalar expressions they share need no lock: however their accesses to memory are interleaved, and even if a read sees a mixture of old and new numbers of a slice that is being written, every goroutine gets the outcomes (results and panics) it would get alone, no slice that existed before is ever written, every shared expression keeps its value at every moment, no goroutine waits for another and all of them end. DerivativeWrt is the exception.", "quantifier": "for every number of goroutines, every finite program of calls of each, every initial memory with any sharing between the expressions, every interleaving of single memory accesses", "why_tests_cant": "The number of interleavings is exponential, and the race detector only reports accesses of the interleavings that happened.", "anchors": ["symbolic/monomial.go:52-762", "symbolic/polynomial.go:58-792", "symbolic/variable.go:73-587", "symbolic/constant.go:67-365"]}
{"id": "C69", "title": "Rounding errors of float64 arithmetic stay within the standard bound", "statement": "With any finite float64 coefficients, every coefficient of the result of Plus, Minus, Multiply, Power and AsSimplifiedExpression on scalar expressions differs from the coefficient of the exact result by at most ((1+2^-53)^n - 1) times the same coefficient computed from the absolute values of the operands' coefficients, provided that nothing overflows, that products of coefficients do not underflow, and that the exponent vectors come from a family without rearrangements (degree at most two, multilinear, one variable). The number n of roundings is: for sums one less than the number of alike terms (1 for simplified operands); for a product 1, and for two polynomials one more for each term of the second; for the n-th power at most n times the number of terms plus one. The bounds compose: results may be used as operands. The same factor bounds the error of the value at every point, and it is at most n*2^-52. An error relative to the exact result itself is not bounded.", "quantifier": "for all well formed scalar expressions of any size with any finite float64 coefficients, any number of composed operations, and all points", "why_tests_cant": "Rounding errors depend on every bit of the coefficients and on the order of the additions; a test sees a few sums and needs a tolerance that is itself unproved.", "anchors": ["symbolic/polynomial.go:100-260", "symbolic/polynomial.go:480-560", "symbolic/monomial.go:67-260", "symbolic/variable.go:73-260", "symbolic/constant.go:67-260", "symbolic/scalar_expression.go:147-167"]}
{"id": "C70", "title": "Rounding errors of float64 arithmetic on vectors and matrices stay within the standard bound", "statement": "With any finite float64 coefficients, every entry of what Plus, Minus and Multiply return on vectors and matrices (also with a scalar on either side) is within ((1+2^-53)^N - 1) times the entry computed from absolute values of the entry of the exact sum, difference or matrix product, coefficient by coefficient and at every point, provided that nothing overflows, products do not underflow, and the exponent vectors come from a family without rearrangements. An operand is described by n roundings so far and at most k like terms left in an entry (array operations do not always collect them); simplifying an entry costs k-1 roundings. A sum or difference has max(n,n') roundings and k+k' like terms. A product of an r by q and a q by c array has (n+k)+(n'+k')-1+t roundings, where entries have at most t terms, and q+1 like terms. So the bounds compose.", "quantifier": "for all vectors and matrices of all kinds and sizes with any finite float64 coefficients, any number of composed operations, and all points", "why_tests_cant": "The error of an inner product depends on its length, on every bit of the entries, and on whether the particular pair of vector or matrix types collects like terms at once or later; tests use small arrays of short decimal numbers.", "anchors": ["symbolic/constant_vector.go:100-330", "symbolic/variable_vector.go:130-360", "symbolic/monomial_vector.go:120-360", "symbolic/polynomial_vector.go:100-330", "symbolic/constant_matrix.go:100-340", "symbolic/variable_matrix.go:100-330", "symbolic/monomial_matrix.go:100-330", "symbolic/polynomial_matrix.go:100-380"]}
{"id": "C71", "title": "The list of tracked variables that a caller gets is its own", "statement": "AllTrackedVariables returns the variables tracked at that time, in the order of their creation. Whatever is called later, the returned list keeps its contents, and nothing that the caller does with it (writing elements, appending) changes what any environment tracks: each environment holds exactly the variables created or tracked in it, with distinct IDs, under the name given to MakeBasicEnvironment, which starts empty. TrackVariable answers true exactly if no tracked variable has the ID.", "quantifier": "for all programs of calls to MakeBasicEnvironment, TrackVariable, the variable constructors, AllTrackedVariables and GetName, mixed with reads, writes, copies and appends of the caller on the slices it got, and for all capacities the Go runtime may choose", "why_tests_cant": "Whether two slices share an array depends on the capacities left by earlier appends, so an append overwrites a tracked variable only after particular numbers of creations; tests look at the list once.", "anchors": ["symbolic/basic_environment.go:5-45", "symbolic/variable.go:384-443"]}
{"id": "C72", "title": "The returned linear representation is the constraint up to one rounding per coefficient", "statement": "With any finite float64 coefficients in which no exponent vector repeats, Constant and LinearCoeff return the coefficients bit for bit. LinearInequalityConstraintRepresentation and LinearEqualityConstraintRepresentation of a linear scalar constraint return one finite number per listed variable and one bound. Each number is within 2^-53 times (absolute coefficient on the left plus absolute coefficient on the right) of the exact difference of the coefficients (right minus left for the bound, and everything negated for >=). So at every point the returned inequality has the margin of the constraint up to 2^-53 times the sum of the sizes of its terms: a point of the returned half-space violates the constraint by at most that, and a point that meets the constraint by at least that is in the half-space. Likewise for equalities.", "quantifier": "for all linear scalar constraints with any finite float64 coefficients, no exponent vector repeated on a side, no overflow, all lists of distinct variables containing those of the constraint, and all points", "why_tests_cant": "Tests use small integers and short decimals whose differences are exact or compared with a tolerance; whether a returned half-space contains every feasible point is decided by the last bit of each coefficient.", "anchors": ["symbolic/scalar_constraint.go:91-185", "symbolic/polynomial.go:453-660", "symbolic/monomial.go:320-365", "symbolic/variable.go:29-60", "symbolic/constant.go:38-60"]}
{"id": "C73", "title": "Derivatives of float64 expressions are off by one rounding per coefficient", "statement": "DerivativeWrt of a scalar expression with any finite float64 coefficients returns an expression whose every coefficient is within 2^-53 times the coefficient of the derivative of the expression with absolute coefficients of the exact coefficient of the exact derivative; products do not need to avoid underflow, because multiplying by an integer exponent never underflows. Equal exponent vectors are not collected: as many like terms remain as there were. The bound composes with those of C69, and gives a bound at every point.", "quantifier": "for all scalar expressions with any finite float64 coefficients and exponents up to 2^53, all variables, all points, if nothing overflows", "why_tests_cant": "The error of a product by an exponent depends on every bit of the coefficient, including subnormal ones; tests differentiate polynomials with small integer coefficients, where no rounding occurs.", "anchors": ["symbolic/monomial.go:484-530", "symbolic/polynomial.go:560-600", "symbolic/variable.go:464-480", "symbolic/constant.go:316-325"]}
{"id": "C74", "title": "What arithmetic does to terms of any degree: like terms are those with the same variables and the same list of exponents", "statement": "Plus, Minus, AsSimplifiedExpression and Multiply by a constant, on any well-formed scalars of any degree, return the sum, difference or multiple of the collections of terms in which terms with the same set of variables and the same list of exponents (in the order written) are added up; this holds with no condition at all, and so addition is commutative and associative on that reading; Multiply returns the collection of the products of every term of one operand by every term of the other, collected in the same way. Polynomial values are right whenever terms that are so collected are equal as monomials, and for addition this condition is necessary as well as sufficient: it fails for two operands written so exactly if the set of ways of writing terms has two ways that are confused. Multiply and Power are exact at any degree if the products of the ways of writing (the variables of the first factor, then the new ones of the second) have no confused pair; Multiply of a Variable by a Monomial or Polynomial and of a Monomial by a Polynomial multiplies in the other order. In particular expressions whose every term lists its variables in ascending order of ID, or has equal exponents, add, subtract and simplify exactly at any degree, entry by entry in arrays too, and such arrays can be multiplied by matrices of numbers.", "quantifier": "for all well-formed scalar expressions, vectors and matrices of any size and degree, over any ordered field, and all sets of ways of writing terms", "why_tests_cant": "Whether two terms are confused depends on the order in which the variables of each were first met, on all exponents, and on every pair of terms of every intermediate result; tests show single results.", "anchors": ["symbolic/monomial.go:444-477", "symbolic/polynomial.go:472-505", "symbolic/polynomial.go:270-290", "symbolic/monomial.go:155-232", "symbolic/variable.go:274-345", "symbolic/polynomial.go:294-420"]}
{"id": "C75", "title": "A check of the calls alone decides that a program of any degree is computed exactly", "statement": "There is a computable check of a caller's program (constants, variables, Plus, Minus, Multiply, Power, AsSimplifiedExpression, DerivativeWrt, Substitute, SubstituteAccordingTo, nested in any way) that looks at the variable IDs and the operations, not at the coefficients. If it says yes, the program returns without panic, whatever the coefficients are, and the result is well formed, denotes the polynomial the program means, has the value of that polynomial at every point, has only terms the check foresaw, and names only variables of the program. The check accepts all programs whose intermediate results have expected degree at most two, all programs in one variable, and more generally all programs covered by C62; it also accepts programs of higher degree in several variables whose like terms list their variables in one order, which C62 does not cover.", "quantifier": "for all programs of any size and depth over any ordered field, all coefficients, all variables that pass Check and are determined by their ID, all substitution maps without repeated keys", "why_tests_cant": "A test runs one program with one choice of coefficients; whether two terms are confused in some intermediate result depends on the order in which every factor was multiplied, and for some programs on whether a coefficient happens to be one.", "anchors": ["symbolic/monomial.go:444-477", "symbolic/polynomial.go:472-505", "symbolic/variable.go:274-345", "symbolic/monomial.go:155-232", "symbolic/polynomial.go:294-420", "symbolic/scalar_expression.go:147-167", "symbolic/monomial.go:630-693", "symbolic/polynomial.go:718-766", "symbolic/monomial.go:484-530", "symbolic/polynomial.go:560-602"]}
{"id": "C76", "title": "A check of the calls decides, entry by entry, that a program over vectors and matrices of any degree is computed exactly", "statement": "There is a computable check of a caller's program over scalars, vectors and matrices (constants and variables of all three kinds, Plus, Minus, Multiply with arrays and with scalars on either side, Power, Transpose, AsSimplifiedExpression, At, HStack, VStack, DerivativeWrt, Substitute, nested in any way). It looks at the sizes, variable IDs and operations, not at the numbers, and answers for every entry of the result. If all calls return, then whatever the check says the result has the size the calls ask for, is well formed and names only variables of the program; every entry for which the check says yes is the polynomial in that place of the matrix the calls stand for, with its value at every point, and has only terms that the check foresaw; and if the check says yes for all entries, the result is that matrix. SubstituteAccordingTo on a vector or matrix is the program that makes its replacements one after the other in the order of iteration, so the same holds for it in every order. The check accepts all programs whose intermediate results have expected degree at most two, in any number of variables, and all programs in one variable.", "quantifier": "for all programs of any size and depth, all numbers of rows and columns, over any ordered field, all numbers, all variables that pass Check and are determined by their ID", "why_tests_cant": "A test runs one program of one size with one choice of numbers; whether two terms are confused in some entry of some intermediate result depends on the order in which all factors were multiplied on the way to that entry.", "anchors": ["symbolic/monomial.go:444-477", "symbolic/polynomial.go:472-505", "symbolic/expression.go:HStack", "symbolic/expression.go:VStack", "symbolic/polynomial_matrix.go:Multiply", "symbolic/variable_matrix.go:Multiply", "symbolic/variable_vector.go:Multiply", "symbolic/constant_matrix.go:Multiply", "symbolic/constant_matrix.go:Power"]}
{"id": "C77", "title": "A check of the calls decides that a constraint of any degree keeps the right solutions", "statement": "There is a computable check of the calls that build a scalar constraint: LessEq, GreaterEq or Eq of two expressions computed by the caller (as in C75), followed by Simplify, ScaleBy with a factor other than zero, Substitute and SubstituteAccordingTo with computed expressions, in any order and any number. It looks at the variable IDs and the calls, not at the numbers. If it says yes, no call panics, the constraint is well formed and names only variables of the calls, and an assignment satisfies it exactly if it satisfies the comparison of the two polynomials the caller meant, with the replaced variables given the values of their replacements. Two such sequences of calls that ask for the same solutions give constraints with the same solutions.", "quantifier": "for all sequences of calls of any length, programs of any degree and depth, over any ordered field, all numbers, all assignments, all variables that pass Check and are determined by their ID", "why_tests_cant": "A solution set is infinite, and whether Simplify loses a term depends on the order in which all factors of all terms of both sides were multiplied.", "anchors": ["symbolic/scalar_constraint.go:37-57", "symbolic/scalar_constraint.go:188-230", "symbolic/scalar_constraint.go:256-285", "symbolic/monomial.go:444-477", "symbolic/polynomial.go:472-505"]}
{"id": "C78", "title": "A check of the calls decides, entry by entry, that vector and matrix constraints of any degree keep the right solutions", "statement": "There is a computable check of the calls that build a constraint between scalars, vectors or matrices: LessEq, GreaterEq or Eq of two computed expressions of one size (as in C76), or of one and a number, followed by AsSimplifiedConstraint, Substitute, SubstituteAccordingTo, AtVec or At, and ScaleBy on an entry, in any order and any number. It looks at the variable IDs, the sizes and the calls, not at the numbers. If every call returns, the constraint is well formed, has the size asked for and names only variables of the calls; an entry for which the check says yes is satisfied exactly where the two polynomials the caller meant compare so at that place, whatever the check says of the others; and if it says yes for all entries, an assignment satisfies the constraint exactly if it satisfies the comparison at every place.", "quantifier": "for all sequences of calls of any length, all sizes, programs of any degree and depth, over any ordered field, all numbers, all assignments, all variables that pass Check and are determined by their ID", "why_tests_cant": "A solution set is infinite, and whether an entry of the simplified constraint loses a term depends on the order in which all factors of its terms were multiplied.", "anchors": ["symbolic/vector_constraint.go:31-49", "symbolic/vector_constraint.go:226-294", "symbolic/matrix_constraint.go:97-177", "symbolic/scalar_constraint.go:37-57", "symbolic/scalar_constraint.go:256-285", "symbolic/polynomial_vector.go:289-360", "symbolic/monomial_matrix.go:361-429"]}
{"id": "C79", "title": "Constants, coefficients and linear representations read off checked programs are those the caller meant", "statement": "Take a scalar program or constraint that the check of C75 or C77 accepts. Count for every result below which degree no term is written twice: three after Plus, Minus, Multiply, Power, AsSimplifiedExpression and ScaleBy, one less after each DerivativeWrt, and for a substitution what its replacements allow. Where this count is at least one, Constant is the constant term of the polynomial the caller meant, and LinearInequalityConstraintRepresentation (for <= and >=) and LinearEqualityConstraintRepresentation (for ==), over variables that cover those of the calls, fail exactly if a side has a term of degree two or more and otherwise return numbers that describe exactly the assignments the calls ask for. Where it is at least two, LinearCoeff returns the coefficients of the polynomial that was meant; IsNonnegativityConstraint says yes, for a left side without constant, only if the calls ask for x >= 0; and ImpliesThisIsAlsoSatisfied says yes, for linear constraints that are not constant and have no constant on the left, only if every assignment the calls of the first ask for is one the calls of the second ask for.", "quantifier": "for all programs and sequences of calls of any length and degree, over any ordered field, all numbers, all assignments, all variables that pass Check and are determined by their ID", "why_tests_cant": "The readings take the first term of a form; that no second one exists depends on every earlier call, and the half spaces that are compared are infinite sets.", "anchors": ["symbolic/polynomial.go:226-242", "symbolic/polynomial.go:453-470", "symbolic/polynomial.go:560-600", "symbolic/polynomial.go:626-660", "symbolic/scalar_constraint.go:91-184", "symbolic/scalar_constraint.go:288-393"]}
{"id": "C80", "title": "The scalar constraints and the matrices a solver gets from checked constraints describe the problem the caller meant", "statement": "Take any list of sequences of calls, of any sizes, that the check of C78 accepts and that return. CompileConstraintsIntoScalarConstraints returns one scalar constraint for every entry, row by row, and an assignment satisfies all of them exactly when it satisfies everything the calls ask for; an entry the check accepts is compiled correctly even if the check rejects other entries of the same constraint. If the check finds every term to have degree at most one, IsLinear says yes. For a vector constraint of at least two rows for which IsLinear says yes, which writes no term of degree at most one twice (as after AsSimplifiedConstraint), and of which no row holds everywhere or nowhere, LinearInequalityConstraintRepresentation (for <= and >=) and LinearEqualityConstraintRepresentation (for ==) return one row per entry, and the points that satisfy A x <= b, or C x = d, are exactly those the calls ask for; without a list of variables the columns are distinct variables the calls name.", "quantifier": "for all lists of constraints of all sizes built by calls of any number and degree, over any ordered field, all numbers, all assignments, all variables that pass Check and are determined by their ID", "why_tests_cant": "The feasible sets that are compared are infinite, and the lists, sizes and sequences of calls are unbounded.", "anchors": ["symbolic/constraint.go:86-118", "symbolic/vector_constraint.go:31-50", "symbolic/vector_constraint.go:100-222", "symbolic/vector_constraint.go:270-295"]}
{"id": "C81", "title": "Exponents and degrees kept in machine integers change nothing while degrees stay below 2^63", "statement": "Go keeps exponents and degrees in int. Take any sequence of scalar calls and count its formal degree: 1 for a variable, the sum for a product, the larger for a sum or difference, n times for Power(n), the product for a substitution. If the formal degree of every intermediate result is below 2^(b-1), then a machine with b-bit integers (64 or 32) returns exactly the expression, or the panic, that unbounded integers would give, and so do Degree, IsLinear, IsQuadratic and LinearCoeff on the result; the value theorems proved with unbounded integers therefore hold on the machine. The same holds for single calls of Plus, Minus, Multiply, AsSimplifiedExpression, DerivativeWrt, Power, Substitute and SubstituteAccordingTo on well-formed expressions. Beyond the bound nothing is reported: squaring x 64 times gives x^0.", "quantifier": "for all sequences of scalar calls of any length, all numbers including floating point, all variables that pass Check, all integer widths", "why_tests_cant": "Sequences of calls are unbounded, and overflow appears only at degrees no test reaches by adding up.", "anchors": ["symbolic/monomial.go:188-227", "symbolic/monomial.go:484-546", "symbolic/polynomial.go:534-620", "symbolic/scalar_expression.go:147-167"]}
{"id": "C82", "title": "Exactly when goroutines may differentiate monomials they share", "statement": "Several goroutines call Monomial.DerivativeWrt, perhaps on monomials with a common exponent slice. However their reads and writes of exponents are interleaved, each call ends after at most (number of factors + 6) steps of its own, without waiting for another. If no slice that one call counts down (its variable occurs with an exponent other than one) is differentiated by another call by a variable that occurs, every call returns under every interleaving what it would return alone, namely the partial derivative of what its receiver meant at the beginning, and its result does not change later; every slice is at the end as before or counted down once. The condition is necessary: if it fails for two calls, running one after the other already makes the second return something with another value than the derivative.", "quantifier": "for every number of goroutines, every memory with any sharing, every interleaving of single reads and writes of exponents, every number type (values: every ordered field)", "why_tests_cant": "The number of interleavings is exponential, and the race detector only reports accesses of the interleavings that happened.", "anchors": ["symbolic/monomial.go:484-546"]}
{"id": "C83", "title": "Rounding errors of any sequence of float64 calls are bounded by the calls alone", "statement": "Take any sequence of the scalar calls Plus, Minus, Multiply, Power, AsSimplifiedExpression, DerivativeWrt, Substitute and SubstituteAccordingTo with any finite float64 constants, whose intermediate results have terms of one shape (degree at most two, or one variable). A number n of roundings, a bound for the number of terms, a bound for the coefficients and a bound for the binary places are read off the calls. If they exclude overflow and underflow (coefficients up to 2^1022 in sum, at most 1074 binary places, n <= 2^52), no call panics and each coefficient of the last result is finite and differs from the coefficient of the polynomial meant by at most ((1+2^-53)^n - 1) <= n*2^-52 times the coefficient of the same calls on absolute values; the same holds for the value at every point. If two such results are the sides of a linear constraint, the linear inequality or equality representation gives at every point the difference of the sides meant up to n+1 roundings. NaN bounds of variables must be excluded: SubstituteAccordingTo never finds such a variable in its map.", "quantifier": "for all sequences of scalar calls of any length including substitutions, all finite float64 constants, all variables, all points", "why_tests_cant": "The rounding error of nested substitutions depends on every bit of every constant and on the order of all additions inside the calls; no test can enumerate the programs, and a tolerance chosen for one program says nothing about the next.", "anchors": ["symbolic/polynomial.go:100-260", "symbolic/polynomial.go:480-620", "symbolic/polynomial.go:700-766", "symbolic/monomial.go:484-546", "symbolic/monomial.go:600-700", "symbolic/variable.go:500-544", "symbolic/scalar_expression.go:147-167", "symbolic/scalar_constraint.go:91-185"]}
{"id": "C84", "title": "Printed float64 numbers read back, and printed float64 expressions can be told apart", "statement": "The text that String prints for a finite float64 coefficient is a decimal that reads back (round to nearest, ties to even) as exactly that float64; it has as few digits as any decimal that does, none with so few digits is nearer, and it has no zeros that say nothing. Different float64 values, NaN and the infinities included, have different texts. Hence two well-formed expressions with finite float64 coefficients over variables with default names that print alike have the same array type and shape and the same written terms with the same coefficients in every entry, and two scalar constraints that print alike have the same sense and the same sides; String of such an expression does not panic and its brackets balance except in a matrix of constants.", "quantifier": "for all float64 values, all exponent thresholds of the format, all well-formed scalars, vectors, matrices and scalar constraints with finite float64 coefficients", "why_tests_cant": "There are 2^64 float64 values, and whether a short decimal reads back as the same value depends on all 53 bits; texts of expressions are sequences of such numbers of any length.", "anchors": ["symbolic/constant.go:326-328", "symbolic/monomial.go:583-612", "symbolic/polynomial.go:678-715", "symbolic/constant_vector.go:421-436", "symbolic/constant_matrix.go:481-507", "symbolic/scalar_constraint.go:233-242"]}
{"id": "C85", "title": "The sign of a zero does not matter, except in texts and where a zero coefficient is divided by", "statement": "float64 has two zeros. If two programs make the same calls, and the numbers they pass (coefficients, bounds, substituted values) are equal as numbers, so that a -0 in one may be a +0 in the other, then either both panic with the same error, or both return and the results have the same type, shape, variables, exponents and order, and numbers that are equal as numbers. This holds for every call on scalars, vectors, matrices and constraints and for programs of any length, except for ImpliesThisIsAlsoSatisfied when the coefficient it divides by is zero and for String of an expression in which an entry begins with a zero coefficient.", "quantifier": "for all programs of calls on scalars, arrays and constraints, all float64 numbers including both zeros, infinities and NaN, all choices of signs of the zeros", "why_tests_cant": "Which intermediate results are -0 depends on the signs of all numbers that went into them and on underflow; == does not tell the zeros apart, so that a test that compares numbers cannot see them.", "anchors": ["symbolic/scalar_constraint.go:288-393", "symbolic/constant.go:326-328", "symbolic/monomial.go:583-612", "symbolic/polynomial.go:678-715"]}
{"id": "C86", "title": "It does not matter which variables a program is about", "statement": "Replace the variables of a program by others so that variables with the same ID get the same ID and those with different IDs different ones, likewise for the environments of variables with the same ID, and valid bounds stay valid. Then every call on scalars, vectors, matrices and constraints gives the old result with the new variables in the place of the old ones, in the same order: Variables lists the new variables, Degree, Dims, IsLinear, Check, Constant, LinearCoeff and the linear representations are the same, and a panic is the same panic. Names, types and bounds need not stay different, except for calls that use variables as keys of a Go map (SubstituteAccordingTo, and Variables, IsNonnegativityConstraint and ImpliesThisIsAlsoSatisfied of constraints). Any variables with different IDs can be replaced by any others with different IDs and the same bounds. Texts stay the same if the names do.", "quantifier": "for all programs of calls on scalars, arrays and constraints, all numbers, all such replacements of variables", "why_tests_cant": "IDs are given out by a counter, so a test sees only few of them and mostly in increasing order; code that sorts by ID, compares by name or treats ID 0 in a special way passes such tests.", "anchors": ["symbolic/variable.go:258-277", "symbolic/utils.go:12-128", "symbolic/monomial.go:395-422", "symbolic/constraint.go:55-82", "symbolic/scalar_constraint.go:288-393"]}
{"id": "C87", "title": "The linear representation of a vector constraint is the constraint up to one rounding per coefficient", "statement": "LinearInequalityConstraintRepresentation and LinearEqualityConstraintRepresentation of a linear vector constraint with any finite float64 coefficients return a matrix with one row per row of the constraint and one bound per row. The methods subtract twice: first the constants of the right side from it, then the result from the left side. Still every entry is within 2^-53 times (absolute coefficient on the left plus absolute coefficient on the right) of the exact difference of the coefficients, as for scalar constraints: the first subtraction changes no coefficient of a variable. So at every point each returned inequality has the margin of its row up to 2^-53 times the sum of the sizes of the terms of the row: a point of the returned polyhedron violates no row by more than that, and a point that meets every row by at least that is in the polyhedron. Likewise for equalities.", "quantifier": "for all linear vector constraints of at least two rows with any finite float64 coefficients, no exponent vector repeated in an entry, some variable left in every row after the subtraction, no overflow, all lists of distinct variables containing those of the constraint, and all points", "why_tests_cant": "Tests use small integers and short decimals whose differences are exact or compared with a tolerance; a second rounding of a coefficient shows only in its last bit and only for few pairs of coefficients.", "anchors": ["symbolic/vector_constraint.go:104-222", "symbolic/polynomial_vector.go:98-230", "symbolic/polynomial.go:453-660", "symbolic/expression.go:119-123"]}
{"id": "C88", "title": "Sums and differences are computed coefficient by coefficient with one float64 operation each", "statement": "If no exponent vector is written twice in an operand, then for every exponent vector the coefficient of a.Plus(b) is the float64 sum, and that of a.Minus(b) the float64 difference, of the coefficients of a and b (zero where there is no term): the same float64 number, infinities, NaN and overflow included, whatever the other terms, their number and their order are. Without overflow each coefficient of the difference is the exact difference with one correct rounding, and it is zero only if the two coefficients are equal, so no term disappears by underflow. The linear representations of scalar and vector constraints return exactly these numbers: the entry for a variable is the float64 difference of its coefficients on the two sides, the bound the float64 difference of the constants, both with changed signs for >=.", "quantifier": "for all pairs of well-formed expressions of degree at most 2 (more generally, with exponent vectors of a family in which no two are rearrangements of each other) with any float64 coefficients and no repeated exponent vector; for all linear scalar constraints, and linear vector constraints of at least two rows in each of which some variable has different coefficients on the two sides, with finite float64 coefficients whose differences do not overflow, and all lists of distinct variables containing those of the constraint", "why_tests_cant": "Equality to the last bit for all pairs of 2^64 numbers, including subnormal ones and those near overflow, cannot be sampled; tests compare a few decimals with a tolerance.", "anchors": ["symbolic/polynomial.go:67-230", "symbolic/polynomial.go:472-510", "symbolic/expression.go:119-123", "symbolic/scalar_constraint.go:91-185", "symbolic/vector_constraint.go:104-222"]}
{"id": "C89", "title": "Products, multiples and derivatives use exactly the textbook float64 operations", "statement": "If no exponent vector is written twice in the operands, then for every exponent vector d the coefficient of d in a.Multiply(b) is this float64 number: start with 0, go through the terms of b from the first to the last, and add each time the float64 product of the coefficient of the term and the coefficient of a that leads to d (0 if there is none). In particular a multiple K(c).Multiply(a) or a.Multiply(c) has each coefficient multiplied once; a product with a single term does not depend on the order of the factors, not even in the last bit, while with several terms in both it does. Each coefficient of DerivativeWrt is one product of the coefficient with the exponent; no two terms are merged and none is lost. a.Plus(b) and b.Plus(a) have the same coefficients, a.Minus(a) has none left, and b.Minus(a) has those of a.Minus(b) with the other sign.", "quantifier": "for all pairs of well-formed expressions with any float64 coefficients, infinities and NaN included, without repeated exponent vectors, whose products have exponent vectors of a family in which no two are rearrangements of each other and all are flat (for example two affine factors, or one of degree at most 2 and a number); derivatives: for all well-formed expressions without repeated exponent vectors", "why_tests_cant": "The claim is about the last bit of every coefficient for all float64 operands; tests compare a few products of small integers, where every order of operations gives the same number.", "anchors": ["symbolic/polynomial.go:294-376", "symbolic/monomial.go:155-236", "symbolic/variable.go:274-351", "symbolic/constant.go:245-287", "symbolic/polynomial.go:560-602", "symbolic/monomial.go:484-528"]}
{"id": "C90", "title": "A matrix times a vector of variables keeps the numbers of the matrix", "statement": "KMatrix.Multiply with a vector of variables returns a vector whose i-th entry is a sum of multiples of those variables: the coefficient of a variable is 0 plus the numbers of row i in the columns where the variable stands, added in float64 from left to right. If the variables are different, the coefficients are the entries of the matrix, infinities and NaN included; nothing is rounded. So for a system A x <= b, A x >= b or A x = b written with Multiply, LessEq, GreaterEq and Eq, the linear representation with respect to x is A and b (for >= both with the other sign), number for number.", "quantifier": "for all constant matrices with at least two rows, all vectors of as many valid variables as the matrix has columns (repeated variables allowed in the first part), all float64 entries in the first part, and in the second part all finite entries with no row that is zero and all finite b", "why_tests_cant": "The tests compare the representations of a few small systems; that every bit of every entry comes back for all matrices, whatever the path through products, sums, subtraction of constants and extraction, needs a proof.", "anchors": ["symbolic/constant_matrix.go:188-314", "symbolic/vector_constraint.go:107-222", "symbolic/polynomial.go:453-660", "symbolic/expression.go:119-123"]}
{"id": "C91", "title": "Linear and quadratic forms keep the numbers they are written with", "statement": "For different variables x_1..x_n, n >= 2, and a constant n x n matrix Q, x.Transpose().Multiply(Q).Multiply(x) is a scalar whose coefficient of x_i^2 is Q[i][i], whose coefficient of x_i x_j is the single float64 sum Q[i][j] + Q[j][i], and whose other coefficients are 0; no exponent vector is repeated. For one row c of numbers, KMatrix{c}.Multiply(x) is the scalar with the coefficients c, those of a variable that occurs several times added in float64 from left to right. Infinities and NaN are kept.", "quantifier": "for all n, all float64 matrices and rows, infinities and NaN included, and all vectors of valid variables (different ones for the quadratic form)", "why_tests_cant": "The claim is about every bit of every coefficient for all sizes and matrices; the intermediate results are matrices of constants, variables, monomials or polynomials depending on which entries are zero or one, and each kind has its own loop.", "anchors": ["symbolic/variable_vector.go:VariableVector.Transpose", "symbolic/variable_matrix.go:VariableMatrix.Multiply", "symbolic/monomial_matrix.go:MonomialMatrix.Multiply", "symbolic/polynomial_matrix.go:PolynomialMatrix.Multiply", "symbolic/constant_matrix.go:188-314"]}
{"id": "C92", "title": "Programs of sums, multiples and derivatives compute every coefficient by itself", "statement": "Take any nesting of Plus, Minus, Multiply with a finite number or with a variable (on either side), AsSimplifiedExpression and DerivativeWrt, applied to numbers and variables. The calls succeed, no exponent vector is repeated in the result, and for every exponent vector d the coefficient of d is the float64 number one gets by doing the same nesting of float64 operations for d alone: add, subtract, multiply by the number, take the coefficient without the variable, multiply by the exponent. Other coefficients, the order of terms and the kinds of the intermediate results have no influence, not even on the last bit. So two programs whose coefficients are computed alike return the same coefficients, and the linear representation of l <= r, l >= r or l = r consists of the float64 differences of these numbers (with the other sign for >=).", "quantifier": "for all such programs of any length whose intermediate results have terms of one shape (for example degree at most two, or one variable of any degree), with any float64 constants as summands, infinities and NaN included; all exponent vectors with exponents up to 2^53 minus the number of nested derivatives; for the representations: linear sides with finite coefficients and all lists of different variables that contain those of the sides", "why_tests_cant": "The claim is about the last bit of every coefficient of every program; tests use a few programs with small integers, where each order of operations gives the same number.", "anchors": ["symbolic/polynomial.go:294-376", "symbolic/polynomial.go:453-660", "symbolic/monomial.go:155-236", "symbolic/monomial.go:484-528", "symbolic/variable.go:244-351", "symbolic/constant.go:86-160", "symbolic/scalar_constraint.go"]}
{"id": "C93", "title": "Programs of vectors compute every number of every row by itself", "statement": "Take any nesting of Plus and Minus of vectors, Plus of a vector and a number, and Multiply of a vector and a finite number, applied to vectors of numbers, vectors of variables and products of a constant matrix with a vector of variables. The calls succeed, and in every row of the result the constant and the coefficient of each variable are the float64 numbers one gets by doing the same nesting of float64 operations for that one number; all other coefficients are zero and no term is repeated. Other rows, other coefficients, the order of terms and the kinds of the vectors have no influence, not even on the last bit. The linear representation of l <= r, l >= r or l = r between such vectors consists of the float64 differences of these numbers (with the other sign for >=).", "quantifier": "for all such programs of any length over vectors with two or more rows, with matrices of any width and variables that may be repeated, with any float64 numbers in vectors and matrices, infinities and NaN included; for the representations: sides with finite numbers that do not overflow when subtracted, in which every row keeps a variable, whose kinds the comparison accepts, and all lists of different variables that contain those of the sides", "why_tests_cant": "The claim is about the last bit of every number of every program; tests use a few vectors with small integers, where each order of operations gives the same number.", "anchors": ["symbolic/vector_expression.go", "symbolic/constant_vector.go", "symbolic/variable_vector.go", "symbolic/monomial_vector.go", "symbolic/polynomial_vector.go", "symbolic/constant_matrix.go:195-290", "symbolic/vector_constraint.go"]}
{"id": "C94", "title": "Giving numbers to all variables evaluates term by term, with one rounding per operation", "statement": "SubstituteAccordingTo with a number for every variable of a well-formed scalar expression returns a number. It is the one obtained by evaluating the terms in the order in which they are stored, each as its coefficient times the powers of its variables from left to right, each power as 1*x*x*...*x, and adding them from zero; a scalar constraint becomes the comparison of the two numbers with the same sense. In float64, for a polynomial with n+1 terms of degree at most D, the number is finite and differs from the exact value by at most ((1+2^-53)^(D+n)-1) times the sum of the absolute values of the exact terms; for a single monomial the relative error is at most (1+2^-53)^D-1.", "quantifier": "for all arithmetics (no laws are used; NaN and infinities included), all well-formed expressions of any degree, with terms that are rearrangements of each other too, and all valid substitution maps with different variables as keys, in any order, that give a number to every variable of the expression; for the rounding bounds: coefficients that are zero or between 2^-a and 2^a, values that are zero or between 2^-b and 2^b, a + b*D <= 1000, D <= 2^20 and at most 2^19+1 terms", "why_tests_cant": "The claim is about the last bit of the value of every expression at every point and about the error of arbitrarily long sums; tests evaluate a few expressions at small integers.", "anchors": ["symbolic/variable.go:526-544", "symbolic/monomial.go:668-693", "symbolic/polynomial.go:746-766", "symbolic/scalar_expression.go:147-167", "symbolic/constant.go:67-122", "symbolic/constant.go:245-287", "symbolic/scalar_constraint.go:211-230"]}
{"id": "C95", "title": "Products of matrices use exactly the textbook float64 operations in every entry", "statement": "Multiply of an r by s and an s by c matrix of any kinds succeeds, and in entry (i,j) of the result every coefficient is the float64 sum, from the first to the last k and starting from zero, of that coefficient in the product of the entries (i,k) and (k,j); no term is repeated. If one factor consists of finite numbers, the coefficient is the float64 sum of the products of that coefficient in the entries of the other factor with these numbers. Other entries, other coefficients, the order of terms and the kinds of the matrices have no influence, not even on the last bit.", "quantifier": "for all matrices of at least one row and column whose entries are well formed, have float64 numbers (infinities and NaN included, in the general form), repeat no term and have exponents in families without rearrangements in which all exponents of a term are equal (all terms of degree at most two among them) and that contain the products; for the forms with numbers: finite numbers", "why_tests_cant": "The claim is about the last bit of every coefficient of every entry; tests multiply small matrices of small integers, where each order of operations gives the same number.", "anchors": ["symbolic/matrix_expression.go", "symbolic/constant_matrix.go:195-290", "symbolic/variable_matrix.go:215-311", "symbolic/monomial_matrix.go", "symbolic/polynomial_matrix.go"]}
{"id": "C96", "title": "Power computes each coefficient by repeated multiplication, as written", "statement": "Power(n) of a number is 1*x*x*...*x. Power(n) of a monomial, n>=1, is a monomial with the same variables in the same order, every exponent times n, and the coefficient c*1*c*...*c; of a variable it is 1, the variable itself, or the monomial with coefficient one and exponent n. Power(n) of any expression multiplies the result of Power(n-1) by the expression, coefficient by coefficient with the float64 operations of C89. The square of a linear expression, by Power(2) or by Multiply with itself, has bit for bit the coefficients c0*c0, ci*ci, 2*(c0*ci) and 2*(ci*cj), where the doubling is an addition of two equal float64 numbers; the order of the terms has no influence.", "quantifier": "numbers and monomials: for all numbers, all well-formed monomials and all n in every arithmetic; variables: for all checked variables and all n; expressions: for all n and all well-formed expressions with float64 numbers that repeat no term, as long as sums of n exponents stay in a family without rearrangements in which all exponents of a term are equal; squares: for all well-formed expressions of degree at most one with finite float64 coefficients that repeat no term", "why_tests_cant": "There are infinitely many exponents, orders of variables and coefficients, and the last bit of a power depends on the order of the multiplications (Power(2) twice and Power(4) differ); tests use small integers.", "anchors": ["symbolic/scalar_expression.go:147-167", "symbolic/monomial.go:155-236", "symbolic/variable.go:274-351", "symbolic/polynomial.go:294-376"]}
{"id": "C97", "title": "LinearCoeff without variables fails with a text that shows the constant and its type", "statement": "LinearCoeff() of a scalar or vector expression panics with CanNotGetLinearCoeffOfConstantError (for K with EmptyLinearCoeffsError) exactly when the expression mentions no variable. The text of the error then contains the String of the expression and its Go type and says that it represents a constant, and this is right: the expression denotes a constant. The text determines the String and the type, so two constant expressions with the same text have the same type and equal constants in all entries. LinearCoeff([]Variable{}) gives the same error for every expression; there the text is wrong when the expression has variables.", "quantifier": "for all well-formed scalar expressions and all well-formed non-empty vectors of every length, in every arithmetic (the meaning of the expressions: in every ordered field, and for every number format that separates numbers as in C53)", "why_tests_cant": "A test fixes one expression without variables; there are infinitely many of them (sums of numbers, monomials and polynomials without variables, vectors of any length), and that two different constants never produce the same text quantifies over all pairs.", "anchors": ["smErrors/linear_coeffs.go:13-23", "smErrors/empty_linear_coeffs.go:13-24", "symbolic/constant.go:48-60", "symbolic/variable.go:36-56", "symbolic/monomial.go:331-351", "symbolic/polynomial.go:627-649"]}
{"id": "C98", "title": "Sums, differences and multiples of vectors and matrices use one float64 operation per coefficient of each entry", "statement": "Plus and Minus of two vectors, and of a vector and a scalar, compute every coefficient of every entry with exactly one float64 addition or subtraction of the corresponding coefficients, for all kinds of vectors; a vector times a scalar computes every entry with the float64 operations of the scalar product (C89). Plus of a number matrix and any matrix, and of a polynomial matrix and a number or polynomial matrix or a scalar other than a variable, is one addition per coefficient of each entry; a polynomial matrix times a number is one multiplication per coefficient. Plus of a monomial matrix and a scalar or polynomial matrix computes nothing: each entry gets the term in front of the other terms, so like terms stay separate.", "quantifier": "for all lengths and shapes, all well-formed entries with float64 coefficients (finite or not) that repeat no term, whose exponents stay in a family without rearrangements in which all exponents of a term are equal (so all linear expressions); the statement about monomial matrices for all well-formed operands in every arithmetic", "why_tests_cant": "The last bit of a coefficient depends on which operations are done; there are infinitely many lengths, kinds and coefficients, and tests use small integers for which every order gives the same sum.", "anchors": ["symbolic/vector_expression.go:390-416", "symbolic/expression.go:119-123", "symbolic/constant_matrix.go:59-137", "symbolic/polynomial_matrix.go:93-187", "symbolic/monomial_matrix.go:97-206"]}
{"id": "C99", "title": "Products of matrices and vectors use exactly the textbook float64 operations in every entry", "statement": "A matrix of numbers, variables or polynomials, or one row of monomials, times a vector of variables: every coefficient of every entry is the float64 sum, from zero and from the first column to the last, of the coefficients of the products of the entries (each computed as in C89); the order in which the code goes through rows and columns has no influence. A matrix of variables times a vector of numbers: the coefficient of a variable in a row is the float64 sum, from the first column to the last, of the numbers in the columns where the row has this variable, and all other coefficients are zero.", "quantifier": "for all numbers of rows and columns, all well-formed entries with float64 coefficients that repeat no term, if the exponents of the products stay in a family without rearrangements in which all exponents of a term are equal (so all entries of degree at most one); matrix of variables times vector: for all checked variables, repeated or not, and all finite float64 numbers", "why_tests_cant": "The code computes these products in four different ways (row by row, column by column, with the factors exchanged, with polynomials); only the last bits of the coefficients show the order of the operations, and there are infinitely many shapes and coefficients.", "anchors": ["symbolic/constant_matrix.go:188-314", "symbolic/variable_matrix.go:215-311", "symbolic/monomial_matrix.go:242-330", "symbolic/polynomial_matrix.go:229-313"]}
{"id": "C100", "title": "Derivatives of vectors and matrices use exactly one float64 multiplication per coefficient", "statement": "DerivativeWrt of a vector or matrix of numbers or variables and of a matrix of monomials returns; DerivativeWrt of a vector or matrix of polynomials may panic (C11) - whenever it returns, as in the other cases, the result has the same shape, repeats no term, and the coefficient of d in every entry is the coefficient of d+v in the same entry times the float64 of its exponent of v, one multiplication, or zero if the entry has no such term. DerivativeWrt of a vector of monomials returns; in entries where v has an exponent n of at most one the same holds; in all others the coefficient is multiplied once by n-1 and the exponent of v lowered by two, not one (the derivative the method should compute has n and one).", "quantifier": "for all shapes with at least one row and one column, all well-formed entries with finite float64 coefficients that repeat no term, all exponents and all checked variables", "why_tests_cant": "A coefficient multiplied in another order, twice, or merged with another differs in the last bits only, for some of infinitely many coefficients; and the wrong derivative of monomial vectors is only seen with exponents of at least two.", "anchors": ["symbolic/constant_vector.go:416-418", "symbolic/variable_vector.go:349-372", "symbolic/monomial_vector.go:335-379", "symbolic/polynomial_vector.go:383-393", "symbolic/constant_matrix.go:476-478", "symbolic/variable_matrix.go:415-439", "symbolic/monomial_matrix.go:450-476", "symbolic/polynomial_matrix.go:419-445"]}
{"id": "C101", "title": "When the order of two derivatives shows in the float64 result", "statement": "e.DerivativeWrt(v).DerivativeWrt(w) returns, repeats no term, and each coefficient is the coefficient of e times the exponent of v, rounded, times the exponent of w, rounded. The other order multiplies by the exponent of w first. The two orders therefore give the same coefficient, bit by bit, of every term of e in which v and w have the same exponent or one of them has the exponent 1, 2 or 4, hence of all terms if e has degree at most seven; this bound is sharp: they differ for 0.1*x^3*y^5, of degree eight (1.5000000000000002 and 1.5), although the derivatives are equal in exact arithmetic (C09).", "quantifier": "for all well-formed scalar expressions with float64 coefficients that repeat no term, all checked variables v and w (the same or not), all terms with exponents of v and w below 2^53; each order on its own copy of e (C10)", "why_tests_cant": "Tests of second derivatives use small exponents, where both orders agree; that they always agree there, and what happens elsewhere, is a statement about infinitely many coefficients and exponents.", "anchors": ["symbolic/polynomial.go:560-602", "symbolic/monomial.go:484-528", "symbolic/variable.go:DerivativeWrt", "symbolic/constant.go:DerivativeWrt"]}
{"id": "C102", "title": "The factor two distributes over sums bit by bit", "statement": "e.Plus(e) and e.Multiply(2) return expressions with the same float64 coefficients, also for infinite coefficients. e.Plus(f).Multiply(2) and e.Multiply(2).Plus(f.Multiply(2)) have the same coefficient, bit by bit, of every term for which twice the coefficients of e and f are finite, also where the sum overflows or is subnormal. For the factor three this is false (0.1 and 0.4: 1.5 and 1.5000000000000002), and it is false where doubling an operand overflows (2^1023 and -2^1023: 0 and NaN).", "quantifier": "for all well-formed scalar expressions with float64 coefficients that repeat no term, with exponents in a family without rearrangements in which all exponents of a term are equal (so all expressions of degree at most one)", "why_tests_cant": "Whether two ways to compute an expression agree to the last bit depends on the rounding of each of infinitely many coefficients; the examples with other factors show that agreement in tests proves nothing.", "anchors": ["symbolic/polynomial.go:294-376", "symbolic/monomial.go:155-236", "symbolic/variable.go:274-351", "symbolic/constant.go:245-287"]}
{"id": "C103", "title": "Doubling both sides of a linear constraint doubles its matrix representation bit by bit", "statement": "If both sides of a linear scalar constraint are multiplied by two with Multiply, LinearInequalityConstraintRepresentation and LinearEqualityConstraintRepresentation return exactly the numbers they return for the original constraint, each multiplied by two in float64. For the factor three this is false: 0.1*x <= -0.4*x has the row 0.5, with both sides times three the row is 1.5000000000000002.", "quantifier": "for all well-formed linear scalar constraints with finite float64 coefficients that repeat no term, all senses (equality representation: sense ==), all lists of distinct checked variables that contain those of the constraint, if no doubled coefficient, difference of coefficients or doubled difference overflows", "why_tests_cant": "That scaling a constraint scales its row to the last bit depends on the rounding of every difference of coefficients, also of subnormal ones; other factors break it for some coefficients only.", "anchors": ["symbolic/scalar_constraint.go:91-185", "symbolic/polynomial.go:294-376", "symbolic/constant.go:245-287"]}
