{
 "claims": [
  {
   "property": "C01",
   "status": "partial",
   "theorems": [
    "Verif.plus_total",
    "Verif.plus_denotes_sum_partial",
    "Verif.plus_denotes_sum_deg_two",
    "Verif.plus_denotes_sum_multilinear",
    "Verif.plus_denotes_sum_univariate",
    "Verif.plus_value_partial",
    "Verif.plus_exact_iff_rearrFree",
    "Verif.plus_false"
   ],
   "note": "Totality and well-formedness hold for every number type. The value claim holds exactly for rearrangement-free term sets (plus_exact_iff_rearrFree), in particular for degree <= 2. The unrestricted claim is false: x^2*y + y^2*x is computed as 2*x^2*y (plus_false). With float64 coefficients: each coefficient is one float64 sum (C88)."
  },
  {
   "property": "C02",
   "status": "partial",
   "theorems": [
    "Verif.mul_total",
    "Verif.mul_denotes_product_partial",
    "Verif.mul_denotes_product_affine",
    "Verif.mul_denotes_product_univariate",
    "Verif.mul_denotes_product_nonpoly",
    "Verif.mul_false"
   ],
   "note": "Value claim for products in a rearrangement-free set; unconditional for affine, univariate and non-polynomial operands. False in general: (x+y)*(x*y) is computed as 2*x^2*y (mul_false). With float64 coefficients: the sum of products in the order of the terms (C89)."
  },
  {
   "property": "C03",
   "status": "partial",
   "theorems": [
    "Verif.minus_total",
    "Verif.minus_denotes_difference_partial",
    "Verif.minus_denotes_difference_deg_two",
    "Verif.minus_self_partial",
    "Verif.minus_false"
   ],
   "note": "As C01. False in general: x^2*y - y^2*x is computed as 0 (minus_false). With float64 coefficients: one float64 difference per coefficient (C88)."
  },
  {
   "property": "C04",
   "status": "partial",
   "theorems": [
    "Verif.power_total",
    "Verif.power_negative",
    "Verif.power_denotes_power_partial",
    "Verif.power_denotes_power_univariate",
    "Verif.power_denotes_square_affine",
    "Verif.power_denotes_power_nonpoly",
    "Verif.power_false"
   ],
   "note": "Negative exponents are always rejected. Value claim when the powers stay rearrangement-free. False in general: (x+y)^3 (power_false)."
  },
  {
   "property": "C05",
   "status": "partial",
   "theorems": [
    "Verif.additive_laws_partial",
    "Verif.multiplicative_laws_partial",
    "Verif.mul_assoc_univariate",
    "Verif.plus_comm_false"
   ],
   "note": "Laws up to meaning on rearrangement-free term sets; commutativity of Plus fails in general (plus_comm_false)."
  },
  {
   "property": "C06",
   "status": "partial",
   "theorems": [
    "Verif.asSimplified_total",
    "Verif.asSimplified_denotes_same_partial",
    "Verif.simplify_denotes_same_partial",
    "Verif.asSimplified_false"
   ],
   "note": "As C01; false in general (asSimplified_false)."
  },
  {
   "property": "C07",
   "status": "partial",
   "theorems": [
    "Verif.simplify_normal_form",
    "Verif.simplify_normal_form_partial",
    "Verif.simplify_canonical_partial",
    "Verif.simplify_distinct_false",
    "Verif.array_asSimplified_idempotent"
   ],
   "note": "Unconditional: no zero coefficient, at most one constant, no two terms that the matcher identifies, idempotence. Distinct exponent vectors and uniqueness of the normal form hold for flat terms (all exponents of a term equal, includes degree <= 2 and multilinear); false in general because x^2*y with swapped factor order is not matched (simplify_distinct_false)."
  },
  {
   "property": "C08",
   "status": "partial",
   "theorems": [
    "Verif.asSimplified_smallest_partial",
    "Verif.plus_smallest_partial",
    "Verif.asSimplified_idempotent",
    "Verif.smallestKind_false"
   ],
   "note": "For flat terms, also for results of Plus. False in general (smallestKind_false)."
  },
  {
   "property": "C09",
   "status": "proved",
   "theorems": [
    "Verif.derivative_total",
    "Verif.derivative_bad_variable",
    "Verif.derivative_denotes_pderiv",
    "Verif.derivative_symmetric"
   ],
   "note": "All scalar kinds, all well-formed expressions, exact arithmetic for the denotation. The in-place writes of DerivativeWrt are the subject of C10. With float64 coefficients: one product per coefficient (C89)."
  },
  {
   "property": "C10",
   "status": "partial",
   "theorems": [
    "Verif.heap_derivative",
    "Verif.heap_derivative_others",
    "Verif.heap_derivative_unchanged_iff",
    "Verif.heap_derivative_safe",
    "Verif.heap_gradient_partial",
    "Verif.heap_gradient_denotes_partial",
    "Verif.heap_copy_protects",
    "Verif.heap_polyVec",
    "Verif.heap_monoVec",
    "Verif.heap_gradient_run",
    "Verif.heap_gradient_false",
    "Verif.heap_polyCopy_false",
    "Verif.heap_polyVec_receiver",
    "Verif.heapAll_value",
    "Verif.heapAll_self",
    "Verif.heapAll_others",
    "Verif.heapAll_panic",
    "Verif.steady_of_linear",
    "Verif.heapAll_gradient_partial",
    "Verif.heapAll_run",
    "Verif.heapAll_panic_polyVec_false",
    "Verif.heapAll_panic_polyMat_false",
    "Verif.heapAll_monoVec_receiver",
    "Verif.heapAll_monoMat_false"
   ],
   "note": "C10 is false as stated (heap_gradient_false: differentiating x^2*y by x and then by y returns x as the second component; heapAll_monoMat_false: a MonomialMatrix differentiated twice; heap_polyCopy_false: Polynomial.Copy does not protect the original; heap_polyVec_receiver: PolynomialVector.DerivativeWrt overwrites its receiver; heapAll_panic_polyVec_false, heapAll_panic_polyMat_false: a recovered panic leaves the receiver half changed). Proved for every heap, every kind of expression (well formed or not) and with recovered panics: the outcome of a call (heapAll_value), what the receiver is afterwards (heapAll_self), that expressions with other slices keep their value (heapAll_others), that a panicking call changes nothing unless the receiver is a PolynomialVector or PolynomialMatrix (heapAll_panic), the exact outcomes and final values of any sequence of calls on unshared expressions (heapAll_run, without PolynomialVectors), and that programs whose calls differentiate by variables of exponent at most one leave every expression unchanged and compute the true gradient, with any sharing (heapAll_gradient_partial with steady_of_linear, heap_gradient_denotes_partial). Monomial.Copy protects the original. A slice is the whole of its backing array (no re-slicing occurs in this code). heapAll_value needs a receiver whose entries share no slice with each other; C65 shows that sums of vectors and matrices with one scalar do not have this. C66: scalars computed by any program have different slices in different terms, so there the result of DerivativeWrt is always right."
  },
  {
   "property": "C11",
   "status": "partial",
   "theorems": [
    "Verif.derivative_array_total",
    "Verif.derivative_array",
    "Verif.derivative_monoVec_total",
    "Verif.derivative_monoVec_value",
    "Verif.derivative_monoVec_iff",
    "Verif.derivative_monoVec_false",
    "Verif.derivative_polyVec_iff",
    "Verif.derivative_polyVec_partial",
    "Verif.derivative_polyVec_panics",
    "Verif.derivative_polyMat_partial",
    "Verif.derivative_polyMat_panics"
   ],
   "note": "Returned value. Exact for constants, variables and matrices of monomials. MonomialVector: correct iff no entry contains the variable to a power above one (derivative_monoVec_iff); wrong for x^2 (derivative_monoVec_false). PolynomialVector and PolynomialMatrix: correct when no entry has zero derivative, otherwise the type assertion panics (derivative_polyVec_panics). These theorems are about values; for a receiver whose entries share an exponent slice, as sums of a vector and a monomial do, the returned derivative is wrong (C65, heapArray_sum_derivative_value)."
  },
  {
   "property": "C12",
   "status": "partial",
   "theorems": [
    "Verif.substitute_total",
    "Verif.substitute_denotes_bind_partial",
    "Verif.substitute_value_partial",
    "Verif.substitute_affine_into_quadratic",
    "Verif.substitute_quadratic_into_affine",
    "Verif.substitute_univariate",
    "Verif.substitute_const_multilinear",
    "Verif.substitute_nonpoly",
    "Verif.substitute_false",
    "Verif.substitute_env_false",
    "Verif.substitute_array_total",
    "Verif.substitute_array_partial",
    "Verif.substitute_array_quadratic"
   ],
   "note": "Composition of polynomials, for scalars, vectors and matrices, whenever the terms that can appear are rearrangement-free (the corollaries list families without side condition). False in general: x^3 with x := x+y (substitute_false), and for a variable with the same ID in another environment."
  },
  {
   "property": "C13",
   "status": "partial",
   "theorems": [
    "Verif.substMap_total",
    "Verif.substMap_denotes_bind_partial",
    "Verif.substMap_affine_into_quadratic",
    "Verif.substMap_value_affine",
    "Verif.substMap_nonpoly",
    "Verif.substMap_evaluates",
    "Verif.substMap_false",
    "Verif.substMap_key_identity"
   ],
   "note": "Simultaneous substitution; full evaluation at constants is unconditional (substMap_evaluates). False in general (substMap_false); keys are compared by the whole variable struct (substMap_key_identity)."
  },
  {
   "property": "C14",
   "status": "partial",
   "theorems": [
    "Verif.substMap_array_total",
    "Verif.substMap_array_partial",
    "Verif.substMap_array_order_partial",
    "Verif.substMap_array_quadratic",
    "Verif.substMap_array_multilinear",
    "Verif.substMap_array_order_false",
    "Verif.substMap_array_false",
    "Verif.substMap_array_evaluates_false",
    "Verif.substMap_vec_rounding_order_false"
   ],
   "note": "Simultaneous and independent of the order when the replacements mention no other key and the terms stay rearrangement-free (unconditional: affine replacements in degree <= 2, constants in multilinear entries). Totality always. False in general: a swap map gives two different wrong results (substMap_array_false), and evaluation at constants can depend on the order (substMap_array_evaluates_false). In float64 even linear entries give different numbers in different orders (substMap_vec_rounding_order_false); scalars do not (C94)."
  },
  {
   "property": "C15",
   "status": "partial",
   "theorems": [
    "Verif.linearCoeff_partial",
    "Verif.linearCoeff_poly_partial",
    "Verif.linearCoeff_simplified",
    "Verif.kvar_linearCoeff",
    "Verif.linearCoeff_mono_partial",
    "Verif.linearCoeff_mono_panics",
    "Verif.linearCoeff_empty",
    "Verif.linearCoeff_mono_false",
    "Verif.linearCoeff_mono_dup_false",
    "Verif.linearCoeff_poly_false",
    "Verif.vec_linearCoeff_partial"
   ],
   "note": "Proved for simplified expressions (distinct low terms), scalars and vectors. Monomial.LinearCoeff panics or returns wrong coefficients for some variable lists; unsimplified polynomials only report the first matching term."
  },
  {
   "property": "C16",
   "status": "partial",
   "theorems": [
    "Verif.constant_partial",
    "Verif.constant_value_partial",
    "Verif.constant_simplified",
    "Verif.constant_false",
    "Verif.vec_constant_partial",
    "Verif.mat_constant_partial"
   ],
   "note": "Proved for scalars, vectors and matrices whose entries have at most one constant term, which every simplified expression satisfies; false for unsimplified polynomials (constant_false)."
  },
  {
   "property": "C17",
   "status": "partial",
   "theorems": [
    "Verif.affine_reconstruction_partial",
    "Verif.affine_value_partial",
    "Verif.affine_reconstruction_false",
    "Verif.vec_affine_partial"
   ],
   "note": "Scalars and vectors with distinct low terms; false in general (affine_reconstruction_false)."
  },
  {
   "property": "C18",
   "status": "partial",
   "theorems": [
    "Verif.degree_upper_bound",
    "Verif.degree_eq_totalDegree_partial",
    "Verif.isLinear_correct_partial",
    "Verif.isLinear_sound",
    "Verif.degree_false",
    "Verif.degree_array",
    "Verif.degree_array_bound",
    "Verif.degree_array_exact_partial"
   ],
   "note": "The bound is unconditional for scalars, vectors and matrices; equality on simplified expressions with flat terms; false in general (degree_false)."
  },
  {
   "property": "C19",
   "status": "proved",
   "theorems": [
    "Verif.variables_nodup",
    "Verif.variables_complete",
    "Verif.variables_determine_value",
    "Verif.variables_exact_partial",
    "Verif.variables_array"
   ],
   "note": "All scalar, vector and matrix kinds, every number type. A variable is identified by its ID."
  },
  {
   "property": "C20",
   "status": "proved",
   "theorems": [
    "Verif.uniqueVars_eq_firstOcc",
    "Verif.uniqueVars_spec",
    "Verif.unionOfVariables_spec",
    "Verif.unionOfVariables_comm",
    "Verif.uniqueIds_eq_firstOcc",
    "Verif.findVar_last"
   ],
   "note": "All lists of variables."
  },
  {
   "property": "C21",
   "status": "partial",
   "theorems": [
    "Verif.track_spec",
    "Verif.newVar_spec",
    "Verif.newVars_stuck",
    "Verif.history_nodup",
    "Verif.history_fresh_partial",
    "Verif.history_distinct_partial",
    "Verif.fineRun_of_create",
    "Verif.newVarValue_ok",
    "Verif.newVar_fresh_false",
    "Verif.created_distinct_false",
    "Verif.create_environment"
   ],
   "note": "False as stated (newVar_fresh_false, created_distinct_false: after TrackVariable of a variable whose ID is the next number but one, the next new variable collides). Proved: exact one-step condition (newVar_spec), every later creation repeats the same ID once that happens (newVars_stuck), no environment ever holds two variables with the same ID (history_nodup), and for all histories on any number of environments in which every tracked ID is already tracked or is the next one: all created variables are fresh, distinct and tracked. Not modelled: wrap-around of uint64, writes to the exported field Variables, other implementations of Environment."
  },
  {
   "property": "C22",
   "status": "partial",
   "theorems": [
    "Verif.concurrent_serial_partial",
    "Verif.concurrent_next",
    "Verif.concurrent_same_id",
    "Verif.concurrent_false",
    "Verif.concurrent_lost",
    "Verif.concurrent_tracked_false"
   ],
   "note": "False as stated (concurrent_false). Proved for any number of goroutines: two goroutines that read the length one right after the other get the same ID under every continuation of the schedule (concurrent_same_id, concurrent_next), and schedules that run one creation at a time give distinct, tracked variables (concurrent_serial_partial)."
  },
  {
   "property": "C23",
   "status": "partial",
   "theorems": [
    "Verif.plus_variables_iff",
    "Verif.minus_zero_iff",
    "Verif.environments_identified",
    "Verif.different_ids_stay_distinct_partial"
   ],
   "note": "False for every pair of environments: environments_identified (the first variables of two environments have sum with one variable and difference zero). Proved exactly: sum has two variables iff IDs differ, difference is zero iff IDs are equal, whatever the environments."
  },
  {
   "property": "C24",
   "status": "partial",
   "theorems": [
    "Verif.vec_plus_vec_partial",
    "Verif.vec_plus_vec_deg_two",
    "Verif.vec_plus_vec_total",
    "Verif.vec_plus_scalar_partial",
    "Verif.vec_plus_scalar_total",
    "Verif.scalar_plus_vec_partial",
    "Verif.vec_plus_dimension",
    "Verif.vec_minus_vec_partial",
    "Verif.vec_minus_scalar_partial",
    "Verif.mono_plus_vec_false",
    "Verif.vec_plus_length_one_false",
    "Verif.vec_plus_length_one_panics"
   ],
   "note": "Every kind and length; values need terms in a rearrangement-free family (for example degree at most two). False for a length-one vector with a longer one and for Monomial.Plus(vector)."
  },
  {
   "property": "C25",
   "status": "partial",
   "theorems": [
    "Verif.vec_mul_scalar_partial",
    "Verif.vec_mul_scalar_affine",
    "Verif.vec_mul_scalar_total",
    "Verif.scalar_mul_vec_partial",
    "Verif.polyvec_mul_var_false",
    "Verif.k_mul_vec_false",
    "Verif.kvec_one_mul_vec_false",
    "Verif.mat_mul_k_partial",
    "Verif.kmat_mul_poly_partial",
    "Verif.varmat_mul_one_panics",
    "Verif.kmat_mul_var_false"
   ],
   "note": "Every length; values need terms in a rearrangement-free family. False for PolynomialVector times Variable or Monomial and for K or Monomial on the left."
  },
  {
   "property": "C26",
   "status": "partial",
   "theorems": [
    "Verif.mat_mul_partial",
    "Verif.mat_mul_affine",
    "Verif.kmat_mul_deg_two",
    "Verif.mat_mul_total",
    "Verif.mat_mul_dimension",
    "Verif.mat_mul_varvec_partial",
    "Verif.varmat_mul_kvec_partial",
    "Verif.monomat_row_mul_varvec_partial",
    "Verif.monomat_mul_varvec_partial",
    "Verif.kmat_mul_kvec_false",
    "Verif.monomat_mul_varvec_panics",
    "Verif.kmat_row_mul_short_vec_false"
   ],
   "note": "Matrix times matrix: all kinds and sizes; values need the terms of the product in a rearrangement-free family (unconditional for affine entries). Matrix times vector: the supported kinds. False for KMatrix times KVector (unsupported), for a MonomialMatrix whose row sums collapse (panic) and for a length-one vector."
  },
  {
   "property": "C27",
   "status": "partial",
   "theorems": [
    "Verif.mat_plus_partial",
    "Verif.mat_plus_deg_two",
    "Verif.mat_plus_total",
    "Verif.mat_plus_dimension",
    "Verif.monomat_plus_polymat",
    "Verif.varmat_plus_kmat_partial",
    "Verif.varmat_plus_k_partial",
    "Verif.mat_plus_scalar_partial",
    "Verif.poly_plus_mat_partial",
    "Verif.k_plus_mat_partial",
    "Verif.kmat_minus_partial",
    "Verif.mat_plus_kinds_false",
    "Verif.varmat_plus_zero_panics",
    "Verif.varmat_one_plus_kmat_false",
    "Verif.var_plus_mat_false",
    "Verif.monomat_plus_not_simplified",
    "Verif.kmat_minus_polycol_false",
    "Verif.polymat_minus_polymat_false"
   ],
   "note": "The supported pairs of kinds, all sizes. False for the other pairs (unsupported), for VariableMatrix plus a matrix with a zero entry (panic) and for 1 by 1 operands."
  },
  {
   "property": "C28",
   "status": "proved",
   "theorems": [
    "Verif.transpose_entry",
    "Verif.transpose_transpose",
    "Verif.transpose_denotes"
   ],
   "note": "Every kind and non-empty shape, every number type; entries compared as expressions, not only as polynomials."
  },
  {
   "property": "C29",
   "status": "proved",
   "theorems": [
    "Verif.hstack_blocks",
    "Verif.vstack_blocks",
    "Verif.hstack_dimension",
    "Verif.vstack_dimension",
    "Verif.stack_empty"
   ],
   "note": "All non-empty lists of scalars, vectors and matrices of any kinds with non-empty blocks."
  },
  {
   "property": "C30",
   "status": "proved",
   "theorems": [
    "Verif.concretizeVec_den",
    "Verif.concretizeMat_den",
    "Verif.concretizeVec_total",
    "Verif.concretizeMat_total",
    "Verif.concretizeVec_empty",
    "Verif.concretizeMat_ragged"
   ],
   "note": "Values: every non-empty list or rectangular table, well formed or not. Well-formed entries stay well formed."
  },
  {
   "property": "C31",
   "status": "partial",
   "theorems": [
    "Verif.checkDimAdd_iff",
    "Verif.checkDimMul_iff",
    "Verif.checkDimCompare_iff",
    "Verif.checkNeighbours_iff",
    "Verif.mat_plus_dimension",
    "Verif.mat_mul_dimension",
    "Verif.vec_plus_dimension",
    "Verif.hstack_dimension",
    "Verif.vstack_dimension",
    "Verif.comparison_dimension"
   ],
   "note": "Checks for sums, differences, comparisons, products and stacking, as equivalences for all shapes, and the operations reject incompatible shapes. The checks for sums and products count a length-one vector and a 1 by 1 matrix as scalars although several operations then fail (see C24, C27); the check for comparisons accepts a scalar kind although several comparisons are then unsupported (comparison_false)."
  },
  {
   "property": "C32",
   "status": "proved",
   "theorems": [
    "Verif.at_ok_iff",
    "Verif.at_total",
    "Verif.at_out_of_bounds",
    "Verif.atVec_ok_iff",
    "Verif.atVec_out_of_bounds"
   ],
   "note": "All kinds, all non-empty shapes, all integers."
  },
  {
   "property": "C33",
   "status": "partial",
   "theorems": [
    "Verif.comparison_scalar",
    "Verif.comparison_scalar_rejects",
    "Verif.lessEq_sat",
    "Verif.greaterEq_sat",
    "Verif.eqTo_sat",
    "Verif.lessEq_greaterEq_sat",
    "Verif.comparison_sides",
    "Verif.comparison_sat_partial",
    "Verif.lessEq_greaterEq_array_partial",
    "Verif.comparison_const_sat_partial",
    "Verif.const_comparison_sat_partial",
    "Verif.comparison_dimension",
    "Verif.comparison_false",
    "Verif.scon_check_iff",
    "Verif.vcon_check_iff",
    "Verif.mcon_check_iff",
    "Verif.mcon_check_dimension",
    "Verif.lessEqArg_sat_partial",
    "Verif.greaterEqArg_sat_partial",
    "Verif.eqArg_sat_partial"
   ],
   "note": "Every pair of well-formed scalars; arrays of equal shape for every supported pair of kinds; arrays with a constant on either side. All senses, all assignments. False for the other pairs of kinds, which are rejected, often in one direction only (comparison_false)."
  },
  {
   "property": "C34",
   "status": "partial",
   "theorems": [
    "Verif.simplify_con_partial",
    "Verif.simplify_con_constant_partial",
    "Verif.simplify_con_false",
    "Verif.simplify_con_constant_false",
    "Verif.vec_simplify_partial",
    "Verif.vec_linearIneq_one_panics",
    "Verif.simplify_con_written",
    "Verif.simplify_con_constant_written"
   ],
   "note": "Same sense, same solutions and constant right side for terms in a rearrangement-free set; for scalars no constant on the left only if it had none before. Both restrictions are needed (simplify_con_constant_false, simplify_con_false). Vectors of at least two rows: all constants on the right; one row panics."
  },
  {
   "property": "C35",
   "status": "partial",
   "theorems": [
    "Verif.flipSense_holds",
    "Verif.scaleBy_partial",
    "Verif.scaleBy_false",
    "Verif.scaleBy_zero_false",
    "Verif.scaleBy_written"
   ],
   "note": "Terms in a rearrangement-free set (scaling simplifies). False in general (scaleBy_false) and for factor zero (scaleBy_zero_false)."
  },
  {
   "property": "C36",
   "status": "partial",
   "theorems": [
    "Verif.isLinear_con",
    "Verif.linearIneq_general",
    "Verif.linearIneq_partial",
    "Verif.linearIneq_default_partial",
    "Verif.linear_rejects_nonlinear",
    "Verif.linearIneq_false",
    "Verif.linearIneq_equality",
    "Verif.vec_linearIneq_partial",
    "Verif.vec_linear_rejects_nonlinear",
    "Verif.vec_linear_rejects_sense"
   ],
   "note": "Scalar constraints whose sides write no constant or first-degree term twice; covering duplicate-free variable lists or the default list. Nonlinear constraints are rejected. Vector constraints: see C47. False for unsimplified sides (linearIneq_false); equalities are accepted for scalars (linearIneq_equality). With float64 coefficients: the margin is C72, the returned numbers themselves C88."
  },
  {
   "property": "C37",
   "status": "partial",
   "theorems": [
    "Verif.linearEq_partial",
    "Verif.linearEq_rejects_sense",
    "Verif.linear_rejects_nonlinear",
    "Verif.linearEq_false",
    "Verif.vec_linearEq_partial",
    "Verif.vec_linear_rejects_nonlinear",
    "Verif.vec_linear_rejects_sense"
   ],
   "note": "As C36; other senses and nonlinear constraints are rejected. With float64 coefficients: C72 and C88."
  },
  {
   "property": "C38",
   "status": "partial",
   "theorems": [
    "Verif.implies_sound_partial",
    "Verif.implies_exact_partial",
    "Verif.implies_array_sound",
    "Verif.implies_all_sound_partial",
    "Verif.implies_constant_false",
    "Verif.implies_nonlinear_false",
    "Verif.implies_arrays_false",
    "Verif.implies_float64_sound_partial",
    "Verif.implies_float64_exact_partial",
    "Verif.implies_float64_false"
   ],
   "note": "Scalar, vector and matrix constraints that are linear, write no low term twice, have no constant on the left side and are not constant; for one common variable the answer on scalars is exact. False with a constant on the left or higher degree (implies_constant_false, implies_nonlinear_false, implies_arrays_false)."
  },
  {
   "property": "C39",
   "status": "partial",
   "theorems": [
    "Verif.isNonneg_sound_partial",
    "Verif.isNonneg_complete_partial",
    "Verif.isNonneg_false",
    "Verif.isNonneg_incomplete",
    "Verif.isNonneg_written"
   ],
   "note": "Sound for terms in a rearrangement-free set without a constant on the left; complete for linear constraints that mention one variable. False otherwise (isNonneg_false, isNonneg_incomplete)."
  },
  {
   "property": "C40",
   "status": "partial",
   "theorems": [
    "Verif.compile_entries",
    "Verif.compileAll_entries",
    "Verif.compileAll_length",
    "Verif.compile_feasible_partial",
    "Verif.compile_broadcast_false",
    "Verif.compile_broadcast_panics"
   ],
   "note": "All lists of scalar, vector and matrix constraints whose sides are well formed and of equal shape; entry order and count included. A constraint whose sides have different shapes (constructible, not by comparison) is compiled by the shape of the left side (compile_broadcast_false, compile_broadcast_panics)."
  },
  {
   "property": "C41",
   "status": "partial",
   "theorems": [
    "Verif.substitute_con_partial",
    "Verif.substitute_con_quadratic",
    "Verif.substMap_con_quadratic",
    "Verif.substMap_con_evaluates",
    "Verif.substitute_con_false",
    "Verif.substitute_con_array_partial",
    "Verif.substitute_con_array_quadratic",
    "Verif.substMap_con_array_partial",
    "Verif.conProgram_checked"
   ],
   "note": "Scalar, vector and matrix constraints, whenever the terms that can appear are rearrangement-free (unconditional for affine replacements in quadratic constraints and for full evaluation). Maps on vectors and matrices: as C14. False in general (substitute_con_false)."
  },
  {
   "property": "C42",
   "status": "proved",
   "theorems": [
    "Verif.quadratic_form",
    "Verif.quadratic_form_one_false"
   ],
   "note": "All n >= 2, all constant matrices, all vectors of variables with repetitions, exact arithmetic. For n = 1 the chain of calls panics (quadratic_form_one_false), which the statement excludes."
  },
  {
   "property": "C43",
   "status": "partial",
   "theorems": [
    "Verif.check_ok_iff_accepted",
    "Verif.mul_rejects",
    "Verif.plus_rejects_partial",
    "Verif.minus_rejects",
    "Verif.power_rejects",
    "Verif.substitute_rejects",
    "Verif.substMap_rejects",
    "Verif.derivative_rejects",
    "Verif.queries_reject",
    "Verif.asSimplified_valid",
    "Verif.plus_valid",
    "Verif.mul_valid",
    "Verif.minus_power_valid",
    "Verif.derivative_valid",
    "Verif.plus_rejects_false",
    "Verif.expr_check_ok_iff_accepted",
    "Verif.expr_plus_rejects_partial",
    "Verif.expr_mul_rejects",
    "Verif.expr_minus_rejects",
    "Verif.array_power_rejects",
    "Verif.comparison_rejects",
    "Verif.array_substitute_rejects",
    "Verif.array_substMap_rejects",
    "Verif.array_derivative_rejects_partial",
    "Verif.array_queries_reject",
    "Verif.expr_results_accepted",
    "Verif.array_rejects_false"
   ],
   "note": "Every number type. False for Variable.Plus, which does not check a variable given as argument (plus_rejects_false), and for DerivativeWrt of an empty PolynomialVector and some queries of VariableVector (array_rejects_false). That results pass Check is proved for every number type, for scalars and for arrays (expr_results_accepted, operands non-empty rectangular arrays of canonical entries)."
  },
  {
   "property": "C44",
   "status": "partial",
   "theorems": [
    "Verif.shared_multiply_partial",
    "Verif.shared_multiply_finishes",
    "Verif.shared_multiply_full_partial",
    "Verif.shared_multiply_alone",
    "Verif.shared_multiply_false"
   ],
   "note": "False with spare capacity in the receiver's slice (shared_multiply_false: index -1 panic for x*y*z with capacity 4). Proved for all schedules, any number of goroutines and all capacities when the factors that fit into the spare capacity agree place by place (in particular without spare capacity, or a goroutine alone): every finished goroutine has the product it would obtain alone, the receiver is unchanged, and goroutines scheduled often enough finish. Each element access is one atomic step in the model."
  },
  {
   "property": "C45",
   "status": "partial",
   "theorems": [
    "Verif.kvectorFrom_spec",
    "Verif.kmatrixFrom_spec",
    "Verif.from_empty_false"
   ],
   "note": "Exact: the result has the entries of the input in the same positions, and the inputs that panic are exactly empty slices, ragged slices of rows, nil pointers and other types. As stated for all sizes the claim is false for empty slices (from_empty_false). Sharing of the slice of a KVector or KMatrix that is passed through is not modelled."
  },
  {
   "property": "C46",
   "status": "partial",
   "theorems": [
    "Verif.mat_power_partial",
    "Verif.mat_power_zero",
    "Verif.kmat_power",
    "Verif.mat_power_univariate",
    "Verif.mat_power_two",
    "Verif.mat_power_not_square",
    "Verif.mat_power_negative",
    "Verif.mat_power_one_by_one_panics"
   ],
   "note": "At least two rows; constant matrices and univariate entries for every exponent, affine entries up to exponent two, otherwise terms in rearrangement-free families. 1 by 1 matrices panic for n >= 1."
  },
  {
   "property": "C47",
   "status": "partial",
   "theorems": [
    "Verif.vec_linearIneq_general",
    "Verif.vec_linearEq_general",
    "Verif.vec_linearIneq_partial",
    "Verif.vec_linearEq_partial",
    "Verif.vec_linearIneq_default_partial",
    "Verif.vec_linearEq_default_partial",
    "Verif.isLinear_array",
    "Verif.vec_linear_rejects_nonlinear",
    "Verif.vec_linear_rejects_sense",
    "Verif.vec_linearIneq_one_panics",
    "Verif.vec_linearIneq_constant_panics",
    "Verif.vec_linearIneq_false"
   ],
   "note": "Vector constraints of at least two rows, none of them constant, that write no low term twice; covering duplicate-free lists or the default list; all assignments. False for one row (type assertion panics) and for a row without variables (index panic). With float64 coefficients and their roundings: C87. The returned numbers themselves: C88."
  },
  {
   "property": "C48",
   "status": "proved",
   "theorems": [
    "Verif.plusArg_eq",
    "Verif.minusArg_eq",
    "Verif.mulArg_eq",
    "Verif.comparisonArg_eq",
    "Verif.mulF64_eq",
    "Verif.kmat_mul_vecDense",
    "Verif.kmat_mul_vecDense_rejects",
    "Verif.kmat_mul_kvec_rejected",
    "Verif.plusArg_rejects",
    "Verif.minusArg_rejects",
    "Verif.mulArg_rejects",
    "Verif.comparisonArg_rejects",
    "Verif.f64_accepted",
    "Verif.minus_int_false",
    "Verif.kmat_comparison_f64_false",
    "Verif.vmat_comparison_densePtr_false",
    "Verif.kmat_mul_vec_false"
   ],
   "note": "Exact arithmetic (so that adding c to a vector entry by entry and adding the vector c*(1,..,1) agree); gonum values are lists, not empty, rectangular; nil pointers are not modelled. plusArg_eq, minusArg_eq, mulArg_eq, comparisonArg_eq: accepted arguments give the result for the constant expression, errors included. *_rejects: every other type is rejected (for every number type). The tables plusAccepts, minusAccepts, mulAccepts, comparisonAccepts say which types are accepted; *_false theorems record irregularities: int is accepted by Plus but not by Minus, float64 not by KMatrix.Comparison, *mat.Dense not by VariableMatrix.Comparison, mat.VecDense not by KMatrix.Multiply."
  },
  {
   "property": "C49",
   "status": "partial",
   "theorems": [
    "Verif.plus_simplified_partial",
    "Verif.mul_simplified_partial",
    "Verif.minus_simplified_partial",
    "Verif.array_asSimplified_idempotent",
    "Verif.mono_mul_simplified_false",
    "Verif.mono_mul_var_simplified_false",
    "Verif.mmat_plus_simplified_false",
    "Verif.mmat_mul_simplified_false",
    "Verif.k_minus_vmat_simplified_false"
   ],
   "note": "Proved for all kinds and shapes with the exceptions listed in the hypotheses, each of which is needed: Monomial.Multiply by a constant, variable or monomial, K times a Monomial, MonomialMatrix.Plus and MonomialMatrix times K, and K minus a matrix (which goes through MonomialMatrix) return results that AsSimplifiedExpression changes."
  },
  {
   "property": "C50",
   "status": "proved",
   "theorems": [
    "Verif.built_wellFormed",
    "Verif.built_check",
    "Verif.concretizeMat_noColumns_false"
   ],
   "note": "Every number type. Induction over all programs (inductive predicate Built). Tables given to ConcretizeMatrixExpression need one non-empty row: a table of empty rows is accepted and gives a matrix without columns (concretizeMat_noColumns_false)."
  },
  {
   "property": "C51",
   "status": "partial",
   "theorems": [
    "Verif.multiply_writes",
    "Verif.multiply_writes_all",
    "Verif.multiply_receiver",
    "Verif.multiply_keeps",
    "Verif.multiply_value_partial",
    "Verif.multiply_program_partial",
    "Verif.multiply_caller_false",
    "Verif.multiply_value_false"
   ],
   "note": "False as stated: with vars[:1] as factors the call overwrites vars[1] of the caller (multiply_caller_false), and vars[:1] times vars[2:4] gives a wrong product and changes its argument (multiply_value_false). Proved for every memory: exactly which places are written and with what (multiply_writes, multiply_writes_all), the receiver never changes, slices outside the receiver's spare capacity never change, the product is right unless the argument lies in the written places, and for all programs in which every monomial is written down with a slice of its own all values are those of value semantics, for all capacities. Sharing of Exponents is the subject of C10, goroutines of C44."
  },
  {
   "property": "C52",
   "status": "partial",
   "theorems": [
    "Verif.kvToMonoVec_total",
    "Verif.mvToPolyVec_total",
    "Verif.kvToPolyVec_total",
    "Verif.kvToPolyVec_panics",
    "Verif.vvToMonoVec_total",
    "Verif.vvToPolyVec_total",
    "Verif.vvCopy_eq",
    "Verif.kmConvert_eq",
    "Verif.kmConvert_total",
    "Verif.vmConvert_total",
    "Verif.vec_conversions_denote",
    "Verif.mat_conversions_denote",
    "Verif.kmConvert_false",
    "Verif.filledVector_spec",
    "Verif.filledMatrix_spec",
    "Verif.identity_spec",
    "Verif.isZero_iff",
    "Verif.mvIsConstant_iff",
    "Verif.mvIsConstant_sound",
    "Verif.mvIsConstant_false",
    "Verif.pvIsConstantVector_iff",
    "Verif.monomialIndex_partial",
    "Verif.monomialIndex_false",
    "Verif.variableIDs_spec",
    "Verif.isSquare_spec",
    "Verif.toPolynomialLike_toExpr",
    "Verif.toPolynomialLike_false",
    "Verif.toPolynomialLike_partial",
    "Verif.isConstantCall_iff",
    "Verif.isConstantCall_total",
    "Verif.constantMonomialIndex_spec",
    "Verif.kvToVecDense_spec"
   ],
   "note": "Conversions proved for all inputs the library's Check accepts (non-empty, rectangular constants); constants and queries proved exactly. False parts as theorems: the empty constant vector panics, ragged constant matrices are cut or panic, 0*x is not constant for IsConstant, MonomialIndex compares exponents by position (proved for flat terms), pointers to gonum values are not PolynomialLike."
  },
  {
   "property": "C53",
   "status": "partial",
   "theorems": [
    "Verif.expr_chars",
    "Verif.string_written_partial",
    "Verif.string_den_partial",
    "Verif.scalar_string_iff",
    "Verif.constraint_string_partial",
    "Verif.string_brackets_partial",
    "Verif.newVar_default",
    "Verif.string_names_false",
    "Verif.string_kmatrix_brackets_false",
    "Verif.string_mmatrix_commas_false"
   ],
   "note": "Proved for variables with the names NewVariable chooses, and for brackets except in KMatrix. False for names chosen by the client (a*b and ab print alike) and for the brackets of KMatrix (each further row opens one too many, exact count proved). The %v format of numbers is a parameter assumed injective and free of separator characters. For float64 that assumption is proved from the specification of the shortest format in C84."
  },
  {
   "property": "C54",
   "status": "partial",
   "theorems": [
    "Verif.plus_sound_struct",
    "Verif.minus_sound_struct",
    "Verif.mul_sound_struct",
    "Verif.scalar_right_sound_struct",
    "Verif.scalar_left_sound_struct",
    "Verif.plus_shapes",
    "Verif.minus_shapes",
    "Verif.mul_shapes",
    "Verif.plus_sound_partial",
    "Verif.minus_sound_partial",
    "Verif.mul_sound_partial",
    "Verif.scalar_right_sound_partial",
    "Verif.scalar_left_sound_partial",
    "Verif.sound_low_degree",
    "Verif.mul_sound_affine",
    "Verif.vec_plus_length_one_false",
    "Verif.kvec_one_mul_vec_false",
    "Verif.kmat_row_mul_short_vec_false"
   ],
   "note": "All kinds and sizes: shape, well-formedness and variables for every number type; values need the terms in a rearrangement-free family (sums of degree at most two and products of affine entries are unconditional; plus_false shows the condition is needed). The clause about fitting shapes can fail only for operands that are 1 by 1 without being scalars (vec_plus_length_one_false, kvec_one_mul_vec_false, kmat_row_mul_short_vec_false); plus_shapes, minus_shapes and mul_shapes prove it for all others."
  },
  {
   "property": "C55",
   "status": "partial",
   "theorems": [
    "Verif.mat_simplify_partial",
    "Verif.mat_simplify_returns_partial",
    "Verif.mat_simplify_never",
    "Verif.mat_simplify_panics",
    "Verif.mat_simplify_column_panics"
   ],
   "note": "What is returned is right, for terms in a rearrangement-free set and entries without a low term written twice (mat_simplify_partial). It returns for two columns or more when both sides are constant matrices or polynomial matrices with an entry that has two non-constant terms, or a constant matrix on the left and any polynomial matrix on the right (mat_simplify_returns_partial). With a matrix of variables or monomials on either side it never returns (mat_simplify_never), and it can fail for one column and for polynomial matrices with one variable per entry."
  },
  {
   "property": "C56",
   "status": "partial",
   "theorems": [
    "Verif.vec_power_single",
    "Verif.vec_power_length",
    "Verif.vec_power_malformed",
    "Verif.vec_power_negative",
    "Verif.vec_power_ok_iff",
    "Verif.vec_power_total",
    "Verif.vec_power_partial",
    "Verif.vec_power_univariate",
    "Verif.vec_power_nonpoly",
    "Verif.vec_power_false"
   ],
   "note": "Exact characterisation for every number type: Power of a vector returns iff the vector is accepted, has exactly one entry and n >= 0, and then equals Power of that entry. Value: proved for entries of vectors of constants, variables and monomials (all n), for entries in one variable (all n), and for entries whose powers keep their terms in a rearrangement-free set; the unrestricted claim is false (vec_power_false), inherited from C04."
  },
  {
   "property": "C57",
   "status": "proved",
   "theorems": [
    "Verif.arithmetic_binary",
    "Verif.plus_one_nonzero",
    "Verif.minus_one_nonzero",
    "Verif.mul_one_nonzero",
    "Verif.power_one_nonzero",
    "Verif.asSimplified_one_nonzero",
    "Verif.substitute_one_nonzero",
    "Verif.substMap_one_nonzero",
    "Verif.plus_exact_at_iff",
    "Verif.simplify_con_one_nonzero",
    "Verif.scaleBy_one_nonzero",
    "Verif.substitute_con_one_nonzero",
    "Verif.plus_array_one_nonzero",
    "Verif.minus_array_one_nonzero",
    "Verif.mul_array_one_nonzero",
    "Verif.scalar_right_one_nonzero",
    "Verif.scalar_left_one_nonzero",
    "Verif.substitute_array_one_nonzero",
    "Verif.substitute_con_array_one_nonzero",
    "Verif.mat_simplify_one_nonzero",
    "Verif.vec_simplify_one_nonzero"
   ],
   "note": "For all well-formed operands, without a condition on the terms. plus_exact_at_iff: for Plus these are exactly the assignments where all well-formed scalars are added correctly, so C01 to C06, C12, C13, C34, C35 and C41 hold in full for 0/1 variables. Arrays: whatever is returned is right (which pairs of kinds return is C24 to C27 and C54, C55)."
  },
  {
   "property": "C58",
   "status": "proved",
   "theorems": [
    "Verif.plus_float64",
    "Verif.minus_float64",
    "Verif.mul_float64",
    "Verif.power_float64",
    "Verif.asSimplified_float64",
    "Verif.derivative_float64",
    "Verif.substitute_float64",
    "Verif.substMap_float64",
    "Verif.constant_degree_float64",
    "Verif.linearCoeff_float64",
    "Verif.plus_float64_value",
    "Verif.arithmetic_float64_binary",
    "Verif.plus_float64_false"
   ],
   "note": "Runs on the binary64 model of float64 (rounding to nearest even, overflow, infinities, NaN) coincide with exact runs, panics included, for all operands in range. plus_float64_value and arithmetic_float64_binary combine this with C01 and C57. plus_float64_false: beyond 53 bits Plus rounds."
  },
  {
   "property": "C59",
   "status": "proved",
   "theorems": [
    "Verif.plus_array_float64",
    "Verif.minus_array_float64",
    "Verif.mul_array_float64",
    "Verif.power_vec_float64",
    "Verif.power_mat_float64",
    "Verif.asSimplified_array_float64",
    "Verif.transpose_array_float64",
    "Verif.stack_float64",
    "Verif.derivative_array_float64",
    "Verif.substitute_array_float64",
    "Verif.read_array_float64",
    "Verif.constant_array_float64",
    "Verif.linearCoeff_vec_float64",
    "Verif.comparison_float64",
    "Verif.read_con_float64",
    "Verif.simplify_con_float64",
    "Verif.substitute_con_float64",
    "Verif.compileAll_float64",
    "Verif.linear_rep_float64",
    "Verif.linear_rep_vec_float64",
    "Verif.scaleBy_float64",
    "Verif.isNonneg_float64",
    "Verif.implies_float64",
    "Verif.array_float64_binary",
    "Verif.implies_float64_false",
    "Verif.SCon.Plain.divides",
    "Verif.Con.Canon.divides"
   ],
   "note": "Model/Binary64.lean models IEEE binary64 (-0 identified with 0). implies_float64: the hypothesis Con.Divides says that the number the method divides by is a power of two; SCon.Plain.divides and Con.Canon.divides derive it from the coefficients."
  },
  {
   "property": "C60",
   "status": "partial",
   "theorems": [
    "Verif.findInSlice_partial",
    "Verif.findInSlice_var_partial",
    "Verif.findInSlice_mismatch_partial",
    "Verif.findInSlice_false",
    "Verif.isConstraint_iff"
   ],
   "note": "The claim is false as stated: a uint64 searched in a slice of another type panics (unchecked type assertion, utils.go:58), and variables are compared by ID only, so the entry found may be another variable (findInSlice_false). Proved: the contract for strings, ints and uint64s, with the last of several equal entries; for variables up to IDs, and fully if equal IDs mean equal variables; an error for every other mismatch."
  },
  {
   "property": "C61",
   "status": "partial",
   "theorems": [
    "Verif.checkESubMap_iff",
    "Verif.substEMap_rejects",
    "Verif.substEMap_eq",
    "Verif.scalars_entries",
    "Verif.substEMap_const",
    "Verif.con_substEMap_eq",
    "Verif.con_substEMap_rejects",
    "Verif.substEMap_false"
   ],
   "note": "CheckSubstitutionMap is proved in full. The rest is false for constants, which return themselves for every map (substEMap_const, substEMap_false); it is proved for every other receiver, and for constraints with a side that is not constant. nil values are not modelled."
  },
  {
   "property": "C62",
   "status": "proved",
   "theorems": [
    "Verif.program_exact",
    "Verif.program_quadratic",
    "Verif.program_oneVar",
    "Verif.program_value",
    "Verif.program_coeffs",
    "Verif.program_simplified",
    "Verif.program_equal",
    "Verif.program_affine",
    "Verif.program_inequality",
    "Verif.program_equality",
    "Verif.program_false",
    "Verif.program_same_false",
    "Verif.Prog.Quadratic.fits",
    "Verif.Prog.OneVar.fits",
    "Verif.program_total"
   ],
   "note": "Over exact arithmetic (any linearly ordered field). The programs are a data type (Prog); run makes the calls, meaning is the polynomial in Mathlib's MvPolynomial. Variables with the same ID must be the same variable, as NewVariable makes them (program_same_false without). Without the condition on the terms the claim is false (program_false: x^2*y + x*y^2). Fits is the general condition; the two families of the statement are instances."
  },
  {
   "property": "C63",
   "status": "partial",
   "theorems": [
    "Verif.arrayProgram_partial",
    "Verif.arrayProgram_value",
    "Verif.arrayProgram_equal",
    "Verif.arrayProgram_compare",
    "Verif.Computes.sound",
    "Verif.termRoom_degLE",
    "Verif.termRoom_univ1",
    "Verif.arrayProgram_false"
   ],
   "note": "Over exact arithmetic. The rules of Computes are the calls, each with the matrix it stands for. Missing: programs whose intermediate terms are not free of rearrangements, where the claim is false (arrayProgram_false) unless the terms are written in matching orders (C76 covers those); DerivativeWrt of a MonomialVector, which is wrong (derivative_monoVec_false); SubstituteAccordingTo with a value that mentions another key, where the result depends on the map order; comparisons the code refuses (Comparable). Degree at most two and one variable are shown to meet the condition on the terms."
  },
  {
   "property": "C64",
   "status": "proved",
   "theorems": [
    "Verif.heapArith_observe",
    "Verif.heapArith_unchanged",
    "Verif.heapArith_repeat",
    "Verif.heapArith_observe_partial",
    "Verif.heapArith_unchanged_partial",
    "Verif.heapArith_derivative_writes",
    "Verif.heapArith_product_derivative",
    "Verif.heapArith_sum_derivative_false",
    "Verif.heapArith_substitute_derivative",
    "Verif.heapArith_simplify_derivative"
   ],
   "note": "heapArith_observe: a program of these calls on memory has the outcomes of the program on values and ends with the values that program holds, for any sharing. heapArith_repeat: the same outcome before and after. heapArith_product_derivative: results of Multiply and Power share nothing. The _partial theorems also allow DerivativeWrt by variables of exponent at most one; with other derivatives the claim is false (heapArith_sum_derivative_false: differentiating 2y + x^2 changes the operand x^2). Vectors and matrices are not in this memory model; VariableFactors are values here (C51 treats their slices)."
  },
  {
   "property": "C65",
   "status": "proved",
   "theorems": [
    "Verif.heapArray_observe",
    "Verif.heapArray_unchanged",
    "Verif.heapArray_observe_partial",
    "Verif.heapArray_unchanged_partial",
    "Verif.heapArray_fresh",
    "Verif.heapArray_sum_derivative_value",
    "Verif.heapArray_sum_derivative_false",
    "Verif.heapArray_sum_matrix_derivative_false",
    "Verif.heapArray_sum_derivative_operand",
    "Verif.heapArray_at_derivative",
    "Verif.heapArray_transpose_derivative"
   ],
   "note": "heapArray_observe: a program of these calls on memory has the outcomes of the program on values and ends with the values that program holds, for any sharing. heapArray_fresh: any program, with DerivativeWrt on any kind of expression, that uses the expressions held at the start only as factors, bases and subtrahends changes none of them. The _partial theorems allow DerivativeWrt on old expressions by variables of exponent at most one, except of PolynomialVectors; with other derivatives the claim is false. Finding: the entries of a sum share slices with each other, so even the first derivative of a sum just computed is wrong (heapArray_sum_derivative_value: for the MonomialVector (y, z), (y, z) + x^3 differentiated by x gives (3x, 2x))."
  },
  {
   "property": "C66",
   "status": "proved",
   "theorems": [
    "Verif.heapDeriv_step",
    "Verif.heapDeriv_run",
    "Verif.heapDeriv_returns",
    "Verif.heapDeriv_pderiv",
    "Verif.heapDeriv_effect",
    "Verif.heapDeriv_panic",
    "Verif.heapDeriv_twice_false"
   ],
   "note": "heapDeriv_run: every program keeps the invariant AStore.Separate (no expression uses a slice twice; monomials with the same slice have the same factors). heapDeriv_returns: in every reached state every call, DerivativeWrt included, has the outcome of the function on values for the values held at that moment. heapDeriv_pderiv: for a well-formed receiver this denotes the formal partial derivative. heapDeriv_effect, heapDeriv_panic: what a call changes. heapDeriv_twice_false: without the condition on Polynomial literals the claim is false (x^3 + x^3 built from the same Monomial twice). Vectors and matrices are not in this memory model (C65)."
  },
  {
   "property": "C67",
   "status": "proved",
   "theorems": [
    "Verif.additionError_reports",
    "Verif.subtractionError_reports",
    "Verif.multiplicationError_reports",
    "Verif.vectorIndexError_reports",
    "Verif.matrixIndexError_reports",
    "Verif.hstackError_reports",
    "Verif.vstackError_reports",
    "Verif.rowsError_reports",
    "Verif.plus_reports",
    "Verif.minus_reports",
    "Verif.mul_reports",
    "Verif.comparison_reports",
    "Verif.vcon_reports",
    "Verif.hstack_reports",
    "Verif.vstack_reports",
    "Verif.at_reports",
    "Verif.matrix_check_reports",
    "Verif.negExponent_text",
    "Verif.columnMismatch_text",
    "Verif.dimMessage_inj",
    "Verif.indexMessage_inj",
    "Verif.indexPairMessage_inj",
    "Verif.exponentMessage_inj",
    "Verif.columnMessage_inj",
    "Verif.mulTemplate_reports",
    "Verif.plusTemplate_reports",
    "Verif.lenMessage_inj",
    "Verif.comparisonError_reports",
    "Verif.like_goType"
   ],
   "note": "The errors of smErrors are values with a text (Model/Errors.lean); the texts are specified as format strings. Operation theorems are for a vector or matrix receiver. At of a matrix of constants, variables or monomials has no check of its own (Go's or gonum's index panic), so at_reports does not speak about those. A product of two matrices of which one is 1 by 1 is rejected by MatrixMultiplyTemplate, and the text then names the template, not Multiply (mulTemplate_reports)."
  },
  {
   "property": "C68",
   "status": "proved",
   "theorems": [
    "Verif.threads_result",
    "Verif.threads_end",
    "Verif.threads_alone",
    "Verif.threads_shared",
    "Verif.threads_unchanged",
    "Verif.threads_write",
    "Verif.threads_terminate",
    "Verif.no_infinite",
    "Verif.threads_progress",
    "Verif.threadProg_run",
    "Verif.threads_result_partial",
    "Verif.threads_shared_partial",
    "Verif.threads_unchanged_partial",
    "Verif.threads_write_partial",
    "Verif.threads_race_partial",
    "Verif.threads_derivative_false"
   ],
   "note": "threads_result: whatever the interleaving, a goroutine that has ended has the outcomes of its program on values; threads_end: when nothing more can happen all have ended so; threads_terminate, no_infinite: there is no infinite execution; threads_progress: a goroutine that has not ended can always go on. threadProg_run: a goroutine alone is the program of C64. The _partial theorems also allow DerivativeWrt by variables of exponent at most one; with other derivatives the claim is false (threads_derivative_false). Scalars only; VariableFactors are values."
  },
  {
   "property": "C69",
   "status": "proved",
   "theorems": [
    "Verif.simplify_rounding",
    "Verif.plus_rounding",
    "Verif.minus_rounding",
    "Verif.mul_rounding",
    "Verif.pow_rounding",
    "Verif.approx_self",
    "Verif.approx_plus",
    "Verif.approx_minus",
    "Verif.approx_mul",
    "Verif.approx_simplify",
    "Verif.approx_repeats",
    "Verif.approx_value",
    "Verif.roundings_bound",
    "Verif.noOverflow_of_sum",
    "Verif.relative_error_false",
    "Verif.underflow_false",
    "Verif.overflow_false",
    "Verif.plus_grid",
    "Verif.minus_grid",
    "Verif.mul_rounding_grid",
    "Verif.pow_rounding_grid",
    "Verif.noUnderflow_of_grid",
    "Verif.float_grid"
   ],
   "note": "One operation on given operands: *_rounding. Composition: approx_*. approx_value is the error at a point, roundings_bound the size of the factor, noOverflow_of_sum a simple way to exclude overflow. The conditions are needed: relative_error_false (cancellation), underflow_false, overflow_false; rearrangements are C01 to C04. float64 is Model/Binary64 (round to nearest even, subnormals, infinities; signed zeros are one)."
  },
  {
   "property": "C70",
   "status": "proved",
   "theorems": [
    "Verif.plus_array_rounding",
    "Verif.minus_array_rounding",
    "Verif.plus_scalar_rounding",
    "Verif.scalar_plus_rounding",
    "Verif.minus_scalar_rounding",
    "Verif.scalar_minus_rounding",
    "Verif.mul_array_rounding",
    "Verif.mul_scalar_rounding",
    "Verif.scalar_mul_rounding",
    "Verif.rounded_self",
    "Verif.rounded_of_approx",
    "Verif.rounded_simplify",
    "Verif.rounded_error"
   ],
   "note": "Whatever the operations return (C24 to C27 and C54 say which operands return and which fail). rounded_self starts a computation, rounded_simplify collects like terms, rounded_error is the bound on coefficients and values. The conditions are those of C69, whose counterexamples apply to one entry."
  },
  {
   "property": "C71",
   "status": "partial",
   "theorems": [
    "Verif.allTracked_snapshot_partial",
    "Verif.envMem_seen_partial",
    "Verif.envMem_nodup_partial",
    "Verif.envMem_name_partial",
    "Verif.makeBasicEnvironment_spec",
    "Verif.track_mem_spec",
    "Verif.trackIn_eq",
    "Verif.fineProgram_fine",
    "Verif.appendToList_ids",
    "Verif.listIsCopy_append_false",
    "Verif.envMem_nodup_write_false",
    "Verif.dupEnvironment_types",
    "Verif.dupEnvironment_false",
    "Verif.appendThenNew_ids"
   ],
   "note": "False as stated: AllTrackedVariables returns the environment's own slice. An append to it can replace a tracked variable (listIsCopy_append_false), a write to it can give two tracked variables the same ID (envMem_nodup_write_false), a creation can replace what the caller appended (appendThenNew_ids), and two copies of the struct of an environment replace each other's variables (dupEnvironment_false). The _partial theorems hold for all programs that write and append only to copies and do not copy the struct (FineOps); reading a returned list is always safe. Missing: programs that write to a returned list, for which the claim is false."
  },
  {
   "property": "C72",
   "status": "proved",
   "theorems": [
    "Verif.constant_read",
    "Verif.linearCoeff_read",
    "Verif.linearIneq_rounding",
    "Verif.linearEq_rounding",
    "Verif.rowOf_margin",
    "Verif.linearIneq_margin",
    "Verif.linearEq_margin",
    "Verif.linearIneq_float_false"
   ],
   "note": "Reading coefficients rounds nothing; the one rounding is in left minus right and in the difference of the constants. linearIneq_float_false shows that the half-space need not be the constraint exactly: 2^53 x <= -x + 2^53 is returned as 2^53 x <= 2^53. LinearCoeff of a monomial without variables panics (C15), so linearCoeff_read excludes it. Vector constraints are C87. The returned numbers themselves are in C88."
  },
  {
   "property": "C73",
   "status": "proved",
   "theorems": [
    "Verif.derivative_rounding",
    "Verif.approx_derivative",
    "Verif.derivative_value_rounding",
    "Verif.derivative_float_false"
   ],
   "note": "No condition on rearrangements for one derivative of given operands (terms are not collected); approx_derivative, which composes with C69, has it. derivative_float_false: one rounding does happen. Exponents above 2^53 would round when converted to float64 and are not covered. Which number each coefficient is, for exponents of any size: C89."
  },
  {
   "property": "C74",
   "status": "proved",
   "theorems": [
    "Verif.plus_forms",
    "Verif.minus_forms",
    "Verif.asSimplified_forms",
    "Verif.mul_const_forms",
    "Verif.plus_comm_forms",
    "Verif.plus_assoc_forms",
    "Verif.plus_minus_forms",
    "Verif.plus_written",
    "Verif.minus_written",
    "Verif.asSimplified_written",
    "Verif.mul_written",
    "Verif.power_written",
    "Verif.plus_exact_iff_consistent",
    "Verif.consistent_tame",
    "Verif.tidy_exact",
    "Verif.plus_arr_written",
    "Verif.minus_arr_written",
    "Verif.mul_arr_written",
    "Verif.const_mul_arr_tidy",
    "Verif.mul_forms"
   ],
   "note": "The exact description of the positional comparison in MatchesFormOf; the claims on values in C01-C06 are restated without a bound on degrees, and plus_exact_iff_consistent shows that the condition cannot be weakened for addition. Coefficients are in an ordered field; rounding is C69."
  },
  {
   "property": "C75",
   "status": "proved",
   "theorems": [
    "Verif.program_checked",
    "Verif.program_checked_value",
    "Verif.checked_coeffs",
    "Verif.fits_checked",
    "Verif.quadratic_checked",
    "Verif.oneVar_checked",
    "Verif.checked_fits_false"
   ],
   "note": "The check is sound, not complete: it may reject a program that is right (for some choice of coefficients, or for all). checked_fits_false records that it accepts more than C62. Coefficients are in an ordered field; rounding is C69."
  },
  {
   "property": "C76",
   "status": "proved",
   "theorems": [
    "Verif.arrayProgram_wellFormed",
    "Verif.arrayProgram_entry",
    "Verif.arrayProgram_checked",
    "Verif.arrayProgram_checked_value",
    "Verif.arrayChecked_coeffs",
    "Verif.arrayProgram_substMap",
    "Verif.quadratic_arrayChecked",
    "Verif.oneVar_arrayChecked"
   ],
   "note": "For calls that return (the calls that panic or refuse are C10, C33, C63). DerivativeWrt of a MonomialVector is excluded (derivative_monoVec_false: the result is wrong). The check is sound, not complete: products of entries are allowed in either order. Coefficients are in an ordered field; rounding is C69."
  },
  {
   "property": "C77",
   "status": "proved",
   "theorems": [
    "Verif.conProgram_checked",
    "Verif.conProgram_equivalent",
    "Verif.conChecked_coeffs"
   ],
   "note": "Scalar constraints. The check is sound, not complete. What fails without it is simplify_con_false, scaleBy_false, substitute_con_false. Coefficients are in an ordered field; rounding is C69 and C72."
  },
  {
   "property": "C78",
   "status": "proved",
   "theorems": [
    "Verif.arrayConstraint_wellFormed",
    "Verif.arrayConstraint_entry",
    "Verif.arrayConstraint_checked",
    "Verif.arrayConstraint_equivalent",
    "Verif.arrayConstraint_substMap",
    "Verif.arrayConstraint_coeffs"
   ],
   "note": "Stated for calls that all return: a comparison of some pairs of kinds panics (C33). The check is sound, not complete. SubstituteAccordingTo on a vector or matrix constraint is the chain of Substitute calls in the order of the map (arrayConstraint_substMap). Coefficients are in an ordered field; rounding is C70."
  },
  {
   "property": "C79",
   "status": "proved",
   "theorems": [
    "Verif.program_once",
    "Verif.program_checked_constant",
    "Verif.program_checked_linearCoeff",
    "Verif.conProgram_once",
    "Verif.conProgram_inequality",
    "Verif.conProgram_equality",
    "Verif.conProgram_linear",
    "Verif.conProgram_nonneg",
    "Verif.conProgram_implies",
    "Verif.program_constant_false",
    "Verif.program_linearCoeff_false",
    "Verif.conProgram_inequality_false"
   ],
   "note": "The counts are needed: after three DerivativeWrt calls in a row Constant returns 2 for 2 + 2 (program_constant_false) and x <= 2 + 2 becomes x <= 2 (conProgram_inequality_false); after two, LinearCoeff returns 2 for 2y + 2y (program_linearCoeff_false). That low terms are written once holds for all programs, checked or not (program_once, conProgram_once). Over exact arithmetic."
  },
  {
   "property": "C80",
   "status": "proved",
   "theorems": [
    "Verif.compile_checked",
    "Verif.compile_checked_rows",
    "Verif.arrayConstraint_linear",
    "Verif.arrayConstraint_inequality",
    "Verif.arrayConstraint_equality",
    "Verif.arrayConstraint_inequality_default",
    "Verif.arrayConstraint_equality_default",
    "Verif.arrayConstraint_low",
    "Verif.arrayConstraint_inequality_false"
   ],
   "note": "That no low term is written twice is needed: after three DerivativeWrt calls in a row (x, y) <= (2 + 2, 2 + 2) becomes (x, y) <= (2, 2) (arrayConstraint_inequality_false). One row and rows without variables panic (vec_linearIneq_one_panics, vec_linearIneq_constant_panics in C47). Over exact arithmetic."
  },
  {
   "property": "C81",
   "status": "proved",
   "theorems": [
    "Verif.machine_run",
    "Verif.machine_readings",
    "Verif.machine_exact",
    "Verif.machine_ideal",
    "Verif.machine_calls",
    "Verif.machine_calls_mul",
    "Verif.machine_negative_false",
    "Verif.machine_square_false",
    "Verif.machine_square32_false",
    "Verif.machine_big_run",
    "Verif.machine_degree_false",
    "Verif.machine_plus_false"
   ],
   "note": "Beyond the bound the library is silently wrong: after 63 squarings the exponent of x is -2^63 and Check accepts it (machine_negative_false), after 64 it is 0 (machine_square_false); x^(2^62) y^(2^62) z^(2^62) t^(2^62) has Degree 0 and counts as linear (machine_degree_false), and adding 1 to it gives the constant 1 (machine_plus_false)."
  },
  {
   "property": "C82",
   "status": "proved",
   "theorems": [
    "Verif.deriv_race_iff",
    "Verif.deriv_race_apart",
    "Verif.deriv_race_denotes",
    "Verif.deriv_race_memory",
    "Verif.deriv_race_ends",
    "Verif.deriv_race_oneByOne",
    "Verif.deriv_race_wrong",
    "Verif.deriv_race_false",
    "Verif.deriv_race_serial_false",
    "Verif.deriv_race_lost"
   ],
   "note": "Complements C68, which leaves DerivativeWrt out. Each read or write of an exponent is one atomic step (a Go program with a data race may in principle do more); polynomials are not treated."
  },
  {
   "property": "C83",
   "status": "partial",
   "theorems": [
    "Verif.program_rounding",
    "Verif.program_error",
    "Verif.program_value_rounding",
    "Verif.program_rounding_quadratic",
    "Verif.program_rounding_oneVar",
    "Verif.consts_grid",
    "Verif.program_linearIneq",
    "Verif.program_linearEq",
    "Verif.program_nan_bound_false",
    "Verif.program_overflow_false"
   ],
   "note": "Proved for intermediate results whose terms have one shape only (degree at most two, one variable, or any family given by Prog.Fits); missing are families in which MatchesFormOf confuses terms by the order of their variables, where the claim is false already for exact numbers (C62). A variable with a NaN bound passes Check and is never found by SubstituteAccordingTo (program_nan_bound_false); without the bound on sizes coefficients become infinite (program_overflow_false)."
  },
  {
   "property": "C84",
   "status": "partial",
   "theorems": [
    "Verif.float_text_reads",
    "Verif.float_text_shortest",
    "Verif.float_text_inj",
    "Verif.float_text_tidy",
    "Verif.floatFormat_format",
    "Verif.Expr.plain_chars",
    "Verif.float_string_ok",
    "Verif.float_string_written_partial",
    "Verif.float_string_den_partial",
    "Verif.float_scalar_string_iff",
    "Verif.float_constraint_string_partial",
    "Verif.float_brackets_partial",
    "Verif.float_text_exact_false",
    "Verif.float_string_names_false"
   ],
   "note": "The claims about numbers are proved in full for the specification of strconv's shortest format (the source of strconv is outside the repository; -0 is identified with 0). Those about expressions are proved for variables with the names that NewVariable gives and finite coefficients; with names chosen by the client they are false (float_string_names_false). The text is that of the float64, not of the number meant: 0.1+0.2 prints 0.30000000000000004 (float_text_exact_false)."
  },
  {
   "property": "C85",
   "status": "partial",
   "theorems": [
    "Verif.F64Z.value_laws",
    "Verif.F64Z.value_div",
    "Verif.F64Z.sign_mul",
    "Verif.F64Z.sign_neg",
    "Verif.F64Z.zero_sum",
    "Verif.Mono.sameZ_iff",
    "Verif.zeros_binary",
    "Verif.zeros_unary",
    "Verif.zeros_stack",
    "Verif.zeros_calculus",
    "Verif.zeros_queries",
    "Verif.zeros_coeffs",
    "Verif.zeros_constraint",
    "Verif.zeros_linear",
    "Verif.zeros_compile",
    "Verif.zeros_implies_partial",
    "Verif.zeros_program",
    "Verif.zeros_arrayProgram",
    "Verif.zeros_conProgram",
    "Verif.zeros_arrayConProgram",
    "Verif.zeros_erase",
    "Verif.zeros_text_partial",
    "Verif.zeros_text_alike_partial",
    "Verif.zeros_text_tail",
    "Verif.zeros_text_false",
    "Verif.zeros_implies_false"
   ],
   "note": "Proved for all calls but the two exceptions that the statement names, for which it is false: K(0).Multiply(-1) prints -0 (zeros_text_false), and 0 x <= -1 with 0 x = x.Multiply(3).Multiply(0) is said to imply x <= 5 while with -0 x = x.Multiply(-3).Multiply(0) it is not (zeros_implies_false). Partial because those two calls are covered only under the conditions that the statement gives."
  },
  {
   "property": "C86",
   "status": "proved",
   "theorems": [
    "Verif.rename_scalar",
    "Verif.rename_array",
    "Verif.renaming_binary",
    "Verif.renaming_unary",
    "Verif.renaming_stack",
    "Verif.renaming_calculus",
    "Verif.renaming_map",
    "Verif.renaming_queries",
    "Verif.renaming_coeffs",
    "Verif.renaming_text",
    "Verif.renaming_constraint",
    "Verif.renaming_linear",
    "Verif.renaming_compile",
    "Verif.renaming_constraintKeys",
    "Verif.renaming_program",
    "Verif.renaming_arrayProgram",
    "Verif.renaming_conProgram",
    "Verif.renaming_arrayConProgram",
    "Verif.relabel_renames",
    "Verif.bounds_renames",
    "Verif.renaming_exists",
    "Verif.renaming_merge_false",
    "Verif.renaming_keys_false",
    "Verif.renaming_variables_false",
    "Verif.renaming_implies_false"
   ],
   "note": "All calls of the model, for every number type. The exception for calls with variables as map keys is needed: with another name the same variable is not found in a substitution map (renaming_keys_false), is listed twice by Variables of a constraint (renaming_variables_false) and changes the answer of ImpliesThisIsAlsoSatisfied (renaming_implies_false). That the IDs must stay different is renaming_merge_false."
  },
  {
   "property": "C87",
   "status": "proved",
   "theorems": [
    "Verif.vec_constant_map",
    "Verif.vec_linearCoeff_map",
    "Verif.vec_isLinear",
    "Verif.vec_minus_res",
    "Verif.coeff_absolute",
    "Verif.F64.able_gap",
    "Verif.sharp_keeps",
    "Verif.VCon.LinearFloats.core",
    "Verif.vec_linearIneq_rounding",
    "Verif.vec_linearEq_rounding",
    "Verif.vec_linearIneq_margin",
    "Verif.vec_linearEq_margin"
   ],
   "note": "Two rows at least, since for one row the type assertion panics (vec_linearIneq_one_panics), and no row without variables, since that panics (vec_linearIneq_constant_panics). That the first subtraction is exact on first-degree coefficients needs the best constant for the relative error of rounding, 1/(2^53+1) (F64.sharp), and the distance between neighbouring floats (F64.able_gap)."
  },
  {
   "property": "C88",
   "status": "proved",
   "theorems": [
    "Verif.insertMono_coef",
    "Verif.simplifyFold_coef",
    "Verif.Scalar.plus_coef",
    "Verif.Scalar.minus_coef",
    "Verif.f64Laws",
    "Verif.plus_coeffs",
    "Verif.minus_coeffs",
    "Verif.coeffAt_exact",
    "Verif.minus_rounds",
    "Verif.F64.sub_rounds",
    "Verif.F64.sub_zero_iff",
    "Verif.linearIneq_coeffs",
    "Verif.linearEq_coeffs",
    "Verif.rowAt_rounds",
    "Verif.VCon.LinearFloats.diff_coeffs",
    "Verif.vec_linearIneq_coeffs",
    "Verif.vec_linearEq_coeffs"
   ],
   "note": "Proved as quantified. The family of exponent vectors is restricted because Plus merges terms whose exponents agree by position (see C04 and the findings); repeated exponent vectors are excluded because their sum depends on the order of the terms. Unlike C72 and C87 the bounds are relative to the difference itself, and rows that keep a variable are exactly those in which some coefficients differ. The model of float64 here has one zero (see C85 for the sign of zero)."
  },
  {
   "property": "C89",
   "status": "proved",
   "theorems": [
    "Verif.Scalar.mul_coef",
    "Verif.f64ProdLaws",
    "Verif.mul_coeffs",
    "Verif.timesTerm_fin",
    "Verif.scale_coeffs",
    "Verif.mul_comm_term",
    "Verif.mul_comm_float_false",
    "Verif.plus_comm_coeffs",
    "Verif.minus_self_coeffs",
    "Verif.minus_swap_coeffs",
    "Verif.derivFold_coef",
    "Verif.derivative_coeffs_exact"
   ],
   "note": "Proved as quantified; the family is restricted because matching by position merges different terms otherwise (C02). That a product of two polynomials depends on the order of the factors is mul_comm_float_false: the coefficient of x^2 differs in the last bit. The model of float64 here has one zero (C85)."
  },
  {
   "property": "C90",
   "status": "proved",
   "theorems": [
    "Verif.mat_vars_coeffs",
    "Verif.mat_vars_entries",
    "Verif.rowSum_nodup",
    "Verif.matrix_le_linear",
    "Verif.matrix_ge_linear",
    "Verif.matrix_eq_linear"
   ],
   "note": "Proved as quantified. A matrix with one row gives a scalar and is not covered here. The model of float64 here has one zero (C85)."
  },
  {
   "property": "C91",
   "status": "proved",
   "theorems": [
    "Verif.row_vars_coef",
    "Verif.row_vars_coeffs",
    "Verif.quadratic_coeffs"
   ],
   "note": "Proved as quantified. The value of the quadratic form over exact numbers, with repeated variables, is C42. The model of float64 here has one zero (C85)."
  },
  {
   "property": "C92",
   "status": "proved",
   "theorems": [
    "Verif.lprog_coeffs",
    "Verif.lprog_same",
    "Verif.LProgSides.sides",
    "Verif.lprog_inequality",
    "Verif.lprog_equality"
   ],
   "note": "Proved as quantified. Products of two sums are not part of these programs, because there the order of the terms matters (C89, mul_comm_float_false). The model of float64 here has one zero (C85)."
  },
  {
   "property": "C93",
   "status": "proved",
   "theorems": [
    "Verif.vlprog_coeffs",
    "Verif.VLProgSides.sides",
    "Verif.vlprog_inequality",
    "Verif.vlprog_equality"
   ],
   "note": "Proved as quantified. Vectors of length one turn into scalars (C92). The comparison of a vector of monomials with a vector of polynomials is refused (C33), and rows in which all variables cancel panic (vec_linearIneq_constant_panics); both are hypotheses here. The model of float64 has one zero (C85)."
  },
  {
   "property": "C94",
   "status": "proved",
   "theorems": [
    "Verif.substMap_naive",
    "Verif.substMap_con_naive",
    "Verif.substMap_rounding",
    "Verif.substMap_mono_rounding",
    "Verif.substMap_naive_order",
    "Verif.substMap_vec_rounding_order_false"
   ],
   "note": "Proved as quantified. Variables with NaN bounds are excluded (Go finds no such key in a map, program_nan_bound_false). Vectors and matrices substitute one variable after the other and can go wrong (substMap_array_evaluates_false, C14); in float64 their numbers depend on the iteration order of the map already when the entries are linear (substMap_vec_rounding_order_false). The model of float64 has one zero (C85)."
  },
  {
   "property": "C95",
   "status": "proved",
   "theorems": [
    "Verif.mat_mul_coeffs",
    "Verif.kmat_mul_coeffs",
    "Verif.mat_mul_k_coeffs",
    "Verif.mat_mul_coeffs_linear"
   ],
   "note": "Proved as quantified. A product with one row and column becomes a scalar, one with one column a vector (MKind); the entries are those of the result in each case. Products of matrices and vectors are C90 and C91. The model of float64 has one zero (C85)."
  },
  {
   "property": "C96",
   "status": "proved",
   "theorems": [
    "Verif.power_number_naive",
    "Verif.power_mono",
    "Verif.coefPow_naive",
    "Verif.power_var",
    "Verif.power_coeffs",
    "Verif.square_coeffs",
    "Verif.power_power_float_false"
   ],
   "note": "Proved as quantified. power_power_float_false shows that the power of a power is not the power in float64. The model of float64 has one zero (C85)."
  },
  {
   "property": "C97",
   "status": "proved",
   "theorems": [
    "Verif.linearCoeff_scalar_reports",
    "Verif.linearCoeff_vec_reports",
    "Verif.linearCoeff_empty_reports",
    "Verif.constantMessage_inj",
    "Verif.constant_of_noVars",
    "Verif.constantMessage_values",
    "Verif.linearCoeff_text_false"
   ],
   "note": "Proved as quantified. linearCoeff_text_false is the wrong text for x.LinearCoeff([]Variable{})."
  },
  {
   "property": "C98",
   "status": "proved",
   "theorems": [
    "Verif.vec_plus_coeffs",
    "Verif.vec_minus_coeffs",
    "Verif.vec_plus_scalar_coeffs",
    "Verif.vec_minus_scalar_coeffs",
    "Verif.vec_mul_scalar_coeffs",
    "Verif.pmat_plus_scalar_coeffs",
    "Verif.mat_plus_coeffs",
    "Verif.pmat_scale_coeffs",
    "Verif.kmat_plus_k_coeffs",
    "Verif.mmat_plus_terms"
   ],
   "note": "Proved as quantified. The model of float64 has one zero (C85)."
  },
  {
   "property": "C99",
   "status": "proved",
   "theorems": [
    "Verif.mat_mul_vars_coeffs",
    "Verif.mat_mul_vars_coeffs_linear",
    "Verif.vmat_mul_kvec_coeffs",
    "Verif.vmat_mul_kvec_rows"
   ],
   "note": "Proved as quantified. Several rows of monomials times variables are left out: there every partial sum must be a Polynomial or the type assertion panics. The model of float64 has one zero (C85)."
  },
  {
   "property": "C100",
   "status": "proved",
   "theorems": [
    "Verif.derivative_array_coeffs",
    "Verif.derivative_polyVec_coeffs",
    "Verif.derivative_polyMat_coeffs",
    "Verif.derivative_monoVec_coeffs"
   ],
   "note": "Proved as quantified. When the polynomial kinds panic is C11 (derivative_polyVec_iff, derivative_polyMat_panics). The model of float64 has one zero (C85)."
  },
  {
   "property": "C101",
   "status": "proved",
   "theorems": [
    "Verif.second_derivative_coeffs",
    "Verif.mixed_partials_same",
    "Verif.mixed_partials_small",
    "Verif.mixed_partials_false"
   ],
   "note": "Proved as quantified. Products with 1, 2 and 4 are exact or overflow in both orders, also for subnormal coefficients (Lemmas/Doubling.lean). Values only: DerivativeWrt may change its operand (C10). The model of float64 has one zero (C85)."
  },
  {
   "property": "C102",
   "status": "proved",
   "theorems": [
    "Verif.plus_self_coeffs",
    "Verif.twice_sum_coeffs",
    "Verif.twice_sum_overflow_false",
    "Verif.thrice_sum_false"
   ],
   "note": "Proved as quantified; the restriction on exponents is the one of C88 and C89 (MatchesFormOf compares exponents by position). The model of float64 has one zero (C85)."
  },
  {
   "property": "C103",
   "status": "proved",
   "theorems": [
    "Verif.linearIneq_twice",
    "Verif.linearEq_twice",
    "Verif.linearIneq_thrice_false"
   ],
   "note": "Proved as quantified: rows and bounds of C88, and C102 for the differences. The model of float64 has one zero (C85)."
  }
 ]
}