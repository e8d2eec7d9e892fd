# Axioms of the theorems named in MANIFEST.json

* `Verif.Computes.sound`: propext, Classical.choice, Quot.sound
* `Verif.Con.Canon.divides`: propext, Classical.choice, Quot.sound
* `Verif.Expr.plain_chars`: propext, Classical.choice, Quot.sound
* `Verif.F64.able_gap`: propext, Classical.choice, Quot.sound
* `Verif.F64.sub_rounds`: propext, Classical.choice, Quot.sound
* `Verif.F64.sub_zero_iff`: propext, Classical.choice, Quot.sound
* `Verif.F64Z.sign_mul`: propext, Classical.choice, Quot.sound
* `Verif.F64Z.sign_neg`: propext, Classical.choice, Quot.sound
* `Verif.F64Z.value_div`: propext, Classical.choice, Quot.sound
* `Verif.F64Z.value_laws`: propext, Classical.choice, Quot.sound
* `Verif.F64Z.zero_sum`: propext, Classical.choice, Quot.sound
* `Verif.LProgSides.sides`: propext, Classical.choice, Quot.sound
* `Verif.Mono.sameZ_iff`: propext, Quot.sound
* `Verif.Prog.OneVar.fits`: propext, Classical.choice, Quot.sound
* `Verif.Prog.Quadratic.fits`: propext, Classical.choice, Quot.sound
* `Verif.SCon.Plain.divides`: propext, Classical.choice, Quot.sound
* `Verif.Scalar.minus_coef`: propext, Classical.choice, Quot.sound
* `Verif.Scalar.mul_coef`: propext, Classical.choice, Quot.sound
* `Verif.Scalar.plus_coef`: propext, Classical.choice, Quot.sound
* `Verif.VCon.LinearFloats.core`: propext, Classical.choice, Quot.sound
* `Verif.VCon.LinearFloats.diff_coeffs`: propext, Classical.choice, Quot.sound
* `Verif.VLProgSides.sides`: propext, Classical.choice, Quot.sound
* `Verif.additionError_reports`: propext, Classical.choice, Quot.sound
* `Verif.additive_laws_partial`: propext, Classical.choice, Quot.sound
* `Verif.affine_reconstruction_false`: propext, Classical.choice, Quot.sound
* `Verif.affine_reconstruction_partial`: propext, Classical.choice, Quot.sound
* `Verif.affine_value_partial`: propext, Classical.choice, Quot.sound
* `Verif.allTracked_snapshot_partial`: propext, Classical.choice, Quot.sound
* `Verif.appendThenNew_ids`: propext, Classical.choice, Quot.sound
* `Verif.appendToList_ids`: propext, Classical.choice, Quot.sound
* `Verif.approx_derivative`: propext, Classical.choice, Quot.sound
* `Verif.approx_minus`: propext, Classical.choice, Quot.sound
* `Verif.approx_mul`: propext, Classical.choice, Quot.sound
* `Verif.approx_plus`: propext, Classical.choice, Quot.sound
* `Verif.approx_repeats`: propext, Classical.choice, Quot.sound
* `Verif.approx_self`: propext, Classical.choice, Quot.sound
* `Verif.approx_simplify`: propext, Classical.choice, Quot.sound
* `Verif.approx_value`: propext, Classical.choice, Quot.sound
* `Verif.arithmetic_binary`: propext, Classical.choice, Quot.sound
* `Verif.arithmetic_float64_binary`: propext, Classical.choice, Quot.sound
* `Verif.arrayChecked_coeffs`: propext, Classical.choice, Quot.sound
* `Verif.arrayConstraint_checked`: propext, Classical.choice, Quot.sound
* `Verif.arrayConstraint_coeffs`: propext, Classical.choice, Quot.sound
* `Verif.arrayConstraint_entry`: propext, Classical.choice, Quot.sound
* `Verif.arrayConstraint_equality`: propext, Classical.choice, Quot.sound
* `Verif.arrayConstraint_equality_default`: propext, Classical.choice, Quot.sound
* `Verif.arrayConstraint_equivalent`: propext, Classical.choice, Quot.sound
* `Verif.arrayConstraint_inequality`: propext, Classical.choice, Quot.sound
* `Verif.arrayConstraint_inequality_default`: propext, Classical.choice, Quot.sound
* `Verif.arrayConstraint_inequality_false`: propext, Classical.choice, Quot.sound
* `Verif.arrayConstraint_linear`: propext, Classical.choice, Quot.sound
* `Verif.arrayConstraint_low`: propext, Classical.choice, Quot.sound
* `Verif.arrayConstraint_substMap`: propext, Classical.choice, Quot.sound
* `Verif.arrayConstraint_wellFormed`: propext, Classical.choice, Quot.sound
* `Verif.arrayProgram_checked`: propext, Classical.choice, Quot.sound
* `Verif.arrayProgram_checked_value`: propext, Classical.choice, Quot.sound
* `Verif.arrayProgram_compare`: propext, Classical.choice, Quot.sound
* `Verif.arrayProgram_entry`: propext, Classical.choice, Quot.sound
* `Verif.arrayProgram_equal`: propext, Classical.choice, Quot.sound
* `Verif.arrayProgram_false`: propext, Classical.choice, Quot.sound
* `Verif.arrayProgram_partial`: propext, Classical.choice, Quot.sound
* `Verif.arrayProgram_substMap`: propext, Classical.choice, Quot.sound
* `Verif.arrayProgram_value`: propext, Classical.choice, Quot.sound
* `Verif.arrayProgram_wellFormed`: propext, Classical.choice, Quot.sound
* `Verif.array_asSimplified_idempotent`: propext, Classical.choice, Quot.sound
* `Verif.array_derivative_rejects_partial`: propext, Classical.choice, Quot.sound
* `Verif.array_float64_binary`: propext, Classical.choice, Quot.sound
* `Verif.array_power_rejects`: propext, Classical.choice, Quot.sound
* `Verif.array_queries_reject`: propext, Classical.choice, Quot.sound
* `Verif.array_rejects_false`: propext, Classical.choice, Quot.sound
* `Verif.array_substMap_rejects`: propext, Classical.choice, Quot.sound
* `Verif.array_substitute_rejects`: propext, Classical.choice, Quot.sound
* `Verif.asSimplified_array_float64`: propext, Classical.choice, Quot.sound
* `Verif.asSimplified_denotes_same_partial`: propext, Classical.choice, Quot.sound
* `Verif.asSimplified_false`: propext, Classical.choice, Quot.sound
* `Verif.asSimplified_float64`: propext, Classical.choice, Quot.sound
* `Verif.asSimplified_forms`: propext, Classical.choice, Quot.sound
* `Verif.asSimplified_idempotent`: propext, Classical.choice, Quot.sound
* `Verif.asSimplified_one_nonzero`: propext, Classical.choice, Quot.sound
* `Verif.asSimplified_smallest_partial`: propext, Classical.choice, Quot.sound
* `Verif.asSimplified_total`: propext, Classical.choice, Quot.sound
* `Verif.asSimplified_valid`: propext, Quot.sound
* `Verif.asSimplified_written`: propext, Classical.choice, Quot.sound
* `Verif.atVec_ok_iff`: propext, Classical.choice, Quot.sound
* `Verif.atVec_out_of_bounds`: propext, Classical.choice, Quot.sound
* `Verif.at_ok_iff`: propext, Classical.choice, Quot.sound
* `Verif.at_out_of_bounds`: propext, Classical.choice, Quot.sound
* `Verif.at_reports`: propext, Classical.choice, Quot.sound
* `Verif.at_total`: propext, Classical.choice, Quot.sound
* `Verif.bounds_renames`: none
* `Verif.built_check`: propext, Classical.choice, Quot.sound
* `Verif.built_wellFormed`: propext, Classical.choice, Quot.sound
* `Verif.checkDimAdd_iff`: propext
* `Verif.checkDimCompare_iff`: propext, Classical.choice, Quot.sound
* `Verif.checkDimMul_iff`: propext
* `Verif.checkESubMap_iff`: propext, Classical.choice, Quot.sound
* `Verif.checkNeighbours_iff`: propext, Quot.sound
* `Verif.check_ok_iff_accepted`: propext, Quot.sound
* `Verif.checked_coeffs`: propext, Classical.choice, Quot.sound
* `Verif.checked_fits_false`: propext, Classical.choice, Quot.sound
* `Verif.coefPow_naive`: propext, Classical.choice, Quot.sound
* `Verif.coeffAt_exact`: propext, Classical.choice, Quot.sound
* `Verif.coeff_absolute`: propext, Classical.choice, Quot.sound
* `Verif.columnMessage_inj`: propext, Classical.choice, Quot.sound
* `Verif.columnMismatch_text`: propext, Classical.choice, Quot.sound
* `Verif.comparisonArg_eq`: propext, Classical.choice, Quot.sound
* `Verif.comparisonArg_rejects`: propext
* `Verif.comparisonError_reports`: propext, Classical.choice, Quot.sound
* `Verif.comparison_const_sat_partial`: propext, Classical.choice, Quot.sound
* `Verif.comparison_dimension`: propext, Classical.choice, Quot.sound
* `Verif.comparison_false`: propext, Classical.choice, Quot.sound
* `Verif.comparison_float64`: propext, Classical.choice, Quot.sound
* `Verif.comparison_rejects`: propext, Classical.choice, Quot.sound
* `Verif.comparison_reports`: propext, Classical.choice, Quot.sound
* `Verif.comparison_sat_partial`: propext, Classical.choice, Quot.sound
* `Verif.comparison_scalar`: propext
* `Verif.comparison_scalar_rejects`: propext
* `Verif.comparison_sides`: propext, Classical.choice, Quot.sound
* `Verif.compileAll_entries`: propext, Classical.choice, Quot.sound
* `Verif.compileAll_float64`: propext, Classical.choice, Quot.sound
* `Verif.compileAll_length`: propext, Classical.choice, Quot.sound
* `Verif.compile_broadcast_false`: propext, Classical.choice, Quot.sound
* `Verif.compile_broadcast_panics`: propext, Classical.choice, Quot.sound
* `Verif.compile_checked`: propext, Classical.choice, Quot.sound
* `Verif.compile_checked_rows`: propext, Classical.choice, Quot.sound
* `Verif.compile_entries`: propext, Classical.choice, Quot.sound
* `Verif.compile_feasible_partial`: propext, Classical.choice, Quot.sound
* `Verif.conChecked_coeffs`: propext, Classical.choice, Quot.sound
* `Verif.conProgram_checked`: propext, Classical.choice, Quot.sound
* `Verif.conProgram_equality`: propext, Classical.choice, Quot.sound
* `Verif.conProgram_equivalent`: propext, Classical.choice, Quot.sound
* `Verif.conProgram_implies`: propext, Classical.choice, Quot.sound
* `Verif.conProgram_inequality`: propext, Classical.choice, Quot.sound
* `Verif.conProgram_inequality_false`: propext, Classical.choice, Quot.sound
* `Verif.conProgram_linear`: propext, Classical.choice, Quot.sound
* `Verif.conProgram_nonneg`: propext, Classical.choice, Quot.sound
* `Verif.conProgram_once`: propext, Classical.choice, Quot.sound
* `Verif.con_substEMap_eq`: propext, Classical.choice, Quot.sound
* `Verif.con_substEMap_rejects`: propext, Classical.choice, Quot.sound
* `Verif.concretizeMat_den`: propext, Classical.choice, Quot.sound
* `Verif.concretizeMat_noColumns_false`: propext, Classical.choice, Quot.sound
* `Verif.concretizeMat_ragged`: propext, Classical.choice, Quot.sound
* `Verif.concretizeMat_total`: propext, Classical.choice, Quot.sound
* `Verif.concretizeVec_den`: propext, Classical.choice, Quot.sound
* `Verif.concretizeVec_empty`: propext
* `Verif.concretizeVec_total`: propext, Classical.choice, Quot.sound
* `Verif.concurrent_false`: propext, Classical.choice, Quot.sound
* `Verif.concurrent_lost`: propext, Quot.sound
* `Verif.concurrent_next`: propext, Classical.choice, Quot.sound
* `Verif.concurrent_same_id`: propext, Classical.choice, Quot.sound
* `Verif.concurrent_serial_partial`: propext, Classical.choice, Quot.sound
* `Verif.concurrent_tracked_false`: propext, Classical.choice, Quot.sound
* `Verif.consistent_tame`: propext, Classical.choice, Quot.sound
* `Verif.const_comparison_sat_partial`: propext, Classical.choice, Quot.sound
* `Verif.const_mul_arr_tidy`: propext, Classical.choice, Quot.sound
* `Verif.constantMessage_inj`: propext, Classical.choice, Quot.sound
* `Verif.constantMessage_values`: propext, Classical.choice, Quot.sound
* `Verif.constantMonomialIndex_spec`: propext, Classical.choice, Quot.sound
* `Verif.constant_array_float64`: propext, Classical.choice, Quot.sound
* `Verif.constant_degree_float64`: propext, Classical.choice, Quot.sound
* `Verif.constant_false`: propext, Classical.choice, Quot.sound
* `Verif.constant_of_noVars`: propext, Classical.choice, Quot.sound
* `Verif.constant_partial`: propext, Classical.choice, Quot.sound
* `Verif.constant_read`: propext, Classical.choice, Quot.sound
* `Verif.constant_simplified`: propext, Classical.choice, Quot.sound
* `Verif.constant_value_partial`: propext, Classical.choice, Quot.sound
* `Verif.constraint_string_partial`: propext, Classical.choice, Quot.sound
* `Verif.consts_grid`: propext, Classical.choice, Quot.sound
* `Verif.create_environment`: propext, Quot.sound
* `Verif.created_distinct_false`: propext, Classical.choice, Quot.sound
* `Verif.degree_array`: propext, Classical.choice, Quot.sound
* `Verif.degree_array_bound`: propext, Classical.choice, Quot.sound
* `Verif.degree_array_exact_partial`: propext, Classical.choice, Quot.sound
* `Verif.degree_eq_totalDegree_partial`: propext, Classical.choice, Quot.sound
* `Verif.degree_false`: propext, Classical.choice, Quot.sound
* `Verif.degree_upper_bound`: propext, Classical.choice, Quot.sound
* `Verif.derivFold_coef`: propext, Classical.choice, Quot.sound
* `Verif.deriv_race_apart`: propext, Classical.choice, Quot.sound
* `Verif.deriv_race_denotes`: propext, Classical.choice, Quot.sound
* `Verif.deriv_race_ends`: propext, Classical.choice, Quot.sound
* `Verif.deriv_race_false`: propext, Classical.choice, Quot.sound
* `Verif.deriv_race_iff`: propext, Classical.choice, Quot.sound
* `Verif.deriv_race_lost`: propext, Classical.choice, Quot.sound
* `Verif.deriv_race_memory`: propext, Classical.choice, Quot.sound
* `Verif.deriv_race_oneByOne`: propext, Classical.choice, Quot.sound
* `Verif.deriv_race_serial_false`: propext, Classical.choice, Quot.sound
* `Verif.deriv_race_wrong`: propext, Classical.choice, Quot.sound
* `Verif.derivative_array`: propext, Classical.choice, Quot.sound
* `Verif.derivative_array_coeffs`: propext, Classical.choice, Quot.sound
* `Verif.derivative_array_float64`: propext, Classical.choice, Quot.sound
* `Verif.derivative_array_total`: propext, Classical.choice, Quot.sound
* `Verif.derivative_bad_variable`: propext, Classical.choice, Quot.sound
* `Verif.derivative_coeffs_exact`: propext, Classical.choice, Quot.sound
* `Verif.derivative_denotes_pderiv`: propext, Classical.choice, Quot.sound
* `Verif.derivative_float64`: propext, Classical.choice, Quot.sound
* `Verif.derivative_float_false`: propext, Classical.choice, Quot.sound
* `Verif.derivative_monoVec_coeffs`: propext, Classical.choice, Quot.sound
* `Verif.derivative_monoVec_false`: propext, Classical.choice, Quot.sound
* `Verif.derivative_monoVec_iff`: propext, Classical.choice, Quot.sound
* `Verif.derivative_monoVec_total`: propext, Classical.choice, Quot.sound
* `Verif.derivative_monoVec_value`: propext, Classical.choice, Quot.sound
* `Verif.derivative_polyMat_coeffs`: propext, Classical.choice, Quot.sound
* `Verif.derivative_polyMat_panics`: propext, Classical.choice, Quot.sound
* `Verif.derivative_polyMat_partial`: propext, Classical.choice, Quot.sound
* `Verif.derivative_polyVec_coeffs`: propext, Classical.choice, Quot.sound
* `Verif.derivative_polyVec_iff`: propext, Classical.choice, Quot.sound
* `Verif.derivative_polyVec_panics`: propext, Classical.choice, Quot.sound
* `Verif.derivative_polyVec_partial`: propext, Classical.choice, Quot.sound
* `Verif.derivative_rejects`: propext, Quot.sound
* `Verif.derivative_rounding`: propext, Classical.choice, Quot.sound
* `Verif.derivative_symmetric`: propext, Classical.choice, Quot.sound
* `Verif.derivative_total`: propext, Classical.choice, Quot.sound
* `Verif.derivative_valid`: propext, Quot.sound
* `Verif.derivative_value_rounding`: propext, Classical.choice, Quot.sound
* `Verif.different_ids_stay_distinct_partial`: propext, Classical.choice, Quot.sound
* `Verif.dimMessage_inj`: propext, Classical.choice, Quot.sound
* `Verif.dupEnvironment_false`: propext, Classical.choice, Quot.sound
* `Verif.dupEnvironment_types`: propext, Classical.choice, Quot.sound
* `Verif.envMem_name_partial`: propext, Classical.choice, Quot.sound
* `Verif.envMem_nodup_partial`: propext, Classical.choice, Quot.sound
* `Verif.envMem_nodup_write_false`: propext, Classical.choice, Quot.sound
* `Verif.envMem_seen_partial`: propext, Classical.choice, Quot.sound
* `Verif.environments_identified`: propext, Classical.choice, Quot.sound
* `Verif.eqArg_sat_partial`: propext, Classical.choice, Quot.sound
* `Verif.eqTo_sat`: propext, Classical.choice, Quot.sound
* `Verif.exponentMessage_inj`: propext, Classical.choice, Quot.sound
* `Verif.expr_chars`: propext, Classical.choice, Quot.sound
* `Verif.expr_check_ok_iff_accepted`: propext, Classical.choice, Quot.sound
* `Verif.expr_minus_rejects`: propext, Classical.choice, Quot.sound
* `Verif.expr_mul_rejects`: propext, Classical.choice, Quot.sound
* `Verif.expr_plus_rejects_partial`: propext, Classical.choice, Quot.sound
* `Verif.expr_results_accepted`: propext, Classical.choice, Quot.sound
* `Verif.f64Laws`: propext, Classical.choice, Quot.sound
* `Verif.f64ProdLaws`: propext, Classical.choice, Quot.sound
* `Verif.f64_accepted`: propext
* `Verif.filledMatrix_spec`: propext, Quot.sound
* `Verif.filledVector_spec`: propext, Quot.sound
* `Verif.findInSlice_false`: propext, Quot.sound
* `Verif.findInSlice_mismatch_partial`: propext
* `Verif.findInSlice_partial`: propext, Classical.choice, Quot.sound
* `Verif.findInSlice_var_partial`: propext, Classical.choice, Quot.sound
* `Verif.findVar_last`: propext, Classical.choice, Quot.sound
* `Verif.fineProgram_fine`: propext, Classical.choice, Quot.sound
* `Verif.fineRun_of_create`: propext
* `Verif.fits_checked`: propext, Classical.choice, Quot.sound
* `Verif.flipSense_holds`: propext, Classical.choice, Quot.sound
* `Verif.floatFormat_format`: propext, Classical.choice, Quot.sound
* `Verif.float_brackets_partial`: propext, Classical.choice, Quot.sound
* `Verif.float_constraint_string_partial`: propext, Classical.choice, Quot.sound
* `Verif.float_grid`: propext, Classical.choice, Quot.sound
* `Verif.float_scalar_string_iff`: propext, Classical.choice, Quot.sound
* `Verif.float_string_den_partial`: propext, Classical.choice, Quot.sound
* `Verif.float_string_names_false`: propext, Classical.choice, Quot.sound
* `Verif.float_string_ok`: propext, Classical.choice, Quot.sound
* `Verif.float_string_written_partial`: propext, Classical.choice, Quot.sound
* `Verif.float_text_exact_false`: propext, Classical.choice, Quot.sound
* `Verif.float_text_inj`: propext, Classical.choice, Quot.sound
* `Verif.float_text_reads`: propext, Classical.choice, Quot.sound
* `Verif.float_text_shortest`: propext, Classical.choice, Quot.sound
* `Verif.float_text_tidy`: propext, Classical.choice, Quot.sound
* `Verif.from_empty_false`: propext, Classical.choice, Quot.sound
* `Verif.greaterEqArg_sat_partial`: propext, Classical.choice, Quot.sound
* `Verif.greaterEq_sat`: propext, Classical.choice, Quot.sound
* `Verif.heapAll_gradient_partial`: propext, Classical.choice, Quot.sound
* `Verif.heapAll_monoMat_false`: propext, Classical.choice, Quot.sound
* `Verif.heapAll_monoVec_receiver`: propext, Classical.choice, Quot.sound
* `Verif.heapAll_others`: propext, Classical.choice, Quot.sound
* `Verif.heapAll_panic`: propext, Classical.choice, Quot.sound
* `Verif.heapAll_panic_polyMat_false`: propext, Classical.choice, Quot.sound
* `Verif.heapAll_panic_polyVec_false`: propext, Classical.choice, Quot.sound
* `Verif.heapAll_run`: propext, Classical.choice, Quot.sound
* `Verif.heapAll_self`: propext, Classical.choice, Quot.sound
* `Verif.heapAll_value`: propext, Classical.choice, Quot.sound
* `Verif.heapArith_derivative_writes`: propext, Classical.choice, Quot.sound
* `Verif.heapArith_observe`: propext, Classical.choice, Quot.sound
* `Verif.heapArith_observe_partial`: propext, Classical.choice, Quot.sound
* `Verif.heapArith_product_derivative`: propext, Classical.choice, Quot.sound
* `Verif.heapArith_repeat`: propext, Classical.choice, Quot.sound
* `Verif.heapArith_simplify_derivative`: propext, Classical.choice, Quot.sound
* `Verif.heapArith_substitute_derivative`: propext, Classical.choice, Quot.sound
* `Verif.heapArith_sum_derivative_false`: propext, Classical.choice, Quot.sound
* `Verif.heapArith_unchanged`: propext, Classical.choice, Quot.sound
* `Verif.heapArith_unchanged_partial`: propext, Classical.choice, Quot.sound
* `Verif.heapArray_at_derivative`: propext, Classical.choice, Quot.sound
* `Verif.heapArray_fresh`: propext, Classical.choice, Quot.sound
* `Verif.heapArray_observe`: propext, Classical.choice, Quot.sound
* `Verif.heapArray_observe_partial`: propext, Classical.choice, Quot.sound
* `Verif.heapArray_sum_derivative_false`: propext, Classical.choice, Quot.sound
* `Verif.heapArray_sum_derivative_operand`: propext, Classical.choice, Quot.sound
* `Verif.heapArray_sum_derivative_value`: propext, Classical.choice, Quot.sound
* `Verif.heapArray_sum_matrix_derivative_false`: propext, Classical.choice, Quot.sound
* `Verif.heapArray_transpose_derivative`: propext, Classical.choice, Quot.sound
* `Verif.heapArray_unchanged`: propext, Classical.choice, Quot.sound
* `Verif.heapArray_unchanged_partial`: propext, Classical.choice, Quot.sound
* `Verif.heapDeriv_effect`: propext, Classical.choice, Quot.sound
* `Verif.heapDeriv_panic`: propext, Classical.choice, Quot.sound
* `Verif.heapDeriv_pderiv`: propext, Classical.choice, Quot.sound
* `Verif.heapDeriv_returns`: propext, Classical.choice, Quot.sound
* `Verif.heapDeriv_run`: propext, Classical.choice, Quot.sound
* `Verif.heapDeriv_step`: propext, Classical.choice, Quot.sound
* `Verif.heapDeriv_twice_false`: propext, Classical.choice, Quot.sound
* `Verif.heap_copy_protects`: propext, Classical.choice, Quot.sound
* `Verif.heap_derivative`: propext, Classical.choice, Quot.sound
* `Verif.heap_derivative_others`: propext, Classical.choice, Quot.sound
* `Verif.heap_derivative_safe`: propext, Classical.choice, Quot.sound
* `Verif.heap_derivative_unchanged_iff`: propext, Classical.choice, Quot.sound
* `Verif.heap_gradient_denotes_partial`: propext, Classical.choice, Quot.sound
* `Verif.heap_gradient_false`: propext, Classical.choice, Quot.sound
* `Verif.heap_gradient_partial`: propext, Classical.choice, Quot.sound
* `Verif.heap_gradient_run`: propext, Classical.choice, Quot.sound
* `Verif.heap_monoVec`: propext, Classical.choice, Quot.sound
* `Verif.heap_polyCopy_false`: propext, Classical.choice, Quot.sound
* `Verif.heap_polyVec`: propext, Classical.choice, Quot.sound
* `Verif.heap_polyVec_receiver`: propext, Classical.choice, Quot.sound
* `Verif.history_distinct_partial`: propext, Classical.choice, Quot.sound
* `Verif.history_fresh_partial`: propext, Classical.choice, Quot.sound
* `Verif.history_nodup`: propext, Quot.sound
* `Verif.hstackError_reports`: propext, Classical.choice, Quot.sound
* `Verif.hstack_blocks`: propext, Classical.choice, Quot.sound
* `Verif.hstack_dimension`: propext, Classical.choice, Quot.sound
* `Verif.hstack_reports`: propext, Classical.choice, Quot.sound
* `Verif.identity_spec`: propext, Classical.choice, Quot.sound
* `Verif.implies_all_sound_partial`: propext, Classical.choice, Quot.sound
* `Verif.implies_array_sound`: propext, Classical.choice, Quot.sound
* `Verif.implies_arrays_false`: propext, Classical.choice, Quot.sound
* `Verif.implies_constant_false`: propext, Classical.choice, Quot.sound
* `Verif.implies_exact_partial`: propext, Classical.choice, Quot.sound
* `Verif.implies_float64`: propext, Classical.choice, Quot.sound
* `Verif.implies_float64_exact_partial`: propext, Classical.choice, Quot.sound
* `Verif.implies_float64_false`: propext, Classical.choice, Quot.sound
* `Verif.implies_float64_sound_partial`: propext, Classical.choice, Quot.sound
* `Verif.implies_nonlinear_false`: propext, Classical.choice, Quot.sound
* `Verif.implies_sound_partial`: propext, Classical.choice, Quot.sound
* `Verif.indexMessage_inj`: propext, Classical.choice, Quot.sound
* `Verif.indexPairMessage_inj`: propext, Classical.choice, Quot.sound
* `Verif.insertMono_coef`: propext, Classical.choice, Quot.sound
* `Verif.isConstantCall_iff`: propext, Classical.choice, Quot.sound
* `Verif.isConstantCall_total`: propext, Quot.sound
* `Verif.isConstraint_iff`: propext
* `Verif.isLinear_array`: propext, Classical.choice, Quot.sound
* `Verif.isLinear_con`: propext, Classical.choice, Quot.sound
* `Verif.isLinear_correct_partial`: propext, Classical.choice, Quot.sound
* `Verif.isLinear_sound`: propext, Classical.choice, Quot.sound
* `Verif.isNonneg_complete_partial`: propext, Classical.choice, Quot.sound
* `Verif.isNonneg_false`: propext, Classical.choice, Quot.sound
* `Verif.isNonneg_float64`: propext, Classical.choice, Quot.sound
* `Verif.isNonneg_incomplete`: propext, Classical.choice, Quot.sound
* `Verif.isNonneg_sound_partial`: propext, Classical.choice, Quot.sound
* `Verif.isNonneg_written`: propext, Classical.choice, Quot.sound
* `Verif.isSquare_spec`: propext, Classical.choice, Quot.sound
* `Verif.isZero_iff`: propext, Classical.choice, Quot.sound
* `Verif.k_minus_vmat_simplified_false`: propext, Classical.choice, Quot.sound
* `Verif.k_mul_vec_false`: propext, Classical.choice, Quot.sound
* `Verif.k_plus_mat_partial`: propext, Classical.choice, Quot.sound
* `Verif.kmConvert_eq`: propext, Classical.choice, Quot.sound
* `Verif.kmConvert_false`: propext, Classical.choice, Quot.sound
* `Verif.kmConvert_total`: propext, Classical.choice, Quot.sound
* `Verif.kmat_comparison_f64_false`: propext, Classical.choice, Quot.sound
* `Verif.kmat_minus_partial`: propext, Classical.choice, Quot.sound
* `Verif.kmat_minus_polycol_false`: propext, Classical.choice, Quot.sound
* `Verif.kmat_mul_coeffs`: propext, Classical.choice, Quot.sound
* `Verif.kmat_mul_deg_two`: propext, Classical.choice, Quot.sound
* `Verif.kmat_mul_kvec_false`: propext, Classical.choice, Quot.sound
* `Verif.kmat_mul_kvec_rejected`: propext
* `Verif.kmat_mul_poly_partial`: propext, Classical.choice, Quot.sound
* `Verif.kmat_mul_var_false`: propext, Classical.choice, Quot.sound
* `Verif.kmat_mul_vecDense`: propext, Classical.choice, Quot.sound
* `Verif.kmat_mul_vecDense_rejects`: propext, Classical.choice, Quot.sound
* `Verif.kmat_mul_vec_false`: propext, Classical.choice, Quot.sound
* `Verif.kmat_plus_k_coeffs`: propext, Classical.choice, Quot.sound
* `Verif.kmat_power`: propext, Classical.choice, Quot.sound
* `Verif.kmat_row_mul_short_vec_false`: propext, Classical.choice, Quot.sound
* `Verif.kmatrixFrom_spec`: propext, Quot.sound
* `Verif.kvToMonoVec_total`: propext, Quot.sound
* `Verif.kvToPolyVec_panics`: none
* `Verif.kvToPolyVec_total`: propext, Quot.sound
* `Verif.kvToVecDense_spec`: none
* `Verif.kvar_linearCoeff`: propext, Classical.choice, Quot.sound
* `Verif.kvec_one_mul_vec_false`: propext, Classical.choice, Quot.sound
* `Verif.kvectorFrom_spec`: propext, Quot.sound
* `Verif.lenMessage_inj`: propext, Classical.choice, Quot.sound
* `Verif.lessEqArg_sat_partial`: propext, Classical.choice, Quot.sound
* `Verif.lessEq_greaterEq_array_partial`: propext, Classical.choice, Quot.sound
* `Verif.lessEq_greaterEq_sat`: propext, Classical.choice, Quot.sound
* `Verif.lessEq_sat`: propext, Classical.choice, Quot.sound
* `Verif.like_goType`: propext, Classical.choice, Quot.sound
* `Verif.linearCoeff_empty`: propext, Classical.choice, Quot.sound
* `Verif.linearCoeff_empty_reports`: propext, Classical.choice, Quot.sound
* `Verif.linearCoeff_float64`: propext, Classical.choice, Quot.sound
* `Verif.linearCoeff_mono_dup_false`: propext, Classical.choice, Quot.sound
* `Verif.linearCoeff_mono_false`: propext, Classical.choice, Quot.sound
* `Verif.linearCoeff_mono_panics`: propext, Classical.choice, Quot.sound
* `Verif.linearCoeff_mono_partial`: propext, Classical.choice, Quot.sound
* `Verif.linearCoeff_partial`: propext, Classical.choice, Quot.sound
* `Verif.linearCoeff_poly_false`: propext, Classical.choice, Quot.sound
* `Verif.linearCoeff_poly_partial`: propext, Classical.choice, Quot.sound
* `Verif.linearCoeff_read`: propext, Classical.choice, Quot.sound
* `Verif.linearCoeff_scalar_reports`: propext, Classical.choice, Quot.sound
* `Verif.linearCoeff_simplified`: propext, Classical.choice, Quot.sound
* `Verif.linearCoeff_text_false`: propext, Classical.choice, Quot.sound
* `Verif.linearCoeff_vec_float64`: propext, Classical.choice, Quot.sound
* `Verif.linearCoeff_vec_reports`: propext, Classical.choice, Quot.sound
* `Verif.linearEq_coeffs`: propext, Classical.choice, Quot.sound
* `Verif.linearEq_false`: propext, Classical.choice, Quot.sound
* `Verif.linearEq_margin`: propext, Classical.choice, Quot.sound
* `Verif.linearEq_partial`: propext, Classical.choice, Quot.sound
* `Verif.linearEq_rejects_sense`: propext, Classical.choice, Quot.sound
* `Verif.linearEq_rounding`: propext, Classical.choice, Quot.sound
* `Verif.linearEq_twice`: propext, Classical.choice, Quot.sound
* `Verif.linearIneq_coeffs`: propext, Classical.choice, Quot.sound
* `Verif.linearIneq_default_partial`: propext, Classical.choice, Quot.sound
* `Verif.linearIneq_equality`: propext, Classical.choice, Quot.sound
* `Verif.linearIneq_false`: propext, Classical.choice, Quot.sound
* `Verif.linearIneq_float_false`: propext, Classical.choice, Quot.sound
* `Verif.linearIneq_general`: propext, Classical.choice, Quot.sound
* `Verif.linearIneq_margin`: propext, Classical.choice, Quot.sound
* `Verif.linearIneq_partial`: propext, Classical.choice, Quot.sound
* `Verif.linearIneq_rounding`: propext, Classical.choice, Quot.sound
* `Verif.linearIneq_thrice_false`: propext, Classical.choice, Quot.sound
* `Verif.linearIneq_twice`: propext, Classical.choice, Quot.sound
* `Verif.linear_rejects_nonlinear`: propext, Classical.choice, Quot.sound
* `Verif.linear_rep_float64`: propext, Classical.choice, Quot.sound
* `Verif.linear_rep_vec_float64`: propext, Classical.choice, Quot.sound
* `Verif.listIsCopy_append_false`: propext, Classical.choice, Quot.sound
* `Verif.lprog_coeffs`: propext, Classical.choice, Quot.sound
* `Verif.lprog_equality`: propext, Classical.choice, Quot.sound
* `Verif.lprog_inequality`: propext, Classical.choice, Quot.sound
* `Verif.lprog_same`: propext, Classical.choice, Quot.sound
* `Verif.machine_big_run`: propext, Classical.choice, Quot.sound
* `Verif.machine_calls`: propext, Classical.choice, Quot.sound
* `Verif.machine_calls_mul`: propext, Classical.choice, Quot.sound
* `Verif.machine_degree_false`: propext, Quot.sound
* `Verif.machine_exact`: propext, Classical.choice, Quot.sound
* `Verif.machine_ideal`: propext, Classical.choice, Quot.sound
* `Verif.machine_negative_false`: propext, Classical.choice, Quot.sound
* `Verif.machine_plus_false`: propext, Classical.choice, Quot.sound
* `Verif.machine_readings`: propext, Classical.choice, Quot.sound
* `Verif.machine_run`: propext, Classical.choice, Quot.sound
* `Verif.machine_square32_false`: propext, Classical.choice, Quot.sound
* `Verif.machine_square_false`: propext, Classical.choice, Quot.sound
* `Verif.makeBasicEnvironment_spec`: propext, Classical.choice, Quot.sound
* `Verif.mat_constant_partial`: propext, Classical.choice, Quot.sound
* `Verif.mat_conversions_denote`: propext, Classical.choice, Quot.sound
* `Verif.mat_mul_affine`: propext, Classical.choice, Quot.sound
* `Verif.mat_mul_coeffs`: propext, Classical.choice, Quot.sound
* `Verif.mat_mul_coeffs_linear`: propext, Classical.choice, Quot.sound
* `Verif.mat_mul_dimension`: propext, Classical.choice, Quot.sound
* `Verif.mat_mul_k_coeffs`: propext, Classical.choice, Quot.sound
* `Verif.mat_mul_k_partial`: propext, Classical.choice, Quot.sound
* `Verif.mat_mul_partial`: propext, Classical.choice, Quot.sound
* `Verif.mat_mul_total`: propext, Classical.choice, Quot.sound
* `Verif.mat_mul_vars_coeffs`: propext, Classical.choice, Quot.sound
* `Verif.mat_mul_vars_coeffs_linear`: propext, Classical.choice, Quot.sound
* `Verif.mat_mul_varvec_partial`: propext, Classical.choice, Quot.sound
* `Verif.mat_plus_coeffs`: propext, Classical.choice, Quot.sound
* `Verif.mat_plus_deg_two`: propext, Classical.choice, Quot.sound
* `Verif.mat_plus_dimension`: propext, Classical.choice, Quot.sound
* `Verif.mat_plus_kinds_false`: propext, Classical.choice, Quot.sound
* `Verif.mat_plus_partial`: propext, Classical.choice, Quot.sound
* `Verif.mat_plus_scalar_partial`: propext, Classical.choice, Quot.sound
* `Verif.mat_plus_total`: propext, Classical.choice, Quot.sound
* `Verif.mat_power_negative`: propext, Classical.choice, Quot.sound
* `Verif.mat_power_not_square`: propext, Classical.choice, Quot.sound
* `Verif.mat_power_one_by_one_panics`: propext, Classical.choice, Quot.sound
* `Verif.mat_power_partial`: propext, Classical.choice, Quot.sound
* `Verif.mat_power_two`: propext, Classical.choice, Quot.sound
* `Verif.mat_power_univariate`: propext, Classical.choice, Quot.sound
* `Verif.mat_power_zero`: propext, Classical.choice, Quot.sound
* `Verif.mat_simplify_column_panics`: propext, Classical.choice, Quot.sound
* `Verif.mat_simplify_never`: propext, Classical.choice, Quot.sound
* `Verif.mat_simplify_one_nonzero`: propext, Classical.choice, Quot.sound
* `Verif.mat_simplify_panics`: propext, Classical.choice, Quot.sound
* `Verif.mat_simplify_partial`: propext, Classical.choice, Quot.sound
* `Verif.mat_simplify_returns_partial`: propext, Classical.choice, Quot.sound
* `Verif.mat_vars_coeffs`: propext, Classical.choice, Quot.sound
* `Verif.mat_vars_entries`: propext, Classical.choice, Quot.sound
* `Verif.matrixIndexError_reports`: propext, Classical.choice, Quot.sound
* `Verif.matrix_check_reports`: propext, Classical.choice, Quot.sound
* `Verif.matrix_eq_linear`: propext, Classical.choice, Quot.sound
* `Verif.matrix_ge_linear`: propext, Classical.choice, Quot.sound
* `Verif.matrix_le_linear`: propext, Classical.choice, Quot.sound
* `Verif.mcon_check_dimension`: propext, Classical.choice, Quot.sound
* `Verif.mcon_check_iff`: propext, Classical.choice, Quot.sound
* `Verif.minusArg_eq`: propext
* `Verif.minusArg_rejects`: propext
* `Verif.minus_arr_written`: propext, Classical.choice, Quot.sound
* `Verif.minus_array_float64`: propext, Classical.choice, Quot.sound
* `Verif.minus_array_one_nonzero`: propext, Classical.choice, Quot.sound
* `Verif.minus_array_rounding`: propext, Classical.choice, Quot.sound
* `Verif.minus_coeffs`: propext, Classical.choice, Quot.sound
* `Verif.minus_denotes_difference_deg_two`: propext, Classical.choice, Quot.sound
* `Verif.minus_denotes_difference_partial`: propext, Classical.choice, Quot.sound
* `Verif.minus_false`: propext, Classical.choice, Quot.sound
* `Verif.minus_float64`: propext, Classical.choice, Quot.sound
* `Verif.minus_forms`: propext, Classical.choice, Quot.sound
* `Verif.minus_grid`: propext, Classical.choice, Quot.sound
* `Verif.minus_int_false`: propext, Classical.choice, Quot.sound
* `Verif.minus_one_nonzero`: propext, Classical.choice, Quot.sound
* `Verif.minus_power_valid`: propext, Classical.choice, Quot.sound
* `Verif.minus_rejects`: propext, Classical.choice, Quot.sound
* `Verif.minus_reports`: propext, Classical.choice, Quot.sound
* `Verif.minus_rounding`: propext, Classical.choice, Quot.sound
* `Verif.minus_rounds`: propext, Classical.choice, Quot.sound
* `Verif.minus_scalar_rounding`: propext, Classical.choice, Quot.sound
* `Verif.minus_self_coeffs`: propext, Classical.choice, Quot.sound
* `Verif.minus_self_partial`: propext, Classical.choice, Quot.sound
* `Verif.minus_shapes`: propext, Classical.choice, Quot.sound
* `Verif.minus_simplified_partial`: propext, Classical.choice, Quot.sound
* `Verif.minus_sound_partial`: propext, Classical.choice, Quot.sound
* `Verif.minus_sound_struct`: propext, Classical.choice, Quot.sound
* `Verif.minus_swap_coeffs`: propext, Classical.choice, Quot.sound
* `Verif.minus_total`: propext, Classical.choice, Quot.sound
* `Verif.minus_written`: propext, Classical.choice, Quot.sound
* `Verif.minus_zero_iff`: propext, Classical.choice, Quot.sound
* `Verif.mixed_partials_false`: propext, Classical.choice, Quot.sound
* `Verif.mixed_partials_same`: propext, Classical.choice, Quot.sound
* `Verif.mixed_partials_small`: propext, Classical.choice, Quot.sound
* `Verif.mmat_mul_simplified_false`: propext, Classical.choice, Quot.sound
* `Verif.mmat_plus_simplified_false`: propext, Classical.choice, Quot.sound
* `Verif.mmat_plus_terms`: propext, Classical.choice, Quot.sound
* `Verif.mono_mul_simplified_false`: propext, Classical.choice, Quot.sound
* `Verif.mono_mul_var_simplified_false`: propext, Classical.choice, Quot.sound
* `Verif.mono_plus_vec_false`: propext, Classical.choice, Quot.sound
* `Verif.monomat_mul_varvec_panics`: propext, Classical.choice, Quot.sound
* `Verif.monomat_mul_varvec_partial`: propext, Classical.choice, Quot.sound
* `Verif.monomat_plus_not_simplified`: propext, Classical.choice, Quot.sound
* `Verif.monomat_plus_polymat`: propext, Classical.choice, Quot.sound
* `Verif.monomat_row_mul_varvec_partial`: propext, Classical.choice, Quot.sound
* `Verif.monomialIndex_false`: propext, Quot.sound
* `Verif.monomialIndex_partial`: propext, Classical.choice, Quot.sound
* `Verif.mulArg_eq`: propext, Classical.choice, Quot.sound
* `Verif.mulArg_rejects`: propext
* `Verif.mulF64_eq`: propext, Classical.choice, Quot.sound
* `Verif.mulTemplate_reports`: propext, Classical.choice, Quot.sound
* `Verif.mul_arr_written`: propext, Classical.choice, Quot.sound
* `Verif.mul_array_float64`: propext, Classical.choice, Quot.sound
* `Verif.mul_array_one_nonzero`: propext, Classical.choice, Quot.sound
* `Verif.mul_array_rounding`: propext, Classical.choice, Quot.sound
* `Verif.mul_assoc_univariate`: propext, Classical.choice, Quot.sound
* `Verif.mul_coeffs`: propext, Classical.choice, Quot.sound
* `Verif.mul_comm_float_false`: propext, Classical.choice, Quot.sound
* `Verif.mul_comm_term`: propext, Classical.choice, Quot.sound
* `Verif.mul_const_forms`: propext, Classical.choice, Quot.sound
* `Verif.mul_denotes_product_affine`: propext, Classical.choice, Quot.sound
* `Verif.mul_denotes_product_nonpoly`: propext, Classical.choice, Quot.sound
* `Verif.mul_denotes_product_partial`: propext, Classical.choice, Quot.sound
* `Verif.mul_denotes_product_univariate`: propext, Classical.choice, Quot.sound
* `Verif.mul_false`: propext, Classical.choice, Quot.sound
* `Verif.mul_float64`: propext, Classical.choice, Quot.sound
* `Verif.mul_forms`: propext, Classical.choice, Quot.sound
* `Verif.mul_one_nonzero`: propext, Classical.choice, Quot.sound
* `Verif.mul_rejects`: propext, Classical.choice, Quot.sound
* `Verif.mul_reports`: propext, Classical.choice, Quot.sound
* `Verif.mul_rounding`: propext, Classical.choice, Quot.sound
* `Verif.mul_rounding_grid`: propext, Classical.choice, Quot.sound
* `Verif.mul_scalar_rounding`: propext, Classical.choice, Quot.sound
* `Verif.mul_shapes`: propext, Classical.choice, Quot.sound
* `Verif.mul_simplified_partial`: propext, Classical.choice, Quot.sound
* `Verif.mul_sound_affine`: propext, Classical.choice, Quot.sound
* `Verif.mul_sound_partial`: propext, Classical.choice, Quot.sound
* `Verif.mul_sound_struct`: propext, Classical.choice, Quot.sound
* `Verif.mul_total`: propext, Classical.choice, Quot.sound
* `Verif.mul_valid`: propext, Classical.choice, Quot.sound
* `Verif.mul_written`: propext, Classical.choice, Quot.sound
* `Verif.multiplicationError_reports`: propext, Classical.choice, Quot.sound
* `Verif.multiplicative_laws_partial`: propext, Classical.choice, Quot.sound
* `Verif.multiply_caller_false`: propext, Classical.choice, Quot.sound
* `Verif.multiply_keeps`: propext, Classical.choice, Quot.sound
* `Verif.multiply_program_partial`: propext, Classical.choice, Quot.sound
* `Verif.multiply_receiver`: propext, Classical.choice, Quot.sound
* `Verif.multiply_value_false`: propext, Classical.choice, Quot.sound
* `Verif.multiply_value_partial`: propext, Classical.choice, Quot.sound
* `Verif.multiply_writes`: propext, Classical.choice, Quot.sound
* `Verif.multiply_writes_all`: propext, Classical.choice, Quot.sound
* `Verif.mvIsConstant_false`: propext, Classical.choice, Quot.sound
* `Verif.mvIsConstant_iff`: propext, Classical.choice, Quot.sound
* `Verif.mvIsConstant_sound`: propext, Classical.choice, Quot.sound
* `Verif.mvToPolyVec_total`: propext, Quot.sound
* `Verif.negExponent_text`: propext, Classical.choice, Quot.sound
* `Verif.newVarValue_ok`: propext, Classical.choice, Quot.sound
* `Verif.newVar_default`: propext
* `Verif.newVar_fresh_false`: propext, Classical.choice, Quot.sound
* `Verif.newVar_spec`: propext, Quot.sound
* `Verif.newVars_stuck`: propext, Quot.sound
* `Verif.noOverflow_of_sum`: propext, Classical.choice, Quot.sound
* `Verif.noUnderflow_of_grid`: propext, Classical.choice, Quot.sound
* `Verif.no_infinite`: propext
* `Verif.oneVar_arrayChecked`: propext, Classical.choice, Quot.sound
* `Verif.oneVar_checked`: propext, Classical.choice, Quot.sound
* `Verif.overflow_false`: propext, Classical.choice, Quot.sound
* `Verif.plusArg_eq`: propext, Classical.choice, Quot.sound
* `Verif.plusArg_rejects`: propext
* `Verif.plusTemplate_reports`: propext, Classical.choice, Quot.sound
* `Verif.plus_arr_written`: propext, Classical.choice, Quot.sound
* `Verif.plus_array_float64`: propext, Classical.choice, Quot.sound
* `Verif.plus_array_one_nonzero`: propext, Classical.choice, Quot.sound
* `Verif.plus_array_rounding`: propext, Classical.choice, Quot.sound
* `Verif.plus_assoc_forms`: propext, Classical.choice, Quot.sound
* `Verif.plus_coeffs`: propext, Classical.choice, Quot.sound
* `Verif.plus_comm_coeffs`: propext, Classical.choice, Quot.sound
* `Verif.plus_comm_false`: propext, Classical.choice, Quot.sound
* `Verif.plus_comm_forms`: propext, Classical.choice, Quot.sound
* `Verif.plus_denotes_sum_deg_two`: propext, Classical.choice, Quot.sound
* `Verif.plus_denotes_sum_multilinear`: propext, Classical.choice, Quot.sound
* `Verif.plus_denotes_sum_partial`: propext, Classical.choice, Quot.sound
* `Verif.plus_denotes_sum_univariate`: propext, Classical.choice, Quot.sound
* `Verif.plus_exact_at_iff`: propext, Classical.choice, Quot.sound
* `Verif.plus_exact_iff_consistent`: propext, Classical.choice, Quot.sound
* `Verif.plus_exact_iff_rearrFree`: propext, Classical.choice, Quot.sound
* `Verif.plus_false`: propext, Classical.choice, Quot.sound
* `Verif.plus_float64`: propext, Classical.choice, Quot.sound
* `Verif.plus_float64_false`: propext, Classical.choice, Quot.sound
* `Verif.plus_float64_value`: propext, Classical.choice, Quot.sound
* `Verif.plus_forms`: propext, Classical.choice, Quot.sound
* `Verif.plus_grid`: propext, Classical.choice, Quot.sound
* `Verif.plus_minus_forms`: propext, Classical.choice, Quot.sound
* `Verif.plus_one_nonzero`: propext, Classical.choice, Quot.sound
* `Verif.plus_rejects_false`: propext, Classical.choice, Quot.sound
* `Verif.plus_rejects_partial`: propext, Classical.choice, Quot.sound
* `Verif.plus_reports`: propext, Classical.choice, Quot.sound
* `Verif.plus_rounding`: propext, Classical.choice, Quot.sound
* `Verif.plus_scalar_rounding`: propext, Classical.choice, Quot.sound
* `Verif.plus_self_coeffs`: propext, Classical.choice, Quot.sound
* `Verif.plus_shapes`: propext, Classical.choice, Quot.sound
* `Verif.plus_simplified_partial`: propext, Classical.choice, Quot.sound
* `Verif.plus_smallest_partial`: propext, Classical.choice, Quot.sound
* `Verif.plus_sound_partial`: propext, Classical.choice, Quot.sound
* `Verif.plus_sound_struct`: propext, Classical.choice, Quot.sound
* `Verif.plus_total`: propext, Classical.choice, Quot.sound
* `Verif.plus_valid`: propext, Quot.sound
* `Verif.plus_value_partial`: propext, Classical.choice, Quot.sound
* `Verif.plus_variables_iff`: propext, Classical.choice, Quot.sound
* `Verif.plus_written`: propext, Classical.choice, Quot.sound
* `Verif.pmat_plus_scalar_coeffs`: propext, Classical.choice, Quot.sound
* `Verif.pmat_scale_coeffs`: propext, Classical.choice, Quot.sound
* `Verif.poly_plus_mat_partial`: propext, Classical.choice, Quot.sound
* `Verif.polymat_minus_polymat_false`: propext, Classical.choice, Quot.sound
* `Verif.polyvec_mul_var_false`: propext, Classical.choice, Quot.sound
* `Verif.pow_rounding`: propext, Classical.choice, Quot.sound
* `Verif.pow_rounding_grid`: propext, Classical.choice, Quot.sound
* `Verif.power_coeffs`: propext, Classical.choice, Quot.sound
* `Verif.power_denotes_power_nonpoly`: propext, Classical.choice, Quot.sound
* `Verif.power_denotes_power_partial`: propext, Classical.choice, Quot.sound
* `Verif.power_denotes_power_univariate`: propext, Classical.choice, Quot.sound
* `Verif.power_denotes_square_affine`: propext, Classical.choice, Quot.sound
* `Verif.power_false`: propext, Classical.choice, Quot.sound
* `Verif.power_float64`: propext, Classical.choice, Quot.sound
* `Verif.power_mat_float64`: propext, Classical.choice, Quot.sound
* `Verif.power_mono`: propext, Classical.choice, Quot.sound
* `Verif.power_negative`: propext, Classical.choice, Quot.sound
* `Verif.power_number_naive`: propext, Quot.sound
* `Verif.power_one_nonzero`: propext, Classical.choice, Quot.sound
* `Verif.power_power_float_false`: propext, Classical.choice, Quot.sound
* `Verif.power_rejects`: propext, Quot.sound
* `Verif.power_total`: propext, Classical.choice, Quot.sound
* `Verif.power_var`: propext, Classical.choice, Quot.sound
* `Verif.power_vec_float64`: propext, Classical.choice, Quot.sound
* `Verif.power_written`: propext, Classical.choice, Quot.sound
* `Verif.program_affine`: propext, Classical.choice, Quot.sound
* `Verif.program_checked`: propext, Classical.choice, Quot.sound
* `Verif.program_checked_constant`: propext, Classical.choice, Quot.sound
* `Verif.program_checked_linearCoeff`: propext, Classical.choice, Quot.sound
* `Verif.program_checked_value`: propext, Classical.choice, Quot.sound
* `Verif.program_coeffs`: propext, Classical.choice, Quot.sound
* `Verif.program_constant_false`: propext, Classical.choice, Quot.sound
* `Verif.program_equal`: propext, Classical.choice, Quot.sound
* `Verif.program_equality`: propext, Classical.choice, Quot.sound
* `Verif.program_error`: propext, Classical.choice, Quot.sound
* `Verif.program_exact`: propext, Classical.choice, Quot.sound
* `Verif.program_false`: propext, Classical.choice, Quot.sound
* `Verif.program_inequality`: propext, Classical.choice, Quot.sound
* `Verif.program_linearCoeff_false`: propext, Classical.choice, Quot.sound
* `Verif.program_linearEq`: propext, Classical.choice, Quot.sound
* `Verif.program_linearIneq`: propext, Classical.choice, Quot.sound
* `Verif.program_nan_bound_false`: propext, Classical.choice, Quot.sound
* `Verif.program_once`: propext, Classical.choice, Quot.sound
* `Verif.program_oneVar`: propext, Classical.choice, Quot.sound
* `Verif.program_overflow_false`: propext, Classical.choice, Quot.sound
* `Verif.program_quadratic`: propext, Classical.choice, Quot.sound
* `Verif.program_rounding`: propext, Classical.choice, Quot.sound
* `Verif.program_rounding_oneVar`: propext, Classical.choice, Quot.sound
* `Verif.program_rounding_quadratic`: propext, Classical.choice, Quot.sound
* `Verif.program_same_false`: propext, Classical.choice, Quot.sound
* `Verif.program_simplified`: propext, Classical.choice, Quot.sound
* `Verif.program_total`: propext, Classical.choice, Quot.sound
* `Verif.program_value`: propext, Classical.choice, Quot.sound
* `Verif.program_value_rounding`: propext, Classical.choice, Quot.sound
* `Verif.pvIsConstantVector_iff`: propext, Classical.choice, Quot.sound
* `Verif.quadratic_arrayChecked`: propext, Classical.choice, Quot.sound
* `Verif.quadratic_checked`: propext, Classical.choice, Quot.sound
* `Verif.quadratic_coeffs`: propext, Classical.choice, Quot.sound
* `Verif.quadratic_form`: propext, Classical.choice, Quot.sound
* `Verif.quadratic_form_one_false`: propext, Classical.choice, Quot.sound
* `Verif.queries_reject`: propext, Quot.sound
* `Verif.read_array_float64`: propext, Classical.choice, Quot.sound
* `Verif.read_con_float64`: propext, Classical.choice, Quot.sound
* `Verif.relabel_renames`: propext
* `Verif.relative_error_false`: propext, Classical.choice, Quot.sound
* `Verif.rename_array`: propext, Quot.sound
* `Verif.rename_scalar`: none
* `Verif.renaming_arrayConProgram`: propext, Classical.choice, Quot.sound
* `Verif.renaming_arrayProgram`: propext, Classical.choice, Quot.sound
* `Verif.renaming_binary`: propext, Classical.choice, Quot.sound
* `Verif.renaming_calculus`: propext, Classical.choice, Quot.sound
* `Verif.renaming_coeffs`: propext, Quot.sound
* `Verif.renaming_compile`: propext, Quot.sound
* `Verif.renaming_conProgram`: propext, Classical.choice, Quot.sound
* `Verif.renaming_constraint`: propext, Classical.choice, Quot.sound
* `Verif.renaming_constraintKeys`: propext, Classical.choice, Quot.sound
* `Verif.renaming_exists`: propext, Classical.choice, Quot.sound
* `Verif.renaming_implies_false`: propext, Classical.choice, Quot.sound
* `Verif.renaming_keys_false`: propext, Classical.choice, Quot.sound
* `Verif.renaming_linear`: propext, Classical.choice, Quot.sound
* `Verif.renaming_map`: propext, Classical.choice, Quot.sound
* `Verif.renaming_merge_false`: propext, Classical.choice, Quot.sound
* `Verif.renaming_program`: propext, Classical.choice, Quot.sound
* `Verif.renaming_queries`: propext, Quot.sound
* `Verif.renaming_stack`: propext, Quot.sound
* `Verif.renaming_text`: propext, Classical.choice, Quot.sound
* `Verif.renaming_unary`: propext, Classical.choice, Quot.sound
* `Verif.renaming_variables_false`: propext, Classical.choice, Quot.sound
* `Verif.rounded_error`: propext, Classical.choice, Quot.sound
* `Verif.rounded_of_approx`: propext, Classical.choice, Quot.sound
* `Verif.rounded_self`: propext, Classical.choice, Quot.sound
* `Verif.rounded_simplify`: propext, Classical.choice, Quot.sound
* `Verif.roundings_bound`: propext, Classical.choice, Quot.sound
* `Verif.rowAt_rounds`: propext, Classical.choice, Quot.sound
* `Verif.rowOf_margin`: propext, Classical.choice, Quot.sound
* `Verif.rowSum_nodup`: propext, Classical.choice, Quot.sound
* `Verif.row_vars_coef`: propext, Classical.choice, Quot.sound
* `Verif.row_vars_coeffs`: propext, Classical.choice, Quot.sound
* `Verif.rowsError_reports`: propext, Classical.choice, Quot.sound
* `Verif.scalar_left_one_nonzero`: propext, Classical.choice, Quot.sound
* `Verif.scalar_left_sound_partial`: propext, Classical.choice, Quot.sound
* `Verif.scalar_left_sound_struct`: propext, Classical.choice, Quot.sound
* `Verif.scalar_minus_rounding`: propext, Classical.choice, Quot.sound
* `Verif.scalar_mul_rounding`: propext, Classical.choice, Quot.sound
* `Verif.scalar_mul_vec_partial`: propext, Classical.choice, Quot.sound
* `Verif.scalar_plus_rounding`: propext, Classical.choice, Quot.sound
* `Verif.scalar_plus_vec_partial`: propext, Classical.choice, Quot.sound
* `Verif.scalar_right_one_nonzero`: propext, Classical.choice, Quot.sound
* `Verif.scalar_right_sound_partial`: propext, Classical.choice, Quot.sound
* `Verif.scalar_right_sound_struct`: propext, Classical.choice, Quot.sound
* `Verif.scalar_string_iff`: propext, Classical.choice, Quot.sound
* `Verif.scalars_entries`: propext
* `Verif.scaleBy_false`: propext, Classical.choice, Quot.sound
* `Verif.scaleBy_float64`: propext, Classical.choice, Quot.sound
* `Verif.scaleBy_one_nonzero`: propext, Classical.choice, Quot.sound
* `Verif.scaleBy_partial`: propext, Classical.choice, Quot.sound
* `Verif.scaleBy_written`: propext, Classical.choice, Quot.sound
* `Verif.scaleBy_zero_false`: propext, Classical.choice, Quot.sound
* `Verif.scale_coeffs`: propext, Classical.choice, Quot.sound
* `Verif.scon_check_iff`: propext, Classical.choice, Quot.sound
* `Verif.second_derivative_coeffs`: propext, Classical.choice, Quot.sound
* `Verif.shared_multiply_alone`: propext, Quot.sound
* `Verif.shared_multiply_false`: propext, Classical.choice, Quot.sound
* `Verif.shared_multiply_finishes`: propext, Classical.choice, Quot.sound
* `Verif.shared_multiply_full_partial`: propext, Classical.choice, Quot.sound
* `Verif.shared_multiply_partial`: propext, Quot.sound
* `Verif.sharp_keeps`: propext, Classical.choice, Quot.sound
* `Verif.simplifyFold_coef`: propext, Classical.choice, Quot.sound
* `Verif.simplify_canonical_partial`: propext, Classical.choice, Quot.sound
* `Verif.simplify_con_constant_false`: propext, Classical.choice, Quot.sound
* `Verif.simplify_con_constant_partial`: propext, Classical.choice, Quot.sound
* `Verif.simplify_con_constant_written`: propext, Classical.choice, Quot.sound
* `Verif.simplify_con_false`: propext, Classical.choice, Quot.sound
* `Verif.simplify_con_float64`: propext, Classical.choice, Quot.sound
* `Verif.simplify_con_one_nonzero`: propext, Classical.choice, Quot.sound
* `Verif.simplify_con_partial`: propext, Classical.choice, Quot.sound
* `Verif.simplify_con_written`: propext, Classical.choice, Quot.sound
* `Verif.simplify_denotes_same_partial`: propext, Classical.choice, Quot.sound
* `Verif.simplify_distinct_false`: propext, Classical.choice, Quot.sound
* `Verif.simplify_normal_form`: propext, Classical.choice, Quot.sound
* `Verif.simplify_normal_form_partial`: propext, Classical.choice, Quot.sound
* `Verif.simplify_rounding`: propext, Classical.choice, Quot.sound
* `Verif.smallestKind_false`: propext, Classical.choice, Quot.sound
* `Verif.sound_low_degree`: propext, Classical.choice, Quot.sound
* `Verif.square_coeffs`: propext, Classical.choice, Quot.sound
* `Verif.stack_empty`: propext
* `Verif.stack_float64`: propext, Classical.choice, Quot.sound
* `Verif.steady_of_linear`: propext, Classical.choice, Quot.sound
* `Verif.string_brackets_partial`: propext, Classical.choice, Quot.sound
* `Verif.string_den_partial`: propext, Classical.choice, Quot.sound
* `Verif.string_kmatrix_brackets_false`: propext, Classical.choice, Quot.sound
* `Verif.string_mmatrix_commas_false`: propext, Classical.choice, Quot.sound
* `Verif.string_names_false`: propext, Classical.choice, Quot.sound
* `Verif.string_written_partial`: propext, Classical.choice, Quot.sound
* `Verif.substEMap_const`: propext
* `Verif.substEMap_eq`: propext, Classical.choice, Quot.sound
* `Verif.substEMap_false`: propext, Classical.choice, Quot.sound
* `Verif.substEMap_rejects`: propext, Classical.choice, Quot.sound
* `Verif.substMap_affine_into_quadratic`: propext, Classical.choice, Quot.sound
* `Verif.substMap_array_evaluates_false`: propext, Classical.choice, Quot.sound
* `Verif.substMap_array_false`: propext, Classical.choice, Quot.sound
* `Verif.substMap_array_multilinear`: propext, Classical.choice, Quot.sound
* `Verif.substMap_array_order_false`: propext, Classical.choice, Quot.sound
* `Verif.substMap_array_order_partial`: propext, Classical.choice, Quot.sound
* `Verif.substMap_array_partial`: propext, Classical.choice, Quot.sound
* `Verif.substMap_array_quadratic`: propext, Classical.choice, Quot.sound
* `Verif.substMap_array_total`: propext, Classical.choice, Quot.sound
* `Verif.substMap_con_array_partial`: propext, Classical.choice, Quot.sound
* `Verif.substMap_con_evaluates`: propext, Classical.choice, Quot.sound
* `Verif.substMap_con_naive`: propext, Classical.choice, Quot.sound
* `Verif.substMap_con_quadratic`: propext, Classical.choice, Quot.sound
* `Verif.substMap_denotes_bind_partial`: propext, Classical.choice, Quot.sound
* `Verif.substMap_evaluates`: propext, Classical.choice, Quot.sound
* `Verif.substMap_false`: propext, Classical.choice, Quot.sound
* `Verif.substMap_float64`: propext, Classical.choice, Quot.sound
* `Verif.substMap_key_identity`: propext, Classical.choice, Quot.sound
* `Verif.substMap_mono_rounding`: propext, Classical.choice, Quot.sound
* `Verif.substMap_naive`: propext, Classical.choice, Quot.sound
* `Verif.substMap_naive_order`: propext, Classical.choice, Quot.sound
* `Verif.substMap_nonpoly`: propext, Classical.choice, Quot.sound
* `Verif.substMap_one_nonzero`: propext, Classical.choice, Quot.sound
* `Verif.substMap_rejects`: propext, Classical.choice, Quot.sound
* `Verif.substMap_rounding`: propext, Classical.choice, Quot.sound
* `Verif.substMap_total`: propext, Classical.choice, Quot.sound
* `Verif.substMap_value_affine`: propext, Classical.choice, Quot.sound
* `Verif.substMap_vec_rounding_order_false`: propext, Classical.choice, Quot.sound
* `Verif.substitute_affine_into_quadratic`: propext, Classical.choice, Quot.sound
* `Verif.substitute_array_float64`: propext, Classical.choice, Quot.sound
* `Verif.substitute_array_one_nonzero`: propext, Classical.choice, Quot.sound
* `Verif.substitute_array_partial`: propext, Classical.choice, Quot.sound
* `Verif.substitute_array_quadratic`: propext, Classical.choice, Quot.sound
* `Verif.substitute_array_total`: propext, Classical.choice, Quot.sound
* `Verif.substitute_con_array_one_nonzero`: propext, Classical.choice, Quot.sound
* `Verif.substitute_con_array_partial`: propext, Classical.choice, Quot.sound
* `Verif.substitute_con_array_quadratic`: propext, Classical.choice, Quot.sound
* `Verif.substitute_con_false`: propext, Classical.choice, Quot.sound
* `Verif.substitute_con_float64`: propext, Classical.choice, Quot.sound
* `Verif.substitute_con_one_nonzero`: propext, Classical.choice, Quot.sound
* `Verif.substitute_con_partial`: propext, Classical.choice, Quot.sound
* `Verif.substitute_con_quadratic`: propext, Classical.choice, Quot.sound
* `Verif.substitute_const_multilinear`: propext, Classical.choice, Quot.sound
* `Verif.substitute_denotes_bind_partial`: propext, Classical.choice, Quot.sound
* `Verif.substitute_env_false`: propext, Classical.choice, Quot.sound
* `Verif.substitute_false`: propext, Classical.choice, Quot.sound
* `Verif.substitute_float64`: propext, Classical.choice, Quot.sound
* `Verif.substitute_nonpoly`: propext, Classical.choice, Quot.sound
* `Verif.substitute_one_nonzero`: propext, Classical.choice, Quot.sound
* `Verif.substitute_quadratic_into_affine`: propext, Classical.choice, Quot.sound
* `Verif.substitute_rejects`: propext, Classical.choice, Quot.sound
* `Verif.substitute_total`: propext, Classical.choice, Quot.sound
* `Verif.substitute_univariate`: propext, Classical.choice, Quot.sound
* `Verif.substitute_value_partial`: propext, Classical.choice, Quot.sound
* `Verif.subtractionError_reports`: propext, Classical.choice, Quot.sound
* `Verif.termRoom_degLE`: propext, Classical.choice, Quot.sound
* `Verif.termRoom_univ1`: propext, Classical.choice, Quot.sound
* `Verif.threadProg_run`: propext, Classical.choice, Quot.sound
* `Verif.threads_alone`: propext, Classical.choice, Quot.sound
* `Verif.threads_derivative_false`: propext, Classical.choice, Quot.sound
* `Verif.threads_end`: propext, Classical.choice, Quot.sound
* `Verif.threads_progress`: propext, Quot.sound
* `Verif.threads_race_partial`: propext, Classical.choice, Quot.sound
* `Verif.threads_result`: propext, Classical.choice, Quot.sound
* `Verif.threads_result_partial`: propext, Classical.choice, Quot.sound
* `Verif.threads_shared`: propext, Classical.choice, Quot.sound
* `Verif.threads_shared_partial`: propext, Classical.choice, Quot.sound
* `Verif.threads_terminate`: propext
* `Verif.threads_unchanged`: propext, Classical.choice, Quot.sound
* `Verif.threads_unchanged_partial`: propext, Classical.choice, Quot.sound
* `Verif.threads_write`: propext, Classical.choice, Quot.sound
* `Verif.threads_write_partial`: propext, Classical.choice, Quot.sound
* `Verif.thrice_sum_false`: propext, Classical.choice, Quot.sound
* `Verif.tidy_exact`: propext, Classical.choice, Quot.sound
* `Verif.timesTerm_fin`: propext, Classical.choice, Quot.sound
* `Verif.toPolynomialLike_false`: none
* `Verif.toPolynomialLike_partial`: propext, Quot.sound
* `Verif.toPolynomialLike_toExpr`: propext
* `Verif.trackIn_eq`: propext
* `Verif.track_mem_spec`: propext, Classical.choice, Quot.sound
* `Verif.track_spec`: propext, Quot.sound
* `Verif.transpose_array_float64`: propext, Classical.choice, Quot.sound
* `Verif.transpose_denotes`: propext, Classical.choice, Quot.sound
* `Verif.transpose_entry`: propext, Classical.choice, Quot.sound
* `Verif.transpose_transpose`: propext, Classical.choice, Quot.sound
* `Verif.twice_sum_coeffs`: propext, Classical.choice, Quot.sound
* `Verif.twice_sum_overflow_false`: propext, Classical.choice, Quot.sound
* `Verif.underflow_false`: propext, Classical.choice, Quot.sound
* `Verif.unionOfVariables_comm`: propext, Classical.choice, Quot.sound
* `Verif.unionOfVariables_spec`: propext, Classical.choice, Quot.sound
* `Verif.uniqueIds_eq_firstOcc`: propext, Quot.sound
* `Verif.uniqueVars_eq_firstOcc`: propext, Classical.choice, Quot.sound
* `Verif.uniqueVars_spec`: propext, Classical.choice, Quot.sound
* `Verif.var_plus_mat_false`: propext, Classical.choice, Quot.sound
* `Verif.variableIDs_spec`: propext, Classical.choice, Quot.sound
* `Verif.variables_array`: propext, Classical.choice, Quot.sound
* `Verif.variables_complete`: propext, Classical.choice, Quot.sound
* `Verif.variables_determine_value`: propext, Classical.choice, Quot.sound
* `Verif.variables_exact_partial`: propext, Classical.choice, Quot.sound
* `Verif.variables_nodup`: propext, Classical.choice, Quot.sound
* `Verif.varmat_mul_kvec_partial`: propext, Classical.choice, Quot.sound
* `Verif.varmat_mul_one_panics`: propext, Classical.choice, Quot.sound
* `Verif.varmat_one_plus_kmat_false`: propext, Classical.choice, Quot.sound
* `Verif.varmat_plus_k_partial`: propext, Classical.choice, Quot.sound
* `Verif.varmat_plus_kmat_partial`: propext, Classical.choice, Quot.sound
* `Verif.varmat_plus_zero_panics`: propext, Classical.choice, Quot.sound
* `Verif.vcon_check_iff`: propext, Classical.choice, Quot.sound
* `Verif.vcon_reports`: propext, Classical.choice, Quot.sound
* `Verif.vec_affine_partial`: propext, Classical.choice, Quot.sound
* `Verif.vec_constant_map`: propext, Quot.sound
* `Verif.vec_constant_partial`: propext, Classical.choice, Quot.sound
* `Verif.vec_conversions_denote`: propext, Classical.choice, Quot.sound
* `Verif.vec_isLinear`: propext, Classical.choice, Quot.sound
* `Verif.vec_linearCoeff_map`: propext, Classical.choice, Quot.sound
* `Verif.vec_linearCoeff_partial`: propext, Classical.choice, Quot.sound
* `Verif.vec_linearEq_coeffs`: propext, Classical.choice, Quot.sound
* `Verif.vec_linearEq_default_partial`: propext, Classical.choice, Quot.sound
* `Verif.vec_linearEq_general`: propext, Classical.choice, Quot.sound
* `Verif.vec_linearEq_margin`: propext, Classical.choice, Quot.sound
* `Verif.vec_linearEq_partial`: propext, Classical.choice, Quot.sound
* `Verif.vec_linearEq_rounding`: propext, Classical.choice, Quot.sound
* `Verif.vec_linearIneq_coeffs`: propext, Classical.choice, Quot.sound
* `Verif.vec_linearIneq_constant_panics`: propext, Classical.choice, Quot.sound
* `Verif.vec_linearIneq_default_partial`: propext, Classical.choice, Quot.sound
* `Verif.vec_linearIneq_false`: propext, Classical.choice, Quot.sound
* `Verif.vec_linearIneq_general`: propext, Classical.choice, Quot.sound
* `Verif.vec_linearIneq_margin`: propext, Classical.choice, Quot.sound
* `Verif.vec_linearIneq_one_panics`: propext, Classical.choice, Quot.sound
* `Verif.vec_linearIneq_partial`: propext, Classical.choice, Quot.sound
* `Verif.vec_linearIneq_rounding`: propext, Classical.choice, Quot.sound
* `Verif.vec_linear_rejects_nonlinear`: propext, Classical.choice, Quot.sound
* `Verif.vec_linear_rejects_sense`: propext, Classical.choice, Quot.sound
* `Verif.vec_minus_coeffs`: propext, Classical.choice, Quot.sound
* `Verif.vec_minus_res`: propext, Classical.choice, Quot.sound
* `Verif.vec_minus_scalar_coeffs`: propext, Classical.choice, Quot.sound
* `Verif.vec_minus_scalar_partial`: propext, Classical.choice, Quot.sound
* `Verif.vec_minus_vec_partial`: propext, Classical.choice, Quot.sound
* `Verif.vec_mul_scalar_affine`: propext, Classical.choice, Quot.sound
* `Verif.vec_mul_scalar_coeffs`: propext, Classical.choice, Quot.sound
* `Verif.vec_mul_scalar_partial`: propext, Classical.choice, Quot.sound
* `Verif.vec_mul_scalar_total`: propext, Classical.choice, Quot.sound
* `Verif.vec_plus_coeffs`: propext, Classical.choice, Quot.sound
* `Verif.vec_plus_dimension`: propext, Classical.choice, Quot.sound
* `Verif.vec_plus_length_one_false`: propext, Classical.choice, Quot.sound
* `Verif.vec_plus_length_one_panics`: propext, Classical.choice, Quot.sound
* `Verif.vec_plus_scalar_coeffs`: propext, Classical.choice, Quot.sound
* `Verif.vec_plus_scalar_partial`: propext, Classical.choice, Quot.sound
* `Verif.vec_plus_scalar_total`: propext, Classical.choice, Quot.sound
* `Verif.vec_plus_vec_deg_two`: propext, Classical.choice, Quot.sound
* `Verif.vec_plus_vec_partial`: propext, Classical.choice, Quot.sound
* `Verif.vec_plus_vec_total`: propext, Classical.choice, Quot.sound
* `Verif.vec_power_false`: propext, Classical.choice, Quot.sound
* `Verif.vec_power_length`: propext, Quot.sound
* `Verif.vec_power_malformed`: propext, Quot.sound
* `Verif.vec_power_negative`: propext
* `Verif.vec_power_nonpoly`: propext, Classical.choice, Quot.sound
* `Verif.vec_power_ok_iff`: propext, Classical.choice, Quot.sound
* `Verif.vec_power_partial`: propext, Classical.choice, Quot.sound
* `Verif.vec_power_single`: propext, Quot.sound
* `Verif.vec_power_total`: propext, Classical.choice, Quot.sound
* `Verif.vec_power_univariate`: propext, Classical.choice, Quot.sound
* `Verif.vec_simplify_one_nonzero`: propext, Classical.choice, Quot.sound
* `Verif.vec_simplify_partial`: propext, Classical.choice, Quot.sound
* `Verif.vectorIndexError_reports`: propext, Classical.choice, Quot.sound
* `Verif.vlprog_coeffs`: propext, Classical.choice, Quot.sound
* `Verif.vlprog_equality`: propext, Classical.choice, Quot.sound
* `Verif.vlprog_inequality`: propext, Classical.choice, Quot.sound
* `Verif.vmConvert_total`: propext, Classical.choice, Quot.sound
* `Verif.vmat_comparison_densePtr_false`: propext, Classical.choice, Quot.sound
* `Verif.vmat_mul_kvec_coeffs`: propext, Classical.choice, Quot.sound
* `Verif.vmat_mul_kvec_rows`: propext, Classical.choice, Quot.sound
* `Verif.vstackError_reports`: propext, Classical.choice, Quot.sound
* `Verif.vstack_blocks`: propext, Classical.choice, Quot.sound
* `Verif.vstack_dimension`: propext, Classical.choice, Quot.sound
* `Verif.vstack_reports`: propext, Classical.choice, Quot.sound
* `Verif.vvCopy_eq`: propext, Quot.sound
* `Verif.vvToMonoVec_total`: propext, Classical.choice, Quot.sound
* `Verif.vvToPolyVec_total`: propext, Classical.choice, Quot.sound
* `Verif.zeros_arrayConProgram`: propext, Classical.choice, Quot.sound
* `Verif.zeros_arrayProgram`: propext, Classical.choice, Quot.sound
* `Verif.zeros_binary`: propext, Classical.choice, Quot.sound
* `Verif.zeros_calculus`: propext, Classical.choice, Quot.sound
* `Verif.zeros_coeffs`: propext, Classical.choice, Quot.sound
* `Verif.zeros_compile`: propext, Classical.choice, Quot.sound
* `Verif.zeros_conProgram`: propext, Classical.choice, Quot.sound
* `Verif.zeros_constraint`: propext, Classical.choice, Quot.sound
* `Verif.zeros_erase`: propext, Classical.choice, Quot.sound
* `Verif.zeros_implies_false`: propext, Classical.choice, Quot.sound
* `Verif.zeros_implies_partial`: propext, Classical.choice, Quot.sound
* `Verif.zeros_linear`: propext, Classical.choice, Quot.sound
* `Verif.zeros_program`: propext, Classical.choice, Quot.sound
* `Verif.zeros_queries`: propext, Classical.choice, Quot.sound
* `Verif.zeros_stack`: propext, Classical.choice, Quot.sound
* `Verif.zeros_text_alike_partial`: propext, Classical.choice, Quot.sound
* `Verif.zeros_text_false`: propext, Classical.choice, Quot.sound
* `Verif.zeros_text_partial`: propext, Classical.choice, Quot.sound
* `Verif.zeros_text_tail`: propext, Classical.choice, Quot.sound
* `Verif.zeros_unary`: propext, Classical.choice, Quot.sound
