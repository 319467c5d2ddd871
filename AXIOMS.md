# Axioms of the property theorems

Generated by `tools/axioms.py` (`#print axioms`).

## propext

- Unc.C25_zero
- Unc.C57_type_error_partial
- Unc.C57_fails_message
- Unc.C60_fails_uarray_twice
- Unc.C60_std_dev_complete_partial
- Unc.C60_fails_std_dev_followed
- Unc.C60_package_set_std_dev
- Unc.C60_package_results
- Unc.C60_package_assign
- Unc.C60_fails_set_std_dev_expression
- Unc.C60_fails_set_std_dev_keyword
- Unc.C94_fails_overflow
- Unc.C103_fails_empty
- Unc.C103_fails_type

## propext, Classical.choice, Quot.sound

- Unc.C01_whole_calculation
- Unc.C01_call
- Unc.C01_binop
- Unc.C01_unop
- Unc.C01_stable
- Unc.C01_copies
- Unc.C02_derivatives
- Unc.C02_plain
- Unc.C02_operators
- Unc.C02_unary
- Unc.C02_math
- Unc.C02_math_two
- Unc.C03_refinement
- Unc.C03_reads
- Unc.C03_reads_and_copies
- Unc.C04_reading_terminates
- Unc.C04_derivatives_succeed
- Unc.C04_copying_terminates
- Unc.C05_quantities
- Unc.C05_std_dev_formula
- Unc.C05_quantities_floats
- Unc.C05_std_dev_floats
- Unc.C06_error_components
- Unc.C06_sum_of_squares
- Unc.C06_error_components_floats
- Unc.C07_exact_variables
- Unc.C07_undefined_derivative
- Unc.C07_exact_doubles
- Unc.C07_undefined_doubles
- Unc.C08_floats
- Unc.C08_floats_covariances
- Unc.C08_update_locality
- Unc.C09_variables_partial
- Unc.C09_doubles_partial
- Unc.C09_ufloat_rejects_partial
- Unc.C09_update_rejects_partial
- Unc.C09_std_dev_non_negative
- Unc.C09_negation_minus_infinity
- Unc.C10_correlations
- Unc.C11_covariance_matrix
- Unc.C11_positive_semidefinite
- Unc.C11_diagonal
- Unc.C11_independent
- Unc.C12_diagonal_agrees_partial
- Unc.C12_negation
- Unc.C13_correlated_values
- Unc.C13_fails_few_tags
- Unc.C14_correlated_values_norm
- Unc.C14_correlation_matrix
- Unc.C14_new_variables
- Unc.C15_equality
- Unc.C15_equality_number
- Unc.C15_equality_difference
- Unc.C15_reflexive
- Unc.C15_symmetric
- Unc.C15_transitive
- Unc.C15_different_variables
- Unc.C15_infinite_std_dev_not_reflexive
- Unc.C15_other_types
- Unc.C16_order
- Unc.C16_partial_order
- Unc.C16_not_total
- Unc.C17_truth_value
- Unc.C18_transparent
- Unc.C19_call
- Unc.C19_derivative_functions
- Unc.C20_keyword_or_position
- Unc.C21_step
- Unc.C21_exact
- Unc.C21_exact_kw
- Unc.C21_bound
- Unc.C21_bound_kw
- Unc.C22_serve
- Unc.C22_once
- Unc.C23_unop
- Unc.C23_binop_partial
- Unc.C23_mod_partial
- Unc.C23_mod_fails
- Unc.C24_right
- Unc.C24_left
- Unc.C25_pow
- Unc.C25_std_base
- Unc.C25_std_exponent
- Unc.C26_exact_partial
- Unc.C26_division_fails
- Unc.C26_doubles_partial
- Unc.C26_fails_small
- Unc.C27_one_argument
- Unc.C27_two_arguments
- Unc.C27_log
- Unc.C27_log_base
- Unc.C27_differentiable
- Unc.C28_one_argument_partial
- Unc.C28_two_arguments_partial
- Unc.C28_log_partial
- Unc.C28_log_base_partial
- Unc.C28_fmod_partial
- Unc.C28_gamma_fails
- Unc.C28_floats_one_partial
- Unc.C28_floats_two_partial
- Unc.C28_floats_log
- Unc.C28_floats_log_base
- Unc.C28_fmod_doubles_partial
- Unc.C28_fails_fmod
- Unc.C29_locally_constant
- Unc.C30_fsum
- Unc.C30_fsum_plain
- Unc.C30_fsum_invalid
- Unc.C30_ldexp_partial
- Unc.C30_ldexp_plain
- Unc.C30_modf_partial
- Unc.C30_fails_constant
- Unc.C31_nominal_partial
- Unc.C31_fails
- Unc.C31_plain_partial
- Unc.C32_copy_variable
- Unc.C32_later_updates
- Unc.C33_deepcopy
- Unc.C34_pickle
- Unc.C35_first_digit
- Unc.C35_first_digit_log
- Unc.C36_significant_digits
- Unc.C37_pdg_rule
- Unc.C37_leading_digits
- Unc.C37_scale_invariance
- Unc.C37_pdg_displayed
- Unc.C38_same_decimals
- Unc.C39_round_trip
- Unc.C40_round_trip
- Unc.C41_half_unit
- Unc.C42_exponent_e
- Unc.C42_exponent_g
- Unc.C42_nominal_e
- Unc.C42_nominal_g
- Unc.C42_uncertainty_e
- Unc.C42_uncertainty_g
- Unc.C43_zero
- Unc.C43_nonzero
- Unc.C43_nonzero_special
- Unc.C44_fails_precision_ignored
- Unc.C44_fails_precision_error
- Unc.C44_fails_width
- Unc.C44_format_kept_partial
- Unc.C45_shorthand
- Unc.C45_out_of_range
- Unc.C45_spaces
- Unc.C45_digits
- Unc.C46_factored_exponent_partial
- Unc.C46_out_of_range
- Unc.C46_no_exponent
- Unc.C46_homogeneous_partial
- Unc.C46_fails_shorthand
- Unc.C46_exponent_ignored
- Unc.C47_exceptions_partial
- Unc.C47_accepted_forms_partial
- Unc.C47_int_literals
- Unc.C47_float_literals
- Unc.C47_fails_exceptions
- Unc.C47_fails_ignored
- Unc.C48_superscript_round_trip
- Unc.C48_ordinary_digits
- Unc.C48_only_superscripts
- Unc.C49_repr_round_trip
- Unc.C49_repr_decimals
- Unc.C49_repr_round_trip_decimals
- Unc.C50_concurrent_reads_partial
- Unc.C50_after_reading_partial
- Unc.C50_fails
- Unc.C51_interrupted_reads_partial
- Unc.C51_fails
- Unc.C52_nominal_values
- Unc.C52_std_devs
- Unc.C52_plain_element
- Unc.C52_uarray
- Unc.C52_std_devs_reads
- Unc.C52_nominal_values_reads
- Unc.C53_inv
- Unc.C53_product
- Unc.C53_matrix_product
- Unc.C53_plain
- Unc.C54_pinv
- Unc.C54_invertible
- Unc.C55_names_partial
- Unc.C55_names_only
- Unc.C55_fails_asinh
- Unc.C55_elementwise
- Unc.C55_elementwise_locally_constant_partial
- Unc.C56_std_score
- Unc.C58_scaling
- Unc.C58_shift
- Unc.C58_independent
- Unc.C58_triangle
- Unc.C59_modern
- Unc.C59_tuple
- Unc.C59_tuple_tag
- Unc.C59_tuple_numbers
- Unc.C59_string
- Unc.C59_fromstr
- Unc.C59_single_number
- Unc.C59_string_and_number
- Unc.C60_ufloat_partial
- Unc.C60_ufloat_twice_partial
- Unc.C60_std_dev_partial
- Unc.C60_std_devs
- Unc.C60_uarray_partial
- Unc.C60_fails_ufloat_number
- Unc.C60_fails_ufloat_twice
- Unc.C60_uarray_complete
- Unc.C60_ufloat_complete_partial
- Unc.C60_package_updates_partial
- Unc.C61_value
- Unc.C61_affine
- Unc.C62_specification_read
- Unc.C62_specification_accepted
- Unc.C62_specification_refused
- Unc.C63_decimals
- Unc.C63_mantissa_decimals
- Unc.C63_significant_digits
- Unc.C63_uncertainty_digits
- Unc.C63_zero_digits
- Unc.C63_default_digits
- Unc.C64_layout_pm_partial
- Unc.C64_layout_shorthand_partial
- Unc.C64_width_pm
- Unc.C64_width_shorthand
- Unc.C64_fails_equals
- Unc.C64_special_pm_partial
- Unc.C64_fails_precision_padding
- Unc.C64_special_shorthand_partial
- Unc.C65_total_partial
- Unc.C65_fails_shorthand
- Unc.C65_fails_tiny
- Unc.C65_invalid
- Unc.C65_fails_options
- Unc.C66_elements_partial
- Unc.C66_copies_uncorrelated
- Unc.C66_fails
- Unc.C67_hashable
- Unc.C67_constant
- Unc.C67_identity
- Unc.C67_equal_partial
- Unc.C67_fails
- Unc.C67_dictionary
- Unc.C68_pickle_partial
- Unc.C68_copy_partial
- Unc.C68_fails_private
- Unc.C68_fails_iterator
- Unc.C68_fails_weakref
- Unc.C68_fails_hidden
- Unc.C68_fails_copy
- Unc.C69_after_reading_partial
- Unc.C69_fails
- Unc.C70_correlation_matrix
- Unc.C70_properties
- Unc.C70_perfect
- Unc.C70_empty
- Unc.C71_derivatives
- Unc.C71_derivatives_relative
- Unc.C71_error_components
- Unc.C71_std_dev
- Unc.C71_copies
- Unc.C71_copies_none
- Unc.C71_reads
- Unc.C71_fails_reads_exactly
- Unc.C72_bound
- Unc.C72_single_use_partial
- Unc.C72_read_again
- Unc.C72_fails_shared
- Unc.C72_read_intermediate
- Unc.C73_calls_partial
- Unc.C73_finishes
- Unc.C73_already_used
- Unc.C73_named
- Unc.C73_operators
- Unc.C73_fails
- Unc.C73_fails_exchanged
- Unc.C74_interrupted_partial
- Unc.C74_one_call_partial
- Unc.C74_operators
- Unc.C74_fails
- Unc.C75_nominal_g
- Unc.C75_nominal_repr
- Unc.C75_uncertainty_g
- Unc.C75_uncertainty_repr
- Unc.C75_uncertainty_shorthand
- Unc.C76_doubles_sound
- Unc.C76_exact_model
- Unc.C76_faithful
- Unc.C76_decimals
- Unc.C76_mantissa_decimals
- Unc.C76_uncertainty_digits_partial
- Unc.C76_default_digits_partial
- Unc.C76_exponent_partial
- Unc.C76_digits_fail
- Unc.C76_mantissa_below_one
- Unc.C76_mantissa_ten
- Unc.C76_exponent_fails
- Unc.C76_layout_pm
- Unc.C76_layout_shorthand
- Unc.C76_special_pm
- Unc.C76_special_shorthand
- Unc.C76_zero
- Unc.C76_nominal_f
- Unc.C76_nominal_e
- Unc.C76_nominal_g
- Unc.C76_uncertainty_fixed
- Unc.C76_uncertainty_shorthand
- Unc.C76_uncertainty_g
- Unc.C77_plus_minus
- Unc.C77_grouped
- Unc.C77_shorthand
- Unc.C77_plus_minus_nearest
- Unc.C77_shorthand_nearest
- Unc.C77_exponent_not_nearest
- Unc.C78_round_trip
- Unc.C78_nominal_value
- Unc.C79_print_again_partial
- Unc.C79_print_parse_print_partial
- Unc.C79_zero_uncertainty
- Unc.C79_fixed_point_not_stable
- Unc.C80_symmetric
- Unc.C80_covariance
- Unc.C80_copies
- Unc.C80_any_order
- Unc.C80_diagonal
- Unc.C80_fails_positive
- Unc.C81_format
- Unc.C81_repr
- Unc.C81_repr_tag
- Unc.C81_tag_unreadable
- Unc.C81_fromstr
- Unc.C81_fromstr_error
- Unc.C81_silent
- Unc.C81_silent_copies
- Unc.C81_reread
- Unc.C82_shape
- Unc.C82_correlation
- Unc.C82_diagonal
- Unc.C82_symmetric
- Unc.C82_fails_exact
- Unc.C83_step
- Unc.C83_bound
- Unc.C83_bound_kw
- Unc.C83_wrapped
- Unc.C84_covariance
- Unc.C84_variance
- Unc.C84_nominal
- Unc.C84_derivatives
- Unc.C84_error_components
- Unc.C84_std_dev
- Unc.C84_fails_unsafe
- Unc.C84_sqrt
- Unc.C84_numerical
- Unc.C84_power_nat
- Unc.C84_power_const
- Unc.C84_power
- Unc.C84_sin
- Unc.C84_cos
- Unc.C84_exp
- Unc.C84_log
- Unc.C84_tan
- Unc.C84_expm1
- Unc.C84_sinh
- Unc.C84_cosh
- Unc.C84_tanh
- Unc.C84_radians
- Unc.C84_degrees
- Unc.C84_atan
- Unc.C84_asinh
- Unc.C84_atanh
- Unc.C84_asin
- Unc.C84_acos
- Unc.C84_acosh
- Unc.C84_log1p
- Unc.C84_log10
- Unc.C84_fabs
- Unc.C84_erf
- Unc.C84_erfc
- Unc.C84_hypot
- Unc.C84_copysign
- Unc.C84_atan2
- Unc.C85_independent
- Unc.C85_same
- Unc.C86_scalar
- Unc.C86_array
- Unc.C87_float_equality
- Unc.C87_float_not_equal
- Unc.C87_float_order
- Unc.C87_bool_difference
- Unc.C87_fails_float_underflow
- Unc.C87_fails_float_overflow
- Unc.C87_equality
- Unc.C87_not_equal
- Unc.C87_order
- Unc.C87_bool
- Unc.C87_equal_known_partial
- Unc.C87_fails_reflexive
- Unc.C87_fails_reads
- Unc.C87_fails_symmetric
- Unc.C87_fails_underflow
- Unc.C87_fails_overflow
- Unc.C88_final
- Unc.C88_variables
- Unc.C88_call
- Unc.C88_binop
- Unc.C88_sum_product
- Unc.C89_returns
- Unc.C89_components
- Unc.C89_held
- Unc.C89_unchanged
- Unc.C89_snapshot_partial
- Unc.C89_fails
- Unc.C89_fails_infinite
- Unc.C90_returns
- Unc.C90_symmetric
- Unc.C90_unchanged
- Unc.C90_element_partial
- Unc.C90_fails
- Unc.C91_bound
- Unc.C91_correlated_values_norm
- Unc.C91_normalized
- Unc.C91_correlated_values
- Unc.C92_returns
- Unc.C92_shape
- Unc.C92_unchanged
- Unc.C92_correlation
- Unc.C92_diagonal
- Unc.C92_symmetric
- Unc.C92_element_partial
- Unc.C92_fails
- Unc.C93_comparison
- Unc.C93_any_algorithm
- Unc.C93_unchanged
- Unc.C93_min
- Unc.C93_max
- Unc.C93_sorted
- Unc.C94_nominal
- Unc.C94_nominal_floats
- Unc.C94_derivatives
- Unc.C94_std_dev
- Unc.C94_covariance
- Unc.C94_reading
- Unc.C94_fails
- Unc.C95_correlated_linear
- Unc.C95_correlated_values
- Unc.C95_correlated
- Unc.C95_functions
- Unc.C95_umath
- Unc.C95_umath2
- Unc.C95_nominal
- Unc.C95_covariance
- Unc.C95_std_dev
- Unc.C95_first_order_nominal
- Unc.C95_first_order_covariance
- Unc.C95_first_order_std_dev
- Unc.C95_operators
- Unc.C95_exact
- Unc.C95_not_affine
- Unc.C96_result
- Unc.C96_calls
- Unc.C96_noted
- Unc.C96_arguments
- Unc.C96_pure
- Unc.C97_increases
- Unc.C97_increase
- Unc.C97_overflow
- Unc.C97_minus_infinity
- Unc.C98_shift
- Unc.C98_reflected
- Unc.C98_signs
- Unc.C98_abs
- Unc.C98_shifts
- Unc.C98_variable
- Unc.C98_std_dev
- Unc.C98_underflow
- Unc.C99_wrap
- Unc.C99_result
- Unc.C99_requests
- Unc.C100_same
- Unc.C100_correlated_values
- Unc.C100_propagation
- Unc.C101_functions_partial
- Unc.C101_positions_partial
- Unc.C101_numerical_partial
- Unc.C101_methods_shifted
- Unc.C101_fails_methods
- Unc.C102_result
- Unc.C102_history
- Unc.C102_no_nested_call
- Unc.C103_shape_error
- Unc.C103_shape
- Unc.C103_uarray
- Unc.C103_uarray_error
- Unc.C103_uarray_negative
- Unc.C103_nominal_values
- Unc.C103_std_devs
- Unc.C103_round_trip
- Unc.C103_functions
- Unc.C103_call
- Unc.C103_exception
- Unc.C103_locally_constant_partial
- Unc.C103_locally_constant_exception

## propext, Quot.sound

- Unc.C54_umatrix_I
- Unc.C57_message_partial
- Unc.C60_std_dev_twice
- Unc.C60_package_std_dev
- Unc.C60_package_std_devs
- Unc.C60_std_dev_valid_partial
- Unc.C60_std_devs_valid
- Unc.C60_set_std_dev_keyword
- Unc.C96_number
- Unc.C99_noted
- Unc.C99_generator_exception
- Unc.C101_fails_unnamed
- Unc.C103_shape_unique
