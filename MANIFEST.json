{
 "claims": [
  {
   "property": "C01",
   "status": "proved",
   "theorems": [
    "BF.Orders.C01_reverse",
    "BF.Orders.C01_move",
    "BF.Orders.C01_switch",
    "BF.Orders.C01_shuffle",
    "BF.Orders.C01_loop",
    "BF.Orders.C01_near",
    "BF.Orders.C01_history"
   ],
   "note": ""
  },
  {
   "property": "C02",
   "status": "proved",
   "theorems": [
    "BF.Salesman.C02_legs",
    "BF.Salesman.C02_oneway",
    "BF.Salesman.C02_logL",
    "BF.Salesman.C02_rotation",
    "BF.Salesman.C02_reversal",
    "BF.Salesman.C02_nonneg",
    "BF.Salesman.C02_manhattan_euclid",
    "BF.Salesman.C02_spherical",
    "BF.Salesman.C02_minimumDistance"
   ],
   "note": ""
  },
  {
   "property": "C03",
   "status": "proved",
   "theorems": [
    "BF.C03_insert_ordered",
    "BF.C03_firstIndex_counts",
    "BF.C03_crop_is_filter",
    "BF.C03_history",
    "BF.C03_low",
    "BF.C03_copy",
    "BF.C03_add",
    "BF.C03_ids"
   ],
   "note": ""
  },
  {
   "property": "C04",
   "status": "proved",
   "theorems": [
    "BF.Nested.C04_evidence_is_sum",
    "BF.Nested.C04_final_evidence_is_sum",
    "BF.Nested.C04_weights_closed_form"
   ],
   "note": ""
  },
  {
   "property": "C05",
   "status": "proved",
   "theorems": [
    "BF.Nested.C05_evidence_bounds"
   ],
   "note": ""
  },
  {
   "property": "C06",
   "status": "proved",
   "theorems": [
    "BF.Nested.C06_normalized",
    "BF.Nested.C06_normalize_defined",
    "BF.Nested.C06_average_between",
    "BF.Nested.C06_median"
   ],
   "note": ""
  },
  {
   "property": "C07",
   "status": "proved",
   "theorems": [
    "BF.Nested.C07_floor_rises",
    "BF.Nested.C07_others_untouched",
    "BF.Nested.C07_sample_count"
   ],
   "note": "Engines enter through the contract that they change only the asked walker."
  },
  {
   "property": "C08",
   "status": "proved",
   "theorems": [
    "BF.Nested.C08_no_iteration_after_stop",
    "BF.Nested.C08_iteration_limit",
    "BF.Nested.C08_stops"
   ],
   "note": "Without iteration limit, stops when the likelihood is bounded."
  },
  {
   "property": "C09",
   "status": "partial",
   "theorems": [
    "BF.Engines.C09_start",
    "BF.Engines.C09_random",
    "BF.Engines.C09_gibbs",
    "BF.Engines.C09_step",
    "BF.Engines.C09_chord",
    "BF.Engines.C09_galilean",
    "BF.Engines.C09_birth",
    "BF.Engines.C09_birth_none",
    "BF.Engines.C09_death",
    "BF.Engines.C09_structure_ends",
    "BF.Engines.C09_structure"
   ],
   "note": "Every engine, all draws, all likelihood functions; start engine for static models only (for dynamic ones see C97); grow/shrink/vary are arbitrary functions here (their laws: C23, C24); with the default noBoost. Each stored walker has the likelihood of its parameters, is not below the level, and moves fitted parameters only; the returned number counts the stored walkers."
  },
  {
   "property": "C10",
   "status": "proved",
   "theorems": [
    "BF.Engines.C10_mirror_component",
    "BF.Engines.C10_mirror_orthogonal",
    "BF.Engines.C10_mirror_speed",
    "BF.Engines.C10_mirror_involutive",
    "BF.Engines.C10_box",
    "BF.Engines.C10_free",
    "BF.Engines.C10_velocity",
    "BF.Engines.C10_bounce",
    "BF.Engines.C10_reverse"
   ],
   "note": "Vectors of any length; trial steps of at most one in each direction."
  },
  {
   "property": "C11",
   "status": "proved",
   "theorems": [
    "BF.Engines.C11_level",
    "BF.Engines.C11_first"
   ],
   "note": ""
  },
  {
   "property": "C12",
   "status": "partial",
   "theorems": [
    "BF.Engines.C12_box_partial",
    "BF.Engines.C12_shrink",
    "BF.Engines.C12_counterexample"
   ],
   "note": "Walkers strictly inside the unit box, not precisely on an edge of the widened bounding box; random numbers strictly between 0 and 1. For a walker on the edge of the unit box it is false (C12_counterexample)."
  },
  {
   "property": "C13",
   "status": "proved",
   "theorems": [
    "BF.Priors.C13_inverse"
   ],
   "note": "For every prior object made by a constructor and any sequence of setLimits calls that do not raise; real arithmetic; erf/erfinv are the mathematical functions."
  },
  {
   "property": "C14",
   "status": "partial",
   "theorems": [
    "BF.Priors.C14_has_limits",
    "BF.Priors.C14_has_low_high",
    "BF.Priors.C14_check",
    "BF.Priors.C14_limits_partial",
    "BF.Priors.C14_closed",
    "BF.Priors.C14_last",
    "BF.Priors.C14_raises",
    "BF.Priors.C14_stay",
    "BF.Priors.C14_counterexample_scale",
    "BF.Priors.C14_counterexample_raise",
    "BF.Priors.C14_counterexample_unset",
    "BF.Priors.C14_counterexample_zero"
   ],
   "note": "In the interior of the unit range for all limits, on the closed range for two finite limits (C14_closed). False after an assignment to scale, after a setLimits that raises, after unsetLimits, and at unit value 0 with an infinite limit (counterexamples)."
  },
  {
   "property": "C15",
   "status": "partial",
   "theorems": [
    "BF.Priors.C15_counterexample_setLimits",
    "BF.Priors.C15_counterexample_circular",
    "BF.Priors.C15_density_partial",
    "BF.Priors.C15_log",
    "BF.Priors.C15_partialLog"
   ],
   "note": "For priors as constructed; setting limits later leaves the density stale (C15_counterexample_setLimits); circular priors differ by a factor 3 (C15_counterexample_circular)."
  },
  {
   "property": "C16",
   "status": "partial",
   "theorems": [
    "BF.Priors.C16_seam_partial",
    "BF.Priors.C16_counterexample_seam",
    "BF.Priors.C16_base_period",
    "BF.Priors.C16_fold_partial",
    "BF.Priors.C16_counterexample",
    "BF.Priors.C16_counterexample_setLimits"
   ],
   "note": "Folding by whole periods for the uniform circular prior; base period and round trip for all; other priors do not fold (C16_counterexample), and setLimits spoils a circular prior (C16_counterexample_setLimits). Made with a period, or with limits and no center, the density is the same at both ends (C16_seam_partial); with another center it jumps there (C16_counterexample_seam)."
  },
  {
   "property": "C17",
   "status": "proved",
   "theorems": [
    "BF.Compound.C17_result",
    "BF.Compound.C17_inplace"
   ],
   "note": ""
  },
  {
   "property": "C18",
   "status": "partial",
   "theorems": [
    "BF.Compound.C18_partial_derivatives_partial",
    "BF.Compound.C18_counterexample",
    "BF.Compound.C18_counterexample_fixed"
   ],
   "note": "Single-valued models of one dimensional x. True for copied compounds and for those whose last operation is not a pipe into a compound, when no piped model with fixed parameters is followed by another (counterexamples proved)."
  },
  {
   "property": "C19",
   "status": "partial",
   "theorems": [
    "BF.Compound.C19_derivative_partial"
   ],
   "note": "Single-valued models of one dimensional x. True for copied compounds and for those whose last operation is not a pipe into a compound (C18_counterexample shows the failure)."
  },
  {
   "property": "C20",
   "status": "proved",
   "theorems": [
    "BF.Routing.C20_prior",
    "BF.Routing.C20_name",
    "BF.Routing.C20_cover",
    "BF.Routing.C20_beyond",
    "BF.Routing.C20_set",
    "BF.Routing.C20_get_after_set",
    "BF.Routing.C20_set_elsewhere",
    "BF.Routing.C20_counterexample_repeat"
   ],
   "note": "priors are looked up, names too, and set, in chains with brackets of any depth. When less priors than parameters are set the last one is used for the others (counterexample_repeat shows the consequence)."
  },
  {
   "property": "C21",
   "status": "proved",
   "theorems": [
    "BF.Heap.C21_values",
    "BF.Heap.C21_operands",
    "BF.Heap.C21_others",
    "BF.Heap.C21_unchanged",
    "BF.Heap.C21_copy_unchanged",
    "BF.Heap.C21_counterexample_self",
    "BF.Heap.C21_counterexample_bracket"
   ],
   "note": "models in memory behave as values, for every program of new, copy, operators, in-place operators and parameter assignment on models built from base models; counterexamples: m += m never ends, a chain that starts with an explicit BracketModel loses parameters when it is copied"
  },
  {
   "property": "C22",
   "status": "proved",
   "theorems": [
    "BF.Copies.C22_counterexample_kernel2d",
    "BF.Fixed.C22_result",
    "BF.Fixed.C22_derivative",
    "BF.Fixed.C22_partials",
    "BF.Fixed.C22_partials_true",
    "BF.Fixed.C22_negative_keys",
    "BF.Fixed.C22_last_key"
   ],
   "note": "The derivative to x only without fixed models; with fixed models the code differentiates numerically. Counterexample: a Kernel2dModel with a model as fixed value has npbase too small."
  },
  {
   "property": "C23",
   "status": "proved",
   "theorems": [
    "BF.Dynamic.C23_grow",
    "BF.Dynamic.C23_shrink",
    "BF.Dynamic.C23_grow_shrink",
    "BF.Dynamic.C23_history"
   ],
   "note": ""
  },
  {
   "property": "C24",
   "status": "partial",
   "theorems": [
    "BF.Dynamic.C24_birth",
    "BF.Dynamic.C24_death_partial",
    "BF.Dynamic.C24_counterexample",
    "BF.Dynamic.C24_counterexample_raises"
   ],
   "note": "Births in full; deaths when all removed parameters were being fitted, otherwise counterexamples."
  },
  {
   "property": "C25",
   "status": "proved",
   "theorems": [
    "BF.Dynamic.C25_result",
    "BF.Dynamic.C25_par2model",
    "BF.Dynamic.C25_shuffle",
    "BF.Dynamic.C25_shuffle_result",
    "BF.Dynamic.C25_basePartial",
    "BF.Dynamic.C25_partial_true"
   ],
   "note": ""
  },
  {
   "property": "C26",
   "status": "partial",
   "theorems": [
    "BF.Combi.C26_result",
    "BF.Combi.C26_copies",
    "BF.Combi.C26_basePartial_partial",
    "BF.Combi.C26_partial_true_partial",
    "BF.Combi.C26_counterexample"
   ],
   "note": "Result in full; partials when no parameter is tied both by offset and by factor, otherwise C26_counterexample."
  },
  {
   "property": "C27",
   "status": "partial",
   "theorems": [
    "BF.ErrDis.C27_gauss",
    "BF.ErrDis.C27_laplace",
    "BF.ErrDis.C27_cauchy",
    "BF.ErrDis.C27_exponential",
    "BF.ErrDis.C27_poisson",
    "BF.ErrDis.C27_bernoulli",
    "BF.ErrDis.C27_uniform",
    "BF.ErrDis.C27_mixed",
    "BF.ErrDis.C27_mixed_gauss_laplace",
    "BF.ErrDis.C27_counterexample_accuracy",
    "BF.ErrDis.C27_mixed_general",
    "BF.ErrDis.C27_mixed_numeric",
    "BF.ErrDis.C27_counterexample_mixed_none",
    "BF.ErrDis.C27_counterexample_mixed_second"
   ],
   "note": "Gauss, Laplace, Cauchy, Exponential, Poisson, Bernoulli (one output), Uniform, and mixtures of two distributions with any number of hyperparameters: right when the second distribution has one (C27_mixed_general), or when only its last one and the fraction are fitted; the numeric gradient is used when anything before the third from the end is fitted (C27_mixed_numeric); wrong when the second has two or more and the third from the end is fitted (C27_counterexample_mixed_second); a second distribution without hyperparameters raises (C27_counterexample_mixed_none). For Laplace, Cauchy, Uniform and Exponential the derivative to the scale is right only when the data have no accuracies (C27_counterexample_accuracy)."
  },
  {
   "property": "C28",
   "status": "partial",
   "theorems": [
    "BF.ErrDis.C28_additive",
    "BF.ErrDis.C28_order",
    "BF.ErrDis.C28_alt_gauss",
    "BF.ErrDis.C28_alt_laplace",
    "BF.ErrDis.C28_alt_cauchy",
    "BF.ErrDis.C28_alt_poisson",
    "BF.ErrDis.C28_alt_exponential",
    "BF.ErrDis.C28_alt_uniform_partial",
    "BF.ErrDis.C28_counterexample_uniform",
    "BF.ErrDis.C28_alt_laplace_gradient",
    "BF.ErrDis.C28_counterexample_laplace",
    "BF.ErrDis.C28_counterexample_bernoulli"
   ],
   "note": "Additivity and order independence in full. The alternative formulas agree, except that of the uniform distribution for cyclic data (C28_counterexample_uniform); of the alternatives for the gradient those of Laplace (scale) and Bernoulli are wrong (counterexamples)."
  },
  {
   "property": "C29",
   "status": "proved",
   "theorems": [
    "BF.ErrDis.C29_gauss",
    "BF.ErrDis.C29_exponential",
    "BF.ErrDis.C29_laplace",
    "BF.ErrDis.C29_cauchy",
    "BF.ErrDis.C29_uniform",
    "BF.ErrDis.C29_poisson",
    "BF.ErrDis.C29_bernoulli",
    "BF.ErrDis.C29_classes",
    "BF.ErrDis.C29_mixed"
   ],
   "note": "Unweighted, not cyclic data. Poisson with the exact log factorial."
  },
  {
   "property": "C30",
   "status": "proved",
   "theorems": [
    "BF.Fitters.C30_kept",
    "BF.Fitters.C30_all",
    "BF.Fitters.C30_normalize",
    "BF.Fitters.C30_constructor",
    "BF.Fitters.C30_unique",
    "BF.Fitters.C30_counterexample_normalize"
   ],
   "note": "numpy.linalg.solve is a parameter of which only is asked that what it returns is a solution. Together with normalize it holds when no parameters are kept; with both it does not (C30_counterexample_normalize)."
  },
  {
   "property": "C31",
   "status": "partial",
   "theorems": [
    "BF.Fitters.C31_kept_partial",
    "BF.Fitters.C31_all_partial",
    "BF.Fitters.C31_unit_partial",
    "BF.Fitters.C31_counterexample",
    "BF.Fitters.C31_counterexample_stale"
   ],
   "note": "The QR fitter minimises the squares of weight times residual; that is chi squared only for weights 0 or 1, and only when the decomposition is made in the same call (C31_counterexample, C31_counterexample_stale)."
  },
  {
   "property": "C32",
   "status": "proved",
   "theorems": [
    "BF.LM.C32_descends",
    "BF.LM.C32_best",
    "BF.LM.C32_limits",
    "BF.LM.C32_limits_all",
    "BF.LM.C32_kept",
    "BF.LM.C32_stops",
    "BF.LM.C32_converged",
    "BF.LM.C32_counterexample_first",
    "BF.LM.C32_counterexample_keep"
   ],
   "note": "Chi squared is raised by one before the first step, so that one may be worse than the start (C32_counterexample_first). Kept parameters are kept when no starting parameters are given (C32_counterexample_keep)."
  },
  {
   "property": "C33",
   "status": "partial",
   "theorems": [
    "BF.Fitters.C33_index",
    "BF.Fitters.C33_constructor",
    "BF.Fitters.C33_insert",
    "BF.Fitters.C33_counterexample_number",
    "BF.Fitters.C33_counterexample",
    "BF.Fitters.C33_counterexample_negative"
   ],
   "note": "Index, stored values and insertion in full; the number of fitted parameters is right only for parameters kept in the constructor (C33_counterexample), and negative keys are fitted nevertheless (C33_counterexample_negative)."
  },
  {
   "property": "C34",
   "status": "partial",
   "theorems": [
    "BF.Poly.C34_harmonic_result",
    "BF.Poly.C34_harmonic_derivative",
    "BF.Poly.C34_poly_sine_result",
    "BF.Poly.C34_poly_sine_derivative",
    "BF.Poly.C34_pade_result",
    "BF.Poly.C34_pade_derivative",
    "BF.Poly.C34_pade_columns",
    "BF.Shapes.C34_sine_spline",
    "BF.Shapes.C34_counterexample_sine_spline",
    "BF.Shapes.C34_sine_spline_drift",
    "BF.Shapes.C34_counterexample_sine_spline_drift",
    "BF.Simple.C34_arctan",
    "BF.Simple.C34_exp",
    "BF.Simple.C34_gauss",
    "BF.Simple.C34_lorentz_partial",
    "BF.Simple.C34_counterexample_lorentz",
    "BF.Simple.C34_logistic",
    "BF.Simple.C34_power",
    "BF.Simple.C34_powerLaw",
    "BF.Simple.C34_sine",
    "BF.Simple.C34_sine_phase",
    "BF.Simple.C34_sine_amp",
    "BF.Simple.C34_etalon",
    "BF.Simple.C34_sine_drift",
    "BF.Simple.C34_kernel",
    "BF.Simple.C34_sinc",
    "BF.Simple.C34_pseudo_voigt_partial",
    "BF.Simple.C34_voigt",
    "BF.Simple.C34_etalon_drift_partial",
    "BF.Simple.C34_counterexample_etalon_drift",
    "BF.Simple.C34_constant",
    "BF.Simple.C34_columns",
    "BF.Simple.C34_columns_pseudo_voigt_partial",
    "BF.Simple.C34_counterexample_pseudo_voigt"
   ],
   "note": "proved for arctan, exponential, Gauss, logistic, power, power law, sine, sine-phase, sine-amp, etalon, sine-drift, kernel, sinc, Voigt, constant, harmonic, poly-sine and Pade models. Lorentz and pseudo-Voigt only for positive widths (with a counterexample for negative ones); a pseudo-Voigt with a fixed parameter other than the balance fails (counterexample); EtalonDrift's x derivative always raises (counterexample). The derivative to x of the spline-sine models always raises (counterexamples); their partials are proved. User models are not covered; orbits are in C87-C89."
  },
  {
   "property": "C35",
   "status": "proved",
   "theorems": [
    "BF.Poly.C35_linear",
    "BF.Poly.C35_poly",
    "BF.Poly.C35_poly_derivative",
    "BF.Poly.C35_chebyshev",
    "BF.Poly.C35_chebyshev_derivative",
    "BF.Poly.C35_surface",
    "BF.Poly.C35_surface_derivative"
   ],
   "note": "over the reals, for every degree"
  },
  {
   "property": "C36",
   "status": "partial",
   "theorems": [
    "BF.Splines.C36_columns",
    "BF.Splines.C36_smooth",
    "BF.Splines.C36_piece",
    "BF.Splines.C36_derivative_partial",
    "BF.Splines.C36_counterexample"
   ],
   "note": "columns, smoothness and pieces for every order; the x derivative for cubic splines and for two knots; for other orders it is wrong beyond the first inner knot (counterexample). The knots are taken in order."
  },
  {
   "property": "C37",
   "status": "proved",
   "theorems": [
    "BF.Kernels.C37_shape",
    "BF.Kernels.C37_sinc",
    "BF.Kernels.C37_range",
    "BF.Kernels.C37_derivative",
    "BF.Kernels.C37_integral",
    "BF.Kernels.C37_integral_huber",
    "BF.Kernels.C37_integral_sinc"
   ],
   "note": "All 19 kernels: shape, range, derivative (with proof that there is none at the listed edges), integral (the sinc as a limit; the Huber kernel is not integrable, as advertised)."
  },
  {
   "property": "C38",
   "status": "partial",
   "theorems": [
    "BF.Images.C38_once",
    "BF.Images.C38_once_fortran",
    "BF.Images.C38_flat",
    "BF.Images.C38_back",
    "BF.Images.C38_roundtrip",
    "BF.Images.C38_counterexample_fortran",
    "BF.Images.C38_fortran_square_partial"
   ],
   "note": "Order C in full for any number of axes; order F only for square images (C38_counterexample_fortran): the indices follow memory order while getydata reads in Fortran order."
  },
  {
   "property": "C39",
   "status": "proved",
   "theorems": [
    "BF.C39_call",
    "BF.C39_history",
    "BF.C39_restart",
    "BF.C39_continue"
   ],
   "note": ""
  },
  {
   "property": "C40",
   "status": "proved",
   "theorems": [
    "BF.Cyclic.C40_equivalent",
    "BF.Cyclic.C40_half",
    "BF.Cyclic.C40_nearest",
    "BF.Cyclic.C40_idempotent",
    "BF.Cyclic.C40_counterexample_far",
    "BF.Cyclic.C40_residuals",
    "BF.Cyclic.C40_columns",
    "BF.Cyclic.C40_plain"
   ],
   "note": ""
  },
  {
   "property": "C41",
   "status": "partial",
   "theorems": [
    "BF.Phantoms.C41_box_partial",
    "BF.Phantoms.C41_counterexample",
    "BF.Phantoms.C41_counterexample_first",
    "BF.Phantoms.C41_dynamic_box_partial"
   ],
   "note": "True when each level asked is above the ones before; at an equal or lower level a stale cached box is returned (C41_counterexample) and the level -inf is not answered (C41_counterexample_first)."
  },
  {
   "property": "C42",
   "status": "partial",
   "theorems": [
    "BF.Fitlist.C42_fitlist",
    "BF.Fitlist.C42_fixed_values",
    "BF.Fitlist.C42_keep_partial",
    "BF.Fitlist.C42_counterexample"
   ],
   "note": "Full without kept parameters; with kept ones only when no hyperparameter is fixed, otherwise an IndexError (C42_counterexample)."
  },
  {
   "property": "C43",
   "status": "proved",
   "theorems": [
    "BF.Robust.C43_stops",
    "BF.Robust.C43_weights",
    "BF.Robust.C43_down",
    "BF.Robust.C43_order",
    "BF.Robust.C43_half",
    "BF.Robust.C43_sides",
    "BF.Robust.C43_counterexample"
   ],
   "note": "The inner fitter is arbitrary. maxIter = 0 raises an error, proved as a counterexample."
  },
  {
   "property": "C44",
   "status": "partial",
   "theorems": [
    "BF.LogFactorial.C44_table",
    "BF.LogFactorial.C44_stirling",
    "BF.LogFactorial.C44_all",
    "BF.LogFactorial.C44_array_partial",
    "BF.LogFactorial.C44_counterexample_single",
    "BF.LogFactorial.C44_counterexample_negative"
   ],
   "note": "Proved for all natural numbers and for arrays of any length but one. An array of length one raises an error and a negative number wraps around in the table: both are proved as counterexamples."
  },
  {
   "property": "C45",
   "status": "partial",
   "theorems": [
    "BF.Compound.C45_model_copy",
    "BF.Priors.C45_prior_partial",
    "BF.Priors.C45_exponential_partial",
    "BF.Priors.C45_circular_partial",
    "BF.Priors.C45_counterexample_prior"
   ],
   "note": "Models: the copy of a compound gives the same results. Priors: as they come from the constructor (also circular with limits, and exponential); after setLimits the copy has another density (C45_counterexample_prior). Independence is by value semantics: copy passes numbers only."
  },
  {
   "property": "C46",
   "status": "proved",
   "theorems": [
    "BF.Product.C46_npars",
    "BF.Product.C46_result",
    "BF.Product.C46_partial"
   ],
   "note": ""
  },
  {
   "property": "C47",
   "status": "partial",
   "theorems": [
    "BF.Orders.C47_only_kw_changes_partial",
    "BF.Orders.C47_counterexample"
   ],
   "note": "Holds only while walker ids equal list positions; the engines pass walker.id where an index is expected (C47_counterexample)."
  },
  {
   "property": "C48",
   "status": "partial",
   "theorems": [
    "BF.Orders.C48_crosses_partial",
    "BF.Orders.C48_counterexample_missed",
    "BF.Orders.C48_counterexample_false_alarm"
   ],
   "note": "The crossing test has a sign error; right only when both stretches start at the same y (counterexamples proved both ways)."
  },
  {
   "property": "C49",
   "status": "partial",
   "theorems": [
    "BF.Nested.C49_tiles_partial",
    "BF.Nested.C49_counterexample",
    "BF.Nested.C49_any",
    "BF.Nested.C49_only_one"
   ],
   "note": "Exact for discard=1. C49_any says what happens with any other number, C49_only_one that the volumes then never add up to one (C49_counterexample: discard=2)."
  },
  {
   "property": "C50",
   "status": "partial",
   "theorems": [
    "BF.Nested.C50_information_partial",
    "BF.Nested.C50_counterexample",
    "BF.Nested.C50_at_least",
    "BF.Nested.C50_final_at_most"
   ],
   "note": "Exact for discard=1 during the iterations; not too low during the iterations for any discard (C50_at_least). The final update uses a stale floor and reports too low a value (C50_final_at_most, C50_counterexample)."
  },
  {
   "property": "C51",
   "status": "partial",
   "theorems": [
    "BF.Nested.C51_counterexample",
    "BF.Nested.C51_first_call_partial"
   ],
   "note": "True for the first call only; later calls keep the earlier samples (C51_counterexample)."
  },
  {
   "property": "C52",
   "status": "partial",
   "theorems": [
    "BF.Nested.C52_samples_ascend_partial",
    "BF.Nested.C52_counterexample"
   ],
   "note": "True for the samples of the iterations; the remaining walkers are stored unsorted (C52_counterexample)."
  },
  {
   "property": "C53",
   "status": "partial",
   "theorems": [
    "BF.Nested.C53_weed",
    "BF.Nested.C53_lowest_partial",
    "BF.Nested.C53_counterexample"
   ],
   "note": "Size and contiguity for all lists. That the lowest weights go is proved when the weights rise and fall once (C53_lowest_partial); in general it is false of the code, which compares the two ends only (C53_counterexample)."
  },
  {
   "property": "C54",
   "status": "proved",
   "theorems": [
    "BF.Kernels.C54_falls",
    "BF.Kernels.C54_fwhm"
   ],
   "note": "Width to within 1e-7 of one half, the precision to which the widths are given in the code."
  },
  {
   "property": "C55",
   "status": "partial",
   "theorems": [
    "BF.Kernels.C55_square_partial",
    "BF.Kernels.C55_counterexample"
   ],
   "note": "False for the tophats with convolutions and missing for triangle, tricube and sinc (counterexample); proved for the other nine kernels."
  },
  {
   "property": "C56",
   "status": "partial",
   "theorems": [
    "BF.Engines.C56_start",
    "BF.Engines.C56_random",
    "BF.Engines.C56_gibbs",
    "BF.Engines.C56_step",
    "BF.Engines.C56_chord_tried",
    "BF.Engines.C56_chord_partial",
    "BF.Engines.C56_galilean_partial",
    "BF.Engines.C56_counterexample_galilean"
   ],
   "note": "Start, random, Gibbs and step engine in full. The chord engine under the conditions of C12. The Galilean engine for up to 16 fitted parameters (C56_galilean_partial); with more it can leave the range, because the mirrored velocity may be larger than the box (C56_counterexample_galilean, with 25 parameters)."
  },
  {
   "property": "C57",
   "status": "proved",
   "theorems": [
    "BF.Orders.C57_near"
   ],
   "note": "Table stays right and accepted tours have the nearest neighbour adjacent."
  },
  {
   "property": "C58",
   "status": "partial",
   "theorems": [
    "BF.Routing.C58_limits",
    "BF.Routing.C58_limits_set",
    "BF.Routing.C58_counterexample_onesided",
    "BF.Routing.C58_has_limits_partial",
    "BF.Routing.C58_counterexample_brackets",
    "BF.Routing.C58_fitted_limits_partial",
    "BF.Routing.C58_counterexample_fitted_order",
    "BF.Routing.C58_counterexample_fitted_repeat",
    "BF.Routing.C58_counterexample_fitted_none",
    "BF.Routing.C58_priors",
    "BF.Routing.C58_counterexample_priors",
    "BF.Routing.C58_all_at_once_partial",
    "BF.Routing.C58_counterexample_all_brackets",
    "BF.Routing.C58_counterexample_all_empty"
   ],
   "note": "limits round trip for all chains. hasLimits and the conversions of all parameters at once only for chains without brackets (and, for the latter, without components that have no parameters or no priors); with brackets they fail (counterexamples). hasPriors only looks at the first component (counterexample). Limits on one side only raise (counterexample). hasLimits for fitted parameters only: holds for ascending numbers and a prior per parameter; otherwise counterexamples."
  },
  {
   "property": "C59",
   "status": "partial",
   "theorems": [
    "BF.Tree.C59_leaf",
    "BF.Tree.C59_split",
    "BF.Tree.C59_mask",
    "BF.Tree.C59_counterexample_parlist"
   ],
   "note": "Proved for derivatives to all parameters. With a list of parameters (fixed models) basePartial takes the list for a list of points: C59_counterexample_parlist. The documentation says that values below the split go to the left; the code sends the values above it to the left (C59_split)."
  },
  {
   "property": "C60",
   "status": "partial",
   "theorems": [
    "BF.Tree.C60_masks_partial",
    "BF.Tree.C60_counterexample"
   ],
   "note": "True for trees that decide on categories. False with a split, which is relative to the lowest and highest value in the table: C60_counterexample."
  },
  {
   "property": "C61",
   "status": "partial",
   "theorems": [
    "BF.Tree.C61_history",
    "BF.Tree.C61_grow",
    "BF.Tree.C61_shrink_partial",
    "BF.Tree.C61_vary",
    "BF.Tree.C61_counterexample_shrink",
    "BF.Tree.C61_counterexample_chain",
    "BF.Tree.C61_counterexample_vary"
   ],
   "note": "The bookkeeping, births and variations are proved. The death of a right leaf next to a branch deletes parameters of other leaves (C61_counterexample_shrink); the rest is C61_shrink_partial. In a compound model grow compares with the wrong number of parameters (C61_counterexample_chain), and a variation to another type of dimension leaves the old split (C61_counterexample_vary)."
  },
  {
   "property": "C62",
   "status": "partial",
   "theorems": [
    "BF.Tree.C62_copy",
    "BF.Tree.C62_code",
    "BF.Tree.C62_counterexample_constructor",
    "BF.Tree.C62_build"
   ],
   "note": "Copies, decode after encode, and trees with a depth are proved. The constructor with a code makes a model with one parameter: C62_counterexample_constructor."
  },
  {
   "property": "C63",
   "status": "partial",
   "theorems": [
    "Verif.Amoeba.C63_best_value",
    "Verif.Amoeba.C63_optimum_partial",
    "Verif.Amoeba.C63_trial",
    "Verif.Amoeba.C63_sum",
    "Verif.Amoeba.C63_annealing",
    "Verif.Amoeba.C63_counterexample_tie",
    "Verif.Amoeba.C63_counterexample_flat"
   ],
   "note": "fopt is the best of all values computed: proved for all runs. That the returned point has that value: proved without annealing and callback, for a start that is not flat, when no two different points evaluated have equal values; counterexamples for equal values and for flat starts (xopt is a view of a corner)."
  },
  {
   "property": "C64",
   "status": "partial",
   "theorems": [
    "Verif.Amoeba.C64_limits_partial",
    "Verif.Amoeba.C64_start",
    "Verif.Amoeba.C64_counterexample"
   ],
   "note": "Proved for all runs in which the first simplex was not blown up (any temperature); counterexample when the start is flat: inflateSimplex compares a corner with itself."
  },
  {
   "property": "C65",
   "status": "partial",
   "theorems": [
    "Verif.Amoeba.C65_ends_partial",
    "Verif.Amoeba.C65_counterexample_flat",
    "Verif.Amoeba.C65_counterexample_start",
    "Verif.Amoeba.C65_counterexample_degenerate"
   ],
   "note": "Proved without annealing for starts that are not flat; counterexamples: a constant function loops for ever, checkSimplex refuses proper starts and accepts degenerate ones."
  },
  {
   "property": "C66",
   "status": "proved",
   "theorems": [
    "BF.XY.C66_gradient",
    "BF.XY.C66_distance",
    "BF.XY.C66_likelihood"
   ],
   "note": "Quadratic form with the inverse of the covariance matrix, and the gradient to model parameters, targets and scale. The model (result, partial, derivative) is a parameter."
  },
  {
   "property": "C67",
   "status": "partial",
   "theorems": [
    "BF.XY.C67_one_set",
    "BF.XY.C67_covar",
    "BF.XY.C67_table_partial",
    "BF.XY.C67_counterexample_copies",
    "BF.XY.C67_counterexample_table",
    "BF.XY.C67_counterexample_scalar"
   ],
   "note": "True for one set of accuracies and for covariance matrices, after all histories of copies. For a table of accuracies true right after construction only: each copy squares the variances of all problems sharing the table, proved for any number of copies (C67_counterexample_copies); the user's table is overwritten (C67_counterexample_table); a single number is squared twice (C67_counterexample_scalar)."
  },
  {
   "property": "C68",
   "status": "partial",
   "theorems": [
    "BF.XY.C68_partial",
    "BF.XY.C68_counterexample"
   ],
   "note": "False of the code: the integral is \u221a(2\u03c0), proved for all positive definite covariances; the norm has log 2\u03c0 once under the factor -1/2 where it is needed twice."
  },
  {
   "property": "C69",
   "status": "proved",
   "theorems": [
    "BF.XY.C69_maps"
   ],
   "note": "The maps of the model and of the prior are parameters; C13 has theorems about them."
  },
  {
   "property": "C70",
   "status": "partial",
   "theorems": [
    "BF.Multi.C70_rows",
    "BF.Multi.C70_weights",
    "BF.Multi.C70_likelihood",
    "BF.Multi.C70_gradient",
    "BF.Multi.C70_counterexample_scale"
   ],
   "note": "Correspondence of residuals, weights and rows of partials and the Gaussian gradient are proved. The noise scale is not the root mean square: C70_counterexample_scale. Cyclic models are left out here (C40)."
  },
  {
   "property": "C71",
   "status": "partial",
   "theorems": [
    "BF.Evidence.C71_exact_partial",
    "BF.Evidence.C71_counterexample_chain",
    "BF.Evidence.C71_counterexample_weights",
    "BF.Evidence.C71_counterexample_keep"
   ],
   "note": "Exact for parameters kept in the constructor or not at all, and for weights or accuracy arrays but not both. Counterexamples: an array of accuracies together with weights; parameters kept in the call of fit; a sum of models, for which the ranges of the first one are used."
  },
  {
   "property": "C72",
   "status": "partial",
   "theorems": [
    "BF.Evidence.C72_scale_partial",
    "BF.Evidence.C72_counterexample_limits",
    "BF.Evidence.C72_counterexample_models"
   ],
   "note": "Proved up to a factor of the limits and of the number of degrees of freedom, which should be 1 and is not: see the counterexamples."
  },
  {
   "property": "C73",
   "status": "partial",
   "theorems": [
    "BF.Evidence.C73_covariance",
    "BF.Evidence.C73_counterexample_weights",
    "BF.Evidence.C73_stdevs",
    "BF.Evidence.C73_unbiased",
    "BF.Evidence.C73_counterexample_keep"
   ],
   "note": "Proved for weights that are on average 1 and parameters kept in the constructor. Counterexamples: other weights; parameters kept in the call of fit."
  },
  {
   "property": "C74",
   "status": "partial",
   "theorems": [
    "BF.Evidence.C74_questions_partial",
    "BF.Evidence.C74_counterexample"
   ],
   "note": "Proved for parameters kept in the constructor or not at all; false for parameters kept in the call of fit."
  },
  {
   "property": "C75",
   "status": "proved",
   "theorems": [
    "BF.BasicSplines.C75_spline",
    "BF.BasicSplines.C75_smooth",
    "BF.BasicSplines.C75_partial",
    "BF.BasicSplines.C75_derivative",
    "BF.BasicSplines.C75_local"
   ],
   "note": "border=0; the linear solver is assumed to return a solution when it returns"
  },
  {
   "property": "C76",
   "status": "proved",
   "theorems": [
    "BF.BasicSplines.C76_unity",
    "BF.BasicSplines.C76_influence",
    "BF.BasicSplines.C76_all",
    "BF.BasicSplines.C76_same",
    "BF.BasicSplines.C76_unique"
   ],
   "note": "border=0; the solver is assumed to return a solution, and only for regular matrices"
  },
  {
   "property": "C77",
   "status": "partial",
   "theorems": [
    "BF.SoftMax.C77_probabilities",
    "BF.SoftMax.C77_partials",
    "BF.SoftMax.C77_derivative",
    "BF.SoftMax.C77_shift",
    "BF.SoftMax.C77_counterexample_fixed"
   ],
   "note": "Probabilities, partials, derivative and shift in full. Partials of a model with fixed parameters have a column for every parameter (C77_counterexample_fixed)."
  },
  {
   "property": "C78",
   "status": "partial",
   "theorems": [
    "BF.Shapes.C78_product",
    "BF.Shapes.C78_counterexample_name"
   ],
   "note": "Products, number and derivatives in full. The names of the parameters follow another order than the parameters (C78_counterexample_name)."
  },
  {
   "property": "C79",
   "status": "partial",
   "theorems": [
    "BF.Shapes.C79_columns",
    "BF.Shapes.C79_domain",
    "BF.Shapes.C79_partials",
    "BF.Shapes.C79_constant",
    "BF.Shapes.C79_pixels_partial",
    "BF.Shapes.C79_counterexample_last"
   ],
   "note": "Shifted shapes and constants in full. In the default model pixel k runs from k-1 to k (C79_pixels_partial), and in the last unit of the domain the result is always 0 (C79_counterexample_last): the center has the wrong sign."
  },
  {
   "property": "C80",
   "status": "partial",
   "theorems": [
    "BF.BSplines.C80_unity",
    "BF.BSplines.C80_partials",
    "BF.BSplines.C80_hull",
    "BF.BSplines.C80_local",
    "BF.BSplines.C80_ends",
    "BF.BSplines.C80_derivative",
    "BF.BSplines.C80_counterexample_end",
    "BF.BSplines.C80_array_partial",
    "BF.BSplines.C80_counterexample_single"
   ],
   "note": "Everything in full at one point, and for arrays when there is more than one parameter (C80_array_partial). At the last knot the derivative is 0 for all parameters (C80_counterexample_end); with a single parameter the matrix of an array is transposed (C80_counterexample_single)."
  },
  {
   "property": "C81",
   "status": "proved",
   "theorems": [
    "BF.BSplines.C81_same",
    "BF.BSplines.C81_unique",
    "BF.BSplines.C81_smooth"
   ],
   "note": "For increasing knots."
  },
  {
   "property": "C82",
   "status": "partial",
   "theorems": [
    "BF.ErrDis.C82_gauss",
    "BF.ErrDis.C82_laplace",
    "BF.ErrDis.C82_exponential_partial",
    "BF.ErrDis.C82_counterexample_exponential",
    "BF.ErrDis.C82_uniform_partial",
    "BF.ErrDis.C82_counterexample_uniform",
    "BF.ErrDis.C82_counterexample_cauchy",
    "BF.ErrDis.C82_counterexample_units"
   ],
   "note": "Proved for Gauss, Laplace and, with power 1, the exponential distribution; for the uniform one the returned scale is the infimum of those with a likelihood. Counterexamples: exponential with another power, uniform, Cauchy."
  },
  {
   "property": "C83",
   "status": "partial",
   "theorems": [
    "BF.ErrDis.C83_exponential",
    "BF.ErrDis.C83_gauss",
    "BF.ErrDis.C83_laplace",
    "BF.ErrDis.C83_uniform",
    "BF.ErrDis.C83_counterexample_cauchy"
   ],
   "note": "Proved for Gauss, Laplace, exponential and uniform. The Cauchy distribution has no standard deviation: counterexample."
  },
  {
   "property": "C84",
   "status": "partial",
   "theorems": [
    "BF.ErrDis.C84_kept",
    "BF.ErrDis.C84_fitted",
    "BF.ErrDis.C84_chisq",
    "BF.ErrDis.C84_gauss",
    "BF.ErrDis.C84_laplace",
    "BF.ErrDis.C84_cauchy",
    "BF.ErrDis.C84_exponential",
    "BF.ErrDis.C84_poisson",
    "BF.ErrDis.C84_uniform",
    "BF.ErrDis.C84_hessian_partial",
    "BF.ErrDis.C84_counterexample_half",
    "BF.ErrDis.C84_hessian_gauss_partial",
    "BF.ErrDis.C84_counterexample_weights"
   ],
   "note": "Functions and gradients proved for all; hessians of models linear in the parameters are half (chi-squared) or minus (Gauss without weights) the second derivative, with weights the weights are squared: counterexamples."
  },
  {
   "property": "C85",
   "status": "partial",
   "theorems": [
    "BF.ErrDis.C85_likelihood_partial",
    "BF.ErrDis.C85_scale_partial",
    "BF.ErrDis.C85_counterexample_scale",
    "BF.ErrDis.C85_counterexample_scale_accuracy",
    "BF.ErrDis.C85_counterexample_autoscale",
    "BF.ErrDis.C85_counterexample_question",
    "BF.ErrDis.C85_counterexample_accuracy"
   ],
   "note": "Proved without accuracies for the likelihood, and with weights for the scale. Counterexamples: scale without weights, accuracies, automatic scaling, and the exponential distribution where asking for the scale changes the likelihood."
  },
  {
   "property": "C86",
   "status": "partial",
   "theorems": [
    "BF.ErrDis.C86_kept",
    "BF.ErrDis.C86_counterexample_number",
    "BF.ErrDis.C86_counterexample_two"
   ],
   "note": "Kept parameters proved. Limits are handed over in a wrong form: counterexamples."
  },
  {
   "property": "C87",
   "status": "partial",
   "theorems": [
    "BF.Kepler.C87_unique",
    "BF.Kepler.C87_halley",
    "BF.Kepler.C87_newton",
    "BF.Kepler.C87_converges_partial",
    "BF.Kepler.C87_counterexample_meeus",
    "BF.Kepler.C87_ellipse",
    "BF.Kepler.C87_areas",
    "BF.Kepler.C87_period",
    "BF.Kepler.C87_periastron"
   ],
   "note": "Laws, uniqueness and accuracy after convergence proved for all eccentricities. That the default iteration converges is proved for e up to 1/4 only. The method eccentricAnomaly0 has a wrong sign: counterexample."
  },
  {
   "property": "C88",
   "status": "partial",
   "theorems": [
    "BF.Kepler.C88_derivatives_partial",
    "BF.Kepler.C88_line_of_sight",
    "BF.Kepler.C88_counterexample_axis",
    "BF.Kepler.C88_axis_order_partial"
   ],
   "note": "Line of sight proved. Derivatives proved except within cos E <= -0.9999999999, where the code caps a divisor. Semi major axis and mass take the parameters in the wrong order: counterexample."
  },
  {
   "property": "C89",
   "status": "partial",
   "theorems": [
    "BF.Kepler.C89_projection",
    "BF.Kepler.C89_coordinates",
    "BF.Kepler.C89_derivatives_partial"
   ],
   "note": "Projection and coordinates proved. Derivatives proved except within cos E <= -0.9999999999, where the code caps a divisor, at the centre itself, and for the position angle at its branch cut."
  },
  {
   "property": "C90",
   "status": "partial",
   "theorems": [
    "BF.Kernel2d.C90_result",
    "BF.Kernel2d.C90_nested",
    "BF.Kernel2d.C90_counterexample_angle",
    "BF.Kernel2d.C90_shapes",
    "BF.Kernel2d.C90_start",
    "BF.Kernel2d.C90_counterexample_amplitude",
    "BF.Kernel2d.C90_partials",
    "BF.Kernel2d.C90_derivative_partial",
    "BF.Kernel2d.C90_counterexample_centre",
    "BF.Kernel2d.C90_counterexample_kernels"
   ],
   "note": "Result, nesting of the shapes and partials proved for the kernels whose result from the square is right. Derivative: not at the centre of circular and elliptic shapes, where the code divides by zero (counterexample). The angle turns clockwise, not counterclockwise as documented (counterexample); the amplitude of a new model is not 1 as documented (counterexample); triangle, tricube and sinc have no two-dimensional result and the convolved tophats a wrong one (counterexample)."
  },
  {
   "property": "C91",
   "status": "partial",
   "theorems": [
    "BF.Growth.C91_polynomial",
    "BF.Growth.C91_harmonic",
    "BF.Growth.C91_birth",
    "BF.Growth.C91_death",
    "BF.Growth.C91_birth_harmonic",
    "BF.Growth.C91_copy_partial",
    "BF.Growth.C91_counterexample_copy",
    "BF.Growth.C91_counterexample_manual"
   ],
   "note": "Any history proved for polynomials and harmonics. Copy: a harmonic model without harmonics cannot be copied (counterexample), nor can the example of the manual be made (counterexample)."
  },
  {
   "property": "C92",
   "status": "partial",
   "theorems": [
    "BF.Growth.C92_rates_uniform",
    "BF.Growth.C92_rates_exponential",
    "BF.Growth.C92_balance_partial",
    "BF.Growth.C92_counterexample_uniform",
    "BF.Growth.C92_counterexample_exponential"
   ],
   "note": "The exact rates are proved for both default grow priors. The equilibrium is not the grow prior: with a uniform one it is binomial (proved), with an exponential one the first component is more probable than none (counterexamples)."
  },
  {
   "property": "C93",
   "status": "partial",
   "theorems": [
    "BF.Curve.C93_minimum_partial",
    "BF.Curve.C93_limits_partial",
    "BF.Curve.C93_kept_partial",
    "BF.Curve.C93_counterexample_keep",
    "BF.Curve.C93_counterexample_limits",
    "BF.Curve.C93_counterexample_weights"
   ],
   "note": "Minimum, limits and kept values proved for positive weights. Data with weight 0 do count (counterexample); kept parameters stay kept in later fits (counterexample); kept parameters with the limits of the priors make the fit impossible (counterexample)."
  },
  {
   "property": "C94",
   "status": "partial",
   "theorems": [
    "BF.PhantomSampler.C94_size_partial",
    "BF.PhantomSampler.C94_others_kept_partial",
    "BF.PhantomSampler.C94_stop",
    "BF.PhantomSampler.C94_finish",
    "BF.PhantomSampler.C94_evidence_is_sum_partial",
    "BF.PhantomSampler.C94_counterexample_small",
    "BF.PhantomSampler.C94_counterexample_first",
    "BF.PhantomSampler.C94_counterexample_best"
   ],
   "note": "Size, floor and evidence hold for every run. That no walker is lost holds for ensembles of 100 and more after the first iteration (C94_others_kept_partial). It fails otherwise: below 100 walkers the best one can be deleted (C94_counterexample_best), after the initial exploration of a nonlinear model the surplus is taken from the top (C94_counterexample_first), and with ensemble times step below 100 the sampler raises (C94_counterexample_small)."
  },
  {
   "property": "C95",
   "status": "partial",
   "theorems": [
    "BF.HyperPar.C95_scale_partial",
    "BF.HyperPar.C95_exponential_partial",
    "BF.HyperPar.C95_counterexample_power",
    "BF.HyperPar.C95_counterexample_zero",
    "BF.HyperPar.C95_mixed_partial",
    "BF.HyperPar.C95_set_limits_partial",
    "BF.HyperPar.C95_counterexample_set_limits",
    "BF.HyperPar.C95_counterexample_keep",
    "BF.HyperPar.C95_counterexample_fixed",
    "BF.HyperPar.C95_copy_parameter",
    "BF.HyperPar.C95_counterexample_copy_scale",
    "BF.HyperPar.C95_copy_partial",
    "BF.HyperPar.C95_copy_mixed",
    "BF.HyperPar.C95_counterexample_copy",
    "BF.HyperPar.C95_counterexample_shared"
   ],
   "note": "Holds for the scale and the fraction. It fails for limits on the power (C95_counterexample_power, _set_limits), for keepFixed and the argument fixed (C95_counterexample_keep, _fixed), and for copies, which share their hyperparameters and reset the scale to 1 (C95_counterexample_copy, _shared)."
  },
  {
   "property": "C96",
   "status": "partial",
   "theorems": [
    "BF.ModelDist.C96_evidence_partial",
    "BF.ModelDist.C96_scale_partial",
    "BF.ModelDist.C96_counterexample_weights",
    "BF.ModelDist.C96_counterexample_given",
    "BF.ModelDist.C96_counterexample_nested"
   ],
   "note": "True for linear models without weights, with the automatic arbiter or 'fitter' (with limits on the noise scale but for the factor of C72). False with weights (they are not handed on), with a fitter object (it keeps its own model) and with 'nested' (10log, noise scale 1). Iterative fitters as arbiters are not modelled."
  },
  {
   "property": "C97",
   "status": "partial",
   "theorems": [
    "BF.StartDyn.C97_start_partial",
    "BF.StartDyn.C97_found",
    "BF.StartDyn.C97_counterexample_fixed",
    "BF.StartDyn.C97_counterexample_scale",
    "BF.StartDyn.C97_count",
    "BF.StartDyn.C97_counterexample_count",
    "BF.StartDyn.C97_counterexample_retry"
   ],
   "note": "Proved for a dynamic model at the head of its chain, or when the likelihood is finite at the first trial. Counterexamples: after a failed trial the offset of the dynamic model is lost; everything that is not fitted becomes 0, so that a fixed noise scale makes the start impossible; the number of components follows a product of draws, not the grow prior (its exact distribution is proved)."
  },
  {
   "property": "C98",
   "status": "proved",
   "theorems": [
    "BF.Fresh.C98_iteration",
    "BF.Fresh.C98_run",
    "BF.Fresh.C98_phantoms"
   ],
   "note": "The state of the generator is part of the model; a function counts the draws. Engines are assumed not to put numbers back. Threads are not modelled."
  },
  {
   "property": "C99",
   "status": "partial",
   "theorems": [
    "BF.Football.C99_partials",
    "BF.Football.C99_complexity",
    "BF.Football.C99_nested",
    "BF.Football.C99_equations",
    "BF.Football.C99_swap",
    "BF.Football.C99_positive",
    "BF.Football.C99_home",
    "BF.Football.C99_priors_partial",
    "BF.Football.C99_counterexample_priors",
    "BF.Football.C99_counterexample_fixed",
    "BF.Football.C99_counterexample_columns"
   ],
   "note": "All proved, except that priors are right only when no model follows the football model, and that nothing holds with fixed parameters; both are shown by counterexamples."
  },
  {
   "property": "C100",
   "status": "partial",
   "theorems": [
    "BF.Solver.C100_solve_partial",
    "BF.Solver.C100_floor",
    "BF.Solver.C100_counterexample_distribution",
    "BF.Solver.C100_engines",
    "BF.Solver.C100_counterexample_shuffle",
    "BF.Solver.C100_counterexample_keep",
    "BF.Solver.C100_counterexample_stuck",
    "BF.Solver.C100_counterexample_lost",
    "BF.Solver.C100_counterexample_best"
   ],
   "note": "Tours, likelihoods, order of the samples, floor and size of the ensemble hold for every run. The rest is false: the best walker can be overwritten and lost, the last sample need not be the best, keep is ignored, ShuffleEngine and any given distribution raise, and so does a walker that cannot move."
  },
  {
   "property": "C101",
   "status": "partial",
   "theorems": [
    "BF.SplinesDyn.C101_grow",
    "BF.SplinesDyn.C101_shrink",
    "BF.SplinesDyn.C101_vary",
    "BF.SplinesDyn.C101_history",
    "BF.SplinesDyn.C101_grow_succeeds",
    "BF.SplinesDyn.C101_counterexample_hang",
    "BF.SplinesDyn.C101_shrink_succeeds",
    "BF.SplinesDyn.C101_vary_succeeds",
    "BF.SplinesDyn.C101_counterexample_last",
    "BF.SplinesDyn.C101_start",
    "BF.SplinesDyn.C101_copy",
    "BF.SplinesDyn.C101_counterexample_copy",
    "BF.SplinesDyn.C101_alt",
    "BF.SplinesDyn.C101_counterexample_min",
    "BF.SplinesDyn.C101_counterexample_prior",
    "BF.SplinesDyn.C101_counterexample_keep"
   ],
   "note": "Proved: the exact result of a birth, a death and a variation; the invariant over all histories of them; the alternative variation; the start on equidistant knots; success for draws that leave room. Assumes that the basis can be made for ascending knots. False as stated, with witnesses: a birth never ends when no gap is wide enough, the last knot may be asked for in vary and then raises, behind other models a death uses the prior of another parameter, a copy loses the border, a birth lets a kept parameter be fitted, with minKnots below 2 a death of two knots raises."
  },
  {
   "property": "C102",
   "status": "partial",
   "theorems": [
    "BF.MonteCarlo.C102_variant",
    "BF.MonteCarlo.C102_variant_all",
    "BF.MonteCarlo.C102_std",
    "BF.MonteCarlo.C102_mean",
    "BF.MonteCarlo.C102_repeat",
    "BF.MonteCarlo.C102_fitter",
    "BF.MonteCarlo.C102_counterexample_one",
    "BF.MonteCarlo.C102_counterexample_shared",
    "BF.MonteCarlo.C102_counterexample_small"
   ],
   "note": "Proved: standard deviation over the cycles, only fitted parameters are varied, repeatable from a fitter, non-negative; on average the square of the error is (m-1)/m times the variance, for all linear models and uncorrelated standard random numbers. So the average is false as stated (too small; zero for one cycle); and the generator is the global one of numpy, so that objects disturb one another."
  },
  {
   "property": "C103",
   "status": "partial",
   "theorems": [
    "BF.NumPartial.C103_partials",
    "BF.NumPartial.C103_fixed",
    "BF.NumPartial.C103_fixed_partials",
    "BF.NumPartial.C103_derivative",
    "BF.NumPartial.C103_fixed_derivative",
    "BF.NumPartial.C103_strict",
    "BF.NumPartial.C103_likelihood",
    "BF.NumPartial.C103_user",
    "BF.NumPartial.C103_counterexample_rows",
    "BF.NumPartial.C103_counterexample_user",
    "BF.NumPartial.C103_counterexample_chain",
    "BF.NumPartial.C103_counterexample_array",
    "BF.NumPartial.C103_counterexample_positive",
    "BF.NumPartial.C103_counterexample_model",
    "BF.NumPartial.C103_counterexample_raises",
    "BF.NumPartial.C103_astropy",
    "BF.NumPartial.C103_counterexample_astropy"
   ],
   "note": "Proved with the error bounds for models with and without fixed parameters, for the derivative to x, for strictly numeric partials of any result, for the fallback of the likelihood, for UserModel without fixed parameters and for the columns of AstropyModel. It fails, as shown by counterexamples, for positive parameters closer to zero than half a step, for models among the fixed parameters of a model without partials, for UserModel with fixed parameters or extended in place, and for the derivative of AstropyModel."
  },
  {
   "property": "C104",
   "status": "partial",
   "theorems": [
    "BF.Rerun.C104_evidence",
    "BF.Rerun.C104_first",
    "BF.Rerun.C104_first_count",
    "BF.Rerun.C104_counterexample_shares",
    "BF.Rerun.C104_average",
    "BF.Rerun.C104_history",
    "BF.Rerun.C104_restarts",
    "BF.Rerun.C104_counterexample_linear"
   ],
   "note": "Evidence, normalisation and history of calls proved for all runs. That the samples are those of the last call holds for the first call only: counterexample for later ones. For a linear model a second call makes no iteration: counterexample."
  },
  {
   "property": "C105",
   "status": "partial",
   "theorems": [
    "BF.Setup.C105_distribution_names",
    "BF.Setup.C105_engine_names",
    "BF.Setup.C105_counterexample_engine_names",
    "BF.Setup.C105_counterexample_case",
    "BF.Setup.C105_default",
    "BF.Setup.C105_problem_names",
    "BF.Setup.C105_problem_made",
    "BF.Setup.C105_counterexample_evidence",
    "BF.Setup.C105_evidence_object",
    "BF.Setup.C105_counterexample_evidence_copy",
    "BF.Setup.C105_counterexample_lists",
    "BF.Setup.C105_counterexample_order",
    "BF.Setup.C105_counterexample_dynamic",
    "BF.Setup.C105_counterexample_limits",
    "BF.Setup.C105_consistent_partial",
    "BF.Setup.C105_sample",
    "BF.Setup.C105_counterexample_distribution",
    "BF.Setup.C105_counterexample_order_start",
    "BF.Setup.C105_boost",
    "BF.Setup.C105_counterexample_boost",
    "BF.Setup.C105_sumweight",
    "BF.Setup.C105_ndata_partial",
    "BF.Setup.C105_counterexample_ndata"
   ],
   "note": "Proved as long as the error distribution is not replaced after the engines were set, and the data not after ndata was read. Counterexamples: distribution replaced, unknown engine name, upper case in engine names, problem evidence by name, ordering problem, dynamic model with errors or multiple, limits with a distribution object, lists as accuracy or weights, the fitter of bestBoost, number of data after new data."
  },
  {
   "property": "C106",
   "status": "partial",
   "theorems": [
    "BF.Pipes.C106_result",
    "BF.Pipes.C106_derivative_partial",
    "BF.Pipes.C106_partials_partial",
    "BF.Pipes.C106_counterexample_product",
    "BF.Pipes.C106_counterexample_difference",
    "BF.Pipes.C106_counterexample_inputs",
    "BF.Pipes.C106_counterexample_points",
    "BF.Pipes.C106_counterexample_outputs",
    "BF.Pipes.C106_counterexample_three",
    "BF.Pipes.C106_counterexample_numeric",
    "BF.Pipes.C106_counterexample_brackets"
   ],
   "note": "result for all chains; derivative not for differences of models with more inputs and more outputs nor for products and quotients with more inputs; partials not for products and quotients of models with more outputs (there the code raises or takes the wrong points, counterexamples). A piped model that is not the last must tolerate the inputs of the chain. Brackets only as single models."
  },
  {
   "property": "C107",
   "status": "partial",
   "theorems": [
    "Summary.C107_averages",
    "Summary.C107_missing",
    "Summary.C107_counterexample_unnormalized",
    "Summary.C107_counterexample_dynamic",
    "Summary.C107_order_partial",
    "Summary.C107_parameters",
    "Summary.C107_hypars",
    "Summary.C107_counterexample_stdev_hypars",
    "Summary.C107_sampler",
    "Summary.C107_median",
    "Summary.C107_counterexample_median",
    "Summary.C107_modus",
    "Summary.C107_max_likelihood_partial",
    "Summary.C107_counterexample_max_likelihood",
    "Summary.C107_counterexample_stale",
    "Summary.C107_counterexample_evidence",
    "Summary.C107_finished",
    "Summary.C107_split",
    "Summary.C107_model_average",
    "Summary.C107_counterexample_errors",
    "Summary.C107_errors_partial",
    "Summary.C107_lowest",
    "Summary.C107_linear",
    "Summary.C107_circular",
    "Summary.C107_circular_period",
    "Summary.C107_circular_parameters"
   ],
   "note": "Proved for lists which are not changed after the first read: means, standard deviations, median, modus, circular and model averages, in any order of reading. Not true in general: standard deviations, hyperparameters, median and modus are kept when samples are added or removed (C107_counterexample_stale); the evidence of the list stays 0 (C107_counterexample_evidence); standard deviations of the hyperparameters cannot be read first (C107_counterexample_stdev_hypars); without normalization the averages are multiplied by the sum of the weights; errors at other points of equal number are those of the earlier ones; the sample with the highest likelihood may have been weeded; dynamic models raise or mix."
  },
  {
   "property": "C108",
   "status": "partial",
   "theorems": [
    "Threads.C108_walkers",
    "Threads.C108_own",
    "Threads.C108_phantoms",
    "Threads.C108_in_turn",
    "Threads.C108_turn_schedule",
    "Threads.C108_single",
    "Threads.C108_same_partial",
    "Threads.C108_checked",
    "Threads.C108_counterexample_lost",
    "Threads.C108_counterexample_seed",
    "Threads.C108_counterexample_append",
    "Threads.C108_errors",
    "Threads.C108_counterexample_errors",
    "Threads.C108_reports",
    "Threads.C108_counterexample_calls",
    "Threads.C108_counterexample_boost"
   ],
   "note": "An access is one read or write of the list of walkers, the list of phantoms or the generator; accesses are taken as atomic, as they are in CPython. An engine is modelled as making its new walker from the old one and one number. Independence of the schedule is false (C108_counterexample_seed) and proved for engines that do not use the common generator."
  },
  {
   "property": "C109",
   "status": "proved",
   "theorems": [
    "BF.Boost.C109_copies",
    "BF.Boost.C109_groups",
    "BF.Boost.C109_dynamic_copies",
    "BF.Boost.C109_ends",
    "BF.Boost.C109_counterexample_hangs",
    "BF.Boost.C109_counterexample_parent",
    "BF.Boost.C109_option",
    "BF.Boost.C109_counterexample_fitter",
    "BF.Boost.C109_counterexample_copymode",
    "BF.Boost.C109_boost",
    "BF.Boost.C109_boost_scale",
    "BF.Boost.C109_counterexample_kept",
    "BF.Boost.C109_counterexample_prior",
    "BF.Boost.C109_counterexample_no_hyper",
    "BF.Boost.C109_counterexample_two_hyper",
    "BF.Boost.C109_counterexample_empty",
    "BF.Boost.C109_counterexample_counted"
   ],
   "note": "All statements about copies, the choice of a phantom, the end of the loop and the likelihood after a boost are proved; what does not hold is in the counterexamples. Fitter and likelihood are parameters."
  },
  {
   "property": "C110",
   "status": "partial",
   "theorems": [
    "BF.Units.C110_arctan",
    "BF.Units.C110_exp",
    "BF.Units.C110_gauss",
    "BF.Units.C110_lorentz",
    "BF.Units.C110_logistic",
    "BF.Units.C110_kernel",
    "BF.Units.C110_voigt",
    "BF.Units.C110_sine",
    "BF.Units.C110_sine_phase",
    "BF.Units.C110_sine_amp",
    "BF.Units.C110_etalon",
    "BF.Units.C110_sine_drift",
    "BF.Units.C110_etalon_drift",
    "BF.Units.C110_kernel2d",
    "BF.Units.C110_kernel2d_same",
    "BF.Units.C110_polynomial",
    "BF.Units.C110_chebyshev",
    "BF.Units.C110_harmonic",
    "BF.Units.C110_pade",
    "BF.Units.C110_poly_sine",
    "BF.Units.C110_splines",
    "BF.Units.C110_sine_spline",
    "BF.Units.C110_bsplines",
    "BF.Units.C110_free_shape_partial",
    "BF.Units.C110_poly_surface_partial",
    "BF.Units.C110_softmax",
    "BF.Units.C110_compound",
    "BF.Units.C110_defined",
    "BF.Units.C110_integral",
    "BF.Units.C110_integral2",
    "BF.Units.C110_product_partial",
    "BF.Units.C110_repeating",
    "BF.Units.C110_surface_splines_partial",
    "BF.Units.C110_counterexample_surface_splines",
    "BF.Units.C110_counterexample_surface_order",
    "BF.Units.C110_counterexample_poly_surface",
    "BF.Units.C110_counterexample_power",
    "BF.Units.C110_counterexample_power_law",
    "BF.Units.C110_counterexample_pseudo_voigt",
    "BF.Units.C110_counterexample_radial_velocity",
    "BF.Units.C110_counterexample_stellar_orbit",
    "BF.Units.C110_counterexample_sine_spline_drift",
    "BF.Units.C110_counterexample_softmax_offset",
    "BF.Units.C110_counterexample_product",
    "BF.Units.C110_counterexample_set_units",
    "BF.Units.C110_counterexample_bracket",
    "BF.Units.C110_counterexample_fixed",
    "BF.Units.C110_counterexample_free_shape",
    "BF.Units.C110_counterexample_kernel2d"
   ],
   "note": "Proved that the units fit for the arctangent, exponential, Gaussian, Lorentzian, logistic, all kernels (one input; ellipse of two inputs), Voigt, sines (three forms and with drift), etalons, polynomials, Chebyshev, harmonics, Pad\u00e9, splines, sine with splines, B-splines, polynomial sine amplitudes, layers without offset, for compounds by + - * / and repeating models; the integral unit; the range. Proved not to fit: power, power law, pseudo-Voigt, radial velocity, stellar orbit, sine with drift and splines, polynomials and splines in two inputs with different units (or an order other than 3), round kernels with different units, layers with offsets, products with a unit for y, units set on a compound or a bracket, models with a fixed parameter, free shapes at the border."
  },
  {
   "property": "C111",
   "status": "partial",
   "theorems": [
    "BF.LimitsFit.C111_inside",
    "BF.LimitsFit.C111_limits",
    "BF.LimitsFit.C111_constructor",
    "BF.LimitsFit.C111_box_partial",
    "BF.LimitsFit.C111_counterexample_outside",
    "BF.LimitsFit.C111_counterexample_minimum",
    "BF.LimitsFit.C111_counterexample_kept",
    "BF.LimitsFit.C111_counterexample_returned",
    "BF.LimitsFit.C111_counterexample_constructor",
    "BF.LimitsFit.C111_counterexample_overridden"
   ],
   "note": "Proved for any fit method that finds the minimum with kept parameters, of which the linear fitter is one: parameters beyond a limit end on it, the rest is the best with these values, all are returned. For a convex objective and one transgression it is the best inside the limits (C111_box_partial). False: the second fit can be outside the limits, two transgressions can miss the best one, kept values outside the limits are moved, and together with parameters kept by the constructor the returned list is shorter, limits are not looked at and values of the call are overwritten."
  },
  {
   "property": "C112",
   "status": "partial",
   "theorems": [
    "BF.ErrDis.C112_gauss",
    "BF.ErrDis.C112_cauchy",
    "BF.ErrDis.C112_poisson",
    "BF.ErrDis.C112_uniform",
    "BF.ErrDis.C112_exponential_partial",
    "BF.ErrDis.C112_laplace_partial",
    "BF.ErrDis.C112_counterexample_laplace",
    "BF.ErrDis.C112_counterexample_exponential",
    "BF.ErrDis.C112_counterexample_bernoulli"
   ],
   "note": "Proved for Gauss, Cauchy, Poisson, Uniform and for Exponential unless the power is fixed and the scale is not; for Laplace without its scale. False for Laplace with its scale, for Exponential with only the scale, and for Bernoulli."
  },
  {
   "property": "C113",
   "status": "partial",
   "theorems": [
    "BF.Names.C113_chain",
    "BF.Names.C113_named",
    "BF.Names.C113_fixed",
    "BF.Names.C113_numbered",
    "BF.Names.C113_own_names",
    "BF.Names.C113_own",
    "BF.Names.C113_pade",
    "BF.Names.C113_combi",
    "BF.Names.C113_repeat",
    "BF.Names.C113_dynamic",
    "BF.Names.C113_attribute",
    "BF.Names.C113_counterexample_polynomial",
    "BF.Names.C113_counterexample_brackets",
    "BF.Names.C113_counterexample_repeat",
    "BF.Names.C113_counterexample_attribute",
    "BF.Names.C113_counterexample_same",
    "BF.Names.C113_counterexample_negative"
   ],
   "note": "Proved for chains, brackets, fixed parameters, combi and repeating models, dynamic histories and the models with names of their own. Not so, with counterexamples: polynomials with fixed parameters are called wrongly, a parameter replaced by a model in brackets has no name, a repeating model without 'same' raises, names made by a class are no attributes, names in a chain may coincide."
  },
  {
   "property": "C114",
   "status": "partial",
   "theorems": [
    "BF.Copies.C114_copy_partial",
    "BF.Copies.C114_counterexample_eps",
    "BF.Copies.C114_counterexample_order",
    "BF.Copies.C114_counterexample_user",
    "BF.Copies.C114_counterexample_basic",
    "BF.Copies.C114_counterexample_border",
    "BF.Copies.C114_repeating",
    "BF.Copies.C114_counterexample_static",
    "BF.Copies.C114_counterexample_combi",
    "BF.Copies.C114_counterexample_combi_chain",
    "BF.Copies.C114_priors",
    "BF.Copies.C114_counterexample_priors"
   ],
   "note": "Proved for 39 classes with every history of settings, with the exceptions in Copyable, which are proved to be real: a BSplinesModel loses eps, a dynamic spline loses its border, a dynamic harmonic of order 0, a UserModel and a BasicSplinesModel of higher order with fixed parameters can not be copied. Priors: proved for all histories without repeating models; with them the copy shares the inner model. Static repeating models can not be copied; combined models lose their parameters and their chain."
  },
  {
   "property": "C115",
   "status": "partial",
   "theorems": [
    "BF.Signs.C115_result",
    "BF.Signs.C115_sign",
    "BF.Signs.C115_correct",
    "BF.Signs.C115_correct_all",
    "BF.Signs.C115_again",
    "BF.Signs.C115_caller",
    "BF.Signs.C115_unchanged",
    "BF.Signs.C115_counterexample_caller",
    "BF.Signs.C115_counterexample_model",
    "BF.Signs.C115_counterexample_correct",
    "BF.Signs.C115_counterexample_correct_other",
    "BF.Signs.C115_counterexample_partial"
   ],
   "note": "Proved: the result of every chain without fixed parameters is that of the proper parameters, signs do not matter, correctParameters is right; for all nested models the second evaluation is the same, only signs and zeros of the array of the caller are changed. False in the code, with counterexamples: the array of the caller (and that of the model) is changed by asking for the result; the partial at a negative value is minus the derivative; correctParameters raises or changes the wrong parameter when parameters are fixed; a model for a parameter that must not be zero works for one datum only."
  },
  {
   "property": "C116",
   "status": "partial",
   "theorems": [
    "BF.Attributes.C116_types_partial",
    "BF.Attributes.C116_fail",
    "BF.Attributes.C116_only",
    "BF.Attributes.C116_parameters",
    "BF.Attributes.C116_numbers",
    "BF.Attributes.C116_accepts",
    "BF.Attributes.C116_refuses",
    "BF.Attributes.C116_unknown",
    "BF.Attributes.C116_counterexample_strings",
    "BF.Attributes.C116_counterexample_bools",
    "BF.Attributes.C116_counterexample_float32",
    "BF.Attributes.C116_counterexample_square",
    "BF.Attributes.C116_counterexample_shared",
    "BF.Attributes.C116_copied",
    "BF.Attributes.C116_counterexample_degree",
    "BF.Attributes.C116_football",
    "BF.Attributes.C116_counterexample_football",
    "BF.Attributes.C116_counterexample_constant",
    "BF.Attributes.C116_counterexample_table"
   ],
   "note": "Proved for 21 classes and all values, but for lists of strings, which may hold numbers (counterexample). Also false in the code, with counterexamples: a FootballModel is changed by a refused assignment of its complexity; a square of numbers is accepted for the parameters; an array of floats is shared with the caller; lists of bools are refused where a bool is accepted; numpy.float32 is refused; the degree can be set without a change in the number of parameters; the value of a ConstantModel may have any length. BSplinesModel, FreeShapeModel and KernelModel have assignments of another kind and are left out."
  },
  {
   "property": "C117",
   "status": "partial",
   "theorems": [
    "BF.SplineLab.C117_derivative_partial",
    "BF.SplineLab.C117_multiplicity",
    "BF.SplineLab.C117_collocation_partial",
    "BF.SplineLab.C117_average",
    "BF.SplineLab.C117_knots",
    "BF.SplineLab.C117_few",
    "BF.SplineLab.C117_order",
    "BF.SplineLab.C117_diagonal_partial",
    "BF.SplineLab.C117_counterexample_last",
    "BF.SplineLab.C117_counterexample_order",
    "BF.SplineLab.C117_counterexample_one",
    "BF.SplineLab.C117_counterexample_repeated",
    "BF.SplineLab.C117_counterexample_integers",
    "BF.SplineLab.C117_interpolation_partial"
   ],
   "note": "Knots, averages, multiplicities and the ranges of the functions are proved for all sites and orders; derivatives of all orders at all points that are not knots; the diagonal is positive for all sites but the last, and there is exactly one spline through any values at all sites (at the last one as a limit), by the theorem of Schoenberg and Whitney. False in the code: the last row of the matrix is zero for every set of sites; order 0 and one site raise; too many equal sites at the end are accepted; averages of integer sites are cut off. Missing: derivatives at knots."
  },
  {
   "property": "C118",
   "status": "partial",
   "theorems": [
    "BF.Lineage.C118_ids",
    "BF.Lineage.C118_ids_differ",
    "BF.Lineage.C118_stored",
    "BF.Lineage.C118_serial",
    "BF.Lineage.C118_parent",
    "BF.Lineage.C118_counterexample_parent",
    "BF.Lineage.C118_alive_partial",
    "BF.Lineage.C118_counterexample_start",
    "BF.Lineage.C118_rank",
    "BF.Lineage.C118_rank_uniform",
    "BF.Lineage.C118_counterexample_rank"
   ],
   "note": "Ids, serial numbers and stored values hold for all engines that store walkers with Engine.setWalker. Parents are never -1, as documented, but always the id of the walker itself. The start of samples is right only for engines which store copies of the walker (Galilean); with the others it is always 0, and frames of a movie show too many points. The rank is right for one discarded walker per iteration, and wrong for more (counterexample)."
  },
  {
   "property": "C119",
   "status": "proved",
   "theorems": [
    "BF.LinearModels.C119_fit",
    "BF.LinearModels.C119_fit_all",
    "BF.LinearModels.C119_kept",
    "BF.LinearModels.C119_few",
    "BF.LinearModels.C119_polynomial",
    "BF.LinearModels.C119_chebyshev",
    "BF.LinearModels.C119_bsplines",
    "BF.LinearModels.C119_bsplines_steps",
    "BF.LinearModels.C119_splines_enough",
    "BF.LinearModels.C119_harmonic_enough",
    "BF.LinearModels.C119_counterexample_harmonic",
    "BF.LinearModels.C119_counterexample_kept",
    "BF.SameFit.C119_splines",
    "BF.SameFit.C119_splines_steps",
    "BF.SameFit.C119_basicsplines",
    "BF.SameFit.C119_twice",
    "BF.SameFit.C119_harmonic"
   ],
   "note": "Proved as stated. The counterexamples mark the boundary: with as many phases as parameters a HarmonicModel alone may not be determined, and with kept parameters numbers of data do not decide for polynomials."
  },
  {
   "property": "C120",
   "status": "partial",
   "theorems": [
    "BF.Props.Invariance.C120_chord",
    "BF.Props.Invariance.C120_chords",
    "BF.Props.Invariance.C120_random",
    "BF.Props.Invariance.C120_random_box",
    "BF.Props.Invariance.C120_random_walkers",
    "BF.Props.Invariance.C120_counterexample_random",
    "BF.Props.Invariance.C120_counterexample_gibbs",
    "BF.Props.Invariance.C120_counterexample_step",
    "BF.Props.Invariance.C120_gibbs_once_partial",
    "BF.Props.Invariance.C120_gibbs_flat_partial",
    "BF.Engines.C120_step_directions",
    "BF.Engines.C120_velocity_directions"
   ],
   "note": "Proved for chords in any given directions (any number of parameters, any measurable likelihood) and for the random engine, on the part of the region inside the box in which they draw. False for the Gibbs engine with a range below 10/11 and for the step engine: near the edge of unit space fewer walkers than their share end (counterexamples for every such range). False for the random engine on the part of the region outside its box. Not covered: directions that depend on earlier failures, the Galilean engine, more than one parameter in the step engine."
  },
  {
   "property": "C121",
   "status": "proved",
   "theorems": [
    "BF.Props.Shrink.C121_update",
    "BF.Props.Shrink.C121_run",
    "BF.Props.Shrink.C121_counterexample_ties"
   ],
   "note": "The fractions of the prior above fair draws are uniform (probability integral transform), the k-th largest of N uniform numbers has mean log -(1/N+...+1/(N-k)), and that is what updateEvidence and the iterations take from the log width. The likelihood must have no plateaus: C121_counterexample_ties shows that with a constant likelihood nothing is above the worst walker, though the sampler takes the volume to shrink as always. That the walkers stay fair draws is a hypothesis here; C120 says which engines keep that."
  },
  {
   "property": "C122",
   "status": "partial",
   "theorems": [
    "BF.Props.OrderSpread.C122_switch_once_partial",
    "BF.Props.OrderSpread.C122_reverse_flat_partial",
    "BF.Props.OrderSpread.C122_move_flat_partial",
    "BF.Props.OrderSpread.C122_shuffle_flat_partial",
    "BF.Props.OrderSpread.C122_counterexample_switch",
    "BF.Props.OrderSpread.C122_counterexample_reverse",
    "BF.Props.OrderSpread.C122_counterexample_move",
    "BF.Props.OrderSpread.C122_counterexample_loop",
    "BF.Props.OrderSpread.C122_counterexample_near"
   ],
   "note": "One try of the switch engine is even for every likelihood and threshold; move, reverse and shuffle are even where every order is good enough. In general the claim is false of the code, with counterexamples: OrderEngine.execute repeats failed tries until one succeeds, the reverse and move engines retry with shorter stretches, and the loop and near engines only go one way (against the documentation of NestedSolver, mixing them with engines that are even does not restore it). Missing: nothing can be proved of the full claim, as it is false."
  },
  {
   "property": "C123",
   "status": "proved",
   "theorems": [
    "BF.Props.Accuracy.C123_evidence",
    "BF.Props.Accuracy.C123_final",
    "BF.Props.EvidencePriors.C123_priors"
   ],
   "note": "Upper and lower step functions of the likelihood at the stored samples, integrated over the prior; Abel summation against the weights of the samples (C04). About the state at any iteration; C123_final is about the complete run, and C123_priors about the integral of likelihood times prior densities (with C124). The assumption on the volumes is right in the mean of the log (C121) when walkers are fair draws (C120)."
  },
  {
   "property": "C124",
   "status": "partial",
   "theorems": [
    "BF.Priors.C124_one_partial",
    "BF.Priors.C124_circular_partial",
    "BF.Priors.C124_all_partial",
    "BF.Priors.C124_normalised_partial",
    "BF.Priors.C124_chance",
    "BF.Priors.C124_counterexample_setLimits"
   ],
   "note": "Proved for priors as their constructors make them, one parameter and all parameters together, circular ones included. Missing, as it is false: limits set afterwards (setLimits, which Model.setLimits uses for a prior that exists already). The maps follow, the density does not (counterexample, for the Laplace prior). C124_chance holds for those too. A circular prior with both a period and limits is left out."
  },
  {
   "property": "C125",
   "status": "partial",
   "theorems": [
    "BF.Repeats.C125_fit_split",
    "BF.Repeats.C125_fit",
    "BF.Repeats.C125_lm_split",
    "BF.Repeats.C125_lm",
    "BF.Repeats.C125_after_split",
    "BF.Repeats.C125_after_partial",
    "BF.Repeats.C125_counterexample_qr",
    "BF.Repeats.C125_counterexample_accuracy",
    "BF.ErrDis.C125_likelihood",
    "BF.ErrDis.C125_uniform_partial",
    "BF.ErrDis.C125_gradient",
    "BF.ErrDis.C125_scale",
    "BF.ErrDis.C125_counterexample_mixed",
    "BF.ErrDis.C125_counterexample_ignored",
    "BF.ErrDis.C125_counterexample_cauchy",
    "BF.ErrDis.C125_counterexample_uniform"
   ],
   "note": "Proved for the linear and the Levenberg-Marquardt fitter with everything that is asked after a linear fit, and for the Gauss, Laplace, exponential and (weights not zero) uniform distributions. Counterexamples: the QR fitter squares the weights, an accuracy for each point is counted once in the likelihood, mixed distributions, the Cauchy, Poisson and Bernoulli distributions take no notice of weights, uniform with weight zero."
  },
  {
   "property": "C126",
   "status": "partial",
   "theorems": [
    "BF.Quality.C126_fit",
    "BF.Quality.C126_lm",
    "BF.Quality.C126_after_partial",
    "BF.Quality.C126_counterexample_scale",
    "BF.ErrDis.C126_gauss",
    "BF.ErrDis.C126_gauss_best",
    "BF.ErrDis.C126_counterexample_laplace"
   ],
   "note": "Proved for the linear and the Levenberg-Marquardt fitter and for the likelihood of Gauss. Not only the evidence differs: noise scale and standard deviations do too (C126_counterexample_scale), and for other distributions, such as Laplace, the best parameters (C126_counterexample_laplace)."
  },
  {
   "property": "C127",
   "status": "proved",
   "theorems": [
    "BF.SameFit.C127_order",
    "BF.SameFit.C127_sum",
    "BF.SameFit.C127_data",
    "BF.SameFit.C127_curve",
    "BF.SameFit.C127_succeeds",
    "BF.SameFit.C127_number",
    "BF.SameFit.C127_exact",
    "BF.SameFit.C127_combine",
    "BF.SameFit.C127_units",
    "BF.SameFit.C127_scale",
    "BF.SameFit.C127_spread",
    "BF.SameFit.C127_evidence",
    "BF.SameFit.C127_evidence_y",
    "BF.SameFit.C127_evidence_polynomial",
    "BF.SameFit.C127_chebyshev",
    "BF.SameFit.C127_polynomial",
    "BF.SameFit.C127_bsplines",
    "BF.SameFit.C127_basicsplines",
    "BF.SameFit.C127_splines",
    "BF.SameFit.C127_harmonic",
    "BF.SameFit.C127_qr",
    "BF.SameFit.C127_curvefit"
   ],
   "note": "For the fitters of which the model is exact: Fitter (and QRFitter without weights, CurveFitter when the optimum is within its limits). The linear solver is a parameter that solves regular systems. Without kept parameters. The evidence theorems have limits for each parameter."
  },
  {
   "property": "C128",
   "status": "proved",
   "theorems": [
    "BF.Linear.C128_compound",
    "BF.Linear.C128_fit",
    "BF.Linear.C128_product",
    "BF.Linear.C128_fixed",
    "BF.Linear.C128_nested",
    "BF.Linear.C128_nested_fit"
   ],
   "note": "Proved for all expressions, all dictionaries of fixed parameters and any number of levels. The manual says that fixed models are linear only when fixed with constants; linear models do as well (C128_fixed, C128_nested), so the manual is too careful here. Quotients by and pipes into models with parameters are not claimed either way."
  },
  {
   "property": "C129",
   "status": "proved",
   "theorems": [
    "BF.Arrays.C129_engine",
    "BF.Arrays.C129_samples",
    "BF.Arrays.C129_walkers",
    "BF.Arrays.C129_allpars",
    "BF.Arrays.C129_hypars",
    "BF.Arrays.C129_counterexample_hypars"
   ],
   "note": "C129_engine, C129_samples, C129_walkers and C129_allpars; C129_counterexample_hypars: with nuisance parameters Walker.hypars contains the targets too, unlike the hyperparameters of its sample. Hand-written abstraction of the array operations of each engine is part of the trusted base."
  },
  {
   "property": "C130",
   "status": "partial",
   "theorems": [
    "BF.RepPriors.C130_repeating",
    "BF.RepPriors.C130_repeating_set",
    "BF.RepPriors.C130_repeating_all_partial",
    "BF.RepPriors.C130_counterexample_repeating_all",
    "BF.RepPriors.C130_counterexample_repeating_later",
    "BF.RepPriors.C130_counterexample_repeating_chain",
    "BF.RepPriors.C130_harmonic",
    "BF.RepPriors.C130_counterexample_harmonic",
    "BF.RepPriors.C130_combi_answer",
    "BF.RepPriors.C130_combi_free_partial",
    "BF.RepPriors.C130_combi_first_partial",
    "BF.RepPriors.C130_combi_one_partial",
    "BF.RepPriors.C130_counterexample_combi",
    "BF.RepPriors.C130_counterexample_combi_chain"
   ],
   "note": "Repeating models one parameter at a time, and dynamic harmonics, in full. Combi models without ties, for the first copy, or when only the first copy has priors (C130_combi_*_partial); with ties the wrong prior is found (C130_counterexample_combi), and a model that follows is never asked (C130_counterexample_combi_chain). All priors at once: every parameter beyond the first component gets the last prior (C130_counterexample_repeating_all), none are found when set later (C130_counterexample_repeating_later), harmonics likewise (C130_counterexample_harmonic). After a repeating model priors of the next can not be set (C130_counterexample_repeating_chain)."
  },
  {
   "property": "C131",
   "status": "partial",
   "theorems": [
    "BF.SameFit.C131_accuracy",
    "BF.SameFit.C131_covariance",
    "BF.SameFit.C131_evidence_partial",
    "BF.SameFit.C131_weights",
    "BF.SameFit.C131_weights_covariance",
    "BF.SameFit.C131_counterexample_relative"
   ],
   "note": "All factors, models and data for parameters, chi squared, scale, covariance and standard deviations. The evidence is the same unless weights are combined with an array of accuracies (C71_counterexample_weights). The documented claim that weights are relative is refuted."
  },
  {
   "property": "C132",
   "status": "partial",
   "theorems": [
    "BF.Evolution.C132_table",
    "BF.Evolution.C132_column",
    "BF.Evolution.C132_columns",
    "BF.Evolution.C132_number",
    "BF.Evolution.C132_weights",
    "BF.Evolution.C132_scale",
    "BF.Evolution.C132_lists",
    "BF.Evolution.C132_padded",
    "BF.Evolution.C132_counterexample_dynamic"
   ],
   "note": "Static models, weights, numbers and WalkerList.allPars in full. Tables of dynamic models are not padded, as documented, but raise an error whenever the numbers of parameters differ (C132_counterexample_dynamic)."
  },
  {
   "property": "C133",
   "status": "partial",
   "theorems": [
    "BF.RepDeriv.C133_sum",
    "BF.RepDeriv.C133_repeating",
    "BF.RepDeriv.C133_combi",
    "BF.RepDeriv.C133_counterexample_compound"
   ],
   "note": "Derivatives in full. A compound model can not be repeated: in each component its second model gets no parameters (C133_counterexample_compound)."
  },
  {
   "property": "C134",
   "status": "partial",
   "theorems": [
    "BF.ErrDis.C134_gauss_accuracy",
    "BF.ErrDis.C134_gauss",
    "BF.ErrDis.C134_gauss_unknown_scale",
    "BF.ErrDis.C134_laplace",
    "BF.ErrDis.C134_mean",
    "BF.ErrDis.C134_median",
    "BF.ErrDis.C134_midrange",
    "BF.ErrDis.C134_poisson",
    "BF.ErrDis.C134_bernoulli",
    "BF.ErrDis.C134_counterexample_bernoulli",
    "BF.ErrDis.C134_exponential_two",
    "BF.ErrDis.C134_exponential_one"
   ],
   "note": "False of the code for categorical data: the model value is the likelihood of a datum of 0, where the documentation says True (C134_counterexample_bernoulli); C134_bernoulli says what does hold. The documentation of ExponentialErrorDistribution says that its scale is not that of Laplace, which it is for power 1 (C134_exponential_one)."
  },
  {
   "property": "C135",
   "status": "proved",
   "theorems": [
    "BF.Classes.C135_class",
    "BF.Classes.C135_no_class",
    "BF.Classes.C135_gradient",
    "BF.Classes.C135_softmax",
    "BF.Classes.C135_score",
    "BF.Classes.C135_concave",
    "BF.Classes.C135_concave_logistic"
   ],
   "note": "Weights are not accepted by this distribution; a fixed parameter in a softmax model is C77_counterexample_fixed."
  },
  {
   "property": "C136",
   "status": "proved",
   "theorems": [
    "BF.LM.C136_accepts",
    "BF.LM.C136_accurate",
    "BF.LM.C136_parameters",
    "BF.LM.C136_succeeds",
    "BF.LM.C136_cancels",
    "BF.LM.C136_converges"
   ],
   "note": "For models linear in their parameters, without limits. The linear solver is a parameter that solves what it solves and solves all regular systems; the error raised at chi squared zero is excluded by hypothesis in the theorems of success."
  },
  {
   "property": "C137",
   "status": "proved",
   "theorems": [
    "BF.Robust.C137_turn",
    "BF.Robust.C137_descends",
    "BF.Robust.C137_best",
    "BF.Robust.C137_kernels",
    "BF.Robust.C137_penalty",
    "BF.Robust.C137_rest",
    "BF.Robust.C137_huber"
   ],
   "note": "For two-sided fitting (onesided = 0); the inner fitter is any fitter that returns a least squares solution over a set of parameters, and a scale that is not negative. One-sided weights are outside the statement: a residual that changes sides breaks the bound."
  },
  {
   "property": "C138",
   "status": "partial",
   "theorems": [
    "BF.Tree.C138_birth",
    "BF.Tree.C138_counterexample_empty",
    "BF.Tree.C138_counterexample_boolean",
    "BF.Tree.C138_vary",
    "BF.Tree.C138_reach",
    "BF.Tree.C138_counterexample_check"
   ],
   "note": "False in three ways, each proved: one in 2 ^ ncat of the random numbers selects no category at all, half of the random numbers separate no booleans, and a variation can empty the mask, after which the tree fails its own check. Proved: every non-empty set has its own range of random numbers, of the same length; variations move one category and reach every division. For a tree with one branch."
  },
  {
   "property": "C139",
   "status": "proved",
   "theorems": [
    "BF.Engines.C139_random",
    "BF.Engines.C139_gibbs",
    "BF.Engines.C139_step",
    "BF.Engines.C139_chord",
    "BF.Engines.C139_birth",
    "BF.Engines.C139_death",
    "BF.Engines.C139_structure",
    "BF.Engines.C139_galilean",
    "BF.Nested.C139_run"
   ],
   "note": "C139_run is about the sampler with any engines that meet Scaled; the theorems for the engines show that the modelled engines do, with the box in unit space taken from the same phantoms. The Galilean engine interpolates log likelihoods and is only invariant for a factor. Birth and death are stated for growth and removal that do not look at the likelihood."
  },
  {
   "property": "C140",
   "status": "partial",
   "theorems": [
    "BF.Explorer.C140_effort",
    "BF.Explorer.C140_ends",
    "BF.Explorer.C140_rate",
    "BF.Explorer.C140_engines",
    "BF.Explorer.C140_slow",
    "BF.Explorer.C140_counterexample_all_slow"
   ],
   "note": "The last sentence is false of the code: when all engines are slow there are iterations without engines, and the exploration raises as it looks at a walker that it has not chosen (C140_counterexample_all_slow). The rest is proved."
  },
  {
   "property": "C141",
   "status": "partial",
   "theorems": [
    "BF.Nice.C141_nice",
    "BF.Nice.C141_ends",
    "BF.Nice.C141_fix",
    "BF.Nice.C141_counterexample_negative"
   ],
   "note": "The last sentence is false for negative integers, which are rounded to one higher (C141_counterexample_negative); it is proved for the others (C141_fix). The rest is proved for real numbers."
  },
  {
   "property": "C142",
   "status": "proved",
   "theorems": [
    "BF.Engines.C142_random",
    "BF.Engines.C142_gibbs",
    "BF.Engines.C142_step",
    "BF.Engines.C142_chord",
    "BF.Engines.C142_galilean",
    "BF.Engines.C142_start"
   ],
   "note": ""
  },
  {
   "property": "C143",
   "status": "proved",
   "theorems": [
    "BF.Evidence.C143_data",
    "BF.Evidence.C143_terms",
    "BF.Evidence.C143_kept",
    "BF.Evidence.C143_variance"
   ],
   "note": "C143_data, C143_terms and C143_kept are about chi squared, C143_variance about the covariances. Linear models and Fitter without normalization; the linear solver is a parameter that solves the equations (trusted)."
  },
  {
   "property": "C144",
   "status": "partial",
   "theorems": [
    "BF.UnitSpace.C144_list",
    "BF.UnitSpace.C144_back",
    "BF.UnitSpace.C144_round_trip",
    "BF.UnitSpace.C144_all",
    "BF.UnitSpace.C144_box",
    "BF.UnitSpace.C144_no_phantoms",
    "BF.UnitSpace.C144_range",
    "BF.UnitSpace.C144_phantoms",
    "BF.UnitSpace.C144_counterexample_no_prior",
    "BF.UnitSpace.C144_counterexample_short"
   ],
   "note": "Proved with the specification Own. Missing: a hyperparameter without prior becomes zero (C144_counterexample_no_prior), and with less values than parameters the values go to the last hyperparameters (C144_counterexample_short). The box holds at levels above all levels asked before (C41)."
  },
  {
   "property": "C145",
   "status": "partial",
   "theorems": [
    "BF.ErrDis.C145_gauss",
    "BF.ErrDis.C145_poisson",
    "BF.ErrDis.C145_laplace",
    "BF.ErrDis.C145_uniform",
    "BF.ErrDis.C145_order",
    "BF.ErrDis.C145_zero",
    "BF.ErrDis.C145_units",
    "BF.ErrDis.C145_counterexample_bernoulli",
    "BF.ErrDis.C145_counterexample_perfect"
   ],
   "note": "Proved for the Gauss, Poisson, Laplace and uniform distributions. With a Bernoulli distribution the residuals are those at an empty parameter list, because allpars[:-0] is empty: a perfect fit has a scale of 1 (counterexamples)."
  },
  {
   "property": "C146",
   "status": "partial",
   "theorems": [
    "BF.Orders.C146_other",
    "BF.Orders.C146_first",
    "BF.Orders.C146_ends",
    "BF.Orders.C146_uniform",
    "BF.Orders.C146_every",
    "BF.Orders.C146_switch",
    "BF.Orders.C146_move",
    "BF.Orders.C146_counterexample_one"
   ],
   "note": "Proved for two or more parameters; the model of C01 and C122 (Verif.Orders), in which the loop is replaced by its outcome, is shown to have the same outcomes. With one parameter both engines run for ever (counterexample)."
  },
  {
   "property": "C147",
   "status": "partial",
   "theorems": [
    "BF.ErrDis.C147_defined",
    "BF.ErrDis.C147_counterexample_none",
    "BF.ErrDis.C147_sum",
    "BF.ErrDis.C147_outside",
    "BF.ErrDis.C147_between",
    "BF.ErrDis.C147_exchange",
    "BF.ErrDis.C147_same",
    "BF.ErrDis.C147_concave",
    "BF.ErrDis.C147_best"
   ],
   "note": "Proved when the second distribution has hyperparameters. Without them (Poisson, Bernoulli) every likelihood raises (counterexample)."
  },
  {
   "property": "C148",
   "status": "proved",
   "theorems": [
    "BF.Boost.C148_fair",
    "BF.Boost.C148_never",
    "BF.Boost.C148_every",
    "BF.Boost.C148_groups"
   ],
   "note": "Sequences of draws are counted, any number of them. That the loop may run for ever when no phantom is above the level is C109."
  },
  {
   "property": "C149",
   "status": "partial",
   "theorems": [
    "BF.Priors.C149_density",
    "BF.Priors.C149_slope",
    "BF.Priors.C149_exact",
    "BF.Priors.C149_out",
    "BF.Priors.C149_counterexample_edge"
   ],
   "note": "False within deltaP of a limit: numPartialLog tests the point but not the two places where it takes the logarithm (C149_counterexample_edge: plus or minus infinity, or nan). Proved where the whole step is between the limits: exact for uniform, Gauss and Laplace (C149_exact), in the limit of small steps for all kinds (C149_slope, C149_density)."
  },
  {
   "property": "C150",
   "status": "proved",
   "theorems": [
    "BF.Attributes.C150_types",
    "BF.Attributes.C150_fail",
    "BF.Attributes.C150_stored",
    "BF.Attributes.C150_constrain"
   ],
   "note": "All histories of assignments. Not modelled: nan, infinities and complex numbers as values; the scale of a scaled distribution, which is passed on to its hyperparameter; changes within a stored list or array."
  },
  {
   "property": "C151",
   "status": "partial",
   "theorems": [
    "BF.Mixed.C151_index_partial",
    "BF.Mixed.C151_split_partial",
    "BF.Mixed.C151_isMixed",
    "BF.Mixed.C151_copy",
    "BF.Mixed.C151_counterexample_index"
   ],
   "note": "False for indices that are negative or too large: they are accepted, the model is mixed, and all parameters are still reported as non-linear (C151_counterexample_index). Proved for all histories with valid indices (C151_split_partial) and, as a set difference, for all (C151_index_partial)."
  }
 ]
}