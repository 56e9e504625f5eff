{
 "claims": [
  {
   "property": "C01",
   "status": "partial",
   "theorems": [
    "Verif.LU.C01_false",
    "Verif.LU.C01_general",
    "Verif.LU.C01_history_partial",
    "Verif.LU.C01_repeat_partial",
    "Verif.LU.C01_returns_iff",
    "Verif.LU.C01_solve_partial"
   ],
   "note": "False without the fill condition (C01_false): back substitution skips fill-in right of the last stored column of a row. Proved with the fill condition, also after any history; for every accepted matrix: when it returns (C01_returns_iff) and what it computes (C01_general). Any number of right-hand sides one after the other: C01_repeat_partial."
  },
  {
   "property": "C02",
   "status": "proved",
   "theorems": [
    "Verif.LU.C02_accept",
    "Verif.LU.C02_fresh",
    "Verif.LU.C02_readback"
   ],
   "note": "Acceptance iff square stencil covering the diagonal; otherwise an exception, never anything else; read-back; independence of previous contents."
  },
  {
   "property": "C03",
   "status": "proved",
   "theorems": [
    "Verif.LU.C03_factorize_keeps",
    "Verif.LU.C03_solve_keeps"
   ],
   "note": "For every accepted matrix and history; no fill condition needed."
  },
  {
   "property": "C04",
   "status": "proved",
   "theorems": [
    "Verif.LU.C04_addresses",
    "Verif.LU.C04_no_undefined_behaviour"
   ],
   "note": "In-bounds and injective addresses after any history; no call reaches undefined behaviour if the arrays passed are long enough."
  },
  {
   "property": "C05",
   "status": "partial",
   "theorems": [
    "Verif.LU.C05_false",
    "Verif.LU.C05_same_stencil_partial",
    "Verif.LU.C05_solve_partial"
   ],
   "note": "False in general (C05_false). Proved: identical object when the stencil is the same; otherwise either same as setMatrix or correct solve when the old stencil satisfies the fill condition."
  },
  {
   "property": "C06",
   "status": "partial",
   "theorems": [
    "Verif.LU.C06_false",
    "Verif.LU.C06_returns",
    "Verif.LU.C06_secant_partial"
   ],
   "note": "False without the fill condition (C06_false). Proved with fill condition and diagonal reach, after any history; returns when no component of s is zero (C06_returns)."
  },
  {
   "property": "C07",
   "status": "partial",
   "theorems": [
    "Verif.LU.C07_false",
    "Verif.LU.C07_first_row_partial"
   ],
   "note": "False (C07_false): with the fill condition the first row always misses the secant condition when y0 is not zero (C07_first_row_partial)."
  },
  {
   "property": "C08",
   "status": "proved",
   "theorems": [
    "Verif.Sparse.C08_history",
    "Verif.Sparse.C08_inside",
    "Verif.Sparse.C08_resizeFromData",
    "Verif.Sparse.C08_sizeFromData"
   ],
   "note": "Every history of set, increment, remove, clear, resize, makeZero, assign; all accessors and the enumeration."
  },
  {
   "property": "C09",
   "status": "proved",
   "theorems": [
    "Verif.Sparse.C09_queries",
    "Verif.Sparse.C09_transposed_source_false",
    "Verif.Sparse.C09_write"
   ],
   "note": "For every source enumerated in increasing order (all map-backed matrices). Assignment from a transposed view breaks lookup (C09_transposed_source_false), which is outside the claim."
  },
  {
   "property": "C10",
   "status": "proved",
   "theorems": [
    "Verif.Sparse.C10_addScaledIdentity",
    "Verif.Sparse.C10_add_sub",
    "Verif.Sparse.C10_identity",
    "Verif.Sparse.C10_mulVec",
    "Verif.Sparse.C10_product"
   ],
   "note": "Arbitrary ring; columns at most 2^32 (the code's row iteration limit)."
  },
  {
   "property": "C11",
   "status": "partial",
   "theorems": [
    "Verif.Sparse.C11_block_count",
    "Verif.Sparse.C11_block_effects",
    "Verif.Sparse.C11_block_partial",
    "Verif.Sparse.C11_copy_transposed",
    "Verif.Sparse.C11_false",
    "Verif.Sparse.C11_get2_partial",
    "Verif.Sparse.C11_scale",
    "Verif.Sparse.C11_transpose_partial"
   ],
   "note": "False for the two-argument get of block and transposed views (C11_false). Proved for index-pair accessors, enumeration, effects on the source, copies, scaling."
  },
  {
   "property": "C12",
   "status": "partial",
   "theorems": [
    "Verif.Sparse.C12_false",
    "Verif.Sparse.C12_rectangular_partial",
    "Verif.Sparse.C12_square_partial"
   ],
   "note": "False for rectangular matrices (C12_false: wrong size, out-of-bounds write). Proved for square ones; exact behaviour for rectangular ones."
  },
  {
   "property": "C13",
   "status": "proved",
   "theorems": [
    "Verif.Alg.C13_diagonal",
    "Verif.Alg.C13_diagonal_zero",
    "Verif.Alg.C13_order",
    "Verif.Alg.C13_order_value",
    "Verif.Alg.C13_reordered",
    "Verif.Alg.C13_roots"
   ],
   "note": "Any permutation and any nonzero scaling; a zero scale gives an exception or division by zero as stated."
  },
  {
   "property": "C14",
   "status": "partial",
   "theorems": [
    "Verif.Alg.C14_false",
    "Verif.Alg.C14_input",
    "Verif.Alg.C14_map_partial",
    "Verif.Alg.C14_output",
    "Verif.Alg.C14_outputs_only_false",
    "Verif.Alg.C14_short",
    "Verif.Alg.C14_widen_narrow"
   ],
   "note": "Proved when the same set of variables is disabled in input and output; false for different input and output sets (C14_false) and for narrowing of outputs only (C14_outputs_only_false)."
  },
  {
   "property": "C15",
   "status": "proved",
   "theorems": [
    "Verif.Alg.C15_values"
   ],
   "note": "All stencils inside the size (duplicates allowed), all mappings compatible with the stencil."
  },
  {
   "property": "C16",
   "status": "proved",
   "theorems": [
    "Verif.Alg.C16_evaluations",
    "Verif.Alg.C16_partition"
   ],
   "note": "All stencils; the evaluation count also as the number of points the calculation looks at (C16_evaluations)."
  },
  {
   "property": "C17",
   "status": "partial",
   "theorems": [
    "Verif.Alg.C17_threshold",
    "Verif.Alg.C17_threshold_twice",
    "Verif.Alg.C17_width_false",
    "Verif.Alg.C17_width_partial",
    "Verif.Alg.C17_width_twice",
    "Verif.Alg.C17_zero"
   ],
   "note": "Threshold trimmer proved; width trimmer proved for widths below 2^31, beyond that everything is dropped (C17_width_false)."
  },
  {
   "property": "C18",
   "status": "partial",
   "theorems": [
    "Verif.Alg.C18_broyden",
    "Verif.Alg.C18_fake",
    "Verif.Alg.C18_fake_row",
    "Verif.Alg.C18_fake_secant_false",
    "Verif.Alg.C18_false",
    "Verif.Alg.C18_secant_partial"
   ],
   "note": "Exact effect of both updates; the Broyden update satisfies the secant condition when every position it touches is stored, otherwise it throws (C18_broyden, C18_false); the stencil-preserving one only row by row (C18_fake_row), its secant condition is false in general (C18_fake_secant_false)."
  },
  {
   "property": "C19",
   "status": "proved",
   "theorems": [
    "Verif.Alg.C19_full_step",
    "Verif.Alg.C19_search",
    "Verif.Alg.C19_zero"
   ],
   "note": "For all mappings, directions, points, residuals and limits; the norm compared is the square of the Euclidean norm, as in the code. Also shown: ratio zero exactly when no point tried is better, a zero residual gives ratio zero, a sufficient full step is taken after one evaluation. Arithmetic is exact in an ordered field."
  },
  {
   "property": "C20",
   "status": "proved",
   "theorems": [
    "Verif.Alg.C20_converged",
    "Verif.Alg.C20_diverged",
    "Verif.Alg.C20_history"
   ],
   "note": "Stated after every call from every state of the estimator, so after every history. A previous solution zero counts as no change, whatever the new one is. Error observers are not modelled."
  },
  {
   "property": "C21",
   "status": "proved",
   "theorems": [
    "Verif.Alg.C21_residual",
    "Verif.Alg.C21_simple"
   ],
   "note": "For all call sequences on a fixed mapping and every descent direction; the contract of the line search is a hypothesis, shown for the simple line search. A regularization strategy that changes the mapping is outside."
  },
  {
   "property": "C22",
   "status": "proved",
   "theorems": [
    "Verif.Alg.C22_bounds",
    "Verif.Alg.C22_logged",
    "Verif.Alg.C22_returns",
    "Verif.Alg.C22_status",
    "Verif.Alg.C22_stop"
   ],
   "note": "For all behaviours of the components, over arbitrary states; what happened is read off a log of the calls, and C22_logged shows that logging changes nothing. Runs in which a component throws end with that exception."
  },
  {
   "property": "C23",
   "status": "partial",
   "theorems": [
    "Verif.Alg.C23_false",
    "Verif.Alg.C23_partial",
    "Verif.Implicit.C23_euler"
   ],
   "note": "Proved with the exact condition: Diverged is returned when every iteration diverges and the direction allows a restart; otherwise IterationCountLimitExceeded is returned (C23_false, with the library's simple direction and default Jacobian provider)."
  },
  {
   "property": "C24",
   "status": "proved",
   "theorems": [
    "Verif.Alg.C24_fill_false",
    "Verif.Alg.C24_newton"
   ],
   "note": "Simple, constant-Jacobian, Broyden and stencil-preserving Broyden directions, both providers, after any history of calls on the system; the fill condition of the claim cannot be dropped (C24_fill_false)."
  },
  {
   "property": "C25",
   "status": "proved",
   "theorems": [
    "Verif.RK.C25_kernel",
    "Verif.RK.C25_last_stage"
   ],
   "note": "Every tableau with at least one stage, any number of outputs, any buffer contents; outputs taken from the last stage argument included (with one stage such an output is the old buffer, never used by the library)."
  },
  {
   "property": "C26",
   "status": "proved",
   "theorems": [
    "Verif.RK.C26_dopri45",
    "Verif.RK.C26_dopri56",
    "Verif.RK.C26_euler",
    "Verif.RK.C26_rk4"
   ],
   "note": "Statement about the kernel run with the coded coefficients over the reals, for all C^p right-hand sides in any Banach space; order conditions over all planar trees are evaluated in the kernel and lifted by B-series lemmas proved here. DOPRI78 is C27."
  },
  {
   "property": "C27",
   "status": "proved",
   "theorems": [
    "Verif.RK.C27_defects",
    "Verif.RK.C27_exact_false",
    "Verif.RK.C27_local_error"
   ],
   "note": "Defects for all trees and row sums; local error for autonomous right-hand sides; exact order conditions fail (C27_exact_false) because the coefficients are rounded quotients. Time-dependent right-hand sides are not covered by C27_local_error since nodes are not exactly row sums."
  },
  {
   "property": "C28",
   "status": "proved",
   "theorems": [
    "Verif.RK.C28_history",
    "Verif.RK.C28_iterate"
   ],
   "note": "All call histories with a quiet event controller (or none; C43_no_functions: a controller without event functions is quiet), any tableau; the event case is C42. setInitialStepSize takes effect only after the next setInitialState."
  },
  {
   "property": "C29",
   "status": "proved",
   "theorems": [
    "Verif.RK.C29_acceptance",
    "Verif.RK.C29_default",
    "Verif.RK.C29_growth",
    "Verif.RK.C29_rejection",
    "Verif.RK.C29_value"
   ],
   "note": "Over the reals with the real power function; acceptance in terms of the tolerance, exact value of the new step, bounds."
  },
  {
   "property": "C30",
   "status": "proved",
   "theorems": [
    "Verif.RK.C30_attempt",
    "Verif.RK.C30_doStep",
    "Verif.RK.C30_quiet",
    "Verif.RK.C30_terminates",
    "Verif.RK.C30_terminates_bounded",
    "Verif.RK.C30_terminates_hMin",
    "Verif.RK.C30_total"
   ],
   "note": "Any event controller, norm and step size controller for atomicity; termination for the simple controller with positive minimal step (with explicit bound) or bounded right-hand side."
  },
  {
   "property": "C31",
   "status": "partial",
   "theorems": [
    "Verif.RK.C31_false",
    "Verif.RK.C31_partial"
   ],
   "note": "False on the accepted path (C31_false). Proved for the simple controller with incMin >= 1 and a step above the minimum."
  },
  {
   "property": "C32",
   "status": "proved",
   "theorems": [
    "Verif.Extrap.C32_neville",
    "Verif.Extrap.C32_unique"
   ],
   "note": "For every table of stage results, any symmetric flag, any increasing positive step numbers."
  },
  {
   "property": "C33",
   "status": "proved",
   "theorems": [
    "Verif.Extrap.C33_bulirsch",
    "Verif.Extrap.C33_harmonic",
    "Verif.Extrap.C33_increasing",
    "Verif.Extrap.C33_romberg",
    "Verif.Extrap.C33_size"
   ],
   "note": "All three sequences up to the exact bound at which int overflows."
  },
  {
   "property": "C34",
   "status": "partial",
   "theorems": [
    "Verif.Extrap.C34_cache",
    "Verif.Extrap.C34_constant",
    "Verif.Extrap.C34_false",
    "Verif.Extrap.C34_recursion",
    "Verif.Extrap.C34_symmetric_partial"
   ],
   "note": "Recursion, exactness for a constant right-hand side, validity of the stored derivative over all histories and symmetry of the step on the pair of sequences proved; symmetry is false through the interface, since setting the step size restarts the sequences (C34_false)."
  },
  {
   "property": "C35",
   "status": "proved",
   "theorems": [
    "Verif.Implicit.C35_all",
    "Verif.Implicit.C35_step"
   ],
   "note": "When doStep succeeds the equations hold exactly in positions and within the Newton solver's absolute tolerance elsewhere; exactly everywhere when the residual is zero (C35_all). Exact arithmetic."
  },
  {
   "property": "C36",
   "status": "proved",
   "theorems": [
    "Verif.Implicit.C36_calls",
    "Verif.Implicit.C36_sizes"
   ],
   "note": "Fixed right-hand side, as in the statement; see C89 for replacing it."
  },
  {
   "property": "C37",
   "status": "proved",
   "theorems": [
    "Verif.Ros.C37_linSolve",
    "Verif.Ros.C37_mult"
   ],
   "note": "Exact arithmetic. linSolve solves the whole system with the factorization in use; the leading minors of W are nonzero and the pattern satisfies the fill condition of the sparse factorizer (both are needed, see C24). mult multiplies by the whole Jacobian."
  },
  {
   "property": "C38",
   "status": "partial",
   "theorems": [
    "Verif.Ros.C38_affine",
    "Verif.Ros.C38_false",
    "Verif.Ros.C38_firstOrder",
    "Verif.Ros.C38_partial"
   ],
   "note": "False when there are second-order variables: columns of J1 are computed for the first n1 velocities only, the other velocity columns and the first-order variables are missing (C38_false: a damped oscillator). True without second-order variables (C38_firstOrder, C38_affine); C38_partial says which elements are right in general."
  },
  {
   "property": "C39",
   "status": "partial",
   "theorems": [
    "Verif.Ros.C39_false",
    "Verif.Ros.C39_partial",
    "Verif.Ros.C39_stays"
   ],
   "note": "The cached factorization in use is that of the current Jacobians and hd, for every history of nonzero hd (C39_partial, C39_stays), and the cache holds at most 100. False for hd = 0: updateW returns without a factorization, linSolve dereferences a null pointer (C39_false)."
  },
  {
   "property": "C40",
   "status": "partial",
   "theorems": [
    "Verif.Ros.C40_false",
    "Verif.Ros.C40_order",
    "Verif.Ros.C40_partial",
    "Verif.Ros.C40_stale"
   ],
   "note": "True for the first attempt of every step (C40_partial). False after a rejected attempt (C40_stale, C40_false): initStep is called once per doStep, so the second attempt uses the factorization of the rejected step; its local error is h^2 (rho-1) d J f + O(h^3), not O(h^3) (C40_order, for systems without second-order variables)."
  },
  {
   "property": "C41",
   "status": "proved",
   "theorems": [
    "Verif.Ros.C41_order"
   ],
   "note": "Stronger than stated: for every C^2 right-hand side f(t,x), and for the Jacobian that the solver has, be it computed now or in an earlier step. First attempts only: see C40. Real arithmetic; without an event controller; the pattern of the Jacobian satisfies the fill condition of the factorizer."
  },
  {
   "property": "C42",
   "status": "partial",
   "theorems": [
    "Verif.Event.C42_landing_false",
    "Verif.Event.C42_partial",
    "Verif.Event.C42_restart",
    "Verif.Event.C42_run_partial",
    "Verif.Event.C42_time_false",
    "Verif.Event.C42_time_partial"
   ],
   "note": "False in general: time can go back (C42_time_false) and landing exactly on a zero throws (C42_landing_false). Proved for steps from states on the watched side, over all reachable controller states and all proposed end states."
  },
  {
   "property": "C43",
   "status": "partial",
   "theorems": [
    "Verif.Event.C43_false",
    "Verif.Event.C43_no_functions",
    "Verif.Event.C43_partial",
    "Verif.Event.C43_step"
   ],
   "note": "False when a one-sided function starts on the unwatched side (C43_false). Proved: functions that keep their sign never give an event over chains of steps of any length; nothing happens without event functions."
  },
  {
   "property": "C44",
   "status": "proved",
   "theorems": [
    "Verif.Driver.C44_fixed",
    "Verif.Driver.C44_needs_bound",
    "Verif.Driver.C44_noRhs",
    "Verif.Driver.C44_overshoot",
    "Verif.Driver.C44_returns",
    "Verif.Driver.C44_terminates",
    "Verif.Driver.C44_throws"
   ],
   "note": "For any solver as a step function: solveOde returns exactly after the first step that reaches start+duration, all earlier ones end before it; exceptions of a step or of an output end the run; terminates when steps are bounded below (witness: without the bound it need not); overshoot is less than the last step. Instance: the fixed-step explicit Runge-Kutta solver of the model."
  },
  {
   "property": "C45",
   "status": "proved",
   "theorems": [
    "Verif.Driver.C45_always",
    "Verif.Driver.C45_call",
    "Verif.Driver.C45_dense",
    "Verif.Driver.C45_history"
   ],
   "note": "One call, histories of calls, and the gaps between outputs; the case of timing <= 0. Exact arithmetic: the code compares quotients, which over an ordered field is the same as comparing differences."
  },
  {
   "property": "C46",
   "status": "partial",
   "theorems": [
    "Verif.Driver.C46_increasing",
    "Verif.Driver.C46_indices",
    "Verif.Driver.C46_indices_false",
    "Verif.Driver.C46_indices_second",
    "Verif.Driver.C46_names",
    "Verif.Vec.C46_huge_false",
    "Verif.Vec.C46_toString"
   ],
   "note": "Proved for vectors and for the components of the solution output up to 2^31 components; false beyond (C46_huge_false, C46_indices_false: 32-bit overflow of the doubled limit, the loop never ends). Also names in the header are distinct."
  },
  {
   "property": "C47",
   "status": "partial",
   "theorems": [
    "Verif.Driver.C47_huge_false",
    "Verif.Driver.C47_names",
    "Verif.Driver.C47_ndigits"
   ],
   "note": "Proved for up to 2^31 variables with exact log10; false beyond (C47_huge_false: the index is printed as a negative int)."
  },
  {
   "property": "C48",
   "status": "proved",
   "theorems": [
    "Verif.Driver.C48_changed",
    "Verif.Driver.C48_exact",
    "Verif.Driver.C48_fixed",
    "Verif.Driver.C48_iteration",
    "Verif.Driver.C48_leading",
    "Verif.Driver.C48_run"
   ],
   "note": "Bookkeeping for any solver (C48_iteration, C48_changed); samples of whole runs for plain solvers and for the fixed-step explicit ones (C48_run, C48_fixed); the reported value is exact result minus whole step exactly when errors are C h^(p+1) and the flow carries differences unchanged (C48_exact), and up to o(h^(p+1)) in general (C48_leading)."
  },
  {
   "property": "C49",
   "status": "proved",
   "theorems": [
    "Verif.Infra.C49_add",
    "Verif.Infra.C49_call",
    "Verif.Infra.C49_order",
    "Verif.Infra.C49_remove"
   ],
   "note": "All histories; add is undefined only when the largest identifier is the largest int."
  },
  {
   "property": "C50",
   "status": "partial",
   "theorems": [
    "Verif.Infra.C50_false",
    "Verif.Infra.C50_partial"
   ],
   "note": "False: identifiers are reused (C50_false). Proved when an element registered later stays registered."
  },
  {
   "property": "C51",
   "status": "proved",
   "theorems": [
    "Verif.Infra.C51_or",
    "Verif.Infra.C51_total"
   ],
   "note": "All histories and callbacks, including callbacks that throw."
  },
  {
   "property": "C52",
   "status": "proved",
   "theorems": [
    "Verif.Infra.C52_items",
    "Verif.Infra.C52_parse",
    "Verif.Infra.C52_round_trip"
   ],
   "note": "All texts and paths (text shorter than 2^32)."
  },
  {
   "property": "C53",
   "status": "proved",
   "theorems": [
    "Verif.Infra.C53_assign",
    "Verif.Infra.C53_dangling",
    "Verif.Infra.C53_find",
    "Verif.Infra.C53_load"
   ],
   "note": "Every well-formed heap of parameter sets; the update theorem for trees (nothing shared), see C72 for shared sets."
  },
  {
   "property": "C54",
   "status": "proved",
   "theorems": [
    "Verif.Util.C54_mean",
    "Verif.Util.C54_merge",
    "Verif.Util.C54_stats",
    "Verif.Util.C54_timing",
    "Verif.Util.C54_timing_average"
   ],
   "note": "Statistics of any sample list: count, sum, sum of squares, least upper bound, merge = concatenation, mean; timing statistics likewise. Exact arithmetic."
  },
  {
   "property": "C55",
   "status": "partial",
   "theorems": [
    "Verif.Util.C55_false",
    "Verif.Util.C55_only_zero_partial"
   ],
   "note": "The claim is false of the code (C55_false); proved: the reported value is the deviation exactly when all samples are zero."
  },
  {
   "property": "C56",
   "status": "proved",
   "theorems": [
    "Verif.Util.C56_modd",
    "Verif.Util.C56_modp",
    "Verif.Util.C56_modp_undefined",
    "Verif.Util.C56_roundi"
   ],
   "note": "All int values except INT_MIN (undefined behaviour, shown); all positive periods."
  },
  {
   "property": "C57",
   "status": "proved",
   "theorems": [
    "Verif.Util.C57_basis",
    "Verif.Util.C57_derivatives",
    "Verif.Util.C57_ends",
    "Verif.Util.C57_eval",
    "Verif.Util.C57_scaled",
    "Verif.Util.Cubic.C57_scaled_derivatives"
   ],
   "note": "Over any commutative ring; derivatives as formal polynomial derivatives of the code run on the indeterminate."
  },
  {
   "property": "C58",
   "status": "proved",
   "theorems": [
    "Verif.TestModels.C58_impact",
    "Verif.TestModels.C58_stick_iff",
    "Verif.TestModels.C58_sticking"
   ],
   "note": "All velocities and parameters; sticking state characterised."
  },
  {
   "property": "C59",
   "status": "proved",
   "theorems": [
    "Verif.TestModels.C59_energy"
   ],
   "note": "Energy is constant along every solution, any number of oscillators, any parameters."
  },
  {
   "property": "C60",
   "status": "proved",
   "theorems": [
    "Verif.Util.C60_format",
    "Verif.Util.C60_injective",
    "Verif.Util.C60_msec_injective",
    "Verif.Util.C60_wraps"
   ],
   "note": "For spans below 2^32 hours; beyond that the text is ambiguous (C60_wraps)."
  },
  {
   "property": "C61",
   "status": "partial",
   "theorems": [
    "Verif.LU.C61_false",
    "Verif.LU.C61_nonsquare_partial"
   ],
   "note": "False (C61_false); holds for the non-square rejection."
  },
  {
   "property": "C62",
   "status": "partial",
   "theorems": [
    "Verif.LU.C62_false",
    "Verif.LU.C62_history_partial",
    "Verif.LU.C62_luToMatrix"
   ],
   "note": "Proved for any number of solves without conditions (C62_luToMatrix); after secant updates with the fill condition (C62_history_partial). Without the fill condition the property is false after one Hart update (C62_false): elementAt reports a non-zero element at a position the returned matrix lacks."
  },
  {
   "property": "C63",
   "status": "partial",
   "theorems": [
    "Verif.Sparse.C63_assign_empty",
    "Verif.Sparse.C63_copy_partial",
    "Verif.Sparse.C63_false",
    "Verif.Sparse.C63_self_add_exact",
    "Verif.Sparse.C63_self_add_partial"
   ],
   "note": "False (C63_false): the destination is cleared before the view of it is read. Proved when a copy is made first. Adding a matrix's own transposed view is modelled with the live view (C63_self_add_exact: what the code computes; C63_self_add_partial)."
  },
  {
   "property": "C64",
   "status": "proved",
   "theorems": [
    "Verif.Sparse.C64_matrix_norms",
    "Verif.Vec.C64_vector"
   ],
   "note": "Matrix norms over any ordered commutative ring."
  },
  {
   "property": "C65",
   "status": "partial",
   "theorems": [
    "Verif.Vec.C65_assign",
    "Verif.Vec.C65_clear",
    "Verif.Vec.C65_defined",
    "Verif.Vec.C65_long_assign_false",
    "Verif.Vec.C65_short_block_false",
    "Verif.Vec.C65_shorter_partial",
    "Verif.Vec.C65_update",
    "Verif.Vec.C65_values"
   ],
   "note": "Proved for valid operands, with mismatch reported for operands without blocks; false for a short block operand (read beyond the block, C65_short_block_false) and for assigning a longer vector to a block (C65_long_assign_false)."
  },
  {
   "property": "C66",
   "status": "partial",
   "theorems": [
    "Verif.RK.C66_first_step_false",
    "Verif.RK.C66_later_steps_partial"
   ],
   "note": "False for the first step of a run (C66_first_step_false); true for the later steps."
  },
  {
   "property": "C67",
   "status": "proved",
   "theorems": [
    "Verif.TestModels.C67_above_ground",
    "Verif.TestModels.C67_after_impact",
    "Verif.TestModels.C67_no_fault"
   ],
   "note": "All runs and all proposed states with the default controller."
  },
  {
   "property": "C68",
   "status": "partial",
   "theorems": [
    "Verif.Vec.C68_assign_own_block_false",
    "Verif.Vec.C68_overlap_false",
    "Verif.Vec.C68_self_partial"
   ],
   "note": "False when the operand overlaps from below (C68_overlap_false) and for assignment of an own block (C68_assign_own_block_false: always undefined). Proved otherwise: C68_self_partial and, through the safe-overlap condition, C65_update and C65_assign."
  },
  {
   "property": "C69",
   "status": "partial",
   "theorems": [
    "Verif.Infra.C69_partial",
    "Verif.Infra.C69_self_remove_false"
   ],
   "note": "False: a callback that removes itself makes the call undefined (C69_self_remove_false). Proved for calls that return."
  },
  {
   "property": "C70",
   "status": "partial",
   "theorems": [
    "Verif.Infra.C70_clear_false",
    "Verif.Infra.C70_defined",
    "Verif.Infra.C70_partial"
   ],
   "note": "Proved without clear; false when clear is called while a scope is open (C70_clear_false)."
  },
  {
   "property": "C71",
   "status": "proved",
   "theorems": [
    "Verif.Infra.C71_cycle_never_returns",
    "Verif.Infra.C71_forward"
   ],
   "note": "Networks of any depth without cycles; a cycle never returns."
  },
  {
   "property": "C72",
   "status": "partial",
   "theorems": [
    "Verif.Infra.C72_copy_false",
    "Verif.Infra.C72_partial"
   ],
   "note": "False for nested values (C72_copy_false); proved for values of the copied set itself."
  },
  {
   "property": "C73",
   "status": "partial",
   "theorems": [
    "Verif.Infra.C73_partial",
    "Verif.Infra.C73_rejected_false"
   ],
   "note": "False after a rejected setting (C73_rejected_false); proved for all histories of accepted settings."
  },
  {
   "property": "C74",
   "status": "partial",
   "theorems": [
    "Verif.Infra.C74_bool",
    "Verif.Infra.C74_double_false",
    "Verif.Infra.C74_double_partial",
    "Verif.Infra.C74_int",
    "Verif.Infra.C74_toInt",
    "Verif.Infra.C74_unsigned_false",
    "Verif.Infra.C74_unsigned_partial"
   ],
   "note": "Int and bool proved; false for unsigned (C74_unsigned_false) and double (C74_double_false), with what holds proved."
  },
  {
   "property": "C75",
   "status": "partial",
   "theorems": [
    "Verif.Infra.C75_hex",
    "Verif.Infra.C75_identifier_false",
    "Verif.Infra.C75_identifier_partial",
    "Verif.Infra.C75_integer",
    "Verif.Infra.C75_number"
   ],
   "note": "Numbers proved exactly; IsIdentifier is wrong (C75_identifier_false)."
  },
  {
   "property": "C76",
   "status": "partial",
   "theorems": [
    "Verif.Infra.C76_partial",
    "Verif.Infra.C76_taken_false"
   ],
   "note": "Proved when identifiers and types correspond one to one; false otherwise (C76_taken_false)."
  },
  {
   "property": "C77",
   "status": "partial",
   "theorems": [
    "Verif.Infra.C77_false",
    "Verif.Infra.C77_partial"
   ],
   "note": "False (C77_false); texts without empty items proved."
  },
  {
   "property": "C78",
   "status": "partial",
   "theorems": [
    "Verif.Extrap.C78_false",
    "Verif.Extrap.C78_gragg_partial",
    "Verif.Extrap.C78_rk4_false",
    "Verif.Extrap.C78_rk_partial",
    "Verif.Extrap.C78_steps"
   ],
   "note": "Proved for consistent Runge-Kutta references of declared order 1 and for the Gragg reference with the flag symmetric, for all numbers of stages and all sequences; false for the default flag with the Gragg reference (C78_false) and for the default flag with the classical Runge-Kutta reference and two stages, where order 5 is reported and the order is 4 (C78_rk4_false)."
  },
  {
   "property": "C79",
   "status": "partial",
   "theorems": [
    "Verif.Extrap.C79_more_stages_false",
    "Verif.Extrap.C79_no_reference_false",
    "Verif.Extrap.C79_no_stages_false",
    "Verif.Extrap.C79_one_stage_false",
    "Verif.Extrap.C79_partial",
    "Verif.Extrap.C79_value"
   ],
   "note": "False with one stage and the error check, when the number of stages is raised between steps, and when setInitialState is called without a reference solver; proved for every history of calls otherwise."
  },
  {
   "property": "C80",
   "status": "partial",
   "theorems": [
    "Verif.Extrap.C80_false",
    "Verif.Extrap.C80_partial"
   ],
   "note": "False when the controller changes the step size (C80_false); proved otherwise."
  },
  {
   "property": "C81",
   "status": "partial",
   "theorems": [
    "Verif.Extrap.C81_gragg_false",
    "Verif.Extrap.C81_partial",
    "Verif.Extrap.C81_rk_partial"
   ],
   "note": "False for the Gragg solver (C81_gragg_false); proved for the extrapolator and the Runge-Kutta solvers."
  },
  {
   "property": "C82",
   "status": "proved",
   "theorems": [
    "Verif.Alg.C82_affine",
    "Verif.Alg.C82_differences"
   ],
   "note": "All mappings that return on the points looked at."
  },
  {
   "property": "C83",
   "status": "proved",
   "theorems": [
    "Verif.Alg.C83_roots",
    "Verif.Alg.C83_unit_diagonal"
   ],
   "note": "Roots over any field, unit diagonal over the reals with the real square root."
  },
  {
   "property": "C84",
   "status": "partial",
   "theorems": [
    "Verif.Alg.C84_default",
    "Verif.Alg.C84_false",
    "Verif.Alg.C84_sparse_partial",
    "Verif.Alg.C84_trimmer_false",
    "Verif.Alg.C84_trimmer_ub"
   ],
   "note": "Default provider proved; sparse provider proved when the stored positions cover the dependencies, false otherwise (C84_false) and when a trimmer is set and removed (C84_trimmer_false, C84_trimmer_ub)."
  },
  {
   "property": "C85",
   "status": "partial",
   "theorems": [
    "Verif.Alg.C85_false",
    "Verif.Alg.C85_mayHelp",
    "Verif.Alg.C85_reset_partial",
    "Verif.Implicit.C85_euler",
    "Verif.Implicit.C85_implicit_pending"
   ],
   "note": "Proved for all directions and providers except the two eager Broyden directions with the default provider, for which it is false (C85_false)."
  },
  {
   "property": "C86",
   "status": "partial",
   "theorems": [
    "Verif.Alg.C86_false",
    "Verif.Alg.C86_lazy_false",
    "Verif.Alg.C86_lazy_partial",
    "Verif.Alg.C86_solves_partial"
   ],
   "note": "Proved for the simple, constant, Broyden and stencil-preserving Broyden directions when the stencil never changes and satisfies the fill condition (C86_solves_partial), and for the lazy one if moreover the first call after a reset has iteration number 0 (C86_lazy_partial); false otherwise (C86_false, C86_lazy_false). For the Hart direction, whose matrix is not the Jacobian of the provider, see C112."
  },
  {
   "property": "C87",
   "status": "partial",
   "theorems": [
    "Verif.Alg.C87_false",
    "Verif.Alg.C87_partial"
   ],
   "note": "Proved when the threshold for relative changes is off, the guess is zero, or the root is closer to the guess than the threshold; false otherwise (C87_false: x - 12 from 1 with the library's defaults). Exact arithmetic."
  },
  {
   "property": "C88",
   "status": "proved",
   "theorems": [
    "Verif.Alg.C88_converged",
    "Verif.Alg.C88_decrease"
   ],
   "note": "Exact arithmetic; the mapping must not change during the run."
  },
  {
   "property": "C89",
   "status": "partial",
   "theorems": [
    "Verif.Implicit.C89_false",
    "Verif.Implicit.C89_partial"
   ],
   "note": "False in general (C89_false: setOdeRhs does not invalidate the cache). C89_partial: right-hand sides replaced before a call that sets the state, the step or alpha."
  },
  {
   "property": "C90",
   "status": "proved",
   "theorems": [
    "Verif.Implicit.C90_contractive",
    "Verif.Implicit.C90_stable"
   ],
   "note": "About states satisfying the equations exactly (tolerance 0), which C35_step gives for the solver."
  },
  {
   "property": "C92",
   "status": "proved",
   "theorems": [
    "Verif.Ros.C92_leading",
    "Verif.Ros.C92_order",
    "Verif.Ros.C92_second",
    "Verif.Ros.C92_sharp",
    "Verif.Ros.C92_step"
   ],
   "note": "Real arithmetic; without an event controller; the pattern of the Jacobian satisfies the fill condition of the factorizer. C92_sharp: order 2 fails whenever the coefficient does not vanish."
  },
  {
   "property": "C93",
   "status": "proved",
   "theorems": [
    "Verif.Ros.C93_estimate"
   ],
   "note": "Real arithmetic; without an event controller; first attempts of steps."
  },
  {
   "property": "C91",
   "status": "partial",
   "theorems": [
    "Verif.Ros.C91_SW_false",
    "Verif.Ros.C91_SW_moved",
    "Verif.Ros.C91_SW_partial",
    "Verif.Ros.C91_SW_soft",
    "Verif.Ros.C91_W1_false",
    "Verif.Ros.C91_W1_partial"
   ],
   "note": "True except for the event controller (C91_W1_partial, C91_SW_partial: literally equal results for any two earlier states that agree in the state of the event controller and the observer log). False with an event controller: unlike the explicit solvers, these never call its reset, so phases of the earlier run stay (C91_W1_false, C91_SW_false)."
  },
  {
   "property": "C94",
   "status": "partial",
   "theorems": [
    "Verif.Driver.C94_columns",
    "Verif.Driver.C94_columns_complete",
    "Verif.Driver.C94_rows_false",
    "Verif.Driver.C94_rows_gaps",
    "Verif.Driver.C94_rows_partial"
   ],
   "note": "False for the first two rows of the row output (C94_rows_false: the initial row does not inform the time filter); everything else is proved for rows, and the full claim for columns."
  },
  {
   "property": "C95",
   "status": "partial",
   "theorems": [
    "Verif.Driver.C95_average",
    "Verif.Driver.C95_counts",
    "Verif.Driver.C95_elapsed_false",
    "Verif.Driver.C95_elapsed_partial",
    "Verif.Driver.C95_fixed",
    "Verif.Driver.C95_rhs"
   ],
   "note": "Counts, mean, elapsed time for whole steps; false with steps truncated at events (C95_elapsed_false: the full step size is summed). 32-bit wrap of counters not modelled."
  },
  {
   "property": "C96",
   "status": "partial",
   "theorems": [
    "Verif.Driver.C96_noRhs_false",
    "Verif.Driver.C96_noSolver",
    "Verif.Driver.C96_passed",
    "Verif.Driver.C96_size_false",
    "Verif.Driver.C96_specified"
   ],
   "note": "False: initial state given without right-hand side dereferences null (C96_noRhs_false); a state passed to apply is not checked (C96_size_false). The rest is proved."
  },
  {
   "property": "C97",
   "status": "partial",
   "theorems": [
    "Verif.Driver.C97_named",
    "Verif.Driver.C97_negative",
    "Verif.Driver.C97_roundtrip_partial",
    "Verif.Driver.C97_set",
    "Verif.Driver.C97_shrink_false"
   ],
   "note": "False when the object gets smaller: undefined behaviour (C97_shrink_false). Round trip proved otherwise."
  },
  {
   "property": "C98",
   "status": "partial",
   "theorems": [
    "Verif.Driver.C98_false",
    "Verif.Driver.C98_partial"
   ],
   "note": "False after a truncated half step (C98_false). Proved for the explicit fixed-step solvers when no step is truncated (C98_partial)."
  },
  {
   "property": "C99",
   "status": "proved",
   "theorems": [
    "Verif.Driver.C99_table"
   ],
   "note": "For up to 2^31 variables and column vectors of at least that many components."
  },
  {
   "property": "C100",
   "status": "proved",
   "theorems": [
    "Verif.Driver.C100_lines",
    "Verif.Driver.C100_timed"
   ],
   "note": "Lines as tuples of the values written; the text is not modelled. 32-bit wrap of the counter not modelled."
  },
  {
   "property": "C101",
   "status": "proved",
   "theorems": [
    "Verif.RK.C101_dopri45",
    "Verif.RK.C101_dopri45_unchecked",
    "Verif.RK.C101_dopri56",
    "Verif.RK.C101_dopri56_unchecked",
    "Verif.RK.C101_euler",
    "Verif.RK.C101_rk4"
   ],
   "note": "Exact arithmetic; event controllers that never interfere (Quiet). The constants C, h\u2080 exist but are not computed. DOPRI78 is left out: its coefficients are rounded decimals that satisfy no order condition exactly (C27)."
  },
  {
   "property": "C102",
   "status": "proved",
   "theorems": [
    "Verif.TestModels.C102_energy",
    "Verif.TestModels.C102_lipschitz",
    "Verif.TestModels.C102_opposes",
    "Verif.TestModels.C102_text"
   ],
   "note": "Exact real arithmetic. Numeric parameters are taken as already converted (conversion: C74)."
  },
  {
   "property": "C103",
   "status": "proved",
   "theorems": [
    "Verif.TestModels.C103_energy",
    "Verif.TestModels.C103_euler",
    "Verif.TestModels.C103_implicit",
    "Verif.TestModels.C103_rk4",
    "Verif.TestModels.C103_rk4_stable"
   ],
   "note": "Exact arithmetic; event controllers that never interfere; implicit steps without residual (the residual left by Newton iterations is bounded in C35)."
  },
  {
   "property": "C104",
   "status": "partial",
   "theorems": [
    "Verif.TestModels.C104_constructor_false",
    "Verif.TestModels.C104_constructor_partial",
    "Verif.TestModels.C104_explicit",
    "Verif.TestModels.C104_implicit",
    "Verif.TestModels.C104_parameter",
    "Verif.TestModels.C104_solution"
   ],
   "note": "False for the constructor: its parameter is unsigned int, so StiffOde1D(0.5) is y' = 0 (C104_constructor_false); whole numbers are kept (C104_constructor_partial). The rest is proved."
  },
  {
   "property": "C105",
   "status": "proved",
   "theorems": [
    "Verif.Ros.C105_sw2",
    "Verif.Ros.C105_sw2_unchecked",
    "Verif.Ros.C105_w1"
   ],
   "note": "SW2(4) with passes rejected inside a step is not covered: a rejected pass leaves the factorization of the old step size (C40), and the order is lost."
  },
  {
   "property": "C106",
   "status": "proved",
   "theorems": [
    "Verif.Implicit.C106_converges"
   ],
   "note": ""
  },
  {
   "property": "C107",
   "status": "partial",
   "theorems": [
    "Verif.Wiring.C107_false",
    "Verif.Wiring.C107_frame",
    "Verif.Wiring.C107_independent",
    "Verif.Wiring.C107_partial",
    "Verif.Wiring.C107_regularization",
    "Verif.Wiring.C107_shared_false"
   ],
   "note": "Proved for all histories without replacing the iteration performer (C107_partial), for the regularization strategy and all histories (C107_regularization), for solvers without common objects (C107_frame, C107_independent). False when the performer is replaced: the mapping is lost (C107_false); false for a direction used by two solvers (C107_shared_false)."
  },
  {
   "property": "C108",
   "status": "partial",
   "theorems": [
    "Verif.Wiring.C108_ddir_false",
    "Verif.Wiring.C108_partial"
   ],
   "note": "Proved for calls that keep the performer and give directions that have a Jacobian provider (C108_partial). False for a new direction, as in the test programs of the repository (C108_ddir_false): it has no Jacobian provider, the one in use is dropped, and run dereferences a null pointer."
  },
  {
   "property": "C109",
   "status": "partial",
   "theorems": [
    "Verif.Wiring.C109_all",
    "Verif.Wiring.C109_complete",
    "Verif.Wiring.C109_ddir_false",
    "Verif.Wiring.C109_itperf_false",
    "Verif.Wiring.C109_partial",
    "Verif.Wiring.C109_roundtrip_false",
    "Verif.Wiring.C109_roundtrip_partial"
   ],
   "note": "Proved up to the mapping (C109_roundtrip_partial), and for subsets without itperf, with ddir only together with jacobian (C109_partial), and for all parameters together (C109_all). False: setting the parameters that were read loses the mapping (C109_roundtrip_false); ddir alone loses the Jacobian provider, then even parameters() is undefined (C109_ddir_false); itperf alone loses everything and leaves the regularization strategy with the former components (C109_itperf_false)."
  },
  {
   "property": "C110",
   "status": "partial",
   "theorems": [
    "Verif.Wiring.C110_false",
    "Verif.Wiring.C110_forwarded_false",
    "Verif.Wiring.C110_new",
    "Verif.Wiring.C110_setAlgsolver",
    "Verif.Wiring.C110_setNewtonSolver",
    "Verif.Wiring.C110_setReorder"
   ],
   "note": "Proved for construction, setNewtonSolver, setReorder, and algsolver with all parameters. False for algsolver with a direction and no Jacobian provider (C110_false); iterations are forwarded twice when the same Newton solver is set again (C110_forwarded_false)."
  },
  {
   "property": "C111",
   "status": "partial",
   "theorems": [
    "Verif.Alg.C111_false",
    "Verif.Alg.C111_partial"
   ],
   "note": "Proved when the initial guess is set after the change (C111_partial), as the implicit Euler solver does. False otherwise (C111_false): the residual of the former equation is kept, and a run can return Converged far from a solution; src/test_ode_time_stepper.cpp is written like that."
  },
  {
   "property": "C112",
   "status": "partial",
   "theorems": [
    "Verif.Alg.C112_false",
    "Verif.Alg.C112_first",
    "Verif.Alg.C112_secant_partial",
    "Verif.Alg.C112_soft"
   ],
   "note": "Proved for Jacobians whose stencil satisfies the conditions of the factorizer (C112_first, C112_secant_partial, C112_soft). False otherwise (C112_false), as for C06."
  },
  {
   "property": "C113",
   "status": "partial",
   "theorems": [
    "Verif.Alg.C113_false",
    "Verif.Alg.C113_later",
    "Verif.Alg.C113_leave",
    "Verif.Alg.C113_recompute",
    "Verif.Alg.C113_secant_partial",
    "Verif.Alg.C113_update"
   ],
   "note": "When the Jacobian is computed, kept or updated: C113_recompute, C113_later, C113_leave. The update is the sum of the rank-one updates of all steps, each relative to the old Jacobian (C113_update). Secant condition only for runs of one step (C113_secant_partial); false for longer runs (C113_false: x^2 = 0 from 1, the new Jacobian is negative)."
  },
  {
   "property": "C114",
   "status": "partial",
   "theorems": [
    "Verif.Extrap.C114_false",
    "Verif.Extrap.C114_gragg",
    "Verif.Extrap.C114_rk",
    "Verif.Extrap.C114_rk4",
    "Verif.Extrap.C114_steps"
   ],
   "note": "Proved: any consistent explicit Runge-Kutta reference, flag off: order at least the number of stages (C114_rk; the reported order when the declared order of the reference is 1); Gragg with the flag symmetric: twice the number of stages, as reported (C114_gragg); classical Runge-Kutta reference: order 4 (C114_rk4). Runs exist (C114_steps). False for the classical Runge-Kutta reference with two stages and the default flag: reports 5, order is 4 (C114_false)."
  },
  {
   "property": "C115",
   "status": "partial",
   "theorems": [
    "Verif.Extrap.C115_false",
    "Verif.Extrap.C115_gragg_partial",
    "Verif.Extrap.C115_rk_partial"
   ],
   "note": "Proved for consistent Runge-Kutta references of declared order 1 (C115_rk_partial) and for the Gragg reference with the flag symmetric (C115_gragg_partial). False for the classical Runge-Kutta reference with three stages: the controller is told order 5, the estimate has order 4 (C115_false)."
  },
  {
   "property": "C116",
   "status": "partial",
   "theorems": [
    "Verif.Event.C116_embedded",
    "Verif.Event.C116_extrapolator_partial",
    "Verif.Event.C116_false",
    "Verif.Event.C116_fixed",
    "Verif.Event.C116_gragg",
    "Verif.Event.C116_implicit",
    "Verif.Event.C116_sw24",
    "Verif.Event.C116_w1"
   ],
   "note": "Proved for the explicit solvers (C116_fixed, C116_embedded), Gragg (C116_gragg), both Rosenbrock solvers (C116_w1, C116_sw24), implicit Euler (C116_implicit), and for the extrapolator with the reference solver left as it is (C116_extrapolator_partial). False for the extrapolator with a reference solver that has an event controller, as solvers have by default: the event at time 1/3 is reported for time 1/4 (C116_false). Rejected attempts call only atStepStart."
  },
  {
   "property": "C117",
   "status": "partial",
   "theorems": [
    "Verif.Config.C117_enorm_false",
    "Verif.Config.C117_frame",
    "Verif.Config.C117_frame_configuration",
    "Verif.Config.C117_jacobian_false",
    "Verif.Config.C117_reorder_false",
    "Verif.Config.C117_roundtrip_partial",
    "Verif.Config.C117_solver_partial",
    "Verif.Config.C117_sticking_false",
    "Verif.Config.C117_unknown_type"
   ],
   "note": "Proved for settings that can be saved (C117_roundtrip_partial, C117_solver_partial), numbers up to what printing and reading does to them (C74 for the digits); absent and unknown parameters (C117_frame, C117_frame_configuration); unknown types (C117_unknown_type). False otherwise: the reordering of the implicit Euler solver is not saved (C117_reorder_false); neither is the sticking of the ball (C117_sticking_false); a solver without error norm calculator can be saved but loading is undefined (C117_enorm_false); a descent direction without Jacobian provider cannot be saved (C117_jacobian_false)."
  },
  {
   "property": "C118",
   "status": "partial",
   "theorems": [
    "Verif.OdeWiring.C118_bypass_false",
    "Verif.OdeWiring.C118_cycle_false",
    "Verif.OdeWiring.C118_history",
    "Verif.OdeWiring.C118_norm",
    "Verif.OdeWiring.C118_norm_false",
    "Verif.OdeWiring.C118_predictor",
    "Verif.OdeWiring.C118_returns",
    "Verif.OdeWiring.C118_returns_iff",
    "Verif.OdeWiring.C118_shared_false",
    "Verif.OdeWiring.C118_told"
   ],
   "note": "Proved for programs that share no component between solvers and do not set the right-hand side of a reference solver (C118_history, C118_returns, C118_predictor); one call without such conditions (C118_told), with the solvers that have an error norm calculator by default (C118_norm); it returns exactly if the chain of reference solvers ends and no error norm calculator is null (C118_returns_iff). False otherwise: an extrapolator that is among its reference solvers overflows the stack (C118_cycle_false); a null error norm calculator is undefined (C118_norm_false); shared controllers and reference solvers that are set directly have another right-hand side (C118_shared_false, C118_bypass_false)."
  },
  {
   "property": "C119",
   "status": "proved",
   "theorems": [
    "Verif.Implicit.C119_guess"
   ],
   "note": "The predictor is any function of step size, number of steps, time and state that does not throw; that it makes its steps is C28 and similar. With zero predictor steps the code divides by zero (infinity in floating point), the model by an exact zero."
  },
  {
   "property": "C120",
   "status": "partial",
   "theorems": [
    "Verif.Config.C120_false",
    "Verif.Config.C120_help_partial"
   ],
   "note": "False as stated: there is no help on the parameters listed in undocumentedNames (everything of the extrapolator that its base class has, and symmetric and max_stages; the settings of embedded solvers; all settings of step size controllers, error estimators, trimmers, initial states). C120_help_partial: for every configuration and path, there is help exactly at the parameters other than those."
  },
  {
   "property": "C121",
   "status": "partial",
   "theorems": [
    "Verif.Config.C121_again",
    "Verif.Config.C121_ddir_false",
    "Verif.Config.C121_enorm_false",
    "Verif.Config.C121_itperf_false",
    "Verif.Config.C121_linsearch_false",
    "Verif.Config.C121_rounding_false",
    "Verif.Config.C121_sequence_partial",
    "Verif.Config.C121_set_partial",
    "Verif.Config.C121_unknown"
   ],
   "note": "Proved for settings that can be saved and the paths and values listed in Provider.Sets, which covers every parameter of every class (C121_set_partial); the result can be saved again (C121_again), so sequences of calls work (C121_sequence_partial); names of no parameter are refused (C121_unknown). False otherwise: numbers that their texts do not give back change with every call, whatever is set (C121_rounding_false); setting no error norm calculator is undefined (C121_enorm_false), and so is setting no line search or no descent direction of the Newton solver (C121_linsearch_false, C121_ddir_false); once the iteration performer is removed, setting one is undefined (C121_itperf_false)."
  },
  {
   "property": "C122",
   "status": "partial",
   "theorems": [
    "Verif.Special.C122_false",
    "Verif.Special.C122_newton_partial",
    "Verif.Special.C122_numbers",
    "Verif.Special.C122_singular",
    "Verif.Special.C122_singular_false",
    "Verif.Special.C122_undefined"
   ],
   "note": "False: infNorm leaves out NaN, so if the residual at the guess has no component that is a number, the solver reports Converged after one iteration, whatever the mapping is elsewhere (C122_undefined; sqrt(x)=1 from -1 in C122_false); if the guess is a root and the linear solver gives NaN (singular Jacobian), it reports Converged with the solution NaN (C122_singular, C122_singular_false). Proved if guess and residual at the guess are numbers and the direction gives numbers for numbers: then the run never leaves numbers, whatever the mapping is elsewhere, and Converged means within the tolerance (C122_newton_partial). On numbers the model is the one of Verif.Alg (C122_numbers). Rounding is not modelled; zero has no sign."
  },
  {
   "property": "C123",
   "status": "partial",
   "theorems": [
    "Verif.Special.C123_accepted_partial",
    "Verif.Special.C123_control",
    "Verif.Special.C123_false",
    "Verif.Special.C123_forever",
    "Verif.Special.C123_lost",
    "Verif.Special.C123_norm",
    "Verif.Special.C123_norm_inf",
    "Verif.Special.C123_other_norm",
    "Verif.Special.C123_partial"
   ],
   "note": "False: infNorm leaves out NaN (C123_norm); if no component of the error estimate is a number the step is accepted (C123_lost), and from then on every step is accepted with the same step size and time goes on (C123_forever); DOPRI45 does that on a right-hand side defined for x >= 0 (C123_false), whatever the tolerance. Proved: components of an accepted error estimate are NaN or numbers within what the controller accepts, so infinite ones are refused (C123_accepted_partial), and if both outputs are numbers all is as in exact arithmetic (C123_partial). With a norm that gives NaN for NaN (none is in the library), a step never ends (C123_other_norm). Rounding is not modelled; zero has no sign."
  },
  {
   "property": "C124",
   "status": "proved",
   "theorems": [
    "Verif.Driver.C124_dopri45",
    "Verif.Driver.C124_dopri45_unchecked",
    "Verif.Driver.C124_dopri56",
    "Verif.Driver.C124_dopri56_unchecked",
    "Verif.Driver.C124_euler",
    "Verif.Driver.C124_extrapolated_rk4",
    "Verif.Driver.C124_extrapolator_unchecked",
    "Verif.Driver.C124_gragg",
    "Verif.Driver.C124_implicit",
    "Verif.Driver.C124_rk4",
    "Verif.Driver.C124_sw24",
    "Verif.Driver.C124_sw24_unchecked",
    "Verif.Driver.C124_w1"
   ],
   "note": "Runs of solveOde as chains of doStep and of post-observer calls, joined with the convergence theorems C101, C105, C106 and C114. For event controllers that do nothing; without one for the Rosenbrock, extrapolation and implicit solvers. Loops of doStep are given a number of passes, over which the theorems quantify."
  },
  {
   "property": "C125",
   "status": "partial",
   "theorems": [
    "Verif.Round.C125_absorbed",
    "Verif.Round.C125_eleven_false",
    "Verif.Round.C125_forever_false",
    "Verif.Round.C125_returns_partial"
   ],
   "note": "False as stated: in double a run over 1 with step 0.1 makes 11 steps and ends at 1.0999999999999999 (C125_eleven_false), and at time 1e10 steps of 1e-7 are lost in the addition and the loop never ends (C125_absorbed, C125_forever_false). Proved (C125_returns_partial): if 4 u (|t|+d+h) <= h, where u is the unit roundoff, the run returns, the time shown is N h after the beginning up to 2 N u (|t|+d+h), and the overshoot is at most one step and 3 u (|t|+d+h). Exponent range unbounded, no fused multiply-add."
  },
  {
   "property": "C126",
   "status": "proved",
   "theorems": [
    "Verif.Round.C126_euler",
    "Verif.Round.C126_no_limit",
    "Verif.Round.C126_rk4"
   ],
   "note": "C126_euler, C126_rk4: for every rounding with relative error at most u, if h, u/h, eta and iota are below a bound that depends on the system. C126_no_limit: the term u/h is needed, in double no run from time 1 with a step below 2^-53 returns. Fixed steps, no event controller. Exponent range unbounded, no fused multiply-add."
  },
  {
   "property": "C127",
   "status": "partial",
   "theorems": [
    "Verif.Round.C127_backward_partial",
    "Verif.Round.C127_false",
    "Verif.Round.C127_nonneg_partial",
    "Verif.Round.C127_returns_or_divides",
    "Verif.Round.C127_unfilled_false"
   ],
   "note": "False relative to the matrix itself: C127_false, two equations in 53 binary digits with a well-conditioned matrix and a result with no correct digit (the code does not pivot); false without the fill condition: C127_unfilled_false. Proved for all roundings and all sizes: C127_backward_partial (componentwise backward error relative to |L||U| of the stored factors), C127_nonneg_partial (relative to the matrix itself when no stored factor is negative), C127_returns_or_divides (solve returns or divides by zero, nothing else). Overflow and underflow are not in the model of rounding."
  },
  {
   "property": "C128",
   "status": "partial",
   "theorems": [
    "Verif.Driver.C128_embedded",
    "Verif.Driver.C128_event_false",
    "Verif.Driver.C128_event_missed_false",
    "Verif.Driver.C128_event_reset",
    "Verif.Driver.C128_fixed",
    "Verif.Driver.C128_sw_false",
    "Verif.Driver.C128_sw_partial",
    "Verif.Driver.C128_w1"
   ],
   "note": "False of the code for SW2(4) (C128_sw_false) and for the event controller (C128_event_false: an event that did not happen; C128_event_missed_false: one that is missed). Proved for explicit fixed-step solvers in every history (C128_fixed), for embedded methods (C128_embedded), for W1 to first order (C128_w1), for SW2(4) after a soft setInitialState (C128_sw_partial) and for events after reset (C128_event_reset). The Gragg solver's cache is covered by C34."
  },
  {
   "property": "C129",
   "status": "partial",
   "theorems": [
    "Verif.Round.C129_ends_partial",
    "Verif.Round.C129_forever_false",
    "Verif.Round.C129_simple_partial"
   ],
   "note": "False with the default minimum 1e-16 in double (C129_forever_false: dopri45 with defaults started at t = 1000 never returns). Proved for all roundings when hMin >= 4u(|t|+d): for every controller that makes rejected steps smaller by a factor (C129_ends_partial), which the one of the library does whatever std::pow returns (C129_simple_partial). No event controller; no overflow or underflow."
  },
  {
   "property": "C130",
   "status": "partial",
   "theorems": [
    "Verif.Driver.C130_dopri45_partial",
    "Verif.Driver.C130_dopri45_threshold_partial",
    "Verif.Driver.C130_dopri56_partial",
    "Verif.Driver.C130_dopri56_threshold_partial",
    "Verif.Driver.C130_tolerance_false"
   ],
   "note": "False as stated: the tolerance bounds the difference of the two results of a step, not the error (C130_tolerance_false, for all controller parameters). The partial theorems bound the error of all samples by C (H^q + N tol) for DOPRI45 (q = 5) and DOPRI56 (q = 6), with a constant independent of tolerance, mode and run; the _threshold variants need no hypothesis on the steps of the run. Exact arithmetic; quiet or no event controller."
  },
  {
   "property": "C131",
   "status": "partial",
   "theorems": [
    "Verif.Timing.C131_direction",
    "Verif.Timing.C131_euler",
    "Verif.Timing.C131_extrapolator_false",
    "Verif.Timing.C131_rosenbrock_false",
    "Verif.Timing.C131_rosenbrock_partial"
   ],
   "note": "Proved for every descent direction and for the implicit Euler solver. False for the Rosenbrock solvers: linSolve clears the factorizer's statistics before the matrix set by the constructor is counted, so matrices set are never reported (C131_rosenbrock_false; everything else is exact, C131_rosenbrock_partial). False for the extrapolator: the statistics of its reference solver are not forwarded (C131_extrapolator_false). Calls that throw are not modelled."
  },
  {
   "property": "C132",
   "status": "partial",
   "theorems": [
    "Verif.Timing.C132_cache_false",
    "Verif.Timing.C132_every",
    "Verif.Timing.C132_exactly",
    "Verif.Timing.C132_lazily",
    "Verif.Timing.C132_lazy",
    "Verif.Timing.C132_once",
    "Verif.Timing.C132_rosenbrock_partial",
    "Verif.Timing.C132_solves",
    "Verif.Timing.C132_stencil"
   ],
   "note": "Proved for all directions, and for the Rosenbrock solvers with at most 100 step sizes between hard resets; with more the cache is cleared as a whole and step sizes met before are decomposed again (C132_cache_false)."
  },
  {
   "property": "C133",
   "status": "partial",
   "theorems": [
    "Verif.Sparse.C133_aligned_partial",
    "Verif.Sparse.C133_outside_false",
    "Verif.Sparse.C133_print_partial",
    "Verif.Sparse.C133_read_partial",
    "Verif.Sparse.C133_scilab_partial"
   ],
   "note": "Proved for matrices whose elements are inside the declared size and with fewer than 2^32 places. False otherwise: at() may store elements outside the size, which are then shown at another place or written outside the table, and the number of places wraps around (C133_outside_false)."
  },
  {
   "property": "C134",
   "status": "proved",
   "theorems": [
    "Verif.Event.C134_euler",
    "Verif.Event.C134_rk4",
    "Verif.Event.C134_second_order"
   ],
   "note": "In exact arithmetic. The right-hand side between events is that of the phase at the start. The case in which the step throws (zero function exactly zero at the end of a step, C42_landing_false) is named in the statement."
  },
  {
   "property": "C135",
   "status": "proved",
   "theorems": [
    "Verif.Event.C135_rk4"
   ],
   "note": "Stated for the fixed-step RK4 solver without step truncation by truncateStep and with flags that are the same in all phases (the controller reads them only at a clean start). The proof is for every method of order at least two. The case of a step that ends exactly at a zero, which throws, is part of the statement."
  },
  {
   "property": "C136",
   "status": "proved",
   "theorems": [
    "Verif.Event.C136_embedded",
    "Verif.Event.C136_located",
    "Verif.Event.C136_start"
   ],
   "note": "C136_located: any solver; C136_start: the controller before the first step; C136_embedded: the embedded Runge-Kutta solvers with step size control ask the controller in this way (for the other solvers see C116)."
  },
  {
   "property": "C137",
   "status": "partial",
   "theorems": [
    "Verif.Round.C137_back_false",
    "Verif.Round.C137_found",
    "Verif.Round.C137_partial",
    "Verif.Round.C137_rearmed",
    "Verif.Round.C137_tiny_false"
   ],
   "note": "False in two cases: a function that ends the step beyond zero by less than rounding error makes the code throw out_of_range (C137_tiny_false; bound: |zf2| <= 3u|zf1|), and directly after an event the remembered value may be beyond zero, so that the next event is placed before the first one (C137_back_false; x falls from 2 with slope -5, times 0.4 and then 0.39999999999999997). Proved: everything else for a step from functions on their sides (C137_partial, C137_found); the sides are restored by the next step that is not cut (C137_rearmed). Exponents are not bounded in the model."
  },
  {
   "property": "C138",
   "status": "partial",
   "theorems": [
    "Verif.Timing.Clock.C138_accurate",
    "Verif.Timing.Clock.C138_again_false",
    "Verif.Timing.Clock.C138_count_false",
    "Verif.Timing.Clock.C138_measured",
    "Verif.Timing.Clock.C138_reported",
    "Verif.Timing.Clock.C138_running_false",
    "Verif.Timing.Clock.C138_stopwatch"
   ],
   "note": "Proved for runs of less than 2^64 ticks and 2^32 evaluations (C138_measured, C138_reported, C138_stopwatch, C138_accurate). False beyond: after 2^32 evaluations there is no line (C138_count_false); toMsec before stop divides by zero instead of being refused (C138_running_false); a second stop leaves conversion available but wrong (C138_again_false). Conversion is exact in the model, not rounded."
  },
  {
   "property": "C139",
   "status": "partial",
   "theorems": [
    "Verif.Special.C139_agree",
    "Verif.Special.C139_infinite",
    "Verif.Special.C139_infinite_false",
    "Verif.Special.C139_later_false",
    "Verif.Special.C139_never",
    "Verif.Special.C139_outcome",
    "Verif.Special.C139_passed_false",
    "Verif.Special.C139_start"
   ],
   "note": "Proved: the three outcomes of atStepEnd for arbitrary extended values (C139_outcome), agreement with exact arithmetic (C139_agree), a function remembered with no number is never located (C139_never), infinite end values are remembered as no number (C139_infinite). False: a function watched in one direction only that is NaN at the end of a step is passed silently (C139_passed_false); after that its next change of sign throws out_of_range (C139_later_false); after an event located by an infinite value NaN is remembered and the next step throws (C139_infinite_false)."
  },
  {
   "property": "C140",
   "status": "partial",
   "theorems": [
    "Verif.Infra.Storage.C140_cells",
    "Verif.Infra.Storage.C140_factories",
    "Verif.Infra.Storage.C140_id_false",
    "Verif.Infra.Storage.C140_names_false",
    "Verif.Infra.Storage.C140_order"
   ],
   "note": "Proved if different types have different typeid names without a slash (C140_cells, C140_factories, C140_order). False without the first condition, which the C++ standard does not give and which fails for classes of the same name in unnamed namespaces of two source files: the registry of one interface is used as that of another (C140_names_false), and two implementations share an identifier (C140_id_false)."
  },
  {
   "property": "C141",
   "status": "partial",
   "theorems": [
    "Verif.Special.C141_adaptive",
    "Verif.Special.C141_duration",
    "Verif.Special.C141_false",
    "Verif.Special.C141_fixed",
    "Verif.Special.C141_returned",
    "Verif.Special.C141_thrown_false"
   ],
   "note": "Proved: any solver that returns at a number has reached the end (C141_returned); a duration that is NaN is one step (C141_duration); constant step size (C141_fixed) and error control (C141_adaptive) without an event controller. False with an event controller: a function constantly -1 watched from plus to minus makes the time minus infinity after one step; the run then returns at time NaN if the function is recomputed after events (C141_false), and throws otherwise (C141_thrown_false)."
  },
  {
   "property": "C142",
   "status": "proved",
   "theorems": [
    "Verif.Driver.Variables.C142_adaptive",
    "Verif.Driver.Variables.C142_autonomous",
    "Verif.Driver.Variables.C142_conserved_adaptive",
    "Verif.Driver.Variables.C142_conserved_events",
    "Verif.Driver.Variables.C142_conserved_fixed",
    "Verif.Driver.Variables.C142_controller",
    "Verif.Driver.Variables.C142_events",
    "Verif.Driver.Variables.C142_fixed",
    "Verif.Driver.Variables.C142_library"
   ],
   "note": "Exact arithmetic over any ordered field. C142_fixed, C142_adaptive: runs; C142_controller, C142_events: the step size controller and the event controller commute with the change; C142_autonomous; C142_conserved_fixed, C142_conserved_adaptive, C142_conserved_events: linear invariants; C142_library: the tables of the library meet the assumption. Runge-Kutta solvers only; a solver that was not used before (buffers empty)."
  },
  {
   "property": "C143",
   "status": "partial",
   "theorems": [
    "Verif.Driver.Pieces.C143_drift",
    "Verif.Driver.Pieces.C143_exact",
    "Verif.Driver.Pieces.C143_fixed",
    "Verif.Driver.Pieces.C143_joined",
    "Verif.Driver.Pieces.C143_split",
    "Verif.Driver.Pieces.C143_sum_false"
   ],
   "note": "C143_joined, C143_exact, C143_split for all solvers of the model; C143_drift for solvers with bounded steps, C143_fixed for the fixed-step explicit Runge-Kutta solver without event controller. That durations add up in general is false of the code: two calls for half a second with a step of one second make two steps, one call for a second makes one (C143_sum_false)."
  },
  {
   "property": "C144",
   "status": "proved",
   "theorems": [
    "Verif.Driver.Invariants.C144_extrapolator",
    "Verif.Driver.Invariants.C144_gragg",
    "Verif.Driver.Invariants.C144_ref_fixed",
    "Verif.Driver.Invariants.C144_ref_gragg",
    "Verif.Driver.Invariants.C144_sw24",
    "Verif.Driver.Invariants.C144_w1"
   ],
   "note": "C144_gragg; C144_extrapolator with C144_ref_gragg and C144_ref_fixed; C144_w1 and C144_sw24; with variables of second order the weights of positions must be zero (momentum) and SW2(4) must not reject attempts; under the assumption that the linear systems that occur can be solved by the factorizer without pivoting (Regular), which C01 needs. Exact arithmetic. The explicit Runge-Kutta solvers are in C142, the implicit Euler solver in C145."
  },
  {
   "property": "C145",
   "status": "proved",
   "theorems": [
    "Verif.Implicit.C145_run",
    "Verif.Implicit.C145_step",
    "Verif.Ros.C145_exact",
    "Verif.Ros.C145_exact_run",
    "Verif.Ros.C145_follows",
    "Verif.Ros.C145_newton"
   ],
   "note": "C145_step, C145_run, without event controller: the bound, for any descent direction. C145_newton, C145_follows, C145_exact, C145_exact_run are about equations of first order and any descent direction that solves the linear system with the Jacobian at the current point, or follows the weights; that the library's directions do solve it is C86, under its conditions, and the two are not joined here. Exact arithmetic."
  },
  {
   "property": "C146",
   "status": "proved",
   "theorems": [
    "Verif.Ros.C146_euler",
    "Verif.Ros.C146_positions",
    "Verif.Ros.C146_rosenbrock"
   ],
   "note": "C146_positions, C146_rosenbrock, C146_euler. The columns that the Rosenbrock solvers leave out are the disagreement of C38 (C38_false). Exact arithmetic."
  }
 ]
}