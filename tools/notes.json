{
 "C54": {
  "note": "Statistics of any sample list: count, sum, sum of squares, least upper bound, merge = concatenation, mean; timing statistics likewise. Exact arithmetic."
 },
 "C55": {
  "status": "partial",
  "note": "The claim is false of the code (C55_false); proved: the reported value is the deviation exactly when all samples are zero."
 },
 "C56": {
  "note": "All int values except INT_MIN (undefined behaviour, shown); all positive periods."
 },
 "C57": {
  "note": "Over any commutative ring; derivatives as formal polynomial derivatives of the code run on the indeterminate."
 },
 "C60": {
  "note": "For spans below 2^32 hours; beyond that the text is ambiguous (C60_wraps)."
 },
 "C01": {
  "status": "partial",
  "note": "False without the fill condition (C01_false): back substitution skips fill-in right of the last stored column of a row. Proved with the fill condition, also after any history; for every accepted matrix: when it returns (C01_returns_iff) and what it computes (C01_general). Any number of right-hand sides one after the other: C01_repeat_partial."
 },
 "C02": {
  "note": "Acceptance iff square stencil covering the diagonal; otherwise an exception, never anything else; read-back; independence of previous contents."
 },
 "C03": {
  "note": "For every accepted matrix and history; no fill condition needed."
 },
 "C04": {
  "note": "In-bounds and injective addresses after any history; no call reaches undefined behaviour if the arrays passed are long enough."
 },
 "C05": {
  "status": "partial",
  "note": "False in general (C05_false). Proved: identical object when the stencil is the same; otherwise either same as setMatrix or correct solve when the old stencil satisfies the fill condition."
 },
 "C06": {
  "status": "partial",
  "note": "False without the fill condition (C06_false). Proved with fill condition and diagonal reach, after any history; returns when no component of s is zero (C06_returns)."
 },
 "C07": {
  "status": "partial",
  "note": "False (C07_false): with the fill condition the first row always misses the secant condition when y0 is not zero (C07_first_row_partial)."
 },
 "C61": {
  "status": "partial",
  "note": "False (C61_false); holds for the non-square rejection."
 },
 "C62": {
  "status": "partial",
  "note": "Proved for any number of solves without conditions (C62_luToMatrix); after secant updates with the fill condition (C62_history_partial). Without the fill condition the property is false after one Hart update (C62_false): elementAt reports a non-zero element at a position the returned matrix lacks."
 },
 "C08": {
  "note": "Every history of set, increment, remove, clear, resize, makeZero, assign; all accessors and the enumeration."
 },
 "C09": {
  "note": "For every source enumerated in increasing order (all map-backed matrices). Assignment from a transposed view breaks lookup (C09_transposed_source_false), which is outside the claim."
 },
 "C10": {
  "note": "Arbitrary ring; columns at most 2^32 (the code's row iteration limit)."
 },
 "C11": {
  "status": "partial",
  "note": "False for the two-argument get of block and transposed views (C11_false). Proved for index-pair accessors, enumeration, effects on the source, copies, scaling."
 },
 "C12": {
  "status": "partial",
  "note": "False for rectangular matrices (C12_false: wrong size, out-of-bounds write). Proved for square ones; exact behaviour for rectangular ones."
 },
 "C63": {
  "status": "partial",
  "note": "False (C63_false): the destination is cleared before the view of it is read. Proved when a copy is made first. Adding a matrix's own transposed view is modelled with the live view (C63_self_add_exact: what the code computes; C63_self_add_partial)."
 },
 "C64": {
  "note": "Matrix norms over any ordered commutative ring."
 },
 "C25": {
  "note": "Every tableau with at least one stage, any number of outputs, any buffer contents; outputs taken from the last stage argument included (with one stage such an output is the old buffer, never used by the library)."
 },
 "C26": {
  "note": "Statement about the kernel run with the coded coefficients over the reals, for all C^p right-hand sides in any Banach space; order conditions over all planar trees are evaluated in the kernel and lifted by B-series lemmas proved here. DOPRI78 is C27."
 },
 "C27": {
  "note": "Defects for all trees and row sums; local error for autonomous right-hand sides; exact order conditions fail (C27_exact_false) because the coefficients are rounded quotients. Time-dependent right-hand sides are not covered by C27_local_error since nodes are not exactly row sums."
 },
 "C28": {
  "note": "All call histories with a quiet event controller (or none; C43_no_functions: a controller without event functions is quiet), any tableau; the event case is C42. setInitialStepSize takes effect only after the next setInitialState."
 },
 "C29": {
  "note": "Over the reals with the real power function; acceptance in terms of the tolerance, exact value of the new step, bounds."
 },
 "C30": {
  "note": "Any event controller, norm and step size controller for atomicity; termination for the simple controller with positive minimal step (with explicit bound) or bounded right-hand side."
 },
 "C31": {
  "status": "partial",
  "note": "False on the accepted path (C31_false). Proved for the simple controller with incMin >= 1 and a step above the minimum."
 },
 "C66": {
  "status": "partial",
  "note": "False for the first step of a run (C66_first_step_false); true for the later steps."
 },
 "C42": {
  "status": "partial",
  "note": "False in general: time can go back (C42_time_false) and landing exactly on a zero throws (C42_landing_false). Proved for steps from states on the watched side, over all reachable controller states and all proposed end states."
 },
 "C43": {
  "status": "partial",
  "note": "False when a one-sided function starts on the unwatched side (C43_false). Proved: functions that keep their sign never give an event over chains of steps of any length; nothing happens without event functions."
 },
 "C58": {
  "note": "All velocities and parameters; sticking state characterised."
 },
 "C59": {
  "note": "Energy is constant along every solution, any number of oscillators, any parameters."
 },
 "C67": {
  "note": "All runs and all proposed states with the default controller."
 },
 "C65": {
  "status": "partial",
  "note": "Proved for valid operands, with mismatch reported for operands without blocks; false for a short block operand (read beyond the block, C65_short_block_false) and for assigning a longer vector to a block (C65_long_assign_false)."
 },
 "C68": {
  "status": "partial",
  "note": "False when the operand overlaps from below (C68_overlap_false) and for assignment of an own block (C68_assign_own_block_false: always undefined). Proved otherwise: C68_self_partial and, through the safe-overlap condition, C65_update and C65_assign."
 },
 "C49": {
  "note": "All histories; add is undefined only when the largest identifier is the largest int."
 },
 "C50": {
  "status": "partial",
  "note": "False: identifiers are reused (C50_false). Proved when an element registered later stays registered."
 },
 "C51": {
  "note": "All histories and callbacks, including callbacks that throw."
 },
 "C52": {
  "note": "All texts and paths (text shorter than 2^32)."
 },
 "C53": {
  "note": "Every well-formed heap of parameter sets; the update theorem for trees (nothing shared), see C72 for shared sets."
 },
 "C69": {
  "status": "partial",
  "note": "False: a callback that removes itself makes the call undefined (C69_self_remove_false). Proved for calls that return."
 },
 "C70": {
  "status": "partial",
  "note": "Proved without clear; false when clear is called while a scope is open (C70_clear_false)."
 },
 "C71": {
  "note": "Networks of any depth without cycles; a cycle never returns."
 },
 "C72": {
  "status": "partial",
  "note": "False for nested values (C72_copy_false); proved for values of the copied set itself."
 },
 "C73": {
  "status": "partial",
  "note": "False after a rejected setting (C73_rejected_false); proved for all histories of accepted settings."
 },
 "C74": {
  "status": "partial",
  "note": "Int and bool proved; false for unsigned (C74_unsigned_false) and double (C74_double_false), with what holds proved."
 },
 "C75": {
  "status": "partial",
  "note": "Numbers proved exactly; IsIdentifier is wrong (C75_identifier_false)."
 },
 "C76": {
  "status": "partial",
  "note": "Proved when identifiers and types correspond one to one; false otherwise (C76_taken_false)."
 },
 "C77": {
  "status": "partial",
  "note": "False (C77_false); texts without empty items proved."
 },
 "C32": {
  "note": "For every table of stage results, any symmetric flag, any increasing positive step numbers."
 },
 "C33": {
  "note": "All three sequences up to the exact bound at which int overflows."
 },
 "C34": {
  "status": "partial",
  "note": "Recursion, exactness for a constant right-hand side, validity of the stored derivative over all histories and symmetry of the step on the pair of sequences proved; symmetry is false through the interface, since setting the step size restarts the sequences (C34_false)."
 },
 "C78": {
  "status": "partial",
  "note": "Proved for consistent Runge-Kutta references of declared order 1 and for the Gragg reference with the flag symmetric, for all numbers of stages and all sequences; false for the default flag with the Gragg reference (C78_false) and for the default flag with the classical Runge-Kutta reference and two stages, where order 5 is reported and the order is 4 (C78_rk4_false)."
 },
 "C79": {
  "status": "partial",
  "note": "False with one stage and the error check, when the number of stages is raised between steps, and when setInitialState is called without a reference solver; proved for every history of calls otherwise."
 },
 "C80": {
  "status": "partial",
  "note": "False when the controller changes the step size (C80_false); proved otherwise."
 },
 "C81": {
  "status": "partial",
  "note": "False for the Gragg solver (C81_gragg_false); proved for the extrapolator and the Runge-Kutta solvers."
 },
 "C13": {
  "note": "Any permutation and any nonzero scaling; a zero scale gives an exception or division by zero as stated."
 },
 "C14": {
  "status": "partial",
  "note": "Proved when the same set of variables is disabled in input and output; false for different input and output sets (C14_false) and for narrowing of outputs only (C14_outputs_only_false)."
 },
 "C15": {
  "note": "All stencils inside the size (duplicates allowed), all mappings compatible with the stencil."
 },
 "C16": {
  "note": "All stencils; the evaluation count also as the number of points the calculation looks at (C16_evaluations)."
 },
 "C82": {
  "note": "All mappings that return on the points looked at."
 },
 "C83": {
  "note": "Roots over any field, unit diagonal over the reals with the real square root."
 },
 "C17": {
  "status": "partial",
  "note": "Threshold trimmer proved; width trimmer proved for widths below 2^31, beyond that everything is dropped (C17_width_false)."
 },
 "C18": {
  "status": "partial",
  "note": "Exact effect of both updates; the Broyden update satisfies the secant condition when every position it touches is stored, otherwise it throws (C18_broyden, C18_false); the stencil-preserving one only row by row (C18_fake_row), its secant condition is false in general (C18_fake_secant_false)."
 },
 "C24": {
  "note": "Simple, constant-Jacobian, Broyden and stencil-preserving Broyden directions, both providers, after any history of calls on the system; the fill condition of the claim cannot be dropped (C24_fill_false)."
 },
 "C84": {
  "status": "partial",
  "note": "Default provider proved; sparse provider proved when the stored positions cover the dependencies, false otherwise (C84_false) and when a trimmer is set and removed (C84_trimmer_false, C84_trimmer_ub)."
 },
 "C85": {
  "status": "partial",
  "note": "Proved for all directions and providers except the two eager Broyden directions with the default provider, for which it is false (C85_false)."
 },
 "C86": {
  "status": "partial",
  "note": "Proved for the simple, constant, Broyden and stencil-preserving Broyden directions when the stencil never changes and satisfies the fill condition (C86_solves_partial), and for the lazy one if moreover the first call after a reset has iteration number 0 (C86_lazy_partial); false otherwise (C86_false, C86_lazy_false). For the Hart direction, whose matrix is not the Jacobian of the provider, see C112."
 },
 "C19": {
  "status": "proved",
  "note": "For all mappings, directions, points, residuals and limits; the norm compared is the square of the Euclidean norm, as in the code. Also shown: ratio zero exactly when no point tried is better, a zero residual gives ratio zero, a sufficient full step is taken after one evaluation. Arithmetic is exact in an ordered field."
 },
 "C20": {
  "status": "proved",
  "note": "Stated after every call from every state of the estimator, so after every history. A previous solution zero counts as no change, whatever the new one is. Error observers are not modelled."
 },
 "C21": {
  "status": "proved",
  "note": "For all call sequences on a fixed mapping and every descent direction; the contract of the line search is a hypothesis, shown for the simple line search. A regularization strategy that changes the mapping is outside."
 },
 "C22": {
  "status": "proved",
  "note": "For all behaviours of the components, over arbitrary states; what happened is read off a log of the calls, and C22_logged shows that logging changes nothing. Runs in which a component throws end with that exception."
 },
 "C23": {
  "status": "partial",
  "note": "Proved with the exact condition: Diverged is returned when every iteration diverges and the direction allows a restart; otherwise IterationCountLimitExceeded is returned (C23_false, with the library's simple direction and default Jacobian provider)."
 },
 "C87": {
  "status": "partial",
  "note": "Proved when the threshold for relative changes is off, the guess is zero, or the root is closer to the guess than the threshold; false otherwise (C87_false: x - 12 from 1 with the library's defaults). Exact arithmetic."
 },
 "C88": {
  "status": "proved",
  "note": "Exact arithmetic; the mapping must not change during the run."
 },
 "C35": {
  "status": "proved",
  "note": "When doStep succeeds the equations hold exactly in positions and within the Newton solver's absolute tolerance elsewhere; exactly everywhere when the residual is zero (C35_all). Exact arithmetic."
 },
 "C36": {
  "status": "proved",
  "note": "Fixed right-hand side, as in the statement; see C89 for replacing it."
 },
 "C89": {
  "status": "partial",
  "note": "False in general (C89_false: setOdeRhs does not invalidate the cache). C89_partial: right-hand sides replaced before a call that sets the state, the step or alpha."
 },
 "C90": {
  "status": "proved",
  "note": "About states satisfying the equations exactly (tolerance 0), which C35_step gives for the solver."
 },
 "C37": {
  "status": "proved",
  "note": "Exact arithmetic. linSolve solves the whole system with the factorization in use; the leading minors of W are nonzero and the pattern satisfies the fill condition of the sparse factorizer (both are needed, see C24). mult multiplies by the whole Jacobian."
 },
 "C38": {
  "status": "partial",
  "note": "False when there are second-order variables: columns of J1 are computed for the first n1 velocities only, the other velocity columns and the first-order variables are missing (C38_false: a damped oscillator). True without second-order variables (C38_firstOrder, C38_affine); C38_partial says which elements are right in general."
 },
 "C39": {
  "status": "partial",
  "note": "The cached factorization in use is that of the current Jacobians and hd, for every history of nonzero hd (C39_partial, C39_stays), and the cache holds at most 100. False for hd = 0: updateW returns without a factorization, linSolve dereferences a null pointer (C39_false)."
 },
 "C40": {
  "status": "partial",
  "note": "True for the first attempt of every step (C40_partial). False after a rejected attempt (C40_stale, C40_false): initStep is called once per doStep, so the second attempt uses the factorization of the rejected step; its local error is h^2 (rho-1) d J f + O(h^3), not O(h^3) (C40_order, for systems without second-order variables)."
 },
 "C41": {
  "status": "proved",
  "note": "Stronger than stated: for every C^2 right-hand side f(t,x), and for the Jacobian that the solver has, be it computed now or in an earlier step. First attempts only: see C40. Real arithmetic; without an event controller; the pattern of the Jacobian satisfies the fill condition of the factorizer."
 },
 "C92": {
  "status": "proved",
  "note": "Real arithmetic; without an event controller; the pattern of the Jacobian satisfies the fill condition of the factorizer. C92_sharp: order 2 fails whenever the coefficient does not vanish."
 },
 "C93": {
  "status": "proved",
  "note": "Real arithmetic; without an event controller; first attempts of steps."
 },
 "C91": {
  "status": "partial",
  "note": "True except for the event controller (C91_W1_partial, C91_SW_partial: literally equal results for any two earlier states that agree in the state of the event controller and the observer log). False with an event controller: unlike the explicit solvers, these never call its reset, so phases of the earlier run stay (C91_W1_false, C91_SW_false)."
 },
 "C44": {
  "note": "For any solver as a step function: solveOde returns exactly after the first step that reaches start+duration, all earlier ones end before it; exceptions of a step or of an output end the run; terminates when steps are bounded below (witness: without the bound it need not); overshoot is less than the last step. Instance: the fixed-step explicit Runge-Kutta solver of the model."
 },
 "C45": {
  "note": "One call, histories of calls, and the gaps between outputs; the case of timing <= 0. Exact arithmetic: the code compares quotients, which over an ordered field is the same as comparing differences."
 },
 "C94": {
  "status": "partial",
  "note": "False for the first two rows of the row output (C94_rows_false: the initial row does not inform the time filter); everything else is proved for rows, and the full claim for columns."
 },
 "C46": {
  "status": "partial",
  "note": "Proved for vectors and for the components of the solution output up to 2^31 components; false beyond (C46_huge_false, C46_indices_false: 32-bit overflow of the doubled limit, the loop never ends). Also names in the header are distinct."
 },
 "C47": {
  "status": "partial",
  "note": "Proved for up to 2^31 variables with exact log10; false beyond (C47_huge_false: the index is printed as a negative int)."
 },
 "C48": {
  "note": "Bookkeeping for any solver (C48_iteration, C48_changed); samples of whole runs for plain solvers and for the fixed-step explicit ones (C48_run, C48_fixed); the reported value is exact result minus whole step exactly when errors are C h^(p+1) and the flow carries differences unchanged (C48_exact), and up to o(h^(p+1)) in general (C48_leading)."
 },
 "C95": {
  "status": "partial",
  "note": "Counts, mean, elapsed time for whole steps; false with steps truncated at events (C95_elapsed_false: the full step size is summed). 32-bit wrap of counters not modelled."
 },
 "C96": {
  "status": "partial",
  "note": "False: initial state given without right-hand side dereferences null (C96_noRhs_false); a state passed to apply is not checked (C96_size_false). The rest is proved."
 },
 "C97": {
  "status": "partial",
  "note": "False when the object gets smaller: undefined behaviour (C97_shrink_false). Round trip proved otherwise."
 },
 "C98": {
  "status": "partial",
  "note": "False after a truncated half step (C98_false). Proved for the explicit fixed-step solvers when no step is truncated (C98_partial)."
 },
 "C99": {
  "note": "For up to 2^31 variables and column vectors of at least that many components."
 },
 "C100": {
  "note": "Lines as tuples of the values written; the text is not modelled. 32-bit wrap of the counter not modelled."
 },
 "C101": {
  "note": "Exact arithmetic; event controllers that never interfere (Quiet). The constants C, h₀ exist but are not computed. DOPRI78 is left out: its coefficients are rounded decimals that satisfy no order condition exactly (C27)."
 },
 "C102": {
  "note": "Exact real arithmetic. Numeric parameters are taken as already converted (conversion: C74)."
 },
 "C103": {
  "note": "Exact arithmetic; event controllers that never interfere; implicit steps without residual (the residual left by Newton iterations is bounded in C35)."
 },
 "C104": {
  "status": "partial",
  "note": "False for the constructor: its parameter is unsigned int, so StiffOde1D(0.5) is y' = 0 (C104_constructor_false); whole numbers are kept (C104_constructor_partial). The rest is proved."
 },
 "C105": {
  "status": "proved",
  "note": "SW2(4) with passes rejected inside a step is not covered: a rejected pass leaves the factorization of the old step size (C40), and the order is lost."
 },
 "C107": {
  "status": "partial",
  "note": "Proved for all histories without replacing the iteration performer (C107_partial), for the regularization strategy and all histories (C107_regularization), for solvers without common objects (C107_frame, C107_independent). False when the performer is replaced: the mapping is lost (C107_false); false for a direction used by two solvers (C107_shared_false)."
 },
 "C108": {
  "status": "partial",
  "note": "Proved for calls that keep the performer and give directions that have a Jacobian provider (C108_partial). False for a new direction, as in the test programs of the repository (C108_ddir_false): it has no Jacobian provider, the one in use is dropped, and run dereferences a null pointer."
 },
 "C109": {
  "status": "partial",
  "note": "Proved up to the mapping (C109_roundtrip_partial), and for subsets without itperf, with ddir only together with jacobian (C109_partial), and for all parameters together (C109_all). False: setting the parameters that were read loses the mapping (C109_roundtrip_false); ddir alone loses the Jacobian provider, then even parameters() is undefined (C109_ddir_false); itperf alone loses everything and leaves the regularization strategy with the former components (C109_itperf_false)."
 },
 "C110": {
  "status": "partial",
  "note": "Proved for construction, setNewtonSolver, setReorder, and algsolver with all parameters. False for algsolver with a direction and no Jacobian provider (C110_false); iterations are forwarded twice when the same Newton solver is set again (C110_forwarded_false)."
 },
 "C111": {
  "status": "partial",
  "note": "Proved when the initial guess is set after the change (C111_partial), as the implicit Euler solver does. False otherwise (C111_false): the residual of the former equation is kept, and a run can return Converged far from a solution; src/test_ode_time_stepper.cpp is written like that."
 },
 "C112": {
  "status": "partial",
  "note": "Proved for Jacobians whose stencil satisfies the conditions of the factorizer (C112_first, C112_secant_partial, C112_soft). False otherwise (C112_false), as for C06."
 },
 "C113": {
  "status": "partial",
  "note": "When the Jacobian is computed, kept or updated: C113_recompute, C113_later, C113_leave. The update is the sum of the rank-one updates of all steps, each relative to the old Jacobian (C113_update). Secant condition only for runs of one step (C113_secant_partial); false for longer runs (C113_false: x^2 = 0 from 1, the new Jacobian is negative)."
 },
 "C114": {
  "status": "partial",
  "note": "Proved: any consistent explicit Runge-Kutta reference, flag off: order at least the number of stages (C114_rk; the reported order when the declared order of the reference is 1); Gragg with the flag symmetric: twice the number of stages, as reported (C114_gragg); classical Runge-Kutta reference: order 4 (C114_rk4). Runs exist (C114_steps). False for the classical Runge-Kutta reference with two stages and the default flag: reports 5, order is 4 (C114_false)."
 },
 "C115": {
  "status": "partial",
  "note": "Proved for consistent Runge-Kutta references of declared order 1 (C115_rk_partial) and for the Gragg reference with the flag symmetric (C115_gragg_partial). False for the classical Runge-Kutta reference with three stages: the controller is told order 5, the estimate has order 4 (C115_false)."
 },
 "C116": {
  "status": "partial",
  "note": "Proved for the explicit solvers (C116_fixed, C116_embedded), Gragg (C116_gragg), both Rosenbrock solvers (C116_w1, C116_sw24), implicit Euler (C116_implicit), and for the extrapolator with the reference solver left as it is (C116_extrapolator_partial). False for the extrapolator with a reference solver that has an event controller, as solvers have by default: the event at time 1/3 is reported for time 1/4 (C116_false). Rejected attempts call only atStepStart."
 },
 "C117": {
  "status": "partial",
  "note": "Proved for settings that can be saved (C117_roundtrip_partial, C117_solver_partial), numbers up to what printing and reading does to them (C74 for the digits); absent and unknown parameters (C117_frame, C117_frame_configuration); unknown types (C117_unknown_type). False otherwise: the reordering of the implicit Euler solver is not saved (C117_reorder_false); neither is the sticking of the ball (C117_sticking_false); a solver without error norm calculator can be saved but loading is undefined (C117_enorm_false); a descent direction without Jacobian provider cannot be saved (C117_jacobian_false)."
 },
 "C118": {
  "status": "partial",
  "note": "Proved for programs that share no component between solvers and do not set the right-hand side of a reference solver (C118_history, C118_returns, C118_predictor); one call without such conditions (C118_told), with the solvers that have an error norm calculator by default (C118_norm); it returns exactly if the chain of reference solvers ends and no error norm calculator is null (C118_returns_iff). False otherwise: an extrapolator that is among its reference solvers overflows the stack (C118_cycle_false); a null error norm calculator is undefined (C118_norm_false); shared controllers and reference solvers that are set directly have another right-hand side (C118_shared_false, C118_bypass_false)."
 },
 "C119": {
  "status": "proved",
  "note": "The predictor is any function of step size, number of steps, time and state that does not throw; that it makes its steps is C28 and similar. With zero predictor steps the code divides by zero (infinity in floating point), the model by an exact zero."
 },
 "C120": {
  "status": "partial",
  "note": "False as stated: there is no help on the parameters listed in undocumentedNames (everything of the extrapolator that its base class has, and symmetric and max_stages; the settings of embedded solvers; all settings of step size controllers, error estimators, trimmers, initial states). C120_help_partial: for every configuration and path, there is help exactly at the parameters other than those."
 },
 "C121": {
  "status": "partial",
  "note": "Proved for settings that can be saved and the paths and values listed in Provider.Sets, which covers every parameter of every class (C121_set_partial); the result can be saved again (C121_again), so sequences of calls work (C121_sequence_partial); names of no parameter are refused (C121_unknown). False otherwise: numbers that their texts do not give back change with every call, whatever is set (C121_rounding_false); setting no error norm calculator is undefined (C121_enorm_false), and so is setting no line search or no descent direction of the Newton solver (C121_linsearch_false, C121_ddir_false); once the iteration performer is removed, setting one is undefined (C121_itperf_false)."
 },
 "C122": {
  "status": "partial",
  "note": "False: infNorm leaves out NaN, so if the residual at the guess has no component that is a number, the solver reports Converged after one iteration, whatever the mapping is elsewhere (C122_undefined; sqrt(x)=1 from -1 in C122_false); if the guess is a root and the linear solver gives NaN (singular Jacobian), it reports Converged with the solution NaN (C122_singular, C122_singular_false). Proved if guess and residual at the guess are numbers and the direction gives numbers for numbers: then the run never leaves numbers, whatever the mapping is elsewhere, and Converged means within the tolerance (C122_newton_partial). On numbers the model is the one of Verif.Alg (C122_numbers). Rounding is not modelled; zero has no sign."
 },
 "C123": {
  "status": "partial",
  "note": "False: infNorm leaves out NaN (C123_norm); if no component of the error estimate is a number the step is accepted (C123_lost), and from then on every step is accepted with the same step size and time goes on (C123_forever); DOPRI45 does that on a right-hand side defined for x >= 0 (C123_false), whatever the tolerance. Proved: components of an accepted error estimate are NaN or numbers within what the controller accepts, so infinite ones are refused (C123_accepted_partial), and if both outputs are numbers all is as in exact arithmetic (C123_partial). With a norm that gives NaN for NaN (none is in the library), a step never ends (C123_other_norm). Rounding is not modelled; zero has no sign."
 },
 "C124": {
  "status": "proved",
  "note": "Runs of solveOde as chains of doStep and of post-observer calls, joined with the convergence theorems C101, C105, C106 and C114. For event controllers that do nothing; without one for the Rosenbrock, extrapolation and implicit solvers. Loops of doStep are given a number of passes, over which the theorems quantify."
 },
 "C125": {
  "status": "partial",
  "note": "False as stated: in double a run over 1 with step 0.1 makes 11 steps and ends at 1.0999999999999999 (C125_eleven_false), and at time 1e10 steps of 1e-7 are lost in the addition and the loop never ends (C125_absorbed, C125_forever_false). Proved (C125_returns_partial): if 4 u (|t|+d+h) <= h, where u is the unit roundoff, the run returns, the time shown is N h after the beginning up to 2 N u (|t|+d+h), and the overshoot is at most one step and 3 u (|t|+d+h). Exponent range unbounded, no fused multiply-add."
 },
 "C126": {
  "status": "proved",
  "note": "C126_euler, C126_rk4: for every rounding with relative error at most u, if h, u/h, eta and iota are below a bound that depends on the system. C126_no_limit: the term u/h is needed, in double no run from time 1 with a step below 2^-53 returns. Fixed steps, no event controller. Exponent range unbounded, no fused multiply-add."
 },
 "C127": {
  "status": "partial",
  "note": "False relative to the matrix itself: C127_false, two equations in 53 binary digits with a well-conditioned matrix and a result with no correct digit (the code does not pivot); false without the fill condition: C127_unfilled_false. Proved for all roundings and all sizes: C127_backward_partial (componentwise backward error relative to |L||U| of the stored factors), C127_nonneg_partial (relative to the matrix itself when no stored factor is negative), C127_returns_or_divides (solve returns or divides by zero, nothing else). Overflow and underflow are not in the model of rounding."
 },
 "C128": {
  "status": "partial",
  "note": "False of the code for SW2(4) (C128_sw_false) and for the event controller (C128_event_false: an event that did not happen; C128_event_missed_false: one that is missed). Proved for explicit fixed-step solvers in every history (C128_fixed), for embedded methods (C128_embedded), for W1 to first order (C128_w1), for SW2(4) after a soft setInitialState (C128_sw_partial) and for events after reset (C128_event_reset). The Gragg solver's cache is covered by C34."
 },
 "C129": {
  "status": "partial",
  "note": "False with the default minimum 1e-16 in double (C129_forever_false: dopri45 with defaults started at t = 1000 never returns). Proved for all roundings when hMin >= 4u(|t|+d): for every controller that makes rejected steps smaller by a factor (C129_ends_partial), which the one of the library does whatever std::pow returns (C129_simple_partial). No event controller; no overflow or underflow."
 },
 "C130": {
  "status": "partial",
  "note": "False as stated: the tolerance bounds the difference of the two results of a step, not the error (C130_tolerance_false, for all controller parameters). The partial theorems bound the error of all samples by C (H^q + N tol) for DOPRI45 (q = 5) and DOPRI56 (q = 6), with a constant independent of tolerance, mode and run; the _threshold variants need no hypothesis on the steps of the run. Exact arithmetic; quiet or no event controller."
 },
 "C131": {
  "status": "partial",
  "note": "Proved for every descent direction and for the implicit Euler solver. False for the Rosenbrock solvers: linSolve clears the factorizer's statistics before the matrix set by the constructor is counted, so matrices set are never reported (C131_rosenbrock_false; everything else is exact, C131_rosenbrock_partial). False for the extrapolator: the statistics of its reference solver are not forwarded (C131_extrapolator_false). Calls that throw are not modelled."
 },
 "C132": {
  "status": "partial",
  "note": "Proved for all directions, and for the Rosenbrock solvers with at most 100 step sizes between hard resets; with more the cache is cleared as a whole and step sizes met before are decomposed again (C132_cache_false)."
 },
 "C133": {
  "status": "partial",
  "note": "Proved for matrices whose elements are inside the declared size and with fewer than 2^32 places. False otherwise: at() may store elements outside the size, which are then shown at another place or written outside the table, and the number of places wraps around (C133_outside_false)."
 },
 "C134": {
  "status": "proved",
  "note": "In exact arithmetic. The right-hand side between events is that of the phase at the start. The case in which the step throws (zero function exactly zero at the end of a step, C42_landing_false) is named in the statement."
 },
 "C135": {
  "status": "proved",
  "note": "Stated for the fixed-step RK4 solver without step truncation by truncateStep and with flags that are the same in all phases (the controller reads them only at a clean start). The proof is for every method of order at least two. The case of a step that ends exactly at a zero, which throws, is part of the statement."
 },
 "C136": {
  "status": "proved",
  "note": "C136_located: any solver; C136_start: the controller before the first step; C136_embedded: the embedded Runge-Kutta solvers with step size control ask the controller in this way (for the other solvers see C116)."
 },
 "C137": {
  "status": "partial",
  "note": "False in two cases: a function that ends the step beyond zero by less than rounding error makes the code throw out_of_range (C137_tiny_false; bound: |zf2| <= 3u|zf1|), and directly after an event the remembered value may be beyond zero, so that the next event is placed before the first one (C137_back_false; x falls from 2 with slope -5, times 0.4 and then 0.39999999999999997). Proved: everything else for a step from functions on their sides (C137_partial, C137_found); the sides are restored by the next step that is not cut (C137_rearmed). Exponents are not bounded in the model."
 },
 "C138": {
  "status": "partial",
  "note": "Proved for runs of less than 2^64 ticks and 2^32 evaluations (C138_measured, C138_reported, C138_stopwatch, C138_accurate). False beyond: after 2^32 evaluations there is no line (C138_count_false); toMsec before stop divides by zero instead of being refused (C138_running_false); a second stop leaves conversion available but wrong (C138_again_false). Conversion is exact in the model, not rounded."
 },
 "C139": {
  "status": "partial",
  "note": "Proved: the three outcomes of atStepEnd for arbitrary extended values (C139_outcome), agreement with exact arithmetic (C139_agree), a function remembered with no number is never located (C139_never), infinite end values are remembered as no number (C139_infinite). False: a function watched in one direction only that is NaN at the end of a step is passed silently (C139_passed_false); after that its next change of sign throws out_of_range (C139_later_false); after an event located by an infinite value NaN is remembered and the next step throws (C139_infinite_false)."
 },
 "C140": {
  "status": "partial",
  "note": "Proved if different types have different typeid names without a slash (C140_cells, C140_factories, C140_order). False without the first condition, which the C++ standard does not give and which fails for classes of the same name in unnamed namespaces of two source files: the registry of one interface is used as that of another (C140_names_false), and two implementations share an identifier (C140_id_false)."
 },
 "C141": {
  "status": "partial",
  "note": "Proved: any solver that returns at a number has reached the end (C141_returned); a duration that is NaN is one step (C141_duration); constant step size (C141_fixed) and error control (C141_adaptive) without an event controller. False with an event controller: a function constantly -1 watched from plus to minus makes the time minus infinity after one step; the run then returns at time NaN if the function is recomputed after events (C141_false), and throws otherwise (C141_thrown_false)."
 },
 "C142": {
  "status": "proved",
  "note": "Exact arithmetic over any ordered field. C142_fixed, C142_adaptive: runs; C142_controller, C142_events: the step size controller and the event controller commute with the change; C142_autonomous; C142_conserved_fixed, C142_conserved_adaptive, C142_conserved_events: linear invariants; C142_library: the tables of the library meet the assumption. Runge-Kutta solvers only; a solver that was not used before (buffers empty)."
 },
 "C143": {
  "status": "partial",
  "note": "C143_joined, C143_exact, C143_split for all solvers of the model; C143_drift for solvers with bounded steps, C143_fixed for the fixed-step explicit Runge-Kutta solver without event controller. That durations add up in general is false of the code: two calls for half a second with a step of one second make two steps, one call for a second makes one (C143_sum_false)."
 },
 "C144": {
  "status": "proved",
  "note": "C144_gragg; C144_extrapolator with C144_ref_gragg and C144_ref_fixed; C144_w1 and C144_sw24; with variables of second order the weights of positions must be zero (momentum) and SW2(4) must not reject attempts; under the assumption that the linear systems that occur can be solved by the factorizer without pivoting (Regular), which C01 needs. Exact arithmetic. The explicit Runge-Kutta solvers are in C142, the implicit Euler solver in C145."
 },
 "C145": {
  "status": "proved",
  "note": "C145_step, C145_run, without event controller: the bound, for any descent direction. C145_newton, C145_follows, C145_exact, C145_exact_run are about equations of first order and any descent direction that solves the linear system with the Jacobian at the current point, or follows the weights; that the library's directions do solve it is C86, under its conditions, and the two are not joined here. Exact arithmetic."
 },
 "C146": {
  "status": "proved",
  "note": "C146_positions, C146_rosenbrock, C146_euler. The columns that the Rosenbrock solvers leave out are the disagreement of C38 (C38_false). Exact arithmetic."
 }
}