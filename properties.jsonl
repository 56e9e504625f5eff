{"id": "C01", "title": "LU solve returns the solution of the linear system", "statement": "After LUFactorizer::setMatrix(A) succeeds, solve(b) overwrites b with the x for which A x = b, whenever no pivot met during elimination is zero.", "quantifier": "every field, every size n, every sparse stencil accepted by setMatrix, every assignment of values without a zero pivot, every right-hand side", "why_tests_cant": "The stencil shapes (skyline envelopes with fill-in) and the values range over unbounded sets; a test fixes one stencil. In fact fill-in right of the last stored column of a row is skipped, so tests on banded or dense matrices never see the defect.", "anchors": ["include/ode_num_int/lu/LUFactorizer.h: LUFactorizer::setMatrix, solve, factorize"]}
{"id": "C02", "title": "setMatrix accepts exactly the square stencils whose envelope covers the diagonal, and stores the matrix unchanged", "statement": "setMatrix throws iff the largest row and column index differ, or some row or column is empty, or some row's first entry is right of (column's first entry below) the diagonal. After acceptance and before factorization elementAt(r,c) returns the entry of A, and 0 at positions that are not stored.", "quantifier": "every list of distinct ((row,col),value) entries, every (r,c) inside the matrix", "why_tests_cant": "Accept/reject must be decided for all stencils and read-back must hold for all positions at once.", "anchors": ["include/ode_num_int/lu/LUFactorizer.h: setMatrix, elementAt"]}
{"id": "C03", "title": "Factorization does not change the matrix the object represents", "statement": "elementAt(r,c) returns the same value before and after the matrix has been factorized (by solve or a secant update), for every position.", "quantifier": "every accepted matrix without zero pivots, every (r,c)", "why_tests_cant": "It is the algebraic identity LU = A over all values and all skyline shapes.", "anchors": ["include/ode_num_int/lu/LUFactorizer.h: factorize, elementAt"]}
{"id": "C04", "title": "Skyline storage never aliases two positions and never indexes out of its arrays", "statement": "For an accepted stencil every in-envelope position of L (U) is stored at its own cell of the packed array; the cell index is smaller than the array length and different positions use different cells, so writing one element never changes another.", "quantifier": "every accepted stencil, every pair of in-envelope positions", "why_tests_cant": "Memory safety of address arithmetic over all stencils.", "anchors": ["include/ode_num_int/lu/LUFactorizer.h: setMatrix (address sequences), L, U, L_column_0_address, U_row_0_address"]}
{"id": "C05", "title": "setMatrixFast is equivalent to setMatrix", "statement": "On a factorizer that already holds a matrix, setMatrixFast(B) followed by solve gives the same answer as setMatrix(B) followed by solve.", "quantifier": "every previously held matrix A, every B with indices below n, every right-hand side", "why_tests_cant": "Depends on all pairs of stencils (old, new); tests use one stencil. The cached last-column table makes it false in general.", "anchors": ["include/ode_num_int/lu/LUFactorizer.h: setMatrixFast, setLU, setMatrix"]}
{"id": "C06", "title": "The Hart update makes the factorization satisfy the secant condition", "statement": "After secantUpdateHart(s,y), the matrix represented by the factorizer maps s to y, and the sparsity envelope is unchanged.", "quantifier": "every factorized matrix, all vectors s, y for which no row's denominator vanishes", "why_tests_cant": "It is an identity over all values and envelopes, proved row by row by induction.", "anchors": ["include/ode_num_int/lu/LUFactorizer.h: secantUpdateHart", "include/ode_num_int/alg/JacobianHartUpdateNewtonDescentDirection.h"]}
{"id": "C07", "title": "The proportional update makes the factorization satisfy the secant condition", "statement": "After secantUpdateProportional(s,y) returns, the matrix represented by the factorizer maps s to y.", "quantifier": "every factorized matrix, all vectors s, y for which it does not throw", "why_tests_cant": "No caller and no test exercises it; the statement is about all inputs (and it is false).", "anchors": ["include/ode_num_int/lu/LUFactorizer.h: secantUpdateProportional"]}
{"id": "C08", "title": "Sparse matrix elements behave as a total map with default zero", "statement": "For the map-backed matrix, at(i)=v makes get(i)=v and changes no other get; removeAt, clear, resize and copy have exactly the effect on get/hasIndex/checkedGet that their names say, and elements are enumerated in strictly increasing (row,column) order.", "quantifier": "every sequence of operations, every index", "why_tests_cant": "Ranges over all histories of mutating operations.", "anchors": ["include/ode_num_int/la/SparseMatrixTemplate.h: SparseMatrixData"]}
{"id": "C09", "title": "The fast (sorted vector) matrix agrees with the map-backed matrix it was assigned from", "statement": "After fast = m, get/hasIndex/checkedGet of fast equal those of m for every index; at on a stored index reads and writes only that element; at on an absent index throws.", "quantifier": "every map-backed matrix, every index", "why_tests_cant": "Correctness of binary search needs sortedness for every content, not for one.", "anchors": ["include/ode_num_int/la/SparseMatrixTemplate.h: SparseMatrixFastData"]}
{"id": "C10", "title": "Sparse matrix product and matrix-vector products equal the mathematical ones", "statement": "(A*B).get(i,j) is the sum over k of A(i,k)B(k,j); A*x is the vector of row sums; += and -= are entrywise; addIdentity adds one on the diagonal.", "quantifier": "all sizes, all contents with indices inside the declared sizes", "why_tests_cant": "Algebraic identity over all matrices.", "anchors": ["include/ode_num_int/la/SparseMatrixTemplate.h: SparseMatrixTemplate::operator*, mulVectRight, mulVectLeft, operator+=, addScaledIdentity"]}
{"id": "C11", "title": "Block and transposed views translate indices consistently through every accessor", "statement": "For a block or transposed view, get(r,c) equals get(Index(r,c)), equals the corresponding element of the source, and agrees with the elements enumerated by iteration.", "quantifier": "every source matrix, every block position and size, every index inside the view", "why_tests_cant": "All views and indices; the two-argument overloads are not used by tests and are wrong.", "anchors": ["include/ode_num_int/la/SparseMatrixTemplate.h: SparseMatrixProxy::Block, SparseMatrixProxy::Transpose"]}
{"id": "C12", "title": "The transpose of an r x c matrix is c x r and vector*matrix has one component per column", "statement": "transposed().size() is the source size with components swapped, and v*M returns a vector of M.size().second components.", "quantifier": "all matrix sizes", "why_tests_cant": "Square test matrices cannot distinguish the two; rectangular ones expose an out-of-bounds write.", "anchors": ["include/ode_num_int/la/SparseMatrixTemplate.h: transposed, operator*(VectorTemplate, SparseMatrixTemplate), mulVectLeft"]}
{"id": "C13", "title": "Diagonal and reordering maps are bijections with the documented inverse", "statement": "DiagonalMapping::unmap undoes map when no diagonal entry is zero; for a permutation, unorder undoes order and order undoes unorder; the reordered mapping is order_out o F o unorder_in, so x solves F(x)=0 iff its reordering solves the reordered system.", "quantifier": "all vectors, all diagonals without zero, all permutations, all mappings", "why_tests_cant": "Inverse laws over all permutations and vectors.", "anchors": ["include/ode_num_int/alg/DiagonalMapping.h", "include/ode_num_int/alg/VectorReorderingMapping.h"]}
{"id": "C14", "title": "The narrowing mapping is the restriction of the original mapping", "statement": "With disabled inputs frozen at the given state and disabled outputs dropped, map(x) equals the enabled components of F(widen(x)); narrowInput(widenInput(x)) = x; sizes are the full size minus the number of distinct disabled indices.", "quantifier": "all index sets (unsorted, with repetitions), all states, all mappings, all inputs", "why_tests_cant": "Unbounded index sets; tests with equal input and output sets cannot see that the wrong set is used for the outputs.", "anchors": ["include/ode_num_int/alg/VectorNarrowingMapping.h"]}
{"id": "C15", "title": "The sparse Jacobian evaluator computes the same finite differences as the column-by-column one", "statement": "For a mapping whose output r depends on input c only if (r,c) is in the stencil, calculate stores at every stencil position the finite difference (f(x0+delta*e_c)-f(x0))_r/delta.", "quantifier": "all stencils, all mappings compatible with the stencil, all x0, all delta != 0", "why_tests_cant": "Column grouping correctness is a combinatorial property of the greedy loop for every stencil.", "anchors": ["include/ode_num_int/alg/SparseJacobianCalculator.h"]}
{"id": "C16", "title": "Column grouping is a partition into row-disjoint groups and the evaluation count is right", "statement": "Every column of the matrix is in exactly one group, two columns of one group never share a stencil row, a group is never empty, the number of mapping evaluations is groups+1 and at most columns+1.", "quantifier": "all stencils", "why_tests_cant": "Invariant of a greedy loop over all stencils.", "anchors": ["include/ode_num_int/alg/SparseJacobianCalculator.h: constructor, mappingEvaluationsRequired"]}
{"id": "C17", "title": "Jacobian trimmers keep exactly the documented entries", "statement": "The threshold trimmer keeps an entry iff it is diagonal or |e| >= threshold*max|e|; the width trimmer keeps it iff |row-col| < width; kept entries are unchanged, zero parameter means no trimming, trimming twice equals trimming once.", "quantifier": "all matrices, thresholds and widths", "why_tests_cant": "Set equality over all matrices and parameters.", "anchors": ["include/ode_num_int/alg/JacobianThresholdBasedTrimmer.h", "include/ode_num_int/alg/JacobianWidthBasedTrimmer.h"]}
{"id": "C18", "title": "Broyden update satisfies the secant equation, the stencil-preserving variant keeps the stencil", "statement": "After the Broyden update the new Jacobian maps dx to df and acts as the old one on vectors orthogonal to dx; the fake Broyden update never creates or removes entries and equals the Broyden update on stored positions.", "quantifier": "all Jacobians, all dx with nonzero norm, all df", "why_tests_cant": "Algebraic identity over all inputs.", "anchors": ["include/ode_num_int/alg/JacobianBroydenUpdateNewtonDescentDirection.h", "include/ode_num_int/alg/JacobianFakeBroydenUpdateNewtonDescentDirection.h"]}
{"id": "C19", "title": "Line search never returns a point with a larger residual and reports the residual of the point it returns", "statement": "If the returned ratio is not 0 (and at least one truncation is allowed), the residual norm at x0+ratio*dir is strictly smaller than at x0 and the reported residual is the mapping at that point; the ratio is 0 or +-2^-k with k below the truncation limit; at most twice the limit evaluations are made.", "quantifier": "all mappings, directions, points with nonzero residual, all truncation limits", "why_tests_cant": "Loop invariant over arbitrary mappings.", "anchors": ["include/ode_num_int/alg/SimpleNewtonLinearSearch.h: lineSearch"]}
{"id": "C20", "title": "The error estimator reports convergence exactly when both tolerances are met", "statement": "currentStatus is Converged iff the max-norm of the last residual is within the absolute tolerance and the relative change of the solution is within the relative tolerance; Diverged iff not converged and an enabled threshold is reached; Converged and Diverged are never both applicable results.", "quantifier": "all histories of reset/setCurrentSolution, all tolerances", "why_tests_cant": "Decision logic over all real inputs and histories.", "anchors": ["include/ode_num_int/alg/SimpleErrorEstimator.h"]}
{"id": "C21", "title": "Newton iterations keep residual and solution consistent", "statement": "After any sequence of setInitialGuess, reset and iteration calls with a fixed mapping, currentResidual() is the mapping evaluated at currentSolution(), whenever the line search ratio was nonzero or the line search left the residual untouched.", "quantifier": "all mappings, descent directions and call sequences", "why_tests_cant": "Invariant over all call histories with cached residual.", "anchors": ["include/ode_num_int/alg/NewtonIterationPerformerImpl.h"]}
{"id": "C22", "title": "Newton solver run terminates, bounds its work and reports Converged only for converged states", "statement": "run() performs at most twice the iteration limit iterations, returns Converged only if the last iteration's status was Converged, Terminated only if an observer asked for it, and restarts at most once, from the initial guess.", "quantifier": "all component behaviours (status sequences, observers, hard reset answers, regularization answers), all limits", "why_tests_cant": "Control flow over all status histories, including restart interleavings.", "anchors": ["include/ode_num_int/alg/NewtonSolver.h: run"]}
{"id": "C23", "title": "Divergence is reported as Diverged", "statement": "If every iteration diverges, run() returns Diverged.", "quantifier": "all component behaviours", "why_tests_cant": "Needs the path where no hard reset can help; existing tests use components that always allow a reset. It is false on that path.", "anchors": ["include/ode_num_int/alg/NewtonSolver.h: run"]}
{"id": "C24", "title": "A Newton step with the exact Jacobian solves an affine system in one iteration", "statement": "For F(x)=Ax-b with the finite-difference Jacobian, the descent direction computed from f0 leads exactly to the solution: F(x0+dir)=0.", "quantifier": "all affine systems with nonzero pivots (and stencil satisfying the fill condition), all x0", "why_tests_cant": "Composition of finite differences, LU and direction sign for all inputs.", "anchors": ["include/ode_num_int/alg/SimpleNewtonDescentDirection.h", "include/ode_num_int/alg/computeJacobian.h", "include/ode_num_int/lu/LUFactorizer.h"]}
{"id": "C25", "title": "The Runge-Kutta kernel computes the method defined by its Butcher tableau", "statement": "For any explicit tableau, compute() produces k_i = f(t+c_i h, x + h sum_j a_ij k_j) and each output x + h sum_i b_i k_i, also when zero coefficients are skipped and when an output is taken from the last stage argument.", "quantifier": "every number of stages, every tableau, every number of outputs, every right-hand side, time, state and step", "why_tests_cant": "Refinement of a packed pointer walk for all sizes.", "anchors": ["include/ode_num_int/ode/ExplicitRKHelper.h: compute"]}
{"id": "C26", "title": "Explicit solvers have the order they report", "statement": "For Euler, RK4, DOPRI45 and DOPRI56 (both outputs) the one-step result differs from the exact solution by O(h^(p+1)) as h tends to 0, p being the reported order, for every right-hand side (autonomous or time-dependent) that is p times continuously differentiable at the initial point.", "quantifier": "all right-hand sides of class C^p at the initial point, with values in any real Banach space, all initial states and times, all exact solutions", "why_tests_cant": "Order is a statement about all smooth right-hand sides; convergence tests measure slopes for a few problems.", "anchors": ["include/ode_num_int/ode/OdeSolverRK4.h", "include/ode_num_int/ode/OdeSolverDOPRI45.h", "include/ode_num_int/ode/OdeSolverDOPRI56.h", "include/ode_num_int/ode/OdeSolverExplicitEuler.h", "include/ode_num_int/ode/OdeSolverExplicitRK.h"]}
{"id": "C27", "title": "DOPRI78 coefficients satisfy the order conditions up to 1e-17", "statement": "For every rooted tree with at most 8 (7) vertices the elementary weight of the high (low) order weights of the coded DOPRI78 tableau differs from 1/gamma by at most 1e-17, the row sums differ from the abscissae by at most 2e-17, and for autonomous right-hand sides of class C^8 the local error is O(h^9) (O(h^8)) up to a polynomial in h whose coefficients are elementary differentials times at most 1e-17.", "quantifier": "all rooted (ordered) trees with at most 8 vertices; all autonomous right-hand sides of class C^8 in any Banach space", "why_tests_cant": "The conditions are indexed by all trees of a given size; a numerical convergence test cannot separate a 1e-13 coefficient error from rounding.", "anchors": ["include/ode_num_int/ode/OdeSolverDOPRI78.h"]}
{"id": "C28", "title": "The explicit fixed-step solver advances the state by exactly one method step per doStep", "statement": "Without events, after n calls of doStep from initial state (t0,x0) with step h the solver reports time t0+n h and the n-fold iterate of the one-step map; observers see each step once with its step size; setInitialState starts the sequence anew.", "quantifier": "all right-hand sides, all n, all call histories of doStep and setInitialState", "why_tests_cant": "Induction over call histories.", "anchors": ["include/ode_num_int/ode/OdeSolverExplicitRK.h: doStep, initStep, cleanupStep, setInitialState"]}
{"id": "C29", "title": "Step size controller: accepted iff the error is within tolerance, new step within the configured factors", "statement": "controlStepSize accepts iff the error norm is zero or (tol/err)^(1/(order+1)) is at least 1 (up to the fixed epsilon); a rejection always asks for a smaller positive step; an accepted growth never exceeds the maximal increase factor or the maximal step; a change below the minimal increase factor is not made.", "quantifier": "all step sizes, errors, orders, parameter settings", "why_tests_cant": "Decision logic over reals with six interacting parameters.", "anchors": ["include/ode_num_int/ode/OdeStepSizeSimpleController.h: controlStepSize"]}
{"id": "C30", "title": "Adaptive solver never commits a rejected attempt, and each doStep ends", "statement": "In the embedded Runge-Kutta solver a rejected attempt leaves time and state unchanged; a doStep that returns has advanced time by the step of the accepted attempt; with a positive minimal step threshold every doStep ends, by acceptance or by the documented exception, after finitely many attempts.", "quantifier": "all right-hand sides, controllers that shrink by a fixed factor on rejection, all histories", "why_tests_cant": "Termination and atomicity over all error sequences.", "anchors": ["include/ode_num_int/ode/OdeSolverExplicitEmbeddedRK.h: doStep"]}
{"id": "C31", "title": "A step-size exception leaves the solver in the last accepted state", "statement": "When doStep throws because the step became too small, the state and time are those before the call.", "quantifier": "all histories of accepted and rejected attempts", "why_tests_cant": "Exception safety over all error sequences; false on the accepted path.", "anchors": ["include/ode_num_int/ode/OdeSolverExplicitEmbeddedRK.h: doStep"]}
{"id": "C32", "title": "Extrapolation tableau is exact polynomial extrapolation to zero step", "statement": "The in-place Aitken-Neville recursion over stage counts n_1..n_K returns the value at 0 of the unique polynomial of degree < K in 1/n (1/n^2 when the base method is symmetric) through the stage results; hence it is exact when the stage results have the form x + sum_{j<K} c_j n^-j (n^-2j).", "quantifier": "all K, all strictly increasing sequences of positive integers, all stage results, vectors of any dimension", "why_tests_cant": "Index arithmetic of an in-place recursion for all K.", "anchors": ["include/ode_num_int/ode/OdeSolverExtrapolator.h: doStep"]}
{"id": "C33", "title": "Step sequences are strictly increasing positive integers with the documented values", "statement": "Harmonic gives 1,2,3,..., Romberg 1,2,4,..., Bulirsch 1,2,3,4,6,8,12,...; each is strictly increasing, so the extrapolation never divides by zero, and the K-th number is at least K, so the stage array is large enough.", "quantifier": "all positions in the sequence (before integer overflow), all reset histories", "why_tests_cant": "State machine over unbounded calls.", "anchors": ["include/ode_num_int/ode/ExtrapolatorStepSequenceHarmonic.h", "include/ode_num_int/ode/ExtrapolatorStepSequenceRomberg.h", "include/ode_num_int/ode/ExtrapolatorStepSequenceBulirsch.h", "include/ode_num_int/ode/OdeSolverExtrapolator.h: computeTsize"]}
{"id": "C34", "title": "The Gragg step is time-symmetric and preserves its running average interpretation", "statement": "One Gragg step with h followed by one with -h returns the same pair of sequences; without restarts the solver state follows the two-sequence recursion with V and U one step apart, and for a constant right-hand side is exact.", "quantifier": "all right-hand sides, steps and states", "why_tests_cant": "Symmetry is what licenses extrapolation in h^2; it is an identity over all right-hand sides.", "anchors": ["include/ode_num_int/ode/OdeSolverGragg.h"]}
{"id": "C35", "title": "A converged implicit Euler step satisfies the alpha-method equations", "statement": "If the Newton solver ends with residual zero, the state reported by the solver satisfies X1 = X0 + h((1-alpha) f(t0,X0) + alpha f(t0+h,X1)) in all components, including those of second-order variables eliminated from the nonlinear system.", "quantifier": "all right-hand sides, all splits into second/first order variables, all alpha, h, states", "why_tests_cant": "The elimination of positions and the scaled cache must be right for all systems.", "anchors": ["include/ode_num_int/ode/OdeStepMappingEuler.h", "include/ode_num_int/ode/OdeSolverImplicitEuler.h"]}
{"id": "C36", "title": "Step mapping caches never go stale", "statement": "After any sequence of setInitialState, setTimeStep, setImplicitnessParameter and map calls with a fixed right-hand side, map(x) equals the residual computed from the current settings.", "quantifier": "all call histories", "why_tests_cant": "Cache invalidation over all interleavings.", "anchors": ["include/ode_num_int/ode/OdeStepMappingEuler.h"]}
{"id": "C37", "title": "Rosenbrock linear solve eliminates second-order variables correctly", "statement": "With W = I - hd J1 - (hd)^2 J2 inverted exactly, linSolve returns x with (I - hd J) x = b for J = [[0,I,0],[J2,J1]].", "quantifier": "all dimensions, all J1, J2, b, hd", "why_tests_cant": "Block identity over all sizes.", "anchors": ["include/ode_num_int/ode/OdeSolverRosenbrock_W_base.h: linSolve, mult"]}
{"id": "C38", "title": "The Jacobian used by the Rosenbrock solvers contains all columns", "statement": "buildJacobian computes finite differences with respect to every velocity and first-order variable.", "quantifier": "all systems with n2 second-order and n1 first-order variables", "why_tests_cant": "Index ranges for all n1, n2; for n2=0 it is right, for n2>0 columns are missing.", "anchors": ["include/ode_num_int/ode/OdeSolverRosenbrock_W_base.h: buildJacobian"]}
{"id": "C39", "title": "The cached factorization always belongs to the current step size", "statement": "After updateW(hd) the factorization used by linSolve is that of I - hd J1 - (hd)^2 J2 for the current Jacobians, for every history of step changes, and never more than 100 factorizations are kept.", "quantifier": "all histories of updateW/buildJacobian calls", "why_tests_cant": "Cache coherence over unbounded histories.", "anchors": ["include/ode_num_int/ode/OdeSolverRosenbrock_W_base.h: updateW"]}
{"id": "C40", "title": "SW2(4) uses a factorization matching the step of the attempt", "statement": "In every attempt of the SW2(4) step the linear systems are solved with hd of that attempt.", "quantifier": "all sequences of rejections", "why_tests_cant": "Only a rejection followed by a retry shows it; it is false.", "anchors": ["include/ode_num_int/ode/OdeSolverRosenbrock_SW2_4.h: doStep"]}
{"id": "C41", "title": "SW2(4) has order 2 for any approximation of the Jacobian", "statement": "On x' = A x with any matrix J in place of the Jacobian the result of one step agrees with exp(hA)x through h^2.", "quantifier": "all matrices A, J, all d, all states", "why_tests_cant": "Statement about all matrices.", "anchors": ["include/ode_num_int/ode/OdeSolverRosenbrock_SW2_4.h"]}
{"id": "C42", "title": "A truncated step ends inside the step, at the earliest linear zero crossing", "statement": "When the event controller truncates a step, the new time lies in [t1, t1+h), no other event function has an earlier crossing, the state is the linear interpolation there, and the fired event function's interpolant is zero.", "quantifier": "all event functions values at both ends, any number of events, all flags", "why_tests_cant": "Any number of event functions with arbitrary values; boundary cases (exact zero, wrong side) break it.", "anchors": ["include/ode_num_int/ode/LinearOdeEventController.h: atStepEnd"]}
{"id": "C43", "title": "A step without zero crossing is not truncated", "statement": "If no event function changes sign in its armed direction the step is accepted unchanged.", "quantifier": "all event function values and flags", "why_tests_cant": "All sign combinations and histories of armed state.", "anchors": ["include/ode_num_int/ode/LinearOdeEventController.h: atStepEnd"]}
{"id": "C44", "title": "solveOde runs until the end time and not longer", "statement": "solveOde makes at least one step, every step but the last ends before start+duration, the last one at or after it; with steps bounded below it terminates.", "quantifier": "all solvers as step functions, all durations", "why_tests_cant": "Induction over unbounded step histories.", "anchors": ["include/ode_num_int/ode/OdeSolverConfiguration.h: solveOde"]}
{"id": "C45", "title": "Timed output is neither too dense nor too sparse", "statement": "With timing T>0 two consecutive non-forced outputs are at least T apart in model time; the first call always outputs; whenever a call comes T or more after the last output it outputs.", "quantifier": "all monotone call histories", "why_tests_cant": "Invariant over call histories.", "anchors": ["include/ode_num_int/ode/ode_solver_output.h: outputNow"]}
{"id": "C46", "title": "Printed component selection: all if few, otherwise first L and last L, without repetition and in order", "statement": "For n components and half limit L the selection is 0..n-1 if n<=2L and otherwise 0..L-1, n-L..n-1; strictly increasing, all below n. Vector printing selects the same components.", "quantifier": "all n, L", "why_tests_cant": "All sizes.", "anchors": ["include/ode_num_int/ode/ode_solver_output.h: addIndices", "include/ode_num_int/la/VectorTemplate.h: toString"]}
{"id": "C47", "title": "Generated variable names are distinct and sort in index order", "statement": "For indices below the variable count names have equal length, are pairwise distinct and their lexicographic order is the index order.", "quantifier": "all variable counts, all index pairs", "why_tests_cant": "All counts.", "anchors": ["include/ode_num_int/ode/OdeVarNameGenerator.h"]}
{"id": "C48", "title": "Richardson error estimate equals the leading local error", "statement": "If one step of size h has local error C h^(p+1), calculateError reports that error exactly; the solution continues with the half-step result; truncated or rejected steps contribute no sample.", "quantifier": "all p, C, h, all step outcomes", "why_tests_cant": "Identity for all orders plus bookkeeping over all runs.", "anchors": ["include/ode_num_int/ode/util/RichardsonErrorCalculator.h: calculateError"]}
{"id": "C49", "title": "Observer identifiers are unique among registered observers and callbacks run in registration order", "statement": "add returns an identifier not in use; callbacks are invoked in order of registration, each exactly once per call; remove of an absent id changes nothing.", "quantifier": "all histories of add/remove/clear/call", "why_tests_cant": "All histories.", "anchors": ["include/ode_num_int/infra/cxx_observers.h: IdentifiedElements, Observers"]}
{"id": "C50", "title": "Removing an observer id twice is harmless", "statement": "Removing with an id that has already been removed never removes another observer.", "quantifier": "all histories", "why_tests_cant": "Needs a particular interleaving (remove last, add, remove stale id); it is false.", "anchors": ["include/ode_num_int/infra/cxx_observers.h: IdentifiedElements::newId, remove"]}
{"id": "C51", "title": "Terminating observers all run, the result is the logical or", "statement": "Calling terminating observers invokes every callback once, in order, and returns true iff some callback returned true.", "quantifier": "all lists of callbacks and results", "why_tests_cant": "All callback lists (short-circuit hazards).", "anchors": ["include/ode_num_int/infra/cxx_observers.h: TerminatingObservers"]}
{"id": "C52", "title": "Parameter path text round trip", "statement": "parsePath(formatPath(path)) = path for every path whose items are non-empty and contain no dot; parse never produces an empty item or an item containing a dot.", "quantifier": "all paths, all strings", "why_tests_cant": "All strings.", "anchors": ["include/ode_num_int/infra/OptionalParameters.h: parsePath, formatPath"]}
{"id": "C53", "title": "Parameter tree lookup and update", "statement": "value(path) finds exactly the node addressed by the path or throws; assigning through it changes that node only.", "quantifier": "all parameter trees, all paths", "why_tests_cant": "All trees.", "anchors": ["include/ode_num_int/infra/OptionalParameters.h: parameters, value", "include/ode_num_int/infra/ComponentConfiguration.h"]}
{"id": "C54", "title": "Error statistics of merged sample sets", "statement": "Statistics of the concatenation of two sample sequences equal the merge of their statistics; max, sum, square sum and count are those of the samples; the mean is sum/count.", "quantifier": "all sample sequences", "why_tests_cant": "Homomorphism over all sequences.", "anchors": ["include/ode_num_int/util/ErrorStats.h"]}
{"id": "C55", "title": "Reported mean square deviation is the standard deviation", "statement": "errorMeanSqareDev squared is the mean of squared deviations from the mean.", "quantifier": "all non-empty sample sequences", "why_tests_cant": "It is false for almost all inputs; no test computes it.", "anchors": ["include/ode_num_int/util/ErrorStats.h: errorMeanSqareDev"]}
{"id": "C56", "title": "Positive remainder functions land in their documented range and class", "statement": "modp(x,m) is in [0,m) and congruent to x modulo m; modd(x,p,b) is in [b,b+p) and differs from x by an integer multiple of p.", "quantifier": "all integers x in int range except INT_MIN (undefined behaviour) with m >= 1; all reals x, b and p>0", "why_tests_cant": "All integers, including negative and extreme ones where unsigned arithmetic wraps.", "anchors": ["include/ode_num_int/util/m_inline.h: modp, modd"]}
{"id": "C57", "title": "Cubic Hermite interpolation", "statement": "The cubic has the given values and slopes at both ends; the D, D2, D3 functions are its derivatives; basis functions reproduce it.", "quantifier": "all end values, slopes and parameters", "why_tests_cant": "Polynomial identities over all reals.", "anchors": ["include/ode_num_int/util/m_inline.h: cubic"]}
{"id": "C58", "title": "Bouncing ball impacts never increase energy and sticking is final", "statement": "With recovery factor in [0,1] the velocity magnitude after an impact is not larger than before and has opposite sign or is zero; once sticking, the right-hand side is zero.", "quantifier": "all velocities, recovery factors, thresholds", "why_tests_cant": "All reals.", "anchors": ["include/ode_num_int/ode/test_models/BouncingBall.h"]}
{"id": "C59", "title": "Coupled oscillators conserve energy", "statement": "The right-hand side of the coupled nonlinear oscillators is a Hamiltonian field: the power of the forces plus the rate of change of potential energy is zero in every state.", "quantifier": "all numbers of oscillators, all states, all parameters", "why_tests_cant": "Identity over all n.", "anchors": ["include/ode_num_int/ode/test_models/CoupledNonlinearOscillators.h"]}
{"id": "C60", "title": "Time span text is canonical and reversible", "statement": "FormatTimeSpanSec(s) prints h:mm:ss with 3600h+60m+s equal to the input and m,s < 60; distinct inputs give distinct texts.", "quantifier": "all second counts below 2^32 hours (beyond that the 32-bit hour counter wraps, proved separately)", "why_tests_cant": "All counts.", "anchors": ["include/ode_num_int/util/sys_time.h"]}
{"id": "C61", "title": "A rejected setMatrix leaves the factorizer usable with its previous matrix", "statement": "If setMatrix throws, the object still represents the matrix it held before, and solve still solves that system.", "quantifier": "every previously held matrix, every rejected stencil", "why_tests_cant": "Needs every kind of rejected stencil crossed with every held matrix; the failure only shows in a later call on the same object.", "anchors": ["include/ode_num_int/lu/LUFactorizer.h: setMatrix (m_p, m_q, m_s are overwritten before the checks that throw)"]}
{"id": "C62", "title": "luToMatrix returns the matrix represented by the factorizer", "statement": "luToMatrix(f) has at every position the value of f.elementAt, stores no zeros and no position twice; in particular after setMatrix(A) and any number of solves it returns A.", "quantifier": "every accepted matrix, every history of solves and secant updates", "why_tests_cant": "Ranges over all stencils and call histories; the column range is taken from the stencil of the original matrix, so fill-in matters.", "anchors": ["include/ode_num_int/lu/util.h: luToMatrix"]}
{"id": "C63", "title": "Operations whose right side is a view of the left side give the mathematical result", "statement": "m = m.transposed() replaces m by its transpose, and m += m.transposed() adds the transpose, as the expressions read.", "quantifier": "every square map-backed matrix", "why_tests_cant": "Aliasing between destination and source is not visible in tests that use distinct objects; the result depends on the order of clearing and enumeration for every content.", "anchors": ["include/ode_num_int/la/SparseMatrixTemplate.h: doAssign, priv::copyFrom, operator+=, transposed"]}
{"id": "C64", "title": "Norms are the mathematical norms of the represented vector or matrix", "statement": "infNorm is the least upper bound of absolute values of all entries (zero if empty); oneNorm and euclideanNormSquare are the sums of absolute values and squares over all positions, for matrices independent of which zeros are stored.", "quantifier": "all vectors, all matrices with elements inside the declared size", "why_tests_cant": "Ranges over all contents and sparsity patterns.", "anchors": ["include/ode_num_int/la/SparseMatrixTemplate.h: infNorm, oneNorm, euclideanNormSquare", "include/ode_num_int/la/VectorTemplate.h: infNorm, oneNorm, euclideanNormSquare"]}
{"id": "C65", "title": "Vector arithmetic is componentwise or reports the mismatch", "statement": "+=, -=, *=, scaled, dot and assignments between vectors of the same size compute the componentwise results and the sum of products; with a shorter right operand they throw out_of_range and never read outside a vector.", "quantifier": "all vectors of all sizes, all scalars", "why_tests_cant": "Universal over sizes and values, including mismatched sizes.", "anchors": ["include/ode_num_int/la/VectorTemplate.h"]}
{"id": "C66", "title": "Pre-step observers are told the size of the step about to be made", "statement": "Each call of the pre-step observers receives the step size that the attempt following it uses.", "quantifier": "all call histories of doStep, setInitialState, setInitialStepSize of the explicit fixed-step solver", "why_tests_cant": "The value is read before it is initialised: what a test sees depends on memory contents; false at the first step of every run.", "anchors": ["include/ode_num_int/ode/OdeSolverExplicitRK.h: doStep, initStep", "include/ode_num_int/ode/OdeSolverExplicitEmbeddedRK.h: doStep, initStep"]}
{"id": "C67", "title": "The bouncing ball never ends a step below the ground", "statement": "Starting at or above the ground with the default event controller, after every completed step the reported height is not negative, whatever states the integration method proposes; after an impact the ball is on the ground with a non-negative velocity; a step can fail only if the proposed height is exactly zero.", "quantifier": "all runs of any length, all sequences of proposed states and times, all model parameters with recovery factor in [0,1]", "why_tests_cant": "Ranges over all methods, step sizes and run lengths; a test sees a few trajectories.", "anchors": ["include/ode_num_int/ode/test_models/BouncingBall.h", "include/ode_num_int/ode/LinearOdeEventController.h: atStepStart, atStepEnd"]}
{"id": "C68", "title": "Vector operations whose operand reads the vector being changed", "statement": "Updates and assignments whose right side is made from the vector being changed (scaled copies, blocks of itself) give the result of first evaluating the right side and then updating.", "quantifier": "all vectors, all blocks and scale factors", "why_tests_cant": "Depends on the overlap of the operands; undefined behaviour may go unnoticed in a test run.", "anchors": ["include/ode_num_int/la/VectorTemplate.h: VectorData::assign, Block, Scale, operator+="]}
{"id": "C69", "title": "Callbacks may change the list of observers while being notified", "statement": "A callback may add observers, remove others and remove itself during a notification; every observer registered when the notification ends was notified, none twice, in order of registration.", "quantifier": "all lists of observers, all behaviours of callbacks", "why_tests_cant": "Erasing the current element of a map during iteration is undefined behaviour that often goes unnoticed; all interleavings of edits.", "anchors": ["include/ode_num_int/infra/cxx_observers.h: Observers::operator(), IdentifiedElements::remove"]}
{"id": "C70", "title": "A scoped element removes what it added and nothing else", "statement": "Whatever the order in which scoped elements are constructed, moved, finished and destroyed, the sequence holds the elements of unfinished scopes and the elements added without scope, in order.", "quantifier": "all histories of scopes, add and clear", "why_tests_cant": "Identifiers are reused; only particular orders expose a stale identifier.", "anchors": ["include/ode_num_int/infra/cxx_observers.h: ScopedIdentifiedElement"]}
{"id": "C71", "title": "Forwarded observers are called in place", "statement": "A call of observers with forwarding runs the callbacks registered at the time of the call in the forwarded sequence, at the position of the forwarding, and includes their results in the logical or.", "quantifier": "all networks of forwarding without cycles, all callbacks", "why_tests_cant": "All nesting depths and registration orders.", "anchors": ["include/ode_num_int/infra/cxx_observers.h: forwardObservers"]}
{"id": "C72", "title": "A copy of a parameter set is independent of the original", "statement": "Changing a value in a copy of a set of parameters does not change the original.", "quantifier": "all parameter trees, all paths", "why_tests_cant": "Copies share nested sets through shared pointers: false below the first level.", "anchors": ["include/ode_num_int/infra/OptionalParameters.h: Value"]}
{"id": "C73", "title": "A configuration shows the parameters of its component", "statement": "A value read through a configuration is the component's value at that path after every history of reads and settings, including settings the component rejects; a setting passes the component its own parameters with that value changed.", "quantifier": "all components, all histories", "why_tests_cant": "All histories; fails after a rejected setting.", "anchors": ["include/ode_num_int/infra/ComponentConfiguration.h: setValuePriv, parametersPriv"]}
{"id": "C74", "title": "Parameter values are converted without loss", "statement": "A number or boolean stored as a parameter value is read back unchanged; text that does not denote a number of the requested type is rejected.", "quantifier": "all numbers, all texts", "why_tests_cant": "All values; wrong for negative text read as unsigned and for doubles that need 17 digits.", "anchors": ["include/ode_num_int/infra/OptionalParameters.h: Value constructors, toType"]}
{"id": "C75", "title": "Lexical checks accept exactly what they are documented to accept", "statement": "IsIntegerNumber, IsNumber, IsHexIntegerNumber and IsIdentifier accept exactly integers, decimal numbers, hexadecimal digits and C identifiers.", "quantifier": "all texts", "why_tests_cant": "All texts; the identifier check is wrong for a few characters.", "anchors": ["include/ode_num_int/util/lex_idnum.h"]}
{"id": "C76", "title": "A type identifier recreates an object of the same type", "statement": "The factory creates, for the identifier of an instance, an instance of the same type; identifiers never registered are rejected.", "quantifier": "all sequences of registrations", "why_tests_cant": "Depends on all registrations in a program; false when an identifier is registered twice.", "anchors": ["include/ode_num_int/infra/Factory.h: registerType, newInstance, FactoryMixin"]}
{"id": "C77", "title": "Malformed path text is rejected", "statement": "A path text with an empty item (two dots in a row, a leading dot) does not address any parameter.", "quantifier": "all texts", "why_tests_cant": "All texts; false: the rest of the text after the empty item is ignored.", "anchors": ["include/ode_num_int/infra/OptionalParameters.h: parsePath, value"]}
{"id": "C78", "title": "The extrapolator has the order it reports", "statement": "order() of OdeSolverExtrapolator is the true order of its accepted steps: for every smooth right-hand side the state after a step of size h differs from the exact solution by O(h^(order()+1)).", "quantifier": "all smooth right-hand sides, all numbers of stages, all step sequences, all reference solvers and flags", "why_tests_cant": "An asymptotic statement for all problems and all numbers of stages; false for the default flag with the Gragg reference.", "anchors": ["include/ode_num_int/ode/OdeSolverExtrapolator.h: order, doStep", "include/ode_num_int/ode/OdeSolverGragg.h: doStep"]}
{"id": "C79", "title": "The extrapolator never reads outside its tables", "statement": "Whatever the parameters and the history of setInitialState, setInitialStepSize, parameter changes and steps, a step either completes or reports an error; it never accesses its arrays out of range or dereferences a null component. The accepted state is the value at zero of the polynomial through the stage results.", "quantifier": "all parameters, all histories of calls, all right-hand sides", "why_tests_cant": "All histories and parameters; the failures are undefined behaviour which a test may not notice.", "anchors": ["include/ode_num_int/ode/OdeSolverExtrapolator.h: doStep, setInitialState, setMaxStages"]}
{"id": "C80", "title": "Observers are told the size of the step that was made", "statement": "The step size passed by the extrapolator to post-observers of an accepted step equals the distance between the times after and before the step.", "quantifier": "all steps", "why_tests_cant": "All runs; false whenever the step size changes after the step.", "anchors": ["include/ode_num_int/ode/OdeSolverExtrapolator.h: doStep"]}
{"id": "C81", "title": "Setting the initial state restarts event detection", "statement": "After setInitialState the event controller of a solver is in its initial state, so that no data of the previous run influence event detection.", "quantifier": "all solvers, all event controllers, all histories", "why_tests_cant": "All histories; false for the Gragg solver, which never resets its event controller.", "anchors": ["include/ode_num_int/ode/OdeSolverGragg.h: setInitialState", "include/ode_num_int/ode/OdeSolverExtrapolator.h: setInitialState", "include/ode_num_int/ode/OdeSolverExplicitRK.h: setInitialState"]}
{"id": "C82", "title": "computeJacobian stores exactly the nonzero difference quotients, and for an affine mapping the matrix itself", "statement": "computeJacobian(F, x0) returns a matrix of size outputs x inputs whose (r,c) element is (F(x0+d*e_c)-F(x0))_r/d, stored iff it is not zero; for F(x)=A x+b it is A for every x0 and every d != 0.", "quantifier": "all mappings that return, all x0, all increments d != 0; all affine mappings", "why_tests_cant": "Holds for every mapping, point and increment; a test sees one matrix.", "anchors": ["include/ode_num_int/alg/computeJacobian.h"]}
{"id": "C83", "title": "The mapping normalizer keeps the roots and gives a unit diagonal", "statement": "If normalization returns, x is a root of the normalized mapping iff the transformed point is a root of the original one; for affine mappings with nonzero diagonal the normalized Jacobian has diagonal entries of modulus one; a zero diagonal entry is reported by an exception.", "quantifier": "all mappings, all points, all nonzero diagonals", "why_tests_cant": "Root correspondence and the scaling identity are statements over all mappings and points.", "anchors": ["include/ode_num_int/alg/MappingNormalizer.h"]}
{"id": "C84", "title": "A Jacobian provider leaves the finite-difference Jacobian of the point it was given", "statement": "After computeJacobian(x0) the matrix of the provider holds at every position the difference quotient of the mapping at x0, whatever points the provider was used at before, with the default provider and with the sparse one.", "quantifier": "all mappings, all histories of computations and hard resets, all points", "why_tests_cant": "Wrong values of the sparse provider depend on an earlier point at which a derivative happened to vanish.", "anchors": ["include/ode_num_int/alg/SparseJacobianProvider.h", "include/ode_num_int/alg/DefaultJacobianProvider.h", "include/ode_num_int/alg/SparseJacobianCalculator.h"]}
{"id": "C85", "title": "A hard reset makes a descent direction forget the past", "statement": "The direction computed first after reset(true) is the one that a newly constructed object would compute at that point.", "quantifier": "all states of the object, all kinds of directions, all mappings, trimmers and points", "why_tests_cant": "State left over from before the reset is invisible unless the Jacobian changed meanwhile.", "anchors": ["include/ode_num_int/alg/JacobianBroydenUpdateNewtonDescentDirection.h", "include/ode_num_int/alg/JacobianFakeBroydenUpdateNewtonDescentDirection.h", "include/ode_num_int/alg/interfaces/JacobianProvider.h"]}
{"id": "C86", "title": "A descent direction solves the linear system of the current Jacobian", "statement": "Whenever computeDescentDirection returns, J*dir = -f0 for the matrix J the Jacobian provider holds then.", "quantifier": "all histories of calls, all mappings, trimmers and points", "why_tests_cant": "The reuse of the factorizer's layout goes wrong only for particular changes of the stencil.", "anchors": ["include/ode_num_int/alg/SimpleNewtonDescentDirection.h", "include/ode_num_int/alg/JacobianFakeBroydenUpdateNewtonDescentDirection.h", "include/ode_num_int/lu/LUFactorizer.h"]}
{"id": "C87", "title": "The Newton solver solves linear systems", "statement": "On an affine system A x = b whose leading minors are nonzero and whose pattern satisfies the factorizer's fill condition, run() returns Converged with the exact root, within two iterations.", "quantifier": "all sizes, matrices, right-hand sides, initial guesses, both Jacobian providers, simple, constant-Jacobian, Broyden and stencil-preserving Broyden directions after any earlier use, all nonnegative tolerances, all limits of at least two iterations and one truncation", "why_tests_cant": "Needs the composition of finite differences, factorization, direction, line search, estimator and control flow for every matrix; it is false when the first step is large relative to the guess, because the estimator's threshold on relative changes then reports divergence at the root.", "anchors": ["include/ode_num_int/alg/NewtonSolver.h: run", "include/ode_num_int/alg/NewtonIterationPerformerImpl.h", "include/ode_num_int/alg/SimpleErrorEstimator.h"]}
{"id": "C88", "title": "Converged means a small residual, and no run makes the residual larger", "statement": "If run() returns Converged, every component of the mapping at currentSolution() is within the absolute tolerance. Whatever it returns, including after a restart, the Euclidean norm of the residual at currentSolution() is not larger than at the initial guess.", "quantifier": "all mappings, descent directions, observers, limits and earlier uses, with the simple line search and estimator and no regularization strategy", "why_tests_cant": "Invariant over all iterations and restarts for arbitrary mappings and directions.", "anchors": ["include/ode_num_int/alg/NewtonSolver.h: run", "include/ode_num_int/alg/SimpleNewtonLinearSearch.h", "include/ode_num_int/alg/SimpleErrorEstimator.h"]}
{"id": "C89", "title": "Replacing the right-hand side of a step mapping takes effect at once", "statement": "After setOdeRhs(r2) on a step mapping, map(x) is the residual of the equations with r2, whatever was computed before with another right-hand side.", "quantifier": "all right-hand sides of the same sizes, all call histories, all states", "why_tests_cant": "Interaction of a cache with a setter over all histories; it is false: setOdeRhs leaves the cached value of the right-hand side at the initial state.", "anchors": ["include/ode_num_int/ode/OdeStepMappingEuler.h"]}
{"id": "C90", "title": "Implicit Euler steps are unconditionally stable", "statement": "With implicitness parameter 1 a converged step never increases the distance of two solutions of a dissipative system; with parameter at least 1/2 it never increases the norm of the solution of a linear dissipative system.", "quantifier": "all dissipative right-hand sides, all splits into second/first order variables, all nonnegative step sizes, all states", "why_tests_cant": "A statement about all stiff systems and all step sizes.", "anchors": ["include/ode_num_int/ode/OdeStepMappingEuler.h", "include/ode_num_int/ode/OdeSolverImplicitEuler.h"]}
{"id": "C92", "title": "W1 has order 1 with any Jacobian and any d", "statement": "One step of OdeSolverRosenbrock_W1 from (t,x) makes x + h k with (I - h d J) k = f(t,x) for the Jacobian J in use; its local error is h^2 (d J f - (f_t + f_x f)/2) + O(h^3). Hence order 1 always, order 2 exactly when that coefficient vanishes, e.g. d = 1/2 with an exact Jacobian of an autonomous system.", "quantifier": "all systems with a C^2 right-hand side, all states, all Jacobians left from earlier steps, all d, all small steps", "why_tests_cant": "An asymptotic statement about all right-hand sides and all stale Jacobians.", "anchors": ["include/ode_num_int/ode/OdeSolverRosenbrock_W1.h: doStep", "include/ode_num_int/ode/OdeSolverRosenbrock_W_base.h"]}
{"id": "C93", "title": "The error estimate of SW2(4) is of the order of the local error", "statement": "With error control on, the error norm that SW2(4) passes to the step size controller and to the observers of an accepted first attempt is the norm of a vector that is O(h^3), for any Jacobian in use.", "quantifier": "all systems with a C^2 right-hand side, all states, all Jacobians", "why_tests_cant": "An asymptotic statement about all right-hand sides and all stale Jacobians.", "anchors": ["include/ode_num_int/ode/OdeSolverRosenbrock_SW2_4.h: doStep"]}
{"id": "C91", "title": "A Rosenbrock solver that is given a new initial state starts like a new one", "statement": "After setInitialStepSize(h) and setInitialState(t,x) (not soft) the steps of W1 and SW2(4) do not depend on what the solver did before: Jacobian, factorizations, buffers, event controller.", "quantifier": "all earlier histories, all states, all right-hand sides, all step sizes, all fuels", "why_tests_cant": "Independence of arbitrary earlier histories.", "anchors": ["include/ode_num_int/ode/OdeSolverRosenbrock_W1.h: setInitialState", "include/ode_num_int/ode/OdeSolverRosenbrock_SW2_4.h: setInitialState"]}
{"id": "C94", "title": "Solution output with a timing writes states at least the timing apart", "statement": "With timing T>0 the rows written by the solution output and the columns collected by the columnwise output are states of accepted steps in order, starting with the initial state, every two neighbours at least T apart, and a step is left out only when less than T has passed since the last one written (columns: up to the step limit).", "quantifier": "all timings, all index selections, all histories of accepted, rejected and truncated steps", "why_tests_cant": "A statement about all step histories; the off-by-one between the initial row and the first step shows up only with particular step sizes.", "anchors": ["include/ode_num_int/ode/ode_solver_output.h: OdeSolverStepSolutionConsoleOutput, OdeSolverStepSolutionColumnwiseOutput"]}
{"id": "C95", "title": "Statistics of a run are exact", "statement": "The statistics output counts attempts, rejected, truncated and step-changing attempts and right-hand side evaluations (apart those made while a Jacobian is being computed); the average step size is the mean over accepted steps, and average times accepted steps is the model time gone by.", "quantifier": "all histories of observer calls", "why_tests_cant": "Counting over all interleavings of accepted, rejected, truncated steps and Jacobian computations.", "anchors": ["include/ode_num_int/ode/ode_solver_output.h: OdeSolverStatisticsOutput"]}
{"id": "C96", "title": "A wrong configuration is reported by an exception", "statement": "OdeSolverConfiguration::apply throws if there is no solver, no right-hand side, or an initial state of the wrong size, and otherwise both solvers start from the given time and state with the given right-hand side.", "quantifier": "all configurations (solver, reference solver, right-hand side, initial state, each present or not), all sizes", "why_tests_cant": "All combinations of present and absent components and all sizes.", "anchors": ["include/ode_num_int/ode/OdeSolverConfiguration.h: apply"]}
{"id": "C97", "title": "A specified initial state can be saved and loaded", "statement": "setParameters(parameters()) of a SpecifiedOdeInitState makes any other such object equal to it; parameters not given leave the old values, new variables are zero; a bad size is reported.", "quantifier": "all states of both objects, all parameter sets", "why_tests_cant": "All sizes of the two objects, in particular shrinking.", "anchors": ["include/ode_num_int/ode/SpecifiedOdeInitState.h: setParameters, parameters, resize"]}
{"id": "C98", "title": "Richardson error calculation keeps time and state together", "statement": "In every iteration of calculateError the state x from which the steps are made is the state reached at the time t given to the solver and to the observers.", "quantifier": "all solvers, all step outcomes", "why_tests_cant": "Depends on truncated half steps, over all runs.", "anchors": ["include/ode_num_int/ode/util/RichardsonErrorCalculator.h: calculateError"]}
{"id": "C99", "title": "The columnwise table is complete and unambiguous", "statement": "The table written after the run has one heading and time per collected column and one row per variable, in index order, with a distinct name and its value in every column.", "quantifier": "all numbers of variables and columns", "why_tests_cant": "All sizes.", "anchors": ["include/ode_num_int/ode/ode_solver_output.h: OdeSolverStepSolutionColumnwiseOutput::D::write", "include/ode_num_int/ode/OdeVarNameGenerator.h"]}
{"id": "C100", "title": "The step report numbers attempts truthfully and never omits event steps", "statement": "The lines of the general step report are attempts in order with their true number, time, step size and flags (rejected attempts included); every step truncated at an event is reported; with no output timing everything is; otherwise a step is left out only while the last line is younger than the timing.", "quantifier": "all histories of attempts, all timings", "why_tests_cant": "All interleavings of accepted, rejected and truncated attempts.", "anchors": ["include/ode_num_int/ode/ode_solver_output.h: OdeSolverStepGeneralConsoleOutput"]}
{"id": "C101", "title": "The explicit solvers converge with the order they are named for", "statement": "On every time interval on which the initial value problem has an exact solution along which the right-hand side is smooth, the explicit Euler solver is within C·h of the solution at every grid time, the classical Runge-Kutta solver within C·h^4, DOPRI45 and DOPRI56 within C·H^5 and C·H^6 (one order less in low-order mode), where h is the step and H the largest step made, for all small enough h, H and any choice of steps by the step size controller. No global Lipschitz constant is needed and the solution may blow up after the interval.", "quantifier": "all right-hand sides smooth near the solution (any dimension), all intervals, all small steps, all step size controllers and error norms, all numbers of calls of doStep", "why_tests_cant": "A limit statement about all smooth problems and all step sequences; tests measure observed orders on a few problems.", "anchors": ["include/ode_num_int/ode/OdeSolverExplicitRK.h: doStep", "include/ode_num_int/ode/OdeSolverExplicitEmbeddedRK.h: doStep", "include/ode_num_int/ode/OdeSolverExplicitEuler.h", "include/ode_num_int/ode/OdeSolverRK4.h", "include/ode_num_int/ode/OdeSolverDOPRI45.h", "include/ode_num_int/ode/OdeSolverDOPRI56.h"]}
{"id": "C102", "title": "Friction of the sliding point opposes motion, is bounded and Lipschitz", "statement": "For saturation speed v0 > 0 and f0 >= 0, the friction force of SlidingPoint is a nonpositive multiple of the velocity, zero at rest, of the magnitude documented for its type and at most f0 for the types 'atan' and 'tabular'. It is Lipschitz in the velocity with constant f0/v0 and never drives two velocities apart. Along every solution kinetic energy grows no faster than the power of the applied forces; without them the speed never grows. The friction type survives writing and reading of parameters; unknown texts throw and change nothing.", "quantifier": "all parameters with v0 > 0, f0 >= 0, mass > 0, all velocities, all solutions, all texts", "why_tests_cant": "Inequalities over all pairs of velocities and all trajectories.", "anchors": ["include/ode_num_int/ode/test_models/SlidingPoint.h: frictionForce, rhs, setParameters, toEnum, fromEnum"]}
{"id": "C103", "title": "Energy of the oscillator under exact solution and under each solver", "statement": "Energy is constant along every solution of Oscillator. A step of the explicit Euler solver multiplies the energy relative to rest by 1 + c h^2, a step of RK4 by 1 - z^3/72 + z^4/576 with z = c h^2, so RK4 stays bounded exactly if c h^2 <= 8. A step of the implicit Euler solver without residual multiplies it by (1+(1-alpha)^2 z)/(1+alpha^2 z): damping for alpha = 1, exact conservation for alpha = 1/2.", "quantifier": "all stiffnesses and forces, all step sizes, all initial states, all numbers of steps", "why_tests_cant": "Long-time behaviour for every step size, with the exact threshold.", "anchors": ["include/ode_num_int/ode/test_models/Oscillator.h: rhs", "include/ode_num_int/ode/OdeSolverExplicitRK.h: doStep", "include/ode_num_int/ode/OdeSolverImplicitEuler.h: doStep"]}
{"id": "C104", "title": "The stiff equation is y' = -a (y - cos t) with the a that was given, and only the implicit solver damps it at every step size", "statement": "StiffOde1D uses the coefficient given in its constructor or parameters; all its solutions approach (a^2 cos t + a sin t)/(1+a^2) as exp(-a t). Two implicit Euler runs approach each other by the factor 1/(1+a h) per step at any step size; two explicit Euler runs by 1 - a h, so they separate when a h > 2.", "quantifier": "all coefficients, all step sizes, all initial values, all numbers of steps", "why_tests_cant": "Holds for all real coefficients; the documentation and the usual test use integers only.", "anchors": ["include/ode_num_int/ode/test_models/StiffOde1D.h: constructor, rhs, setParameters"]}
{"id": "C105", "title": "The Rosenbrock solvers converge with their order", "statement": "With a fixed small step size h every call of doStep of W1 on a bounded interval succeeds and the state shown after n calls differs from the exact solution at the time shown by at most C h, although the Jacobian is computed only once and d is arbitrary. For SW2(4) the difference is at most C H^2, H being the largest step made, if the steps are accepted in their first pass; with the error check disabled every step succeeds and the difference is at most C h^2.", "quantifier": "all systems with right-hand sides that are smooth near the solution, all intervals the solution exists on, all parameters d except zero, all step sizes below a bound, all numbers of steps", "why_tests_cant": "An error bound uniform in the step size and in the number of steps, for every smooth system; tests estimate an order from a few step sizes on a few systems.", "anchors": ["include/ode_num_int/ode/OdeSolverRosenbrock_W1.h: doStep", "include/ode_num_int/ode/OdeSolverRosenbrock_SW2_4.h: doStep", "include/ode_num_int/ode/OdeSolverRosenbrock_W_base.h: linSolve, updateW"]}
{"id": "C106", "title": "The implicit Euler solver converges, up to the Newton tolerance over the step size", "statement": "In every run of the implicit Euler solver with the simple line search whose steps all succeed, the state after k steps differs from the exact solution by at most C (h^p + tol/h), tol being the absolute tolerance of the Newton solver, with p = 1, and p = 2 if the implicitness parameter is 1/2.", "quantifier": "all systems with a right-hand side that is Lipschitz where the run goes and smooth near the solution, all descent directions, predictors, variable orders and tolerances, all step sizes below a bound, all numbers of steps", "why_tests_cant": "An error bound uniform in the step size, the tolerance and the number of steps; it also says that decreasing h at a fixed tolerance stops helping.", "anchors": ["include/ode_num_int/ode/OdeSolverImplicitEuler.h: doStep", "include/ode_num_int/ode/OdeStepMappingEuler.h: map", "include/ode_num_int/alg/SimpleErrorEstimator.h: currentStatus"]}
{"id": "C107", "title": "All components of a Newton solver work on the equation that was set last", "statement": "After setComponent(mapping), whatever components are set later and in whichever order, the residual, the Jacobian, the Jacobian trimmer and the line search of the solver all use the mapping set last, and the regularization strategy refers to the error estimator and the descent direction in use. Calls for one solver do not affect another solver.", "quantifier": "all histories of setComponent calls, all prior connections of the objects, any number of solvers", "why_tests_cant": "The connections are updated by observers and by eight overloads that each forward part of the information; the histories are unbounded and tests set up one or two of them.", "anchors": ["include/ode_num_int/alg/interfaces/NewtonSolverInterface.h: setComponent (all overloads)", "include/ode_num_int/alg/interfaces/NewtonDescentDirection.h: constructor", "include/ode_num_int/alg/interfaces/JacobianProvider.h: constructor"]}
{"id": "C108", "title": "Replacing a component leaves a Newton solver that can be run", "statement": "A newly constructed NewtonSolver has all components but the mapping; after any setComponent calls that pass objects (not null) all member calls made by run are on existing objects once a mapping has been set.", "quantifier": "all histories of setComponent calls", "why_tests_cant": "Depends on the order of calls: a direction set after a provider drops the provider. Tests cover particular orders only.", "anchors": ["include/ode_num_int/alg/interfaces/NewtonSolverInterface.h: setComponent", "include/ode_num_int/alg/NewtonSolver.h: constructor, run", "src/test_algebraic_eqn_solver.cpp: setComponent of a new direction", "src/test_ode_time_stepper.cpp: setComponent of a new direction"]}
{"id": "C109", "title": "Reading the parameters of a Newton solver and setting them again changes nothing", "statement": "setParameters(parameters()) is defined, gives a solver with the same parameters whose components are connected, and the solver can be run as before. Setting some of the parameters replaces those components and the solver can still be run.", "quantifier": "all states of the solver, all subsets of parameters", "why_tests_cant": "Quantifies over states and subsets of optional parameters.", "anchors": ["include/ode_num_int/alg/interfaces/NewtonSolverInterface.h: parameters, setParameters"]}
{"id": "C110", "title": "The Newton solver of the implicit Euler solver works on the equation of a step", "statement": "After construction, and after any setNewtonSolver, setReorder or algsolver parameter, the Newton solver held uses the mapping of the implicit Euler step (reordered if a reordering mapping is set) for residual, Jacobian and line search; each iteration is forwarded to the observers once.", "quantifier": "all histories of the calls, all Newton solvers with all components", "why_tests_cant": "Quantifies over histories of calls and over the previous use of the Newton solver that is set.", "anchors": ["include/ode_num_int/ode/OdeSolverImplicitEuler.h: constructor, setReorder", "include/ode_num_int/ode/interfaces/OdeNewtonSolver.h: constructor, loadParameters"]}
{"id": "C111", "title": "A run of the Newton solver solves the equation it has when it is called", "statement": "If run returns Converged, the solution satisfies the equation the solver has at that time to within the absolute tolerance, also if the mapping has been replaced, or its state changed, since the last run.", "quantifier": "all mappings, all previous uses of the solver, all descent directions, all states", "why_tests_cant": "Concerns residuals and Jacobians cached across runs for all pairs of equations.", "anchors": ["include/ode_num_int/alg/NewtonIterationPerformerImpl.h: setInitialGuess, reset, currentResidual", "include/ode_num_int/alg/NewtonSolver.h: run", "src/test_ode_time_stepper.cpp: testOdeStepMapping"]}
{"id": "C112", "title": "The Hart direction is a secant method", "statement": "Every direction but the first one after construction or a hard reset solves B*dir = -f0 for a matrix B which the factorizer represents and which, unless there was a soft reset in between, maps the last step to the last change of the residual; after a soft reset it is the former matrix, the first time it is the Jacobian.", "quantifier": "all histories of calls, mappings, trimmers and points", "why_tests_cant": "An identity over all histories; it depends on the stencil of the Jacobian (and is false for some).", "anchors": ["include/ode_num_int/alg/JacobianHartUpdateNewtonDescentDirection.h: computeDescentDirection, reset", "include/ode_num_int/lu/LUFactorizer.h: secantUpdateHart"]}
{"id": "C113", "title": "The lazy direction updates its Jacobian after long runs, and the update is a secant update", "statement": "The Jacobian is computed in the first iteration of a run when there is none, after a hard reset or a failure; it never changes in later iterations; after a successful run of at most lazy_iterations iterations it is kept; after a longer one it is updated such that it maps the last step of that run to the change of the residual.", "quantifier": "all histories, mappings, trimmers, points and values of lazy_iterations", "why_tests_cant": "The wrong Jacobian (the sum of the updates of all steps) only shows after long runs, as slower or failing convergence.", "anchors": ["include/ode_num_int/alg/JacobianLazyFakeBroydenUpdateNewtonDescentDirection.h: computeDescentDirection, reportSuccess, reset"]}
{"id": "C114", "title": "The extrapolator converges with the order it reports", "statement": "Over any interval on which the solution and the right-hand side are smooth, the steps made by the extrapolation solver, of any sizes at most H, end within C*H^q of the solution, where q is the order the solver reports.", "quantifier": "all smooth right-hand sides, solutions, step size sequences below a bound, numbers of stages, number sequences, reference solvers", "why_tests_cant": "Convergence over arbitrary grids is a statement about a limit; a numerical experiment shows the ratio of errors for some problems and grids only, and rounding hides orders above ten.", "anchors": ["include/ode_num_int/ode/OdeSolverExtrapolator.h: doStep, extrapolate, order", "include/ode_num_int/ode/OdeSolverGragg.h: doStep", "include/ode_num_int/ode/OdeSolverRK4.h"]}
{"id": "C115", "title": "The error estimate of the extrapolator has the order the step size controller is told", "statement": "In every attempt the extrapolator passes to the step size controller the norm of an error estimate together with an order q such that the estimate is O(h^(q+1)) for smooth right-hand sides; the controller's decision is obeyed and the observers are told the same estimate.", "quantifier": "all smooth right-hand sides, all numbers of stages, sequences, reference solvers and flags, all states in which a step can be attempted", "why_tests_cant": "An asymptotic statement for all problems; a wrong order makes the step size control inefficient or unstable, without a wrong result.", "anchors": ["include/ode_num_int/ode/OdeSolverExtrapolator.h: doStep, lowOrder", "include/ode_num_int/ode/OdeStepSizeSimpleController.h: controlStepSize"]}
{"id": "C116", "title": "The event controller sees the step the solver would make without events", "statement": "Every solver calls its event controller at the start of a step with the point the step starts from, and at the end of an accepted step with that point and the point reached by the same solver without event handling; it continues from the point the controller returns and tells the observers what the controller reported. After a truncated step cached derivatives are recomputed and multistep data is dropped.", "quantifier": "all solvers, event controllers, right-hand sides and states", "why_tests_cant": "A relation between the same run with and without event handling, for all controllers and states; false for the extrapolator, whose reference solver has its own event controller by default.", "anchors": ["include/ode_num_int/ode/OdeSolverExplicitRK.h: doStep", "include/ode_num_int/ode/OdeSolverExplicitEmbeddedRK.h: doStep", "include/ode_num_int/ode/OdeSolverGragg.h: doStep", "include/ode_num_int/ode/OdeSolverExtrapolator.h: doStep", "include/ode_num_int/ode/OdeSolverRosenbrock_W1.h: doStep", "include/ode_num_int/ode/OdeSolverRosenbrock_SW2_4.h: doStep", "include/ode_num_int/ode/OdeSolverImplicitEuler.h: doStep"]}
{"id": "C117", "title": "Settings survive saving and loading", "statement": "The tree returned by parameters() of a configuration (right-hand side, solver with its components and reference solver or predictor to any depth, outputs, initial state), given to setParameters() of any other configuration, gives a configuration with the same settings, whatever the other was set to before. Parameters that are absent keep their values; an unknown type identifier is refused with an exception naming it.", "quantifier": "all configurations, solvers nested to any depth, components, numbers, previous settings of the receiving configuration", "why_tests_cant": "There are infinitely many nestings of solvers and settings; a parameter read under a name other than it is written under, or not written at all, shows only when the setting differs from the default.", "anchors": ["include/ode_num_int/ode/OdeSolverConfiguration.h: parameters, setParameters", "include/ode_num_int/infra/OptionalParameters.h: maybeSetParameter, maybeLoadParameter", "include/ode_num_int/ode/interfaces/OdeSolver.h: parameters, setParameters", "include/ode_num_int/alg/interfaces/NewtonSolverInterface.h: parameters, setParameters", "include/ode_num_int/ode/OdeSolverExtrapolator.h: parameters, setParameters", "include/ode_num_int/ode/OdeSolverImplicitEuler.h: parameters, setParameters"]}
{"id": "C118", "title": "Everything that works for a solver has the right-hand side of the solver", "statement": "At any time, the event controller, the error norm calculator and the step mapping of a solver, and its reference solver with its own components, at any depth, refer to the right-hand side of the solver, in whatever order right-hand sides and components were set; setOdeRhs returns and changes nothing else. The predictor of implicit Euler has it whenever a step begins.", "quantifier": "all sequences of calls of constructors, setOdeRhs, setEventController, setErrorNormCalculator, setReferenceSolver, setParameters on any number of solvers nested to any depth", "why_tests_cant": "Histories of calls and nestings are unbounded; a component that was not told about a new right-hand side goes on with the old problem without an error.", "anchors": ["include/ode_num_int/ode/interfaces/OdeSolverEventController.h: OdeSolverEventController", "include/ode_num_int/ode/interfaces/OdeSolverErrorNormCalculator.h: OdeSolverErrorNormCalculator", "include/ode_num_int/ode/OdeSolverExtrapolator.h: setReferenceSolver, setParameters, syncOdeRhs", "include/ode_num_int/ode/OdeSolverImplicitEuler.h: OdeSolverImplicitEuler, doStep", "include/ode_num_int/ode/interfaces/OdeRhs.h: OdeRhsHolder"]}
{"id": "C119", "title": "The iterations of an implicit step start from the predicted state", "statement": "The Newton solver of OdeSolverImplicitEuler starts each step from the velocities and first-order variables of the state the predictor reaches from the current state in predictor_steps steps of h/predictor_steps, or of the current state when there is no predictor, in the order of the reordering mapping if there is one.", "quantifier": "all right-hand sides, splits into second- and first-order variables, predictors, numbers of predictor steps, orders of variables, states", "why_tests_cant": "A wrong guess is corrected by the iterations, so that results of tests do not change; only the number of iterations or convergence for hard problems does.", "anchors": ["include/ode_num_int/ode/OdeSolverImplicitEuler.h: doStep", "include/ode_num_int/ode/OdeStepMappingEuler.h: eqnInitialState, computeEqnState"]}
{"id": "C120", "title": "Help is available on every parameter", "statement": "For every parameter of a configuration, at whatever depth, helpOnValue gives a text other than \"No help is available\"; for a path at which there is no parameter it gives none.", "quantifier": "all configurations (models, solvers nested to any depth, outputs, initial states), all paths", "why_tests_cant": "Help is written by hand per class, apart from the parameters themselves; the pairs of configuration and path are unbounded because solvers are nested.", "anchors": ["include/ode_num_int/infra/OptionalParameters.h: appendNestedHelp, helpOnParameters", "include/ode_num_int/infra/ComponentConfiguration.h: helpOnValue", "include/ode_num_int/ode/OdeSolverExtrapolator.h: helpOnParameters", "include/ode_num_int/ode/OdeSolverExplicitEmbeddedRK.h: parameters", "include/ode_num_int/ode/OdeStepSizeSimpleController.h: parameters"]}
{"id": "C121", "title": "Setting one parameter changes the setting it names and no other", "statement": "ComponentConfiguration::setValue with the path of a parameter, at whatever depth, and an acceptable value changes exactly that setting: of the right-hand side, solver, component, nested reference solver or predictor, output or initial state. Giving a type identifier replaces the component by a new one with its defaults; a new descent direction keeps the Jacobian provider and a new provider its trimmer; a new size of the initial state keeps the variables there are. All other settings stay, and further calls work.", "quantifier": "all configurations, solvers nested to any depth, all parameters of all classes, all values, all sequences of calls", "why_tests_cant": "setValue writes all parameters and reads them all back, so a mistake in any parameter of any class spoils settings the call did not name; nestings and sequences of calls are unbounded.", "anchors": ["include/ode_num_int/infra/ComponentConfiguration.h: setValue", "include/ode_num_int/infra/OptionalParameters.h: value, maybeSetParameter", "include/ode_num_int/ode/OdeSolverConfiguration.h: setParameters", "include/ode_num_int/alg/interfaces/NewtonSolverInterface.h: setParameters", "include/ode_num_int/ode/SpecifiedOdeInitState.h: setParameters"]}
{"id": "C122", "title": "A Newton solver that reports Converged has a solution and a residual that consist of numbers", "statement": "If NewtonSolver::run returns Converged, all components of the solution and of the residual at it are numbers (no NaN, no infinity) and are within the absolute tolerance, whatever the mapping returns outside of its domain.", "quantifier": "all mappings on IEEE values with NaN and infinities, all descent directions, all guesses, limits, tolerances and observers", "why_tests_cant": "Unit tests use mappings defined everywhere; what happens with NaN depends on every comparison on the way of the iteration.", "anchors": ["include/ode_num_int/alg/NewtonIterationPerformerImpl.h: iteration", "include/ode_num_int/alg/SimpleErrorEstimator.h: currentStatus", "include/ode_num_int/alg/SimpleNewtonLinearSearch.h: lineSearch", "include/ode_num_int/la/VectorTemplate.h: infNorm"]}
{"id": "C123", "title": "A step accepted by error control has an error estimate that is a number", "statement": "A step of an embedded Runge-Kutta solver whose error estimate has a component that is NaN or infinite is not accepted; an integration that leaves the domain of the right-hand side ends with an exception.", "quantifier": "all right-hand sides on IEEE values, all methods with two outputs, all tolerances and controller parameters, all numbers of steps", "why_tests_cant": "Unit tests use right-hand sides defined everywhere; the number of steps is unbounded.", "anchors": ["include/ode_num_int/ode/OdeSolverExplicitEmbeddedRK.h: doStep", "include/ode_num_int/ode/OdeStepSizeSimpleController.h: controlStepSize", "include/ode_num_int/ode/ErrorInfNormCalculator.h: errorNorm", "include/ode_num_int/la/VectorTemplate.h: infNorm"]}
{"id": "C124", "title": "A run of solveOde gives samples of the solution whose error is of the order of the step size", "statement": "When solveOde returns, every sample told to the output options, and the time and state the solver shows in the end, is a pair (t, x) with |x - y(t)| <= C H^p, where y is the exact solution, H bounds the time between samples in a row, and C does not depend on the run: p = 1 for explicit Euler and W1, 4 for the classical Runge-Kutta method, 5 for DOPRI45, 6 for DOPRI56, twice the number of stages for the symmetric extrapolator of the Gragg method, 4 for the extrapolator of the classical method, 2 for SW2(4) as long as no step is rejected; C (h + tol/h), or C (h^2 + tol/h) with the implicitness parameter 1/2, for implicit Euler with the absolute tolerance tol of the Newton solver. With a fixed step size h small enough the run returns, at a time between the one asked for and one step later.", "quantifier": "all right-hand sides that are smooth along an exact solution, all intervals on which it exists, all step sizes up to a bound, all durations, all combinations of output options that start, all numbers of steps, all step size controllers and error norms", "why_tests_cant": "A test runs one problem with one step size; that there is one constant for all runs is a statement on infinitely many runs.", "anchors": ["include/ode_num_int/ode/OdeSolverConfiguration.h: solveOde", "include/ode_num_int/ode/OdeSolverExplicitRK.h: doStep", "include/ode_num_int/ode/OdeSolverExplicitEmbeddedRK.h: doStep", "include/ode_num_int/ode/OdeSolverExtrapolator.h: doStep", "include/ode_num_int/ode/OdeSolverRosenbrock_W1.h: doStep", "include/ode_num_int/ode/OdeSolverRosenbrock_SW2_4.h: doStep", "include/ode_num_int/ode/OdeSolverImplicitEuler.h: doStep"]}
{"id": "C125", "title": "solveOde with a fixed step returns after duration over step size steps in floating point too", "statement": "With every operation on times rounded, solveOde with an explicit fixed-step solver returns; the number of steps is the duration divided by the step size, rounded up, and the time shown in the end is at most one step after the end time.", "quantifier": "all rounding functions with a relative error bound, all methods, right-hand sides (rounded in any way), initial times, durations and step sizes", "why_tests_cant": "Depends on the accumulated rounding of unboundedly many additions and on all magnitudes of time and step; a test sees one combination.", "anchors": ["include/ode_num_int/ode/OdeSolverConfiguration.h: solveOde", "include/ode_num_int/ode/OdeSolverExplicitRK.h: doStep"]}
{"id": "C126", "title": "Rounding adds to the error of a fixed-step run at most a multiple of unit roundoff over step size", "statement": "For a smooth system, a run of solveOde with explicit Euler or the classical Runge-Kutta method, in arithmetic that rounds every operation and every coefficient with relative error at most u, with a right-hand side evaluated with error at most eta and an initial state with error at most iota, returns, and every sample shown to observers and the final state are within C (h^p + u/h + eta + iota) of the exact solution at the time shown, where p is the order of the method and C depends only on the system and the interval.", "quantifier": "all smooth systems of any dimension, all rounding functions with a relative error bound, all ways to evaluate the right-hand side near the solution, all small enough step sizes, all durations within the interval, all output settings", "why_tests_cant": "A bound over all systems, rounding functions and unboundedly many steps; a test compares one run with one solution up to a tolerance chosen by hand.", "anchors": ["include/ode_num_int/ode/ExplicitRKHelper.h: compute", "include/ode_num_int/ode/OdeSolverExplicitRK.h: doStep", "include/ode_num_int/ode/OdeSolverConfiguration.h: solveOde", "include/ode_num_int/ode/OdeSolverExplicitEuler.h", "include/ode_num_int/ode/OdeSolverRK4.h"]}
{"id": "C127", "title": "A linear system solved by LUFactorizer in floating point is solved exactly for a nearby matrix", "statement": "With every arithmetic operation rounded, the vector that LUFactorizer::solve returns for a matrix given by setMatrix is the exact solution of a system whose matrix differs from the given one only by a small multiple of the unit roundoff, relative to the elements of the matrix. (This is false without pivoting; what holds is a bound relative to the product of the absolute values of the stored factors, for matrices that meet the fill condition of C01.)", "quantifier": "for all roundings with unit roundoff below 1, all accepted matrices of any size, all right-hand sides, all previous contents of the object", "why_tests_cant": "A test compares a few well behaved systems with a tolerance; the error depends on how the factors grow, which for an unlucky matrix is unbounded, and a bound for all matrices and all roundings is not a matter of samples.", "anchors": ["include/ode_num_int/lu/LUFactorizer.h: LUFactorizer::setMatrix, solve, factorize"]}
{"id": "C128", "title": "A right-hand side set in the middle of a run takes effect with the next step", "statement": "When setOdeRhs is called between two steps, every later step is a step of the method for the new right-hand side from the time and state the solver has; nothing computed with the old one enters it. (True for the explicit fixed-step and embedded solvers; W1 goes on with the old Jacobian but stays accurate to first order. False for SW2(4), which starts the next step with a value of the old right-hand side, and for the event controller, which compares values of old and new event functions and so reports events that did not happen and misses ones that did; both are right again after setInitialState.)", "quantifier": "all histories of calls, all old and new right-hand sides, all methods, times, states and step sizes", "why_tests_cant": "Which cached values survive the call depends on the solver and on what was done before; tests set the right-hand side once, before the first step.", "anchors": ["include/ode_num_int/ode/interfaces/OdeRhs.h: OdeRhsHolder::setOdeRhs", "include/ode_num_int/ode/OdeSolverExplicitRK.h: doStep", "include/ode_num_int/ode/OdeSolverExplicitEmbeddedRK.h: doStep", "include/ode_num_int/ode/OdeSolverRosenbrock_W1.h: doStep", "include/ode_num_int/ode/OdeSolverRosenbrock_SW2_4.h: doStep, setInitialState", "include/ode_num_int/ode/LinearOdeEventController.h: atStepStart, atStepEnd, reset"]}
{"id": "C129", "title": "A run with a step size controller ends in floating point: solveOde returns or reports that the step size is too small", "statement": "With an embedded Runge-Kutta solver and the step size controller of the library, solveOde returns or throws 'Step size has decreased to the minimum or below', whatever the right-hand side does. (True in floating point when the minimal step size is at least four times what is lost in an addition to the time, u(|t|+d): there are at most 5d/(2 hMin)+1 accepted steps and finitely many rejected ones, whatever std::pow returns. False with the default minimum 1e-16, which is far below the spacing of doubles at ordinary times: next to a jump of the right-hand side the step is cut until it does not change the time any more, is then accepted with an error of zero, which leaves the step size as it is, and is made forever.)", "quantifier": "all roundings with a unit roundoff, methods, right-hand sides, controller parameters, functions pow, initial times, durations and step sizes", "why_tests_cant": "The run of a test ends or it does not; that it ends for every right-hand side is a statement on all sequences of errors the controller can be given, and the failure needs a jump that the solver meets with a step near the resolution of time.", "anchors": ["include/ode_num_int/ode/OdeSolverExplicitEmbeddedRK.h: doStep", "include/ode_num_int/ode/OdeStepSizeSimpleController.h: controlStepSize", "include/ode_num_int/ode/OdeSolverConfiguration.h: solveOde", "include/ode_num_int/ode/interfaces/OdeSolver.h: stepSizeMinThreshold"]}
{"id": "C130", "title": "The tolerance of the step size controller bounds the error of a run", "statement": "When an embedded Runge-Kutta solver is run by solveOde with the step size controller and a tolerance, the samples differ from the exact solution by no more than the tolerance allows. (True in this form: for a smooth problem there are C and h0, the same for all tolerances, controller parameters, modes and runs, such that a run that returns, with N accepted steps no longer than H <= h0 and N tol <= h0, has all samples within C (H^q + N tol) of the solution, q the higher order of the pair; with the controller's threshold for the step set to H nothing needs to be known about the steps. False without a bound on the step: for every tolerance, all controller parameters and every B there is a smooth right-hand side for which a run of DOPRI45 makes one step, with a zero error estimate, and ends with an error of at least B.)", "quantifier": "all smooth systems in a Banach space with a solution on an interval, tolerances and other controller parameters, norms that bound the vector, modes, output settings, runs that return; all B for the counterexample", "why_tests_cant": "A test compares the error of one run with one tolerance for one problem; the bound is a constant that serves all tolerances and runs, and the failure is a problem made for the times at which the method looks.", "anchors": ["include/ode_num_int/ode/OdeStepSizeSimpleController.h: controlStepSize, tolerance, maxThreshold", "include/ode_num_int/ode/OdeSolverExplicitEmbeddedRK.h: doStep, mode"]}
{"id": "C131", "title": "The LU lines of the statistics report the LU operations made", "statement": "After a run, the statistics printed for the solver (\"TIMING: LU factorize / solve / set mx / set mx fast / update\") contain one line for each kind of LU operation that was made during the run, with the number of operations made, the time they took altogether and on average; operations not made have no line.", "quantifier": "for every descent direction, every sequence of calls (directions computed, soft and hard resets, reports of success), every number of steps, arbitrary Jacobians and arbitrary durations", "why_tests_cant": "The numbers are summed through four levels (factorizer, direction, solver, report), cleared and replaced at each of them; whether something is counted twice or lost depends on the history of resets, fallbacks and cache hits.", "anchors": ["include/ode_num_int/lu/LUFactorizerTimingStats.h", "include/ode_num_int/timing/TimingStats.h", "include/ode_num_int/ode/OdeSolverImplicitEuler.h", "include/ode_num_int/ode/OdeSolverRosenbrock_W_base.h", "include/ode_num_int/alg/SimpleNewtonDescentDirection.h"]}
{"id": "C132", "title": "Directions and Rosenbrock solvers decompose matrices only as often as needed", "statement": "Every direction computed costs one solution of a linear system. The simple, Broyden and fake Broyden directions decompose a matrix for every direction; the constant-Jacobian and Hart directions once, and once more for each hard reset; the lazy direction only for the first direction of a Newton solution and after hard resets. A Rosenbrock solver decomposes one matrix for each value of the step size met since the last hard reset, however often the step size changes.", "quantifier": "for every sequence of calls and every sequence of steps and step sizes", "why_tests_cant": "The amount of work depends on the whole history: which resets came before, which step sizes are still in the cache, whether the factorizer is still factorized.", "anchors": ["include/ode_num_int/lu/LUFactorizer.h", "include/ode_num_int/alg/JacobianHartUpdateNewtonDescentDirection.h", "include/ode_num_int/alg/JacobianLazyFakeBroydenUpdateNewtonDescentDirection.h", "include/ode_num_int/ode/OdeSolverRosenbrock_W_base.h"]}
{"id": "C133", "title": "A printed sparse matrix shows every element at its place", "statement": "Writing a sparse matrix to a stream gives one line per row with aligned columns, in which every stored element (and 0 for every other) stands at its row and column; splitting the lines at spaces gives the elements back. The commands written by printScilabMatrix, executed in Scilab, give the matrix.", "quantifier": "for every size, every set of stored elements and every text representation of elements", "why_tests_cant": "Alignment depends on the longest text of every column and positions on 32-bit index arithmetic with the declared size, which stored elements need not respect.", "anchors": ["include/ode_num_int/la/SparseMatrixTemplate.h"]}
{"id": "C134", "title": "Events are located to within a constant times the step size to the power min(p, 2)", "statement": "Let a fixed-step explicit solver of order p (Euler: 1, RK4: 4) with LinearOdeEventController run from a point of a smooth solution at which all zero functions are watched and none is zero, and let one zero function be the first to reach zero along the solution, at time a, crossing it with non-zero speed. Then there are C and h0 such that for every step size h up to h0: the steps before the event are returned as without events and are within C h^p of the solution; the next step either calls switchPhaseState once, for this function and with the right transition, at a time within C h^min(p,2) of a and with a state within C h^min(p,2) of the solution at a, and the solver goes on from the state returned; or, if the zero function is exactly zero at the proposed end of the step, throws (see C42). For p > 2 the second order cannot be improved in general: the error may be a fixed multiple of h^2 for arbitrarily small h even if the solver itself makes no error.", "quantifier": "all smooth right-hand sides and solutions in all complete normed spaces, all numbers of zero functions and flags, all step sizes up to h0", "why_tests_cant": "A test compares one located event with a tolerance; the order with which the location error decreases, and that a solver of order four does not locate events better than to second order, is a statement about all step sizes and systems.", "anchors": ["include/ode_num_int/ode/LinearOdeEventController.h", "include/ode_num_int/ode/OdeSolverExplicitRK.h"]}
{"id": "C135", "title": "A run through any number of events follows the exact solution with switches to second order", "statement": "Let a solution with switches be given: pieces, in each of which it solves the equation of one phase; at the end of each piece but the last one zero function reaches zero, crossing it with non-zero speed, while no other does, and the solution goes on with the phase and the state that switchPhaseState gives there; after a switch the function of the event may begin at zero if it leaves it with non-zero speed. Let the RK4 solver with LinearOdeEventController run from the start of the first piece, where all zero functions are watched and none is zero. Then there are C and h0 such that for every step size h up to h0: in every piece the run makes full steps in the phase of the piece to states within C h^2 of the solution; then one step is cut at a time within C h^2 of the end of the piece, the solver changes to the next phase and goes on in the same way; no event is missed and none is reported twice or too often. The only exception: a step at whose proposed end the zero function of the event is exactly zero throws (see C42).", "quantifier": "all smooth right-hand sides, zero functions and switches in all complete normed spaces, all numbers of pieces, zero functions and flags (including recomputation of the zero functions after the switch), all step sizes up to h0", "why_tests_cant": "A test simulates one system with a few events and one step size; that errors made at one event are not amplified to a lower order by the next ones, and that the function which has just had an event does not trigger again while it leaves zero, must hold for all systems and step sizes.", "anchors": ["include/ode_num_int/ode/LinearOdeEventController.h", "include/ode_num_int/ode/OdeSolverExplicitRK.h"]}
{"id": "C136", "title": "Whatever the solver, an event is located as accurately as its states and step lengths allow", "statement": "Let any solver make steps with a LinearOdeEventController, each step being accepted after any number of rejected attempts (each attempt calls atStepStart, the accepted one calls atStepEnd). Let one zero function be the first to reach zero along a smooth solution, at time a, crossing it with non-zero speed, and let the controller watch all zero functions on the sides on which they start. Then there are C and d such that, if the proposed states are within e <= d of the solution and the steps are not longer than h <= d: no step before reports an event; one step is cut for this zero function and with the right transition, at a time within C (e + h^2) of a and with a state within C (e + h^2) of the solution at a; afterwards the controller again watches the zero functions on the sides of the next phase. The only exception: the zero function is exactly zero at the proposed end of a step, which is then within C e of a; this step throws. An embedded Runge-Kutta solver with step size control asks its controller in this way, with the points it reaches without a controller.", "quantifier": "all solvers, smooth curves, zero functions and switches in all normed spaces, all grids, all numbers of rejected attempts, all errors and step lengths up to d", "why_tests_cant": "Tests locate single events with single solvers; with step size control the grid and the repeated calls after rejections depend on the data, so that only a statement about all grids and all numbers of rejections covers a run.", "anchors": ["include/ode_num_int/ode/LinearOdeEventController.h", "include/ode_num_int/ode/OdeSolverExplicitEmbeddedRK.h"]}
{"id": "C137", "title": "Events are located correctly in floating point arithmetic", "statement": "Let arithmetic round (to nearest, 53 bits; u = 2^-53). A step of LinearOdeEventController from zero functions that are on their watched sides is not cut if no function crosses; if one does, switchPhaseState is called at a time that lies in the step [t1, t2], also after rounding, with the crossing parameter, time and state of exact arithmetic up to relative errors of a few u, for a function whose crossing is the earliest up to the same errors; and times do not decrease from one event to the next.", "quantifier": "all rounding functions that keep the order and have relative error u <= 1/4 (in particular binary rounding with any number of digits), all right-hand sides, zero functions, flags, states and times", "why_tests_cant": "Whether t1 + (t2 - t1)*theta can exceed t2, or the quotient can reach 1, depends on the last bits of the values; tests do not meet these cases systematically.", "anchors": ["include/ode_num_int/ode/LinearOdeEventController.h: atStepEnd"]}
{"id": "C138", "title": "Times in the statistics report are the times spent", "statement": "The statistics output reports as total time, right-hand side time and Jacobian time the ticks gone by, spent in computing right-hand sides and in computing Jacobians, whether or not the 64-bit hardware counter wraps around during the run; parts are never longer than the whole; counts and averages are those of the computations made. Times are in milliseconds if the run took at least 100 ms, otherwise in ticks; with a steady tick rate conversion has a relative error of about 1/99 at most, because both clocks are read rounded down to whole units. Conversion is refused while it is not available.", "quantifier": "all sequences of right-hand side and Jacobian computations, all clock readings, all tick rates of at least one tick per millisecond", "why_tests_cant": "Wrap-around of the tick counter, runs with 2^32 evaluations and readings just before a millisecond cannot be arranged in a test; the error bound is over all moments at which clocks are read.", "anchors": ["include/ode_num_int/timing/OpaqueTickCounter.h", "src/OpaqueTickCounter.cpp", "include/ode_num_int/timing/TimerCalibrator.h", "src/TimerCalibrator.cpp", "include/ode_num_int/timing/TimingStats.h", "include/ode_num_int/ode/ode_solver_output.h: OdeSolverStatisticsOutput"]}
{"id": "C139", "title": "Events with values that are not numbers", "statement": "Whatever values the event functions have at the end of a step (numbers, infinities, not-a-number), the linear event controller either accepts the step with no function having left its side, or cuts it at a time that is a number between the ends of the step, located by a function that is not NaN at the end and whose linear interpolation is zero there (at the start if it is infinite), or throws; it throws only if each function that left its side is NaN or zero at the end or has no number remembered. With numbers the result is that of exact arithmetic. A step that ends with a watched function NaN is not passed silently, and events after such values are still located.", "quantifier": "all right-hand sides with event functions, all numbers of functions, flags and remembered signs, all end values in the extended numbers", "why_tests_cant": "NaN compares false with everything, so each combination of direction flags, remembered sign and kind of value takes another path; tests use models whose event functions are always finite.", "anchors": ["include/ode_num_int/ode/LinearOdeEventController.h: atStepEnd, xz, s"]}
{"id": "C140", "title": "Factories of different interfaces do not interfere", "statement": "Per-type storage gives each pair of types a variable of its own, default-constructed at first use, whatever else was stored and in whatever order static objects are initialised. So after any registrations in any order, Factory<I>::newInstance makes an instance of the type last registered with I under the identifier and throws for others, FactoryMixin<T,I>::typeId is the identifier T was last registered with for I (empty if none), registeredTypes lists each identifier of I once; if no identifier and no type is registered twice, the order does not matter.", "quantifier": "all types with their typeid names, all sequences of accesses to cells, all sequences of registrations", "why_tests_cant": "The order of initialisation of static objects over source files and libraries is not controlled by tests; keys are made of names by concatenation, so that absence of collisions is a statement on all names.", "anchors": ["include/ode_num_int/infra/PerTypeStorage.h: value", "src/PerTypeStorage.cpp", "include/ode_num_int/infra/Factory.h: registerType, newInstance, registeredTypes, Registrator, staticTypeId"]}
{"id": "C141", "title": "A run ends at a time that is a number", "statement": "A run of solveOde of a duration that is a number, from a time that is a number, either throws or returns at a time that is a number not before the end of the interval, and observers are only ever shown times and step sizes that are numbers, whatever the right-hand side gives (infinities, NaN). With a constant positive step size and no event controller it ends after the least number of steps that reaches the end; with error control the step sizes stay positive numbers. If the duration is not a number the run is exactly one step, and an infinite duration is never reached.", "quantifier": "all right-hand sides with values in the extended numbers, all methods of the explicit solvers, all tolerances and parameters of the controller, all initial states, times, step sizes and durations", "why_tests_cant": "Loops that compare with NaN end at once or never; tests integrate models whose values are finite throughout.", "anchors": ["include/ode_num_int/ode/OdeSolverConfiguration.h: solveOde", "include/ode_num_int/ode/OdeSolverExplicitRK.h: doStep", "include/ode_num_int/ode/OdeSolverExplicitEmbeddedRK.h: doStep", "include/ode_num_int/ode/OdeStepSizeSimpleController.h: controlStepSize", "include/ode_num_int/ode/LinearOdeEventController.h: atStepEnd"]}
{"id": "C142", "title": "Changes of variables, of units and of the time origin commute with runs", "statement": "Let the same problem be written in other variables y = L x + b (L linear, possibly a projection to fewer variables) and in another time c t + tau with c > 0: L f(t,x) = c g(c t + tau, L x + b). Then solveOde with the explicit Runge-Kutta solver of constant step size, initial step and duration converted, makes in the new variables exactly the run of the old ones: the same sequence of notifications with converted times, states and steps, the same acceptance flags and events, the same exception if one is thrown, for any number of steps. The same holds for the embedded solver if the error norm has the same value in both and hMin, hAfterSwitch and the controller's maxThreshold are converted, and with LinearOdeEventController if the zero functions have the same values and switches commute with the change. Consequences: a run of a problem that does not depend on time may be started at any time with the same results; a subsystem that does not see the rest may be solved alone with the same results; a linear quantity that the right-hand side does not change has exactly the same value in every notification and at the end, with any norm and any step size controller.", "quantifier": "for all changes of variables, right-hand sides, tables of coefficients of the sizes used (hence the five methods), initial states, step sizes, durations, numbers of steps, event functions", "why_tests_cant": "A test compares two runs of one problem in two systems of units. The claim relates all runs of all problems over all changes of variables, with rejections, events and exceptions in any order.", "anchors": ["include/ode_num_int/ExplicitRKHelper.h", "include/ode_num_int/OdeSolverExplicitRK.h", "include/ode_num_int/OdeSolverExplicitEmbeddedRK.h", "include/ode_num_int/OdeStepSizeSimpleController.h", "include/ode_num_int/LinearOdeEventController.h", "include/ode_num_int/OdeSolverConfiguration.h"]}
{"id": "C143", "title": "An integration may be done in pieces", "statement": "Calling solveOde again without setting a new initial state continues the integration: the two calls make the same reports in the same order and end in the same way (same state, same exception, or not at all) as one call whose duration reaches the end time of the second; when the first call ends exactly at its end time the durations may simply be added. Conversely a run may be stopped early and continued to its end time with the same final state and reports. Each call may end late, so n calls with steps of at most h end less than n h after the sum of the durations, and never before it.", "quantifier": "all solvers as step functions, all durations, all lists of calls, all step histories", "why_tests_cant": "Two runs are compared over unbounded step histories and for every solver, including runs that throw or do not end.", "anchors": ["include/ode_num_int/ode/OdeSolverConfiguration.h: solveOde", "include/ode_num_int/ode/OdeSolverExplicitRK.h: doStep"]}
{"id": "C144", "title": "Linear invariants survive extrapolation and Rosenbrock steps", "statement": "If a weighted sum of the variables is not changed by the right-hand side (mass, charge, momentum), then it has the same value in every report of a run of solveOde and at its end: for the solver of Gragg with or without smoothing, for the extrapolator over any reference solver that keeps the sum (Gragg or an explicit Runge-Kutta method with constant step), any step sequence, norm and step size controller, with rejected attempts; and for the Rosenbrock solvers W1 and SW2(4) (the weights of positions being zero, and SW2(4) not rejecting attempts, if there are variables of second order), although their Jacobian is a difference approximation made once per initial state, and although SW2(4) keeps using an old factorization after a rejected attempt.", "quantifier": "all right-hand sides, weights, states, step sizes, controllers, event controllers that keep the sum, all runs", "why_tests_cant": "The value is compared over unbounded runs with rejected steps, for all right-hand sides and all step size controllers; a test sees one system up to rounding.", "anchors": ["include/ode_num_int/ode/OdeSolverGragg.h: doStep, initialState", "include/ode_num_int/ode/OdeSolverExtrapolator.h: doStep", "include/ode_num_int/ode/OdeSolverRosenbrock_W_base.h: buildJacobian, linSolve, mult", "include/ode_num_int/ode/OdeSolverRosenbrock_W1.h: doStep", "include/ode_num_int/ode/OdeSolverRosenbrock_SW2_4.h: doStep"]}
{"id": "C145", "title": "Implicit Euler changes a linear invariant by no more than the Newton tolerance per step", "statement": "If a weighted sum of the variables is not changed by the right-hand side (mass, charge, momentum), then a successful step of the implicit Euler solver changes it by at most the sum of the absolute weights (positions excluded) times the absolute tolerance of the Newton solver, and N steps by at most N times that; this holds for any step size, implicitness parameter, initial guess, predictor, order of variables and descent direction, in particular for approximate and outdated Jacobians. For equations of first order, one Newton iteration with the finite-difference Jacobian of the step mapping at the current point, taken with the factor lam, multiplies the error in the quantity by exactly 1 - lam, for any increment of the differences: a whole iteration restores the quantity exactly, however nonlinear the equations. If every direction solves that system, or at least has minus the weighted sum of the residual, then a step, and any number of steps, from the default initial guess (no predictor, no reordering) keeps the quantity exactly, whatever the tolerance, the number of iterations and the truncations of the line search.", "quantifier": "all right-hand sides, weights, states, step sizes, tolerances, Newton components with the simple line search, numbers of steps", "why_tests_cant": "A bound over unbounded runs for all right-hand sides, weights and step sizes; a test sees one system and one tolerance.", "anchors": ["include/ode_num_int/ode/OdeSolverImplicitEuler.h: doStep", "include/ode_num_int/ode/OdeStepMappingEuler.h: map, computeOdeState", "include/ode_num_int/alg/NewtonIterationPerformerImpl.h: iteration", "include/ode_num_int/alg/computeJacobian.h: computeJacobian"]}
{"id": "C146", "title": "One Jacobian of the right-hand side, three ways", "statement": "The right-hand side at a fixed time is a vector mapping (OdeRhsVectorMapping), and its finite-difference Jacobian (computeJacobian) has exactly the identity at the velocities in the rows of positions, for every increment. The Rosenbrock solvers build the same Jacobian element by element from the same increment, except for the last n2 columns, which they leave out. For equations of first order the Jacobian of the step mapping that the Newton solver of implicit Euler uses is exactly I - h*alpha*J, where J is the Jacobian of OdeRhsVectorMapping at the end time of the step.", "quantifier": "all right-hand sides (of first and second order, linear or not), times, states, nonzero increments, step sizes, implicitness parameters", "why_tests_cant": "Equality of matrices from three independent implementations for all right-hand sides and increments; tests compare them for one system and up to rounding.", "anchors": ["include/ode_num_int/ode/interfaces/OdeRhsVectorMapping.h: OdeRhsVectorMapping", "include/ode_num_int/alg/computeJacobian.h: computeJacobian", "include/ode_num_int/ode/OdeSolverRosenbrock_W_base.h: buildJacobian", "include/ode_num_int/ode/OdeStepMappingEuler.h: map"]}
