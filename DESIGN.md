# Formal model of ode_num_int: design and trusted base

The code under study is the header library in `/repo/include/ode_num_int` (C++11).
`properties.jsonl` lists the properties, `MANIFEST.json` maps each to Lean theorems,
`lean/Verif` holds model, specifications and proofs, `seeded/LOG.jsonl` the
wrong-program experiments.

How to read an entry of `seeded/LOG.jsonl`: `failed_first`, where present, holds the declarations whose own proof no
longer compiles after the edit. `theorems_failed` holds the property theorems that fail in this sense or that rest,
through any chain of uses, on a declaration that does. A theorem listed only for the second reason has lost its proof;
the experiment does not show that its statement is false of the wrong program.

## Layout of the Lean project

* `Verif/Basic.lean` – outcome type. A call ends as `ok v`, as a C++ exception
  (`Fault.exc`), as undefined behaviour (`Fault.ub`: out-of-range raw access, bad
  shift, ...) or as a division by zero in the exact arithmetic (`Fault.divZero`).
  These are never merged with a normal result.
* `Verif/<Area>/Model.lean` – the code, function by function, each definition with the
  file and lines it models and the simplifications made.
* `Verif/<Area>/Spec.lean` – what the property says, in terms that do not mention the
  model's helpers.
* `Verif/<Area>/Lemmas*.lean` – helper lemmas.
* `Verif/<Area>/Props.lean` – the property theorems (named after the property id),
  with a concrete non-trivial instance next to each, and negations with witnesses where
  the code does not satisfy the property.
* Files whose header says "No part of the model" (`Event/Locate`, `Event/HybridConv`, ...) hold facts of analysis or
  algebra; files named `Ops`, `Kernel`, `Adaptive` restate what a modelled function computes as a sequence of operations,
  proved without laws of arithmetic, so that they hold for exact, rounded and special values.

## General modelling decisions

* Real numbers. `double` arithmetic is modelled by an arbitrary field (ordered where
  the code compares); overflow is not modelled, rounding only in `Verif.Round`, NaN and infinities only in `Verif.Special`. Division by zero is an
  explicit outcome.
* Sizes, indices: `Nat`. Where unsigned wrap-around can happen on an API-reachable
  input it is modelled explicitly (this is said at the definition).
* `std::map` = strictly sorted association list. `std::vector` = `List` with checked
  access. `operator[]`/`at` of `VectorData` use `vector::at`, so out of range is an
  exception there, and undefined behaviour for raw pointers and `std::vector::operator[]`.
* `ASSERT` is a no-op (release builds); an asserted condition is never assumed.
* Mutable objects become structures returned by the modelled member functions.
* Virtual components (right-hand side, mapping, event controller, observers, ...)
  become function parameters.

## Plan per property

| id | modelled | how proved |
|----|----------|------------|
| C01 | `LUFactorizer` on packed arrays (setMatrix, factorize, solve) | refinement of array code to Doolittle equations; pivots from leading principal minors; false in general: witness plus `_partial` under the fill condition |
| C02 | setMatrix checks, elementAt | equivalence of accept condition with a stencil predicate; read-back |
| C03 | elementAt before/after factorize | LU = A identity |
| C04 | address sequences | injectivity and bound by induction on prefix sums |
| C05 | setMatrixFast | equivalence under stencil-containment; negation witness |
| C06 | secantUpdateHart | row induction |
| C07 | secantUpdateProportional | negation witness; what it does instead |
| C08 | SparseMatrixData as sorted association list | refinement to total maps over op lists |
| C09 | SparseMatrixFastData with lower_bound | sortedness transfers lookups |
| C10 | product, matrix-vector products | sums over entries |
| C11 | Block/Transpose proxies | index algebra; negation witness for two-argument `get` |
| C12 | transposed().size, v*M | negation witness; square case as `_partial` |
| C13 | DiagonalMapping, VectorReorderingMapping | inverse laws |
| C14 | VectorNarrowingMapping pointer loops | loop = filter specification; negation witness, `_partial` |
| C15,C16 | SparseJacobianCalculator | greedy loop invariant |
| C17 | trimmers | set equality |
| C18 | Broyden updates | linear algebra identity |
| C19 | lineSearch | loop invariant |
| C20 | SimpleErrorEstimator | case analysis |
| C21 | NewtonIterationPerformerImpl | invariant over call lists |
| C22,C23 | NewtonSolver::run | induction over iterations with oracle components; negation witness |
| C24 | computeJacobian, SimpleNewtonDescentDirection, LU | composition |
| C25 | ExplicitRKHelper::compute | refinement of packed pointer walk to Butcher formula |
| C26 | tableaux; compute instantiated at power series with h = X | B-series expansion over ordered trees, order conditions by kernel computation over all trees |
| C27 | DOPRI78 tableau | kernel computation over all trees of size <= 8 |
| C28 | OdeSolverExplicitRK::doStep | induction over calls |
| C29 | controlStepSize | case analysis over an ordered field with an abstract root |
| C30,C31 | OdeSolverExplicitEmbeddedRK::doStep | loop with fuel plus termination proof; negation witness |
| C32 | extrapolation recursion | Neville's lemma, in-place index invariant |
| C33 | step sequences | closed forms |
| C34 | OdeSolverGragg | algebra |
| C35,C36 | OdeStepMappingEuler, OdeSolverImplicitEuler | algebra; cache invariant |
| C37-C41 | Rosenbrock base, W1, SW2_4 | block algebra, cache invariant, power series |
| C42,C43 | LinearOdeEventController | case analysis, minimum over list; negation witnesses |
| C44 | solveOde | induction |
| C45,C46 | outputNow, addIndices, toString | invariant / closed form |
| C47 | OdeVarNameGenerator | digit lemmas |
| C48 | RichardsonErrorCalculator | algebra, loop bookkeeping |
| C49-C51 | observers | invariant over histories; negation witness |
| C52,C53 | OptionalParameters paths and trees, ComponentConfiguration | list induction |
| C54,C55 | ErrorStats | homomorphism; negation witness |
| C56 | modp, modd | modular arithmetic with 32-bit wrap |
| C57 | cubic | polynomial identities |
| C58,C59 | test models | algebra |
| C60 | FormatTimeSpanSec | digit lemmas |
| C61-C62 | LUFactorizer: rejected calls, luToMatrix | witness; LU identity |
| C63-C64 | SparseMatrixTemplate: live views, norms | exact effect of self-operations; least upper bounds |
| C65,C68 | VectorTemplate as operations on a memory with operand expressions that may read it | invariant of the copying loop; witnesses |
| C66 | pre-observers of the explicit solvers | induction over calls; witness |
| C67 | BouncingBall with LinearOdeEventController | invariant over runs |
| C69-C71 | observers changed during notification, scoped elements, forwarding | histories; witnesses |
| C72-C77 | parameter sets as heap, ComponentConfiguration, Factory, lexical checks | heap invariants, grammar lemmas; witnesses |
| C78-C81 | extrapolator order, table bounds, observers, restart | Neville + Taylor expansion, invariants over histories |
| C82-C88 | finite differences, providers, descent directions, Newton solver | composition with LU theorems; witnesses |
| C89-C90 | implicit Euler: cache, stability | invariant; inner product inequality |
| C91-C93 | Rosenbrock: restart, orders | simulation relation; Taylor expansion |
| C94,C100 | time-filtered reports | invariants over histories of observer calls |
| C101 | convergence of the explicit solvers | local error by order conditions (C25-C28) made uniform near the compact solution curve (Taylor with integral remainder), then a discrete Gronwall argument with continuation |
| C105-C106 | convergence of the Rosenbrock and implicit Euler solvers | resolvent of the fixed Jacobian is smooth in h, then as C101; defect of the solution, discrete Gronwall for an implicit recursion with the residual left by Newton |
| C102-C104 | test models: sliding point, oscillator, stiff equation | radial monotone maps, energy identities, composition with C28 and C35 |
| C107-C110 | connections of Newton solver components | heap of objects with pointers; invariants over histories of calls, frame theorem by reachability; witnesses |
| C111 | NewtonSolver::run after a change of the equation | composition with C88; witness |
| C112 | Hart direction | histories of the factorizer (C01, C06); witness |
| C113 | lazy direction | inversion of a call, induction over a run; witness |
| C114 | extrapolator converges | one_step_converges; smooth increments of the reference, extrapolated local error; growth factor on x' = x for the witness |
| C115 | estimate of the extrapolator | attempt_ok with the extrapolated orders of T[0] and T[1]; polynomial bound for the witness |
| C116 | events as post-processing | normal forms of accepted steps; witness computed |
| C117 | settings survive saving and loading | structural induction on the solver tree; lookup lemmas for each class |
| C118 | right-hand sides of components | heap of objects with observers; invariant over all sequences of calls |
| C119 | initial guess of implicit Euler | normal form of the guess in the four cases of predictor and reordering |
| C120 | help on parameters (partial) | agreement of the tree of parameters with the tree of help texts, kept by adding a parameter with and without help, by induction on nested solvers; the list of parameters without help is part of the statement |
| C121 | setting one parameter (partial) | a list of all parameters with the setting each is, as a relation; frame lemmas on the sets of names each class uses; induction on nested solvers |
| C122 | Newton solver and NaN (partial) | IEEE special values as a datatype; what a quotient below a number says; invariant through the run; simulation by the exact model on numbers |
| C123 | error control and NaN (partial) | the explicit solvers' model is generic in the arithmetic, so it is run on IEEE values; a property preserved by addition is had by all outputs; induction on steps |
| C124 | accuracy of the samples of a run | a run that returns as a chain of calls of `doStep` (C44) and the calls of the post-observers they make, for every solver; then the convergence theorems C101, C105, C106, C114 |
| C125 | end of a fixed-step run with rounding (false; partial) | the models of the explicit solvers and of `solveOde` only use addition, multiplication and comparison, so they are run on a type whose operations round; loop invariants of `compute` without any law of arithmetic; error of the clock by induction; `double` evaluated by the kernel |
| C126 | error of a fixed-step run with rounding | rounding error of each operation, of sums in the order of the loops and of the stages, by induction, in a tube around the solution where the right-hand side is bounded and Lipschitz; one-step method with perturbed steps and perturbed clock; order of the coded tableau as in C52 |
| C127 | LUFactorizer with rounding | the loops of `factorize` and `solve` as chains of operations in their order, for any scalars (`LU/Ops.lean`); error of a chain by induction relative to its last value; composition of the three errors; Oettli–Prager; false relative to the matrix by a run in 53 binary digits |
| C128 | Right-hand side replaced mid-run | histories of calls with `setOdeRhs`, by induction, against the step of the right-hand side set last; the order theorems C92 and C41 with the Jacobian of the old one; equality of runs of two event controllers that differ in buffers only; false for SW2(4) and for events by runs |
| C129 | Adaptive runs end in floating point | the embedded solver run on rounded numbers, operation by operation (`attempt_ops`); step sizes in use stay above the minimum, so time advances by a fixed amount; geometric decrease of rejected steps for any `pow`; false for the default minimum: invariant of an endless run of dopri45 in `binary 53` |
| C130 | Tolerance and error | one-step methods with variable steps and perturbed states (`RK/Tolerance.lean`): the accepted result of the lower order is the one of the higher order up to what `controlStepSize` lets through; lifted to runs of `solveOde`; steps below the threshold by induction; false without a bound on the step: a polynomial with zeros at all stage times |
| C131 | LU statistics | the LU operations of the whole program as a history with arbitrary times; every call of a factorizer, a direction, a solver appends to it and adds the same to the statistics, by induction over calls and steps; false for Rosenbrock (matrices set) and the extrapolator by runs |
| C132 | Number of decompositions | same histories; decompositions owed (0 or 1) as a potential; for the Rosenbrock cache the sum over the entries, with the keys without repetitions among the step sizes; false beyond 100 step sizes by a run |
| C133 | text of sparse matrices | the loops of `operator<<` with checked accesses and 32-bit indices, by induction over rows and columns; lists of characters; Scilab's assignments as a small interpreter; false for elements outside the size by runs |
| C134 | accuracy of event location | linear interpolants near a simple zero of a smooth function and tubes around the solution (`Event/Locate`), induction over the steps up to the first sign change on the grid (`Event/Watch`), convergence of the method on the grid; an exact run for the lower bound |
| C135 | accuracy of runs through several events | induction over the pieces of the solution: convergence on the grid from a perturbed start (`Event/HybridConv`), the state of the controller between events (`Event/Guard`), location of each event as in C134, smoothness of the switch |
| C136 | location of events by any solver | the calls of one step with rejections (`Event/AnyModel`), location as in C134 on an arbitrary grid with arbitrary proposed states, induction over the steps before; link to the embedded Runge-Kutta solvers by induction over the attempts |
| C137 | events with rounding | model of the controller generic in the arithmetic (`Event/Ops`); binary rounding is monotone and idempotent (`Round/Grid`), hence the time stays in the step; error analysis of the quotient, the time and the state; witnesses in `double` |
| C138 | times in the report | counters as 64-bit words and statistics with 32-bit counts; a run as a list of computations inside one another with tick times, by induction; rule of three against floors of the two clocks; witnesses for 2³² evaluations, conversion before and after a second `stop` |
| C139 | events with values that are not numbers | the event controller of `Event/Model.lean` over numbers, infinities and NaN; case analysis of where the search places a zero; a simulation of the exact controller; witnesses for NaN passed silently and for what is remembered after it |
| C140 | per-type storage and factories | the storage as an association list from texts to values with their types, refined to independent variables by injectivity of keys; registrations as a history, by induction; witnesses for types with equal names |
| C141 | runs with values that are not numbers | `solveOde` of `Driver/Model.lean` and the solvers of `Driver/Solvers.lean` over numbers, infinities and NaN; induction over the steps of the run with the invariant that time and step size are numbers; witnesses for a time that becomes infinite and NaN at an event |
| C142 | changes of variables, units, time origin; linear invariants | simulation relation through the kernel, the step, the error control, the event controller and the run |
| C143 | Integration in pieces: a second call of `solveOde` continues the first | `runLoop` to a later end time is `runLoop` to an earlier one, continued (induction on the fuel, equation between outcomes); drift by induction on the list of calls |
| C144 | Linear quantities kept by Gragg, the extrapolator, W1 and SW2(4) | invariants of the states between steps, within a step and of the extrapolation table (weights with sum 1); for the Rosenbrock solvers the columns of the finite-difference Jacobian are orthogonal to the weights, hence the solutions of the linear systems keep the quantity |
| C145 | Linear quantities under implicit Euler | the weighted sum of the equations of the alpha method (C35): right-hand sides drop out, residuals within the tolerance remain; induction over steps; for one Newton iteration, columns of `I - h*alpha*J` (C146) keep the weights, as differences of a conserved right-hand side add up to 0 ; an invariant of the Newton run then gives exactness from the default guess |
| C146 | Jacobians of the right-hand side made by computeJacobian, by the Rosenbrock solvers and through the step mapping | element-wise descriptions of both loops (C82, C38) compared; the step mapping from C36 |
| C95-C99 | statistics, configuration, initial state, Richardson, table | histories; witnesses |

## What is modelled

Each `Model.lean` (and `RK/Solver.lean`, `Driver/Names.lean`) begins with the list of headers it covers and the
simplifications made; each definition cites lines. In short:

| area | headers | left out |
|------|---------|----------|
| LU | lu/LUFactorizer.h, lu/util.h | timing; the variant with the fast cache macro (not defined in the code) |
| Sparse | la/SparseMatrixTemplate.h; `operator<<` and `printScilabMatrix` in `Sparse/Print` | the text of a number (a parameter of the model); stream state |
| Vec | la/VectorTemplate.h | iterators as such (positions instead) |
| Alg | alg/*.h: mappings, Jacobian calculator, providers, trimmers, directions, line search, error estimator, iteration performer, solver | regularization strategy beyond its interface; observers that act |
| RK | ExplicitRKHelper.h, all explicit tableaux, OdeSolverExplicitRK.h, OdeSolverExplicitEmbeddedRK.h, OdeStepSizeSimpleController.h | hooks of the right-hand side, timers |
| Event | LinearOdeEventController.h; in `Event/HybridModel` solvers whose right-hand side depends on the phase state, in `Event/AnyModel` the calls any solver makes to its controller in a step | the interpolator argument (not used by the code) |
| Extrap | OdeSolverExtrapolator.h, OdeSolverGragg.h, step sequences | timers |
| Implicit | OdeStepMappingEuler.h, OdeSolverImplicitEuler.h | timers |
| Ros | OdeSolverRosenbrock_W_base.h, _W1.h, _SW2_4.h, OdeRhsVectorMapping.h | timers |
| Driver | OdeSolverConfiguration.h (run, apply), ode_solver_output.h, RichardsonErrorCalculator.h, SpecifiedOdeInitState.h, OdeVarNameGenerator.h; in `Driver/Solvers` all solvers of the library as `solveOde` sees them | text of numbers, files, timers |
| Infra | cxx_observers.h, OptionalParameters.h, ComponentConfiguration.h, Factory.h, PerTypeStorage.h (`Infra/StorageModel`), lex_idnum.h | type information (types are elements of a given set), shared libraries |
| Timing | TimingStats.h, LUFactorizerTimingStats.h, where LUFactorizer.h measures, what the descent directions, OdeSolverImplicitEuler.h, OdeSolverRosenbrock_W_base.h and OdeSolverExtrapolator.h do with it, the lines on LU of ode_solver_output.h; OpaqueTickCounter.h/.cpp, TimerCalibrator.h/.cpp and the times in ode_solver_output.h (`Timing/ClockModel`) | the numbers computed (in LU, Alg, Ros); calls that throw; wrap-around of counts (except in `ClockModel`); rounding of milliseconds |
| Util | ErrorStats.h, TimingStats.h, m_inline.h, sys_time.h (formatting) | clocks |
| TestModels | ode/test_models/*.h | (parameters are in Config) |
| Wiring | alg/interfaces/NewtonSolverInterface.h (setComponent, parameters, setParameters), constructors of NewtonSolver, NewtonDescentDirection, JacobianProvider, OdeSolverImplicitEuler and OdeNewtonSolver (ode/interfaces/), setters with observers of infra/def_prop_class.h | everything but pointers; destruction of objects; observers registered by users |
| Config | parameters, setParameters, setParameter and help of OdeSolverConfiguration.h, all solvers, components, Newton solver parts, outputs, initial state, test models; OptionalParameters.h (values that denote objects) | the text of numbers (a parameter of the model); the wording of help texts; the part of settings that is not saved is kept in the model and shown to be lost |
| OdeWiring | setters with observers of the event controller, error norm calculator, extrapolator, implicit Euler (ode/interfaces/, OdeSolverExtrapolator.h, OdeSolverImplicitEuler.h) | everything but pointers to right-hand sides and solvers |
| Special | infNorm, euclideanNormSquare (VectorTemplate.h), OdeStepSizeSimpleController.h, SimpleErrorEstimator.h, SimpleNewtonLinearSearch.h, NewtonIterationPerformerImpl.h, and by `RK/Solver.lean` the explicit solvers, by `Event/Model.lean` the linear event controller, by `Driver/Model.lean` solveOde, on numbers, infinities and NaN | rounding, overflow, the sign of zero |
| Round | by `RK/Model.lean`, `RK/Solver.lean` and `Driver/Model.lean` the explicit solvers with fixed and with variable steps and solveOde (OdeSolverConfiguration.h), by `Event/Model.lean` the linear event controller, and by `LU/Model.lean` setMatrix, factorize and solve of LUFactorizer.h, on numbers whose operations round (any rounding with a relative error bound; IEEE 754 round to nearest even with any number of digits) | range of exponents, fused multiply-add |

Not modelled at all: registration macros and `reg/`, property-declaring macros (`def_prop_class.h` other than
its setters with observers, `def_getset.h`), exceptions and assertion classes, the
example programs and `src/test_*.cpp`.

Everywhere: floating-point rounding (except in `Round`), memory exhaustion, threads and the lifetime of objects (except where a
property is about it) are outside of the model.

## Where the code disagrees with the properties

The properties are stated as a user would expect them. The following are false of the code; each has a witness
theorem, and the theorem with suffix `_partial` (or the other theorems of the property) says what is true.

<!-- disagreements begin -->
* **C01** LU solve returns the solution of the linear system (`C01_false`). False without the fill condition (C01_false): back substitution skips fill-in right of the last stored column of a row. Proved with the fill condition, also after any history; for every accepted matrix: when it returns (C01_returns_iff) and what it computes (C01_general). Any number of right-hand sides one after the other: C01_repeat_partial.
* **C05** setMatrixFast is equivalent to setMatrix (`C05_false`). False in general (C05_false). Proved: identical object when the stencil is the same; otherwise either same as setMatrix or correct solve when the old stencil satisfies the fill condition.
* **C06** The Hart update makes the factorization satisfy the secant condition (`C06_false`). False without the fill condition (C06_false). Proved with fill condition and diagonal reach, after any history; returns when no component of s is zero (C06_returns).
* **C07** The proportional update makes the factorization satisfy the secant condition (`C07_false`). False (C07_false): with the fill condition the first row always misses the secant condition when y0 is not zero (C07_first_row_partial).
* **C09** The fast (sorted vector) matrix agrees with the map-backed matrix it was assigned from (`C09_transposed_source_false`). For every source enumerated in increasing order (all map-backed matrices). Assignment from a transposed view breaks lookup (C09_transposed_source_false), which is outside the claim.
* **C11** Block and transposed views translate indices consistently through every accessor (`C11_false`). False for the two-argument get of block and transposed views (C11_false). Proved for index-pair accessors, enumeration, effects on the source, copies, scaling.
* **C12** The transpose of an r x c matrix is c x r and vector*matrix has one component per column (`C12_false`). False for rectangular matrices (C12_false: wrong size, out-of-bounds write). Proved for square ones; exact behaviour for rectangular ones.
* **C14** The narrowing mapping is the restriction of the original mapping (`C14_false`, `C14_outputs_only_false`). Proved when the same set of variables is disabled in input and output; false for different input and output sets (C14_false) and for narrowing of outputs only (C14_outputs_only_false).
* **C17** Jacobian trimmers keep exactly the documented entries (`C17_width_false`). Threshold trimmer proved; width trimmer proved for widths below 2^31, beyond that everything is dropped (C17_width_false).
* **C18** Broyden update satisfies the secant equation, the stencil-preserving variant keeps the stencil (`C18_fake_secant_false`, `C18_false`). Exact effect of both updates; the Broyden update satisfies the secant condition when every position it touches is stored, otherwise it throws (C18_broyden, C18_false); the stencil-preserving one only row by row (C18_fake_row), its secant condition is false in general (C18_fake_secant_false).
* **C23** Divergence is reported as Diverged (`C23_false`). Proved with the exact condition: Diverged is returned when every iteration diverges and the direction allows a restart; otherwise IterationCountLimitExceeded is returned (C23_false, with the library's simple direction and default Jacobian provider).
* **C24** A Newton step with the exact Jacobian solves an affine system in one iteration (`C24_fill_false`). Simple, constant-Jacobian, Broyden and stencil-preserving Broyden directions, both providers, after any history of calls on the system; the fill condition of the claim cannot be dropped (C24_fill_false).
* **C27** DOPRI78 coefficients satisfy the order conditions up to 1e-17 (`C27_exact_false`). Defects for all trees and row sums; local error for autonomous right-hand sides; exact order conditions fail (C27_exact_false) because the coefficients are rounded quotients. Time-dependent right-hand sides are not covered by C27_local_error since nodes are not exactly row sums.
* **C31** A step-size exception leaves the solver in the last accepted state (`C31_false`). False on the accepted path (C31_false). Proved for the simple controller with incMin >= 1 and a step above the minimum.
* **C34** The Gragg step is time-symmetric and preserves its running average interpretation (`C34_false`). Recursion, exactness for a constant right-hand side, validity of the stored derivative over all histories and symmetry of the step on the pair of sequences proved; symmetry is false through the interface, since setting the step size restarts the sequences (C34_false).
* **C38** The Jacobian used by the Rosenbrock solvers contains all columns (`C38_false`). False when there are second-order variables: columns of J1 are computed for the first n1 velocities only, the other velocity columns and the first-order variables are missing (C38_false: a damped oscillator). True without second-order variables (C38_firstOrder, C38_affine); C38_partial says which elements are right in general.
* **C39** The cached factorization always belongs to the current step size (`C39_false`). The cached factorization in use is that of the current Jacobians and hd, for every history of nonzero hd (C39_partial, C39_stays), and the cache holds at most 100. False for hd = 0: updateW returns without a factorization, linSolve dereferences a null pointer (C39_false).
* **C40** SW2(4) uses a factorization matching the step of the attempt (`C40_false`). True for the first attempt of every step (C40_partial). False after a rejected attempt (C40_stale, C40_false): initStep is called once per doStep, so the second attempt uses the factorization of the rejected step; its local error is h^2 (rho-1) d J f + O(h^3), not O(h^3) (C40_order, for systems without second-order variables).
* **C42** A truncated step ends inside the step, at the earliest linear zero crossing (`C42_landing_false`, `C42_time_false`). False in general: time can go back (C42_time_false) and landing exactly on a zero throws (C42_landing_false). Proved for steps from states on the watched side, over all reachable controller states and all proposed end states.
* **C43** A step without zero crossing is not truncated (`C43_false`). False when a one-sided function starts on the unwatched side (C43_false). Proved: functions that keep their sign never give an event over chains of steps of any length; nothing happens without event functions.
* **C46** Printed component selection: all if few, otherwise first L and last L, without repetition and in order (`C46_indices_false`, `C46_huge_false`). Proved for vectors and for the components of the solution output up to 2^31 components; false beyond (C46_huge_false, C46_indices_false: 32-bit overflow of the doubled limit, the loop never ends). Also names in the header are distinct.
* **C47** Generated variable names are distinct and sort in index order (`C47_huge_false`). Proved for up to 2^31 variables with exact log10; false beyond (C47_huge_false: the index is printed as a negative int).
* **C50** Removing an observer id twice is harmless (`C50_false`). False: identifiers are reused (C50_false). Proved when an element registered later stays registered.
* **C55** Reported mean square deviation is the standard deviation (`C55_false`). The claim is false of the code (C55_false); proved: the reported value is the deviation exactly when all samples are zero.
* **C61** A rejected setMatrix leaves the factorizer usable with its previous matrix (`C61_false`). False (C61_false); holds for the non-square rejection.
* **C62** luToMatrix returns the matrix represented by the factorizer (`C62_false`). Proved for any number of solves without conditions (C62_luToMatrix); after secant updates with the fill condition (C62_history_partial). Without the fill condition the property is false after one Hart update (C62_false): elementAt reports a non-zero element at a position the returned matrix lacks.
* **C63** Operations whose right side is a view of the left side give the mathematical result (`C63_false`). False (C63_false): the destination is cleared before the view of it is read. Proved when a copy is made first. Adding a matrix's own transposed view is modelled with the live view (C63_self_add_exact: what the code computes; C63_self_add_partial).
* **C65** Vector arithmetic is componentwise or reports the mismatch (`C65_long_assign_false`, `C65_short_block_false`). Proved for valid operands, with mismatch reported for operands without blocks; false for a short block operand (read beyond the block, C65_short_block_false) and for assigning a longer vector to a block (C65_long_assign_false).
* **C66** Pre-step observers are told the size of the step about to be made (`C66_first_step_false`). False for the first step of a run (C66_first_step_false); true for the later steps.
* **C68** Vector operations whose operand reads the vector being changed (`C68_assign_own_block_false`, `C68_overlap_false`). False when the operand overlaps from below (C68_overlap_false) and for assignment of an own block (C68_assign_own_block_false: always undefined). Proved otherwise: C68_self_partial and, through the safe-overlap condition, C65_update and C65_assign.
* **C69** Callbacks may change the list of observers while being notified (`C69_self_remove_false`). False: a callback that removes itself makes the call undefined (C69_self_remove_false). Proved for calls that return.
* **C70** A scoped element removes what it added and nothing else (`C70_clear_false`). Proved without clear; false when clear is called while a scope is open (C70_clear_false).
* **C72** A copy of a parameter set is independent of the original (`C72_copy_false`). False for nested values (C72_copy_false); proved for values of the copied set itself.
* **C73** A configuration shows the parameters of its component (`C73_rejected_false`). False after a rejected setting (C73_rejected_false); proved for all histories of accepted settings.
* **C74** Parameter values are converted without loss (`C74_double_false`, `C74_unsigned_false`). Int and bool proved; false for unsigned (C74_unsigned_false) and double (C74_double_false), with what holds proved.
* **C75** Lexical checks accept exactly what they are documented to accept (`C75_identifier_false`). Numbers proved exactly; IsIdentifier is wrong (C75_identifier_false).
* **C76** A type identifier recreates an object of the same type (`C76_taken_false`). Proved when identifiers and types correspond one to one; false otherwise (C76_taken_false).
* **C77** Malformed path text is rejected (`C77_false`). False (C77_false); texts without empty items proved.
* **C78** The extrapolator has the order it reports (`C78_false`, `C78_rk4_false`). Proved for consistent Runge-Kutta references of declared order 1 and for the Gragg reference with the flag symmetric, for all numbers of stages and all sequences; false for the default flag with the Gragg reference (C78_false) and for the default flag with the classical Runge-Kutta reference and two stages, where order 5 is reported and the order is 4 (C78_rk4_false).
* **C79** The extrapolator never reads outside its tables (`C79_more_stages_false`, `C79_no_reference_false`, `C79_no_stages_false`, `C79_one_stage_false`). False with one stage and the error check, when the number of stages is raised between steps, and when setInitialState is called without a reference solver; proved for every history of calls otherwise.
* **C80** Observers are told the size of the step that was made (`C80_false`). False when the controller changes the step size (C80_false); proved otherwise.
* **C81** Setting the initial state restarts event detection (`C81_gragg_false`). False for the Gragg solver (C81_gragg_false); proved for the extrapolator and the Runge-Kutta solvers.
* **C84** A Jacobian provider leaves the finite-difference Jacobian of the point it was given (`C84_false`, `C84_trimmer_false`). Default provider proved; sparse provider proved when the stored positions cover the dependencies, false otherwise (C84_false) and when a trimmer is set and removed (C84_trimmer_false, C84_trimmer_ub).
* **C85** A hard reset makes a descent direction forget the past (`C85_false`). Proved for all directions and providers except the two eager Broyden directions with the default provider, for which it is false (C85_false).
* **C86** A descent direction solves the linear system of the current Jacobian (`C86_false`, `C86_lazy_false`). Proved for the simple, constant, Broyden and stencil-preserving Broyden directions when the stencil never changes and satisfies the fill condition (C86_solves_partial), and for the lazy one if moreover the first call after a reset has iteration number 0 (C86_lazy_partial); false otherwise (C86_false, C86_lazy_false). For the Hart direction, whose matrix is not the Jacobian of the provider, see C112.
* **C87** The Newton solver solves linear systems (`C87_false`). Proved when the threshold for relative changes is off, the guess is zero, or the root is closer to the guess than the threshold; false otherwise (C87_false: x - 12 from 1 with the library's defaults). Exact arithmetic.
* **C89** Replacing the right-hand side of a step mapping takes effect at once (`C89_false`). False in general (C89_false: setOdeRhs does not invalidate the cache). C89_partial: right-hand sides replaced before a call that sets the state, the step or alpha.
* **C91** A Rosenbrock solver that is given a new initial state starts like a new one (`C91_SW_false`, `C91_W1_false`). True except for the event controller (C91_W1_partial, C91_SW_partial: literally equal results for any two earlier states that agree in the state of the event controller and the observer log). False with an event controller: unlike the explicit solvers, these never call its reset, so phases of the earlier run stay (C91_W1_false, C91_SW_false).
* **C94** Solution output with a timing writes states at least the timing apart (`C94_rows_false`). False for the first two rows of the row output (C94_rows_false: the initial row does not inform the time filter); everything else is proved for rows, and the full claim for columns.
* **C95** Statistics of a run are exact (`C95_elapsed_false`). Counts, mean, elapsed time for whole steps; false with steps truncated at events (C95_elapsed_false: the full step size is summed). 32-bit wrap of counters not modelled.
* **C96** A wrong configuration is reported by an exception (`C96_noRhs_false`, `C96_size_false`). False: initial state given without right-hand side dereferences null (C96_noRhs_false); a state passed to apply is not checked (C96_size_false). The rest is proved.
* **C97** A specified initial state can be saved and loaded (`C97_shrink_false`). False when the object gets smaller: undefined behaviour (C97_shrink_false). Round trip proved otherwise.
* **C98** Richardson error calculation keeps time and state together (`C98_false`). False after a truncated half step (C98_false). Proved for the explicit fixed-step solvers when no step is truncated (C98_partial).
* **C104** The stiff equation is y' = -a (y - cos t) with the a that was given, and only the implicit solver damps it at every step size (`C104_constructor_false`). False for the constructor: its parameter is unsigned int, so StiffOde1D(0.5) is y' = 0 (C104_constructor_false); whole numbers are kept (C104_constructor_partial). The rest is proved.
* **C107** All components of a Newton solver work on the equation that was set last (`C107_false`, `C107_shared_false`). Proved for all histories without replacing the iteration performer (C107_partial), for the regularization strategy and all histories (C107_regularization), for solvers without common objects (C107_frame, C107_independent). False when the performer is replaced: the mapping is lost (C107_false); false for a direction used by two solvers (C107_shared_false).
* **C108** Replacing a component leaves a Newton solver that can be run (`C108_ddir_false`). Proved for calls that keep the performer and give directions that have a Jacobian provider (C108_partial). False for a new direction, as in the test programs of the repository (C108_ddir_false): it has no Jacobian provider, the one in use is dropped, and run dereferences a null pointer.
* **C109** Reading the parameters of a Newton solver and setting them again changes nothing (`C109_ddir_false`, `C109_itperf_false`, `C109_roundtrip_false`). Proved up to the mapping (C109_roundtrip_partial), and for subsets without itperf, with ddir only together with jacobian (C109_partial), and for all parameters together (C109_all). False: setting the parameters that were read loses the mapping (C109_roundtrip_false); ddir alone loses the Jacobian provider, then even parameters() is undefined (C109_ddir_false); itperf alone loses everything and leaves the regularization strategy with the former components (C109_itperf_false).
* **C110** The Newton solver of the implicit Euler solver works on the equation of a step (`C110_false`, `C110_forwarded_false`). Proved for construction, setNewtonSolver, setReorder, and algsolver with all parameters. False for algsolver with a direction and no Jacobian provider (C110_false); iterations are forwarded twice when the same Newton solver is set again (C110_forwarded_false).
* **C111** A run of the Newton solver solves the equation it has when it is called (`C111_false`). Proved when the initial guess is set after the change (C111_partial), as the implicit Euler solver does. False otherwise (C111_false): the residual of the former equation is kept, and a run can return Converged far from a solution; src/test_ode_time_stepper.cpp is written like that.
* **C112** The Hart direction is a secant method (`C112_false`). Proved for Jacobians whose stencil satisfies the conditions of the factorizer (C112_first, C112_secant_partial, C112_soft). False otherwise (C112_false), as for C06.
* **C113** The lazy direction updates its Jacobian after long runs, and the update is a secant update (`C113_false`). When the Jacobian is computed, kept or updated: C113_recompute, C113_later, C113_leave. The update is the sum of the rank-one updates of all steps, each relative to the old Jacobian (C113_update). Secant condition only for runs of one step (C113_secant_partial); false for longer runs (C113_false: x^2 = 0 from 1, the new Jacobian is negative).
* **C114** The extrapolator converges with the order it reports (`C114_false`). Proved: any consistent explicit Runge-Kutta reference, flag off: order at least the number of stages (C114_rk; the reported order when the declared order of the reference is 1); Gragg with the flag symmetric: twice the number of stages, as reported (C114_gragg); classical Runge-Kutta reference: order 4 (C114_rk4). Runs exist (C114_steps). False for the classical Runge-Kutta reference with two stages and the default flag: reports 5, order is 4 (C114_false).
* **C115** The error estimate of the extrapolator has the order the step size controller is told (`C115_false`). Proved for consistent Runge-Kutta references of declared order 1 (C115_rk_partial) and for the Gragg reference with the flag symmetric (C115_gragg_partial). False for the classical Runge-Kutta reference with three stages: the controller is told order 5, the estimate has order 4 (C115_false).
* **C116** The event controller sees the step the solver would make without events (`C116_false`). Proved for the explicit solvers (C116_fixed, C116_embedded), Gragg (C116_gragg), both Rosenbrock solvers (C116_w1, C116_sw24), implicit Euler (C116_implicit), and for the extrapolator with the reference solver left as it is (C116_extrapolator_partial). False for the extrapolator with a reference solver that has an event controller, as solvers have by default: the event at time 1/3 is reported for time 1/4 (C116_false). Rejected attempts call only atStepStart.
* **C117** Settings survive saving and loading (`C117_enorm_false`, `C117_jacobian_false`, `C117_reorder_false`, `C117_sticking_false`). Proved for settings that can be saved (C117_roundtrip_partial, C117_solver_partial), numbers up to what printing and reading does to them (C74 for the digits); absent and unknown parameters (C117_frame, C117_frame_configuration); unknown types (C117_unknown_type). False otherwise: the reordering of the implicit Euler solver is not saved (C117_reorder_false); neither is the sticking of the ball (C117_sticking_false); a solver without error norm calculator can be saved but loading is undefined (C117_enorm_false); a descent direction without Jacobian provider cannot be saved (C117_jacobian_false).
* **C118** Everything that works for a solver has the right-hand side of the solver (`C118_bypass_false`, `C118_cycle_false`, `C118_norm_false`, `C118_shared_false`). Proved for programs that share no component between solvers and do not set the right-hand side of a reference solver (C118_history, C118_returns, C118_predictor); one call without such conditions (C118_told), with the solvers that have an error norm calculator by default (C118_norm); it returns exactly if the chain of reference solvers ends and no error norm calculator is null (C118_returns_iff). False otherwise: an extrapolator that is among its reference solvers overflows the stack (C118_cycle_false); a null error norm calculator is undefined (C118_norm_false); shared controllers and reference solvers that are set directly have another right-hand side (C118_shared_false, C118_bypass_false).
* **C120** Help is available on every parameter (`C120_false`). False as stated: there is no help on the parameters listed in undocumentedNames (everything of the extrapolator that its base class has, and symmetric and max_stages; the settings of embedded solvers; all settings of step size controllers, error estimators, trimmers, initial states). C120_help_partial: for every configuration and path, there is help exactly at the parameters other than those.
* **C121** Setting one parameter changes the setting it names and no other (`C121_ddir_false`, `C121_enorm_false`, `C121_itperf_false`, `C121_linsearch_false`, `C121_rounding_false`). Proved for settings that can be saved and the paths and values listed in Provider.Sets, which covers every parameter of every class (C121_set_partial); the result can be saved again (C121_again), so sequences of calls work (C121_sequence_partial); names of no parameter are refused (C121_unknown). False otherwise: numbers that their texts do not give back change with every call, whatever is set (C121_rounding_false); setting no error norm calculator is undefined (C121_enorm_false), and so is setting no line search or no descent direction of the Newton solver (C121_linsearch_false, C121_ddir_false); once the iteration performer is removed, setting one is undefined (C121_itperf_false).
* **C122** A Newton solver that reports Converged has a solution and a residual that consist of numbers (`C122_false`, `C122_singular_false`). False: infNorm leaves out NaN, so if the residual at the guess has no component that is a number, the solver reports Converged after one iteration, whatever the mapping is elsewhere (C122_undefined; sqrt(x)=1 from -1 in C122_false); if the guess is a root and the linear solver gives NaN (singular Jacobian), it reports Converged with the solution NaN (C122_singular, C122_singular_false). Proved if guess and residual at the guess are numbers and the direction gives numbers for numbers: then the run never leaves numbers, whatever the mapping is elsewhere, and Converged means within the tolerance (C122_newton_partial). On numbers the model is the one of Verif.Alg (C122_numbers). Rounding is not modelled; zero has no sign.
* **C123** A step accepted by error control has an error estimate that is a number (`C123_false`). False: infNorm leaves out NaN (C123_norm); if no component of the error estimate is a number the step is accepted (C123_lost), and from then on every step is accepted with the same step size and time goes on (C123_forever); DOPRI45 does that on a right-hand side defined for x >= 0 (C123_false), whatever the tolerance. Proved: components of an accepted error estimate are NaN or numbers within what the controller accepts, so infinite ones are refused (C123_accepted_partial), and if both outputs are numbers all is as in exact arithmetic (C123_partial). With a norm that gives NaN for NaN (none is in the library), a step never ends (C123_other_norm). Rounding is not modelled; zero has no sign.
* **C125** solveOde with a fixed step returns after duration over step size steps in floating point too (`C125_eleven_false`, `C125_forever_false`). False as stated: in double a run over 1 with step 0.1 makes 11 steps and ends at 1.0999999999999999 (C125_eleven_false), and at time 1e10 steps of 1e-7 are lost in the addition and the loop never ends (C125_absorbed, C125_forever_false). Proved (C125_returns_partial): if 4 u (|t|+d+h) <= h, where u is the unit roundoff, the run returns, the time shown is N h after the beginning up to 2 N u (|t|+d+h), and the overshoot is at most one step and 3 u (|t|+d+h). Exponent range unbounded, no fused multiply-add.
* **C127** A linear system solved by LUFactorizer in floating point is solved exactly for a nearby matrix (`C127_false`, `C127_unfilled_false`). False relative to the matrix itself: C127_false, two equations in 53 binary digits with a well-conditioned matrix and a result with no correct digit (the code does not pivot); false without the fill condition: C127_unfilled_false. Proved for all roundings and all sizes: C127_backward_partial (componentwise backward error relative to |L||U| of the stored factors), C127_nonneg_partial (relative to the matrix itself when no stored factor is negative), C127_returns_or_divides (solve returns or divides by zero, nothing else). Overflow and underflow are not in the model of rounding.
* **C128** A right-hand side set in the middle of a run takes effect with the next step (`C128_event_false`, `C128_event_missed_false`, `C128_sw_false`). False of the code for SW2(4) (C128_sw_false) and for the event controller (C128_event_false: an event that did not happen; C128_event_missed_false: one that is missed). Proved for explicit fixed-step solvers in every history (C128_fixed), for embedded methods (C128_embedded), for W1 to first order (C128_w1), for SW2(4) after a soft setInitialState (C128_sw_partial) and for events after reset (C128_event_reset). The Gragg solver's cache is covered by C34.
* **C129** A run with a step size controller ends in floating point: solveOde returns or reports that the step size is too small (`C129_forever_false`). False with the default minimum 1e-16 in double (C129_forever_false: dopri45 with defaults started at t = 1000 never returns). Proved for all roundings when hMin >= 4u(|t|+d): for every controller that makes rejected steps smaller by a factor (C129_ends_partial), which the one of the library does whatever std::pow returns (C129_simple_partial). No event controller; no overflow or underflow.
* **C130** The tolerance of the step size controller bounds the error of a run (`C130_tolerance_false`). False as stated: the tolerance bounds the difference of the two results of a step, not the error (C130_tolerance_false, for all controller parameters). The partial theorems bound the error of all samples by C (H^q + N tol) for DOPRI45 (q = 5) and DOPRI56 (q = 6), with a constant independent of tolerance, mode and run; the _threshold variants need no hypothesis on the steps of the run. Exact arithmetic; quiet or no event controller.
* **C131** The LU lines of the statistics report the LU operations made (`C131_extrapolator_false`, `C131_rosenbrock_false`). Proved for every descent direction and for the implicit Euler solver. False for the Rosenbrock solvers: linSolve clears the factorizer's statistics before the matrix set by the constructor is counted, so matrices set are never reported (C131_rosenbrock_false; everything else is exact, C131_rosenbrock_partial). False for the extrapolator: the statistics of its reference solver are not forwarded (C131_extrapolator_false). Calls that throw are not modelled.
* **C132** Directions and Rosenbrock solvers decompose matrices only as often as needed (`C132_cache_false`). Proved for all directions, and for the Rosenbrock solvers with at most 100 step sizes between hard resets; with more the cache is cleared as a whole and step sizes met before are decomposed again (C132_cache_false).
* **C133** A printed sparse matrix shows every element at its place (`C133_outside_false`). Proved for matrices whose elements are inside the declared size and with fewer than 2^32 places. False otherwise: at() may store elements outside the size, which are then shown at another place or written outside the table, and the number of places wraps around (C133_outside_false).
* **C137** Events are located correctly in floating point arithmetic (`C137_back_false`, `C137_tiny_false`). False in two cases: a function that ends the step beyond zero by less than rounding error makes the code throw out_of_range (C137_tiny_false; bound: |zf2| <= 3u|zf1|), and directly after an event the remembered value may be beyond zero, so that the next event is placed before the first one (C137_back_false; x falls from 2 with slope -5, times 0.4 and then 0.39999999999999997). Proved: everything else for a step from functions on their sides (C137_partial, C137_found); the sides are restored by the next step that is not cut (C137_rearmed). Exponents are not bounded in the model.
* **C138** Times in the statistics report are the times spent (`C138_again_false`, `C138_count_false`, `C138_running_false`). Proved for runs of less than 2^64 ticks and 2^32 evaluations (C138_measured, C138_reported, C138_stopwatch, C138_accurate). False beyond: after 2^32 evaluations there is no line (C138_count_false); toMsec before stop divides by zero instead of being refused (C138_running_false); a second stop leaves conversion available but wrong (C138_again_false). Conversion is exact in the model, not rounded.
* **C139** Events with values that are not numbers (`C139_infinite_false`, `C139_later_false`, `C139_passed_false`). Proved: the three outcomes of atStepEnd for arbitrary extended values (C139_outcome), agreement with exact arithmetic (C139_agree), a function remembered with no number is never located (C139_never), infinite end values are remembered as no number (C139_infinite). False: a function watched in one direction only that is NaN at the end of a step is passed silently (C139_passed_false); after that its next change of sign throws out_of_range (C139_later_false); after an event located by an infinite value NaN is remembered and the next step throws (C139_infinite_false).
* **C140** Factories of different interfaces do not interfere (`C140_id_false`, `C140_names_false`). Proved if different types have different typeid names without a slash (C140_cells, C140_factories, C140_order). False without the first condition, which the C++ standard does not give and which fails for classes of the same name in unnamed namespaces of two source files: the registry of one interface is used as that of another (C140_names_false), and two implementations share an identifier (C140_id_false).
* **C141** A run ends at a time that is a number (`C141_false`, `C141_thrown_false`). Proved: any solver that returns at a number has reached the end (C141_returned); a duration that is NaN is one step (C141_duration); constant step size (C141_fixed) and error control (C141_adaptive) without an event controller. False with an event controller: a function constantly -1 watched from plus to minus makes the time minus infinity after one step; the run then returns at time NaN if the function is recomputed after events (C141_false), and throws otherwise (C141_thrown_false).
* **C143** An integration may be done in pieces (`C143_sum_false`). C143_joined, C143_exact, C143_split for all solvers of the model; C143_drift for solvers with bounded steps, C143_fixed for the fixed-step explicit Runge-Kutta solver without event controller. That durations add up in general is false of the code: two calls for half a second with a step of one second make two steps, one call for a second makes one (C143_sum_false).
<!-- disagreements end -->

## Trusted base

* The Lean 4 kernel. No own axioms, no `sorry`, no `native_decide`.
* The reading of the C++ text into the model (nothing is compiled or run). Every definition cites the lines it
  stands for, so this can be checked by comparing texts.
* The statements of the theorems, and Mathlib's definitions used in them (fields, ordered fields, matrices,
  derivatives, asymptotics).
* The tools that write MANIFEST.json, this section and the log (`tools/`) are not trusted by any proof.

Axioms of each property theorem (written by `tools/mk_axioms.py`):

<!-- axioms begin -->
* `Quot.sound`: `C22_returns`.
* no axiom: `C11_get2_partial`, `C60_wraps`, `C63_assign_empty`, `C70_clear_false`, `C73_rejected_false`, `C131_extrapolator_false`, `C131_rosenbrock_false`, `C132_cache_false`.
* `propext`: `C44_noRhs`, `C69_self_remove_false`, `C71_cycle_never_returns`, `C73_partial`, `C75_identifier_false`, `C107_false`, `C107_shared_false`, `C109_ddir_false`, `C109_itperf_false`, `C110_false`, `C110_forwarded_false`, `C118_bypass_false`, `C118_norm_false`, `C118_shared_false`.
* `Quot.sound`, `propext`: `C02_fresh`, `C13_diagonal_zero`, `C14_short`, `C16_partition`, `C17_zero`, `C20_history`, `C21_residual`, `C22_logged`, `C23_euler`, `C33_bulirsch`, `C33_harmonic`, `C33_romberg`, `C33_size`, `C34_cache`, `C40_stale`, `C43_no_functions`, `C44_needs_bound`, `C45_always`, `C46_huge_false`, `C46_indices`, `C46_indices_false`, `C46_indices_second`, `C48_changed`, `C48_iteration`, `C50_false`, `C51_total`, `C53_dangling`, `C53_load`, `C54_merge`, `C57_basis`, `C57_ends`, `C58_stick_iff`, `C65_defined`, `C66_later_steps_partial`, `C81_partial`, `C81_rk_partial`, `C85_euler`, `C85_implicit_pending`, `C85_mayHelp`, `C85_reset_partial`, `C91_SW_moved`, `C91_SW_soft`, `C95_counts`, `C95_fixed`, `C96_noRhs_false`, `C96_noSolver`, `C96_passed`, `C96_size_false`, `C96_specified`, `C97_negative`, `C97_set`, `C97_shrink_false`, `C113_later`, `C113_leave`, `C113_recompute`, `C116_embedded`, `C116_fixed`, `C116_gragg`, `C116_sw24`, `C116_w1`, `C123_lost`, `C128_event_reset`, `C132_every`, `C132_exactly`, `C132_solves`, `C136_embedded`, `C138_stopwatch`, `C139_agree`, `C141_duration`, `C141_returned`, `C142_conserved_events`, `C142_events`, `C144_extrapolator`.
* `Classical.choice`, `Quot.sound`, `propext`: all other property theorems (509).
<!-- axioms end -->
