# DESIGN — a machine-checked model of PyZEAL in Lean 4

## 1. What is modelled, and how

The model is written function by function from `/repo/pyzeal`; every definition
cites file and lines. Python exceptions are values (`Err`), mutable objects are
state records, and the state survives an exception (`Py σ α := σ → Except Err α × σ`),
because in Python the roots added before an exception stay in the container.

* `lean/Verif/Core/` – numbers, exceptions, the `Py` state/exception monad.
* `lean/Verif/Model/` – the model (one file per group of source files).
* `lean/Verif/Spec/` – small specifications used in the statements, written without
  the model's helpers.
* `lean/Verif/Proof/` – lemmas.
* `lean/Verif/Props/` – only property theorems, each followed by `example`s
  showing that non-trivial data satisfy the hypotheses.

### Numbers
Numerical code is modelled over an arbitrary ordered field `K` with floor
(`Field`, `LinearOrder`, `IsStrictOrderedRing`, `FloorRing`): the same definitions run
over `ℚ` (executable; used in examples and counterexamples) and specialise to
`ℝ` (used where `π` and the complex argument matter). Arithmetic is exact, except in `Model/Float.lean`:
there the search of SIMPLE_ARGUMENT is modelled once more with a rounding after every arithmetic operation, for any
round-to-nearest arithmetic, with 53-bit binary round-half-even (`double`) as instance (C104, C105), and in
`Model/FloatSum.lean`, the summation estimator with computed operations (C106-C108), and in `Model/FloatContainer.lean`,
rounding containers (Python and numpy numbers), the serial finder (C109, C110) and the parallel finder (C113). `Model/Ext.lean` has
infinities and NaN, as has `Model/ExtContainer.lean` (C142-C145; finite numbers are exact there, and C145 shows that on finite data this model does the same as the exact one).
`Model/NewtonRounded.lean` has scipy's Newton and secant methods (except the array version without derivative) with computed operations (C150-C152), and
`Model/NewtonFloat.lean` the search of SIMPLE_ARGUMENT_NEWTON with a rounding after every operation (C153, C154),
`Model/PolynomialFloat.lean` that of ASSOCIATED_POLYNOMIAL, where what is computed from the moments is an arbitrary function (C156, C157). Overflow,
underflow, signed zeros and rounding inside the quadrature estimator
are NOT modelled. `10 ** (-p)` is `10^(-p)` in `K`
for any integer `p`. Python's `round(x, p)` is round-half-to-even of `x·10^p`, divided
by `10^p` (CPython rounds the exact binary value correctly; only the final
conversion to double is dropped). `f` is applied pointwise (numpy vectorisation).

### External calls (parameters of the model)
`scipy.optimize.newton`, `numpy.polynomial.Polynomial.roots`, `scipy.integrate.romb`,
`numpy.arctan2` (instantiated with `Complex.arg` over `ℝ`; `romb` with Romberg's method as scipy documents it, for C130; `newton` with scipy's scalar secant and Newton methods and the vectorised Newton and secant methods, `Model/ScipyNewton.lean` and `Model/ScipySecant.lean`, for C133-C137), `isinstance`, user functions
`f`, `df`, filters, factories; the OS file system (as a path map); JSON parsing/printing
(`json.load ∘ json.dump = id` on the values written, tuples becoming lists). The standard library's `argparse` (CPython 3.11.10, as far as PyZEAL configures it: options with
no, one or two arguments, choices, `type=int`, abbreviations, clusters, `=`, `--`, one level of subcommands, help, version) is
modelled in `Model/Argparse.lean`; as a check of this translation the model was run against the real parser on 320 000
random command lines without a difference. `int` of a string, the regular expression class `\d` and the texts of help and
version are parameters; messages on stderr are dropped. `rich` progress bars are modelled as the list of `advance` values, for C129 as a table of rows (drawing is not modelled);
log messages are not modelled apart from the two places where the log level guards
code with an effect (`RoundingContainer.addRoot`, `EstimatorCache.retrieve`).

## 2. Trusted base

Lean 4.33 kernel; axioms at most `propext`, `Classical.choice`, `Quot.sound`
(checked with `#print axioms`, see section 5); Mathlib's definitions of ordered fields, floors,
polynomials, complex numbers and `Complex.arg`; the faithfulness of the hand
translation documented by the citations.

## 3. Property by property: model and proof plan

| id | modelled how | proof |
|----|--------------|-------|
| C01 | `RContainer` state, `step` over ops | invariant by induction over op list |
| C02 | same; spec = predicate-set machine `SetSpec` | refinement, simulation per op |
| C03 | set iteration = arbitrary permutation parameter | map/zip lemma for all iteration orders |
| C04 | fold of `addRoot` | membership characterisation of fold, permutation invariance |
| C05 | log level is an input of every op | two-run simulation |
| C06 | `removeRoot` | direct from membership lemmas |
| C07 | `addRoot` with filters `List (key × pred)` | case analysis, all states |
| C08 | filter dict | map refinement by induction over history |
| C09 | false of the code: counterexample theorem; `_partial`: holds for roots added after the registration | witness + invariant with ghost history |
| C10 | false of the code: counterexample; `_partial`: coincidence in value and order | witness + C01 |
| C11 | `pyRound` on an ordered field | floor arithmetic |
| C12 | `addRoot` | case analysis |
| C13 | `PlainContainer` with FIFO queue | invariant over histories |
| C14 | many producers / consumers over one queue, schedules = op lists | conservation (`Perm`) and subsequence invariant |
| C15, C16 | filter predicates, `registerPreDefinedFilter` | iff theorems |
| C17 | nested dict `order ↦ (line ↦ value)` | refinement to function map |
| C18 | false of the code (remove leaves an empty inner dict): counterexample; `_partial`: one direction | witness + invariant |
| C19, C20 | `calcMoment` in `Py` over abstract line estimator | cache coherence invariant |
| C21 | counters | invariant over histories |
| C22, C23, C24 | `genFuncArr` as fuelled loop | induction on fuel; termination by injectivity of shifts; divergence for `f = 0` for every fuel |
| C25 | `genPhiArr` as fuelled loop | measure: length grows by ≥ 98 |
| C26 | `genPhiArr` over `ℝ`, `Complex.arg` | telescoping in `Real.Angle` |
| C27 | `calcMomentAlongLine` | case analysis |
| C28 | internal cache of the summation estimator | exact sums of list slices; false when the split point is a support point (counterexample) |
| C29 | false of the code: counterexample (stale longer/shorter line, other function); `_partial` for fresh estimators | witness |
| C30 | `calcRoots` | cache reset; simulation |
| C31, C32, C33 | quadrature loop | grid algebra; C32 false of the code after a merge: counterexample and exact factor |
| C34–C38, C84 | `decideRefinement` in `Py` with recursion-depth fuel | induction on fuel; refinement tree |
| C39 | false of the code (`.imag` of a float): exact formula for the sum of advances, counterexample | tree induction |
| C40 | constants | linear arithmetic |
| C41 | Newton variant with Newton oracle | tree induction |
| C42 | `coefficientsFromMoments` over any field of characteristic 0 | Newton's identities from Mathlib (`MvPolynomial`), Vieta |
| C43 | algorithm + estimator composition | case analysis / induction |
| C44 | clustering loop | loop invariant |
| C45 | Newton grid with solver oracle | list lemmas on linspace |
| C46, C47 | `desymmetrizeDomain`, `createRootJobs` | ordered-field arithmetic |
| C48 | queue interleavings of worker outputs | C04 + permutations |
| C49 | interrupt = prefix of effects (fuse counter in the state) | monotonicity of effects |
| C50, C51 | composition of finder, algorithm, container | from C35, C36, C11, C46, C47 |
| C52 | false for the serial finder (rounds to p+1): counterexample; proved for the parallel one | |
| C53 | precision selection | case analysis |
| C54–C58 | locator state machine, fuelled resolution | invariants, well-founded induction, divergence for all fuels |
| C59, C60 | init handler over locator | case analysis over all modes |
| C61 | factories with fuel | divergence for all fuels when settings say DEFAULT |
| C62–C69 | settings file = JSON object / garbage / absent; services; write = truncate then write | refinement, frame lemmas; C65, C66, C67 false of the code: counterexamples + partials |
| C70–C73 | CLI controller over settings interface | finite tables lifted; C71 false for containers, C73 false: counterexamples |
| C74–C79 | plugin paths, loader | list/char lemmas; C76, C78 false: counterexamples |
| C80, C81 | lambda wrapper globals | induction over histories; C81 false after `unsave`: counterexample + partial |
| C82, C83 | logger registry, file name | invariants; digit injectivity |
| C85 | dyadic arithmetic | parity/divisibility |
| C86 | false of the code when an exception propagates: counterexample; `_partial`: when the call returns | case analysis |
| C87 | histories of searches on one finder | induction over the history |
| C88 | plugin loader, false of the code: counterexample; `_partial` | evaluation of the import names |
| C89–C91 | CLI controller and main; C89 false: counterexample; `_partial` | as C70 |
| C92 | process start methods; false for spawn: counterexample; `_partial` for fork | direct |
| C93 | logging system with dotted names, user handlers | invariant over histories |
| C94, C95 | objects sharing loggers; false: counterexamples; `_partial` | induction over histories |
| C96 | readers of a shared queue; false with two readers: counterexample; `_partial` for one reader | invariant over schedules; induction on the queue |
| C97 | `setRootFilter` and both kinds of search, compared with the same search into a plain container | induction on the list of calls (last registration per key), characterisation of the container's content |
| C98 | whole search by the simple argument algorithm with the summation estimator over ℝ with the true argument; zeros given by a factorisation (`Spec/Turn.lean`); false in general: counterexample; `_partial` for searches without a line of phase 0; `_total_partial` from hypotheses on the function and the settings alone, including that the search returns | turning of a product is the sum of the turnings; invariant on both caches over the bisection tree (every cached line is an exact slice of a sampled line); accuracy of each phase, then C37 |
| C99 | requests for lines; false: counterexamples; `_partial`: immediate repetition, and what is returned instead | evaluation of the cache after `storeCache` |
| C100 | as C99; false for vertical lines (also in a whole search): counterexamples; `_partial`: horizontal lines, exact condition for vertical lines | case analysis on the cache |
| C101 | the same searches with an estimator that notes its requests (`Spec/Noting.lean`; proved to change nothing else) | invariant over the bisection tree: what was evaluated is cached or belongs to a finished rectangle |
| C102 | the constructors as a whole (`Model/Build.lean`): settings files → settings service → factories → algorithm, estimator, container of a finder (`Spec/Build.lean` says what the names mean) | composition of C61 and C62; case analysis on objects; also `C98_shipped_partial`: C98 for the finder constructed without arguments on a new installation |
| C103 | `Finder.roots`, `Finder.orders`; programs = lists of operations (`Spec/Use.lean`); set iteration order a parameter | simulation: finders that hold the same up to what has been collected from a plain container's queue |
| C104 | `simpleArgumentF`: the search with rounding `fl` after every operation (`Model/Float.lean`); `Spec.Rounds`: what a rounding is; `double`: 53-bit binary | midpoints of machine numbers stay between them; induction over the bisection; with `fl = id` it is the model of the other theorems |
| C105 | same; false: zeros around which machine numbers are further apart than `10**(-p)`; `_partial`: rectangles within `2^50 * 10**(-p)` of the axes | the rounding error of a midpoint is small compared with the tolerance, so both sides still shrink; counterexample for all recursion limits from the spacing of machine numbers |
| C106 | `sumLineF`, `calcMomentF`: the summation estimator with computed sample points, phases, distances, factors and sums (`Model/FloatSum.lean`, shipped settings `SumOps.shipped`); `Spec/FloatSum.lean`: accuracy of quotient, arctan2, sums | each computed increment is a difference of arguments up to a bounded error and whole turns; invariant of the refinement loop (the increments are those of a chain of points from end to end); telescoping over the four sides; error of any summation tree; with exact operations it is the model of the other theorems |
| C107 | `genFuncArrF` (`Model/FloatSum.lean`); false: offsets lost in rounding; `_partial`: lines within `2^49 * 10**(-p)` of the axis | each move increases the coordinate, pigeonhole over (point, zero) pairs; counterexample for every bound: a zero that stays where it is |
| C108 | as C106 (`sumLineF`, `calcMomentF`, `linspaceF`, `SumOps.shipped`); zeros and zero-free factor: `Spec.Factored`, `Spec.Far` | computed sample points are increasing, stay on the side and are at most `sampleGap` apart, also after refinement; so each computed increment is the turn of `f` (no ambiguity of whole turns), and the turns around a rectangle add up to the number of zeros (`turn_around`) |
| C109 | `addRootF`, `removeRootF`, `runF` (`Model/FloatContainer.lean`): `round` of Python floats (correctly rounded decimal) and of numpy numbers (`rint(x*10^p)/10^p`) | Python: the stored value is a nearest machine number to the decimal, so it rounds to the same decimal; numpy: in range the errors stay below 1/2 unit of the last decimal; counterexample beyond |
| C110 | `Finder.calculateRootsF`, `desymmetrizeDomainF` (`Model/FloatContainer.lean`) with `simpleArgumentF` | bounds on the computed rectangle, C104, then C109 for the rounding |
| C111 | `EContainer.addRoot/run/transfer` (`Model/FilterErr.lean`): filters in the state/exception monad over the user's state; `Spec.Consults` says what asking means | induction over the filters; induction over the queue |
| C112 | `Model/Raise.lean`: all estimators and algorithms with a target function, derivative, solver and filters which may raise at any call (`Raises`); `Spec.RaisingAlgorithm` pairs them with the models without exceptions; false for `RuntimeError` with Newton's method | the run which raises is a prefix of the run which does not, closed under sequencing (`Fails`); pieces of a parallel search one by one |
| C113 | `Finder.calculateRootsParallelF`, `createRootJobsF`, `linspaceRF` (`Model/FloatParallel.lean`) with `simpleArgumentF`; scheduling as for C48 | computed points are monotone and stay below the end point; jobs one by one by C104; rounding by C109 |
| C114 | finders of `Model/Finder.lean` with an arbitrary algorithm; `Spec.Sound` states what an algorithm delivers | roots pass the queue/container unchanged up to rounding (C46, C47, delivery is a permutation); the simple variant is sound by C35 |
| C115 | the same with `associatedPolynomial` | soundness from C43, then C114 |
| C116 | the same with `simpleArgumentNewton`; `Spec.SolverFinds` states what the solver must do | the solver is only used on rectangles with exactly one zero (phases are exact), then C114 |
| C117 | the same with `newtonGrid`, filters as in C97 | run of the algorithm computed for all states, jobs by induction, C97 |
| C118 | `Args.parse`, `mainPyZEAL` (`Model/Argparse.lean`: `argparse` as configured by `cli_parser.py`); grammar and meaning in `Spec/Argparse.lean` | each option string is read in exactly the ways of the grammar (`Reads`), loop by induction in both directions, namespaces of parser and subparser merged |
| C119 | same | not of the grammar: `parse` is an error; texts come only from actions of words that ask for them (induction over clusters and over the loop) |
| C120 | same, with `Cli.main` and the settings service | C118, requests of the namespace are the last values (induction from the end), C91 |
| C121 | same, with the file system model | C118, last paths by induction from the end, `C91_plugin_files` |
| C122 | same | C118, run of `main` computed |
| C123 | the constructor with every request to the locator (`Model/Wiring.lean`): factories of the package, arbitrary factories, settings services and plugins from elsewhere, nested requests bounded by fuel; `Spec/Wiring.lean` | inversion of the run of the constructor (locator lemmas of C54-C58), frame property "the registrations are kept", composition with C60 and C77; `C123_agrees`: the model of C61/C102 is the special case of the package's own services |
| C124 | the search as in C34/C98, states of the summation estimator compared at the points of a rectangle (`Spec/Disjoint.lean`); arbitrary histories of one finder (`Spec/Use.lean`) | locality: a relational invariant `Kin` (the internal line caches agree at all heights and end points in the rectangle) kept by every line, rectangle and recursive call; frame property for searches elsewhere; C98 for later searches as corollary |
| C125 | same; false with the summation estimator: counterexample (interrupted search repeated); `_partial` for the quadrature estimator and the Newton grid | locality with the empty set of points; concrete run in the kernel |
| C126 | pieces of the parallel search run one algorithm object after another (`runJobs`); false with two processes: counterexample; `_partial` for the lowest row of jobs and for one process, from hypotheses on the function and the settings | the chunks of the job list are the columns of the grid; the first job of a column runs on a fresh estimator: `C98_search_partial`; delivery is a permutation |
| C127 | the search of C104 with the summation estimator of C106 (every operation rounded), starting from a fresh estimator and an empty or any cache (`Spec/FloatSearch.lean`: rectangles looked at by a search with right decisions); false for lines with computed phase 0 as C98: `_partial` for searches without such lines, `_total_partial`/`_finder_partial` with hypotheses on function, arguments and settings alone | grid of computed midpoints instead of the exact dyadic grid (`Proof/TreeGrid`), invariants of C98 redone with error bounds: every cached entry is a sampled dense cover of its line with small increments (`CoverF`, `SumInvF`, `SumTreeF`), every phase is near a whole number of turns, hence decisions and orders are right; termination from the bound on the depth |
| C128 | the updates of the bar recorded by the model of the search (`World.advances`), for any outcome; shared bar of a parallel search: any interleaving of the updates of the pieces (`Model/Progress.lean`); readings are the partial sums | every step adds non-negative amounts, at most the area of its rectangle, in every outcome (induction on the recursion limit, closed under bind, `try`/`finally`); the areas of the jobs add up to the whole; interleavings are permutations |
| C129 | `rich.progress.Progress` as a table of rows with ids counted from 0 (external, as documented), the calls in `calculateRoots` of both finders; false for interrupts: counterexample and `C129_stays_visible` for every interrupted search; `_partial` for the rest | case analysis on the outcome; also `C39_grid_counterexample`: every finished search with the Newton grid shows 0 percent |
| C130 | `romb` instantiated with the algorithm scipy documents (`Model/Romberg.lean`, exact arithmetic), functions `exp(G) * prod (z - c)` over ℝ, the refinement loop of C31/C32, the search tree of C98 with a generic estimator (`Proof/Reach.lean`) | weights of Romberg's table are positive and sum to one, error of the trapezoidal rule on `2^10` intervals by the second derivative of the logarithmic derivative; wrong end points cost at most `(pi n + V) / 2^12`; accuracy below half a turn per rectangle, induction over the tree, containers as in C110/C114 |
| C131 | as C130, moments of order k; `Spec/Moment.lean` | residue theorem for `z^k f'/f` on a rectangle (Cauchy's theorem of Mathlib, C108's turn count for `1/(z-c)`), Romberg error bound by the second derivative (`Proof/Moment`, `Proof/QuadMoment`), sums over sides through the cache (`Proof/PolyQuad`) |
| C132 | as C131, with `polynomialDecide` and a polynomial solver of stated accuracy | search tree of C130 with a property of the candidates per rectangle (`Proof/Reach`), perturbation bounds for zeros of polynomials of degree up to 3 given their power sums (`Proof/Perturb`), clustering as in C42 (`Proof/PolySearch`) |
| C133 | `Model/ScipyNewton.lean`: the loops of `scipy.optimize.newton` (secant, Newton, `_array_newton` with derivative), exact arithmetic over ℝ | mean value inequality on the disc: `f` is linear up to a sixth; both steps reduce the error by 2/5; induction over the iterations |
| C134 | C130 with `simpleArgumentNewton` and the solver of C133 | search tree of C130 (`Proof/Reach`), C133 on the rectangles with one zero |
| C135 | `newtonGrid` with the solver of C133, finders as in C117 | C117 and C133; a grid point within half the spacing of every zero |
| C136 | settings service, constructors (C102) and finders (C98, C130, C132, C134, C135) together, `Spec/EndToEnd.lean` | C102 shows which finder is constructed; the theorems about finders apply to it |
| C137 | `Model/ScipySecant.lean`: the vectorised secant method of scipy; `newtonGrid` without derivative | each point on its own (induction over the steps), contraction near a steady zero as in C133, C117 |
| C138 | as C98 (Newton variant) and C133 together; then the finder, the settings and the constructor as in C136 | the rectangles of the search are those of a search with right decisions (invariant of the C98 proof), on each of them the solver converges by C133; `Props/Report.lean` for the container |
| C139 | `Model/Show.lean`: the two `__str__` and `functionDataToString` as lists of characters | splitting at the first comma or bracket |
| C140 | `Model/Show.lean`: working directory, `os.path.join` and the runs of pytest | calculation, for all states of the process |
| C141 | `Model/Show.lean` on top of `Model/Logging.lean`: the factories as objects with a logger, their `setLevel` | induction over histories: the attribute `_logger` is set exactly by requests |
| C142 | `Model/Ext.lean`: the serial search once more over numbers with infinities and NaN (IEEE comparisons and arithmetic for these), both estimators with their caches, the three argument algorithms | NaN at the corner makes the first sample of the bottom edge of every rectangle at the corner undefined; invariants of both caches (a cached line from the corner starts with NaN); induction over the recursion: the phase is NaN, hence never "no roots" and never a number |
| C143 | the same | bounds not finite stay so under halving; the points of an edge are NaN or infinite, the caches cannot contain them (NaN ≠ NaN) |
| C144 | `Model/ExtContainer.lean`: rounding containers and predefined filters over numbers with infinities and NaN; equality of roots is that of floating point numbers | induction over histories: what a filter enforces holds of all roots held; counting |
| C145 | `Model/Ext.lean`, `Model/ExtNewton.lean` against the exact model (`Model/Algorithms.lean`, `Summation`, `Quadrature`, `Finder`) | simulation: a relation between the states of both models (caches compared by lookup) is kept by every step; accesses out of range would give NaN in one model and 0 in the other, so array bounds are part of the invariant |
| C146 | `Model/Sessions.lean` (processes one after the other; only files survive) over `Model/Argparse.lean`, `Model/Cli.lean`, `Model/Settings.lean`, `Model/Build.lean` | induction over the history with the invariant that the files can be loaded and hold proper values (C62, C118-C122 for one process); a history is then, for new finders, as good as one script, so that C136 applies |
| C147 | `Spec/Several.lean` (memory with finders that refer to algorithm objects and containers by number) over `Model/Finder.lean` | simulation: the finder in memory and the finder used alone stay equal (up to the state of a shared algorithm object); invariant: nobody else refers to its container and algorithm object |
| C148 | as C147; false of the code with the summation estimator (counterexample) | C124 lifted to programs: the invariant is agreement of the shared object's line caches with new ones at all points of the rectangle |
| C149 | `Spec/Mixed.lean`: programs of operations on settings (`Model/Settings.lean`), constructors (`Model/Build.lean`) and uses of finders (`Spec/Several.lean`) | constructors leave the settings files as they are (through all factories); then translation to a program with finders only, C147, and C136 for the finder alone |
| C150 | `Model/NewtonRounded.lean`: scipy's secant and Newton loops with computed operations (values, sums, products, quotients, absolute values); no overflow, underflow, NaN | relative errors give an absolute error per step (`computesNear_of`, `secantNear_of`: the secant step divides by `1 - q0/q1`, which is at least `2/(3 kappa)`); both steps reduce the error to 3/7 (5/12) plus a small part of `tol`; induction over the iterations; `kappa` bounds the loss by cancellation and stays valid because the iteration goes on only if the last step was longer than about `tol` |
| C151 | C134 with the solver of C150; phases and subdivision exact | search tree of C130; rectangles the search comes to are at least `10^-p/2` wide (`reached_width`); C150 on those with one zero |
| C152 | `arrayLoopC` (scipy's `_array_newton` with computed operations) in `newtonGrid`, finders as in C117 | a converged point stays within `0.9 tol`: the step bound of C150 holds for every further step (`arrayLoopC_converges`); C117 |
| C153 | `newtonDecideF` in `Model/NewtonFloat.lean` (the Newton variant with a rounding after every operation) with an arbitrary solver, and with `roundedSolver` of C150 | a general lemma on bisections in rounded arithmetic (a rectangle either stops or splits into halves covering it); the start points are in the disc of C150 |
| C154 | same; false: zeros beyond `9.01e14` whose coordinate is not a machine number; `_partial`: rectangles within `2^50 * 10**(-p)` of the axes | as C105; a rectangle for which the solver is started is a leaf |
| C155 | `Finder.calculateRootsF`, `calculateRootsParallelF` with `simpleArgumentNewtonF` | C153 for the computed rectangle (for each job), C109 for the container; as C110 and C113, with the zero instead of the root in the search rectangle |
| C156 | `polynomialDecideF` in `Model/PolynomialFloat.lean` (the associated-polynomial variant with a rounding after every operation); the part from the moments to the roots is an arbitrary function | the lemma on bisections of C153 with the stop condition of this variant; by induction the moments are those of the values along the sides |
| C157 | same; false: zeros of order 4 or more whose coordinate is not a machine number, where machine numbers are further apart than `10**(-p)`; `_partial`: rectangles within `2^50 * 10**(-p)` of the axes | as C154; a rectangle for which a polynomial is constructed is a leaf |

Nothing in the list is outside any executable model; where the truth depends on the
runtime (floating point in C11, C23, C34, C50; process scheduling inside `multiprocessing`
in C14, C48; OS signal delivery in C49; atomicity of file writes in C66) the logical part is modelled and the rest named in
the comments and the manifest notes.

## 4. Findings: properties that are false of the code

For these the model contains a machine-checked counterexample (a concrete run of the modelled code that violates the
English statement), and one or more `_partial` theorems saying exactly what does hold. The manifest marks them `partial`.

| id | what the code does instead | where |
|----|------|-------|
| C09 | registering a filter does not re-check the roots already held | rounding_container.py 153-160 |
| C10 | a point found with two multiplicities is stored twice | rounding_container.py 75-87 |
| C18 | `dirty()` stays true after everything was removed | estimator_cache.py 91-119 |
| C28 | an increment is counted twice when a cached line is split at a support point | sum_estimator.py 141-170 |
| C29 | the internal line caches are never reset and not keyed by the function | sum_estimator.py 65-71 |
| C32 | after a merge the result is scaled by 1-2^-s (end points overwritten) | quad_estimator.py 78-113 |
| C39 | cells with a root advance the progress bar by 0 (`.imag` of a float) | simple_holo.py 236-242 |
| C49 | an interrupted search keeps roots of another precision | rootfinder.py 112-170 |
| C52 | the serial finder rounds to p+1 decimals | rootfinder.py 128-131 |
| C55 | `tryResolve(object)` returns `None` | service_locator.py 92-121 |
| C64, C69 | precision tuples of length 0, 1, 3 and booleans are mishandled | json_helper.py 130-147 |
| C65 | the attribute is assigned before the value is validated | json_settings_service.py 95-150 |
| C66 | a crash between truncation and dump leaves an unreadable file | json_helper.py 84-85, 149-150 |
| C67 | lost update (read-modify-write without lock) | json_helper.py 68-85 |
| C71 | the container message names the old value twice | cli_controller.py 131-138 |
| C73 | changes made before the rejected one stay | cli_controller.py 50-67 |
| C74 | `.x.py` is imported relative to the parent package | plugin_loader.py 81-91, 128-132 |
| C75 | installing a file onto itself or a directory raises | installation_helper.py 20-31 |
| C76 | `uninstall ../x` leaves the plugin directory | installation_helper.py 34-45 |
| C77 | a singleton shadows a plugin | service_locator.py 92-98 |
| C78 | `_instance` is never assigned | plugin_loader.py 42-46 |
| C81, C92 | wrappers read a module global: redirected by a later wrap, unset in spawned workers | lambda_wrapper.py 15-30 |
| C86 | an exception leaves the progress bar running | rootfinder.py 155-169 |
| C88 | plugins are imported from a package that is not the installation directory | plugin_loader.py 24, 85-87 |
| C89 | `maybe` switches verbosity off; precision lists are not checked | cli_controller.py 228-267 |
| C94 | classes of one module share a logger | loggable.py 25-38 |
| C95 | estimator and cache keep their level | rootfinder.py 192-201 |
| C96 | two readers of one queue: test and get are not atomic, one may wait forever | plain_container.py 89-94 |
| C98 | a line with phase exactly 0 is evaluated again (0 is falsy) from an internal cache overwritten by a shorter line: a root can be lost silently | argument_estimator.py, estimator_cache.py, sum_estimator.py 321-344 |
| C99 | the entry for the start of a line is overwritten by a shorter line; the longer line then has the phase of the shorter one | sum_estimator.py 135-180, 321-344 |
| C100 | a vertical line can raise IndexError (`[0][0]` of an empty array; the test counts points below the end) | sum_estimator.py 223-233 |
| C101 | not an error, but waste: a line with value exactly 0 is evaluated once for each rectangle it bounds (0 is falsy) | argument_estimator.py, estimator_cache.py |
| C105 | RecursionError when the doubles around a zero are further apart than the precision (e.g. `|Re z| > 9008`, precision 12, zero not a double): the midpoint is an end point, the rectangle is halved into itself and nothing for ever | simple_holo.py 150-242 |
| C154 | The same RecursionError with SIMPLE_ARGUMENT_NEWTON, for multiple zeros and beyond `9.01e14`, where doubles are further apart than 0.1 and Newton's method is never started | simple_holo_newton.py 56-103 |
| C157 | The same RecursionError with ASSOCIATED_POLYNOMIAL, for zeros of order 4 or more | polynomial_holo.py 31-105 |
| C107 | endless loop in `genFuncArr` when a sample point is a zero and the offset `2*10**(-p)` is lost in rounding (e.g. vertical line through `Re z = 2**60`, precision 5; always if `abs(Re z) >= 2**56 * 2 * 10**(-p)`): the line never moves, and the same zero is handed to the container for ever | argument_estimator.py 118-139 |
| C109 | with 15 significant decimals or more, a root returned by `getRoots` (a numpy number) may be rounded differently by `removeRoot`/`addRoot` than the Python number it was stored from: `removeRoot` returns `False`, `addRoot` stores a second copy (e.g. 4.000064660498811 with precision 15): `C109_numpy_fails` | rounding_container.py 141-151 |
| C111 | a filter raising during the transfer loop of a parallel search loses all roots still in the queue | parallel_finder.py 161-168 |
| C112 | a `RuntimeError` (also `RecursionError`, `NotImplementedError`) raised by the target function inside Newton's method is taken for failed convergence: the search returns normally and the root is missing | simple_holo_newton.py 94, newton_grid.py 71 |
| C125 | the internal line caches of the summation estimator are never reset: repeating an interrupted search can return normally, without warning, with no roots, although the search of a new finder finds a zero | sum_estimator.py 135-180, 321-344; rootfinder.py 112-170 |
| C126 | the jobs of one worker share an estimator: lines of the job below are cut out of, or overwrite, the entries of the job above; a parallel search with two processes silently loses a zero that the serial search finds | sum_estimator.py 135-180, 321-344; parallel_finder.py 93-237 |
| C148 | an algorithm object registered as a singleton keeps the line caches of the summation estimator between finders, also for different functions: the second finder silently misses a zero | sum_estimator.py 135-180, 321-344; service_locator.py 92-94 |
| C129 | after ctrl+C the row of the progress bar is neither stopped nor hidden: its TaskID is 0, so `if progress and task:` is false; for the same reason the Newton grid never advances the bar (C39_grid_counterexample) | rootfinder.py 164-167, parallel_finder.py 154-157, newton_grid.py 77-84 |
| C144 | (C01, C04, C06 for NaN) an undefined root offered twice to a rounding container without filters is held twice, and `removeRoot` cannot remove it: NaN differs from itself. A Newton grid search without filters can report NaN once per start point | rounding_container.py 78-87, 97-112; newton_grid.py 73-76 |

## 5. Axioms of each property theorem

Generated by `tools/axioms.sh` (Lean's `collectAxioms`). No theorem depends on any other axiom.

**no axioms** (11 theorems): C57_failed_registration, C60_cli_no_plugins, C61_container_explicit, C70_requests_unique, C78_counterexample, C81_counterexample, C92_counterexample, C92_fork_partial, C93_dotted_names, C94_counterexample, C95_counterexample

**Quot.sound** (1 theorems): C61_container_diverges

**propext** (36 theorems): C141_too_early, C54_clear_unseals, C54_seal, C54_sealed, C55_counterexample, C55_factory_failure, C55_type_safe, C56_surplus_ignored, C57_resolve_keeps, C57_resolve_pure, C58_circle_never_resolves, C58_circle_recurses, C59_at_most_once, C59_history, C59_initialized_iff_returned, C60_combined, C60_sealed, C61_algorithm_explicit, C61_estimator_explicit, C61_estimator_parameters, C64_broken_file, C64_counterexample, C64_failure_keeps_file, C64_unknown_key, C64_wrong_type_partial, C65_counterexample, C65_failed_assignment_partial, C65_successful_assignment, C66_stuck_partial, C67_counterexample, C68_invalid_differs, C80_independent, C81_derivative_partial, C81_func_partial, C90_view, C91_testing

**Quot.sound, propext** (78 theorems): C03_parallel_plain, C03_parallel_rounding, C05_log_level_irrelevant, C103_reading_harmless, C103_reports, C103_stable, C104_exact, C109_exact, C111_history, C111_raises, C111_refused, C111_total, C111_transfer, C123_agrees, C123_failure, C123_other_estimator, C123_own_settings, C123_services, C123_stock, C129_parallel_partial, C129_quiet, C129_shown_partial, C129_stays_visible, C129_updates, C13_plain_container, C144_remove, C144_set, C150_exact_newton, C156_exact, C157_no_derivative, C15_zero_in_bounds, C17_cache_is_a_map, C19_caching_is_transparent, C20_lines_computed_once, C27_higher_orders, C27_not_parallel, C27_reversal, C29_partial, C43_no_derivative, C45_only_iterates, C45_results, C46_order, C55_singleton, C55_transient, C55_unregistered, C56_arguments, C57_registration_local, C60_cli, C60_gui_fails, C60_script, C61_algorithm, C61_algorithm_diverges, C61_container, C61_estimator, C61_estimator_diverges, C61_finder, C63_only_one_key, C63_order, C66_crash_points_partial, C68_ram_equals_json, C72_invalid_algorithm, C72_invalid_container, C72_invalid_estimator, C72_invalid_level, C73_single_partial, C78_calls_partial, C80_at_most_once, C80_save, C80_unsave, C82_first_use, C82_level, C82_one_handler, C86_bar_stopped_partial, C93_once, C95_finder_partial, C96_counterexample, C96_single_consumer_partial, C97_plain

**Classical.choice, Quot.sound, propext** (374 theorems): C01_rounded_no_duplicates, C02_refines_set, C04_order_irrelevant, C06_add_remove, C06_remove, C07_filters_gate, C08_last_registration_wins, C09_counterexample, C09_partial, C100_counterexample, C100_horizontal_partial, C100_search_counterexample, C100_vertical_partial, C101_estimators, C101_newton, C101_simple, C101_zero_again, C102_defaults_are_explicit, C102_new_finder, C102_new_parallel_finder, C102_no_default_algorithm, C102_persisted, C103_read_after_search, C104_conforming, C104_double, C104_inside, C104_no_zero_lost, C105_double_partial, C105_returns_partial, C105_too_fine, C105_too_fine_double, C106_clear, C106_decision, C106_exact, C106_phase, C106_shipped, C106_sides_end, C106_sum, C106_whole_turns, C107_counterexample, C107_horizontal_double_partial, C107_horizontal_partial, C107_stuck, C107_stuck_double, C107_vertical_double_partial, C107_vertical_partial, C108_count, C108_shipped, C109_added, C109_double, C109_double_close, C109_numpy_fails, C109_python, C109_python_close, C109_refused, C109_undo, C10_counterexample, C10_partial, C110_serial, C111_agreed, C112_calls, C112_interrupted_partial, C112_parallel_partial, C112_serial_partial, C112_subset_partial, C112_swallowed, C113_jobs, C113_parallel, C113_schedules, C114_parallel, C114_serial, C114_simple, C115_parallel, C115_serial, C115_sound, C116_parallel, C116_serial, C116_sound, C117_parallel, C117_serial, C118_accepted, C118_exact, C118_unambiguous, C118_understood, C119_help, C119_help_change, C119_help_plugin, C119_help_view, C119_rejected, C119_version, C11_rounding, C120_change, C120_order, C121_files, C121_settings, C122_bare, C122_view, C123_estimator, C123_inUse, C123_start, C124_finds, C124_independent, C125_counterexample, C125_quadrature_partial, C126_counterexample, C126_lowest_row_partial, C126_one_process_partial, C127_finder_partial, C127_search_partial, C127_total_partial, C128_parallel, C128_rows, C128_rows_parallel, C128_serial, C129_counterexample, C12_precision_change, C130_finder, C130_line, C130_newton, C130_parallel, C130_search, C131_line, C131_rectangle, C132_finder, C132_parallel, C132_search, C133_finds, C133_grid, C133_newton, C133_secant, C134_finder, C134_parallel, C134_search, C135_finder, C135_parallel, C136_grid, C136_grid_parallel, C136_grid_plain, C136_newton, C136_newton_parallel, C136_polynomial, C136_polynomial_parallel, C136_simple, C136_simple_parallel, C136_summation, C137_finder, C137_grid, C137_parallel, C138_end_to_end, C138_finder, C138_search, C139_comma, C139_finder, C139_none, C139_search, C140_leaves, C140_run, C141_in_time, C142_parallel_quad, C142_parallel_sum, C142_quad, C142_sum, C143_parallel_quad, C143_parallel_sum, C143_quad, C143_sum, C144_accumulate, C144_in_bounds, C144_value, C145_container, C145_container_remove, C145_filters, C145_parallel_quad, C145_parallel_quad_newton, C145_parallel_sum, C145_parallel_sum_newton, C145_quad, C145_quad_newton, C145_sum, C145_sum_newton, C146_as_script, C146_concrete, C146_determined, C146_files_kept, C146_files_plugin, C146_finder, C146_parallel_finder, C146_roots, C146_roots_newton, C146_roots_summation, C146_settings, C146_view, C147_own, C147_shared_quadrature, C148_counterexample, C148_disjoint_partial, C149_finder, C149_settings, C149_zeros, C14_shared_queue, C150_exact_secant, C150_newton, C150_secant, C151_finder, C151_parallel, C151_search, C152_exact, C152_finder, C152_grid, C152_parallel, C153_conforming, C153_exact, C153_inside, C153_no_zero_lost, C153_rounded, C153_solver, C154_returns_partial, C154_too_fine, C154_too_fine_double, C155_parallel, C155_serial, C155_solver, C156_conforming, C156_inside, C156_no_zero_lost, C157_returns_partial, C157_too_fine, C157_too_fine_double, C16_function_value_zero, C16_registration, C16_threshold_monotone, C18_counterexample, C18_partial, C21_statistics, C22_no_zero_values, C23_diverges, C23_terminates, C24_zeros_reported, C25_consistent, C25_terminates, C26_line, C26_returns_whole_turns, C26_whole_turns, C28_counterexample, C28_horizontal_partial, C28_vertical_partial, C29_counterexample, C30_clean_cache, C30_quadrature, C31_bounded, C31_merge, C31_refinement, C31_shapes_fit, C31_terminates, C32_counterexample, C32_partial, C33_no_derivative, C33_rectangle, C34_completes, C34_depth, C34_estimators, C34_no_recursion_error, C35_conforming, C35_no_zero_lost, C36_candidates_justified, C37_conforming, C37_multiplicities, C37_tolerance, C38_tiling, C39_counterexample, C39_grid_counterexample, C39_progress_partial, C40_thresholds, C41_bound, C41_completeness, C41_no_runtime_error, C41_origin, C42_coefficients, C42_evaluation, C43_exact, C43_summation, C44_clustering, C44_greedy, C45_grid, C46_domain, C47_jobs, C48_schedules, C49_counterexample, C49_parallel_partial, C49_serial_partial, C49_serial_subset, C50_serial, C51_parallel, C52_counterexample, C52_parallel, C52_serial_partial, C53_precedence, C58_terminates, C62_settings_persist, C62_shipped_defaults, C66_counterexample, C67_race_partial, C67_serial_partial, C69_counterexample, C69_errors_partial, C69_key_by_key, C69_reports, C69_total, C69_unknown_ignored, C70_change, C71_counterexample, C71_lines_partial, C71_truthful_partial, C72_case_insensitive, C72_valid_algorithm, C72_valid_container, C72_valid_estimator, C72_valid_level, C73_all_good_partial, C73_counterexample, C73_rejection_partial, C74_candidates, C74_counterexample, C74_imports_partial, C75_counterexample, C75_failure_unchanged, C75_install_missing, C75_install_partial, C75_install_touches, C75_roundtrip_partial, C75_uninstall, C75_uninstall_absent, C76_counterexample, C76_relative_partial, C77_counterexample, C77_factories_partial, C77_import_failure, C77_resolves_partial, C77_sealed, C79_aligned, C83_different, C83_length, C84_work, C85_even_grid, C85_halving, C86_counterexample, C87_accumulate, C87_accumulate_parallel, C88_counterexample, C88_no_plugin_loads_partial, C88_start_fails_partial, C89_counterexample, C89_precision_partial, C89_verbosity_partial, C91_install, C91_plugin_files, C91_plugin_keeps_settings, C91_without_plugin, C94_level_stays_partial, C96_terminates_partial, C97_parallel, C97_serial, C98_counterexample, C98_finder_partial, C98_finder_total_partial, C98_newton_partial, C98_newton_total_partial, C98_search_partial, C98_shipped_partial, C98_total_partial, C99_counterexample, C99_forgets_partial, C99_immediate_partial, C99_vertical_counterexample
