{"id": "C01", "title": "Rounding container holds only values rounded at its own precision, without duplicates", "statement": "After any sequence of addRoot, removeRoot, clear, registerFilter and unregisterFilter calls on a RoundingContainer, every root returned by getRoots is unchanged by rounding it again to the container's current precision (real and imaginary part separately), and no (root, order) pair occurs twice.", "quantifier": "all finite histories of container operations, all roots, orders, precisions (also negative) and filter predicates", "why_tests_cant": "It must hold after every history of operations, and histories are unbounded.", "anchors": ["pyzeal/utils/containers/rounding_container.py:RoundingContainer.addRoot", "pyzeal/utils/containers/rounding_container.py:RoundingContainer.roundRoot"]}
{"id": "C02", "title": "Rounding container is the set of accepted rounded roots since the last precision change", "statement": "After any history of operations, the contents of a RoundingContainer are exactly those of a mathematical set on which: an addRoot accepted by all filters inserts the root rounded to the precision given in its context, emptying the set first if that precision differs from the previous one; removeRoot deletes the root rounded to the current precision; clear empties it; filter (un)registration does not touch it.", "quantifier": "all finite histories, all roots/contexts/filters", "why_tests_cant": "It must hold after every history of operations, and histories are unbounded.", "anchors": ["pyzeal/utils/containers/rounding_container.py:RoundingContainer"]}
{"id": "C03", "title": "getRoots and getRootOrders are parallel", "statement": "For every history, getRoots() and getRootOrders() have the same length and the i-th order belongs to the i-th root, for whatever order the underlying set is iterated in; likewise for a PlainContainer as long as nothing is put into its queue between the two calls.", "quantifier": "all histories, all set iteration orders", "why_tests_cant": "It must hold after every history of operations, and histories are unbounded. Hash order differs between runs and builds.", "anchors": ["pyzeal/utils/containers/rounding_container.py:RoundingContainer.getRoots", "pyzeal/utils/containers/rounding_container.py:RoundingContainer.getRootOrders", "pyzeal/utils/containers/plain_container.py:PlainContainer.getRoots", "pyzeal/utils/containers/plain_container.py:PlainContainer.getRootOrders"]}
{"id": "C04", "title": "Adding roots under one context is independent of order and repetition", "statement": "Adding a finite collection of roots to a RoundingContainer with one and the same context yields the same set of roots for every order of arrival, and adding any of them again changes nothing.", "quantifier": "all finite lists of roots, all permutations, all start states", "why_tests_cant": "Factorially many arrival orders.", "anchors": ["pyzeal/utils/containers/rounding_container.py:RoundingContainer.addRoot"]}
{"id": "C05", "title": "The log level never changes what a rounding container holds", "statement": "Running the same history on two RoundingContainers that differ only in their log level gives the same roots, orders and removal results.", "quantifier": "all histories and all (possibly changing) log levels", "why_tests_cant": "It must hold after every history of operations, and histories are unbounded.", "anchors": ["pyzeal/utils/containers/rounding_container.py:RoundingContainer.addRoot"]}
{"id": "C06", "title": "removeRoot reports and performs exactly the removal", "statement": "RoundingContainer.removeRoot(r) returns True iff r rounded to the current precision (with its order) is held; afterwards that pair is not held and every other pair is held iff it was before. Adding an accepted, not yet held root and removing it again restores the contents.", "quantifier": "all container states and roots", "why_tests_cant": "The input space is infinite and any finite suite only samples it.", "anchors": ["pyzeal/utils/containers/rounding_container.py:RoundingContainer.removeRoot"]}
{"id": "C07", "title": "A rejected root leaves the rounding container untouched; acceptance needs all filters", "statement": "addRoot changes a RoundingContainer only if every registered filter accepts the (unrounded) root in its context. If at least one rejects it, roots and precision are exactly as before, even if the context asks for another precision.", "quantifier": "all filter sets, roots, contexts, states", "why_tests_cant": "The input space is infinite and any finite suite only samples it.", "anchors": ["pyzeal/utils/containers/rounding_container.py:RoundingContainer.addRoot"]}
{"id": "C08", "title": "Filter registration is last-writer-wins by key", "statement": "After any sequence of registerFilter/unregisterFilter, the filters in force are exactly, for every key, the predicate registered last under it and not unregistered since; unregistering an unknown key changes nothing; neither call changes the held roots.", "quantifier": "all register/unregister histories", "why_tests_cant": "It must hold after every history of operations, and histories are unbounded.", "anchors": ["pyzeal/utils/containers/rounding_container.py:RoundingContainer.registerFilter", "pyzeal/utils/containers/rounding_container.py:RoundingContainer.unregisterFilter"]}
{"id": "C09", "title": "Held roots satisfy the filters in force", "statement": "At any time every root held by a RoundingContainer was accepted by every filter currently registered (the protocol asks implementations to clear the buffer on registration).", "quantifier": "all histories", "why_tests_cant": "A violation needs a particular interleaving of additions and registrations.", "anchors": ["pyzeal/utils/containers/root_container.py:RootContainer.registerFilter", "pyzeal/utils/containers/rounding_container.py:RoundingContainer.registerFilter"]}
{"id": "C10", "title": "Roots that coincide after rounding are held once whatever their multiplicity", "statement": "RoundingContainer's documentation: additional roots which coincide with a held root after rounding are ignored and the multiplicity is not taken into account in the comparison.", "quantifier": "all histories", "why_tests_cant": "It must hold after every history of operations, and histories are unbounded.", "anchors": ["pyzeal/utils/containers/rounding_container.py:RoundingContainer"]}
{"id": "C11", "title": "Rounding moves a root by at most half a unit in the last kept digit and is idempotent and monotone", "statement": "roundRoot changes the real part by at most half of 10^-p1 and the imaginary part by at most half of 10^-p2, keeps the order, and is idempotent and monotone in each coordinate; a value that already has at most p decimals is unchanged.", "quantifier": "all complex numbers, all precisions, also negative", "why_tests_cant": "The input space is infinite and any finite suite only samples it.", "anchors": ["pyzeal/utils/containers/rounding_container.py:RoundingContainer.roundRoot"]}
{"id": "C12", "title": "A change of precision discards the earlier roots", "statement": "When an accepted root arrives with a precision different from the container's, the container afterwards holds exactly that one root, rounded to the new precision, and reports the new precision.", "quantifier": "all states, roots, contexts", "why_tests_cant": "The input space is infinite and any finite suite only samples it.", "anchors": ["pyzeal/utils/containers/rounding_container.py:RoundingContainer.addRoot"]}
{"id": "C13", "title": "Plain container returns every added root, in order, forever", "statement": "After any history of addRoot, getRoots, getRootOrders, removeRoot and (failing) clear/registerFilter/unregisterFilter calls on a PlainContainer with a private queue, getRoots returns exactly the sequence of all added roots in order of addition; removeRoot always returns False and no call ever loses or reorders a root.", "quantifier": "all histories", "why_tests_cant": "It must hold after every history of operations, and histories are unbounded.", "anchors": ["pyzeal/utils/containers/plain_container.py:PlainContainer"]}
{"id": "C14", "title": "Plain containers sharing a queue neither lose nor duplicate roots", "statement": "If several producers and several PlainContainers share one queue, then after any interleaving of puts and getRoots/getRootOrders calls every added root is in exactly one place (queue or exactly one container), with multiplicity, and each consumer sees each producer's roots in the producer's order.", "quantifier": "all numbers of producers/consumers, all interleavings", "why_tests_cant": "Exponentially many schedules.", "anchors": ["pyzeal/utils/containers/plain_container.py:PlainContainer._transferRootBuffer", "pyzeal/rootfinders/parallel_finder.py:ParallelRootFinder.createRootJobs"]}
{"id": "C15", "title": "ZERO_IN_BOUNDS accepts exactly the closed search rectangle", "statement": "The predefined ZERO_IN_BOUNDS filter accepts a root iff its real part lies in the closed interval context.reRan and its imaginary part in context.imRan.", "quantifier": "all roots and contexts", "why_tests_cant": "The input space is infinite and any finite suite only samples it.", "anchors": ["pyzeal/utils/factories/container_factory.py:ContainerFactory._zero_in_bounds"]}
{"id": "C16", "title": "FUNCTION_VALUE_ZERO accepts exactly the points where |f| < 10^-threshold", "statement": "The predefined FUNCTION_VALUE_ZERO filter with threshold t accepts a root z iff |f(z)| < 10^-t; raising t only shrinks the accepted set; re-registering a predefined filter replaces its threshold instead of adding a second filter; registerDefaultFilters leaves both predefined filters in force (and only affects rounding containers).", "quantifier": "all functions, roots, thresholds", "why_tests_cant": "The input space is infinite and any finite suite only samples it.", "anchors": ["pyzeal/utils/factories/container_factory.py:ContainerFactory._func_value_zero", "pyzeal/utils/factories/container_factory.py:ContainerFactory.registerPreDefinedFilter", "pyzeal/utils/factories/container_factory.py:ContainerFactory.registerDefaultFilters"]}
{"id": "C17", "title": "Estimator cache behaves like a map keyed by (order, start, end)", "statement": "After any history of store/remove/reset/retrieve, retrieve(order, a, b) returns the value stored last under exactly that key since the last remove of that key or reset, or None.", "quantifier": "all histories and keys", "why_tests_cant": "It must hold after every history of operations, and histories are unbounded.", "anchors": ["pyzeal/algorithms/estimators/estimator_cache.py:EstimatorCache"]}
{"id": "C18", "title": "dirty() tells whether the cache contains anything", "statement": "EstimatorCache.dirty() returns True iff some retrieve would return a value.", "quantifier": "all histories", "why_tests_cant": "It must hold after every history of operations, and histories are unbounded.", "anchors": ["pyzeal/algorithms/estimators/estimator_cache.py:EstimatorCache.dirty", "pyzeal/algorithms/estimators/estimator_cache.py:EstimatorCache.remove"]}
{"id": "C19", "title": "Caching never changes a computed moment", "statement": "If line moments are deterministic and change sign with orientation, calcMoment returns the sum of the four line moments along the counter-clockwise boundary of the rectangle, whatever was computed, cached or removed before with the same function.", "quantifier": "all orders, rectangles, previous histories of calcMoment/remove/reset", "why_tests_cant": "It must hold after every history of operations, and histories are unbounded.", "anchors": ["pyzeal/algorithms/estimators/argument_estimator.py:ArgumentEstimator.calcMoment", "pyzeal/algorithms/estimators/estimator_cache.py:EstimatorCache"]}
{"id": "C20", "title": "Line moments are computed at most once while they stay cached", "statement": "One calcMoment call on a proper rectangle evaluates exactly those edges that are not cached (or cached with value 0), each at most once; afterwards each evaluated edge is cached under both orientations with opposite values and no other cache entry has changed.", "quantifier": "all cache states and rectangles", "why_tests_cant": "It must hold after every history of operations, and histories are unbounded.", "anchors": ["pyzeal/algorithms/estimators/argument_estimator.py:ArgumentEstimator.calcMoment", "pyzeal/algorithms/estimators/estimator_cache.py:EstimatorCache.retrieve"]}
{"id": "C21", "title": "Cache statistics count every lookup exactly once in debug mode and never otherwise", "statement": "With debug logging the sum of hits and misses equals the number of retrieve calls since the last reset; without it both stay 0; a cached value equal to 0 is counted as a miss.", "quantifier": "all histories", "why_tests_cant": "It must hold after every history of operations, and histories are unbounded.", "anchors": ["pyzeal/algorithms/estimators/estimator_cache.py:EstimatorCache.retrieve", "pyzeal/algorithms/estimators/estimator_cache.py:EstimatorCache.reset"]}
{"id": "C22", "title": "Sampled function values are never zero", "statement": "Whenever genFuncArr returns, none of the returned function values is zero and each is the function value at the returned point, so that the subsequent divisions are defined.", "quantifier": "all functions, lines, sizes, precisions", "why_tests_cant": "The input space is infinite and any finite suite only samples it.", "anchors": ["pyzeal/algorithms/estimators/argument_estimator.py:ArgumentEstimator.genFuncArr"]}
{"id": "C23", "title": "Boundary sampling terminates for functions with finitely many zeros, and not for the zero function", "statement": "For a function with finitely many zeros genFuncArr returns after finitely many shifts (in exact arithmetic at most one more than number of zeros times number of samples); for the zero function it never returns.", "quantifier": "all functions with finitely many zeros, all lines and sizes", "why_tests_cant": "Termination and non-termination cannot be observed by a finite test.", "anchors": ["pyzeal/algorithms/estimators/argument_estimator.py:ArgumentEstimator.genFuncArr"]}
{"id": "C24", "title": "Zeros hit while sampling are reported", "statement": "Every sampled point at which the function vanishes is handed to the context's container with order 0, no other points are, and the line is shifted by exactly 2*10^-p perpendicular to itself each time.", "quantifier": "all functions/lines", "why_tests_cant": "The input space is infinite and any finite suite only samples it.", "anchors": ["pyzeal/algorithms/estimators/argument_estimator.py:ArgumentEstimator.genFuncArr"]}
{"id": "C25", "title": "Adaptive phase refinement keeps its arrays consistent and terminates", "statement": "genPhiArr returns arrays with one more point than increments, keeps the first and last sample point, terminates after at most about 100*numPts/98+1 refinement steps, and returns with all increments below deltaPhi unless the z-resolution or length limit was hit.", "quantifier": "all functions, lines, numPts, deltaPhi>0, maxPrecision", "why_tests_cant": "Termination for all inputs cannot be tested.", "anchors": ["pyzeal/algorithms/estimators/sum_estimator.py:SummationEstimator.genPhiArr"]}
{"id": "C26", "title": "Phase sums along a closed contour are whole turns", "statement": "If f has no zero on the boundary, the phase sampled by the summation estimator along a line not yet in its internal caches is congruent mod 2*pi to arg f(end) - arg f(start); hence the total returned by calcMoment(0, ...) around a rectangle by a fresh estimator is an exact integer multiple of 2*pi (exact arithmetic).", "quantifier": "all functions without zeros on the sampled points, all rectangles, all refinement histories", "why_tests_cant": "The input space is infinite and any finite suite only samples it.", "anchors": ["pyzeal/algorithms/estimators/sum_estimator.py:SummationEstimator.genPhiArr", "pyzeal/algorithms/estimators/sum_estimator.py:SummationEstimator.calcMomentAlongLine", "pyzeal/algorithms/estimators/argument_estimator.py:ArgumentEstimator.calcMoment"]}
{"id": "C27", "title": "Summation estimator rejects what it cannot do", "statement": "calcMomentAlongLine of the summation estimator raises ValueError for lines that are not axis parallel and NotImplementedError for order != 0 on a line not cached yet, and changes neither caches nor container in these cases; reversing the line reverses the sign of the result.", "quantifier": "all inputs", "why_tests_cant": "The input space is infinite and any finite suite only samples it.", "anchors": ["pyzeal/algorithms/estimators/sum_estimator.py:SummationEstimator.calcMomentAlongLine", "pyzeal/algorithms/estimators/sum_estimator.py:SummationEstimator.genPhiArr"]}
{"id": "C28", "title": "Splitting a cached line conserves the total phase", "statement": "When a cached line is split at a point, the phase returned for the two halves adds up to the phase of the whole line.", "quantifier": "all cached lines and split points", "why_tests_cant": "The input space is infinite and any finite suite only samples it.", "anchors": ["pyzeal/algorithms/estimators/sum_estimator.py:SummationEstimator.retrieveCachedHorizontal", "pyzeal/algorithms/estimators/sum_estimator.py:SummationEstimator.retrieveCachedVertical"]}
{"id": "C29", "title": "The summation estimator's answer does not depend on earlier searches", "statement": "The line moment returned by the summation estimator for a given function and line is the same whatever was computed earlier by that estimator.", "quantifier": "all histories of calls", "why_tests_cant": "It must hold after every history of operations, and histories are unbounded.", "anchors": ["pyzeal/algorithms/estimators/sum_estimator.py:SummationEstimator.retrieveCachedHorizontal", "pyzeal/algorithms/estimators/sum_estimator.py:SummationEstimator.storeCache", "pyzeal/algorithms/simple_holo.py:SimpleArgumentAlgorithm.calcRoots"]}
{"id": "C30", "title": "calcRoots starts from a clean cache", "statement": "calcRoots of the argument based algorithms never uses a value cached by an earlier calcRoots call in the shared estimator cache: with an estimator without hidden state its effect on the container is the same as that of a fresh algorithm instance.", "quantifier": "all previous histories, contexts", "why_tests_cant": "It must hold after every history of operations, and histories are unbounded.", "anchors": ["pyzeal/algorithms/simple_holo.py:SimpleArgumentAlgorithm.calcRoots", "pyzeal/algorithms/estimators/estimator_cache.py:EstimatorCache.reset"]}
{"id": "C31", "title": "Quadrature refinement keeps a dyadic grid and stops", "statement": "Merging the old sample points with the midpoints gives exactly the equidistant grid with twice as many intervals, shapes always fit, the loop makes at most 12 refinements and never samples more than 2^22+1 points.", "quantifier": "all lines, functions, tolerance outcomes", "why_tests_cant": "The input space is infinite and any finite suite only samples it.", "anchors": ["pyzeal/algorithms/estimators/quad_estimator.py:QuadratureEstimator.calcMomentAlongLine", "pyzeal/algorithms/estimators/quad_estimator.py:QuadratureEstimator.mergeArrays"]}
{"id": "C32", "title": "Quadrature result uses the direction of the requested line", "statement": "The value returned by the quadrature estimator is the quadrature value times the unit vector from zStart to zEnd of the requested line.", "quantifier": "all lines/functions", "why_tests_cant": "The input space is infinite and any finite suite only samples it.", "anchors": ["pyzeal/algorithms/estimators/quad_estimator.py:QuadratureEstimator.calcMomentAlongLine"]}
{"id": "C33", "title": "Quadrature estimation without derivative fails before any work", "statement": "With df=None calcMomentAlongLine of the quadrature estimator raises ValueError without evaluating f or touching container or caches.", "quantifier": "all inputs", "why_tests_cant": "The input space is infinite and any finite suite only samples it.", "anchors": ["pyzeal/algorithms/estimators/quad_estimator.py:QuadratureEstimator.calcMomentAlongLine"]}
{"id": "C34", "title": "Rectangle refinement always terminates", "statement": "For every estimator outcome the recursive refinement of a rectangle reaches depth at most ceil(log2(width/epsRe)) + ceil(log2(height/epsIm)) + small constant, so it terminates and no RecursionError occurs when that bound is below the interpreter's limit (exact arithmetic).", "quantifier": "all rectangles, precisions, estimator answers", "why_tests_cant": "Termination for all estimator behaviours cannot be tested.", "anchors": ["pyzeal/algorithms/simple_holo.py:SimpleArgumentAlgorithm.decideRefinement"]}
{"id": "C35", "title": "No zero is lost by the simple argument search", "statement": "If the estimator reports at least one turn for every sub-rectangle containing a zero, then for every zero in the search rectangle a candidate is handed to the container that differs from it by at most half of 10^-p in each coordinate.", "quantifier": "all rectangles, precisions, zero sets, conforming estimators", "why_tests_cant": "The input space is infinite and any finite suite only samples it.", "anchors": ["pyzeal/algorithms/simple_holo.py:SimpleArgumentAlgorithm.decideRefinement", "pyzeal/algorithms/simple_holo.py:SimpleArgumentAlgorithm.getRootFromRectangle"]}
{"id": "C36", "title": "Every candidate of the simple argument search is justified", "statement": "Every candidate handed to the container by the refinement is the centre of a sub-rectangle of the search rectangle, smaller than 10^-p1 x 10^-p2, for which the estimator reported at least 0.8 turns; its order is that number of turns rounded to an integer and is at least 1.", "quantifier": "all rectangles, estimators", "why_tests_cant": "The input space is infinite and any finite suite only samples it.", "anchors": ["pyzeal/algorithms/simple_holo.py:SimpleArgumentAlgorithm.decideRefinement", "pyzeal/algorithms/simple_holo.py:SimpleArgumentAlgorithm.getRootFromRectangle"]}
{"id": "C37", "title": "Multiplicities add up", "statement": "With an exact estimator the orders of all candidates sum up to the number of zeros (with multiplicity) in the search rectangle; in particular at most that many candidates are produced and none if there are no zeros.", "quantifier": "all zero multisets, rectangles, precisions", "why_tests_cant": "The input space is infinite and any finite suite only samples it.", "anchors": ["pyzeal/algorithms/simple_holo.py:SimpleArgumentAlgorithm.decideRefinement", "pyzeal/algorithms/simple_holo.py:SimpleArgumentAlgorithm.getRootFromRectangle"]}
{"id": "C38", "title": "The cells visited tile the search rectangle", "statement": "The sub-rectangles at which the refinement stops cover the search rectangle, and their areas sum to its area (so they overlap only in boundaries), whatever the estimator answers.", "quantifier": "all rectangles and estimator answers", "why_tests_cant": "The input space is infinite and any finite suite only samples it.", "anchors": ["pyzeal/algorithms/simple_holo.py:SimpleArgumentAlgorithm.decideRefinement"]}
{"id": "C39", "title": "The progress bar reaches its total", "statement": "After an uninterrupted search the sum of the reported progress advances equals the task total, i.e. the area of the search rectangle.", "quantifier": "all searches", "why_tests_cant": "The input space is infinite and any finite suite only samples it.", "anchors": ["pyzeal/algorithms/simple_holo.py:SimpleArgumentAlgorithm.decideRefinement", "pyzeal/algorithms/simple_holo.py:SimpleArgumentAlgorithm.getRootFromRectangle", "pyzeal/algorithms/newton_grid.py:NewtonGridAlgorithm.calcRoots"]}
{"id": "C40", "title": "Phase thresholds classify exact phases correctly", "statement": "For a phase of exactly n turns: phi < TWO_PI iff n <= 0; TWO_PI < phi iff n >= 1; TWO_PI < phi < FOUR_PI iff n = 1; TWO_PI < phi < MAX_PHASE iff 1 <= n <= 3; and the classification and the computed order stay the same for any phase within the stated tolerance of n turns.", "quantifier": "all integers n, all perturbations within tolerance", "why_tests_cant": "The input space is infinite and any finite suite only samples it.", "anchors": ["pyzeal/algorithms/constants.py", "pyzeal/algorithms/simple_holo.py:SimpleArgumentAlgorithm.getRootFromRectangle"]}
{"id": "C41", "title": "Newton variant: bounded, orders one, and failures lose the root silently", "statement": "The Newton variant adds only order-1 roots from Newton (at most two per rectangle), and finds everything the simple variant finds provided Newton converges for every small rectangle with exactly one zero; if Newton raises RuntimeError there, nothing is added for it and no exception escapes.", "quantifier": "all rectangles, estimators, Newton outcomes", "why_tests_cant": "The input space is infinite and any finite suite only samples it.", "anchors": ["pyzeal/algorithms/simple_holo_newton.py:SimpleArgumentNewtonAlgorithm.decideRefinement"]}
{"id": "C42", "title": "Associated polynomial coefficients are those of the polynomial with the given roots", "statement": "If the moments passed are the power sums p_1..p_n of n complex numbers, coefficientsFromMoments returns the coefficients, lowest degree first, of the monic polynomial with exactly these numbers as roots.", "quantifier": "all n, all n-tuples of complex numbers", "why_tests_cant": "The input space is infinite and any finite suite only samples it.", "anchors": ["pyzeal/algorithms/polynomial_holo.py:AssociatedPolynomialAlgorithm.coefficientsFromMoments"]}
{"id": "C43", "title": "Associated polynomial algorithm raises when its prerequisites are missing", "statement": "Without derivative it raises ValueError; with the summation estimator it raises NotImplementedError as soon as some rectangle shows between 0.8 and 3.4 turns and is not yet below the accuracy; with an exact estimator and exact polynomial roots, it adds roots whose orders sum to the number of zeros.", "quantifier": "all inputs", "why_tests_cant": "The input space is infinite and any finite suite only samples it.", "anchors": ["pyzeal/algorithms/polynomial_holo.py:AssociatedPolynomialAlgorithm.decideRefinement", "pyzeal/algorithms/estimators/sum_estimator.py:SummationEstimator.genPhiArr"]}
{"id": "C44", "title": "Root clustering conserves multiplicity and separates representatives", "statement": "getRootsWithOrders returns parallel arrays; orders are positive and sum to the number of raw roots; representatives are raw roots, pairwise not within tolerance of each other; every raw root is within tolerance of some representative.", "quantifier": "all root lists, precisions", "why_tests_cant": "The input space is infinite and any finite suite only samples it.", "anchors": ["pyzeal/algorithms/wrappers/classical_polynomial.py:ClassicalPolynomial.getRootsWithOrders"]}
{"id": "C45", "title": "Newton grid starts from an even grid covering the rectangle, adds all results with order 0", "statement": "The start points are n*n points of the closed rectangle including its corners (n >= 2); every returned iterate is handed to the container with order 0 and nothing else; if the solver raises RuntimeError nothing is added and no exception escapes.", "quantifier": "all rectangles, n, solver outcomes", "why_tests_cant": "The input space is infinite and any finite suite only samples it.", "anchors": ["pyzeal/algorithms/newton_grid.py:NewtonGridAlgorithm.calcRoots"]}
{"id": "C46", "title": "The searched rectangle contains the requested one and barely exceeds it", "statement": "desymmetrizeDomain returns a non-degenerate rectangle that contains the requested one in its interior, is independent of the order of the interval endpoints, and exceeds it by at most 4*10^-p on each side.", "quantifier": "all ranges and precisions", "why_tests_cant": "The input space is infinite and any finite suite only samples it.", "anchors": ["pyzeal/rootfinders/rootfinder.py:RootFinder.desymmetrizeDomain"]}
{"id": "C47", "title": "Parallel jobs tile the search rectangle", "statement": "createRootJobs(n) yields n*n jobs whose rectangles cover the search rectangle, have disjoint interiors, and whose areas add up to its area; all share function, derivative, precision and one queue.", "quantifier": "all n >= 1, all rectangles", "why_tests_cant": "The input space is infinite and any finite suite only samples it.", "anchors": ["pyzeal/rootfinders/parallel_finder.py:ParallelRootFinder.createRootJobs"]}
{"id": "C48", "title": "Parallel results do not depend on scheduling", "statement": "For every interleaving of the worker processes' queue insertions the container of a ParallelRootFinder ends up with the same set of roots.", "quantifier": "all schedules, worker outputs", "why_tests_cant": "Exponentially many schedules; races do not reproduce.", "anchors": ["pyzeal/rootfinders/parallel_finder.py:ParallelRootFinder.calculateRoots"]}
{"id": "C49", "title": "An interrupted search keeps only true partial results", "statement": "If the search is interrupted at any point, calculateRoots still returns normally and the roots available are a subset of those of the uninterrupted search started from the same state with the same precision.", "quantifier": "all interruption points", "why_tests_cant": "Interrupts can strike at any instant.", "anchors": ["pyzeal/rootfinders/rootfinder.py:RootFinder.calculateRoots", "pyzeal/rootfinders/parallel_finder.py:ParallelRootFinder.calculateRoots"]}
{"id": "C50", "title": "Accuracy of the reported roots (serial)", "statement": "With a conforming estimator and no filters, after RootFinder.calculateRoots(..., precision=p) every zero in the requested rectangle has a reported root within 10^-(p+1) in each coordinate, and every reported root lies in the requested rectangle enlarged by less than 5*10^-(p+1).", "quantifier": "all functions, rectangles, precisions", "why_tests_cant": "The input space is infinite and any finite suite only samples it.", "anchors": ["pyzeal/rootfinders/rootfinder.py:RootFinder.calculateRoots", "pyzeal/algorithms/simple_holo.py:SimpleArgumentAlgorithm"]}
{"id": "C51", "title": "Accuracy of the reported roots (parallel)", "statement": "The same for ParallelRootFinder with bound 0.55*10^-p, for every number of processes and every schedule.", "quantifier": "all functions, rectangles, precisions, process counts, schedules", "why_tests_cant": "The input space is infinite and any finite suite only samples it.", "anchors": ["pyzeal/rootfinders/parallel_finder.py:ParallelRootFinder.calculateRoots", "pyzeal/algorithms/simple_holo.py:SimpleArgumentAlgorithm"]}
{"id": "C52", "title": "Reported roots are rounded to the requested precision", "statement": "The roots reported by a finder with a rounding container after calculateRoots(precision=p) have at most p decimals.", "quantifier": "all searches", "why_tests_cant": "The input space is infinite and any finite suite only samples it.", "anchors": ["pyzeal/rootfinders/rootfinder.py:RootFinder.calculateRoots", "pyzeal/rootfinders/parallel_finder.py:ParallelRootFinder.calculateRoots"]}
{"id": "C53", "title": "Precision falls back from call to constructor to settings", "statement": "calculateRoots uses the precision argument if given, otherwise the constructor's, otherwise the one in the settings at construction time; the algorithm works with one more digit than that.", "quantifier": "all combinations", "why_tests_cant": "The input space is infinite and any finite suite only samples it.", "anchors": ["pyzeal/rootfinders/rootfinder.py:RootFinder.__init__", "pyzeal/rootfinders/rootfinder.py:RootFinder.calculateRoots", "pyzeal/rootfinders/parallel_finder.py:ParallelRootFinder.calculateRoots"]}
{"id": "C54", "title": "A sealed locator cannot be changed", "statement": "Once sealed, every registration and a second seal raise ValueError and leave everything that can be resolved unchanged, until clearConfigurations.", "quantifier": "all histories", "why_tests_cant": "It must hold after every history of operations, and histories are unbounded.", "anchors": ["pyzeal/utils/service_locator.py:ServiceLocator"]}
{"id": "C55", "title": "Resolution is last-registration-wins with singletons first and is type safe", "statement": "tryResolve(T) returns the instance registered last as singleton for T if any; otherwise the result of the transient factory registered last; whatever it returns is an instance of T; otherwise it raises InvalidServiceConfiguration.", "quantifier": "all registration histories", "why_tests_cant": "It must hold after every history of operations, and histories are unbounded.", "anchors": ["pyzeal/utils/service_locator.py:ServiceLocator.tryResolve"]}
{"id": "C56", "title": "Factory arguments come from kwargs, then defaults, then recursive resolution", "statement": "When a transient factory is called each of its parameters receives the keyword argument of that name if given, else its default, else the service resolved for its annotation; surplus keyword arguments are ignored.", "quantifier": "all signatures and kwargs", "why_tests_cant": "The input space is infinite and any finite suite only samples it.", "anchors": ["pyzeal/utils/service_locator.py:ServiceLocator.tryResolve"]}
{"id": "C57", "title": "Resolving and failed registrations have no side effects", "statement": "tryResolve never changes the registrations; a registration that raises leaves the locator unchanged.", "quantifier": "all states", "why_tests_cant": "It must hold after every history of operations, and histories are unbounded.", "anchors": ["pyzeal/utils/service_locator.py:ServiceLocator"]}
{"id": "C58", "title": "Resolution terminates iff dependencies are well-founded", "statement": "If the dependency relation between registered services is acyclic then resolution terminates; a service depending on itself without singleton, kwarg or default recurses forever.", "quantifier": "all configurations", "why_tests_cant": "Non-termination cannot be tested.", "anchors": ["pyzeal/utils/service_locator.py:ServiceLocator.tryResolve"]}
{"id": "C59", "title": "Initialisation happens at most once", "statement": "After a successful initPyZEALServices every further call, in any mode, changes nothing; if it raises, a later call tries again.", "quantifier": "all call sequences and modes", "why_tests_cant": "It must hold after every history of operations, and histories are unbounded.", "anchors": ["pyzeal/utils/initialization_handler.py:PyZEALInitializationHandler.initPyZEALServices"]}
{"id": "C60", "title": "The init mode determines the available services", "statement": "After successful initialisation in SCRIPT mode settings, algorithm, container and estimator services are registered and plugins loaded; in CLI mode settings, parser, controller and test handler are registered and plugins are not loaded; in modes without settings initialisation fails.", "quantifier": "all modes (also combinations)", "why_tests_cant": "The input space is infinite and any finite suite only samples it.", "anchors": ["pyzeal/utils/initialization_handler.py:PyZEALInitializationHandler.initPyZEALServices", "pyzeal/pyzeal_types/init_modes.py:InitModes"]}
{"id": "C61", "title": "Factories return the requested concrete class, or the default from the settings", "statement": "Each factory returns the class named by its type argument; for DEFAULT it returns the class named by the current settings; if the settings themselves say DEFAULT, the call never returns.", "quantifier": "all types and settings", "why_tests_cant": "Non-termination cannot be tested.", "anchors": ["pyzeal/utils/factories/algorithm_factory.py:AlgorithmFactory", "pyzeal/utils/factories/container_factory.py:ContainerFactory", "pyzeal/utils/factories/estimator_factory.py:EstimatorFactory"]}
{"id": "C62", "title": "Settings persist", "statement": "After assigning valid settings through a JSON settings service, a newly created service reports exactly the values assigned last, and shipped defaults for settings never assigned.", "quantifier": "all sequences of valid assignments through any number of services", "why_tests_cant": "It must hold after every history of operations, and histories are unbounded.", "anchors": ["pyzeal/settings/json_settings_service.py:JSONSettingsService", "pyzeal/settings/json_core_settings.py:JSONCoreSettingsService", "pyzeal/settings/json_helper.py:JSONHelper"]}
{"id": "C63", "title": "Changing one setting leaves all others alone", "statement": "createOrUpdateSetting / createOrUpdateCoreSetting change exactly the given key in the file and preserve every other key (also unknown ones).", "quantifier": "all file contents, keys, values", "why_tests_cant": "The input space is infinite and any finite suite only samples it.", "anchors": ["pyzeal/settings/json_helper.py:JSONHelper"]}
{"id": "C64", "title": "Invalid settings never reach the file", "statement": "Assigning a value of the wrong type or an unknown key raises InvalidSettingException and leaves the file unchanged; so does updating a file that is not valid JSON.", "quantifier": "all file contents, values", "why_tests_cant": "The input space is infinite and any finite suite only samples it.", "anchors": ["pyzeal/settings/json_helper.py:JSONHelper"]}
{"id": "C65", "title": "A failed assignment leaves the service unchanged", "statement": "If assigning a setting raises, the service still reports the old value.", "quantifier": "all values, file states", "why_tests_cant": "The input space is infinite and any finite suite only samples it.", "anchors": ["pyzeal/settings/json_settings_service.py:JSONSettingsService", "pyzeal/settings/json_core_settings.py:JSONCoreSettingsService"]}
{"id": "C66", "title": "A crash while saving keeps the old or the new settings", "statement": "If the process dies at any point while a setting is saved, a later start finds either the old or the new settings.", "quantifier": "all crash points", "why_tests_cant": "Crash points cannot be enumerated by unit tests.", "anchors": ["pyzeal/settings/json_helper.py:JSONHelper.createOrUpdateSetting", "pyzeal/settings/json_helper.py:JSONHelper.createOrUpdateCoreSetting"]}
{"id": "C67", "title": "Concurrent changes of different settings both persist", "statement": "If two processes change two different settings at the same time, both changes are in the file afterwards.", "quantifier": "all interleavings", "why_tests_cant": "Exponentially many interleavings.", "anchors": ["pyzeal/settings/json_helper.py:JSONHelper"]}
{"id": "C68", "title": "The in-memory settings service is observationally equal to the JSON one", "statement": "For every sequence of valid assignments and reads through one service, RAMSettingsService and JSONSettingsService (started with the same values and a valid or absent file) return the same values.", "quantifier": "all sequences", "why_tests_cant": "It must hold after every history of operations, and histories are unbounded.", "anchors": ["pyzeal/settings/ram_settings_service.py:RAMSettingsService", "pyzeal/settings/json_settings_service.py:JSONSettingsService", "pyzeal/settings/json_core_settings.py:JSONCoreSettingsService"]}
{"id": "C69", "title": "Custom settings override the shipped defaults key by key", "statement": "A new JSON settings service reports, for each setting, the value in the custom file if that key is present there and the shipped default otherwise; keys unknown to the service are ignored; an unusable value raises InvalidSettingException (or KeyError if no file provides the key).", "quantifier": "all file contents", "why_tests_cant": "The input space is infinite and any finite suite only samples it.", "anchors": ["pyzeal/settings/json_settings_service.py:JSONSettingsService.__init__", "pyzeal/settings/json_core_settings.py:JSONCoreSettingsService.__init__", "pyzeal/settings/json_helper.py:JSONHelper.loadSettingsFromFile", "pyzeal/settings/json_helper.py:JSONHelper.loadCoreSettingsFromFile"]}
{"id": "C70", "title": "The change subcommand changes exactly the requested settings", "statement": "For every combination of options the command line parser accepts, handleChangeSubcommand sets each given setting to the requested value and leaves the other settings as they were; it never exits with an error.", "quantifier": "all option combinations, all prior settings", "why_tests_cant": "The input space is infinite and any finite suite only samples it.", "anchors": ["pyzeal/cli/cli_controller.py:CLIController.handleChangeSubcommand", "pyzeal/cli/cli_parser.py:PyZEALParser.addChangeSubcommand"]}
{"id": "C71", "title": "Change messages are truthful", "statement": "For each setting that changed exactly one line is printed naming the old and the new value; nothing is printed for settings that keep their value.", "quantifier": "all option combinations, all prior settings", "why_tests_cant": "The input space is infinite and any finite suite only samples it.", "anchors": ["pyzeal/cli/cli_controller.py:CLIController"]}
{"id": "C72", "title": "An invalid setting name exits with status 2", "statement": "The change functions accept setting names case-insensitively, and for any string which is not the name of an enumeration member raise SystemExit(2) without changing that setting.", "quantifier": "all strings", "why_tests_cant": "The input space is infinite and any finite suite only samples it.", "anchors": ["pyzeal/cli/cli_controller.py:CLIController"]}
{"id": "C73", "title": "The change subcommand is all or nothing", "statement": "If one of the requested changes is rejected, none of the requested changes takes effect.", "quantifier": "all argument combinations passed to handleChangeSubcommand", "why_tests_cant": "The input space is infinite and any finite suite only samples it.", "anchors": ["pyzeal/cli/cli_controller.py:CLIController.handleChangeSubcommand"]}
{"id": "C74", "title": "Plugin candidates are exactly the non-dunder python files", "statement": "Of the files in the plugin directory exactly those are imported as plugin candidates whose name does not start with two underscores and has extension .py in any case; the module name is the file name without extension, relative to the plugin package.", "quantifier": "all file names", "why_tests_cant": "The input space is infinite and any finite suite only samples it.", "anchors": ["pyzeal/plugins/plugin_loader.py:PluginLoader.isPyFile", "pyzeal/plugins/plugin_loader.py:PluginLoader.discoverModules"]}
{"id": "C75", "title": "Install then uninstall restores the plugin directory", "statement": "Installing an existing file adds (or overwrites) the file of the same base name in the plugin directory and changes nothing else; uninstalling that base name removes it again; installing a missing file or uninstalling an absent name reports failure and changes nothing.", "quantifier": "all file systems and paths", "why_tests_cant": "The input space is infinite and any finite suite only samples it.", "anchors": ["pyzeal/plugins/installation_helper.py:InstallationHelper", "pyzeal/cli/cli_controller.py:CLIController.handlePluginSubcommand"]}
{"id": "C76", "title": "Uninstalling only touches the plugin directory", "statement": "uninstallPlugin never removes a file outside of the plugin directory.", "quantifier": "all file name arguments", "why_tests_cant": "Adversarial names are not covered by example tests.", "anchors": ["pyzeal/plugins/installation_helper.py:InstallationHelper.uninstallPlugin"]}
{"id": "C77", "title": "Plugins override earlier registrations, later plugins win", "statement": "After loading plugins on an unsealed locator, each service type provided by at least one plugin resolves through the factory of the last such plugin; other registrations are unchanged; on a sealed locator loading fails with the first plugin.", "quantifier": "all plugin lists and locator states", "why_tests_cant": "The input space is infinite and any finite suite only samples it.", "anchors": ["pyzeal/plugins/plugin_loader.py:PluginLoader.loadPlugins"]}
{"id": "C78", "title": "There is one global plugin loader", "statement": "PluginLoader.getInstance always returns the same instance.", "quantifier": "all call sequences", "why_tests_cant": "It must hold after every history of operations, and histories are unbounded.", "anchors": ["pyzeal/plugins/plugin_loader.py:PluginLoader.getInstance"]}
{"id": "C79", "title": "Plugin listing is aligned", "statement": "The printed representation of a plugin is its name, cut or padded to exactly 30 characters, followed by two blanks and '@ vMAJOR.MINOR.PATCH'.", "quantifier": "all names and versions", "why_tests_cant": "The input space is infinite and any finite suite only samples it.", "anchors": ["pyzeal/plugins/pyzeal_plugin.py:PyZEALPlugin.__str__"]}
{"id": "C80", "title": "Save mode protects a wrapped lambda", "statement": "In save mode wrapLambda/wrapDerivative succeed at most once and afterwards raise ValueError without changing the wrapped function; functions and derivatives are independent.", "quantifier": "all call histories", "why_tests_cant": "It must hold after every history of operations, and histories are unbounded.", "anchors": ["pyzeal/utils/lambda_wrapper.py:LambdaWrapper"]}
{"id": "C81", "title": "A wrapped lambda keeps evaluating the function it was made from", "statement": "The function returned by wrapLambda(g) evaluates g.", "quantifier": "all call histories", "why_tests_cant": "It must hold after every history of operations, and histories are unbounded.", "anchors": ["pyzeal/utils/lambda_wrapper.py:LambdaWrapper", "pyzeal/utils/lambda_wrapper.py:wrappedFunc"]}
{"id": "C82", "title": "Loggers get exactly one file handler", "statement": "However often loggers are initialised, each logger has at most one handler attached by PyZEAL, and its level is the one given in the last initialisation or setLevel.", "quantifier": "all histories", "why_tests_cant": "It must hold after every history of operations, and histories are unbounded.", "anchors": ["pyzeal/pyzeal_logging/log_manager.py:LogManager.initLogger", "pyzeal/pyzeal_logging/loggable.py:Loggable"]}
{"id": "C83", "title": "Log file names identify the session start", "statement": "Two sessions started at different seconds (years 1000..9999) use different log file names, and the name has fixed length.", "quantifier": "all pairs of dates", "why_tests_cant": "The input space is infinite and any finite suite only samples it.", "anchors": ["pyzeal/pyzeal_logging/log_manager.py:LogManager.buildFileName"]}
{"id": "C84", "title": "Argument search work is bounded by the number of zeros", "statement": "With an exact estimator, the number of rectangles whose phase is evaluated is at most 1 + 2*N*D, N the number of zeros with multiplicity, D the depth bound.", "quantifier": "all zero multisets, rectangles", "why_tests_cant": "The input space is infinite and any finite suite only samples it.", "anchors": ["pyzeal/algorithms/simple_holo.py:SimpleArgumentAlgorithm.decideRefinement"]}
{"id": "C85", "title": "Refining an even sample grid never splits at a support point", "statement": "For an equidistant grid with an even number of points, no dyadic subdivision point of the line other than its ends coincides with a support point, so that halving cached lines conserves the phase (with the default of 6500 points).", "quantifier": "all dyadic depths, all even sizes", "why_tests_cant": "Unbounded depth.", "anchors": ["pyzeal/algorithms/estimators/sum_estimator.py:SummationEstimator.retrieveCachedHorizontal", "pyzeal/algorithms/constants.py:DEFAULT_NUM_PTS"]}
{"id": "C86", "title": "No progress bar is left running", "statement": "When RootFinder.calculateRoots ends, by returning or by raising, the progress bar it displayed has been stopped.", "quantifier": "all searches, interruption points, exceptions", "why_tests_cant": "Exceptions and interrupts can strike at any instant.", "anchors": ["pyzeal/rootfinders/rootfinder.py:RootFinder.calculateRoots"]}
{"id": "C87", "title": "Searches with one precision accumulate", "statement": "Roots held by a finder (whose container is empty or was filled by searches with this precision) are still held after any sequence of further searches with the same precision, whether these complete, are interrupted or raise.", "quantifier": "all histories of searches, all algorithms, interrupts and schedules", "why_tests_cant": "Histories are unbounded.", "anchors": ["pyzeal/rootfinders/rootfinder.py:RootFinder.calculateRoots", "pyzeal/rootfinders/parallel_finder.py:ParallelRootFinder.calculateRoots", "pyzeal/utils/containers/rounding_container.py:RoundingContainer.addRoot"]}
{"id": "C88", "title": "An installed plugin is loaded", "statement": "After a Python file providing a plugin has been copied to the plugin directory, the next loading of plugins imports that file and registers the plugin; initialisation in SCRIPT mode succeeds.", "quantifier": "all plugin directories, all plugin files", "why_tests_cant": "The repository has no test that loads a plugin; whether an arbitrary file is found depends on the name it is imported by.", "anchors": ["pyzeal/plugins/plugin_loader.py:PluginLoader.locateAndLoadPlugins", "pyzeal/plugins/installation_helper.py:InstallationHelper.installPlugin"]}
{"id": "C89", "title": "Invalid verbosity and precision arguments exit with status 2", "statement": "As documented, changeVerbositySetting raises SystemExit(2) for every string which is not true or false (up to case), and changePrecisionSetting for everything that is not a pair of integers; valid arguments are accepted.", "quantifier": "all strings, all precision arguments, all prior settings", "why_tests_cant": "The input space is infinite and any finite suite only samples it.", "anchors": ["pyzeal/cli/cli_controller.py:CLIController.changeVerbositySetting", "pyzeal/cli/cli_controller.py:CLIController.changePrecisionSetting"]}
{"id": "C90", "title": "view -p shows the settings in force", "statement": "view -p prints, for each of the six settings, the value the settings service currently has, and changes neither settings nor files; without -p nothing is printed.", "quantifier": "all settings", "why_tests_cant": "The number of settings combinations (precision being unbounded) is infinite.", "anchors": ["pyzeal/cli/cli_controller.py:CLIController.handleViewSubcommand", "pyzeal/settings/json_settings_service.py:JSONSettingsService.__str__"]}
{"id": "C91", "title": "A subcommand touches only what it is about", "statement": "For every accepted command line: without the subcommand plugin the program succeeds, changes no files but the settings file, changes exactly the requested settings and runs the four test modules exactly if --test is given; the subcommand plugin never changes the settings, and a failed installation changes no files and exits with status 2; plugin --install p --uninstall q (either may be missing) changes the files exactly as the installation of p, relative to the current directory, and, if it succeeded, the removal of q do, and succeeds exactly if both do.", "quantifier": "all accepted command lines, all prior states", "why_tests_cant": "Option combinations and prior states are unbounded.", "anchors": ["pyzeal/cli/__main__.py:PyZEALEntry.mainPyZEAL", "pyzeal/cli/cli_controller.py:CLIController"]}
{"id": "C92", "title": "Wrapped lambdas work in worker processes", "statement": "A function returned by wrapLambda or wrapDerivative evaluates the wrapped function also when called in a worker process of multiprocessing.", "quantifier": "all functions, all histories of wrapping calls, all start methods", "why_tests_cant": "The behaviour depends on the start method of the platform; a test runs on one.", "anchors": ["pyzeal/utils/lambda_wrapper.py:LambdaWrapper", "pyzeal/utils/lambda_wrapper.py:wrappedFunc"]}
{"id": "C93", "title": "Records are logged exactly once", "statement": "As long as only PyZEAL's own loggers (whose names have no dots) are used and the user attaches no handlers, every record let through by an initialised logger is written to the session's log file exactly once.", "quantifier": "all histories of initialisations, uses and level changes", "why_tests_cant": "It must hold after every history of operations, and histories are unbounded.", "anchors": ["pyzeal/pyzeal_logging/log_manager.py:LogManager.initLogger", "pyzeal/pyzeal_logging/loggable.py:Loggable.logger"]}
{"id": "C94", "title": "The log level set on an object stays", "statement": "After setLevel on an object, its log level stays as set until setLevel is called on that object again.", "quantifier": "all histories", "why_tests_cant": "It must hold after every history of operations, and histories are unbounded.", "anchors": ["pyzeal/pyzeal_logging/loggable.py:Loggable.setLevel", "pyzeal/pyzeal_logging/loggable.py:Loggable.logger"]}
{"id": "C95", "title": "RootFinder.setLevel reaches all dependent objects", "statement": "As documented, setLevel on a root finder sets the log level of the finder and of all objects it depends on (container, algorithm, estimator, cache), and of nothing else.", "quantifier": "all finders, all prior logging states", "why_tests_cant": "It must hold in every state of the logging system.", "anchors": ["pyzeal/rootfinders/rootfinder.py:RootFinder.setLevel"]}
{"id": "C96", "title": "Reading a plain container never hangs", "statement": "getRoots and getRootOrders of a PlainContainer always return, also while other processes put roots into its queue or other containers read from it.", "quantifier": "all interleavings of the put, empty and get operations of any number of processes on the queue", "why_tests_cant": "whether a reader hangs depends on the interleaving of the emptiness test and get with other processes", "anchors": ["pyzeal/utils/containers/plain_container.py: PlainContainer._transferRootBuffer, getRoots, getRootOrders", "pyzeal/rootfinders/parallel_finder.py: calculateRoots"]}
{"id": "C97", "title": "Root filters set on a finder decide which roots are reported", "statement": "After setRootFilter calls on a finder with a new rounding container, a search reports exactly the roundings of the candidates found by the search that pass the filters: inside the searched rectangle if ZERO_IN_BOUNDS was set, |f(z)| < 10^-t if FUNCTION_VALUE_ZERO was set, last with threshold t. Filters change neither the outcome of the search nor the candidates. With a plain container setRootFilter raises NotImplementedError and changes nothing.", "quantifier": "all functions, algorithms, lists of setRootFilter calls, domains, precisions, interrupts, numbers of processes and schedules", "why_tests_cant": "it must hold for every candidate of every search under every schedule", "anchors": ["pyzeal/rootfinders/finder_interface.py:RootFinderInterface.setRootFilter", "pyzeal/utils/factories/container_factory.py:ContainerFactory.registerPreDefinedFilter", "pyzeal/utils/root_context.py:RootContext.toFilterContext"]}
{"id": "C98", "title": "A search with phase summation finds the zeros", "statement": "If f is analytic near the search rectangle, no zero lies too close to a side of a rectangle the bisection can produce, and the number of support points is fine enough for f, then the first search with the SIMPLE_ARGUMENT algorithm and the SUMMATION estimator returns with every zero of the rectangle approximated by a candidate, every candidate close to a zero, and orders that sum up to the number of zeros with multiplicity; the finder reports correspondingly.", "quantifier": "all functions f = g * prod (z - z_i) with g without zeros, all rectangles, precisions, sample sizes and refinement thresholds", "why_tests_cant": "it quantifies over all functions and rectangles, and over all orders in which cached lines are split and reused during the recursion", "anchors": ["pyzeal/algorithms/simple_holo.py:SimpleArgumentAlgorithm", "pyzeal/algorithms/estimators/sum_estimator.py:SummationEstimator", "pyzeal/algorithms/estimators/argument_estimator.py:ArgumentEstimator.calcMoment", "pyzeal/rootfinders/rootfinder.py:RootFinder.calculateRoots"]}
{"id": "C99", "title": "The same line gets the same phase again", "statement": "Asking a SummationEstimator twice for the phase along the same line, with the same function, returns the same value, whatever lines were asked in between.", "quantifier": "all functions, lines, sample sizes and histories of requests", "why_tests_cant": "the answer depends on the history of requests through the internal caches", "anchors": ["pyzeal/algorithms/estimators/sum_estimator.py:SummationEstimator.calcMomentAlongLine, retrieveCachedHorizontal, retrieveCachedVertical, storeCache"]}
{"id": "C100", "title": "Evaluating an axis parallel line never raises", "statement": "calcMomentAlongLine of a SummationEstimator returns a value for every horizontal or vertical line of a function with finitely many zeros, whatever lines were asked before.", "quantifier": "all functions with finitely many zeros, all axis parallel lines, all states of the estimator reachable by earlier requests", "why_tests_cant": "the exception depends on the history of requests", "anchors": ["pyzeal/algorithms/estimators/sum_estimator.py:SummationEstimator.calcMomentAlongLine, retrieveCachedVertical"]}
{"id": "C101", "title": "A search evaluates no line twice", "statement": "In a completed search of the simple argument algorithm or its Newton variant no line is evaluated again, in the same or the opposite direction, after it got a value different from 0; the lines evaluated are edges of evaluated rectangles, and each edge of each evaluated rectangle is evaluated in one direction or the other.", "quantifier": "all estimators which leave the algorithm's cache alone, all search rectangles, precisions, states of the algorithm object", "why_tests_cant": "depends on the interplay of caching and removal from the cache over the whole refinement tree, for all refinement histories", "anchors": ["pyzeal/algorithms/simple_holo.py:SimpleArgumentAlgorithm.decideRefinement", "pyzeal/algorithms/estimators/argument_estimator.py:ArgumentEstimator.calcMoment", "pyzeal/algorithms/estimators/estimator_cache.py:EstimatorCache"]}
{"id": "C102", "title": "A new finder searches with what its arguments and the settings name", "statement": "Constructing a RootFinder or ParallelRootFinder returns, for every combination of arguments, a finder that searches for zeros of the given function with exactly the algorithm, estimator, container, precision, number of grid points and verbosity its arguments name; arguments left open are decided by the settings in force, which are the values assigned last through any settings service, the shipped ones where nothing was assigned. Giving the values of the settings explicitly makes the same finder under any other settings. The container is empty, no settings file changes. If the settings say DEFAULT for the algorithm, a finder that leaves it open cannot be constructed.", "quantifier": "all functions, all combinations of constructor arguments, all histories of settings operations, all recursion limits of at least 4", "why_tests_cant": "the argument combinations and the histories of the persistent settings cannot be enumerated, and that two finders behave the same on all searches is not observable in finitely many runs", "anchors": ["pyzeal/rootfinders/rootfinder.py:RootFinder.__init__", "pyzeal/rootfinders/parallel_finder.py:ParallelRootFinder.__init__", "pyzeal/utils/factories/algorithm_factory.py:AlgorithmFactory.getConcreteAlgorithm", "pyzeal/utils/factories/settings_factory.py:SettingsServiceFactory.getConcreteSettings"]}
{"id": "C103", "title": "Reading results is consistent and harmless", "statement": "finder.roots and finder.orders, read in either order, have the same length and paired are exactly what the finder holds, each root as often as it is held. In any program that searches (serially or in parallel, with or without interrupts), sets filters and reads results in any order, leaving out the readings changes nothing about the other operations nor about what the finder holds and reports at the end; results read twice without a search in between are the same. So what a user reads after a search has the accuracy of C50.", "quantifier": "all finders, all containers, all set iteration orders, all programs using a finder", "why_tests_cant": "must hold after every history of operations, and for a plain container every reading moves roots from the queue to a list", "anchors": ["pyzeal/rootfinders/rootfinder.py:RootFinder.roots", "pyzeal/rootfinders/rootfinder.py:RootFinder.orders", "pyzeal/utils/containers/plain_container.py:PlainContainer._transferRootBuffer"]}
{"id": "C104", "title": "Rounding errors in the search lose no zero", "statement": "The bisection of SIMPLE_ARGUMENT is carried out in floating-point arithmetic (rectangle midpoints, sums of line phases, comparison with 0.8 * TWO_PI, size tests against 10**(-p), candidate and order). If the search completes and the phase computed for each evaluated rectangle containing a zero of the function passes the test of the code, then a candidate of order at least 1 within the computed 10**(-p) of that zero, in each coordinate, is handed to the container; every rectangle looked at lies inside the search rectangle and has machine numbers as sides, and so does every candidate of positive order, which comes from a rectangle that passed the test with sides shorter than the computed 10**(-p). With an estimator that sees the zeros, every such candidate is that close to a zero.", "quantifier": "all round-to-nearest arithmetics (among them 53-bit binary, ties to even, apart from overflow and underflow), all functions, rectangles, precisions, recursion limits and estimators", "why_tests_cant": "a zero could be lost at one particular pair of adjacent machine numbers; all rectangles and all zeros must be covered", "anchors": ["pyzeal/algorithms/simple_holo.py:SimpleArgumentAlgorithm.calcRootsRecursion", "pyzeal/algorithms/simple_holo.py:SimpleArgumentAlgorithm.decideRefinement", "pyzeal/algorithms/simple_holo.py:SimpleArgumentAlgorithm.getRootFromRectangle"]}
{"id": "C105", "title": "The refinement ends in floating-point arithmetic", "statement": "A search with SIMPLE_ARGUMENT in floating-point arithmetic whose rectangle has finitely many halvings above the requested precision does not fail with RecursionError, for every precision and every search rectangle.", "quantifier": "all functions, rectangles, precisions, estimators", "why_tests_cant": "depends on the spacing of machine numbers at each zero relative to the precision", "anchors": ["pyzeal/algorithms/simple_holo.py:SimpleArgumentAlgorithm.calcRootsRecursion", "pyzeal/algorithms/simple_holo.py:SimpleArgumentAlgorithm.decideRefinement"]}
{"id": "C106", "title": "Rounding errors do not blur the phase around a rectangle", "statement": "The phase summation estimator computes sample points, quotients, arguments, refinement factors and sums in floating-point arithmetic. With the shipped settings (6500 points, 0.01, 1e-10) in doubles, the phase it computes around a rectangle (new estimator, empty cache) differs by at most 1/4 from a whole number of turns, unless a sample point on a side is a zero; so the comparison with 0.8 * 2 * pi asks for at least one whole turn and the reported order is the number of turns. The computation ends if sampling the sides does, in particular if the function has no zeros on the lines through the sides. The order in which numpy adds up the increments does not matter.", "quantifier": "all functions, rectangles, orders of summation, quotients with relative error up to 2^-49 and arctan2 with error up to 2^-49; in general form all settings and round-to-nearest arithmetics with an explicit error bound", "why_tests_cant": "the error accumulates over up to millions of increments whose values depend on the function; tests see a few functions on one platform", "anchors": ["pyzeal/algorithms/estimators/sum_estimator.py:SummationEstimator.genPhiArr", "pyzeal/algorithms/estimators/argument_estimator.py:ArgumentEstimator.calcMoment", "pyzeal/algorithms/simple_holo.py:SimpleArgumentAlgorithm.decideRefinement", "pyzeal/algorithms/constants.py:TWO_PI"]}
{"id": "C107", "title": "Boundary sampling ends in floating-point arithmetic", "statement": "For a function with finitely many zeros, genFuncArr returns after finitely many shifts of the line also in floating-point arithmetic.", "quantifier": "all functions with finitely many zeros, lines, sizes, precisions", "why_tests_cant": "depends on the spacing of machine numbers along the line relative to the offset 2*10^-p; a test sees a few lines", "anchors": ["pyzeal/algorithms/estimators/argument_estimator.py:ArgumentEstimator.genFuncArr"]}
{"id": "C108", "title": "In doubles the order is the number of zeros inside", "statement": "With the shipped settings of the phase summation estimator (6500 points, 0.01, 1e-10), in doubles and for a new algorithm object: let f have finitely many zeros, all at distance at least d from the sides of a rectangle, d larger than the distance of neighbouring sample points, and let f turn by at most 2 radians between neighbouring sample points. Then computing the phase around the rectangle returns, reports nothing, and the phase is 2*pi times the number of zeros inside, counted with multiplicity, up to 1/4. So the comparison with 0.8 * 2 * pi is decided correctly (is there a zero inside?) and the rounded quotient by 2*pi is the number of zeros inside.", "quantifier": "all functions with a zero-free factor whose argument is Lipschitz along the sides, all zeros, rectangles with machine numbers as corners, orders of summation, quotients and arctan2 with errors up to 2^-49; in general form all settings and round-to-nearest arithmetics with an explicit error bound", "why_tests_cant": "rounding errors of sample points, phases and sums depend on function, rectangle and platform; tests see a few functions", "anchors": ["pyzeal/algorithms/estimators/sum_estimator.py:SummationEstimator.genPhiArr", "pyzeal/algorithms/estimators/argument_estimator.py:ArgumentEstimator.calcMoment", "pyzeal/algorithms/estimators/argument_estimator.py:ArgumentEstimator.genFuncArr", "pyzeal/algorithms/simple_holo.py:SimpleArgumentAlgorithm.decideRefinement"]}
{"id": "C109", "title": "Rounding containers keep their contract in floating-point arithmetic", "statement": "After any history of addRoot/removeRoot/clear/filter calls, computed with rounding errors: adding a reported root again changes nothing, removing it succeeds and removes exactly it; every reported root comes from an added root of the same order at the precision of the container and is close to it (10^-p; in range 3/4*10^-p), and in range different reported coordinates are at least 3/4*10^-p apart. For roots given as Python numbers this holds for all precisions and magnitudes; for numpy numbers, which round differently and are what getRoots returns, for 0 to 22 decimals and at most 15 significant digits (beyond that it fails).", "quantifier": "all histories of calls, roots, filters, precisions; Python numbers: all arithmetics which round to nearest; Python and numpy numbers mixed: doubles, at most 22 decimals and |x|*10^p <= 2^50", "why_tests_cant": "round() of a double is not idempotent for obvious reasons (numpy scales, rounds and divides back); whether a stored value is found again depends on the last bits of every value", "anchors": ["pyzeal/utils/containers/rounding_container.py:RoundingContainer.addRoot", "pyzeal/utils/containers/rounding_container.py:RoundingContainer.removeRoot", "pyzeal/utils/containers/rounding_container.py:RoundingContainer.roundRoot", "pyzeal/utils/containers/rounding_container.py:RoundingContainer.getRoots"]}
{"id": "C110", "title": "A serial search in doubles reports every zero, from requested rectangle to rounded root", "statement": "RootFinder.calculateRoots computed in doubles (the enlarged rectangle, all bisections, the centres, the rounding in the container), with SIMPLE_ARGUMENT, an estimator whose computed phases tell the rectangles with zeros, and a rounding container without filters: if it returns without warning then every zero in the requested rectangle has a reported root of positive order closer than 2*10^-(p+1) in each coordinate, and every newly reported root is the rounding of an exact zero (order 0) or has positive order, lies in the requested rectangle enlarged by 6*10^-(p+1), and is closer than 2*10^-(p+1) to a zero.", "quantifier": "all functions, zeros, recursion limits, interrupts, precisions up to 21 decimals, ranges whose end points are doubles with |x|*10^(p+1) <= 2^49, Python and numpy numbers", "why_tests_cant": "rounding errors accumulate over all bisections and depend on rectangle and precision", "anchors": ["pyzeal/rootfinders/rootfinder.py:RootFinder.calculateRoots", "pyzeal/rootfinders/rootfinder.py:RootFinder.desymmetrizeDomain", "pyzeal/algorithms/simple_holo.py:SimpleArgumentAlgorithm.calcRoots", "pyzeal/utils/containers/rounding_container.py:RoundingContainer.addRoot"]}
{"id": "C111", "title": "A filter that raises leaves the container as it was", "statement": "addRoot raises exactly if one of the registered filters raises, when asked about the root as given after all filters registered before it agreed; it raises this exception, asks no later filter, and leaves roots, precision and filters as they were (also when the call comes with another precision). A call that raised can be left out of any history without changing the container. If a filter raises while a parallel search transfers the roots found, the call raises, the container holds the roots transferred before, and the root at hand and all later ones are lost.", "quantifier": "all histories of calls, all filters (user code with its own state, which may raise), roots, contexts, queues", "why_tests_cant": "quantifies over all user filters and all points at which they may fail", "anchors": ["pyzeal/utils/containers/rounding_container.py:RoundingContainer.addRoot", "pyzeal/rootfinders/parallel_finder.py:ParallelRootFinder.calculateRoots"]}
{"id": "C112", "title": "An exception of a user function is neither swallowed nor does it corrupt the results", "statement": "Let the target function, its derivative or a filter raise at any point of a search. If calculateRoots returns normally, nothing was raised on the way and the result is that of the search with functions which never raise. Otherwise calculateRoots raises that exception, and every root available then is one the search with functions which never raise would have reported, or was available before; a serial search keeps what was available before and the roots found up to then, a parallel search in which a worker raised leaves the container as it was.", "quantifier": "all functions and all points at which they raise, all exceptions, algorithms, estimators, solvers, schedules, interrupts of parallel searches", "why_tests_cant": "A user function can raise at any of its evaluations, in any worker.", "anchors": ["pyzeal/rootfinders/rootfinder.py:RootFinder.calculateRoots", "pyzeal/rootfinders/parallel_finder.py:ParallelRootFinder.calculateRoots", "pyzeal/algorithms/simple_holo_newton.py:SimpleArgumentNewtonAlgorithm.decideRefinement", "pyzeal/algorithms/newton_grid.py:NewtonGridAlgorithm.calcRoots", "pyzeal/algorithms/estimators/argument_estimator.py:ArgumentEstimator.genFuncArr"]}
{"id": "C113", "title": "Parallel searches keep their guarantees in floating-point arithmetic", "statement": "With at most 2^51 processes the jobs computed in doubles still tile the computed search rectangle: no gap between neighbouring jobs, no overlap, all inside. An uninterrupted parallel search for precision p gives the same roots under any schedule; with an estimator which sees the zeros it reports every zero in the requested rectangle closer than 10^-p in each coordinate, and every reported root of positive order is that close to a zero and within 1.5 * 10^-p of the requested rectangle.", "quantifier": "all rectangles with at most 14 significant digits, precisions, numbers of processes, schedules, zeros, classes of numbers", "why_tests_cant": "Rounding errors in np.linspace and in the roots depend on the numbers; schedules are nondeterministic.", "anchors": ["pyzeal/rootfinders/parallel_finder.py:ParallelRootFinder.createRootJobs", "pyzeal/rootfinders/parallel_finder.py:ParallelRootFinder.calculateRoots", "pyzeal/rootfinders/rootfinder.py:RootFinder.desymmetrizeDomain", "pyzeal/utils/containers/rounding_container.py:RoundingContainer.roundRoot"]}
{"id": "C114", "title": "A finder passes the soundness of its algorithm on to its results, whatever the algorithm", "statement": "Let an algorithm (also one provided by a plugin) be sound near the requested rectangle with tolerance eps: a completed search in a rectangle only adds roots, every zero in the rectangle has a new root of positive order within eps, every new root is an exact zero with order 0 or has positive order and is within eps of a zero. Then a serial search for precision p which returns without warning reports a root of positive order within eps + 0.5 * 10^-(p+1) of every zero in the requested rectangle, and every new reported root is the rounding of an exact zero (order 0) or has positive order and is that close to a zero at most 4 * 10^-(p+1) outside the requested rectangle; a parallel search with any number of processes and any schedule likewise, with eps + 0.5 * 10^-p. The simple argument algorithm with a conforming estimator is sound with eps = 0.5 * 10^-(p+1).", "quantifier": "all algorithms, functions, rectangles, precisions, numbers of processes, schedules, previous contents of the container", "why_tests_cant": "Algorithms are a plugin point, and zeros may lie anywhere relative to job boundaries.", "anchors": ["pyzeal/rootfinders/rootfinder.py:RootFinder.calculateRoots", "pyzeal/rootfinders/parallel_finder.py:ParallelRootFinder.calculateRoots", "pyzeal/algorithms/finder_algorithm.py:FinderAlgorithm"]}
{"id": "C115", "title": "Accuracy of finders with the associated polynomial algorithm", "statement": "With a conforming estimator and exact polynomial roots, a serial search for precision p which returns without warning reports, for every zero in the requested rectangle, a root of positive order within 1.5 * 10^-(p+1), and every new reported root is the rounding of an exact zero (order 0) or has positive order and is that close to a zero at most 4 * 10^-(p+1) outside the requested rectangle; a parallel search likewise within 10^-(p+1) + 0.5 * 10^-p.", "quantifier": "all functions, lists of zeros with multiplicity, rectangles, precisions, numbers of processes, schedules, previous contents", "why_tests_cant": "Zeros may be anywhere, in any clusters, and on any job boundary.", "anchors": ["pyzeal/algorithms/polynomial_holo.py:AssociatedPolynomialAlgorithm.decideRefinement", "pyzeal/rootfinders/rootfinder.py:RootFinder.calculateRoots", "pyzeal/rootfinders/parallel_finder.py:ParallelRootFinder.calculateRoots"]}
{"id": "C116", "title": "Accuracy of finders with the Newton variant", "statement": "With a conforming estimator and a solver which converges (to within 10^-(p+1)) on every rectangle with sides below 0.1 and exactly one zero, a serial search for precision p which returns without warning reports, for every zero in the requested rectangle, a root of positive order within 1.5 * 10^-(p+1), and every new reported root is the rounding of an exact zero (order 0) or has positive order and is that close to a zero at most 4 * 10^-(p+1) outside the requested rectangle; a parallel search likewise within 10^-(p+1) + 0.5 * 10^-p.", "quantifier": "all functions, zeros, solvers, rectangles, precisions, numbers of processes, schedules, previous contents", "why_tests_cant": "Which rectangles are handed to the solver depends on the positions of all zeros.", "anchors": ["pyzeal/algorithms/simple_holo_newton.py:SimpleArgumentNewtonAlgorithm.decideRefinement", "pyzeal/rootfinders/rootfinder.py:RootFinder.calculateRoots", "pyzeal/rootfinders/parallel_finder.py:ParallelRootFinder.calculateRoots"]}
{"id": "C117", "title": "Finders with the Newton grid algorithm report exactly the filtered results of the solver", "statement": "A finder with the Newton grid algorithm (n >= 2 sample points per side) and a new rounding container, after any root filters were set: an uninterrupted serial search returns without warning and reports exactly the roundings, with order 0, of those results of one solver call, started from the n*n equally spaced points of the searched rectangle, which satisfy the filters; nothing if the solver raises RuntimeError. A parallel search calls the solver for each of cpus*cpus rectangles tiling the searched rectangle and reports exactly the filtered results of these calls; a call which raises RuntimeError contributes nothing and does not disturb the others.", "quantifier": "all solvers, functions, n, rectangles, precisions, sequences of filter calls, numbers of processes, schedules", "why_tests_cant": "quantifies over all solvers and all schedules", "anchors": ["pyzeal/algorithms/newton_grid.py:NewtonGridAlgorithm.calcRoots", "pyzeal/rootfinders/rootfinder.py:RootFinder.calculateRoots", "pyzeal/rootfinders/parallel_finder.py:ParallelRootFinder.calculateRoots"]}
{"id": "C118", "title": "The command lines PyZEAL accepts, and what they mean", "statement": "The program accepts exactly the command lines of a grammar: any number of -t/--test (long options may be shortened to a prefix of at least one letter, short options may be clustered), then at most one of the subcommands view, change, plugin with its own options; the options of change with choices take one of the listed values, apart or after '=', --precision takes two integers (each an argument that cannot be mistaken for an option), --install and --uninstall take a path. A command line has only one meaning: its options act one after the other, each giving its attribute its value; what is accepted always satisfies what the rest of the program expects (choices in their lists, precision a pair).", "quantifier": "all command lines (lists of strings of any length), all int-readers and digit classes", "why_tests_cant": "quantifies over all lists of strings; tests run a handful of fixed command lines", "anchors": ["pyzeal/cli/cli_parser.py:PyZEALParser", "pyzeal/cli/__main__.py:PyZEALEntry.mainPyZEAL"]}
{"id": "C119", "title": "A command line that is not understood has no effect", "statement": "A command line outside the grammar ends the program before anything else happens: with status 2, or, only if one of the words asks for help or the version, with status 0 after printing one text. Settings, files and plugins are unchanged and no tests run, even if the command line also contains valid options. -h/--help (or a prefix) after valid options prints the help of the parser or subcommand it is given to, --version the version, whatever follows.", "quantifier": "all command lines, all states", "why_tests_cant": "quantifies over all malformed command lines", "anchors": ["pyzeal/cli/cli_parser.py:PyZEALParser.parseArgs", "pyzeal/cli/__main__.py:PyZEALEntry.mainPyZEAL"]}
{"id": "C120", "title": "`pyzeal change` from the strings typed to the settings stored", "statement": "Every `change` command line of the grammar succeeds; each setting given values on it ends up with the last of them, every other setting keeps its value, exactly this is what a new service loads from the files, no other files are changed, and the tests run exactly if -t/--test was given. The order of options for different settings, abbreviations and the form of arguments do not matter.", "quantifier": "all command lines of the grammar, all consistent states of settings and files", "why_tests_cant": "quantifies over all command lines and all states", "anchors": ["pyzeal/cli/__main__.py:PyZEALEntry.mainPyZEAL", "pyzeal/cli/cli_parser.py:PyZEALParser", "pyzeal/cli/cli_controller.py:CLIController.handleChangeSubcommand"]}
{"id": "C121", "title": "`pyzeal plugin` from the strings typed to the files", "statement": "A `plugin` command line without -l and -m: the last path given with --install, relative to the current directory, is installed, then, if this succeeded, the last one given with --uninstall is removed, whatever the order of the options; the command succeeds exactly if both did; it exits with status 2 if the file or the plugin does not exist. No plugin command changes the settings.", "quantifier": "all plugin command lines, all file systems", "why_tests_cant": "quantifies over all command lines and file systems", "anchors": ["pyzeal/cli/__main__.py:PyZEALEntry.mainPyZEAL", "pyzeal/cli/cli_controller.py:CLIController.handlePluginSubcommand"]}
{"id": "C122", "title": "`pyzeal` and `pyzeal view` only show", "statement": "Without a subcommand the program prints the hint exactly if no words are given, runs the tests exactly if -t/--test is given, and does nothing else; `view` prints the settings in force exactly if -p/--print is given, a hint exactly if it is the only word, and changes nothing.", "quantifier": "all command lines without subcommand or with view, all states with valid settings", "why_tests_cant": "quantifies over all command lines and states", "anchors": ["pyzeal/cli/__main__.py:PyZEALEntry.mainPyZEAL", "pyzeal/cli/cli_controller.py:CLIController.handleViewSubcommand"]}
{"id": "C123", "title": "A new finder uses the services in force", "statement": "Whatever services are registered: if the constructor of a finder returns, its algorithm and container are the objects the service locator delivers for these services with the constructor's arguments (the registered instance, else what the registered factory returned), of the required types; precision and verbosity not given come from the settings service delivered by the locator; an algorithm of the package based on the argument principle has the estimator delivered by the locator. Registrations are not changed. With the package's own services for algorithms, estimators and containers and any settings service with attributes d, every choice of arguments gives exactly the finder the arguments name, d deciding about those left open. A failing or mistyped algorithm service makes the constructor fail. After starting a script in a fresh process each part is made by the last plugin for that service, by the package's factory if there is none.", "quantifier": "all registrations, factories and settings services (also from plugins or the user), all constructor arguments, all states", "why_tests_cant": "quantifies over all factories, settings services, plugin directories and histories", "anchors": ["pyzeal/rootfinders/rootfinder.py:RootFinder.__init__", "pyzeal/utils/service_locator.py:ServiceLocator.tryResolve", "pyzeal/utils/factories/algorithm_factory.py:AlgorithmFactory.getConcreteAlgorithm", "pyzeal/algorithms/simple_holo.py:SimpleArgumentAlgorithm.__init__", "pyzeal/utils/initialization_handler.py:PyZEALInitializationHandler.initPyZEALServices"]}
{"id": "C124", "title": "Searches of disjoint rectangles with one finder do not influence each other", "statement": "Take a new RootFinder whose algorithm is one of the package's (with either estimator) and use it in any way: serial searches, interrupted or not, parallel searches, filters, reading results. If no serial search looked at a point of the (slightly enlarged) rectangle of the next search, then the next search has the outcome, the warning, the progress and the resulting container it would have with new caches. In particular the guarantee of C98 holds for every such search, not only for the first one of a finder.", "quantifier": "all functions, algorithms of the package, histories of operations on one finder, interrupts, rectangles and precisions", "why_tests_cant": "quantifies over all histories of searches with shared internal caches", "anchors": ["pyzeal/algorithms/estimators/sum_estimator.py:SummationEstimator.storeCache", "pyzeal/algorithms/estimators/argument_estimator.py:ArgumentEstimator.calcMoment", "pyzeal/rootfinders/rootfinder.py:RootFinder.calculateRoots"]}
{"id": "C125", "title": "A search can be repeated", "statement": "A search does the same as with a new finder, whatever the finder was used for before; in particular, after an interrupted search the same search can be started again and finds the zeros it would have found. (False of the code with the summation estimator, see the findings; true with the quadrature estimator and the Newton grid.)", "quantifier": "all functions, histories of one finder, interrupts", "why_tests_cant": "quantifies over all histories and interrupt points", "anchors": ["pyzeal/algorithms/estimators/sum_estimator.py:SummationEstimator.storeCache", "pyzeal/algorithms/estimators/argument_estimator.py:ArgumentEstimator.calcMoment", "pyzeal/rootfinders/rootfinder.py:RootFinder.calculateRoots"]}
{"id": "C126", "title": "A parallel search with the summation estimator finds the zeros", "statement": "A parallel search of a new finder with the summation estimator, with any number of processes and any schedule, finds the zeros the serial search of the same rectangle finds. (False of the code with at least two processes, see the findings; true of the zeros in the lowest row of jobs, hence of all zeros with one process.)", "quantifier": "all functions, numbers of processes and schedules", "why_tests_cant": "quantifies over all functions and schedules", "anchors": ["pyzeal/rootfinders/parallel_finder.py:ParallelRootFinder.calculateRoots", "pyzeal/rootfinders/parallel_finder.py:ParallelRootFinder.createRootJobs", "pyzeal/algorithms/estimators/sum_estimator.py:SummationEstimator.storeCache"]}
{"id": "C127", "title": "Searches with the summation estimator in floating-point arithmetic find the zeros with their orders", "statement": "The first search of a new finder with SIMPLE_ARGUMENT and SUMMATION, all of it computed in Python floats with the shipped settings (6500 points, 0.01, 1e-10): if the wanted accuracy is above the resolution of the floats, no zero is too close to a side of a rectangle the search comes to look at, and f turns little between neighbouring sample points, then calculateRoots returns without warning; every zero in the requested rectangle is reported within two units of the last digit searched for, everything reported is within this distance of a zero; the orders of the candidates sum up to the number of zeros with multiplicity and the number of rectangles looked at is at most 1 + 2 * zeros * depth.", "quantifier": "all functions with finitely many zeros and a zero-free factor of bounded turning, all rectangles and precisions, all orders of summation, quotients and arctan2 with errors up to 2^-49; in general form all round-to-nearest arithmetics and settings", "why_tests_cant": "rounding errors of sample points, phases, sums, midpoints and accuracies interact with cached lines that are cut and reused along the recursion; tests see a few functions", "anchors": ["pyzeal/algorithms/simple_holo.py:SimpleArgumentAlgorithm", "pyzeal/algorithms/estimators/sum_estimator.py:SummationEstimator", "pyzeal/algorithms/estimators/argument_estimator.py:ArgumentEstimator.calcMoment", "pyzeal/rootfinders/rootfinder.py:RootFinder.calculateRoots", "pyzeal/utils/containers/rounding_container.py:RoundingContainer.addRoot"]}
{"id": "C128", "title": "The progress bar never goes back and never exceeds its total", "statement": "During calculateRoots with verbose=True the amount shown by the progress bar never decreases and never exceeds the total of the bar (the area of the rectangle searched), at no moment of the search, however the search ends (normally, by ctrl+C, by an exception), for serial and for parallel searches.", "quantifier": "all functions, rectangles, algorithms, estimators, external solvers, states of the finder, interruption points, numbers of processes and interleavings of the updates of the child processes", "why_tests_cant": "it must hold at every moment of every search, for every interleaving of the updates of several processes and every interruption point", "anchors": ["pyzeal/algorithms/simple_holo.py:SimpleArgumentAlgorithm.decideRefinement", "pyzeal/algorithms/simple_holo_newton.py:SimpleArgumentNewtonAlgorithm.decideRefinement", "pyzeal/algorithms/polynomial_holo.py:AssociatedPolynomialAlgorithm.decideRefinement", "pyzeal/algorithms/newton_grid.py:NewtonGridAlgorithm.calcRoots", "pyzeal/rootfinders/parallel_finder.py:ParallelRootFinder.createRootJobs"]}
{"id": "C129", "title": "The final state of the progress bar tells how the search ended", "statement": "When calculateRoots (serial or parallel) with verbose=True ends, the bar has one row whose total is the area of the rectangle searched and whose amount is the sum of the updates; the row says 'search finished!' if and only if the search ran to its end; after ctrl+C the row is stopped and hidden; the bar is not displayed any longer when the call returns. Without verbose there is no bar. (The part about ctrl+C is false of the code: the id of the only task is 0, and `if progress and task:` treats it as absent.)", "quantifier": "all finders, algorithms, functions, rectangles, interruption points and schedules", "why_tests_cant": "interrupts can strike at any moment, and the display is not observable in unit tests, which switch it off", "anchors": ["pyzeal/rootfinders/rootfinder.py:RootFinder.calculateRoots", "pyzeal/rootfinders/parallel_finder.py:ParallelRootFinder.calculateRoots", "pyzeal/utils/finder_progress.py:FinderProgressBar.addTask"]}
{"id": "C130", "title": "A search with numerical quadrature finds the zeros", "statement": "Let f be analytic on the rectangle searched, with its derivative given, and let the zeros keep some distance from the sides of the rectangles the search comes to look at (in proportion to the sides; a proportion of 1:75 is enough for a single zero of a polynomial). Then calculateRoots with the simple argument algorithm and QUADRATURE_ESTIMATOR returns without warning, every zero in the requested rectangle is reported within the precision, every reported root of positive order is that close to a zero, the orders sum up to the number of zeros; the same for parallel searches with any number of processes and any schedule, and for the Newton variant as far as the external secant method converges. Along every side the phase computed is the change of a continuous choice of the argument of f, up to an explicit error.", "quantifier": "all analytic functions with any number of zeros (with multiplicity), rectangles, precisions, states of the finder, numbers of processes, schedules", "why_tests_cant": "the accuracy of Romberg integration and of the refinement loop (whose end points are wrong after two refinements, C32) must be good enough on every side of every rectangle of every search", "anchors": ["pyzeal/algorithms/estimators/quad_estimator.py:QuadratureEstimator.calcMomentAlongLine", "pyzeal/algorithms/simple_holo.py:SimpleArgumentAlgorithm.decideRefinement", "pyzeal/rootfinders/rootfinder.py:RootFinder.calculateRoots", "pyzeal/rootfinders/parallel_finder.py:ParallelRootFinder.calculateRoots"]}
{"id": "C131", "title": "Moments computed by numerical quadrature are power sums of the zeros", "statement": "Let f be analytic, with its derivative given, on a rectangle whose sides keep a distance d from the zeros. The moment of order k that QUADRATURE_ESTIMATOR computes along a side is -i times the integral of z^k f'(z)/f(z), and the moment round the rectangle is 2*pi times the sum of the k-th powers of the zeros inside (with multiplicity), up to an explicit error bound in terms of d, the length of the sides, the number of zeros and the derivatives of the zero-free factor.", "quantifier": "all analytic functions, orders k, rectangles and lines parallel to an axis whose error bound is below 1/1250, all states of the estimator", "why_tests_cant": "an error bound for all analytic functions; a test compares single functions", "anchors": ["pyzeal/algorithms/estimators/quad_estimator.py:QuadratureEstimator.calcMomentAlongLine", "pyzeal/algorithms/estimators/argument_estimator.py:ArgumentEstimator.calcMoment"]}
{"id": "C132", "title": "A search with associated polynomials and numerical quadrature finds the zeros", "statement": "Let f be analytic on the rectangle searched, with its derivative given, let the zeros keep some distance from the sides of the rectangles the search comes to look at, so that the moments have relative error at most eta, and let numpy's polynomial solver be accurate up to rho. Then calculateRoots with the associated polynomial algorithm and QUADRATURE_ESTIMATOR returns without warning; every zero in the requested rectangle is reported up to 1.5*10^-(p+1)+delta+rho (in parallel searches 0.6*10^-p+delta+rho), every reported root has positive order and is that close to a zero, and the orders of the candidates sum up to the number of zeros, where 44*eta < (delta/R)^n for associated polynomials of degree n.", "quantifier": "all analytic functions with any number of zeros (with multiplicity), rectangles, precisions, solvers, states of the finder, numbers of processes, schedules", "why_tests_cant": "errors of the moments are amplified when zeros are close together (the n-th root of the error); the bound must hold for all positions of the zeros", "anchors": ["pyzeal/algorithms/polynomial_holo.py:AssociatedPolynomialAlgorithm.decideRefinement", "pyzeal/algorithms/estimators/quad_estimator.py:QuadratureEstimator.calcMomentAlongLine", "pyzeal/rootfinders/rootfinder.py:RootFinder.calculateRoots", "pyzeal/rootfinders/parallel_finder.py:ParallelRootFinder.calculateRoots"]}
{"id": "C133", "title": "scipy's Newton solver finds simple zeros from start points near them", "statement": "Let c be a zero of f and let the derivative of f on the disc of radius r around c differ from its (non-zero) value at c by at most a sixth. Then scipy.optimize.newton as called by the Newton variant (secant method from two different points of the disc, Newton's method from one, at most 50 iterations, tolerance tol with r <= 10^19 tol) does not raise RuntimeError and returns a point at distance at most 2/3*tol from c. In the vectorised call of the grid algorithm all start points make the same number (at most 50) of Newton steps independently of each other; if one start point lies in such a disc the call does not raise, and every start point in such a disc ends within 2/3*1.48e-8 of the zero of its disc.", "quantifier": "all functions differentiable on the disc, zeros, radii, tolerances, start points, grids with any other points", "why_tests_cant": "convergence must hold for all functions and start points, and for the secant method depends on both points", "anchors": ["pyzeal/algorithms/simple_holo_newton.py:SimpleArgumentNewtonAlgorithm.decideRefinement", "pyzeal/algorithms/newton_grid.py:NewtonGridAlgorithm.calcRoots"]}
{"id": "C134", "title": "A search with the Newton variant, numerical quadrature and scipy's solver finds the zeros", "statement": "Let f be analytic on the rectangle searched, with its derivative given, let the zeros keep off the sides of the rectangles the search comes to look at (as in C130), and let the derivative be steady (C133) near every zero which the search isolates in a rectangle with sides below 0.1. Then calculateRoots with the Newton variant and QUADRATURE_ESTIMATOR, precision at most 18, returns without warning; every zero in the requested rectangle is reported with positive order up to 1.5*10^-(p+1) (in parallel searches 0.6*10^-p), and every root that is new has positive order and is that close to a zero.", "quantifier": "all analytic functions with any number of zeros, rectangles, precisions up to 18, states of the finder, numbers of processes, schedules", "why_tests_cant": "combines the errors of quadrature, subdivision, iteration and rounding for all positions of the zeros", "anchors": ["pyzeal/algorithms/simple_holo_newton.py:SimpleArgumentNewtonAlgorithm.decideRefinement", "pyzeal/algorithms/estimators/quad_estimator.py:QuadratureEstimator.calcMomentAlongLine", "pyzeal/rootfinders/rootfinder.py:RootFinder.calculateRoots", "pyzeal/rootfinders/parallel_finder.py:ParallelRootFinder.calculateRoots"]}
{"id": "C135", "title": "A Newton grid search reports every zero whose neighbourhood contains a grid point", "statement": "A finder with the Newton grid algorithm, a derivative, a new rounding container and filters set: an uninterrupted search returns without warning. Every zero in the searched rectangle which has a disc on which the derivative is steady (C133), with radius at least half the spacing of the grid (sum over both directions), is reported with order 0 up to 1e-8 plus rounding, provided the filters let points this close to the zero pass. Every reported root has order 0 and is the rounding of what at most 50 Newton steps make of a point of the searched rectangle, and this point passes the filters.", "quantifier": "all functions and derivatives, zeros, rectangles, grid sizes, filters, precisions, numbers of processes, schedules", "why_tests_cant": "depends on the position of each zero relative to the grid; other start points may diverge or meet a vanishing derivative at the same time", "anchors": ["pyzeal/algorithms/newton_grid.py:NewtonGridAlgorithm.calcRoots", "pyzeal/rootfinders/rootfinder.py:RootFinder.calculateRoots", "pyzeal/rootfinders/parallel_finder.py:ParallelRootFinder.calculateRoots"]}
{"id": "C136", "title": "From the settings and the constructor to the roots", "statement": "On a new installation, after any proper use of the settings, RootFinder(f, df, ...) and ParallelRootFinder(f, df, ...) construct a finder and leave the settings as they are; what is not given as an argument comes from the settings. If these (or the arguments) say rounding container and name an algorithm, the first uninterrupted calculateRoots of the finder returns without warning and reports what the algorithm promises: every zero in the requested rectangle up to the requested precision and nothing else for the simple argument algorithm (quadrature estimator: conditions of C130; summation estimator, which is the shipped default and needs no derivative: conditions of C98, with the package's own sampling parameters), the Newton variant (C134), associated polynomials (C132); every zero near a grid point for the Newton grid (C135, without derivative C137), with 50 grid points per direction unless a number is given (divided by the number of processes, plus one, in the parallel finder).", "quantifier": "all settings histories, arguments, functions and derivatives meeting the conditions, rectangles, precisions, filters, numbers of processes, schedules", "why_tests_cant": "the settings history, the arguments and the function are unbounded; a wrong default, a dropped argument or a wrong number of points is only seen through the roots reported", "anchors": ["pyzeal/rootfinders/rootfinder.py:RootFinder.__init__", "pyzeal/rootfinders/rootfinder.py:RootFinder.calculateRoots", "pyzeal/rootfinders/parallel_finder.py:ParallelRootFinder", "pyzeal/settings/json_settings_service.py:JSONSettingsService", "pyzeal/utils/factories/algorithm_factory.py:AlgorithmFactory", "pyzeal/utils/factories/estimator_factory.py:EstimatorFactory"]}
{"id": "C137", "title": "A Newton grid search without derivative reports every zero whose neighbourhood contains a grid point", "statement": "A finder with the Newton grid algorithm, without derivative, with a new rounding container and filters set: an uninterrupted search returns without warning. Every zero in the searched rectangle which has a disc on which the derivative is steady (C133), with radius at least half the spacing of the grid (sum over both directions) plus the distance of the second start point scipy uses, is reported with order 0 up to 1e-8 plus rounding, provided the filters let points this close to the zero pass. Every reported root has order 0, is the rounding of a point which passes the filters, and the secant method reaches this point from a point of the searched rectangle in at most 50 steps.", "quantifier": "all functions, zeros, rectangles, grid sizes, filters, precisions, numbers of processes, schedules", "why_tests_cant": "depends on the position of each zero relative to the grid; the points are iterated together, and other start points may diverge or meet equal values at the same time", "anchors": ["pyzeal/algorithms/newton_grid.py:NewtonGridAlgorithm.calcRoots", "pyzeal/rootfinders/rootfinder.py:RootFinder.calculateRoots", "pyzeal/rootfinders/parallel_finder.py:ParallelRootFinder.calculateRoots"]}
{"id": "C138", "title": "With the summation estimator, the Newton variant with scipy's solver finds the zeros, with or without derivative", "statement": "After any proper use of the settings on a new installation, RootFinder(f, ...) with (by argument or setting) the Newton variant, the summation estimator and the rounding container: its first search returns without warning, every zero in the requested rectangle has a reported root of positive order closer than 1.5 * 10^-(p+1) in each coordinate, and every reported root has positive order and is that close to a zero at most 4 * 10^-(p+1) outside the requested rectangle. Hypotheses: those of C98 on the function, the sampling and the zeros; near every zero which the search isolates in a rectangle with sides below 0.1 the derivative is steady (C133). It does not matter whether the derivative is given to the finder.", "quantifier": "all functions with these hypotheses, rectangles, precisions, histories of the settings, constructor arguments", "why_tests_cant": "combines the adaptive sampling of every line, the caches of the estimator, the subdivision and the convergence of an iterative solver from start points which depend on the subdivision", "anchors": ["pyzeal/algorithms/simple_holo_newton.py:SimpleArgumentNewtonAlgorithm.decideRefinement", "pyzeal/algorithms/estimators/sum_estimator.py:SummationEstimator.calcMomentAlongLine", "pyzeal/rootfinders/rootfinder.py:RootFinder.calculateRoots"]}
{"id": "C139", "title": "Descriptions of finders and searches identify them", "statement": "str(finder) starts with the class of the finder and shows the __name__ of the function ('<unnamed>' if it has none) and of the derivative ('None' if there is none); for functions whose names have no comma two finders have the same description if and only if they agree in class, shown name of the function and shown derivative. The description of a search in the log determines the shown name of the function and the rectangle, for every way to show numbers which is one-to-one and uses no commas or brackets. With commas in names, or a derivative called None, descriptions can coincide.", "quantifier": "all finders, functions with or without names, rectangles", "why_tests_cant": "an equivalence over all pairs of finders and searches", "anchors": ["pyzeal/rootfinders/rootfinder.py:RootFinder.__str__", "pyzeal/rootfinders/parallel_finder.py:ParallelRootFinder.__str__", "pyzeal/utils/root_context.py:RootContext.functionDataToString"]}
{"id": "C140", "title": "The installation test always runs in the package's directory, and leaves the process there", "statement": "testModule(m) runs pytest exactly once, with the package's directory as working directory, on tests/m (on m itself if m is an absolute path), and returns the status of this run, whatever the working directory was and whatever tests were run before. Afterwards the working directory of the process is the package's directory, so that relative paths, e.g. the directory for log files, have another meaning than before.", "quantifier": "all module names, previous working directories, places of installation and histories", "why_tests_cant": "independence of the state of the process before the call", "anchors": ["pyzeal/utils/install_test_handler.py:InstallTestingHandler.testModule", "pyzeal/pyzeal_logging/log_manager.py:LogManager.initLogger"]}
{"id": "C141", "title": "The log level of a factory can be set only after its first use", "statement": "AlgorithmFactory.setLevel and ContainerFactory.setLevel before the first request to the factory have no effect, now or later: every history of operations goes on as if the call had not been made, and the first request sets the level of the settings. After the first request the call sets the level of the factory's logger, which stays until something else is done to a logger of the same name; further requests and changes of the default level do not matter, and no other logger, handler or setting is changed.", "quantifier": "all histories of requests, level changes, changes of the settings and of handlers", "why_tests_cant": "quantifies over all histories before and after the call", "anchors": ["pyzeal/utils/factories/algorithm_factory.py:AlgorithmFactory.setLevel", "pyzeal/utils/factories/container_factory.py:ContainerFactory.setLevel"]}
{"id": "C142", "title": "An undefined value at the lower left corner is not swallowed", "statement": "If the user's function is NaN at the lower left corner of the rectangle searched (min(reRan) - 10^-(p+1), min(imRan) - 3*10^-(q+1)) and has no exact zero at this height, calculateRoots does not return normally, i.e. it cannot be mistaken for a search without roots: this holds for the simple, the Newton and the polynomial algorithm with the summation estimator (fresh) and the quadrature estimator (in any state), any derivative, any recursion limit, and whatever the algorithms do in rectangles with few roots. What the container has received until then are exact zeros of the function, with order 0. The same holds for the parallel finder, for every number of processes and every schedule without ctrl+C; then its container receives nothing at all.", "quantifier": "all functions on floating point numbers with infinities and NaN, all finite rectangles, precisions, algorithms, recursion limits, estimators with NaN-propagating operations; numbers of processes and schedules of parallel searches", "why_tests_cant": "NaN passes caches, comparisons, sums and refinements of every depth; all functions and rectangles", "anchors": ["pyzeal/algorithms/simple_holo.py:SimpleArgumentAlgorithm.calcRoots", "pyzeal/algorithms/simple_holo.py:SimpleArgumentAlgorithm.getRootFromRectangle", "pyzeal/algorithms/estimators/argument_estimator.py:ArgumentEstimator.calcMoment", "pyzeal/algorithms/estimators/sum_estimator.py:SummationEstimator.genPhiArr", "pyzeal/algorithms/estimators/quad_estimator.py:QuadratureEstimator.calcMomentAlongLine", "pyzeal/rootfinders/parallel_finder.py:ParallelRootFinder.calculateRoots"]}
{"id": "C143", "title": "A search region with an infinite or undefined bound is never searched successfully", "statement": "If a bound in reRan or imRan is infinite or NaN and the user's function gives NaN at points that are not finite, calculateRoots does not return normally, for the simple, the Newton and the polynomial algorithm with either estimator, any recursion limit, precision and derivative. What the container has received until then are exact zeros of the function, with order 0. The same holds for the parallel finder, for every number of processes and every schedule without ctrl+C; then its container receives nothing at all.", "quantifier": "all functions that are undefined at points that are not finite, all regions with at least one bound that is not finite, all precisions, algorithms and recursion limits; numbers of processes and schedules of parallel searches", "why_tests_cant": "all regions and functions; the recursion has no bound other than the interpreter's", "anchors": ["pyzeal/rootfinders/rootfinder.py:RootFinder.calculateRoots", "pyzeal/rootfinders/rootfinder.py:RootFinder.desymmetrizeDomain", "pyzeal/algorithms/simple_holo.py:SimpleArgumentAlgorithm.decideRefinement", "pyzeal/algorithms/estimators/sum_estimator.py:SummationEstimator.calcMomentAlongLine", "pyzeal/rootfinders/parallel_finder.py:ParallelRootFinder.calculateRoots"]}
{"id": "C144", "title": "Infinite and undefined roots in rounding containers", "statement": "Solvers may return infinite or NaN values. While the filter ZERO_IN_BOUNDS is in force, no root with a NaN part gets into a rounding container, and if the searched rectangles are bounded, no infinite one; while FUNCTION_VALUE_ZERO is in force, every root that gets in is the rounding of a point where the function is finite with modulus less than 10^-threshold. Roots without NaN parts, infinite or not, are held at most once, as in a set. Accepted roots with NaN parts, however, are held as often as they are added (NaN differs from itself), removeRoot reports failure for them and has no effect; only clearing and a change of precision remove them.", "quantifier": "all histories of additions, removals, clearings and filter registrations, all roots over the floating point numbers with infinities and NaN, contexts and filters", "why_tests_cant": "all histories and filters", "anchors": ["pyzeal/utils/containers/rounding_container.py:RoundingContainer.addRoot", "pyzeal/utils/containers/rounding_container.py:RoundingContainer.removeRoot", "pyzeal/utils/factories/container_factory.py:ContainerFactory._zero_in_bounds", "pyzeal/utils/factories/container_factory.py:ContainerFactory._func_value_zero"]}
{"id": "C145", "title": "Nothing undefined appears out of finite data", "statement": "If the function (and the derivative, where one is used) has finite values at finite points and the numerical libraries return finite exact results for finite arguments (and nonzero divisors), then a search of a region with finite bounds over the floating point numbers with infinities and NaN never meets an infinite or undefined number: calculateRoots has the same outcome as with exact arithmetic (returns normally or raises the same exception), and the container receives the same finite roots with the same orders in the same order. For the simple and the Newton algorithm, with either estimator, for the serial and for the parallel finder under every schedule. In particular no division by zero, no empty slice and no array access out of range feeds the search. The same holds of rounding containers: every history of calls with finite roots and contexts, predefined filters included, leads to the same roots held and the same answers of removeRoot.", "quantifier": "all functions and derivatives with finite values, all finite regions, precisions, recursion limits, estimator settings, solvers, containers, numbers of processes and schedules; all histories of container calls", "why_tests_cant": "equality of two searches of unbounded depth for all functions, regions and schedules", "anchors": ["pyzeal/rootfinders/rootfinder.py:RootFinder.calculateRoots", "pyzeal/rootfinders/parallel_finder.py:ParallelRootFinder.calculateRoots", "pyzeal/algorithms/estimators/sum_estimator.py:SummationEstimator.genPhiArr", "pyzeal/algorithms/estimators/quad_estimator.py:QuadratureEstimator.calcMomentAlongLine", "pyzeal/algorithms/simple_holo_newton.py:SimpleArgumentNewtonAlgorithm.decideRefinement"]}
{"id": "C146", "title": "What was typed and assigned last decides what the next process does", "statement": "After any history of processes run one after the other since the installation - `pyzeal` with arbitrary words (understood or not, any subcommand), scripts creating settings services and assigning proper values - a new settings service can be created, and every setting has the value given by the last process that gave it one (the last option for it on a `change` command line of the grammar, the last assignment of a script), the shipped value if there was none. `pyzeal view -p` then prints exactly these values and changes nothing; RootFinder(...) and ParallelRootFinder(...) use exactly these values for what their arguments leave open, leave the settings alone, and their first search reports the zeros as the algorithm promises. Command lines alone can never make finders impossible to construct.", "quantifier": "all finite histories of processes, all words on their command lines, all proper scripts, all file systems, all constructor arguments and functions", "why_tests_cant": "unboundedly many histories, command lines and scripts; the claim connects argument parsing, persistence, service construction and the search across process boundaries", "anchors": ["pyzeal/cli/__main__.py: PyZEALEntry.mainPyZEAL", "pyzeal/cli/cli_parser.py", "pyzeal/cli/cli_controller.py", "pyzeal/settings/json_settings_service.py", "pyzeal/utils/initialization_handler.py", "pyzeal/rootfinders/rootfinder.py", "pyzeal/rootfinders/parallel_finder.py"]}
{"id": "C147", "title": "The finders of a program do not influence each other", "statement": "Take any program that registers algorithm objects and containers as singletons, makes any number of finders (for the same or different functions) and uses them - serial searches interrupted or not, parallel searches, filters, reading roots and orders - in any interleaving. Everything it sees of a finder whose algorithm and container came from transient services is what it would see if it performed only the operations on that finder, and the finder ends in the same state. With the quadrature estimator and for the Newton grid the same holds (up to the internal caches) if the algorithm object is a singleton shared with other finders.", "quantifier": "all programs (sequences of making and using finders), all functions, algorithms, schedules and interrupts", "why_tests_cant": "unboundedly many interleavings of operations on unboundedly many finders; interference through a shared cache shows only for particular functions and rectangles", "anchors": ["pyzeal/utils/service_locator.py: ServiceLocator.tryResolve", "pyzeal/utils/initialization_handler.py", "pyzeal/rootfinders/rootfinder.py: RootFinder", "pyzeal/rootfinders/parallel_finder.py: ParallelRootFinder", "pyzeal/algorithms/estimators/"]}
{"id": "C148", "title": "Finders may share an algorithm object registered as a singleton", "statement": "A search of a finder does the same whether its algorithm object is its own or a singleton of the service locator which other finders, for other functions, have used before. (False of the code with the summation estimator, see the findings; true if the earlier searches with the shared object stayed off the rectangle, and with the quadrature estimator by C147.)", "quantifier": "all programs, functions, algorithms of the package, rectangles, precisions", "why_tests_cant": "unboundedly many programs; the interference depends on which line segments the earlier searches cached", "anchors": ["pyzeal/utils/service_locator.py: ServiceLocator.tryResolve", "pyzeal/utils/initialization_handler.py", "pyzeal/rootfinders/rootfinder.py: RootFinder", "pyzeal/rootfinders/parallel_finder.py: ParallelRootFinder", "pyzeal/algorithms/estimators/"]}
{"id": "C149", "title": "Settings, several finders and searches in one program", "statement": "In a program that changes settings, constructs finders (serial and parallel) and uses them, in any order: a constructor works with the settings left by the operations on settings before it (failed operations and other finders do not matter); what the program sees of the finder afterwards is what the same operations show of it when nothing else happens, whatever is done with the settings and with other finders in between; and making and using finders changes nothing about the settings. In particular (simple argument algorithm, quadrature estimator, hypotheses of C130) searching and then reading roots and orders gives the zeros of the function, also if settings change and other finders search between the search and the reading.", "quantifier": "all programs, settings files, functions, arguments of the constructors, algorithms, containers, estimators", "why_tests_cant": "unboundedly many interleavings of changes of settings, constructions and uses", "anchors": ["pyzeal/rootfinders/rootfinder.py: RootFinder.__init__, calculateRoots, roots, orders", "pyzeal/rootfinders/parallel_finder.py: ParallelRootFinder.__init__", "pyzeal/settings/json_settings_service.py", "pyzeal/utils/factories/", "pyzeal/utils/containers/rounding_container.py"]}
{"id": "C150", "title": "scipy's Newton solver with rounding errors", "statement": "Let c be a zero of f and let the derivative of f on the disc of radius r around c differ from its (non-zero) value at c by at most a sixth (as in C133). Suppose the solver computes with errors: every complex operation and absolute value has relative error at most u, values of f are off by at most tol/(40 kappa) times the slope at c, values of the derivative by a sixtieth of that slope, and 320*kappa*u*(|c|+r) <= tol <= r <= 10^17 tol. Then Newton's method as scipy computes it, started anywhere in the disc, does not raise RuntimeError and returns a point closer than tol to c; so does the secant method from two points of the disc at least tol/2 apart whose distances from c are together at most kappa >= 4 times their distance from each other. With exact operations the computed solver is the one of C133.", "quantifier": "all functions differentiable on the disc, zeros, radii, tolerances, start points, and all rounding errors within the bounds", "why_tests_cant": "convergence must hold for all functions, start points and roundings; a rounded iteration may stop early, cycle or divide by a cancelled difference", "anchors": ["pyzeal/algorithms/simple_holo_newton.py:SimpleArgumentNewtonAlgorithm.decideRefinement"]}
{"id": "C151", "title": "A search with the Newton variant finds the zeros although the solver rounds", "statement": "Let f be analytic on the rectangle searched, with its derivative given, let the zeros keep off the sides of the rectangles the search comes to look at (as in C130), and let the derivative be steady and the computed operations of scipy's solver be accurate (C150) near every zero which the search isolates in a rectangle with sides below 0.1. Then calculateRoots with the Newton variant and QUADRATURE_ESTIMATOR, precision at most 16, returns without warning; every zero in the requested rectangle is reported with positive order up to 1.5*10^-(p+1) (in parallel searches, for jobs at least 10^-(p+1)/2 wide, 0.6*10^-p), and every root that is new has positive order and is that close to a zero.", "quantifier": "all analytic functions with any number of zeros, rectangles, precisions up to 16, states of the finder, numbers of processes, schedules, rounding errors of the solver within the bounds", "why_tests_cant": "combines the errors of quadrature, subdivision, rounded iteration and rounding of the results for all positions of the zeros", "anchors": ["pyzeal/algorithms/simple_holo_newton.py:SimpleArgumentNewtonAlgorithm.decideRefinement", "pyzeal/algorithms/estimators/quad_estimator.py:QuadratureEstimator.calcMomentAlongLine", "pyzeal/rootfinders/rootfinder.py:RootFinder.calculateRoots", "pyzeal/rootfinders/parallel_finder.py:ParallelRootFinder.calculateRoots"]}
{"id": "C152", "title": "The Newton grid finds the zeros although the solver rounds", "statement": "With the rounding errors of C150, in the vectorised call of scipy's Newton method with derivative all start points make the same number (at most 50) of computed Newton steps independently of each other; if one start point lies in a disc around a zero on which the derivative is steady (C133) and the computed operations are accurate (C150, tolerance 1.48e-8), the call does not raise, and every start point in such a disc ends closer than 1.48e-8 to the zero. Hence a search of a finder with the Newton grid algorithm, a derivative, a new rounding container and filters set returns without warning; every zero in the searched rectangle with such a disc, at least as large as half the spacing of the grid, is reported with order 0 up to 1.4e-8 plus rounding, if the filters let points this close to the zero pass; and every reported root is the rounding of what at most 50 computed Newton steps make of a point of the rectangle. With exact operations the computed array version is the one of C133.", "quantifier": "all functions and derivatives, zeros, rectangles, grid sizes, filters, precisions, numbers of processes, schedules, rounding errors within the bounds", "why_tests_cant": "a converged point goes on stepping with rounding errors until all others have converged or diverged; depends on all start points", "anchors": ["pyzeal/algorithms/newton_grid.py:NewtonGridAlgorithm.calcRoots", "pyzeal/rootfinders/rootfinder.py:RootFinder.calculateRoots", "pyzeal/rootfinders/parallel_finder.py:ParallelRootFinder.calculateRoots"]}
{"id": "C153", "title": "Rounding errors lose no zero in the Newton variant", "statement": "Let a search of SIMPLE_ARGUMENT_NEWTON be carried out in floating-point arithmetic (midpoints, sums of line phases, the comparisons with TWO_PI and FOUR_PI, the size tests against 10**(-p) and 0.1, the start points handed to scipy). If the search completes, every computed phase around a rectangle containing the zero passes the test of the code, and the solver finds the zero up to 10**(-p) in every such rectangle for which it is started, then a root of order at least 1 within the computed 10**(-p) of the zero is handed to the container. Every rectangle looked at lies inside the search rectangle and has machine numbers as sides; everything handed to the container is an exact zero met on a boundary (order 0), the centre of a rectangle shorter than the precision, or (order 1) what the solver returned for a rectangle with phase between the two constants and sides computed as below 0.1. With an estimator that sees the zeros everything of positive order is that close to a zero in the search rectangle. scipy's solver with its own rounding errors (C150) finds the zero of every rectangle around which the derivative is steady and the computed operations are accurate. With exact arithmetic this search is the one of C35.", "quantifier": "all round-to-nearest arithmetics (among them 53-bit binary, apart from overflow and underflow), all functions, rectangles, precisions, recursion limits, estimators and solvers", "why_tests_cant": "a zero could be lost for one particular rectangle on whose rounded corners the two size tests disagree; all rectangles, zeros and rounding errors must be covered", "anchors": ["pyzeal/algorithms/simple_holo_newton.py:SimpleArgumentNewtonAlgorithm.decideRefinement", "pyzeal/algorithms/simple_holo.py:SimpleArgumentAlgorithm.calcRootsRecursion", "pyzeal/algorithms/simple_holo.py:SimpleArgumentAlgorithm.decideRefinement", "pyzeal/algorithms/constants.py"]}
{"id": "C154", "title": "The Newton variant ends in floating-point arithmetic", "statement": "A search with SIMPLE_ARGUMENT_NEWTON in floating-point arithmetic does not fail with RecursionError if the recursion limit exceeds the number of halvings the rectangle allows above the precision; without interrupt it returns if the estimator does, whatever scipy's solver does (a RuntimeError of the solver stays inside the search), and a larger recursion limit changes nothing.", "quantifier": "all functions, rectangles, precisions, estimators, solvers", "why_tests_cant": "depends on the spacing of machine numbers at each zero relative to the precision and to 0.1, and on every way the solver may fail", "anchors": ["pyzeal/algorithms/simple_holo_newton.py:SimpleArgumentNewtonAlgorithm.decideRefinement", "pyzeal/algorithms/simple_holo.py:SimpleArgumentAlgorithm.calcRootsRecursion", "pyzeal/algorithms/simple_holo.py:SimpleArgumentAlgorithm.decideRefinement", "pyzeal/algorithms/constants.py"]}
{"id": "C155", "title": "Searches with the Newton variant in doubles, from requested rectangle to rounded root", "statement": "RootFinder.calculateRoots and ParallelRootFinder.calculateRoots computed in doubles, with SIMPLE_ARGUMENT_NEWTON, an estimator whose computed phases tell the rectangles with zeros, a solver which finds the zeros of the rectangles for which the search starts it, and a rounding container without filters. Serial: if the call returns without warning, every zero in the requested rectangle has a reported root of positive order closer than 2*10^-(p+1) in each coordinate, and every newly reported root is the rounding of an exact zero (order 0) or has positive order, lies in the requested rectangle enlarged by 7*10^-(p+1), and is closer than 2*10^-(p+1) to a zero. Parallel, for at most 2^51 processes and every schedule without interrupt: the same with 10^-p and 1.5*10^-p. scipy's solver with computed operations is such a solver if near the zeros in question the derivative is steady and the operations are accurate (C150).", "quantifier": "all functions, zeros, recursion limits, interrupts (serial), schedules, precisions up to 21 decimals, ranges whose end points are doubles with |x|*10^(p+1) <= 2^49, Python and numpy numbers, solvers", "why_tests_cant": "rounding errors of bisections, solver and container add up and depend on rectangle and precision; schedules are nondeterministic", "anchors": ["pyzeal/rootfinders/rootfinder.py:RootFinder.calculateRoots", "pyzeal/rootfinders/parallel_finder.py:ParallelRootFinder.calculateRoots", "pyzeal/algorithms/simple_holo_newton.py:SimpleArgumentNewtonAlgorithm.decideRefinement", "pyzeal/utils/containers/rounding_container.py:RoundingContainer.addRoot"]}
{"id": "C156", "title": "Rounding errors lose no zero in the associated-polynomial variant", "statement": "Let a search of ASSOCIATED_POLYNOMIAL be carried out in floating-point arithmetic (midpoints, sums of line phases and of line moments, the constants TWO_PI and MAX_PHASE, the number of zeros, the size tests against 10**(-p)); the coefficients and roots computed from the moments may carry any rounding errors. If the search completes, every computed phase around a rectangle containing the zero passes the test of the code, and the roots computed for every such rectangle with a phase below MAX_PHASE include one of order at least 1 within the computed 10**(-p) of the zero, then such a root is handed to the container. Every rectangle looked at lies inside the search rectangle and has machine numbers as sides; everything handed to the container is an exact zero met on a boundary (order 0), the centre of a rectangle shorter than the precision, or a root computed from the moments of order 1 to n of a rectangle, n being the computed number of zeros. With an estimator that sees the zeros and roots close to the zeros of their rectangle, everything of positive order is that close to a zero in the search rectangle. With exact arithmetic this search is the one of C36 and C37.", "quantifier": "all round-to-nearest arithmetics (among them 53-bit binary, apart from overflow and underflow), all functions, rectangles, precisions, recursion limits, estimators, and all ways the coefficients and roots may be computed from the moments", "why_tests_cant": "a zero could be lost for one particular rectangle whose rounded phase falls between the tests of the size, of the number of zeros and of the subdivision; all rectangles, zeros and rounding errors must be covered", "anchors": ["pyzeal/algorithms/polynomial_holo.py:AssociatedPolynomialAlgorithm.decideRefinement", "pyzeal/algorithms/simple_holo.py:SimpleArgumentAlgorithm.calcRootsRecursion", "pyzeal/algorithms/simple_holo.py:SimpleArgumentAlgorithm.decideRefinement", "pyzeal/algorithms/constants.py"]}
{"id": "C157", "title": "The associated-polynomial variant ends in floating-point arithmetic", "statement": "A search with ASSOCIATED_POLYNOMIAL in floating-point arithmetic does not fail with RecursionError if the recursion limit exceeds the number of halvings the rectangle allows above the precision; with a derivative at hand and without interrupt it returns if the estimator does, whatever roots are computed from the moments, and a larger recursion limit changes nothing. Without a derivative it raises ValueError and never returns.", "quantifier": "all functions, rectangles, precisions, estimators, and all ways the roots may be computed from the moments", "why_tests_cant": "depends on the spacing of machine numbers at each zero relative to the precision, on the number of zeros that stay together in one rectangle, and on the rounding of every phase", "anchors": ["pyzeal/algorithms/polynomial_holo.py:AssociatedPolynomialAlgorithm.decideRefinement", "pyzeal/algorithms/simple_holo.py:SimpleArgumentAlgorithm.calcRootsRecursion", "pyzeal/algorithms/simple_holo.py:SimpleArgumentAlgorithm.decideRefinement", "pyzeal/algorithms/constants.py"]}
