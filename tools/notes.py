EXTRA = {"C127": ["C98_counterexample"], "C105": ["farSearch_fails"], "C154": ["farNewton_fails"], "C157": ["farPoly_fails"]}
PARTIAL = {
 "C157": "False of the code: C157_too_fine (any arithmetic), C157_too_fine_double (Python floats), farPoly_fails (a concrete search): at a zero of order 4 or more around which the machine numbers are further apart than 10**(-p) the search fails with RecursionError for every recursion limit. C157_returns_partial: the claim about returning in full if the rectangle is within 2^50 * 10**(-p) of the axes. C157_no_derivative: in full.",
 "C154": "False of the code: C154_too_fine (any arithmetic), C154_too_fine_double (Python floats), farNewton_fails (a concrete search): at a zero around which the machine numbers are further apart than 10**(-p) and for which Newton's method is never started (multiple, or neighbours further apart than 0.1) the search fails with RecursionError for every recursion limit. C154_returns_partial: the full claim if the rectangle is within 2^50 * 10**(-p) of the axes.",
 "C148": "False of the code with the summation estimator: C148_counterexample (after another finder's search with the shared object a zero is silently lost). C148_disjoint_partial: true if the earlier searches with the shared object stayed off the rectangle; C147_shared_quadrature: true with the quadrature estimator and the Newton grid.",
 "C129": "False of the code for interrupts: C129_counterexample, C129_stays_visible (after every interrupted search the row stays visible with its clock running; TaskID 0 is falsy). C129_shown_partial, C129_parallel_partial, C129_quiet: everything else, for all outcomes and schedules.",
 "C127": "False of the code without a hypothesis on lines with phase 0, as C98: C98_counterexample (a line whose phase is exactly 0 is evaluated again from an overwritten internal cache). C127_search_partial: the full claim for every first search in which no line has the computed phase exactly 0. C127_total_partial, C127_finder_partial: hypotheses on the function, the arguments and the settings only (SafeF: the argument differs at the two ends of every side), that the search returns is a conclusion.",
 "C125": "False of the code with the summation estimator: C125_counterexample (an interrupted search, repeated, returns without warning and without the zero). C125_quadrature_partial: the full claim for the quadrature estimator and the Newton grid; C124_independent: for the summation estimator if earlier searches stayed off the rectangle.",
 "C126": "False of the code with two processes: C126_counterexample (a zero the serial search finds is silently lost). C126_lowest_row_partial: zeros in the lowest row of jobs are found, for any number of processes and every schedule; C126_one_process_partial: all zeros with one process.",
 "C98": "False of the code without a hypothesis on lines with phase 0: C98_counterexample (a line whose phase is exactly 0 is evaluated again from an overwritten internal cache; a root is lost silently). C98_search_partial, C98_finder_partial: the full claim for every first search in which no line has the phase exactly 0 (the run with strictLine returns). C98_total_partial, C98_newton_total_partial, C98_finder_total_partial: with hypotheses on the function and the settings only (Safe), that the search returns is a conclusion. C98_newton_partial: the same for the Newton algorithm. C98_shipped_partial: the same for RootFinder(f, df) on a new installation.",
 "C99": "False of the code: C99_counterexample (a shorter line overwrites the entry of the longer one), C99_vertical_counterexample (even for immediate repetition). C99_immediate_partial: a line asked for the first time at its height gets the same value when asked again at once; C99_forgets_partial: which value is returned instead.",
 "C100": "False of the code for vertical lines: C100_counterexample, C100_search_counterexample (a whole search ends with IndexError). C100_horizontal_partial: horizontal lines never raise in any state; C100_vertical_partial: the exact condition for vertical lines.",
 "C96": "False of the code when several containers read from one queue: C96_counterexample (the element seen by the emptiness test is taken by another reader, get() waits forever). C96_single_consumer_partial, C96_terminates_partial: a container that is the only reader never waits and its transfer terminates with all roots.",
 "C81": "False of the code: C81_counterexample (wrapping another function in unsave mode redirects the first wrapper). C81_func_partial, C81_derivative_partial: true as long as nothing is wrapped in unsave mode afterwards.",
 "C92": "False of the code for start methods other than fork: C92_counterexample (the module is imported anew, every wrapper raises). C92_fork_partial: with fork.",
 "C94": "False of the code: C94_counterexample (objects of classes of one module share a logger, whose level is reset at the first use of each). C94_level_stays_partial: otherwise.",
 "C95": "False of the code: C95_counterexample (estimator and cache keep their level). C95_finder_partial: exactly the loggers of finder, container and algorithm are set.",
 "C71": "False of the code for the container: C71_counterexample (the message names the old value twice). C71_lines_partial: exact output in all cases; C71_truthful_partial: the full claim whenever the container is not changed.",
 "C73": "False of the code: C73_counterexample (changes made before the rejected one stay). C73_rejection_partial: exact effect of a rejection; C73_single_partial: all or nothing for a single change; C73_all_good_partial: no rejection without a bad argument.",
 "C89": "False of the code: C89_counterexample ('maybe' switches verbosity off). C89_verbosity_partial, C89_precision_partial: what is done instead for every string, and that valid arguments are accepted.",
 "C74": "C74_candidates proves the first part for all names. The second part is false for names that begin with a dot: C74_counterexample (.x.py is imported as pyzeal_plugins.x). C74_imports_partial: for directories without such entries exactly the candidates are imported, in order, by stem within the plugin package.",
 "C75": "False for a file that is already in the plugin directory and for directories: C75_counterexample (the exception of shutil.copy is not caught). C75_install_partial and C75_roundtrip_partial cover all other files; the other C75 theorems hold without restriction. No symbolic links in the model.",
 "C76": "False of the code: C76_counterexample (../plugin_loader.py, absolute paths). C76_relative_partial: relative paths without '..' stay in the plugin directory.",
 "C77": "False if the service is registered as singleton: C77_counterexample. C77_factories_partial / C77_resolves_partial: the property for the registered factories, and for resolution without singleton (entries beginning with a dot excluded, see C74). C77_sealed, C77_import_failure as stated.",
 "C78": "False of the code: C78_counterexample (_instance is never assigned). C78_calls_partial: what happens for every number of calls.",
 "C88": "False of the code: C88_counterexample (plugins are imported from pyzeal_plugins.custom_plugins but installed to pyzeal.plugins.custom_plugins). C88_no_plugin_loads_partial, C88_start_fails_partial: without a package of the former name every plugin file makes loading and start-up raise.",
 "C64": "False of the code for precisions: C64_counterexample (tuples with fewer than two entries raise IndexError; triples and booleans are accepted). C64_wrong_type_partial covers all other values of the wrong type; unknown keys, unreadable files and 'an update that raises changes no file' hold without restriction.",
 "C65": "False of the code: C65_counterexample (the attribute is set before the value is checked). C65_failed_assignment_partial: the files and all other settings are unaffected.",
 "C66": "False of the code: C66_counterexample (death between open(...,'w') and dump leaves an unreadable file). C66_crash_points_partial: that is the only bad crash point and the shipped file is always intact; C66_stuck_partial: what happens afterwards.",
 "C67": "False of the code: C67_counterexample (lost update). C67_race_partial: for every interleaving, at least one change survives or the file is unreadable, and no other key is affected; C67_serial_partial: both survive if the processes do not overlap.",
 "C69": "False of the code for precisions: C69_counterexample (one entry: IndexError; pair of strings accepted). C69_errors_partial classifies all exceptions; the other C69 theorems prove key-by-key override, totality and that unknown keys are ignored.",
 "C55": "False of the code for types of which None is an instance: C55_counterexample (tryResolve(object) returns None whatever is registered). C55_singleton, C55_transient, C55_unregistered prove the property for all other types (hypothesis isinstance(None, T) = False); C55_type_safe holds for all types.",
 "C49": "False of the code when the container holds roots of another precision: C49_counterexample (an interrupted search keeps them, the complete one discards them). C49_serial_subset: holds if the container is empty or was filled with this search's precision; C49_serial_partial / C49_parallel_partial: in all states the roots are among those of the complete search or those held before (parallel: if the complete search succeeds).",
 "C52": "False of the serial finder: C52_counterexample (rounds to p+1 decimals). C52_serial_partial: at most p+1 decimals. C52_parallel: the property for the parallel finder.",
 "C86": "False of the code: C86_counterexample (an exception other than KeyboardInterrupt leaves the bar running). C86_bar_stopped_partial: stopped whenever the call returns.",
 "C09": "False of the code as stated: C09_counterexample (registering a filter does not re-check roots already stored). C09_partial: every root added after the registration passes the filter.",
 "C10": "False of the code as stated: C10_counterexample (same point with two orders is stored twice). C10_partial: no two stored roots agree in value and order.",
 "C18": "False of the code: C18_counterexample (a cache emptied by remove still reports dirty). C18_partial: any stored entry makes the cache dirty, reset makes it clean.",
 "C28": "False of the code when the split point is a support point: C28_counterexample (increment counted twice). C28_horizontal_partial / C28_vertical_partial: exact conservation for every other split point with at least three support points on each side.",
 "C29": "False of the code: C29_counterexample (internal line caches are keyed by coordinates only and never reset; also stale across functions). C29_partial: independent of history when no line with that coordinate was sampled before.",
 "C32": "False of the code after a third refinement: C32_counterexample (zStart/zEnd are reassigned when arrays are merged, so the result is multiplied by 1-2^-s). C32_partial: exact result in every case; equals the property when at most two refinements happen.",
 "C107": "False of the code: C107_stuck (any arithmetic), C107_stuck_double (Python floats), C107_counterexample (a concrete line): if a sample point is a zero and adding the offset 2*10**(-p) to it is lost in rounding, sampling never ends. Proved: it ends for horizontal/vertical lines whose distance from the axis is at most 2^49 * 10**(-p) (and, for any arithmetic, under an explicit condition).",
 "C105": "False of the code: C105_too_fine (any arithmetic), C105_too_fine_double (Python floats), farSearch_fails (a concrete search): if the machine numbers around a coordinate of a zero are further apart than 10**(-p), the search fails with RecursionError for every recursion limit. C105_returns_partial, C105_double_partial: no RecursionError if the rectangle is within 2^50 * 10**(-p) of the axes.",
 "C112": "False of the code for RuntimeError and its subclasses with the algorithms using Newton's method: C112_swallowed. The _partial theorems: all exceptions with the other algorithms, all but RuntimeError with these.",
 "C39": "False of the code: C39_counterexample (`top.imag` of a float is 0, so rectangles with a root advance the bar by 0). C39_grid_counterexample: every finished search with the Newton grid shows 0 percent. C39_progress_partial: the progress is the area minus the rectangles at which roots were found.",
}
NOTES = {
 "C131": "Exact arithmetic, romb as in C130. C131_line: one side; C131_rectangle: calcMoment with a fresh cache.",
 "C132": "Exact arithmetic, romb as in C130; the polynomial solver is a parameter with a stated accuracy (SolvesWithin). The hypotheses (PolyResolved) speak about the rectangles the search comes to look at, not about computed values.",
 "C133": "Exact arithmetic; scipy.optimize.newton modelled from its documented algorithm (Model/ScipyNewton); the vectorised secant method (grid algorithm without derivative) is a parameter.",
 "C134": "Exact arithmetic, romb as in C130 and scipy.optimize.newton as in C133.",
 "C135": "Exact arithmetic, scipy.optimize.newton as in C133; with derivative only.",
 "C137": "Exact arithmetic; scipy.optimize.newton as in Model/ScipySecant.lean.",
 "C138": "Exact arithmetic; scipy.optimize.newton as in Model/ScipyNewton.lean; first search of a finder (later searches: see C124, C125).",
 "C139": "Names are lists of characters; str of a float is a parameter.",
 "C140": "File system simplified: the package's directory exists, pytest does not change the working directory.",
 "C141": "First requests succeed (the directory and the file for logs can be created) for the part after the first use.",
 "C142": "Not returning normally = raising an error, or running out of the model's bounds for the loops in genFuncArr, genPhiArr and the quadrature (which stand for loops that do not end). Finite numbers are exact here; overflow is not modelled.",
 "C143": "As for C142.",
 "C146": "Processes do not overlap (for overlapping ones see C67) and are not killed while saving (C66). Roots: exact arithmetic, libraries as in C136; the theorems for the other algorithms follow from C136 in the same way (C146_as_script).",
 "C145": "Compares the model with infinities and NaN with the exact model. Finite arithmetic is exact in both (no overflow); the polynomial variant is not compared (its higher moments are a parameter of the former model).",
 "C136": "Exact arithmetic; libraries as assumed in C98, C130, C132, C133.",
 "C130": "Exact arithmetic; scipy's romb modelled as the documented algorithm (Model/Romberg.lean). C130_line: one side; C130_search, C130_newton: the searches; C130_finder, C130_parallel: calculateRoots. The derivative is given (without it QUADRATURE_ESTIMATOR raises, C33).",
 "C128": "Exact arithmetic (areas and sums are not rounded).",
 "C127": "Parameters and assumptions as in C106/C108 and C110: accuracy of complex quotient and arctan2, no overflow or underflow.",
 "C112": "Values where nothing is raised are those of total functions; the external solver passes on the exceptions of the functions it calls.",
 "C108": "Parameters and assumptions as in C106. The conditions on d and on the turns are on sampleGap = L/6499 + 18*2^-53*R (L the longer side, R a bound for the coordinates).",
 "C106": "Parameters of the model with stated accuracy: complex quotient, arctan2, order of summation. No overflow or underflow. A new estimator and an empty cache (slices of cached lines: C28/C29). That the number of turns is the number of zeros inside: C108.",
 "C104": "Rounding inside the estimators is not modelled: their results are arbitrary (hypotheses speak of the computed phases). No overflow or underflow. C104_exact: without rounding it is the model of C34-C38.",
 "C54": "Factories must not themselves change a sealed locator (clearConfigurations from within a factory).",
 "C57": "tryResolve: for factories that do not themselves register services.",
 "C60": "Start-up in a mode with GUI succeeds if a settings service was registered before (C60_gui_fails needs its absence). CLI|SCRIPT registers only the settings (C60_combined).",
 "C11": "Exact decimal rounding; the conversion of the decimal back to a binary double is not modelled.",
 "C14": "Operations on the manager queue are atomic in the model.",
 "C23": "The unbounded loop is modelled with an evaluation bound: enough fuel always suffices (finitely many zeros), no fuel suffices for the zero function.",
 "C25": "Stated for uninterrupted runs, deltaPhi > 0.",
 "C26": "Exact real arithmetic with Complex.arg; lines not served from the internal caches (slices of cached lines are C28/C29).",
 "C31": "romb is an external function (parameter); C31_shapes_fit holds with zeros on the line and interrupts too.",
}
