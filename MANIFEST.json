{
 "claims": [
  {
   "property": "C01",
   "status": "proved",
   "theorems": [
    "PyZeal.Props.C01_rounded_no_duplicates"
   ],
   "note": ""
  },
  {
   "property": "C02",
   "status": "proved",
   "theorems": [
    "PyZeal.Props.C02_refines_set"
   ],
   "note": ""
  },
  {
   "property": "C03",
   "status": "proved",
   "theorems": [
    "PyZeal.Props.C03_parallel_plain",
    "PyZeal.Props.C03_parallel_rounding"
   ],
   "note": ""
  },
  {
   "property": "C04",
   "status": "proved",
   "theorems": [
    "PyZeal.Props.C04_order_irrelevant"
   ],
   "note": ""
  },
  {
   "property": "C05",
   "status": "proved",
   "theorems": [
    "PyZeal.Props.C05_log_level_irrelevant"
   ],
   "note": ""
  },
  {
   "property": "C06",
   "status": "proved",
   "theorems": [
    "PyZeal.Props.C06_add_remove",
    "PyZeal.Props.C06_remove"
   ],
   "note": ""
  },
  {
   "property": "C07",
   "status": "proved",
   "theorems": [
    "PyZeal.Props.C07_filters_gate"
   ],
   "note": ""
  },
  {
   "property": "C08",
   "status": "proved",
   "theorems": [
    "PyZeal.Props.C08_last_registration_wins"
   ],
   "note": ""
  },
  {
   "property": "C09",
   "status": "partial",
   "theorems": [
    "PyZeal.Props.C09_counterexample",
    "PyZeal.Props.C09_partial"
   ],
   "note": "False of the code as stated: C09_counterexample (registering a filter does not re-check roots already stored). C09_partial: every root added after the registration passes the filter."
  },
  {
   "property": "C10",
   "status": "partial",
   "theorems": [
    "PyZeal.Props.C10_counterexample",
    "PyZeal.Props.C10_partial"
   ],
   "note": "False of the code as stated: C10_counterexample (same point with two orders is stored twice). C10_partial: no two stored roots agree in value and order."
  },
  {
   "property": "C11",
   "status": "proved",
   "theorems": [
    "PyZeal.Props.C11_rounding"
   ],
   "note": "Exact decimal rounding; the conversion of the decimal back to a binary double is not modelled."
  },
  {
   "property": "C12",
   "status": "proved",
   "theorems": [
    "PyZeal.Props.C12_precision_change"
   ],
   "note": ""
  },
  {
   "property": "C13",
   "status": "proved",
   "theorems": [
    "PyZeal.Props.C13_plain_container"
   ],
   "note": ""
  },
  {
   "property": "C14",
   "status": "proved",
   "theorems": [
    "PyZeal.Props.C14_shared_queue"
   ],
   "note": "Operations on the manager queue are atomic in the model."
  },
  {
   "property": "C15",
   "status": "proved",
   "theorems": [
    "PyZeal.Props.C15_zero_in_bounds"
   ],
   "note": ""
  },
  {
   "property": "C16",
   "status": "proved",
   "theorems": [
    "PyZeal.Props.C16_function_value_zero",
    "PyZeal.Props.C16_registration",
    "PyZeal.Props.C16_threshold_monotone"
   ],
   "note": ""
  },
  {
   "property": "C17",
   "status": "proved",
   "theorems": [
    "PyZeal.Props.C17_cache_is_a_map"
   ],
   "note": ""
  },
  {
   "property": "C18",
   "status": "partial",
   "theorems": [
    "PyZeal.Props.C18_counterexample",
    "PyZeal.Props.C18_partial"
   ],
   "note": "False of the code: C18_counterexample (a cache emptied by remove still reports dirty). C18_partial: any stored entry makes the cache dirty, reset makes it clean."
  },
  {
   "property": "C19",
   "status": "proved",
   "theorems": [
    "PyZeal.Props.C19_caching_is_transparent"
   ],
   "note": ""
  },
  {
   "property": "C20",
   "status": "proved",
   "theorems": [
    "PyZeal.Props.C20_lines_computed_once"
   ],
   "note": ""
  },
  {
   "property": "C21",
   "status": "proved",
   "theorems": [
    "PyZeal.Props.C21_statistics"
   ],
   "note": ""
  },
  {
   "property": "C22",
   "status": "proved",
   "theorems": [
    "PyZeal.Props.C22_no_zero_values"
   ],
   "note": ""
  },
  {
   "property": "C23",
   "status": "proved",
   "theorems": [
    "PyZeal.Props.C23_diverges",
    "PyZeal.Props.C23_terminates"
   ],
   "note": "The unbounded loop is modelled with an evaluation bound: enough fuel always suffices (finitely many zeros), no fuel suffices for the zero function."
  },
  {
   "property": "C24",
   "status": "proved",
   "theorems": [
    "PyZeal.Props.C24_zeros_reported"
   ],
   "note": ""
  },
  {
   "property": "C25",
   "status": "proved",
   "theorems": [
    "PyZeal.Props.C25_consistent",
    "PyZeal.Props.C25_terminates"
   ],
   "note": "Stated for uninterrupted runs, deltaPhi > 0."
  },
  {
   "property": "C26",
   "status": "proved",
   "theorems": [
    "PyZeal.Props.C26_line",
    "PyZeal.Props.C26_returns_whole_turns",
    "PyZeal.Props.C26_whole_turns"
   ],
   "note": "Exact real arithmetic with Complex.arg; lines not served from the internal caches (slices of cached lines are C28/C29)."
  },
  {
   "property": "C27",
   "status": "proved",
   "theorems": [
    "PyZeal.Props.C27_higher_orders",
    "PyZeal.Props.C27_not_parallel",
    "PyZeal.Props.C27_reversal"
   ],
   "note": ""
  },
  {
   "property": "C28",
   "status": "partial",
   "theorems": [
    "PyZeal.Props.C28_counterexample",
    "PyZeal.Props.C28_horizontal_partial",
    "PyZeal.Props.C28_vertical_partial"
   ],
   "note": "False of the code when the split point is a support point: C28_counterexample (increment counted twice). C28_horizontal_partial / C28_vertical_partial: exact conservation for every other split point with at least three support points on each side."
  },
  {
   "property": "C29",
   "status": "partial",
   "theorems": [
    "PyZeal.Props.C29_counterexample",
    "PyZeal.Props.C29_partial"
   ],
   "note": "False of the code: C29_counterexample (internal line caches are keyed by coordinates only and never reset; also stale across functions). C29_partial: independent of history when no line with that coordinate was sampled before."
  },
  {
   "property": "C30",
   "status": "proved",
   "theorems": [
    "PyZeal.Props.C30_clean_cache",
    "PyZeal.Props.C30_quadrature"
   ],
   "note": ""
  },
  {
   "property": "C31",
   "status": "proved",
   "theorems": [
    "PyZeal.Props.C31_bounded",
    "PyZeal.Props.C31_merge",
    "PyZeal.Props.C31_refinement",
    "PyZeal.Props.C31_shapes_fit",
    "PyZeal.Props.C31_terminates"
   ],
   "note": "romb is an external function (parameter); C31_shapes_fit holds with zeros on the line and interrupts too."
  },
  {
   "property": "C32",
   "status": "partial",
   "theorems": [
    "PyZeal.Props.C32_counterexample",
    "PyZeal.Props.C32_partial"
   ],
   "note": "False of the code after a third refinement: C32_counterexample (zStart/zEnd are reassigned when arrays are merged, so the result is multiplied by 1-2^-s). C32_partial: exact result in every case; equals the property when at most two refinements happen."
  },
  {
   "property": "C33",
   "status": "proved",
   "theorems": [
    "PyZeal.Props.C33_no_derivative",
    "PyZeal.Props.C33_rectangle"
   ],
   "note": ""
  },
  {
   "property": "C34",
   "status": "proved",
   "theorems": [
    "PyZeal.Props.C34_completes",
    "PyZeal.Props.C34_depth",
    "PyZeal.Props.C34_estimators",
    "PyZeal.Props.C34_no_recursion_error"
   ],
   "note": ""
  },
  {
   "property": "C35",
   "status": "proved",
   "theorems": [
    "PyZeal.Props.C35_conforming",
    "PyZeal.Props.C35_no_zero_lost"
   ],
   "note": ""
  },
  {
   "property": "C36",
   "status": "proved",
   "theorems": [
    "PyZeal.Props.C36_candidates_justified"
   ],
   "note": ""
  },
  {
   "property": "C37",
   "status": "proved",
   "theorems": [
    "PyZeal.Props.C37_conforming",
    "PyZeal.Props.C37_multiplicities",
    "PyZeal.Props.C37_tolerance"
   ],
   "note": ""
  },
  {
   "property": "C38",
   "status": "proved",
   "theorems": [
    "PyZeal.Props.C38_tiling"
   ],
   "note": ""
  },
  {
   "property": "C39",
   "status": "partial",
   "theorems": [
    "PyZeal.Props.C39_counterexample",
    "PyZeal.Props.C39_grid_counterexample",
    "PyZeal.Props.C39_progress_partial"
   ],
   "note": "False of the code: C39_counterexample (`top.imag` of a float is 0, so rectangles with a root advance the bar by 0). C39_grid_counterexample: every finished search with the Newton grid shows 0 percent. C39_progress_partial: the progress is the area minus the rectangles at which roots were found."
  },
  {
   "property": "C40",
   "status": "proved",
   "theorems": [
    "PyZeal.Props.C40_thresholds"
   ],
   "note": ""
  },
  {
   "property": "C41",
   "status": "proved",
   "theorems": [
    "PyZeal.Props.C41_bound",
    "PyZeal.Props.C41_completeness",
    "PyZeal.Props.C41_no_runtime_error",
    "PyZeal.Props.C41_origin"
   ],
   "note": ""
  },
  {
   "property": "C42",
   "status": "proved",
   "theorems": [
    "PyZeal.Props.C42_coefficients",
    "PyZeal.Props.C42_evaluation"
   ],
   "note": ""
  },
  {
   "property": "C43",
   "status": "proved",
   "theorems": [
    "PyZeal.Props.C43_exact",
    "PyZeal.Props.C43_no_derivative",
    "PyZeal.Props.C43_summation"
   ],
   "note": ""
  },
  {
   "property": "C44",
   "status": "proved",
   "theorems": [
    "PyZeal.Props.C44_clustering",
    "PyZeal.Props.C44_greedy"
   ],
   "note": ""
  },
  {
   "property": "C45",
   "status": "proved",
   "theorems": [
    "PyZeal.Props.C45_grid",
    "PyZeal.Props.C45_only_iterates",
    "PyZeal.Props.C45_results"
   ],
   "note": ""
  },
  {
   "property": "C46",
   "status": "proved",
   "theorems": [
    "PyZeal.Props.C46_domain",
    "PyZeal.Props.C46_order"
   ],
   "note": ""
  },
  {
   "property": "C47",
   "status": "proved",
   "theorems": [
    "PyZeal.Props.C47_jobs"
   ],
   "note": ""
  },
  {
   "property": "C48",
   "status": "proved",
   "theorems": [
    "PyZeal.Props.C48_schedules"
   ],
   "note": ""
  },
  {
   "property": "C49",
   "status": "partial",
   "theorems": [
    "PyZeal.Props.C49_counterexample",
    "PyZeal.Props.C49_parallel_partial",
    "PyZeal.Props.C49_serial_partial",
    "PyZeal.Props.C49_serial_subset"
   ],
   "note": "False of the code when the container holds roots of another precision: C49_counterexample (an interrupted search keeps them, the complete one discards them). C49_serial_subset: holds if the container is empty or was filled with this search's precision; C49_serial_partial / C49_parallel_partial: in all states the roots are among those of the complete search or those held before (parallel: if the complete search succeeds)."
  },
  {
   "property": "C50",
   "status": "proved",
   "theorems": [
    "PyZeal.Props.C50_serial"
   ],
   "note": ""
  },
  {
   "property": "C51",
   "status": "proved",
   "theorems": [
    "PyZeal.Props.C51_parallel"
   ],
   "note": ""
  },
  {
   "property": "C52",
   "status": "partial",
   "theorems": [
    "PyZeal.Props.C52_counterexample",
    "PyZeal.Props.C52_parallel",
    "PyZeal.Props.C52_serial_partial"
   ],
   "note": "False of the serial finder: C52_counterexample (rounds to p+1 decimals). C52_serial_partial: at most p+1 decimals. C52_parallel: the property for the parallel finder."
  },
  {
   "property": "C53",
   "status": "proved",
   "theorems": [
    "PyZeal.Props.C53_precedence"
   ],
   "note": ""
  },
  {
   "property": "C54",
   "status": "proved",
   "theorems": [
    "PyZeal.Props.C54_clear_unseals",
    "PyZeal.Props.C54_seal",
    "PyZeal.Props.C54_sealed"
   ],
   "note": "Factories must not themselves change a sealed locator (clearConfigurations from within a factory)."
  },
  {
   "property": "C55",
   "status": "partial",
   "theorems": [
    "PyZeal.Props.C55_counterexample",
    "PyZeal.Props.C55_factory_failure",
    "PyZeal.Props.C55_singleton",
    "PyZeal.Props.C55_transient",
    "PyZeal.Props.C55_type_safe",
    "PyZeal.Props.C55_unregistered"
   ],
   "note": "False of the code for types of which None is an instance: C55_counterexample (tryResolve(object) returns None whatever is registered). C55_singleton, C55_transient, C55_unregistered prove the property for all other types (hypothesis isinstance(None, T) = False); C55_type_safe holds for all types."
  },
  {
   "property": "C56",
   "status": "proved",
   "theorems": [
    "PyZeal.Props.C56_arguments",
    "PyZeal.Props.C56_surplus_ignored"
   ],
   "note": ""
  },
  {
   "property": "C57",
   "status": "proved",
   "theorems": [
    "PyZeal.Props.C57_failed_registration",
    "PyZeal.Props.C57_registration_local",
    "PyZeal.Props.C57_resolve_keeps",
    "PyZeal.Props.C57_resolve_pure"
   ],
   "note": "tryResolve: for factories that do not themselves register services."
  },
  {
   "property": "C58",
   "status": "proved",
   "theorems": [
    "PyZeal.Props.C58_circle_never_resolves",
    "PyZeal.Props.C58_circle_recurses",
    "PyZeal.Props.C58_terminates"
   ],
   "note": ""
  },
  {
   "property": "C59",
   "status": "proved",
   "theorems": [
    "PyZeal.Props.C59_at_most_once",
    "PyZeal.Props.C59_history",
    "PyZeal.Props.C59_initialized_iff_returned"
   ],
   "note": ""
  },
  {
   "property": "C60",
   "status": "proved",
   "theorems": [
    "PyZeal.Props.C60_cli",
    "PyZeal.Props.C60_cli_no_plugins",
    "PyZeal.Props.C60_combined",
    "PyZeal.Props.C60_gui_fails",
    "PyZeal.Props.C60_script",
    "PyZeal.Props.C60_sealed"
   ],
   "note": "Start-up in a mode with GUI succeeds if a settings service was registered before (C60_gui_fails needs its absence). CLI|SCRIPT registers only the settings (C60_combined)."
  },
  {
   "property": "C61",
   "status": "proved",
   "theorems": [
    "PyZeal.Props.C61_algorithm",
    "PyZeal.Props.C61_algorithm_diverges",
    "PyZeal.Props.C61_algorithm_explicit",
    "PyZeal.Props.C61_container",
    "PyZeal.Props.C61_container_diverges",
    "PyZeal.Props.C61_container_explicit",
    "PyZeal.Props.C61_estimator",
    "PyZeal.Props.C61_estimator_diverges",
    "PyZeal.Props.C61_estimator_explicit",
    "PyZeal.Props.C61_estimator_parameters",
    "PyZeal.Props.C61_finder"
   ],
   "note": ""
  },
  {
   "property": "C62",
   "status": "proved",
   "theorems": [
    "PyZeal.Props.C62_settings_persist",
    "PyZeal.Props.C62_shipped_defaults"
   ],
   "note": ""
  },
  {
   "property": "C63",
   "status": "proved",
   "theorems": [
    "PyZeal.Props.C63_only_one_key",
    "PyZeal.Props.C63_order"
   ],
   "note": ""
  },
  {
   "property": "C64",
   "status": "partial",
   "theorems": [
    "PyZeal.Props.C64_broken_file",
    "PyZeal.Props.C64_counterexample",
    "PyZeal.Props.C64_failure_keeps_file",
    "PyZeal.Props.C64_unknown_key",
    "PyZeal.Props.C64_wrong_type_partial"
   ],
   "note": "False of the code for precisions: C64_counterexample (tuples with fewer than two entries raise IndexError; triples and booleans are accepted). C64_wrong_type_partial covers all other values of the wrong type; unknown keys, unreadable files and 'an update that raises changes no file' hold without restriction."
  },
  {
   "property": "C65",
   "status": "partial",
   "theorems": [
    "PyZeal.Props.C65_counterexample",
    "PyZeal.Props.C65_failed_assignment_partial",
    "PyZeal.Props.C65_successful_assignment"
   ],
   "note": "False of the code: C65_counterexample (the attribute is set before the value is checked). C65_failed_assignment_partial: the files and all other settings are unaffected."
  },
  {
   "property": "C66",
   "status": "partial",
   "theorems": [
    "PyZeal.Props.C66_counterexample",
    "PyZeal.Props.C66_crash_points_partial",
    "PyZeal.Props.C66_stuck_partial"
   ],
   "note": "False of the code: C66_counterexample (death between open(...,'w') and dump leaves an unreadable file). C66_crash_points_partial: that is the only bad crash point and the shipped file is always intact; C66_stuck_partial: what happens afterwards."
  },
  {
   "property": "C67",
   "status": "partial",
   "theorems": [
    "PyZeal.Props.C67_counterexample",
    "PyZeal.Props.C67_race_partial",
    "PyZeal.Props.C67_serial_partial"
   ],
   "note": "False of the code: C67_counterexample (lost update). C67_race_partial: for every interleaving, at least one change survives or the file is unreadable, and no other key is affected; C67_serial_partial: both survive if the processes do not overlap."
  },
  {
   "property": "C68",
   "status": "proved",
   "theorems": [
    "PyZeal.Props.C68_invalid_differs",
    "PyZeal.Props.C68_ram_equals_json"
   ],
   "note": ""
  },
  {
   "property": "C69",
   "status": "partial",
   "theorems": [
    "PyZeal.Props.C69_counterexample",
    "PyZeal.Props.C69_errors_partial",
    "PyZeal.Props.C69_key_by_key",
    "PyZeal.Props.C69_reports",
    "PyZeal.Props.C69_total",
    "PyZeal.Props.C69_unknown_ignored"
   ],
   "note": "False of the code for precisions: C69_counterexample (one entry: IndexError; pair of strings accepted). C69_errors_partial classifies all exceptions; the other C69 theorems prove key-by-key override, totality and that unknown keys are ignored."
  },
  {
   "property": "C70",
   "status": "proved",
   "theorems": [
    "PyZeal.Props.C70_change",
    "PyZeal.Props.C70_requests_unique"
   ],
   "note": ""
  },
  {
   "property": "C71",
   "status": "partial",
   "theorems": [
    "PyZeal.Props.C71_counterexample",
    "PyZeal.Props.C71_lines_partial",
    "PyZeal.Props.C71_truthful_partial"
   ],
   "note": "False of the code for the container: C71_counterexample (the message names the old value twice). C71_lines_partial: exact output in all cases; C71_truthful_partial: the full claim whenever the container is not changed."
  },
  {
   "property": "C72",
   "status": "proved",
   "theorems": [
    "PyZeal.Props.C72_case_insensitive",
    "PyZeal.Props.C72_invalid_algorithm",
    "PyZeal.Props.C72_invalid_container",
    "PyZeal.Props.C72_invalid_estimator",
    "PyZeal.Props.C72_invalid_level",
    "PyZeal.Props.C72_valid_algorithm",
    "PyZeal.Props.C72_valid_container",
    "PyZeal.Props.C72_valid_estimator",
    "PyZeal.Props.C72_valid_level"
   ],
   "note": ""
  },
  {
   "property": "C73",
   "status": "partial",
   "theorems": [
    "PyZeal.Props.C73_all_good_partial",
    "PyZeal.Props.C73_counterexample",
    "PyZeal.Props.C73_rejection_partial",
    "PyZeal.Props.C73_single_partial"
   ],
   "note": "False of the code: C73_counterexample (changes made before the rejected one stay). C73_rejection_partial: exact effect of a rejection; C73_single_partial: all or nothing for a single change; C73_all_good_partial: no rejection without a bad argument."
  },
  {
   "property": "C74",
   "status": "partial",
   "theorems": [
    "PyZeal.Props.C74_candidates",
    "PyZeal.Props.C74_counterexample",
    "PyZeal.Props.C74_imports_partial"
   ],
   "note": "C74_candidates proves the first part for all names. The second part is false for names that begin with a dot: C74_counterexample (.x.py is imported as pyzeal_plugins.x). C74_imports_partial: for directories without such entries exactly the candidates are imported, in order, by stem within the plugin package."
  },
  {
   "property": "C75",
   "status": "partial",
   "theorems": [
    "PyZeal.Props.C75_counterexample",
    "PyZeal.Props.C75_failure_unchanged",
    "PyZeal.Props.C75_install_missing",
    "PyZeal.Props.C75_install_partial",
    "PyZeal.Props.C75_install_touches",
    "PyZeal.Props.C75_roundtrip_partial",
    "PyZeal.Props.C75_uninstall",
    "PyZeal.Props.C75_uninstall_absent"
   ],
   "note": "False for a file that is already in the plugin directory and for directories: C75_counterexample (the exception of shutil.copy is not caught). C75_install_partial and C75_roundtrip_partial cover all other files; the other C75 theorems hold without restriction. No symbolic links in the model."
  },
  {
   "property": "C76",
   "status": "partial",
   "theorems": [
    "PyZeal.Props.C76_counterexample",
    "PyZeal.Props.C76_relative_partial"
   ],
   "note": "False of the code: C76_counterexample (../plugin_loader.py, absolute paths). C76_relative_partial: relative paths without '..' stay in the plugin directory."
  },
  {
   "property": "C77",
   "status": "partial",
   "theorems": [
    "PyZeal.Props.C77_counterexample",
    "PyZeal.Props.C77_factories_partial",
    "PyZeal.Props.C77_import_failure",
    "PyZeal.Props.C77_resolves_partial",
    "PyZeal.Props.C77_sealed"
   ],
   "note": "False if the service is registered as singleton: C77_counterexample. C77_factories_partial / C77_resolves_partial: the property for the registered factories, and for resolution without singleton (entries beginning with a dot excluded, see C74). C77_sealed, C77_import_failure as stated."
  },
  {
   "property": "C78",
   "status": "partial",
   "theorems": [
    "PyZeal.Props.C78_calls_partial",
    "PyZeal.Props.C78_counterexample"
   ],
   "note": "False of the code: C78_counterexample (_instance is never assigned). C78_calls_partial: what happens for every number of calls."
  },
  {
   "property": "C79",
   "status": "proved",
   "theorems": [
    "PyZeal.Props.C79_aligned"
   ],
   "note": ""
  },
  {
   "property": "C80",
   "status": "proved",
   "theorems": [
    "PyZeal.Props.C80_at_most_once",
    "PyZeal.Props.C80_independent",
    "PyZeal.Props.C80_save",
    "PyZeal.Props.C80_unsave"
   ],
   "note": ""
  },
  {
   "property": "C81",
   "status": "partial",
   "theorems": [
    "PyZeal.Props.C81_counterexample",
    "PyZeal.Props.C81_derivative_partial",
    "PyZeal.Props.C81_func_partial"
   ],
   "note": "False of the code: C81_counterexample (wrapping another function in unsave mode redirects the first wrapper). C81_func_partial, C81_derivative_partial: true as long as nothing is wrapped in unsave mode afterwards."
  },
  {
   "property": "C82",
   "status": "proved",
   "theorems": [
    "PyZeal.Props.C82_first_use",
    "PyZeal.Props.C82_level",
    "PyZeal.Props.C82_one_handler"
   ],
   "note": ""
  },
  {
   "property": "C83",
   "status": "proved",
   "theorems": [
    "PyZeal.Props.C83_different",
    "PyZeal.Props.C83_length"
   ],
   "note": ""
  },
  {
   "property": "C84",
   "status": "proved",
   "theorems": [
    "PyZeal.Props.C84_work"
   ],
   "note": ""
  },
  {
   "property": "C85",
   "status": "proved",
   "theorems": [
    "PyZeal.Props.C85_even_grid",
    "PyZeal.Props.C85_halving"
   ],
   "note": ""
  },
  {
   "property": "C86",
   "status": "partial",
   "theorems": [
    "PyZeal.Props.C86_bar_stopped_partial",
    "PyZeal.Props.C86_counterexample"
   ],
   "note": "False of the code: C86_counterexample (an exception other than KeyboardInterrupt leaves the bar running). C86_bar_stopped_partial: stopped whenever the call returns."
  },
  {
   "property": "C87",
   "status": "proved",
   "theorems": [
    "PyZeal.Props.C87_accumulate",
    "PyZeal.Props.C87_accumulate_parallel"
   ],
   "note": ""
  },
  {
   "property": "C88",
   "status": "partial",
   "theorems": [
    "PyZeal.Props.C88_counterexample",
    "PyZeal.Props.C88_no_plugin_loads_partial",
    "PyZeal.Props.C88_start_fails_partial"
   ],
   "note": "False of the code: C88_counterexample (plugins are imported from pyzeal_plugins.custom_plugins but installed to pyzeal.plugins.custom_plugins). C88_no_plugin_loads_partial, C88_start_fails_partial: without a package of the former name every plugin file makes loading and start-up raise."
  },
  {
   "property": "C89",
   "status": "partial",
   "theorems": [
    "PyZeal.Props.C89_counterexample",
    "PyZeal.Props.C89_precision_partial",
    "PyZeal.Props.C89_verbosity_partial"
   ],
   "note": "False of the code: C89_counterexample ('maybe' switches verbosity off). C89_verbosity_partial, C89_precision_partial: what is done instead for every string, and that valid arguments are accepted."
  },
  {
   "property": "C90",
   "status": "proved",
   "theorems": [
    "PyZeal.Props.C90_view"
   ],
   "note": ""
  },
  {
   "property": "C91",
   "status": "proved",
   "theorems": [
    "PyZeal.Props.C91_install",
    "PyZeal.Props.C91_plugin_files",
    "PyZeal.Props.C91_plugin_keeps_settings",
    "PyZeal.Props.C91_testing",
    "PyZeal.Props.C91_without_plugin"
   ],
   "note": ""
  },
  {
   "property": "C92",
   "status": "partial",
   "theorems": [
    "PyZeal.Props.C92_counterexample",
    "PyZeal.Props.C92_fork_partial"
   ],
   "note": "False of the code for start methods other than fork: C92_counterexample (the module is imported anew, every wrapper raises). C92_fork_partial: with fork."
  },
  {
   "property": "C93",
   "status": "proved",
   "theorems": [
    "PyZeal.Props.C93_dotted_names",
    "PyZeal.Props.C93_once"
   ],
   "note": ""
  },
  {
   "property": "C94",
   "status": "partial",
   "theorems": [
    "PyZeal.Props.C94_counterexample",
    "PyZeal.Props.C94_level_stays_partial"
   ],
   "note": "False of the code: C94_counterexample (objects of classes of one module share a logger, whose level is reset at the first use of each). C94_level_stays_partial: otherwise."
  },
  {
   "property": "C95",
   "status": "partial",
   "theorems": [
    "PyZeal.Props.C95_counterexample",
    "PyZeal.Props.C95_finder_partial"
   ],
   "note": "False of the code: C95_counterexample (estimator and cache keep their level). C95_finder_partial: exactly the loggers of finder, container and algorithm are set."
  },
  {
   "property": "C96",
   "status": "partial",
   "theorems": [
    "PyZeal.Props.C96_counterexample",
    "PyZeal.Props.C96_single_consumer_partial",
    "PyZeal.Props.C96_terminates_partial"
   ],
   "note": "False of the code when several containers read from one queue: C96_counterexample (the element seen by the emptiness test is taken by another reader, get() waits forever). C96_single_consumer_partial, C96_terminates_partial: a container that is the only reader never waits and its transfer terminates with all roots."
  },
  {
   "property": "C97",
   "status": "proved",
   "theorems": [
    "PyZeal.Props.C97_parallel",
    "PyZeal.Props.C97_plain",
    "PyZeal.Props.C97_serial"
   ],
   "note": ""
  },
  {
   "property": "C98",
   "status": "partial",
   "theorems": [
    "PyZeal.Props.C98_counterexample",
    "PyZeal.Props.C98_finder_partial",
    "PyZeal.Props.C98_finder_total_partial",
    "PyZeal.Props.C98_newton_partial",
    "PyZeal.Props.C98_newton_total_partial",
    "PyZeal.Props.C98_search_partial",
    "PyZeal.Props.C98_shipped_partial",
    "PyZeal.Props.C98_total_partial"
   ],
   "note": "False of the code without a hypothesis on lines with phase 0: C98_counterexample (a line whose phase is exactly 0 is evaluated again from an overwritten internal cache; a root is lost silently). C98_search_partial, C98_finder_partial: the full claim for every first search in which no line has the phase exactly 0 (the run with strictLine returns). C98_total_partial, C98_newton_total_partial, C98_finder_total_partial: with hypotheses on the function and the settings only (Safe), that the search returns is a conclusion. C98_newton_partial: the same for the Newton algorithm. C98_shipped_partial: the same for RootFinder(f, df) on a new installation."
  },
  {
   "property": "C99",
   "status": "partial",
   "theorems": [
    "PyZeal.Props.C99_counterexample",
    "PyZeal.Props.C99_forgets_partial",
    "PyZeal.Props.C99_immediate_partial",
    "PyZeal.Props.C99_vertical_counterexample"
   ],
   "note": "False of the code: C99_counterexample (a shorter line overwrites the entry of the longer one), C99_vertical_counterexample (even for immediate repetition). C99_immediate_partial: a line asked for the first time at its height gets the same value when asked again at once; C99_forgets_partial: which value is returned instead."
  },
  {
   "property": "C100",
   "status": "partial",
   "theorems": [
    "PyZeal.Props.C100_counterexample",
    "PyZeal.Props.C100_horizontal_partial",
    "PyZeal.Props.C100_search_counterexample",
    "PyZeal.Props.C100_vertical_partial"
   ],
   "note": "False of the code for vertical lines: C100_counterexample, C100_search_counterexample (a whole search ends with IndexError). C100_horizontal_partial: horizontal lines never raise in any state; C100_vertical_partial: the exact condition for vertical lines."
  },
  {
   "property": "C101",
   "status": "proved",
   "theorems": [
    "PyZeal.Props.C101_estimators",
    "PyZeal.Props.C101_newton",
    "PyZeal.Props.C101_simple",
    "PyZeal.Props.C101_zero_again"
   ],
   "note": ""
  },
  {
   "property": "C102",
   "status": "proved",
   "theorems": [
    "PyZeal.Props.C102_defaults_are_explicit",
    "PyZeal.Props.C102_new_finder",
    "PyZeal.Props.C102_new_parallel_finder",
    "PyZeal.Props.C102_no_default_algorithm",
    "PyZeal.Props.C102_persisted"
   ],
   "note": ""
  },
  {
   "property": "C103",
   "status": "proved",
   "theorems": [
    "PyZeal.Props.C103_read_after_search",
    "PyZeal.Props.C103_reading_harmless",
    "PyZeal.Props.C103_reports",
    "PyZeal.Props.C103_stable"
   ],
   "note": ""
  },
  {
   "property": "C104",
   "status": "proved",
   "theorems": [
    "PyZeal.Props.C104_conforming",
    "PyZeal.Props.C104_double",
    "PyZeal.Props.C104_exact",
    "PyZeal.Props.C104_inside",
    "PyZeal.Props.C104_no_zero_lost"
   ],
   "note": "Rounding inside the estimators is not modelled: their results are arbitrary (hypotheses speak of the computed phases). No overflow or underflow. C104_exact: without rounding it is the model of C34-C38."
  },
  {
   "property": "C105",
   "status": "partial",
   "theorems": [
    "PyZeal.Props.C105_double_partial",
    "PyZeal.Props.C105_returns_partial",
    "PyZeal.Props.C105_too_fine",
    "PyZeal.Props.C105_too_fine_double",
    "PyZeal.Props.farSearch_fails"
   ],
   "note": "False of the code: C105_too_fine (any arithmetic), C105_too_fine_double (Python floats), farSearch_fails (a concrete search): if the machine numbers around a coordinate of a zero are further apart than 10**(-p), the search fails with RecursionError for every recursion limit. C105_returns_partial, C105_double_partial: no RecursionError if the rectangle is within 2^50 * 10**(-p) of the axes."
  },
  {
   "property": "C106",
   "status": "proved",
   "theorems": [
    "PyZeal.Props.C106_clear",
    "PyZeal.Props.C106_decision",
    "PyZeal.Props.C106_exact",
    "PyZeal.Props.C106_phase",
    "PyZeal.Props.C106_shipped",
    "PyZeal.Props.C106_sides_end",
    "PyZeal.Props.C106_sum",
    "PyZeal.Props.C106_whole_turns"
   ],
   "note": "Parameters of the model with stated accuracy: complex quotient, arctan2, order of summation. No overflow or underflow. A new estimator and an empty cache (slices of cached lines: C28/C29). That the number of turns is the number of zeros inside: C108."
  },
  {
   "property": "C107",
   "status": "partial",
   "theorems": [
    "PyZeal.Props.C107_counterexample",
    "PyZeal.Props.C107_horizontal_double_partial",
    "PyZeal.Props.C107_horizontal_partial",
    "PyZeal.Props.C107_stuck",
    "PyZeal.Props.C107_stuck_double",
    "PyZeal.Props.C107_vertical_double_partial",
    "PyZeal.Props.C107_vertical_partial"
   ],
   "note": "False of the code: C107_stuck (any arithmetic), C107_stuck_double (Python floats), C107_counterexample (a concrete line): if a sample point is a zero and adding the offset 2*10**(-p) to it is lost in rounding, sampling never ends. Proved: it ends for horizontal/vertical lines whose distance from the axis is at most 2^49 * 10**(-p) (and, for any arithmetic, under an explicit condition)."
  },
  {
   "property": "C108",
   "status": "proved",
   "theorems": [
    "PyZeal.Props.C108_count",
    "PyZeal.Props.C108_shipped"
   ],
   "note": "Parameters and assumptions as in C106. The conditions on d and on the turns are on sampleGap = L/6499 + 18*2^-53*R (L the longer side, R a bound for the coordinates)."
  },
  {
   "property": "C109",
   "status": "proved",
   "theorems": [
    "PyZeal.Props.C109_added",
    "PyZeal.Props.C109_double",
    "PyZeal.Props.C109_double_close",
    "PyZeal.Props.C109_exact",
    "PyZeal.Props.C109_numpy_fails",
    "PyZeal.Props.C109_python",
    "PyZeal.Props.C109_python_close",
    "PyZeal.Props.C109_refused",
    "PyZeal.Props.C109_undo"
   ],
   "note": ""
  },
  {
   "property": "C110",
   "status": "proved",
   "theorems": [
    "PyZeal.Props.C110_serial"
   ],
   "note": ""
  },
  {
   "property": "C111",
   "status": "proved",
   "theorems": [
    "PyZeal.Props.C111_agreed",
    "PyZeal.Props.C111_history",
    "PyZeal.Props.C111_raises",
    "PyZeal.Props.C111_refused",
    "PyZeal.Props.C111_total",
    "PyZeal.Props.C111_transfer"
   ],
   "note": ""
  },
  {
   "property": "C112",
   "status": "partial",
   "theorems": [
    "PyZeal.Props.C112_calls",
    "PyZeal.Props.C112_interrupted_partial",
    "PyZeal.Props.C112_parallel_partial",
    "PyZeal.Props.C112_serial_partial",
    "PyZeal.Props.C112_subset_partial",
    "PyZeal.Props.C112_swallowed"
   ],
   "note": "False of the code for RuntimeError and its subclasses with the algorithms using Newton's method: C112_swallowed. The _partial theorems: all exceptions with the other algorithms, all but RuntimeError with these."
  },
  {
   "property": "C113",
   "status": "proved",
   "theorems": [
    "PyZeal.Props.C113_jobs",
    "PyZeal.Props.C113_parallel",
    "PyZeal.Props.C113_schedules"
   ],
   "note": ""
  },
  {
   "property": "C114",
   "status": "proved",
   "theorems": [
    "PyZeal.Props.C114_parallel",
    "PyZeal.Props.C114_serial",
    "PyZeal.Props.C114_simple"
   ],
   "note": ""
  },
  {
   "property": "C115",
   "status": "proved",
   "theorems": [
    "PyZeal.Props.C115_parallel",
    "PyZeal.Props.C115_serial",
    "PyZeal.Props.C115_sound"
   ],
   "note": ""
  },
  {
   "property": "C116",
   "status": "proved",
   "theorems": [
    "PyZeal.Props.C116_parallel",
    "PyZeal.Props.C116_serial",
    "PyZeal.Props.C116_sound"
   ],
   "note": ""
  },
  {
   "property": "C117",
   "status": "proved",
   "theorems": [
    "PyZeal.Props.C117_parallel",
    "PyZeal.Props.C117_serial"
   ],
   "note": ""
  },
  {
   "property": "C118",
   "status": "proved",
   "theorems": [
    "PyZeal.Props.C118_accepted",
    "PyZeal.Props.C118_exact",
    "PyZeal.Props.C118_unambiguous",
    "PyZeal.Props.C118_understood"
   ],
   "note": ""
  },
  {
   "property": "C119",
   "status": "proved",
   "theorems": [
    "PyZeal.Props.C119_help",
    "PyZeal.Props.C119_help_change",
    "PyZeal.Props.C119_help_plugin",
    "PyZeal.Props.C119_help_view",
    "PyZeal.Props.C119_rejected",
    "PyZeal.Props.C119_version"
   ],
   "note": ""
  },
  {
   "property": "C120",
   "status": "proved",
   "theorems": [
    "PyZeal.Props.C120_change",
    "PyZeal.Props.C120_order"
   ],
   "note": ""
  },
  {
   "property": "C121",
   "status": "proved",
   "theorems": [
    "PyZeal.Props.C121_files",
    "PyZeal.Props.C121_settings"
   ],
   "note": ""
  },
  {
   "property": "C122",
   "status": "proved",
   "theorems": [
    "PyZeal.Props.C122_bare",
    "PyZeal.Props.C122_view"
   ],
   "note": ""
  },
  {
   "property": "C123",
   "status": "proved",
   "theorems": [
    "PyZeal.Props.C123_agrees",
    "PyZeal.Props.C123_estimator",
    "PyZeal.Props.C123_failure",
    "PyZeal.Props.C123_inUse",
    "PyZeal.Props.C123_other_estimator",
    "PyZeal.Props.C123_own_settings",
    "PyZeal.Props.C123_services",
    "PyZeal.Props.C123_start",
    "PyZeal.Props.C123_stock"
   ],
   "note": ""
  },
  {
   "property": "C124",
   "status": "proved",
   "theorems": [
    "PyZeal.Props.C124_finds",
    "PyZeal.Props.C124_independent"
   ],
   "note": ""
  },
  {
   "property": "C125",
   "status": "partial",
   "theorems": [
    "PyZeal.Props.C125_counterexample",
    "PyZeal.Props.C125_quadrature_partial"
   ],
   "note": "False of the code with the summation estimator: C125_counterexample (an interrupted search, repeated, returns without warning and without the zero). C125_quadrature_partial: the full claim for the quadrature estimator and the Newton grid; C124_independent: for the summation estimator if earlier searches stayed off the rectangle."
  },
  {
   "property": "C126",
   "status": "partial",
   "theorems": [
    "PyZeal.Props.C126_counterexample",
    "PyZeal.Props.C126_lowest_row_partial",
    "PyZeal.Props.C126_one_process_partial"
   ],
   "note": "False of the code with two processes: C126_counterexample (a zero the serial search finds is silently lost). C126_lowest_row_partial: zeros in the lowest row of jobs are found, for any number of processes and every schedule; C126_one_process_partial: all zeros with one process."
  },
  {
   "property": "C127",
   "status": "partial",
   "theorems": [
    "PyZeal.Props.C127_finder_partial",
    "PyZeal.Props.C127_search_partial",
    "PyZeal.Props.C127_total_partial",
    "PyZeal.Props.C98_counterexample"
   ],
   "note": "False of the code without a hypothesis on lines with phase 0, as C98: C98_counterexample (a line whose phase is exactly 0 is evaluated again from an overwritten internal cache). C127_search_partial: the full claim for every first search in which no line has the computed phase exactly 0. C127_total_partial, C127_finder_partial: hypotheses on the function, the arguments and the settings only (SafeF: the argument differs at the two ends of every side), that the search returns is a conclusion."
  },
  {
   "property": "C128",
   "status": "proved",
   "theorems": [
    "PyZeal.Props.C128_parallel",
    "PyZeal.Props.C128_rows",
    "PyZeal.Props.C128_rows_parallel",
    "PyZeal.Props.C128_serial"
   ],
   "note": "Exact arithmetic (areas and sums are not rounded)."
  },
  {
   "property": "C129",
   "status": "partial",
   "theorems": [
    "PyZeal.Props.C129_counterexample",
    "PyZeal.Props.C129_parallel_partial",
    "PyZeal.Props.C129_quiet",
    "PyZeal.Props.C129_shown_partial",
    "PyZeal.Props.C129_stays_visible",
    "PyZeal.Props.C129_updates"
   ],
   "note": "False of the code for interrupts: C129_counterexample, C129_stays_visible (after every interrupted search the row stays visible with its clock running; TaskID 0 is falsy). C129_shown_partial, C129_parallel_partial, C129_quiet: everything else, for all outcomes and schedules."
  },
  {
   "property": "C130",
   "status": "proved",
   "theorems": [
    "PyZeal.Props.C130_finder",
    "PyZeal.Props.C130_line",
    "PyZeal.Props.C130_newton",
    "PyZeal.Props.C130_parallel",
    "PyZeal.Props.C130_search"
   ],
   "note": "Exact arithmetic; scipy's romb modelled as the documented algorithm (Model/Romberg.lean). C130_line: one side; C130_search, C130_newton: the searches; C130_finder, C130_parallel: calculateRoots. The derivative is given (without it QUADRATURE_ESTIMATOR raises, C33)."
  },
  {
   "property": "C131",
   "status": "proved",
   "theorems": [
    "PyZeal.Props.C131_line",
    "PyZeal.Props.C131_rectangle"
   ],
   "note": "Exact arithmetic, romb as in C130. C131_line: one side; C131_rectangle: calcMoment with a fresh cache."
  },
  {
   "property": "C132",
   "status": "proved",
   "theorems": [
    "PyZeal.Props.C132_finder",
    "PyZeal.Props.C132_parallel",
    "PyZeal.Props.C132_search"
   ],
   "note": "Exact arithmetic, romb as in C130; the polynomial solver is a parameter with a stated accuracy (SolvesWithin). The hypotheses (PolyResolved) speak about the rectangles the search comes to look at, not about computed values."
  },
  {
   "property": "C133",
   "status": "proved",
   "theorems": [
    "PyZeal.Props.C133_finds",
    "PyZeal.Props.C133_grid",
    "PyZeal.Props.C133_newton",
    "PyZeal.Props.C133_secant"
   ],
   "note": "Exact arithmetic; scipy.optimize.newton modelled from its documented algorithm (Model/ScipyNewton); the vectorised secant method (grid algorithm without derivative) is a parameter."
  },
  {
   "property": "C134",
   "status": "proved",
   "theorems": [
    "PyZeal.Props.C134_finder",
    "PyZeal.Props.C134_parallel",
    "PyZeal.Props.C134_search"
   ],
   "note": "Exact arithmetic, romb as in C130 and scipy.optimize.newton as in C133."
  },
  {
   "property": "C135",
   "status": "proved",
   "theorems": [
    "PyZeal.Props.C135_finder",
    "PyZeal.Props.C135_parallel"
   ],
   "note": "Exact arithmetic, scipy.optimize.newton as in C133; with derivative only."
  },
  {
   "property": "C136",
   "status": "proved",
   "theorems": [
    "PyZeal.Props.C136_grid",
    "PyZeal.Props.C136_grid_parallel",
    "PyZeal.Props.C136_grid_plain",
    "PyZeal.Props.C136_newton",
    "PyZeal.Props.C136_newton_parallel",
    "PyZeal.Props.C136_polynomial",
    "PyZeal.Props.C136_polynomial_parallel",
    "PyZeal.Props.C136_simple",
    "PyZeal.Props.C136_simple_parallel",
    "PyZeal.Props.C136_summation"
   ],
   "note": "Exact arithmetic; libraries as assumed in C98, C130, C132, C133."
  },
  {
   "property": "C137",
   "status": "proved",
   "theorems": [
    "PyZeal.Props.C137_finder",
    "PyZeal.Props.C137_grid",
    "PyZeal.Props.C137_parallel"
   ],
   "note": "Exact arithmetic; scipy.optimize.newton as in Model/ScipySecant.lean."
  },
  {
   "property": "C138",
   "status": "proved",
   "theorems": [
    "PyZeal.Props.C138_end_to_end",
    "PyZeal.Props.C138_finder",
    "PyZeal.Props.C138_search"
   ],
   "note": "Exact arithmetic; scipy.optimize.newton as in Model/ScipyNewton.lean; first search of a finder (later searches: see C124, C125)."
  },
  {
   "property": "C139",
   "status": "proved",
   "theorems": [
    "PyZeal.Props.C139_comma",
    "PyZeal.Props.C139_finder",
    "PyZeal.Props.C139_none",
    "PyZeal.Props.C139_search"
   ],
   "note": "Names are lists of characters; str of a float is a parameter."
  },
  {
   "property": "C140",
   "status": "proved",
   "theorems": [
    "PyZeal.Props.C140_leaves",
    "PyZeal.Props.C140_run"
   ],
   "note": "File system simplified: the package's directory exists, pytest does not change the working directory."
  },
  {
   "property": "C141",
   "status": "proved",
   "theorems": [
    "PyZeal.Props.C141_in_time",
    "PyZeal.Props.C141_too_early"
   ],
   "note": "First requests succeed (the directory and the file for logs can be created) for the part after the first use."
  },
  {
   "property": "C142",
   "status": "proved",
   "theorems": [
    "PyZeal.Props.C142_parallel_quad",
    "PyZeal.Props.C142_parallel_sum",
    "PyZeal.Props.C142_quad",
    "PyZeal.Props.C142_sum"
   ],
   "note": "Not returning normally = raising an error, or running out of the model's bounds for the loops in genFuncArr, genPhiArr and the quadrature (which stand for loops that do not end). Finite numbers are exact here; overflow is not modelled."
  },
  {
   "property": "C143",
   "status": "proved",
   "theorems": [
    "PyZeal.Props.C143_parallel_quad",
    "PyZeal.Props.C143_parallel_sum",
    "PyZeal.Props.C143_quad",
    "PyZeal.Props.C143_sum"
   ],
   "note": "As for C142."
  },
  {
   "property": "C144",
   "status": "proved",
   "theorems": [
    "PyZeal.Props.C144_accumulate",
    "PyZeal.Props.C144_in_bounds",
    "PyZeal.Props.C144_remove",
    "PyZeal.Props.C144_set",
    "PyZeal.Props.C144_value"
   ],
   "note": ""
  },
  {
   "property": "C145",
   "status": "proved",
   "theorems": [
    "PyZeal.Props.C145_container",
    "PyZeal.Props.C145_container_remove",
    "PyZeal.Props.C145_filters",
    "PyZeal.Props.C145_parallel_quad",
    "PyZeal.Props.C145_parallel_quad_newton",
    "PyZeal.Props.C145_parallel_sum",
    "PyZeal.Props.C145_parallel_sum_newton",
    "PyZeal.Props.C145_quad",
    "PyZeal.Props.C145_quad_newton",
    "PyZeal.Props.C145_sum",
    "PyZeal.Props.C145_sum_newton"
   ],
   "note": "Compares the model with infinities and NaN with the exact model. Finite arithmetic is exact in both (no overflow); the polynomial variant is not compared (its higher moments are a parameter of the former model)."
  },
  {
   "property": "C146",
   "status": "proved",
   "theorems": [
    "PyZeal.Props.C146_as_script",
    "PyZeal.Props.C146_concrete",
    "PyZeal.Props.C146_determined",
    "PyZeal.Props.C146_files_kept",
    "PyZeal.Props.C146_files_plugin",
    "PyZeal.Props.C146_finder",
    "PyZeal.Props.C146_parallel_finder",
    "PyZeal.Props.C146_roots",
    "PyZeal.Props.C146_roots_newton",
    "PyZeal.Props.C146_roots_summation",
    "PyZeal.Props.C146_settings",
    "PyZeal.Props.C146_view"
   ],
   "note": "Processes do not overlap (for overlapping ones see C67) and are not killed while saving (C66). Roots: exact arithmetic, libraries as in C136; the theorems for the other algorithms follow from C136 in the same way (C146_as_script)."
  },
  {
   "property": "C147",
   "status": "proved",
   "theorems": [
    "PyZeal.Props.C147_own",
    "PyZeal.Props.C147_shared_quadrature"
   ],
   "note": ""
  },
  {
   "property": "C148",
   "status": "partial",
   "theorems": [
    "PyZeal.Props.C148_counterexample",
    "PyZeal.Props.C148_disjoint_partial"
   ],
   "note": "False of the code with the summation estimator: C148_counterexample (after another finder's search with the shared object a zero is silently lost). C148_disjoint_partial: true if the earlier searches with the shared object stayed off the rectangle; C147_shared_quadrature: true with the quadrature estimator and the Newton grid."
  },
  {
   "property": "C149",
   "status": "proved",
   "theorems": [
    "PyZeal.Props.C149_finder",
    "PyZeal.Props.C149_settings",
    "PyZeal.Props.C149_zeros"
   ],
   "note": ""
  },
  {
   "property": "C150",
   "status": "proved",
   "theorems": [
    "PyZeal.Props.C150_exact_newton",
    "PyZeal.Props.C150_exact_secant",
    "PyZeal.Props.C150_newton",
    "PyZeal.Props.C150_secant"
   ],
   "note": ""
  },
  {
   "property": "C151",
   "status": "proved",
   "theorems": [
    "PyZeal.Props.C151_finder",
    "PyZeal.Props.C151_parallel",
    "PyZeal.Props.C151_search"
   ],
   "note": ""
  },
  {
   "property": "C152",
   "status": "proved",
   "theorems": [
    "PyZeal.Props.C152_exact",
    "PyZeal.Props.C152_finder",
    "PyZeal.Props.C152_grid",
    "PyZeal.Props.C152_parallel"
   ],
   "note": ""
  },
  {
   "property": "C153",
   "status": "proved",
   "theorems": [
    "PyZeal.Props.C153_conforming",
    "PyZeal.Props.C153_exact",
    "PyZeal.Props.C153_inside",
    "PyZeal.Props.C153_no_zero_lost",
    "PyZeal.Props.C153_rounded",
    "PyZeal.Props.C153_solver"
   ],
   "note": ""
  },
  {
   "property": "C154",
   "status": "partial",
   "theorems": [
    "PyZeal.Props.C154_returns_partial",
    "PyZeal.Props.C154_too_fine",
    "PyZeal.Props.C154_too_fine_double",
    "PyZeal.Props.farNewton_fails"
   ],
   "note": "False of the code: C154_too_fine (any arithmetic), C154_too_fine_double (Python floats), farNewton_fails (a concrete search): at a zero around which the machine numbers are further apart than 10**(-p) and for which Newton's method is never started (multiple, or neighbours further apart than 0.1) the search fails with RecursionError for every recursion limit. C154_returns_partial: the full claim if the rectangle is within 2^50 * 10**(-p) of the axes."
  },
  {
   "property": "C155",
   "status": "proved",
   "theorems": [
    "PyZeal.Props.C155_parallel",
    "PyZeal.Props.C155_serial",
    "PyZeal.Props.C155_solver"
   ],
   "note": ""
  },
  {
   "property": "C156",
   "status": "proved",
   "theorems": [
    "PyZeal.Props.C156_conforming",
    "PyZeal.Props.C156_exact",
    "PyZeal.Props.C156_inside",
    "PyZeal.Props.C156_no_zero_lost"
   ],
   "note": ""
  },
  {
   "property": "C157",
   "status": "partial",
   "theorems": [
    "PyZeal.Props.C157_no_derivative",
    "PyZeal.Props.C157_returns_partial",
    "PyZeal.Props.C157_too_fine",
    "PyZeal.Props.C157_too_fine_double",
    "PyZeal.Props.farPoly_fails"
   ],
   "note": "False of the code: C157_too_fine (any arithmetic), C157_too_fine_double (Python floats), farPoly_fails (a concrete search): at a zero of order 4 or more around which the machine numbers are further apart than 10**(-p) the search fails with RecursionError for every recursion limit. C157_returns_partial: the claim about returning in full if the rectangle is within 2^50 * 10**(-p) of the axes. C157_no_derivative: in full."
  }
 ]
}