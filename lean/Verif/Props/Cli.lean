import Verif.Proof.Cli

/-!
# C70 – C73, C89 – C91: the command line interface
-/

set_option linter.unusedSectionVars false

namespace PyZeal.Props
open Spec Settings Cli

/-! ## Examples -/

/-- ASCII case conversion -/
def asciiText : PyText := ⟨fun s => String.ofList (s.toList.map Char.toUpper), fun s => String.ofList (s.toList.map Char.toLower)⟩

theorem asciiText_case : AsciiCase asciiText := ⟨fun _ _ => rfl, fun _ _ => rfl⟩

/-- a custom file with another container and unknown keys -/
def cliFS : SettingsFS :=
  ⟨shippedFile, .json (.obj [("theme", .str "dark"), ("defaultContainer", .str "PlainContainer")]), true⟩

/-- the service for `cliFS` -/
def cliSvc : Service := mkService .PLAIN_CONTAINER .SIMPLE_ARGUMENT .SUMMATION_ESTIMATOR .WARNING true (.int 5, .int 5)

theorem cliFS_load : load cliFS = .ok cliSvc := rfl

/-- a state of the program -/
def cliState : CState := ⟨⟨cliFS, cliSvc⟩, ⟨fun _ => none, fun _ => true⟩, [], []⟩

theorem cliState_sync : InSync cliState.sett where
  default := .inr ⟨_, rfl, by unfold Dict.WF; decide⟩
  custom := .inr ⟨_, rfl, by unfold Dict.WF; decide⟩
  writable := rfl
  load := cliFS_load
  valid := by
    intro k
    cases k with
    | container => exact .container _
    | algorithm => exact .algorithm _
    | estimator => exact .estimator _
    | level => exact .level _
    | verbose => exact .verbose _
    | precision => exact .precision 5 5

/-- `change --container rounding --log-level debug --precision 3 4` -/
def cliArgs : Namespace :=
  ⟨none, some (some "rounding"), some none, some none, some (some "debug"), some none, some (some [3, 4]),
    none, none, none, none, some false⟩

theorem cliArgs_accepted : Accepted cliArgs :=
  .change _ _ _ _ _ _ _ (.inr ⟨_, _, rfl, .rounding⟩) (.inl rfl) (.inl rfl) (.inr ⟨_, _, rfl, .debug⟩) (.inl rfl)
    (.inr ⟨3, 4, rfl⟩)

/-! ## C70 -/

/-- **C70.** For everything the parser accepts, `handleChangeSubcommand` succeeds; each requested setting gets
the requested value, all others keep theirs, this is what a new service will load from the files, and nothing
else is changed. -/
theorem C70_change {U : PyText} (hU : AsciiCase U) {ns : Namespace} (h : Accepted ns) (st : CState)
    (hst : InSync st.sett) :
    ∃ st', handleChange U (settingsArgs ns) st = (.ok (), st') ∧
      (∀ k v, CliRequest ns k v → st'.sett.svc k = v) ∧
      (∀ k, (¬ ∃ v, CliRequest ns k v) → st'.sett.svc k = st.sett.svc k) ∧
      load st'.sett.fs = .ok st'.sett.svc ∧ InSync st'.sett ∧ st'.fsys = st.fsys ∧ st'.tested = st.tested := by
  obtain ⟨want, hw, hall⟩ := change_all hU h
  obtain ⟨st', h1, h2, h3, h4, h5, -⟩ := hall st hst
  refine ⟨st', h1, ?_, ?_, h2.load, h2, h3, h4⟩
  · intro k v hv
    rw [h5, (hw k v).2 hv]; rfl
  · intro k hk
    rw [h5]
    rcases hk' : want k with _ | v
    · rfl
    · exact absurd ⟨v, (hw k v).1 hk'⟩ hk

/-- **C70.** A setting is requested at most once, so that the values in `C70_change` are consistent. -/
theorem C70_requests_unique {ns : Namespace} {k : Setting} {v v' : PyVal} (h : CliRequest ns k v)
    (h' : CliRequest ns k v') : v = v' := by
  cases k with
  | precision =>
    obtain ⟨m, n, e, rfl⟩ := h; obtain ⟨m', n', e', rfl⟩ := h'
    rw [e] at e'; cases e'; rfl
  | container => obtain ⟨s, e, h⟩ := h; obtain ⟨s', e', h'⟩ := h'; rw [e] at e'; cases e'; exact choice_functional h h'
  | algorithm => obtain ⟨s, e, h⟩ := h; obtain ⟨s', e', h'⟩ := h'; rw [e] at e'; cases e'; exact choice_functional h h'
  | estimator => obtain ⟨s, e, h⟩ := h; obtain ⟨s', e', h'⟩ := h'; rw [e] at e'; cases e'; exact choice_functional h h'
  | level => obtain ⟨s, e, h⟩ := h; obtain ⟨s', e', h'⟩ := h'; rw [e] at e'; cases e'; exact choice_functional h h'
  | verbose => obtain ⟨s, e, h⟩ := h; obtain ⟨s', e', h'⟩ := h'; rw [e] at e'; cases e'; exact choice_functional h h'

example : ∃ st', handleChange asciiText (settingsArgs cliArgs) cliState = (.ok (), st') ∧
    st'.sett.svc .container = .container .ROUNDING_CONTAINER ∧ st'.sett.svc .precision = .tuple [.int 3, .int 4] ∧
    st'.sett.svc .verbose = .bool true := by
  obtain ⟨st', h1, h2, h3, -⟩ := C70_change asciiText_case cliArgs_accepted cliState cliState_sync
  refine ⟨st', h1, h2 _ _ ⟨_, rfl, .rounding⟩, h2 .precision _ ⟨3, 4, rfl, rfl⟩, ?_⟩
  rw [h3]
  · rfl
  · rintro ⟨v, s, e, -⟩; cases e

/-! ## C71 -/

/-- **C71 (partial).** Exactly one line for each changed setting, none for the others, in the order container,
algorithm, estimator, log level, verbosity, precision; each line names the old and the new value, except that
the container line names the old value twice. -/
theorem C71_lines_partial {U : PyText} (hU : AsciiCase U) {ns : Namespace} (h : Accepted ns) :
    ∃ want : Setting → Option PyVal, (∀ k v, want k = some v ↔ CliRequest ns k v) ∧
      ∀ st : CState, InSync st.sett →
        (handleChange U (settingsArgs ns) st).2.out = st.out ++ messages
          (fun k old new => if k = .container then message k old old else message k old new) st.sett.svc want := by
  obtain ⟨want, hw, hall⟩ := change_all hU h
  refine ⟨want, hw, ?_⟩
  intro st hst
  obtain ⟨st', h1, -, -, -, -, h6⟩ := hall st hst
  rw [h1]
  dsimp only
  rw [h6]
  congr 1

/-- **C71 (partial).** The full claim whenever the container is not changed.  Missing: see the counterexample. -/
theorem C71_truthful_partial {U : PyText} (hU : AsciiCase U) {ns : Namespace} (h : Accepted ns) :
    ∃ want : Setting → Option PyVal, (∀ k v, want k = some v ↔ CliRequest ns k v) ∧
      ∀ st : CState, InSync st.sett → (∀ v, CliRequest ns .container v → st.sett.svc .container = v) →
        (handleChange U (settingsArgs ns) st).2.out = st.out ++ messages message st.sett.svc want := by
  obtain ⟨want, hw, hall⟩ := C71_lines_partial hU h
  refine ⟨want, hw, ?_⟩
  intro st hst hc
  rw [hall st hst]
  congr 1
  unfold messages
  congr 1
  funext k
  unfold messageFor
  rcases hk : want k with _ | v
  · rfl
  · dsimp only
    by_cases he : st.sett.svc k = v
    · rw [if_pos he, if_pos he]
    · rw [if_neg he, if_neg he, if_neg]
      rintro rfl
      exact he (hc v ((hw _ _).1 hk))

/-- **C71, counterexample.** Changing the container from plain to rounding prints that it was changed from
plain to plain. -/
theorem C71_counterexample :
    ∃ st', handleChange asciiText (settingsArgs ⟨none, some (some "rounding"), some none, some none, some none, some none,
        some none, none, none, none, none, some false⟩) cliState = (.ok (), st') ∧
      st'.sett.svc .container = .container .ROUNDING_CONTAINER ∧
      st'.out = ["changed default container:   PlainContainer --> PlainContainer"] :=
  ⟨_, rfl, rfl, rfl⟩

example : (handleChange asciiText (settingsArgs ⟨none, some none, some (some "newton_grid"), some none, some (some "warning"),
      some (some "False"), some (some [5, 6]), none, none, none, none, some false⟩) cliState).2.out =
    ["changed default algorithm:   SimpleArgument --> NewtonGrid", "changed default verbosity:   True --> False",
      "changed default precision:   (5, 5) --> (5, 6)"] := rfl

/-! ## C72 -/

/-- **C72.** A string whose upper case version is not the name of a member is rejected, and nothing is changed. -/
theorem C72_invalid_container (U : PyText) (s : String) (h : ∀ c : ContainerTypes, U.upper s ≠ c.name) (st : CState) :
    changeContainer U s st = (.error (.systemExit 2), st) := by
  unfold changeContainer; rw [findName_none h]; rfl

/-- **C72.** As above, for algorithms. -/
theorem C72_invalid_algorithm (U : PyText) (s : String) (h : ∀ c : AlgorithmTypes, U.upper s ≠ c.name) (st : CState) :
    changeAlgorithm U s st = (.error (.systemExit 2), st) := by
  unfold changeAlgorithm; rw [findName_none h]; rfl

/-- **C72.** As above, for estimators. -/
theorem C72_invalid_estimator (U : PyText) (s : String) (h : ∀ c : EstimatorTypes, U.upper s ≠ c.name) (st : CState) :
    changeEstimator U s st = (.error (.systemExit 2), st) := by
  unfold changeEstimator; rw [findName_none h]; rfl

/-- **C72.** As above, for log levels. -/
theorem C72_invalid_level (U : PyText) (s : String) (h : ∀ c : LogLevel, U.upper s ≠ c.name) (st : CState) :
    changeLogLevel U s st = (.error (.systemExit 2), st) := by
  unfold changeLogLevel; rw [findName_none h]; rfl

/-- the change of one setting -/
def ChangesTo (act : Py CState Unit) (k : Setting) (v : PyVal) : Prop :=
  ∀ st : CState, InSync st.sett → ∃ st', act st = (.ok (), st') ∧ st'.sett.svc k = v ∧
    (∀ k', k' ≠ k → st'.sett.svc k' = st.sett.svc k') ∧ load st'.sett.fs = .ok st'.sett.svc ∧ st'.fsys = st.fsys

theorem changesTo_of_step {msg : Setting → PyVal → PyVal → String} {act : Py CState Unit} {k : Setting} {v : PyVal}
    (h : DoesStep msg act k (some v)) : ChangesTo act k v := by
  intro st hst
  obtain ⟨st', h1, h2, h3, -, h5, -⟩ := h st hst
  refine ⟨st', h1, ?_, ?_, h2.load, h3⟩
  · rw [h5]; unfold put; rw [if_pos rfl]; rfl
  · intro k' hk; rw [h5]; unfold put; rw [if_neg hk]

/-- **C72.** A string whose upper case version is the name of a member changes the setting to that member. -/
theorem C72_valid_container (U : PyText) (s : String) (c : ContainerTypes) (h : U.upper s = c.name) :
    ChangesTo (changeContainer U s) .container (.container c) := by
  unfold changeContainer; rw [h, container_named]; exact changesTo_of_step (container_to c)

/-- **C72.** As above, for algorithms. -/
theorem C72_valid_algorithm (U : PyText) (s : String) (c : AlgorithmTypes) (h : U.upper s = c.name) :
    ChangesTo (changeAlgorithm U s) .algorithm (.algorithm c) := by
  unfold changeAlgorithm; rw [h, algorithm_named]; exact changesTo_of_step (algorithm_to c)

/-- **C72.** As above, for estimators. -/
theorem C72_valid_estimator (U : PyText) (s : String) (c : EstimatorTypes) (h : U.upper s = c.name) :
    ChangesTo (changeEstimator U s) .estimator (.estimator c) := by
  unfold changeEstimator; rw [h, estimator_named]; exact changesTo_of_step (estimator_to c)

/-- **C72.** As above, for log levels. -/
theorem C72_valid_level (U : PyText) (s : String) (c : LogLevel) (h : U.upper s = c.name) :
    ChangesTo (changeLogLevel U s) .level (.level c) := by
  unfold changeLogLevel; rw [h, level_named]; exact changesTo_of_step (level_to c)

/-- **C72.** For ASCII strings the condition of the theorems above says that the string is the name of the
member up to case. -/
theorem C72_case_insensitive {U : PyText} (hU : AsciiCase U) (s : String) (hs : ∀ c ∈ s.toList, c.toNat < 128) :
    (∀ m : ContainerTypes, U.upper s = m.name ↔ SameName s m.name) ∧
    (∀ m : AlgorithmTypes, U.upper s = m.name ↔ SameName s m.name) ∧
    (∀ m : EstimatorTypes, U.upper s = m.name ↔ SameName s m.name) ∧
    (∀ m : LogLevel, U.upper s = m.name ↔ SameName s m.name) := by
  have key : ∀ t : String, t.toList.map Char.toUpper = t.toList → (U.upper s = t ↔ SameName s t) := by
    intro t ht
    rw [hU.upper s hs]
    unfold SameName
    rw [ht]
    constructor
    · intro e; rw [← e, String.toList_ofList]
    · intro e; rw [e, String.ofList_toList]
  refine ⟨?_, ?_, ?_, ?_⟩ <;> intro m <;> apply key <;> cases m <;> decide

example : SameName "Simple_Argument" AlgorithmTypes.SIMPLE_ARGUMENT.name := by unfold SameName; decide
example : ∀ c : AlgorithmTypes, asciiText.upper "bisection" ≠ c.name := by intro c; cases c <;> decide
example : changeLogLevel asciiText "loud" cliState = (.error (.systemExit 2), cliState) :=
  C72_invalid_level _ _ (by intro c; cases c <;> decide) _

/-! ## C73 -/

/-- **C73, counterexample.** A valid container together with an invalid algorithm: the command exits with
status 2, but the container has been changed, also in the file. -/
theorem C73_counterexample :
    ∃ st', handleChange asciiText ⟨false, some "rounding", some "bisection", none, none, none, none⟩ cliState =
        (.error (.systemExit 2), st') ∧
      st'.sett.svc .container = .container .ROUNDING_CONTAINER ∧ cliState.sett.svc .container = .container .PLAIN_CONTAINER ∧
      stored st'.sett.fs.custom "defaultContainer" = some (.str "RoundingContainer") :=
  ⟨_, rfl, rfl, rfl, rfl⟩

/-- **C73 (partial).** If a requested change is rejected, the changes of settings that come before it (in the
order container, algorithm, estimator, log level, verbosity, precision) have been made, neither it nor those
after it; files and service agree.  Missing: the earlier changes are not undone. -/
theorem C73_rejection_partial (U : PyText) (a : SettingsArgs)
    (hp : a.precision = none ∨ ∃ m n, a.precision = some [m, n]) (pre : List Setting) (k : Setting) (post : List Setting)
    (hsplit : settingOrder = pre ++ k :: post) (hpre : ∀ k' ∈ pre, ¬ Bad U a k') (hbad : Bad U a k)
    (st : CState) (hst : InSync st.sett) :
    ∃ st', handleChange U a st = (.error (.systemExit 2), st') ∧ InSync st'.sett ∧ st'.fsys = st.fsys ∧
      (∀ k' ∈ pre, (∀ v, Asks U a k' v → st'.sett.svc k' = v) ∧
        ((¬ ∃ v, Asks U a k' v) → st'.sett.svc k' = st.sett.svc k')) ∧
      ∀ k' ∈ k :: post, st'.sett.svc k' = st.sett.svc k' := by
  have hnd : (pre ++ k :: post).Nodup := hsplit ▸ (by decide : settingOrder.Nodup)
  obtain ⟨st', h1, h2, h3, -, h5, h6⟩ := change_prefix hp pre (List.nodup_append.1 hnd).1 hpre st hst
  refine ⟨st', ?_, h2, h3, h5, ?_⟩
  · rw [handleChange_acts, hsplit, List.foldr_append, foldr_bind, Py.bind_ok h1, List.foldr_cons,
      Py.bind_error (actOf_bad hbad st')]
  · intro k' hk'
    exact h6 k' fun hin => (List.nodup_append.1 hnd).2.2 k' hin k' hk' rfl

/-- **C73 (partial).** Without a bad argument the command succeeds and makes all changes asked for. -/
theorem C73_all_good_partial (U : PyText) (a : SettingsArgs)
    (hp : a.precision = none ∨ ∃ m n, a.precision = some [m, n]) (hgood : ∀ k, ¬ Bad U a k)
    (st : CState) (hst : InSync st.sett) :
    ∃ st', handleChange U a st = (.ok (), st') ∧ InSync st'.sett ∧ st'.fsys = st.fsys ∧
      ∀ k, (∀ v, Asks U a k v → st'.sett.svc k = v) ∧
        ((¬ ∃ v, Asks U a k v) → st'.sett.svc k = st.sett.svc k) := by
  obtain ⟨st', h1, h2, h3, -, h5, -⟩ := change_prefix hp settingOrder (by decide) (fun k _ => hgood k) st hst
  refine ⟨st', ?_, h2, h3, ?_⟩
  · rw [handleChange_acts, h1]
  · intro k; exact h5 k (by cases k <;> decide)

/-- **C73 (partial).** If only one change is requested, it is all or nothing: a rejection leaves the whole state
as it was. -/
theorem C73_single_partial (U : PyText) (a : SettingsArgs) (k : Setting) (hbad : Bad U a k)
    (honly : ∀ k', k' ≠ k → optionOf a k' = none) (hprec : a.precision = none) (st : CState) :
    handleChange U a st = (.error (.systemExit 2), st) := by
  have hother : ∀ k', k' ≠ k → actOf U a k' = pure () := by
    intro k' hk'
    have := honly k' hk'
    cases k' with
    | precision => simp only [actOf, hprec]; rfl
    | container => simp only [optionOf] at this; simp only [actOf, this]; rfl
    | algorithm => simp only [optionOf] at this; simp only [actOf, this]; rfl
    | estimator => simp only [optionOf] at this; simp only [actOf, this]; rfl
    | level => simp only [optionOf] at this; simp only [actOf, this]; rfl
    | verbose => simp only [optionOf] at this; simp only [actOf, this]; rfl
  have key : ∀ l : List Setting, k ∈ l →
      l.foldr (fun k r => actOf U a k >>= fun _ => r) (pure ()) st = (.error (.systemExit 2), st) := by
    intro l
    induction l with
    | nil => intro h; cases h
    | cons x l ih =>
      intro h
      rw [List.foldr_cons]
      by_cases hx : x = k
      · subst hx; rw [Py.bind_error (actOf_bad hbad st)]
      · rw [hother x hx, pure_bind]
        exact ih ((List.mem_cons.1 h).resolve_left fun e => hx e.symm)
  rw [handleChange_acts]
  exact key _ (by cases k <;> decide)

example : Bad asciiText ⟨false, some "rounding", some "bisection", none, none, none, none⟩ .algorithm ∧
    ¬ Bad asciiText ⟨false, some "rounding", some "bisection", none, none, none, none⟩ .container := by
  constructor
  · refine ⟨_, by decide, rfl, by decide, ?_⟩
    rintro ⟨v, c, e, -⟩
    revert e; cases c <;> decide
  · rintro ⟨s, -, e, -, h⟩
    cases e
    exact h ⟨_, .ROUNDING_CONTAINER, by decide, rfl⟩

/-! ## C89 -/

/-- **C89, counterexample.** The string "maybe" is not rejected by `changeVerbositySetting`; verbosity is
switched off. -/
theorem C89_counterexample : ∃ st', changeVerbosity asciiText "maybe" cliState = (.ok (), st') ∧
    cliState.sett.svc .verbose = .bool true ∧ st'.sett.svc .verbose = .bool false ∧
    asciiText.lower "maybe" ≠ "true" ∧ asciiText.lower "maybe" ≠ "false" :=
  ⟨_, rfl, rfl, rfl, by decide, by decide⟩

/-- **C89 (partial).** What `changeVerbositySetting` does with every string: "true" (up to case) means true,
everything else false; it never raises.  Missing: the rejection of other strings. -/
theorem C89_verbosity_partial (U : PyText) (s : String) :
    ChangesTo (changeVerbosity U s) .verbose (.bool (U.lower s = "true")) := changesTo_of_step (verbosity_to U s)

/-- **C89 (partial).** Pairs of integers are accepted as precision. -/
theorem C89_precision_partial (m n : Int) :
    ChangesTo (changePrecision [m, n]) .precision (.tuple [.int m, .int n]) := changesTo_of_step (step_precision m n)

/-! ## C90 -/

/-- **C90.** `view -p` prints the values in force, one line per setting, and changes nothing. -/
theorem C90_view (a : SettingsArgs) (st : CState) (h : ∀ k, Valid k (st.sett.svc k)) :
    handleView a st = (.ok (), { st with out := st.out ++ if a.doPrint then [viewText st.sett.svc] else [] }) := by
  have hc := h .container
  have ha := h .algorithm
  have he := h .estimator
  have hl := h .level
  have hv := h .verbose
  have hp := h .precision
  unfold handleView
  rw [Py.bind_run, Py.get_run]
  dsimp only
  by_cases hd : a.doPrint = true
  · rw [if_pos hd, if_pos hd]
    have : settingsLines st.sett.svc = .ok (viewText st.sett.svc) := by
      unfold settingsLines viewText
      generalize st.sett.svc .container = c at *
      generalize st.sett.svc .algorithm = c1 at *
      generalize st.sett.svc .estimator = c2 at *
      generalize st.sett.svc .level = c3 at *
      generalize st.sett.svc .verbose = c4 at *
      generalize st.sett.svc .precision = c5 at *
      cases hc; cases ha; cases he; cases hl; cases hp
      cases hv with
      | verbose b => cases b <;> rfl
    rw [this]
    rfl
  · rw [if_neg hd, if_neg hd, List.append_nil]; rfl

example : (handleView (settingsArgs ⟨some true, none, none, none, none, none, none, none, none, none, none, some false⟩)
    cliState).2.out = [viewText cliSvc] := by
  rw [C90_view _ _ cliState_sync.valid]; rfl

/-! ## C91 -/

/-- the test modules -/
def testModules : List String := ["cli", "algorithms", "containers", "estimators"]

theorem testAll_run (ms : List String) (st : CState) :
    testAll ms st = (.ok (), { st with tested := st.tested ++ ms }) := by
  induction ms generalizing st with
  | nil => rw [List.append_nil]; rfl
  | cons m ms ih =>
    show (testModule m >>= fun _ => testAll ms) st = _
    have : testModule m st = (.ok (), { st with tested := st.tested ++ [m] }) := rfl
    rw [Py.bind_ok this, ih]
    simp

/-- **C91.** `--test` runs the four test modules, in this order, whatever their results; without it none is run. -/
theorem C91_testing (b : Bool) (st : CState) :
    handleTesting b st = (.ok b, { st with tested := st.tested ++ if b then testModules else [] }) := by
  unfold handleTesting
  cases b with
  | false => show (Except.ok false, st) = _; simp
  | true =>
    show (testAll testModules >>= fun _ => pure true) st = _
    rw [Py.bind_ok (testAll_run testModules st)]
    rfl

theorem printIf_run (b : Bool) (l : String) (st : CState) :
    ∃ o, printIf b l st = (.ok (), { st with out := o }) := by
  unfold printIf
  cases b with
  | false => exact ⟨st.out, rfl⟩
  | true => exact ⟨_, rfl⟩

/-- nothing of the plugin options was given -/
theorem handlePlugin_nothing (E : CliEnv) (st : CState) :
    handlePlugin E ⟨false, false, some [""], some [""]⟩ st = (.ok (), st) := rfl

/-- arguments without the options of `plugin` -/
theorem main_without_plugin (E : CliEnv) (hE : AsciiCase E.text) (argc : Nat) {ns : Namespace} (h : Accepted ns)
    (hplug : pluginArgs ns = ⟨false, false, some [""], some [""]⟩) (st : CState) (hst : InSync st.sett) :
    ∃ st', main E argc ns st = (.ok (), st') ∧ InSync st'.sett ∧ st'.fsys = st.fsys ∧
      st'.tested = st.tested ++ (if testArgs ns then testModules else []) ∧
      (∀ k v, CliRequest ns k v → st'.sett.svc k = v) ∧
      (∀ k, (¬ ∃ v, CliRequest ns k v) → st'.sett.svc k = st.sett.svc k) := by
  obtain ⟨o1, h1⟩ := printIf_run (decide (argc < 2)) "this is the CLI of the PyZEAL package. use '-h' for help." st
  have h2 := C90_view (settingsArgs ns) { st with out := o1 } hst.valid
  obtain ⟨st3, h3, r1, r2, -, i3, f3, t3⟩ := C70_change hE h
    { st with out := o1 ++ if (settingsArgs ns).doPrint then [viewText st.sett.svc] else [] } hst
  have h4 : handlePlugin E (pluginArgs ns) st3 = (.ok (), st3) := by rw [hplug]; rfl
  have h5 := C91_testing (testArgs ns) st3
  obtain ⟨o6, h6⟩ := printIf_run (argc == 2 && !testArgs ns) "use '-h' with your subcommand for help."
    { st3 with tested := st3.tested ++ if testArgs ns then testModules else [] }
  refine ⟨{ st3 with tested := st3.tested ++ (if testArgs ns then testModules else []), out := o6 }, ?_, i3, f3, ?_, r1, r2⟩
  · unfold main
    rw [Py.bind_ok h1, Py.bind_ok h2, Py.bind_ok h3, Py.bind_ok h4, Py.bind_ok h5]
    exact h6
  · show st3.tested ++ _ = _
    rw [t3]

/-- **C91.** Every command line without the subcommand `plugin` succeeds; it changes no files besides the
settings, changes exactly the requested settings, and runs the tests exactly if asked to. -/
theorem C91_without_plugin (E : CliEnv) (hE : AsciiCase E.text) (argc : Nat) {ns : Namespace} (h : Accepted ns)
    (hplug : ns.list = none) (st : CState) (hst : InSync st.sett) :
    ∃ st', main E argc ns st = (.ok (), st') ∧ InSync st'.sett ∧ st'.fsys = st.fsys ∧
      st'.tested = st.tested ++ (if ns.test = some true then testModules else []) ∧
      (∀ k v, CliRequest ns k v → st'.sett.svc k = v) ∧
      (∀ k, (¬ ∃ v, CliRequest ns k v) → st'.sett.svc k = st.sett.svc k) := by
  have hp : pluginArgs ns = ⟨false, false, some [""], some [""]⟩ := by
    cases h with
    | none => rfl
    | view => rfl
    | change => rfl
    | plugin => cases hplug
  have ht : (if testArgs ns then testModules else []) = if ns.test = some true then testModules else [] := by
    have : testArgs ns = decide (ns.test = some true) := by
      unfold testArgs
      rcases ns.test with _ | _ | _ <;> rfl
    rw [this]
    by_cases hh : ns.test = some true <;> simp [hh]
  rw [← ht]
  exact main_without_plugin E hE argc h hp st hst

/-- a computation that does not touch the settings -/
def KeepsSettings {α : Type} (m : Py CState α) : Prop := ∀ st, (m st).2.sett = st.sett

theorem KeepsSettings.bind {α β : Type} {m : Py CState α} {k : α → Py CState β} (hm : KeepsSettings m)
    (hk : ∀ a, KeepsSettings (k a)) : KeepsSettings (m >>= k) := by
  intro st
  have := hm st
  rw [Py.bind_run]
  rcases h : m st with ⟨_ | a, st1⟩
  · rw [h] at this; exact this
  · rw [h] at this; dsimp only; rw [hk a st1]; exact this

theorem KeepsSettings.pure {α : Type} (a : α) : KeepsSettings (Pure.pure a : Py CState α) := fun _ => rfl
theorem KeepsSettings.print (l : String) : KeepsSettings (Cli.print l) := fun _ => rfl
theorem KeepsSettings.printAll (ls : List String) : KeepsSettings (Cli.printAll ls) := by
  induction ls with
  | nil => exact .pure _
  | cons l ls ih => exact (KeepsSettings.print l).bind fun _ => ih
theorem KeepsSettings.lift {α : Type} (e : Except Err α) : KeepsSettings (Plugins.lift e : Py CState α) := by
  cases e <;> exact fun _ => rfl
theorem KeepsSettings.ite {α : Type} {c : Prop} [Decidable c] {m n : Py CState α} (hm : KeepsSettings m)
    (hn : KeepsSettings n) : KeepsSettings (if c then m else n) := by
  split <;> assumption
theorem KeepsSettings.report (msg : String) (b : Bool) : KeepsSettings (Cli.report msg b) :=
  .ite (.print _) ((KeepsSettings.print _).bind fun _ => fun _ => rfl)
theorem KeepsSettings.onFiles (m : Py FSys Bool) : KeepsSettings (Cli.onFiles m) := fun _ => rfl

theorem KeepsSettings.handlePlugin {E : CliEnv} (hload : KeepsSettings E.loadPlugins) (a : PluginArgs) :
    KeepsSettings (Cli.handlePlugin E a) := by
  refine KeepsSettings.bind ?_ fun _ => KeepsSettings.bind ?_ fun _ => KeepsSettings.bind ?_ fun _ => ?_
  · exact .ite ((KeepsSettings.print _).bind fun _ => (KeepsSettings.print _).bind fun _ => hload.bind fun _ => .printAll _)
      (.pure _)
  · refine .ite ((KeepsSettings.print _).bind fun _ => (KeepsSettings.print _).bind fun _ =>
      KeepsSettings.bind ?_ fun _ => .printAll _) (.pure _)
    exact KeepsSettings.bind (fun _ => rfl) fun _ => .lift _
  · unfold Cli.doInstall
    split
    · exact .pure _
    · exact .ite (.pure _) ((KeepsSettings.print _).bind fun _ => (KeepsSettings.onFiles _).bind fun _ => .report _ _)
  · unfold Cli.doUninstall
    split
    · exact .pure _
    · exact .ite (.pure _) ((KeepsSettings.print _).bind fun _ => (KeepsSettings.onFiles _).bind fun _ => .report _ _)

/-- **C91.** The subcommand `plugin` never changes the settings or their files, whatever its outcome (provided
the code of the plugins themselves does not, if they are loaded for the listing). -/
theorem C91_plugin_keeps_settings (E : CliEnv) (hE : AsciiCase E.text) (argc : Nat) {ns : Namespace} (h : Accepted ns)
    (hplug : ns.list ≠ none) (hload : KeepsSettings E.loadPlugins) (st : CState) :
    (main E argc ns st).2.sett = st.sett := by
  cases h with
  | none => exact absurd rfl hplug
  | view => exact absurd rfl hplug
  | change => exact absurd rfl hplug
  | plugin ls ms i u t =>
    have key : KeepsSettings (main E argc
        ⟨.none, .none, .none, .none, .none, .none, .none, some ls, some ms, some i, some u, some t⟩) := by
      refine KeepsSettings.bind ?_ fun _ => KeepsSettings.bind ?_ fun _ => KeepsSettings.bind ?_ fun _ =>
        KeepsSettings.bind (.handlePlugin hload _) fun _ => KeepsSettings.bind ?_ fun _ => ?_
      · exact .ite (.print _) (.pure _)
      · exact KeepsSettings.bind (fun _ => rfl) fun _ => .ite ((KeepsSettings.lift _).bind fun _ => .print _) (.pure _)
      · exact fun _ => rfl
      · intro st
        rw [C91_testing]
      · exact .ite (.print _) (.pure _)
    exact key st

/-- **C91.** `plugin --install p`: if `p`, taken relative to the current directory, leads to nothing, the
command prints an error, exits with status 2 and changes no files; if the file can be copied, it prints that the
plugin was installed, and the changes to the file system are those of the installation. -/
theorem C91_install (E : CliEnv) (p : PathS) (hp : p ≠ [""]) (st : CState) :
    ((Install.installPlugin E.pluginDir E.cwd (abspath E.cwd p) st.fsys).1 = .ok false →
      doInstall E (some p) st = (.error (.systemExit 2), { st with
        out := st.out ++ ["installing plugin " ++ pathStr p ++ "...", "[error] the requested plugin does not exist - abort!"] })) ∧
    ((Install.installPlugin E.pluginDir E.cwd (abspath E.cwd p) st.fsys).1 = .ok true →
      doInstall E (some p) st = (.ok (), { st with
        fsys := (Install.installPlugin E.pluginDir E.cwd (abspath E.cwd p) st.fsys).2,
        out := st.out ++ ["installing plugin " ++ pathStr p ++ "...", "[success] plugin was installed!"] })) := by
  have hrun : doInstall E (some p) = (print ("installing plugin " ++ pathStr p ++ "...") >>= fun _ =>
      onFiles (Install.installPlugin E.pluginDir E.cwd (abspath E.cwd p)) >>= fun ok =>
      report "[success] plugin was installed!" ok) := by
    show (if p = [""] then _ else _) = _
    rw [if_neg hp]
  have hnochange : ∀ fs, (Install.installPlugin E.pluginDir E.cwd (abspath E.cwd p) fs).1 = .ok false →
      (Install.installPlugin E.pluginDir E.cwd (abspath E.cwd p) fs).2 = fs := by
    intro fs
    unfold Install.installPlugin
    rw [Py.bind_run, Py.get_run]
    dsimp only
    split
    · intro _; rfl
    · rcases Install.lookup fs E.cwd (abspath E.cwd p) with _ | ⟨q, n⟩
      · intro _; rfl
      · dsimp only
        rw [Py.bind_run]
        rcases Install.copy E.pluginDir (abspath E.cwd p) q n fs with ⟨_ | _, _⟩ <;> intro h <;> cases h
  have hprint : ∀ l (s : CState), print l s = (.ok (), { s with out := s.out ++ [l] }) := fun _ _ => rfl
  have hfiles : ∀ m (s : CState), onFiles m s = ((m s.fsys).1, { s with fsys := (m s.fsys).2 }) := fun _ _ => rfl
  constructor <;> intro h
  · rw [hrun, Py.bind_ok (hprint _ _), Py.bind_run, hfiles]
    dsimp only
    rw [h]
    dsimp only
    rw [hnochange _ h]
    unfold report
    rw [if_neg (by decide), Py.bind_ok (hprint _ _)]
    simp
  · rw [hrun, Py.bind_ok (hprint _ _), Py.bind_run, hfiles]
    dsimp only
    rw [h]
    unfold report
    dsimp only
    rw [if_pos rfl, hprint]
    simp

example : ∃ st', main ⟨asciiText, [], ["plugins"], fun _ => .ok [], pure []⟩ 6 cliArgs cliState = (.ok (), st') ∧
    st'.tested = [] ∧ st'.sett.svc .level = .level .DEBUG := by
  obtain ⟨st', h1, -, -, h4, h5, -⟩ :=
    C91_without_plugin ⟨asciiText, [], ["plugins"], fun _ => .ok [], pure []⟩ asciiText_case 6 cliArgs_accepted rfl
      cliState cliState_sync
  exact ⟨st', h1, h4, h5 .level _ ⟨_, rfl, .debug⟩⟩

theorem printIf_fsys (b : Bool) (l : String) (st : CState) :
    (printIf b l st).1 = .ok () ∧ (printIf b l st).2.fsys = st.fsys := by
  obtain ⟨o, h⟩ := printIf_run b l st
  rw [h]; exact ⟨rfl, rfl⟩

theorem report_run (msg : String) (ok : Bool) (st : CState) :
    (report msg ok st).2.fsys = st.fsys ∧ ((report msg ok st).1 = .ok () ↔ ok = true) ∧
    (ok = false → (report msg ok st).1 = .error (.systemExit 2)) := by
  cases ok with
  | true => exact ⟨rfl, ⟨fun _ => rfl, fun _ => rfl⟩, nofun⟩
  | false => exact ⟨rfl, ⟨nofun, nofun⟩, fun _ => rfl⟩

/-- an operation on files followed by its report -/
theorem files_report (line msg : String) (m : Py FSys Bool) (st : CState) :
    ((print line >>= fun _ => onFiles m >>= fun ok => report msg ok) st).2.fsys = (m st.fsys).2 ∧
    (((print line >>= fun _ => onFiles m >>= fun ok => report msg ok) st).1 = .ok () ↔ (m st.fsys).1 = .ok true) ∧
    ((m st.fsys).1 = .ok false →
      ((print line >>= fun _ => onFiles m >>= fun ok => report msg ok) st).1 = .error (.systemExit 2)) := by
  have hprint : print line st = (.ok (), { st with out := st.out ++ [line] }) := rfl
  rw [Py.bind_ok hprint, Py.bind_run]
  have hfiles : onFiles m { st with out := st.out ++ [line] } =
      ((m st.fsys).1, { st with out := st.out ++ [line], fsys := (m st.fsys).2 }) := rfl
  rw [hfiles]
  rcases (m st.fsys).1 with e | b
  · exact ⟨rfl, ⟨nofun, nofun⟩, nofun⟩
  · dsimp only
    obtain ⟨r1, r2, r3⟩ := report_run msg b { st with out := st.out ++ [line], fsys := (m st.fsys).2 }
    refine ⟨r1, r2.trans ⟨fun h => by rw [h], fun h => by injection h⟩, fun h => r3 (by injection h)⟩

/-- **C91.** `plugin` with the options `--install` and `--uninstall` (either may be missing): the files are those after the
installation of the file given with `--install`, taken relative to the current directory, and, if this succeeded, after
the removal of the plugin given with `--uninstall`; the command succeeds exactly if both did, and exits with status 2 if
the file to install or the plugin to remove does not exist. -/
theorem C91_plugin_files (E : CliEnv) (argc : Nat) (i u : Option PathS) (t : Bool) (hi : i ≠ some [""])
    (hu : u ≠ some [""]) (st : CState) :
    let ns : Namespace :=
      ⟨.none, .none, .none, .none, .none, .none, .none, some false, some false, some i, some u, some t⟩
    let first := installing E i st.fsys
    let second := uninstalling E u first.2
    (first.1 = .ok true → (main E argc ns st).2.fsys = second.2 ∧
      ((main E argc ns st).1 = .ok () ↔ second.1 = .ok true) ∧
      (second.1 = .ok false → (main E argc ns st).1 = .error (.systemExit 2))) ∧
    (first.1 ≠ .ok true → (main E argc ns st).2.fsys = first.2 ∧ (main E argc ns st).1 ≠ .ok () ∧
      (first.1 = .ok false → (main E argc ns st).1 = .error (.systemExit 2))) := by
  intro ns first second
  -- what comes before the installation
  obtain ⟨o1, h1⟩ := printIf_run (decide (argc < 2)) "this is the CLI of the PyZEAL package. use '-h' for help." st
  have h2 : handleView (settingsArgs ns) { st with out := o1 } = (.ok (), { st with out := o1 }) := rfl
  have h3 : handleChange E.text (settingsArgs ns) { st with out := o1 } = (.ok (), { st with out := o1 }) := rfl
  -- the installation
  have hin : ∀ s : CState, s.fsys = st.fsys → (doInstall E i s).2.fsys = first.2 ∧
      ((doInstall E i s).1 = .ok () ↔ first.1 = .ok true) ∧
      (first.1 = .ok false → (doInstall E i s).1 = .error (.systemExit 2)) := by
    intro s hs
    cases i with
    | none => exact ⟨hs, ⟨fun _ => rfl, fun _ => rfl⟩, nofun⟩
    | some p =>
      have hp : p ≠ [""] := fun h => hi (by rw [h])
      have e : doInstall E (some p) = (print ("installing plugin " ++ pathStr p ++ "...") >>= fun _ =>
          onFiles (Install.installPlugin E.pluginDir E.cwd (abspath E.cwd p)) >>= fun ok =>
          report "[success] plugin was installed!" ok) := if_neg hp
      rw [e]
      have := files_report ("installing plugin " ++ pathStr p ++ "...") "[success] plugin was installed!"
        (Install.installPlugin E.pluginDir E.cwd (abspath E.cwd p)) s
      rw [hs] at this
      exact this
  have hun : ∀ s : CState, s.fsys = first.2 → (doUninstall E u s).2.fsys = second.2 ∧
      ((doUninstall E u s).1 = .ok () ↔ second.1 = .ok true) ∧
      (second.1 = .ok false → (doUninstall E u s).1 = .error (.systemExit 2)) := by
    intro s hs
    cases u with
    | none => exact ⟨hs, ⟨fun _ => rfl, fun _ => rfl⟩, nofun⟩
    | some p =>
      have hp : p ≠ [""] := fun h => hu (by rw [h])
      have e : doUninstall E (some p) = (print ("uninstalling plugin " ++ pathStr p ++ "...") >>= fun _ =>
          onFiles (Install.uninstallPlugin E.pluginDir E.cwd p) >>= fun ok =>
          report "[success] plugin was uninstalled!" ok) := if_neg hp
      rw [e]
      have := files_report ("uninstalling plugin " ++ pathStr p ++ "...") "[success] plugin was uninstalled!"
        (Install.uninstallPlugin E.pluginDir E.cwd p) s
      rw [hs] at this
      exact this
  have hplug : handlePlugin E (pluginArgs ns) { st with out := o1 } =
      (doInstall E i >>= fun _ => doUninstall E u) { st with out := o1 } := rfl
  have hmain : main E argc ns st = (handlePlugin E (pluginArgs ns) >>= fun _ => handleTesting (testArgs ns) >>= fun sel =>
      printIf (argc == 2 && !sel) "use '-h' with your subcommand for help.") { st with out := o1 } := by
    unfold main
    rw [Py.bind_ok h1, Py.bind_ok h2, Py.bind_ok h3]
  obtain ⟨a1, a2, a3⟩ := hin { st with out := o1 } rfl
  rcases hI : doInstall E i { st with out := o1 } with ⟨oi, si⟩
  rw [hI] at a1 a2 a3
  dsimp only at a1 a2 a3
  constructor
  · intro hf
    have hoi := a2.2 hf
    subst hoi
    obtain ⟨b1, b2, b3⟩ := hun si a1
    rcases hU : doUninstall E u si with ⟨ou, su⟩
    rw [hU] at b1 b2 b3
    dsimp only at b1 b2 b3
    rw [Py.bind_ok hI, hU] at hplug
    rcases ou with e | ⟨⟩
    · rw [hmain, Py.bind_error hplug]
      exact ⟨b1, b2, b3⟩
    · rw [hmain, Py.bind_ok hplug, Py.bind_ok (C91_testing (testArgs ns) su)]
      obtain ⟨c1, c2⟩ := printIf_fsys (argc == 2 && !testArgs ns) "use '-h' with your subcommand for help."
        { su with tested := su.tested ++ if testArgs ns then testModules else [] }
      refine ⟨by rw [c2]; exact b1, by rw [c1]; exact b2, fun h => ?_⟩
      cases b3 h
  · intro hf
    have hoi : oi ≠ .ok () := fun h => hf (a2.1 h)
    rcases oi with e | ⟨⟩
    · rw [Py.bind_error hI] at hplug
      rw [hmain, Py.bind_error hplug]
      exact ⟨a1, nofun, a3⟩
    · exact absurd rfl hoi

/-- a file system with a home directory and a plugin directory -/
def homeFS : FSys where
  node q := if q ∈ [[], ["plugins"], ["home"]] then some .dir
    else if q = ["home", "new.py"] then some (.file 3) else none
  writable _ := true

/-- an environment of the command line interface -/
def plugCli : CliEnv := ⟨asciiText, ["home"], ["plugins"], fun _ => .ok [], pure []⟩

/-- non-vacuity: `plugin --install new.py` in the home directory -/
example : (main plugCli 4 ⟨.none, .none, .none, .none, .none, .none, .none, some false, some false, some (some ["new.py"]),
      some none, some false⟩ ⟨⟨cliFS, cliSvc⟩, homeFS, [], []⟩).1 = .ok () ∧
    (main plugCli 4 ⟨.none, .none, .none, .none, .none, .none, .none, some false, some false, some (some ["new.py"]),
      some none, some false⟩ ⟨⟨cliFS, cliSvc⟩, homeFS, [], []⟩).2.fsys.node (["plugins"] ++ ["new.py"]) = some (.file 3) := by
  have h := (C91_plugin_files plugCli 4 (some ["new.py"]) none false (by decide) (by decide)
    ⟨⟨cliFS, cliSvc⟩, homeFS, [], []⟩).1 (by decide +kernel)
  exact ⟨h.2.1.2 rfl, by rw [h.1]; decide +kernel⟩

end PyZeal.Props
