import Verif.Spec.Cli
import Verif.Proof.Settings

/-!
# Lemmas on the command line interface
-/

set_option linter.unusedSectionVars false

namespace PyZeal
open Spec Settings Cli

/-- what one step of `handleChangeSubcommand` does: setting `k` becomes `w`, if given, with a message -/
def DoesStep (msg : Setting → PyVal → PyVal → String) (act : Py CState Unit) (k : Setting) (w : Option PyVal) : Prop :=
  ∀ st : CState, InSync st.sett → ∃ st', act st = (.ok (), st') ∧ InSync st'.sett ∧
    st'.fsys = st.fsys ∧ st'.tested = st.tested ∧
    st'.sett.svc = put st.sett.svc k (w.getD (st.sett.svc k)) ∧
    st'.out = st.out ++ messageFor msg st.sett.svc k w

theorem put_self (s : Service) (k : Setting) : put s k (s k) = s := by
  funext x
  unfold put
  split
  · rename_i h; rw [h]
  · rfl

theorem doesStep_nothing (msg : Setting → PyVal → PyVal → String) (k : Setting) : DoesStep msg (pure ()) k none := by
  intro st h
  refine ⟨st, rfl, h, rfl, rfl, (put_self _ _).symm, ?_⟩
  simp [messageFor]

theorem setSetting_valid {k : Setting} {v : PyVal} (hv : Valid k v) {st : CState} (h : InSync st.sett) :
    ∃ fs', setSetting k v st = (.ok (), { st with sett := ⟨fs', put st.sett.svc k v⟩ }) ∧
      InSync ⟨fs', put st.sett.svc k v⟩ := by
  obtain ⟨fs', j, hu, hd', hw', hc', -, hm, hst⟩ := createOrUpdate_valid h.custom h.writable hv
  refine ⟨fs', ?_, ?_, hc', hw', load_after h.default h.custom h.load hd' hc' hm hst, ?_⟩
  · unfold setSetting assign
    dsimp only
    rw [hu]
  · show Usable fs'.default
    rw [hd']; exact h.default
  · intro k'
    show Valid k' (if k' = k then v else st.sett.svc k')
    split
    · rename_i e; rw [e]; exact hv
    · exact h.valid k'

theorem doesStep_changeTo {msg : Setting → PyVal → PyVal → String} {k : Setting} {v : PyVal} (hv : Valid k v)
    {same : PyVal → Bool} {t : String} {shown new : PyVal → Except Err String}
    (hsame : ∀ o, Valid k o → (same o = true ↔ o = v))
    (hmsg : ∀ o, Valid k o → ∃ a b, shown o = .ok a ∧ new o = .ok b ∧ msg k o v = t ++ a ++ " --> " ++ b) :
    DoesStep msg (changeTo k v same t shown new) k (some v) := by
  intro st h
  have ho := h.valid k
  by_cases hs : st.sett.svc k = v
  · refine ⟨st, ?_, h, rfl, rfl, ?_, ?_⟩
    · unfold changeTo
      dsimp only
      rw [if_pos ((hsame _ ho).2 hs)]
    · rw [Option.getD_some, ← hs, put_self]
    · simp [messageFor, hs]
  · obtain ⟨fs', h1, h2⟩ := setSetting_valid hv h
    obtain ⟨a, b, ha, hb, hm⟩ := hmsg _ ho
    refine ⟨{ st with sett := ⟨fs', put st.sett.svc k v⟩, out := st.out ++ [msg k (st.sett.svc k) v] }, ?_, h2, rfl, rfl, rfl, ?_⟩
    · unfold changeTo
      dsimp only
      rw [if_neg (fun e => hs ((hsame _ ho).1 e)), h1]
      dsimp only
      rw [ha, hb, hm]
      rfl
    · simp [messageFor, hs]

/-- the container message as it is -/
def actualMessage (k : Setting) (old new : PyVal) : String :=
  message k old (if k = .container then old else new)

theorem choice_valid {k : Setting} {s : String} {v : PyVal} (h : Choice k s v) : Valid k v := by
  cases h <;> constructor

theorem choice_functional {k : Setting} {s : String} {v v' : PyVal} (h : Choice k s v) (h' : Choice k s v') : v = v' := by
  generalize hs : s = s' at h'
  cases h <;> cases h' <;> first | rfl | exact absurd hs (by decide)

theorem choice_ne_empty {k : Setting} {v : PyVal} : ¬ Choice k "" v := by
  intro h; generalize hs : "" = s at h; cases h <;> exact absurd hs (by decide)

theorem upper_ascii {U : PyText} (hU : AsciiCase U) (s t : String) (h : ∀ c ∈ s.toList, c.toNat < 128)
    (ht : String.ofList (s.toList.map Char.toUpper) = t) : U.upper s = t := (hU.upper s h).trans ht

theorem lower_ascii {U : PyText} (hU : AsciiCase U) (s t : String) (h : ∀ c ∈ s.toList, c.toNat < 128)
    (ht : String.ofList (s.toList.map Char.toLower) = t) : U.lower s = t := (hU.lower s h).trans ht

/-- every member can be requested -/
theorem container_to (c : ContainerTypes) : DoesStep actualMessage (changeTo .container (.container c)
    (fun | .container o => c = o | _ => false) "changed default container:   " label label)
    .container (some (.container c)) := by
  refine doesStep_changeTo (.container _) ?_ ?_
  · intro o ho
    cases ho with
    | container c => simp [eq_comm]
  · intro o ho
    cases ho with
    | container c => exact ⟨_, _, rfl, rfl, rfl⟩

/-- every member can be requested -/
theorem algorithm_to (a : AlgorithmTypes) : DoesStep actualMessage (changeTo .algorithm (.algorithm a)
    (fun | .algorithm o => a = o | _ => false) "changed default algorithm:   " label (fun _ => label (.algorithm a)))
    .algorithm (some (.algorithm a)) := by
  refine doesStep_changeTo (.algorithm _) ?_ ?_
  · intro o ho
    cases ho with
    | algorithm c => simp [eq_comm]
  · intro o ho
    cases ho with
    | algorithm c => exact ⟨_, _, rfl, rfl, rfl⟩

/-- every member can be requested -/
theorem estimator_to (a : EstimatorTypes) : DoesStep actualMessage (changeTo .estimator (.estimator a)
    (fun | .estimator o => a = o | _ => false) "changed default estimator:   " label (fun _ => label (.estimator a)))
    .estimator (some (.estimator a)) := by
  refine doesStep_changeTo (.estimator _) ?_ ?_
  · intro o ho
    cases ho with
    | estimator c => simp [eq_comm]
  · intro o ho
    cases ho with
    | estimator c => exact ⟨_, _, rfl, rfl, rfl⟩

/-- every member can be requested -/
theorem level_to (a : LogLevel) : DoesStep actualMessage (changeTo .level (.level a)
    (fun | .level o => a = o | _ => false) "changed default log level:   " label (fun _ => label (.level a)))
    .level (some (.level a)) := by
  refine doesStep_changeTo (.level _) ?_ ?_
  · intro o ho
    cases ho with
    | level c => simp [eq_comm]
  · intro o ho
    cases ho with
    | level c => exact ⟨_, _, rfl, rfl, rfl⟩

/-- the search by name -/
theorem findName_none {τ : Type} {all : List τ} {name : τ → String} {s : String} (h : ∀ m, s ≠ name m) :
    findName all name s = none := by
  unfold findName
  rw [List.find?_eq_none]
  intro m _
  simpa using fun e => h m e.symm

theorem container_named (c : ContainerTypes) : findName ContainerTypes.all ContainerTypes.name c.name = some c := by
  cases c <;> rfl
theorem algorithm_named (c : AlgorithmTypes) : findName AlgorithmTypes.all AlgorithmTypes.name c.name = some c := by
  cases c <;> rfl
theorem estimator_named (c : EstimatorTypes) : findName EstimatorTypes.all EstimatorTypes.name c.name = some c := by
  cases c <;> rfl
theorem level_named (c : LogLevel) : findName LogLevel.all LogLevel.name c.name = some c := by
  cases c <;> rfl

section steps
variable {U : PyText} (hU : AsciiCase U)
include hU

theorem step_container {s : String} {v : PyVal} (h : Choice .container s v) :
    DoesStep actualMessage (changeContainer U (s ++ "_container")) .container (some v) := by
  cases h
  unfold changeContainer
  rw [upper_ascii hU ("rounding" ++ "_container") "ROUNDING_CONTAINER" (by decide) (by decide)]
  exact container_to _

theorem step_algorithm {s : String} {v : PyVal} (h : Choice .algorithm s v) :
    DoesStep actualMessage (changeAlgorithm U s) .algorithm (some v) := by
  unfold changeAlgorithm
  cases h with
  | newton_grid => rw [upper_ascii hU _ "NEWTON_GRID" (by decide) (by decide)]; exact algorithm_to _
  | simple_argument => rw [upper_ascii hU _ "SIMPLE_ARGUMENT" (by decide) (by decide)]; exact algorithm_to _
  | simple_argument_newton => rw [upper_ascii hU _ "SIMPLE_ARGUMENT_NEWTON" (by decide) (by decide)]; exact algorithm_to _
  | associated_polynomial => rw [upper_ascii hU _ "ASSOCIATED_POLYNOMIAL" (by decide) (by decide)]; exact algorithm_to _

theorem step_estimator {s : String} {v : PyVal} (h : Choice .estimator s v) :
    DoesStep actualMessage (changeEstimator U (s ++ "_estimator")) .estimator (some v) := by
  unfold changeEstimator
  cases h with
  | summation => rw [upper_ascii hU _ "SUMMATION_ESTIMATOR" (by decide) (by decide)]; exact estimator_to _
  | quadrature => rw [upper_ascii hU _ "QUADRATURE_ESTIMATOR" (by decide) (by decide)]; exact estimator_to _

theorem step_level {s : String} {v : PyVal} (h : Choice .level s v) :
    DoesStep actualMessage (changeLogLevel U s) .level (some v) := by
  unfold changeLogLevel
  cases h with
  | debug => rw [upper_ascii hU _ "DEBUG" (by decide) (by decide)]; exact level_to _
  | info => rw [upper_ascii hU _ "INFO" (by decide) (by decide)]; exact level_to _
  | warning => rw [upper_ascii hU _ "WARNING" (by decide) (by decide)]; exact level_to _
  | error => rw [upper_ascii hU _ "ERROR" (by decide) (by decide)]; exact level_to _
  | critical => rw [upper_ascii hU _ "CRITICAL" (by decide) (by decide)]; exact level_to _

theorem verbosity_step (s : String) (b : Bool) (h : decide (U.lower s = "true") = b) :
    DoesStep actualMessage (changeVerbosity U s) .verbose (some (.bool b)) := by
  unfold changeVerbosity
  rw [h]
  refine doesStep_changeTo (.verbose _) ?_ ?_
  · intro o ho
    cases ho with
    | verbose c => simp [sameBool, eq_comm]
  · intro o ho
    cases ho with
    | verbose c =>
      refine ⟨_, _, rfl, rfl, ?_⟩
      cases c <;> cases b <;> rfl

theorem step_verbose {s : String} {v : PyVal} (h : Choice .verbose s v) :
    DoesStep actualMessage (changeVerbosity U s) .verbose (some v) := by
  cases h with
  | true => exact verbosity_step hU _ _ (by rw [lower_ascii hU _ "true" (by decide) (by decide)]; rfl)
  | True => exact verbosity_step hU _ _ (by rw [lower_ascii hU _ "true" (by decide) (by decide)]; rfl)
  | false => exact verbosity_step hU _ _ (by rw [lower_ascii hU _ "false" (by decide) (by decide)]; rfl)
  | False => exact verbosity_step hU _ _ (by rw [lower_ascii hU _ "false" (by decide) (by decide)]; rfl)

omit hU in
theorem step_precision (m n : Int) :
    DoesStep actualMessage (changePrecision [m, n]) .precision (some (.tuple [.int m, .int n])) := by
  unfold changePrecision
  refine doesStep_changeTo (.precision _ _) ?_ ?_
  · intro o ho
    cases ho with
    | precision p q =>
      simp only [sameTuple, sameInt, List.length_cons, List.length_nil, List.zip_cons_cons, List.zip_nil_right, List.all_cons,
        List.all_nil, Bool.and_true, beq_self_eq_true, Bool.true_and, Bool.and_eq_true, decide_eq_true_eq]
      constructor
      · rintro ⟨rfl, rfl⟩; rfl
      · intro e
        injection e with e
        simp only [List.cons.injEq, PyVal.int.injEq, and_true] at e
        exact ⟨e.1.symm, e.2.symm⟩
  · intro o ho
    cases ho with
    | precision p q => exact ⟨_, _, rfl, rfl, rfl⟩

end steps

/-- one step after the other -/
theorem doesStep_seq {msg : Setting → PyVal → PyVal → String} {acts : List (Py CState Unit × Setting × Option PyVal)}
    (hacts : ∀ a ∈ acts, DoesStep msg a.1 a.2.1 a.2.2) (hnd : (acts.map fun a => a.2.1).Nodup) :
    ∀ st : CState, InSync st.sett →
      ∃ st', acts.foldr (fun a rest => a.1 >>= fun _ => rest) (pure ()) st = (.ok (), st') ∧ InSync st'.sett ∧
        st'.fsys = st.fsys ∧ st'.tested = st.tested ∧
        (∀ a ∈ acts, st'.sett.svc a.2.1 = a.2.2.getD (st.sett.svc a.2.1)) ∧
        (∀ k, k ∉ acts.map (fun a => a.2.1) → st'.sett.svc k = st.sett.svc k) ∧
        st'.out = st.out ++ acts.flatMap (fun a => messageFor msg st.sett.svc a.2.1 a.2.2) := by
  induction acts with
  | nil => intro st h; exact ⟨st, rfl, h, rfl, rfl, (by simp), (by simp), by simp⟩
  | cons a acts ih =>
    intro st h
    obtain ⟨st1, h1, h2, h3, h4, h5, h6⟩ := hacts a List.mem_cons_self st h
    rw [List.map_cons, List.nodup_cons] at hnd
    obtain ⟨st', i1, i2, i3, i4, i5, i6, i7⟩ := ih (fun b hb => hacts b (List.mem_cons_of_mem _ hb)) hnd.2 st1 h2
    have hsvc : ∀ k, k ≠ a.2.1 → st1.sett.svc k = st.sett.svc k := by
      intro k hk; rw [h5]; unfold put; rw [if_neg hk]
    refine ⟨st', ?_, i2, i3.trans h3, i4.trans h4, ?_, ?_, ?_⟩
    · rw [List.foldr_cons, Py.bind_ok h1, i1]
    · intro b hb
      rcases List.mem_cons.1 hb with rfl | hb
      · rw [i6 _ hnd.1, h5]; unfold put; rw [if_pos rfl]
      · rw [i5 b hb, hsvc]
        intro e
        exact hnd.1 (e ▸ List.mem_map_of_mem hb)
    · intro k hk
      rw [List.map_cons, List.mem_cons, not_or] at hk
      rw [i6 k hk.2, hsvc k hk.1]
    · rw [i7, h6, List.flatMap_cons, List.append_assoc]
      congr 2
      rw [List.flatMap_def, List.flatMap_def]
      refine congrArg List.flatten (List.map_congr_left fun b hb => ?_)
      have : st1.sett.svc b.2.1 = st.sett.svc b.2.1 := by
        apply hsvc
        intro e
        exact hnd.1 (e ▸ List.mem_map_of_mem hb)
      unfold messageFor
      cases b.2.2 with
      | none => rfl
      | some v => dsimp only; rw [this]

/-- a step for an option which the parser accepts, or which is not there -/
theorem given_step {k : Setting} {o : Option (Option String)} {act : String → Py CState Unit}
    (ho : o = none ∨ OptionOk k o)
    (hact : ∀ s v, Choice k s v → DoesStep actualMessage (act s) k (some v)) :
    ∃ w, DoesStep actualMessage (given (attrStr o) act) k w ∧
      ∀ v, w = some v ↔ ∃ s, o = some (some s) ∧ Choice k s v := by
  rcases ho with rfl | rfl | ⟨s, v, rfl, hv⟩
  · refine ⟨none, ?_, ?_⟩
    · show DoesStep _ (if "" = "" then pure () else act "") k none
      rw [if_pos rfl]; exact doesStep_nothing _ _
    · intro v; simp
  · refine ⟨none, doesStep_nothing _ _, ?_⟩
    intro v; simp
  · refine ⟨some v, ?_, ?_⟩
    · show DoesStep _ (if s = "" then pure () else act s) k (some v)
      rw [if_neg (fun e => by subst e; exact choice_ne_empty hv)]
      exact hact s v hv
    · intro v'
      constructor
      · intro e; cases e; exact ⟨s, rfl, hv⟩
      · rintro ⟨s', e, h⟩
        cases e
        rw [choice_functional hv h]

theorem accepted_options {ns : Namespace} (h : Accepted ns) :
    (ns.container = none ∨ OptionOk .container ns.container) ∧
    (ns.algorithm = none ∨ OptionOk .algorithm ns.algorithm) ∧
    (ns.estimator = none ∨ OptionOk .estimator ns.estimator) ∧
    (ns.logLevel = none ∨ OptionOk .level ns.logLevel) ∧
    (ns.verbose = none ∨ OptionOk .verbose ns.verbose) ∧
    (ns.precision.getD none = none ∨ ∃ m n, ns.precision = some (some [m, n])) := by
  cases h with
  | none t => exact ⟨.inl rfl, .inl rfl, .inl rfl, .inl rfl, .inl rfl, .inl rfl⟩
  | view p t => exact ⟨.inl rfl, .inl rfl, .inl rfl, .inl rfl, .inl rfl, .inl rfl⟩
  | plugin => exact ⟨.inl rfl, .inl rfl, .inl rfl, .inl rfl, .inl rfl, .inl rfl⟩
  | change c a e l v p t hc ha he hl hv hp =>
    refine ⟨.inr hc, .inr ha, .inr he, .inr hl, .inr hv, ?_⟩
    rcases hp with rfl | ⟨m, n, rfl⟩
    · exact .inl rfl
    · exact .inr ⟨m, n, rfl⟩

theorem precision_step {ns : Namespace}
    (h : ns.precision.getD none = none ∨ ∃ m n, ns.precision = some (some [m, n])) :
    ∃ w, DoesStep actualMessage (givenPrecision (settingsArgs ns).precision) .precision w ∧
      ∀ v, w = some v ↔ CliRequest ns .precision v := by
  rcases h with h | ⟨m, n, h⟩
  · refine ⟨none, ?_, ?_⟩
    · have : (settingsArgs ns).precision = none := by unfold settingsArgs; dsimp only; rw [h]
      rw [this]; exact doesStep_nothing _ _
    · intro v
      constructor
      · intro e; cases e
      · rintro ⟨m, n, e, -⟩; rw [e] at h; cases h
  · refine ⟨some (.tuple [.int m, .int n]), ?_, ?_⟩
    · have : (settingsArgs ns).precision = some [m, n] := by unfold settingsArgs; dsimp only; rw [h]; rfl
      rw [this]; exact step_precision m n
    · intro v
      constructor
      · intro e; cases e; exact ⟨m, n, h, rfl⟩
      · rintro ⟨m', n', e, rfl⟩
        rw [h] at e; cases e; rfl

/-- everything about `handleChangeSubcommand` on accepted arguments -/
theorem change_all {U : PyText} (hU : AsciiCase U) {ns : Namespace} (h : Accepted ns) :
    ∃ want : Setting → Option PyVal, (∀ k v, want k = some v ↔ CliRequest ns k v) ∧
      ∀ st : CState, InSync st.sett →
        ∃ st', handleChange U (settingsArgs ns) st = (.ok (), st') ∧ InSync st'.sett ∧
          st'.fsys = st.fsys ∧ st'.tested = st.tested ∧
          (∀ k, st'.sett.svc k = (want k).getD (st.sett.svc k)) ∧
          st'.out = st.out ++ messages actualMessage st.sett.svc want := by
  obtain ⟨oc, oa, oe, ol, ov, op⟩ := accepted_options h
  obtain ⟨wc, sc, rc⟩ := given_step oc fun s v hv => step_container hU hv
  obtain ⟨wa, sa, ra⟩ := given_step oa fun s v hv => step_algorithm hU hv
  obtain ⟨we, se, re⟩ := given_step oe fun s v hv => step_estimator hU hv
  obtain ⟨wl, sl, rl⟩ := given_step ol fun s v hv => step_level hU hv
  obtain ⟨wv, sv, rv⟩ := given_step ov fun s v hv => step_verbose hU hv
  obtain ⟨wp, sp, rp⟩ := precision_step op
  let want : Setting → Option PyVal := fun
    | .container => wc | .algorithm => wa | .estimator => we | .level => wl | .verbose => wv | .precision => wp
  refine ⟨want, ?_, ?_⟩
  · intro k v
    cases k with
    | container => exact rc v
    | algorithm => exact ra v
    | estimator => exact re v
    | level => exact rl v
    | verbose => exact rv v
    | precision => exact rp v
  · intro st hst
    obtain ⟨st', e1, e2, e3, e4, e5, e6, e7⟩ := doesStep_seq (msg := actualMessage)
      (acts := [(given (settingsArgs ns).container (fun s => changeContainer U (s ++ "_container")), .container, wc),
        (given (settingsArgs ns).algorithm (changeAlgorithm U), .algorithm, wa),
        (given (settingsArgs ns).estimator (fun s => changeEstimator U (s ++ "_estimator")), .estimator, we),
        (given (settingsArgs ns).logLevel (changeLogLevel U), .level, wl),
        (given (settingsArgs ns).verbose (changeVerbosity U), .verbose, wv),
        (givenPrecision (settingsArgs ns).precision, .precision, wp)])
      (by
        intro a ha
        simp only [List.mem_cons, List.not_mem_nil, or_false] at ha
        rcases ha with rfl | rfl | rfl | rfl | rfl | rfl
        exacts [sc, sa, se, sl, sv, sp])
      (show settingOrder.Nodup by decide) st hst
    refine ⟨st', ?_, e2, e3, e4, ?_, ?_⟩
    · rw [← e1]
      show handleChange U (settingsArgs ns) st = _
      unfold handleChange
      simp only [List.foldr_cons, List.foldr_nil]
      congr 1
      have : (givenPrecision (settingsArgs ns).precision >>= fun _ => (pure () : Py CState Unit)) =
        givenPrecision (settingsArgs ns).precision := bind_pure_unit
      rw [this]
    · intro k
      cases k with
      | container => exact e5 (_, .container, wc) List.mem_cons_self
      | algorithm => exact e5 (_, .algorithm, wa) (List.mem_cons_of_mem _ List.mem_cons_self)
      | estimator => exact e5 (_, .estimator, we) (List.mem_cons_of_mem _ (List.mem_cons_of_mem _ List.mem_cons_self))
      | level => exact e5 (_, .level, wl) (List.mem_cons_of_mem _ (List.mem_cons_of_mem _ (List.mem_cons_of_mem _ List.mem_cons_self)))
      | verbose => exact e5 (_, .verbose, wv) (List.mem_cons_of_mem _ (List.mem_cons_of_mem _ (List.mem_cons_of_mem _ (List.mem_cons_of_mem _ List.mem_cons_self))))
      | precision => exact e5 (_, .precision, wp) (List.mem_cons_of_mem _ (List.mem_cons_of_mem _ (List.mem_cons_of_mem _ (List.mem_cons_of_mem _ (List.mem_cons_of_mem _ List.mem_cons_self)))))
    · rw [e7]; rfl

/-! ## Arbitrary arguments -/

/-- the steps of `handleChangeSubcommand` -/
def actOf (U : PyText) (a : SettingsArgs) : Setting → Py CState Unit
  | .container => given a.container (fun s => changeContainer U (s ++ "_container"))
  | .algorithm => given a.algorithm (changeAlgorithm U)
  | .estimator => given a.estimator (fun s => changeEstimator U (s ++ "_estimator"))
  | .level => given a.logLevel (changeLogLevel U)
  | .verbose => given a.verbose (changeVerbosity U)
  | .precision => givenPrecision a.precision

theorem handleChange_acts (U : PyText) (a : SettingsArgs) :
    handleChange U a = settingOrder.foldr (fun k rest => actOf U a k >>= fun _ => rest) (pure ()) := by
  have : (givenPrecision a.precision >>= fun _ => (pure () : Py CState Unit)) = givenPrecision a.precision :=
    bind_pure_unit
  show handleChange U a = _
  unfold handleChange settingOrder
  simp only [List.foldr_cons, List.foldr_nil]
  simp only [actOf]
  rw [this]

theorem verbosity_to (U : PyText) (s : String) :
    DoesStep actualMessage (changeVerbosity U s) .verbose (some (.bool (U.lower s = "true"))) := by
  unfold changeVerbosity
  generalize decide (U.lower s = "true") = b
  refine doesStep_changeTo (.verbose _) ?_ ?_
  · intro o ho
    cases ho with
    | verbose c => simp [sameBool, eq_comm]
  · intro o ho
    cases ho with
    | verbose c =>
      refine ⟨_, _, rfl, rfl, ?_⟩
      cases c <;> cases b <;> rfl

/-- rejection -/
def Rejects (act : Py CState Unit) : Prop := ∀ st : CState, act st = (.error (.systemExit 2), st)

theorem actOf_names {U : PyText} {a : SettingsArgs} {k : Setting} {s : String} {v : PyVal}
    (ho : optionOf a k = some s) (hs : s ≠ "") (hn : Names U k s v) :
    DoesStep actualMessage (actOf U a k) k (some v) := by
  cases k with
  | container =>
    obtain ⟨c, hc, rfl⟩ := hn
    simp only [optionOf] at ho
    simp only [actOf, ho, given, if_neg hs, changeContainer, hc, container_named]
    exact container_to c
  | algorithm =>
    obtain ⟨c, hc, rfl⟩ := hn
    simp only [optionOf] at ho
    simp only [actOf, ho, given, if_neg hs, changeAlgorithm, hc, algorithm_named]
    exact algorithm_to c
  | estimator =>
    obtain ⟨c, hc, rfl⟩ := hn
    simp only [optionOf] at ho
    simp only [actOf, ho, given, if_neg hs, changeEstimator, hc, estimator_named]
    exact estimator_to c
  | level =>
    obtain ⟨c, hc, rfl⟩ := hn
    simp only [optionOf] at ho
    simp only [actOf, ho, given, if_neg hs, changeLogLevel, hc, level_named]
    exact level_to c
  | verbose =>
    cases hn
    simp only [optionOf] at ho
    simp only [actOf, ho, given, if_neg hs]
    exact verbosity_to U s
  | precision => exact hn.elim

theorem actOf_bad {U : PyText} {a : SettingsArgs} {k : Setting} (h : Bad U a k) : Rejects (actOf U a k) := by
  obtain ⟨s, hk, ho, hs, hn⟩ := h
  intro st
  cases k with
  | container =>
    simp only [optionOf] at ho
    simp only [actOf, ho, given, if_neg hs, changeContainer]
    rw [findName_none fun c e => hn ⟨_, c, e, rfl⟩]; rfl
  | algorithm =>
    simp only [optionOf] at ho
    simp only [actOf, ho, given, if_neg hs, changeAlgorithm]
    rw [findName_none fun c e => hn ⟨_, c, e, rfl⟩]; rfl
  | estimator =>
    simp only [optionOf] at ho
    simp only [actOf, ho, given, if_neg hs, changeEstimator]
    rw [findName_none fun c e => hn ⟨_, c, e, rfl⟩]; rfl
  | level =>
    simp only [optionOf] at ho
    simp only [actOf, ho, given, if_neg hs, changeLogLevel]
    rw [findName_none fun c e => hn ⟨_, c, e, rfl⟩]; rfl
  | verbose => exact absurd ⟨_, rfl⟩ hn
  | precision => exact absurd rfl hk

theorem names_functional {U : PyText} {k : Setting} {s : String} {v v' : PyVal} (h : Names U k s v)
    (h' : Names U k s v') : v = v' := by
  cases k with
  | container =>
    obtain ⟨c, e, rfl⟩ := h; obtain ⟨c', e', rfl⟩ := h'
    have := container_named c; rw [← e, e', container_named] at this; cases this; rfl
  | algorithm =>
    obtain ⟨c, e, rfl⟩ := h; obtain ⟨c', e', rfl⟩ := h'
    have := algorithm_named c; rw [← e, e', algorithm_named] at this; cases this; rfl
  | estimator =>
    obtain ⟨c, e, rfl⟩ := h; obtain ⟨c', e', rfl⟩ := h'
    have := estimator_named c; rw [← e, e', estimator_named] at this; cases this; rfl
  | level =>
    obtain ⟨c, e, rfl⟩ := h; obtain ⟨c', e', rfl⟩ := h'
    have := level_named c; rw [← e, e', level_named] at this; cases this; rfl
  | verbose => rw [h, h']
  | precision => exact h.elim

/-- an argument that is not bad makes a proper step -/
theorem actOf_good {U : PyText} {a : SettingsArgs} (hp : a.precision = none ∨ ∃ m n, a.precision = some [m, n])
    {k : Setting} (h : ¬ Bad U a k) :
    ∃ w, DoesStep actualMessage (actOf U a k) k w ∧ ∀ v, w = some v ↔ Asks U a k v := by
  by_cases hk : k = .precision
  · subst hk
    rcases hp with hp | ⟨m, n, hp⟩
    · refine ⟨none, ?_, ?_⟩
      · simp only [actOf, hp]; exact doesStep_nothing _ _
      · intro v
        constructor
        · intro e; cases e
        · rintro (⟨s, e, -⟩ | ⟨-, m, n, e, -⟩)
          · cases e
          · rw [hp] at e; cases e
    · refine ⟨some (.tuple [.int m, .int n]), ?_, ?_⟩
      · simp only [actOf, hp]; exact step_precision m n
      · intro v
        constructor
        · intro e; cases e; exact .inr ⟨rfl, m, n, hp, rfl⟩
        · rintro (⟨s, e, -⟩ | ⟨-, m', n', e, rfl⟩)
          · cases e
          · rw [hp] at e; cases e; rfl
  · rcases ho : optionOf a k with _ | s
    · refine ⟨none, ?_, ?_⟩
      · cases k with
        | precision => exact absurd rfl hk
        | container => simp only [optionOf] at ho; simp only [actOf, ho]; exact doesStep_nothing _ _
        | algorithm => simp only [optionOf] at ho; simp only [actOf, ho]; exact doesStep_nothing _ _
        | estimator => simp only [optionOf] at ho; simp only [actOf, ho]; exact doesStep_nothing _ _
        | level => simp only [optionOf] at ho; simp only [actOf, ho]; exact doesStep_nothing _ _
        | verbose => simp only [optionOf] at ho; simp only [actOf, ho]; exact doesStep_nothing _ _
      · intro v
        constructor
        · intro e; cases e
        · rintro (⟨s, e, -⟩ | ⟨e, -⟩)
          · rw [ho] at e; cases e
          · exact absurd e hk
    · by_cases hs : s = ""
      · subst hs
        refine ⟨none, ?_, ?_⟩
        · cases k with
          | precision => exact absurd rfl hk
          | container => simp only [optionOf] at ho; simp only [actOf, ho, given, if_true]; exact doesStep_nothing _ _
          | algorithm => simp only [optionOf] at ho; simp only [actOf, ho, given, if_true]; exact doesStep_nothing _ _
          | estimator => simp only [optionOf] at ho; simp only [actOf, ho, given, if_true]; exact doesStep_nothing _ _
          | level => simp only [optionOf] at ho; simp only [actOf, ho, given, if_true]; exact doesStep_nothing _ _
          | verbose => simp only [optionOf] at ho; simp only [actOf, ho, given, if_true]; exact doesStep_nothing _ _
        · intro v
          constructor
          · intro e; cases e
          · rintro (⟨s, e, hs, -⟩ | ⟨e, -⟩)
            · rw [ho] at e; cases e; exact absurd rfl hs
            · exact absurd e hk
      · by_cases hn : ∃ v, Names U k s v
        · obtain ⟨v, hn⟩ := hn
          refine ⟨some v, actOf_names ho hs hn, ?_⟩
          intro v'
          constructor
          · intro e; cases e; exact .inl ⟨s, ho, hs, hn⟩
          · rintro (⟨s', e, -, hn'⟩ | ⟨e, -⟩)
            · rw [ho] at e; cases e; rw [names_functional hn hn']
            · exact absurd e hk
        · exact absurd ⟨s, hk, ho, hs, hn⟩ h

theorem foldr_bind {τ : Type} (f : τ → Py CState Unit) (l : List τ) (rest : Py CState Unit) :
    l.foldr (fun k r => f k >>= fun _ => r) rest =
      (l.foldr (fun k r => f k >>= fun _ => r) (pure ()) >>= fun _ => rest) := by
  induction l with
  | nil => rfl
  | cons a l ih => rw [List.foldr_cons, List.foldr_cons, ih, bind_assoc]

/-- the settings of a list that are not bad -/
theorem change_prefix {U : PyText} {a : SettingsArgs} (hp : a.precision = none ∨ ∃ m n, a.precision = some [m, n])
    (pre : List Setting) (hnd : pre.Nodup) (hb : ∀ k ∈ pre, ¬ Bad U a k) (st : CState) (h : InSync st.sett) :
    ∃ st', pre.foldr (fun k r => actOf U a k >>= fun _ => r) (pure ()) st = (.ok (), st') ∧ InSync st'.sett ∧
      st'.fsys = st.fsys ∧ st'.tested = st.tested ∧
      (∀ k ∈ pre, (∀ v, Asks U a k v → st'.sett.svc k = v) ∧
        ((¬ ∃ v, Asks U a k v) → st'.sett.svc k = st.sett.svc k)) ∧
      ∀ k, k ∉ pre → st'.sett.svc k = st.sett.svc k := by
  induction pre generalizing st with
  | nil => exact ⟨st, rfl, h, rfl, rfl, (by simp), fun _ _ => rfl⟩
  | cons k pre ih =>
    obtain ⟨w, hw, hask⟩ := actOf_good hp (hb k List.mem_cons_self)
    obtain ⟨st1, h1, h2, h3, h4, h5, -⟩ := hw st h
    rw [List.nodup_cons] at hnd
    obtain ⟨st', i1, i2, i3, i4, i5, i6⟩ := ih hnd.2 (fun k' h' => hb k' (List.mem_cons_of_mem _ h')) st1 h2
    have hsvc : ∀ k', k' ≠ k → st1.sett.svc k' = st.sett.svc k' := by
      intro k' hk; rw [h5]; unfold put; rw [if_neg hk]
    have hsame : st1.sett.svc k = w.getD (st.sett.svc k) := by rw [h5]; unfold put; rw [if_pos rfl]
    refine ⟨st', ?_, i2, i3.trans h3, i4.trans h4, ?_, ?_⟩
    · rw [List.foldr_cons, Py.bind_ok h1, i1]
    · intro k' hk'
      rcases List.mem_cons.1 hk' with rfl | hk'
      · rw [i6 _ hnd.1, hsame]
        constructor
        · intro v hv; rw [(hask v).2 hv]; rfl
        · intro hno
          rcases w with _ | v
          · rfl
          · exact absurd ⟨v, (hask v).1 rfl⟩ hno
      · have hne : k' ≠ k := fun e => hnd.1 (e ▸ hk')
        rw [← hsvc k' hne]
        exact i5 k' hk'
    · intro k' hk'
      rw [List.mem_cons, not_or] at hk'
      rw [i6 k' hk'.2, hsvc k' hk'.1]

end PyZeal
