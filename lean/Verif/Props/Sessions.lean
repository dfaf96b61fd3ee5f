import Verif.Proof.Sessions
import Verif.Props.EndToEnd

/-! # Property C146: from the command lines typed and the scripts run, through any number of processes, to new finders and their roots -/

set_option linter.unusedSectionVars false

namespace PyZeal.Props
open Spec Settings Args Cli

/-- a computer on which PyZEAL has just been installed -/
def newMachine (files : FSys) : Machine := ⟨newInstallation.fs, files⟩

theorem shippedValue_eq (k : Setting) : shippedService k = shippedValue k := by cases k <;> rfl

theorem shipped_sync : InSync ⟨newInstallation.fs, shippedService⟩ where
  default := shipped_usable
  custom := .inl rfl
  writable := rfl
  load := shipped_load true
  valid := by intro k; cases k <;> constructor

theorem history_sync {R : Reader} (hR : DigitsOk R) (ps : List Process) (hs : ∀ p ∈ ps, Sane p) (files : FSys) :
    ∃ svc, InSync ⟨(runAll R ps (newMachine files)).settings, svc⟩ ∧ ∀ k v, ShouldBe R ps k v ↔ svc k = v := by
  obtain ⟨svc, h1, h2, h3⟩ := process_all hR ps hs (newMachine files) shippedService shipped_sync
  refine ⟨svc, h1, fun k v => ⟨?_, ?_⟩⟩
  · rintro (h | ⟨rfl, h⟩)
    · exact h2 k v h
    · rw [h3 k h, shippedValue_eq]
  · rintro rfl
    by_cases h : ∃ v, LastGiven R ps k v
    · obtain ⟨v, hv⟩ := h
      rw [h2 k v hv]
      exact .inl hv
    · exact .inr ⟨by rw [h3 k h, shippedValue_eq], h⟩

/-- **C146.** Whatever command lines were typed (understood or not) and whatever scripts were run since the installation, one process after the other: a
new settings service can be created, and every setting has the value that the last process giving it a value gave it, the shipped one if there was none. -/
theorem C146_settings {R : Reader} (hR : DigitsOk R) (ps : List Process) (hs : ∀ p ∈ ps, Sane p) (files : FSys) :
    ∃ svc, load (runAll R ps (newMachine files)).settings = .ok svc ∧ ∀ k v, ShouldBe R ps k v ↔ svc k = v := by
  obtain ⟨svc, h1, h2⟩ := history_sync hR ps hs files
  exact ⟨svc, h1.load, h2⟩

theorem no_print : ∀ {ws : List PyStr} {es : List Effect}, Items TestItem ws es → .print ∉ es := by
  intro ws es h
  induction h with
  | nil => simp
  | cons h _ ih =>
    intro hm
    rcases List.mem_append.1 hm with hm | hm
    · cases h with
      | short n => exact nomatch (List.mem_replicate.1 hm).2
      | long s h => exact nomatch List.mem_singleton.1 hm
    · exact ih hm

theorem view_longer {R : Reader} {argv : List PyStr} {es : List Effect} (h : Line R argv (some "view") es) (hp : .print ∈ es) : argv.length ≠ 1 := by
  generalize hs : (some "view" : Option String) = sub at h
  cases h with
  | bare h => cases hs
  | change h hv => exact absurd hs (ne_some (by decide))
  | plugin h hv => exact absurd hs (ne_some (by decide))
  | view h hv =>
    rcases List.mem_append.1 hp with hp | hp
    · exact absurd hp (no_print h)
    · cases hv with
      | nil => cases hp
      | cons h1 h2 =>
        cases h1 <;> simp <;> omega

/-- **C146.** `pyzeal view -p` (in any of its forms) shows these values, and nothing else, and leaves everything as it is. -/
theorem C146_view {R : Reader} (hR : DigitsOk R) (ps : List Process) (hs : ∀ p ∈ ps, Sane p) (files : FSys) (E : CliEnv) {argv : List PyStr}
    {es : List Effect} (h : Line R argv (some "view") es) (hp : .print ∈ es) :
    ∃ svc : Service, (∀ k v, ShouldBe R ps k v ↔ svc k = v) ∧
      cliProcess E R argv (runAll R ps (newMachine files)) = (.ok (), [viewText svc], runAll R ps (newMachine files)) := by
  obtain ⟨svc, h1, h2⟩ := history_sync hR ps hs files
  refine ⟨svc, h2, ?_⟩
  obtain ⟨p, t, hp', -, hpr⟩ := C122_view E hR h
    ⟨⟨(runAll R ps (newMachine files)).settings, svc⟩, (runAll R ps (newMachine files)).files, [], []⟩ h1.valid
  have hl := h1.load
  dsimp only at hl
  unfold cliProcess
  rw [hl]
  dsimp only
  unfold Prints at hpr
  rw [hpr, if_pos (hp'.2 hp), if_neg (view_longer h hp)]
  rfl

/-! ## Other files -/

/-- **C146.** Only `plugin` commands touch files other than the settings: after a history without such command lines all others are as at the beginning. -/
theorem C146_files_kept {R : Reader} (hR : DigitsOk R) (ps : List Process) (hs : ∀ p ∈ ps, Sane p) (files : FSys)
    (hno : ∀ E argv, .pyzeal E argv ∈ ps → ¬ ∃ es, Line R argv (some "plugin") es) : (runAll R ps (newMachine files)).files = files := by
  have key : ∀ ps : List Process, (∀ p ∈ ps, Sane p) → (∀ E argv, .pyzeal E argv ∈ ps → ¬ ∃ es, Line R argv (some "plugin") es) →
      ∀ (m : Machine) (svc : Service), InSync ⟨m.settings, svc⟩ → (runAll R ps m).files = m.files := by
    intro ps
    induction ps with
    | nil => intro _ _ m svc _; rfl
    | cons p ps ih =>
      intro hs hno m svc h
      obtain ⟨s1, h1, -⟩ := process_step hR p (hs p (by simp)) m svc h
      have e : (runAll R (p :: ps) m).files = (p.run R m).files :=
        ih (fun q hq => hs q (by simp [hq])) (fun E argv hm => hno E argv (by simp [hm])) _ s1 h1
      rw [e]
      cases p with
      | script ops => rfl
      | pyzeal E argv =>
        have hl := h.load
        dsimp only at hl
        unfold Process.run cliProcess
        dsimp only
        rw [hl]
        dsimp only
        have hsane := hs _ (by simp : Process.pyzeal E argv ∈ Process.pyzeal E argv :: ps)
        by_cases hline : ∃ sub es, Line R argv sub es
        · obtain ⟨sub, es, hline⟩ := hline
          rcases line_effects hline with ⟨e1, -⟩ | ⟨e1, -⟩ | ⟨e1, -⟩ | ⟨e1, -⟩
          · subst e1
            obtain ⟨ha, hb⟩ := C122_bare E hR hline ⟨⟨m.settings, svc⟩, m.files, [], []⟩ h.valid
            by_cases e : argv = []
            · have := ha e; unfold Prints at this; rw [this]
            · have := hb e; unfold Prints at this; rw [this]
          · subst e1
            obtain ⟨p, t, -, -, hp⟩ := C122_view E hR hline ⟨⟨m.settings, svc⟩, m.files, [], []⟩ h.valid
            unfold Prints at hp
            rw [hp]
          · subst e1
            obtain ⟨st', e, -, -, -, -, e2, -⟩ := C120_change E hsane.1 hR hline ⟨⟨m.settings, svc⟩, m.files, [], []⟩ h
            rw [e]
            exact e2
          · subst e1; exact absurd ⟨es, hline⟩ (hno E argv (by simp))
        · rcases C119_rejected E hR hline ⟨⟨m.settings, svc⟩, m.files, [], []⟩ with h | ⟨-, t, h⟩ <;> rw [h]
  exact key ps hs hno (newMachine files) shippedService shipped_sync

/-- **C146.** A `plugin` command acts on the files its predecessors left: the file given with `--install` is installed, then the plugin given with
`--uninstall` removed, and what is left is what the next process finds. -/
theorem C146_files_plugin {R : Reader} (hR : DigitsOk R) (ps : List Process) (hs : ∀ p ∈ ps, Sane p) (files : FSys) (E : CliEnv) {argv : List PyStr}
    {es : List Effect} (h : Line R argv (some "plugin") es) (hl : .list ∉ es) (hm : .modules ∉ es) {i u : Option PathS}
    (hi : LastPath (es.filterMap Effect.installs) i) (hu : LastPath (es.filterMap Effect.removes) u) (hi0 : i ≠ some [""]) (hu0 : u ≠ some [""]) :
    let before := (runAll R ps (newMachine files)).files
    let after := (runAll R (ps ++ [.pyzeal E argv]) (newMachine files)).files
    let first := installing E i before
    let second := uninstalling E u first.2
    (first.1 = .ok true → after = second.2) ∧ (first.1 ≠ .ok true → after = first.2) := by
  intro before after first second
  obtain ⟨svc, h1, -⟩ := history_sync hR ps hs files
  have hload := h1.load
  dsimp only at hload
  have ha : after = (mainPyZEAL E R argv ⟨⟨(runAll R ps (newMachine files)).settings, svc⟩, before, [], []⟩).2.fsys := by
    change (runAll R (ps ++ [.pyzeal E argv]) (newMachine files)).files = _
    unfold runAll
    rw [List.foldl_append]
    change ((Process.pyzeal E argv).run R (runAll R ps (newMachine files))).files = _
    unfold Process.run cliProcess
    dsimp only
    rw [hload]
    rfl
  have key := C121_files E hR h hl hm hi hu hi0 hu0 ⟨⟨(runAll R ps (newMachine files)).settings, svc⟩, before, [], []⟩
  rw [ha]
  exact ⟨fun e => (key.1 e).1, fun e => (key.2 e).1⟩

section
variable {K : Type} [Field K] [LinearOrder K] [IsStrictOrderedRing K] [FloorRing K]

theorem history_resolve {R : Reader} (hR : DigitsOk R) (ps : List Process) (hs : ∀ p ∈ ps, Sane p) (files : FSys) (d : Defaults)
    (hd : SettingsShouldBe R ps d) : resolveSettings (runAll R ps (newMachine files)).settings = (.ok d, (runAll R ps (newMachine files)).settings) := by
  obtain ⟨svc, h1, h2⟩ := history_sync hR ps hs files
  have hl := h1.load
  dsimp only at hl
  unfold resolveSettings
  have : getConcreteSettings .DEFAULT (runAll R ps (newMachine files)).settings = (.ok svc, (runAll R ps (newMachine files)).settings) := Prod.ext hl rfl
  rw [this]
  refine Prod.ext ?_ rfl
  change defaultsOf svc = .ok d
  unfold defaultsOf
  rw [(h2 _ _).1 hd.container, (h2 _ _).1 hd.algorithm, (h2 _ _).1 hd.estimator, (h2 _ _).1 hd.precision, (h2 _ _).1 hd.verbose]

/-- the values a history leads to: there always are such values, and only one of each -/
theorem C146_determined {R : Reader} (hR : DigitsOk R) (ps : List Process) (hs : ∀ p ∈ ps, Sane p) : ∃! d, SettingsShouldBe R ps d := by
  obtain ⟨svc, h1, h2⟩ := history_sync hR ps hs ⟨fun _ => none, fun _ => true⟩
  have v1 := h1.valid .container
  have v2 := h1.valid .algorithm
  have v3 := h1.valid .estimator
  have v4 := h1.valid .precision
  have v5 := h1.valid .verbose
  dsimp only at v1 v2 v3 v4 v5
  generalize e1 : svc .container = x1 at v1
  generalize e2 : svc .algorithm = x2 at v2
  generalize e3 : svc .estimator = x3 at v3
  generalize e4 : svc .precision = x4 at v4
  generalize e5 : svc .verbose = x5 at v5
  cases v1 with | container c =>
  cases v2 with | algorithm a =>
  cases v3 with | estimator e =>
  cases v4 with | precision p q =>
  cases v5 with | verbose b =>
  refine ⟨⟨c, a, e, (p, q), b⟩, ⟨(h2 _ _).2 e1, (h2 _ _).2 e2, (h2 _ _).2 e3, (h2 _ _).2 e4, (h2 _ _).2 e5⟩, ?_⟩
  rintro ⟨c', a', e', ⟨p', q'⟩, b'⟩ h
  have g1 := ((h2 _ _).1 h.container).symm.trans e1
  have g2 := ((h2 _ _).1 h.algorithm).symm.trans e2
  have g3 := ((h2 _ _).1 h.estimator).symm.trans e3
  have g4 := ((h2 _ _).1 h.precision).symm.trans e4
  have g5 := ((h2 _ _).1 h.verbose).symm.trans e5
  cases g1; cases g2; cases g3; cases g4; cases g5
  rfl

/-- **C146.** The finders constructed afterwards use these values for everything their arguments leave open; constructing them leaves the settings alone. -/
theorem C146_finder {R : Reader} (hR : DigitsOk R) (ps : List Process) (hs : ∀ p ∈ ps, Sane p) (files : FSys) (d : Defaults)
    (hd : SettingsShouldBe R ps d) (hda : d.algorithm ≠ .DEFAULT) (hdc : d.container ≠ .DEFAULT) (hde : d.estimator ≠ .DEFAULT)
    (X : Externals K) (hl : 4 ≤ X.limit) (f : Cx K → Cx K) (df : Option (Cx K → Cx K)) (a : FinderArgs) :
    ∃ fd, newFinder fileEnv X f df a (runAll R ps (newMachine files)).settings = (.ok fd, (runAll R ps (newMachine files)).settings) ∧
      IsNew X f df (FinderArgs.filled a d) fd := by
  obtain ⟨fd, s', h, p, hn⟩ := C102_new_finder (file_says (history_resolve hR ps hs files d hd)) hda hdc hde X hl f df a _ rfl
  subst p
  exact ⟨fd, h, hn⟩

/-- **C146.** The same for parallel finders. -/
theorem C146_parallel_finder {R : Reader} (hR : DigitsOk R) (ps : List Process) (hs : ∀ p ∈ ps, Sane p) (files : FSys) (d : Defaults)
    (hd : SettingsShouldBe R ps d) (hda : d.algorithm ≠ .DEFAULT) (hdc : d.container ≠ .DEFAULT) (hde : d.estimator ≠ .DEFAULT)
    (X : Externals K) (hl : 4 ≤ X.limit) (cpus : ℕ) (f : Cx K → Cx K) (df : Option (Cx K → Cx K)) (a : FinderArgs) :
    ∃ fd, newParallelFinder fileEnv X cpus f df a (runAll R ps (newMachine files)).settings = (.ok fd, (runAll R ps (newMachine files)).settings) ∧
      IsNew X f df { FinderArgs.filled a d with
        numSamplePoints := if a.numSamplePoints.getD 0 = 0 then none else some (a.numSamplePoints.getD 0 / cpus + 1) } fd := by
  obtain ⟨fd, s', h, p, hn⟩ := C102_new_parallel_finder (file_says (history_resolve hR ps hs files d hd)) hda hdc hde X hl cpus f df a _ rfl
  subst p
  exact ⟨fd, h, hn⟩

/-- **C146.** No command line can make finders impossible to construct: `DEFAULT` is not among the values that can be typed. -/
theorem C146_concrete {R : Reader} (hR : DigitsOk R) (ps : List Process) (hs : ∀ p ∈ ps, Sane p) (hcli : ∀ p ∈ ps, ∃ E argv, p = .pyzeal E argv)
    (d : Defaults) (hd : SettingsShouldBe R ps d) : d.algorithm ≠ .DEFAULT ∧ d.container ≠ .DEFAULT ∧ d.estimator ≠ .DEFAULT := by
  have key : ∀ k v, ShouldBe R ps k v → v ≠ .algorithm .DEFAULT ∧ v ≠ .container .DEFAULT ∧ v ≠ .estimator .DEFAULT := by
    rintro k v (⟨pre, p, post, e, hg, -⟩ | ⟨rfl, -⟩)
    · obtain ⟨E, argv, rfl⟩ := hcli p (by rw [e]; simp)
      obtain ⟨es, -, pre', eff, post', -, hset, -⟩ := hg
      cases eff with
      | setting k' w =>
        obtain ⟨-, hc⟩ := hset
        cases hc <;> exact ⟨(fun h => nomatch h), (fun h => nomatch h), (fun h => nomatch h)⟩
      | precision m n => obtain ⟨-, rfl⟩ := hset; exact ⟨(fun h => nomatch h), (fun h => nomatch h), (fun h => nomatch h)⟩
      | _ => exact hset.elim
    · cases k <;> exact ⟨(fun h => nomatch h), (fun h => nomatch h), (fun h => nomatch h)⟩
  refine ⟨fun h => (key _ _ hd.algorithm).1 (by rw [h]), fun h => (key _ _ hd.container).2.1 (by rw [h]), fun h => (key _ _ hd.estimator).2.2 (by rw [h])⟩

/-- the settings operations that a history amounts to -/
def asOps (d : Defaults) : List SOp :=
  [.create 0, .assign 0 .container (.container d.container), .assign 0 .algorithm (.algorithm d.algorithm),
    .assign 0 .estimator (.estimator d.estimator), .assign 0 .precision (.tuple [.int d.precision.1, .int d.precision.2]),
    .assign 0 .verbose (.bool d.verbose)]

theorem asOps_now (d : Defaults) : SettingsNow (asOps d) d := ⟨rfl, rfl, rfl, rfl, rfl⟩

theorem asOps_proper (d : Defaults) : ProperOps (fun _ => False) (asOps d) :=
  ⟨.inl rfl, .container _, .inl rfl, .algorithm _, .inl rfl, .estimator _, .inl rfl, .precision _ _, .inl rfl, .verbose _, trivial⟩

/-- **C146.** Every history of processes is, for the finders constructed afterwards, as good as one script assigning the final values: theorems about
finders after such scripts (all of C136) hold after every history. -/
theorem C146_as_script {R : Reader} (hR : DigitsOk R) (ps : List Process) (hs : ∀ p ∈ ps, Sane p) (files : FSys) (d : Defaults)
    (hd : SettingsShouldBe R ps d) (hda : d.algorithm ≠ .DEFAULT) (hdc : d.container ≠ .DEFAULT) (hde : d.estimator ≠ .DEFAULT) :
    ∃ ops, ProperOps (fun _ => False) ops ∧ SettingsNow ops d ∧
      ∀ (X : Externals K), 4 ≤ X.limit → ∀ (f : Cx K → Cx K) (df : Option (Cx K → Cx K)) (a : FinderArgs) (cpus : ℕ),
        (newFinder fileEnv X f df a (runAll R ps (newMachine files)).settings).1 = (newFinder fileEnv X f df a (SWorld.run newInstallation ops).2.fs).1 ∧
        (newParallelFinder fileEnv X cpus f df a (runAll R ps (newMachine files)).settings).1 =
          (newParallelFinder fileEnv X cpus f df a (SWorld.run newInstallation ops).2.fs).1 := by
  have key : ∀ (X : Externals K), 4 ≤ X.limit → ∀ (f : Cx K → Cx K) (df : Option (Cx K → Cx K)) (a : FinderArgs),
      (newFinder fileEnv X f df a (runAll R ps (newMachine files)).settings).1 =
        (newFinder fileEnv X f df a (SWorld.run newInstallation (asOps d)).2.fs).1 := by
    intro X hl f df a
    have h1 := file_says (history_resolve hR ps hs files d hd)
    have h2 := file_says (inForce_resolve (asOps d) (asOps_proper d) d (asOps_now d))
    obtain ⟨fd, e1, e2⟩ := C102_defaults_are_explicit h1 h1 hda hdc hde hda hdc hde X hl f df a _ rfl _ rfl
    obtain ⟨fd', e1', e2'⟩ := C102_defaults_are_explicit h2 h1 hda hdc hde hda hdc hde X hl f df a _ rfl _ rfl
    rw [e1, e1', ← e2, ← e2']
  exact ⟨asOps d, asOps_proper d, asOps_now d, fun X hl f df a cpus => ⟨key X hl f df a, key X hl f df _⟩⟩

end
/-! ## From the command line to the roots -/

/-- what the arguments and the history choose, cf. `Chosen` -/
structure ChosenAfter (R : Reader) (ps : List Process) (a : FinderArgs) (alg : AlgorithmTypes) (est : EstimatorTypes) (q : ℤ × ℤ) (d : Defaults) : Prop where
  now : SettingsShouldBe R ps d
  concrete : d.algorithm ≠ .DEFAULT ∧ d.container ≠ .DEFAULT ∧ d.estimator ≠ .DEFAULT
  container : (FinderArgs.filled a d).container = .ROUNDING_CONTAINER
  algorithm : (FinderArgs.filled a d).algorithm = alg
  estimator : (FinderArgs.filled a d).estimator = est
  precision : (FinderArgs.filled a d).precision = some q

/-- a property of the finder that C136 gives for scripts holds after every history -/
theorem after_history {R : Reader} (hR : DigitsOk R) (ps : List Process) (hs : ∀ p ∈ ps, Sane p) (files : FSys) (X : Externals ℝ) (hl : 4 ≤ X.limit)
    (a : FinderArgs) {alg : AlgorithmTypes} {est : EstimatorTypes} {q : ℤ × ℤ} {d : Defaults} (hc : ChosenAfter R ps a alg est q d)
    (f : Cx ℝ → Cx ℝ) (df : Option (Cx ℝ → Cx ℝ)) (P : Finder (SumState ℝ) ℝ → Prop)
    (h : ∀ ops, ProperOps (fun _ => False) ops → Chosen ops a alg est q d →
      ∃ fd, newFinder fileEnv X f df a (SWorld.run newInstallation ops).2.fs = (.ok fd, (SWorld.run newInstallation ops).2.fs) ∧ P fd) :
    ∃ fd, newFinder fileEnv X f df a (runAll R ps (newMachine files)).settings = (.ok fd, (runAll R ps (newMachine files)).settings) ∧ P fd := by
  obtain ⟨ops, h1, h2, h3⟩ := C146_as_script (K := ℝ) hR ps hs files d hc.now hc.concrete.1 hc.concrete.2.1 hc.concrete.2.2
  obtain ⟨fd, e, hp⟩ := h ops h1 ⟨h2, hc.concrete, hc.container, hc.algorithm, hc.estimator, hc.precision⟩
  obtain ⟨fd', e', -⟩ := C146_finder (K := ℝ) hR ps hs files d hc.now hc.concrete.1 hc.concrete.2.1 hc.concrete.2.2 X hl f df a
  have := (h3 X hl f df a 1).1
  rw [e, e'] at this
  injection this with this
  subst this
  exact ⟨_, e', hp⟩

/-- **C146.** From the words typed to the roots reported: if the last values given on command lines and in scripts (and the arguments) amount to the simple
argument algorithm with the quadrature estimator, the first search of a finder constructed now reports the zeros as in C130. -/
theorem C146_roots {R : Reader} (hR : DigitsOk R) (ps : List Process) (hs : ∀ p ∈ ps, Sane p) (files : FSys) (X : Externals ℝ) (dx : ℝ) (hX : Libraries X dx)
    (a : FinderArgs) (q : ℤ × ℤ) (d : Defaults) (hc : ChosenAfter R ps a .SIMPLE_ARGUMENT .QUADRATURE_ESTIMATOR q d)
    (f df : Cx ℝ → Cx ℝ) (re im : ℝ × ℝ) (call : Option (ℤ × ℤ)) (p : ℤ × ℤ) (hp : Asked call q p)
    (dom : (ℝ × ℝ) × (ℝ × ℝ)) (hdom : dom = desymmetrizeDomain re im (p.1 + 1, p.2 + 1))
    (zeros : List (Cx ℝ)) (G : ℂ → ℂ) (B V : ℝ) (hf : AnalyticWith f df (Cell.Has ⟨dom.1, dom.2, 0⟩) zeros G B V)
    (hres : Resolved (p.1 + 1, p.2 + 1) zeros B V dom.1 dom.2) (m n : ℕ) (hb : Cell.Below (p.1 + 1, p.2 + 1) m n ⟨dom.1, dom.2, 0⟩) (hl : m + n < X.limit) :
    ∃ fd, newFinder fileEnv X f (some df) a (runAll R ps (newMachine files)).settings = (.ok fd, (runAll R ps (newMachine files)).settings) ∧
    let s := fd.calculateRoots re im call none
    s.outcome = .ok () ∧ s.warned = false ∧
    (∀ z ∈ zeros, Requested re im z → ∃ r ∈ held s.finder.container, 1 ≤ r.2 ∧
      Near (10 ^ (-(p.1 + 1)), 10 ^ (-(p.2 + 1))) z r.1) ∧
    ∀ r ∈ held s.finder.container, 1 ≤ r.2 ∧ RequestedWithin (5 * 10 ^ (-(p.1 + 1)), 5 * 10 ^ (-(p.2 + 1))) re im r.1 ∧
        ∃ z ∈ zeros, Near (10 ^ (-(p.1 + 1)), 10 ^ (-(p.2 + 1))) z r.1 :=
  after_history hR ps hs files X hX.limit a hc f (some df) _ fun ops h1 h2 =>
    C136_simple X dx hX ops h1 a q d h2 f df re im call p hp dom hdom zeros G B V hf hres m n hb hl

/-- **C146.** The same for the summation estimator, without derivative, as in C98. -/
theorem C146_roots_summation {R : Reader} (hR : DigitsOk R) (ps : List Process) (hs : ∀ p ∈ ps, Sane p) (files : FSys) (X : Externals ℝ) (dx : ℝ)
    (hX : Libraries X dx) (a : FinderArgs) (q : ℤ × ℤ) (d : Defaults) (hc : ChosenAfter R ps a .SIMPLE_ARGUMENT .SUMMATION_ESTIMATOR q d)
    (f : Cx ℝ → Cx ℝ) (df : Option (Cx ℝ → Cx ℝ)) (re im : ℝ × ℝ) (call : Option (ℤ × ℤ)) (p : ℤ × ℤ) (hp : Asked call q p)
    (dom : (ℝ × ℝ) × (ℝ × ℝ)) (hdom : dom = desymmetrizeDomain re im (p.1 + 1, p.2 + 1))
    (zeros : List (Cx ℝ)) (r g : Cx ℝ → ℝ) (M dist : ℝ) (hf : Factored f (Cell.Has ⟨dom.1, dom.2, 0⟩) zeros r g M)
    (hM : 0 ≤ M) (hd : 0 < dist) (hfine : FineEnough 6500 (max (dom.1.2 - dom.1.1) (dom.2.2 - dom.2.1)) dist M zeros.length)
    (hfar : ∀ re im, Reached (p.1 + 1, p.2 + 1) zeros dom.1 dom.2 re im → ∀ z, Cell.Boundary ⟨re, im, 0⟩ z → Far dist zeros z)
    (hsafe : Safe (shippedSum X) ⟨f, df, (p.1 + 1, p.2 + 1), dom.1, dom.2, false⟩ zeros (max (dom.1.2 - dom.1.1) (dom.2.2 - dom.2.1)) dist M X.limit) :
    ∃ fd, newFinder fileEnv X f df a (runAll R ps (newMachine files)).settings = (.ok fd, (runAll R ps (newMachine files)).settings) ∧
    let s := fd.calculateRoots re im call none
    s.outcome = .ok () ∧ s.warned = false ∧
    (∀ z ∈ zeros, Requested re im z → ∃ r ∈ held s.finder.container, 1 ≤ r.2 ∧
      Near (10 ^ (-(p.1 + 1)), 10 ^ (-(p.2 + 1))) z r.1) ∧
    ∀ r ∈ held s.finder.container, 1 ≤ r.2 ∧ RequestedWithin (5 * 10 ^ (-(p.1 + 1)), 5 * 10 ^ (-(p.2 + 1))) re im r.1 ∧
        ∃ z ∈ zeros, Near (10 ^ (-(p.1 + 1)), 10 ^ (-(p.2 + 1))) z r.1 :=
  after_history hR ps hs files X hX.limit a hc f df _ fun ops h1 h2 =>
    C136_summation X dx hX ops h1 a q d h2 f df re im call p hp dom hdom zeros r g M dist hf hM hd hfine hfar hsafe

/-- **C146.** The same for the Newton variant with scipy's solver, as in C134. -/
theorem C146_roots_newton {R : Reader} (hR : DigitsOk R) (ps : List Process) (hs : ∀ p ∈ ps, Sane p) (files : FSys) (X : Externals ℝ) (dx : ℝ)
    (hX : Libraries X dx) (a : FinderArgs) (q : ℤ × ℤ) (d : Defaults) (hc : ChosenAfter R ps a .SIMPLE_ARGUMENT_NEWTON .QUADRATURE_ESTIMATOR q d)
    (f df : Cx ℝ → Cx ℝ) (re im : ℝ × ℝ) (call : Option (ℤ × ℤ)) (p : ℤ × ℤ) (hp : Asked call q p) (hp1 : p.1 ≤ 18) (hp2 : p.2 ≤ 18)
    (dom : (ℝ × ℝ) × (ℝ × ℝ)) (hdom : dom = desymmetrizeDomain re im (p.1 + 1, p.2 + 1))
    (zeros : List (Cx ℝ)) (G : ℂ → ℂ) (B V : ℝ) (hf : AnalyticWith f df (Cell.Has ⟨dom.1, dom.2, 0⟩) zeros G B V)
    (hres : Resolved (p.1 + 1, p.2 + 1) zeros B V dom.1 dom.2) (ht : Tame f df (p.1 + 1, p.2 + 1) zeros dom.1 dom.2)
    (m n : ℕ) (hb : Cell.Below (p.1 + 1, p.2 + 1) m n ⟨dom.1, dom.2, 0⟩) (hl : m + n < X.limit) :
    ∃ fd, newFinder fileEnv X f (some df) a (runAll R ps (newMachine files)).settings = (.ok fd, (runAll R ps (newMachine files)).settings) ∧
    let s := fd.calculateRoots re im call none
    s.outcome = .ok () ∧ s.warned = false ∧
    (∀ z ∈ zeros, Requested re im z → ∃ r ∈ held s.finder.container, 1 ≤ r.2 ∧
      Near (3 / 2 * 10 ^ (-(p.1 + 1)), 3 / 2 * 10 ^ (-(p.2 + 1))) z r.1) ∧
    ∀ r ∈ held s.finder.container, 1 ≤ r.2 ∧ ∃ z ∈ zeros, Cell.Has (Enlarged (4 * 10 ^ (-(p.1 + 1)), 4 * 10 ^ (-(p.2 + 1))) re im) z ∧
      Near (3 / 2 * 10 ^ (-(p.1 + 1)), 3 / 2 * 10 ^ (-(p.2 + 1))) z r.1 :=
  after_history hR ps hs files X hX.limit a hc f (some df) _ fun ops h1 h2 =>
    C136_newton X dx hX ops h1 a q d h2 f df re im call p hp hp1 hp2 dom hdom zeros G B V hf hres ht m n hb hl

/-! ## Examples -/

/-- `pyzeal change --algorithm simple_argument_newton --est=quadrature --precision 7 7` -/
def firstLine : List PyStr := cmd ["change", "--algorithm", "simple_argument_newton", "--est=quadrature", "--precision", "7", "7"]

theorem firstLine_change : Line exReader firstLine (some "change")
    [.setting .algorithm "simple_argument_newton", .setting .estimator "quadrature", .precision 7 7] :=
  .change (ws := []) (es := []) .nil
    (.cons (w := cmd ["--algorithm", "simple_argument_newton"]) (ChangeItem.apart .algorithm _ _ _ (abbrev_of (by decide)) .simple_argument_newton)
      (.cons (w := cmd ["--est=quadrature"]) (ChangeItem.joined .estimator "--est".toList _ _ (abbrev_of (by decide)) .quadrature)
        (.cons (w := cmd ["--precision", "7", "7"])
          (ChangeItem.precision _ _ _ 7 7 (abbrev_of (by decide)) (by decide) (.inl (by decide)) (by decide) (.inl (by decide))) .nil)))

/-- a command line, one that is not understood, and a script assigning the precision (2, 2) -/
def exHistory : List Process :=
  [.pyzeal exEnv firstLine, .pyzeal exEnv (cmd ["change", "--container", "rounding", "--algorithm", "bisection"]),
    .script [.create 3, .assign 3 .precision (.tuple [.int 2, .int 2])]]

theorem exHistory_sane : ∀ p ∈ exHistory, Sane p := by
  intro p hp
  unfold exHistory at hp
  simp only [List.mem_cons, List.not_mem_nil, or_false] at hp
  rcases hp with rfl | rfl | rfl
  · exact ⟨asciiText_case, fun _ => rfl⟩
  · exact ⟨asciiText_case, fun _ => rfl⟩
  · exact ⟨.inl rfl, .precision 2 2, trivial⟩

/-- a command line has one meaning -/
theorem same_last {R : Reader} (hR : DigitsOk R) {argv : List PyStr} {es es' : List Effect} (h : Line R argv (some "change") es)
    (h' : Line R argv (some "change") es') {k : Setting} {v : PyVal} (hl : LastSets es k v) : LastSets es' k v := by
  have key : ∀ {es}, Line R argv (some "change") es → ∀ e ∈ es, e = .test ∨ IsChange e := by
    intro es h
    rcases line_effects h with ⟨h1, -⟩ | ⟨h1, -⟩ | ⟨-, h1⟩ | ⟨h1, -⟩
    · cases h1
    · exact absurd h1 (ne_some (by decide))
    · exact h1
    · exact absurd h1 (ne_some (by decide))
  have := (request_last (key h) k v).2 hl
  rw [C118_unambiguous hR h h'] at this
  exact (request_last (key h') k v).1 this

theorem secondLine_rejected : ¬ ∃ sub es, Line exReader (cmd ["change", "--container", "rounding", "--algorithm", "bisection"]) sub es := by
  intro h
  obtain ⟨ns, h⟩ := (C118_exact exReader_ok _).2 h
  have h' : parse exReader (cmd ["change", "--container", "rounding", "--algorithm", "bisection"]) = .error .error := by decide +kernel
  rw [h'] at h
  cases h

/-- what this history leads to -/
def exDefaults : Defaults := ⟨.ROUNDING_CONTAINER, .SIMPLE_ARGUMENT_NEWTON, .QUADRATURE_ESTIMATOR, (2, 2), true⟩

theorem exHistory_settings : SettingsShouldBe exReader exHistory exDefaults := by
  have h2 : ∀ k v, ¬ Process.Gives exReader (.pyzeal exEnv (cmd ["change", "--container", "rounding", "--algorithm", "bisection"])) k v :=
    fun k v ⟨es, h, _⟩ => secondLine_rejected ⟨_, es, h⟩
  have h3 : ∀ k v, k ≠ .precision → ¬ Process.Gives exReader (.script [.create 3, .assign 3 .precision (.tuple [.int 2, .int 2])]) k v := by
    intro k v hk h
    have h : lastAssigned k [.create 3, .assign 3 .precision (.tuple [.int 2, .int 2])] = some v := h
    cases k <;> first | exact hk rfl | cases h
  have later : ∀ k, k ≠ .precision → ∀ p' ∈ ([.pyzeal exEnv (cmd ["change", "--container", "rounding", "--algorithm", "bisection"]),
      .script [.create 3, .assign 3 .precision (.tuple [.int 2, .int 2])]] : List Process), ¬ ∃ v', Process.Gives exReader p' k v' := by
    intro k hk p' hp'
    simp only [List.mem_cons, List.not_mem_nil, or_false] at hp'
    rintro ⟨v', hv'⟩
    rcases hp' with rfl | rfl
    · exact h2 _ _ hv'
    · exact h3 _ _ hk hv'
  have nothing : ∀ k, k = .container ∨ k = .verbose → ¬ ∃ v, LastGiven exReader exHistory k v := by
    rintro k hk ⟨v, pre, p, post, e, hg, -⟩
    have hm : p ∈ exHistory := by rw [e]; simp
    have hkp : k ≠ .precision := by rcases hk with rfl | rfl <;> decide
    rcases List.mem_cons.1 hm with rfl | hm
    · obtain ⟨es, hl, hv⟩ := hg
      obtain ⟨pre', eff, post', h, hset, -⟩ := same_last exReader_ok hl firstLine_change hv
      have : eff ∈ ([.setting .algorithm "simple_argument_newton", .setting .estimator "quadrature", .precision 7 7] : List Effect) := by rw [h]; simp
      simp only [List.mem_cons, List.not_mem_nil, or_false] at this
      rcases this with rfl | rfl | rfl
      · rcases hk with rfl | rfl <;> exact nomatch hset.1
      · rcases hk with rfl | rfl <;> exact nomatch hset.1
      · exact hkp hset.1
    · exact later k hkp p hm ⟨v, hg⟩
  refine ⟨.inr ⟨rfl, nothing _ (.inl rfl)⟩, .inl ?_, .inl ?_, .inl ?_, .inr ⟨rfl, nothing _ (.inr rfl)⟩⟩
  · refine ⟨[], _, _, rfl, ⟨_, firstLine_change, [], _, _, rfl, ⟨rfl, .simple_argument_newton⟩, ?_⟩, later _ (by decide)⟩
    rintro e' he' ⟨v', hv'⟩
    simp only [List.mem_cons, List.not_mem_nil, or_false] at he'
    rcases he' with rfl | rfl
    · exact nomatch hv'.1
    · exact nomatch hv'.1
  · refine ⟨[], _, _, rfl, ⟨_, firstLine_change, [_], _, _, rfl, ⟨rfl, .quadrature⟩, ?_⟩, later _ (by decide)⟩
    rintro e' he' ⟨v', hv'⟩
    rw [List.mem_singleton.1 he'] at hv'
    exact nomatch hv'.1
  · exact ⟨[_, _], _, [], rfl, rfl, fun p' h => nomatch h⟩

/-- After this history `RootFinder(f, df)` for `z * exp(z)`, without further arguments, searches with the Newton variant, the quadrature estimator and precision
(2, 2), and finds the zero. -/
example (files : FSys) : ∃ fd, (newFinder fileEnv someLibraries zexp (some dzexp) {} (runAll exReader exHistory (newMachine files)).settings).1 = .ok fd ∧
    ∃ r ∈ held (fd.calculateRoots (-2 / 1000, 4 / 1000) (0, 2 / 1000) none none).finder.container, 1 ≤ r.2 ∧
      Near (3 / 2 * (10 : ℝ) ^ (-((2 : ℤ) + 1)), 3 / 2 * (10 : ℝ) ^ (-((2 : ℤ) + 1))) 0 r.1 := by
  obtain ⟨fd, h0, _, _, h2, _⟩ := C146_roots_newton exReader_ok exHistory exHistory_sane files someLibraries _ someLibraries_ok {} (2, 2) exDefaults
    ⟨exHistory_settings, ⟨by decide, by decide, by decide⟩, rfl, rfl, rfl, rfl⟩ zexp dzexp
    (-2 / 1000, 4 / 1000) (0, 2 / 1000) none (2, 2) (.inr ⟨rfl, rfl⟩) (by norm_num) (by norm_num) _ thirds_domain.symm [0] (fun z => z) 0 (57 / 8) zexp_analytic_small thirds_resolved thirds_tame 4 4
    (by unfold Cell.Below; norm_num) (by norm_num [someLibraries])
  refine ⟨fd, congrArg Prod.fst h0, h2 0 (by simp) ?_⟩
  unfold Requested
  norm_num

/-- and `pyzeal view --pri` shows it -/
example (files : FSys) : (cliProcess exEnv exReader (cmd ["view", "--pri"]) (runAll exReader exHistory (newMachine files))).1 = .ok () := by
  obtain ⟨svc, -, h⟩ := C146_view exReader_ok exHistory exHistory_sane files exEnv
    (Line.view (ws := []) .nil (.cons (w := cmd ["--pri"]) (ViewItem.long _ (abbrev_of (by decide))) .nil)) (by simp)
  exact congrArg Prod.fst h

end PyZeal.Props
