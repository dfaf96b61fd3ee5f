import Verif.Spec.Build
import Verif.Spec.Settings
import Verif.Props.Factories
import Verif.Props.Settings
import Verif.Props.SumTotal

/-! # Property C102: new finders -/

set_option linter.unusedSectionVars false

namespace PyZeal.Props
open Spec Factory Settings

section
variable {σ K : Type} [Field K] [LinearOrder K] [IsStrictOrderedRing K] [FloorRing K] {E : FactoryEnv σ} {P : σ → Prop} {d : Defaults}

/-- an algorithm object with the class, estimator and parameters found by C61 runs the search its type names -/
theorem run_named (X : Externals K) (o : AlgorithmObj K) (et : EstimatorTypes) (k : Option ℕ)
    (he : ∀ e, algorithmEstimator o = some e → estimatorClass e = et ∧
      (estimatorClass e = .SUMMATION_ESTIMATOR → e = .summation 6500 (1 / 100) (1 / 10 ^ 10)))
    (hg : ∀ g, o = .newtonGrid g → (g = 50 ∧ (k.map Int.ofNat = none ∨ k.map Int.ofNat = some 0)) ∨ (k.map Int.ofNat = some g ∧ g ≠ 0)) :
    o.run X = searchNamed X et k (algorithmClass o) := by
  have hline : ∀ e, algorithmEstimator o = some e → e.line X = estimatorNamed X et := by
    intro e h
    obtain ⟨h1, h2⟩ := he e h
    cases e with
    | summation a b c =>
      have := h2 rfl
      injection this with h3 h4 h5
      subst h3 h4 h5
      rw [← h1]
      rfl
    | quadrature => rw [← h1]; rfl
  cases o with
  | newtonGrid g =>
    have h := hg g rfl
    have : g.toNat = if k.getD 0 = 0 then 50 else k.getD 0 := by
      rcases k with _ | k
      · rcases h with ⟨rfl, _⟩ | ⟨h, _⟩
        · rfl
        · simp at h
      · rcases h with ⟨rfl, h | h⟩ | ⟨h, h0⟩
        · simp at h
        · have : k = 0 := by simpa using h
          subst this; rfl
        · have : (k : ℤ) = g := by simpa using h
          subst this
          have hk : k ≠ 0 := by intro h; subst h; exact h0 rfl
          exact (if_neg hk).symm
    change PyZeal.newtonGrid X.newton g.toNat X.taskTruthy = _
    rw [this]; rfl
  | simpleArgument e => change PyZeal.simpleArgument (e.line X) _ _ = _; rw [hline e rfl]; rfl
  | simpleArgumentNewton e => change PyZeal.simpleArgumentNewton _ (e.line X) _ _ = _; rw [hline e rfl]; rfl
  | associatedPolynomial e => change PyZeal.associatedPolynomial _ (e.line X) _ _ = _; rw [hline e rfl]; rfl

theorem make_named (o : ContainerObj) (p : ℤ × ℤ) (h : ∀ p', o = .rounding p' → p' = p) :
    (o.make : AnyContainer K) = emptyNamed p (containerClass o) := by
  cases o with
  | rounding q => rw [h q rfl]; rfl
  | plain q => rfl

/-- **C102.** The constructor of `RootFinder` returns, for every choice of arguments, if the settings can be read and name concrete types: the new finder
searches for zeros of `f` with the algorithm, the estimator, the container, the precision and the number of points its arguments name, the settings
deciding only about arguments left open; its container is empty, its cache and its estimator are new. -/
theorem C102_new_finder (hS : Says E P d) (hda : d.algorithm ≠ .DEFAULT) (hdc : d.container ≠ .DEFAULT) (hde : d.estimator ≠ .DEFAULT)
    (X : Externals K) (hl : 4 ≤ X.limit) (f : Cx K → Cx K) (df : Option (Cx K → Cx K)) (a : FinderArgs) (s : σ) (hs : P s) :
    ∃ fd s', newFinder E X f df a s = (.ok fd, s') ∧ P s' ∧ IsNew X f df (FinderArgs.filled a d) fd := by
  obtain ⟨n, hn⟩ := Nat.exists_eq_add_of_le' hl
  obtain ⟨r, s', h, p, c1, c2, c3, c4, c5, c6, c7⟩ := C61_finder (K := (⟨1 / 100, 1 / 10 ^ 10⟩ : Constants K)) hS n hda hdc hde a.container a.algorithm
    a.estimator a.precision (a.numSamplePoints.map Int.ofNat) a.verbose s hs
  refine ⟨FinderParts.finder X f df r, s', ?_, p, ?_⟩
  · unfold newFinder
    rw [hn, Py.bind_ok h]
    rfl
  · refine ⟨rfl, rfl, ?_, ?_, ?_, ?_, rfl, rfl, rfl⟩
    · change r.algorithm.run X = _
      rw [run_named X r.algorithm _ a.numSamplePoints c2 c3, c1]
      rfl
    · change some _ = some r.precision
      rw [c6]
    · change some _ = some r.verbose
      rw [c7]
    · change r.container.make = _
      rw [make_named r.container r.precision c5, c4]
      rfl

/-- two descriptions of a finder that agree describe the same finder -/
theorem IsNew.unique {X : Externals K} {f : Cx K → Cx K} {df : Option (Cx K → Cx K)} {a : FinderArgs} {fd fd' : Finder (SumState K) K}
    (h : IsNew X f df a fd) (h' : IsNew X f df a fd') : fd = fd' := by
  have hp : fd.precision = fd'.precision := Option.some.inj (h.precision.symm.trans h'.precision)
  have hv : fd.verbose = fd'.verbose := Option.some.inj (h.verbose.symm.trans h'.verbose)
  have hc : fd.container = fd'.container := by rw [h.container, h'.container, hp]
  obtain ⟨f1, f2, f3, f4, f5, f6, f7, f8, f9⟩ := fd
  obtain ⟨g1, g2, g3, g4, g5, g6, g7, g8, g9⟩ := fd'
  obtain ⟨a1, a2, a3, a4, a5, a6, a7, a8, a9⟩ := h
  obtain ⟨b1, b2, b3, b4, b5, b6, b7, b8, b9⟩ := h'
  simp only at *
  simp_all

theorem filled_twice (a : FinderArgs) (d d' : Defaults) (hda : d.algorithm ≠ .DEFAULT) (hdc : d.container ≠ .DEFAULT)
    (hde : d.estimator ≠ .DEFAULT) : FinderArgs.filled (FinderArgs.filled a d) d' = FinderArgs.filled a d := by
  obtain ⟨c, al, e, p, n, v⟩ := a
  unfold FinderArgs.filled
  simp only [FinderArgs.mk.injEq, Option.getD_some, and_true]
  refine ⟨?_, ?_, ?_⟩
  · by_cases h : c = .DEFAULT <;> simp [h, hdc]
  · by_cases h : al = .DEFAULT <;> simp [h, hda]
  · by_cases h : e = .DEFAULT <;> simp [h, hde]

/-- **C102.** Settings do not matter if all arguments are given: leaving arguments open under settings `d` and giving the values of `d` explicitly
under any other settings `d'` lead to the same finder. -/
theorem C102_defaults_are_explicit {σ' : Type} {E' : FactoryEnv σ'} {P' : σ' → Prop} {d' : Defaults} (hS : Says E P d) (hS' : Says E' P' d')
    (hda : d.algorithm ≠ .DEFAULT) (hdc : d.container ≠ .DEFAULT) (hde : d.estimator ≠ .DEFAULT)
    (hda' : d'.algorithm ≠ .DEFAULT) (hdc' : d'.container ≠ .DEFAULT) (hde' : d'.estimator ≠ .DEFAULT)
    (X : Externals K) (hl : 4 ≤ X.limit) (f : Cx K → Cx K) (df : Option (Cx K → Cx K)) (a : FinderArgs) (s : σ) (hs : P s) (s' : σ') (hs' : P' s') :
    ∃ fd, (newFinder E X f df a s).1 = .ok fd ∧ (newFinder E' X f df (FinderArgs.filled a d) s').1 = .ok fd := by
  obtain ⟨fd, t, h1, _, h2⟩ := C102_new_finder hS hda hdc hde X hl f df a s hs
  obtain ⟨fd', t', h1', _, h2'⟩ := C102_new_finder hS' hda' hdc' hde' X hl f df (FinderArgs.filled a d) s' hs'
  rw [filled_twice a d d' hda hdc hde] at h2'
  refine ⟨fd, by rw [h1], ?_⟩
  rw [h1', IsNew.unique h2 h2']

/-- **C102.** The constructor of `ParallelRootFinder` makes the same finder, except that a given number of grid points is divided by the number of
processors first (each process gets its share, rounded up). -/
theorem C102_new_parallel_finder (hS : Says E P d) (hda : d.algorithm ≠ .DEFAULT) (hdc : d.container ≠ .DEFAULT) (hde : d.estimator ≠ .DEFAULT)
    (X : Externals K) (hl : 4 ≤ X.limit) (cpus : ℕ) (f : Cx K → Cx K) (df : Option (Cx K → Cx K)) (a : FinderArgs) (s : σ) (hs : P s) :
    ∃ fd s', newParallelFinder E X cpus f df a s = (.ok fd, s') ∧ P s' ∧
      IsNew X f df { FinderArgs.filled a d with
        numSamplePoints := if a.numSamplePoints.getD 0 = 0 then none else some (a.numSamplePoints.getD 0 / cpus + 1) } fd := by
  obtain ⟨fd, s', h, p, hn⟩ := C102_new_finder hS hda hdc hde X hl f df { a with numSamplePoints := parallelSamplePoints cpus a.numSamplePoints } s hs
  refine ⟨fd, s', h, p, ?_⟩
  have : parallelSamplePoints cpus a.numSamplePoints =
      if a.numSamplePoints.getD 0 = 0 then none else some (a.numSamplePoints.getD 0 / cpus + 1) := by
    rcases a.numSamplePoints with _ | k
    · rfl
    · rcases k with _ | k <;> rfl
  rw [← this]
  exact hn

/-! ## Settings from the files -/

theorem file_says {fs : SettingsFS} {d : Defaults} (h : resolveSettings fs = (.ok d, fs)) : Says fileEnv (· = fs) d :=
  ⟨fun s hs => by subst hs; exact ⟨s, h, rfl⟩, fun s hs => ⟨s, rfl, hs⟩⟩

theorem valid_lastAssigned (k : Setting) (ops : List SOp) : ∀ known : ℕ → Prop, ProperOps known ops → ∀ v, lastAssigned k ops = some v → Valid k v := by
  induction ops with
  | nil => intro _ _ v h; cases h
  | cons op ops ih =>
    intro known hp v h
    cases op with
    | create i => exact ih _ hp v h
    | assign i k' v' =>
      obtain ⟨_, h2, h3⟩ := hp
      unfold lastAssigned at h
      rcases hl : lastAssigned k ops with _ | u
      · rw [hl] at h
        dsimp only at h
        by_cases hk : k' = k
        · rw [if_pos hk] at h
          injection h with h
          subst h hk
          exact h2
        · rw [if_neg hk] at h; cases h
      · rw [hl] at h
        dsimp only at h
        exact ih _ h3 v (hl.trans h)

/-- After any sequence of proper settings operations on a new installation, the settings in force are of the right types. -/
theorem inForce_exists (ops : List SOp) (hp : ProperOps (fun _ => False) ops) : ∃ d, SettingsNow ops d := by
  have hv := fun k => valid_lastAssigned k ops _ hp
  have h1 : ∃ c, (lastAssigned .container ops).getD (.container .ROUNDING_CONTAINER) = .container c := by
    rcases h : lastAssigned .container ops with _ | v
    · exact ⟨_, rfl⟩
    · obtain ⟨c⟩ := hv _ _ h; exact ⟨_, rfl⟩
  have h2 : ∃ c, (lastAssigned .algorithm ops).getD (.algorithm .SIMPLE_ARGUMENT) = .algorithm c := by
    rcases h : lastAssigned .algorithm ops with _ | v
    · exact ⟨_, rfl⟩
    · obtain ⟨c⟩ := hv _ _ h; exact ⟨_, rfl⟩
  have h3 : ∃ c, (lastAssigned .estimator ops).getD (.estimator .SUMMATION_ESTIMATOR) = .estimator c := by
    rcases h : lastAssigned .estimator ops with _ | v
    · exact ⟨_, rfl⟩
    · obtain ⟨c⟩ := hv _ _ h; exact ⟨_, rfl⟩
  have h4 : ∃ p q, (lastAssigned .precision ops).getD (.tuple [.int 5, .int 5]) = .tuple [.int p, .int q] := by
    rcases h : lastAssigned .precision ops with _ | v
    · exact ⟨_, _, rfl⟩
    · obtain ⟨c⟩ := hv _ _ h; exact ⟨_, _, rfl⟩
  have h5 : ∃ b, (lastAssigned .verbose ops).getD (.bool true) = .bool b := by
    rcases h : lastAssigned .verbose ops with _ | v
    · exact ⟨_, rfl⟩
    · obtain ⟨c⟩ := hv _ _ h; exact ⟨_, rfl⟩
  obtain ⟨c, h1⟩ := h1
  obtain ⟨a, h2⟩ := h2
  obtain ⟨e, h3⟩ := h3
  obtain ⟨p, q, h4⟩ := h4
  obtain ⟨b, h5⟩ := h5
  exact ⟨⟨c, a, e, (p, q), b⟩, h1, h2, h3, h4, h5⟩

theorem inForce_resolve (ops : List SOp) (hp : ProperOps (fun _ => False) ops) (d : Defaults) (hd : SettingsNow ops d) :
    resolveSettings (SWorld.run newInstallation ops).2.fs = (.ok d, (SWorld.run newInstallation ops).2.fs) := by
  obtain ⟨svc, h1, h2⟩ := C62_shipped_defaults ops hp
  have h3 : ∀ k, svc k = (lastAssigned k ops).getD (shippedService k) := by
    intro k
    rw [h2]
    cases lastAssigned k ops <;> rfl
  unfold resolveSettings
  have hl : getConcreteSettings .DEFAULT (SWorld.run newInstallation ops).2.fs = (.ok svc, (SWorld.run newInstallation ops).2.fs) :=
    Prod.ext h1 rfl
  rw [hl]
  refine Prod.ext ?_ rfl
  change defaultsOf svc = .ok d
  unfold defaultsOf
  rw [h3, h3, h3, h3, h3, show shippedService .container = .container .ROUNDING_CONTAINER from rfl,
    show shippedService .algorithm = .algorithm .SIMPLE_ARGUMENT from rfl, show shippedService .estimator = .estimator .SUMMATION_ESTIMATOR from rfl,
    show shippedService .precision = .tuple [.int 5, .int 5] from rfl, show shippedService .verbose = .bool true from rfl,
    hd.container, hd.algorithm, hd.estimator, hd.precision, hd.verbose]

/-- **C102.** Start from a new installation, create settings services and assign proper values through them in any order. Then the settings in force are
the values assigned last, the shipped ones where nothing was assigned; and if they name concrete types, every finder constructed now is what its
arguments name, these settings filling in the arguments left open. Constructing it changes no settings file. -/
theorem C102_persisted (ops : List SOp) (hp : ProperOps (fun _ => False) ops) :
    ∃ d, SettingsNow ops d ∧ (d.algorithm ≠ .DEFAULT → d.container ≠ .DEFAULT → d.estimator ≠ .DEFAULT →
      ∀ (X : Externals K), 4 ≤ X.limit → ∀ (f : Cx K → Cx K) (df : Option (Cx K → Cx K)) (a : FinderArgs),
        ∃ fd, newFinder fileEnv X f df a (SWorld.run newInstallation ops).2.fs = (.ok fd, (SWorld.run newInstallation ops).2.fs) ∧
          IsNew X f df (FinderArgs.filled a d) fd) := by
  obtain ⟨d, hd⟩ := inForce_exists ops hp
  refine ⟨d, hd, fun h1 h2 h3 X hl f df a => ?_⟩
  obtain ⟨fd, s', h, p, hn⟩ := C102_new_finder (file_says (inForce_resolve ops hp d hd)) h1 h2 h3 X hl f df a _ rfl
  subst p
  exact ⟨fd, h, hn⟩

/-- **C102.** If a setting in force says `DEFAULT`, finders that leave this choice open cannot be constructed: the constructor ends in a `RecursionError`,
whatever the recursion limit is. (Stated for the algorithm, which is looked up first.) -/
theorem C102_no_default_algorithm (hS : Says E P d) (hda : d.algorithm = .DEFAULT) (X : Externals K) (f : Cx K → Cx K) (df : Option (Cx K → Cx K))
    (a : FinderArgs) (ha : a.algorithm = .DEFAULT) (s : σ) (hs : P s) : (newFinder E X f df a s).1 = .error .recursionError := by
  obtain ⟨s', h⟩ := C61_algorithm_diverges (K := (⟨1 / 100, 1 / 10 ^ 10⟩ : Constants K)) hS hda X.limit a.estimator (a.numSamplePoints.map Int.ofNat) s hs
  unfold newFinder finderInit
  rw [ha, Py.bind_error (Py.bind_error h)]

end

/-! ## Examples -/

/-- `setOps` (Props/Settings.lean) chooses the Newton grid, the precision (3, 4) and leaves the rest: new finders search on a grid of 50 by 50 points. -/
example (X : Externals ℝ) (hl : 4 ≤ X.limit) (f : Cx ℝ → Cx ℝ) : ∃ fd, (newFinder fileEnv X f none {} (SWorld.run newInstallation setOps).2.fs).1 = .ok fd ∧
    fd.algorithm = newtonGrid X.newton 50 X.taskTruthy ∧ fd.precision = (3, 4) ∧ fd.verbose = true ∧
    fd.container = .rounding ⟨(3, 4), [], []⟩ := by
  obtain ⟨d, hd, h⟩ := C102_persisted (K := ℝ) setOps
    ⟨.inl rfl, .level _, .inl rfl, .precision 3 4, .inr (.inl rfl), .level _, .inl rfl, .algorithm _, trivial⟩
  have h1 : d.container = .ROUNDING_CONTAINER := by have := hd.container; injection this with h; exact h.symm
  have h2 : d.algorithm = .NEWTON_GRID := by have := hd.algorithm; injection this with h; exact h.symm
  have h3 : d.estimator = .SUMMATION_ESTIMATOR := by have := hd.estimator; injection this with h; exact h.symm
  have h4 : d.precision = (3, 4) := by
    have := hd.precision; injection this with h; injection h with h h'; injection h with h; injection h' with h' _; injection h' with h'
    exact Prod.ext h.symm h'.symm
  have h5 : d.verbose = true := by have := hd.verbose; injection this with h; exact h.symm
  obtain ⟨fd, e, hn⟩ := h (by rw [h2]; decide) (by rw [h1]; decide) (by rw [h3]; decide) X hl f none {}
  have hp : fd.precision = (3, 4) := by have := hn.precision; rw [← h4]; exact (Option.some.inj this).symm
  refine ⟨fd, by rw [e], ?_, hp, ?_, ?_⟩
  · rw [hn.algorithm]
    change searchNamed X _ none d.algorithm = _
    rw [h2]; rfl
  · have := hn.verbose; rw [← h5]; exact (Option.some.inj this).symm
  · rw [hn.container, hp]
    change emptyNamed _ d.container = _
    rw [h1]; rfl

/-- on four processors, a grid of 10 points per direction becomes a grid of 3 points per direction for each process -/
example (X : Externals ℝ) (hl : 4 ≤ X.limit) (f : Cx ℝ → Cx ℝ) :
    ∃ fd, (newParallelFinder facEnv X 4 f none { algorithm := .NEWTON_GRID, numSamplePoints := some 10 } (shipped, 0)).1 = .ok fd ∧
      fd.algorithm = newtonGrid X.newton 3 X.taskTruthy := by
  obtain ⟨fd, s', h, _, hn⟩ := C102_new_parallel_finder (facEnv_says shipped) (by decide) (by decide) (by decide) X hl 4 f none
    { algorithm := .NEWTON_GRID, numSamplePoints := some 10 } (shipped, 0) rfl
  exact ⟨fd, congrArg Prod.fst h, hn.algorithm⟩

/-- open arguments under the shipped settings, and the same values given explicitly under other settings -/
example (X : Externals ℝ) (hl : 4 ≤ X.limit) (f : Cx ℝ → Cx ℝ) : ∃ fd, (newFinder facEnv X f none {} (shipped, 0)).1 = .ok fd ∧
    (newFinder facEnv X f none ⟨.ROUNDING_CONTAINER, .SIMPLE_ARGUMENT, .SUMMATION_ESTIMATOR, some (5, 5), none, some true⟩
      (⟨.PLAIN_CONTAINER, .NEWTON_GRID, .QUADRATURE_ESTIMATOR, (1, 1), false⟩, 0)).1 = .ok fd :=
  C102_defaults_are_explicit (facEnv_says shipped) (facEnv_says ⟨.PLAIN_CONTAINER, .NEWTON_GRID, .QUADRATURE_ESTIMATOR, (1, 1), false⟩)
    (by decide) (by decide) (by decide) (by decide) (by decide) (by decide) X hl f none {} (shipped, 0) rfl _ rfl

/-- settings that name no algorithm -/
example (X : Externals ℝ) (f : Cx ℝ → Cx ℝ) : (newFinder facEnv X f none {} ({ shipped with algorithm := .DEFAULT }, 0)).1 = .error .recursionError :=
  C102_no_default_algorithm (facEnv_says _) rfl X f none {} rfl _ rfl

/-! ## C98 for the finder a user gets without any arguments, on a new installation -/

/-- the summation estimator a finder has -/
noncomputable def Externals.sum (X : Externals ℝ) : SumCfg ℝ :=
  { numPts := 6500, deltaPhi := 1 / 100, maxPrecision := 1 / 10 ^ 10, arg := X.arg, evals := X.evals, steps := X.steps }

/-- C98 for the finder that `RootFinder(f, df)` constructs on a new installation, with 6500 points per line and precision (5, 5): under the hypotheses of
`C98_finder_total_partial` the constructor and `calculateRoots` return; every zero in the requested rectangle is near a root in the container, and
every root in the container is near a zero. -/
theorem C98_shipped_partial (X : Externals ℝ) (hlimit : 4 ≤ X.limit) (hpi : X.pi = Real.pi) (harg : ∀ z, X.arg z = Complex.arg ⟨z.re, z.im⟩)
    (f : Cx ℝ → Cx ℝ) (df : Option (Cx ℝ → Cx ℝ)) (re im : ℝ × ℝ) (dom : (ℝ × ℝ) × (ℝ × ℝ)) (hdom : dom = desymmetrizeDomain re im (6, 6))
    (zeros : List (Cx ℝ)) (r g : Cx ℝ → ℝ) (M d : ℝ) (hf : Factored f (Cell.Has ⟨dom.1, dom.2, 0⟩) zeros r g M) (hM : 0 ≤ M) (hd : 0 < d)
    (hfine : FineEnough 6500 (max (dom.1.2 - dom.1.1) (dom.2.2 - dom.2.1)) d M zeros.length)
    (hfar : ∀ re im, Reached (6, 6) zeros dom.1 dom.2 re im → ∀ z, Cell.Boundary ⟨re, im, 0⟩ z → Far d zeros z)
    (hsafe : Safe (Externals.sum X) ⟨f, df, (6, 6), dom.1, dom.2, false⟩ zeros (max (dom.1.2 - dom.1.1) (dom.2.2 - dom.2.1)) d M X.limit) :
    ∃ fd, (newFinder fileEnv X f df {} newInstallation.fs).1 = .ok fd ∧
    let s := fd.calculateRoots re im none none
    s.outcome = .ok () ∧ s.warned = false ∧
    (∀ z ∈ zeros, Requested re im z → ∃ r ∈ held s.finder.container, 1 ≤ r.2 ∧ Near (10 ^ (-6 : ℤ), 10 ^ (-6 : ℤ)) z r.1) ∧
    ∀ r ∈ held s.finder.container, 1 ≤ r.2 ∧ RequestedWithin (5 * 10 ^ (-6 : ℤ), 5 * 10 ^ (-6 : ℤ)) re im r.1 ∧
        ∃ z ∈ zeros, Near (10 ^ (-6 : ℤ), 10 ^ (-6 : ℤ)) z r.1 := by
  obtain ⟨dd, hd', h⟩ := C102_persisted (K := ℝ) [] trivial
  have h1 : dd.container = .ROUNDING_CONTAINER := by have := hd'.container; injection this with h; exact h.symm
  have h2 : dd.algorithm = .SIMPLE_ARGUMENT := by have := hd'.algorithm; injection this with h; exact h.symm
  have h3 : dd.estimator = .SUMMATION_ESTIMATOR := by have := hd'.estimator; injection this with h; exact h.symm
  have h4 : dd.precision = (5, 5) := by
    have := hd'.precision; injection this with h; injection h with h h'; injection h with h; injection h' with h' _; injection h' with h'
    exact Prod.ext h.symm h'.symm
  obtain ⟨fd, e, hn⟩ := h (by rw [h2]; decide) (by rw [h1]; decide) (by rw [h3]; decide) X hlimit f df {}
  have hp : fd.precision = (5, 5) := by have := hn.precision; rw [← h4]; exact (Option.some.inj this).symm
  have hcont : fd.container = .rounding ⟨(5, 5), [], []⟩ := by
    rw [hn.container, hp]
    change emptyNamed _ dd.container = _
    rw [h1]; rfl
  refine ⟨fd, congrArg Prod.fst e, ?_⟩
  have := C98_finder_total_partial fd (Externals.sum X) harg (by norm_num [Externals.sum]) (by norm_num [Externals.sum]) X.limit (by
    rw [hn.algorithm, ← hpi]
    change searchNamed X dd.estimator none dd.algorithm = _
    rw [h2, h3]; rfl) hn.est (by rw [hcont]; rfl) re im none (5, 5) (.inr ⟨rfl, hp⟩) dom hdom zeros r g M d (by rw [hn.f]; exact hf) hM hd hfine hfar
    (by rw [hn.f, hn.df]; exact hsafe)
  refine ⟨this.1, this.2.1, this.2.2.1, fun r hr => ?_⟩
  rcases this.2.2.2 r hr with h | h
  · rw [hcont] at h; cases h
  · exact h

/-! ### The hypotheses are met: eleven rectangles around the zero of `z` -/

/-- the argument of `b / a` is at least `t` if the area between `a` and `b` is large enough -/
theorem arg_ge {a b : Cx ℝ} {t : ℝ} (hpos : 0 < (a.re * b.im - a.im * b.re) ^ 2)
    (hc : t ^ 2 * (a.re ^ 2 + a.im ^ 2) * (b.re ^ 2 + b.im ^ 2) ≤ (a.re * b.im - a.im * b.re) ^ 2) :
    t ≤ |Complex.arg ⟨(b / a).re, (b / a).im⟩| := by
  have hA : 0 < a.re ^ 2 + a.im ^ 2 := by
    by_contra h
    have h1 : a.re = 0 := by nlinarith [sq_nonneg a.re, sq_nonneg a.im]
    have h2 : a.im = 0 := by nlinarith [sq_nonneg a.re, sq_nonneg a.im]
    rw [h1, h2] at hpos
    norm_num at hpos
  have hB : 0 < b.re ^ 2 + b.im ^ 2 := by
    by_contra h
    have h1 : b.re = 0 := by nlinarith [sq_nonneg b.re, sq_nonneg b.im]
    have h2 : b.im = 0 := by nlinarith [sq_nonneg b.re, sq_nonneg b.im]
    rw [h1, h2] at hpos
    norm_num at hpos
  have hA' := Real.sqrt_pos.2 hA
  have hB' := Real.sqrt_pos.2 hB
  have hC : 0 < |a.re * b.im - a.im * b.re| := abs_pos.2 (fun h => by rw [h] at hpos; norm_num at hpos)
  refine le_trans ?_ (arg_ge_cross hA' hB' hC (Real.sq_sqrt hA.le).ge (Real.sq_sqrt hB.le).ge le_rfl)
  rw [le_div_iff₀ (mul_pos hA' hB')]
  refine abs_le_of_sq_le_sq (a := t * _) ?_ hC.le |> fun h => (le_abs_self _).trans h
  rw [sq_abs]
  refine le_trans (le_of_eq ?_) hc
  rw [mul_pow, mul_pow, Real.sq_sqrt hA.le, Real.sq_sqrt hB.le, mul_assoc]

noncomputable def tinyX : Externals ℝ where
  pi := Real.pi
  arg := fun z => Complex.arg ⟨z.re, z.im⟩
  evals := fun n => n + 1
  steps := 6600
  quad := ⟨fun _ _ => 0, fun _ => 0, fun n => n, 0⟩
  newton := ⟨fun _ _ _ _ => none, fun _ _ _ _ => none, fun _ _ _ => none⟩
  polyRoots := fun _ => []
  limit := 1000
  info := false
  debug := false
  taskTruthy := false

theorem tiny_reached : ∀ re im, Reached (6, 6) [0] ((-9 / 8000000 : ℝ), (17 / 8000000 : ℝ)) ((-49 / 16000000 : ℝ), (65 / 16000000 : ℝ)) re im →
    (re = (-9 / 8000000, 17 / 8000000) ∧ im = (-49 / 16000000, 65 / 16000000)) ∨
    (re = (-9 / 8000000, 17 / 8000000) ∧ im = (-49 / 16000000, 1 / 2000000)) ∨
    (re = (-9 / 8000000, 17 / 8000000) ∧ im = (-49 / 16000000, -41 / 32000000)) ∨
    (re = (-9 / 8000000, 17 / 8000000) ∧ im = (-41 / 32000000, 1 / 2000000)) ∨
    (re = (-9 / 8000000, 1 / 2000000) ∧ im = (-41 / 32000000, 1 / 2000000)) ∨
    (re = (-9 / 8000000, 1 / 2000000) ∧ im = (-41 / 32000000, -25 / 64000000)) ∨
    (re = (-9 / 8000000, 1 / 2000000) ∧ im = (-25 / 64000000, 1 / 2000000)) ∨
    (re = (-9 / 8000000, -5 / 16000000) ∧ im = (-25 / 64000000, 1 / 2000000)) ∨
    (re = (-5 / 16000000, 1 / 2000000) ∧ im = (-25 / 64000000, 1 / 2000000)) ∨
    (re = (1 / 2000000, 17 / 8000000) ∧ im = (-41 / 32000000, 1 / 2000000)) ∨
    (re = (-9 / 8000000, 17 / 8000000) ∧ im = (1 / 2000000, 65 / 16000000)) := by
  intro re im h
  have c1 : ∀ c : Cell ℝ, 1 ≤ Cell.count c [0] → Cell.HasHalfOpen c 0 := by
    intro c hc
    by_contra hno
    unfold Cell.count at hc
    simp [hno] at hc
  induction h with
  | whole => exact .inl ⟨rfl, rfl⟩
  | left _ hs hc hl ih =>
    have hc := c1 _ hc
    unfold Cell.HasHalfOpen at hc
    unfold Cell.Small at hs
    rcases ih with ⟨rfl, rfl⟩ | ⟨rfl, rfl⟩ | ⟨rfl, rfl⟩ | ⟨rfl, rfl⟩ | ⟨rfl, rfl⟩ | ⟨rfl, rfl⟩ | ⟨rfl, rfl⟩ | ⟨rfl, rfl⟩ | ⟨rfl, rfl⟩ | ⟨rfl, rfl⟩ | ⟨rfl, rfl⟩ <;> (revert hs hc hl; norm_num)
  | right _ hs hc hl ih =>
    have hc := c1 _ hc
    unfold Cell.HasHalfOpen at hc
    unfold Cell.Small at hs
    rcases ih with ⟨rfl, rfl⟩ | ⟨rfl, rfl⟩ | ⟨rfl, rfl⟩ | ⟨rfl, rfl⟩ | ⟨rfl, rfl⟩ | ⟨rfl, rfl⟩ | ⟨rfl, rfl⟩ | ⟨rfl, rfl⟩ | ⟨rfl, rfl⟩ | ⟨rfl, rfl⟩ | ⟨rfl, rfl⟩ <;> (revert hs hc hl; norm_num)
  | lower _ hs hc hl ih =>
    have hc := c1 _ hc
    unfold Cell.HasHalfOpen at hc
    unfold Cell.Small at hs
    rcases ih with ⟨rfl, rfl⟩ | ⟨rfl, rfl⟩ | ⟨rfl, rfl⟩ | ⟨rfl, rfl⟩ | ⟨rfl, rfl⟩ | ⟨rfl, rfl⟩ | ⟨rfl, rfl⟩ | ⟨rfl, rfl⟩ | ⟨rfl, rfl⟩ | ⟨rfl, rfl⟩ | ⟨rfl, rfl⟩ <;> (revert hs hc hl; norm_num)
  | upper _ hs hc hl ih =>
    have hc := c1 _ hc
    unfold Cell.HasHalfOpen at hc
    unfold Cell.Small at hs
    rcases ih with ⟨rfl, rfl⟩ | ⟨rfl, rfl⟩ | ⟨rfl, rfl⟩ | ⟨rfl, rfl⟩ | ⟨rfl, rfl⟩ | ⟨rfl, rfl⟩ | ⟨rfl, rfl⟩ | ⟨rfl, rfl⟩ | ⟨rfl, rfl⟩ | ⟨rfl, rfl⟩ | ⟨rfl, rfl⟩ <;> (revert hs hc hl; norm_num)

theorem tiny_dom : (((-9 / 8000000 : ℝ), (17 / 8000000 : ℝ)), ((-49 / 16000000 : ℝ), (65 / 16000000 : ℝ))) = desymmetrizeDomain ((-1 / 8000000 : ℝ), (1 / 8000000 : ℝ)) (-1 / 16000000, 1 / 16000000) (6, 6) := by
  unfold desymmetrizeDomain eps10
  norm_num

theorem tiny_max : max ((17 / 8000000 : ℝ) - (-9 / 8000000)) (65 / 16000000 - (-49 / 16000000)) = 57 / 8000000 := by norm_num

theorem tiny_fine : FineEnough 6500 (max ((17 / 8000000 : ℝ) - (-9 / 8000000)) (65 / 16000000 - (-49 / 16000000))) (1 / 4000000) 0 [(0 : Cx ℝ)].length := by
  have hpi := Real.pi_pos
  rw [tiny_max]
  unfold FineEnough stepTurn
  simp only [List.length_singleton]
  norm_num
  linarith

theorem tiny_far : ∀ re im, Reached (6, 6) [0] ((-9 / 8000000 : ℝ), (17 / 8000000 : ℝ)) ((-49 / 16000000 : ℝ), (65 / 16000000 : ℝ)) re im → ∀ z, Cell.Boundary ⟨re, im, 0⟩ z → Far (1 / 4000000) [0] z := by
  intro re im hob z hz c hc
  rw [List.mem_singleton] at hc
  subst hc
  obtain ⟨⟨h1, h2, h3, h4⟩, h5⟩ := hz
  simp only [Cx.zero_re, Cx.zero_im, sub_zero] at h1 h2 h3 h4 ⊢
  by_contra hlt
  push Not at hlt
  have a1 : |z.re| < 1 / 4000000 := abs_lt_of_sq_lt_sq (by nlinarith [sq_nonneg z.im]) (by norm_num)
  have a2 : |z.im| < 1 / 4000000 := abs_lt_of_sq_lt_sq (by nlinarith [sq_nonneg z.re]) (by norm_num)
  rw [abs_lt] at a1 a2
  rcases tiny_reached re im hob with ⟨rfl, rfl⟩ | ⟨rfl, rfl⟩ | ⟨rfl, rfl⟩ | ⟨rfl, rfl⟩ | ⟨rfl, rfl⟩ | ⟨rfl, rfl⟩ | ⟨rfl, rfl⟩ | ⟨rfl, rfl⟩ | ⟨rfl, rfl⟩ | ⟨rfl, rfl⟩ | ⟨rfl, rfl⟩ <;>
    (refine h5 ⟨?_, ?_, ?_, ?_⟩ <;> dsimp only at * <;> linarith)

theorem tiny_safe : Safe (Externals.sum tinyX) ⟨fun z => z, none, (6, 6), ((-9 / 8000000 : ℝ), (17 / 8000000 : ℝ)), ((-49 / 16000000 : ℝ), (65 / 16000000 : ℝ)), false⟩ [0]
    (max ((17 / 8000000 : ℝ) - (-9 / 8000000)) (65 / 16000000 - (-49 / 16000000))) (1 / 4000000) 0 1000 := by
  have hpi := Real.pi_le_four
  rw [tiny_max]
  refine ⟨?_, ?_, ⟨[0], ?_, ?_, ?_⟩, 2, 3, ?_, ?_⟩
  · intro re im hob e he
    have hst : 2 * stepTurn (Externals.sum tinyX).numPts (57 / 8000000) (1 / 4000000) 0 [(0 : Cx ℝ)].length < 1 / 10 := by
      unfold stepTurn
      simp only [Externals.sum, List.length_singleton]
      norm_num
      linarith
    refine lt_of_lt_of_le hst ?_
    have := tiny_reached re im hob
    unfold edges at he
    simp only [List.mem_cons, List.not_mem_nil, or_false] at he
    rcases this with ⟨rfl, rfl⟩ | ⟨rfl, rfl⟩ | ⟨rfl, rfl⟩ | ⟨rfl, rfl⟩ | ⟨rfl, rfl⟩ | ⟨rfl, rfl⟩ | ⟨rfl, rfl⟩ | ⟨rfl, rfl⟩ | ⟨rfl, rfl⟩ | ⟨rfl, rfl⟩ | ⟨rfl, rfl⟩ <;>
      rcases he with rfl | rfl | rfl | rfl <;>
      exact arg_ge (by norm_num) (by norm_num)
  · intro re im hob
    rcases tiny_reached re im hob with ⟨rfl, rfl⟩ | ⟨rfl, rfl⟩ | ⟨rfl, rfl⟩ | ⟨rfl, rfl⟩ | ⟨rfl, rfl⟩ | ⟨rfl, rfl⟩ | ⟨rfl, rfl⟩ | ⟨rfl, rfl⟩ | ⟨rfl, rfl⟩ | ⟨rfl, rfl⟩ | ⟨rfl, rfl⟩ <;> norm_num [Externals.sum]
  · simp
  · simp [Externals.sum, tinyX]
  · norm_num [Externals.sum, tinyX]
  · unfold Cell.Below; norm_num
  · norm_num

/-- all hypotheses of `C98_shipped_partial` are met: `RootFinder(lambda z: z).calculateRoots(...)` finds 0 -/
example : ∃ fd, (newFinder fileEnv tinyX (fun z => z) none {} newInstallation.fs).1 = .ok fd ∧
    let s := fd.calculateRoots (-1 / 8000000, 1 / 8000000) (-1 / 16000000, 1 / 16000000) none none
    s.outcome = .ok () ∧ s.warned = false ∧ ∃ r ∈ held s.finder.container, 1 ≤ r.2 ∧ Near ((10 : ℝ) ^ (-6 : ℤ), (10 : ℝ) ^ (-6 : ℤ)) 0 r.1 := by
  obtain ⟨fd, h1, h⟩ := C98_shipped_partial tinyX (by norm_num [tinyX]) rfl (fun _ => rfl) (fun z => z) none
    (-1 / 8000000, 1 / 8000000) (-1 / 16000000, 1 / 16000000) _ tiny_dom [0] (fun _ => 1) (fun _ => 0) 0 (1 / 4000000)
    ⟨fun _ _ => one_pos, fun z _ => by ext <;> simp, fun a b _ _ => by simp⟩ le_rfl (by norm_num) tiny_fine tiny_far tiny_safe
  exact ⟨fd, h1, h.1, h.2.1, h.2.2.1 0 (by simp) (by unfold Requested; norm_num)⟩

end PyZeal.Props
