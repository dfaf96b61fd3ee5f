import Verif.Model.Factories
import Mathlib.Tactic.Common

/-!
# C61: factories
-/

set_option linter.unusedSectionVars false

namespace PyZeal.Props
open Factory
variable {σ α : Type} {E : FactoryEnv σ} {K : Constants α}

/-- the member of `AlgorithmTypes` that names the class of an algorithm object -/
def algorithmClass : AlgorithmObj α → AlgorithmTypes
  | .newtonGrid _ => .NEWTON_GRID
  | .simpleArgument _ => .SIMPLE_ARGUMENT
  | .simpleArgumentNewton _ => .SIMPLE_ARGUMENT_NEWTON
  | .associatedPolynomial _ => .ASSOCIATED_POLYNOMIAL

/-- the estimator of an algorithm object -/
def algorithmEstimator : AlgorithmObj α → Option (EstimatorObj α)
  | .newtonGrid _ => none
  | .simpleArgument e => some e
  | .simpleArgumentNewton e => some e
  | .associatedPolynomial e => some e

/-- the member of `EstimatorTypes` that names the class of an estimator -/
def estimatorClass : EstimatorObj α → EstimatorTypes
  | .summation _ _ _ => .SUMMATION_ESTIMATOR
  | .quadrature => .QUADRATURE_ESTIMATOR

/-- the member of `ContainerTypes` that names the class of a container -/
def containerClass : ContainerObj → ContainerTypes
  | .rounding _ => .ROUNDING_CONTAINER
  | .plain _ => .PLAIN_CONTAINER

/-- In the states `P` the settings service can be resolved and reports `d`, and loggers can be set up;
neither leads out of `P`. -/
structure Says (E : FactoryEnv σ) (P : σ → Prop) (d : Defaults) : Prop where
  settings : ∀ s, P s → ∃ s', E.settings s = (.ok d, s') ∧ P s'
  logger : ∀ s, P s → ∃ s', E.logger s = (.ok (), s') ∧ P s'

/-- the requested type, the settings' one for `DEFAULT` -/
def orDefault {τ : Type} [DecidableEq τ] (ty dflt : τ) (settings : τ) : τ := if ty = dflt then settings else ty

variable {P : σ → Prop} {d : Defaults}

/-! ## Estimators -/

/-- **C61.** Whatever the settings: an estimator that is returned for an explicit type has that class
(and no settings decide about it). -/
theorem C61_estimator_explicit (n : Nat) (ty : EstimatorTypes) (hty : ty ≠ .DEFAULT) (a : Option Int)
    (b c : Option α) (s s' : σ) (r : EstimatorObj α)
    (h : getConcreteEstimator E n ty a b c s = (.ok r, s')) : estimatorClass r = ty := by
  rcases n with _ | n
  · cases h
  unfold getConcreteEstimator at h
  rw [Py.bind_run] at h
  rcases he : E.logger s with ⟨e | u, s1⟩
  · rw [he] at h; cases h
  · rw [he] at h; dsimp only at h
    cases ty with
    | SUMMATION_ESTIMATOR =>
      rcases a with _ | a <;> rcases b with _ | b <;> rcases c with _ | c <;>
        first
        | (injection h with h1; injection h1 with h1; subst h1; rfl)
        | (injection h with h1; cases h1)
    | QUADRATURE_ESTIMATOR => injection h with h1; injection h1 with h1; subst h1; rfl
    | DEFAULT => exact absurd rfl hty

/-- **C61.** The estimator factory succeeds for every requested type that is, directly or by the settings,
a concrete one, and returns that class; the parameters are those given. -/
theorem C61_estimator (hS : Says E P d) (n : Nat) (ty : EstimatorTypes) (hd : d.estimator ≠ .DEFAULT)
    (a : Int) (b c : α) (s : σ) (hs : P s) :
    ∃ r s', getConcreteEstimator E (n + 2) ty (some a) (some b) (some c) s = (.ok r, s') ∧ P s' ∧
      estimatorClass r = orDefault ty .DEFAULT d.estimator ∧
      (estimatorClass r = .SUMMATION_ESTIMATOR → r = .summation a b c) := by
  have explicit : ∀ m (ty : EstimatorTypes) s, P s → ty ≠ .DEFAULT →
      ∃ r s', getConcreteEstimator E (m + 1) ty (some a) (some b) (some c) s = (.ok r, s') ∧ P s' ∧
        estimatorClass r = ty ∧ (estimatorClass r = .SUMMATION_ESTIMATOR → r = .summation a b c) := by
    intro m ty s hs hty
    obtain ⟨s1, h1, p1⟩ := hS.logger s hs
    unfold getConcreteEstimator
    rw [Py.bind_ok h1]
    cases ty with
    | SUMMATION_ESTIMATOR => exact ⟨.summation a b c, s1, rfl, p1, rfl, fun _ => rfl⟩
    | QUADRATURE_ESTIMATOR => exact ⟨.quadrature, s1, rfl, p1, rfl, fun h => by cases h⟩
    | DEFAULT => exact absurd rfl hty
  by_cases hty : ty = .DEFAULT
  · subst hty
    obtain ⟨s1, h1, p1⟩ := hS.logger s hs
    obtain ⟨s2, h2, p2⟩ := hS.settings s1 p1
    unfold getConcreteEstimator
    rw [Py.bind_ok h1]
    dsimp only
    rw [Py.bind_ok h2]
    obtain ⟨r, s3, h3, p3, h4⟩ := explicit n d.estimator s2 p2 hd
    exact ⟨r, s3, h3, p3, by simpa [orDefault] using h4⟩
  · obtain ⟨r, s3, h3, p3, h4⟩ := explicit (n + 1) ty s hs hty
    exact ⟨r, s3, h3, p3, by simpa [orDefault, hty] using h4⟩

/-- **C61.** If the settings themselves say `DEFAULT`, requesting the default estimator never returns: it
recurses until the limit, whatever the limit is. -/
theorem C61_estimator_diverges (hS : Says E P d) (hd : d.estimator = .DEFAULT) (n : Nat)
    (a : Option Int) (b c : Option α) : ∀ s, P s →
      ∃ s', getConcreteEstimator E n .DEFAULT a b c s = (.error .recursionError, s') := by
  induction n with
  | zero => intro s _; exact ⟨s, rfl⟩
  | succ n ih =>
    intro s hs
    obtain ⟨s1, h1, p1⟩ := hS.logger s hs
    obtain ⟨s2, h2, p2⟩ := hS.settings s1 p1
    unfold getConcreteEstimator
    rw [Py.bind_ok h1]
    dsimp only
    rw [Py.bind_ok h2, hd]
    exact ih s2 p2

/-- **C61.** A summation estimator needs all three of its parameters. -/
theorem C61_estimator_parameters (hS : Says E P d) (n : Nat) (a : Option Int) (b c : Option α)
    (h : a = none ∨ b = none ∨ c = none) (s : σ) (hs : P s) :
    (getConcreteEstimator E (n + 1) .SUMMATION_ESTIMATOR a b c s).1 = .error .valueError := by
  obtain ⟨s1, h1, p1⟩ := hS.logger s hs
  unfold getConcreteEstimator
  rw [Py.bind_ok h1]
  rcases h with rfl | rfl | rfl
  · rfl
  · cases a <;> rfl
  · cases a <;> cases b <;> rfl

/-! ## Algorithms -/

/-- **C61.** An algorithm that is returned for an explicit type has that class. -/
theorem C61_algorithm_explicit (n : Nat) (ty : AlgorithmTypes) (hty : ty ≠ .DEFAULT) (est : EstimatorTypes)
    (k : Option Int) (s s' : σ) (r : AlgorithmObj α)
    (h : getConcreteAlgorithm E K n ty est k s = (.ok r, s')) : algorithmClass r = ty := by
  rcases n with _ | n
  · cases h
  unfold getConcreteAlgorithm at h
  rw [Py.bind_run] at h
  rcases he : E.logger s with ⟨e | u, s1⟩
  · rw [he] at h; cases h
  · rw [he] at h; dsimp only at h
    cases ty with
    | NEWTON_GRID => injection h with h1; injection h1 with h1; subst h1; rfl
    | SIMPLE_ARGUMENT | SIMPLE_ARGUMENT_NEWTON | ASSOCIATED_POLYNOMIAL =>
      dsimp only at h
      rw [Py.bind_run] at h
      rcases he2 : simpleInit E K n est s1 with ⟨e | u, s2⟩
      · rw [he2] at h; cases h
      · rw [he2] at h
        injection h with h1; injection h1 with h1; subst h1; rfl
    | DEFAULT => exact absurd rfl hty

/-- **C61.** The algorithm factory returns the class named by its type argument, or by the settings for
`DEFAULT`; its estimator (if any) has the class named by the estimator type, or by the settings for
`DEFAULT`, with 6500 points; a Newton grid has the given number of points, 50 if none (or 0) is given. -/
theorem C61_algorithm (hS : Says E P d) (n : Nat) (ty : AlgorithmTypes) (hd : d.algorithm ≠ .DEFAULT)
    (est : EstimatorTypes) (hde : d.estimator ≠ .DEFAULT) (k : Option Int) (s : σ) (hs : P s) :
    ∃ r s', getConcreteAlgorithm E K (n + 4) ty est k s = (.ok r, s') ∧ P s' ∧
      algorithmClass r = orDefault ty .DEFAULT d.algorithm ∧
      (∀ e, algorithmEstimator r = some e → estimatorClass e = orDefault est .DEFAULT d.estimator ∧
        (estimatorClass e = .SUMMATION_ESTIMATOR → e = .summation 6500 K.deltaPhi K.maxPrecision)) ∧
      (∀ g, r = .newtonGrid g → (g = 50 ∧ (k = none ∨ k = some 0)) ∨ (k = some g ∧ g ≠ 0)) := by
  have explicit : ∀ m (ty : AlgorithmTypes) s, P s → ty ≠ .DEFAULT →
      ∃ r s', getConcreteAlgorithm E K (m + 3) ty est k s = (.ok r, s') ∧ P s' ∧ algorithmClass r = ty ∧
      (∀ e, algorithmEstimator r = some e → estimatorClass e = orDefault est .DEFAULT d.estimator ∧
        (estimatorClass e = .SUMMATION_ESTIMATOR → e = .summation 6500 K.deltaPhi K.maxPrecision)) ∧
      (∀ g, r = .newtonGrid g → (g = 50 ∧ (k = none ∨ k = some 0)) ∨ (k = some g ∧ g ≠ 0)) := by
    intro m ty s hs hty
    obtain ⟨s1, h1, p1⟩ := hS.logger s hs
    obtain ⟨e, s2, h2, p2, h3⟩ := C61_estimator hS m est hde 6500 K.deltaPhi K.maxPrecision s1 p1
    have h2' : simpleInit E K (m + 2) est s1 = (.ok e, s2) := h2
    unfold getConcreteAlgorithm
    rw [Py.bind_ok h1]
    cases ty with
    | NEWTON_GRID =>
      refine ⟨.newtonGrid (gridPoints k), s1, rfl, p1, rfl, (by intro e he; cases he), ?_⟩
      intro g hg
      injection hg with hg
      rcases k with _ | k
      · exact .inl ⟨hg.symm, .inl rfl⟩
      · by_cases h0 : k = 0
        · subst h0; exact .inl ⟨hg.symm, .inr rfl⟩
        · right
          have hk : gridPoints (some k) = k := by
            unfold gridPoints
            split <;> simp_all
          rw [← hg, hk]
          exact ⟨rfl, h0⟩
    | SIMPLE_ARGUMENT =>
      dsimp only
      rw [Py.bind_ok h2']
      exact ⟨_, s2, rfl, p2, rfl, by intro e' he; injection he with he; subst he; exact h3, by intro g hg; cases hg⟩
    | SIMPLE_ARGUMENT_NEWTON =>
      dsimp only
      rw [Py.bind_ok h2']
      exact ⟨_, s2, rfl, p2, rfl, by intro e' he; injection he with he; subst he; exact h3, by intro g hg; cases hg⟩
    | ASSOCIATED_POLYNOMIAL =>
      dsimp only
      rw [Py.bind_ok h2']
      exact ⟨_, s2, rfl, p2, rfl, by intro e' he; injection he with he; subst he; exact h3, by intro g hg; cases hg⟩
    | DEFAULT => exact absurd rfl hty
  by_cases hty : ty = .DEFAULT
  · subst hty
    obtain ⟨s1, h1, p1⟩ := hS.logger s hs
    obtain ⟨s2, h2, p2⟩ := hS.settings s1 p1
    unfold getConcreteAlgorithm
    rw [Py.bind_ok h1]
    dsimp only
    rw [Py.bind_ok h2]
    obtain ⟨r, s3, h3, p3, h4, h5⟩ := explicit n d.algorithm s2 p2 hd
    exact ⟨r, s3, h3, p3, by simpa [orDefault] using h4, h5⟩
  · obtain ⟨r, s3, h3, p3, h4, h5⟩ := explicit (n + 1) ty s hs hty
    exact ⟨r, s3, h3, p3, by simpa [orDefault, hty] using h4, h5⟩

/-- **C61.** If the settings say `DEFAULT`, requesting the default algorithm never returns. -/
theorem C61_algorithm_diverges (hS : Says E P d) (hd : d.algorithm = .DEFAULT) (n : Nat)
    (est : EstimatorTypes) (k : Option Int) : ∀ s, P s →
      ∃ s', getConcreteAlgorithm E K n .DEFAULT est k s = (.error .recursionError, s') := by
  induction n with
  | zero => intro s _; exact ⟨s, rfl⟩
  | succ n ih =>
    intro s hs
    obtain ⟨s1, h1, p1⟩ := hS.logger s hs
    obtain ⟨s2, h2, p2⟩ := hS.settings s1 p1
    unfold getConcreteAlgorithm
    rw [Py.bind_ok h1]
    dsimp only
    rw [Py.bind_ok h2, hd]
    exact ih s2 p2

/-! ## Containers -/

/-- **C61.** A container that is returned for an explicit type has that class. -/
theorem C61_container_explicit (n : Nat) (ty : ContainerTypes) (hty : ty ≠ .DEFAULT)
    (p : Option (Int × Int)) (q : Option Nat) (s s' : σ) (r : ContainerObj)
    (h : getConcreteContainer E n ty p q s = (.ok r, s')) : containerClass r = ty := by
  rcases n with _ | n
  · cases h
  unfold getConcreteContainer at h
  rw [Py.bind_run] at h
  rcases he : E.logger s with ⟨e | u, s1⟩
  · rw [he] at h; cases h
  · rw [he] at h; dsimp only at h
    cases ty with
    | ROUNDING_CONTAINER =>
      dsimp only at h
      rcases p with _ | p
      · unfold roundingInit at h; dsimp only at h
        rw [Py.bind_run] at h
        rcases he2 : E.settings s1 with ⟨e | u, s2⟩
        · rw [he2] at h; cases h
        · rw [he2] at h
          injection h with h1; injection h1 with h1; subst h1; rfl
      · injection h with h1; injection h1 with h1; subst h1; rfl
    | PLAIN_CONTAINER => injection h with h1; injection h1 with h1; subst h1; rfl
    | DEFAULT => exact absurd rfl hty

/-- **C61.** The container factory returns the class named by its type argument, or by the settings for
`DEFAULT`; a rounding container has the given precision, or the one of the settings; a plain container
has the given queue. -/
theorem C61_container (hS : Says E P d) (n : Nat) (ty : ContainerTypes) (hd : d.container ≠ .DEFAULT)
    (p : Option (Int × Int)) (q : Option Nat) (s : σ) (hs : P s) :
    ∃ r s', getConcreteContainer E (n + 2) ty p q s = (.ok r, s') ∧ P s' ∧
      containerClass r = orDefault ty .DEFAULT d.container ∧
      (∀ p', r = .rounding p' → p' = p.getD d.precision) ∧ (∀ q', r = .plain q' → q' = q) := by
  have explicit : ∀ m (ty : ContainerTypes) s, P s → ty ≠ .DEFAULT →
      ∃ r s', getConcreteContainer E (m + 1) ty p q s = (.ok r, s') ∧ P s' ∧ containerClass r = ty ∧
        (∀ p', r = .rounding p' → p' = p.getD d.precision) ∧ (∀ q', r = .plain q' → q' = q) := by
    intro m ty s hs hty
    obtain ⟨s1, h1, p1⟩ := hS.logger s hs
    unfold getConcreteContainer
    rw [Py.bind_ok h1]
    cases ty with
    | ROUNDING_CONTAINER =>
      dsimp only
      rcases p with _ | p
      · obtain ⟨s2, h2, p2⟩ := hS.settings s1 p1
        unfold roundingInit; dsimp only
        rw [Py.bind_ok h2]
        exact ⟨_, s2, rfl, p2, rfl, by intro p' h; injection h with h; exact h.symm, by intro q' h; cases h⟩
      · exact ⟨_, s1, rfl, p1, rfl, by intro p' h; injection h with h; exact h.symm, by intro q' h; cases h⟩
    | PLAIN_CONTAINER =>
      exact ⟨_, s1, rfl, p1, rfl, (by intro p' h; cases h), by intro q' h; injection h with h; exact h.symm⟩
    | DEFAULT => exact absurd rfl hty
  by_cases hty : ty = .DEFAULT
  · subst hty
    obtain ⟨s1, h1, p1⟩ := hS.logger s hs
    obtain ⟨s2, h2, p2⟩ := hS.settings s1 p1
    unfold getConcreteContainer
    rw [Py.bind_ok h1]
    dsimp only
    rw [Py.bind_ok h2]
    obtain ⟨r, s3, h3, p3, h4, h5⟩ := explicit n d.container s2 p2 hd
    exact ⟨r, s3, h3, p3, by simpa [orDefault] using h4, h5⟩
  · obtain ⟨r, s3, h3, p3, h4, h5⟩ := explicit (n + 1) ty s hs hty
    exact ⟨r, s3, h3, p3, by simpa [orDefault, hty] using h4, h5⟩

/-- **C61.** If the settings say `DEFAULT`, requesting the default container never returns. -/
theorem C61_container_diverges (hS : Says E P d) (hd : d.container = .DEFAULT) (n : Nat)
    (p : Option (Int × Int)) (q : Option Nat) : ∀ s, P s →
      ∃ s', getConcreteContainer E n .DEFAULT p q s = (.error .recursionError, s') := by
  induction n with
  | zero => intro s _; exact ⟨s, rfl⟩
  | succ n ih =>
    intro s hs
    obtain ⟨s1, h1, p1⟩ := hS.logger s hs
    obtain ⟨s2, h2, p2⟩ := hS.settings s1 p1
    unfold getConcreteContainer
    rw [Py.bind_ok h1]
    dsimp only
    rw [Py.bind_ok h2, hd]
    exact ih s2 p2

/-! ## Root finders -/

/-- **C61.** A root finder is made of exactly what its constructor arguments ask for, with the settings
filling in whatever is left at its default. -/
theorem C61_finder (hS : Says E P d) (n : Nat) (hda : d.algorithm ≠ .DEFAULT) (hdc : d.container ≠ .DEFAULT)
    (hde : d.estimator ≠ .DEFAULT) (ct : ContainerTypes) (at' : AlgorithmTypes) (et : EstimatorTypes)
    (p : Option (Int × Int)) (k : Option Int) (v : Option Bool) (s : σ) (hs : P s) :
    ∃ r s', finderInit E K (n + 4) ct at' et p k v s = (.ok r, s') ∧ P s' ∧
      algorithmClass r.algorithm = orDefault at' .DEFAULT d.algorithm ∧
      (∀ e, algorithmEstimator r.algorithm = some e → estimatorClass e = orDefault et .DEFAULT d.estimator ∧
        (estimatorClass e = .SUMMATION_ESTIMATOR → e = .summation 6500 K.deltaPhi K.maxPrecision)) ∧
      (∀ g, r.algorithm = .newtonGrid g → (g = 50 ∧ (k = none ∨ k = some 0)) ∨ (k = some g ∧ g ≠ 0)) ∧
      containerClass r.container = orDefault ct .DEFAULT d.container ∧
      (∀ p', r.container = .rounding p' → p' = r.precision) ∧
      r.precision = p.getD d.precision ∧ r.verbose = v.getD d.verbose := by
  obtain ⟨a, s1, h1, p1, c1, c2, cg⟩ := C61_algorithm (K := K) hS n at' hda et hde k s hs
  obtain ⟨c, s2, h2, p2, c3, c4, -⟩ := C61_container hS (n + 2) ct hdc p none s1 p1
  have h3 : ∃ s3, precisionOr E p s2 = (.ok (p.getD d.precision), s3) ∧ P s3 := by
    rcases p with _ | p
    · obtain ⟨s3, h3, p3⟩ := hS.settings s2 p2
      exact ⟨s3, by unfold precisionOr; dsimp only; rw [Py.bind_ok h3]; rfl, p3⟩
    · exact ⟨s2, rfl, p2⟩
  obtain ⟨s3, h3, p3⟩ := h3
  have h4 : ∃ s4, verboseOr E v s3 = (.ok (v.getD d.verbose), s4) ∧ P s4 := by
    rcases v with _ | v
    · obtain ⟨s4, h4, p4⟩ := hS.settings s3 p3
      exact ⟨s4, by unfold verboseOr; dsimp only; rw [Py.bind_ok h4]; rfl, p4⟩
    · exact ⟨s3, rfl, p3⟩
  obtain ⟨s4, h4, p4⟩ := h4
  refine ⟨⟨a, c, p.getD d.precision, v.getD d.verbose⟩, s4, ?_, p4, c1, c2, cg, c3, c4, rfl, rfl⟩
  unfold finderInit
  rw [Py.bind_ok h1, Py.bind_ok h2, Py.bind_ok h3, Py.bind_ok h4]
  rfl

/-! an environment whose state is the current settings and a count of loggers -/

def facEnv : FactoryEnv (Defaults × Nat) where
  settings := fun s => (.ok s.1, s)
  logger := fun s => (.ok (), (s.1, s.2 + 1))

def shipped : Defaults := ⟨.ROUNDING_CONTAINER, .SIMPLE_ARGUMENT, .SUMMATION_ESTIMATOR, (5, 5), true⟩

theorem facEnv_says (d : Defaults) : Says facEnv (fun s => s.1 = d) d :=
  ⟨fun s h => ⟨s, by rw [← h]; rfl, h⟩, fun s h => ⟨(s.1, s.2 + 1), rfl, h⟩⟩

/-- with the shipped settings, `RootFinder(f, df)` uses the simple argument algorithm with the summation
estimator and a rounding container with precision (5, 5) -/
example : (finderInit facEnv (⟨1, 2⟩ : Constants Nat) 1000 .DEFAULT .DEFAULT .DEFAULT none none none (shipped, 0)).1 =
    .ok ⟨.simpleArgument (.summation 6500 1 2), .rounding (5, 5), (5, 5), true⟩ := by decide +kernel

/-- settings that say DEFAULT for the algorithm -/
example (n : Nat) : ∃ s', getConcreteAlgorithm facEnv (⟨1, 2⟩ : Constants Nat) n .DEFAULT .DEFAULT none
    ({ shipped with algorithm := .DEFAULT }, 0) = (.error .recursionError, s') :=
  C61_algorithm_diverges (facEnv_says _) rfl n _ _ _ rfl

end PyZeal.Props
