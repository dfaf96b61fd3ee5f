import Verif.Proof.Raise
import Verif.Props.Finder
import Verif.Props.SumSearch

/-! # Property C112: user supplied functions which raise -/

set_option linter.unusedSectionVars false

namespace PyZeal.Props
open Spec
variable {K : Type} [Field K] [LinearOrder K] [IsStrictOrderedRing K] [FloorRing K] {σ : Type}

/-- the same finder with another algorithm -/
def Finder.with (fd : Finder σ K) (alg : RCtx K → Py (World σ K) Unit) : Finder σ K := { fd with algorithm := alg }

/-- C112, serial. `full` is the search with functions which never raise, `real` the same search with functions which raise some of the
exceptions `E`: either nothing was raised and the result is that of `full`, or `calculateRoots` raises one of these exceptions, and
every root available is available after `full`, or was available before. -/
theorem C112_serial_partial (fd : Finder (SumState K) K) {R : Raises K} {E : Err → Prop} (hR : Within E R)
    (hE : ¬ E .keyboardInterrupt) {alg : RCtx K → Py (World (SumState K) K) Unit}
    (halg : RaisingAlgorithm R E alg fd.algorithm) (re im : K × K) (call : Option (ℤ × ℤ)) :
    let full := fd.calculateRoots re im call none
    let real := (Finder.with fd alg).calculateRoots re im call none
    (real.outcome = full.outcome ∧ real.warned = full.warned ∧ real.finder.container = full.finder.container) ∨
    ∃ e, E e ∧ real.outcome = .error e ∧ real.warned = false ∧
      ∀ r ∈ held real.finder.container, r ∈ held full.finder.container ∨ r ∈ held fd.container := by
  intro full real
  obtain ⟨_, _, h3⟩ := halg.fails hR (fd.ctx re im call) (fd.start none) rfl
  obtain ⟨e1, e2⟩ := calculateRoots_outcome fd re im call none
  obtain ⟨f1, f2⟩ := calculateRoots_outcome (Finder.with fd alg) re im call none
  simp only [full, real]
  rw [calculateRoots_container, calculateRoots_container, e1, e2, f1, f2]
  have hc : (Finder.with fd alg).ctx re im call = fd.ctx re im call := rfl
  have hs : (Finder.with fd alg).start none = fd.start none := rfl
  have ha : (Finder.with fd alg).algorithm = alg := rfl
  have hk : (Finder.with fd alg).container = fd.container := rfl
  have hi : (Finder.with fd alg).info = fd.info := rfl
  rw [hc, hs, ha, hk, hi]
  rcases h3 with h | ⟨e, he, h, _, hp⟩
  · left
    rw [h]
    exact ⟨rfl, rfl, rfl⟩
  · right
    have hne : e ≠ .keyboardInterrupt := by rintro rfl; exact hE he
    rw [h]
    refine ⟨e, he, ?_, ?_, fun r hr => held_mono fd.info _ fd.container hp.subset hr⟩
    · rw [if_neg (by simpa using hne)]
    · simpa using hne

/-- C112, serial: if the container is empty at the start, or was filled with the precision of this search, a search in which a user
function raises leaves only roots of the search in which nothing is raised, and keeps what was there before. -/
theorem C112_subset_partial (fd : Finder (SumState K) K) {R : Raises K} {E : Err → Prop} (hR : Within E R)
    (hE : ¬ E .keyboardInterrupt) {alg : RCtx K → Py (World (SumState K) K) Unit}
    (halg : RaisingAlgorithm R E alg fd.algorithm) (re im : K × K) (call : Option (ℤ × ℤ)) (p : ℤ × ℤ)
    (hp : Asked call fd.precision p) (hcont : IsEmpty fd.container ∨ FilledWith (p.1 + 1, p.2 + 1) fd.container) :
    let full := fd.calculateRoots re im call none
    let real := (Finder.with fd alg).calculateRoots re im call none
    (∀ r ∈ held fd.container, r ∈ held real.finder.container) ∧
    ∀ r ∈ held real.finder.container, r ∈ held full.finder.container := by
  intro full real
  have hprec : (fd.ctx re im call).toFilter.precision = (p.1 + 1, p.2 + 1) := searchPrecision_asked hp
  have hkeep : ∀ r ∈ held fd.container, r ∈ held full.finder.container := by
    intro r hr
    simp only [full, calculateRoots_container]
    exact held_keeps _ _ _ _ (by rwa [hprec]) hr
  constructor
  · intro r hr
    simp only [real, calculateRoots_container]
    exact held_keeps _ _ _ _ (by
      have : ((Finder.with fd alg).ctx re im call).toFilter.precision = (p.1 + 1, p.2 + 1) := hprec
      rw [this]; exact hcont) hr
  · rcases C112_serial_partial fd hR hE halg re im call with ⟨_, _, h⟩ | ⟨_, _, _, _, h⟩
    · intro r hr; simp only [real] at hr; rw [h] at hr; exact hr
    · intro r hr
      rcases h r hr with h | h
      · exact h
      · exact hkeep r h

/-- C112: an exception of the target function for the sample points of a line comes out of the sampling, and so does one of a
filter for a root offered to the container; the world is left as it was. -/
theorem C112_calls (R : Raises K) (fuel : ℕ → ℕ) (a b : Cx K) (ctx : RCtx K) (n : ℕ) (e : Err) (w : World σ K) :
    (R.f (linspace a b n) = some e → 0 < fuel n → genFuncArrR R fuel a b ctx n w = (.error e, w)) ∧
    (∀ r, R.add r = some e → addRootR R r w = (.error e, w)) ∧
    (∀ (cfg : QuadCfg K) (df : Cx K → Cx K) (o : ℤ) (zs fs : List (Cx K)) (w' : World σ K),
      genFuncArrR R cfg.evals a b ctx n w = (.ok (zs, fs), w') → R.df zs = some e →
      quadSampleR R cfg df o a b ctx n w = (.error e, w')) := by
  refine ⟨fun h hn => ?_, fun r h => ?_, fun cfg df o zs fs w' h hd => ?_⟩
  · unfold genFuncArrR
    obtain ⟨k, hk⟩ : ∃ k, fuel n = k + 1 := ⟨fuel n - 1, by omega⟩
    rw [hk]
    unfold genFuncLoopR
    rw [h]
    rfl
  · unfold addRootR
    rw [h]
    rfl
  · unfold quadSampleR
    rw [Py.bind_run, h]
    dsimp only
    rw [hd]
    rfl

/-! ## The parallel finder -/

theorem transfer_spec (add : Root K → Option Err) (info : Bool) (ctx : FilterCtx K) (q : List (Root K)) (c : AnyContainer K) :
    transfer add info ctx q c = (.ok (), c.addRoots info ctx q) ∨
    ∃ e q', (∃ r, add r = some e) ∧ q' <+: q ∧ transfer add info ctx q c = (.error e, c.addRoots info ctx q') := by
  induction q generalizing c with
  | nil => exact .inl rfl
  | cons r rs ih =>
    unfold transfer
    rcases ha : add r with _ | e
    · rcases ih (c.addRoot info r ctx) with h | ⟨e, q', he, hq, h⟩
      · exact .inl h
      · exact .inr ⟨e, r :: q', he, List.cons_prefix_cons.2 ⟨rfl, hq⟩, h⟩
    · exact .inr ⟨e, [], ⟨r, ha⟩, List.nil_prefix, rfl⟩

/-- a child process with functions which raise -/
theorem runPiece_fails (fd : Finder (SumState K) K) {R : Raises K} {E : Err → Prop} (hR : Within E R)
    {alg : RCtx K → Py (World (SumState K) K) Unit} (halg : RaisingAlgorithm R E alg fd.algorithm) (jobs : List (RCtx K)) :
    runPiece (Finder.with fd alg) jobs = runPiece fd jobs ∨
    ∃ e, E e ∧ (runPiece (Finder.with fd alg) jobs).1 = .error e ∧
      (runPiece (Finder.with fd alg) jobs).2 <+: (runPiece fd jobs).2 := by
  obtain ⟨_, _, h⟩ := Fails.runJobs (fun ctx => halg.fails hR ctx) jobs (fd.start none) rfl
  rcases h with h | ⟨e, he, h, _, hp⟩
  · left
    exact congrArg (fun r : Except Err Unit × World (SumState K) K => (r.1, r.2.added)) h
  · exact .inr ⟨e, he, h, hp⟩

theorem firstFailure_mem {s : Schedule} {rs : List (Except Err Unit)} {e : Err} (h : firstFailure s rs = .error e) :
    Except.error e ∈ rs := by
  unfold firstFailure at h
  split at h
  · simp at h
  · rename_i e' es h0
    have hm : e ∈ rs.filterMap errorOf := by
      rw [h0]
      have h : (e' :: es).getD s.failure e' = e := by simpa using h
      rw [← h, List.getD_eq_getElem?_getD]
      rcases hg : (e' :: es)[s.failure]? with _ | x
      · simp
      · exact List.mem_of_getElem? hg
    obtain ⟨r, hr, h⟩ := List.mem_filterMap.1 hm
    rcases r with e2 | _
    · simp only [errorOf, Option.some.injEq] at h
      rwa [h] at hr
    · simp [errorOf] at h

/-- C112, parallel. `full` is an uninterrupted search with functions which never raise and which returns normally; `real` the same
search, with the same schedule, with functions which raise some of the exceptions `E`: either the result is that of `full`, or
`calculateRoots` raises one of these exceptions. Then every root available is available after `full`, or was available before; and
if it was not a filter which raised, then none of the roots found is kept. -/
theorem C112_parallel_partial (fd : Finder (SumState K) K) {R : Raises K} {E : Err → Prop} (hR : Within E R)
    {add : Root K → Option Err} (hadd : ∀ r e, add r = some e → E e)
    {alg : RCtx K → Py (World (SumState K) K) Unit} (halg : RaisingAlgorithm R E alg fd.algorithm)
    (cpus : ℕ) (re im : K × K) (call : Option (ℤ × ℤ)) (s : Schedule) (hs : s.interrupted = false) :
    let full := fd.calculateRootsParallel cpus re im call s
    let real := (Finder.with fd alg).calculateRootsParallelR add cpus re im call s
    full.outcome = .ok () →
    (real.outcome = .ok () ∧ real.finder.container = full.finder.container) ∨
    ∃ e, E e ∧ real.outcome = .error e ∧
      (∀ r ∈ held real.finder.container, r ∈ held full.finder.container ∨ r ∈ held fd.container) ∧
      ((∀ r, add r = none) → real.finder.container = fd.container) := by
  intro full real
  simp only [full, real, Finder.calculateRootsParallel, Finder.calculateRootsParallelR, hs, Bool.false_eq_true, if_false]
  have hf : (Finder.with fd alg).f = fd.f := rfl
  have hd : (Finder.with fd alg).df = fd.df := rfl
  have hp : (Finder.with fd alg).precision = fd.precision := rfl
  have hv : (Finder.with fd alg).verbose = fd.verbose := rfl
  have hi : (Finder.with fd alg).info = fd.info := rfl
  have hk : (Finder.with fd alg).container = fd.container := rfl
  rw [hf, hd, hp, hv, hi, hk]
  generalize chunks cpus _ _ = pieces
  have key : ∀ jobs ∈ pieces, (runPiece fd jobs).1 = .ok () → (runPiece (Finder.with fd alg) jobs).1 = .ok () →
      runPiece (Finder.with fd alg) jobs = runPiece fd jobs := by
    intro jobs _ _ h2
    rcases runPiece_fails fd hR halg jobs with h | ⟨e, _, h, _⟩
    · exact h
    · rw [h] at h2; simp at h2
  rcases h0 : firstFailure s ((pieces.map (runPiece fd)).map Prod.fst) with e | ⟨⟩
  · simp
  · intro _
    have hall := firstFailure_ok h0
    rcases h1 : firstFailure s ((pieces.map (runPiece (Finder.with fd alg))).map Prod.fst) with e | ⟨⟩
    · right
      have hm := firstFailure_mem h1
      rw [List.map_map] at hm
      obtain ⟨jobs, hj, hje⟩ := List.mem_map.1 hm
      rcases runPiece_fails fd hR halg jobs with h | ⟨e', he', h, _⟩
      · have : (runPiece fd jobs).1 = .ok () := hall _ (by
          rw [List.map_map]; exact List.mem_map.2 ⟨jobs, hj, rfl⟩)
        simp only [Function.comp] at hje
        rw [h, this] at hje
        simp at hje
      · simp only [Function.comp] at hje
        rw [h] at hje
        cases hje
        exact ⟨e, he', rfl, fun r hr => .inr hr, fun _ => rfl⟩
    · have hall' := firstFailure_ok h1
      have heq : pieces.map (runPiece (Finder.with fd alg)) = pieces.map (runPiece fd) := by
        refine List.map_congr_left fun jobs hj => key jobs hj ?_ ?_
        · exact hall _ (by rw [List.map_map]; exact List.mem_map.2 ⟨jobs, hj, rfl⟩)
        · exact hall' _ (by rw [List.map_map]; exact List.mem_map.2 ⟨jobs, hj, rfl⟩)
      rw [heq]
      dsimp only
      rcases transfer_spec add fd.info _ _ fd.container with h | ⟨e, q', ⟨r0, hr0⟩, hq, h⟩
      · rw [h]
        exact .inl ⟨rfl, rfl⟩
      · rw [h]
        refine .inr ⟨e, hadd _ _ hr0, rfl, fun r hr => held_mono _ _ _ hq.subset hr, fun hnone => ?_⟩
        rw [hnone] at hr0
        simp at hr0

/-- C112, parallel, interrupted after any turns of any schedule `s`: the call returns normally, or raises one of the exceptions (of a filter,
during the transfer); every root available is available after the uninterrupted search `full` with functions which never raise, if that
returns normally, or was available before. -/
theorem C112_interrupted_partial (fd : Finder (SumState K) K) {R : Raises K} {E : Err → Prop} (hR : Within E R)
    {add : Root K → Option Err} (hadd : ∀ r e, add r = some e → E e)
    {alg : RCtx K → Py (World (SumState K) K) Unit} (halg : RaisingAlgorithm R E alg fd.algorithm)
    (cpus : ℕ) (re im : K × K) (call : Option (ℤ × ℤ)) (s s' : Schedule) (hs : s.interrupted = true)
    (hs' : s'.interrupted = false) :
    let full := fd.calculateRootsParallel cpus re im call s'
    let real := (Finder.with fd alg).calculateRootsParallelR add cpus re im call s
    full.outcome = .ok () →
    (real.outcome = .ok () ∨ ∃ e, E e ∧ real.outcome = .error e) ∧
    ∀ r ∈ held real.finder.container, r ∈ held full.finder.container ∨ r ∈ held fd.container := by
  intro full real
  simp only [full, real, Finder.calculateRootsParallel, Finder.calculateRootsParallelR, hs, hs', Bool.false_eq_true, if_false,
    if_true]
  have hf : (Finder.with fd alg).f = fd.f := rfl
  have hd : (Finder.with fd alg).df = fd.df := rfl
  have hp : (Finder.with fd alg).precision = fd.precision := rfl
  have hv : (Finder.with fd alg).verbose = fd.verbose := rfl
  have hi : (Finder.with fd alg).info = fd.info := rfl
  have hk : (Finder.with fd alg).container = fd.container := rfl
  rw [hf, hd, hp, hv, hi, hk]
  generalize chunks cpus _ _ = pieces
  rcases h0 : firstFailure s' ((pieces.map (runPiece fd)).map Prod.fst) with e | ⟨⟩
  · simp
  · intro _
    have hsub : (deliver ((pieces.map (runPiece (Finder.with fd alg))).map Prod.snd) s.turns).1 ⊆
        (deliver ((pieces.map (runPiece fd)).map Prod.snd) s'.turns).1 ++
          (deliver ((pieces.map (runPiece fd)).map Prod.snd) s'.turns).2.flatten := by
      intro r hr
      refine (deliver_perm _ _).mem_iff.2 ?_
      have hr := deliver_subset _ _ hr
      obtain ⟨l, hl, hrl⟩ := List.mem_flatten.1 hr
      rw [List.map_map] at hl
      obtain ⟨jobs, hj, rfl⟩ := List.mem_map.1 hl
      refine List.mem_flatten.2 ⟨(runPiece fd jobs).2, ?_, ?_⟩
      · rw [List.map_map]; exact List.mem_map.2 ⟨jobs, hj, rfl⟩
      · rcases runPiece_fails fd hR halg jobs with h | ⟨_, _, _, h⟩
        · simp only [Function.comp] at hrl; rwa [h] at hrl
        · exact h.subset hrl
    dsimp only
    rcases transfer_spec add fd.info _ _ fd.container with h | ⟨e, q', ⟨r0, hr0⟩, hq, h⟩
    · rw [h]
      exact ⟨.inl rfl, fun r hr => held_mono _ _ _ hsub hr⟩
    · rw [h]
      exact ⟨.inr ⟨e, hadd _ _ hr0, rfl⟩, fun r hr => held_mono _ _ _ (fun x hx => hsub (hq.subset hx)) hr⟩

/-! ## Examples -/

/-- a function turning once round each of two points (see `sector`) -/
def secF (z : Cx ℚ) : Cx ℚ := sector (z - ⟨-13/10, -13/4⟩) * sector (z - ⟨-2, 5/3⟩)

/-- a finder using the simple argument algorithm with phase summation, phases in quarter turns -/
def secFinder : Finder (SumState ℚ) ℚ :=
  Finder.init secF none (simpleArgument (sumLine (exCfg 8 10)) 2 20) (EstCache.init false) SumState.fresh
    (fun p => .rounding (RContainer.init p (5, 5))) false (some (-1, -1)) (some false) ⟨(5, 5), true⟩

/-- the function raises when it is called with an array of close points in the upper half plane -/
def secRaises : Raises ℚ where
  f := fun zs =>
    if ((zs.getD 0 0 - zs.getD 1 0).normSq < 1 / 10 ∧ zs.all fun z => decide (0 < z.im)) then some (.other 0) else none
  df := fun _ => none
  add := fun _ => none

/-- the algorithm of `secFinder`, with a function which raises -/
def secAlg : RCtx ℚ → Py (World (SumState ℚ) ℚ) Unit := simpleArgumentR secRaises (sumLineR secRaises (exCfg 8 10)) 2 20

/-- non-vacuity of C112: the hypotheses hold, the exception arrives after one of two roots was found; the serial finder keeps it, the
parallel one keeps nothing although a worker had found it -/
theorem secRaises_within : Within (fun e => e = .other 0) secRaises where
  f := by intro zs e h; simp only [secRaises] at h; split at h <;> simp_all
  df := by intro zs e h; simp [secRaises] at h
  add := by intro r e h; simp [secRaises] at h
example : ¬ (fun e => e = Err.other 0) .keyboardInterrupt := by simp
example : RaisingAlgorithm secRaises (fun e => e = .other 0) secAlg secFinder.algorithm :=
  .simple _ _ _ _ (.summation _)
example : held (secFinder.calculateRoots (-3, 2) (-1/2, 0) none none).finder.container = [(⟨-1, -3⟩, 1), (⟨-2, 2⟩, 1)] ∧
    ((Finder.with secFinder secAlg).calculateRoots (-3, 2) (-1/2, 0) none none).outcome = .error (.other 0) ∧
    held ((Finder.with secFinder secAlg).calculateRoots (-3, 2) (-1/2, 0) none none).finder.container = [(⟨-1, -3⟩, 1)] := by
  decide +kernel
example : held (secFinder.calculateRootsParallel 1 (-3, 2) (-1/2, 0) none ⟨[], false, 0⟩).finder.container =
      [(⟨0, 0⟩, 1)] ∧
    ((Finder.with secFinder secAlg).calculateRootsParallelR secRaises.add 1 (-3, 2) (-1/2, 0) none ⟨[], false, 0⟩).outcome =
      .error (.other 0) ∧
    held ((Finder.with secFinder secAlg).calculateRootsParallelR secRaises.add 1 (-3, 2) (-1/2, 0) none
      ⟨[], false, 0⟩).finder.container = [] := by
  decide +kernel

/-- a solver for a function which raises `RuntimeError` at its call -/
def exGridR : NewtonSolverR ℚ :=
  ⟨fun _ _ _ _ => .error .runtimeError, fun _ _ _ _ => .error .runtimeError, fun _ _ _ => .error .runtimeError⟩

/-- The claim of C112 is false of the code for `RuntimeError` (also its subclasses `RecursionError`, `NotImplementedError`) and
algorithms using Newton's method: the code takes the user's exception for the solver's report that it did not converge. Here the function
raises whenever it is called by the solver; the search returns normally and without a warning, the root is missing. -/
theorem C112_swallowed :
    let total := Finder.with exUsed (newtonGrid exGrid 3 false)
    let real := Finder.with exUsed (newtonGridR secRaises exGridR 3 false)
    (total.calculateRoots (0, 4) (0, 2) none none).outcome = .ok () ∧
    (⟨1 / 5, 1 / 5⟩, 0) ∈ held (total.calculateRoots (0, 4) (0, 2) none none).finder.container ∧
    (real.calculateRoots (0, 4) (0, 2) none none).outcome = .ok () ∧
    (real.calculateRoots (0, 4) (0, 2) none none).warned = false ∧
    (⟨1 / 5, 1 / 5⟩, 0) ∉ held (real.calculateRoots (0, 4) (0, 2) none none).finder.container := by
  decide +kernel

end PyZeal.Props
