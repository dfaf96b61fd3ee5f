import Verif.Proof.Indep
import Verif.Spec.Disjoint
import Verif.Props.SumSearch
import Verif.Props.Use
import Verif.Props.Build
import Verif.Props.SumTotal

/-! # Properties C124-C126: several searches with one summation estimator -/

set_option linter.unusedSectionVars false

namespace PyZeal.Props
open Spec
section
variable {K : Type} [Field K] [LinearOrder K] [IsStrictOrderedRing K] [FloorRing K]

theorem ctx_has {σ : Type} (fd : Finder σ K) (re im : K × K) (call : Option (ℤ × ℤ)) (p : ℤ × ℤ) (hp : Asked call fd.precision p) (z : Cx K) :
    Cell.Has ⟨(fd.ctx re im call).reRan, (fd.ctx re im call).imRan, 0⟩ z ↔ LooksAt p re im z := by
  have h : searchPrecision call fd.precision = (p.1 + 1, p.2 + 1) := searchPrecision_asked hp
  unfold Finder.ctx Cell.Has LooksAt
  dsimp only
  rw [h]
  unfold desymmetrizeDomain eps10
  dsimp only
  rw [one_mul]

theorem ctx_ordered {σ : Type} (fd : Finder σ K) (re im : K × K) (call : Option (ℤ × ℤ)) :
    (fd.ctx re im call).reRan.1 ≤ (fd.ctx re im call).reRan.2 ∧ (fd.ctx re im call).imRan.1 ≤ (fd.ctx re im call).imRan.2 := by
  obtain ⟨d1, d2, _, _⟩ := C46_domain re im (searchPrecision call fd.precision)
  exact ⟨d1.le, d2.le⟩

theorem asked_some (call : Option (ℤ × ℤ)) (stored : ℤ × ℤ) : ∃ p, Asked call stored p := by
  cases call with
  | none => exact ⟨stored, .inr ⟨rfl, rfl⟩⟩
  | some p => exact ⟨p, .inl rfl⟩

/-- what an operation leaves alone, and what it does to the internal caches of the estimator at the points it stays off -/
theorem use_step_spares (it : RContainer K → List (Root K)) (S : Cx K → Prop) (fd : Finder (SumState K) K) (halg : ShippedAlgorithm fd.algorithm) (op : FinderOp K)
    (hop : op.StaysOff fd.precision S) :
    AgreeAt S fd.est (useStep it fd op).2.est ∧ (useStep it fd op).2.algorithm = fd.algorithm ∧ (useStep it fd op).2.precision = fd.precision := by
  cases op with
  | search re im call i =>
    have hfin : (useStep it fd (.search re im call i)).2.est = (fd.algorithm (fd.ctx re im call) (fd.start i)).2.est ∧
        (useStep it fd (.search re im call i)).2.algorithm = fd.algorithm ∧ (useStep it fd (.search re im call i)).2.precision = fd.precision := by
      unfold useStep Finder.calculateRoots
      dsimp only
      split <;> exact ⟨rfl, rfl, rfl⟩
    refine ⟨?_, hfin.2⟩
    rw [hfin.1]
    obtain ⟨p, hp⟩ := asked_some call fd.precision
    obtain ⟨o1, o2⟩ := ctx_ordered fd re im call
    exact shipped_spares halg (fd.ctx re im call) o1 o2 (fun z hz => hop p hp z ((ctx_has fd re im call p hp z).1 hz)) (fd.start i)
  | searchParallel cpus re im call sched =>
    unfold useStep Finder.calculateRootsParallel
    dsimp only
    split <;> exact ⟨AgreeAt.refl _, rfl, rfl⟩
  | setFilter t n => exact ⟨AgreeAt.refl _, rfl, rfl⟩
  | roots => exact ⟨AgreeAt.refl _, rfl, rfl⟩
  | orders => exact ⟨AgreeAt.refl _, rfl, rfl⟩

theorem use_spares (it : RContainer K → List (Root K)) (S : Cx K → Prop) (ops : List (FinderOp K)) : ∀ (fd : Finder (SumState K) K),
    ShippedAlgorithm fd.algorithm → (∀ op ∈ ops, op.StaysOff fd.precision S) →
    AgreeAt S fd.est (useFinder it fd ops).2.est ∧ (useFinder it fd ops).2.algorithm = fd.algorithm ∧ (useFinder it fd ops).2.precision = fd.precision := by
  induction ops with
  | nil => exact fun fd _ _ => ⟨AgreeAt.refl _, rfl, rfl⟩
  | cons op ops ih =>
    intro fd halg hops
    obtain ⟨h1, h2, h3⟩ := use_step_spares it S fd halg op (hops op (by simp))
    obtain ⟨g1, g2, g3⟩ := ih (useStep it fd op).2 (by rw [h2]; exact halg) (by rw [h3]; exact fun o ho => hops o (by simp [ho]))
    exact ⟨h1.trans g1, g2.trans h2, g3.trans h3⟩

/-- searches which start from states with the same visible part do the same -/
theorem same_search {S : Cx K → Prop} (old : Finder (SumState K) K) (c : EstCache K) (e : SumState K) (re im : K × K) (call : Option (ℤ × ℤ)) (i : Option ℕ)
    (hl : LocalK S (old.algorithm (old.ctx re im call))) (he : AgreeAt S old.est e) :
    let new := { old with cache := c, est := e }
    let s := old.calculateRoots re im call i
    let s' := new.calculateRoots re im call i
    s.outcome = s'.outcome ∧ s.warned = s'.warned ∧ s.bar = s'.bar ∧ s.finder.container = s'.finder.container := by
  intro new s s'
  obtain ⟨e1, e2⟩ := hl (old.start i) (new.start i) ⟨he, rfl, rfl, rfl, rfl⟩
  have hs : ∀ fd : Finder (SumState K) K, ∀ r, r = fd.algorithm (fd.ctx re im call) (fd.start i) →
      (fd.calculateRoots re im call i).outcome = (match r.1 with | .ok _ => Except.ok () | .error .keyboardInterrupt => Except.ok () | .error e => Except.error e) ∧
      (fd.calculateRoots re im call i).warned = (match r.1 with | .ok _ => false | .error .keyboardInterrupt => true | .error _ => false) ∧
      (fd.calculateRoots re im call i).bar = (if fd.verbose then some ⟨((fd.ctx re im call).reRan.2 - (fd.ctx re im call).reRan.1) *
        ((fd.ctx re im call).imRan.2 - (fd.ctx re im call).imRan.1), r.2.advances,
        (match r.1 with | .ok _ => false | .error .keyboardInterrupt => false | .error _ => true)⟩ else none) := by
    rintro fd r rfl
    unfold Finder.calculateRoots
    dsimp only
    unfold Finder.ctx Finder.start
    dsimp only
    split <;> rename_i he <;> rw [he]
    · exact ⟨rfl, rfl, rfl⟩
    · exact ⟨rfl, rfl, rfl⟩
    · refine ⟨?_, ?_, ?_⟩ <;> split <;> first | rfl | simp_all
  obtain ⟨a1, a2, a3⟩ := hs old _ rfl
  obtain ⟨b1, b2, b3⟩ := hs new _ rfl
  have e1' : (old.algorithm (old.ctx re im call) (old.start i)).1 = (new.algorithm (new.ctx re im call) (new.start i)).1 := e1
  have e2' : Kin S (old.algorithm (old.ctx re im call) (old.start i)).2 (new.algorithm (new.ctx re im call) (new.start i)).2 := e2
  refine ⟨?_, ?_, ?_, ?_⟩
  · show (old.calculateRoots re im call i).outcome = (new.calculateRoots re im call i).outcome
    rw [a1, b1, e1']
  · show (old.calculateRoots re im call i).warned = (new.calculateRoots re im call i).warned
    rw [a2, b2, e1']
  · show (old.calculateRoots re im call i).bar = (new.calculateRoots re im call i).bar
    rw [a3, b3, e1', e2'.advances]
    rfl
  · show (old.calculateRoots re im call i).finder.container = (new.calculateRoots re im call i).finder.container
    rw [calculateRoots_container, calculateRoots_container, e2'.added]
    rfl

/-! ## C124 -/

/-- **C124.** Searches of rectangles that do not touch do not influence each other: take a new finder, let a program use it in any way (searches with and without
interrupts, parallel searches, filters, reading), as long as no search looked at a point of the rectangle which the next search looks at. Then the next
search does what it would do with a new algorithm object: the same outcome, warning, progress, and the same roots in the container. -/
theorem C124_independent (it : RContainer K → List (Root K)) (fd : Finder (SumState K) K) (halg : ShippedAlgorithm fd.algorithm)
    (hnew : fd.est = SumState.fresh) (ops : List (FinderOp K)) (re im : K × K) (call : Option (ℤ × ℤ)) (p : ℤ × ℤ) (hp : Asked call fd.precision p)
    (hops : ∀ op ∈ ops, op.StaysOff fd.precision (LooksAt p re im)) (i : Option ℕ) (debug : Bool) :
    let old := (useFinder it fd ops).2
    let new := { old with cache := EstCache.init debug, est := SumState.fresh }
    let s := old.calculateRoots re im call i
    let s' := new.calculateRoots re im call i
    s.outcome = s'.outcome ∧ s.warned = s'.warned ∧ s.bar = s'.bar ∧ s.finder.container = s'.finder.container := by
  obtain ⟨h1, h2, h3⟩ := use_spares it (LooksAt p re im) ops fd halg hops
  generalize (useFinder it fd ops).2 = old at h1 h2 h3
  obtain ⟨o1, o2⟩ := ctx_ordered old re im call
  rw [hnew] at h1
  exact same_search old (EstCache.init debug) SumState.fresh re im call i
    (shipped_local (by rw [h2]; exact halg) (old.ctx re im call) o1 o2 fun z hz => (ctx_has old re im call p (by rw [h3]; exact hp) z).1 hz) h1.symm

/-! ## C125 -/

/-- **C125, what holds**: with the quadrature estimator (and for the Newton grid algorithm) every search does what it would do with a new algorithm
object, whatever the finder was used for before; so an interrupted search can be repeated. -/
theorem C125_quadrature_partial (fd : Finder (SumState K) K) (halg : AlgorithmWith IsQuadrature fd.algorithm) (re im : K × K) (call : Option (ℤ × ℤ))
    (i : Option ℕ) (debug : Bool) :
    let new := { fd with cache := EstCache.init debug, est := SumState.fresh }
    let s := fd.calculateRoots re im call i
    let s' := new.calculateRoots re im call i
    s.outcome = s'.outcome ∧ s.warned = s'.warned ∧ s.bar = s'.bar ∧ s.finder.container = s'.finder.container := by
  obtain ⟨o1, o2⟩ := ctx_ordered fd re im call
  exact same_search fd (EstCache.init debug) SumState.fresh re im call i (quadrature_local halg (fd.ctx re im call) o1 o2) fun _ _ _ _ h => h.elim

end

/-- **C124 with C98**: every search of a finder with the simple argument algorithm and the summation estimator, not only the first one, finds the zeros under
the hypotheses of `C98_finder_total_partial`, if no earlier search looked at a point of its rectangle. -/
theorem C124_finds (it : RContainer ℝ → List (Root ℝ)) (fd : Finder (SumState ℝ) ℝ) (cfg : SumCfg ℝ) (harg : ∀ z, cfg.arg z = Complex.arg ⟨z.re, z.im⟩)
    (hδ : 0 < cfg.deltaPhi) (hn : 2 ≤ cfg.numPts) (limit : ℕ) (halg : fd.algorithm = simpleArgument (sumLine cfg) Real.pi limit)
    (hnew : fd.est = SumState.fresh) (ops : List (FinderOp ℝ)) (old : Finder (SumState ℝ) ℝ) (hold : old = (useFinder it fd ops).2)
    (hcont : RoundsFreely old.container) (re im : ℝ × ℝ) (call : Option (ℤ × ℤ)) (p : ℤ × ℤ)
    (hp : Asked call fd.precision p) (hops : ∀ op ∈ ops, op.StaysOff fd.precision (LooksAt p re im))
    (dom : (ℝ × ℝ) × (ℝ × ℝ)) (hdom : dom = desymmetrizeDomain re im (p.1 + 1, p.2 + 1))
    (zeros : List (Cx ℝ)) (r g : Cx ℝ → ℝ) (M d : ℝ) (hf : Factored old.f (Cell.Has ⟨dom.1, dom.2, 0⟩) zeros r g M)
    (hM : 0 ≤ M) (hd : 0 < d)
    (hfine : FineEnough cfg.numPts (max (dom.1.2 - dom.1.1) (dom.2.2 - dom.2.1)) d M zeros.length)
    (hfar : ∀ re im, Reached (p.1 + 1, p.2 + 1) zeros dom.1 dom.2 re im → ∀ z, Cell.Boundary ⟨re, im, 0⟩ z → Far d zeros z)
    (hsafe : Safe cfg ⟨old.f, old.df, (p.1 + 1, p.2 + 1), dom.1, dom.2, false⟩ zeros (max (dom.1.2 - dom.1.1) (dom.2.2 - dom.2.1)) d M limit) :
    let s := old.calculateRoots re im call none
    s.outcome = .ok () ∧ s.warned = false ∧
    (∀ z ∈ zeros, Requested re im z → ∃ r ∈ held s.finder.container, 1 ≤ r.2 ∧
      Near (10 ^ (-(p.1 + 1)), 10 ^ (-(p.2 + 1))) z r.1) ∧
    ∀ r ∈ held s.finder.container, r ∈ held old.container ∨
      (1 ≤ r.2 ∧ RequestedWithin (5 * 10 ^ (-(p.1 + 1)), 5 * 10 ^ (-(p.2 + 1))) re im r.1 ∧
        ∃ z ∈ zeros, Near (10 ^ (-(p.1 + 1)), 10 ^ (-(p.2 + 1))) z r.1) := by
  intro s
  have hsh : ShippedAlgorithm fd.algorithm := by rw [halg]; exact .simple _ _ _ (.summation cfg)
  obtain ⟨i1, i2, _, i4⟩ := C124_independent it fd hsh hnew ops re im call p hp hops none false
  obtain ⟨_, k2, k3⟩ := use_spares it (LooksAt p re im) ops fd hsh hops
  subst hold
  obtain ⟨new, hnew'⟩ : ∃ new : Finder (SumState ℝ) ℝ, new = { (useFinder it fd ops).2 with cache := EstCache.init false, est := SumState.fresh } := ⟨_, rfl⟩
  rw [← hnew'] at i1 i2 i4
  have := C98_finder_total_partial new cfg harg hδ hn limit (by rw [hnew']; exact k2.trans halg) (by rw [hnew']) (by rw [hnew']; exact hcont) re im call p
    (by rw [hnew']; dsimp only; rw [k3]; exact hp) dom hdom zeros r g M d (by rw [hnew']; exact hf) hM hd hfine hfar (by rw [hnew']; exact hsafe)
  obtain ⟨c1, c2, c3, c4⟩ := this
  have hc : held new.container = held (useFinder it fd ops).2.container := by rw [hnew']
  rw [hc] at c4
  refine ⟨i1.trans c1, i2.trans c2, ?_, ?_⟩
  · rw [i4]; exact c3
  · rw [i4]; exact c4

/-! ## C126: the first job of each piece -/

theorem chunks_rows {α : Type} {c : ℕ} (hc : 1 ≤ c) : ∀ (rows : List (List α)) (n : ℕ), (∀ row ∈ rows, row.length = c) → rows.flatten.length ≤ n →
    chunks c n rows.flatten = rows
  | [], n, _, _ => by cases n <;> rfl
  | row :: rows, n, h, hn => by
    have hr : row.length = c := h row (by simp)
    rw [List.flatten_cons] at hn ⊢
    rw [List.length_append, hr] at hn
    obtain ⟨m, rfl⟩ : ∃ m, n = m + 1 := ⟨n - 1, by omega⟩
    obtain ⟨a, l, rfl⟩ : ∃ a l, row = a :: l := by
      cases row with
      | nil => simp at hr; omega
      | cons a l => exact ⟨a, l, rfl⟩
    show ((a :: l) ++ rows.flatten).take c :: chunks c m (((a :: l) ++ rows.flatten).drop c) = _
    rw [← hr, List.take_left, List.drop_left, hr, chunks_rows hc rows m (fun r hr => h r (by simp [hr])) (by omega)]

section
variable {K : Type} [Field K] [LinearOrder K] [IsStrictOrderedRing K] [FloorRing K]

/-- the pieces of a parallel search are the columns of the grid of jobs; the first job of a piece is the lowest one -/
theorem pieces_columns (f : Cx K → Cx K) (df : Option (Cx K → Cx K)) (n : ℕ) (hn : 1 ≤ n)
    (re im : K × K) (p : ℤ × ℤ) (prog : Bool) (i : ℕ) (hi : i < n) :
    ∃ rest, jobAt f df n re im p prog i 0 :: rest ∈
      chunks n (createRootJobs f df n re im p prog).length (createRootJobs f df n re im p prog) := by
  have e : createRootJobs f df n re im p prog =
      ((List.range n).map fun i => (List.range n).map fun j => jobAt f df n re im p prog i j).flatten := by
    rw [createRootJobs_eq, List.flatMap_def]
  rw [e, chunks_rows hn _ _ (by
    intro row hrow
    obtain ⟨k, _, rfl⟩ := List.mem_map.1 hrow
    simp) le_rfl]
  obtain ⟨m, rfl⟩ : ∃ m, n = m + 1 := ⟨n - 1, by omega⟩
  refine ⟨((List.range m).map Nat.succ).map fun j => jobAt f df (m + 1) re im p prog i j, List.mem_map.2 ⟨i, List.mem_range.2 hi, ?_⟩⟩
  rw [List.range_succ_eq_map, List.map_cons]

/-- everything the first job of a piece finds reaches the queue -/
theorem first_delivered (fd : Finder (SumState K) K) (halg : ShippedAlgorithm fd.algorithm) {jobs : List (RCtx K)} {c n : ℕ}
    (hord : ∀ job ∈ jobs, job.reRan.1 ≤ job.reRan.2 ∧ job.imRan.1 ≤ job.imRan.2) {job : RCtx K} {rest : List (RCtx K)} (hmem : ∀ j ∈ job :: rest, j ∈ jobs)
    (hpc : job :: rest ∈ chunks c n jobs) (turns : List ℕ) {r : Root K} (hr : r ∈ (fd.algorithm job (fd.start none)).2.added) :
    r ∈ (deliver (((chunks c n jobs).map (runPiece fd)).map Prod.snd) turns).1 ++ (deliver (((chunks c n jobs).map (runPiece fd)).map Prod.snd) turns).2.flatten := by
  rw [(deliver_perm _ _).mem_iff]
  simp only [List.mem_flatten, List.mem_map, exists_exists_and_eq_and]
  refine ⟨job :: rest, hpc, ?_⟩
  show r ∈ (runJobs fd.algorithm (job :: rest) (fd.start none)).2.added
  have hrun : ∀ (l : List (RCtx K)), (∀ j ∈ l, j ∈ jobs) → ∀ w, ∃ A, (runJobs fd.algorithm l w).2.added = w.added ++ A := by
    intro l
    induction l with
    | nil => intro _ w; exact ⟨[], by simp [runJobs]⟩
    | cons c l ih =>
      intro hl w
      rw [runJobs, Py.bind_run]
      obtain ⟨o1, o2⟩ := hord c (hl c (by simp))
      obtain ⟨A, hA⟩ := shipped_adds halg c o1 o2 w
      rcases hcw : fd.algorithm c w with ⟨e | _, w1⟩ <;> rw [hcw] at hA
      · exact ⟨A, hA⟩
      · obtain ⟨B, hB⟩ := ih (fun ctx hc => hl ctx (by simp [hc])) w1
        exact ⟨A ++ B, by dsimp only at hA ⊢; rw [hB, hA, List.append_assoc]⟩
  rw [runJobs, Py.bind_run]
  rcases hcw : fd.algorithm job (fd.start none) with ⟨e | _, w1⟩ <;> rw [hcw] at hr
  · exact hr
  · obtain ⟨B, hB⟩ := hrun rest (fun j hj => hmem j (by simp [hj])) w1
    dsimp only at hr ⊢
    rw [hB]
    exact List.mem_append_left _ hr

end

/-- **C126, what holds**: a parallel search of a new finder with the simple argument algorithm and the summation estimator, with any number of processes and any
schedule without interrupt, that returns, finds the zeros in the lowest row of its grid of jobs: if the hypotheses of `C98_total_partial` hold for the `i`-th
rectangle of this row, then every zero in it has a reported root of positive order closer than `0.55 * 10^-p` in each coordinate. -/
theorem C126_lowest_row_partial (fd : Finder (SumState ℝ) ℝ) (cfg : SumCfg ℝ) (harg : ∀ z, cfg.arg z = Complex.arg ⟨z.re, z.im⟩)
    (hδ : 0 < cfg.deltaPhi) (hn : 2 ≤ cfg.numPts) (limit : ℕ) (halg : fd.algorithm = simpleArgument (sumLine cfg) Real.pi limit)
    (hfresh : fd.est = SumState.fresh) (hcont : RoundsFreely fd.container) (cpus : ℕ) (hcpus : 1 ≤ cpus) (re im : ℝ × ℝ) (call : Option (ℤ × ℤ))
    (p : ℤ × ℤ) (hp : Asked call fd.precision p) (sched : Schedule) (hsched : sched.interrupted = false)
    (dom : (ℝ × ℝ) × (ℝ × ℝ)) (hdom : dom = desymmetrizeDomain re im (p.1 + 1, p.2 + 1)) (i : ℕ) (hi : i < cpus) (x y : ℝ × ℝ)
    (hx : x = (dom.1.1 + i / cpus * (dom.1.2 - dom.1.1), dom.1.1 + (i + 1) / cpus * (dom.1.2 - dom.1.1)))
    (hy : y = (dom.2.1, dom.2.1 + 1 / cpus * (dom.2.2 - dom.2.1)))
    (zeros : List (Cx ℝ)) (r g : Cx ℝ → ℝ) (M d : ℝ) (hf : Factored fd.f (Cell.Has ⟨x, y, 0⟩) zeros r g M) (hM : 0 ≤ M) (hd : 0 < d)
    (hfine : FineEnough cfg.numPts (max (x.2 - x.1) (y.2 - y.1)) d M zeros.length)
    (hfar : ∀ re im, Reached (p.1 + 1, p.2 + 1) zeros x y re im → ∀ z, Cell.Boundary ⟨re, im, 0⟩ z → Far d zeros z)
    (hsafe : Safe cfg ⟨fd.f, fd.df, (p.1 + 1, p.2 + 1), x, y, false⟩ zeros (max (x.2 - x.1) (y.2 - y.1)) d M limit) :
    let s := fd.calculateRootsParallel cpus re im call sched
    s.outcome = .ok () → ∀ z ∈ zeros, Cell.HasHalfOpen ⟨x, y, 0⟩ z → ∃ r ∈ held s.finder.container, 1 ≤ r.2 ∧
      Near (55 / 100 * 10 ^ (-p.1), 55 / 100 * 10 ^ (-p.2)) z r.1 := by
  intro s hok z hz hzin
  obtain ⟨d1, d2, d3, d4⟩ := C46_domain re im (p.1 + 1, p.2 + 1)
  rw [← hdom] at d1 d2
  have hc0 : (0 : ℝ) < cpus := by exact_mod_cast hcpus
  generalize hjob : ({ f := fd.f, df := fd.df, precision := (p.1 + 1, p.2 + 1), reRan := x, imRan := y, progress := fd.verbose } : RCtx ℝ) = job
  have hj1 : job.reRan = x := by rw [← hjob]
  have hj2 : job.imRan = y := by rw [← hjob]
  have hj3 : job.precision = (p.1 + 1, p.2 + 1) := by rw [← hjob]
  have hj4 : job.f = fd.f := by rw [← hjob]
  have hat : job = jobAt fd.f fd.df cpus dom.1 dom.2 (p.1 + 1, p.2 + 1) fd.verbose i 0 := by
    rw [← hjob, hx, hy]
    unfold jobAt node
    simp
  have hx1 : x.1 < x.2 := by
    rw [hx]
    have : (i : ℝ) / cpus * (dom.1.2 - dom.1.1) < (i + 1) / cpus * (dom.1.2 - dom.1.1) := by
      apply mul_lt_mul_of_pos_right _ (sub_pos.2 d1)
      exact div_lt_div_of_pos_right (by linarith) hc0
    dsimp only
    linarith
  have hy1 : y.1 < y.2 := by
    rw [hy]
    have : (0 : ℝ) < 1 / cpus * (dom.2.2 - dom.2.1) := mul_pos (div_pos one_pos hc0) (sub_pos.2 d2)
    dsimp only
    linarith
  obtain ⟨w', hrun⟩ := strict_returns (ctx := job) harg hδ hn (by rw [hj1]; exact hx1) (by rw [hj2]; exact hy1) (zeros := zeros) (r := r) (g := g)
    (by rw [hj4, hj1, hj2]; exact hf) hM hd (by rw [hj1, hj2]; exact hfine) (by rw [hj1, hj2, hj3]; exact hfar) (limit := limit)
    (by
      obtain ⟨s1, s2, s3, s4⟩ := hsafe
      exact ⟨by rw [hj1, hj2, hj3]; exact hj4 ▸ s1, by rw [hj1, hj2, hj3]; exact s2, by rw [hj4]; exact s3, by rw [hj1, hj2, hj3]; exact s4⟩)
    (simple_stops _ Real.pi _) simple_open (quiet_simple _ _) (Finishes.simpleAct Real.pi _) (fd.start none) rfl hfresh
  obtain ⟨a1, _, _, a2, _, _⟩ := C98_search_partial cfg harg hδ hn job (by rw [hj1]; exact hx1) (by rw [hj2]; exact hy1) zeros r g M d
    (by rw [hj4, hj1, hj2]; exact hf) hM hd (by rw [hj1, hj2]; exact hfine) (by rw [hj1, hj2, hj3]; exact hfar) limit (fd.start none) _ rfl hfresh hrun
  obtain ⟨q, hq, hq1, hq2⟩ := a2 z hz (by rw [hj1, hj2]; exact hzin)
  rw [hj3] at hq2
  have hsh : ShippedAlgorithm fd.algorithm := by rw [halg]; exact .simple _ _ _ (.summation cfg)
  have hqa : q ∈ (fd.algorithm job (fd.start none)).2.added := by rw [halg, a1]; exact hq
  simp only [s, Finder.calculateRootsParallel, hsched, Bool.false_eq_true, if_false, searchPrecision_asked hp] at hok ⊢
  rw [← hdom] at hok ⊢
  obtain ⟨rest, hpc⟩ := pieces_columns fd.f fd.df cpus hcpus dom.1 dom.2 (p.1 + 1, p.2 + 1) fd.verbose i hi
  rw [← hat] at hpc
  have hmem : ∀ j ∈ job :: rest, j ∈ createRootJobs fd.f fd.df cpus dom.1 dom.2 (p.1 + 1, p.2 + 1) fd.verbose := by
    intro j hj
    rw [← chunks_flatten hcpus _ (createRootJobs fd.f fd.df cpus dom.1 dom.2 (p.1 + 1, p.2 + 1) fd.verbose) le_rfl]
    exact List.mem_flatten.2 ⟨_, hpc, hj⟩
  have hdel := first_delivered fd hsh (n := (createRootJobs fd.f fd.df cpus dom.1 dom.2 (p.1 + 1, p.2 + 1) fd.verbose).length) (fun job hj => by
    have := jobs_in hcpus d1.le d2.le hj
    obtain ⟨_, b1, _, _, b2, _⟩ := this
    exact ⟨b1, b2⟩) hmem hpc sched.turns hqa
  generalize createRootJobs fd.f fd.df cpus dom.1 dom.2 (p.1 + 1, p.2 + 1) fd.verbose = jobs at *
  generalize (chunks cpus jobs.length jobs).map (runPiece fd) = results at *
  rcases hf : firstFailure sched (results.map Prod.fst) with e | ⟨⟩
  · rw [hf] at hok; simp at hok
  dsimp only
  generalize (deliver (results.map Prod.snd) sched.turns).1 ++ (deliver (results.map Prod.snd) sched.turns).2.flatten = A at hdel ⊢
  have hpp : ((p.1 + 1 - 1, p.2 + 1 - 1) : ℤ × ℤ) = p := by ext <;> simp
  rw [hpp]
  generalize hfc : ({ f := fd.f, reRan := dom.1, imRan := dom.2, precision := p } : FilterCtx ℝ) = fc
  have hfp : fc.precision = p := by rw [← hfc]
  have hkeep := fun r => keeps_of_free hcont fc r
  have t1 : (10 : ℝ) ^ (-p.1) = 10 * 10 ^ (-(p.1 + 1)) := eps10_succ p.1
  have t2 : (10 : ℝ) ^ (-p.2) = 10 * 10 ^ (-(p.2 + 1)) := eps10_succ p.2
  refine ⟨roundRoot q p, ?_, hq1, ?_⟩
  · rw [(mem_held_addRoots _ _ _ _ _).1 ⟨q, hdel, (hkeep q).1⟩]
    exact .inl ⟨q, hdel, (hkeep q).1, by rw [(hkeep q).2, hfp]⟩
  · obtain ⟨h1, h2⟩ := hq2
    refine ⟨lt_of_lt_of_le (abs_two h1 (pyRound_err q.1.re p.1)) ?_,
      lt_of_lt_of_le (abs_two h2 (pyRound_err q.1.im p.2)) ?_⟩
    · unfold eps10; rw [t1]; linarith
    · unfold eps10; rw [t2]; linarith

/-- **C126 with one process**: then the lowest row is everything, and under the hypotheses of `C98_finder_total_partial` the parallel search finds all the zeros. -/
theorem C126_one_process_partial (fd : Finder (SumState ℝ) ℝ) (cfg : SumCfg ℝ) (harg : ∀ z, cfg.arg z = Complex.arg ⟨z.re, z.im⟩)
    (hδ : 0 < cfg.deltaPhi) (hn : 2 ≤ cfg.numPts) (limit : ℕ) (halg : fd.algorithm = simpleArgument (sumLine cfg) Real.pi limit)
    (hfresh : fd.est = SumState.fresh) (hcont : RoundsFreely fd.container) (re im : ℝ × ℝ) (call : Option (ℤ × ℤ))
    (p : ℤ × ℤ) (hp : Asked call fd.precision p) (sched : Schedule) (hsched : sched.interrupted = false)
    (dom : (ℝ × ℝ) × (ℝ × ℝ)) (hdom : dom = desymmetrizeDomain re im (p.1 + 1, p.2 + 1))
    (zeros : List (Cx ℝ)) (r g : Cx ℝ → ℝ) (M d : ℝ) (hf : Factored fd.f (Cell.Has ⟨dom.1, dom.2, 0⟩) zeros r g M) (hM : 0 ≤ M) (hd : 0 < d)
    (hfine : FineEnough cfg.numPts (max (dom.1.2 - dom.1.1) (dom.2.2 - dom.2.1)) d M zeros.length)
    (hfar : ∀ re im, Reached (p.1 + 1, p.2 + 1) zeros dom.1 dom.2 re im → ∀ z, Cell.Boundary ⟨re, im, 0⟩ z → Far d zeros z)
    (hsafe : Safe cfg ⟨fd.f, fd.df, (p.1 + 1, p.2 + 1), dom.1, dom.2, false⟩ zeros (max (dom.1.2 - dom.1.1) (dom.2.2 - dom.2.1)) d M limit) :
    let s := fd.calculateRootsParallel 1 re im call sched
    s.outcome = .ok () → ∀ z ∈ zeros, Requested re im z → ∃ r ∈ held s.finder.container, 1 ≤ r.2 ∧
      Near (55 / 100 * 10 ^ (-p.1), 55 / 100 * 10 ^ (-p.2)) z r.1 := by
  intro s hok z hz hzin
  obtain ⟨_, _, d3, _⟩ := C46_domain re im (p.1 + 1, p.2 + 1)
  rw [← hdom] at d3
  refine C126_lowest_row_partial fd cfg harg hδ hn limit halg hfresh hcont 1 le_rfl re im call p hp sched hsched dom hdom 0 one_pos dom.1 dom.2
    (by simp) (by simp) zeros r g M d hf hM hd hfine hfar hsafe hok z hz ?_
  obtain ⟨a, b, c, e⟩ := d3 z hzin
  exact ⟨a.le, b, c.le, e⟩

/-! ## Examples -/

/-- adding roots changes no filters -/
theorem free_addRoots (info : Bool) (ctx : FilterCtx ℝ) : ∀ (rs : List (Root ℝ)) (c : AnyContainer ℝ), RoundsFreely c → RoundsFreely (c.addRoots info ctx rs)
  | [], _, h => h
  | r :: rs, .plain c, h => h.elim
  | r :: rs, .rounding c, h => by
    show RoundsFreely ((AnyContainer.addRoot info r ctx (.rounding c)).addRoots info ctx rs)
    refine free_addRoots info ctx rs _ ?_
    have : (c.addRoot info r ctx).filters = c.filters := by
      unfold RContainer.addRoot
      dsimp only
      repeat' split
      all_goals rfl
    exact this.trans h

/-- the finder of `tiny_safe` -/
noncomputable def tinyFinder : Finder (SumState ℝ) ℝ :=
  Finder.init (fun z => z) none (simpleArgument (sumLine (Externals.sum tinyX)) Real.pi 1000) (EstCache.init false) SumState.fresh
    (fun p => .rounding (RContainer.init p (5, 5))) false (some (5, 5)) (some false) ⟨(5, 5), true⟩

/-- all hypotheses of `C124_finds` are met: a search of a rectangle away from the origin (interrupted at any moment or not), then of one round the
origin, finds the zero of `z` -/
example (it : RContainer ℝ → List (Root ℝ)) (i : Option ℕ) :
    let s := (useFinder it tinyFinder [.search (1, 2) (1, 3) none i]).2.calculateRoots (-1 / 8000000, 1 / 8000000) (-1 / 16000000, 1 / 16000000) none none
    s.outcome = .ok () ∧ s.warned = false ∧ ∃ r ∈ held s.finder.container, 1 ≤ r.2 ∧ Near ((10 : ℝ) ^ (-6 : ℤ), (10 : ℝ) ^ (-6 : ℤ)) 0 r.1 := by
  have hold : ∀ fd : Finder (SumState ℝ) ℝ, fd = (useFinder it tinyFinder [.search (1, 2) (1, 3) none i]).2 →
      fd.f = (fun z => z) ∧ fd.df = none ∧ RoundsFreely fd.container := by
    rintro fd rfl
    refine ⟨?_, ?_, ?_⟩
    · show ((tinyFinder.calculateRoots (1, 2) (1, 3) none i).finder).f = _
      unfold Finder.calculateRoots
      dsimp only
      split <;> rfl
    · show ((tinyFinder.calculateRoots (1, 2) (1, 3) none i).finder).df = _
      unfold Finder.calculateRoots
      dsimp only
      split <;> rfl
    · show RoundsFreely (tinyFinder.calculateRoots (1, 2) (1, 3) none i).finder.container
      rw [calculateRoots_container]
      exact free_addRoots _ _ _ _ rfl
  obtain ⟨h1, h2, h3⟩ := hold _ rfl
  have := C124_finds it tinyFinder (Externals.sum tinyX) (fun _ => rfl) (by norm_num [Externals.sum]) (by norm_num [Externals.sum]) 1000 rfl rfl
    [.search (1, 2) (1, 3) none i] _ rfl h3 (-1 / 8000000, 1 / 8000000) (-1 / 16000000, 1 / 16000000) none (5, 5) (.inr ⟨rfl, rfl⟩)
    (by
      intro op hop
      rw [List.mem_singleton] at hop
      subst hop
      rintro p (h | ⟨_, h⟩) z hz hz'
      · simp at h
      · have h : (5, 5) = p := h
        subst h
        obtain ⟨h1, _, _, _⟩ := hz
        obtain ⟨_, h2', _, _⟩ := hz'
        norm_num at h1 h2'
        linarith)
    _ tiny_dom [0] (fun _ => 1) (fun _ => 0) 0 (1 / 4000000)
    (by rw [h1]; exact ⟨fun _ _ => one_pos, fun z _ => by ext <;> simp, fun a b _ _ => by simp⟩) le_rfl (by norm_num) tiny_fine tiny_far
    (by rw [h1, h2]; exact tiny_safe)
  exact ⟨this.1, this.2.1, this.2.2.1 0 (by simp) (by unfold Requested; norm_num)⟩

/-- all hypotheses of `C126_one_process_partial` (and with them those of `C126_lowest_row_partial`) are met: the parallel search with one process, if it
returns, finds the zero of `z` -/
example (turns : List ℕ) (n : ℕ) :
    let s := tinyFinder.calculateRootsParallel 1 (-1 / 8000000, 1 / 8000000) (-1 / 16000000, 1 / 16000000) none ⟨turns, false, n⟩
    s.outcome = .ok () → ∃ r ∈ held s.finder.container, 1 ≤ r.2 ∧ Near ((55 / 100 * (10 : ℝ) ^ (-5 : ℤ), 55 / 100 * (10 : ℝ) ^ (-5 : ℤ))) 0 r.1 := by
  intro s hok
  exact C126_one_process_partial tinyFinder (Externals.sum tinyX) (fun _ => rfl) (by norm_num [Externals.sum]) (by norm_num [Externals.sum]) 1000 rfl rfl
    rfl (-1 / 8000000, 1 / 8000000) (-1 / 16000000, 1 / 16000000) none (5, 5) (.inr ⟨rfl, rfl⟩) _ rfl
    _ tiny_dom [0] (fun _ => 1) (fun _ => 0) 0 (1 / 4000000)
    ⟨fun _ _ => one_pos, fun z _ => by ext <;> simp [tinyFinder, Finder.init], fun a b _ _ => by simp⟩ le_rfl (by norm_num) tiny_fine tiny_far
    tiny_safe hok 0 (by simp) (by unfold Requested; norm_num)

/-- turns by quarters, the whole turn round the origin -/
def cross (z : Cx ℚ) : Cx ℚ := sector (z * ⟨1, 1⟩)

/-- a new finder with the summation estimator (angles in quarter turns, `numPts` support points per line) -/
def sumFinder (n : ℕ) (f : Cx ℚ → Cx ℚ) : Finder (SumState ℚ) ℚ :=
  Finder.init f none (simpleArgument (sumLine (exCfg n 10)) 2 20) (EstCache.init false) SumState.fresh
    (fun p => .rounding (RContainer.init p (5, 5))) false (some (-1, -1)) (some false) ⟨(5, 5), true⟩

/-- non-vacuity of C124: a search of one rectangle, then of another one further up -/
example : (FinderOp.search (-8, 8) (-7, 7) none none).StaysOff (sumFinder 21 cross).precision (LooksAt (-1, -1) ((-8, 8) : ℚ × ℚ) (20, 34)) := by
  rintro p (h | ⟨_, h⟩) z hz hz'
  · simp at h
  · have h : (-1, -1) = p := h
    subst h
    obtain ⟨_, _, _, h4⟩ := hz
    obtain ⟨_, _, h3', _⟩ := hz'
    norm_num at h4 h3'
    linarith

/-- the zero of the next example -/
def oncePoint : Cx ℚ := ⟨-13/10, -13/10⟩

/-- a finder for it -/
def onceFinder : Finder (SumState ℚ) ℚ := sumFinder 21 fun x => sector (x - oncePoint)

/-- C125 is false of the code: the function turns once round `(-13/10, -13/10)`, and a search of a new finder reports it. If the search is interrupted (here
after 11 effects, with a warning and no roots yet), then searching the same rectangle again returns normally, without warning and without roots. -/
theorem C125_counterexample :
    ∃ (fd : Finder (SumState ℚ) ℚ) (z : Cx ℚ) (re im : ℚ × ℚ) (first again : Search (SumState ℚ) ℚ), (∀ x, fd.f x = sector (x - z)) ∧ Requested re im z ∧ fd.est = SumState.fresh ∧
      ShippedAlgorithm fd.algorithm ∧
      held (fd.calculateRoots re im none none).finder.container = [(⟨-2, -1⟩, 1)] ∧
      first = fd.calculateRoots re im none (some 11) ∧ again = first.finder.calculateRoots re im none none ∧
      first.warned = true ∧ held first.finder.container = [] ∧
      again.outcome.toOption = some () ∧ again.warned = false ∧ held again.finder.container = [] := by
  refine ⟨onceFinder, oncePoint, (-8, 8), (-7, 7), _, _, fun _ => rfl, ?_, rfl,
    .simple _ _ _ (.summation _), by decide +kernel, rfl, rfl, Bool.eq_true_of_not_eq_false (by decide +kernel), by decide +kernel, by decide +kernel, by decide +kernel, by decide +kernel⟩
  unfold Requested oncePoint; norm_num

/-- a finder for a function which turns once round each of two points -/
def twoFinder : Finder (SumState ℚ) ℚ := sumFinder 21 fun x => cross (x - ⟨-53, -53⟩) * cross (x - ⟨-13, 13⟩)

theorem two_serial : held (twoFinder.calculateRoots (-80, 80) (-70, 70) none none).finder.container = [(⟨-53, -53⟩, 1), (⟨-13, 13⟩, 1)] := by decide +kernel

theorem two_parallel : held (twoFinder.calculateRootsParallel 2 (-80, 80) (-70, 70) none ⟨[], false, 0⟩).finder.container = [(⟨-50, -50⟩, 1)] := by
  decide +kernel

theorem two_outcome : (twoFinder.calculateRootsParallel 2 (-80, 80) (-70, 70) none ⟨[], false, 0⟩).outcome.toOption = some () := by
  decide +kernel

theorem two_silent : (twoFinder.calculateRootsParallel 2 (-80, 80) (-70, 70) none ⟨[], false, 0⟩).warned = false := by
  decide +kernel

/-- C126 is false of the code: the function turns once round each of `(-53, -53)` and `(-13, 13)`. The serial search of a new finder reports both
points; the parallel search with two processes returns normally, without warning, but reports the first one only, whatever the schedule (C48). -/
theorem C126_counterexample :
    ∃ (fd : Finder (SumState ℚ) ℚ) (z1 z2 : Cx ℚ) (re im : ℚ × ℚ) (s : Search (SumState ℚ) ℚ), (∀ x, fd.f x = cross (x - z1) * cross (x - z2)) ∧
      Requested re im z1 ∧ Requested re im z2 ∧ fd.est = SumState.fresh ∧ ShippedAlgorithm fd.algorithm ∧
      held (fd.calculateRoots re im none none).finder.container = [(z1, 1), (z2, 1)] ∧
      s = fd.calculateRootsParallel 2 re im none ⟨[], false, 0⟩ ∧
      s.outcome.toOption = some () ∧ s.warned = false ∧ held s.finder.container = [(⟨-50, -50⟩, 1)] := by
  refine ⟨twoFinder, ⟨-53, -53⟩, ⟨-13, 13⟩, (-80, 80), (-70, 70), _, fun _ => rfl, ?_, ?_, rfl,
    .simple _ _ _ (.summation _), two_serial, rfl, two_outcome, two_silent, two_parallel⟩
  · unfold Requested; norm_num
  · unfold Requested; norm_num

end PyZeal.Props
