import Verif.Spec.Mixed
import Verif.Props.Several
import Verif.Props.EndToEnd

/-! # Property C149: settings, several finders and searches in one program -/

set_option linter.unusedSectionVars false

namespace PyZeal.Props
open Spec Settings Factory

section
variable {K : Type} [Field K] [LinearOrder K] [IsStrictOrderedRing K] [FloorRing K]

/-! ## Constructors leave the settings files alone -/

/-- an operation which does not change the state -/
def Idle {σ α : Type} (x : Py σ α) : Prop := ∀ s, (x s).2 = s

theorem Idle.pure {σ α : Type} (a : α) : Idle (pure a : Py σ α) := fun _ => rfl
theorem Idle.throw {σ α : Type} (e : Err) : Idle (Py.throw e : Py σ α) := fun _ => rfl

theorem Idle.bind {σ α β : Type} {x : Py σ α} {g : α → Py σ β} (hx : Idle x) (hg : ∀ a, Idle (g a)) : Idle (x >>= g) := by
  intro s
  have h := hx s
  rcases he : x s with ⟨_ | a, s'⟩
  · rw [Py.bind_error he]; rw [he] at h; exact h
  · rw [Py.bind_ok he, hg a s']; rw [he] at h; exact h

theorem idle_settings : Idle fileEnv.settings := by
  intro fs
  change (resolveSettings fs).2 = fs
  unfold resolveSettings getConcreteSettings
  dsimp only
  split <;> rename_i h <;> injection h with _ h <;> rw [h]

theorem idle_logger : Idle fileEnv.logger := Idle.pure ()

theorem idle_estimator {α : Type} : ∀ (n : ℕ) (t : EstimatorTypes) (a : Option ℤ) (b c : Option α), Idle (getConcreteEstimator fileEnv n t a b c)
  | 0, _, _, _, _ => Idle.throw _
  | n + 1, t, a, b, c => by
    unfold getConcreteEstimator
    refine Idle.bind idle_logger fun _ => ?_
    cases t with
    | SUMMATION_ESTIMATOR => dsimp only; split <;> first | exact Idle.pure _ | exact Idle.throw _
    | QUADRATURE_ESTIMATOR => exact Idle.pure _
    | DEFAULT => exact Idle.bind idle_settings fun d => idle_estimator n d.estimator a b c

theorem idle_algorithm {α : Type} (k : Constants α) : ∀ (n : ℕ) (t : AlgorithmTypes) (e : EstimatorTypes) (a : Option ℤ), Idle (getConcreteAlgorithm fileEnv k n t e a)
  | 0, _, _, _ => Idle.throw _
  | n + 1, t, e, a => by
    unfold getConcreteAlgorithm
    refine Idle.bind idle_logger fun _ => ?_
    cases t with
    | NEWTON_GRID => exact Idle.pure _
    | DEFAULT => exact Idle.bind idle_settings fun d => idle_algorithm k n d.algorithm e a
    | _ => exact Idle.bind (idle_estimator _ _ _ _ _) fun _ => Idle.pure _

theorem idle_container : ∀ (n : ℕ) (t : ContainerTypes) (p : Option (ℤ × ℤ)) (q : Option ℕ), Idle (getConcreteContainer fileEnv n t p q)
  | 0, _, _, _ => Idle.throw _
  | n + 1, t, p, q => by
    unfold getConcreteContainer
    refine Idle.bind idle_logger fun _ => ?_
    cases t with
    | ROUNDING_CONTAINER =>
      cases p with
      | none => exact Idle.bind idle_settings fun d => Idle.pure _
      | some p => exact Idle.pure _
    | PLAIN_CONTAINER => exact Idle.pure _
    | DEFAULT => exact Idle.bind idle_settings fun d => idle_container n d.container p q

theorem idle_new (X : Externals K) (f : Cx K → Cx K) (df : Option (Cx K → Cx K)) (a : FinderArgs) : Idle (newFinder fileEnv X f df a) := by
  unfold newFinder finderInit
  refine Idle.bind (Idle.bind (idle_algorithm _ _ _ _ _) fun _ => Idle.bind (idle_container _ _ _ _) fun _ => Idle.bind ?_ fun _ => Idle.bind ?_ fun _ => Idle.pure _) fun _ => Idle.pure _
  · unfold precisionOr
    split
    · exact Idle.pure _
    · exact Idle.bind idle_settings fun _ => Idle.pure _
  · unfold verboseOr
    split
    · exact Idle.pure _
    · exact Idle.bind idle_settings fun _ => Idle.pure _

theorem idle_build (X : Externals K) (k : Construction K) : Idle (k.build X) := by
  unfold Construction.build
  split
  · exact idle_new _ _ _ _
  · exact idle_new _ _ _ _

/-! ## The program as a program with finders only -/

/-- the steps that make and use finders, with the settings as they are when a constructor is called -/
def findersOnly (X : Externals K) (w : SWorld) : List (MixedOp K) → List (ProgramOp (SumState K) K)
  | [] => []
  | .settings op :: ops => findersOnly X (w.step op).2 ops
  | .use i op :: ops => .use i op :: findersOnly X w ops
  | .make k :: ops =>
    match (k.build X w.fs).1 with
    | .ok fd => .make (Recipe.of fd) :: findersOnly X w ops
    | .error _ => findersOnly X w ops

theorem build_state (X : Externals K) (k : Construction K) (w : SWorld) : ({ w with fs := (k.build X w.fs).2 } : SWorld) = w := by
  rw [idle_build X k w.fs]

theorem findersOnly_append (X : Externals K) (after : List (MixedOp K)) : ∀ (before : List (MixedOp K)) (w : SWorld),
    findersOnly X w (before ++ after) = findersOnly X w before ++ findersOnly X (SWorld.run w (settingsOps before)).2 after
  | [], _ => rfl
  | .settings op :: before, w => findersOnly_append X after before (w.step op).2
  | .use i op :: before, w => by
    rw [List.cons_append, findersOnly, findersOnly, List.cons_append, findersOnly_append X after before w]; rfl
  | .make k :: before, w => by
    have ih := findersOnly_append X after before w
    rw [List.cons_append, findersOnly, findersOnly]
    rcases (k.build X w.fs).1 with e | fd
    · exact ih
    · dsimp only
      rw [ih]; rfl

theorem findersOnly_uses (X : Externals K) (i : ℕ) : ∀ (ops : List (MixedOp K)) (w : SWorld), usesOf i (findersOnly X w ops) = mixedUses i ops
  | [], _ => rfl
  | .settings op :: ops, w => findersOnly_uses X i ops (w.step op).2
  | .use j op :: ops, w => by
    rw [findersOnly, usesOf, mixedUses, findersOnly_uses X i ops w]
  | .make k :: ops, w => by
    have ih := findersOnly_uses X i ops w
    rw [findersOnly, mixedUses]
    rcases (k.build X w.fs).1 with e | fd
    · exact ih
    · exact ih

theorem findersOnly_recipes (X : Externals K) : ∀ (ops : List (MixedOp K)) (w : SWorld), ∀ r ∈ recipes (findersOnly X w ops), ∃ fd, r = Recipe.of fd
  | [], _, r, h => by simp [findersOnly, recipes] at h
  | .settings op :: ops, w, r, h => findersOnly_recipes X ops (w.step op).2 r h
  | .use j op :: ops, w, r, h => findersOnly_recipes X ops w r h
  | .make k :: ops, w, r, h => by
    have ih := findersOnly_recipes X ops w r
    rw [findersOnly] at h
    rcases hb : (k.build X w.fs).1 with e | fd
    · rw [hb] at h; exact ih h
    · rw [hb] at h
      rcases List.mem_cons.1 h with h | h
      · exact ⟨fd, h⟩
      · exact ih h

theorem store_count (m : Memory (SumState K) K) (i : ℕ) (fd : Finder (SumState K) K) : (m.store i fd).finders.length = m.finders.length := by
  unfold Memory.store
  split <;> rfl

theorem make_count (m : Memory (SumState K) K) (r : Recipe (SumState K) K) : (m.make r).finders.length = m.finders.length + 1 := by
  simp [Memory.make]

/-- what is seen and the state at the end -/
theorem mixed_runs (X : Externals K) (it : RContainer K → List (Root K)) : ∀ (ops : List (MixedOp K)) (w : SWorld) (m : Memory (SumState K) K),
    let r := runMixed X it w m ops
    r.2.2 = (runProgram it m (findersOnly X w ops)).2 ∧ r.2.1 = (SWorld.run w (settingsOps ops)).2 ∧ settingsSeen r.1 = (SWorld.run w (settingsOps ops)).1 ∧
      (∀ i, finderSeen i r.1 = seenOf i (runProgram it m (findersOnly X w ops)).1) ∧ r.1.length = ops.length ∧
      r.2.2.finders.length = m.finders.length + (recipes (findersOnly X w ops)).length ∧ madeIn r.1 = (recipes (findersOnly X w ops)).length
  | [], _, _ => ⟨rfl, rfl, rfl, fun _ => rfl, rfl, rfl, rfl⟩
  | .settings op :: ops, w, m => by
    obtain ⟨h1, h2, h3, h4, h5, h6, h7⟩ := mixed_runs X it ops (w.step op).2 m
    refine ⟨h1, h2, ?_, h4, ?_, h6, h7⟩
    · exact congrArg _ h3
    · exact congrArg _ h5
  | .use i op :: ops, w, m => by
    rcases hx : m.finder? i with _ | fd
    · obtain ⟨h1, h2, h3, h4, h5, h6, h7⟩ := mixed_runs X it ops w m
      have e : mixedStep X it w m (.use i op) = (.missing, w, m) := by rw [mixedStep, hx]
      have e' : runProgram it m (findersOnly X w (.use i op :: ops)) = runProgram it m (findersOnly X w ops) := by rw [findersOnly, runProgram, hx]
      intro r
      have hr : r = (.missing :: (runMixed X it w m ops).1, (runMixed X it w m ops).2) := by
        change runMixed X it w m (.use i op :: ops) = _
        rw [runMixed, e]
      rw [hr, e']
      exact ⟨h1, h2, h3, h4, congrArg _ h5, h6, h7⟩
    · obtain ⟨h1, h2, h3, h4, h5, h6, h7⟩ := mixed_runs X it ops w (m.store i (useStep it fd op).2)
      have e : mixedStep X it w m (.use i op) = (.used i op (useStep it fd op).1, w, m.store i (useStep it fd op).2) := by rw [mixedStep, hx]
      have e' : runProgram it m (findersOnly X w (.use i op :: ops)) = ((i, op, (useStep it fd op).1) :: (runProgram it (m.store i (useStep it fd op).2) (findersOnly X w ops)).1,
          (runProgram it (m.store i (useStep it fd op).2) (findersOnly X w ops)).2) := by rw [findersOnly, runProgram, hx]
      intro r
      have hr : r = (.used i op (useStep it fd op).1 :: (runMixed X it w (m.store i (useStep it fd op).2) ops).1, (runMixed X it w (m.store i (useStep it fd op).2) ops).2) := by
        change runMixed X it w m (.use i op :: ops) = _
        rw [runMixed, e]
      rw [hr, e']
      rw [store_count] at h6
      refine ⟨h1, h2, h3, fun j => ?_, congrArg _ h5, h6, h7⟩
      dsimp only
      rw [finderSeen, h4 j]
      unfold seenOf
      by_cases hj : i = j
      · simp [hj]
      · simp [hj]
  | .make k :: ops, w, m => by
    intro r
    have hst := build_state X k w
    rcases hb : k.build X w.fs with ⟨e | fd, fs⟩
    · rw [hb] at hst
      obtain ⟨h1, h2, h3, h4, h5, h6, h7⟩ := mixed_runs X it ops w m
      have e1 : mixedStep X it w m (.make k) = (.made (.error e), w, m) := by
        rw [mixedStep, hb]; dsimp only; dsimp only at hst; rw [hst]
      have e' : findersOnly X w (.make k :: ops) = findersOnly X w ops := by rw [findersOnly, hb]
      have hr : r = (.made (.error e) :: (runMixed X it w m ops).1, (runMixed X it w m ops).2) := by
        change runMixed X it w m (.make k :: ops) = _
        rw [runMixed, e1]
      rw [hr, e']
      exact ⟨h1, h2, h3, h4, congrArg _ h5, h6, h7⟩
    · rw [hb] at hst
      obtain ⟨h1, h2, h3, h4, h5, h6, h7⟩ := mixed_runs X it ops w (m.make (Recipe.of fd))
      have e1 : mixedStep X it w m (.make k) = (.made (.ok m.finders.length), w, m.make (Recipe.of fd)) := by
        rw [mixedStep, hb]; dsimp only; dsimp only at hst; rw [hst]
      have e' : findersOnly X w (.make k :: ops) = .make (Recipe.of fd) :: findersOnly X w ops := by rw [findersOnly, hb]
      have hr : r = (.made (.ok m.finders.length) :: (runMixed X it w (m.make (Recipe.of fd)) ops).1, (runMixed X it w (m.make (Recipe.of fd)) ops).2) := by
        change runMixed X it w m (.make k :: ops) = _
        rw [runMixed, e1]
      rw [hr, e']
      rw [make_count] at h6
      refine ⟨h1, h2, h3, h4, congrArg _ h5, ?_, ?_⟩
      · rw [recipes, List.length_cons]
        dsimp only
        omega
      · rw [recipes, List.length_cons, ← h7]
        rfl

theorem mixed_append (X : Externals K) (it : RContainer K → List (Root K)) (after : List (MixedOp K)) : ∀ (before : List (MixedOp K)) (w : SWorld) (m : Memory (SumState K) K),
    runMixed X it w m (before ++ after) = ((runMixed X it w m before).1 ++ (runMixed X it (runMixed X it w m before).2.1 (runMixed X it w m before).2.2 after).1,
      (runMixed X it (runMixed X it w m before).2.1 (runMixed X it w m before).2.2 after).2)
  | [], _, _ => rfl
  | op :: before, w, m => by
    have ih := mixed_append X it after before (mixedStep X it w m op).2.1 (mixedStep X it w m op).2.2
    rw [List.cons_append, runMixed, ih]
    rfl

/-- **C149.** A program that changes settings, makes finders and uses them, in any order. A constructor called at some point works with the settings left by the
operations on settings before it, and fails or returns as these say. What is seen of the finder it returns is what the same operations show of it when nothing else
happens: later changes of the settings and the other finders do not matter. -/
theorem C149_finder (X : Externals K) (it : RContainer K → List (Root K)) (w : SWorld) (before after : List (MixedOp K)) (k : Construction K) (fs : SettingsFS)
    (hfs : fs = (SWorld.run w (settingsOps before)).2.fs) :
    let events := (runMixed X it w (Memory.start [] []) (before ++ .make k :: after)).1
    let i := madeIn (events.take before.length)
    match k.build X fs with
    | (.ok fd, fs') => fs' = fs ∧ events[before.length]? = some (.made (.ok i)) ∧ finderSeen i events = (useFinder it fd (mixedUses i after)).1
    | (.error e, fs') => fs' = fs ∧ events[before.length]? = some (.made (.error e)) := by
  intro events i
  obtain ⟨b1, b2, b3, b4, b5, b6, b7⟩ := mixed_runs X it before w (Memory.start [] [])
  obtain ⟨a1, a2, a3, a4, a5, a6, -⟩ := mixed_runs X it (before ++ .make k :: after) w (Memory.start [] [])
  have hev : events[before.length]? = some (mixedStep X it (runMixed X it w (Memory.start [] []) before).2.1 (runMixed X it w (Memory.start [] []) before).2.2 (.make k)).1 := by
    change (runMixed X it w (Memory.start [] []) (before ++ .make k :: after)).1[before.length]? = _
    rw [mixed_append, List.getElem?_append_right (le_of_eq b5), b5, Nat.sub_self]
    rfl
  have hi : i = (recipes (findersOnly X w before)).length := by
    change madeIn (List.take before.length (runMixed X it w (Memory.start [] []) (before ++ .make k :: after)).1) = _
    rw [mixed_append, List.take_left' b5, b7]
  have hw : (runMixed X it w (Memory.start [] []) before).2.1.fs = fs := by rw [b2, hfs]
  have hidle := idle_build X k fs
  rcases hb : k.build X fs with ⟨e | fd, fs'⟩
  · rw [hb] at hidle
    refine ⟨hidle, ?_⟩
    rw [hev, mixedStep, hw, hb]
  · rw [hb] at hidle
    rw [hi]
    refine ⟨hidle, ?_, ?_⟩
    · rw [hev, mixedStep, hw, hb]
      dsimp only
      rw [b6]
      simp [Memory.start]
    · change finderSeen _ (runMixed X it w (Memory.start [] []) (before ++ .make k :: after)).1 = _
      rw [a4, findersOnly_append, findersOnly, ← hfs, hb]
      dsimp only
      have := (C147_own it [] [] (findersOnly X w before) (findersOnly X (SWorld.run w (settingsOps before)).2 after) (Recipe.of fd) _ _ rfl rfl (fun r hr => ?_)
        _ rfl).1
      · rw [this, findersOnly_uses]
        rfl
      · have hr' : r ∈ recipes (findersOnly X w (before ++ .make k :: after)) := by
          rw [findersOnly_append, findersOnly, ← hfs, hb]
          exact hr
        obtain ⟨g, rfl⟩ := findersOnly_recipes X _ w r hr'
        exact ⟨fun n h => by simp [Recipe.of] at h, fun n h => by simp [Recipe.of] at h⟩

/-- **C149.** And the other way round: what is seen of the settings, and the settings at the end, are as if no finder had been made or used. -/
theorem C149_settings (X : Externals K) (it : RContainer K → List (Root K)) (w : SWorld) (ops : List (MixedOp K)) :
    let r := runMixed X it w (Memory.start [] []) ops
    settingsSeen r.1 = (SWorld.run w (settingsOps ops)).1 ∧ r.2.1 = (SWorld.run w (settingsOps ops)).2 :=
  ⟨(mixed_runs X it ops w _).2.2.1, (mixed_runs X it ops w _).2.1⟩

end

/-- **C149** with C136 (simple argument algorithm, quadrature estimator): in a program of any length, if a finder is constructed while the settings (as left by the operations before
it) and its arguments choose these, and the first things done with that finder, at whatever times and whatever happens in between, are a search and reading roots and orders,
then the search returns without warning and what is read are the zeros as in C130. -/
theorem C149_zeros (X : Externals ℝ) (dx : ℝ) (hX : Libraries X dx) (it : RContainer ℝ → List (Root ℝ)) (hit : ∀ c, (it c).Perm c.rootSet)
    (before after : List (MixedOp ℝ)) (hops : ProperOps (fun _ => False) (settingsOps before)) (a : FinderArgs) (q : ℤ × ℤ) (d : Defaults)
    (hc : Chosen (settingsOps before) a .SIMPLE_ARGUMENT .QUADRATURE_ESTIMATOR q d) (f df : Cx ℝ → Cx ℝ) (re im : ℝ × ℝ) (call : Option (ℤ × ℤ)) (p : ℤ × ℤ) (hp : Asked call q p)
    (dom : (ℝ × ℝ) × (ℝ × ℝ)) (hdom : dom = desymmetrizeDomain re im (p.1 + 1, p.2 + 1))
    (zeros : List (Cx ℝ)) (G : ℂ → ℂ) (B V : ℝ) (hf : AnalyticWith f df (Cell.Has ⟨dom.1, dom.2, 0⟩) zeros G B V)
    (hres : Resolved (p.1 + 1, p.2 + 1) zeros B V dom.1 dom.2)
    (m n : ℕ) (hb : Cell.Below (p.1 + 1, p.2 + 1) m n ⟨dom.1, dom.2, 0⟩) (hl : m + n < X.limit) :
    let events := (runMixed X it newInstallation (Memory.start [] []) (before ++ .make ⟨none, f, some df, a⟩ :: after)).1
    let i := madeIn (events.take before.length)
    events[before.length]? = some (.made (.ok i)) ∧ ∀ more, mixedUses i after = .search re im call none :: .roots :: .orders :: more →
      ∃ bar points orders rest, finderSeen i events = (.search re im call none, .searched (.ok ()) false bar) :: (.roots, .roots points) :: (.orders, .orders orders) :: rest ∧
        (∀ z ∈ zeros, Requested re im z → ∃ r ∈ points.zip orders, 1 ≤ r.2 ∧ Near (10 ^ (-(p.1 + 1)), 10 ^ (-(p.2 + 1))) z r.1) ∧
        ∀ r ∈ points.zip orders, 1 ≤ r.2 ∧ RequestedWithin (5 * 10 ^ (-(p.1 + 1)), 5 * 10 ^ (-(p.2 + 1))) re im r.1 ∧
          ∃ z ∈ zeros, Near (10 ^ (-(p.1 + 1)), 10 ^ (-(p.2 + 1))) z r.1 := by
  intro events i
  obtain ⟨fd, hfd, h1, h2, h3, h4⟩ := C136_simple X dx hX (settingsOps before) hops a q d hc f df re im call p hp dom hdom zeros G B V hf hres m n hb hl
  have key := C149_finder X it newInstallation before after ⟨none, f, some df, a⟩ _ rfl
  have hbuild : Construction.build X ⟨none, f, some df, a⟩ (SWorld.run newInstallation (settingsOps before)).2.fs = (.ok fd, (SWorld.run newInstallation (settingsOps before)).2.fs) := hfd
  rw [hbuild] at key
  obtain ⟨-, hi, hs⟩ := key
  refine ⟨hi, fun more hu => ?_⟩
  have hs' : finderSeen i events = _ := hs
  have hu' : mixedUses (madeIn (List.take before.length (runMixed X it newInstallation (Memory.start [] []) (before ++ .make ⟨none, f, some df, a⟩ :: after)).1)) after = _ := hu
  rw [hu'] at hs'
  refine ⟨(fd.calculateRoots re im call none).bar, ((fd.calculateRoots re im call none).finder.roots it).1, (((fd.calculateRoots re im call none).finder.roots it).2.orders it).1,
    (useFinder it (((fd.calculateRoots re im call none).finder.roots it).2.orders it).2 more).1, hs'.trans ?_, ?_, ?_⟩
  rotate_left
  · intro z hz hr
    obtain ⟨r, hr, h⟩ := h3 z hz hr
    exact ⟨r, (mem_reported it hit _ r).2 hr, h⟩
  · intro r hr
    exact h4 r ((mem_reported it hit _ r).1 hr)
  · rw [useFinder, useStep]
    dsimp only
    rw [h1, h2]
    rfl

/-! ## Examples -/

/-- the settings before the finder is made -/
def mixedBefore : List (MixedOp ℝ) := [.settings (.create 0), .settings (.assign 0 .verbose (.bool false))]

/-- After the finder is made, settings are changed, also between its search and the reading, and another finder is made and searches in between. -/
noncomputable def mixedAfter : List (MixedOp ℝ) :=
  [.settings (.assign 0 .precision (.tuple [.int 1, .int 1])), .make ⟨some 4, fun z => z, none, {}⟩, .use 0 (.search (-2 / 1000, 4 / 1000) (0, 2 / 1000) (some (2, 2)) none),
    .use 1 (.search (0, 1) (0, 1) none none), .settings (.assign 0 .estimator (.estimator .SUMMATION_ESTIMATOR)), .use 0 .roots, .use 1 .roots, .use 0 .orders]

/-- non-vacuity of `C149_zeros`: `RootFinder(f, df, estimatorType=QUADRATURE_ESTIMATOR)` for `z * exp(z)` in such a program -/
example (it : RContainer ℝ → List (Root ℝ)) (hit : ∀ c, (it c).Perm c.rootSet) :
    ∃ bar points orders rest,
      finderSeen 0 (runMixed someLibraries it newInstallation (Memory.start [] []) (mixedBefore ++ .make ⟨none, zexp, some dzexp, { estimator := .QUADRATURE_ESTIMATOR }⟩ :: mixedAfter)).1 =
        (.search (-2 / 1000, 4 / 1000) (0, 2 / 1000) (some (2, 2)) none, .searched (.ok ()) false bar) :: (.roots, .roots points) :: (.orders, .orders orders) :: rest ∧
      ∃ r ∈ points.zip orders, 1 ≤ r.2 ∧ Near ((10 : ℝ) ^ (-((2 : ℤ) + 1)), (10 : ℝ) ^ (-((2 : ℤ) + 1))) 0 r.1 := by
  obtain ⟨-, h⟩ := C149_zeros someLibraries _ someLibraries_ok it hit mixedBefore mixedAfter ⟨.inl rfl, .verbose false, trivial⟩ { estimator := .QUADRATURE_ESTIMATOR } (5, 5)
    { shippedDefaults with verbose := false } ⟨⟨rfl, rfl, rfl, rfl, rfl⟩, ⟨by decide, by decide, by decide⟩, rfl, rfl, rfl, rfl⟩ zexp dzexp
    (-2 / 1000, 4 / 1000) (0, 2 / 1000) (some (2, 2)) (2, 2) (.inl rfl) _ thirds_domain.symm [0] (fun z => z) 0 (57 / 8) zexp_analytic_small thirds_resolved 4 4
    (by unfold Cell.Below; norm_num) (by norm_num [someLibraries])
  obtain ⟨bar, points, orders, rest, h1, h2, -⟩ := h [] rfl
  refine ⟨bar, points, orders, rest, h1, h2 0 (by simp) ?_⟩
  unfold Requested
  norm_num

end PyZeal.Props
