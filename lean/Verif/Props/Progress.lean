import Verif.Proof.Progress
import Verif.Props.Finder
import Verif.Props.Disjoint
import Verif.Props.NewtonGrid

/-! # C128, C129: what the progress bar shows -/

set_option linter.unusedSectionVars false

namespace PyZeal.Props
open Spec
variable {K : Type} {σ : Type} [Field K] [LinearOrder K] [IsStrictOrderedRing K] [FloorRing K]

theorem domain_ordered (re im : K × K) (p : ℤ × ℤ) :
    (desymmetrizeDomain re im p).1.1 ≤ (desymmetrizeDomain re im p).1.2 ∧ (desymmetrizeDomain re im p).2.1 ≤ (desymmetrizeDomain re im p).2.2 := by
  have h : ∀ q : ℤ, (0 : K) < eps10 K q := fun q => eps10_pos q
  have h1 := h p.1
  have h2 := h p.2
  have a := min_le_max (a := re.1) (b := re.2)
  have b := min_le_max (a := im.1) (b := im.2)
  unfold desymmetrizeDomain
  dsimp only
  exact ⟨by linarith, by linarith⟩

/-! ## C128 -/

/-- **C128.** The bar of a search never goes back and never shows more than its total, the area of the rectangle searched, whatever the
algorithm, the function and the state of the finder, and however the search ends: normally, by an interrupt at any point, or by an
exception. -/
theorem C128_serial (fd : Finder (SumState K) K) (ha : ShippedAlgorithm fd.algorithm) (re im : K × K) (p : Option (ℤ × ℤ)) (interrupt : Option ℕ)
    (b : Bar K) (hb : (fd.calculateRoots re im p interrupt).bar = some b) :
    NeverBack b.advances ∧ NeverOver b.total b.advances ∧ (∀ x ∈ barReadings b.advances, 0 ≤ x) ∧ b.total = fd.barTotal re im p ∧
      (max re.1 re.2 - min re.1 re.2) * (max im.1 im.2 - min im.1 im.2) ≤ b.total := by
  obtain ⟨o1, o2⟩ := domain_ordered re im (searchPrecision p fd.precision)
  have hbar : b.total = fd.barTotal re im p ∧ b.advances = (fd.algorithmRun re im p interrupt).2.advances := by
    unfold Finder.calculateRoots at hb
    dsimp only at hb
    split at hb
    all_goals
      dsimp only at hb
      split at hb
      · injection hb with hb
        subst hb
        exact ⟨rfl, rfl⟩
      · cases hb
  obtain ⟨e1, e2⟩ := hbar
  obtain ⟨adv, h1, h2, h3⟩ := ha.advLe (fd.ctx re im p) o1 o2 (fd.start interrupt)
  have e3 : (fd.algorithmRun re im p interrupt).2.advances = adv := h1
  rw [e2, e3, e1]
  obtain ⟨r1, r2, r3⟩ := readings_ok h2 h3
  refine ⟨r1, r2, r3, rfl, ?_⟩
  have q1 := eps10_pos (K := K) (searchPrecision p fd.precision).1
  have q2 := eps10_pos (K := K) (searchPrecision p fd.precision).2
  have m1 := min_le_max (a := re.1) (b := re.2)
  have m2 := min_le_max (a := im.1) (b := im.2)
  unfold Finder.barTotal desymmetrizeDomain
  dsimp only
  exact mul_le_mul (by linarith) (by linarith) (by linarith) (by linarith)

/-- **C128** for parallel searches: the shared bar, for every number of processes, every order in which the updates of the processes
arrive, and every moment at which the search is interrupted. -/
theorem C128_parallel (fd : Finder (SumState K) K) (ha : ShippedAlgorithm fd.algorithm) {cpus : ℕ} (hc : 1 ≤ cpus) (re im : K × K) (p : Option (ℤ × ℤ))
    (turns : List ℕ) (interrupted : Bool) :
    NeverBack (fd.parallelAdvances cpus re im p turns interrupted) ∧
      NeverOver (fd.barTotal re im p) (fd.parallelAdvances cpus re im p turns interrupted) ∧
      ∀ x ∈ barReadings (fd.parallelAdvances cpus re im p turns interrupted), 0 ≤ x := by
  obtain ⟨o1, o2⟩ := domain_ordered re im (searchPrecision p fd.precision)
  unfold Finder.parallelAdvances Finder.barTotal
  dsimp only
  generalize desymmetrizeDomain re im (searchPrecision p fd.precision) = dom at *
  generalize hj : createRootJobs fd.f fd.df cpus dom.1 dom.2 (searchPrecision p fd.precision) fd.verbose = jobs
  have hin : ∀ j ∈ jobs, j.reRan.1 ≤ j.reRan.2 ∧ j.imRan.1 ≤ j.imRan.2 := by
    intro j hjj
    rw [← hj] at hjj
    obtain ⟨_, h1, _, _, h2, _⟩ := jobs_in hc o1 o2 hjj
    exact ⟨h1, h2⟩
  have hpiece : ∀ js : List (RCtx K), (∀ j ∈ js, j ∈ jobs) → (∀ a ∈ pieceAdvances fd js, 0 ≤ a) ∧
      (pieceAdvances fd js).sum ≤ (js.map fun j => (j.reRan.2 - j.reRan.1) * (j.imRan.2 - j.imRan.1)).sum := by
    intro js hjs
    obtain ⟨adv, h1, h2, h3⟩ := AdvLe.runJobs (alg := fd.algorithm) (area := fun j => (j.reRan.2 - j.reRan.1) * (j.imRan.2 - j.imRan.1)) js
      (fun j hjj => by
        obtain ⟨i1, i2⟩ := hin j (hjs j hjj)
        exact ⟨mul_nonneg (by linarith) (by linarith), ha.advLe j i1 i2⟩)
      { cache := fd.cache, est := fd.est, added := [], advances := [], fuse := none, log := [] }
    have : pieceAdvances fd js = adv := h1
    rw [this]
    exact ⟨h2, h3⟩
  have hfl := chunks_flatten hc jobs.length jobs le_rfl
  generalize hp : chunks cpus jobs.length jobs = pieces at *
  have hmem : ∀ js ∈ pieces, ∀ j ∈ js, j ∈ jobs := by
    intro js hjs j hjj
    rw [← hfl]
    exact List.mem_flatten.2 ⟨js, hjs, hjj⟩
  have hall : (∀ a ∈ (pieces.map (pieceAdvances fd)).flatten, 0 ≤ a) ∧
      (pieces.map (pieceAdvances fd)).flatten.sum ≤ (dom.1.2 - dom.1.1) * (dom.2.2 - dom.2.1) := by
    constructor
    · intro a haa
      obtain ⟨l, hl, hal⟩ := List.mem_flatten.1 haa
      obtain ⟨js, hjs, rfl⟩ := List.mem_map.1 hl
      exact (hpiece js (hmem js hjs)).1 a hal
    · rw [← jobs_area_sum fd.f fd.df hc dom.1 dom.2 (searchPrecision p fd.precision) fd.verbose, hj, ← hfl, List.map_flatten, List.sum_flatten,
        List.sum_flatten, List.map_map, List.map_map]
      exact List.sum_le_sum fun js hjs => (hpiece js (hmem js hjs)).2
  have hperm := deliver_perm (pieces.map (pieceAdvances fd)) turns
  have hnn : ∀ a ∈ (deliver (pieces.map (pieceAdvances fd)) turns).1 ++ (deliver (pieces.map (pieceAdvances fd)) turns).2.flatten, 0 ≤ a :=
    fun a haa => hall.1 a (hperm.mem_iff.1 haa)
  have hsum : ((deliver (pieces.map (pieceAdvances fd)) turns).1 ++ (deliver (pieces.map (pieceAdvances fd)) turns).2.flatten).sum ≤
      (dom.1.2 - dom.1.1) * (dom.2.2 - dom.2.1) := hperm.sum_eq ▸ hall.2
  cases interrupted with
  | false => exact readings_ok hnn hsum
  | true =>
    rw [List.sum_append] at hsum
    have := List.sum_nonneg fun a (haa : a ∈ (deliver (pieces.map (pieceAdvances fd)) turns).2.flatten) => hnn a (List.mem_append_right _ haa)
    have hle : (deliver (pieces.map (pieceAdvances fd)) turns).1.sum ≤ (dom.1.2 - dom.1.1) * (dom.2.2 - dom.2.1) := by linarith
    exact readings_ok (fun a haa => hnn a (List.mem_append_left _ haa)) hle

/-- the rows of the bar after each update -/
theorem rows_ok {total : K} {advances : List K} (h1 : NeverBack advances) (h2 : NeverOver total advances) (h3 : ∀ x ∈ barReadings advances, 0 ≤ x) (m n : ℕ) (hmn : m ≤ n) :
    ∃ s t, OneRow (barAfter total advances m) s ∧ OneRow (barAfter total advances n) t ∧ s.total = total ∧ t.total = total ∧
      0 ≤ s.completed ∧ s.completed ≤ t.completed ∧ t.completed ≤ total := by
  have mem : ∀ n, (advances.take n).sum ∈ barReadings advances := by
    intro n
    rcases Nat.le_total n advances.length with h | h
    · exact List.mem_map.2 ⟨n, by simpa [Nat.lt_succ_iff] using h, rfl⟩
    · exact List.mem_map.2 ⟨advances.length, by simp, by rw [List.take_of_length_le h, List.take_of_length_le le_rfl]⟩
  have mono : ∀ m n, m ≤ n → n ≤ advances.length → (advances.take m).sum ≤ (advances.take n).sum := by
    intro m n hmn hn
    rcases Nat.eq_or_lt_of_le hmn with rfl | hlt
    · exact le_rfl
    · unfold NeverBack at h1
      rw [List.pairwise_iff_getElem] at h1
      have := h1 m n (by simp [barReadings]; omega) (by simp [barReadings]; omega) hlt
      simpa [barReadings] using this
  have hm : (advances.take m).sum ≤ (advances.take n).sum := by
    rcases Nat.le_total n advances.length with h | h
    · exact mono m n hmn h
    · rw [List.take_of_length_le h]
      rcases Nat.le_total m advances.length with h' | h'
      · have := mono m advances.length h' le_rfl
        rwa [List.take_of_length_le (l := advances) (i := advances.length) le_rfl] at this
      · rw [List.take_of_length_le h']
  unfold barAfter
  rw [serial_rows, serial_rows]
  exact ⟨_, _, ⟨0, rfl⟩, ⟨0, rfl⟩, rfl, rfl, h3 _ (mem m), hm, h2 _ (mem n)⟩

/-- **C128**, the rows of the bar itself: at any two moments of a search (after `m` and after `n >= m` updates) the bar has one row with the area of the rectangle searched as total; the amount completed has
not decreased, and is between 0 and the total. -/
theorem C128_rows (fd : Finder (SumState K) K) (ha : ShippedAlgorithm fd.algorithm) (re im : K × K) (p : Option (ℤ × ℤ)) (interrupt : Option ℕ)
    (b : Bar K) (hb : (fd.calculateRoots re im p interrupt).bar = some b) (m n : ℕ) (hmn : m ≤ n) :
    ∃ s t, OneRow (barAfter b.total b.advances m) s ∧ OneRow (barAfter b.total b.advances n) t ∧ s.total = b.total ∧ t.total = b.total ∧
      0 ≤ s.completed ∧ s.completed ≤ t.completed ∧ t.completed ≤ b.total :=
  rows_ok (C128_serial fd ha re im p interrupt b hb).1 (C128_serial fd ha re im p interrupt b hb).2.1 (C128_serial fd ha re im p interrupt b hb).2.2.1 m n hmn

/-- **C128**, the rows of the bar shared by the processes of a parallel search -/
theorem C128_rows_parallel (fd : Finder (SumState K) K) (ha : ShippedAlgorithm fd.algorithm) {cpus : ℕ} (hc : 1 ≤ cpus) (re im : K × K) (p : Option (ℤ × ℤ))
    (turns : List ℕ) (interrupted : Bool) (m n : ℕ) (hmn : m ≤ n) :
    ∃ s t, OneRow (barAfter (fd.barTotal re im p) (fd.parallelAdvances cpus re im p turns interrupted) m) s ∧
      OneRow (barAfter (fd.barTotal re im p) (fd.parallelAdvances cpus re im p turns interrupted) n) t ∧ s.total = fd.barTotal re im p ∧ t.total = fd.barTotal re im p ∧
      0 ≤ s.completed ∧ s.completed ≤ t.completed ∧ t.completed ≤ fd.barTotal re im p :=
  rows_ok (C128_parallel fd ha hc re im p turns interrupted).1 (C128_parallel fd ha hc re im p turns interrupted).2.1
    (C128_parallel fd ha hc re im p turns interrupted).2.2 m n hmn

/-! ## C129 -/

/-- **C129** (missing: the row is hidden after an interrupt; that is false, see `C129_counterexample`, `C129_stays_visible`). A finder with progress bar: when the call
ends, the bar has one row; its total is the area of the rectangle searched, the amount completed is the sum of the updates; the row says
"search finished!" if and only if the call returns and has not been interrupted; the bar is still displayed if and only if an exception
leaves the call. -/
theorem C129_shown_partial (fd : Finder σ K) (hv : fd.verbose = true) (re im : K × K) (p : Option (ℤ × ℤ)) (interrupt : Option ℕ) :
    ∃ bar t b, (fd.calculateRoots re im p interrupt).bar = some b ∧ fd.shownBar re im p interrupt = some bar ∧ OneRow bar t ∧ t.total = b.total ∧
      t.completed = b.advances.sum ∧
      (t.text = .finished ↔ (fd.calculateRoots re im p interrupt).outcome = .ok () ∧ (fd.calculateRoots re im p interrupt).warned = false) ∧
      (bar.live = true ↔ (fd.calculateRoots re im p interrupt).outcome ≠ .ok ()) := by
  have hcalc : fd.calculateRoots re im p interrupt =
      (match (fd.algorithmRun re im p interrupt).1 with
      | .ok _ => ⟨.ok (), (fd.calculateRoots re im p interrupt).finder, false,
          some ⟨fd.barTotal re im p, (fd.algorithmRun re im p interrupt).2.advances, false⟩⟩
      | .error .keyboardInterrupt => ⟨.ok (), (fd.calculateRoots re im p interrupt).finder, true,
          some ⟨fd.barTotal re im p, (fd.algorithmRun re im p interrupt).2.advances, false⟩⟩
      | .error e => ⟨.error e, (fd.calculateRoots re im p interrupt).finder, false,
          some ⟨fd.barTotal re im p, (fd.algorithmRun re im p interrupt).2.advances, true⟩⟩) := by
    unfold Finder.calculateRoots Finder.algorithmRun Finder.barTotal
    dsimp only
    rw [if_pos hv, if_pos hv]
    generalize fd.algorithm _ _ = r
    rcases r with ⟨e | x, w⟩
    · cases e <;> rfl
    · rfl
  rw [hcalc]
  unfold Finder.shownBar
  rw [if_pos hv]
  unfold serialBar
  dsimp only
  rw [serial_rows]
  generalize fd.algorithmRun re im p interrupt = r
  rcases r with ⟨e | x, w⟩
  · by_cases he : e = .keyboardInterrupt
    · subst he
      exact ⟨_, _, _, rfl, rfl, ⟨0, rfl⟩, rfl, rfl, by simp, by simp [interruptBar, taskTruthy, openBar, ProgressBar.addTask, ProgressBar.new, ProgressBar.stop]⟩
    · have h1 : ∀ {β : Type} (a c : β), (match (Except.error e : Except Err Unit) with
          | .ok _ => a | .error .keyboardInterrupt => a | .error _ => c) = c := by
        intro β a c; cases e <;> first | rfl | exact absurd rfl he
      cases e <;> first
        | exact absurd rfl he
        | exact ⟨_, _, _, rfl, rfl, ⟨0, rfl⟩, rfl, rfl, by simp, by simp⟩
  · exact ⟨_, _, _, rfl, rfl, ⟨0, rfl⟩, rfl, rfl, by simp, by simp [ProgressBar.stop]⟩

/-- **C129**, what happens instead: after every interrupted search with a progress bar the row is still visible, with its clock running. (The `TaskID` of the only row is 0,
and `if progress and task:` is false.) -/
theorem C129_stays_visible (fd : Finder σ K) (hv : fd.verbose = true) (re im : K × K) (p : Option (ℤ × ℤ)) (interrupt : Option ℕ)
    (hw : (fd.calculateRoots re im p interrupt).warned = true) :
    ∃ bar t, fd.shownBar re im p interrupt = some bar ∧ OneRow bar t ∧ t.visible = true ∧ t.stopped = false ∧ t.text = .working := by
  have hr : (fd.algorithmRun re im p interrupt).1 = .error .keyboardInterrupt := by
    unfold Finder.calculateRoots at hw
    dsimp only at hw
    unfold Finder.algorithmRun
    dsimp only
    generalize fd.algorithm _ _ = r at hw ⊢
    rcases r with ⟨e | x, w⟩
    · cases e <;> first | rfl | cases hw
    · cases hw
  unfold Finder.shownBar
  rw [if_pos hv, hr]
  unfold serialBar
  dsimp only
  rw [serial_rows]
  exact ⟨_, _, rfl, ⟨0, rfl⟩, rfl, rfl, rfl⟩

/-- without progress bar there is none -/
theorem C129_quiet (fd : Finder σ K) (hv : fd.verbose = false) (re im : K × K) (p : Option (ℤ × ℤ)) (interrupt : Option ℕ) :
    fd.shownBar re im p interrupt = none ∧ (fd.calculateRoots re im p interrupt).bar = none := by
  constructor
  · unfold Finder.shownBar; rw [if_neg (by rw [hv]; exact Bool.false_ne_true)]
  · unfold Finder.calculateRoots
    dsimp only
    rw [if_neg (by rw [hv]; exact Bool.false_ne_true), if_neg (by rw [hv]; exact Bool.false_ne_true)]
    split <;> rfl

/-- **C129** for parallel searches (missing: the row is hidden after an interrupt): for every number of processes, every schedule and every order of updates. -/
theorem C129_parallel_partial (fd : Finder σ K) (hv : fd.verbose = true) (cpus : ℕ) (re im : K × K) (p : Option (ℤ × ℤ)) (sched : Schedule) (turns : List ℕ) :
    ∃ bar t, fd.shownBarParallel cpus re im p sched turns = some bar ∧ OneRow bar t ∧ t.total = fd.barTotal re im p ∧
      t.completed = (fd.parallelAdvances cpus re im p turns sched.interrupted).sum ∧
      (t.text = .finished ↔ (fd.calculateRootsParallel cpus re im p sched).outcome = .ok () ∧ (fd.calculateRootsParallel cpus re im p sched).warned = false) ∧
      bar.live = false := by
  have h1 : (fd.starmapOutcome cpus re im p sched = .ok () ↔
      (fd.calculateRootsParallel cpus re im p sched).outcome = .ok () ∧ (fd.calculateRootsParallel cpus re im p sched).warned = false) := by
    unfold Finder.starmapOutcome Finder.calculateRootsParallel
    dsimp only
    rcases hs : sched.interrupted with _ | _
    · simp only [Bool.false_eq_true, if_false]
      generalize firstFailure sched _ = r
      rcases r with e | x <;> simp
    · simp
  rw [← h1]
  unfold Finder.shownBarParallel
  rw [if_pos hv]
  unfold parallelBar
  dsimp only
  rw [serial_rows]
  generalize fd.starmapOutcome cpus re im p sched = r
  rcases r with e | x
  · cases e <;> exact ⟨_, _, rfl, ⟨0, rfl⟩, rfl, rfl, by simp, rfl⟩
  · exact ⟨_, _, rfl, ⟨0, rfl⟩, rfl, rfl, by simp, rfl⟩

/-- **C129**, the updates of a parallel search: for every number of processes and every interleaving, no update of a child process arrives twice or is made up; and without an interrupt all arrive. (`pieceAdvances` are the updates
one child process makes for the jobs given to it.) -/
theorem C129_updates (fd : Finder σ K) (cpus : ℕ) (re im : K × K) (call : Option (ℤ × ℤ)) (p : ℤ × ℤ) (hp : Asked call fd.precision p) (turns : List ℕ) (interrupted : Bool)
    (dom : (K × K) × (K × K)) (hdom : dom = desymmetrizeDomain re im (p.1 + 1, p.2 + 1))
    (jobs : List (RCtx K)) (hjobs : jobs = createRootJobs fd.f fd.df cpus dom.1 dom.2 (p.1 + 1, p.2 + 1) fd.verbose) :
    ∃ lost, (fd.parallelAdvances cpus re im call turns interrupted ++ lost).Perm ((chunks cpus jobs.length jobs).map (pieceAdvances fd)).flatten ∧
      (interrupted = false → lost = []) := by
  unfold Finder.parallelAdvances
  rw [searchPrecision_asked hp]
  dsimp only
  rw [← hdom, ← hjobs]
  cases interrupted
  · exact ⟨[], by rw [List.append_nil]; exact deliver_perm _ turns, fun _ => rfl⟩
  · exact ⟨_, deliver_perm _ turns, nofun⟩

/-- the finder of the examples, with a progress bar -/
def loudFinder : Finder Unit ℚ := { exFinder with verbose := true }

/-- **C129** is false: an interrupted search whose row stays visible, with the text "getting roots..." -/
theorem C129_counterexample : ∃ fd : Finder Unit ℚ, fd.verbose = true ∧ (fd.calculateRoots (0, 4) (0, 2) none (some 5)).warned = true ∧
    ∃ bar t, fd.shownBar (0, 4) (0, 2) none (some 5) = some bar ∧ OneRow bar t ∧ t.visible = true ∧ t.stopped = false ∧ t.text = .working := by
  have hw : (loudFinder.calculateRoots (0, 4) (0, 2) none (some 5)).warned = true := Bool.eq_true_of_not_eq_false (by decide +kernel)
  exact ⟨loudFinder, rfl, hw, C129_stays_visible loudFinder rfl _ _ _ _ hw⟩

/-- **C39** for the Newton grid: a search with a progress bar that has run to its end says "search finished!" at 0 percent (the guard
`context.progress and context.task` is false: the `TaskID` is 0). -/
theorem C39_grid_counterexample (fd : Finder σ K) (hv : fd.verbose = true) (nt : NewtonSolver K) (n : ℕ) (re im : K × K) (p : Option (ℤ × ℤ))
    (ha : fd.algorithm = newtonGrid nt n (taskTruthy (openBar (fd.barTotal re im p)).1)) :
    (fd.calculateRoots re im p none).outcome = .ok () ∧
    ∃ bar t, fd.shownBar re im p none = some bar ∧ OneRow bar t ∧ t.text = .finished ∧ t.completed = 0 ∧ 0 < t.total := by
  have ht : taskTruthy (openBar (fd.barTotal re im p)).1 = false := rfl
  rw [ht] at ha
  have hrun : (fd.algorithmRun re im p none).1 = .ok () ∧ (fd.algorithmRun re im p none).2.advances = [] := by
    unfold Finder.algorithmRun
    rw [ha]
    dsimp only
    unfold newtonGrid
    dsimp only
    generalize nt.grid _ _ _ = g
    rcases g with _ | roots
    · exact ⟨rfl, rfl⟩
    · dsimp only
      rw [Py.bind_run, World.addRoots_none _ rfl]
      exact ⟨rfl, rfl⟩
  have hpos : 0 < fd.barTotal re im p := by
    have q1 := eps10_pos (K := K) (searchPrecision p fd.precision).1
    have q2 := eps10_pos (K := K) (searchPrecision p fd.precision).2
    have m1 := min_le_max (a := re.1) (b := re.2)
    have m2 := min_le_max (a := im.1) (b := im.2)
    unfold Finder.barTotal desymmetrizeDomain
    dsimp only
    exact mul_pos (by linarith) (by linarith)
  obtain ⟨h1, h2⟩ := hrun
  constructor
  · have h1' : (fd.algorithm (fd.ctx re im p) (fd.start none)).1 = .ok () := h1
    unfold Finder.calculateRoots
    dsimp only
    have : fd.algorithm { f := fd.f, df := fd.df, precision := searchPrecision p fd.precision, reRan := (desymmetrizeDomain re im (searchPrecision p fd.precision)).1, imRan := (desymmetrizeDomain re im (searchPrecision p fd.precision)).2, progress := fd.verbose } { cache := fd.cache, est := fd.est, added := [], advances := [], fuse := none, log := [] } = fd.algorithm (fd.ctx re im p) (fd.start none) := rfl
    rw [this]
    generalize fd.algorithm _ _ = r at h1'
    rcases r with ⟨e | x, w⟩
    · cases h1'
    · rfl
  · unfold Finder.shownBar
    rw [if_pos hv, h1, h2]
    unfold serialBar
    dsimp only
    rw [serial_rows]
    exact ⟨_, _, rfl, ⟨0, rfl⟩, rfl, by simp, hpos⟩

/-! ### The hypotheses are met -/

/-- a finder with a progress bar and the summation estimator … -/
def barFinder : Finder (SumState ℚ) ℚ := { onceFinder with verbose := true }
example : ShippedAlgorithm barFinder.algorithm := .simple _ _ _ (.summation _)
/-- … the updates of a search with one zero, of a search interrupted after 30 effects, of a parallel search -/
example : (barFinder.calculateRoots (-3, 3) (-3, 3) none none).bar.map (fun b => (b.total, b.advances)) =
    some (117, [117 / 8, 117 / 16, 117 / 128, 0, 117 / 256, 117 / 64, 117 / 32, 117 / 4, 117 / 2]) := by decide +kernel
example : (barFinder.calculateRoots (-3, 3) (-3, 3) none (some 30)).bar.map (fun b => (b.total, b.advances)) =
    some (117, [117 / 8, 117 / 16]) := by decide +kernel
example : barFinder.parallelAdvances 2 (-3, 3) (-3, 3) none [1, 0, 1] false =
    [117 / 4, 117 / 8, 117 / 4, 117 / 16, 117 / 128, 0, 117 / 256, 117 / 64, 117 / 32, 117 / 4] := by decide +kernel
example : barFinder.parallelAdvances 2 (-3, 3) (-3, 3) none [1, 0, 1] true = [117 / 4, 117 / 8, 117 / 4] := by decide +kernel
/-- non-vacuity of `C129_updates` -/
example := C129_updates barFinder 2 (-3, 3) (-3, 3) none _ (.inr ⟨rfl, rfl⟩) [1, 0, 1] true _ rfl _ rfl
/-- the bars of these searches -/
example : (barFinder.shownBar (-3, 3) (-3, 3) none none).map ProgressBar.tasks =
    some [(0, ⟨117, 117 * (1 - 1 / 256), .finished, true, false⟩)] := by decide +kernel
example : (barFinder.shownBarParallel 2 (-3, 3) (-3, 3) none ⟨[], true, 0⟩ [1, 0, 1]).map ProgressBar.tasks =
    some [(0, ⟨117, 117 * (5 / 8), .working, true, false⟩)] := by decide +kernel
/-- the Newton grid -/
def gridBar : Finder Unit ℚ := { gridFinder with verbose := true }
example : gridBar.algorithm = newtonGrid stepSolver 2 (taskTruthy (openBar (gridBar.barTotal (0, 4) (0, 2) none)).1) := rfl

end PyZeal.Props
