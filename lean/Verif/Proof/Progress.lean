import Verif.Spec.Progress
import Verif.Proof.Interrupt
import Verif.Proof.Variants
import Verif.Proof.Finder
import Verif.Proof.Jobs

/-! # Updates of the progress bar -/

set_option linter.unusedSectionVars false

namespace PyZeal
open Spec
variable {K : Type} {σ α β : Type} [Field K] [LinearOrder K] [IsStrictOrderedRing K] [FloorRing K]

/-- whatever happens, the updates are not negative and at most `A` together -/
def AdvLe (m : Py (World σ K) α) (A : K) : Prop :=
  ∀ w, ∃ adv, (m w).2.advances = w.advances ++ adv ∧ (∀ a ∈ adv, 0 ≤ a) ∧ adv.sum ≤ A

theorem AdvLe.bind {m : Py (World σ K) α} {k : α → Py (World σ K) β} {A B : K} (hm : AdvLe m A) (hB : 0 ≤ B)
    (hk : ∀ a, AdvLe (k a) B) : AdvLe (m >>= k) (A + B) := by
  intro w
  rw [Py.bind_run]
  obtain ⟨u, h1, h2, h3⟩ := hm w
  rcases hmw : m w with ⟨_ | a, w1⟩ <;> rw [hmw] at h1
  · exact ⟨u, h1, h2, by linarith⟩
  · obtain ⟨v, g1, g2, g3⟩ := hk a w1
    refine ⟨u ++ v, ?_, ?_, ?_⟩
    · dsimp only at h1 ⊢; rw [g1, h1, List.append_assoc]
    · intro x hx
      rcases List.mem_append.1 hx with hx | hx
      · exact h2 x hx
      · exact g2 x hx
    · rw [List.sum_append]; linarith

theorem AdvLe.mono {m : Py (World σ K) α} {A B : K} (hm : AdvLe m A) (h : A ≤ B) : AdvLe m B := by
  intro w
  obtain ⟨u, h1, h2, h3⟩ := hm w
  exact ⟨u, h1, h2, h3.trans h⟩

theorem AdvLe.of_keep {m : Py (World σ K) α} (h : ∀ w, (m w).2.advances = w.advances) : AdvLe m 0 :=
  fun w => ⟨[], by simp [h w], by simp, by simp⟩

theorem AdvLe.seq {m : Py (World σ K) α} {k : α → Py (World σ K) β} {B : K} (hm : AdvLe m 0) (hB : 0 ≤ B)
    (hk : ∀ a, AdvLe (k a) B) : AdvLe (m >>= k) B := (hm.bind hB hk).mono (by linarith)

theorem AdvLe.hits {f : Cx K → Cx K} {m : Py (World σ K) α} (h : OnlyHits f m) : AdvLe m 0 := .of_keep fun w => (h w).1

theorem AdvLe.tick : AdvLe (World.tick : Py (World σ K) Unit) 0 := AdvLe.hits (f := fun _ => 0) OnlyHits.tick

theorem AdvLe.addRoot (r : Root K) : AdvLe (World.addRoot r : Py (World σ K) Unit) 0 :=
  AdvLe.tick.seq le_rfl fun _ => .of_keep fun _ => rfl

theorem AdvLe.addRoots (rs : List (Root K)) : AdvLe (World.addRoots rs : Py (World σ K) Unit) 0 := by
  induction rs with
  | nil => exact .of_keep fun _ => rfl
  | cons r rs ih => exact (AdvLe.addRoot r).seq le_rfl fun _ => ih

theorem AdvLe.advance (ctx : RCtx K) {a : K} (ha : 0 ≤ a) : AdvLe (World.advance ctx a : Py (World σ K) Unit) a := by
  unfold World.advance
  split
  · refine AdvLe.tick.seq ha fun _ w => ?_
    exact ⟨[a], rfl, by simpa using ha, by simp⟩
  · exact fun w => ⟨[], by simp, by simp, by simpa using ha⟩

theorem AdvLe.phaseOf {est : LineEst σ K} {ctx : RCtx K} (hest : BoundaryHits est ctx) (re im : K × K) : AdvLe (phaseOf est re im ctx) 0 := by
  unfold PyZeal.phaseOf
  exact (AdvLe.hits (calcMoment_hits hest 0 re im)).seq le_rfl fun _ => AdvLe.seq (.of_keep fun _ => rfl) le_rfl fun _ => .of_keep fun _ => rfl

theorem AdvLe.cacheRemove (a b : Cx K) : AdvLe (cacheRemove a b : Py (World σ K) Unit) 0 := .of_keep fun _ => rfl

/-- a decision about a rectangle makes updates up to the area of the rectangle -/
def DecideLe (d : Decide σ K) (ctx : RCtx K) : Prop :=
  ∀ re im phi, re.1 ≤ re.2 → im.1 ≤ im.2 → AdvLe (d re im phi ctx) ((re.2 - re.1) * (im.2 - im.1))

theorem AdvLe.getRoot (pi right left top bottom phi : K) (ctx : RCtx K) {A : K} (hA : 0 ≤ A) :
    AdvLe (getRootFromRectangle pi right left top bottom phi ctx : Py (World σ K) Unit) A := by
  unfold getRootFromRectangle
  refine ((AdvLe.addRoot _).seq le_rfl fun _ => ?_).mono hA
  have := AdvLe.advance (σ := σ) ctx (a := (right - left) * (0 - 0)) (by simp)
  exact this.mono (by simp)

theorem DecideLe.simple {est : LineEst σ K} {ctx : RCtx K} (hest : BoundaryHits est ctx) (pi : K) {self : Decide σ K}
    (hself : DecideLe self ctx) : DecideLe (simpleDecide est pi self) ctx := by
  intro re im phi hre him
  have hA : 0 ≤ (re.2 - re.1) * (im.2 - im.1) := mul_nonneg (by linarith) (by linarith)
  have split : ∀ {r1 i1 r2 i2 : K × K}, r1.1 ≤ r1.2 → i1.1 ≤ i1.2 → r2.1 ≤ r2.2 → i2.1 ≤ i2.2 →
      (r1.2 - r1.1) * (i1.2 - i1.1) + (r2.2 - r2.1) * (i2.2 - i2.1) = (re.2 - re.1) * (im.2 - im.1) → ∀ e1 e2 : Cx K × Cx K,
      AdvLe (do
        let phi1 ← phaseOf est r1 i1 ctx
        self r1 i1 phi1 ctx
        PyZeal.cacheRemove e1.1 e1.2
        let phi2 ← phaseOf est r2 i2 ctx
        self r2 i2 phi2 ctx
        PyZeal.cacheRemove e2.1 e2.2) ((re.2 - re.1) * (im.2 - im.1)) := by
    intro r1 i1 r2 i2 h1 h2 h3 h4 hs e1 e2
    have p2 : 0 ≤ (r2.2 - r2.1) * (i2.2 - i2.1) := mul_nonneg (by linarith) (by linarith)
    refine (AdvLe.phaseOf hest r1 i1).seq hA fun phi1 => ?_
    rw [← hs]
    refine (hself r1 i1 phi1 h1 h2).bind p2 fun _ => (AdvLe.cacheRemove _ _).seq p2 fun _ => ?_
    refine (AdvLe.phaseOf hest r2 i2).seq p2 fun phi2 => ?_
    have := (hself r2 i2 phi2 h3 h4).bind le_rfl fun _ => AdvLe.cacheRemove (σ := σ) e2.1 e2.2
    rwa [add_zero] at this
  unfold simpleDecide
  dsimp only
  split_ifs
  · exact AdvLe.advance ctx hA
  · exact AdvLe.getRoot _ _ _ _ _ _ _ hA
  · exact split (r1 := (re.1, (re.1 + re.2) / 2)) (i1 := im) (r2 := ((re.1 + re.2) / 2, re.2)) (i2 := im) (by dsimp only; linarith) him
      (by dsimp only; linarith) him (by dsimp only; ring) (⟨re.1, im.2⟩, ⟨re.1, im.1⟩) (⟨re.2, im.1⟩, ⟨re.2, im.2⟩)
  · exact split (r1 := re) (i1 := (im.1, (im.1 + im.2) / 2)) (r2 := re) (i2 := ((im.1 + im.2) / 2, im.2)) hre (by dsimp only; linarith)
      hre (by dsimp only; linarith) (by dsimp only; ring) (⟨re.1, im.1⟩, ⟨re.2, im.1⟩) (⟨re.2, im.2⟩, ⟨re.1, im.2⟩)

theorem AdvLe.orRuntimeError (o : Option α) : AdvLe (PyZeal.orRuntimeError o : Py (World σ K) α) 0 := by
  cases o <;> exact .of_keep fun _ => rfl

theorem AdvLe.newtonBlock (nt : NewtonSolver K) (re im : K × K) (ctx : RCtx K) : AdvLe (newtonBlock nt re im ctx : Py (World σ K) Unit) 0 := by
  unfold PyZeal.newtonBlock
  refine (AdvLe.orRuntimeError _).seq le_rfl fun z => (AdvLe.addRoot _).seq le_rfl fun _ => ?_
  split
  · exact .of_keep fun _ => rfl
  · exact (AdvLe.orRuntimeError _).seq le_rfl fun z => AdvLe.addRoot _

theorem AdvLe.exceptRuntimeError {m : Py (World σ K) Unit} {A : K} (hm : AdvLe m A) : AdvLe (Py.exceptRuntimeError m) A := by
  intro w
  obtain ⟨u, h1, h2, h3⟩ := hm w
  refine ⟨u, ?_, h2, h3⟩
  rw [← h1]
  unfold Py.exceptRuntimeError
  rcases m w with ⟨e | a, w'⟩
  · cases e <;> rfl
  · rfl

theorem AdvLe.tryFinally {m fin : Py (World σ K) Unit} {A : K} (hm : AdvLe m 0) (hf : AdvLe fin A) : AdvLe (Py.tryFinally m fin) A := by
  intro w
  obtain ⟨u, h1, h2, h3⟩ := hm w
  obtain ⟨v, g1, g2, g3⟩ := hf (m w).2
  refine ⟨u ++ v, ?_, ?_, by rw [List.sum_append]; linarith⟩
  · rw [← List.append_assoc, ← h1, ← g1]
    unfold Py.tryFinally
    rcases fin (m w).2 with ⟨e | a, w'⟩ <;> rfl
  · intro x hx
    rcases List.mem_append.1 hx with hx | hx
    · exact h2 x hx
    · exact g2 x hx

theorem DecideLe.newton (nt : NewtonSolver K) {est : LineEst σ K} {ctx : RCtx K} (hest : BoundaryHits est ctx) (pi : K) {self : Decide σ K}
    (hself : DecideLe self ctx) : DecideLe (newtonDecide nt est pi self) ctx := by
  intro re im phi hre him
  have hA : 0 ≤ (re.2 - re.1) * (im.2 - im.1) := mul_nonneg (by linarith) (by linarith)
  unfold newtonDecide
  dsimp only
  split_ifs
  · exact AdvLe.getRoot _ _ _ _ _ _ _ hA
  · exact (AdvLe.newtonBlock nt re im ctx).exceptRuntimeError.tryFinally (AdvLe.advance ctx hA)
  · exact DecideLe.simple hest pi hself re im phi hre him

theorem AdvLe.moments {est : LineEst σ K} {ctx : RCtx K} (hest : BoundaryHits est ctx) (pi : K) (re im : K × K) (os : List ℤ) :
    AdvLe (moments est pi re im ctx os) 0 := by
  induction os with
  | nil => exact .of_keep fun _ => rfl
  | cons o os ih =>
    exact (AdvLe.hits (calcMoment_hits hest o re im)).seq le_rfl fun _ => ih.seq le_rfl fun _ => .of_keep fun _ => rfl

theorem DecideLe.polynomial (polyRoots : List (Cx K) → List (Cx K)) {est : LineEst σ K} {ctx : RCtx K} (hest : BoundaryHits est ctx) (pi : K)
    {self : Decide σ K} (hself : DecideLe self ctx) : DecideLe (polynomialDecide polyRoots est pi self) ctx := by
  intro re im phi hre him
  have hA : 0 ≤ (re.2 - re.1) * (im.2 - im.1) := mul_nonneg (by linarith) (by linarith)
  unfold polynomialDecide
  split
  · exact (AdvLe.of_keep fun _ => rfl).mono hA
  · dsimp only
    split_ifs
    · exact AdvLe.getRoot _ _ _ _ _ _ _ hA
    · exact (AdvLe.moments hest pi re im _).seq hA fun ms => (AdvLe.addRoots _).seq hA fun _ => AdvLe.advance ctx hA
    · exact DecideLe.simple hest pi hself re im phi hre him

theorem AdvLe.calcRoots {est : LineEst σ K} {ctx : RCtx K} (hest : BoundaryHits est ctx) {body : Decide σ K → Decide σ K}
    (hbody : ∀ self, DecideLe self ctx → DecideLe (body self) ctx) (limit : ℕ) (hre : ctx.reRan.1 ≤ ctx.reRan.2) (him : ctx.imRan.1 ≤ ctx.imRan.2) :
    AdvLe (calcRoots est body limit ctx) ((ctx.reRan.2 - ctx.reRan.1) * (ctx.imRan.2 - ctx.imRan.1)) := by
  have hA : 0 ≤ (ctx.reRan.2 - ctx.reRan.1) * (ctx.imRan.2 - ctx.imRan.1) := mul_nonneg (by linarith) (by linarith)
  have hd : ∀ n, DecideLe (dispatch body n) ctx := by
    intro n
    induction n with
    | zero =>
      intro re im phi h1 h2
      exact (AdvLe.of_keep fun _ => rfl).mono (mul_nonneg (by linarith) (by linarith))
    | succ n ih => exact hbody _ ih
  unfold PyZeal.calcRoots
  refine AdvLe.seq (.of_keep fun w => ?_) hA fun _ => (AdvLe.phaseOf hest _ _).seq hA fun phi => hd limit _ _ phi hre him
  unfold resetCache
  rw [Py.modify_run]
  dsimp only
  split <;> rfl

theorem Spec.ShippedEstimator.hits {est : LineEst (SumState K) K} (h : ShippedEstimator est) (ctx : RCtx K) : BoundaryHits est ctx := by
  cases h with
  | summation cfg => exact sumLine_hits cfg ctx
  | quadrature cfg => exact quadLine_hits cfg ctx

theorem Spec.ShippedAlgorithm.advLe {alg : RCtx K → Py (World (SumState K) K) Unit} (h : ShippedAlgorithm alg) (ctx : RCtx K)
    (hre : ctx.reRan.1 ≤ ctx.reRan.2) (him : ctx.imRan.1 ≤ ctx.imRan.2) :
    AdvLe (alg ctx) ((ctx.reRan.2 - ctx.reRan.1) * (ctx.imRan.2 - ctx.imRan.1)) := by
  have hA : 0 ≤ (ctx.reRan.2 - ctx.reRan.1) * (ctx.imRan.2 - ctx.imRan.1) := mul_nonneg (by linarith) (by linarith)
  cases h with
  | simple est pi limit h => exact .calcRoots (h.hits ctx) (fun _ hs => .simple (h.hits ctx) pi hs) limit hre him
  | newton nt est pi limit h => exact .calcRoots (h.hits ctx) (fun _ hs => .newton nt (h.hits ctx) pi hs) limit hre him
  | polynomial pr est pi limit h => exact .calcRoots (h.hits ctx) (fun _ hs => .polynomial pr (h.hits ctx) pi hs) limit hre him
  | grid nt n t =>
    unfold newtonGrid
    split
    · exact (AdvLe.of_keep fun _ => rfl).mono hA
    · refine (AdvLe.addRoots _).seq hA fun _ => ?_
      split
      · exact AdvLe.advance ctx hA
      · exact (AdvLe.of_keep fun _ => rfl).mono hA

/-! ## Parallel searches -/

theorem AdvLe.runJobs {alg : RCtx K → Py (World σ K) Unit} {area : RCtx K → K} (jobs : List (RCtx K))
    (h : ∀ j ∈ jobs, 0 ≤ area j ∧ AdvLe (alg j) (area j)) : AdvLe (runJobs alg jobs) (jobs.map area).sum := by
  induction jobs with
  | nil => exact .of_keep fun _ => rfl
  | cons j js ih =>
    have := ih fun j hj => h j (by simp [hj])
    rw [List.map_cons, List.sum_cons]
    refine (h j (by simp)).2.bind (List.sum_nonneg fun x hx => ?_) fun _ => this
    obtain ⟨j', hj', rfl⟩ := List.mem_map.1 hx
    exact (h j' (by simp [hj'])).1

theorem sum_steps (g : ℕ → K) (n : ℕ) : ((List.range n).map fun i => g (i + 1) - g i).sum = g n - g 0 := by
  induction n with
  | zero => simp
  | succ n ih => rw [List.range_succ, List.map_append, List.sum_append, ih]; simp

/-- the jobs make up the whole rectangle -/
theorem jobs_area_sum (f : Cx K → Cx K) (df : Option (Cx K → Cx K)) {n : ℕ} (hn : 1 ≤ n) (re im : K × K) (p : ℤ × ℤ) (prog : Bool) :
    ((createRootJobs f df n re im p prog).map fun j => (j.reRan.2 - j.reRan.1) * (j.imRan.2 - j.imRan.1)).sum =
      (re.2 - re.1) * (im.2 - im.1) := by
  rw [createRootJobs_eq, List.map_flatMap, List.flatMap_def, List.sum_flatten, List.map_map]
  have h1 : ∀ i, ((fun l : List K => l.sum) ∘ fun i => List.map (fun j : RCtx K => (j.reRan.2 - j.reRan.1) * (j.imRan.2 - j.imRan.1))
      ((List.range n).map fun j => jobAt f df n re im p prog i j)) i = (node re n (i + 1) - node re n i) * (im.2 - im.1) := by
    intro i
    simp only [Function.comp, List.map_map]
    show ((List.range n).map fun j => (node re n (i + 1) - node re n i) * (node im n (j + 1) - node im n j)).sum = _
    rw [List.sum_map_mul_left, sum_steps, node_zero, node_last _ hn]
  rw [List.map_congr_left fun i _ => h1 i, List.sum_map_mul_right, sum_steps, node_zero, node_last _ hn]

/-! ## Readings -/

theorem readings_ok {total : K} {adv : List K} (h : ∀ a ∈ adv, 0 ≤ a) (hs : adv.sum ≤ total) :
    NeverBack adv ∧ NeverOver total adv ∧ ∀ x ∈ barReadings adv, 0 ≤ x := by
  have mono : ∀ (l : List K), (∀ a ∈ l, 0 ≤ a) → ∀ m n, m ≤ n → (l.take m).sum ≤ (l.take n).sum := by
    intro l hl m n hmn
    have : (l.take n) = l.take m ++ (l.take n).drop m := by
      conv_lhs => rw [← List.take_append_drop m (l.take n)]
      rw [List.take_take, min_eq_left hmn]
    rw [this, List.sum_append]
    have : 0 ≤ ((l.take n).drop m).sum := List.sum_nonneg fun x hx => hl x (List.mem_of_mem_take (List.mem_of_mem_drop hx))
    linarith
  refine ⟨?_, ?_, ?_⟩
  · unfold NeverBack barReadings
    rw [List.pairwise_map]
    refine List.pairwise_le_range.imp fun hab => mono adv h _ _ hab
  · intro x hx
    obtain ⟨n, _, rfl⟩ := List.mem_map.1 hx
    refine le_trans ?_ hs
    have := mono adv h n (max n adv.length) (le_max_left _ _)
    rwa [List.take_of_length_le (le_max_right n adv.length)] at this
  · intro x hx
    obtain ⟨n, _, rfl⟩ := List.mem_map.1 hx
    exact List.sum_nonneg fun x hx => h x (List.mem_of_mem_take hx)

/-! ## The rows of the bar -/

theorem serial_rows (total : K) (advances : List K) :
    advances.foldl (fun b a => b.advance (openBar total).1 a) (openBar total).2 =
      ⟨[(0, ⟨total, advances.sum, .working, true, false⟩)], 1, true⟩ := by
  have : ∀ (l : List K) (c : K), l.foldl (fun b a => b.advance 0 a) (⟨[(0, ⟨total, c, .working, true, false⟩)], 1, true⟩ : ProgressBar K) =
      ⟨[(0, ⟨total, c + l.sum, .working, true, false⟩)], 1, true⟩ := by
    intro l
    induction l with
    | nil => intro c; simp
    | cons a l ih =>
      intro c
      rw [List.foldl_cons]
      show l.foldl _ (⟨[(0, ⟨total, c + a, .working, true, false⟩)], 1, true⟩ : ProgressBar K) = _
      rw [ih, List.sum_cons, add_assoc]
  have h := this advances 0
  rw [zero_add] at h
  exact h

end PyZeal
