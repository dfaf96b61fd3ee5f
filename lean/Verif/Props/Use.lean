import Verif.Spec.Use
import Verif.Proof.Container
import Verif.Proof.Finder
import Verif.Props.Finder

/-! # Property C103: reading the results of a finder -/

set_option linter.unusedSectionVars false

namespace PyZeal.Props
open Spec
variable {σ K : Type} [Field K] [LinearOrder K] [IsStrictOrderedRing K] [FloorRing K]

/-- **C103.** Reading `roots` and `orders` of a finder, in either order, gives two lists of the same length; paired, they are exactly what the container
holds, each entry as often as it is held; and nothing held is lost by reading. -/
theorem C103_reports (it : RContainer K → List (Root K)) (hit : ∀ c, (it c).Perm c.rootSet) (fd : Finder σ K) :
    let roots := fd.roots it
    let orders := roots.2.orders it
    let orders' := fd.orders it
    let roots' := orders'.2.roots it
    roots.1.length = orders.1.length ∧ (roots.1.zip orders.1).Perm (held fd.container) ∧
    roots'.1 = roots.1 ∧ orders'.1 = orders.1 ∧
    held orders.2.container = held fd.container ∧ held roots'.2.container = held fd.container := by
  obtain ⟨f, df, alg, p, v, i, c, ca, e⟩ := fd
  rcases c with c | c
  · have e : ∀ l : List (Root K), (l.map Prod.fst).zip (l.map Prod.snd) = l := by
      intro l; rw [List.zip_map']; simp
    refine ⟨?_, ?_, rfl, rfl, rfl, rfl⟩
    · change ((it c).map _).length = ((it c).map _).length
      simp
    · change (((it c).map _).zip ((it c).map _)).Perm c.rootSet
      rw [e]; exact hit c
  · have e : ∀ l : List (Root K), (l.map Prod.fst).zip (l.map Prod.snd) = l := by
      intro l; rw [List.zip_map']; simp
    simp only [Finder.roots, Finder.orders, AnyContainer.getRoots, AnyContainer.getRootOrders, PContainer.getRoots, PContainer.getRootOrders,
      PContainer.transfer_eq, held, List.append_nil, List.length_map, e, and_true, true_and]
    exact List.Perm.refl _

/-- the same container, up to what of a plain container's buffer has been collected already -/
inductive SameHeld : AnyContainer K → AnyContainer K → Prop
  | rounding (c) : SameHeld (.rounding c) (.rounding c)
  | plain (c c' : PContainer K) (h : c.roots ++ c.queue = c'.roots ++ c'.queue) : SameHeld (.plain c) (.plain c')

theorem SameHeld.held {c c' : AnyContainer K} (h : SameHeld c c') : Spec.held c = Spec.held c' := by
  cases h with
  | rounding => rfl
  | plain c c' h => exact h

theorem SameHeld.symm {c c' : AnyContainer K} (h : SameHeld c c') : SameHeld c' c := by
  cases h with
  | rounding c => exact .rounding c
  | plain c c' h => exact .plain _ _ h.symm

theorem SameHeld.trans {a b c : AnyContainer K} (h : SameHeld a b) (h' : SameHeld b c) : SameHeld a c := by
  cases h with
  | rounding c => exact h'
  | plain c c' h => cases h' with | plain _ _ h' => exact .plain _ _ (h.trans h')

theorem SameHeld.addRoot {c c' : AnyContainer K} (h : SameHeld c c') (info : Bool) (r : Root K) (ctx : FilterCtx K) :
    SameHeld (c.addRoot info r ctx) (c'.addRoot info r ctx) := by
  cases h with
  | rounding => exact .rounding _
  | plain c c' h =>
    refine .plain _ _ ?_
    simp only [PContainer.addRoot, ← List.append_assoc, h]

theorem SameHeld.addRoots (info : Bool) (ctx : FilterCtx K) (rs : List (Root K)) : ∀ {c c' : AnyContainer K}, SameHeld c c' →
    SameHeld (c.addRoots info ctx rs) (c'.addRoots info ctx rs) := by
  induction rs with
  | nil => exact fun h => h
  | cons r rs ih => exact fun h => ih (h.addRoot info r ctx)

/-- the same finder, up to the same -/
def SameFinder (fd fd' : Finder σ K) : Prop := fd' = { fd with container := fd'.container } ∧ SameHeld fd.container fd'.container

theorem SameFinder.step {fd fd' : Finder σ K} (h : SameFinder fd fd') (it : RContainer K → List (Root K)) (op : FinderOp K) :
    (useStep it fd op).1 = (useStep it fd' op).1 ∧ SameFinder (useStep it fd op).2 (useStep it fd' op).2 := by
  obtain ⟨f, df, alg, p, v, i, c, ca, e⟩ := fd
  obtain ⟨f', df', alg', p', v', i', c', ca', e'⟩ := fd'
  obtain ⟨h1, h2⟩ := h
  dsimp only at h1 h2
  injection h1 with a1 a2 a3 a4 a5 a6 a7 a8 a9
  subst a1 a2 a3 a4 a5 a6 a8 a9
  cases op with
  | search re im q n =>
    simp only [useStep, Finder.calculateRoots]
    split <;> exact ⟨rfl, rfl, h2.addRoots _ _ _⟩
  | searchParallel cpus re im q sched =>
    simp only [useStep, Finder.calculateRootsParallel]
    have e : runPiece (⟨f', df', alg', p', v', i', c, ca', e'⟩ : Finder σ K) = runPiece (⟨f', df', alg', p', v', i', c', ca', e'⟩ : Finder σ K) := rfl
    rw [e]
    split
    · exact ⟨rfl, rfl, h2.addRoots _ _ _⟩
    · exact ⟨rfl, rfl, h2⟩
  | setFilter t n =>
    cases h2 with
    | rounding c => exact ⟨rfl, rfl, .rounding _⟩
    | plain c c' h => exact ⟨rfl, rfl, .plain _ _ h⟩
  | roots =>
    cases h2 with
    | rounding c => exact ⟨rfl, rfl, .rounding _⟩
    | plain c c' h =>
      refine ⟨?_, rfl, ?_⟩
      · simp only [useStep, Finder.roots, AnyContainer.getRoots, PContainer.getRoots, PContainer.transfer_eq, h]
      · refine .plain _ _ ?_
        simp only [PContainer.getRoots, PContainer.transfer_eq, h]
  | orders =>
    cases h2 with
    | rounding c => exact ⟨rfl, rfl, .rounding _⟩
    | plain c c' h =>
      refine ⟨?_, rfl, ?_⟩
      · simp only [useStep, Finder.orders, AnyContainer.getRootOrders, PContainer.getRootOrders, PContainer.transfer_eq, h]
      · refine .plain _ _ ?_
        simp only [PContainer.getRootOrders, PContainer.transfer_eq, h]

theorem SameFinder.refl (fd : Finder σ K) : SameFinder fd fd := by
  refine ⟨rfl, ?_⟩
  rcases fd.container with c | c
  · exact .rounding c
  · exact .plain c c rfl

theorem SameFinder.trans {a b c : Finder σ K} (h : SameFinder a b) (h' : SameFinder b c) : SameFinder a c := by
  obtain ⟨h1, h2⟩ := h
  obtain ⟨h3, h4⟩ := h'
  exact ⟨by rw [h3, h1], h2.trans h4⟩

theorem SameFinder.read (it : RContainer K → List (Root K)) (fd : Finder σ K) (op : FinderOp K) (h : op.reads = true) :
    SameFinder fd (useStep it fd op).2 := by
  obtain ⟨f, df, alg, p, v, i, c, ca, e⟩ := fd
  cases op with
  | search => cases h
  | searchParallel => cases h
  | setFilter => cases h
  | roots =>
    refine ⟨rfl, ?_⟩
    rcases c with c | c
    · exact .rounding c
    · refine .plain _ _ ?_
      simp only [PContainer.getRoots, PContainer.transfer_eq, List.append_nil]
  | orders =>
    refine ⟨rfl, ?_⟩
    rcases c with c | c
    · exact .rounding c
    · refine .plain _ _ ?_
      simp only [PContainer.getRootOrders, PContainer.transfer_eq, List.append_nil]

theorem use_without_reads (it : RContainer K → List (Root K)) (ops : List (FinderOp K)) : ∀ fd fd' : Finder σ K, SameFinder fd fd' →
    (useFinder it fd ops).1.filter (fun e => !e.1.reads) = (useFinder it fd' (ops.filter fun op => !op.reads)).1 ∧
    SameFinder (useFinder it fd ops).2 (useFinder it fd' (ops.filter fun op => !op.reads)).2 := by
  induction ops with
  | nil => exact fun fd fd' h => ⟨rfl, h⟩
  | cons op ops ih =>
    intro fd fd' h
    by_cases hr : op.reads = true
    · have e1 : (op :: ops).filter (fun op => !op.reads) = ops.filter fun op => !op.reads := List.filter_cons_of_neg (by simp [hr])
      rw [e1]
      have hs : SameFinder (useStep it fd op).2 fd' := by
        obtain ⟨h1, h2⟩ := SameFinder.read it fd op hr
        obtain ⟨h3, h4⟩ := h
        exact ⟨by rw [h3, h1], h2.symm.trans h4⟩
      obtain ⟨i1, i2⟩ := ih _ _ hs
      refine ⟨?_, i2⟩
      rw [← i1]
      exact List.filter_cons_of_neg (by simp [hr])
    · have e1 : (op :: ops).filter (fun op => !op.reads) = op :: ops.filter fun op => !op.reads := List.filter_cons_of_pos (by simp [hr])
      rw [e1]
      obtain ⟨s1, s2⟩ := h.step it op
      obtain ⟨i1, i2⟩ := ih _ _ s2
      refine ⟨?_, i2⟩
      change ((op, (useStep it fd op).1) :: (useFinder it (useStep it fd op).2 ops).1).filter _ = (op, (useStep it fd' op).1) :: _
      rw [List.filter_cons_of_pos (by simp [hr]), i1, s1]

/-- **C103.** Reading results is free of side effects that matter: in any program that searches, sets filters and reads results of a finder in any order,
leaving out all readings changes neither what is seen of the other operations nor what the finder holds at the end, nor what is read from it then. -/
theorem C103_reading_harmless (it : RContainer K → List (Root K)) (fd : Finder σ K) (ops : List (FinderOp K)) :
    let without := ops.filter fun op => !op.reads
    (useFinder it fd ops).1.filter (fun e => !e.1.reads) = (useFinder it fd without).1 ∧
    held (useFinder it fd ops).2.container = held (useFinder it fd without).2.container ∧
    ((useFinder it fd ops).2.roots it).1 = ((useFinder it fd without).2.roots it).1 ∧
    ((useFinder it fd ops).2.orders it).1 = ((useFinder it fd without).2.orders it).1 := by
  obtain ⟨h1, h2⟩ := use_without_reads it ops fd fd (SameFinder.refl fd)
  refine ⟨h1, h2.2.held, ?_, ?_⟩
  · have := (h2.step it .roots).1
    injection this
  · have := (h2.step it .orders).1
    injection this

/-- **C103.** What a program reads twice without searching in between (filters may be set) it reads the same. -/
theorem C103_stable (it : RContainer K → List (Root K)) (hit : ∀ c c' : RContainer K, c.rootSet = c'.rootSet → it c = it c') (fd : Finder σ K)
    (ops : List (FinderOp K)) (h : ∀ op ∈ ops, op.reads = true ∨ ∃ t n, op = .setFilter t n) :
    ((useFinder it fd ops).2.roots it).1 = (fd.roots it).1 ∧ ((useFinder it fd ops).2.orders it).1 = (fd.orders it).1 := by
  induction ops generalizing fd with
  | nil => exact ⟨rfl, rfl⟩
  | cons op ops ih =>
    obtain ⟨i1, i2⟩ := ih (useStep it fd op).2 (fun o ho => h o (List.mem_cons_of_mem _ ho))
    refine ⟨i1.trans ?_, i2.trans ?_⟩
    · rcases h op (List.mem_cons_self ..) with hr | ⟨t, n, rfl⟩
      · have := ((SameFinder.read it fd op hr).step it .roots).1
        injection this with this
        exact this.symm
      · obtain ⟨f, df, alg, p, v, i, c, ca, e⟩ := fd
        rcases c with c | c
        · change (it _).map _ = (it c).map _
          rw [hit _ c]
          rfl
        · rfl
    · rcases h op (List.mem_cons_self ..) with hr | ⟨t, n, rfl⟩
      · have := ((SameFinder.read it fd op hr).step it .orders).1
        injection this with this
        exact this.symm
      · obtain ⟨f, df, alg, p, v, i, c, ca, e⟩ := fd
        rcases c with c | c
        · change (it _).map _ = (it c).map _
          rw [hit _ c]
          rfl
        · rfl

theorem mem_reported (it : RContainer K → List (Root K)) (hit : ∀ c, (it c).Perm c.rootSet) (fd : Finder σ K) (r : Root K) :
    r ∈ (fd.roots it).1.zip ((fd.roots it).2.orders it).1 ↔ r ∈ held fd.container :=
  (C103_reports it hit fd).2.1.mem_iff

/-- **C103** with C50: what a user reads after a search. Under the hypotheses of C50, pairing `finder.roots` with `finder.orders`, every zero in the requested
rectangle has an entry of positive order closer than `10^-(p+1)` in each coordinate, and every entry that was not there before is the rounding of an exact zero (order 0) or close to a zero and to the rectangle. -/
theorem C103_read_after_search (it : RContainer K → List (Root K)) (hit : ∀ c, (it c).Perm c.rootSet) (fd : Finder σ K) (est : LineEst σ K) (pi : K) (hpi : 0 < pi)
    (limit : ℕ) (halg : fd.algorithm = simpleArgument est pi limit) (hcont : RoundsFreely fd.container) (re im : K × K)
    (call : Option (ℤ × ℤ)) (p : ℤ × ℤ) (hp : Asked call fd.precision p) (interrupt : Option ℕ)
    (zeros : List (Cx K)) (L : ℤ → Cx K → Cx K → Cx K)
    (hest : GoodEstimator est fd.f fd.df (p.1 + 1, p.2 + 1)
      (Enlarged (4 * 10 ^ (-(p.1 + 1)), 4 * 10 ^ (-(p.2 + 1))) re im) pi zeros L) :
    let s := fd.calculateRoots re im call interrupt
    let before := (fd.roots it).1.zip ((fd.roots it).2.orders it).1
    let after := (s.finder.roots it).1.zip ((s.finder.roots it).2.orders it).1
    s.outcome = .ok () → s.warned = false →
    (∀ z ∈ zeros, Requested re im z → ∃ r ∈ after, 1 ≤ r.2 ∧ Near (10 ^ (-(p.1 + 1)), 10 ^ (-(p.2 + 1))) z r.1) ∧
    ∀ r ∈ after, r ∈ before ∨
      (r.2 = 0 ∧ ∃ z, fd.f z = 0 ∧ RoundsTo (p.1 + 1, p.2 + 1) z r.1) ∨
      (1 ≤ r.2 ∧ RequestedWithin (5 * 10 ^ (-(p.1 + 1)), 5 * 10 ^ (-(p.2 + 1))) re im r.1 ∧
        ∃ z ∈ zeros, Near (10 ^ (-(p.1 + 1)), 10 ^ (-(p.2 + 1))) z r.1) := by
  intro s before after h1 h2
  obtain ⟨a, b⟩ := C50_serial fd est pi hpi limit halg hcont re im call p hp interrupt zeros L hest h1 h2
  refine ⟨fun z hz hr => ?_, fun r hr => ?_⟩
  · obtain ⟨r, hr, h⟩ := a z hz hr
    exact ⟨r, (mem_reported it hit s.finder r).2 hr, h⟩
  · rcases b r ((mem_reported it hit s.finder r).1 hr) with h | h
    · exact .inl ((mem_reported it hit fd r).2 h)
    · exact .inr h

/-! ## Examples -/

/-- a finder whose algorithm always finds the number 0.3 + 0.3i, with order 2 -/
def useExample (c : AnyContainer ℚ) : Finder Unit ℚ where
  f := fun z => z
  df := none
  algorithm := fun _ w => (.ok (), { w with added := w.added ++ [(⟨3 / 10, 3 / 10⟩, 2)] })
  precision := (3, 3)
  verbose := false
  info := false
  container := c
  cache := EstCache.init false
  est := ()

/-- the lists a program reads -/
def readings : List (FinderOp ℚ × FinderOut ℚ) → List (List (Cx ℚ) × List ℤ)
  | [] => []
  | (_, .roots l) :: rest => (l, []) :: readings rest
  | (_, .orders l) :: rest => ([], l) :: readings rest
  | _ :: rest => readings rest

/-- search, read, search, read, with a plain container: the readings between the searches lose nothing -/
example : readings (useFinder (fun c => c.rootSet) (useExample (.plain ⟨[], []⟩))
      [.search (0, 1) (0, 1) none none, .orders, .roots, .search (0, 1) (0, 1) none none, .roots, .orders]).1 =
    [([], [2]), ([⟨3 / 10, 3 / 10⟩], []), ([⟨3 / 10, 3 / 10⟩, ⟨3 / 10, 3 / 10⟩], []), ([], [2, 2])] := by decide +kernel

/-- the same with a rounding container, which holds the root once; iterated from the last element to the first -/
example : readings (useFinder (fun c => c.rootSet.reverse) (useExample (.rounding ⟨(3, 3), [], []⟩))
      [.search (0, 1) (0, 1) none none, .roots, .orders, .setFilter .zeroInBounds 3, .search (0, 1) (0, 1) none none, .roots, .orders]).1 =
    [([⟨3 / 10, 3 / 10⟩], []), ([], [2]), ([⟨3 / 10, 3 / 10⟩], []), ([], [2])] := by decide +kernel

/-- the hypotheses of `C103_read_after_search` are met -/
example : let s := exFinder.calculateRoots (4, 0) (0, 2) none none
    ∃ r ∈ (s.finder.roots fun c => c.rootSet.reverse).1.zip ((s.finder.roots fun c => c.rootSet.reverse).2.orders fun c => c.rootSet.reverse).1, 1 ≤ r.2 ∧
      Near ((10 : ℚ) ^ (-((0 : ℤ) + 1)), (10 : ℚ) ^ (-((0 : ℤ) + 1))) (⟨13 / 4, 5 / 4⟩ : Cx ℚ) r.1 :=
  (C103_read_after_search (fun c => c.rootSet.reverse) (fun _ => List.reverse_perm _) exFinder (crossEst exPi exZeros) exPi (by unfold exPi; norm_num) 20 rfl rfl
    (4, 0) (0, 2) none (0, 0) (.inr ⟨rfl, rfl⟩) none exZeros _ (exFinder_good _ _) (by decide +kernel) (by decide +kernel)).1
    ⟨13 / 4, 5 / 4⟩ (by decide +kernel) (by unfold Requested; decide +kernel)

/-- the hypotheses on the iteration order -/
example : (∀ c : RContainer ℚ, (c.rootSet.reverse).Perm c.rootSet) ∧ ∀ c c' : RContainer ℚ, c.rootSet = c'.rootSet → c.rootSet.reverse = c'.rootSet.reverse :=
  ⟨fun _ => List.reverse_perm _, fun _ _ h => by rw [h]⟩

end PyZeal.Props
