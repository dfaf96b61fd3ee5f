import Verif.Spec.Several
import Verif.Props.Disjoint

/-! # Programs with several finders: proofs -/

set_option linter.unusedSectionVars false

namespace PyZeal.Props
open Spec
variable {σ K : Type} [Field K] [LinearOrder K] [IsStrictOrderedRing K] [FloorRing K]

/-- the same finder up to the state of the algorithm object -/
def SameBut (fd fd' : Finder σ K) : Prop := fd' = { fd with cache := fd'.cache, est := fd'.est }

theorem SameBut.refl (fd : Finder σ K) : SameBut fd fd := rfl

theorem use_step_fields (it : RContainer K → List (Root K)) (fd : Finder σ K) (op : FinderOp K) :
    (useStep it fd op).2 = { fd with container := (useStep it fd op).2.container, cache := (useStep it fd op).2.cache, est := (useStep it fd op).2.est } := by
  cases op with
  | search re im q n =>
    unfold useStep Finder.calculateRoots
    dsimp only
    split <;> rfl
  | searchParallel cpus re im q sched =>
    unfold useStep Finder.calculateRootsParallel
    dsimp only
    split <;> rfl
  | setFilter t n => rfl
  | roots => rfl
  | orders => rfl

theorem use_step_algorithm (it : RContainer K → List (Root K)) (fd : Finder σ K) (op : FinderOp K) : (useStep it fd op).2.algorithm = fd.algorithm := by
  rw [use_step_fields]

/-! ## One step with the quadrature estimator -/

theorem jobs_local {S : Cx K → Prop} {alg : RCtx K → Py (World (SumState K) K) Unit} : ∀ (jobs : List (RCtx K)), (∀ ctx ∈ jobs, LocalK S (alg ctx)) → LocalK S (runJobs alg jobs)
  | [], _ => fun _ _ h => ⟨rfl, h⟩
  | ctx :: jobs, h => LocalK.bind (h ctx (by simp)) fun _ => jobs_local jobs fun c hc => h c (by simp [hc])

theorem mem_chunks {α : Type} {c : ℕ} : ∀ (n : ℕ) (l : List α) (piece : List α), piece ∈ chunks c n l → ∀ x ∈ piece, x ∈ l
  | 0, _, _, h => by cases h
  | n + 1, [], _, h => by cases h
  | n + 1, a :: l, piece, h => by
    intro x hx
    rcases List.mem_cons.1 h with rfl | h
    · exact List.mem_of_mem_take hx
    · exact List.mem_of_mem_drop (mem_chunks n _ piece h x hx)

theorem piece_same (fd : Finder (SumState K) K) (c : EstCache K) (e : SumState K) (jobs : List (RCtx K)) (h : ∀ ctx ∈ jobs, LocalK (fun _ => False) (fd.algorithm ctx)) :
    runPiece fd jobs = runPiece { fd with cache := c, est := e } jobs := by
  have := jobs_local jobs h (fd.start none) (Finder.start { fd with cache := c, est := e } none) ⟨fun _ _ _ _ h => h.elim, rfl, rfl, rfl, rfl⟩
  exact Prod.ext this.1 this.2.added

theorem quadrature_step (it : RContainer K → List (Root K)) (fd : Finder (SumState K) K) (halg : AlgorithmWith IsQuadrature fd.algorithm)
    (fd' : Finder (SumState K) K) (h : SameBut fd fd') (op : FinderOp K) :
    (useStep it fd op).1 = (useStep it fd' op).1 ∧ SameBut (useStep it fd op).2 (useStep it fd' op).2 := by
  rw [h]
  generalize fd'.cache = c
  generalize fd'.est = e
  clear h fd'
  cases op with
  | search re im q n =>
    obtain ⟨o1, o2⟩ := ctx_ordered fd re im q
    obtain ⟨a1, a2, a3, a4⟩ := same_search fd c e re im q n (quadrature_local halg (fd.ctx re im q) o1 o2) fun _ _ _ _ h => h.elim
    refine ⟨?_, ?_⟩
    · show FinderOut.searched _ _ _ = FinderOut.searched _ _ _
      rw [a1, a2, a3]
    · unfold SameBut
      have b := use_step_fields it fd (.search re im q n)
      have b' := use_step_fields it { fd with cache := c, est := e } (.search re im q n)
      rw [b', b]
      have a4' : (useStep it fd (.search re im q n)).2.container = (useStep it { fd with cache := c, est := e } (.search re im q n)).2.container := a4
      rw [a4']
  | searchParallel cpus re im q sched =>
    have hj : ∀ piece ∈ chunks cpus (createRootJobs fd.f fd.df cpus (fd.ctx re im q).reRan (fd.ctx re im q).imRan (searchPrecision q fd.precision) fd.verbose).length
        (createRootJobs fd.f fd.df cpus (fd.ctx re im q).reRan (fd.ctx re im q).imRan (searchPrecision q fd.precision) fd.verbose),
        runPiece fd piece = runPiece { fd with cache := c, est := e } piece := by
      intro piece hp
      refine piece_same fd c e piece fun ctx hctx => ?_
      obtain ⟨o1, o2⟩ := ctx_ordered fd re im q
      obtain ⟨i, hi, j, hj, rfl⟩ := mem_jobs.1 (mem_chunks _ _ piece hp ctx hctx)
      exact quadrature_local halg _ (node_mono o1 _ (by omega)) (node_mono o2 _ (by omega))
    have hm := List.map_congr_left hj
    unfold Finder.ctx at hm
    dsimp only at hm
    unfold useStep Finder.calculateRootsParallel
    dsimp only
    rw [hm]
    split <;> exact ⟨rfl, rfl⟩
  | setFilter t n => exact ⟨rfl, rfl⟩
  | roots => exact ⟨rfl, rfl⟩
  | orders => exact ⟨rfl, rfl⟩

/-! ## Memory -/

/-- nobody else refers to the container of finder `i`, nor, if `own`, to its algorithm object; the numbers below `na`, `nc` belong to registered objects -/
structure Apart (own : Prop) (na nc : ℕ) (m : Memory σ K) (i : ℕ) (h : Handle K) : Prop where
  there : m.finders[i]? = some h
  cont : nc ≤ h.container
  calg : own → na ≤ h.algorithm
  others : ∀ j h', j ≠ i → m.finders[j]? = some h' → h'.container ≠ h.container ∧ (own → h'.algorithm ≠ h.algorithm)
  la : h.algorithm < m.algorithms.length
  lc : h.container < m.containers.length

theorem place_length {α : Type} (l : List α) (g : Got α) : l.length ≤ (g.place l).2.length := by
  cases g <;> simp [Got.place]

theorem place_getElem {α : Type} (l : List α) (g : Got α) {n : ℕ} (hn : n < l.length) : (g.place l).2[n]? = l[n]? := by
  cases g with
  | new a => exact List.getElem?_append_left hn
  | shared k => rfl

theorem place_ne {α : Type} (l : List α) (g : Got α) {b n : ℕ} (hg : ∀ k, g = .shared k → k < b) (hb : b ≤ n) (hn : n < l.length) : (g.place l).1 ≠ n := by
  cases g with
  | new a => exact fun h => by have : l.length = n := h; omega
  | shared k => exact fun h => by have : k = n := h; have := hg k rfl; omega

/-- the container is not shared, the algorithm perhaps if it is registered -/
theorem Apart.make {own : Prop} {na nc : ℕ} {m : Memory σ K} {i : ℕ} {h : Handle K} (ha : Apart own na nc m i h) (r : Recipe σ K)
    (hr : Recipe.SharesBelow na nc r) : Apart own na nc (m.make r) i h ∧ (m.make r).finder? i = m.finder? i := by
  have hi : i < m.finders.length := (List.getElem?_eq_some_iff.1 ha.there).1
  have hfin : (m.make r).finders[i]? = m.finders[i]? := List.getElem?_append_left hi
  refine ⟨⟨hfin.trans ha.there, ha.cont, ha.calg, ?_, lt_of_lt_of_le ha.la (place_length _ _), lt_of_lt_of_le ha.lc (place_length _ _)⟩, ?_⟩
  · intro j h' hj hh
    rcases lt_or_ge j m.finders.length with hl | hl
    · exact ha.others j h' hj (by rw [← hh]; exact (List.getElem?_append_left hl).symm)
    · have hh' : (m.finders ++ [(⟨r.f, r.df, r.precision, r.verbose, r.info, (r.algorithm.place m.algorithms).1, (r.container.place m.containers).1⟩ : Handle K)])[j]? = some h' := hh
      rw [List.getElem?_append_right hl] at hh'
      obtain ⟨hx, hy⟩ := List.getElem?_eq_some_iff.1 hh'
      simp only [List.length_singleton, Nat.lt_one_iff] at hx
      simp only [hx, List.getElem_cons_zero] at hy
      rw [← hy]
      exact ⟨place_ne _ _ hr.2 ha.cont ha.lc, fun o => place_ne _ _ hr.1 (ha.calg o) ha.la⟩
  · unfold Memory.finder?
    rw [hfin, ha.there]
    have e1 : (m.make r).algorithms[h.algorithm]? = m.algorithms[h.algorithm]? := place_getElem _ _ ha.la
    have e2 : (m.make r).containers[h.container]? = m.containers[h.container]? := place_getElem _ _ ha.lc
    dsimp only
    rw [e1, e2]

theorem Apart.store {own : Prop} {na nc : ℕ} {m : Memory σ K} {i : ℕ} {h : Handle K} (ha : Apart own na nc m i h) (j : ℕ) (fd : Finder σ K) :
    Apart own na nc (m.store j fd) i h := by
  unfold Memory.store
  rcases m.finders[j]? with _ | h'
  · exact ha
  · exact ⟨ha.there, ha.cont, ha.calg, ha.others, by rw [List.length_set]; exact ha.la, by rw [List.length_set]; exact ha.lc⟩

/-- an operation on finder `i` changes it as it would change it alone -/
theorem Apart.store_own {own : Prop} {na nc : ℕ} {m : Memory σ K} {i : ℕ} {h : Handle K} (ha : Apart own na nc m i h) {fd : Finder σ K}
    (hfd : m.finder? i = some fd) (it : RContainer K → List (Root K)) (op : FinderOp K) :
    (m.store i (useStep it fd op).2).finder? i = some (useStep it fd op).2 := by
  rw [use_step_fields]
  generalize (useStep it fd op).2 = x
  unfold Memory.finder? at hfd
  unfold Memory.store Memory.finder?
  rw [ha.there] at hfd ⊢
  dsimp only at hfd ⊢
  rw [ha.there]
  dsimp only
  rw [List.getElem?_set_self ha.la, List.getElem?_set_self ha.lc]
  split at hfd
  · injection hfd with hfd; subst hfd; rfl
  · cases hfd

/-- an operation on another finder leaves finder `i` as it is, up to the state of a shared algorithm object -/
theorem Apart.store_other {own : Prop} {na nc : ℕ} {m : Memory σ K} {i : ℕ} {h : Handle K} (ha : Apart own na nc m i h) {fd : Finder σ K}
    (hfd : m.finder? i = some fd) {j : ℕ} (hj : j ≠ i) {x : Finder σ K} (hx : m.finder? j = some x) {x' : Finder σ K} (hx' : x'.algorithm = x.algorithm) :
    ∃ fd', (m.store j x').finder? i = some fd' ∧ SameBut fd fd' ∧ (own → fd = fd') := by
  have hh : ∃ h', m.finders[j]? = some h' := by
    unfold Memory.finder? at hx
    rcases hq : m.finders[j]? with _ | h'
    · rw [hq] at hx; cases hx
    · exact ⟨h', rfl⟩
  obtain ⟨h', hh⟩ := hh
  obtain ⟨n1, n2⟩ := ha.others j h' hj hh
  have hrun : ∀ a, m.algorithms[h'.algorithm]? = some a → a.run = x.algorithm := by
    intro a hq
    unfold Memory.finder? at hx
    rw [hh] at hx
    dsimp only at hx
    rw [hq] at hx
    split at hx
    · rename_i b c e1 e2
      injection e1 with e1; injection hx with hx; subst hx; rw [e1]
    · cases hx
  have hal : h.algorithm < m.algorithms.length := ha.la
  unfold Memory.finder? at hfd
  unfold Memory.store Memory.finder?
  rw [hh]
  dsimp only
  rw [ha.there] at hfd ⊢
  dsimp only at hfd ⊢
  rw [List.getElem?_set_ne n1]
  by_cases he : h'.algorithm = h.algorithm
  · rw [he, List.getElem?_set_self ha.la]
    split at hfd
    · rename_i a c e1 e2
      injection hfd with hfd
      subst hfd
      rw [e2]
      refine ⟨_, rfl, ?_, fun o => absurd he (n2 o)⟩
      unfold SameBut
      rw [hx', ← hrun a (by rw [he]; exact e1)]
    · cases hfd
  · rw [List.getElem?_set_ne he]
    exact ⟨fd, hfd, SameBut.refl fd, fun _ => rfl⟩

theorem SameBut.trans {a b c : Finder σ K} (h : SameBut a b) (h' : SameBut b c) : SameBut a c := by
  unfold SameBut at *
  rw [h'] ; rw [h]

theorem SameBut.symm {a b : Finder σ K} (h : SameBut a b) : SameBut b a := by
  unfold SameBut at *
  rw [h]

theorem SameBut.algorithm {a b : Finder σ K} (h : SameBut a b) : b.algorithm = a.algorithm := by rw [h]
theorem SameBut.container {a b : Finder σ K} (h : SameBut a b) : b.container = a.container := by rw [h]

/-- a program does with finder `i` what the operations on it alone do -/
theorem program_alone (it : RContainer K → List (Root K)) (own : Prop) (Good : (RCtx K → Py (World σ K) Unit) → Prop)
    (hstep : ∀ (fd fd' : Finder σ K) (op : FinderOp K), Good fd.algorithm → SameBut fd fd' → (own → fd = fd') → (useStep it fd op).1 = (useStep it fd' op).1 ∧
      SameBut (useStep it fd op).2 (useStep it fd' op).2)
    (na nc : ℕ) (i : ℕ) (h : Handle K) (ops : List (ProgramOp σ K)) : ∀ (m : Memory σ K) (fd solo : Finder σ K), Apart own na nc m i h → m.finder? i = some fd →
    SameBut fd solo → (own → fd = solo) → Good fd.algorithm → (∀ r, ProgramOp.make r ∈ ops → Recipe.SharesBelow na nc r) →
    seenOf i (runProgram it m ops).1 = (useFinder it solo (usesOf i ops)).1 ∧
    ∃ fd', (runProgram it m ops).2.finder? i = some fd' ∧ SameBut fd' (useFinder it solo (usesOf i ops)).2 ∧ (own → fd' = (useFinder it solo (usesOf i ops)).2) := by
  induction ops with
  | nil => exact fun m fd solo ha hfd hs ho _ _ => ⟨rfl, fd, hfd, hs, ho⟩
  | cons op ops ih =>
    intro m fd solo ha hfd hs ho hg hr
    cases op with
    | make r =>
      obtain ⟨a1, a2⟩ := ha.make r (hr r (by simp))
      exact ih (m.make r) fd solo a1 (a2.trans hfd) hs ho hg fun r' hr' => hr r' (by simp [hr'])
    | use j op =>
      by_cases hj : j = i
      · subst hj
        unfold runProgram usesOf
        rw [hfd]
        dsimp only
        rw [if_pos rfl]
        unfold useFinder
        dsimp only
        obtain ⟨s1, s2⟩ := hstep fd solo op hg hs ho
        obtain ⟨g1, g2⟩ := ih (m.store j (useStep it fd op).2) _ (useStep it solo op).2 (ha.store j _) (ha.store_own hfd it op) s2 (fun o => by rw [ho o])
          (by rw [use_step_algorithm]; exact hg) fun r' hr' => hr r' (by simp [hr'])
        refine ⟨?_, g2⟩
        rw [← g1, ← s1]
        unfold seenOf
        rw [List.filter_cons_of_pos (by simp)]
        rfl
      · unfold runProgram usesOf
        rw [if_neg hj]
        rcases hx : m.finder? j with _ | x
        · dsimp only
          exact ih m fd solo ha hfd hs ho hg fun r' hr' => hr r' (by simp [hr'])
        · dsimp only
          obtain ⟨fd1, e1, e2, e3⟩ := ha.store_other hfd hj hx (use_step_algorithm it x op)
          obtain ⟨g1, g2⟩ := ih (m.store j (useStep it x op).2) fd1 solo (ha.store j _) e1 (e2.symm.trans hs) (fun o => by rw [← e3 o]; exact ho o)
            (by rw [e2.algorithm]; exact hg) fun r' hr' => hr r' (by simp [hr'])
          refine ⟨?_, g2⟩
          rw [← g1]
          unfold seenOf
          rw [List.filter_cons_of_neg (by simpa using hj)]

end PyZeal.Props
