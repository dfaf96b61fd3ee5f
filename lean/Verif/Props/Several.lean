import Verif.Proof.Several

/-! # Properties C147, C148: programs with several finders -/

set_option linter.unusedSectionVars false

namespace PyZeal.Props
open Spec
section
variable {σ K : Type} [Field K] [LinearOrder K] [IsStrictOrderedRing K] [FloorRing K]

/-! ## The memory of a program -/

theorem program_append (it : RContainer K → List (Root K)) (after : List (ProgramOp σ K)) : ∀ (before : List (ProgramOp σ K)) (m : Memory σ K),
    runProgram it m (before ++ after) =
      ((runProgram it m before).1 ++ (runProgram it (runProgram it m before).2 after).1, (runProgram it (runProgram it m before).2 after).2)
  | [], _ => rfl
  | .make r :: before, m => program_append it after before (m.make r)
  | .use i op :: before, m => by
    rcases hx : m.finder? i with _ | fd
    · have e : ∀ l : List (ProgramOp σ K), runProgram it m (.use i op :: l) = runProgram it m l := by
        intro l
        rw [runProgram, hx]
      rw [List.cons_append, e, e]
      exact program_append it after before m
    · have e : ∀ l : List (ProgramOp σ K), runProgram it m (.use i op :: l) =
          ((i, op, (useStep it fd op).1) :: (runProgram it (m.store i (useStep it fd op).2) l).1, (runProgram it (m.store i (useStep it fd op).2) l).2) := by
        intro l
        rw [runProgram, hx]
      rw [List.cons_append, e, e, program_append it after before]
      rfl

/-- finders refer to objects in memory; there are `na` registered algorithm objects which do what `runs` says, and `nc` registered containers -/
structure Sound (runs : List (RCtx K → Py (World σ K) Unit)) (nc : ℕ) (rs : List (Recipe σ K)) (m : Memory σ K) : Prop where
  range : ∀ (j : ℕ) (h : Handle K), m.finders[j]? = some h → h.algorithm < m.algorithms.length ∧ h.container < m.containers.length
  la : runs.length ≤ m.algorithms.length
  lc : nc ≤ m.containers.length
  does : ∀ n, n < runs.length → m.algorithms[n]?.map (·.run) = runs[n]?
  made : m.finders.length = rs.length
  recipe : ∀ (j : ℕ) (h : Handle K), m.finders[j]? = some h → ∃ r, rs[j]? = some r ∧ h.precision = r.precision ∧ (∀ n, n < runs.length → h.algorithm = n → r.algorithm = .shared n) ∧ ∀ n, r.algorithm = .shared n → h.algorithm = n

theorem Sound.store {runs : List (RCtx K → Py (World σ K) Unit)} {nc : ℕ} {rs : List (Recipe σ K)} {m : Memory σ K} (hs : Sound runs nc rs m) {j : ℕ} {x : Finder σ K}
    (hx : m.finder? j = some x) {x' : Finder σ K} (hx' : x'.algorithm = x.algorithm) : Sound runs nc rs (m.store j x') := by
  unfold Memory.store
  rcases hh : m.finders[j]? with _ | h
  · exact hs
  · refine ⟨fun k h' hk => ?_, ?_, ?_, fun n hn => ?_, hs.made, hs.recipe⟩
    · obtain ⟨a, b⟩ := hs.range k h' hk
      exact ⟨by rw [List.length_set]; exact a, by rw [List.length_set]; exact b⟩
    · rw [List.length_set]; exact hs.la
    · rw [List.length_set]; exact hs.lc
    · rw [← hs.does n hn]
      dsimp only
      by_cases he : h.algorithm = n
      · subst he
        rw [List.getElem?_set_self (hs.range j h hh).1]
        unfold Memory.finder? at hx
        rw [hh] at hx
        dsimp only at hx
        split at hx
        · rename_i a c e1 e2
          injection hx with hx
          rw [e1, hx', ← hx]
          rfl
        · cases hx
      · rw [List.getElem?_set_ne he]

theorem Sound.make {runs : List (RCtx K → Py (World σ K) Unit)} {nc : ℕ} {rs : List (Recipe σ K)} {m : Memory σ K} (hs : Sound runs nc rs m) (r : Recipe σ K)
    (hr : Recipe.SharesBelow runs.length nc r) : Sound runs nc (rs ++ [r]) (m.make r) := by
  have key : ∀ j h, (m.make r).finders[j]? = some h → (j < m.finders.length ∧ m.finders[j]? = some h) ∨ (j = m.finders.length ∧
      h = ⟨r.f, r.df, r.precision, r.verbose, r.info, (r.algorithm.place m.algorithms).1, (r.container.place m.containers).1⟩) := by
    intro j h hh
    have hh' : (m.finders ++ [(⟨r.f, r.df, r.precision, r.verbose, r.info, (r.algorithm.place m.algorithms).1, (r.container.place m.containers).1⟩ : Handle K)])[j]? = some h := hh
    rcases lt_or_ge j m.finders.length with hl | hl
    · rw [List.getElem?_append_left hl] at hh'
      exact .inl ⟨hl, hh'⟩
    · rw [List.getElem?_append_right hl] at hh'
      obtain ⟨hx, hy⟩ := List.getElem?_eq_some_iff.1 hh'
      simp only [List.length_singleton, Nat.lt_one_iff] at hx
      simp only [hx, List.getElem_cons_zero] at hy
      exact .inr ⟨by omega, hy.symm⟩
  have inr : ∀ {α : Type} (l : List α) (g : Got α) (b : ℕ), (∀ n, g = .shared n → n < b) → b ≤ l.length → (g.place l).1 < (g.place l).2.length := by
    intro α l g b hg hb
    cases g with
    | new a => simp [Got.place]
    | shared n => have := hg n rfl; simp only [Got.place]; omega
  refine ⟨fun j h hh => ?_, hs.la.trans (place_length _ _), hs.lc.trans (place_length _ _), fun n hn => ?_, ?_, fun j h hh => ?_⟩
  · rcases key j h hh with ⟨_, h1⟩ | ⟨_, rfl⟩
    · obtain ⟨a, b⟩ := hs.range j h h1
      exact ⟨lt_of_lt_of_le a (place_length _ _), lt_of_lt_of_le b (place_length _ _)⟩
    · exact ⟨inr _ _ _ hr.1 hs.la, inr _ _ _ hr.2 hs.lc⟩
  · rw [← hs.does n hn]
    have : (m.make r).algorithms[n]? = m.algorithms[n]? := place_getElem _ _ (lt_of_lt_of_le hn hs.la)
    rw [this]
  · have : (m.make r).finders.length = m.finders.length + 1 := by simp [Memory.make]
    rw [this, hs.made]; simp
  · rcases key j h hh with ⟨hl, h1⟩ | ⟨hj, rfl⟩
    · obtain ⟨r', a, b⟩ := hs.recipe j h h1
      exact ⟨r', by rw [List.getElem?_append_left (by rw [← hs.made]; exact hl)]; exact a, b⟩
    · refine ⟨r, by rw [hj, hs.made]; simp, rfl, fun n hn he => ?_, fun n hn => by rw [hn]; rfl⟩
      cases hg : r.algorithm with
      | new a =>
        rw [hg] at he
        have he' : m.algorithms.length = n := he
        have := hs.la
        omega
      | shared k =>
        rw [hg] at he
        have he' : k = n := he
        rw [he']

theorem Sound.run (it : RContainer K → List (Root K)) {runs : List (RCtx K → Py (World σ K) Unit)} {nc : ℕ} (ops : List (ProgramOp σ K)) :
    ∀ {rs : List (Recipe σ K)} {m : Memory σ K}, Sound runs nc rs m → (∀ r ∈ recipes ops, Recipe.SharesBelow runs.length nc r) →
    Sound runs nc (rs ++ recipes ops) (runProgram it m ops).2 := by
  induction ops with
  | nil => intro rs m hs _; simpa [recipes, runProgram] using hs
  | cons op ops ih =>
    intro rs m hs hr
    cases op with
    | make r =>
      have := ih (hs.make r (hr r (by simp [recipes]))) fun r' h' => hr r' (by simp [recipes, h'])
      rw [List.append_assoc] at this
      exact this
    | use i op =>
      unfold runProgram
      rcases hx : m.finder? i with _ | x
      · exact ih hs hr
      · exact ih (hs.store hx (use_step_algorithm it x op)) hr

theorem Sound.start (as : List (AlgorithmObject σ K)) (cs : List (AnyContainer K)) : Sound (as.map (·.run)) cs.length [] (Memory.start as cs) := by
  refine ⟨fun j h hh => by simp [Memory.start] at hh, by simp [Memory.start], le_rfl, fun n _ => by simp [Memory.start], rfl, fun j h hh => by simp [Memory.start] at hh⟩

/-- nothing is seen of finders which are not there -/
theorem unseen (it : RContainer K → List (Root K)) (i : ℕ) (ops : List (ProgramOp σ K)) : ∀ (m : Memory σ K), m.finders.length + (recipes ops).length ≤ i →
    seenOf i (runProgram it m ops).1 = [] := by
  induction ops with
  | nil => exact fun _ _ => rfl
  | cons op ops ih =>
    intro m hi
    cases op with
    | make r =>
      refine ih (m.make r) ?_
      have : (m.make r).finders.length = m.finders.length + 1 := by simp [Memory.make]
      simp only [recipes, List.length_cons] at hi
      omega
    | use j op =>
      have hi' : m.finders.length + (recipes ops).length ≤ i := hi
      unfold runProgram
      rcases hx : m.finder? j with _ | x
      · exact ih m hi'
      · have hj : j < m.finders.length := by
          unfold Memory.finder? at hx
          rcases hq : m.finders[j]? with _ | h
          · rw [hq] at hx; cases hx
          · exact (List.getElem?_eq_some_iff.1 hq).1
        have hlen : (m.store j (useStep it x op).2).finders.length = m.finders.length := by
          unfold Memory.store
          split <;> rfl
        have := ih (m.store j (useStep it x op).2) (by rw [hlen]; exact hi')
        dsimp only
        unfold seenOf at this ⊢
        rw [List.filter_cons_of_neg (by simp; omega)]
        exact this

theorem mem_recipes {r : Recipe σ K} : ∀ {ops : List (ProgramOp σ K)}, ProgramOp.make r ∈ ops → r ∈ recipes ops
  | .make r' :: ops, h => by
    rcases List.mem_cons.1 h with h | h
    · injection h with h; subst h; simp [recipes]
    · exact List.mem_cons_of_mem _ (mem_recipes h)
  | .use _ _ :: ops, h => by
    rcases List.mem_cons.1 h with h | h
    · cases h
    · exact mem_recipes (ops := ops) h

/-- common part of the next theorems -/
theorem program_made (it : RContainer K → List (Root K)) (own : Prop) (Good : (RCtx K → Py (World σ K) Unit) → Prop)
    (hstep : ∀ (fd fd' : Finder σ K) (op : FinderOp K), Good fd.algorithm → SameBut fd fd' → (own → fd = fd') → (useStep it fd op).1 = (useStep it fd' op).1 ∧
      SameBut (useStep it fd op).2 (useStep it fd' op).2)
    (as : List (AlgorithmObject σ K)) (cs : List (AnyContainer K)) (before after : List (ProgramOp σ K)) (r : Recipe σ K) (c : AnyContainer K)
    (hc : r.container = .new c) (hshare : ∀ r' ∈ recipes (before ++ .make r :: after), Recipe.SharesBelow as.length cs.length r')
    (i : ℕ) (hi : i = (recipes before).length) (solo : Finder σ K)
    (hsolo : (∃ a, r.algorithm = .new a ∧ solo = r.finder a c) ∨ (¬ own ∧ ∃ n a, r.algorithm = .shared n ∧ as[n]? = some a ∧ SameBut (r.finder a c) solo))
    (hgood : Good solo.algorithm) :
    let p := runProgram it (Memory.start as cs) (before ++ .make r :: after)
    let q := useFinder it solo (usesOf i after)
    seenOf i p.1 = q.1 ∧ ∃ fd, p.2.finder? i = some fd ∧ SameBut fd q.2 ∧ (own → fd = q.2) := by
  intro p q
  have hrec : ∀ (b a : List (ProgramOp σ K)), recipes (b ++ a) = recipes b ++ recipes a := by
    intro b a
    induction b with
    | nil => rfl
    | cons o b ih => cases o <;> simp [recipes, ih]
  rw [hrec] at hshare
  have hS := Sound.run it before (Sound.start as cs) (fun r' h => by rw [List.length_map]; exact hshare r' (by simp [h]))
  rw [List.nil_append] at hS
  have hu := unseen it i before (Memory.start as cs) (by simp [Memory.start, hi])
  have hp : p = _ := program_append it (.make r :: after) before (Memory.start as cs)
  rw [hp]
  generalize hm : (runProgram it (Memory.start as cs) before).2 = m at hS
  have hr : Recipe.SharesBelow as.length cs.length r := hshare r (by simp [recipes])
  have hlen : m.finders.length = i := by rw [hS.made, hi]
  have hh : (m.make r).finders[i]? = some ⟨r.f, r.df, r.precision, r.verbose, r.info, (r.algorithm.place m.algorithms).1, (r.container.place m.containers).1⟩ := by
    show (m.finders ++ [_])[i]? = _
    rw [← hlen]; simp
  have hS' := hS.make r (by rw [List.length_map]; exact hr)
  have hcn : (r.container.place m.containers).1 = m.containers.length := by rw [hc]; rfl
  have hnew : own → (r.algorithm.place m.algorithms).1 = m.algorithms.length := by
    intro o
    rcases hsolo with ⟨a, ha, _⟩ | ⟨no, _⟩
    · rw [ha]; rfl
    · exact absurd o no
  have hA : Apart own as.length cs.length (m.make r) i ⟨r.f, r.df, r.precision, r.verbose, r.info, (r.algorithm.place m.algorithms).1, (r.container.place m.containers).1⟩ := by
    refine ⟨hh, ?_, ?_, ?_, (hS'.range i _ hh).1, (hS'.range i _ hh).2⟩
    · dsimp only; rw [hcn]; exact hS.lc
    · intro o; dsimp only; rw [hnew o]; have := hS.la; rwa [List.length_map] at this
    · intro j h' hj hh'
      have hjl : j < m.finders.length := by
        have := (List.getElem?_eq_some_iff.1 hh').1
        have e : (m.make r).finders.length = m.finders.length + 1 := by simp [Memory.make]
        omega
      have e : (m.make r).finders[j]? = m.finders[j]? := List.getElem?_append_left hjl
      obtain ⟨x, y⟩ := hS.range j h' (by rw [← e]; exact hh')
      dsimp only
      rw [hcn]
      exact ⟨by omega, fun o => by rw [hnew o]; omega⟩
  have hcont : (m.make r).containers[m.containers.length]? = some c := by
    have : (m.make r).containers = m.containers ++ [c] := by unfold Memory.make; rw [hc]; rfl
    rw [this]; simp
  have hfd : ∃ fd, (m.make r).finder? i = some fd ∧ SameBut fd solo ∧ (own → fd = solo) := by
    unfold Memory.finder?
    rw [hh]
    dsimp only
    rw [hcn, hcont]
    rcases hsolo with ⟨a, ha, rfl⟩ | ⟨no, n, a, ha, han, hsame⟩
    · have e1 : (m.make r).algorithms = m.algorithms ++ [a] := by unfold Memory.make; rw [ha]; rfl
      have e2 : (r.algorithm.place m.algorithms).1 = m.algorithms.length := by rw [ha]; rfl
      rw [e1, e2]
      simp only [List.getElem?_concat_length]
      exact ⟨_, rfl, rfl, fun _ => rfl⟩
    · have e2 : (r.algorithm.place m.algorithms).1 = n := by rw [ha]; rfl
      rw [e2]
      have hn : n < as.length := (List.getElem?_eq_some_iff.1 han).1
      have hrun := hS'.does n (by rw [List.length_map]; exact hn)
      rw [List.getElem?_map, han] at hrun
      rcases hb : (m.make r).algorithms[n]? with _ | b
      · rw [hb] at hrun; cases hrun
      · rw [hb] at hrun
        have hrun : some b.run = some a.run := hrun
        injection hrun with hrun
        refine ⟨_, rfl, ?_, fun o => absurd o no⟩
        refine SameBut.trans ?_ hsame
        unfold SameBut Recipe.finder
        rw [hrun]
  obtain ⟨fd, f1, f2, f3⟩ := hfd
  obtain ⟨g1, g2⟩ := program_alone it own Good hstep as.length cs.length i _ after (m.make r) fd solo hA f1 f2 f3 (by rw [← f2.algorithm]; exact hgood)
    fun r' h' => hshare r' (by simp [recipes, mem_recipes h'])
  refine ⟨?_, g2⟩
  show seenOf i (_ ++ (runProgram it (m.make r) after).1) = q.1
  rw [← g1]
  unfold seenOf at hu ⊢
  rw [List.filter_append, List.map_append, hu, List.nil_append]

/-! ## C147 -/

/-- **C147.** The finders of a program do not influence each other. Take any program: it registers some algorithm objects and containers as singletons, makes finders
and uses them, in any order (`before`, then it makes a finder, then `after`). If the finder got an algorithm object and a container of its own (that is,
from transient services, as in the package), then everything the program sees of it is what it would see if it did nothing but the operations on this
finder, and at the end the finder is in the state these operations leave it in. -/
theorem C147_own (it : RContainer K → List (Root K)) (as : List (AlgorithmObject σ K)) (cs : List (AnyContainer K)) (before after : List (ProgramOp σ K))
    (r : Recipe σ K) (a : AlgorithmObject σ K) (c : AnyContainer K) (ha : r.algorithm = .new a) (hc : r.container = .new c)
    (hshare : ∀ r' ∈ recipes (before ++ .make r :: after), Recipe.SharesBelow as.length cs.length r') (i : ℕ) (hi : i = (recipes before).length) :
    let p := runProgram it (Memory.start as cs) (before ++ .make r :: after)
    let alone := useFinder it (r.finder a c) (usesOf i after)
    seenOf i p.1 = alone.1 ∧ p.2.finder? i = some alone.2 := by
  intro p alone
  obtain ⟨h1, fd, h2, -, h3⟩ := program_made it True (fun _ => True) (fun fd fd' op _ _ h => by rw [h trivial]; exact ⟨rfl, SameBut.refl _⟩) as cs before after r c hc
    hshare i hi (r.finder a c) (.inl ⟨a, ha, rfl⟩) trivial
  exact ⟨h1, by rw [h2, h3 trivial]⟩

/-- **C147 for a shared algorithm object**: with the quadrature estimator and for the Newton grid, the finder may even use a registered algorithm object, which other
finders use too, for other functions: what the program sees of the finder, and the container at the end, are the same as with an algorithm object of its own
(in any state). -/
theorem C147_shared_quadrature (it : RContainer K → List (Root K)) (as : List (AlgorithmObject (SumState K) K)) (cs : List (AnyContainer K))
    (before after : List (ProgramOp (SumState K) K)) (r : Recipe (SumState K) K) (n : ℕ) (a : AlgorithmObject (SumState K) K) (c : AnyContainer K)
    (ha : r.algorithm = .shared n) (han : as[n]? = some a) (hquad : AlgorithmWith IsQuadrature a.run) (hc : r.container = .new c)
    (hshare : ∀ r' ∈ recipes (before ++ .make r :: after), Recipe.SharesBelow as.length cs.length r') (i : ℕ) (hi : i = (recipes before).length)
    (cache : EstCache K) (est : SumState K) :
    let p := runProgram it (Memory.start as cs) (before ++ .make r :: after)
    let alone := useFinder it (r.finder ⟨a.run, cache, est⟩ c) (usesOf i after)
    seenOf i p.1 = alone.1 ∧ ∃ fd, p.2.finder? i = some fd ∧ fd.container = alone.2.container := by
  intro p alone
  obtain ⟨h1, fd, h2, h3, -⟩ := program_made it False (AlgorithmWith IsQuadrature) (fun fd fd' op hq hs _ => quadrature_step it fd hq fd' hs op) as cs before after
    r c hc hshare i hi (r.finder ⟨a.run, cache, est⟩ c) (.inr ⟨fun h => h, n, a, ha, han, rfl⟩) hquad
  exact ⟨h1, fd, h2, h3.container.symm⟩

/-! ## C148 -/

theorem AgreeAt_store {S : Cx K → Prop} {m : Memory (SumState K) K} {n : ℕ} {b : AlgorithmObject (SumState K) K} (hb : m.algorithms[n]? = some b) {j : ℕ}
    {h : Handle K} (hj : m.finders[j]? = some h) {x x' : Finder (SumState K) K} (hx : m.finder? j = some x) (hagree : h.algorithm = n → AgreeAt S x.est x'.est) :
    ∃ b', (m.store j x').algorithms[n]? = some b' ∧ AgreeAt S b.est b'.est := by
  unfold Memory.store
  rw [hj]
  dsimp only
  by_cases he : h.algorithm = n
  · have hn : n < m.algorithms.length := (List.getElem?_eq_some_iff.1 hb).1
    rw [he, List.getElem?_set_self hn]
    refine ⟨_, rfl, ?_⟩
    unfold Memory.finder? at hx
    rw [hj] at hx
    dsimp only at hx
    rw [he, hb] at hx
    split at hx
    · rename_i a c e1 e2
      injection e1 with e1
      injection hx with hx
      have := hagree he
      rw [← hx, ← e1] at this
      exact this
    · cases hx
  · rw [List.getElem?_set_ne he]
    exact ⟨b, hb, AgreeAt.refl _⟩

theorem program_spares (it : RContainer K → List (Root K)) (S : Cx K → Prop) {runs : List (RCtx K → Py (World (SumState K) K) Unit)} {nc n : ℕ}
    {run : RCtx K → Py (World (SumState K) K) Unit} (hn : runs[n]? = some run) (hship : ShippedAlgorithm run) (all : List (Recipe (SumState K) K))
    (ops : List (ProgramOp (SumState K) K)) : ∀ (rs : List (Recipe (SumState K) K)) (m : Memory (SumState K) K) (b : AlgorithmObject (SumState K) K),
    Sound runs nc rs m → rs ++ recipes ops = all →
    (∀ r ∈ recipes ops, Recipe.SharesBelow runs.length nc r) → m.algorithms[n]? = some b →
    (∀ j op, ProgramOp.use j op ∈ ops → ∀ r, all[j]? = some r → r.algorithm = .shared n → op.StaysOff r.precision S) →
    ∃ b', (runProgram it m ops).2.algorithms[n]? = some b' ∧ AgreeAt S b.est b'.est := by
  induction ops with
  | nil => exact fun rs m b _ _ _ hb _ => ⟨b, hb, AgreeAt.refl _⟩
  | cons op ops ih =>
    intro rs m b hs hall hr hb hoff
    cases op with
    | make r =>
      refine ih (rs ++ [r]) (m.make r) b (hs.make r (hr r (by simp [recipes]))) (by rw [List.append_assoc]; exact hall) (fun r' h' => hr r' (by simp [recipes, h'])) ?_
        fun j op h => hoff j op (by simp [h])
      have : (m.make r).algorithms[n]? = m.algorithms[n]? := place_getElem _ _ (List.getElem?_eq_some_iff.1 hb).1
      rw [this, hb]
    | use j op =>
      unfold runProgram
      rcases hx : m.finder? j with _ | x
      · exact ih rs m b hs hall hr hb fun j op h => hoff j op (by simp [h])
      · dsimp only
        obtain ⟨h, hj⟩ : ∃ h, m.finders[j]? = some h := by
          unfold Memory.finder? at hx
          rcases hq : m.finders[j]? with _ | h
          · rw [hq] at hx; cases hx
          · exact ⟨h, rfl⟩
        have hxf : x.precision = h.precision ∧ (h.algorithm = n → x.algorithm = run) := by
          have hrun := hs.does n (List.getElem?_eq_some_iff.1 hn).1
          rw [hb, hn] at hrun
          have hrun : some b.run = some run := hrun
          injection hrun with hrun
          unfold Memory.finder? at hx
          rw [hj] at hx
          dsimp only at hx
          split at hx
          · rename_i a c e1 e2
            injection hx with hx
            refine ⟨by rw [← hx], fun he => ?_⟩
            rw [he, hb] at e1
            injection e1 with e1
            rw [← hx, ← e1]
            exact hrun
          · cases hx
        obtain ⟨r, hr1, hr2, hr3, -⟩ := hs.recipe j h hj
        have hrall : all[j]? = some r := by
          rw [← hall, List.getElem?_append_left (List.getElem?_eq_some_iff.1 hr1).1, hr1]
        obtain ⟨b1, hb1, hag⟩ := AgreeAt_store (S := S) hb hj hx (x' := (useStep it x op).2) fun he =>
          (use_step_spares it S x (by rw [hxf.2 he]; exact hship) op (by
            rw [hxf.1, hr2]
            exact hoff j op (by simp) r hrall (hr3 n (List.getElem?_eq_some_iff.1 hn).1 he))).1
        obtain ⟨b2, hb2, hag2⟩ := ih rs _ b1 (hs.store hx (use_step_algorithm it x op)) hall hr hb1 fun j op h => hoff j op (by simp [h])
        exact ⟨b2, hb2, hag.trans hag2⟩

/-- **C148, what holds**: finders which share a registered algorithm object of the package (new when it is registered), also one with the summation estimator: a search of
one of them does what it would do with a new algorithm object of its own, if none of the earlier searches with the shared object, by whatever finder and for
whatever function, looked at a point of its rectangle. -/
theorem C148_disjoint_partial (it : RContainer K → List (Root K)) (as : List (AlgorithmObject (SumState K) K)) (cs : List (AnyContainer K))
    (ops : List (ProgramOp (SumState K) K)) (hshare : ∀ r ∈ recipes ops, Recipe.SharesBelow as.length cs.length r)
    (n : ℕ) (a : AlgorithmObject (SumState K) K) (han : as[n]? = some a) (hship : ShippedAlgorithm a.run) (hnew : a.est = SumState.fresh)
    (i : ℕ) (r : Recipe (SumState K) K) (hr : (recipes ops)[i]? = some r) (ha : r.algorithm = .shared n)
    (re im : K × K) (call : Option (ℤ × ℤ)) (p : ℤ × ℤ) (hp : Asked call r.precision p)
    (hoff : ∀ j op, ProgramOp.use j op ∈ ops → ∀ r', (recipes ops)[j]? = some r' → r'.algorithm = .shared n → op.StaysOff r'.precision (LooksAt p re im))
    (interrupt : Option ℕ) (debug : Bool) (fd : Finder (SumState K) K) (hfd : (runProgram it (Memory.start as cs) ops).2.finder? i = some fd) :
    let new := { fd with cache := EstCache.init debug, est := SumState.fresh }
    let s := fd.calculateRoots re im call interrupt
    let s' := new.calculateRoots re im call interrupt
    s.outcome = s'.outcome ∧ s.warned = s'.warned ∧ s.bar = s'.bar ∧ s.finder.container = s'.finder.container := by
  have hrun : (as.map (·.run))[n]? = some a.run := by rw [List.getElem?_map, han]; rfl
  have hsh : ∀ r ∈ recipes ops, Recipe.SharesBelow (as.map (·.run)).length cs.length r := by rw [List.length_map]; exact hshare
  have hS := Sound.run it ops (Sound.start as cs) hsh
  obtain ⟨b, hb, hag⟩ := program_spares it (LooksAt p re im) hrun hship (recipes ops) ops [] (Memory.start as cs) a (Sound.start as cs) rfl hsh han hoff
  generalize (runProgram it (Memory.start as cs) ops).2 = m at hS hb hfd
  rw [List.nil_append] at hS
  have hq := hS.does n (List.getElem?_eq_some_iff.1 hrun).1
  rw [hb, hrun] at hq
  have hq : some b.run = some a.run := hq
  injection hq with hq
  have key : fd.algorithm = a.run ∧ fd.precision = r.precision ∧ fd.est = b.est := by
    unfold Memory.finder? at hfd
    rcases hh : m.finders[i]? with _ | h
    · rw [hh] at hfd; cases hfd
    · obtain ⟨r', g1, g2, -, g3⟩ := hS.recipe i h hh
      rw [hr] at g1
      injection g1 with g1
      subst g1
      rw [hh] at hfd
      dsimp only at hfd
      have hhn : h.algorithm = n := g3 n ha
      rw [hhn, hb] at hfd
      split at hfd
      · rename_i x y e1 e2
        injection e1 with e1
        injection hfd with hfd
        subst e1
        rw [← hfd]
        exact ⟨hq, g2, rfl⟩
      · cases hfd
  obtain ⟨k1, k2, k3⟩ := key
  obtain ⟨o1, o2⟩ := ctx_ordered fd re im call
  rw [hnew, ← k3] at hag
  exact same_search fd (EstCache.init debug) SumState.fresh re im call interrupt
    (shipped_local (by rw [k1]; exact hship) (fd.ctx re im call) o1 o2 fun z hz => (ctx_has fd re im call p (by rw [k2]; exact hp) z).1 hz) hag.symm

end

/-! ## Examples -/

/-- a registered algorithm object with the summation estimator -/
def exObject : AlgorithmObject (SumState ℚ) ℚ := ⟨simpleArgument (sumLine (exCfg 21 10)) 2 20, EstCache.init false, SumState.fresh⟩

/-- a finder for `f` with a container of its own -/
def exRecipe (f : Cx ℚ → Cx ℚ) (a : Got (AlgorithmObject (SumState ℚ) ℚ)) : Recipe (SumState ℚ) ℚ :=
  ⟨f, none, (-1, -1), false, false, a, .new (.rounding (RContainer.init (some (-1, -1)) (5, 5)))⟩

/-- a function without zeros -/
def exFlat : Cx ℚ → Cx ℚ := fun _ => 1

/-- a function which turns once round a point -/
def exTurn : Cx ℚ → Cx ℚ := fun x => sector (x - oncePoint)

/-- a program with two finders: the first one searches, then the second one the same rectangle, then the roots of the second one are read -/
def exProgram (a b : Got (AlgorithmObject (SumState ℚ) ℚ)) (f g : Cx ℚ → Cx ℚ) : List (ProgramOp (SumState ℚ) ℚ) :=
  [.make (exRecipe f a), .make (exRecipe g b), .use 0 (.search (-8, 8) (-7, 7) none none), .use 1 (.search (-8, 8) (-7, 7) none none), .use 1 .roots]

/-- the roots of finder `i` at the end -/
def exRoots (m : Memory (SumState ℚ) ℚ) (i : ℕ) : Option (List (Root ℚ)) := (m.finder? i).map fun fd => held fd.container

theorem exProgram_own : exRoots (runProgram (fun c => c.rootSet) (Memory.start [] []) (exProgram (.new exObject) (.new exObject) exFlat exTurn)).2 1 = some [(⟨-2, -1⟩, 1)] := by
  decide +kernel

theorem exProgram_flat : exRoots (runProgram (fun c => c.rootSet) (Memory.start [exObject] []) (exProgram (.shared 0) (.shared 0) exFlat exTurn)).2 1 = some [] := by
  decide +kernel

/-- a search that returned without a warning -/
def calm : FinderOut ℚ → Bool
  | .searched (.ok _) false _ => true
  | .searched _ _ _ => false
  | _ => true

theorem exProgram_calm : (runProgram (fun c => c.rootSet) (Memory.start [exObject] []) (exProgram (.shared 0) (.shared 0) exFlat exTurn)).1.map (fun x => (x.1, calm x.2.2)) =
    [(0, true), (1, true), (1, true)] := by
  decide +kernel

/-- C148 is false of the code with the summation estimator: two finders share an algorithm object which is registered as a singleton. The function of the second one turns once
round a point of the rectangle, and with algorithm objects of their own the second finder reports it. With the shared object, after the first finder searched the
same rectangle for the zeros of a function which has none, the second one's search returns normally, without warning, and reports nothing. -/
theorem C148_counterexample :
    ∃ (a : AlgorithmObject (SumState ℚ) ℚ) (z : Cx ℚ) (f g : Cx ℚ → Cx ℚ) (prog : Got (AlgorithmObject (SumState ℚ) ℚ) → List (ProgramOp (SumState ℚ) ℚ)) (re im : ℚ × ℚ),
      ShippedAlgorithm a.run ∧ a.est = SumState.fresh ∧ (∀ x, f x = 1) ∧ (∀ x, g x = sector (x - z)) ∧ Requested re im z ∧
      (∀ o, prog o = [.make (exRecipe f o), .make (exRecipe g o), .use 0 (.search re im none none), .use 1 (.search re im none none), .use 1 .roots]) ∧
      exRoots (runProgram (fun c => c.rootSet) (Memory.start [] []) (prog (.new a))).2 1 = some [(⟨-2, -1⟩, 1)] ∧
      exRoots (runProgram (fun c => c.rootSet) (Memory.start [a] []) (prog (.shared 0))).2 1 = some [] ∧
      (runProgram (fun c => c.rootSet) (Memory.start [a] []) (prog (.shared 0))).1.map (fun x => (x.1, calm x.2.2)) = [(0, true), (1, true), (1, true)] := by
  refine ⟨exObject, oncePoint, exFlat, exTurn, fun o => exProgram o o exFlat exTurn, (-8, 8), (-7, 7), .simple _ _ _ (.summation _), rfl, fun _ => rfl, fun _ => rfl, ?_,
    fun _ => rfl, exProgram_own, exProgram_flat, exProgram_calm⟩
  unfold Requested oncePoint; norm_num

/-- non-vacuity of `C147_own`: in the program with own objects, what is seen of the second finder is what it would do alone -/
example (it : RContainer ℚ → List (Root ℚ)) :
    let p := runProgram it (Memory.start [] []) (exProgram (.new exObject) (.new exObject) exFlat exTurn)
    let alone := useFinder it onceFinder [.search (-8, 8) (-7, 7) none none, .roots]
    seenOf 1 p.1 = alone.1 ∧ p.2.finder? 1 = some alone.2 := by
  refine C147_own it [] [] [.make (exRecipe exFlat (.new exObject))] [.use 0 (.search (-8, 8) (-7, 7) none none), .use 1 (.search (-8, 8) (-7, 7) none none), .use 1 .roots]
    (exRecipe exTurn (.new exObject)) exObject (.rounding (RContainer.init (some (-1, -1)) (5, 5))) rfl rfl ?_ 1 rfl
  intro r hr
  have hr : r ∈ [exRecipe exFlat (.new exObject), exRecipe exTurn (.new exObject)] := hr
  simp only [List.mem_cons, List.not_mem_nil, or_false] at hr
  rcases hr with rfl | rfl <;> exact ⟨fun n h => by simp [exRecipe] at h, fun n h => by simp [exRecipe] at h⟩

/-- a registered Newton grid -/
def sharedGrid (nt : NewtonSolver ℚ) : AlgorithmObject (SumState ℚ) ℚ := ⟨newtonGrid nt 3 true, EstCache.init false, SumState.fresh⟩

/-- non-vacuity of `C147_shared_quadrature` -/
example (it : RContainer ℚ → List (Root ℚ)) (nt : NewtonSolver ℚ) :
    let p := runProgram it (Memory.start [sharedGrid nt] []) (exProgram (.shared 0) (.shared 0) exFlat exTurn)
    let alone := useFinder it ((exRecipe exTurn (.shared 0)).finder (sharedGrid nt) (.rounding (RContainer.init (some (-1, -1)) (5, 5)))) [.search (-8, 8) (-7, 7) none none, .roots]
    seenOf 1 p.1 = alone.1 ∧ ∃ fd, p.2.finder? 1 = some fd ∧ fd.container = alone.2.container := by
  refine C147_shared_quadrature it [sharedGrid nt] [] [.make (exRecipe exFlat (.shared 0))]
    [.use 0 (.search (-8, 8) (-7, 7) none none), .use 1 (.search (-8, 8) (-7, 7) none none), .use 1 .roots]
    (exRecipe exTurn (.shared 0)) 0 (sharedGrid nt) (.rounding (RContainer.init (some (-1, -1)) (5, 5))) rfl rfl (.grid nt 3 true) rfl ?_ 1 rfl _ _
  intro r hr
  have hr : r ∈ [exRecipe exFlat (.shared 0), exRecipe exTurn (.shared 0)] := hr
  simp only [List.mem_cons, List.not_mem_nil, or_false] at hr
  rcases hr with rfl | rfl <;> exact ⟨fun n h => by injection h with h; subst h; simp, fun n h => by simp [exRecipe] at h⟩

/-- non-vacuity of `C148_disjoint_partial`: the first finder searches one rectangle with the shared object, the second one another rectangle further up -/
example (it : RContainer ℚ → List (Root ℚ)) (fd : Finder (SumState ℚ) ℚ)
    (hfd : (runProgram it (Memory.start [exObject] []) [.make (exRecipe exFlat (.shared 0)), .make (exRecipe exTurn (.shared 0)), .use 0 (.search (-8, 8) (-7, 7) none none)]).2.finder? 1 =
      some fd) : (fd.calculateRoots (-8, 8) (20, 34) none none).outcome =
        (Finder.calculateRoots { fd with cache := EstCache.init false, est := SumState.fresh } (-8, 8) (20, 34) none none).outcome := by
  refine (C148_disjoint_partial it [exObject] [] [.make (exRecipe exFlat (.shared 0)), .make (exRecipe exTurn (.shared 0)), .use 0 (.search (-8, 8) (-7, 7) none none)] ?_
    0 exObject rfl (.simple _ _ _ (.summation _)) rfl 1 (exRecipe exTurn (.shared 0)) rfl rfl (-8, 8) (20, 34) none (-1, -1) (.inr ⟨rfl, rfl⟩) ?_ none false fd hfd).1
  · intro r hr
    have hr : r ∈ [exRecipe exFlat (.shared 0), exRecipe exTurn (.shared 0)] := hr
    simp only [List.mem_cons, List.not_mem_nil, or_false] at hr
    rcases hr with rfl | rfl <;> exact ⟨fun n h => by injection h with h; subst h; simp, fun n h => by simp [exRecipe] at h⟩
  · intro j op hop r hr _
    simp only [List.mem_cons, List.not_mem_nil, or_false, reduceCtorEq, false_or] at hop
    injection hop with hj ho
    subst hj ho
    have hr : some (exRecipe exFlat (.shared 0)) = some r := hr
    injection hr with hr
    subst hr
    rintro p (h | ⟨_, h⟩) z hz hz'
    · simp at h
    · have h : (-1, -1) = p := h
      subst h
      obtain ⟨_, _, _, h4⟩ := hz
      obtain ⟨_, _, h3', _⟩ := hz'
      norm_num at h4 h3'
      linarith

/-- and that finder is there -/
example : ((runProgram (fun c => c.rootSet) (Memory.start [exObject] [])
    [.make (exRecipe exFlat (.shared 0)), .make (exRecipe exTurn (.shared 0)), .use 0 (.search (-8, 8) (-7, 7) none none)]).2.finder? 1).isSome = true := by
  decide +kernel

end PyZeal.Props
