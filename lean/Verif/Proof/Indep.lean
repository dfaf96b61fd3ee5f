import Verif.Proof.Closure
import Verif.Proof.Finder
import Verif.Proof.Noted
import Verif.Spec.Disjoint

/-! # Searches of disjoint rectangles with one summation estimator -/

set_option linter.unusedSectionVars false

namespace PyZeal
open Spec
variable {K σ : Type}

/-! ## Properties of computations kept by the argument based algorithms -/

/-- a property of computations which holds of the operations of the argument based algorithms and is kept by sequencing -/
structure Traversed [Field K] [LinearOrder K] (P : ∀ {α : Type}, Py (World σ K) α → Prop) : Prop where
  pure : ∀ {α : Type} (a : α), P (pure a : Py (World σ K) α)
  throw : ∀ {α : Type} (e : Err), P (Py.throw e : Py (World σ K) α)
  bind : ∀ {α β : Type} {m : Py (World σ K) α} {k : α → Py (World σ K) β}, P m → (∀ a, P (k a)) → P (m >>= k)
  tick : P (World.tick : Py (World σ K) Unit)
  add : ∀ r : Root K, P (Py.modify fun w : World σ K => { w with added := w.added ++ [r] })
  moved : ∀ a : K, P (Py.modify fun w : World σ K => { w with advances := w.advances ++ [a] })
  noted : ∀ c : Cell K, P (Py.modify fun w : World σ K => { w with log := w.log ++ [c] })
  retrieve : ∀ (o : ℤ) (a b : Cx K), P (World.retrieve o a b : Py (World σ K) _)
  store : ∀ (o : ℤ) (a b d : Cx K), P (Py.modify fun w : World σ K => { w with cache := (w.cache.store o a b d).store o b a (-d) })
  remove : ∀ a b : Cx K, P (cacheRemove a b : Py (World σ K) Unit)
  reset : P (resetCache : Py (World σ K) Unit)
  except : ∀ {m : Py (World σ K) Unit}, P m → P (Py.exceptRuntimeError m)
  final : ∀ {m fin : Py (World σ K) Unit}, P m → P fin → P (Py.tryFinally m fin)

section
variable [Field K] [LinearOrder K] [IsStrictOrderedRing K] [FloorRing K] {P : ∀ {α : Type}, Py (World σ K) α → Prop}

theorem Traversed.addRoot (h : Traversed @P) (r : Root K) : P (World.addRoot r : Py (World σ K) Unit) :=
  h.bind h.tick fun _ => h.add r

theorem Traversed.addRoots (h : Traversed @P) (rs : List (Root K)) : P (World.addRoots rs : Py (World σ K) Unit) := by
  induction rs with
  | nil => exact h.pure ()
  | cons r rs ih => exact h.bind (h.addRoot r) fun _ => ih

theorem Traversed.advance (h : Traversed @P) (ctx : RCtx K) (a : K) : P (World.advance ctx a : Py (World σ K) Unit) := by
  unfold World.advance
  split
  · exact h.bind h.tick fun _ => h.moved a
  · exact h.pure ()

theorem Traversed.edge (h : Traversed @P) {est : LineEst σ K} {o : ℤ} {ctx : RCtx K} {e : Cx K × Cx K} (he : P (est o e.1 e.2 ctx)) :
    P (edgeMoment est o ctx e) := by
  have hc : P (edgeMoment.compute est o ctx e) := by
    unfold edgeMoment.compute
    exact h.bind h.tick fun _ => h.bind he fun d => h.bind (h.store o e.1 e.2 d) fun _ => h.pure _
  unfold edgeMoment
  refine h.bind (h.retrieve _ _ _) fun v => ?_
  rcases v with _ | v
  · exact hc
  · dsimp only
    split
    · exact h.pure _
    · exact hc

/-- both ends of both ranges lie in the rectangle -/
def Inside (c : Cell K) (re im : K × K) : Prop :=
  (c.re.1 ≤ re.1 ∧ re.1 ≤ c.re.2) ∧ (c.re.1 ≤ re.2 ∧ re.2 ≤ c.re.2) ∧ (c.im.1 ≤ im.1 ∧ im.1 ≤ c.im.2) ∧ (c.im.1 ≤ im.2 ∧ im.2 ≤ c.im.2)

theorem mid_between {l u a b : K} (ha : l ≤ a ∧ a ≤ u) (hb : l ≤ b ∧ b ≤ u) : l ≤ (a + b) / 2 ∧ (a + b) / 2 ≤ u := by
  constructor <;> linarith [ha.1, ha.2, hb.1, hb.2]

theorem Traversed.calcMoment (h : Traversed @P) {est : LineEst σ K} {ctx : RCtx K} {c : Cell K}
    (hest : ∀ o a b, Cell.Has c a → Cell.Has c b → P (est o a b ctx)) (o : ℤ) {re im : K × K} (hin : Inside c re im) :
    P (calcMoment est o re im ctx) := by
  obtain ⟨h1, h2, h3, h4⟩ := hin
  have hs : ∀ es : List (Cx K × Cx K), (∀ e ∈ es, Cell.Has c e.1 ∧ Cell.Has c e.2) → ∀ phi, P (sumEdges est o ctx es phi) := by
    intro es
    induction es with
    | nil => intro _ phi; exact h.pure _
    | cons e es ih =>
      intro he phi
      exact h.bind (h.edge (hest _ _ _ (he e (by simp)).1 (he e (by simp)).2)) fun d => ih (fun e' h' => he e' (by simp [h'])) _
  refine hs _ ?_ 0
  intro e he
  simp only [edges, List.mem_cons, List.not_mem_nil, or_false] at he
  rcases he with rfl | rfl | rfl | rfl <;>
    exact ⟨⟨by first | exact h1.1 | exact h2.1, by first | exact h1.2 | exact h2.2, by first | exact h3.1 | exact h4.1, by first | exact h3.2 | exact h4.2⟩,
      ⟨by first | exact h1.1 | exact h2.1, by first | exact h1.2 | exact h2.2, by first | exact h3.1 | exact h4.1, by first | exact h3.2 | exact h4.2⟩⟩

theorem Traversed.phaseOf (h : Traversed @P) {est : LineEst σ K} {ctx : RCtx K} {c : Cell K}
    (hest : ∀ o a b, Cell.Has c a → Cell.Has c b → P (est o a b ctx)) {re im : K × K} (hin : Inside c re im) :
    P (phaseOf est re im ctx) :=
  h.bind (h.calcMoment hest 0 hin) fun _ => h.bind (h.noted _) fun _ => h.pure _

/-- `decideRefinement` has the property on all rectangles inside `c` -/
def DecideHas (P : ∀ {α : Type}, Py (World σ K) α → Prop) (c : Cell K) (ctx : RCtx K) (d : Decide σ K) : Prop :=
  ∀ re im phi, Inside c re im → P (d re im phi ctx)

theorem Traversed.simple (h : Traversed @P) {est : LineEst σ K} {ctx : RCtx K} {c : Cell K} (pi : K)
    (hest : ∀ o a b, Cell.Has c a → Cell.Has c b → P (est o a b ctx)) {self : Decide σ K} (hs : DecideHas @P c ctx self) :
    DecideHas @P c ctx (simpleDecide est pi self) := by
  intro re im phi hin
  have h1 := hin.1
  have h2 := hin.2.1
  have h3 := hin.2.2.1
  have h4 := hin.2.2.2
  have m := mid_between h1 h2
  have n := mid_between h3 h4
  unfold simpleDecide
  dsimp only
  split
  · exact h.advance _ _
  · split
    · exact h.bind (h.addRoot _) fun _ => h.advance _ _
    · split
      · have i1 : Inside c (re.1, (re.1 + re.2) / 2) (im.1, im.2) := ⟨h1, m, h3, h4⟩
        have i2 : Inside c ((re.1 + re.2) / 2, re.2) (im.1, im.2) := ⟨m, h2, h3, h4⟩
        exact h.bind (h.phaseOf hest i1) fun _ => h.bind (hs _ _ _ i1) fun _ => h.bind (h.remove _ _) fun _ =>
          h.bind (h.phaseOf hest i2) fun _ => h.bind (hs _ _ _ i2) fun _ => h.remove _ _
      · have i1 : Inside c (re.1, re.2) (im.1, (im.1 + im.2) / 2) := ⟨h1, h2, h3, n⟩
        have i2 : Inside c (re.1, re.2) ((im.1 + im.2) / 2, im.2) := ⟨h1, h2, n, h4⟩
        exact h.bind (h.phaseOf hest i1) fun _ => h.bind (hs _ _ _ i1) fun _ => h.bind (h.remove _ _) fun _ =>
          h.bind (h.phaseOf hest i2) fun _ => h.bind (hs _ _ _ i2) fun _ => h.remove _ _

theorem Traversed.orRuntimeError (h : Traversed @P) {α : Type} (x : Option α) : P (orRuntimeError x : Py (World σ K) α) := by
  cases x with
  | none => exact h.throw _
  | some a => exact h.pure a

theorem Traversed.newton (h : Traversed @P) (nt : NewtonSolver K) {est : LineEst σ K} {ctx : RCtx K} {c : Cell K} (pi : K)
    (hest : ∀ o a b, Cell.Has c a → Cell.Has c b → P (est o a b ctx)) {self : Decide σ K} (hs : DecideHas @P c ctx self) :
    DecideHas @P c ctx (newtonDecide nt est pi self) := by
  intro re im phi hin
  unfold newtonDecide
  dsimp only
  split
  · exact h.bind (h.addRoot _) fun _ => h.advance _ _
  · split
    · refine h.final (h.except ?_) (h.advance _ _)
      unfold newtonBlock
      refine h.bind (h.orRuntimeError _) fun z => h.bind (h.addRoot _) fun _ => ?_
      rcases ctx.df with _ | df
      · exact h.pure _
      · exact h.bind (h.orRuntimeError _) fun z => h.addRoot _
    · exact h.simple pi hest hs re im phi hin

theorem Traversed.polynomial (h : Traversed @P) (polyRoots : List (Cx K) → List (Cx K)) {est : LineEst σ K} {ctx : RCtx K} {c : Cell K} (pi : K)
    (hest : ∀ o a b, Cell.Has c a → Cell.Has c b → P (est o a b ctx)) {self : Decide σ K} (hs : DecideHas @P c ctx self) :
    DecideHas @P c ctx (polynomialDecide polyRoots est pi self) := by
  intro re im phi hin
  have hm : ∀ os, P (moments est pi re im ctx os) := by
    intro os
    induction os with
    | nil => exact h.pure _
    | cons o os ih => exact h.bind (h.calcMoment hest o hin) fun _ => h.bind ih fun _ => h.pure _
  unfold polynomialDecide
  rcases ctx.df with _ | df
  · exact h.throw _
  · dsimp only
    split
    · exact h.bind (h.addRoot _) fun _ => h.advance _ _
    · split
      · exact h.bind (hm _) fun _ => h.bind (h.addRoots _) fun _ => h.advance _ _
      · exact h.simple pi hest hs re im phi hin

theorem Traversed.calcRoots (h : Traversed @P) {est : LineEst σ K} {ctx : RCtx K} {body : Decide σ K → Decide σ K}
    (hre : ctx.reRan.1 ≤ ctx.reRan.2) (him : ctx.imRan.1 ≤ ctx.imRan.2)
    (hest : ∀ o a b, Cell.Has ⟨ctx.reRan, ctx.imRan, 0⟩ a → Cell.Has ⟨ctx.reRan, ctx.imRan, 0⟩ b → P (est o a b ctx))
    (hb : ∀ self, DecideHas @P ⟨ctx.reRan, ctx.imRan, 0⟩ ctx self → DecideHas @P ⟨ctx.reRan, ctx.imRan, 0⟩ ctx (body self)) (limit : ℕ) :
    P (calcRoots est body limit ctx) := by
  have hin : Inside ⟨ctx.reRan, ctx.imRan, 0⟩ ctx.reRan ctx.imRan := ⟨⟨le_rfl, hre⟩, ⟨hre, le_rfl⟩, ⟨le_rfl, him⟩, ⟨him, le_rfl⟩⟩
  have hd : ∀ n, DecideHas @P ⟨ctx.reRan, ctx.imRan, 0⟩ ctx (dispatch body n) := by
    intro n
    induction n with
    | zero => exact fun _ _ _ _ => h.throw _
    | succ n ih => exact hb _ ih
  exact h.bind h.reset fun _ => h.bind (h.phaseOf hest hin) fun phi => hd limit _ _ phi hin

end

/-! ## The internal caches at the points of a set -/

/-- the line cached at the point `p` on the height (abscissa) `z`, on the given side -/
def entryAt [DecidableEq K] (c : LineCache K) (z : K) (o : ℤ) (p : K) (s : Side) : Option (PhiLine K) :=
  (c.get? (z, o)).bind fun inner => inner.get? (p, s)

/-- two estimators have the same internal caches at the points of `S` -/
def AgreeAt [DecidableEq K] (S : Cx K → Prop) (e e' : SumState K) : Prop :=
  ∀ x y o s, S ⟨x, y⟩ → entryAt e.horizontal y o x s = entryAt e'.horizontal y o x s ∧ entryAt e.vertical x o y s = entryAt e'.vertical x o y s

section
variable [DecidableEq K] {S : Cx K → Prop}

theorem AgreeAt.refl (e : SumState K) : AgreeAt S e e := fun _ _ _ _ _ => ⟨rfl, rfl⟩

theorem AgreeAt.trans {e e' e'' : SumState K} (h : AgreeAt S e e') (h' : AgreeAt S e' e'') : AgreeAt S e e'' :=
  fun x y o s hS => ⟨(h x y o s hS).1.trans (h' x y o s hS).1, (h x y o s hS).2.trans (h' x y o s hS).2⟩

theorem AgreeAt.symm {e e' : SumState K} (h : AgreeAt S e e') : AgreeAt S e' e :=
  fun x y o s hS => ⟨(h x y o s hS).1.symm, (h x y o s hS).2.symm⟩

theorem AgreeAt.mono {S' : Cx K → Prop} {e e' : SumState K} (h : AgreeAt S e e') (hS : ∀ z, S' z → S z) : AgreeAt S' e e' :=
  fun x y o s h' => h x y o s (hS _ h')

/-- two searches in the same state, as far as the points of `S` are concerned -/
structure Twin (S : Cx K → Prop) (w w' : World (SumState K) K) : Prop where
  data : w.cache.data = w'.cache.data
  est : AgreeAt S w.est w'.est
  added : w.added = w'.added
  advances : w.advances = w'.advances
  fuse : w.fuse = w'.fuse
  log : w.log = w'.log

/-- the computation does the same in states which agree at the points of `S` -/
def Local (S : Cx K → Prop) {α : Type} (m : Py (World (SumState K) K) α) : Prop :=
  ∀ w w', Twin S w w' → (m w).1 = (m w').1 ∧ Twin S (m w).2 (m w').2

/-- the computation does not touch the internal caches at the points of `S` -/
def Spares (S : Cx K → Prop) {α : Type} (m : Py (World (SumState K) K) α) : Prop :=
  ∀ w, AgreeAt S w.est (m w).2.est

theorem Local.of_value {α : Type} {m : Py (World (SumState K) K) α} (h : ∀ w w', Twin S w w' → (m w).1 = (m w').1 ∧ Twin S (m w).2 (m w').2) : Local S m := h

theorem Local.bind {α β : Type} {m : Py (World (SumState K) K) α} {k : α → Py (World (SumState K) K) β} (hm : Local S m) (hk : ∀ a, Local S (k a)) :
    Local S (m >>= k) := by
  intro w w' h
  obtain ⟨h1, h2⟩ := hm w w' h
  rw [Py.bind_run, Py.bind_run]
  rcases e : m w with ⟨r, w1⟩
  rcases e' : m w' with ⟨r', w1'⟩
  rw [e, e'] at h1 h2
  dsimp only at h1 h2
  subst h1
  rcases r with er | a
  · exact ⟨rfl, h2⟩
  · exact hk a w1 w1' h2

theorem Local.tick : Local S (World.tick : Py (World (SumState K) K) Unit) := by
  intro w w' h
  unfold World.tick
  rw [← h.fuse]
  rcases hf : w.fuse with _ | _ | n
  · exact ⟨rfl, h⟩
  · exact ⟨rfl, h⟩
  · exact ⟨rfl, ⟨h.data, h.est, h.added, h.advances, rfl, h.log⟩⟩

theorem Local.pure {α : Type} (a : α) : Local S (pure a : Py (World (SumState K) K) α) := fun _ _ h => ⟨rfl, h⟩

theorem Local.throw {α : Type} (e : Err) : Local S (Py.throw e : Py (World (SumState K) K) α) := fun _ _ h => ⟨rfl, h⟩

end

section
variable [Field K] [LinearOrder K] {S : Cx K → Prop}

theorem store_data {c c' : EstCache K} (h : c.data = c'.data) (o : ℤ) (a b d : Cx K) : (c.store o a b d).data = (c'.store o a b d).data := by
  unfold EstCache.store
  rw [h]
  split <;> rfl

theorem remove_data {c c' : EstCache K} (h : c.data = c'.data) (o : ℤ) (a b : Cx K) : (c.remove o a b).data = (c'.remove o a b).data := by
  unfold EstCache.remove
  rw [h]
  split
  · exact h
  · rfl

theorem retrieve_data (c : EstCache K) (o : ℤ) (a b : Cx K) : (c.retrieve o a b).2.data = c.data := by
  unfold EstCache.retrieve
  dsimp only
  split <;> rfl

theorem Local.traversed : Traversed (fun {α} (m : Py (World (SumState K) K) α) => Local S m) where
  pure := Local.pure
  throw := Local.throw
  bind := Local.bind
  tick := Local.tick
  add := fun r w w' h => ⟨rfl, ⟨h.data, h.est, by show w.added ++ [r] = w'.added ++ [r]; rw [h.added], h.advances, h.fuse, h.log⟩⟩
  moved := fun a w w' h => ⟨rfl, ⟨h.data, h.est, h.added, by show w.advances ++ [a] = w'.advances ++ [a]; rw [h.advances], h.fuse, h.log⟩⟩
  noted := fun c w w' h => ⟨rfl, ⟨h.data, h.est, h.added, h.advances, h.fuse, by show w.log ++ [c] = w'.log ++ [c]; rw [h.log]⟩⟩
  retrieve := by
    intro o a b w w' h
    refine ⟨?_, ⟨?_, h.est, h.added, h.advances, h.fuse, h.log⟩⟩
    · show Except.ok (w.cache.retrieve o a b).1 = Except.ok (w'.cache.retrieve o a b).1
      unfold EstCache.retrieve
      rw [h.data]
    · show (w.cache.retrieve o a b).2.data = (w'.cache.retrieve o a b).2.data
      rw [retrieve_data, retrieve_data, h.data]
  store := fun o a b d w w' h => ⟨rfl, ⟨store_data (store_data h.data o a b d) o b a (-d), h.est, h.added, h.advances, h.fuse, h.log⟩⟩
  remove := fun a b w w' h => ⟨rfl, ⟨remove_data h.data 0 a b, h.est, h.added, h.advances, h.fuse, h.log⟩⟩
  reset := by
    intro w w' h
    unfold resetCache
    rw [Py.modify_run, Py.modify_run]
    refine ⟨rfl, ?_⟩
    dsimp only
    have hd : w.cache.dirty = w'.cache.dirty := by unfold EstCache.dirty; rw [h.data]
    rw [← hd]
    split
    · exact ⟨rfl, h.est, h.added, h.advances, h.fuse, h.log⟩
    · exact h
  except := by
    intro m hm w w' h
    obtain ⟨h1, h2⟩ := hm w w' h
    unfold Py.exceptRuntimeError
    rcases e : m w with ⟨r, w1⟩
    rcases e' : m w' with ⟨r', w1'⟩
    rw [e, e'] at h1 h2
    dsimp only at h1 h2
    subst h1
    rcases r with er | a
    · cases er <;> exact ⟨rfl, h2⟩
    · exact ⟨rfl, h2⟩
  final := by
    intro m fin hm hf w w' h
    obtain ⟨h1, h2⟩ := hm w w' h
    obtain ⟨h3, h4⟩ := hf _ _ h2
    unfold Py.tryFinally
    rw [← h1]
    rcases e : fin (m w).2 with ⟨r, w1⟩
    rcases e' : fin (m w').2 with ⟨r', w1'⟩
    rw [e, e'] at h3 h4
    dsimp only at h3 h4
    subst h3
    rcases r with er | a <;> exact ⟨rfl, h4⟩

theorem Spares.traversed : Traversed (fun {α} (m : Py (World (SumState K) K) α) => Spares S m) where
  pure := fun _ w => AgreeAt.refl _
  throw := fun _ w => AgreeAt.refl _
  bind := by
    intro α β m k hm hk w
    rw [Py.bind_run]
    have h1 := hm w
    rcases e : m w with ⟨r, w1⟩
    rw [e] at h1
    rcases r with er | a
    · exact h1
    · exact h1.trans (hk a w1)
  tick := by
    intro w
    unfold World.tick
    rcases hf : w.fuse with _ | _ | n <;> exact AgreeAt.refl _
  add := fun _ w => AgreeAt.refl _
  moved := fun _ w => AgreeAt.refl _
  noted := fun _ w => AgreeAt.refl _
  retrieve := fun _ _ _ w => AgreeAt.refl _
  store := fun _ _ _ _ w => AgreeAt.refl _
  remove := fun _ _ w => AgreeAt.refl _
  reset := by
    intro w
    unfold resetCache
    rw [Py.modify_run]
    dsimp only
    split <;> exact AgreeAt.refl _
  except := by
    intro m hm w
    have hx : (Py.exceptRuntimeError m w).2 = (m w).2 := by
      unfold Py.exceptRuntimeError
      rcases m w with ⟨e | _, w1⟩
      · cases e <;> rfl
      · rfl
    rw [hx]; exact hm w
  final := by
    intro m fin hm hf w
    have hx : (Py.tryFinally m fin w).2 = (fin (m w).2).2 := by
      unfold Py.tryFinally
      rcases fin (m w).2 with ⟨_ | _, w2⟩ <;> rfl
    rw [hx]; exact (hm w).trans (hf _)

end

/-! ## The lines of the summation estimator -/

section
variable [Field K] [LinearOrder K] [IsStrictOrderedRing K] [FloorRing K] {S : Cx K → Prop}

theorem entry_store (c : LineCache K) (z : K) (o : ℤ) (lo hi : K) (v : PhiLine K) (z' : K) (o' : ℤ) (p : K) (s : Side) :
    entryAt (storeCache c z o lo hi v) z' o' p s =
      if z' = z ∧ o' = o ∧ ((p = lo ∧ s = .start) ∨ (p = hi ∧ s = .stop)) then some v else entryAt c z' o' p s := by
  unfold entryAt storeCache
  dsimp only
  rw [Dict.get?_set]
  by_cases hz : z' = z ∧ o' = o
  · obtain ⟨rfl, rfl⟩ := hz
    rw [if_pos rfl]
    simp only [Option.bind_some, true_and]
    rw [Dict.get?_set, Dict.get?_set]
    by_cases h1 : (hi, Side.stop) = (p, s)
    · rw [if_pos h1]
      obtain ⟨rfl, rfl⟩ := Prod.mk.inj h1
      rw [if_pos (.inr ⟨rfl, rfl⟩)]
    · rw [if_neg h1]
      by_cases h2 : (lo, Side.start) = (p, s)
      · rw [if_pos h2]
        obtain ⟨rfl, rfl⟩ := Prod.mk.inj h2
        rw [if_pos (.inl ⟨rfl, rfl⟩)]
      · rw [if_neg h2, if_neg (by rintro (⟨rfl, rfl⟩ | ⟨rfl, rfl⟩) <;> simp_all)]
        cases c.get? (z', o') <;> rfl
  · rw [if_neg (by intro h; exact hz (Prod.mk.inj h.symm)), if_neg (by rintro ⟨rfl, rfl, _⟩; exact hz ⟨rfl, rfl⟩)]

theorem cachedLine_entries (c : LineCache K) (z : K) (o : ℤ) (lo hi : K) :
    cachedLine c z o lo hi = match entryAt c z o lo .start with
      | some v => some (.start, v)
      | none => (entryAt c z o hi .stop).map fun v => (.stop, v) := by
  unfold cachedLine entryAt
  cases c.get? (z, o) <;> rfl

theorem Local.sampling (cfg : SumCfg K) (o : ℤ) (a b : Cx K) (ctx : RCtx K) (v : Option (PhiLine K)) : Local S (sliceOrSample cfg o a b ctx v) := by
  have T : Traversed (fun {α} (m : Py (World (SumState K) K) α) => Local S m) := Local.traversed
  have hB : Basic ctx.f (fun {α} (m : Py (World (SumState K) K) α) => Local S m) :=
    { pure := Local.pure, throw := fun e _ => Local.throw e, bind := Local.bind, tick := Local.tick, hit := fun r _ _ => T.addRoot r }
  have hrefine : ∀ n idx z p, Local S (refineLoop cfg ctx n idx z p) := by
    intro n
    induction n with
    | zero => intro idx z p; exact Local.throw _
    | succ n ih =>
      intro idx z p
      simp only [refineLoop]
      split
      · exact Local.pure _
      · split
        · exact Local.pure _
        · split
          · exact Local.pure _
          · exact Local.bind (hB.genFuncArr _ _ _ _) fun _ => ih _ _ _
  rcases v with _ | v
  · change Local S (genPhiArr cfg o a b ctx)
    unfold genPhiArr
    split
    · exact Local.throw _
    · exact Local.bind (hB.genFuncArr _ _ _ _) fun _ => hrefine _ _ _ _
  · exact Local.pure _

theorem Local.store {e e' : SumState K} (h : AgreeAt S e e') (z : K) (o : ℤ) (lo hi : K) (v : PhiLine K) :
    AgreeAt S { e with horizontal := storeCache e.horizontal z o lo hi v } { e' with horizontal := storeCache e'.horizontal z o lo hi v } ∧
    AgreeAt S { e with vertical := storeCache e.vertical z o lo hi v } { e' with vertical := storeCache e'.vertical z o lo hi v } := by
  constructor <;> intro x y o' s hS <;> obtain ⟨h1, h2⟩ := h x y o' s hS <;> dsimp only <;> rw [entry_store, entry_store]
  · exact ⟨by rw [h1], h2⟩
  · exact ⟨h1, by rw [h2]⟩

theorem points_mem {S : Cx K → Prop} {x1 x2 y : K} (ha : S ⟨x1, y⟩) (hb : S ⟨x2, y⟩) : S ⟨min x1 x2, y⟩ ∧ S ⟨max x1 x2, y⟩ := by
  rcases le_total x1 x2 with h | h
  · rw [min_eq_left h, max_eq_right h]; exact ⟨ha, hb⟩
  · rw [min_eq_right h, max_eq_left h]; exact ⟨hb, ha⟩

theorem pointsV_mem {S : Cx K → Prop} {y1 y2 x : K} (ha : S ⟨x, y1⟩) (hb : S ⟨x, y2⟩) : S ⟨x, min y1 y2⟩ ∧ S ⟨x, max y1 y2⟩ := by
  rcases le_total y1 y2 with h | h
  · rw [min_eq_left h, max_eq_right h]; exact ⟨ha, hb⟩
  · rw [min_eq_right h, max_eq_left h]; exact ⟨hb, ha⟩

theorem Local.horizontal (cfg : SumCfg K) (o : ℤ) (x1 x2 y : K) (ctx : RCtx K) (ha : S ⟨x1, y⟩) (hb : S ⟨x2, y⟩) :
    Local S (retrieveCachedHorizontal cfg o x1 x2 y ctx) := by
  obtain ⟨hlo, hhi⟩ := points_mem ha hb
  intro w w' h
  have hr : reuseH w.est.horizontal o (min x1 x2) (max x1 x2) y = reuseH w'.est.horizontal o (min x1 x2) (max x1 x2) y := by
    unfold reuseH
    rw [cachedLine_entries, cachedLine_entries, (h.est _ _ o .start hlo).1, (h.est _ _ o .stop hhi).1]
  have key : ∀ r, Local S (do
      let v ← sliceOrSample cfg o ⟨min x1 x2, y⟩ ⟨max x1 x2, y⟩ ctx r
      Py.modify fun w => { w with est := { w.est with horizontal := storeCache w.est.horizontal y o (min x1 x2) (max x1 x2) v } }
      Pure.pure (Cx.ofK (lineSign x1 x2 * v.2.sum)) : Py (World (SumState K) K) (Cx K)) := fun r =>
    Local.bind (Local.sampling cfg o _ _ ctx r) fun v => Local.bind
      (fun w w' h => ⟨rfl, ⟨h.data, (Local.store h.est y o _ _ v).1, h.added, h.advances, h.fuse, h.log⟩⟩) fun _ => Local.pure _
  have := key (reuseH w.est.horizontal o (min x1 x2) (max x1 x2) y) w w' h
  unfold retrieveCachedHorizontal
  rw [Py.bind_run, Py.bind_run, Py.get_run, Py.get_run]
  dsimp only
  rw [← hr]
  exact this

theorem Local.vertical (cfg : SumCfg K) (o : ℤ) (y1 y2 x : K) (ctx : RCtx K) (ha : S ⟨x, y1⟩) (hb : S ⟨x, y2⟩) :
    Local S (retrieveCachedVertical cfg o y1 y2 x ctx) := by
  obtain ⟨hlo, hhi⟩ := pointsV_mem ha hb
  intro w w' h
  have hr : reuseV w.est.vertical o (min y1 y2) (max y1 y2) x = reuseV w'.est.vertical o (min y1 y2) (max y1 y2) x := by
    unfold reuseV
    rw [cachedLine_entries, cachedLine_entries, (h.est _ _ o .start hlo).2, (h.est _ _ o .stop hhi).2]
  have key : ∀ r, Local S (do
      let r ← liftReuse r
      let v ← sliceOrSample cfg o ⟨x, min y1 y2⟩ ⟨x, max y1 y2⟩ ctx r
      Py.modify fun w => { w with est := { w.est with vertical := storeCache w.est.vertical x o (min y1 y2) (max y1 y2) v } }
      Pure.pure (Cx.ofK (lineSign y1 y2 * v.2.sum)) : Py (World (SumState K) K) (Cx K)) := fun r =>
    Local.bind (by cases r <;> first | exact Local.throw _ | exact Local.pure _) fun r => Local.bind (Local.sampling cfg o _ _ ctx r) fun v => Local.bind
      (fun w w' h => ⟨rfl, ⟨h.data, (Local.store h.est x o _ _ v).2, h.added, h.advances, h.fuse, h.log⟩⟩) fun _ => Local.pure _
  have := key (reuseV w.est.vertical o (min y1 y2) (max y1 y2) x) w w' h
  unfold retrieveCachedVertical
  rw [Py.bind_run, Py.bind_run, Py.get_run, Py.get_run]
  dsimp only
  rw [← hr]
  exact this

/-- a line whose end points lie in `S` is answered in the same way by estimators which agree there -/
theorem Local.line (cfg : SumCfg K) (o : ℤ) (a b : Cx K) (ctx : RCtx K) (ha : S a) (hb : S b) : Local S (sumLine cfg o a b ctx) := by
  rcases a with ⟨a1, a2⟩
  rcases b with ⟨b1, b2⟩
  unfold sumLine
  dsimp only
  split
  · rename_i h; subst h; exact Local.horizontal cfg o _ _ _ ctx ha hb
  · split
    · rename_i h; subst h; exact Local.vertical cfg o _ _ _ ctx ha hb
    · exact Local.throw _

theorem Spares.sampling (cfg : SumCfg K) (o : ℤ) (a b : Cx K) (ctx : RCtx K) (v : Option (PhiLine K)) : Spares S (sliceOrSample cfg o a b ctx v) := by
  have T : Traversed (fun {α} (m : Py (World (SumState K) K) α) => Spares S m) := Spares.traversed
  have hB : Basic ctx.f (fun {α} (m : Py (World (SumState K) K) α) => Spares S m) :=
    { pure := T.pure, throw := fun e _ => T.throw e, bind := T.bind, tick := T.tick, hit := fun r _ _ => T.addRoot r }
  have hrefine : ∀ n idx z p, Spares S (refineLoop cfg ctx n idx z p) := by
    intro n
    induction n with
    | zero => intro idx z p; exact T.throw _
    | succ n ih =>
      intro idx z p
      simp only [refineLoop]
      split
      · exact T.pure _
      · split
        · exact T.pure _
        · split
          · exact T.pure _
          · exact T.bind (hB.genFuncArr _ _ _ _) fun _ => ih _ _ _
  rcases v with _ | v
  · change Spares S (genPhiArr cfg o a b ctx)
    unfold genPhiArr
    split
    · exact T.throw _
    · exact T.bind (hB.genFuncArr _ _ _ _) fun _ => hrefine _ _ _ _
  · exact T.pure _

/-- a line whose end points do not lie in `S` does not change the internal caches at the points of `S` -/
theorem Spares.line (cfg : SumCfg K) (o : ℤ) (a b : Cx K) (ctx : RCtx K) (ha : ¬ S a) (hb : ¬ S b) : Spares S (sumLine cfg o a b ctx) := by
  have T : Traversed (fun {α} (m : Py (World (SumState K) K) α) => Spares S m) := Spares.traversed
  rcases a with ⟨a1, a2⟩
  rcases b with ⟨b1, b2⟩
  unfold sumLine
  dsimp only
  split
  · rename_i h
    subst h
    obtain ⟨hlo, hhi⟩ := points_mem (S := fun z => ¬ S z) ha hb
    unfold retrieveCachedHorizontal
    refine T.bind (fun w => AgreeAt.refl _) fun w0 => T.bind (Spares.sampling cfg o _ _ ctx _) fun v => T.bind (fun w => ?_) fun _ => T.pure _
    intro x y o' s hS
    refine ⟨?_, rfl⟩
    show _ = entryAt (storeCache _ _ _ _ _ _) _ _ _ _
    rw [entry_store, if_neg]
    rintro ⟨rfl, rfl, ⟨rfl, _⟩ | ⟨rfl, _⟩⟩
    · exact hlo hS
    · exact hhi hS
  · split
    · rename_i h
      subst h
      obtain ⟨hlo, hhi⟩ := pointsV_mem (S := fun z => ¬ S z) ha hb
      unfold retrieveCachedVertical
      refine T.bind (fun w => AgreeAt.refl _) fun w0 => T.bind ?_ fun r => T.bind (Spares.sampling cfg o _ _ ctx _) fun v => T.bind (fun w => ?_) fun _ => T.pure _
      · generalize reuseV w0.est.vertical o _ _ _ = r
        cases r
        · exact T.throw _
        · exact T.pure _
      · intro x y o' s hS
        refine ⟨rfl, ?_⟩
        show _ = entryAt (storeCache _ _ _ _ _ _) _ _ _ _
        rw [entry_store, if_neg]
        rintro ⟨rfl, rfl, ⟨rfl, _⟩ | ⟨rfl, _⟩⟩
        · exact hlo hS
        · exact hhi hS
    · exact T.throw _

end
/-! ## Whole searches -/

section
variable [Field K] [LinearOrder K] [IsStrictOrderedRing K] [FloorRing K] {S : Cx K → Prop}

/-- the same state, apart from the caches, as far as the points of `S` are concerned -/
structure Kin (S : Cx K → Prop) (w w' : World (SumState K) K) : Prop where
  est : AgreeAt S w.est w'.est
  added : w.added = w'.added
  advances : w.advances = w'.advances
  fuse : w.fuse = w'.fuse
  log : w.log = w'.log

theorem Twin.kin {w w' : World (SumState K) K} (h : Twin S w w') : Kin S w w' := ⟨h.est, h.added, h.advances, h.fuse, h.log⟩

/-- how two runs compare which start in states with different caches -/
def LocalK (S : Cx K → Prop) (m : Py (World (SumState K) K) Unit) : Prop :=
  ∀ w w', Kin S w w' → (m w).1 = (m w').1 ∧ Kin S (m w).2 (m w').2

theorem reset_clean (w : World (SumState K) K) : ∃ w1, resetCache w = (.ok (), w1) ∧ w1.cache.data = [] ∧ w1.est = w.est ∧ w1.added = w.added ∧
    w1.advances = w.advances ∧ w1.fuse = w.fuse ∧ w1.log = w.log := by
  unfold resetCache
  rw [Py.modify_run]
  refine ⟨_, rfl, ?_⟩
  by_cases h : w.cache.dirty = true
  · rw [if_pos h]; exact ⟨rfl, rfl, rfl, rfl, rfl, rfl⟩
  · rw [if_neg h]
    refine ⟨?_, rfl, rfl, rfl, rfl, rfl⟩
    unfold EstCache.dirty at h
    have : ¬ 0 < w.cache.data.length := fun h' => h (decide_eq_true h')
    exact List.length_eq_zero_iff.1 (by omega)

theorem LocalK.of_reset {k : Py (World (SumState K) K) Unit} (hk : Local S k) : LocalK S (resetCache >>= fun _ => k) := by
  intro w w' h
  obtain ⟨v, e, d, a1, a2, a3, a4, a5⟩ := reset_clean w
  obtain ⟨v', e', d', b1, b2, b3, b4, b5⟩ := reset_clean w'
  rw [Py.bind_run, Py.bind_run, e, e']
  have ht : Twin S v v' := ⟨d.trans d'.symm, by rw [a1, b1]; exact h.est, by rw [a2, b2, h.added], by rw [a3, b3, h.advances], by rw [a4, b4, h.fuse],
    by rw [a5, b5, h.log]⟩
  exact ⟨(hk v v' ht).1, (hk v v' ht).2.kin⟩

theorem Local.shipped {est : LineEst (SumState K) K} (he : ShippedEstimator est) (o : ℤ) (a b : Cx K) (ctx : RCtx K) (ha : S a) (hb : S b) :
    Local S (est o a b ctx) := by
  cases he with
  | summation cfg => exact Local.line cfg o a b ctx ha hb
  | quadrature cfg =>
    have T : Traversed (fun {α} (m : Py (World (SumState K) K) α) => Local S m) := Local.traversed
    have hB : Basic ctx.f (fun {α} (m : Py (World (SumState K) K) α) => Local S m) :=
      { pure := Local.pure, throw := fun e _ => Local.throw e, bind := Local.bind, tick := Local.tick, hit := fun r _ _ => T.addRoot r }
    exact hB.quadLine cfg o a b

theorem Spares.shipped {est : LineEst (SumState K) K} (he : ShippedEstimator est) (o : ℤ) (a b : Cx K) (ctx : RCtx K) (ha : ¬ S a) (hb : ¬ S b) :
    Spares S (est o a b ctx) := by
  cases he with
  | summation cfg => exact Spares.line cfg o a b ctx ha hb
  | quadrature cfg =>
    have T : Traversed (fun {α} (m : Py (World (SumState K) K) α) => Spares S m) := Spares.traversed
    have hB : Basic ctx.f (fun {α} (m : Py (World (SumState K) K) α) => Spares S m) :=
      { pure := T.pure, throw := fun e _ => T.throw e, bind := T.bind, tick := T.tick, hit := fun r _ _ => T.addRoot r }
    exact hB.quadLine cfg o a b

theorem algorithm_shipped {alg : RCtx K → Py (World (SumState K) K) Unit} (h : ShippedAlgorithm alg) : AlgorithmWith ShippedEstimator alg := by
  cases h with
  | simple est pi limit he => exact .simple est pi limit he
  | newton nt est pi limit he => exact .newton nt est pi limit he
  | polynomial pr est pi limit he => exact .polynomial pr est pi limit he
  | grid nt n t => exact .grid nt n t

theorem body_local {P : ∀ {α : Type}, Py (World (SumState K) K) α → Prop} (T : Traversed @P) {E : LineEst (SumState K) K → Prop}
    {alg : RCtx K → Py (World (SumState K) K) Unit} (ha : AlgorithmWith E alg)
    (ctx : RCtx K) (hre : ctx.reRan.1 ≤ ctx.reRan.2) (him : ctx.imRan.1 ≤ ctx.imRan.2)
    (hest : ∀ est, E est → ∀ o a b, Cell.Has ⟨ctx.reRan, ctx.imRan, 0⟩ a → Cell.Has ⟨ctx.reRan, ctx.imRan, 0⟩ b → P (est o a b ctx)) :
    ∃ k, P k ∧ (alg ctx = (resetCache >>= fun _ => k) ∨ (alg ctx = k ∧ ∃ nt n t, alg = newtonGrid nt n t)) := by
  have hin : Inside ⟨ctx.reRan, ctx.imRan, 0⟩ ctx.reRan ctx.imRan := ⟨⟨le_rfl, hre⟩, ⟨hre, le_rfl⟩, ⟨le_rfl, him⟩, ⟨him, le_rfl⟩⟩
  have key : ∀ (est : LineEst (SumState K) K) (he : E est) (body : Decide (SumState K) K → Decide (SumState K) K) (limit : ℕ)
      (hb : ∀ self, DecideHas @P ⟨ctx.reRan, ctx.imRan, 0⟩ ctx self → DecideHas @P ⟨ctx.reRan, ctx.imRan, 0⟩ ctx (body self)),
      ∃ k, P k ∧ calcRoots est body limit ctx = (resetCache >>= fun _ => k) := by
    intro est he body limit hb
    refine ⟨phaseOf est ctx.reRan ctx.imRan ctx >>= fun phi => dispatch body limit ctx.reRan ctx.imRan phi ctx, ?_, rfl⟩
    have hd : ∀ n, DecideHas @P ⟨ctx.reRan, ctx.imRan, 0⟩ ctx (dispatch body n) := by
      intro n
      induction n with
      | zero => exact fun _ _ _ _ => T.throw _
      | succ n ih => exact hb _ ih
    exact T.bind (T.phaseOf (hest est he) hin) fun phi => hd limit _ _ phi hin
  cases ha with
  | simple est pi limit he =>
    obtain ⟨k, h1, h2⟩ := key est he (simpleDecide est pi) limit fun self hs => T.simple pi (hest est he) hs
    exact ⟨k, h1, .inl h2⟩
  | newton nt est pi limit he =>
    obtain ⟨k, h1, h2⟩ := key est he (newtonDecide nt est pi) limit fun self hs => T.newton nt pi (hest est he) hs
    exact ⟨k, h1, .inl h2⟩
  | polynomial pr est pi limit he =>
    obtain ⟨k, h1, h2⟩ := key est he (polynomialDecide pr est pi) limit fun self hs => T.polynomial pr pi (hest est he) hs
    exact ⟨k, h1, .inl h2⟩
  | grid nt n t =>
    refine ⟨newtonGrid nt n t ctx, ?_, .inr ⟨rfl, nt, n, t, rfl⟩⟩
    unfold newtonGrid
    split
    · exact T.pure _
    · refine T.bind (T.addRoots _) fun _ => ?_
      split
      · exact T.advance _ _
      · exact T.pure _

theorem LocalK.bind {m : Py (World (SumState K) K) Unit} {k : Unit → Py (World (SumState K) K) Unit} (hm : LocalK S m) (hk : ∀ a, LocalK S (k a)) :
    LocalK S (m >>= k) := by
  intro w w' h
  obtain ⟨h1, h2⟩ := hm w w' h
  rw [Py.bind_run, Py.bind_run]
  rcases e : m w with ⟨r, w1⟩
  rcases e' : m w' with ⟨r', w1'⟩
  rw [e, e'] at h1 h2
  dsimp only at h1 h2
  subst h1
  rcases r with er | a
  · exact ⟨rfl, h2⟩
  · exact hk a w1 w1' h2

theorem LocalK.tick : LocalK S (World.tick : Py (World (SumState K) K) Unit) := by
  intro w w' h
  unfold World.tick
  rw [← h.fuse]
  rcases hf : w.fuse with _ | _ | n
  · exact ⟨rfl, h⟩
  · exact ⟨rfl, h⟩
  · exact ⟨rfl, ⟨h.est, h.added, h.advances, rfl, h.log⟩⟩

theorem LocalK.grid (nt : NewtonSolver K) (n : ℕ) (t : Bool) (ctx : RCtx K) : LocalK S (newtonGrid nt n t ctx : Py (World (SumState K) K) Unit) := by
  have hadd : ∀ rs : List (Root K), LocalK S (World.addRoots rs : Py (World (SumState K) K) Unit) := by
    intro rs
    induction rs with
    | nil => exact fun w w' h => ⟨rfl, h⟩
    | cons r rs ih =>
      exact LocalK.bind (LocalK.bind LocalK.tick fun _ w w' h =>
        ⟨rfl, ⟨h.est, by show w.added ++ [r] = w'.added ++ [r]; rw [h.added], h.advances, h.fuse, h.log⟩⟩) fun _ => ih
  unfold newtonGrid
  split
  · exact fun w w' h => ⟨rfl, h⟩
  · refine LocalK.bind (hadd _) fun _ => ?_
    split
    · unfold World.advance
      split
      · exact LocalK.bind LocalK.tick fun _ w w' h =>
          ⟨rfl, ⟨h.est, h.added, by show w.advances ++ [_] = w'.advances ++ [_]; rw [h.advances], h.fuse, h.log⟩⟩
      · exact fun w w' h => ⟨rfl, h⟩
    · exact fun w w' h => ⟨rfl, h⟩

theorem algorithm_local {E : LineEst (SumState K) K → Prop} {alg : RCtx K → Py (World (SumState K) K) Unit} (ha : AlgorithmWith E alg) (ctx : RCtx K)
    (hre : ctx.reRan.1 ≤ ctx.reRan.2) (him : ctx.imRan.1 ≤ ctx.imRan.2)
    (hest : ∀ est, E est → ∀ o a b, Cell.Has ⟨ctx.reRan, ctx.imRan, 0⟩ a → Cell.Has ⟨ctx.reRan, ctx.imRan, 0⟩ b → Local S (est o a b ctx)) : LocalK S (alg ctx) := by
  by_cases hg : ∃ nt n t, alg = newtonGrid nt n t
  · obtain ⟨nt, n, t, rfl⟩ := hg
    exact LocalK.grid nt n t ctx
  · have T : Traversed (fun {α} (m : Py (World (SumState K) K) α) => Local S m) := Local.traversed
    obtain ⟨k, h1, h2 | h2⟩ := body_local T ha ctx hre him hest
    · rw [h2]; exact LocalK.of_reset h1
    · exact absurd h2.2 hg

theorem shipped_local {alg : RCtx K → Py (World (SumState K) K) Unit} (ha : ShippedAlgorithm alg) (ctx : RCtx K)
    (hre : ctx.reRan.1 ≤ ctx.reRan.2) (him : ctx.imRan.1 ≤ ctx.imRan.2) (hS : ∀ z, Cell.Has ⟨ctx.reRan, ctx.imRan, 0⟩ z → S z) : LocalK S (alg ctx) :=
  algorithm_local (algorithm_shipped ha) ctx hre him fun _ he o a b h h' => Local.shipped he o a b ctx (hS a h) (hS b h')

/-- algorithms with the quadrature estimator: the state of the estimator does not matter -/
theorem quadrature_local {alg : RCtx K → Py (World (SumState K) K) Unit} (ha : AlgorithmWith IsQuadrature alg) (ctx : RCtx K)
    (hre : ctx.reRan.1 ≤ ctx.reRan.2) (him : ctx.imRan.1 ≤ ctx.imRan.2) : LocalK (fun _ => False) (alg ctx) := by
  refine algorithm_local ha ctx hre him ?_
  rintro _ ⟨cfg⟩ o a b - -
  have T : Traversed (fun {α} (m : Py (World (SumState K) K) α) => Local (fun _ => False) m) := Local.traversed
  have hB : Basic ctx.f (fun {α} (m : Py (World (SumState K) K) α) => Local (fun _ => False) m) :=
    { pure := Local.pure, throw := fun e _ => Local.throw e, bind := Local.bind, tick := Local.tick, hit := fun r _ _ => T.addRoot r }
  exact hB.quadLine cfg o a b

theorem shipped_spares {alg : RCtx K → Py (World (SumState K) K) Unit} (ha : ShippedAlgorithm alg) (ctx : RCtx K)
    (hre : ctx.reRan.1 ≤ ctx.reRan.2) (him : ctx.imRan.1 ≤ ctx.imRan.2) (hS : ∀ z, Cell.Has ⟨ctx.reRan, ctx.imRan, 0⟩ z → ¬ S z) : Spares S (alg ctx) := by
  have T : Traversed (fun {α} (m : Py (World (SumState K) K) α) => Spares S m) := Spares.traversed
  obtain ⟨k, h1, h2 | h2⟩ := body_local T (algorithm_shipped ha) ctx hre him fun est he o a b h h' => Spares.shipped he o a b ctx (hS a h) (hS b h')
  · rw [h2]; exact T.bind T.reset fun _ => h1
  · rw [h2.1]; exact h1

/-! ## Candidates are only added -/

/-- the computation hands candidates to the container, and takes none back -/
def Adds {α : Type} (m : Py (World (SumState K) K) α) : Prop := ∀ w, ∃ A, (m w).2.added = w.added ++ A

theorem Adds.of_same {α : Type} {m : Py (World (SumState K) K) α} (h : ∀ w, (m w).2.added = w.added) : Adds m := fun w => ⟨[], by rw [h w, List.append_nil]⟩

theorem Adds.traversed : Traversed (fun {α} (m : Py (World (SumState K) K) α) => Adds m) where
  pure := fun _ => Adds.of_same fun w => rfl
  throw := fun _ => Adds.of_same fun w => rfl
  bind := by
    intro α β m k hm hk w
    rw [Py.bind_run]
    obtain ⟨A, hA⟩ := hm w
    rcases e : m w with ⟨r, w1⟩
    rw [e] at hA
    rcases r with er | a
    · exact ⟨A, hA⟩
    · obtain ⟨B, hB⟩ := hk a w1
      exact ⟨A ++ B, by dsimp only at hA ⊢; rw [hB, hA, List.append_assoc]⟩
  tick := by
    refine Adds.of_same fun w => ?_
    unfold World.tick
    rcases hf : w.fuse with _ | _ | n <;> rfl
  add := fun r w => ⟨[r], rfl⟩
  moved := fun _ => Adds.of_same fun w => rfl
  noted := fun _ => Adds.of_same fun w => rfl
  retrieve := fun _ _ _ => Adds.of_same fun w => rfl
  store := fun _ _ _ _ => Adds.of_same fun w => rfl
  remove := fun _ _ => Adds.of_same fun w => rfl
  reset := by
    refine Adds.of_same fun w => ?_
    unfold resetCache
    rw [Py.modify_run]
    dsimp only
    split <;> rfl
  except := by
    intro m hm w
    have hx : (Py.exceptRuntimeError m w).2 = (m w).2 := by
      unfold Py.exceptRuntimeError
      rcases m w with ⟨e | _, w1⟩
      · cases e <;> rfl
      · rfl
    rw [hx]; exact hm w
  final := by
    intro m fin hm hf w
    have hx : (Py.tryFinally m fin w).2 = (fin (m w).2).2 := by
      unfold Py.tryFinally
      rcases fin (m w).2 with ⟨_ | _, w2⟩ <;> rfl
    obtain ⟨A, hA⟩ := hm w
    obtain ⟨B, hB⟩ := hf (m w).2
    rw [hx]; exact ⟨A ++ B, by rw [hB, hA, List.append_assoc]⟩

theorem shipped_adds {alg : RCtx K → Py (World (SumState K) K) Unit} (ha : ShippedAlgorithm alg) (ctx : RCtx K)
    (hre : ctx.reRan.1 ≤ ctx.reRan.2) (him : ctx.imRan.1 ≤ ctx.imRan.2) : Adds (alg ctx) := by
  have T : Traversed (fun {α} (m : Py (World (SumState K) K) α) => Adds m) := Adds.traversed
  have hh : ∀ m : Py (World (SumState K) K) (Cx K), OnlyHits ctx.f m → Adds m := by
    intro m h w
    obtain ⟨_, _, _, zs, h, _⟩ := h w
    exact ⟨zs, h⟩
  obtain ⟨k, h1, h2 | h2⟩ := body_local T (algorithm_shipped ha) ctx hre him fun est he o a b _ _ => by
    cases he with
    | summation cfg => exact hh _ (sumLine_hits cfg ctx o a b)
    | quadrature cfg => exact hh _ (quadLine_hits cfg ctx o a b)
  · rw [h2]; exact T.bind T.reset fun _ => h1
  · rw [h2.1]; exact h1

end
end PyZeal
