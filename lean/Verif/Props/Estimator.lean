import Verif.Proof.Sampling
import Mathlib.Tactic.NormNum

/-! # Properties C17–C24: estimator cache, moments around rectangles, boundary sampling -/

set_option linter.unusedSectionVars false

namespace PyZeal.Props
open Spec
variable {K : Type} [Field K] [DecidableEq K] {σ : Type}

/-- C17. After any history on a new cache, `retrieve` returns a value iff it was the one stored last
under exactly this key and neither removed nor reset since. -/
theorem C17_cache_is_a_map (d : Bool) (ops : List (COp K)) (o : ℤ) (a b v : Cx K) :
    (((EstCache.init d).run ops).1.retrieve o a b).1 = some v ↔ LastStored ops o a b v := by
  rw [EstCache.retrieve_fst]; exact look_iff d ops o a b v

example : LastStored ([.store 0 ⟨0, 0⟩ ⟨1, 0⟩ ⟨3, 0⟩, .remove 0 ⟨1, 0⟩ ⟨0, 0⟩] : List (COp ℚ)) 0
    ⟨0, 0⟩ ⟨1, 0⟩ ⟨3, 0⟩ := ⟨[], [_], rfl, by simp [Kills]⟩

/-- C18 is false of the code: after storing and removing an entry the cache reports `dirty` although no
key has a value. -/
theorem C18_counterexample :
    ∃ ops : List (COp ℚ), ((EstCache.init false).run ops).1.dirty = true ∧
      ∀ o a b, (((EstCache.init false).run ops).1.retrieve o a b).1 = none := by
  refine ⟨[.store 0 0 1 1, .remove 0 0 1], by decide +kernel, ?_⟩
  intro o a b
  rw [Option.eq_none_iff_forall_not_mem]
  intro v hv
  have := (C17_cache_is_a_map false _ o a b v).1 hv
  obtain ⟨pre, post, h1, h2⟩ := this
  rcases pre with _ | ⟨x, _ | ⟨y, pre⟩⟩
  · simp only [List.nil_append, List.cons.injEq, COp.store.injEq] at h1
    obtain ⟨⟨rfl, rfl, rfl, _⟩, rfl⟩ := h1
    exact h2 (.remove 0 0 1) (by simp) ⟨rfl, rfl, rfl⟩
  · simp at h1
  · simp at h1

/-- C18, proved part: a cache holding a value is dirty; a cache that is not dirty holds nothing.
(Missing: the converse, false by `C18_counterexample`.) -/
theorem C18_partial (d : Bool) (ops : List (COp K)) (o : ℤ) (a b v : Cx K)
    (h : (((EstCache.init d).run ops).1.retrieve o a b).1 = some v) :
    ((EstCache.init (K := K) d).run ops).1.dirty = true := by
  rw [EstCache.retrieve_fst] at h
  unfold EstCache.look at h
  unfold EstCache.dirty
  rcases hd : ((EstCache.init (K := K) d).run ops).1.data with _ | ⟨x, l⟩
  · rw [hd] at h; simp at h
  · simp

/-- C19. `L o a b` is the deterministic line moment, changing sign with orientation; the
estimator returns it (or raises) and does not itself touch the shared cache. After any history of
`calcMoment` (of the same function), `remove` and `reset` calls – interrupted or not –
`calcMoment` returns the sum of the moments along the counter-clockwise boundary. -/
theorem C19_caching_is_transparent (L : ℤ → Cx K → Cx K → Cx K) (hL : ∀ o a b, L o b a = -L o a b)
    (est : LineEst σ K) (f : Cx K → Cx K)
    (hest : ∀ o a b ctx w, ctx.f = f → (est o a b ctx w).2.cache = w.cache ∧
      ∀ v, (est o a b ctx w).1 = .ok v → v = L o a b)
    (hist : List (EOp K)) (hf : ∀ o re im ctx, EOp.moment o re im ctx ∈ hist → ctx.f = f)
    (w : World σ K) (d : Bool) (hw : w.cache = EstCache.init d)
    (o : ℤ) (re im : K × K) (ctx : RCtx K) (hctx : ctx.f = f) (v : Cx K)
    (hv : (calcMoment est o re im ctx (runEOps est w hist)).1 = .ok v) :
    v = L o ⟨re.1, im.1⟩ ⟨re.2, im.1⟩ + L o ⟨re.2, im.1⟩ ⟨re.2, im.2⟩ +
      L o ⟨re.2, im.2⟩ ⟨re.1, im.2⟩ + L o ⟨re.1, im.2⟩ ⟨re.1, im.1⟩ := by
  have key : ∀ (hist : List (EOp K)) (w : World σ K), Coherent L w.cache → CacheWF w.cache →
      (∀ o re im ctx, EOp.moment o re im ctx ∈ hist → ctx.f = f) →
      Coherent L (runEOps est w hist).cache := by
    intro hist
    induction hist with
    | nil => intro w h _ _; exact h
    | cons op hist ih =>
      intro w h1 h2 h3
      have h3' : ∀ o re im ctx, EOp.moment o re im ctx ∈ hist → ctx.f = f :=
        fun o re im ctx hm => h3 o re im ctx (by simp [hm])
      cases op with
      | moment o re im ctx =>
        have hf1 : ctx.f = f := h3 o re im ctx (by simp)
        exact ih _ (calcMoment_coherent hL (fun o a b w => hest o a b _ w hf1) o re im h1).1
          (sumEdges_wf (fun o a b w hw => hw.of_data (by
            rw [(hest o a b ctx w hf1).1])) o _ _ h2) h3'
      | remove o a b => exact ih _ (Coherent.remove h2 h1 o a b) (h2.remove o a b) h3'
      | reset =>
        refine ih _ ?_ ?_ h3'
        · intro o a b v hv; dsimp only at hv; rw [EstCache.look_reset] at hv; simp at hv
        · exact ⟨Dict.wf_nil, by simp [EstCache.reset]⟩
  refine (calcMoment_coherent hL (fun o a b w => hest o a b _ w hctx) o re im (key hist w ?_ ?_ hf)).2 v hv
  · rw [hw]; intro o a b v hv; simp [EstCache.init, EstCache.look] at hv
  · rw [hw]; exact CacheWF.init d

/-- non-vacuity of C19: an additive line function and a pure estimator meet the hypotheses. -/
example : let L : ℤ → Cx ℚ → Cx ℚ → Cx ℚ := fun _ a b => ⟨(b.re - a.re) * (a.im + b.im), 0⟩
    let est : LineEst Unit ℚ := fun o a b _ w => (.ok (L o a b), w)
    (∀ o a b, L o b a = -L o a b) ∧
    ∀ o a b (ctx : RCtx ℚ) w, (est o a b ctx w).2.cache = w.cache ∧
      ∀ v, (est o a b ctx w).1 = .ok v → v = L o a b := by
  refine ⟨?_, ?_⟩
  · intro o a b; ext <;> simp; ring
  · intro o a b ctx w; exact ⟨rfl, fun v h => by cases h; rfl⟩

/-- an estimator that records which lines it evaluates -/
def recording (L : ℤ → Cx K → Cx K → Cx K) : LineEst (List (ℤ × Cx K × Cx K)) K :=
  fun o a b _ w => (.ok (L o a b), { w with est := w.est ++ [(o, a, b)] })

/-- C20. In an uninterrupted `calcMoment` on a proper rectangle, from any cache state: a line is
evaluated iff it is an edge that is not cached or cached with value 0; each edge is
evaluated at most once (in the order of the boundary); afterwards each edge is cached, and each
evaluated one in both orientations with opposite values; nothing else in the cache changes. -/
theorem C20_lines_computed_once (L : ℤ → Cx K → Cx K → Cx K) (o : ℤ) (re im : K × K)
    (hre : re.1 ≠ re.2) (him : im.1 ≠ im.2) (ctx : RCtx K)
    (w : World (List (ℤ × Cx K × Cx K)) K) (hw : w.fuse = none) :
    let miss := (edges re im).filter fun e => decide (w.cache.look o e.1 e.2 = none ∨
      w.cache.look o e.1 e.2 = some 0)
    let w' := (calcMoment (recording L) o re im ctx w).2
    w'.est = w.est ++ miss.map (fun e => (o, e.1, e.2)) ∧
    (∀ e ∈ miss, w'.cache.look o e.1 e.2 = some (L o e.1 e.2) ∧
      w'.cache.look o e.2 e.1 = some (-L o e.1 e.2)) ∧
    (∀ o' a b, (o', a, b) ∉ miss.map (fun e => (o, e.1, e.2)) →
      (o', b, a) ∉ miss.map (fun e => (o, e.1, e.2)) → w'.cache.look o' a b = w.cache.look o' a b) := by
  -- one edge
  have hedge : ∀ (w : World (List (ℤ × Cx K × Cx K)) K) (e : Cx K × Cx K), w.fuse = none →
      ∃ d, (edgeMoment (recording L) o ctx e w).1 = .ok d ∧
        (edgeMoment (recording L) o ctx e w).2.fuse = none ∧
        (if w.cache.look o e.1 e.2 = none ∨ w.cache.look o e.1 e.2 = some 0 then
          (edgeMoment (recording L) o ctx e w).2.est = w.est ++ [(o, e.1, e.2)] ∧
          ∀ o' a b, (edgeMoment (recording L) o ctx e w).2.cache.look o' a b =
            if o = o' ∧ e.2 = a ∧ e.1 = b then some (-L o e.1 e.2)
            else if o = o' ∧ e.1 = a ∧ e.2 = b then some (L o e.1 e.2)
            else w.cache.look o' a b
        else
          (edgeMoment (recording L) o ctx e w).2.est = w.est ∧
          ∀ o' a b, (edgeMoment (recording L) o ctx e w).2.cache.look o' a b =
            w.cache.look o' a b) := by
    intro w e hw
    have hcomp : ∀ w : World (List (ℤ × Cx K × Cx K)) K, w.fuse = none →
        edgeMoment.compute (recording L) o ctx e w = (.ok (L o e.1 e.2), { w with
          est := w.est ++ [(o, e.1, e.2)]
          cache := (w.cache.store o e.1 e.2 (L o e.1 e.2)).store o e.2 e.1 (-L o e.1 e.2) }) := by
      intro w hw
      rw [compute_run, World.tick_none hw]
      rfl
    rw [edgeMoment_run]
    rcases hl : w.cache.look o e.1 e.2 with _ | v
    · dsimp only
      rw [hcomp { w with cache := (w.cache.retrieve o e.1 e.2).2 } hw]
      refine ⟨_, rfl, hw, ?_⟩
      rw [if_pos (Or.inl rfl)]
      refine ⟨rfl, fun o' a b => ?_⟩
      rw [EstCache.look_store, EstCache.look_store, EstCache.look_retrieve]
    · dsimp only
      by_cases hv : v = 0
      · subst hv
        rw [if_neg (by simp), hcomp { w with cache := (w.cache.retrieve o e.1 e.2).2 } hw]
        refine ⟨_, rfl, hw, ?_⟩
        rw [if_pos (Or.inr rfl)]
        refine ⟨rfl, fun o' a b => ?_⟩
        rw [EstCache.look_store, EstCache.look_store, EstCache.look_retrieve]
      · rw [if_pos hv]
        refine ⟨_, rfl, hw, ?_⟩
        rw [if_neg (by simp [hv])]
        exact ⟨rfl, fun o' a b => EstCache.look_retrieve _ _ _ _ _ _ _⟩
  -- a list of edges no two of which are equal up to orientation
  have hsum : ∀ (es : List (Cx K × Cx K)) (phi : Cx K) (w : World (List (ℤ × Cx K × Cx K)) K),
      w.fuse = none → es.Pairwise (fun e e' => e ≠ e' ∧ e ≠ e'.swap) →
      (∀ e ∈ es, e ≠ e.swap) →
      let miss := es.filter fun e => decide (w.cache.look o e.1 e.2 = none ∨
        w.cache.look o e.1 e.2 = some 0)
      let w' := (sumEdges (recording L) o ctx es phi w).2
      w'.est = w.est ++ miss.map (fun e => (o, e.1, e.2)) ∧
      (∀ e ∈ miss, w'.cache.look o e.1 e.2 = some (L o e.1 e.2) ∧
        w'.cache.look o e.2 e.1 = some (-L o e.1 e.2)) ∧
      (∀ o' a b, (o', a, b) ∉ miss.map (fun e => (o, e.1, e.2)) →
        (o', b, a) ∉ miss.map (fun e => (o, e.1, e.2)) →
        w'.cache.look o' a b = w.cache.look o' a b) := by
    intro es
    induction es with
    | nil => intro phi w _ _ _; simp [sumEdges]
    | cons e es ih =>
      intro phi w hw hp hs
      rw [List.pairwise_cons] at hp
      obtain ⟨d, h1, h2, h3⟩ := hedge w e hw
      simp only [sumEdges, Py.bind_run]
      rcases hr : edgeMoment (recording L) o ctx e w with ⟨r, w1⟩
      rw [hr] at h1 h2 h3
      simp only at h1 h2 h3
      subst h1
      dsimp only
      obtain ⟨g1, g2, g3⟩ := ih (phi + d) w1 h2 hp.2 (fun e' he' => hs e' (by simp [he']))
      have hother : ∀ e' ∈ es, w1.cache.look o e'.1 e'.2 = w.cache.look o e'.1 e'.2 := by
        intro e' he'
        obtain ⟨n1, n2⟩ := hp.1 e' he'
        split at h3
        · rw [h3.2, if_neg, if_neg]
          · rintro ⟨-, h5, h6⟩; exact n1 (Prod.ext h5 h6)
          · rintro ⟨-, h5, h6⟩; exact n2 (Prod.ext h6 h5)
        · exact h3.2 _ _ _
      have hfil : (es.filter fun e => decide (w1.cache.look o e.1 e.2 = none ∨
          w1.cache.look o e.1 e.2 = some 0)) = es.filter fun e =>
            decide (w.cache.look o e.1 e.2 = none ∨ w.cache.look o e.1 e.2 = some 0) := by
        apply List.filter_congr
        intro e' he'
        rw [hother e' he']
      rw [hfil] at g1 g2 g3
      by_cases hm : w.cache.look o e.1 e.2 = none ∨ w.cache.look o e.1 e.2 = some 0
      · rw [if_pos hm] at h3
        rw [List.filter_cons_of_pos (by simpa using hm)]
        refine ⟨?_, ?_, ?_⟩
        · rw [g1, h3.1]; simp
        · intro e' he'
          rcases List.mem_cons.1 he' with rfl | he'
          · have hnot : ∀ x y, (x, y) = e' ∨ (y, x) = e' →
                (o, x, y) ∉ (es.filter fun e => decide (w.cache.look o e.1 e.2 = none ∨
                  w.cache.look o e.1 e.2 = some 0)).map (fun e => (o, e.1, e.2)) := by
              intro x y hxy hmem
              obtain ⟨e2, he2, heq⟩ := List.mem_map.1 hmem
              have he2' := (List.mem_filter.1 he2).1
              obtain ⟨n1, n2⟩ := hp.1 e2 he2'
              simp only [Prod.mk.injEq] at heq
              obtain ⟨-, q1, q2⟩ := heq
              rcases hxy with rfl | rfl
              · exact n1 (Prod.ext q1.symm q2.symm)
              · exact n2 (Prod.ext q2.symm q1.symm)
            rw [g3 o e'.1 e'.2 (hnot _ _ (Or.inl rfl)) (hnot _ _ (Or.inr rfl)),
              g3 o e'.2 e'.1 (hnot _ _ (Or.inr rfl)) (hnot _ _ (Or.inl rfl)), h3.2, h3.2]
            have hself := hs e' (by simp)
            rw [if_neg, if_pos ⟨rfl, rfl, rfl⟩, if_pos ⟨rfl, rfl, rfl⟩]
            · exact ⟨rfl, rfl⟩
            · rintro ⟨-, h5, h6⟩; exact hself (Prod.ext h6 h5)
          · exact g2 e' he'
        · intro o' a b hab hba
          simp only [List.map_cons, List.mem_cons, not_or] at hab hba
          rw [g3 o' a b hab.2 hba.2, h3.2, if_neg, if_neg]
          · rintro ⟨rfl, rfl, rfl⟩; exact hab.1 rfl
          · rintro ⟨rfl, rfl, rfl⟩; exact hba.1 rfl
      · rw [if_neg hm] at h3
        rw [List.filter_cons_of_neg (by simpa using hm)]
        refine ⟨by rw [g1, h3.1], g2, ?_⟩
        intro o' a b hab hba
        rw [g3 o' a b hab hba, h3.2]
  refine hsum (edges re im) 0 w hw ?_ ?_
  · have hre' : ¬ re.2 = re.1 := fun e => hre (Eq.symm e)
    have him' : ¬ im.2 = im.1 := fun e => him (Eq.symm e)
    simp only [edges, List.pairwise_cons, List.mem_cons, List.not_mem_nil, or_false,
      forall_eq_or_imp, forall_eq, ne_eq, Prod.mk.injEq, Prod.swap_prod_mk, Cx.mk.injEq]
    simp [hre, him, hre', him']
  · have hre' : ¬ re.2 = re.1 := fun e => hre (Eq.symm e)
    have him' : ¬ im.2 = im.1 := fun e => him (Eq.symm e)
    simp only [edges, List.mem_cons, List.not_mem_nil, or_false,
      forall_eq_or_imp, forall_eq, ne_eq, Prod.mk.injEq, Prod.swap_prod_mk, Cx.mk.injEq]
    simp [hre, him, hre', him']

/-- C21. From a new or freshly reset cache and through any history without another reset or log level
change: with debug logging the number of hits is the number of lookups that
returned a non-zero value and the misses are all other lookups (in particular a cached zero is a
miss); without it both counters stay 0. -/
theorem C21_statistics (c : EstCache K)
    (hc : (∃ d, c = EstCache.init d) ∨ ∃ d ops, c = ((EstCache.init d).run ops).1.reset)
    (ops : List (COp K)) (hplain : ∀ op ∈ ops, Plain op) :
    (c.debug = true → (c.run ops).1.hits + (c.run ops).1.misses = retrieves ops ∧
      (c.run ops).1.hits = (c.run ops).2.countP
        (fun out => match out with | some (some v) => decide (v ≠ 0) | _ => false)) ∧
    (c.debug = false → (c.run ops).1.hits = 0 ∧ (c.run ops).1.misses = 0) := by
  have h0 : c.hits = 0 ∧ c.misses = 0 := by
    rcases hc with ⟨d, rfl⟩ | ⟨d, ops, rfl⟩ <;> exact ⟨rfl, rfl⟩
  have hst : ∀ (c : EstCache K) (o : ℤ) (a b v : Cx K), (c.store o a b v).hits = c.hits ∧
      (c.store o a b v).misses = c.misses ∧ (c.store o a b v).debug = c.debug := by
    intro c o a b v; unfold EstCache.store; split <;> exact ⟨rfl, rfl, rfl⟩
  have hrm : ∀ (c : EstCache K) (o : ℤ) (a b : Cx K), (c.remove o a b).hits = c.hits ∧
      (c.remove o a b).misses = c.misses ∧ (c.remove o a b).debug = c.debug := by
    intro c o a b; unfold EstCache.remove; split <;> exact ⟨rfl, rfl, rfl⟩
  have key : ∀ (ops : List (COp K)) (c : EstCache K), (∀ op ∈ ops, Plain op) →
      (c.debug = true → (c.run ops).1.hits + (c.run ops).1.misses =
          c.hits + c.misses + retrieves ops ∧
        (c.run ops).1.hits = c.hits + (c.run ops).2.countP
          (fun out => match out with | some (some v) => decide (v ≠ 0) | _ => false)) ∧
      (c.debug = false → (c.run ops).1.hits = c.hits ∧ (c.run ops).1.misses = c.misses) := by
    intro ops
    induction ops with
    | nil => intro c _; simp [EstCache.run, retrieves]
    | cons op ops ih =>
      intro c hp
      have hp' : ∀ op ∈ ops, Plain op := fun q hq => hp q (by simp [hq])
      obtain ⟨g1, g2⟩ := ih (c.step op).1 hp'
      cases op with
      | store o a b v =>
        obtain ⟨a1, a2, a3⟩ := hst c o a b v
        simp only [EstCache.run, EstCache.step, retrieves] at *
        rw [a1, a2, a3] at g1; rw [a1, a2, a3] at g2
        exact ⟨fun hd => ⟨(g1 hd).1, by rw [(g1 hd).2]; simp⟩, g2⟩
      | remove o a b =>
        obtain ⟨a1, a2, a3⟩ := hrm c o a b
        simp only [EstCache.run, EstCache.step, retrieves] at *
        rw [a1, a2, a3] at g1; rw [a1, a2, a3] at g2
        exact ⟨fun hd => ⟨(g1 hd).1, by rw [(g1 hd).2]; simp⟩, g2⟩
      | retrieve o a b =>
        simp only [EstCache.run, EstCache.step, retrieves] at *
        have hdbg : (c.retrieve o a b).2.debug = c.debug := by
          unfold EstCache.retrieve; dsimp only; split <;> rfl
        rw [hdbg] at g1 g2
        constructor
        · intro hd
          obtain ⟨e1, e2⟩ := g1 hd
          rw [e1, e2]
          have hh : (c.retrieve o a b).2.hits = c.hits +
              (if (match c.look o a b with | none => false | some v => decide (v ≠ 0)) = true
                then 1 else 0) := by
            unfold EstCache.retrieve EstCache.look; dsimp only; rw [if_pos hd]; rfl
          have hm : (c.retrieve o a b).2.misses = c.misses +
              (if (match c.look o a b with | none => false | some v => decide (v ≠ 0)) = true
                then 0 else 1) := by
            unfold EstCache.retrieve EstCache.look; dsimp only; rw [if_pos hd]; rfl
          rw [hh, hm, EstCache.retrieve_fst, List.countP_cons]
          rcases c.look o a b with _ | v
          · simp; omega
          · by_cases hv : v = 0
            · simp [hv]; omega
            · simp [hv]; omega
        · intro hd
          obtain ⟨e1, e2⟩ := g2 hd
          rw [e1, e2]
          unfold EstCache.retrieve; dsimp only; rw [if_neg (by simp [hd])]; exact ⟨rfl, rfl⟩
      | reset => exact absurd (hp .reset (by simp)) (by simp [Plain])
      | setDebug b => exact absurd (hp (.setDebug b) (by simp)) (by simp [Plain])
  obtain ⟨k1, k2⟩ := key ops c hplain
  rw [h0.1, h0.2] at k1 k2
  simp only [zero_add] at k1
  exact ⟨k1, k2⟩

/-- C22. Whatever the function, line, size, precision, state and interrupts: if `genFuncArr` returns, the
returned values are the function values at the returned points, and none is zero. -/
theorem C22_no_zero_values (fuel : ℕ → ℕ) (a b : Cx K) (ctx : RCtx K) (size : ℕ) (w : World σ K)
    (zs fs : List (Cx K)) (h : (genFuncArr fuel a b ctx size w).1 = .ok (zs, fs)) :
    fs = zs.map ctx.f ∧ ∀ v ∈ fs, v ≠ 0 :=
  genFuncLoop_ok _ _ _ _ _ _ _ h

end PyZeal.Props

namespace PyZeal.Props
open Spec
variable {K : Type} [Field K] [LinearOrder K] [IsStrictOrderedRing K] {σ : Type}

/-- C23, termination: if all zeros of `f` are among the finite list `Z` then, uninterrupted, `genFuncArr`
returns after at most `|Z| * size + 1` evaluations of the line. -/
theorem C23_terminates (fuel : ℕ → ℕ) (a b : Cx K) (ctx : RCtx K) (size : ℕ) (w : World σ K)
    (hw : w.fuse = none) (Z : List (Cx K)) (hZ : ∀ z, ctx.f z = 0 → z ∈ Z)
    (hfuel : Z.length * size + 1 ≤ fuel size) :
    ∃ r, (genFuncArr fuel a b ctx size w).1 = .ok r := by
  obtain ⟨j, hj, hfree⟩ := exists_free_shift ctx.f (lineShift a b ctx.precision)
    (lineShift_ne_zero a b ctx.precision) (linspace a b size) Z hZ
  rw [length_linspace] at hj
  rcases genFuncLoop_spec ctx.f (lineShift a b ctx.precision) (fuel size) (linspace a b size) w hw
    with ⟨i, _, _, _, h⟩ | ⟨h, _⟩
  · exact ⟨_, congrArg Prod.fst h⟩
  · exact absurd hfree (h j (by omega))

/-- C23, divergence: for the zero function `genFuncArr` on a non-empty grid exhausts every bound. -/
theorem C23_diverges (fuel : ℕ → ℕ) (a b : Cx K) (ctx : RCtx K) (size : ℕ) (hsize : 0 < size)
    (w : World σ K) (hw : w.fuse = none) (hf : ∀ z, ctx.f z = 0) :
    (genFuncArr fuel a b ctx size w).1 = .error .outOfFuel := by
  rcases genFuncLoop_spec ctx.f (lineShift a b ctx.precision) (fuel size) (linspace a b size) w hw
    with ⟨i, _, _, h, _⟩ | ⟨_, h⟩
  · have hlen : 0 < (shifted (linspace a b size) (lineShift a b ctx.precision) i).length := by
      simp [shifted, hsize]
    exact absurd (hf _) (h _ (List.getElem_mem hlen))
  · exact h

/-- non-vacuity: `z - 1/2` on `[0,1]` with 3 points hits its zero, moves once and returns. -/
example : (genFuncArr (fun n => 1 * n + 1) (⟨0, 0⟩ : Cx ℚ) ⟨1, 0⟩
      ⟨fun z => z - ⟨1/2, 0⟩, none, (1, 1), (0, 1), (0, 1), false⟩ 3
      (⟨EstCache.init false, (), [], [], none, []⟩ : World Unit ℚ)).2.added = [(⟨1/2, 0⟩, 0)] := by
  decide +kernel

/-- C24. If the uninterrupted `genFuncArr` returns, then it moved the equidistant line `j` times by
exactly `2*10^-p` perpendicular to itself (`p` the precision of that direction), and the container received,
in order, every sampled zero with order 0 and nothing else; before the last
position each position had a zero. -/
theorem C24_zeros_reported (fuel : ℕ → ℕ) (a b : Cx K) (ctx : RCtx K) (size : ℕ) (w : World σ K)
    (hw : w.fuse = none) (zs fs : List (Cx K))
    (h : (genFuncArr fuel a b ctx size w).1 = .ok (zs, fs)) :
    ∃ (j : ℕ) (offset : Cx K),
      (a.im = b.im → offset = ⟨0, 2 * (10 : K) ^ (-ctx.precision.2)⟩) ∧
      (a.im ≠ b.im → offset = ⟨2 * (10 : K) ^ (-ctx.precision.1), 0⟩) ∧
      zs = shifted (linspace a b size) offset j ∧
      (∀ i < j, ∃ z ∈ shifted (linspace a b size) offset i, ctx.f z = 0) ∧
      (genFuncArr fuel a b ctx size w).2.added = w.added ++
        ((List.range j).map fun i =>
          zeroHits ctx.f (shifted (linspace a b size) offset i)).flatten := by
  refine ?_
  rcases genFuncLoop_spec ctx.f (lineShift a b ctx.precision) (fuel size) (linspace a b size) w hw
    with ⟨j, _, h1, h2, h3⟩ | ⟨_, h1⟩
  · refine ⟨j, lineShift a b ctx.precision, ?_, ?_, ?_, ?_, ?_⟩
    · intro e; simp [lineShift, e, eps10]
    · intro e; simp [lineShift, e, eps10]
    · unfold genFuncArr at h; rw [h3] at h; simp at h; exact h.1.symm
    · intro i hi
      have := h1 i hi
      unfold zeroHits at this
      rw [Ne, List.map_eq_nil_iff, List.filter_eq_nil_iff] at this
      push Not at this
      obtain ⟨z, hz, hfz⟩ := this
      exact ⟨z, hz, by simpa using hfz⟩
    · unfold genFuncArr; rw [h3]
  · unfold genFuncArr at h; rw [h1] at h; simp at h

end PyZeal.Props
