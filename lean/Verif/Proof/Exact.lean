import Verif.Proof.Variants
import Verif.Spec.Coefficients

/-! # Searches with a conforming estimator -/

set_option linter.unusedSectionVars false

namespace PyZeal
open Spec
variable {K : Type} {σ : Type} [Field K] [LinearOrder K] [IsStrictOrderedRing K] [FloorRing K]

/-- like `dispatch_tree`, carrying an invariant `I` of the state and a property `Good` of evaluated cells -/
theorem dispatch_tree_inv {est : LineEst σ K} {ctx : RCtx K} (hest : BoundaryHits est ctx)
    {body : Decide σ K → Decide σ K} {stop : Cell K → Prop} {act : Cell K → Py (World σ K) Unit}
    (hstop : Stops est ctx body stop act) {adv : Cell K → List K} {Leaf : Cell K → List (Root K) → Prop}
    {I : World σ K → Prop} {Good : Cell K → Prop} {rect : Cell K}
    (hphase : ∀ re im w w' phi, I w → Cell.In ⟨re, im, 0⟩ rect → phaseOf est re im ctx w = (.ok phi, w') →
      I w' ∧ Good ⟨re, im, phi⟩)
    (hremove : ∀ w a b, I w → I { w with cache := w.cache.remove 0 a b })
    (hleaf : ∀ c w w', I w → Good c → Cell.In c rect → stop c → act c w = (.ok (), w') →
      I w' ∧ w'.log = w.log ∧ w'.advances = w.advances ++ adv c ∧ ∃ A, w'.added = w.added ++ A ∧ Leaf c A)
    (limit : ℕ) (c : Cell K) (w w' : World σ K) (hI : I w) (hg : Good c) (hin : Cell.In c rect)
    (h : (dispatch body limit).at ctx c w = (.ok (), w')) :
    I w' ∧ ∃ t : Tree K, t.Valid stop ctx.precision c ∧ w'.log = w.log ++ t.log ctx.precision c ∧
      (∀ l ∈ t.log ctx.precision c, Good l) ∧
      w'.advances = w.advances ++ (t.leaves ctx.precision c).flatMap adv ∧
      ∃ A, w'.added = w.added ++ A ∧ Segments ctx.f Leaf (t.leaves ctx.precision c) A := by
  induction limit generalizing c w w' with
  | zero => simp [dispatch, Decide.at] at h
  | succ limit ih =>
    have hd : (dispatch body (limit + 1)).at ctx c = (body (dispatch body limit)).at ctx c := rfl
    rw [hd] at h
    by_cases hs : stop c
    · rw [(hstop _ c).1 hs] at h
      obtain ⟨h0, h1, h2, A, h3, h4⟩ := hleaf c w w' hI hg hin hs h
      exact ⟨h0, .leaf, hs, by simp [Tree.log, h1], by simp [Tree.log], by simp [Tree.leaves, h2], A, h3,
        Segments.leaf h4⟩
    · rw [(hstop _ c).2 hs] at h
      unfold splitStep at h
      rw [Py.bind_run] at h
      rcases hp1 : phaseOf est (half1 ctx.precision c 0).re (half1 ctx.precision c 0).im ctx w
        with ⟨_ | phi1, w1⟩ <;> rw [hp1] at h
      · simp at h
      dsimp only at h
      rw [Py.bind_run] at h
      rcases hr1 : (dispatch body limit).at ctx (half1 ctx.precision c phi1) w1 with ⟨_ | _, w2⟩ <;>
        rw [hr1] at h
      · simp at h
      dsimp only at h
      rw [Py.bind_run] at h
      simp only [cacheRemove, Py.modify_run] at h
      rw [Py.bind_run] at h
      rcases hp2 : phaseOf est (half2 ctx.precision c 0).re (half2 ctx.precision c 0).im ctx
        { w2 with cache := w2.cache.remove 0 (dropEdge1 ctx.precision c).1 (dropEdge1 ctx.precision c).2 }
        with ⟨_ | phi2, w3⟩ <;> rw [hp2] at h
      · simp at h
      dsimp only at h
      rw [Py.bind_run] at h
      rcases hr2 : (dispatch body limit).at ctx (half2 ctx.precision c phi2) w3 with ⟨_ | _, w4⟩ <;>
        rw [hr2] at h
      · simp at h
      simp only [Py.modify_run, Prod.mk.injEq, true_and] at h
      subst h
      have hcp : c.Proper := ⟨hin.2.1, hin.2.2.2.2.1⟩
      have e1 : ∀ phi, (⟨(half1 ctx.precision c 0).re, (half1 ctx.precision c 0).im, phi⟩ : Cell K) =
          half1 ctx.precision c phi := by intro phi; unfold half1; split <;> rfl
      have e2 : ∀ phi, (⟨(half2 ctx.precision c 0).re, (half2 ctx.precision c 0).im, phi⟩ : Cell K) =
          half2 ctx.precision c phi := by intro phi; unfold half2; split <;> rfl
      have in1 : ∀ phi, Cell.In (half1 ctx.precision c phi) rect := fun phi => (in_halves hcp phi 0).1.trans hin
      have in2 : ∀ phi, Cell.In (half2 ctx.precision c phi) rect := fun phi => (in_halves hcp 0 phi).2.trans hin
      obtain ⟨a1, a2, a3, z1, a4, a5⟩ := phaseOf_ok hest hp1
      obtain ⟨I1, g1⟩ := hphase _ _ _ _ _ hI (by rw [e1]; exact in1 0) hp1
      rw [e1] at g1
      obtain ⟨I2, t1, b1, b2, b2', b3, A1, b4, b5⟩ := ih _ _ _ I1 g1 (in1 phi1) hr1
      obtain ⟨c1, c2, c3, z2, c4, c5⟩ := phaseOf_ok hest hp2
      obtain ⟨I3, g2⟩ := hphase _ _ _ _ _ (hremove _ _ _ I2) (by rw [e2]; exact in2 0) hp2
      rw [e2] at g2
      obtain ⟨I4, t2, d1, d2, d2', d3, A2, d4, d5⟩ := ih _ _ _ I3 g2 (in2 phi2) hr2
      dsimp only at c1 c2 c3 c4
      refine ⟨hremove _ _ _ I4, .node phi1 t1 phi2 t2, ⟨hs, b1, d1⟩, ?_, ?_, ?_, z1 ++ A1 ++ (z2 ++ A2), ?_, ?_⟩
      · dsimp only
        rw [d2, c1, b2, a1, e1, e2]
        simp [Tree.log]
      · intro l hl
        simp only [Tree.log, List.cons_append, List.mem_cons, List.mem_append] at hl
        rcases hl with rfl | hl | rfl | hl
        · exact g1
        · exact b2' l hl
        · exact g2
        · exact d2' l hl
      · dsimp only
        rw [d3, c2, b3, a2]
        simp [Tree.leaves]
      · dsimp only
        rw [d4, c4, b4, a4]
        simp
      · have := ((Segments.hits (Leaf := Leaf) a5).append b5).append
          ((Segments.hits (Leaf := Leaf) c5).append d5)
        simpa [Tree.leaves] using this

/-- like `calcRoots_tree` -/
theorem calcRoots_tree_inv {est : LineEst σ K} {ctx : RCtx K} (hest : BoundaryHits est ctx)
    {body : Decide σ K → Decide σ K} {stop : Cell K → Prop} {act : Cell K → Py (World σ K) Unit}
    (hstop : Stops est ctx body stop act) {adv : Cell K → List K} {Leaf : Cell K → List (Root K) → Prop}
    {I : World σ K → Prop} {Good : Cell K → Prop}
    (hphase : ∀ re im w w' phi, I w → Cell.In ⟨re, im, 0⟩ ⟨ctx.reRan, ctx.imRan, 0⟩ →
      phaseOf est re im ctx w = (.ok phi, w') → I w' ∧ Good ⟨re, im, phi⟩)
    (hremove : ∀ w a b, I w → I { w with cache := w.cache.remove 0 a b })
    (hreset : ∀ w, I { w with cache := w.cache.reset } ∧ (w.cache.dirty = false → I w))
    (hleaf : ∀ c w w', I w → Good c → Cell.In c ⟨ctx.reRan, ctx.imRan, 0⟩ → stop c → act c w = (.ok (), w') →
      I w' ∧ w'.log = w.log ∧ w'.advances = w.advances ++ adv c ∧ ∃ A, w'.added = w.added ++ A ∧ Leaf c A)
    (hre : ctx.reRan.1 ≤ ctx.reRan.2) (him : ctx.imRan.1 ≤ ctx.imRan.2) (limit : ℕ) (w w' : World σ K)
    (h : calcRoots est body limit ctx w = (.ok (), w')) :
    ∃ (phi : K) (t : Tree K), t.Valid stop ctx.precision ⟨ctx.reRan, ctx.imRan, phi⟩ ∧
      w'.log = w.log ++ (⟨ctx.reRan, ctx.imRan, phi⟩ :: t.log ctx.precision ⟨ctx.reRan, ctx.imRan, phi⟩) ∧
      (∀ l ∈ ⟨ctx.reRan, ctx.imRan, phi⟩ :: t.log ctx.precision ⟨ctx.reRan, ctx.imRan, phi⟩, Good l) ∧
      w'.advances = w.advances ++ (t.leaves ctx.precision ⟨ctx.reRan, ctx.imRan, phi⟩).flatMap adv ∧
      ∃ A, w'.added = w.added ++ A ∧
        Segments ctx.f Leaf (t.leaves ctx.precision ⟨ctx.reRan, ctx.imRan, phi⟩) A := by
  unfold calcRoots resetCache at h
  rw [Py.bind_run, Py.modify_run] at h
  dsimp only at h
  generalize hw0 : (if w.cache.dirty = true then { w with cache := w.cache.reset } else w) = w0 at h
  have g1 : w0.log = w.log := by rw [← hw0]; split <;> rfl
  have g2 : w0.advances = w.advances := by rw [← hw0]; split <;> rfl
  have g3 : w0.added = w.added := by rw [← hw0]; split <;> rfl
  have g4 : I w0 := by
    rw [← hw0]
    split
    · exact (hreset w).1
    · rename_i hd; exact (hreset w).2 (by simpa using hd)
  have hin : ∀ phi, Cell.In (⟨ctx.reRan, ctx.imRan, phi⟩ : Cell K) ⟨ctx.reRan, ctx.imRan, 0⟩ :=
    fun _ => ⟨le_refl _, hre, le_refl _, le_refl _, him, le_refl _⟩
  rw [Py.bind_run] at h
  rcases hp : phaseOf est ctx.reRan ctx.imRan ctx w0 with ⟨_ | phi, w1⟩ <;> rw [hp] at h
  · simp at h
  dsimp only at h
  obtain ⟨a1, a2, a3, zs, a4, a5⟩ := phaseOf_ok hest hp
  obtain ⟨I1, good⟩ := hphase _ _ _ _ _ g4 (hin 0) hp
  obtain ⟨_, t, b1, b2, b2', b3, A, b4, b5⟩ := dispatch_tree_inv hest hstop hphase hremove hleaf limit
    ⟨ctx.reRan, ctx.imRan, phi⟩ w1 w' I1 good (hin phi) h
  refine ⟨phi, t, b1, ?_, ?_, ?_, zs ++ A, ?_, ?_⟩
  · rw [b2, a1, g1]; simp
  · intro l hl
    rcases List.mem_cons.1 hl with rfl | hl
    · exact good
    · exact b2' l hl
  · rw [b3, a2, g2]
  · rw [b4, a4, g3]; simp
  · exact (Segments.hits (Leaf := Leaf) a5).append b5

/-! ## Exact moments -/

/-- the cache holds only values of `L` -/
def CacheOf (L : ℤ → Cx K → Cx K → Cx K) (w : World σ K) : Prop := Coherent L w.cache ∧ CacheWF w.cache

theorem calcMoment_exact {est : LineEst σ K} {ctx : RCtx K} {pi : K} {zeros : List (Cx K)}
    {L : ℤ → Cx K → Cx K → Cx K} (h : Conforming est ctx pi zeros L) (k : ℕ) (c : Cell K)
    (hin : Cell.In c ⟨ctx.reRan, ctx.imRan, 0⟩) {w w' : World σ K} (hw : CacheOf L w) {m : Cx K}
    (hr : calcMoment est k c.re c.im ctx w = (.ok m, w')) :
    CacheOf L w' ∧ m = Cx.ofK (2 * pi) * ((Cell.inside c zeros).map fun z => z ^ k).sum := by
  obtain ⟨h1, h2⟩ := calcMoment_coherent h.reverse (fun o a b w => h.value o a b w) k c.re c.im hw.1
  have h3 : CacheWF (calcMoment est k c.re c.im ctx w).2.cache :=
    sumEdges_wf (fun o a b w hw => by rw [(h.value o a b w).1]; exact hw) _ _ _ hw.2
  rw [hr] at h1 h2 h3
  exact ⟨⟨h1, h3⟩, by rw [h2 m rfl]; exact h.around k c hin⟩

theorem sum_pow_zero (l : List (Cx K)) : (l.map fun z => z ^ 0).sum = Cx.ofK (l.length : K) := by
  induction l with
  | nil => simp [Cx.ext_iff]
  | cons a l ih =>
    simp only [pow_zero] at ih
    simp only [List.map_cons, List.sum_cons, pow_zero, List.length_cons, ih]
    ext <;> simp [add_comm]

theorem phaseOf_exact {est : LineEst σ K} {ctx : RCtx K} {pi : K} {zeros : List (Cx K)}
    {L : ℤ → Cx K → Cx K → Cx K} (h : Conforming est ctx pi zeros L) (re im : K × K) (w w' : World σ K) (phi : K)
    (hw : CacheOf L w) (hin : Cell.In ⟨re, im, 0⟩ ⟨ctx.reRan, ctx.imRan, 0⟩)
    (hr : phaseOf est re im ctx w = (.ok phi, w')) :
    CacheOf L w' ∧ phi = 2 * pi * (Cell.count ⟨re, im, phi⟩ zeros : K) := by
  unfold phaseOf at hr
  rw [Py.bind_run] at hr
  rcases hc : calcMoment est 0 re im ctx w with ⟨_ | m, w1⟩ <;> rw [hc] at hr
  · simp at hr
  · simp only [Py.bind_run, Py.modify_run, Py.pure_run, Prod.mk.injEq, Except.ok.injEq] at hr
    obtain ⟨rfl, rfl⟩ := hr
    obtain ⟨h1, h2⟩ := calcMoment_exact h 0 ⟨re, im, 0⟩ hin hw hc
    refine ⟨h1, ?_⟩
    rw [h2, sum_pow_zero]
    simp [Cell.count, Cell.inside, Cell.HasHalfOpen]

theorem CacheOf.remove {L : ℤ → Cx K → Cx K → Cx K} (w : World σ K) (a b : Cx K) (h : CacheOf L w) :
    CacheOf L { w with cache := w.cache.remove 0 a b } := ⟨h.1.remove h.2 _ _ _, h.2.remove _ _ _⟩

theorem CacheOf.nil {L : ℤ → Cx K → Cx K → Cx K} {w : World σ K} (h : w.cache.data = []) : CacheOf L w := by
  refine ⟨fun o a b v hv => ?_, CacheWF.of_data (c := EstCache.init false) (CacheWF.init _) h⟩
  unfold EstCache.look at hv
  rw [h] at hv
  simp [Dict.get?] at hv

theorem CacheOf.reset {L : ℤ → Cx K → Cx K → Cx K} (w : World σ K) :
    CacheOf L { w with cache := w.cache.reset } ∧ (w.cache.dirty = false → CacheOf L w) := by
  refine ⟨CacheOf.nil rfl, fun h => CacheOf.nil ?_⟩
  unfold EstCache.dirty at h
  simp only [decide_eq_false_iff_not, not_lt, Nat.le_zero, List.length_eq_zero_iff] at h
  exact h

theorem CacheOf.congr {L : ℤ → Cx K → Cx K → Cx K} {w w' : World σ K} (h : w'.cache = w.cache) (hw : CacheOf L w) :
    CacheOf L w' := by unfold CacheOf; rw [h]; exact hw

/-! ### the actions leave the cache alone -/

/-- the computation does not touch the cache -/
def KeepsCache {α : Type} (m : Py (World σ K) α) : Prop := ∀ w, (m w).2.cache = w.cache

theorem KeepsCache.bind {α β : Type} {m : Py (World σ K) α} {k : α → Py (World σ K) β} (hm : KeepsCache m)
    (hk : ∀ a, KeepsCache (k a)) : KeepsCache (m >>= k) := by
  intro w
  rw [Py.bind_run]
  have h := hm w
  rcases hmw : m w with ⟨_ | a, w1⟩ <;> rw [hmw] at h
  · exact h
  · exact (hk a w1).trans h

theorem KeepsCache.addRoot (r : Root K) : KeepsCache (World.addRoot r : Py (World σ K) Unit) :=
  KeepsCache.bind (fun w => World.tick_cache w) fun _ _ => rfl

theorem KeepsCache.addRoots (rs : List (Root K)) : KeepsCache (World.addRoots rs : Py (World σ K) Unit) := by
  induction rs with
  | nil => intro w; rfl
  | cons r rs ih => exact KeepsCache.bind (KeepsCache.addRoot r) fun _ => ih

theorem KeepsCache.advance (ctx : RCtx K) (a : K) : KeepsCache (World.advance ctx a : Py (World σ K) Unit) := by
  unfold World.advance
  split
  · exact KeepsCache.bind (fun w => World.tick_cache w) fun _ _ => rfl
  · intro w; rfl

theorem KeepsCache.simpleAct (pi : K) (ctx : RCtx K) (c : Cell K) :
    KeepsCache (simpleAct pi ctx c : Py (World σ K) Unit) := by
  unfold PyZeal.simpleAct
  split
  · exact KeepsCache.advance _ _
  · exact KeepsCache.bind (KeepsCache.addRoot _) fun _ => KeepsCache.advance _ _

theorem KeepsCache.orRuntimeError {α : Type} (x : Option α) :
    KeepsCache (orRuntimeError x : Py (World σ K) α) := by intro w; cases x <;> rfl

theorem KeepsCache.newtonAct (nt : NewtonSolver K) (pi : K) (ctx : RCtx K) (c : Cell K) :
    KeepsCache (newtonAct nt pi ctx c : Py (World σ K) Unit) := by
  unfold PyZeal.newtonAct
  split
  · exact KeepsCache.simpleAct _ _ _
  · have hb : KeepsCache (newtonBlock nt c.re c.im ctx : Py (World σ K) Unit) := by
      unfold newtonBlock
      refine KeepsCache.bind (KeepsCache.orRuntimeError _) fun z => KeepsCache.bind (KeepsCache.addRoot _) fun _ => ?_
      rcases ctx.df with _ | df
      · intro w; rfl
      · exact KeepsCache.bind (KeepsCache.orRuntimeError _) fun z => KeepsCache.addRoot _
    intro w
    have hx : (Py.exceptRuntimeError (newtonBlock nt c.re c.im ctx) w).2 = (newtonBlock nt c.re c.im ctx w).2 := by
      unfold Py.exceptRuntimeError
      rcases newtonBlock nt c.re c.im ctx w with ⟨e | _, w1⟩
      · cases e <;> rfl
      · rfl
    unfold Py.tryFinally
    rw [hx]
    have := KeepsCache.advance ctx (Cell.area c) (newtonBlock nt c.re c.im ctx w).2
    rcases ha : World.advance ctx (Cell.area c) (newtonBlock nt c.re c.im ctx w).2 with ⟨e | _, w2⟩ <;>
      rw [ha] at this <;> exact this.trans (hb w)

/-- In a completed search with a conforming estimator the reported phases are exact, whatever the cache contained. -/
theorem exact_cells {est : LineEst σ K} {ctx : RCtx K} {pi : K} {zeros : List (Cx K)}
    {L : ℤ → Cx K → Cx K → Cx K} (h : Conforming est ctx pi zeros L) (hest : BoundaryHits est ctx)
    {body : Decide σ K → Decide σ K} {stop : Cell K → Prop} {act : Cell K → Py (World σ K) Unit}
    (hstop : Stops est ctx body stop act) (hact : ∀ c, KeepsCache (act c))
    {adv : Cell K → List K} {Leaf : Cell K → List (Root K) → Prop} (hleaf : LeafEffect act adv Leaf)
    (hre : ctx.reRan.1 ≤ ctx.reRan.2) (him : ctx.imRan.1 ≤ ctx.imRan.2) (limit : ℕ) (w w' : World σ K)
    (hr : calcRoots est body limit ctx w = (.ok (), w')) :
    ∀ c ∈ newCells w w', c.phi = 2 * pi * (Cell.count c zeros : K) := by
  obtain ⟨phi, t, _, h2, h3, _⟩ := calcRoots_tree_inv (Good := fun c => c.phi = 2 * pi * (Cell.count c zeros : K))
    (I := CacheOf L) (adv := adv) (Leaf := Leaf) hest hstop
    (fun re im w w' phi hI hin hp => phaseOf_exact h re im w w' phi hI hin hp)
    (fun w a b hI => hI.remove w a b) CacheOf.reset
    (fun c w w' hI _ _ _ ha => ⟨hI.congr (by rw [← hact c w, ha]), hleaf c w w' ha⟩) hre him limit w w' hr
  have hcells : newCells w w' = ⟨ctx.reRan, ctx.imRan, phi⟩ :: t.log ctx.precision ⟨ctx.reRan, ctx.imRan, phi⟩ := by
    unfold newCells; rw [h2]; simp
  rw [hcells]
  exact h3

/-! ## Leaves and additions -/

theorem Tree.halfOpen_leaf (p : ℤ × ℤ) (t : Tree K) (c : Cell K) (z : Cx K) (h : Cell.HasHalfOpen c z) :
    ∃ l ∈ t.leaves p c, Cell.HasHalfOpen l z := by
  have h1 := t.count_leaves p c [z]
  have h2 : Cell.count c [z] = 1 := by simp [Cell.count, h]
  rw [h2] at h1
  by_contra hn
  push Not at hn
  have : ((t.leaves p c).map fun l => Cell.count l [z]).sum = 0 := by
    rw [List.sum_eq_zero_iff]
    intro x hx
    obtain ⟨l, hl, rfl⟩ := List.mem_map.1 hx
    simp [Cell.count, hn l hl]
  omega

theorem Segments.leaf_mem {f : Cx K → Cx K} {Leaf : Cell K → List (Root K) → Prop} {leaves : List (Cell K)}
    {A : List (Root K)} (h : Segments f Leaf leaves A) {c : Cell K} (hc : c ∈ leaves) :
    ∃ S, Leaf c S ∧ ∀ r ∈ S, r ∈ A := by
  obtain ⟨segs, rfl, rfl, h⟩ := h
  obtain ⟨s, hs, hs'⟩ := List.mem_filterMap.1 hc
  exact ⟨s.2, (h s hs).2 c hs', fun r hr => List.mem_flatMap.2 ⟨s, hs, hr⟩⟩

theorem Segments.root_mem {f : Cx K → Cx K} {Leaf : Cell K → List (Root K) → Prop} {leaves : List (Cell K)}
    {A : List (Root K)} (h : Segments f Leaf leaves A) {r : Root K} (hr : r ∈ A) :
    (r.2 = 0 ∧ f r.1 = 0) ∨ ∃ c ∈ leaves, ∃ S, Leaf c S ∧ r ∈ S := by
  obtain ⟨segs, rfl, rfl, h⟩ := h
  obtain ⟨s, hs, hs'⟩ := List.mem_flatMap.1 hr
  rcases hc : s.1 with _ | c
  · exact Or.inl ((h s hs).1 hc r hs')
  · exact Or.inr ⟨c, List.mem_filterMap.2 ⟨s, hs, hc⟩, s.2, (h s hs).2 c hc, hs'⟩

/-- an additive quantity over the additions, leaf by leaf -/
theorem Segments.sum {f : Cx K → Cx K} {Leaf : Cell K → List (Root K) → Prop} {leaves : List (Cell K)}
    {A : List (Root K)} (h : Segments f Leaf leaves A) (g : Root K → ℤ) (v : Cell K → ℤ)
    (h0 : ∀ r : Root K, r.2 = 0 → g r = 0) (hl : ∀ c ∈ leaves, ∀ S, Leaf c S → (S.map g).sum = v c) :
    (A.map g).sum = (leaves.map v).sum := by
  obtain ⟨segs, rfl, rfl, h⟩ := h
  induction segs with
  | nil => rfl
  | cons s segs ih =>
    rcases s with ⟨_ | c, zs⟩
    · have h1 : (zs.map g).sum = 0 := by
        apply List.sum_eq_zero
        intro x hx
        obtain ⟨r, hr, rfl⟩ := List.mem_map.1 hx
        exact h0 r ((h (none, zs) (by simp)).1 rfl r hr).1
      have := ih (fun s hs => h s (by simp [hs])) fun c hc => hl c (by simpa using hc)
      simp only [List.flatMap_cons, List.map_append, List.sum_append, h1, this, List.filterMap_cons, zero_add]
    · have h1 := hl c (by simp) zs ((h (some c, zs) (by simp)).2 c rfl)
      have := ih (fun s hs => h s (by simp [hs]))
        fun c hc => hl c (by simp only [List.filterMap_cons, List.mem_cons]; exact Or.inr hc)
      simp only [List.flatMap_cons, List.map_append, List.sum_append, h1, this, List.filterMap_cons, List.map_cons,
        List.sum_cons]

theorem Segments.length_le {f : Cx K → Cx K} {Leaf : Cell K → List (Root K) → Prop} {leaves : List (Cell K)}
    {A : List (Root K)} (h : Segments f Leaf leaves A) (q : Root K → Bool) (v : Cell K → ℕ)
    (h0 : ∀ r : Root K, r.2 = 0 → q r = false) (hl : ∀ c ∈ leaves, ∀ S, Leaf c S → (S.filter q).length ≤ v c) :
    (A.filter q).length ≤ (leaves.map v).sum := by
  obtain ⟨segs, rfl, rfl, h⟩ := h
  induction segs with
  | nil => simp
  | cons s segs ih =>
    rcases s with ⟨_ | c, zs⟩
    · have h1 : zs.filter q = [] := by
        rw [List.filter_eq_nil_iff]
        intro r hr
        simpa using h0 r ((h (none, zs) (by simp)).1 rfl r hr).1
      have := ih (fun s hs => h s (by simp [hs])) fun c hc => hl c (by simpa using hc)
      simp only [List.flatMap_cons, List.filter_append, List.length_append, h1, List.filterMap_cons, List.length_nil]
      omega
    · have h1 := hl c (by simp) zs ((h (some c, zs) (by simp)).2 c rfl)
      have := ih (fun s hs => h s (by simp [hs]))
        fun c hc => hl c (by simp only [List.filterMap_cons, List.mem_cons]; exact Or.inr hc)
      simp only [List.flatMap_cons, List.filter_append, List.length_append, List.filterMap_cons, List.map_cons,
        List.sum_cons]
      omega

/-! ## Associated polynomial with a conforming estimator -/

/-- the power sums of the zeros in a rectangle -/
def powerSums (zs : List (Cx K)) : List (Cx K) :=
  (List.range zs.length).map fun (i : ℕ) => (zs.map fun z => z ^ (i + 1)).sum

theorem divK_ofK_mul (a : K) (ha : a ≠ 0) (z : Cx K) : Cx.divK (Cx.ofK a * z) a = z := by
  ext <;> simp <;> field_simp

theorem moments_exact {est : LineEst σ K} {ctx : RCtx K} {pi : K} (hpi : 0 < pi) {zeros : List (Cx K)}
    {L : ℤ → Cx K → Cx K → Cx K} (h : Conforming est ctx pi zeros L) (c : Cell K)
    (hin : Cell.In c ⟨ctx.reRan, ctx.imRan, 0⟩) (orders : List ℕ) {w w' : World σ K} (hw : CacheOf L w)
    {ms : List (Cx K)} (hr : moments est pi c.re c.im ctx (orders.map fun (k : ℕ) => (k : ℤ) + 1) w = (.ok ms, w')) :
    CacheOf L w' ∧ ms = orders.map fun (i : ℕ) => ((Cell.inside c zeros).map fun z => z ^ (i + 1)).sum := by
  induction orders generalizing w w' ms with
  | nil =>
    simp only [List.map_nil, moments, Py.pure_run, Prod.mk.injEq, Except.ok.injEq] at hr
    obtain ⟨rfl, rfl⟩ := hr
    exact ⟨hw, rfl⟩
  | cons o os ih =>
    change (calcMoment est ((o : ℤ) + 1) c.re c.im ctx >>= fun m =>
      moments est pi c.re c.im ctx (os.map fun (k : ℕ) => (k : ℤ) + 1) >>= fun ms =>
      pure (Cx.divK m (2 * pi) :: ms)) w = _ at hr
    rw [Py.bind_run] at hr
    rcases hc : calcMoment est ((o : ℤ) + 1) c.re c.im ctx w with ⟨e | m, w1⟩ <;> rw [hc] at hr
    · simp at hr
    · dsimp only at hr
      rw [Py.bind_run] at hr
      have hc' : calcMoment est ((o + 1 : ℕ) : ℤ) c.re c.im ctx w = (.ok m, w1) := by push_cast; exact hc
      obtain ⟨h1, h2⟩ := calcMoment_exact h (o + 1) c hin hw hc'
      rcases hm : moments est pi c.re c.im ctx (os.map fun (k : ℕ) => (k : ℤ) + 1) w1 with ⟨e | ms', w2⟩ <;>
        rw [hm] at hr
      · simp at hr
      · obtain ⟨i1, i2⟩ := ih h1 hm
        simp only [Py.pure_run, Prod.mk.injEq, Except.ok.injEq] at hr
        obtain ⟨rfl, rfl⟩ := hr
        refine ⟨i1, ?_⟩
        rw [List.map_cons, i2, h2, divK_ofK_mul _ (by positivity)]

theorem polyAct_exact {polyRoots : List (Cx K) → List (Cx K)} {est : LineEst σ K} {ctx : RCtx K} {pi : K}
    (hpi : 0 < pi) {zeros : List (Cx K)} {L : ℤ → Cx K → Cx K → Cx K} (h : Conforming est ctx pi zeros L)
    (hest : BoundaryHits est ctx) (c : Cell K) (w w' : World σ K) (hw : CacheOf L w)
    (hphi : c.phi = 2 * pi * (Cell.count c zeros : K)) (hin : Cell.In c ⟨ctx.reRan, ctx.imRan, 0⟩)
    (hr : polyAct polyRoots est pi ctx c w = (.ok (), w')) :
    CacheOf L w' ∧ w'.log = w.log ∧ w'.advances = w.advances ++ (if ctx.progress then
        [if Cell.Stop pi ctx.precision c then leafAdvance pi c else Cell.area c] else []) ∧
      ∃ A, w'.added = w.added ++ A ∧
        if Cell.Stop pi ctx.precision c then A = (if Cell.Turns pi c then [candidate pi c] else [])
        else ∃ zs, A = zs ++ clusterLoop (eps10 K ctx.precision.1, eps10 K ctx.precision.2)
            (polyRoots (coefficientsOf (Cell.inside c zeros))) [] ∧ ∀ r ∈ zs, r.2 = 0 ∧ ctx.f r.1 = 0 := by
  by_cases hs : Cell.Stop pi ctx.precision c
  · have hk : CacheOf L w' := by
      refine hw.congr ?_
      have := KeepsCache.simpleAct pi ctx c w
      unfold polyAct at hr
      rw [if_pos hs] at hr
      rw [hr] at this
      exact this
    obtain ⟨h1, h2, A, h3, h4⟩ := poly_leafEffect hest c w w' hr
    exact ⟨hk, h1, h2, A, h3, by rw [if_pos hs] at h4 ⊢; exact h4⟩
  · unfold polyAct at hr
    rw [if_neg hs] at hr
    have hdeg : (roundHalfEven (c.phi / (2 * pi))).toNat = (Cell.inside c zeros).length := by
      have e : c.phi / (2 * pi) = ((Cell.count c zeros : ℤ) : K) := by rw [hphi]; field_simp; simp
      have : roundHalfEven (c.phi / (2 * pi)) = (Cell.count c zeros : ℤ) := by
        rw [e]
        obtain ⟨g1, g2⟩ := roundHalfEven_spec (((Cell.count c zeros : ℤ)) : K)
        exact nearest_int_unique g1 g2 (by simp) (fun h => by simp at h)
      rw [this]
      rfl
    unfold polyBlock at hr
    rw [Py.bind_run, hdeg] at hr
    have hh := moments_hits hest pi c.re c.im
      ((List.range (Cell.inside c zeros).length).map fun (k : ℕ) => (k : ℤ) + 1) w
    rcases hm : moments est pi c.re c.im ctx
      ((List.range (Cell.inside c zeros).length).map fun (k : ℕ) => (k : ℤ) + 1) w with ⟨e | ms, w1⟩ <;>
      rw [hm] at hr hh
    · simp at hr
    · obtain ⟨m1, m2, _, zs, m3, m4⟩ := hh
      obtain ⟨x1, x2⟩ := moments_exact hpi h c hin _ hw hm
      dsimp only at hr m1 m2 m3
      rw [polyResults_zip] at hr
      rw [Py.bind_run] at hr
      have ka := KeepsCache.addRoots (polyResults polyRoots ctx.precision ms) w1
      rcases ha : World.addRoots (polyResults polyRoots ctx.precision ms) w1 with ⟨e | _, w2⟩ <;> rw [ha] at hr ka
      · simp at hr
      · obtain ⟨a1, a2, a3⟩ := addRoots_ok ha
        obtain ⟨b1, b2, b3⟩ := advance_ok hr
        have kb := KeepsCache.advance ctx (Cell.area c) w2
        dsimp only at hr
        rw [hr] at kb
        refine ⟨(x1.congr ka).congr kb, by rw [b3, a3, m2], by rw [b1, a2, m1]; simp only [if_neg hs], _,
          by rw [b2, a1, m3, List.append_assoc], ?_⟩
        rw [if_neg hs]
        refine ⟨zs, ?_, m4⟩
        unfold polyResults
        rw [x2, coefficientsFromMoments_eq]
        rfl

end PyZeal
