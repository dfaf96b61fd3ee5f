import Verif.Spec.PolynomialFloat
import Verif.Proof.NewtonFloat
import Verif.Proof.NewtonDouble

/-! # The associated-polynomial variant in floating-point arithmetic -/

set_option linter.unusedSectionVars false

namespace PyZeal
open Spec
variable {K : Type} {σ : Type} [Field K] [LinearOrder K] [IsStrictOrderedRing K] [FloorRing K]

instance (A : FloatOps K) (pi : K) (c : Cell K) : Decidable (Cell.FewTurnsF A pi c) := by unfold Cell.FewTurnsF; infer_instance

/-- computed sums of line moments with fixed values -/
theorem sumEdgesF_value {A : FloatOps K} {V : ℤ → Cx K → Cx K → Cx K} {est : LineEst σ K} {ctx : RCtx K} (hV : FixedValues est ctx V) (o : ℤ)
    (es : List (Cx K × Cx K)) (phi : Cx K) {w : World σ K} (hw : CacheOf V w) :
    CacheOf V (sumEdgesF A est o ctx es phi w).2 ∧
      ∀ v, (sumEdgesF A est o ctx es phi w).1 = .ok v → v = es.foldl (fun x e => roundCx A (x + V o e.1 e.2)) phi := by
  induction es generalizing phi w with
  | nil => exact ⟨hw, fun v hv => by cases hv; rfl⟩
  | cons e es ih =>
    simp only [sumEdgesF, Py.bind_run]
    obtain ⟨h1, h2⟩ := edge_coherent hV.reverse hV.value o e hw.1
    have h3 := edge_wf (fun o a b w hw => by rw [(hV.value o a b w).1]; exact hw) o e hw.2
    rcases he : edgeMoment est o ctx e w with ⟨r, w1⟩
    rw [he] at h1 h2 h3
    cases r with
    | error er => exact ⟨⟨h1, h3⟩, by simp⟩
    | ok d =>
      obtain ⟨h3, h4⟩ := ih (A.cx (phi + d)) (w := w1) ⟨h1, h3⟩
      refine ⟨h3, fun v hv => ?_⟩
      rw [h4 v hv, List.foldl_cons, ← h2 d rfl]
      rfl

theorem calcMomentF_value {A : FloatOps K} {V : ℤ → Cx K → Cx K → Cx K} {est : LineEst σ K} {ctx : RCtx K} (hV : FixedValues est ctx V) (o : ℤ) (c : Cell K) {w : World σ K} (hw : CacheOf V w) :
    CacheOf V (calcMomentF A est o c.re c.im ctx w).2 ∧ ∀ v, (calcMomentF A est o c.re c.im ctx w).1 = .ok v → v = momentAround A V c o := by
  obtain ⟨h1, h2⟩ := sumEdgesF_value (A := A) hV o (edges c.re c.im) 0 hw
  exact ⟨h1, fun v hv => (h2 v hv).trans rfl⟩

/-- the moments of all orders -/
theorem momentsF_value {A : FloatOps K} {V : ℤ → Cx K → Cx K → Cx K} {est : LineEst σ K} {ctx : RCtx K} (hits : BoundaryHits est ctx) (hV : FixedValues est ctx V) (c : Cell K) (os : List ℤ)
    {w w' : World σ K} (hw : CacheOf V w) {ms : List (Cx K)} (h : momentsF A est c.re c.im ctx os w = (.ok ms, w')) :
    CacheOf V w' ∧ w'.log = w.log ∧ ms = os.map (momentAround A V c) ∧ ∃ zs, w'.added = w.added ++ zs ∧ ∀ r ∈ zs, r.2 = 0 ∧ ctx.f r.1 = 0 := by
  induction os generalizing w ms with
  | nil =>
    simp only [momentsF, Py.pure_run, Prod.mk.injEq, Except.ok.injEq] at h
    obtain ⟨rfl, rfl⟩ := h
    exact ⟨hw, rfl, rfl, [], by simp, by simp⟩
  | cons o os ih =>
    simp only [momentsF] at h
    rw [Py.bind_run] at h
    obtain ⟨v1, v2⟩ := calcMomentF_value (A := A) hV o c hw
    have hh := calcMomentF_hits (A := A) hits o c.re c.im w
    rcases hm : calcMomentF A est o c.re c.im ctx w with ⟨_ | m, w1⟩ <;> rw [hm] at h v1 v2 hh
    · simp at h
    dsimp only at h
    rw [Py.bind_run] at h
    obtain ⟨_, h2, _, zs, h4, h5⟩ := hh
    rcases hr : momentsF A est c.re c.im ctx os w1 with ⟨_ | m2, w2⟩ <;> rw [hr] at h
    · simp at h
    simp only [Py.pure_run, Prod.mk.injEq, Except.ok.injEq] at h
    obtain ⟨rfl, rfl⟩ := h
    obtain ⟨i1, i2, i3, zs2, i4, i5⟩ := ih v1 hr
    refine ⟨i1, i2.trans h2, by rw [i3, List.map_cons, v2 m rfl], zs ++ zs2, by rw [i4, h4, List.append_assoc], ?_⟩
    intro r hr
    rcases List.mem_append.1 hr with hr | hr
    · exact h5 r hr
    · exact i5 r hr

/-- what a completed stop does, with the cache of the fixed values -/
def ActsV (f : Cx K → Cx K) (V : ℤ → Cx K → Cx K → Cx K) (act : Cell K → Py (World σ K) Unit) (stop : Cell K → Prop) (Out : Cell K → List (Root K)) : Prop :=
  ∀ c w w', CacheOf V w → stop c → act c w = (.ok (), w') → CacheOf V w' ∧ w'.log = w.log ∧ ∃ zs, w'.added = w.added ++ (zs ++ Out c) ∧ ∀ r ∈ zs, r.2 = 0 ∧ f r.1 = 0

theorem phaseOfF_value {A : FloatOps K} {V : ℤ → Cx K → Cx K → Cx K} {est : LineEst σ K} {ctx : RCtx K} (hits : BoundaryHits est ctx) (hV : FixedValues est ctx V) {re im : K × K} {w w' : World σ K} {phi : K}
    (hw : CacheOf V w) (h : phaseOfF A est re im ctx w = (.ok phi, w')) : CacheOf V w' ∧ phi = phaseAround A V ⟨re, im, phi⟩ := by
  have h1 := phaseOfF_tells (A := A) hV.reverse hits hV.value w.log re im w ⟨hw, [], by simp, by simp⟩
  have h2 := (phaseOfF_ok hits h).1
  rw [h] at h1
  obtain ⟨k1, new, k2, k3⟩ := h1
  refine ⟨k1, ?_⟩
  dsimp only at k2
  rw [h2, List.append_cancel_left_eq] at k2
  exact k3 ⟨re, im, phi⟩ (by rw [← k2]; simp)

/-- completed runs of a variant which looks at moments where it stops -/
theorem dispatchV_run {A : FloatOps K} {u : K} (hA : Rounds A.fl u) {est : LineEst σ K} {ctx : RCtx K} (hest : BoundaryHits est ctx) {V : ℤ → Cx K → Cx K → Cx K} (hV : FixedValues est ctx V)
    {body : Decide σ K → Decide σ K} {stop : Cell K → Prop} {act : Cell K → Py (World σ K) Unit} {Out : Cell K → List (Root K)}
    (hs : StopsF A est ctx body stop act) (ha : ActsV ctx.f V act stop Out) (limit : ℕ)
    (c : Cell K) (hc : OkCell A c) (w w' : World σ K) (hw : CacheOf V w) (h : (dispatch body limit).at ctx c w = (.ok (), w')) :
    ∃ L R, w'.log = w.log ++ L ∧ w'.added = w.added ++ R ∧ (∀ l ∈ L, Cell.In l c ∧ OkCell A l) ∧
      (∀ r ∈ R, (r.2 = 0 ∧ ctx.f r.1 = 0) ∨ ∃ l ∈ c :: L, stop l ∧ r ∈ Out l) ∧
      (∀ M, Splits A ctx.precision M → M c → ∃ l ∈ c :: L, M l ∧ stop l ∧ ∀ r ∈ Out l, r ∈ R) ∧
      CacheOf V w' ∧ ∀ l ∈ L, l.phi = phaseAround A V l := by
  induction limit generalizing c w w' with
  | zero => simp [dispatch, Decide.at] at h
  | succ limit ih =>
    have hd : (dispatch body (limit + 1)).at ctx c = (body (dispatch body limit)).at ctx c := rfl
    rw [hd] at h
    by_cases hst : stop c
    · rw [(hs _ c).1 hst] at h
      obtain ⟨h0, h1, zs, h2, h3⟩ := ha c w w' hw hst h
      refine ⟨[], zs ++ Out c, by simp [h1], h2, by simp, fun r hr => ?_, fun M _ hz => ⟨c, by simp, hz, hst, fun r hr => by simp [hr]⟩, h0, by simp⟩
      rcases List.mem_append.1 hr with hr | hr
      · exact .inl (h3 r hr)
      · exact .inr ⟨c, by simp, hst, hr⟩
    · rw [(hs _ c).2 hst] at h
      unfold splitStepF at h
      rw [Py.bind_run] at h
      rcases hp1 : phaseOfF A est (halfF1 A ctx.precision c 0).re (halfF1 A ctx.precision c 0).im ctx w
        with ⟨_ | phi1, w1⟩ <;> rw [hp1] at h
      · simp at h
      dsimp only at h
      rw [Py.bind_run] at h
      rcases hr1 : (dispatch body limit).at ctx (halfF1 A ctx.precision c phi1) w1
        with ⟨_ | _, w2⟩ <;> rw [hr1] at h
      · simp at h
      dsimp only at h
      rw [Py.bind_run] at h
      simp only [cacheRemove, Py.modify_run] at h
      rw [Py.bind_run] at h
      generalize dropF1 A ctx.precision c = e1 at h
      rcases hp2 : phaseOfF A est (halfF2 A ctx.precision c 0).re (halfF2 A ctx.precision c 0).im ctx
        { w2 with cache := w2.cache.remove 0 e1.1 e1.2 }
        with ⟨_ | phi2, w3⟩ <;> rw [hp2] at h
      · simp at h
      dsimp only at h
      rw [Py.bind_run] at h
      rcases hr2 : (dispatch body limit).at ctx (halfF2 A ctx.precision c phi2) w3
        with ⟨_ | _, w4⟩ <;> rw [hr2] at h
      · simp at h
      simp only [Py.modify_run, Prod.mk.injEq, true_and] at h
      subst h
      have e1 : (⟨(halfF1 A ctx.precision c 0).re, (halfF1 A ctx.precision c 0).im, phi1⟩ : Cell K) =
          halfF1 A ctx.precision c phi1 := by unfold halfF1; split <;> rfl
      have e2 : (⟨(halfF2 A ctx.precision c 0).re, (halfF2 A ctx.precision c 0).im, phi2⟩ : Cell K) =
          halfF2 A ctx.precision c phi2 := by unfold halfF2; split <;> rfl
      obtain ⟨⟨k1, k2⟩, ⟨i1, i2⟩, _⟩ := halfF_ok hA (p := ctx.precision) hc phi1 phi2
      obtain ⟨a1, a3, z1, a4, a5⟩ := phaseOfF_ok hest hp1
      obtain ⟨v1, v2⟩ := phaseOfF_value hest hV hw hp1
      obtain ⟨L1, R1, b1, b2, b3, b4, b5, b6, b7⟩ := ih _ k1 _ _ v1 hr1
      obtain ⟨c1, c3, z2, c4, c5⟩ := phaseOfF_ok hest hp2
      obtain ⟨v3, v4⟩ := phaseOfF_value hest hV (CacheOf.remove w2 _ _ b6) hp2
      obtain ⟨L2, R2, d1, d2, d3, d4, d5, d6, d7⟩ := ih _ k2 _ _ v3 hr2
      dsimp only at c1 c4
      rw [e1] at a1 v2
      rw [e2] at c1 v4
      have v2' : (halfF1 A ctx.precision c phi1).phi = phaseAround A V (halfF1 A ctx.precision c phi1) := by
        rw [← v2]; unfold halfF1; split <;> rfl
      have v4' : (halfF2 A ctx.precision c phi2).phi = phaseAround A V (halfF2 A ctx.precision c phi2) := by
        rw [← v4]; unfold halfF2; split <;> rfl
      have hcov : ∀ M, Splits A ctx.precision M → M c → M (halfF1 A ctx.precision c phi1) ∨
          M (halfF2 A ctx.precision c phi2) := fun M hM => hM c phi1 phi2 hc
      generalize halfF1 A ctx.precision c phi1 = h1 at *
      generalize halfF2 A ctx.precision c phi2 = h2 at *
      refine ⟨h1 :: L1 ++ h2 :: L2, z1 ++ R1 ++ (z2 ++ R2), ?_, ?_, ?_, ?_, ?_, CacheOf.remove _ _ _ d6, ?_⟩
      · dsimp only
        rw [d1, c1, b1, a1]; simp
      · dsimp only
        rw [d2, c4, b2, a4]; simp
      · intro l hl
        simp only [List.cons_append, List.mem_cons, List.mem_append] at hl
        rcases hl with rfl | hl | rfl | hl
        · exact ⟨i1, k1⟩
        · exact ⟨(b3 l hl).1.trans i1, (b3 l hl).2⟩
        · exact ⟨i2, k2⟩
        · exact ⟨(d3 l hl).1.trans i2, (d3 l hl).2⟩
      · intro r hr
        simp only [List.mem_append] at hr
        rcases hr with (hr | hr) | hr | hr
        · exact Or.inl (a5 r hr)
        · rcases b4 r hr with h | ⟨l, hl, h⟩
          · exact Or.inl h
          · refine Or.inr ⟨l, ?_, h⟩
            simp only [List.cons_append, List.mem_cons, List.mem_append] at hl ⊢
            tauto
        · exact Or.inl (c5 r hr)
        · rcases d4 r hr with h | ⟨l, hl, h⟩
          · exact Or.inl h
          · refine Or.inr ⟨l, ?_, h⟩
            simp only [List.cons_append, List.mem_cons, List.mem_append] at hl ⊢
            tauto
      · intro M hM hz
        rcases hcov M hM hz with hz | hz
        · obtain ⟨l, hl, g1, g2, g4⟩ := b5 M hM hz
          exact ⟨l, by simp only [List.cons_append, List.mem_cons, List.mem_append] at hl ⊢; tauto, g1, g2,
            fun r hr => by simp [g4 r hr]⟩
        · obtain ⟨l, hl, g1, g2, g4⟩ := d5 M hM hz
          exact ⟨l, by simp only [List.cons_append, List.mem_cons, List.mem_append] at hl ⊢; tauto, g1, g2,
            fun r hr => by simp [g4 r hr]⟩
      · intro l hl
        simp only [List.cons_append, List.mem_cons, List.mem_append] at hl
        rcases hl with rfl | hl | rfl | hl
        · exact v2'
        · exact b7 l hl
        · exact v4'
        · exact d7 l hl

/-- where the variant stops -/
def polyStopF (A : FloatOps K) (pi : K) (p : ℤ × ℤ) (c : Cell K) : Prop := stopF A pi p c ∨ Cell.FewTurnsF A pi c

/-- what it does there -/
def polyActF (A : FloatOps K) (poly : List (Cx K) → ℤ × ℤ → List (Root K)) (est : LineEst σ K) (pi : K) (ctx : RCtx K) (c : Cell K) : Py (World σ K) Unit :=
  if stopF A pi ctx.precision c then actF A pi ctx c
  else do
    let ms ← momentsF A est c.re c.im ctx ((List.range (roundHalfEven (A.fl (c.phi / A.fl (2 * pi)))).toNat).map fun (k : ℕ) => (k : ℤ) + 1)
    World.addRoots (poly ms ctx.precision)
    World.advance ctx (A.fl (A.fl (c.re.2 - c.re.1) * A.fl (c.im.2 - c.im.1)))

theorem polyF_stops (A : FloatOps K) (poly : List (Cx K) → ℤ × ℤ → List (Root K)) (est : LineEst σ K) (pi : K) (ctx : RCtx K) {df : Cx K → Cx K} (hdf : ctx.df = some df) :
    StopsF A est ctx (polynomialDecideF A poly est pi) (polyStopF A pi ctx.precision) (polyActF A poly est pi ctx) := by
  intro self c
  have hd : (polynomialDecideF A poly est pi self).at ctx c =
      if A.twoPi pi < c.phi ∧ SmallF A ctx.precision c then getRootFromRectangleF A pi c.re.2 c.re.1 c.im.2 c.im.1 c.phi ctx
      else if Cell.FewTurnsF A pi c then do
        let ms ← momentsF A est c.re c.im ctx ((List.range (roundHalfEven (A.fl (c.phi / A.fl (2 * pi)))).toNat).map fun (k : ℕ) => (k : ℤ) + 1)
        World.addRoots (poly ms ctx.precision)
        World.advance ctx (A.fl (A.fl (c.re.2 - c.re.1) * A.fl (c.im.2 - c.im.1)))
      else (simpleDecideF A est pi self).at ctx c := by
    cases ctx
    cases hdf
    unfold polynomialDecideF Decide.at Cell.FewTurnsF SmallF FloatOps.twoPi FloatOps.maxPhase
    rfl
  rw [hd, simpleDecideF_eq]
  unfold polyActF polyStopF
  by_cases h1 : A.twoPi pi < c.phi ∧ SmallF A ctx.precision c
  · have ht : Cell.TurnsF A pi c := h1.1.le
    have a : stopF A pi ctx.precision c := .inr h1.2
    have b : (getRootFromRectangleF A pi c.re.2 c.re.1 c.im.2 c.im.1 c.phi ctx : Py (World σ K) Unit) = actF A pi ctx c := by
      unfold actF
      rw [if_neg (not_not.2 ht)]
      rfl
    rw [if_pos h1, if_pos a, b]
    exact ⟨fun _ => rfl, fun h => absurd (Or.inl a) h⟩
  · rw [if_neg h1]
    by_cases h2 : Cell.FewTurnsF A pi c
    · rw [if_pos h2]
      have hs : ¬ stopF A pi ctx.precision c := by
        rintro (h | h)
        · exact h (le_of_lt h2.1)
        · exact h1 ⟨h2.1, h⟩
      rw [if_neg hs]
      exact ⟨fun _ => rfl, fun h => absurd (Or.inr h2) h⟩
    · rw [if_neg h2]
      by_cases h3 : stopF A pi ctx.precision c
      · rw [if_pos h3, if_pos h3]
        exact ⟨fun _ => rfl, fun h => absurd (Or.inl h3) h⟩
      · rw [if_neg h3]
        refine ⟨fun h => ?_, fun _ => rfl⟩
        rcases h with h | h
        · exact absurd h h3
        · exact absurd h h2

/-- the roots handed over there -/
def polyOutF (A : FloatOps K) (poly : List (Cx K) → ℤ × ℤ → List (Root K)) (V : ℤ → Cx K → Cx K → Cx K) (pi : K) (p : ℤ × ℤ) (c : Cell K) : List (Root K) :=
  if Cell.TurnsF A pi c then if SmallF A p c then [candF A pi c] else poly (momentsAround A pi V c) p else []

theorem polyF_acts (A : FloatOps K) (poly : List (Cx K) → ℤ × ℤ → List (Root K)) {est : LineEst σ K} (pi : K) {ctx : RCtx K} (hits : BoundaryHits est ctx) {V : ℤ → Cx K → Cx K → Cx K}
    (hV : FixedValues est ctx V) : ActsV ctx.f V (polyActF A poly est pi ctx) (polyStopF A pi ctx.precision) (polyOutF A poly V pi ctx.precision) := by
  intro c w w' hw hstop h
  have kc : ∀ a (w : World σ K), (World.advance ctx a w).2.cache = w.cache := KeepsCache.advance ctx
  unfold polyActF at h
  unfold polyOutF
  by_cases hs : stopF A pi ctx.precision c
  · rw [if_pos hs] at h
    unfold actF at h
    by_cases ht : Cell.TurnsF A pi c
    · have hsm : SmallF A ctx.precision c := hs.resolve_left (not_not.2 ht)
      rw [if_neg (not_not.2 ht), Py.bind_run] at h
      have kr := KeepsCache.addRoot (candF A pi c) w
      rcases ha : World.addRoot (candF A pi c) w with ⟨_ | _, w1⟩ <;> rw [ha] at h kr
      · simp at h
      · dsimp only at h
        obtain ⟨k1, k2⟩ := advance_keeps h
        have k3 := kc (A.fl (A.fl (c.re.2 - c.re.1) * A.fl (0 - 0))) w1
        rw [h] at k3
        have : w1.log = w.log ∧ w1.added = w.added ++ [candF A pi c] := by
          unfold World.addRoot at ha
          rw [Py.bind_run] at ha
          rcases hf : w.fuse with _ | _ | n <;> simp [World.tick, hf] at ha
          all_goals
            obtain rfl := ha
            exact ⟨rfl, rfl⟩
        refine ⟨(hw.congr kr).congr k3, k1.trans this.1, [], ?_, by simp⟩
        rw [if_pos ht, if_pos hsm, List.nil_append]
        exact k2.trans this.2
    · rw [if_pos ht] at h
      obtain ⟨k1, k2⟩ := advance_keeps h
      have k3 := kc (A.fl (A.fl (c.re.2 - c.re.1) * A.fl (c.im.2 - c.im.1))) w
      rw [h] at k3
      exact ⟨hw.congr k3, k1, [], by rw [if_neg ht]; simp [k2], by simp⟩
  · rw [if_neg hs] at h
    have ht : Cell.TurnsF A pi c := by
      by_contra ht
      exact hs (.inl ht)
    have hsm : ¬ SmallF A ctx.precision c := fun h => hs (.inr h)
    rw [if_pos ht, if_neg hsm]
    rw [Py.bind_run] at h
    rcases hm : momentsF A est c.re c.im ctx ((List.range (roundHalfEven (A.fl (c.phi / A.fl (2 * pi)))).toNat).map fun (k : ℕ) => (k : ℤ) + 1) w with ⟨_ | ms, w1⟩ <;> rw [hm] at h
    · simp at h
    obtain ⟨m1, m2, m3, zs, m4, m5⟩ := momentsF_value hits hV c _ hw hm
    rw [List.map_map] at m3
    have m3 : ms = momentsAround A pi V c := m3
    dsimp only at h
    rw [Py.bind_run] at h
    have kr := KeepsCache.addRoots (poly ms ctx.precision) w1
    rcases hr : World.addRoots (poly ms ctx.precision) w1 with ⟨_ | _, w2⟩ <;> rw [hr] at h kr
    · simp at h
    obtain ⟨a1, _, a3⟩ := addRoots_ok hr
    dsimp only at h
    obtain ⟨k1, k2⟩ := advance_keeps h
    have k3 := kc (A.fl (A.fl (c.re.2 - c.re.1) * A.fl (c.im.2 - c.im.1))) w2
    rw [h] at k3
    exact ⟨(m1.congr kr).congr k3, by rw [k1, a3, m2], zs, by rw [k2, a1, m4, m3, List.append_assoc], m5⟩

/-- without a derivative the search does not complete -/
theorem polyF_df {A : FloatOps K} {poly : List (Cx K) → ℤ × ℤ → List (Root K)} {est : LineEst σ K} {pi : K} {limit : ℕ} {ctx : RCtx K} {w w' : World σ K}
    (h : associatedPolynomialF A poly est pi limit ctx w = (.ok (), w')) : ∃ df, ctx.df = some df := by
  rcases hdf : ctx.df with _ | df
  · exfalso
    unfold associatedPolynomialF resetCache at h
    rw [Py.bind_run, Py.modify_run] at h
    dsimp only at h
    generalize (if w.cache.dirty = true then { w with cache := w.cache.reset } else w) = w0 at h
    rw [Py.bind_run] at h
    rcases hp : phaseOfF A est ctx.reRan ctx.imRan ctx w0 with ⟨_ | phi, w1⟩ <;> rw [hp] at h
    · simp at h
    rcases limit with _ | limit
    · simp [dispatch] at h
    · simp [dispatch, polynomialDecideF, hdf] at h
  · exact ⟨df, rfl⟩

theorem polyF_run {A : FloatOps K} {u : K} (hA : Rounds A.fl u) (poly : List (Cx K) → ℤ × ℤ → List (Root K)) {est : LineEst σ K} {pi : K} {ctx : RCtx K} (hest : BoundaryHits est ctx)
    {V : ℤ → Cx K → Cx K → Cx K} (hV : FixedValues est ctx V) (limit : ℕ) (hc : OkCell A ⟨ctx.reRan, ctx.imRan, 0⟩) (w w' : World σ K) (h : associatedPolynomialF A poly est pi limit ctx w = (.ok (), w')) :
    (∀ l ∈ newCells w w', (Cell.In l ⟨ctx.reRan, ctx.imRan, 0⟩ ∧ OkCell A l) ∧ l.phi = phaseAround A V l) ∧
    (∀ r ∈ newRoots w w', (r.2 = 0 ∧ ctx.f r.1 = 0) ∨ ∃ l ∈ newCells w w', polyStopF A pi ctx.precision l ∧ r ∈ polyOutF A poly V pi ctx.precision l) ∧
    ∀ M, Splits A ctx.precision M → (∀ phi, M ⟨ctx.reRan, ctx.imRan, phi⟩) →
      ∃ l ∈ newCells w w', M l ∧ polyStopF A pi ctx.precision l ∧ ∀ r ∈ polyOutF A poly V pi ctx.precision l, r ∈ newRoots w w' := by
  obtain ⟨df, hdf⟩ := polyF_df h
  unfold associatedPolynomialF resetCache at h
  rw [Py.bind_run, Py.modify_run] at h
  dsimp only at h
  generalize hw0 : (if w.cache.dirty = true then { w with cache := w.cache.reset } else w) = w0 at h
  have g1 : w0.log = w.log := by rw [← hw0]; split <;> rfl
  have g3 : w0.added = w.added := by rw [← hw0]; split <;> rfl
  have g4 : CacheOf V w0 := by
    rw [← hw0]
    by_cases hd : w.cache.dirty = true
    · rw [if_pos hd]; exact (CacheOf.reset w).1
    · rw [if_neg hd]; exact (CacheOf.reset w).2 (by simpa using hd)
  rw [Py.bind_run] at h
  rcases hp : phaseOfF A est ctx.reRan ctx.imRan ctx w0 with ⟨_ | phi, w1⟩ <;> rw [hp] at h
  · simp at h
  dsimp only at h
  obtain ⟨a1, a3, zs, a4, a5⟩ := phaseOfF_ok hest hp
  obtain ⟨v1, v2⟩ := phaseOfF_value hest hV g4 hp
  obtain ⟨L, R, b1, b2, b3, b4, b5, _, b7⟩ := dispatchV_run hA hest hV (polyF_stops A poly est pi ctx hdf) (polyF_acts A poly pi hest hV) limit ⟨ctx.reRan, ctx.imRan, phi⟩ hc w1 w' v1 h
  have hcells : newCells w w' = ⟨ctx.reRan, ctx.imRan, phi⟩ :: L := by
    unfold newCells; rw [b1, a1, g1]; simp
  have hroots : newRoots w w' = zs ++ R := by unfold newRoots; rw [b2, a4, g3]; simp
  rw [hcells, hroots]
  refine ⟨?_, ?_, ?_⟩
  · intro l hl
    rcases List.mem_cons.1 hl with rfl | hl
    · exact ⟨⟨⟨le_refl _, hc.2.1, le_refl _, le_refl _, hc.2.2, le_refl _⟩, hc⟩, v2⟩
    · exact ⟨b3 l hl, b7 l hl⟩
  · intro r hr
    rcases List.mem_append.1 hr with hr | hr
    · exact Or.inl (a5 r hr)
    · exact b4 r hr
  · intro M hM hz
    obtain ⟨l, hl, q1, q2, q3⟩ := b5 M hM (hz phi)
    exact ⟨l, hl, q1, q2, fun r hr => by simp [q3 r hr]⟩

/-! ## Depth, and runs which return -/

theorem calcMomentF_never {A : FloatOps K} {est : LineEst σ K} {ctx : RCtx K} (hest : ∀ order a b, Never .recursionError (est order a b ctx)) (o : ℤ) (re im : K × K) :
    Never .recursionError (calcMomentF A est o re im ctx) := by
  have hcl := Never.closed (σ := σ) ctx.f .recursionError (by simp [Err.ofEstimator]) (by simp)
  unfold calcMomentF
  generalize (0 : Cx K) = phi
  generalize edges re im = es
  induction es generalizing phi with
  | nil => exact Never.pure _
  | cons e es ih => exact Never.bind (hcl.edgeMoment hest o e) fun d => ih _

theorem calcMomentF_calm {A : FloatOps K} {est : LineEst σ K} {ctx : RCtx K} (hest : ∀ order a b, CalmF (est order a b ctx)) (o : ℤ) (re im : K × K) :
    CalmF (calcMomentF A est o re im ctx) := by
  unfold calcMomentF
  generalize (0 : Cx K) = phi
  generalize edges re im = es
  induction es generalizing phi with
  | nil => exact CalmF.pure _
  | cons e es ih =>
    refine CalmF.bind ?_ fun d => ih _
    have hc : CalmF (edgeMoment.compute est o ctx e) :=
      CalmF.bind CalmF.tick fun _ => CalmF.bind (hest _ _ _) fun d =>
        CalmF.bind (CalmF.modify fun _ => rfl) fun _ => CalmF.pure _
    unfold edgeMoment
    refine CalmF.bind (fun w hw => ⟨hw, by simp [World.retrieve]⟩) fun v => ?_
    rcases v with _ | v
    · exact hc
    · dsimp only
      split
      · exact CalmF.pure _
      · exact hc

theorem polyActF_calm (A : FloatOps K) (poly : List (Cx K) → ℤ × ℤ → List (Root K)) {est : LineEst σ K} (pi : K) {ctx : RCtx K} (c : Cell K) :
    ((∀ order a b, CalmF (est order a b ctx)) → CalmF (polyActF A poly est pi ctx c)) ∧
    ((∀ order a b, Never .recursionError (est order a b ctx)) → Never .recursionError (polyActF A poly est pi ctx c)) := by
  unfold polyActF
  split
  · unfold actF
    split
    · exact ⟨fun _ => CalmF.advance _ _, fun _ => never_advance (by simp) ctx _⟩
    · exact ⟨fun _ => CalmF.bind (CalmF.addRoot _) fun _ => CalmF.advance _ _, fun _ => Never.bind (never_addRoot (by simp) _) fun _ => never_advance (by simp) ctx _⟩
  · constructor
    · intro hest
      refine CalmF.bind ?_ fun ms => CalmF.bind ?_ fun _ => CalmF.advance _ _
      · generalize ((List.range (roundHalfEven (A.fl (c.phi / A.fl (2 * pi)))).toNat).map fun (k : ℕ) => (k : ℤ) + 1) = os
        induction os with
        | nil => exact CalmF.pure _
        | cons o os ih => exact CalmF.bind (calcMomentF_calm hest o _ _) fun m => CalmF.bind ih fun _ => CalmF.pure _
      · generalize poly ms ctx.precision = rs
        induction rs with
        | nil => exact CalmF.pure _
        | cons r rs ih => exact CalmF.bind (CalmF.addRoot _) fun _ => ih
    · intro hest
      refine Never.bind ?_ fun ms => Never.bind ?_ fun _ => never_advance (by simp) ctx _
      · generalize ((List.range (roundHalfEven (A.fl (c.phi / A.fl (2 * pi)))).toNat).map fun (k : ℕ) => (k : ℤ) + 1) = os
        induction os with
        | nil => exact Never.pure _
        | cons o os ih => exact Never.bind (calcMomentF_never hest o _ _) fun m => Never.bind ih fun _ => Never.pure _
      · generalize poly ms ctx.precision = rs
        induction rs with
        | nil => exact Never.pure _
        | cons r rs ih => exact Never.bind (never_addRoot (by simp) _) fun _ => ih

theorem polyF_calm {A : FloatOps K} (poly : List (Cx K) → ℤ × ℤ → List (Root K)) {est : LineEst σ K} {pi : K} {ctx : RCtx K} {df : Cx K → Cx K} (hdf : ctx.df = some df)
    (hest : ∀ order a b, CalmF (est order a b ctx)) (limit : ℕ) : CalmF (associatedPolynomialF A poly est pi limit ctx) := by
  unfold associatedPolynomialF resetCache
  refine CalmF.bind (CalmF.modify fun w => by split <;> rfl) fun _ => ?_
  exact CalmF.bind (phaseOfF_calm hest _ _) fun phi =>
    dispatchG_calm (polyF_stops A poly est pi ctx hdf) (fun c => (polyActF_calm A poly pi c).1 hest) hest limit ⟨ctx.reRan, ctx.imRan, phi⟩

theorem polyStopF_small {A : FloatOps K} {pi : K} {p : ℤ × ℤ} (c : Cell K) (h : ¬ polyStopF A pi p c) : ¬ SmallF A p c := fun hs => h (.inl (.inr hs))

/-- without a derivative the search raises -/
theorem polyF_value {A : FloatOps K} {poly : List (Cx K) → ℤ × ℤ → List (Root K)} {est : LineEst σ K} {pi : K} (limit : ℕ) {ctx : RCtx K} (hdf : ctx.df = none)
    (hest : ∀ order a b, CalmF (est order a b ctx)) (hret : ∀ order a b, Never .recursionError (est order a b ctx)) (w : World σ K) (hw : w.fuse = none) :
    (associatedPolynomialF A poly est pi (limit + 1) ctx w).1 = .error .valueError := by
  unfold associatedPolynomialF resetCache
  rw [Py.bind_run, Py.modify_run]
  dsimp only
  have hw0 : (if w.cache.dirty = true then { w with cache := w.cache.reset } else w).fuse = none := by split <;> exact hw
  generalize (if w.cache.dirty = true then { w with cache := w.cache.reset } else w) = w0 at hw0 ⊢
  rw [Py.bind_run]
  have h1 := phaseOfF_calm (A := A) hest ctx.reRan ctx.imRan w0 hw0
  have h2 := phaseOfF_never (A := A) hret ctx.reRan ctx.imRan w0
  rcases hp : phaseOfF A est ctx.reRan ctx.imRan ctx w0 with ⟨e | phi, w1⟩ <;> rw [hp] at h1 h2
  · have := h1.2 e rfl
    subst this
    exact absurd rfl h2
  · simp [dispatch, polynomialDecideF, hdf]

/-! ## Exact arithmetic -/

theorem calcMomentF_exact (est : LineEst σ K) (o : ℤ) (re im : K × K) (ctx : RCtx K) : calcMomentF (FloatOps.exact K) est o re im ctx = calcMoment est o re im ctx := by
  unfold calcMomentF calcMoment
  rw [sumEdgesF_exact]

theorem momentsF_exact (est : LineEst σ K) (pi : K) (re im : K × K) (ctx : RCtx K) (os : List ℤ) (w : World σ K) :
    moments est pi re im ctx os w = match momentsF (FloatOps.exact K) est re im ctx os w with
      | (.ok ms, w') => (.ok (ms.map fun m => Cx.divK m (2 * pi)), w')
      | (.error e, w') => (.error e, w') := by
  induction os generalizing w with
  | nil => rfl
  | cons o os ih =>
    simp only [moments, momentsF]
    rw [Py.bind_run, Py.bind_run, calcMomentF_exact]
    rcases calcMoment est o re im ctx w with ⟨_ | m, w1⟩
    · rfl
    · dsimp only
      rw [Py.bind_run, Py.bind_run, ih]
      rcases momentsF (FloatOps.exact K) est re im ctx os w1 with ⟨_ | ms, w2⟩ <;> rfl

/-- the exact steps from the moments to the roots -/
def polyExact (polyRoots : List (Cx K) → List (Cx K)) (pi : K) (ms : List (Cx K)) (p : ℤ × ℤ) : List (Root K) :=
  (getRootsWithOrders (polyRoots (coefficientsFromMoments (ms.map fun m => Cx.divK m (2 * pi)))) p).1.zip
    (getRootsWithOrders (polyRoots (coefficientsFromMoments (ms.map fun m => Cx.divK m (2 * pi)))) p).2

theorem polynomialDecideF_exact (polyRoots : List (Cx K) → List (Cx K)) (est : LineEst σ K) (pi : K) (self : Decide σ K) :
    polynomialDecideF (FloatOps.exact K) (polyExact polyRoots pi) est pi self = polynomialDecide polyRoots est pi self := by
  funext re im phi ctx
  have h1 : (FloatOps.exact K).twoPi pi = TWO_PI pi := by simp [FloatOps.twoPi, FloatOps.exact, TWO_PI]
  have h2 : (FloatOps.exact K).maxPhase pi = MAX_PHASE pi := by simp [FloatOps.maxPhase, FloatOps.exact, MAX_PHASE]
  unfold polynomialDecideF polynomialDecide
  rw [h1, h2, simpleDecideF_exact]
  rcases ctx.df with _ | df
  · rfl
  · have h3 : (do
        let ms ← momentsF (FloatOps.exact K) est re im ctx ((List.range (roundHalfEven (phi / (2 * pi))).toNat).map fun (k : ℕ) => (k : ℤ) + 1)
        World.addRoots (polyExact polyRoots pi ms ctx.precision)
        World.advance ctx ((re.2 - re.1) * (im.2 - im.1)) : Py (World σ K) Unit) = (do
        let ms ← moments est pi re im ctx ((List.range (roundHalfEven (phi / (2 * pi))).toNat).map fun (k : ℕ) => (k : ℤ) + 1)
        let r := getRootsWithOrders (polyRoots (coefficientsFromMoments ms)) ctx.precision
        World.addRoots (r.1.zip r.2)
        World.advance ctx ((re.2 - re.1) * (im.2 - im.1))) := by
      funext w
      rw [Py.bind_run, Py.bind_run, momentsF_exact]
      rcases momentsF (FloatOps.exact K) est re im ctx ((List.range (roundHalfEven (phi / (2 * pi))).toNat).map fun (k : ℕ) => (k : ℤ) + 1) w with ⟨_ | ms, w1⟩ <;> rfl
    exact ite_congr rfl (fun _ => rfl) fun _ => ite_congr rfl (fun _ => h3) fun _ => rfl

theorem polyF_exact (polyRoots : List (Cx K) → List (Cx K)) (est : LineEst σ K) (pi : K) (limit : ℕ) (ctx : RCtx K) :
    associatedPolynomialF (FloatOps.exact K) (polyExact polyRoots pi) est pi limit ctx = associatedPolynomial polyRoots est pi limit ctx := by
  have hb : polynomialDecideF (σ := σ) (FloatOps.exact K) (polyExact polyRoots pi) est pi = polynomialDecide polyRoots est pi := funext fun self => polynomialDecideF_exact polyRoots est pi self
  unfold associatedPolynomialF associatedPolynomial calcRoots
  rw [hb, phaseOfF_exact]

end PyZeal
