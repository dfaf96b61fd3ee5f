import Verif.Spec.Float
import Verif.Proof.Rounding
import Verif.Proof.Exact

/-! # The search in floating-point arithmetic -/

set_option linter.unusedSectionVars false

namespace PyZeal
open Spec
variable {K : Type} {σ : Type} [Field K] [LinearOrder K] [IsStrictOrderedRing K] [FloorRing K]

/-! ## Arithmetic -/

section
variable {A : FloatOps K} {u : K} (hA : Rounds A.fl u)
include hA

theorem Spec.Rounds.half (x : K) : A.fl (x / 2) = A.fl x / 2 := by
  have := hA.double (x / 2)
  rw [show 2 * (x / 2) = x by ring] at this
  rw [this]; ring

theorem Spec.Rounds.mid_eq (a b : K) : A.mid a b = A.fl (a + b) / 2 := by
  unfold FloatOps.mid; rw [hA.half, hA.idem]

theorem Spec.Rounds.machine_mid (a b : K) : Machine A.fl (A.mid a b) := hA.idem _

/-- midpoints of machine numbers lie between them -/
theorem Spec.Rounds.le_mid {a b : K} (ha : Machine A.fl a) (hb : Machine A.fl b) (h : a ≤ b) :
    a ≤ A.mid a b ∧ A.mid a b ≤ b := by
  rw [hA.mid_eq]
  have h1 := hA.mono (2 * a) (a + b) (by linarith)
  have h2 := hA.mono (a + b) (2 * b) (by linarith)
  rw [hA.double, ha] at h1
  rw [hA.double, hb] at h2
  constructor <;> linarith

theorem Spec.Rounds.mid_err {a b R : K} (ha : |a| ≤ R) (hb : |b| ≤ R) : |A.mid a b - (a + b) / 2| ≤ u * R := by
  rw [hA.mid_eq]
  have h := hA.near (a + b)
  have h2 : |a + b| ≤ 2 * R := le_trans (abs_add_le a b) (by linarith)
  have e : |A.fl (a + b) / 2 - (a + b) / 2| = |A.fl (a + b) - (a + b)| / 2 := by
    rw [← sub_div, abs_div, abs_two]
  rw [e]
  have := mul_le_mul_of_nonneg_left h2 hA.u_nonneg
  linarith

theorem Spec.Rounds.zero : A.fl 0 = 0 := by
  have := hA.double 0
  rw [mul_zero] at this; linarith

/-- a difference computed as smaller than a machine number is smaller -/
theorem Spec.Rounds.lt_of_fl_lt {d e : K} (he : Machine A.fl e) (h : A.fl d < e) : d < e := by
  by_contra hc
  push Not at hc
  have := hA.mono e d hc
  rw [he] at this
  linarith

theorem Spec.Rounds.fl_nonneg {d : K} (h : 0 ≤ d) : 0 ≤ A.fl d := by
  have := hA.mono 0 d h
  rwa [hA.zero] at this

end

/-! ## One step -/

/-- the computed side lengths are below the computed bounds -/
def SmallF (A : FloatOps K) (p : ℤ × ℤ) (c : Cell K) : Prop :=
  A.fl (c.re.2 - c.re.1) < A.pow10 p.1 ∧ A.fl (c.im.2 - c.im.1) < A.pow10 p.2

instance (A : FloatOps K) (p : ℤ × ℤ) (c : Cell K) : Decidable (SmallF A p c) := by
  unfold SmallF; infer_instance

instance (A : FloatOps K) (pi : K) (c : Cell K) : Decidable (Cell.TurnsF A pi c) := by
  unfold Cell.TurnsF; infer_instance

/-- does the code split the real side? -/
def SplitReF (A : FloatOps K) (p : ℤ × ℤ) (c : Cell K) : Prop :=
  A.fl (A.fl (c.re.2 - c.re.1) / A.pow10 p.1) > A.fl (A.fl (c.im.2 - c.im.1) / A.pow10 p.2)

instance (A : FloatOps K) (p : ℤ × ℤ) (c : Cell K) : Decidable (SplitReF A p c) := by
  unfold SplitReF; infer_instance

def halfF1 (A : FloatOps K) (p : ℤ × ℤ) (c : Cell K) (phi : K) : Cell K :=
  if SplitReF A p c then ⟨(c.re.1, A.mid c.re.1 c.re.2), c.im, phi⟩
  else ⟨c.re, (c.im.1, A.mid c.im.1 c.im.2), phi⟩
def halfF2 (A : FloatOps K) (p : ℤ × ℤ) (c : Cell K) (phi : K) : Cell K :=
  if SplitReF A p c then ⟨(A.mid c.re.1 c.re.2, c.re.2), c.im, phi⟩
  else ⟨c.re, (A.mid c.im.1 c.im.2, c.im.2), phi⟩

def dropF1 (A : FloatOps K) (p : ℤ × ℤ) (c : Cell K) : Cx K × Cx K :=
  if SplitReF A p c then (⟨c.re.1, c.im.2⟩, ⟨c.re.1, c.im.1⟩) else (⟨c.re.1, c.im.1⟩, ⟨c.re.2, c.im.1⟩)
def dropF2 (A : FloatOps K) (p : ℤ × ℤ) (c : Cell K) : Cx K × Cx K :=
  if SplitReF A p c then (⟨c.re.2, c.im.1⟩, ⟨c.re.2, c.im.2⟩) else (⟨c.re.2, c.im.2⟩, ⟨c.re.1, c.im.2⟩)

/-- the recursive part -/
def splitStepF (A : FloatOps K) (est : LineEst σ K) (self : Decide σ K) (ctx : RCtx K) (c : Cell K)
    (e1 e2 : Cx K × Cx K) : Py (World σ K) Unit := do
  let phi1 ← phaseOfF A est (halfF1 A ctx.precision c 0).re (halfF1 A ctx.precision c 0).im ctx
  self.at ctx (halfF1 A ctx.precision c phi1)
  cacheRemove e1.1 e1.2
  let phi2 ← phaseOfF A est (halfF2 A ctx.precision c 0).re (halfF2 A ctx.precision c 0).im ctx
  self.at ctx (halfF2 A ctx.precision c phi2)
  cacheRemove e2.1 e2.2

/-- the candidate computed for a rectangle -/
def candF (A : FloatOps K) (pi : K) (c : Cell K) : Root K :=
  (⟨A.mid c.re.1 c.re.2, A.mid c.im.1 c.im.2⟩, roundHalfEven (A.fl (c.phi / A.fl (2 * pi))))

def actF (A : FloatOps K) (pi : K) (ctx : RCtx K) (c : Cell K) : Py (World σ K) Unit :=
  if ¬ Cell.TurnsF A pi c then
    World.advance ctx (A.fl (A.fl (c.re.2 - c.re.1) * A.fl (c.im.2 - c.im.1)))
  else do
    World.addRoot (candF A pi c)
    World.advance ctx (A.fl (A.fl (c.re.2 - c.re.1) * A.fl (0 - 0)))

def stopF (A : FloatOps K) (pi : K) (p : ℤ × ℤ) (c : Cell K) : Prop := ¬ Cell.TurnsF A pi c ∨ SmallF A p c

instance (A : FloatOps K) (pi : K) (p : ℤ × ℤ) (c : Cell K) : Decidable (stopF A pi p c) := by
  unfold stopF; infer_instance

theorem simpleDecideF_eq (A : FloatOps K) (est : LineEst σ K) (pi : K) (self : Decide σ K) (ctx : RCtx K)
    (c : Cell K) : (simpleDecideF A est pi self).at ctx c =
      if stopF A pi ctx.precision c then actF A pi ctx c
      else splitStepF A est self ctx c (dropF1 A ctx.precision c) (dropF2 A ctx.precision c) := by
  unfold Decide.at simpleDecideF
  have h1 : (c.phi < A.twoPi pi) ↔ ¬ Cell.TurnsF A pi c := by
    unfold FloatOps.twoPi Cell.TurnsF; rw [not_le]
  have h2 : (A.fl (c.re.2 - c.re.1) < A.pow10 ctx.precision.1 ∧ A.fl (c.im.2 - c.im.1) < A.pow10 ctx.precision.2) ↔
      SmallF A ctx.precision c := Iff.rfl
  have h3 : (A.fl (A.fl (c.re.2 - c.re.1) / A.pow10 ctx.precision.1) >
      A.fl (A.fl (c.im.2 - c.im.1) / A.pow10 ctx.precision.2)) ↔ SplitReF A ctx.precision c := Iff.rfl
  simp only [h1, h2, h3]
  unfold actF
  by_cases hc1 : Cell.TurnsF A pi c
  · have hc1' : ¬ ¬ Cell.TurnsF A pi c := not_not.2 hc1
    rw [if_neg hc1', if_neg hc1']
    by_cases hc2 : SmallF A ctx.precision c
    · rw [if_pos hc2, if_pos (show stopF A pi ctx.precision c from Or.inr hc2)]
      rfl
    · rw [if_neg hc2, if_neg (show ¬ stopF A pi ctx.precision c from fun h => h.elim hc1' hc2)]
      unfold splitStepF halfF1 halfF2 dropF1 dropF2
      by_cases hc3 : SplitReF A ctx.precision c
      · simp only [if_pos hc3]
        rfl
      · simp only [if_neg hc3]
        rfl
  · rw [if_pos hc1, if_pos (show stopF A pi ctx.precision c from Or.inl hc1), if_pos hc1]

/-! ## Phases -/

theorem calcMomentF_hits {A : FloatOps K} {est : LineEst σ K} {ctx : RCtx K} (hest : BoundaryHits est ctx)
    (order : ℤ) (re im : K × K) : OnlyHits ctx.f (calcMomentF A est order re im ctx) := by
  have hs : ∀ es phi, OnlyHits ctx.f (sumEdgesF A est order ctx es phi) := by
    intro es
    induction es with
    | nil => intro phi; exact OnlyHits.pure _
    | cons e es ih =>
      intro phi
      simp only [sumEdgesF]
      exact OnlyHits.bind (edgeMoment_hits hest order e) fun d => ih _
  exact hs _ _

theorem phaseOfF_ok {A : FloatOps K} {est : LineEst σ K} {ctx : RCtx K} (hest : BoundaryHits est ctx)
    {re im : K × K} {w w' : World σ K} {phi : K} (h : phaseOfF A est re im ctx w = (.ok phi, w')) :
    w'.log = w.log ++ [⟨re, im, phi⟩] ∧ (w.fuse = none → w'.fuse = none) ∧
      ∃ zs, w'.added = w.added ++ zs ∧ ∀ r ∈ zs, r.2 = 0 ∧ ctx.f r.1 = 0 := by
  unfold phaseOfF at h
  rw [Py.bind_run] at h
  have hm := calcMomentF_hits (A := A) hest 0 re im w
  rcases hc : calcMomentF A est 0 re im ctx w with ⟨_ | m, w1⟩ <;> rw [hc] at h hm
  · simp at h
  · obtain ⟨h1, h2, h3, zs, h4, h5⟩ := hm
    dsimp only at h h1 h2 h3 h4
    simp only [Py.bind_run, Py.modify_run, Py.pure_run, Prod.mk.injEq, Except.ok.injEq] at h
    obtain ⟨rfl, rfl⟩ := h
    exact ⟨by dsimp only; rw [h2], h3, zs, h4, h5⟩

/-! ## Geometry -/

/-- a rectangle with machine numbers as sides, left below right and lower below upper -/
def OkCell (A : FloatOps K) (c : Cell K) : Prop := Cell.Machine A.fl c ∧ c.re.1 ≤ c.re.2 ∧ c.im.1 ≤ c.im.2

section
variable {A : FloatOps K} {u : K} (hA : Rounds A.fl u)
include hA

theorem halfF_ok {p : ℤ × ℤ} {c : Cell K} (hc : OkCell A c) (phi1 phi2 : K) :
    (OkCell A (halfF1 A p c phi1) ∧ OkCell A (halfF2 A p c phi2)) ∧
    (Cell.In (halfF1 A p c phi1) c ∧ Cell.In (halfF2 A p c phi2) c) ∧
    ∀ z, Cell.Has c z → Cell.Has (halfF1 A p c phi1) z ∨ Cell.Has (halfF2 A p c phi2) z := by
  obtain ⟨⟨⟨m1, m2⟩, m3, m4⟩, h1, h2⟩ := hc
  obtain ⟨a1, a2⟩ := hA.le_mid m1 m2 h1
  obtain ⟨b1, b2⟩ := hA.le_mid m3 m4 h2
  have ma := hA.machine_mid c.re.1 c.re.2
  have mb := hA.machine_mid c.im.1 c.im.2
  unfold halfF1 halfF2
  split
  · refine ⟨⟨⟨⟨⟨m1, ma⟩, m3, m4⟩, a1, h2⟩, ⟨⟨ma, m2⟩, m3, m4⟩, a2, h2⟩,
      ⟨⟨le_refl _, a1, a2, le_refl _, h2, le_refl _⟩, a1, a2, le_refl _, le_refl _, h2, le_refl _⟩, ?_⟩
    rintro z ⟨z1, z2, z3, z4⟩
    rcases le_total z.re (A.mid c.re.1 c.re.2) with h | h
    · exact Or.inl ⟨z1, h, z3, z4⟩
    · exact Or.inr ⟨h, z2, z3, z4⟩
  · refine ⟨⟨⟨⟨⟨m1, m2⟩, m3, mb⟩, h1, b1⟩, ⟨⟨m1, m2⟩, mb, m4⟩, h1, b2⟩,
      ⟨⟨le_refl _, h1, le_refl _, le_refl _, b1, b2⟩, le_refl _, h1, le_refl _, b1, b2, le_refl _⟩, ?_⟩
    rintro z ⟨z1, z2, z3, z4⟩
    rcases le_total z.im (A.mid c.im.1 c.im.2) with h | h
    · exact Or.inl ⟨z1, z2, z3, h⟩
    · exact Or.inr ⟨z1, z2, h, z4⟩

/-! ## Completed runs -/

omit hA in
/-- a property of rectangles which carries over to one of the halves -/
def Splits (A : FloatOps K) (p : ℤ × ℤ) (M : Cell K → Prop) : Prop :=
  ∀ c phi1 phi2, OkCell A c → M c → M (halfF1 A p c phi1) ∨ M (halfF2 A p c phi2)

theorem splits_has (p : ℤ × ℤ) (z : Cx K) : Splits A p fun c => Cell.Has c z :=
  fun _ phi1 phi2 hc => (halfF_ok hA hc phi1 phi2).2.2 z

omit hA in
theorem splits_halfOpen (p : ℤ × ℤ) (z : Cx K) : Splits A p fun c => Cell.HasHalfOpen c z := by
  intro c phi1 phi2 _
  unfold halfF1 halfF2
  split
  · rintro ⟨z1, z2, z3, z4⟩
    rcases lt_or_ge z.re (A.mid c.re.1 c.re.2) with h | h
    · exact Or.inl ⟨z1, h, z3, z4⟩
    · exact Or.inr ⟨h, z2, z3, z4⟩
  · rintro ⟨z1, z2, z3, z4⟩
    rcases lt_or_ge z.im (A.mid c.im.1 c.im.2) with h | h
    · exact Or.inl ⟨z1, z2, z3, h⟩
    · exact Or.inr ⟨z1, z2, h, z4⟩

theorem dispatchF_run {est : LineEst σ K} {pi : K} {ctx : RCtx K} (hest : BoundaryHits est ctx) (limit : ℕ)
    (c : Cell K) (hc : OkCell A c) (w w' : World σ K)
    (h : (dispatch (simpleDecideF A est pi) limit).at ctx c w = (.ok (), w')) :
    ∃ L R, w'.log = w.log ++ L ∧ w'.added = w.added ++ R ∧ (∀ l ∈ L, Cell.In l c ∧ OkCell A l) ∧
      (∀ r ∈ R, (r.2 = 0 ∧ ctx.f r.1 = 0) ∨
        ∃ l ∈ c :: L, SmallF A ctx.precision l ∧ Cell.TurnsF A pi l ∧ r = candF A pi l) ∧
      ∀ M, Splits A ctx.precision M → M c → (∀ l ∈ c :: L, M l → Cell.TurnsF A pi l) →
        ∃ l ∈ c :: L, M l ∧ SmallF A ctx.precision l ∧ Cell.TurnsF A pi l ∧ candF A pi l ∈ R := by
  induction limit generalizing c w w' with
  | zero => simp [dispatch, Decide.at] at h
  | succ limit ih =>
    have hd : (dispatch (simpleDecideF A est pi) (limit + 1)).at ctx c =
        (simpleDecideF A est pi (dispatch (simpleDecideF A est pi) limit)).at ctx c := rfl
    rw [hd, simpleDecideF_eq] at h
    by_cases hs : stopF A pi ctx.precision c
    · rw [if_pos hs] at h
      unfold actF at h
      by_cases ht : Cell.TurnsF A pi c
      · rw [if_neg (not_not.2 ht)] at h
        have hsm : SmallF A ctx.precision c := hs.resolve_left (not_not.2 ht)
        have key : w'.log = w.log ∧ w'.added = w.added ++ [candF A pi c] := by
          unfold World.addRoot World.advance at h
          simp only [Py.bind_run] at h
          rcases hf : w.fuse with _ | _ | n <;> simp [World.tick, hf] at h
          all_goals
            split at h <;> simp [Py.bind_run, World.tick] at h
          all_goals first
            | (obtain rfl := h; exact ⟨rfl, rfl⟩)
            | skip
          rcases n with _ | n <;> simp at h
          obtain rfl := h; exact ⟨rfl, rfl⟩
        refine ⟨[], [candF A pi c], by simp [key.1], key.2, by simp, ?_, ?_⟩
        · intro r hr
          rw [List.mem_singleton] at hr
          exact Or.inr ⟨c, by simp, hsm, ht, hr⟩
        · intro M _ hz _
          exact ⟨c, by simp, hz, hsm, ht, by simp⟩
      · rw [if_pos ht] at h
        have key : w'.log = w.log ∧ w'.added = w.added := by
          unfold World.advance at h
          split at h
          · simp only [Py.bind_run] at h
            rcases hf : w.fuse with _ | _ | n <;> simp [World.tick, hf] at h
            all_goals obtain rfl := h; exact ⟨rfl, rfl⟩
          · simp at h; obtain rfl := h; exact ⟨rfl, rfl⟩
        refine ⟨[], [], by simp [key.1], by simp [key.2], by simp, by simp, ?_⟩
        intro M _ hz hall
        exact absurd (hall c (by simp) hz) ht
    · rw [if_neg hs] at h
      unfold splitStepF at h
      rw [Py.bind_run] at h
      rcases hp1 : phaseOfF A est (halfF1 A ctx.precision c 0).re (halfF1 A ctx.precision c 0).im ctx w
        with ⟨_ | phi1, w1⟩ <;> rw [hp1] at h
      · simp at h
      dsimp only at h
      rw [Py.bind_run] at h
      rcases hr1 : (dispatch (simpleDecideF A est pi) limit).at ctx (halfF1 A ctx.precision c phi1) w1
        with ⟨_ | _, w2⟩ <;> rw [hr1] at h
      · simp at h
      dsimp only at h
      rw [Py.bind_run] at h
      simp only [cacheRemove, Py.modify_run] at h
      rw [Py.bind_run] at h
      generalize dropF1 A ctx.precision c = e1 at h
      rcases hp2 : phaseOfF A est (halfF2 A ctx.precision c 0).re (halfF2 A ctx.precision c 0).im ctx
        { w2 with cache := w2.cache.remove 0 e1.1 e1.2 }
        with ⟨_ | phi2, w3⟩ <;> rw [hp2] at h
      · simp at h
      dsimp only at h
      rw [Py.bind_run] at h
      rcases hr2 : (dispatch (simpleDecideF A est pi) limit).at ctx (halfF2 A ctx.precision c phi2) w3
        with ⟨_ | _, w4⟩ <;> rw [hr2] at h
      · simp at h
      simp only [Py.modify_run, Prod.mk.injEq, true_and] at h
      subst h
      have e1 : (⟨(halfF1 A ctx.precision c 0).re, (halfF1 A ctx.precision c 0).im, phi1⟩ : Cell K) =
          halfF1 A ctx.precision c phi1 := by unfold halfF1; split <;> rfl
      have e2 : (⟨(halfF2 A ctx.precision c 0).re, (halfF2 A ctx.precision c 0).im, phi2⟩ : Cell K) =
          halfF2 A ctx.precision c phi2 := by unfold halfF2; split <;> rfl
      obtain ⟨⟨k1, k2⟩, ⟨i1, i2⟩, _⟩ := halfF_ok hA (p := ctx.precision) hc phi1 phi2
      obtain ⟨a1, a3, z1, a4, a5⟩ := phaseOfF_ok hest hp1
      obtain ⟨L1, R1, b1, b2, b3, b4, b5⟩ := ih _ k1 _ _ hr1
      obtain ⟨c1, c3, z2, c4, c5⟩ := phaseOfF_ok hest hp2
      obtain ⟨L2, R2, d1, d2, d3, d4, d5⟩ := ih _ k2 _ _ hr2
      dsimp only at c1 c4
      rw [e1] at a1
      rw [e2] at c1
      have hcov : ∀ M, Splits A ctx.precision M → M c → M (halfF1 A ctx.precision c phi1) ∨
          M (halfF2 A ctx.precision c phi2) := fun M hM => hM c phi1 phi2 hc
      generalize halfF1 A ctx.precision c phi1 = h1 at *
      generalize halfF2 A ctx.precision c phi2 = h2 at *
      refine ⟨h1 :: L1 ++ h2 :: L2, z1 ++ R1 ++ (z2 ++ R2), ?_, ?_, ?_, ?_, ?_⟩
      · dsimp only
        rw [d1, c1, b1, a1]; simp
      · dsimp only
        rw [d2, c4, b2, a4]; simp
      · intro l hl
        simp only [List.cons_append, List.mem_cons, List.mem_append] at hl
        rcases hl with rfl | hl | rfl | hl
        · exact ⟨i1, k1⟩
        · exact ⟨(b3 l hl).1.trans i1, (b3 l hl).2⟩
        · exact ⟨i2, k2⟩
        · exact ⟨(d3 l hl).1.trans i2, (d3 l hl).2⟩
      · intro r hr
        simp only [List.mem_append] at hr
        rcases hr with (hr | hr) | hr | hr
        · exact Or.inl (a5 r hr)
        · rcases b4 r hr with h | ⟨l, hl, h⟩
          · exact Or.inl h
          · refine Or.inr ⟨l, ?_, h⟩
            simp only [List.cons_append, List.mem_cons, List.mem_append] at hl ⊢
            tauto
        · exact Or.inl (c5 r hr)
        · rcases d4 r hr with h | ⟨l, hl, h⟩
          · exact Or.inl h
          · refine Or.inr ⟨l, ?_, h⟩
            simp only [List.cons_append, List.mem_cons, List.mem_append] at hl ⊢
            tauto
      · intro M hM hz hall
        rcases hcov M hM hz with hz | hz
        · obtain ⟨l, hl, g1, g2, g3, g4⟩ := b5 M hM hz fun l hl => hall l (by
            simp only [List.cons_append, List.mem_cons, List.mem_append] at hl ⊢; tauto)
          exact ⟨l, by simp only [List.cons_append, List.mem_cons, List.mem_append] at hl ⊢; tauto, g1, g2, g3,
            by simp [g4]⟩
        · obtain ⟨l, hl, g1, g2, g3, g4⟩ := d5 M hM hz fun l hl => hall l (by
            simp only [List.cons_append, List.mem_cons, List.mem_append] at hl ⊢; tauto)
          exact ⟨l, by simp only [List.cons_append, List.mem_cons, List.mem_append] at hl ⊢; tauto, g1, g2, g3,
            by simp [g4]⟩

theorem simpleArgumentF_run {est : LineEst σ K} {pi : K} {ctx : RCtx K} (hest : BoundaryHits est ctx) (limit : ℕ)
    (hc : OkCell A ⟨ctx.reRan, ctx.imRan, 0⟩) (w w' : World σ K)
    (h : simpleArgumentF A est pi limit ctx w = (.ok (), w')) :
    (∀ l ∈ newCells w w', Cell.In l ⟨ctx.reRan, ctx.imRan, 0⟩ ∧ OkCell A l) ∧
    (∀ r ∈ newRoots w w', (r.2 = 0 ∧ ctx.f r.1 = 0) ∨
        ∃ l ∈ newCells w w', SmallF A ctx.precision l ∧ Cell.TurnsF A pi l ∧ r = candF A pi l) ∧
    ∀ M, Splits A ctx.precision M → (∀ phi, M ⟨ctx.reRan, ctx.imRan, phi⟩) →
      (∀ l ∈ newCells w w', M l → Cell.TurnsF A pi l) →
        ∃ l ∈ newCells w w', M l ∧ SmallF A ctx.precision l ∧ Cell.TurnsF A pi l ∧
          candF A pi l ∈ newRoots w w' := by
  unfold simpleArgumentF resetCache at h
  rw [Py.bind_run, Py.modify_run] at h
  dsimp only at h
  generalize hw0 : (if w.cache.dirty = true then { w with cache := w.cache.reset } else w) = w0 at h
  have g1 : w0.log = w.log := by rw [← hw0]; split <;> rfl
  have g3 : w0.added = w.added := by rw [← hw0]; split <;> rfl
  rw [Py.bind_run] at h
  rcases hp : phaseOfF A est ctx.reRan ctx.imRan ctx w0 with ⟨_ | phi, w1⟩ <;> rw [hp] at h
  · simp at h
  dsimp only at h
  obtain ⟨a1, a3, zs, a4, a5⟩ := phaseOfF_ok hest hp
  obtain ⟨L, R, b1, b2, b3, b4, b5⟩ := dispatchF_run hA hest limit ⟨ctx.reRan, ctx.imRan, phi⟩ hc w1 w' h
  have hcells : newCells w w' = ⟨ctx.reRan, ctx.imRan, phi⟩ :: L := by
    unfold newCells; rw [b1, a1, g1]; simp
  have hroots : newRoots w w' = zs ++ R := by unfold newRoots; rw [b2, a4, g3]; simp
  rw [hcells, hroots]
  refine ⟨?_, ?_, ?_⟩
  · intro l hl
    rcases List.mem_cons.1 hl with rfl | hl
    · exact ⟨⟨le_refl _, hc.2.1, le_refl _, le_refl _, hc.2.2, le_refl _⟩, hc⟩
    · exact b3 l hl
  · intro r hr
    rcases List.mem_append.1 hr with hr | hr
    · exact Or.inl (a5 r hr)
    · exact b4 r hr
  · intro M hM hz hall
    obtain ⟨l, hl, q1, q2, q3, q4⟩ := b5 M hM (hz phi) hall
    exact ⟨l, hl, q1, q2, q3, by simp [q4]⟩

/-! ## Depth -/

/-- the rectangle needs at most `m` halvings of its width and `n` of its height -/
def BelowF (A : FloatOps K) (p : ℤ × ℤ) (δ : K) (m n : ℕ) (c : Cell K) : Prop :=
  c.re.2 - c.re.1 - 2 * δ < 2 ^ m * (A.pow10 p.1 / 2 - 2 * δ) ∧
  c.im.2 - c.im.1 - 2 * δ < 2 ^ n * (A.pow10 p.2 / 2 - 2 * δ)

/-- one side: a side which is not computed as small needs a halving, and halving it takes one off -/
theorem sideF {e R a b : K} (he : Machine A.fl e) (hpos : 0 < e) (ha : |a| ≤ R) (hb : |b| ≤ R)
    (hbig : ¬ A.fl (b - a) < e) {m : ℕ} (hm : b - a - 2 * (u * R) < 2 ^ m * (e / 2 - 2 * (u * R))) :
    ∃ m', m = m' + 1 ∧ A.mid a b - a - 2 * (u * R) < 2 ^ m' * (e / 2 - 2 * (u * R)) ∧
      b - A.mid a b - 2 * (u * R) < 2 ^ m' * (e / 2 - 2 * (u * R)) := by
  have herr := hA.mid_err ha hb
  rw [abs_le] at herr
  rcases m with _ | m
  · exfalso
    apply hbig
    have h1 : b - a ≤ e / 2 := by rw [pow_zero, one_mul] at hm; linarith
    have h2 := hA.mono _ _ h1
    rw [hA.half, he] at h2
    linarith
  · refine ⟨m, rfl, ?_, ?_⟩ <;> rw [pow_succ] at hm <;> linarith [herr.1, herr.2]

theorem belowF_halves {p : ℤ × ℤ} {c : Cell K} (hp : GoodPow A p) {R : K} (hc : OkCell A c) (hw : Cell.Within R c) (hs : ¬ SmallF A p c) {m n : ℕ}
    (h : BelowF A p (u * R) m n c) :
    ∃ m' n', m' + n' + 1 = m + n ∧ ∀ phi, BelowF A p (u * R) m' n' (halfF1 A p c phi) ∧
      BelowF A p (u * R) m' n' (halfF2 A p c phi) := by
  obtain ⟨⟨q1, q2⟩, q3, q4⟩ := hp
  obtain ⟨⟨w1, w2⟩, w3, w4⟩ := hw
  obtain ⟨⟨⟨m1, m2⟩, m3, m4⟩, h1, h2⟩ := hc
  have dre : 0 ≤ A.fl (c.re.2 - c.re.1) := hA.fl_nonneg (by linarith)
  have dim : 0 ≤ A.fl (c.im.2 - c.im.1) := hA.fl_nonneg (by linarith)
  by_cases hsp : SplitReF A p c
  · have hbig : ¬ A.fl (c.re.2 - c.re.1) < A.pow10 p.1 := by
      intro hlt
      have hlt2 : A.pow10 p.2 ≤ A.fl (c.im.2 - c.im.1) := by
        by_contra hc; push Not at hc; exact hs ⟨hlt, hc⟩
      have a1 := hA.quot _ _ dre hlt (hA.idem _) q1
      have a2 := hA.mono 1 (A.fl (c.im.2 - c.im.1) / A.pow10 p.2) ((one_le_div q4).2 hlt2)
      rw [hA.one] at a2
      have a3 := hsp
      unfold SplitReF at a3
      linarith
    obtain ⟨m', rfl, b1, b2⟩ := sideF hA q1 q2 w1 w2 hbig h.1
    refine ⟨m', n, by omega, fun phi => ?_⟩
    simp only [BelowF, halfF1, halfF2, if_pos hsp]
    exact ⟨⟨b1, h.2⟩, b2, h.2⟩
  · have hbig : ¬ A.fl (c.im.2 - c.im.1) < A.pow10 p.2 := by
      intro hlt
      have hlt2 : A.pow10 p.1 ≤ A.fl (c.re.2 - c.re.1) := by
        by_contra hc; push Not at hc; exact hs ⟨hc, hlt⟩
      have a1 := hA.quot _ _ dim hlt (hA.idem _) q3
      have a2 := hA.mono 1 (A.fl (c.re.2 - c.re.1) / A.pow10 p.1) ((one_le_div q2).2 hlt2)
      rw [hA.one] at a2
      have a3 := hsp
      unfold SplitReF at a3
      push Not at a3
      linarith
    obtain ⟨n', rfl, b1, b2⟩ := sideF hA q3 q4 w3 w4 hbig h.2
    refine ⟨m, n', by omega, fun phi => ?_⟩
    simp only [BelowF, halfF1, halfF2, if_neg hsp]
    exact ⟨⟨h.1, b1⟩, h.1, b2⟩

omit hA in
theorem Spec.Cell.Within.of_in {R : K} {l c : Cell K} (h : Cell.Within R c) (hin : Cell.In l c) : Cell.Within R l := by
  obtain ⟨⟨w1, w2⟩, w3, w4⟩ := h
  obtain ⟨i1, i2, i3, i4, i5, i6⟩ := hin
  unfold Cell.Within
  simp only [abs_le] at *
  refine ⟨⟨⟨?_, ?_⟩, ?_, ?_⟩, ⟨?_, ?_⟩, ?_, ?_⟩ <;> linarith

theorem dispatchF_limit {est : LineEst σ K} {pi : K} {ctx : RCtx K} (hp : GoodPow A ctx.precision) {R : K}
    (l1 l2 m n : ℕ)
    (c : Cell K) (hc : OkCell A c) (hw : Cell.Within R c) (hb : BelowF A ctx.precision (u * R) m n c)
    (h1 : m + n < l1) (h2 : m + n < l2) :
    (dispatch (simpleDecideF A est pi) l1).at ctx c = (dispatch (simpleDecideF A est pi) l2).at ctx c := by
  induction l1 generalizing l2 m n c with
  | zero => omega
  | succ l1 ih =>
    rcases l2 with _ | l2
    · omega
    · have hd : ∀ l, (dispatch (simpleDecideF A est pi) (l + 1)).at ctx c =
        (simpleDecideF A est pi (dispatch (simpleDecideF A est pi) l)).at ctx c := fun _ => rfl
      rw [hd, hd, simpleDecideF_eq, simpleDecideF_eq]
      by_cases hs : stopF A pi ctx.precision c
      · rw [if_pos hs, if_pos hs]
      · rw [if_neg hs, if_neg hs]
        have hns : ¬ SmallF A ctx.precision c := fun h => hs (Or.inr h)
        obtain ⟨m', n', hmn, hbb⟩ := belowF_halves hA hp hc hw hns hb
        have k1 : ∀ phi, (dispatch (simpleDecideF A est pi) l1).at ctx (halfF1 A ctx.precision c phi) =
            (dispatch (simpleDecideF A est pi) l2).at ctx (halfF1 A ctx.precision c phi) := fun phi =>
          have hh := halfF_ok hA (p := ctx.precision) hc phi phi
          ih l2 m' n' _ hh.1.1 (hw.of_in hh.2.1.1) (hbb phi).1 (by omega) (by omega)
        have k2 : ∀ phi, (dispatch (simpleDecideF A est pi) l1).at ctx (halfF2 A ctx.precision c phi) =
            (dispatch (simpleDecideF A est pi) l2).at ctx (halfF2 A ctx.precision c phi) := fun phi =>
          have hh := halfF_ok hA (p := ctx.precision) hc phi phi
          ih l2 m' n' _ hh.1.2 (hw.of_in hh.2.1.2) (hbb phi).2 (by omega) (by omega)
        unfold splitStepF
        simp only [k1, k2]

omit hA in
theorem phaseOfF_never {est : LineEst σ K} {ctx : RCtx K}
    (hest : ∀ order a b, Never .recursionError (est order a b ctx)) (re im : K × K) :
    Never .recursionError (phaseOfF A est re im ctx) := by
  have hcl := Never.closed (σ := σ) ctx.f .recursionError (by simp [Err.ofEstimator]) (by simp)
  unfold phaseOfF calcMomentF
  refine Never.bind ?_ fun m => Never.bind (fun w => by simp) fun _ => Never.pure _
  generalize (0 : Cx K) = phi
  generalize edges re im = es
  induction es generalizing phi with
  | nil => exact Never.pure _
  | cons e es ih => exact Never.bind (hcl.edgeMoment hest 0 e) fun d => ih _

theorem dispatchF_never {est : LineEst σ K} {pi : K} {ctx : RCtx K} (hp : GoodPow A ctx.precision) {R : K}
    (hest : ∀ order a b, Never .recursionError (est order a b ctx))
    (l m n : ℕ)
    (c : Cell K) (hc : OkCell A c) (hw : Cell.Within R c) (hb : BelowF A ctx.precision (u * R) m n c)
    (h1 : m + n < l) : Never .recursionError ((dispatch (simpleDecideF A est pi) l).at ctx c) := by
  induction l generalizing m n c with
  | zero => omega
  | succ l1 ih =>
    have hd : ∀ l, (dispatch (simpleDecideF A est pi) (l + 1)).at ctx c =
      (simpleDecideF A est pi (dispatch (simpleDecideF A est pi) l)).at ctx c := fun _ => rfl
    rw [hd, simpleDecideF_eq]
    by_cases hs : stopF A pi ctx.precision c
    · rw [if_pos hs]
      unfold actF
      split
      · exact never_advance (by simp) ctx _
      · exact Never.bind (never_addRoot (by simp) _) fun _ => never_advance (by simp) ctx _
    · rw [if_neg hs]
      have hns : ¬ SmallF A ctx.precision c := fun h => hs (Or.inr h)
      obtain ⟨m', n', hmn, hbb⟩ := belowF_halves hA hp hc hw hns hb
      unfold splitStepF
      refine Never.bind (phaseOfF_never hest _ _) fun phi1 => ?_
      have hh := halfF_ok hA (p := ctx.precision) hc phi1 phi1
      refine Never.bind (ih m' n' _ hh.1.1 (hw.of_in hh.2.1.1) (hbb phi1).1 (by omega)) fun _ => ?_
      refine Never.bind (fun w => by simp [cacheRemove]) fun _ => ?_
      refine Never.bind (phaseOfF_never hest _ _) fun phi2 => ?_
      have hh := halfF_ok hA (p := ctx.precision) hc phi2 phi2
      exact Never.bind (ih m' n' _ hh.1.2 (hw.of_in hh.2.1.2) (hbb phi2).2 (by omega)) fun _ w => by
        simp [cacheRemove]

/-! ## Runs which do not return -/

omit hA in
/-- no interrupt: the computation returns or fails with `RecursionError` -/
def CalmF {α : Type} (m : Py (World σ K) α) : Prop :=
  ∀ w, w.fuse = none → (m w).2.fuse = none ∧ ∀ e, (m w).1 = .error e → e = .recursionError

omit hA in
theorem CalmF.bind {α β : Type} {m : Py (World σ K) α} {k : α → Py (World σ K) β} (hm : CalmF m)
    (hk : ∀ a, CalmF (k a)) : CalmF (m >>= k) := by
  intro w hw
  rw [Py.bind_run]
  have h := hm w hw
  rcases hmw : m w with ⟨e | a, w1⟩ <;> rw [hmw] at h
  · exact ⟨h.1, fun e' he => h.2 e' (by simpa using he)⟩
  · exact hk a w1 h.1

omit hA in
theorem CalmF.pure {α : Type} (a : α) : CalmF (pure a : Py (World σ K) α) := fun w hw => ⟨hw, by simp⟩

omit hA in
theorem CalmF.modify {g : World σ K → World σ K} (h : ∀ w, (g w).fuse = w.fuse) : CalmF (Py.modify g) :=
  fun w hw => ⟨by rw [Py.modify_run, h, hw], by simp⟩

omit hA in
theorem CalmF.tick : CalmF (World.tick : Py (World σ K) Unit) := by
  intro w hw
  simp [World.tick, hw]

omit hA in
theorem CalmF.addRoot (r : Root K) : CalmF (World.addRoot r : Py (World σ K) Unit) :=
  CalmF.bind CalmF.tick fun _ => CalmF.modify fun _ => rfl

omit hA in
theorem CalmF.advance (ctx : RCtx K) (a : K) : CalmF (World.advance ctx a : Py (World σ K) Unit) := by
  unfold World.advance
  split
  · exact CalmF.bind CalmF.tick fun _ => CalmF.modify fun _ => rfl
  · exact CalmF.pure _

omit hA in
theorem phaseOfF_calm {est : LineEst σ K} {ctx : RCtx K} (hest : ∀ order a b, CalmF (est order a b ctx))
    (re im : K × K) : CalmF (phaseOfF A est re im ctx) := by
  unfold phaseOfF calcMomentF
  refine CalmF.bind ?_ fun m => CalmF.bind (CalmF.modify fun _ => rfl) fun _ => CalmF.pure _
  generalize (0 : Cx K) = phi
  generalize edges re im = es
  induction es generalizing phi with
  | nil => exact CalmF.pure _
  | cons e es ih =>
    refine CalmF.bind ?_ fun d => ih _
    have hc : CalmF (edgeMoment.compute est 0 ctx e) :=
      CalmF.bind CalmF.tick fun _ => CalmF.bind (hest _ _ _) fun d =>
        CalmF.bind (CalmF.modify fun _ => rfl) fun _ => CalmF.pure _
    unfold edgeMoment
    refine CalmF.bind (fun w hw => ⟨hw, by simp [World.retrieve]⟩) fun v => ?_
    rcases v with _ | v
    · exact hc
    · dsimp only
      split
      · exact CalmF.pure _
      · exact hc

omit hA in
theorem dispatchF_calm {est : LineEst σ K} {pi : K} {ctx : RCtx K} (hest : ∀ order a b, CalmF (est order a b ctx))
    (limit : ℕ) (c : Cell K) : CalmF ((dispatch (simpleDecideF A est pi) limit).at ctx c) := by
  induction limit generalizing c with
  | zero => intro w hw; simp [dispatch, Decide.at, hw]
  | succ l ih =>
    have hd : (dispatch (simpleDecideF A est pi) (l + 1)).at ctx c =
      (simpleDecideF A est pi (dispatch (simpleDecideF A est pi) l)).at ctx c := rfl
    rw [hd, simpleDecideF_eq]
    split
    · unfold actF
      split
      · exact CalmF.advance _ _
      · exact CalmF.bind (CalmF.addRoot _) fun _ => CalmF.advance _ _
    · unfold splitStepF
      exact CalmF.bind (phaseOfF_calm hest _ _) fun _ => CalmF.bind (ih _) fun _ =>
        CalmF.bind (CalmF.modify fun _ => rfl) fun _ => CalmF.bind (phaseOfF_calm hest _ _) fun _ =>
        CalmF.bind (ih _) fun _ => CalmF.modify fun _ => rfl

omit hA in
theorem simpleArgumentF_calm {est : LineEst σ K} {pi : K} {ctx : RCtx K}
    (hest : ∀ order a b, CalmF (est order a b ctx)) (limit : ℕ) : CalmF (simpleArgumentF A est pi limit ctx) := by
  unfold simpleArgumentF resetCache
  refine CalmF.bind (CalmF.modify fun w => by split <;> rfl) fun _ => ?_
  exact CalmF.bind (phaseOfF_calm hest _ _) fun phi => dispatchF_calm hest limit ⟨ctx.reRan, ctx.imRan, phi⟩

end
/-! ## Phases with a fixed estimator -/

/-- the cache and the phases reported since `log0` are those of `L` -/
def Tells (A : FloatOps K) (L : ℤ → Cx K → Cx K → Cx K) (log0 : List (Cell K)) (w : World σ K) : Prop :=
  CacheOf L w ∧ ∃ new, w.log = log0 ++ new ∧ ∀ l ∈ new, l.phi = phaseAround A L l

def KeepsTells {α : Type} (A : FloatOps K) (L : ℤ → Cx K → Cx K → Cx K) (log0 : List (Cell K))
    (m : Py (World σ K) α) : Prop := ∀ w, Tells A L log0 w → Tells A L log0 (m w).2

theorem KeepsTells.bind {α β : Type} {A : FloatOps K} {L : ℤ → Cx K → Cx K → Cx K} {log0 : List (Cell K)}
    {m : Py (World σ K) α} {k : α → Py (World σ K) β} (hm : KeepsTells A L log0 m)
    (hk : ∀ a, KeepsTells A L log0 (k a)) : KeepsTells A L log0 (m >>= k) := by
  intro w hw
  rw [Py.bind_run]
  have h := hm w hw
  rcases hmw : m w with ⟨e | a, w1⟩ <;> rw [hmw] at h
  · exact h
  · exact hk a w1 h

theorem KeepsTells.frame {α : Type} {A : FloatOps K} {L : ℤ → Cx K → Cx K → Cx K} {log0 : List (Cell K)}
    {m : Py (World σ K) α} (h1 : ∀ w, (m w).2.cache = w.cache) (h2 : ∀ w, (m w).2.log = w.log) :
    KeepsTells A L log0 m := fun w hw => ⟨hw.1.congr (h1 w), by rw [h2]; exact hw.2⟩

theorem sumEdgesF_coherent {A : FloatOps K} {L : ℤ → Cx K → Cx K → Cx K} {est : LineEst σ K} {ctx : RCtx K}
    (hL : ∀ o a b, L o b a = -L o a b)
    (hest : ∀ o a b w, (est o a b ctx w).2.cache = w.cache ∧ ∀ v, (est o a b ctx w).1 = .ok v → v = L o a b)
    (es : List (Cx K × Cx K)) (phi : Cx K) {w : World σ K} (hw : CacheOf L w) :
    CacheOf L (sumEdgesF A est 0 ctx es phi w).2 ∧
      ∀ v, (sumEdgesF A est 0 ctx es phi w).1 = .ok v →
        v.re = es.foldl (fun x e => A.fl (x + (L 0 e.1 e.2).re)) phi.re := by
  induction es generalizing phi w with
  | nil => exact ⟨hw, fun v hv => by cases hv; rfl⟩
  | cons e es ih =>
    simp only [sumEdgesF, Py.bind_run]
    obtain ⟨h1, h2⟩ := edge_coherent hL hest 0 e hw.1
    have h3 := edge_wf (fun o a b w hw => by rw [(hest o a b w).1]; exact hw) 0 e hw.2
    rcases he : edgeMoment est 0 ctx e w with ⟨r, w1⟩
    rw [he] at h1 h2 h3
    cases r with
    | error er => exact ⟨⟨h1, h3⟩, by simp⟩
    | ok d =>
      obtain ⟨h3, h4⟩ := ih (A.cx (phi + d)) (w := w1) ⟨h1, h3⟩
      refine ⟨h3, fun v hv => ?_⟩
      rw [h4 v hv, List.foldl_cons, ← h2 d rfl]
      rfl

theorem phaseOfF_tells {A : FloatOps K} {L : ℤ → Cx K → Cx K → Cx K} {est : LineEst σ K} {ctx : RCtx K}
    (hL : ∀ o a b, L o b a = -L o a b) (hits : BoundaryHits est ctx)
    (hest : ∀ o a b w, (est o a b ctx w).2.cache = w.cache ∧ ∀ v, (est o a b ctx w).1 = .ok v → v = L o a b)
    (log0 : List (Cell K)) (re im : K × K) : KeepsTells A L log0 (phaseOfF A est re im ctx) := by
  intro w hw
  unfold phaseOfF calcMomentF
  rw [Py.bind_run]
  obtain ⟨h1, h2⟩ := sumEdgesF_coherent (A := A) hL hest (edges re im) 0 hw.1
  have h3 := (calcMomentF_hits (A := A) hits 0 re im w).2.1
  unfold calcMomentF at h3
  rcases hc : sumEdgesF A est 0 ctx (edges re im) 0 w with ⟨e | m, w1⟩ <;> rw [hc] at h1 h2 h3
  · exact ⟨h1, by dsimp only; rw [h3]; exact hw.2⟩
  · simp only [Py.bind_run, Py.modify_run, Py.pure_run]
    refine ⟨h1.congr rfl, ?_⟩
    obtain ⟨new, g1, g2⟩ := hw.2
    refine ⟨new ++ [⟨re, im, m.re⟩], by dsimp only; rw [h3, g1]; simp, ?_⟩
    intro l hl
    rcases List.mem_append.1 hl with hl | hl
    · exact g2 l hl
    · rw [List.mem_singleton] at hl
      subst hl
      exact h2 m rfl

theorem KeepsTells.cacheRemove {A : FloatOps K} {L : ℤ → Cx K → Cx K → Cx K} {log0 : List (Cell K)} (a b : Cx K) :
    KeepsTells A L log0 (cacheRemove a b : Py (World σ K) Unit) :=
  fun w hw => ⟨CacheOf.remove w a b hw.1, hw.2⟩

theorem dispatchF_tells {A : FloatOps K} {L : ℤ → Cx K → Cx K → Cx K} {est : LineEst σ K} {ctx : RCtx K} {pi : K}
    (hL : ∀ o a b, L o b a = -L o a b) (hits : BoundaryHits est ctx)
    (hest : ∀ o a b w, (est o a b ctx w).2.cache = w.cache ∧ ∀ v, (est o a b ctx w).1 = .ok v → v = L o a b)
    (log0 : List (Cell K)) (limit : ℕ) (c : Cell K) :
    KeepsTells A L log0 ((dispatch (simpleDecideF A est pi) limit).at ctx c) := by
  induction limit generalizing c with
  | zero => exact fun w hw => hw
  | succ l ih =>
    have hd : (dispatch (simpleDecideF A est pi) (l + 1)).at ctx c =
      (simpleDecideF A est pi (dispatch (simpleDecideF A est pi) l)).at ctx c := rfl
    rw [hd, simpleDecideF_eq]
    have hadv : ∀ a, KeepsTells A L log0 (World.advance ctx a : Py (World σ K) Unit) := fun a =>
      KeepsTells.frame (KeepsCache.advance ctx a) fun w => by
        unfold World.advance
        split
        · rw [Py.bind_run]
          have := (World.tick_any w).2.2
          rcases ht : World.tick w with ⟨_ | _, w1⟩ <;> rw [ht] at this <;> exact this
        · rfl
    have hadd : ∀ r, KeepsTells A L log0 (World.addRoot r : Py (World σ K) Unit) := fun r =>
      KeepsTells.frame (KeepsCache.addRoot r) fun w => by
        unfold World.addRoot
        rw [Py.bind_run]
        have := (World.tick_any w).2.2
        rcases ht : World.tick w with ⟨_ | _, w1⟩ <;> rw [ht] at this <;> exact this
    split
    · unfold actF
      split
      · exact hadv _
      · exact KeepsTells.bind (hadd _) fun _ => hadv _
    · unfold splitStepF
      exact KeepsTells.bind (phaseOfF_tells hL hits hest log0 _ _) fun _ => KeepsTells.bind (ih _) fun _ =>
        KeepsTells.bind (KeepsTells.cacheRemove _ _) fun _ =>
        KeepsTells.bind (phaseOfF_tells hL hits hest log0 _ _) fun _ =>
        KeepsTells.bind (ih _) fun _ => KeepsTells.cacheRemove _ _

/-- With an estimator reporting fixed line values the phases are the sums of these, whatever the cache contained. -/
theorem simpleArgumentF_tells {A : FloatOps K} {L : ℤ → Cx K → Cx K → Cx K} {est : LineEst σ K} {ctx : RCtx K}
    {pi : K} (hL : ∀ o a b, L o b a = -L o a b) (hits : BoundaryHits est ctx)
    (hest : ∀ o a b w, (est o a b ctx w).2.cache = w.cache ∧ ∀ v, (est o a b ctx w).1 = .ok v → v = L o a b)
    (limit : ℕ) (w : World σ K) :
    ∀ l ∈ newCells w (simpleArgumentF A est pi limit ctx w).2, l.phi = phaseAround A L l := by
  have h : Tells A L w.log (simpleArgumentF A est pi limit ctx w).2 := by
    unfold simpleArgumentF resetCache
    rw [Py.bind_run, Py.modify_run]
    refine KeepsTells.bind (phaseOfF_tells hL hits hest _ _ _) (fun phi =>
      dispatchF_tells hL hits hest _ limit ⟨ctx.reRan, ctx.imRan, phi⟩) _ ?_
    by_cases hd : w.cache.dirty = true
    · rw [if_pos hd]; exact ⟨(CacheOf.reset w).1, [], by simp, by simp⟩
    · rw [if_neg hd]; exact ⟨(CacheOf.reset w).2 (by simpa using hd), [], by simp, by simp⟩
  obtain ⟨_, new, h1, h2⟩ := h
  unfold newCells
  rw [h1]
  simpa using h2

/-! ## Exact arithmetic -/

theorem sumEdgesF_exact (est : LineEst σ K) (order : ℤ) (ctx : RCtx K) (es : List (Cx K × Cx K)) (phi : Cx K) :
    sumEdgesF (FloatOps.exact K) est order ctx es phi = sumEdges est order ctx es phi := by
  induction es generalizing phi with
  | nil => rfl
  | cons e es ih =>
    simp only [sumEdgesF, sumEdges]
    congr 1
    funext d
    exact ih _

theorem phaseOfF_exact (est : LineEst σ K) (re im : K × K) (ctx : RCtx K) :
    phaseOfF (FloatOps.exact K) est re im ctx = phaseOf est re im ctx := by
  unfold phaseOfF phaseOf calcMomentF
  rw [sumEdgesF_exact]
  rfl

theorem simpleDecideF_exact (est : LineEst σ K) (pi : K) (self : Decide σ K) :
    simpleDecideF (FloatOps.exact K) est pi self = simpleDecide est pi self := by
  funext re im phi ctx
  unfold simpleDecideF simpleDecide
  simp only [phaseOfF_exact]
  rfl

/-- with exact arithmetic the model is the exact one -/
theorem simpleArgumentF_exact (est : LineEst σ K) (pi : K) (limit : ℕ) (ctx : RCtx K) :
    simpleArgumentF (FloatOps.exact K) est pi limit ctx = simpleArgument est pi limit ctx := by
  have : simpleDecideF (FloatOps.exact K) est pi = simpleDecide est pi := by
    funext self; exact simpleDecideF_exact est pi self
  unfold simpleArgumentF simpleArgument calcRoots
  rw [this]
  simp only [phaseOfF_exact]

end PyZeal
