import Verif.Proof.Cache
import Verif.Proof.Rounding

/-! # Lemmas about `calcMoment` and `genFuncArr` -/

set_option linter.unusedSectionVars false

namespace PyZeal
open Spec
variable {K : Type} [Field K] [DecidableEq K] {σ : Type}

theorem World.tick_none {w : World σ K} (h : w.fuse = none) : World.tick w = (.ok (), w) := by
  unfold World.tick; rw [h]

theorem World.tick_cache (w : World σ K) : (World.tick w).2.cache = w.cache := by
  unfold World.tick; split <;> rfl

theorem World.tick_est (w : World σ K) : (World.tick w).2.est = w.est := by
  unfold World.tick; split <;> rfl

theorem World.tick_added (w : World σ K) : (World.tick w).2.added = w.added := by
  unfold World.tick; split <;> rfl

/-- explicit form of one edge -/
theorem edgeMoment_run (est : LineEst σ K) (o : ℤ) (ctx : RCtx K) (e : Cx K × Cx K) (w : World σ K) :
    edgeMoment est o ctx e w =
      (let w1 : World σ K := { w with cache := (w.cache.retrieve o e.1 e.2).2 }
       match w.cache.look o e.1 e.2 with
       | some v => if v ≠ 0 then (.ok v, w1) else edgeMoment.compute est o ctx e w1
       | none => edgeMoment.compute est o ctx e w1) := by
  unfold edgeMoment
  simp only [Py.bind_run, World.retrieve, EstCache.retrieve_fst]
  rcases w.cache.look o e.1 e.2 with _ | v
  · rfl
  · dsimp only; split <;> rfl

theorem compute_run (est : LineEst σ K) (o : ℤ) (ctx : RCtx K) (e : Cx K × Cx K) (w : World σ K) :
    edgeMoment.compute est o ctx e w =
      match World.tick w with
      | (.error er, w1) => (.error er, w1)
      | (.ok _, w1) =>
        match est o e.1 e.2 ctx w1 with
        | (.error er, w2) => (.error er, w2)
        | (.ok d, w2) => (.ok d, { w2 with
            cache := (w2.cache.store o e.1 e.2 d).store o e.2 e.1 (-d) }) := by
  unfold edgeMoment.compute
  simp only [Py.bind_run]
  rcases World.tick w with ⟨_ | _, w1⟩
  · rfl
  · dsimp only
    rcases est o e.1 e.2 ctx w1 with ⟨_ | _, w2⟩ <;> rfl

/-- all cached values are values of `L` -/
def Coherent (L : ℤ → Cx K → Cx K → Cx K) (c : EstCache K) : Prop :=
  ∀ o a b v, c.look o a b = some v → v = L o a b

theorem edge_coherent {L : ℤ → Cx K → Cx K → Cx K} (hL : ∀ o a b, L o b a = -L o a b)
    {est : LineEst σ K} {ctx : RCtx K}
    (hest : ∀ o a b w, (est o a b ctx w).2.cache = w.cache ∧
      ∀ v, (est o a b ctx w).1 = .ok v → v = L o a b) (o : ℤ) (e : Cx K × Cx K) {w : World σ K}
    (hw : Coherent L w.cache) :
    Coherent L (edgeMoment est o ctx e w).2.cache ∧
    ∀ v, (edgeMoment est o ctx e w).1 = .ok v → v = L o e.1 e.2 := by
  have hc : ∀ w : World σ K, Coherent L w.cache →
      Coherent L (edgeMoment.compute est o ctx e w).2.cache ∧
      ∀ v, (edgeMoment.compute est o ctx e w).1 = .ok v → v = L o e.1 e.2 := by
    intro w hw
    rw [compute_run]
    have htc := World.tick_cache w
    rcases ht : World.tick w with ⟨r, w1⟩
    rw [ht] at htc; simp only at htc
    cases r with
    | error er => dsimp only; exact ⟨by rw [htc]; exact hw, by simp⟩
    | ok _ =>
      dsimp only
      obtain ⟨h1, h2⟩ := hest o e.1 e.2 w1
      rcases he : est o e.1 e.2 ctx w1 with ⟨r, w2⟩
      rw [he] at h1 h2
      cases r with
      | error er => dsimp only; exact ⟨by rw [h1, htc]; exact hw, by simp⟩
      | ok d =>
        have hd := h2 d rfl
        dsimp only at h1 ⊢
        refine ⟨?_, fun v hv => by cases hv; exact hd⟩
        intro o' a' b' v hv
        rw [EstCache.look_store, EstCache.look_store] at hv
        split at hv
        · rename_i hk; obtain ⟨rfl, rfl, rfl⟩ := hk; cases hv; rw [hL, hd]
        · split at hv
          · rename_i hk; obtain ⟨rfl, rfl, rfl⟩ := hk; cases hv; exact hd
          · rw [h1, htc] at hv; exact hw _ _ _ _ hv
  rw [edgeMoment_run]
  have hw1 : Coherent L ({ w with cache := (w.cache.retrieve o e.1 e.2).2 } : World σ K).cache := by
    intro o' a' b' v hv
    rw [EstCache.look_retrieve] at hv; exact hw _ _ _ _ hv
  dsimp only
  split
  · rename_i v hv
    split
    · exact ⟨hw1, fun u hu => by cases hu; exact hw _ _ _ _ hv⟩
    · exact hc _ hw1
  · exact hc _ hw1

theorem sumEdges_coherent {L : ℤ → Cx K → Cx K → Cx K} (hL : ∀ o a b, L o b a = -L o a b)
    {est : LineEst σ K} {ctx : RCtx K}
    (hest : ∀ o a b w, (est o a b ctx w).2.cache = w.cache ∧
      ∀ v, (est o a b ctx w).1 = .ok v → v = L o a b) (o : ℤ) (es : List (Cx K × Cx K)) (phi : Cx K)
    {w : World σ K} (hw : Coherent L w.cache) :
    Coherent L (sumEdges est o ctx es phi w).2.cache ∧
    ∀ v, (sumEdges est o ctx es phi w).1 = .ok v →
      v = phi + (es.map fun e => L o e.1 e.2).sum := by
  induction es generalizing phi w with
  | nil => exact ⟨hw, fun v hv => by cases hv; simp⟩
  | cons e es ih =>
    simp only [sumEdges, Py.bind_run]
    obtain ⟨h1, h2⟩ := edge_coherent hL hest o e hw
    rcases he : edgeMoment est o ctx e w with ⟨r, w1⟩
    rw [he] at h1 h2
    cases r with
    | error er => exact ⟨h1, by simp⟩
    | ok d =>
      obtain ⟨h3, h4⟩ := ih (phi + d) h1
      refine ⟨h3, fun v hv => ?_⟩
      rw [h4 v hv, h2 d rfl]; simp [add_assoc]

theorem calcMoment_coherent {L : ℤ → Cx K → Cx K → Cx K} (hL : ∀ o a b, L o b a = -L o a b)
    {est : LineEst σ K} {ctx : RCtx K}
    (hest : ∀ o a b w, (est o a b ctx w).2.cache = w.cache ∧
      ∀ v, (est o a b ctx w).1 = .ok v → v = L o a b) (o : ℤ) (re im : K × K)
    {w : World σ K} (hw : Coherent L w.cache) :
    Coherent L (calcMoment est o re im ctx w).2.cache ∧
    ∀ v, (calcMoment est o re im ctx w).1 = .ok v →
      v = L o ⟨re.1, im.1⟩ ⟨re.2, im.1⟩ + L o ⟨re.2, im.1⟩ ⟨re.2, im.2⟩ +
        L o ⟨re.2, im.2⟩ ⟨re.1, im.2⟩ + L o ⟨re.1, im.2⟩ ⟨re.1, im.1⟩ := by
  obtain ⟨h1, h2⟩ := sumEdges_coherent hL hest o (edges re im) 0 hw
  refine ⟨h1, fun v hv => ?_⟩
  rw [h2 v hv]
  simp [edges, add_assoc]

theorem Coherent.remove {L : ℤ → Cx K → Cx K → Cx K} {c : EstCache K} (hwf : CacheWF c)
    (h : Coherent L c) (o : ℤ) (a b : Cx K) : Coherent L (c.remove o a b) := by
  intro o' a' b' v hv
  rw [EstCache.look_remove hwf] at hv
  split at hv
  · simp at hv
  · exact h _ _ _ _ hv

/-- `calcMoment` keeps the cache dictionaries well-formed if the estimator does -/
theorem edge_wf {est : LineEst σ K} {ctx : RCtx K} (hest : ∀ o a b w, CacheWF w.cache →
      CacheWF (est o a b ctx w).2.cache) (o : ℤ) (e : Cx K × Cx K) {w : World σ K}
    (hw : CacheWF w.cache) : CacheWF (edgeMoment est o ctx e w).2.cache := by
  have hc : ∀ w : World σ K, CacheWF w.cache →
      CacheWF (edgeMoment.compute est o ctx e w).2.cache := by
    intro w hw
    rw [compute_run]
    have htc := World.tick_cache w
    rcases ht : World.tick w with ⟨r, w1⟩
    rw [ht] at htc; simp only at htc
    cases r with
    | error er => dsimp only; rw [htc]; exact hw
    | ok _ =>
      dsimp only
      have h1 := hest o e.1 e.2 w1 (by rw [htc]; exact hw)
      rcases he : est o e.1 e.2 ctx w1 with ⟨r, w2⟩
      rw [he] at h1
      cases r with
      | error er => exact h1
      | ok d => exact (h1.store _ _ _ _).store _ _ _ _
  rw [edgeMoment_run]
  have hw1 : CacheWF ({ w with cache := (w.cache.retrieve o e.1 e.2).2 } : World σ K).cache :=
    hw.of_data (w.cache.retrieve_data _ _ _)
  dsimp only
  split
  · split
    · exact hw1
    · exact hc _ hw1
  · exact hc _ hw1

theorem sumEdges_wf {est : LineEst σ K} {ctx : RCtx K} (hest : ∀ o a b w, CacheWF w.cache →
      CacheWF (est o a b ctx w).2.cache) (o : ℤ) (es : List (Cx K × Cx K))
    (phi : Cx K) {w : World σ K} (hw : CacheWF w.cache) :
    CacheWF (sumEdges est o ctx es phi w).2.cache := by
  induction es generalizing phi w with
  | nil => exact hw
  | cons e es ih =>
    simp only [sumEdges, Py.bind_run]
    have h1 := edge_wf hest o e hw
    rcases he : edgeMoment est o ctx e w with ⟨r, w1⟩
    rw [he] at h1
    cases r with
    | error er => exact h1
    | ok d => exact ih _ h1

end PyZeal
