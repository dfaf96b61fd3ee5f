import Verif.Model.Summation
import Verif.Proof.Sampling
import Mathlib.Data.List.GetD

/-! # Lemmas about the phase summation estimator -/

set_option linter.unusedSectionVars false

namespace PyZeal
open Spec
variable {K : Type} {σ α β : Type}

/-! ## Computations which only add roots -/

/-- the computation changes nothing but the container (by adding roots) and the interrupt counter -/
def AddsOnly (m : Py (World σ K) α) : Prop :=
  ∀ w, (m w).2.cache = w.cache ∧ (m w).2.est = w.est ∧ (m w).2.advances = w.advances ∧
    w.added <+: (m w).2.added ∧ (w.fuse = none → (m w).2.fuse = none)

theorem AddsOnly.pure (a : α) : AddsOnly (pure a : Py (World σ K) α) :=
  fun _ => ⟨rfl, rfl, rfl, List.prefix_rfl, id⟩

theorem AddsOnly.throw (e : Err) : AddsOnly (Py.throw e : Py (World σ K) α) :=
  fun _ => ⟨rfl, rfl, rfl, List.prefix_rfl, id⟩

theorem AddsOnly.bind {m : Py (World σ K) α} {k : α → Py (World σ K) β} (hm : AddsOnly m)
    (hk : ∀ a, AddsOnly (k a)) : AddsOnly (m >>= k) := by
  intro w
  rw [Py.bind_run]
  have h := hm w
  rcases hmw : m w with ⟨_ | a, w1⟩ <;> rw [hmw] at h <;> obtain ⟨h1, h2, h3, h4, h5⟩ := h
  · exact ⟨h1, h2, h3, h4, h5⟩
  · obtain ⟨g1, g2, g3, g4, g5⟩ := hk a w1
    exact ⟨g1.trans h1, g2.trans h2, g3.trans h3, h4.trans g4, fun h => g5 (h5 h)⟩

theorem AddsOnly.tick : AddsOnly (World.tick : Py (World σ K) Unit) := by
  intro w
  unfold World.tick
  rcases hf : w.fuse with _ | _ | n <;> simp [hf]

theorem AddsOnly.addRoot (r : Root K) : AddsOnly (World.addRoot r : Py (World σ K) Unit) := by
  refine AddsOnly.bind AddsOnly.tick fun _ w => ?_
  simp

theorem AddsOnly.addRoots (rs : List (Root K)) : AddsOnly (World.addRoots rs : Py (World σ K) Unit) := by
  induction rs with
  | nil => exact AddsOnly.pure ()
  | cons r rs ih => exact AddsOnly.bind (AddsOnly.addRoot r) fun _ => ih

/-- the computation neither reads nor writes the estimator's caches -/
def CacheFree (m : Py (World σ K) α) : Prop :=
  ∀ (w : World σ K) (c : EstCache K) (e : σ),
    m { w with cache := c, est := e } = ((m w).1, { (m w).2 with cache := c, est := e })

theorem CacheFree.pure (a : α) : CacheFree (pure a : Py (World σ K) α) := fun _ _ _ => rfl
theorem CacheFree.throw (e : Err) : CacheFree (Py.throw e : Py (World σ K) α) := fun _ _ _ => rfl
theorem CacheFree.bind {m : Py (World σ K) α} {k : α → Py (World σ K) β} (hm : CacheFree m)
    (hk : ∀ a, CacheFree (k a)) : CacheFree (m >>= k) := by
  intro w c e
  rw [Py.bind_run, Py.bind_run, hm w c e]
  rcases m w with ⟨_ | a, w1⟩
  · rfl
  · exact hk a w1 c e

theorem CacheFree.tick : CacheFree (World.tick : Py (World σ K) Unit) := by
  intro w c e
  unfold World.tick
  rcases hf : w.fuse with _ | _ | n <;> simp [hf]

theorem CacheFree.addRoot (r : Root K) : CacheFree (World.addRoot r : Py (World σ K) Unit) :=
  CacheFree.bind CacheFree.tick fun _ _ _ _ => rfl

theorem CacheFree.addRoots (rs : List (Root K)) :
    CacheFree (World.addRoots rs : Py (World σ K) Unit) := by
  induction rs with
  | nil => exact CacheFree.pure ()
  | cons r rs ih => exact CacheFree.bind (CacheFree.addRoot r) fun _ => ih

section
variable [Field K] [DecidableEq K]

theorem CacheFree.genFuncArr (fuel : ℕ → ℕ) (a b : Cx K) (ctx : RCtx K) (n : ℕ) :
    CacheFree (genFuncArr fuel a b ctx n : Py (World σ K) _) := by
  unfold PyZeal.genFuncArr
  generalize fuel n = k
  generalize linspace a b n = base
  induction k generalizing base with
  | zero => exact CacheFree.throw _
  | succ n ih =>
    simp only [PyZeal.genFuncLoop]
    split
    · exact CacheFree.pure _
    · exact CacheFree.bind (CacheFree.addRoots _) fun _ => ih _

theorem AddsOnly.genFuncLoop (f : Cx K → Cx K) (s : Cx K) (n : ℕ) (base : List (Cx K)) :
    AddsOnly (genFuncLoop f s n base : Py (World σ K) _) := by
  induction n generalizing base with
  | zero => exact AddsOnly.throw _
  | succ n ih =>
    simp only [PyZeal.genFuncLoop]
    split
    · exact AddsOnly.pure _
    · exact AddsOnly.bind (AddsOnly.addRoots _) fun _ => ih _

theorem AddsOnly.genFuncArr (fuel : ℕ → ℕ) (a b : Cx K) (ctx : RCtx K) (n : ℕ) :
    AddsOnly (genFuncArr fuel a b ctx n : Py (World σ K) _) := AddsOnly.genFuncLoop _ _ _ _

theorem linspace_getElem (a b : Cx K) (n i : ℕ) (h : i < (linspace a b n).length) :
    (linspace a b n)[i] = a + Cx.smul ((i : K) / ((n : K) - 1)) (b - a) := by
  simp [linspace]

theorem linspace_head (a b : Cx K) (n : ℕ) (hn : 0 < n) : (linspace a b n).head? = some a := by
  obtain ⟨m, rfl⟩ : ∃ m, n = m + 1 := ⟨n - 1, by omega⟩
  have e : a + Cx.smul (((0 : ℕ) : K) / (((m + 1 : ℕ) : K) - 1)) (b - a) = a := by
    ext <;> simp
  simp only [linspace, List.range_succ_eq_map, List.map_cons, List.head?_cons]
  rw [e]

theorem linspace_last [CharZero K] (a b : Cx K) (n : ℕ) (hn : 2 ≤ n) :
    (linspace a b n).getLast? = some b := by
  obtain ⟨m, rfl⟩ : ∃ m, n = m + 1 := ⟨n - 1, by omega⟩
  have hm : (m : K) ≠ 0 := by
    have : m ≠ 0 := by omega
    exact_mod_cast this
  have e : a + Cx.smul ((m : K) / (((m + 1 : ℕ) : K) - 1)) (b - a) = b := by
    ext <;> simp [hm]
  simp only [linspace, List.range_succ, List.map_append, List.map_cons, List.map_nil,
    List.getLast?_concat]
  rw [e]

end

/-! ## index lists -/

theorem whereFrom_nil {p : α → Bool} {i : ℕ} {l : List α} :
    whereFrom p i l = [] ↔ ∀ a ∈ l, p a = false := by
  induction l generalizing i with
  | nil => simp [whereFrom]
  | cons a l ih =>
    simp only [whereFrom]
    by_cases h : p a = true
    · simp [h]
    · simp [h, ih]

theorem whereFrom_cons {p : α → Bool} {i k : ℕ} {l : List α} {t : List ℕ}
    (h : whereFrom p i l = k :: t) :
    i ≤ k ∧ ∃ hk : k - i < l.length, p l[k - i] = true ∧ ∀ j (hj : j < k - i), p l[j] = false := by
  induction l generalizing i with
  | nil => simp [whereFrom] at h
  | cons a l ih =>
    simp only [whereFrom] at h
    by_cases hp : p a = true
    · simp only [hp, if_true, List.cons.injEq] at h
      obtain ⟨rfl, _⟩ := h
      simp [hp]
    · simp only [hp, Bool.false_eq_true, if_false] at h
      obtain ⟨h1, h2, h3, h4⟩ := ih h
      refine ⟨by omega, ?_⟩
      have e : k - i = (k - (i + 1)) + 1 := by omega
      refine ⟨by simp; omega, ?_, ?_⟩
      · simp only [e, List.getElem_cons_succ]; exact h3
      · intro j hj
        rcases j with _ | j
        · simpa using hp
        · simpa using h4 j (by omega)

/-- a test that holds exactly on the first `m` entries -/
theorem whereFrom_prefix {p : α → Bool} {i : ℕ} {l₁ l₂ : List α} (h1 : ∀ a ∈ l₁, p a = true)
    (h2 : ∀ a ∈ l₂, p a = false) : whereFrom p i (l₁ ++ l₂) = List.range' i l₁.length := by
  induction l₁ generalizing i with
  | nil => simpa using whereFrom_nil.2 h2
  | cons a l ih =>
    simp only [List.cons_append, whereFrom, h1 a (by simp), if_true, List.length_cons,
      List.range'_succ]
    rw [ih fun b hb => h1 b (by simp [hb])]

theorem whereFrom_suffix {p : α → Bool} {i : ℕ} {l₁ l₂ : List α} (h1 : ∀ a ∈ l₁, p a = false)
    (h2 : ∀ a ∈ l₂, p a = true) :
    whereFrom p i (l₁ ++ l₂) = List.range' (i + l₁.length) l₂.length := by
  induction l₁ generalizing i with
  | nil =>
    have := whereFrom_prefix (i := i) (l₂ := []) h2 (by simp)
    simpa using this
  | cons a l ih =>
    simp only [List.cons_append, whereFrom, h1 a (by simp), Bool.false_eq_true, if_false,
      List.length_cons]
    rw [ih fun b hb => h1 b (by simp [hb])]
    congr 1; omega

/-! ## phase arrays -/

section
variable [Field K] [LinearOrder K] [FloorRing K]

@[simp] theorem phases_length (arg : Cx K → K) (fs : List (Cx K)) :
    (phases arg fs).length = fs.length - 1 := by simp [phases]

theorem phases_cons_cons (arg : Cx K → K) (a b : Cx K) (l : List (Cx K)) :
    phases arg (a :: b :: l) = arg (b / a) :: phases arg (b :: l) := rfl

theorem phases_append (arg : Cx K → K) (A C : List (Cx K)) (u : Cx K) :
    phases arg (A ++ u :: C) = phases arg (A ++ [u]) ++ phases arg (u :: C) := by
  induction A with
  | nil => simp [phases]
  | cons a A ih =>
    cases A with
    | nil => simp [phases]
    | cons b B =>
      simp only [List.cons_append] at ih ⊢
      rw [phases_cons_cons, ih, phases_cons_cons]; simp

theorem AddsOnly.refineLoop (cfg : SumCfg K) (ctx : RCtx K) (n idx : ℕ) (z : List (Cx K)) (p : List K) :
    AddsOnly (refineLoop cfg ctx n idx z p) := by
  induction n generalizing idx z p with
  | zero => exact AddsOnly.throw _
  | succ n ih =>
    simp only [PyZeal.refineLoop]
    split
    · exact AddsOnly.pure _
    · split
      · exact AddsOnly.pure _
      · split
        · exact AddsOnly.pure _
        · exact AddsOnly.bind (AddsOnly.genFuncArr _ _ _ _ _) fun _ => ih _ _ _

theorem AddsOnly.genPhiArr (cfg : SumCfg K) (o : ℤ) (a b : Cx K) (ctx : RCtx K) :
    AddsOnly (genPhiArr cfg o a b ctx) := by
  unfold PyZeal.genPhiArr
  split
  · exact AddsOnly.throw _
  · exact AddsOnly.bind (AddsOnly.genFuncArr _ _ _ _ _) fun _ => AddsOnly.refineLoop _ _ _ _ _ _

theorem CacheFree.genPhiArr (cfg : SumCfg K) (o : ℤ) (a b : Cx K) (ctx : RCtx K) :
    CacheFree (genPhiArr cfg o a b ctx) := by
  unfold PyZeal.genPhiArr
  split
  · exact CacheFree.throw _
  · refine CacheFree.bind (CacheFree.genFuncArr _ _ _ _ _) fun r => ?_
    generalize r.1 = z
    generalize phases cfg.arg r.2 = p
    generalize (0 : ℕ) = idx
    generalize cfg.steps = n
    induction n generalizing idx z p with
    | zero => exact CacheFree.throw _
    | succ n ih =>
      simp only [PyZeal.refineLoop]
      split
      · exact CacheFree.pure _
      · split
        · exact CacheFree.pure _
        · split
          · exact CacheFree.pure _
          · exact CacheFree.bind (CacheFree.genFuncArr _ _ _ _ _) fun _ => ih _ _ _

end

section
variable [Field K] [LinearOrder K] [IsStrictOrderedRing K] [FloorRing K]

/-- the number of refinement points is at least 100 -/
theorem factor_ge (d p : K) (idx : ℕ) (hd : 0 < d) (hp : d ≤ |p|) :
    100 ≤ ⌊((idx + 1 : ℕ) : K) * (zRefine : K) * |p| / d⌋.toNat := by
  have h1 : (1 : K) ≤ |p| / d := (one_le_div hd).2 hp
  have h2 : (1 : K) ≤ ((idx + 1 : ℕ) : K) := by exact_mod_cast Nat.succ_le_succ (Nat.zero_le idx)
  have h3 : (100 : K) ≤ ((idx + 1 : ℕ) : K) * (zRefine : K) * |p| / d := by
    have : ((idx + 1 : ℕ) : K) * (zRefine : K) * |p| / d =
        100 * (((idx + 1 : ℕ) : K) * (|p| / d)) := by
      simp only [zRefine]; push_cast; ring
    rw [this]
    nlinarith [mul_le_mul h2 h1 zero_le_one (by linarith)]
  have h4 : (100 : ℤ) ≤ ⌊((idx + 1 : ℕ) : K) * (zRefine : K) * |p| / d⌋ := by
    rw [Int.le_floor]; exact_mod_cast h3
  omega

/-- normal form of a sampled line -/
theorem genFuncArr_ok {fuel : ℕ → ℕ} {a b : Cx K} {ctx : RCtx K} {n : ℕ} {w : World σ K}
    {r : List (Cx K) × List (Cx K)} (hw : w.fuse = none)
    (h : (genFuncArr fuel a b ctx n w).1 = .ok r) :
    ∃ j, r.1 = shifted (linspace a b n) (lineShift a b ctx.precision) j ∧ r.2 = r.1.map ctx.f ∧
      (∀ z ∈ r.1, ctx.f z ≠ 0) ∧
      ((genFuncArr fuel a b ctx n w).2.added = w.added → r.1 = linspace a b n) := by
  rcases genFuncLoop_spec ctx.f (lineShift a b ctx.precision) (fuel n) (linspace a b n) w hw
    with ⟨j, hj, h1, h2, h3⟩ | ⟨_, h1⟩
  · unfold genFuncArr at h ⊢
    rw [h3] at h
    simp only [Except.ok.injEq] at h
    subst h
    refine ⟨j, rfl, rfl, h2, ?_⟩
    rw [h3]
    intro he
    rcases j with _ | j
    · exact shifted_zero _ _
    · exfalso
      have := h1 0 (Nat.succ_pos j)
      apply this
      simp only at he
      have he' := List.append_right_eq_self.1 he
      rw [List.flatten_eq_nil_iff] at he'
      exact he' _ (List.mem_map.2 ⟨0, by simp, rfl⟩)
  · unfold genFuncArr at h; rw [h1] at h; simp at h

theorem genFuncArr_length {fuel : ℕ → ℕ} {a b : Cx K} {ctx : RCtx K} {n : ℕ} {w : World σ K}
    {r : List (Cx K) × List (Cx K)} (hw : w.fuse = none)
    (h : (genFuncArr fuel a b ctx n w).1 = .ok r) : r.1.length = n ∧ r.2.length = n := by
  obtain ⟨j, h1, h2, _⟩ := genFuncArr_ok hw h
  rw [h2, h1]; simp [shifted]

/-- one inner step of `refineLoop`, as an induction principle: an invariant of the pair of arrays that
holds initially and is kept by a refinement holds for the result -/
theorem refineLoop_inv (cfg : SumCfg K) (ctx : RCtx K) (hδ : 0 < cfg.deltaPhi)
    (P : ℕ → List (Cx K) → List K → World (SumState K) K → Prop)
    (hstep : ∀ idx z p w k, P idx z p w → w.fuse = none → z.length = p.length + 1 →
      k < p.length → cfg.deltaPhi ≤ |p.getD k 0| →
      ¬ (maxZLength * cfg.numPts < z.length) →
      ∀ r : List (Cx K) × List (Cx K), ∀ n, 100 ≤ n →
      (genFuncArr cfg.evals (z.getD k 0) (z.getD (k+1) 0) ctx n w).1 = .ok r →
      P (idx + 1) (z.take (k + 1) ++ (r.1.drop 1).dropLast ++ z.drop (k + 1))
        (p.take k ++ phases cfg.arg r.2 ++ p.drop (k + 1))
        (genFuncArr cfg.evals (z.getD k 0) (z.getD (k+1) 0) ctx n w).2)
    (n idx : ℕ) (z : List (Cx K)) (p : List K) (w : World (SumState K) K)
    (hP : P idx z p w) (hw : w.fuse = none) (hl : z.length = p.length + 1)
    (z' : List (Cx K)) (p' : List K) (w' : World (SumState K) K)
    (h : refineLoop cfg ctx n idx z p w = (.ok (z', p'), w')) :
    (∃ idx', P idx' z' p' w') ∧ z'.length = p'.length + 1 ∧
    ((∀ x ∈ p', |x| < cfg.deltaPhi) ∨
      (∃ k < p'.length, cfg.deltaPhi ≤ |p'.getD k 0| ∧ 0 < cfg.maxPrecision ∧
        (z'.getD k 0 - z'.getD (k+1) 0).normSq < cfg.maxPrecision ^ 2) ∨
      maxZLength * cfg.numPts < z'.length) := by
  induction n generalizing idx z p w with
  | zero => simp [refineLoop] at h
  | succ n ih =>
    unfold refineLoop at h
    rcases he : whereFrom (fun p => decide (cfg.deltaPhi ≤ |p|)) 0 p with _ | ⟨k, t⟩
    · simp only [he] at h
      simp only [Py.pure_run, Prod.mk.injEq, Except.ok.injEq] at h
      obtain ⟨⟨rfl, rfl⟩, rfl⟩ := h
      refine ⟨⟨idx, hP⟩, hl, .inl ?_⟩
      intro x hx
      have := whereFrom_nil.1 he x hx
      simpa using this
    · simp only [he] at h
      obtain ⟨_, hk, hpk, _⟩ := whereFrom_cons he
      simp only [Nat.sub_zero, decide_eq_true_eq] at hk hpk
      have hpk' : cfg.deltaPhi ≤ |p.getD k 0| := by
        rw [List.getD_eq_getElem _ _ hk]; exact hpk
      by_cases hc : 0 < cfg.maxPrecision ∧
        (z.getD k 0 - z.getD (k+1) 0).normSq < cfg.maxPrecision ^ 2
      · rw [if_pos hc] at h
        simp only [Py.pure_run, Prod.mk.injEq, Except.ok.injEq] at h
        obtain ⟨⟨rfl, rfl⟩, rfl⟩ := h
        exact ⟨⟨idx, hP⟩, hl, .inr (.inl ⟨k, hk, hpk', hc.1, hc.2⟩)⟩
      · rw [if_neg hc] at h
        by_cases hlen : maxZLength * cfg.numPts < z.length
        · rw [if_pos hlen] at h
          simp only [Py.pure_run, Prod.mk.injEq, Except.ok.injEq] at h
          obtain ⟨⟨rfl, rfl⟩, rfl⟩ := h
          exact ⟨⟨idx, hP⟩, hl, .inr (.inr hlen)⟩
        · rw [if_neg hlen] at h
          rw [Py.bind_run] at h
          have hfac := factor_ge cfg.deltaPhi (p.getD k 0) idx hδ hpk'
          generalize ⌊((idx + 1 : ℕ) : K) * (zRefine : K) * |p.getD k 0| / cfg.deltaPhi⌋.toNat = m
            at h hfac
          rcases hg : genFuncArr cfg.evals (z.getD k 0) (z.getD (k+1) 0) ctx m w with ⟨_ | r, w1⟩
          · rw [hg] at h; simp at h
          · rw [hg] at h
            dsimp only at h
            have hfst : (genFuncArr cfg.evals (z.getD k 0) (z.getD (k+1) 0) ctx m w).1 = .ok r := by
              rw [hg]
            have hs := hstep idx z p w k hP hw hl hk hpk' hlen r m hfac hfst
            rw [hg] at hs
            have hfu : w1.fuse = none := by
              have := (AddsOnly.genFuncArr (σ := SumState K) cfg.evals (z.getD k 0)
                (z.getD (k+1) 0) ctx m w).2.2.2.2 hw
              rw [hg] at this; exact this
            obtain ⟨l1, l2⟩ := genFuncArr_length hw hfst
            refine ih _ _ _ w1 hs hfu ?_ h
            simp [l1, l2]; omega

theorem refineLoop_terminates (cfg : SumCfg K) (ctx : RCtx K) (hδ : 0 < cfg.deltaPhi)
    (hs : ∀ a b n (w : World (SumState K) K), w.fuse = none →
      ∃ r, (genFuncArr cfg.evals a b ctx n w).1 = .ok r)
    (n idx : ℕ) (z : List (Cx K)) (p : List K) (w : World (SumState K) K)
    (hw : w.fuse = none) (hl : z.length = p.length + 1)
    (hn : 1 ≤ n) (hm : 100 * cfg.numPts < z.length + 98 * (n - 1)) :
    ∃ r, (refineLoop cfg ctx n idx z p w).1 = .ok r := by
  induction n generalizing idx z p w with
  | zero => omega
  | succ n ih =>
    unfold refineLoop
    rcases he : whereFrom (fun p => decide (cfg.deltaPhi ≤ |p|)) 0 p with _ | ⟨k, t⟩
    · exact ⟨_, rfl⟩
    · simp only
      obtain ⟨_, hk, hpk, _⟩ := whereFrom_cons he
      simp only [Nat.sub_zero, decide_eq_true_eq] at hk hpk
      have hpk' : cfg.deltaPhi ≤ |p.getD k 0| := by
        rw [List.getD_eq_getElem _ _ hk]; exact hpk
      by_cases hc : 0 < cfg.maxPrecision ∧
        (z.getD k 0 - z.getD (k+1) 0).normSq < cfg.maxPrecision ^ 2
      · rw [if_pos hc]; exact ⟨_, rfl⟩
      · rw [if_neg hc]
        by_cases hlen : maxZLength * cfg.numPts < z.length
        · rw [if_pos hlen]; exact ⟨_, rfl⟩
        · rw [if_neg hlen]
          rw [Py.bind_run]
          have hfac := factor_ge cfg.deltaPhi (p.getD k 0) idx hδ hpk'
          generalize ⌊((idx + 1 : ℕ) : K) * (zRefine : K) * |p.getD k 0| / cfg.deltaPhi⌋.toNat = m
            at hfac ⊢
          obtain ⟨r, hr⟩ := hs (z.getD k 0) (z.getD (k+1) 0) m w hw
          rcases hg : genFuncArr cfg.evals (z.getD k 0) (z.getD (k+1) 0) ctx m w with ⟨_ | r', w1⟩
          · rw [hg] at hr; simp at hr
          · dsimp only
            have hfst : (genFuncArr cfg.evals (z.getD k 0) (z.getD (k+1) 0) ctx m w).1 = .ok r' := by
              rw [hg]
            have hfu : w1.fuse = none := by
              have := (AddsOnly.genFuncArr (σ := SumState K) cfg.evals (z.getD k 0)
                (z.getD (k+1) 0) ctx m w).2.2.2.2 hw
              rw [hg] at this; exact this
            obtain ⟨l1, l2⟩ := genFuncArr_length hw hfst
            unfold maxZLength at hlen
            apply ih
            · exact hfu
            · simp [l1, l2]; omega
            · omega
            · simp [l1]; omega

theorem genPhiArr_zero (cfg : SumCfg K) (a b : Cx K) (ctx : RCtx K) :
    genPhiArr cfg 0 a b ctx = (do
      let r ← genFuncArr cfg.evals a b ctx cfg.numPts
      refineLoop cfg ctx cfg.steps 0 r.1 (phases cfg.arg r.2)) := by
  unfold genPhiArr; rw [if_neg (by simp)]

/-- an invariant of the pair of arrays holds for the result of `genPhiArr` -/
theorem genPhiArr_inv (cfg : SumCfg K) (ctx : RCtx K) (hδ : 0 < cfg.deltaPhi) (hn : 1 ≤ cfg.numPts)
    (a b : Cx K) (w : World (SumState K) K)
    (P : ℕ → List (Cx K) → List K → World (SumState K) K → Prop)
    (hinit : ∀ r : List (Cx K) × List (Cx K),
      (genFuncArr cfg.evals a b ctx cfg.numPts w).1 = .ok r →
      P 0 r.1 (phases cfg.arg r.2) (genFuncArr cfg.evals a b ctx cfg.numPts w).2)
    (hstep : ∀ idx z p w k, P idx z p w → w.fuse = none → z.length = p.length + 1 →
      k < p.length → cfg.deltaPhi ≤ |p.getD k 0| →
      ¬ (maxZLength * cfg.numPts < z.length) →
      ∀ r : List (Cx K) × List (Cx K), ∀ n, 100 ≤ n →
      (genFuncArr cfg.evals (z.getD k 0) (z.getD (k+1) 0) ctx n w).1 = .ok r →
      P (idx + 1) (z.take (k + 1) ++ (r.1.drop 1).dropLast ++ z.drop (k + 1))
        (p.take k ++ phases cfg.arg r.2 ++ p.drop (k + 1))
        (genFuncArr cfg.evals (z.getD k 0) (z.getD (k+1) 0) ctx n w).2)
    (hw : w.fuse = none) (z' : List (Cx K)) (p' : List K) (w' : World (SumState K) K)
    (h : genPhiArr cfg 0 a b ctx w = (.ok (z', p'), w')) :
    (∃ idx', P idx' z' p' w') ∧ z'.length = p'.length + 1 ∧
    ((∀ x ∈ p', |x| < cfg.deltaPhi) ∨
      (∃ k < p'.length, cfg.deltaPhi ≤ |p'.getD k 0| ∧ 0 < cfg.maxPrecision ∧
        (z'.getD k 0 - z'.getD (k+1) 0).normSq < cfg.maxPrecision ^ 2) ∨
      maxZLength * cfg.numPts < z'.length) := by
  rw [genPhiArr_zero, Py.bind_run] at h
  rcases hg : genFuncArr cfg.evals a b ctx cfg.numPts w with ⟨_ | r, w1⟩
  · rw [hg] at h; simp at h
  · rw [hg] at h
    dsimp only at h
    have hfst : (genFuncArr cfg.evals a b ctx cfg.numPts w).1 = .ok r := by rw [hg]
    have hi := hinit r hfst
    rw [hg] at hi
    have hfu : w1.fuse = none := by
      have := (AddsOnly.genFuncArr (σ := SumState K) cfg.evals a b ctx cfg.numPts w).2.2.2.2 hw
      rw [hg] at this; exact this
    obtain ⟨l1, l2⟩ := genFuncArr_length hw hfst
    exact refineLoop_inv cfg ctx hδ P hstep _ _ _ _ w1 hi hfu (by simp [l1, l2]; omega) _ _ _ h

theorem splice_head {z M : List (Cx K)} {k : ℕ} (hk : k + 1 < z.length) :
    (z.take (k + 1) ++ M ++ z.drop (k + 1)).head? = z.head? := by
  cases z with
  | nil => simp at hk
  | cons a t => simp

theorem splice_last {z M : List (Cx K)} {k : ℕ} (hk : k + 1 < z.length) :
    (z.take (k + 1) ++ M ++ z.drop (k + 1)).getLast? = z.getLast? := by
  have hne : z.drop (k + 1) ≠ [] := by
    intro e; have := congrArg List.length e; simp at this; omega
  rw [List.getLast?_append_of_ne_nil _ hne, List.getLast?_drop, if_neg (by omega)]

/-- splitting the array around the refined interval -/
theorem split_at {z : List (Cx K)} {k : ℕ} (hk : k + 1 < z.length) :
    ∃ A B, z = A ++ z.getD k 0 :: z.getD (k+1) 0 :: B ∧ A.length = k ∧
      z.take (k+1) = A ++ [z.getD k 0] ∧ z.drop (k+1) = z.getD (k+1) 0 :: B := by
  have h0 : k < z.length := by omega
  refine ⟨z.take k, z.drop (k + 2), ?_, by simp; omega, ?_, ?_⟩
  · rw [List.getD_eq_getElem _ _ h0, List.getD_eq_getElem _ _ hk,
      ← List.drop_eq_getElem_cons hk, ← List.drop_eq_getElem_cons h0, List.take_append_drop]
  · rw [List.getD_eq_getElem _ _ h0, List.take_append_getElem]
  · rw [List.getD_eq_getElem _ _ hk, ← List.drop_eq_getElem_cons hk]

/-- a list with given first and last element -/
theorem eq_cons_mid_concat {l : List (Cx K)} {u v : Cx K} (h2 : 2 ≤ l.length)
    (hh : l.head? = some u) (hl : l.getLast? = some v) :
    l = u :: ((l.drop 1).dropLast ++ [v]) := by
  cases l with
  | nil => simp at h2
  | cons a t =>
    simp only [List.head?_cons, Option.some.injEq] at hh
    subst hh
    have ht : t ≠ [] := by rintro rfl; simp at h2
    rw [List.getLast?_cons_of_ne_nil ht, List.getLast?_eq_some_getLast ht, Option.some.injEq] at hl
    subst hl
    simp [List.dropLast_concat_getLast ht]

/-- points of a linspace are convex combinations -/
theorem mem_linspace {a b z : Cx K} {n : ℕ} (h : z ∈ linspace a b n) :
    ∃ t : K, 0 ≤ t ∧ t ≤ 1 ∧ z.re = a.re + t * (b.re - a.re) ∧ z.im = a.im + t * (b.im - a.im) := by
  unfold linspace at h
  obtain ⟨i, hi, rfl⟩ := List.mem_map.1 h
  rw [List.mem_range] at hi
  have h1 : (i : K) ≤ (n : K) - 1 := by
    have : (i : K) + 1 ≤ n := by exact_mod_cast hi
    linarith
  have h0 : (0 : K) ≤ i := Nat.cast_nonneg i
  refine ⟨(i : K) / ((n : K) - 1), div_nonneg h0 (h0.trans h1), ?_, by simp, by simp⟩
  exact div_le_one_of_le₀ h1 (h0.trans h1)

/-- if `f` has no zeros on a set closed under linspace, sampling adds nothing -/
theorem genFuncArr_noZeros {fuel : ℕ → ℕ} {a b : Cx K} {ctx : RCtx K} {n : ℕ} {w : World σ K}
    {r : List (Cx K) × List (Cx K)} (hw : w.fuse = none)
    (h : (genFuncArr fuel a b ctx n w).1 = .ok r)
    (hf : ∀ z ∈ linspace a b n, ctx.f z ≠ 0) :
    (genFuncArr fuel a b ctx n w).2.added = w.added := by
  rcases genFuncLoop_spec ctx.f (lineShift a b ctx.precision) (fuel n) (linspace a b n) w hw
    with ⟨j, hj, h1, h2, h3⟩ | ⟨_, h1⟩
  · unfold genFuncArr
    rw [h3]
    rcases j with _ | j
    · simp
    · exfalso
      have := h1 0 (Nat.succ_pos j)
      apply this
      rw [shifted_zero]
      unfold zeroHits
      rw [List.map_eq_nil_iff, List.filter_eq_nil_iff]
      intro z hz
      simpa using hf z hz
  · unfold genFuncArr at h; rw [h1] at h; simp at h

theorem added_eq_of_prefix {l₀ l₁ l₂ : List α} (h1 : l₀ <+: l₁) (h2 : l₁ <+: l₂) (h : l₂ = l₀) :
    l₁ = l₀ := by
  subst h
  exact (List.IsPrefix.eq_of_length_le h2 h1.length_le)

/-- if the function has no zero on a set that contains the end points and is closed under
equidistant sampling, nothing is added -/
theorem genPhiArr_noZeros (cfg : SumCfg K) (ctx : RCtx K) (hδ : 0 < cfg.deltaPhi)
    (hn : 1 ≤ cfg.numPts) (a b : Cx K) (w : World (SumState K) K) (hw : w.fuse = none)
    (S : Cx K → Prop) (hS : ∀ u v n, S u → S v → ∀ z ∈ linspace u v n, S z) (ha : S a) (hb : S b)
    (hf : ∀ z, S z → ctx.f z ≠ 0) (z' : List (Cx K)) (p' : List K) (w' : World (SumState K) K)
    (h : genPhiArr cfg 0 a b ctx w = (.ok (z', p'), w')) : w'.added = w.added ∧ ∀ z ∈ z', S z := by
  refine (fun key => ?_) (genPhiArr_inv cfg ctx hδ hn a b w
    (fun _ z _ w1 => w1.added = w.added ∧ ∀ x ∈ z, S x) ?_ ?_ hw z' p' w' h)
  · obtain ⟨⟨_, h1, h2⟩, _⟩ := key
    exact ⟨h1, h2⟩
  · intro r hr
    have e := genFuncArr_noZeros hw hr fun z hz => hf z (hS a b _ ha hb z hz)
    obtain ⟨j, _, _, _, h4⟩ := genFuncArr_ok hw hr
    refine ⟨e, ?_⟩
    rw [h4 e]; exact hS a b _ ha hb
  · intro idx z p w1 k hP hw1 hl hk _ _ r n _ hr
    have hmem : ∀ i < z.length, S (z.getD i 0) := by
      intro i hi; rw [List.getD_eq_getElem _ _ hi]; exact hP.2 _ (List.getElem_mem _)
    have hu := hmem k (by omega)
    have hv := hmem (k + 1) (by omega)
    have e := genFuncArr_noZeros hw1 hr fun z hz => hf z (hS _ _ _ hu hv z hz)
    obtain ⟨j, _, _, _, h4⟩ := genFuncArr_ok hw1 hr
    refine ⟨e.trans hP.1, ?_⟩
    intro x hx
    simp only [List.mem_append] at hx
    rcases hx with (hx | hx) | hx
    · exact hP.2 x (List.mem_of_mem_take hx)
    · have := List.mem_of_mem_drop (List.mem_of_mem_dropLast hx)
      rw [h4 e] at this
      exact hS _ _ _ hu hv x this
    · exact hP.2 x (List.mem_of_mem_drop hx)

/-- without zero hits the arrays belong together: the phases are those of the function values at the
support points, which start and end at the requested points -/
theorem genPhiArr_phases (cfg : SumCfg K) (ctx : RCtx K) (hδ : 0 < cfg.deltaPhi)
    (hn : 2 ≤ cfg.numPts) (a b : Cx K) (w : World (SumState K) K) (hw : w.fuse = none)
    (z' : List (Cx K)) (p' : List K) (w' : World (SumState K) K)
    (h : genPhiArr cfg 0 a b ctx w = (.ok (z', p'), w')) (hadd : w'.added = w.added) :
    p' = phases cfg.arg (z'.map ctx.f) ∧ (∀ z ∈ z', ctx.f z ≠ 0) ∧ z'.head? = some a ∧
      z'.getLast? = some b := by
  refine (fun key => ?_) (genPhiArr_inv cfg ctx hδ (by omega) a b w
    (fun _ z p w1 => w.added <+: w1.added ∧ (w1.added = w.added →
      p = phases cfg.arg (z.map ctx.f) ∧ (∀ x ∈ z, ctx.f x ≠ 0) ∧ z.head? = some a ∧
      z.getLast? = some b)) ?_ ?_ hw z' p' w' h)
  · obtain ⟨⟨_, _, h1⟩, _⟩ := key
    exact h1 hadd
  · intro r hr
    obtain ⟨j, _, h2, h3, h4⟩ := genFuncArr_ok hw hr
    refine ⟨(AddsOnly.genFuncArr _ _ _ _ _ w).2.2.2.1, fun e => ⟨?_, h3, ?_, ?_⟩⟩
    · rw [h2]
    · rw [h4 e]; exact linspace_head _ _ _ (by omega)
    · rw [h4 e]; exact linspace_last _ _ _ hn
  · intro idx z p w1 k hP hw1 hl hk _ _ r n hn100 hr
    have hpre := (AddsOnly.genFuncArr (σ := SumState K) cfg.evals (z.getD k 0) (z.getD (k+1) 0)
      ctx n w1).2.2.2.1
    refine ⟨hP.1.trans hpre, ?_⟩
    intro e
    have e1 : w1.added = w.added := added_eq_of_prefix hP.1 hpre e
    obtain ⟨g1, g2, g3, g4⟩ := hP.2 e1
    obtain ⟨j, _, h2, h3, h4⟩ := genFuncArr_ok hw1 hr
    have hr1 := h4 (e.trans e1.symm)
    have hk1 : k + 1 < z.length := by omega
    refine ⟨?_, ?_, (splice_head hk1).trans g3, (splice_last hk1).trans g4⟩
    · obtain ⟨A, B, hz, hA, ht, hd⟩ := split_at hk1
      have hmid : r.1 = z.getD k 0 :: ((r.1.drop 1).dropLast ++ [z.getD (k+1) 0]) := by
        apply eq_cons_mid_concat
        · rw [hr1]; simp; omega
        · rw [hr1]; exact linspace_head _ _ _ (by omega)
        · rw [hr1]; exact linspace_last _ _ _ (by omega)
      generalize (r.1.drop 1).dropLast = M at hmid ⊢
      rw [ht, hd]
      have hp1 : p = phases cfg.arg ((A ++ [z.getD k 0]).map ctx.f) ++
          (cfg.arg (ctx.f (z.getD (k+1) 0) / ctx.f (z.getD k 0)) ::
            phases cfg.arg ((z.getD (k+1) 0 :: B).map ctx.f)) := by
        rw [g1]
        conv_lhs => rw [hz]
        simp only [List.map_append, List.map_cons, List.map_nil]
        rw [phases_append, phases_cons_cons]
      have hlen : (phases cfg.arg ((A ++ [z.getD k 0]).map ctx.f)).length = k := by simp [hA]
      have t1 : p.take k = phases cfg.arg ((A ++ [z.getD k 0]).map ctx.f) := by
        rw [hp1, List.take_append_of_le_length (by omega), List.take_of_length_le (by omega)]
      have t2 : p.drop (k + 1) = phases cfg.arg ((z.getD (k+1) 0 :: B).map ctx.f) := by
        rw [hp1, List.drop_append, List.drop_of_length_le (by omega), hlen]
        simp
      rw [t1, t2, h2]
      conv_lhs => rw [hmid]
      simp only [List.map_append, List.map_cons, List.map_nil, List.append_assoc,
        List.cons_append, List.nil_append]
      have q1 := phases_append cfg.arg (A.map ctx.f)
        (M.map ctx.f ++ ctx.f (z.getD (k+1) 0) :: B.map ctx.f) (ctx.f (z.getD k 0))
      have q2 := phases_append cfg.arg (ctx.f (z.getD k 0) :: M.map ctx.f) (B.map ctx.f)
        (ctx.f (z.getD (k+1) 0))
      simp only [List.cons_append] at q2
      rw [q1, q2]
    · intro x hx
      simp only [List.mem_append] at hx
      rcases hx with (hx | hx) | hx
      · exact g2 x (List.mem_of_mem_take hx)
      · exact h3 x (List.mem_of_mem_drop (List.mem_of_mem_dropLast hx))
      · exact g2 x (List.mem_of_mem_drop hx)

/-- without zero hits the support points of a positively oriented line increase strictly -/
theorem genPhiArr_sorted (cfg : SumCfg K) (ctx : RCtx K) (hδ : 0 < cfg.deltaPhi)
    (hn : 2 ≤ cfg.numPts) (a b : Cx K) (proj : Cx K → K)
    (hproj : ∀ (u v : Cx K) (t : K), proj (u + Cx.smul t (v - u)) = proj u + t * (proj v - proj u))
    (hab : proj a < proj b) (w : World (SumState K) K) (hw : w.fuse = none)
    (z' : List (Cx K)) (p' : List K) (w' : World (SumState K) K)
    (h : genPhiArr cfg 0 a b ctx w = (.ok (z', p'), w')) (hadd : w'.added = w.added) :
    (z'.map proj).Pairwise (· < ·) := by
  have hlin : ∀ (u v : Cx K) (n : ℕ), proj u < proj v →
      ((linspace u v n).map proj).Pairwise (· < ·) := by
    intro u v n huv
    unfold linspace
    rw [List.map_map, List.pairwise_map]
    refine List.Pairwise.imp_of_mem ?_ List.pairwise_lt_range
    intro i j hi hj hij
    rw [List.mem_range] at hi hj
    have hn1 : (0 : K) < (n : K) - 1 := by
      have : 2 ≤ n := by omega
      have : (2 : K) ≤ n := by exact_mod_cast this
      linarith
    simp only [Function.comp_apply, hproj]
    have : (i : K) / ((n : K) - 1) < (j : K) / ((n : K) - 1) :=
      div_lt_div_of_pos_right (by exact_mod_cast hij) hn1
    nlinarith
  refine (fun key => ?_) (genPhiArr_inv cfg ctx hδ (by omega) a b w
    (fun _ z _ w1 => w.added <+: w1.added ∧ (w1.added = w.added →
      (z.map proj).Pairwise (· < ·))) ?_ ?_ hw z' p' w' h)
  · obtain ⟨⟨_, _, h1⟩, _⟩ := key
    exact h1 hadd
  · intro r hr
    obtain ⟨j, _, h2, h3, h4⟩ := genFuncArr_ok hw hr
    refine ⟨(AddsOnly.genFuncArr _ _ _ _ _ w).2.2.2.1, fun e => ?_⟩
    rw [h4 e]; exact hlin a b _ hab
  · intro idx z p w1 k hP hw1 hl hk _ _ r n hn100 hr
    have hpre := (AddsOnly.genFuncArr (σ := SumState K) cfg.evals (z.getD k 0) (z.getD (k+1) 0)
      ctx n w1).2.2.2.1
    refine ⟨hP.1.trans hpre, ?_⟩
    intro e
    have e1 : w1.added = w.added := added_eq_of_prefix hP.1 hpre e
    have g := hP.2 e1
    obtain ⟨j, _, h2, h3, h4⟩ := genFuncArr_ok hw1 hr
    have hr1 := h4 (e.trans e1.symm)
    have hk1 : k + 1 < z.length := by omega
    obtain ⟨A, B, hz, hA, ht, hd⟩ := split_at hk1
    have hmid : r.1 = z.getD k 0 :: ((r.1.drop 1).dropLast ++ [z.getD (k+1) 0]) := by
      apply eq_cons_mid_concat
      · rw [hr1]; simp; omega
      · rw [hr1]; exact linspace_head _ _ _ (by omega)
      · rw [hr1]; exact linspace_last _ _ _ (by omega)
    generalize (r.1.drop 1).dropLast = M at hmid ⊢
    rw [ht, hd]
    generalize z.getD k 0 = u at *
    generalize z.getD (k+1) 0 = v at *
    have hs : ((A ++ [u] ++ M ++ v :: B).map proj).Pairwise (· < ·) := by
      rw [hz] at g
      simp only [List.map_append, List.map_cons, List.pairwise_append, List.pairwise_cons] at g
      have huv : proj u < proj v := g.2.1.1 _ (by simp)
      have hM := hlin u v n huv
      rw [← hr1, hmid] at hM
      rw [List.map_cons, List.pairwise_cons, List.map_append, List.pairwise_append] at hM
      obtain ⟨gA, ⟨guB, gvB, gB⟩, gAB⟩ := g
      obtain ⟨mu, mM, _, mMv⟩ := hM
      simp only [List.map_append, List.map_cons, List.map_nil, List.pairwise_append,
        List.pairwise_cons, List.mem_append, List.mem_cons, List.not_mem_nil, or_false]
      have hAu : ∀ x ∈ A.map proj, x < proj u := fun x hx => gAB x hx _ (by simp)
      have huM : ∀ x ∈ M.map proj, proj u < x := fun x hx =>
        mu x (List.mem_append_left _ hx)
      have hMv : ∀ x ∈ M.map proj, x < proj v := fun x hx => mMv x hx _ (by simp)
      have hvB : ∀ x ∈ B.map proj, proj v < x := gvB
      refine ⟨⟨⟨gA, ⟨by simp, List.Pairwise.nil⟩, ?_⟩, mM, ?_⟩, ⟨hvB, gB⟩, ?_⟩
      · rintro x hx y rfl; exact hAu x hx
      · rintro x (hx | rfl) y hy
        · exact (hAu x hx).trans (huM y hy)
        · exact huM y hy
      · rintro x ((hx | rfl) | hx) y (rfl | hy)
        · exact (hAu x hx).trans huv
        · exact ((hAu x hx).trans huv).trans (hvB y hy)
        · exact huv
        · exact huv.trans (hvB y hy)
        · exact hMv x hx
        · exact (hMv x hx).trans (hvB y hy)
    simpa using hs

end
end PyZeal
