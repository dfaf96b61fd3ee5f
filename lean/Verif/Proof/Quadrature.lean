import Verif.Model.Quadrature
import Verif.Spec.Quadrature
import Verif.Proof.Summation

/-! # Lemmas about the quadrature estimator -/

set_option linter.unusedSectionVars false

namespace PyZeal
open Spec
variable {K : Type} {σ : Type}

section
variable [Field K] [DecidableEq K]

theorem grid_eq_linspace (a b : Cx K) (n : ℕ) : grid a b n = linspace a b (n + 1) := by
  unfold grid linspace along
  simp

@[simp] theorem length_grid (a b : Cx K) (n : ℕ) : (grid a b n).length = n + 1 := by simp [grid]

theorem grid_getD (a b : Cx K) (n i : ℕ) (h : i < n + 1) :
    (grid a b n).getD i 0 = along a b ((i : K) / n) := by
  rw [List.getD_eq_getElem _ _ (by simpa using h)]
  simp [grid]

theorem genFuncArr_pure {fuel : ℕ → ℕ} {a b : Cx K} {ctx : RCtx K} {n : ℕ} {w : World σ K}
    (hn : 1 ≤ fuel n) (hf : ∀ z ∈ linspace a b n, ctx.f z ≠ 0) :
    genFuncArr fuel a b ctx n w = (.ok (linspace a b n, (linspace a b n).map ctx.f), w) := by
  unfold genFuncArr
  obtain ⟨k, hk⟩ : ∃ k, fuel n = k + 1 := ⟨fuel n - 1, by omega⟩
  rw [hk]
  simp only [genFuncLoop]
  rw [if_pos]
  · rfl
  · rw [List.isEmpty_iff, List.filter_eq_nil_iff]
    intro z hz
    simpa using hf z hz

end

section
variable [Field K] [LinearOrder K] [IsStrictOrderedRing K]

theorem interleave_range {α : Type} (n : ℕ) (f g : ℕ → α) :
    interleave ((List.range n).map f) ((List.range n).map g) =
      (List.range (2 * n)).map fun i => if i % 2 = 0 then f (i / 2) else g (i / 2) := by
  induction n generalizing f g with
  | zero => rfl
  | succ n ih =>
    rw [List.range_succ_eq_map, List.map_cons, List.map_cons, List.map_map, List.map_map]
    simp only [interleave]
    have e : 2 * (n + 1) = 2 * n + 1 + 1 := by ring
    rw [ih, e, List.range_succ_eq_map, List.map_cons, List.range_succ_eq_map, List.map_cons,
      List.map_cons, List.map_map, List.map_map]
    simp only [Function.comp_apply, Nat.zero_div, Nat.zero_mod, if_true, Nat.succ_eq_add_one]
    congr 2
    apply List.map_congr_left
    intro i _
    have h1 : (i + 1 + 1) % 2 = i % 2 := by omega
    have h2 : (i + 1 + 1) / 2 = i / 2 + 1 := by omega
    simp [h1, h2]

theorem map_interleave {α β : Type} (f : α → β) (xs ys : List α) :
    (interleave xs ys).map f = interleave (xs.map f) (ys.map f) := by
  induction xs generalizing ys with
  | nil => simp [interleave]
  | cons x xs ih =>
    rcases ys with _ | ⟨y, ys⟩
    · simp [interleave]
    · simp [interleave, ih]

theorem grid_dropLast (a b : Cx K) (n : ℕ) :
    (grid a b n).dropLast = (List.range n).map fun (i : ℕ) => along a b ((i : K) / n) := by
  unfold grid
  rw [List.range_succ, List.map_append]
  simp

theorem grid_last (a b : Cx K) (n : ℕ) (hn : 0 < n) : (grid a b n).getLast? = some b := by
  rw [grid_eq_linspace]
  exact linspace_last a b (n + 1) (by omega)

/-- the merged grid: old points and the midpoints -/
theorem merge_grid (a b : Cx K) (n : ℕ) (hn : 0 < n) :
    interleave (grid a b n).dropLast
      (linspace (along a b (1 / (2 * n))) (along a b (1 - 1 / (2 * n))) n) ++ [b] =
    grid a b (2 * n) := by
  have hn' : (n : K) ≠ 0 := by exact_mod_cast hn.ne'
  have h2 : (grid a b (2 * n)) = (grid a b (2 * n)).dropLast ++ [b] := by
    have := List.dropLast_append_getLast? b (by rw [grid_last a b (2*n) (by omega)]; rfl)
    exact this.symm
  rw [h2]
  congr 1
  rw [grid_dropLast, grid_dropLast, linspace, interleave_range]
  apply List.map_congr_left
  intro i hi
  rw [List.mem_range] at hi
  obtain ⟨k, rfl | rfl⟩ : ∃ k, i = 2 * k ∨ i = 2 * k + 1 := ⟨i / 2, by omega⟩
  · have h3 : (2 * k) % 2 = 0 := by omega
    have h4 : (2 * k) / 2 = k := by omega
    rw [if_pos h3, h4]
    congr 1
    push_cast
    field_simp
  · have h3 : ¬ (2 * k + 1) % 2 = 0 := by omega
    have h4 : (2 * k + 1) / 2 = k := by omega
    rw [if_neg h3, h4]
    by_cases h1 : n = 1
    · subst h1
      obtain rfl : k = 0 := by omega
      ext <;> simp [along]
    · have h5 : (n : K) - 1 ≠ 0 := by
        rw [sub_ne_zero]
        exact_mod_cast h1
      unfold along
      ext <;> simp <;> field_simp <;> ring

theorem mid_left (a b : Cx K) (n : ℕ) (hn : 0 < n) :
    Cx.divK ((grid a b n).getD 0 0 + (grid a b n).getD 1 0) 2 = along a b (1 / (2 * n)) := by
  have hn' : (n : K) ≠ 0 := by exact_mod_cast hn.ne'
  rw [grid_getD _ _ _ _ (by omega), grid_getD _ _ _ _ (by omega)]
  unfold along
  ext <;> simp <;> field_simp <;> ring

theorem mid_right (a b : Cx K) (n : ℕ) (hn : 0 < n) :
    Cx.divK ((grid a b n).getD ((grid a b n).length - 1) 0 +
      (grid a b n).getD ((grid a b n).length - 2) 0) 2 = along a b (1 - 1 / (2 * n)) := by
  have hn' : (n : K) ≠ 0 := by exact_mod_cast hn.ne'
  obtain ⟨m, rfl⟩ : ∃ m, n = m + 1 := ⟨n - 1, by omega⟩
  rw [length_grid]
  have e1 : m + 1 + 1 - 1 = m + 1 := by omega
  have e2 : m + 1 + 1 - 2 = m := by omega
  rw [e1, e2, grid_getD _ _ _ _ (by omega), grid_getD _ _ _ _ (by omega)]
  push_cast at hn' ⊢
  unfold along
  ext <;> simp <;> field_simp <;> ring

theorem mem_grid {a b z : Cx K} {n : ℕ} (h : z ∈ grid a b n) : ∃ t : K, 0 ≤ t ∧ t ≤ 1 ∧ z = along a b t := by
  unfold grid at h
  obtain ⟨i, hi, rfl⟩ := List.mem_map.1 h
  rw [List.mem_range] at hi
  have h1 : (i : K) ≤ (n : K) := by exact_mod_cast Nat.lt_succ_iff.1 hi
  have h0 : (0 : K) ≤ i := Nat.cast_nonneg i
  exact ⟨_, div_nonneg h0 (h0.trans h1), div_le_one_of_le₀ h1 (h0.trans h1), rfl⟩

theorem along_along (a b : Cx K) (s t u : K) :
    along (along a b s) (along a b t) u = along a b (s + u * (t - s)) := by
  unfold along
  ext <;> simp <;> ring

/-- the values of `g` on the grid with `2^s` intervals -/
theorem logDeriv_map (df f : Cx K → Cx K) (order : ℤ) (zs : List (Cx K)) :
    logDeriv df order zs (zs.map f) = zs.map fun z => df z * z ^ order / f z := by
  unfold logDeriv
  induction zs with
  | nil => rfl
  | cons z zs ih => simp [ih]

theorem rombPy_ok (romb : List K → K → K) (y : List K) (dx : K) (s : ℕ) (h : y.length = 2 ^ s + 1)
    (w : World σ K) : rombPy romb y dx w = (.ok (romb y dx), w) := by
  unfold rombPy
  rw [if_pos]
  · rfl
  · rw [h, Nat.add_sub_cancel, Nat.log2_eq_log_two, Nat.log_pow (by norm_num)]

theorem quadRomb_ok (cfg : QuadCfg K) (fs : List (Cx K)) (dx : K) (s : ℕ) (h : fs.length = 2 ^ s + 1)
    (w : World σ K) :
    quadRomb cfg fs dx w = (.ok (cfg.romb (fs.map Cx.re) dx, cfg.romb (fs.map Cx.im) dx), w) := by
  unfold quadRomb
  rw [Py.bind_run, rombPy_ok _ _ _ s (by simpa using h)]
  dsimp only
  rw [Py.bind_run, rombPy_ok _ _ _ s (by simpa using h)]
  rfl

theorem mergeArray_ok {α : Type} (old new : List α) (l : α) (h : old.dropLast.length = new.length)
    (hl : old.getLast? = some l) (w : World σ K) :
    mergeArray old new w = (.ok (interleave old.dropLast new ++ [l]), w) := by
  unfold mergeArray
  rw [if_pos h, hl]
  rfl

theorem length_interleave {α : Type} (xs ys : List α) (h : xs.length = ys.length) :
    (interleave xs ys).length = 2 * xs.length := by
  induction xs generalizing ys with
  | nil => simp [interleave]
  | cons x xs ih =>
    rcases ys with _ | ⟨y, ys⟩
    · simp at h
    · simp only [interleave, List.length_cons] at h ⊢
      rw [ih ys (by omega)]; ring

theorem mergeArray_run {α : Type} (old new : List α) (n : ℕ) (h1 : old.length = n + 1)
    (h2 : new.length = n) (w : World σ K) :
    ∃ m, mergeArray old new w = (.ok m, w) ∧ m.length = 2 * n + 1 := by
  have hne : old ≠ [] := by rintro rfl; simp at h1
  refine ⟨_, mergeArray_ok old new (old.getLast hne) (by simp [h1, h2])
    (List.getLast?_eq_getLast_of_ne_nil hne) w, ?_⟩
  rw [List.length_append, length_interleave _ _ (by simp [h1, h2])]
  simp [h1]

/-- `mergeArrays` run on arrays of fitting length -/
theorem mergeArrays_run (old new : List (Cx K) × List (Cx K)) (n : ℕ) (h1 : old.1.length = n + 1)
    (h2 : new.1.length = n) (h3 : old.2.length = n + 1) (h4 : new.2.length = n) (w : World σ K) :
    ∃ m, mergeArrays old new w = (.ok m, w) ∧ m.1.length = 2 * n + 1 ∧ m.2.length = 2 * n + 1 := by
  obtain ⟨m1, e1, l1⟩ := mergeArray_run old.1 new.1 n h1 h2 w
  obtain ⟨m2, e2, l2⟩ := mergeArray_run old.2 new.2 n h3 h4 w
  refine ⟨(m1, m2), ?_, l1, l2⟩
  unfold mergeArrays
  rw [Py.bind_run, e1]
  dsimp only
  rw [Py.bind_run, e2]
  rfl

/-! ## The run on a line without zeros -/

/-- the factor by which the reassigned end points shorten the line -/
def quadFactor (K : Type) [Field K] (s : ℕ) : K := if s ≤ 12 then 1 else 1 - 1 / 2 ^ (s - 1)

/-- state of the loop on a line without zeros after `s - 10` refinements -/
def QuadInv (g : Cx K → Cx K) (a b : Cx K) (s : ℕ) (v : QuadVars K) : Prop :=
  v.samplePts = s ∧ v.zArr = grid a b (2 ^ s) ∧ v.funcArr = (grid a b (2 ^ s)).map g ∧
  (s ≤ 12 → v.zStart = a ∧ v.zEnd = b) ∧ v.zEnd - v.zStart = Cx.smul (quadFactor K s) (b - a)

theorem quadSample_pure (cfg : QuadCfg K) (df : Cx K → Cx K) (order : ℤ) (a b : Cx K) (ctx : RCtx K)
    (n : ℕ) (hn : 1 ≤ cfg.evals n) (hf : ∀ z ∈ linspace a b n, ctx.f z ≠ 0) (w : World σ K) :
    quadSample cfg df order a b ctx n w =
      (.ok (linspace a b n, (linspace a b n).map fun z => df z * z ^ order / ctx.f z), w) := by
  unfold quadSample
  rw [Py.bind_run, genFuncArr_pure hn hf]
  dsimp only
  rw [logDeriv_map]
  rfl

theorem quadRefine_exact (cfg : QuadCfg K) (hev : ∀ n, 1 ≤ cfg.evals n) (df : Cx K → Cx K) (order : ℤ)
    (ctx : RCtx K) (a b : Cx K) (hf : ∀ t, 0 ≤ t → t ≤ 1 → ctx.f (along a b t) ≠ 0)
    (s : ℕ) (v : QuadVars K) (h : QuadInv (fun z => df z * z ^ order / ctx.f z) a b s v)
    (w : World σ K) :
    ∃ v', quadRefine cfg df order ctx v w = (.ok v', w) ∧ v'.result = v.result ∧
      QuadInv (fun z => df z * z ^ order / ctx.f z) a b (s + 1) v' := by
  obtain ⟨h1, h2, h3, h4, h5⟩ := h
  have hfg : ∀ n, ∀ z ∈ grid a b n, ctx.f z ≠ 0 := by
    intro n z hz
    obtain ⟨t, ht0, ht1, rfl⟩ := mem_grid hz
    exact hf t ht0 ht1
  have hpos : 0 < 2 ^ s := by positivity
  have hposK : (0 : K) < 2 ^ s := by positivity
  have hone : (1 : K) ≤ 2 ^ s := one_le_pow₀ (by norm_num)
  unfold quadRefine
  by_cases hs : expSamplePoints + 2 ≤ v.samplePts
  · rw [if_pos hs]
    have hs12 : 12 ≤ s := by rw [h1] at hs; exact hs
    have mg := merge_grid a b (2 ^ s) hpos
    have hnew : ∀ z ∈ linspace (along a b (1 / (2 * ((2 ^ s : ℕ) : K))))
        (along a b (1 - 1 / (2 * ((2 ^ s : ℕ) : K)))) (2 ^ s), ctx.f z ≠ 0 := by
      intro z hz
      apply hfg (2 * 2 ^ s)
      rw [← mg, List.mem_append]
      left
      have hl : ∀ (xs ys : List (Cx K)), xs.length = ys.length → ∀ z ∈ ys, z ∈ interleave xs ys := by
        intro xs
        induction xs with
        | nil => intro ys hl z hz; rcases ys with _ | _ <;> simp at hl hz
        | cons x xs ih =>
          intro ys hl z hz
          rcases ys with _ | ⟨y, ys⟩
          · simp at hz
          · simp only [interleave, List.mem_cons] at hz ⊢
            rcases hz with rfl | hz
            · simp
            · exact Or.inr (Or.inr (ih ys (by simpa using hl) z hz))
      exact hl _ _ (by simp) z hz
    have e1 := mid_left a b (2 ^ s) hpos
    have e2 := mid_right a b (2 ^ s) hpos
    rw [h1, h2, e1, e2]
    rw [Py.bind_run, quadSample_pure cfg df order _ _ ctx _ (hev _) hnew]
    dsimp only
    rw [Py.bind_run]
    have hm : mergeArrays (grid a b (2 ^ s), v.funcArr)
        (linspace (along a b (1 / (2 * ((2 ^ s : ℕ) : K)))) (along a b (1 - 1 / (2 * ((2 ^ s : ℕ) : K)))) (2 ^ s),
         (linspace (along a b (1 / (2 * ((2 ^ s : ℕ) : K)))) (along a b (1 - 1 / (2 * ((2 ^ s : ℕ) : K)))) (2 ^ s)).map
           fun z => df z * z ^ order / ctx.f z) w =
        (.ok (grid a b (2 ^ (s + 1)), (grid a b (2 ^ (s + 1))).map
          fun z => df z * z ^ order / ctx.f z), w) := by
      unfold mergeArrays
      rw [Py.bind_run, mergeArray_ok _ _ b (by simp) (grid_last a b _ hpos)]
      dsimp only
      rw [Py.bind_run, mergeArray_ok _ _ (df b * b ^ order / ctx.f b)
        (by rw [h3]; simp) (by rw [h3, List.getLast?_map, grid_last a b _ hpos]; rfl)]
      dsimp only
      rw [h3, ← List.map_dropLast, ← map_interleave, mg]
      have : interleave (grid a b (2 ^ s)).dropLast
          (linspace (along a b (1 / (2 * ((2 ^ s : ℕ) : K)))) (along a b (1 - 1 / (2 * ((2 ^ s : ℕ) : K)))) (2 ^ s)) ++ [b]
          = grid a b (2 ^ (s + 1)) := by rw [mg, pow_succ, mul_comm]
      rw [← this, List.map_append, mg]
      rfl
    rw [hm]
    refine ⟨_, rfl, rfl, by simp [h1], rfl, rfl, ?_, ?_⟩
    · intro hcon; omega
    · dsimp only
      have : ¬ s + 1 ≤ 12 := by omega
      unfold quadFactor along
      rw [if_neg this]
      simp only [Nat.add_sub_cancel]
      push_cast
      ext <;> simp <;> field_simp <;> ring
  · rw [if_neg hs]
    have hs12 : s < 12 := by rw [h1] at hs; unfold expSamplePoints at hs; omega
    obtain ⟨ha, hb⟩ := h4 hs12.le
    rw [h1, ha, hb, Py.bind_run, quadSample_pure cfg df order _ _ ctx _ (hev _)
      (by rw [← grid_eq_linspace]; exact hfg _)]
    dsimp only
    refine ⟨_, rfl, rfl, rfl, ?_, ?_, ?_, ?_⟩
    · rw [grid_eq_linspace]
    · rw [grid_eq_linspace]
    · intro _; exact ⟨rfl, rfl⟩
    · dsimp only
      have : s + 1 ≤ 12 := hs12
      unfold quadFactor
      rw [if_pos this]
      ext <;> simp

/-- what the loop returns on a line without zeros -/
theorem quadLoop_exact (cfg : QuadCfg K) (hev : ∀ n, 1 ≤ cfg.evals n) (df : Cx K → Cx K) (order : ℤ)
    (ctx : RCtx K) (a b : Cx K) (d : K) (hf : ∀ t, 0 ≤ t → t ≤ 1 → ctx.f (along a b t) ≠ 0)
    (Q : ℕ → Cx K) (hQ : Q = quadAt cfg.romb (fun z => df z * z ^ order / ctx.f z) a b d)
    (fuel : ℕ) (s : ℕ) (hs : 22 - s < fuel) (hs22 : s ≤ 22) (v : QuadVars K)
    (h : QuadInv (fun z => df z * z ^ order / ctx.f z) a b s v)
    (hr : v.result = ((Q s).re, (Q s).im)) (w : World σ K) :
    ∃ v', quadLoop cfg df order ctx d fuel v w = (.ok v', w) ∧
      ((∃ t, s ≤ t ∧ t ≤ 21 ∧ quadClose (Q t) (Q (t+1)) ∧ (∀ u, s ≤ u → u < t → ¬ quadClose (Q u) (Q (u+1))) ∧
          QuadInv (fun z => df z * z ^ order / ctx.f z) a b (t + 1) v' ∧
          v'.result = ((Q t).re, (Q t).im)) ∨
       ((∀ u, s ≤ u → u ≤ 21 → ¬ quadClose (Q u) (Q (u+1))) ∧
          QuadInv (fun z => df z * z ^ order / ctx.f z) a b 22 v' ∧
          v'.result = ((Q 22).re, (Q 22).im))) := by
  induction fuel generalizing s v with
  | zero => omega
  | succ fuel ih =>
    simp only [quadLoop]
    by_cases hle : v.samplePts ≤ maxSamplePoints
    · rw [if_pos hle]
      have hs21 : s ≤ 21 := by rw [h.1] at hle; exact hle
      obtain ⟨v1, e1, r1, i1⟩ := quadRefine_exact cfg hev df order ctx a b hf s v h w
      rw [Py.bind_run, e1]
      dsimp only
      have hlen : v1.funcArr.length = 2 ^ (s + 1) + 1 := by rw [i1.2.2.1]; simp
      rw [Py.bind_run, quadRomb_ok cfg _ _ (s + 1) hlen]
      dsimp only
      have hnew : (cfg.romb (v1.funcArr.map Cx.re) (d / 2 ^ v1.samplePts),
          cfg.romb (v1.funcArr.map Cx.im) (d / 2 ^ v1.samplePts)) = ((Q (s+1)).re, (Q (s+1)).im) := by
        rw [hQ, i1.1, i1.2.2.1]
        simp only [quadAt, List.map_map]
        rfl
      have hnew1 := congrArg Prod.fst hnew
      have hnew2 := congrArg Prod.snd hnew
      dsimp only at hnew1 hnew2
      rw [hnew1, hnew2, hr]
      by_cases hc : |(Q (s+1)).re - (Q s).re| < 1 / 1000 ∧ |(Q (s+1)).im - (Q s).im| < 1 / 1000
      · rw [if_pos hc]
        refine ⟨v1, rfl, Or.inl ⟨s, le_rfl, hs21, hc, ?_, i1, ?_⟩⟩
        · intro u h1 h2; omega
        · rw [r1, hr]
      · rw [if_neg hc]
        obtain ⟨v', e', hcase⟩ := ih (s + 1) (by omega) (by omega)
          { v1 with result := ((Q (s+1)).re, (Q (s+1)).im) } i1 rfl
        refine ⟨v', e', ?_⟩
        rcases hcase with ⟨t, t1, t2, t3, t4, t5, t6⟩ | ⟨t1, t2, t3⟩
        · refine Or.inl ⟨t, by omega, t2, t3, ?_, t5, t6⟩
          intro u h1 h2
          rcases Nat.eq_or_lt_of_le h1 with rfl | h1
          · exact hc
          · exact t4 u h1 h2
        · refine Or.inr ⟨?_, t2, t3⟩
          intro u h1 h2
          rcases Nat.eq_or_lt_of_le h1 with rfl | h1
          · exact hc
          · exact t1 u h1 h2
    · rw [if_neg hle]
      have : s = 22 := by rw [h.1] at hle; unfold maxSamplePoints at hle; omega
      subst this
      exact ⟨v, rfl, Or.inr ⟨fun u h1 h2 => by omega, h, hr⟩⟩

seal expSamplePoints in
/-- the value returned by the quadrature estimator on a line without zeros -/
theorem quadLine_exact (cfg : QuadCfg K) (hev : ∀ n, 1 ≤ cfg.evals n) (hsteps : 13 ≤ cfg.steps)
    (df : Cx K → Cx K) (order : ℤ)
    (ctx : RCtx K) (hdf : ctx.df = some df) (a b : Cx K)
    (hf : ∀ t, 0 ≤ t → t ≤ 1 → ctx.f (along a b t) ≠ 0)
    (Q : ℕ → Cx K)
    (hQ : Q = quadAt cfg.romb (fun z => df z * z ^ order / ctx.f z) a b (cfg.abs (b - a)))
    (w : World σ K) :
    ∃ (s' : ℕ) (q : Cx K), quadLine cfg order a b ctx w =
        (.ok (Cx.divK (Cx.smul (quadFactor K s') (b - a) * (⟨0, -1⟩ * q)) (cfg.abs (b - a))), w) ∧
      ((∃ t, 10 ≤ t ∧ t ≤ 21 ∧ quadClose (Q t) (Q (t+1)) ∧ (∀ u, 10 ≤ u → u < t → ¬ quadClose (Q u) (Q (u+1))) ∧
          s' = t + 1 ∧ q = Q t) ∨
       ((∀ u, 10 ≤ u → u ≤ 21 → ¬ quadClose (Q u) (Q (u+1))) ∧ s' = 22 ∧ q = Q 22)) := by
  have hfg : ∀ n, ∀ z ∈ grid a b n, ctx.f z ≠ 0 := by
    intro n z hz
    obtain ⟨t, ht0, ht1, rfl⟩ := mem_grid hz
    exact hf t ht0 ht1
  unfold quadLine
  rw [hdf]
  dsimp only
  rw [Py.bind_run, quadSample_pure cfg df order _ _ ctx _ (hev _)
      (by rw [← grid_eq_linspace]; exact hfg _)]
  dsimp only
  rw [← grid_eq_linspace, Py.bind_run, quadRomb_ok cfg _ _ 10 (by simp [expSamplePoints])]
  dsimp only
  have hr : ((cfg.romb (((grid a b (2 ^ expSamplePoints)).map fun z => df z * z ^ order / ctx.f z).map Cx.re)
      (cfg.abs (b - a) / 2 ^ expSamplePoints)),
      (cfg.romb (((grid a b (2 ^ expSamplePoints)).map fun z => df z * z ^ order / ctx.f z).map Cx.im)
      (cfg.abs (b - a) / 2 ^ expSamplePoints))) = ((Q expSamplePoints).re, (Q expSamplePoints).im) := by
    rw [hQ]
    simp only [quadAt, List.map_map, Function.comp_def]
  rw [hr, Py.bind_run]
  have hval : ∀ v : QuadVars K, ∀ q : Cx K, v.result = (q.re, q.im) →
      (⟨0, -1⟩ * Cx.ofK v.result.1 + Cx.ofK v.result.2 : Cx K) = ⟨0, -1⟩ * q := by
    intro v q hq
    rw [hq]
    ext <;> simp
  obtain ⟨v', e, hcase⟩ := quadLoop_exact cfg hev df order ctx a b (cfg.abs (b - a)) hf Q hQ cfg.steps expSamplePoints
    (by unfold expSamplePoints; omega) (by unfold expSamplePoints; omega)
    ⟨a, b, expSamplePoints, grid a b (2 ^ expSamplePoints),
      (grid a b (2 ^ expSamplePoints)).map fun z => df z * z ^ order / ctx.f z, ((Q expSamplePoints).re, (Q expSamplePoints).im)⟩
    ⟨rfl, rfl, rfl, fun _ => ⟨rfl, rfl⟩, by ext <;> simp [quadFactor, expSamplePoints]⟩ rfl w
  rw [e]
  dsimp only [Py.pure_run]
  have hE : expSamplePoints = 10 := by unfold expSamplePoints; rfl
  rw [hE] at hcase
  rcases hcase with ⟨t, t1, t2, t3, t4, t5, t6⟩ | ⟨t1, t2, t3⟩
  · refine ⟨t + 1, Q t, ?_, Or.inl ⟨t, t1, t2, t3, t4, rfl, rfl⟩⟩
    rw [hval v' _ t6, t5.2.2.2.2]
  · refine ⟨22, Q 22, ?_, Or.inr ⟨t1, rfl, rfl⟩⟩
    rw [hval v' _ t3, t2.2.2.2.2]

/-! ## Shapes, for arbitrary functions and interrupts -/

/-- the exceptions that sampling can cause: an interrupt, or the model's loop bound -/
def Err.benign (e : Err) : Prop := e = .keyboardInterrupt ∨ e = .outOfFuel

/-- the outcome is a benign exception or a result with the given property -/
def Fits {α : Type} (P : α → Prop) (r : Except Err α) : Prop :=
  match r with
  | .ok a => P a
  | .error e => e.benign

theorem Fits.bind {α β : Type} {P : α → Prop} {R : β → Prop} {m : Py (World σ K) α}
    {k : α → Py (World σ K) β} {w : World σ K} (hm : Fits P (m w).1)
    (hk : ∀ a w', P a → Fits R (k a w').1) : Fits R ((m >>= k) w).1 := by
  rw [Py.bind_run]
  rcases h : m w with ⟨e | a, w'⟩ <;> rw [h] at hm
  · exact hm
  · exact hk a w' hm

theorem tick_fits (w : World σ K) : Fits (fun _ => True) (World.tick w).1 := by
  unfold World.tick
  rcases w.fuse with _ | _ | n
  · trivial
  · exact Or.inl rfl
  · trivial

theorem addRoots_fits (rs : List (Root K)) (w : World σ K) : Fits (fun _ => True) (World.addRoots rs w).1 := by
  induction rs generalizing w with
  | nil => trivial
  | cons r rs ih =>
    refine Fits.bind (P := fun _ => True) ?_ fun _ w' _ => ih w'
    exact Fits.bind (tick_fits w) fun _ _ _ => trivial

theorem genFuncArr_fits (fuel : ℕ → ℕ) (a b : Cx K) (ctx : RCtx K) (n : ℕ) (w : World σ K) :
    Fits (fun r => r.1.length = n ∧ r.2.length = n) (genFuncArr fuel a b ctx n w).1 := by
  unfold genFuncArr
  have : ∀ k base (w : World σ K), base.length = n →
      Fits (fun r => r.1.length = n ∧ r.2.length = n)
        (genFuncLoop ctx.f (lineShift a b ctx.precision) k base w).1 := by
    intro k
    induction k with
    | zero => intro base w _; exact Or.inr rfl
    | succ k ih =>
      intro base w hb
      simp only [genFuncLoop]
      by_cases he : (base.filter fun z => decide (ctx.f z = 0)).isEmpty = true
      · rw [if_pos he]; exact ⟨hb, by simpa using hb⟩
      · rw [if_neg he]
        exact Fits.bind (addRoots_fits _ w) fun _ w' _ => ih _ w' (by simpa using hb)
  exact this _ _ w (by simp)

theorem quadSample_fits (cfg : QuadCfg K) (df : Cx K → Cx K) (order : ℤ) (a b : Cx K) (ctx : RCtx K)
    (n : ℕ) (w : World σ K) :
    Fits (fun r => r.1.length = n ∧ r.2.length = n) (quadSample cfg df order a b ctx n w).1 := by
  refine Fits.bind (genFuncArr_fits cfg.evals a b ctx n w) fun r w' h => ?_
  exact ⟨h.1, by simp [logDeriv, h.1, h.2]⟩

/-- the arrays have one more element than `2^samplePts` -/
def QuadShape (v : QuadVars K) : Prop :=
  10 ≤ v.samplePts ∧ v.samplePts ≤ 22 ∧ v.zArr.length = 2 ^ v.samplePts + 1 ∧
    v.funcArr.length = 2 ^ v.samplePts + 1

theorem quadRefine_fits (cfg : QuadCfg K) (df : Cx K → Cx K) (order : ℤ) (ctx : RCtx K) (v : QuadVars K)
    (hv : QuadShape v) (h21 : v.samplePts ≤ 21) (w : World σ K) :
    Fits (fun v' => QuadShape v' ∧ v'.samplePts = v.samplePts + 1) (quadRefine cfg df order ctx v w).1 := by
  obtain ⟨h1, h2, h3, h4⟩ := hv
  unfold quadRefine
  by_cases hs : expSamplePoints + 2 ≤ v.samplePts
  · rw [if_pos hs]
    refine Fits.bind (quadSample_fits cfg df order _ _ ctx _ w) fun r w' hr => ?_
    obtain ⟨m, e, l1, l2⟩ := mergeArrays_run (v.zArr, v.funcArr) r (2 ^ v.samplePts) h3 hr.1 h4 hr.2 w'
    rw [Py.bind_run, e]
    exact ⟨⟨by dsimp only; omega, by dsimp only; omega, by dsimp only; rw [l1, pow_succ, mul_comm],
      by dsimp only; rw [l2, pow_succ, mul_comm]⟩, rfl⟩
  · rw [if_neg hs]
    refine Fits.bind (quadSample_fits cfg df order _ _ ctx _ w) fun r w' hr => ?_
    exact ⟨⟨by dsimp only; omega, by dsimp only; omega, hr.1, hr.2⟩, rfl⟩

theorem quadLoop_fits (cfg : QuadCfg K) (df : Cx K → Cx K) (order : ℤ) (ctx : RCtx K) (d : K) (fuel : ℕ)
    (v : QuadVars K) (hv : QuadShape v) (w : World σ K) :
    Fits QuadShape (quadLoop cfg df order ctx d fuel v w).1 := by
  induction fuel generalizing v w with
  | zero => exact Or.inr rfl
  | succ fuel ih =>
    simp only [quadLoop]
    by_cases hle : v.samplePts ≤ maxSamplePoints
    · rw [if_pos hle]
      refine Fits.bind (quadRefine_fits cfg df order ctx v hv hle w) fun v' w' hv' => ?_
      rw [Py.bind_run, quadRomb_ok cfg _ _ v'.samplePts hv'.1.2.2.2]
      dsimp only
      split
      · exact hv'.1
      · apply ih
        exact hv'.1
    · rw [if_neg hle]; exact hv

/-- with a derivative the quadrature estimator fails only by interrupt (or the model's loop bounds): array
shapes fit, `romb` gets admissible sample numbers -/
theorem quadLine_safe (cfg : QuadCfg K) (order : ℤ) (a b : Cx K) (ctx : RCtx K) (hdf : ctx.df ≠ none)
    (w : World σ K) : Fits (fun _ => True) (quadLine cfg order a b ctx w).1 := by
  obtain ⟨df, hdf⟩ := Option.ne_none_iff_exists'.1 hdf
  unfold quadLine
  rw [hdf]
  dsimp only
  refine Fits.bind (quadSample_fits cfg df order _ _ ctx _ w) fun r w' hr => ?_
  rw [Py.bind_run, quadRomb_ok cfg _ _ 10 hr.2]
  dsimp only
  refine Fits.bind (quadLoop_fits cfg df order ctx _ _ _ ⟨?_, ?_, hr.1, hr.2⟩ w') fun v w'' hv => trivial
  · simp [expSamplePoints]
  · simp [expSamplePoints]

/-! ## The estimator samples at most `2^22 + 1` points -/

/-- the two parameter sets agree on what the estimator is allowed to use: at most `2^21` points per sampling and
sample arrays with `2^10 + 1` to `2^22 + 1` entries -/
def QuadAgree (cfg cfg' : QuadCfg K) : Prop :=
  cfg.abs = cfg'.abs ∧ (∀ n ≤ 2 ^ 21, cfg.evals n = cfg'.evals n) ∧
  (∀ s, 10 ≤ s → s ≤ 22 → ∀ y dx, y.length = 2 ^ s + 1 → cfg.romb y dx = cfg'.romb y dx)

theorem bind_congr_fits {α β : Type} {P : α → Prop} {m : Py (World σ K) α}
    {k k' : α → Py (World σ K) β} {w : World σ K} (hm : Fits P (m w).1)
    (hk : ∀ a w', P a → k a w' = k' a w') : (m >>= k) w = (m >>= k') w := by
  rw [Py.bind_run, Py.bind_run]
  rcases h : m w with ⟨e | a, w'⟩
  · rfl
  · rw [h] at hm
    exact hk a w' hm

theorem quadSample_agree {cfg cfg' : QuadCfg K} (h : QuadAgree cfg cfg') (df : Cx K → Cx K) (order : ℤ)
    (a b : Cx K) (ctx : RCtx K) (n : ℕ) (hn : n ≤ 2 ^ 21) :
    (quadSample cfg df order a b ctx n : Py (World σ K) _) = quadSample cfg' df order a b ctx n := by
  unfold quadSample genFuncArr
  rw [h.2.1 n hn]

theorem quadRefine_agree {cfg cfg' : QuadCfg K} (h : QuadAgree cfg cfg') (df : Cx K → Cx K) (order : ℤ)
    (ctx : RCtx K) (v : QuadVars K) (h21 : v.samplePts ≤ 21) :
    (quadRefine cfg df order ctx v : Py (World σ K) _) = quadRefine cfg' df order ctx v := by
  unfold quadRefine
  by_cases hs : expSamplePoints + 2 ≤ v.samplePts
  · rw [if_pos hs, if_pos hs]
    dsimp only
    rw [quadSample_agree h]
    exact Nat.pow_le_pow_right (by norm_num) h21
  · rw [if_neg hs, if_neg hs, quadSample_agree h]
    have : v.samplePts + 1 ≤ 12 := by unfold expSamplePoints at hs; omega
    have := Nat.pow_le_pow_right (n := 2) (by norm_num) this
    omega

theorem quadLoop_agree {cfg cfg' : QuadCfg K} (h : QuadAgree cfg cfg') (df : Cx K → Cx K) (order : ℤ)
    (ctx : RCtx K) (d : K) (fuel fuel' : ℕ) (v : QuadVars K) (hv : QuadShape v)
    (hf : 22 - v.samplePts < fuel) (hf' : 22 - v.samplePts < fuel') (w : World σ K) :
    quadLoop cfg df order ctx d fuel v w = quadLoop cfg' df order ctx d fuel' v w := by
  induction fuel generalizing v w fuel' with
  | zero => omega
  | succ fuel ih =>
    obtain ⟨fuel', rfl⟩ : ∃ k, fuel' = k + 1 := ⟨fuel' - 1, by omega⟩
    simp only [quadLoop]
    by_cases hle : v.samplePts ≤ maxSamplePoints
    · rw [if_pos hle, if_pos hle, ← quadRefine_agree h df order ctx v hle]
      refine bind_congr_fits (quadRefine_fits cfg df order ctx v hv hle w) fun v' w' hv' => ?_
      obtain ⟨⟨k1, k2, k3, k4⟩, k5⟩ := hv'
      rw [Py.bind_run, Py.bind_run, quadRomb_ok cfg _ _ v'.samplePts k4,
        quadRomb_ok cfg' _ _ v'.samplePts k4]
      dsimp only
      rw [h.2.2 v'.samplePts k1 k2 _ _ (by simpa using k4),
        h.2.2 v'.samplePts k1 k2 _ _ (by simpa using k4)]
      split
      · rfl
      · have : v.samplePts ≤ 21 := hle
        apply ih
        · exact ⟨k1, k2, k3, k4⟩
        · dsimp only; omega
        · dsimp only; omega
    · rw [if_neg hle, if_neg hle]

theorem quadLine_agree {cfg cfg' : QuadCfg K} (h : QuadAgree cfg cfg') (hs : 13 ≤ cfg.steps)
    (hs' : 13 ≤ cfg'.steps) (order : ℤ) (a b : Cx K) (ctx : RCtx K) (w : World σ K) :
    quadLine cfg order a b ctx w = quadLine cfg' order a b ctx w := by
  unfold quadLine
  rcases hdf : ctx.df with _ | df
  · rfl
  · dsimp only
    rw [← quadSample_agree h _ _ _ _ _ _ (by simp [expSamplePoints])]
    refine bind_congr_fits (quadSample_fits cfg df order _ _ ctx _ w) fun r w' hr => ?_
    rw [Py.bind_run, Py.bind_run, quadRomb_ok cfg _ _ 10 hr.2, quadRomb_ok cfg' _ _ 10 hr.2]
    dsimp only
    rw [h.2.2 10 le_rfl (by norm_num) _ _ (by simpa [expSamplePoints] using hr.2),
      h.2.2 10 le_rfl (by norm_num) _ _ (by simpa [expSamplePoints] using hr.2), h.1, Py.bind_run, Py.bind_run]
    rw [quadLoop_agree h df order ctx _ cfg.steps cfg'.steps _ ⟨?_, ?_, hr.1, hr.2⟩]
    · simp [expSamplePoints]; omega
    · simp [expSamplePoints]; omega
    · simp [expSamplePoints]
    · simp [expSamplePoints]

/-! ## Termination -/

theorem genFuncArr_total {fuel : ℕ → ℕ} {ctx : RCtx K} {Z : List (Cx K)} (hZ : ∀ z, ctx.f z = 0 → z ∈ Z)
    (hevals : ∀ n, Z.length * n + 1 ≤ fuel n) (a b : Cx K) (n : ℕ) (w : World σ K) (hw : w.fuse = none) :
    ∃ r w', genFuncArr fuel a b ctx n w = (.ok r, w') ∧ w'.fuse = none := by
  obtain ⟨j, hj, hfree⟩ := exists_free_shift ctx.f (lineShift a b ctx.precision)
    (lineShift_ne_zero a b ctx.precision) (linspace a b n) Z hZ
  rw [length_linspace] at hj
  rcases genFuncLoop_spec ctx.f (lineShift a b ctx.precision) (fuel n) (linspace a b n) w hw
    with ⟨i, _, _, _, h⟩ | ⟨h, _⟩
  · exact ⟨_, _, h, hw⟩
  · exact absurd hfree (h j (by have := hevals n; omega))

theorem quadSample_total {cfg : QuadCfg K} {ctx : RCtx K} {Z : List (Cx K)} (hZ : ∀ z, ctx.f z = 0 → z ∈ Z)
    (hevals : ∀ n, Z.length * n + 1 ≤ cfg.evals n) (df : Cx K → Cx K) (order : ℤ) (a b : Cx K) (n : ℕ)
    (w : World σ K) (hw : w.fuse = none) :
    ∃ r w', quadSample cfg df order a b ctx n w = (.ok r, w') ∧ w'.fuse = none ∧
      r.1.length = n ∧ r.2.length = n := by
  obtain ⟨r, w', e, h⟩ := genFuncArr_total hZ hevals a b n w hw
  have hl := quadSample_fits cfg df order a b ctx n w
  have he : quadSample cfg df order a b ctx n w = (.ok (r.1, logDeriv df order r.1 r.2), w') := by
    unfold quadSample
    rw [Py.bind_run, e]
    rfl
  rw [he] at hl
  exact ⟨_, w', he, h, hl⟩

theorem quadLoop_total {cfg : QuadCfg K} {ctx : RCtx K} {Z : List (Cx K)} (hZ : ∀ z, ctx.f z = 0 → z ∈ Z)
    (hevals : ∀ n, Z.length * n + 1 ≤ cfg.evals n) (df : Cx K → Cx K) (order : ℤ) (d : K) (fuel : ℕ)
    (v : QuadVars K) (hv : QuadShape v) (hf : 22 - v.samplePts < fuel) (w : World σ K) (hw : w.fuse = none) :
    ∃ v' w', quadLoop cfg df order ctx d fuel v w = (.ok v', w') ∧ w'.fuse = none := by
  induction fuel generalizing v w with
  | zero => omega
  | succ fuel ih =>
    simp only [quadLoop]
    by_cases hle : v.samplePts ≤ maxSamplePoints
    · rw [if_pos hle]
      have hfit := quadRefine_fits cfg df order ctx v hv hle w
      have href : ∃ v' w', quadRefine cfg df order ctx v w = (.ok v', w') ∧ w'.fuse = none := by
        unfold quadRefine
        by_cases hs : expSamplePoints + 2 ≤ v.samplePts
        · rw [if_pos hs]
          obtain ⟨r, w', e, h1, h2, h3⟩ := quadSample_total hZ hevals df order
            (Cx.divK (v.zArr.getD 0 0 + v.zArr.getD 1 0) 2)
            (Cx.divK (v.zArr.getD (v.zArr.length - 1) 0 + v.zArr.getD (v.zArr.length - 2) 0) 2)
            (2 ^ v.samplePts) w hw
          obtain ⟨m, e', _⟩ := mergeArrays_run (v.zArr, v.funcArr) r _ hv.2.2.1 h2 hv.2.2.2 h3 w'
          rw [Py.bind_run, e]
          dsimp only
          rw [Py.bind_run, e']
          exact ⟨_, _, rfl, h1⟩
        · rw [if_neg hs]
          obtain ⟨r, w', e, h1, h2, h3⟩ := quadSample_total hZ hevals df order v.zStart v.zEnd
            (2 ^ (v.samplePts + 1) + 1) w hw
          rw [Py.bind_run, e]
          exact ⟨_, _, rfl, h1⟩
      obtain ⟨v', w', e, hw'⟩ := href
      rw [e] at hfit
      obtain ⟨hs', hs''⟩ := hfit
      rw [Py.bind_run, e]
      dsimp only
      rw [Py.bind_run, quadRomb_ok cfg _ _ v'.samplePts hs'.2.2.2]
      dsimp only
      split
      · exact ⟨_, _, rfl, hw'⟩
      · have : v.samplePts ≤ 21 := hle
        apply ih
        · exact hs'
        · dsimp only; omega
        · exact hw'
    · rw [if_neg hle]; exact ⟨_, _, rfl, hw⟩

/-- with finitely many zeros and enough fuel in the samplings the estimator returns -/
theorem quadLine_total {cfg : QuadCfg K} {ctx : RCtx K} {Z : List (Cx K)} (hZ : ∀ z, ctx.f z = 0 → z ∈ Z)
    (hevals : ∀ n, Z.length * n + 1 ≤ cfg.evals n) (hs : 13 ≤ cfg.steps) (hdf : ctx.df ≠ none) (order : ℤ)
    (a b : Cx K) (w : World σ K) (hw : w.fuse = none) :
    ∃ phi, (quadLine cfg order a b ctx w).1 = .ok phi := by
  obtain ⟨df, hdf⟩ := Option.ne_none_iff_exists'.1 hdf
  unfold quadLine
  rw [hdf]
  dsimp only
  obtain ⟨r, w', e, h1, h2, h3⟩ := quadSample_total hZ hevals df order a b (2 ^ expSamplePoints + 1) w hw
  rw [Py.bind_run, e]
  dsimp only
  rw [Py.bind_run, quadRomb_ok cfg _ _ 10 h3]
  dsimp only
  rw [Py.bind_run]
  generalize (cfg.romb (r.2.map Cx.re) (cfg.abs (b - a) / 2 ^ expSamplePoints),
    cfg.romb (r.2.map Cx.im) (cfg.abs (b - a) / 2 ^ expSamplePoints)) = res
  obtain ⟨v', w'', e', _⟩ := quadLoop_total hZ hevals df order (cfg.abs (b - a)) cfg.steps
    ⟨a, b, expSamplePoints, r.1, r.2, res⟩
    ⟨by simp [expSamplePoints], by simp [expSamplePoints], h2, h3⟩ (by simp [expSamplePoints]; omega) w' h1
  rw [e']
  exact ⟨_, rfl⟩

end
end PyZeal
