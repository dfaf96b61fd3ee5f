import Verif.Proof.FloatContainer
import Verif.Props.Float
import Verif.Props.Finder

/-! # C109, C110: rounding containers and the serial finder in floating-point arithmetic -/

set_option linter.unusedSectionVars false

namespace PyZeal.Props
open Spec
variable {K : Type} {σ : Type} [Field K] [LinearOrder K] [IsStrictOrderedRing K] [FloorRing K]

theorem double_nearest : Nearest (double K).fl := flBin_nearest (by norm_num)

/-! ## C109 -/

/-- C109, Python numbers. A rounding container in any arithmetic which rounds to a nearest machine number, after any history
of calls adding roots given by Python numbers: adding a reported root again changes nothing; removing it succeeds and
removes exactly it. No restriction on precision or magnitude. -/
theorem C109_python (fl : K → K) (hn : Nearest fl) (precision : Option (ℤ × ℤ)) (settings : ℤ × ℤ) (ops : List (ROpF K))
    (hops : ∀ op ∈ ops, PythonCall fl op) :
    let c := (RContainer.init precision settings).runF fl ops
    ∀ r ∈ c.rootSet, (∀ ctx info, ctx.precision = c.precision → c.addRootF fl info .python r ctx = c) ∧
      RemovesExactly r c (c.removeRootF fl .python r) := by
  intro c r hr
  have hfix : roundRootF fl .python r c.precision = r := by
    rcases runF_mem ops _ r hr with ⟨h, _⟩ | ⟨k, x, ctx, info, h1, h2, h3⟩
    · cases h
    · obtain ⟨rfl, m1, m2⟩ := hops _ h1
      have h2' : c.precision = ctx.precision := h2
      rw [h2', h3]
      show (_, _) = _
      unfold roundRootF roundF
      dsimp only
      rw [pyRoundF_idem hn m1, pyRoundF_idem hn m2]
  exact ⟨fun ctx info hp => addRootF_again hr hfix info hp,
    removeRootF_stored (runF_nodup ops _ List.nodup_nil) hr hfix⟩

/-- C109, Python numbers: every reported root comes from a root added at the precision the container has, with the same
order, and differs from it by at most `10^-p` in each coordinate. -/
theorem C109_python_close (fl : K → K) (hn : Nearest fl) (precision : Option (ℤ × ℤ)) (settings : ℤ × ℤ)
    (ops : List (ROpF K)) (hops : ∀ op ∈ ops, PythonCall fl op) :
    let c := (RContainer.init precision settings).runF fl ops
    ∀ r ∈ c.rootSet, ∃ x ctx info, ROpF.add .python x ctx info ∈ ops ∧ ctx.precision = c.precision ∧ r.2 = x.2 ∧
      |r.1.re - x.1.re| ≤ (10 : K) ^ (-c.precision.1) ∧ |r.1.im - x.1.im| ≤ (10 : K) ^ (-c.precision.2) := by
  intro c r hr
  rcases runF_mem ops _ r hr with ⟨h, _⟩ | ⟨k, x, ctx, info, h1, h2, h3⟩
  · cases h
  · obtain ⟨rfl, m1, m2⟩ := hops _ h1
    have h2' : c.precision = ctx.precision := h2
    refine ⟨x, ctx, info, h1, h2'.symm, by rw [h3]; rfl, ?_, ?_⟩
    · rw [h2', h3]; exact pyRoundF_near hn m1 _
    · rw [h2', h3]; exact pyRoundF_near hn m2 _

/-- what a container holds after a history of calls in range -/
theorem runF_range {precision : Option (ℤ × ℤ)} {settings : ℤ × ℤ} {ops : List (ROpF K)}
    (hops : ∀ op ∈ ops, InRangeCall op) {r : Root K}
    (hr : r ∈ ((RContainer.init precision settings).runF (double K).fl ops).rootSet) :
    let p := ((RContainer.init precision settings : RContainer K).runF (double K).fl ops).precision
    ((0 ≤ p.1 ∧ p.1 ≤ 22) ∧ DecF p.1 r.1.re) ∧ ((0 ≤ p.2 ∧ p.2 ≤ 22) ∧ DecF p.2 r.1.im) ∧
    ∃ k x ctx info, ROpF.add k x ctx info ∈ ops ∧ ctx.precision = p ∧ r.2 = x.2 ∧
      |r.1.re - x.1.re| ≤ 3 / 4 * (10 : K) ^ (-p.1) ∧ |r.1.im - x.1.im| ≤ 3 / 4 * (10 : K) ^ (-p.2) := by
  intro p
  rcases runF_mem ops _ r hr with ⟨h, _⟩ | ⟨k, x, ctx, info, h1, h2, h3⟩
  · cases h
  · obtain ⟨i1, i2⟩ := hops _ h1
    have hp : p = ctx.precision := h2
    obtain ⟨a1, a2⟩ := roundF_dec k i1
    obtain ⟨b1, b2⟩ := roundF_dec k i2
    rw [hp, h3]
    exact ⟨⟨⟨i1.1, i1.2.1⟩, a1⟩, ⟨⟨i2.1, i2.2.1⟩, b1⟩, k, x, ctx, info, h1, rfl, rfl, a2, b2⟩

/-- C109, Python and numpy numbers. In doubles, after any history of calls adding roots with at most 22 decimals and 15
significant digits: adding a reported root again, as a Python or a numpy number, changes nothing; removing it, as a Python
or a numpy number (such as `getRoots` returns), succeeds and removes exactly it. -/
theorem C109_double (precision : Option (ℤ × ℤ)) (settings : ℤ × ℤ) (ops : List (ROpF K))
    (hops : ∀ op ∈ ops, InRangeCall op) :
    let c := (RContainer.init precision settings).runF (double K).fl ops
    ∀ r ∈ c.rootSet, ∀ k, (∀ ctx info, ctx.precision = c.precision → c.addRootF (double K).fl info k r ctx = c) ∧
      RemovesExactly r c (c.removeRootF (double K).fl k r) := by
  intro c r hr k
  have hfix : roundRootF (double K).fl k r c.precision = r := by
    obtain ⟨⟨⟨a1, a2⟩, a3⟩, ⟨⟨b1, b2⟩, b3⟩, _⟩ := runF_range hops hr
    have h1 := roundF_fix k a1 a2 a3
    have h2 := roundF_fix k b1 b2 b3
    show (_, _) = r
    apply Prod.ext
    · exact Cx.ext h1 h2
    · rfl
  exact ⟨fun ctx info hp => addRootF_again hr hfix info hp,
    removeRootF_stored (runF_nodup ops _ List.nodup_nil) hr hfix⟩

/-- C109, Python and numpy numbers in range: every reported root comes from an added one with the same order, at most
`3/4 * 10^-p` away in each coordinate, and different reported real (imaginary) parts are at least `3/4 * 10^-p` apart. -/
theorem C109_double_close (precision : Option (ℤ × ℤ)) (settings : ℤ × ℤ) (ops : List (ROpF K))
    (hops : ∀ op ∈ ops, InRangeCall op) :
    let c := (RContainer.init precision settings).runF (double K).fl ops
    ∀ r ∈ c.rootSet,
      (∃ k x ctx info, ROpF.add k x ctx info ∈ ops ∧ ctx.precision = c.precision ∧ r.2 = x.2 ∧
        |r.1.re - x.1.re| ≤ 3 / 4 * (10 : K) ^ (-c.precision.1) ∧ |r.1.im - x.1.im| ≤ 3 / 4 * (10 : K) ^ (-c.precision.2)) ∧
      ∀ s ∈ c.rootSet, (r.1.re ≠ s.1.re → 3 / 4 * (10 : K) ^ (-c.precision.1) ≤ |r.1.re - s.1.re|) ∧
        (r.1.im ≠ s.1.im → 3 / 4 * (10 : K) ^ (-c.precision.2) ≤ |r.1.im - s.1.im|) := by
  intro c r hr
  obtain ⟨⟨_, a3⟩, ⟨_, b3⟩, h⟩ := runF_range hops hr
  refine ⟨h, fun s hs => ?_⟩
  obtain ⟨⟨_, c3⟩, ⟨_, d3⟩, _⟩ := runF_range hops hs
  exact ⟨dec_apart a3 c3, dec_apart b3 d3⟩

/-- a root which passes the filters is stored -/
theorem addRootF_stored (fl : K → K) (info : Bool) (c : RContainer K) (k : NumKind) (x : Root K) (ctx : FilterCtx K)
    (hacc : ∀ e ∈ c.filters, e.2 x ctx = true) :
    (c.addRootF fl info k x ctx).precision = ctx.precision ∧
    roundRootF fl k x ctx.precision ∈ (c.addRootF fl info k x ctx).rootSet := by
  unfold RContainer.addRootF
  have ha : c.accepts x ctx = true := List.all_eq_true.2 hacc
  rw [if_pos ha]
  by_cases hp : ctx.precision ≠ c.precision
  · rw [if_pos hp]
    dsimp only
    split
    · rename_i h; simp [RContainer.clear] at h
    · exact ⟨rfl, by simp [setAdd, RContainer.clear]⟩
  · rw [if_neg hp]
    have hp' : ctx.precision = c.precision := not_not.1 hp
    dsimp only
    rw [hp']
    split
    · rename_i h; exact ⟨rfl, h.2⟩
    · refine ⟨rfl, ?_⟩
      unfold setAdd
      split
      · assumption
      · simp

/-- C109: adding a root which passes the filters makes the container hold, at the precision of the call, a root of the same
order at most `3/4 * 10^-p` away -/
theorem C109_added (info : Bool) (c : RContainer K) (k : NumKind) (x : Root K) (ctx : FilterCtx K)
    (hx : InRangeCx ctx.precision x.1) (hacc : ∀ e ∈ c.filters, e.2 x ctx = true) :
    let c' := c.addRootF (double K).fl info k x ctx
    c'.precision = ctx.precision ∧ ∃ r ∈ c'.rootSet, r.2 = x.2 ∧
      |r.1.re - x.1.re| ≤ 3 / 4 * (10 : K) ^ (-ctx.precision.1) ∧ |r.1.im - x.1.im| ≤ 3 / 4 * (10 : K) ^ (-ctx.precision.2) := by
  intro c'
  have hin := addRootF_stored (double K).fl info c k x ctx hacc
  exact ⟨hin.1, _, hin.2, rfl, (roundF_dec k hx.1).2, (roundF_dec k hx.2).2⟩

/-- C109, any arithmetic: a root which passes the filters can be removed again by passing the same number (not rounded by
the caller); this removes exactly its rounding -/
theorem C109_undo (fl : K → K) (info : Bool) (precision : Option (ℤ × ℤ)) (settings : ℤ × ℤ) (ops : List (ROpF K)) (k : NumKind)
    (x : Root K) (ctx : FilterCtx K) :
    let c := (RContainer.init precision settings).runF fl ops
    (∀ e ∈ c.filters, e.2 x ctx = true) →
    RemovesExactly (⟨roundF fl k x.1.re ctx.precision.1, roundF fl k x.1.im ctx.precision.2⟩, x.2)
      (c.addRootF fl info k x ctx) ((c.addRootF fl info k x ctx).removeRootF fl k x) := by
  intro c hacc
  obtain ⟨h1, h2⟩ := addRootF_stored fl info c k x ctx hacc
  have hnd : (c.addRootF fl info k x ctx).rootSet.Nodup :=
    stepF_nodup (.add k x ctx info) (runF_nodup ops _ List.nodup_nil)
  generalize c.addRootF fl info k x ctx = c' at *
  show RemovesExactly (roundRootF fl k x ctx.precision) _ _
  unfold RContainer.removeRootF
  dsimp only
  rw [h1, if_pos h2]
  refine ⟨rfl, h1.symm, rfl, fun s => ?_⟩
  rw [hnd.mem_erase_iff]
  exact and_comm

/-- C109, any arithmetic: a root which a filter refuses changes nothing -/
theorem C109_refused (fl : K → K) (info : Bool) (c : RContainer K) (k : NumKind) (x : Root K) (ctx : FilterCtx K)
    (h : ∃ e ∈ c.filters, e.2 x ctx = false) : c.addRootF fl info k x ctx = c := by
  obtain ⟨e, he, hf⟩ := h
  unfold RContainer.addRootF
  have : c.accepts x ctx = false := by
    unfold RContainer.accepts
    rw [List.all_eq_false]
    exact ⟨e, he, by rw [hf]; simp⟩
  rw [this]
  rfl

/-- C109: with exact arithmetic and Python numbers the model is that of the other theorems about rounding containers -/
theorem C109_exact (info : Bool) (c : RContainer K) (x : Root K) (ctx : FilterCtx K) :
    c.addRootF id info .python x ctx = c.addRoot info x ctx ∧ c.removeRootF id .python x = c.removeRoot x :=
  ⟨rfl, rfl⟩

/-! ### examples -/

/-- a context with 15 decimals -/
def fineCtx : FilterCtx ℚ := { f := fun z => z, reRan := (0, 10), imRan := (0, 10), precision := (15, 15) }

/-- a context with 3 decimals -/
def coarseCtx : FilterCtx ℚ := { f := fun z => z, reRan := (0, 10), imRan := (0, 10), precision := (3, 3) }

/-- non-vacuity: a history in range with a Python and a numpy number; both ways of rounding give the double closest to
0.333 -/
example : (∀ op ∈ ([.add .python (⟨flBin 53 (1 / 3), 0⟩, 1) coarseCtx false,
      .add .numpy (⟨flBin 53 (3331 / 10000), 0⟩, 1) coarseCtx true] : List (ROpF ℚ)), InRangeCall op) ∧
    ((RContainer.init none (3, 3)).runF (double ℚ).fl [.add .python (⟨flBin 53 (1 / 3), 0⟩, 1) coarseCtx false,
      .add .numpy (⟨flBin 53 (3331 / 10000), 0⟩, 1) coarseCtx true]).rootSet =
    [(⟨5998794703657501 / 18014398509481984, 0⟩, 1)] := by
  constructor
  · intro op hop
    simp only [List.mem_cons, List.not_mem_nil, or_false] at hop
    rcases hop with rfl | rfl
    · show InRangeCx _ _
      unfold InRangeCx InRange; decide +kernel
    · show InRangeCx _ _
      unfold InRangeCx InRange; decide +kernel
  · decide +kernel

/-- C109: beyond 15 significant digits the restriction to Python numbers is needed. With 15 decimals, the root 4.000064660498811
reported by the container cannot be removed by passing it back as a numpy number (as `getRoots` returns it), nor is it
recognised when it is added again. -/
theorem C109_numpy_fails : ∃ (x : ℚ) (c : RContainer ℚ),
    c = (RContainer.init none (15, 15)).addRootF (double ℚ).fl false .python (⟨x, 0⟩, 1) fineCtx ∧
    Machine (double ℚ).fl x ∧ c.rootSet = [(⟨x, 0⟩, 1)] ∧ (c.removeRootF (double ℚ).fl .numpy (⟨x, 0⟩, 1)).1 = false ∧
    (c.addRootF (double ℚ).fl false .numpy (⟨x, 0⟩, 1) fineCtx).rootSet.length = 2 := by
  refine ⟨flBin 53 (4000064660498811 / 10 ^ 15), _, rfl, ?_, ?_, ?_, ?_⟩
  · show flBin 53 _ = _; decide +kernel
  · decide +kernel
  · decide +kernel
  · decide +kernel

/-! ## C110 -/

/-- adding roots, one after the other, to a container without filters -/
theorem addRootsF_free (fl : K → K) (kind : Root K → NumKind) (info : Bool) (ctx : FilterCtx K) (A : List (Root K)) :
    ∀ c : AnyContainer K, RoundsFreely c →
      (∀ r ∈ held (c.addRootsF fl kind info ctx A), r ∈ held c ∨
        ∃ q ∈ A, r = roundRootF fl (kind q) q ctx.precision) ∧
      (∀ q ∈ A, roundRootF fl (kind q) q ctx.precision ∈ held (c.addRootsF fl kind info ctx A)) ∧
      (FilledWith ctx.precision c → ∀ r ∈ held c, r ∈ held (c.addRootsF fl kind info ctx A)) := by
  induction A with
  | nil => intro c _; exact ⟨fun r hr => Or.inl hr, fun q hq => absurd hq List.not_mem_nil, fun _ r hr => hr⟩
  | cons q A ih =>
    intro c hc
    cases c with
    | plain c => exact hc.elim
    | rounding c =>
      have hf : c.filters = [] := hc
      have ha : c.accepts q ctx = true := by unfold RContainer.accepts; rw [hf]; rfl
      have key : (c.addRootF fl info (kind q) q ctx).filters = [] ∧
          (c.addRootF fl info (kind q) q ctx).precision = ctx.precision ∧
          (∀ r, r ∈ (c.addRootF fl info (kind q) q ctx).rootSet → r ∈ c.rootSet ∨
            r = roundRootF fl (kind q) q ctx.precision) ∧
          roundRootF fl (kind q) q ctx.precision ∈ (c.addRootF fl info (kind q) q ctx).rootSet ∧
          (c.precision = ctx.precision → ∀ r ∈ c.rootSet, r ∈ (c.addRootF fl info (kind q) q ctx).rootSet) := by
        unfold RContainer.addRootF
        rw [if_pos ha]
        by_cases hp : ctx.precision ≠ c.precision
        · rw [if_pos hp]
          dsimp only
          rw [if_neg (fun h => List.not_mem_nil h.2)]
          refine ⟨hf, rfl, fun r hr => Or.inr ?_, ?_, fun h => absurd h.symm hp⟩
          · exact List.mem_singleton.1 (by simpa [setAdd, RContainer.clear] using hr)
          · simp [setAdd, RContainer.clear]
        · rw [if_neg hp]
          have hp' : ctx.precision = c.precision := not_not.1 hp
          rw [hp']
          dsimp only
          split
          · rename_i h
            exact ⟨hf, rfl, fun r hr => Or.inl hr, h.2, fun _ r hr => hr⟩
          · refine ⟨hf, rfl, fun r hr => ?_, ?_, fun _ r hr => ?_⟩
            · unfold setAdd at hr
              split at hr
              · exact Or.inl hr
              · rcases List.mem_append.1 hr with h | h
                · exact Or.inl h
                · exact Or.inr (List.mem_singleton.1 h)
            · unfold setAdd
              split
              · assumption
              · simp
            · unfold setAdd
              split
              · exact hr
              · exact List.mem_append_left _ hr
      obtain ⟨k1, k2, k3, k4, k5⟩ := key
      obtain ⟨i1, i2, i3⟩ := ih (.rounding (c.addRootF fl info (kind q) q ctx)) k1
      have e : (AnyContainer.rounding c).addRootsF fl kind info ctx (q :: A) =
          (AnyContainer.rounding (c.addRootF fl info (kind q) q ctx)).addRootsF fl kind info ctx A := rfl
      rw [e]
      refine ⟨fun r hr => ?_, fun s hs => ?_, fun hfill r hr => i3 k2 r (k5 hfill r hr)⟩
      · rcases i1 r hr with h | ⟨s, hs, rfl⟩
        · rcases k3 r h with h | h
          · exact Or.inl h
          · exact Or.inr ⟨q, List.mem_cons_self, h⟩
        · exact Or.inr ⟨s, List.mem_cons_of_mem _ hs, rfl⟩
      · rcases List.mem_cons.1 hs with rfl | hs
        · exact i3 k2 _ k4
        · exact i2 s hs

/-- rounding errors of numbers with at most 15 digits -/
theorem fl_range {P : ℤ} {s : K} (h : |s| * (10 : K) ^ P ≤ 2 ^ 50) :
    |(double K).fl s - s| ≤ 1 / 8 * (10 : K) ^ (-P) := by
  have hT := ten_pos (K := K) P
  have hc := zpow_cancel (K := K) P
  have hu := ten_pos (K := K) (-P)
  have h1 : |s| ≤ 2 ^ 50 * (10 : K) ^ (-P) := by
    calc |s| = |s| * (10 : K) ^ P * (10 : K) ^ (-P) := by rw [mul_assoc, hc, mul_one]
      _ ≤ _ := mul_le_mul_of_nonneg_right h hu.le
  calc _ ≤ (1 / 2) ^ 53 * |s| := fl_near s
    _ ≤ (1 / 2) ^ 53 * (2 ^ 50 * (10 : K) ^ (-P)) := mul_le_mul_of_nonneg_left h1 (by positivity)
    _ = 1 / 8 * (10 : K) ^ (-P) := by ring

/-- the computed end points of the search rectangle -/
theorem endpoint_moved {P : ℤ} {x : K} (hx : EndPoint (double K).fl P x) {c : K} (hc0 : 0 ≤ c) (hc4 : c ≤ 4) :
    |(double K).fl (x + (double K).fl (c * (double K).pow10 P)) - (x + c * (10 : K) ^ (-P))| ≤ 5 / 16 * (10 : K) ^ (-P) ∧
    |(double K).fl (x - (double K).fl (c * (double K).pow10 P)) - (x - c * (10 : K) ^ (-P))| ≤ 5 / 16 * (10 : K) ^ (-P) := by
  obtain ⟨_, _, _, hx⟩ := hx
  have hT := ten_pos (K := K) P
  have hcan := zpow_cancel (K := K) P
  have hu := ten_pos (K := K) (-P)
  have hp := double_pow_near (K := K) P
  have hp' : |(double K).pow10 P - (10 : K) ^ (-P)| ≤ 1 / 64 * (10 : K) ^ (-P) :=
    le_trans hp (mul_le_mul_of_nonneg_right (by norm_num) hu.le)
  generalize (double K).pow10 P = e at *
  generalize hE : (10 : K) ^ (-P) = E at *
  have h1 : |c * e - c * E| ≤ 1 / 16 * E := by
    rw [← mul_sub, abs_mul, abs_of_nonneg hc0]
    calc c * |e - E| ≤ 4 * (1 / 64 * E) := mul_le_mul hc4 hp' (abs_nonneg _) (by norm_num)
      _ = _ := by ring
  have hcE : c * E ≤ 4 * E := mul_le_mul_of_nonneg_right hc4 hu.le
  have hcE0 : 0 ≤ c * E := mul_nonneg hc0 hu.le
  have h2a : |c * e| ≤ 5 * E := by
    rw [abs_le] at h1 ⊢
    constructor <;> linarith
  have scale : ∀ s : K, |s| ≤ 2 ^ 50 * E → |s| * (10 : K) ^ P ≤ 2 ^ 50 := by
    intro s hs
    calc _ ≤ 2 ^ 50 * E * (10 : K) ^ P := mul_le_mul_of_nonneg_right hs hT.le
      _ = 2 ^ 50 * ((10 : K) ^ P * E) := by ring
      _ = 2 ^ 50 := by rw [hcan, mul_one]
  have h2 := fl_range (P := P) (scale (c * e) (le_trans h2a (mul_le_mul_of_nonneg_right (by norm_num) hu.le)))
  rw [hE] at h2
  have hxE : |x| ≤ 2 ^ 49 * E := by
    calc |x| = |x| * ((10 : K) ^ P * E) := by rw [hcan, mul_one]
      _ = |x| * (10 : K) ^ P * E := by ring
      _ ≤ _ := mul_le_mul_of_nonneg_right hx hu.le
  generalize (double K).fl (c * e) = g at *
  have hg : |g| ≤ 6 * E := by
    rw [abs_le] at h2 h2a ⊢
    constructor <;> linarith
  have hb : (2 : K) ^ 49 * E + 6 * E ≤ 2 ^ 50 * E := by
    rw [← add_mul]; exact mul_le_mul_of_nonneg_right (by norm_num) hu.le
  have h3 := fl_range (P := P) (scale (x + g) (le_trans (abs_add_le x g) (by linarith)))
  have h4 := fl_range (P := P) (scale (x - g) (le_trans (abs_sub x g) (by linarith)))
  rw [hE] at h3 h4
  have g1 := abs_le.1 h1
  have g2 := abs_le.1 h2
  have g3 := abs_le.1 h3
  have g4 := abs_le.1 h4
  refine ⟨abs_le.2 ⟨?_, ?_⟩, abs_le.2 ⟨?_, ?_⟩⟩ <;> linarith [g1.1, g1.2, g2.1, g2.2, g3.1, g3.2, g4.1, g4.2]

theorem endPoint_min {fl : K → K} {P : ℤ} {a b : K} (ha : EndPoint fl P a) (hb : EndPoint fl P b) :
    EndPoint fl P (min a b) ∧ EndPoint fl P (max a b) := by
  rcases le_total a b with h | h
  · rw [min_eq_left h, max_eq_right h]; exact ⟨ha, hb⟩
  · rw [min_eq_right h, max_eq_left h]; exact ⟨hb, ha⟩

/-- the computed search rectangle: contains the requested one in its interior, has machine numbers as sides, and is at most
`5 * 10^-P` larger -/
theorem domainF {P : ℤ × ℤ} {re im : K × K} (h1 : EndPoint (double K).fl P.1 re.1) (h2 : EndPoint (double K).fl P.1 re.2)
    (h3 : EndPoint (double K).fl P.2 im.1) (h4 : EndPoint (double K).fl P.2 im.2) :
    let d := desymmetrizeDomainF (double K) re im P
    Cell.Machine (double K).fl ⟨d.1, d.2, 0⟩ ∧ (∀ z, Requested re im z → Cell.Interior ⟨d.1, d.2, 0⟩ z) ∧
    Cell.In ⟨d.1, d.2, 0⟩ (Enlarged (5 * 10 ^ (-P.1), 5 * 10 ^ (-P.2)) re im) := by
  intro d
  obtain ⟨m1, m2⟩ := endPoint_min h1 h2
  obtain ⟨m3, m4⟩ := endPoint_min h3 h4
  have e1 := (abs_le.1 (endpoint_moved m1 (c := 1) (by norm_num) (by norm_num)).2)
  have e2 := (abs_le.1 (endpoint_moved m2 (c := 2) (by norm_num) (by norm_num)).1)
  have e3 := (abs_le.1 (endpoint_moved m3 (c := 3) (by norm_num) (by norm_num)).2)
  have e4 := (abs_le.1 (endpoint_moved m4 (c := 4) (by norm_num) (by norm_num)).1)
  have hu1 := ten_pos (K := K) (-P.1)
  have hu2 := ten_pos (K := K) (-P.2)
  have k1 := min_le_max (a := re.1) (b := re.2)
  have k2 := min_le_max (a := im.1) (b := im.2)
  have hid := (double_rounds (K := K)).idem
  refine ⟨⟨⟨hid _, hid _⟩, hid _, hid _⟩, ?_, ?_⟩
  · rintro z ⟨a1, a2, a3, a4⟩
    refine ⟨?_, ?_, ?_, ?_⟩
    · show (double K).fl _ < _; linarith [e1.2]
    · show _ < (double K).fl _; linarith [e2.1]
    · show (double K).fl _ < _; linarith [e3.2]
    · show _ < (double K).fl _; linarith [e4.1]
  · refine ⟨?_, ?_, ?_, ?_, ?_, ?_⟩
    · show _ - _ ≤ (double K).fl _; linarith [e1.1]
    · show (double K).fl _ ≤ (double K).fl _; linarith [e1.2, e2.1]
    · show (double K).fl _ ≤ _ + _; linarith [e2.2]
    · show _ - _ ≤ (double K).fl _; linarith [e3.1]
    · show (double K).fl _ ≤ (double K).fl _; linarith [e3.2, e4.1]
    · show (double K).fl _ ≤ _ + _; linarith [e4.2]

/-- the context of a search in floating-point arithmetic -/
def Finder.ctxF (A : FloatOps K) (fd : Finder σ K) (re im : K × K) (P : ℤ × ℤ) : RCtx K :=
  { f := fd.f, df := fd.df, precision := P, reRan := (desymmetrizeDomainF A re im P).1,
    imRan := (desymmetrizeDomainF A re im P).2, progress := fd.verbose }

theorem calculateRootsF_done {A : FloatOps K} {kind : Root K → NumKind} {fd : Finder σ K} {re im : K × K}
    {call : Option (ℤ × ℤ)} {i : Option ℕ} (h1 : (fd.calculateRootsF A kind re im call i).outcome = .ok ())
    (h2 : (fd.calculateRootsF A kind re im call i).warned = false) :
    (fd.algorithm (Finder.ctxF A fd re im (searchPrecision call fd.precision)) (fd.start i)).1 = .ok () ∧
    (fd.calculateRootsF A kind re im call i).finder.container =
      fd.container.addRootsF A.fl kind fd.info (Finder.ctxF A fd re im (searchPrecision call fd.precision)).toFilter
        (fd.algorithm (Finder.ctxF A fd re im (searchPrecision call fd.precision)) (fd.start i)).2.added := by
  have key : ∀ r, fd.algorithm (Finder.ctxF A fd re im (searchPrecision call fd.precision)) (fd.start i) = r →
      (fd.calculateRootsF A kind re im call i).outcome = .ok () →
      (fd.calculateRootsF A kind re im call i).warned = false → r.1 = .ok () ∧
      (fd.calculateRootsF A kind re im call i).finder.container =
        fd.container.addRootsF A.fl kind fd.info (Finder.ctxF A fd re im (searchPrecision call fd.precision)).toFilter r.2.added := by
    rintro ⟨r1, r2⟩ hr
    unfold Finder.calculateRootsF
    dsimp only
    change fd.algorithm _ _ = _ at hr
    unfold Finder.ctxF Finder.start at hr
    rw [hr]
    rcases r1 with e | u
    · cases e <;> simp
    · intro _ _; exact ⟨rfl, rfl⟩
  exact key _ rfl h1 h2

/-- sizes of the numbers met -/
theorem candidate_range {P : ℤ} {a b x : K} (ha : EndPoint (double K).fl P a) (hb : EndPoint (double K).fl P b)
    (h1 : min a b - 5 * 10 ^ (-P) ≤ x) (h2 : x ≤ max a b + 5 * 10 ^ (-P)) : InRange P x := by
  obtain ⟨m1, m2⟩ := endPoint_min ha hb
  obtain ⟨_, p0, p22, s1⟩ := m1
  obtain ⟨_, _, _, s2⟩ := m2
  have hT := ten_pos (K := K) P
  have hc := zpow_cancel (K := K) P
  refine ⟨p0, p22, ?_⟩
  have e1 : |min a b * (10 : K) ^ P| ≤ 2 ^ 49 := by rw [abs_mul, abs_of_pos hT]; exact s1
  have e2 : |max a b * (10 : K) ^ P| ≤ 2 ^ 49 := by rw [abs_mul, abs_of_pos hT]; exact s2
  have f1 := mul_le_mul_of_nonneg_right h1 hT.le
  have f2 := mul_le_mul_of_nonneg_right h2 hT.le
  have g : (5 : K) * 10 ^ (-P) * 10 ^ P = 5 := by rw [mul_assoc, mul_comm ((10 : K) ^ (-P)), hc, mul_one]
  rw [sub_mul, g] at f1
  rw [add_mul, g] at f2
  rw [show |x| * (10 : K) ^ P = |x * (10 : K) ^ P| by rw [abs_mul, abs_of_pos hT]]
  have q : (2 : K) ^ 49 + 5 ≤ 2 ^ 50 := by norm_num
  have a1 := (abs_le.1 e1).1
  have a2 := (abs_le.1 e2).2
  exact abs_le.2 ⟨by linarith, by linarith⟩

/-- C110. Serial search for the requested precision `p` in doubles, from the computed search rectangle to the rounded roots in
the container: with the simple argument algorithm, an estimator which sees the zeros near the requested rectangle, and a
rounding container without filters, whatever the class of the numbers handed over. The end points of the ranges are
doubles with at most 14 significant digits down to the last decimal. If the call returns without warning, then every zero
in the requested rectangle has a reported root of positive order closer than `2 * 10^-(p+1)` in each coordinate; and every
newly reported root is the computed rounding of an exact zero of the function (order 0) or has positive order, lies in the
requested rectangle enlarged by `6 * 10^-(p+1)`, and is closer than `2 * 10^-(p+1)` to a zero. -/
theorem C110_serial (fd : Finder σ K) (est : LineEst σ K) (pi : K) (hpi : 0 < pi) (limit : ℕ)
    (halg : fd.algorithm = simpleArgumentF (double K) est pi limit) (hcont : RoundsFreely fd.container)
    (kind : Root K → NumKind) (re im : K × K) (call : Option (ℤ × ℤ)) (p : ℤ × ℤ) (hp : Asked call fd.precision p)
    (h1 : EndPoint (double K).fl (p.1 + 1) re.1) (h2 : EndPoint (double K).fl (p.1 + 1) re.2)
    (h3 : EndPoint (double K).fl (p.2 + 1) im.1) (h4 : EndPoint (double K).fl (p.2 + 1) im.2) (interrupt : Option ℕ)
    (zeros : List (Cx K)) (L : ℤ → Cx K → Cx K → Cx K)
    (hest : GoodEstimatorF (double K) est fd.f fd.df (p.1 + 1, p.2 + 1)
      (Enlarged (5 * 10 ^ (-(p.1 + 1)), 5 * 10 ^ (-(p.2 + 1))) re im) pi zeros L) :
    let s := fd.calculateRootsF (double K) kind re im call interrupt
    s.outcome = .ok () → s.warned = false →
    (∀ z ∈ zeros, Requested re im z → ∃ r ∈ held s.finder.container, 1 ≤ r.2 ∧
      Near (2 * 10 ^ (-(p.1 + 1)), 2 * 10 ^ (-(p.2 + 1))) z r.1) ∧
    ∀ r ∈ held s.finder.container, r ∈ held fd.container ∨
      (r.2 = 0 ∧ ∃ z k, fd.f z = 0 ∧ r.1 = ⟨roundF (double K).fl k z.re (p.1 + 1), roundF (double K).fl k z.im (p.2 + 1)⟩) ∨
      (1 ≤ r.2 ∧ RequestedWithin (6 * 10 ^ (-(p.1 + 1)), 6 * 10 ^ (-(p.2 + 1))) re im r.1 ∧
        ∃ z ∈ zeros, Near (2 * 10 ^ (-(p.1 + 1)), 2 * 10 ^ (-(p.2 + 1))) z r.1) := by
  intro s hok hwarn
  obtain ⟨hrun, hcon⟩ := calculateRootsF_done hok hwarn
  obtain ⟨d1, d2, d3⟩ := domainF (P := (p.1 + 1, p.2 + 1)) h1 h2 h3 h4
  have hprec : searchPrecision call fd.precision = (p.1 + 1, p.2 + 1) := searchPrecision_asked hp
  generalize hP1 : p.1 + 1 = P1 at *
  generalize hP2 : p.2 + 1 = P2 at *
  rw [halg] at hrun hcon
  rw [hprec] at hrun hcon
  generalize hc : Finder.ctxF (double K) fd re im (P1, P2) = ctx at hrun hcon
  have c1 : ctx.precision = (P1, P2) := by rw [← hc]; rfl
  have c2 : ctx.f = fd.f := by rw [← hc]; rfl
  have c3 : ctx.df = fd.df := by rw [← hc]; rfl
  have d1' : Cell.Machine (double K).fl ⟨ctx.reRan, ctx.imRan, 0⟩ := by rw [← hc]; exact d1
  have d2' : ∀ z, Requested re im z → Cell.Interior ⟨ctx.reRan, ctx.imRan, 0⟩ z := by rw [← hc]; exact d2
  have d3' : Cell.In ⟨ctx.reRan, ctx.imRan, 0⟩ (Enlarged (5 * 10 ^ (-P1), 5 * 10 ^ (-P2)) re im) := by
    rw [← hc]; exact d3
  obtain ⟨hs, hb⟩ := hest ctx c2 c3 c1 d3'
  obtain ⟨r1, r2⟩ := C104_conforming (double K) _ double_rounds est pi hpi limit ctx hb (double_good _) d1'
    d3'.2.1 d3'.2.2.2.2.1 zeros L hs (fd.start interrupt) _ (Prod.ext hrun rfl)
  obtain ⟨i1, i2⟩ := C104_inside (double K) _ double_rounds est pi hpi limit ctx hb (double_good _) d1'
    d3'.2.1 d3'.2.2.2.2.1 (fd.start interrupt) _ (Prod.ext hrun rfl)
  have hnew : newRoots (fd.start interrupt) (simpleArgumentF (double K) est pi limit ctx (fd.start interrupt)).2 =
      (simpleArgumentF (double K) est pi limit ctx (fd.start interrupt)).2.added := rfl
  rw [hnew] at r1 r2 i2
  obtain ⟨a1, a2, _⟩ := addRootsF_free (double K).fl kind fd.info ctx.toFilter
    (simpleArgumentF (double K) est pi limit ctx (fd.start interrupt)).2.added fd.container hcont
  rw [← hcon] at a1 a2
  have cp : ctx.toFilter.precision = (P1, P2) := c1
  rw [cp] at a1 a2
  -- a candidate of positive order
  have cand : ∀ q ∈ (simpleArgumentF (double K) est pi limit ctx (fd.start interrupt)).2.added, 1 ≤ q.2 →
      (min re.1 re.2 - 5 * 10 ^ (-P1) ≤ q.1.re ∧ q.1.re ≤ max re.1 re.2 + 5 * 10 ^ (-P1) ∧
       min im.1 im.2 - 5 * 10 ^ (-P2) ≤ q.1.im ∧ q.1.im ≤ max im.1 im.2 + 5 * 10 ^ (-P2)) ∧
      |(roundRootF (double K).fl (kind q) q (P1, P2)).1.re - q.1.re| ≤ 3 / 4 * (10 : K) ^ (-P1) ∧
      |(roundRootF (double K).fl (kind q) q (P1, P2)).1.im - q.1.im| ≤ 3 / 4 * (10 : K) ^ (-P2) := by
    intro q hq hq1
    rcases i2 q hq with ⟨h, _⟩ | ⟨_, _, _, c, hc, _, ⟨t1, t2, t3, t4⟩, _⟩
    · omega
    · obtain ⟨⟨b1, _, b2, b3, _, b4⟩, _⟩ := i1 c hc
      obtain ⟨e1, _, e2, e3, _, e4⟩ := d3'
      have k : min re.1 re.2 - 5 * 10 ^ (-P1) ≤ q.1.re ∧ q.1.re ≤ max re.1 re.2 + 5 * 10 ^ (-P1) ∧
          min im.1 im.2 - 5 * 10 ^ (-P2) ≤ q.1.im ∧ q.1.im ≤ max im.1 im.2 + 5 * 10 ^ (-P2) :=
        ⟨e1.trans (b1.trans t1), t2.trans (b2.trans e2), e3.trans (b3.trans t3), t4.trans (b4.trans e4)⟩
      exact ⟨k, (roundF_dec (kind q) (candidate_range h1 h2 k.1 k.2.1)).2,
        (roundF_dec (kind q) (candidate_range h3 h4 k.2.2.1 k.2.2.2)).2⟩
  -- nearness, after rounding
  have near : ∀ q ∈ (simpleArgumentF (double K) est pi limit ctx (fd.start interrupt)).2.added, 1 ≤ q.2 → ∀ z,
      Near ((double K).pow10 ctx.precision.1, (double K).pow10 ctx.precision.2) q.1 z →
      Near (2 * 10 ^ (-P1), 2 * 10 ^ (-P2)) z (roundRootF (double K).fl (kind q) q (P1, P2)).1 := by
    rintro q hq hq1 z ⟨n1, n2⟩
    obtain ⟨_, m1, m2⟩ := cand q hq hq1
    rw [c1] at n1 n2
    have w : ∀ P : ℤ, (double K).pow10 P ≤ 5 / 4 * (10 : K) ^ (-P) := by
      intro P
      have hp := (abs_le.1 (le_trans (double_pow_near (K := K) P)
        (mul_le_mul_of_nonneg_right (by norm_num : ((1 : K) / 2) ^ 53 ≤ 1 / 4) (ten_pos (-P)).le))).2
      linarith
    have w1 := w P1
    have w2 := w P2
    have n1 := abs_lt.1 n1
    have n2 := abs_lt.1 n2
    have m1 := abs_le.1 m1
    have m2 := abs_le.1 m2
    dsimp only at n1 n2
    exact ⟨abs_lt.2 ⟨by linarith [n1.1, n1.2, m1.1, m1.2], by linarith [n1.1, n1.2, m1.1, m1.2]⟩,
      abs_lt.2 ⟨by linarith [n2.1, n2.2, m2.1, m2.2], by linarith [n2.1, n2.2, m2.1, m2.2]⟩⟩
  constructor
  · intro z hz hreq
    obtain ⟨g1, g2, g3, g4⟩ := d2' z hreq
    obtain ⟨q, hq, hq1, hn⟩ := r1 z hz ⟨g1.le, g2, g3.le, g4⟩
    exact ⟨_, a2 q hq, hq1, near q hq hq1 z hn⟩
  · intro r hr
    rcases a1 r hr with h | ⟨q, hq, rfl⟩
    · exact Or.inl h
    · right
      rcases r2 q hq with ⟨h, hf⟩ | ⟨hq1, z, hz, hn⟩
      · exact Or.inl ⟨h, q.1, kind q, by rw [← c2]; exact hf, rfl⟩
      · obtain ⟨⟨k1, k2, k3, k4⟩, m1, m2⟩ := cand q hq hq1
        have m1 := abs_le.1 m1
        have m2 := abs_le.1 m2
        have u1 := ten_pos (K := K) (-P1)
        have u2 := ten_pos (K := K) (-P2)
        exact Or.inr ⟨hq1, ⟨by linarith [m1.1, m1.2], by linarith [m1.1, m1.2], by linarith [m2.1, m2.2],
          by linarith [m2.1, m2.2]⟩, z, hz, near q hq hq1 z hn⟩

/-! ### example -/

/-- a finder in doubles for a function with the zero `(1 + 2i) / 3` -/
def thirdFinder : Finder Unit ℚ :=
  Finder.init (fun z => z - ⟨1 / 3, 2 / 3⟩) none (simpleArgumentF (double ℚ) (crossEst 3 [⟨1 / 3, 2 / 3⟩]) 3 40)
    (EstCache.init false) () (fun p => .rounding (RContainer.init p (5, 5))) false (some (2, 2)) (some false) ⟨(5, 5), true⟩

/-- non-vacuity: hypotheses on the end points and the estimator, and what is reported for numpy numbers: the doubles
closest to 0.333 and 0.666 -/
example : EndPoint (double ℚ).fl 3 (0 : ℚ) ∧ EndPoint (double ℚ).fl 3 (1 : ℚ) := by
  unfold EndPoint Machine; decide +kernel
example (region : Cell ℚ) : GoodEstimatorF (double ℚ) (crossEst 3 [⟨1 / 3, 2 / 3⟩]) thirdFinder.f thirdFinder.df (3, 3) region 3
    [⟨1 / 3, 2 / 3⟩] (crossLine 3 [⟨1 / 3, 2 / 3⟩]) :=
  fun ctx _ _ _ _ => ⟨crossEst_sees double_rounds (by norm_num) (by unfold Machine; decide +kernel) _ ctx, crossEst_hits _ _ _⟩
example : (thirdFinder.calculateRootsF (double ℚ) (fun _ => .numpy) (0, 1) (0, 1) none none).outcome = .ok () ∧
    (thirdFinder.calculateRootsF (double ℚ) (fun _ => .numpy) (0, 1) (0, 1) none none).warned = false ∧
    held (thirdFinder.calculateRootsF (double ℚ) (fun _ => .numpy) (0, 1) (0, 1) none none).finder.container =
      [(⟨flBin 53 (333 / 1000), flBin 53 (666 / 1000)⟩, 1)] := by decide +kernel

end PyZeal.Props
