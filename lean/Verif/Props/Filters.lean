import Verif.Spec.Filters
import Verif.Props.Finder

/-! # C97: filters set on a root finder -/

set_option linter.unusedSectionVars false

namespace PyZeal
open Spec
variable {K : Type} [Field K] [LinearOrder K] [IsStrictOrderedRing K] [FloorRing K] {σ : Type}

/-- the calls `setRootFilter(t, threshold=n)` of a user, one after the other -/
def Finder.setRootFilters : List (FilterType × ℤ) → Py (Finder σ K) Unit
  | [] => pure ()
  | e :: es => do
    Finder.setRootFilter e.1 e.2
    Finder.setRootFilters es

/-- the container of the finder once the filters are set -/
def filtersSet (c : RContainer K) : List (FilterType × ℤ) → RContainer K
  | [] => c
  | e :: es => filtersSet (c.registerFilter (match e.1 with
      | .functionValueZero => funcValueZero e.2
      | .zeroInBounds => zeroInBounds) e.1.value) es

theorem setRootFilters_run (fd : Finder σ K) (c : RContainer K) (hc : fd.container = .rounding c)
    (calls : List (FilterType × ℤ)) :
    Finder.setRootFilters calls fd = (.ok (), { fd with container := .rounding (filtersSet c calls) }) := by
  induction calls generalizing fd c with
  | nil => simp only [Finder.setRootFilters, filtersSet, ← hc]; rfl
  | cons e es ih =>
    rw [Finder.setRootFilters, Py.bind_run]
    have h1 : Finder.setRootFilter e.1 e.2 fd = (.ok (), { fd with container := .rounding (c.registerFilter (match e.1 with
        | .functionValueZero => funcValueZero e.2
        | .zeroInBounds => zeroInBounds) e.1.value) }) := by
      obtain ⟨ty, n⟩ := e
      cases ty <;> simp only [Finder.setRootFilter, registerPreDefinedFilter, hc]
    rw [h1]
    exact ih _ _ rfl

theorem filtersSet_append (c : RContainer K) (a : List (FilterType × ℤ)) (e : FilterType × ℤ) :
    filtersSet c (a ++ [e]) = (filtersSet c a).registerFilter (match e.1 with
      | .functionValueZero => funcValueZero e.2
      | .zeroInBounds => zeroInBounds) e.1.value := by
  induction a generalizing c with
  | nil => rfl
  | cons x xs ih => exact ih _

theorem filtersSet_rootSet (c : RContainer K) (a : List (FilterType × ℤ)) :
    (filtersSet c a).rootSet = c.rootSet := by
  induction a generalizing c with
  | nil => rfl
  | cons x xs ih => exact ih _

theorem lastThreshold_append (calls : List (FilterType × ℤ)) (e : FilterType × ℤ) (t : ℤ) :
    LastThreshold (calls ++ [e]) t ↔
      if e.1 = .functionValueZero then e.2 = t else LastThreshold calls t := by
  obtain ⟨ty, n⟩ := e
  constructor
  · rintro ⟨pre, post, h, hp⟩
    rcases List.eq_nil_or_concat post with rfl | ⟨post', x, rfl⟩
    · have := List.append_inj' h rfl
      simp only [List.cons.injEq, and_true] at this
      rw [this.2]; simp
    · have hx : ((ty, n) : FilterType × ℤ) = x ∧ calls = pre ++ (.functionValueZero, t) :: post' := by
        have h' : calls ++ [(ty, n)] = (pre ++ (.functionValueZero, t) :: post') ++ [x] := by
          rw [h]; simp
        have := List.append_inj' h' rfl
        simp only [List.cons.injEq, and_true] at this
        exact ⟨this.2, this.1⟩
      have hne : ty ≠ .functionValueZero := by
        have := hp x (by simp); rw [← hx.1] at this; exact this
      rw [if_neg hne]
      exact ⟨pre, post', hx.2, fun e he => hp e (by simp [he])⟩
  · intro h
    split at h
    · rename_i hty
      simp only at hty h
      subst hty h
      exact ⟨calls, [], rfl, by simp⟩
    · rename_i hty
      obtain ⟨pre, post, rfl, hp⟩ := h
      refine ⟨pre, post ++ [(ty, n)], by simp, ?_⟩
      intro e he
      rcases List.mem_append.1 he with he | he
      · exact hp e he
      · rw [List.mem_singleton] at he; rw [he]; exact hty

theorem filtersSet_get? (c : RContainer K) (hc : c.filters = []) (calls : List (FilterType × ℤ)) :
    (filtersSet c calls).filters.WF ∧ ∀ key p, (filtersSet c calls).filters.get? key = some p ↔
      (key = "[zero-in-bounds]" ∧ p = zeroInBounds ∧ ∃ e ∈ calls, e.1 = .zeroInBounds) ∨
      (key = "[function-value-zero]" ∧ ∃ t, LastThreshold calls t ∧ p = funcValueZero t) := by
  induction calls using List.reverseRecOn with
  | nil =>
    simp only [filtersSet, hc]
    refine ⟨Dict.wf_nil, fun key p => ?_⟩
    simp [LastThreshold]
  | append_singleton calls e ih =>
    rw [filtersSet_append]
    simp only [RContainer.registerFilter]
    refine ⟨ih.1.set _ _, fun key p => ?_⟩
    rw [Dict.get?_set]
    simp only [lastThreshold_append]
    obtain ⟨ty, n⟩ := e
    cases ty
    · by_cases hk : key = "[function-value-zero]"
      · subst hk
        simp [FilterType.value, eq_comm]
      · rw [if_neg (fun h => hk h.symm), ih.2]
        simp [hk]
    · by_cases hk : key = "[zero-in-bounds]"
      · subst hk
        simp [FilterType.value, eq_comm]
      · rw [if_neg (fun h => hk h.symm), ih.2]
        simp [hk]

theorem filtersSet_accepts (c : RContainer K) (hc : c.filters = []) (calls : List (FilterType × ℤ)) (r : Root K)
    (ctx : FilterCtx K) :
    (filtersSet c calls).accepts r ctx = true ↔ Passes calls ⟨ctx.reRan, ctx.imRan, 0⟩ ctx.f r.1 := by
  obtain ⟨hwf, hg⟩ := filtersSet_get? c hc calls
  rw [accepts_iff hwf]
  simp only [hg, Passes]
  constructor
  · intro h
    refine ⟨fun he => ?_, fun t ht => ?_⟩
    · have := h _ _ (.inl ⟨rfl, rfl, he⟩)
      simp only [zeroInBounds, decide_eq_true_eq] at this
      exact ⟨this.1.1, this.1.2, this.2.1, this.2.2⟩
    · have := h _ _ (.inr ⟨rfl, t, ht, rfl⟩)
      simp only [funcValueZero, Cx.normSq, eps10] at this
      rw [pow_two (ctx.f r.1).re, pow_two (ctx.f r.1).im]; exact of_decide_eq_true this
  · rintro ⟨h1, h2⟩ key p (⟨rfl, rfl, he⟩ | ⟨rfl, t, ht, rfl⟩)
    · obtain ⟨a, b, c, d⟩ := h1 he
      simp only [zeroInBounds, decide_eq_true_eq]
      exact ⟨⟨a, b⟩, c, d⟩
    · have := h2 t ht
      simp only [funcValueZero, Cx.normSq, eps10]
      rw [pow_two (ctx.f r.1).re, pow_two (ctx.f r.1).im] at this; exact decide_eq_true this

theorem mem_held_filtered (info : Bool) (ctx : FilterCtx K) (c : RContainer K) (hf : c.filters = [])
    (he : c.rootSet = []) (calls : List (FilterType × ℤ)) (rs : List (Root K)) (x : Root K) :
    x ∈ held ((AnyContainer.rounding (filtersSet c calls)).addRoots info ctx rs) ↔
      ∃ z, (z, x.2) ∈ rs ∧ RoundsTo ctx.precision z x.1 ∧ Passes calls ⟨ctx.reRan, ctx.imRan, 0⟩ ctx.f z := by
  have hm := mem_held_addRoots info ctx (.rounding (filtersSet c calls)) rs x
  have hheld : held (AnyContainer.rounding (filtersSet c calls)) = [] := by
    simp only [held, filtersSet_rootSet, he]
  by_cases hex : ∃ r ∈ rs, (AnyContainer.rounding (filtersSet c calls)).keeps ctx r = true
  · rw [hm.1 hex, hheld]
    simp only [List.not_mem_nil, and_false, or_false, AnyContainer.keeps, AnyContainer.form, filtersSet_accepts c hf]
    constructor
    · rintro ⟨r, hr, hp, rfl⟩
      exact ⟨r.1, hr, roundsTo_roundRoot _ _, hp⟩
    · rintro ⟨z, hz, hrd, hp⟩
      exact ⟨(z, x.2), hz, hp, Prod.ext (roundsTo_unique hrd (roundsTo_roundRoot ctx.precision (z, x.2))) rfl⟩
  · rw [hm.2 hex, hheld]
    simp only [List.not_mem_nil, false_iff]
    rintro ⟨z, hz, _, hp⟩
    exact hex ⟨(z, x.2), hz, (filtersSet_accepts c hf calls _ ctx).2 hp⟩

theorem searched_eq (re im : K × K) (p : ℤ × ℤ) :
    (⟨(desymmetrizeDomain re im p).1, (desymmetrizeDomain re im p).2, 0⟩ : Cell K) = Searched re im p := by
  simp [desymmetrizeDomain, Searched, eps10]

namespace Props

/-- C97 for serial finders. On a finder with a new rounding container the filters can be set; a search then reports
exactly the roundings of those candidates which the same search collects in a plain container and which satisfy
the filters, and ends in the same way. -/
theorem C97_serial (fd : Finder σ K) (hc : RoundsFreely fd.container) (he : IsEmpty fd.container)
    (calls : List (FilterType × ℤ)) (re im : K × K) (call : Option (ℤ × ℤ)) (p : ℤ × ℤ)
    (hp : Asked call fd.precision p) (interrupt : Option ℕ) :
    ∃ fd', Finder.setRootFilters calls fd = (.ok (), fd') ∧
      let s := fd'.calculateRoots re im call interrupt
      let b := Finder.calculateRoots { fd with container := .plain ⟨[], []⟩ } re im call interrupt
      s.outcome = b.outcome ∧ s.warned = b.warned ∧
      ∀ r, r ∈ held s.finder.container ↔ ∃ z, (z, r.2) ∈ held b.finder.container ∧
        RoundsTo (p.1 + 1, p.2 + 1) z r.1 ∧ Passes calls (Searched re im (p.1 + 1, p.2 + 1)) fd.f z := by
  rcases hcc : fd.container with c | c
  · rw [hcc] at hc he
    refine ⟨_, setRootFilters_run fd c hcc calls, ?_⟩
    intro s b
    have hs := calculateRoots_outcome { fd with container := .rounding (filtersSet c calls) } re im call interrupt
    have hb := calculateRoots_outcome { fd with container := .plain ⟨[], []⟩ } re im call interrupt
    refine ⟨hs.1.trans hb.1.symm, hs.2.trans hb.2.symm, fun r => ?_⟩
    simp only [s, b, calculateRoots_container, addRoots_plain]
    rw [mem_held_filtered _ _ _ hc he]
    have e1 : (fd.ctx re im call).toFilter.precision = (p.1 + 1, p.2 + 1) := searchPrecision_asked hp
    have e2 : (⟨(fd.ctx re im call).toFilter.reRan, (fd.ctx re im call).toFilter.imRan, 0⟩ : Cell K) =
        Searched re im (p.1 + 1, p.2 + 1) := by
      rw [← searched_eq, ← searchPrecision_asked hp]; rfl
    have e3 : (fd.ctx re im call).toFilter.f = fd.f := rfl
    have e4 : ∀ c' : AnyContainer K, Finder.ctx { fd with container := c' } re im call = fd.ctx re im call := fun _ => rfl
    have e5 : ∀ c' : AnyContainer K, Finder.start { fd with container := c' } interrupt = fd.start interrupt := fun _ => rfl
    simp only [e4, e5, e1, e2, e3, held, List.nil_append]
  · rw [hcc] at hc; exact absurd hc id

/-- C97 for parallel finders: the same, for every number of processes and every schedule, with the precision asked for -/
theorem C97_parallel (fd : Finder σ K) (hc : RoundsFreely fd.container) (he : IsEmpty fd.container)
    (calls : List (FilterType × ℤ)) (cpus : ℕ) (re im : K × K) (call : Option (ℤ × ℤ)) (p : ℤ × ℤ)
    (hp : Asked call fd.precision p) (sched : Schedule) :
    ∃ fd', Finder.setRootFilters calls fd = (.ok (), fd') ∧
      let s := fd'.calculateRootsParallel cpus re im call sched
      let b := Finder.calculateRootsParallel { fd with container := .plain ⟨[], []⟩ } cpus re im call sched
      s.outcome = b.outcome ∧ s.warned = b.warned ∧
      ∀ r, r ∈ held s.finder.container ↔ ∃ z, (z, r.2) ∈ held b.finder.container ∧
        RoundsTo p z r.1 ∧ Passes calls (Searched re im (p.1 + 1, p.2 + 1)) fd.f z := by
  rcases hcc : fd.container with c | c
  · rw [hcc] at hc he
    refine ⟨_, setRootFilters_run fd c hcc calls, ?_⟩
    intro s b
    have hrun : ∀ c' : AnyContainer K, runPiece { fd with container := c' } = runPiece fd := fun _ => rfl
    have hpp : ((p.1 + 1 - 1, p.2 + 1 - 1) : ℤ × ℤ) = p := by ext <;> simp
    simp only [s, b, Finder.calculateRootsParallel, searchPrecision_asked hp, hrun, hpp]
    generalize (if sched.interrupted = true then (Except.ok () : Except Err Unit) else _) = o
    rcases o with e | ⟨⟩
    · refine ⟨rfl, rfl, fun r => ?_⟩
      have h0 : c.rootSet = [] := he
      simp only [held, filtersSet_rootSet, h0]
      simp
    · refine ⟨rfl, rfl, fun r => ?_⟩
      dsimp only
      rw [mem_held_filtered _ _ _ hc he, addRoots_plain]
      simp only [held, List.nil_append, searched_eq]
  · rw [hcc] at hc; exact absurd hc id

/-- C97: plain containers have no filters; the call raises and changes nothing -/
theorem C97_plain (fd : Finder σ K) (c : PContainer K) (h : fd.container = .plain c) (t : FilterType) (n : ℤ) :
    Finder.setRootFilter t n fd = (.error .notImplementedError, fd) := by
  simp only [Finder.setRootFilter, registerPreDefinedFilter, h, PContainer.registerFilter, Py.throw]
  rw [← h]

/-- non-vacuity: with a threshold of `-1` set last (`|f| < 10`) both roots are reported, with a threshold of 2
(`|f| < 1/100`) the candidate near the simple zero is not -/
example : RoundsFreely exFinder.container ∧ IsEmpty exFinder.container ∧ Asked none exFinder.precision exFinder.precision :=
  ⟨rfl, rfl, .inr ⟨rfl, rfl⟩⟩
example :
    held ((Finder.setRootFilters [(.functionValueZero, 9), (.zeroInBounds, 3), (.functionValueZero, -1)] exFinder).2.calculateRoots
      (0, 4) (0, 2) none none).finder.container = [(⟨3 / 10, 1 / 5⟩, 2), (⟨16 / 5, 13 / 10⟩, 1)] ∧
    held ((Finder.setRootFilters [(.functionValueZero, -1), (.functionValueZero, 2)] exFinder).2.calculateRoots
      (0, 4) (0, 2) none none).finder.container = [(⟨3 / 10, 1 / 5⟩, 2)] := by decide +kernel

end Props
end PyZeal
