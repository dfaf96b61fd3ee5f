import Verif.Spec.ExtLink
import Verif.Proof.Ext

set_option linter.unusedSectionVars false

/-! # Finite searches: simulation lemmas -/

namespace PyZeal.ExtLink
open Spec Ext
variable {K σ τ : Type} [Field K] [LinearOrder K] [IsStrictOrderedRing K] [FloorRing K]

/-! ## Simulation -/

/-- related results: the same exception (not an interrupt) or related values -/
def Out {α β : Type} (A : α → β → Prop) : Except Err α → Except Err β → Prop
  | .ok a, .ok b => A a b
  | .error e, .error e' => e' = e ∧ e ≠ .keyboardInterrupt
  | _, _ => False

/-- from the states `w`, `x` both computations do the same -/
def Sim {S T α β : Type} (R : S → T → Prop) (A : α → β → Prop) (m : Py S α) (n : Py T β) (w : S) (x : T) : Prop :=
  Out A (m w).1 (n x).1 ∧ R (m w).2 (n x).2

section
variable {S T α β α' β' : Type} {R : S → T → Prop} {A : α → β → Prop} {B : α' → β' → Prop} {w : S} {x : T}

theorem sim_pure {a : α} {b : β} (h : A a b) (hR : R w x) : Sim R A (pure a) (pure b) w x := ⟨h, hR⟩

theorem sim_throw {e : Err} (he : e ≠ .keyboardInterrupt) (hR : R w x) :
    Sim R A (Py.throw e) (Py.throw e) w x := ⟨⟨rfl, he⟩, hR⟩

theorem sim_bind {m : Py S α} {n : Py T β} {k : α → Py S α'} {l : β → Py T β'} (hm : Sim R A m n w x)
    (hk : ∀ a b w' x', A a b → R w' x' → Sim R B (k a) (l b) w' x') : Sim R B (m >>= k) (n >>= l) w x := by
  obtain ⟨h1, h2⟩ := hm
  unfold Sim
  rw [Py.bind_run, Py.bind_run]
  rcases hr : m w with ⟨r, w'⟩
  rcases hs : n x with ⟨s, x'⟩
  rw [hr, hs] at h1 h2
  cases r with
  | ok a =>
    cases s with
    | ok b => exact hk a b w' x' h1 h2
    | error e => exact h1.elim
  | error e =>
    cases s with
    | ok b => exact h1.elim
    | error e' => exact ⟨h1, h2⟩

/-- an effect of the exact model alone -/
theorem sim_left {m : Py S α} {k : α → Py S α'} {n : Py T β'} {a : α} {w' : S} (hm : m w = (.ok a, w'))
    (h : Sim R B (k a) n w' x) : Sim R B (m >>= k) n w x := by
  unfold Sim at h ⊢
  rw [Py.bind_ok hm]; exact h

theorem sim_get {k : S → Py S α'} {l : T → Py T β'} (h : Sim R B (k w) (l x) w x) :
    Sim R B (Py.get >>= k) (Py.get >>= l) w x := h

theorem sim_getx {m : Py S α'} {l : T → Py T β'} (h : Sim R B m (l x) w x) : Sim R B m (Py.get >>= l) w x := h

theorem sim_mono {A' : α → β → Prop} {R' : S → T → Prop} {m : Py S α} {n : Py T β} (h : Sim R A m n w x)
    (hA : ∀ a b, A a b → A' a b) (hR : ∀ w x, R w x → R' w x) : Sim R' A' m n w x := by
  obtain ⟨h1, h2⟩ := h
  refine ⟨?_, hR _ _ h2⟩
  rcases hr : (m w).1 with e | a <;> rcases hs : (n x).1 with e' | b <;> rw [hr, hs] at h1
  · exact h1
  · exact h1
  · exact h1
  · exact hA _ _ h1

theorem sim_modify {g : S → S} {g' : T → T} (h : R (g w) (g' x)) :
    Sim R (fun _ _ => True) (Py.modify g) (Py.modify g') w x := ⟨trivial, h⟩

end

/-! ## Finite numbers -/

theorem neg_f (a : K) : XNum.neg (.fin a) = .fin (-a) := rfl
theorem add_f (a b : K) : XNum.add (.fin a) (.fin b) = .fin (a + b) := rfl
theorem sub_f (a b : K) : XNum.sub (.fin a) (.fin b) = .fin (a - b) := by
  rw [sub_eq_add_neg]; rfl
theorem scale_f (c a : K) : XNum.scale c (.fin a) = .fin (c * a) := rfl
theorem mul_f (a b : K) : XNum.mul (.fin a) (.fin b) = .fin (a * b) := rfl
theorem over_f (a c : K) : XNum.over (.fin a) c = .fin (a / c) := by
  rw [div_eq_inv_mul]; rfl
theorem lt_f (a b : K) : XNum.lt (.fin a) (.fin b) = decide (a < b) := rfl
theorem eq_f (a b : K) : XNum.eq (.fin a) (.fin b) = decide (a = b) := rfl
theorem le_f (a b : K) : XNum.le (.fin a) (.fin b) = decide (a ≤ b) := by
  rw [Bool.eq_iff_iff]
  simp [XNum.le, lt_f, eq_f, le_iff_lt_or_eq]
theorem abs_f (a : K) : XNum.abs (.fin a) = .fin |a| := rfl
theorem mid_f (a b : K) : XNum.mid (.fin a) (.fin b) = .fin ((a + b) / 2) := by
  unfold XNum.mid; rw [add_f, over_f]
theorem sorted_f (a b : K) : XNum.sorted (.fin a) (.fin b) = (.fin (min a b), .fin (max a b)) := by
  unfold XNum.sorted
  rw [lt_f]
  by_cases h : b < a
  · rw [if_pos (by simpa using h), min_eq_right h.le, max_eq_left h.le]
  · rw [if_neg (by simpa using h), min_eq_left (not_lt.1 h), max_eq_right (not_lt.1 h)]
theorem mkPoint_f (a b : K) : mkPoint (.fin a) (.fin b) = finC ⟨a, b⟩ := rfl
theorem cadd_f (a b : Cx K) : cadd (finC a) (finC b) = finC (a + b) := rfl
theorem cneg_f (a : Cx K) : cneg (finC a) = finC (-a) := rfl
theorem cmid_f (a b : Cx K) : cmid (finC a) (finC b) = finC (Cx.divK (a + b) 2) := by
  unfold cmid finC
  rw [mid_f, mid_f]; rfl

theorem finC_inj {a b : Cx K} (h : finC a = finC b) : a = b := by
  have h1 := congrArg Cx.re h
  have h2 := congrArg Cx.im h
  simp only [finC, XNum.fin.injEq] at h1 h2
  exact Cx.ext h1 h2

theorem isNaN_f (a : Cx K) : isNaN (finC a) = false := by simp [isNaN, finC]

theorem ceq_zero (a : Cx K) : ceq (finC a) ⟨.fin 0, .fin 0⟩ = decide (a = 0) := by
  rw [Bool.eq_iff_iff, ceq_iff, decide_eq_true_iff]
  constructor
  · rintro ⟨h, -⟩; exact finC_inj h
  · rintro rfl; exact ⟨rfl, isNaN_f _⟩

theorem sum_f (l : List K) : XNum.sum (l.map .fin) = .fin l.sum := by
  have h : ∀ (l : List K) (c : K), (l.map XNum.fin).foldl XNum.add (.fin c) = .fin (c + l.sum) := by
    intro l
    induction l with
    | nil => intro c; simp
    | cons a l ih => intro c; rw [List.map_cons, List.foldl_cons, add_f, ih, List.sum_cons, add_assoc]
  unfold XNum.sum
  rw [h, zero_add]

theorem linspace_f (a b : Cx K) (n : ℕ) : xLinspace (finC a) (finC b) n = (linspace a b n).map finC := by
  match n with
  | 0 => rfl
  | 1 =>
    unfold linspace xLinspace
    simp [List.range_succ, finC]
  | n + 2 =>
    have hn : (n : K) + 1 ≠ 0 := by positivity
    unfold linspace xLinspace
    dsimp only
    rw [List.range_succ (n := n + 1), List.map_append, List.map_append, List.map_map]
    congr 1
    · apply List.map_congr_left
      intro k _
      simp only [Function.comp_apply, finC, sub_f, over_f, scale_f, cadd, add_f, Cx.add_re, Cx.add_im, Cx.smul_re, Cx.smul_im,
        Cx.sub_re, Cx.sub_im, Cx.mk.injEq, XNum.fin.injEq]
      have : (((n + 2 : ℕ) : K) - 1) = (n : K) + 1 := by push_cast; ring
      rw [this]
      constructor <;> (field_simp)
    · have : (((n + 2 : ℕ) : K) - 1) = (n : K) + 1 := by push_cast; ring
      simp only [List.map_cons, List.map_nil, this]
      have h1 : (((n + 1 : ℕ) : K) / ((n : K) + 1)) = 1 := by push_cast; exact div_self hn
      rw [h1]
      congr 2
      ext <;> simp

theorem whereFrom_map {α β : Type} (g : α → β) (p : β → Bool) (q : α → Bool) (h : ∀ a, p (g a) = q a) :
    ∀ (l : List α) (i : ℕ), whereFrom p i (l.map g) = whereFrom q i l := by
  intro l
  induction l with
  | nil => intro i; rfl
  | cons a l ih => intro i; rw [List.map_cons]; unfold whereFrom; rw [h, ih]

theorem whereFrom_lt {α : Type} (p : α → Bool) : ∀ (l : List α) (i k : ℕ), k ∈ whereFrom p i l → k < i + l.length := by
  intro l
  induction l with
  | nil => intro i k h; cases h
  | cons a l ih =>
    intro i k h
    unfold whereFrom at h
    rw [List.length_cons]
    split_ifs at h
    · rcases List.mem_cons.1 h with h | h
      · omega
      · have := ih _ _ h; omega
    · have := ih _ _ h; omega

theorem getD_map {α β : Type} (g : α → β) (l : List α) (k : ℕ) (d : α) (e : β) (h : k < l.length) :
    (l.map g).getD k e = g (l.getD k d) := by
  simp [List.getD_eq_getElem?_getD, h]

/-! ## States -/

/-- the order 0 entry of the estimator's cache -/
def entry (c : EstCache K) (e : Cx K × Cx K) : Option (Cx K) :=
  match c.data.get? 0 with
  | none => none
  | some oc => oc.get? e

/-- related states, apart from the cache: no interrupt pending, the same additions, related estimators -/
structure W0 (R : σ → τ → Prop) (w : World σ K) (x : XWorld τ K) : Prop where
  fuse : w.fuse = none
  added : x.added = w.added.map finRoot
  est : R w.est x.est

/-- related states -/
structure W (R : σ → τ → Prop) (w : World σ K) (x : XWorld τ K) : Prop extends W0 R w x where
  wf : ∀ oc, w.cache.data.get? 0 = some oc → oc.WF
  cache : ∀ a b, lookup lineEq (finC a, finC b) x.cache = (entry w.cache (a, b)).map finC

/-- related contexts -/
structure Ctx (ctx : RCtx K) (xctx : XCtx K) : Prop where
  f : FiniteValues ctx.f xctx.f
  precision : xctx.precision = ctx.precision
  reRan : xctx.reRan = finRan ctx.reRan
  imRan : xctx.imRan = finRan ctx.imRan

variable {R : σ → τ → Prop}

theorem tick_none {w : World σ K} (h : w.fuse = none) : World.tick w = (.ok (), w) := by
  unfold World.tick; rw [h]

theorem addRoots_none : ∀ (rs : List (Root K)) (w : World σ K), w.fuse = none →
    World.addRoots rs w = (.ok (), { w with added := w.added ++ rs }) := by
  intro rs
  induction rs with
  | nil => intro w h; unfold World.addRoots; simp
  | cons r rs ih =>
    intro w h
    unfold World.addRoots
    have h1 : World.addRoot r w = (.ok (), { w with added := w.added ++ [r] }) := by
      unfold World.addRoot; rw [Py.bind_ok (tick_none h)]; rfl
    rw [Py.bind_ok h1]
    exact (ih { w with added := w.added ++ [r] } h).trans (by simp)

theorem sim_add {w : World σ K} {x : XWorld τ K} (rs : List (Root K)) (h : W R w x) :
    Sim (W R) (fun _ _ => True) (World.addRoots rs) (addPoints (rs.map finRoot)) w x := by
  unfold Sim addPoints
  rw [addRoots_none rs w h.fuse]
  refine ⟨trivial, ⟨⟨h.fuse, ?_, h.est⟩, h.wf, h.cache⟩⟩
  show x.added ++ _ = List.map _ (w.added ++ rs)
  rw [List.map_append, h.added]

theorem sim_advance {w : World σ K} {x : XWorld τ K} (ctx : RCtx K) (a : K) (h : W R w x) :
    Sim (W R) (fun _ _ => True) (World.advance ctx a) (pure ()) w x := by
  unfold World.advance
  cases ctx.progress with
  | false => exact sim_pure trivial h
  | true =>
    rw [if_pos rfl]
    unfold Sim
    rw [Py.bind_ok (tick_none h.fuse)]
    exact ⟨trivial, ⟨⟨h.fuse, h.added, h.est⟩, h.wf, h.cache⟩⟩

/-! ## Samples -/

/-- related sample arrays -/
def Samples (a : List (Cx K) × List (Cx K)) (b : List (XCx K) × List (XCx K)) (size : ℕ) : Prop :=
  b.1 = a.1.map finC ∧ b.2 = a.2.map finC ∧ (∀ v ∈ a.2, v ≠ 0) ∧ a.1.length = size ∧ a.2.length = size

theorem sim_funcLoop (f : Cx K → Cx K) (xf : XCx K → XCx K) (hf : FiniteValues f xf) (shift : Cx K) :
    ∀ (n : ℕ) (zs : List (Cx K)) (w : World σ K) (x : XWorld τ K), W R w x →
      Sim (W R) (fun a b => Samples a b zs.length) (genFuncLoop f shift n zs)
        (xFuncLoop xf (finC shift) n (zs.map finC)) w x := by
  intro n
  induction n with
  | zero => intro zs w x h; exact sim_throw (by decide) h
  | succ n ih =>
    intro zs w x h
    unfold genFuncLoop xFuncLoop
    have e : (zs.map finC).filter (fun z => ceq (xf z) ⟨.fin 0, .fin 0⟩) =
        (zs.filter fun z => decide (f z = 0)).map finC := by
      rw [List.filter_map]
      congr 1
      apply List.filter_congr
      intro z _
      rw [Function.comp_apply, hf, ceq_zero]
    dsimp only
    rw [e, List.isEmpty_map]
    by_cases hz : (zs.filter fun z => decide (f z = 0)).isEmpty = true
    · rw [if_pos hz, if_pos hz]
      refine sim_pure ⟨rfl, ?_, ?_, rfl, by simp⟩ h
      · rw [List.map_map, List.map_map]
        apply List.map_congr_left
        intro z _
        exact hf z
      · intro v hv h0
        obtain ⟨z, hz1, rfl⟩ := List.mem_map.1 hv
        rw [List.isEmpty_iff, List.filter_eq_nil_iff] at hz
        exact hz z hz1 (by simpa using h0)
    · rw [if_neg hz, if_neg hz]
      have e1 : ((zs.filter fun z => decide (f z = 0)).map finC).map (fun z => ((z, 0) : XCx K × ℤ)) =
          ((zs.filter fun z => decide (f z = 0)).map fun z => ((z, 0) : Root K)).map finRoot := by
        rw [List.map_map, List.map_map]; rfl
      have e2 : (zs.map finC).map (fun z => cadd z (finC shift)) = (zs.map (· + shift)).map finC := by
        rw [List.map_map, List.map_map]
        apply List.map_congr_left
        intro z _; rfl
      rw [e1, e2]
      refine sim_bind (sim_add _ h) fun _ _ w' x' _ h' => ?_
      have := ih (zs.map (· + shift)) w' x' h'
      rwa [List.length_map] at this

theorem sim_funcArr (fuel : ℕ → ℕ) (a b : Cx K) (ctx : RCtx K) (xctx : XCtx K) (hc : Ctx ctx xctx) (size : ℕ)
    (w : World σ K) (x : XWorld τ K) (h : W R w x) :
    Sim (W R) (fun r s => Samples r s size) (genFuncArr fuel a b ctx size)
      (xFuncArr fuel (finC a) (finC b) xctx size) w x := by
  unfold genFuncArr xFuncArr
  have e : (if XNum.eq (finC a).im (finC b).im then ⟨.fin 0, .fin (2 * eps10 K xctx.precision.2)⟩
      else ⟨.fin (2 * eps10 K xctx.precision.1), .fin 0⟩ : XCx K) = finC (lineShift a b ctx.precision) := by
    unfold lineShift
    rw [hc.precision]
    show (if XNum.eq (.fin a.im) (.fin b.im) = true then _ else _) = _
    rw [eq_f]
    by_cases hi : a.im = b.im
    · rw [if_pos (by simpa using hi), if_pos hi]; rfl
    · rw [if_neg (by simpa using hi), if_neg hi]; rfl
  rw [e, linspace_f]
  have := sim_funcLoop (R := R) ctx.f xctx.f hc.f (lineShift a b ctx.precision) (fuel size) (linspace a b size) w x h
  have hl : (linspace a b size).length = size := by simp [linspace]
  rwa [hl] at this

/-! ## The cache and the four edges -/

theorem line_exact (a b : Cx K) : ∀ p, lineEq p (finC a, finC b) = true ↔ p = (finC a, finC b) := by
  intro p
  rw [lineEq_iff]
  constructor
  · exact fun h => h.1
  · rintro rfl; exact ⟨rfl, isNaN_f _, isNaN_f _⟩

theorem lookup_put {κ ν : Type} [DecidableEq κ] {eq : κ → κ → Bool} {k k' : κ} (hk : ∀ p, eq p k = true ↔ p = k)
    (hk' : ∀ p, eq p k' = true ↔ p = k') (v : ν) (d : XDict κ ν) :
    lookup eq k' (put eq k v d) = if k = k' then some v else lookup eq k' d := by
  by_cases h : k = k'
  · subst h
    rw [if_pos rfl]
    exact lookup_put_self ((hk k).2 rfl) v d
  · rw [if_neg h]
    have h1 : eq k k' = false := by
      cases hh : eq k k' with
      | false => rfl
      | true => exact absurd ((hk' k).1 hh) h
    unfold lookup put
    rw [List.find?_cons, h1]
    dsimp only
    congr 1
    rw [List.find?_filter]
    congr 1
    funext e
    cases h2 : eq e.1 k' with
    | false => simp
    | true =>
      have := (hk' _).1 h2
      cases h3 : eq e.1 k with
      | false => simp
      | true => exact absurd (((hk _).1 h3).symm.trans this) h

theorem lookup_del {κ ν : Type} [DecidableEq κ] {eq : κ → κ → Bool} {k k' : κ} (hk : ∀ p, eq p k = true ↔ p = k)
    (hk' : ∀ p, eq p k' = true ↔ p = k') (d : XDict κ ν) :
    lookup eq k' (del eq k d) = if k = k' then none else lookup eq k' d := by
  unfold lookup del
  rw [List.find?_filter]
  by_cases h : k = k'
  · subst h
    rw [if_pos rfl]
    have : (fun e : κ × ν => (decide ((!eq e.1 k) = true ∧ eq e.1 k = true))) = fun _ => false := by
      funext e; cases eq e.1 k <;> simp
    rw [this]; simp
  · rw [if_neg h]
    congr 2
    funext e
    cases h2 : eq e.1 k' with
    | false => simp
    | true =>
      have := (hk' _).1 h2
      cases h3 : eq e.1 k with
      | false => simp
      | true => exact absurd (((hk _).1 h3).symm.trans this) h

theorem entry_store (c : EstCache K) (a b v : Cx K) (e : Cx K × Cx K) :
    entry (c.store 0 a b v) e = if (a, b) = e then some v else entry c e := by
  unfold entry EstCache.store
  rcases hg : c.data.get? 0 with _ | oc
  · simp [Dict.get?_set, Dict.get?]
  · simp [Dict.get?_set]

theorem wf_store {c : EstCache K} (h : ∀ oc, c.data.get? 0 = some oc → oc.WF) (a b v : Cx K) :
    ∀ oc, (c.store 0 a b v).data.get? 0 = some oc → oc.WF := by
  intro oc hoc
  unfold EstCache.store at hoc
  rcases hg : c.data.get? 0 with _ | od
  · rw [hg] at hoc
    simp only [Dict.get?_set, if_true, Option.some.injEq] at hoc
    subst hoc
    simp [Dict.WF, Dict.keys]
  · rw [hg] at hoc
    simp only [Dict.get?_set, if_true, Option.some.injEq] at hoc
    subst hoc
    exact (h od hg).set _ _

theorem pair_inj (a b c d : Cx K) : ((finC a, finC b) = (finC c, finC d)) ↔ (a, b) = (c, d) := by
  constructor
  · intro h
    rw [Prod.mk.injEq] at h
    rw [finC_inj h.1, finC_inj h.2]
  · intro h
    rw [Prod.mk.injEq] at h
    rw [h.1, h.2]

theorem w_store {w : World σ K} {x : XWorld τ K} (h : W R w x) (a b v : Cx K) :
    W R { w with cache := w.cache.store 0 a b v } { x with cache := put lineEq (finC a, finC b) (finC v) x.cache } := by
  refine ⟨⟨h.fuse, h.added, h.est⟩, wf_store h.wf a b v, fun c d => ?_⟩
  rw [lookup_put (line_exact a b) (line_exact c d), entry_store, h.cache]
  simp only [pair_inj]
  split <;> rfl

theorem entry_remove {c : EstCache K} (h : ∀ oc, c.data.get? 0 = some oc → oc.WF) (a b : Cx K) (e : Cx K × Cx K) :
    entry (c.remove 0 a b) e = if (a, b) = e then none else entry c e := by
  unfold entry EstCache.remove
  rcases hg : c.data.get? 0 with _ | oc
  · simp [hg]
  · simp [Dict.get?_set, Dict.get?_erase (h oc hg)]

theorem wf_remove {c : EstCache K} (h : ∀ oc, c.data.get? 0 = some oc → oc.WF) (a b : Cx K) :
    ∀ oc, (c.remove 0 a b).data.get? 0 = some oc → oc.WF := by
  intro oc hoc
  unfold EstCache.remove at hoc
  rcases hg : c.data.get? 0 with _ | od
  · rw [hg] at hoc
    exact h oc hoc
  · rw [hg] at hoc
    simp only [Dict.get?_set, if_true, Option.some.injEq] at hoc
    subst hoc
    exact (h od hg).erase _

theorem sim_remove {w : World σ K} {x : XWorld τ K} (h : W R w x) (a b : Cx K) :
    Sim (W R) (fun _ _ => True) (cacheRemove a b) (xRemove (finC a) (finC b)) w x := by
  refine ⟨trivial, ⟨⟨h.fuse, h.added, h.est⟩, wf_remove h.wf a b, fun c d => ?_⟩⟩
  show lookup lineEq (finC c, finC d) (del lineEq (finC a, finC b) x.cache) = (entry (w.cache.remove 0 a b) (c, d)).map finC
  rw [lookup_del (line_exact a b) (line_exact c d), entry_remove h.wf, h.cache]
  simp only [pair_inj]
  split <;> rfl

/-- the estimators do the same on every line -/
def EstSim (R : σ → τ → Prop) (est : LineEst σ K) (xest : XLineEst τ K) (ctx : RCtx K) (xctx : XCtx K) : Prop :=
  ∀ a b w x, W R w x → Sim (W R) (fun d e => e = finC d) (est 0 a b ctx) (xest (finC a) (finC b) xctx) w x

section
variable {est : LineEst σ K} {xest : XLineEst τ K} {ctx : RCtx K} {xctx : XCtx K}

theorem retrieve_w {w : World σ K} {x : XWorld τ K} (h : W R w x) (a b : Cx K) :
    (w.cache.retrieve 0 a b).1 = entry w.cache (a, b) ∧ W R { w with cache := (w.cache.retrieve 0 a b).2 } x := by
  have hd : (w.cache.retrieve 0 a b).2.data = w.cache.data := by
    unfold EstCache.retrieve
    dsimp only
    split <;> rfl
  refine ⟨rfl, ⟨⟨h.fuse, h.added, h.est⟩, ?_, fun c d => ?_⟩⟩
  · intro oc hoc
    rw [hd] at hoc
    exact h.wf oc hoc
  · rw [h.cache]
    unfold entry
    dsimp only
    rw [hd]

theorem sim_compute (he : EstSim R est xest ctx xctx) (a b : Cx K) {w : World σ K} {x : XWorld τ K} (h : W R w x) :
    Sim (W R) (fun d e => e = finC d) (edgeMoment.compute est 0 ctx (a, b))
      (xEdge.compute xest xctx (finC a, finC b)) w x := by
  unfold edgeMoment.compute xEdge.compute
  refine sim_left (tick_none h.fuse) ?_
  refine sim_bind (he a b w x h) fun d e w' x' hde h' => ?_
  subst hde
  refine sim_bind (A := fun _ _ => True) (sim_modify ?_) fun _ _ w' x' _ h' => sim_pure rfl h'
  have := w_store (w_store h' a b d) b a (-d)
  rw [← cneg_f] at this
  exact this

theorem sim_edge (he : EstSim R est xest ctx xctx) (a b : Cx K) {w : World σ K} {x : XWorld τ K} (h : W R w x) :
    Sim (W R) (fun d e => e = finC d) (edgeMoment est 0 ctx (a, b)) (xEdge xest xctx (finC a, finC b)) w x := by
  obtain ⟨h1, h2⟩ := retrieve_w h a b
  unfold edgeMoment xEdge
  refine sim_left (a := entry w.cache (a, b)) (w' := { w with cache := (w.cache.retrieve 0 a b).2 }) ?_ ?_
  · unfold World.retrieve; rw [h1]
  · refine sim_getx ?_
    rw [h.cache]
    rcases hv : entry w.cache (a, b) with _ | v
    · exact sim_compute he a b h2
    · show Sim (W R) _ (if v ≠ 0 then pure v else _) (if ceq (finC v) ⟨.fin 0, .fin 0⟩ = true then _ else _) _ x
      rw [ceq_zero]
      by_cases h0 : v = 0
      · rw [if_neg (by simpa using h0), if_pos (by simpa using h0)]
        exact sim_compute he a b h2
      · rw [if_pos h0, if_neg (by simpa using h0)]
        exact sim_pure rfl h2

theorem sim_sumEdges (he : EstSim R est xest ctx xctx) : ∀ (es : List (Cx K × Cx K)) (phi : Cx K) (w : World σ K)
    (x : XWorld τ K), W R w x → Sim (W R) (fun d e => e = finC d) (sumEdges est 0 ctx es phi)
      (xSumEdges xest xctx (es.map fun e => (finC e.1, finC e.2)) (finC phi)) w x := by
  intro es
  induction es with
  | nil => intro phi w x h; exact sim_pure rfl h
  | cons e es ih =>
    intro phi w x h
    rw [List.map_cons]
    unfold sumEdges xSumEdges
    refine sim_bind (sim_edge he e.1 e.2 h) fun d d' w' x' hd h' => ?_
    subst hd
    rw [cadd_f]
    exact ih _ _ _ h'

theorem edges_f (re im : K × K) : xEdges (finRan re) (finRan im) = (edges re im).map fun e => (finC e.1, finC e.2) := rfl

theorem sim_phase (he : EstSim R est xest ctx xctx) (re im : K × K) {w : World σ K} {x : XWorld τ K} (h : W R w x) :
    Sim (W R) (fun d e => e = .fin d) (phaseOf est re im ctx) (xPhase xest (finRan re) (finRan im) xctx) w x := by
  unfold phaseOf xPhase calcMoment
  rw [edges_f]
  refine sim_bind (sim_sumEdges he (edges re im) 0 w x h) fun d d' w' x' hd h' => ?_
  subst hd
  refine sim_left rfl ?_
  exact sim_pure rfl ⟨⟨h'.fuse, h'.added, h'.est⟩, h'.wf, h'.cache⟩

/-! ## The algorithms -/

theorem sim_root (pi right left top bottom phi : K) {w : World σ K} {x : XWorld τ K} (h : W R w x) :
    Sim (W R) (fun _ _ => True) (getRootFromRectangle pi right left top bottom phi ctx)
      (xRootFromRectangle pi (.fin right) (.fin left) (.fin top) (.fin bottom) (.fin phi)) w x := by
  unfold getRootFromRectangle xRootFromRectangle
  rw [mid_f, mid_f]
  have h1 : World.addRoot (Cx.divK ⟨left + right, bottom + top⟩ 2, roundHalfEven (phi / (2 * pi))) w =
      (.ok (), { w with added := w.added ++ [(Cx.divK ⟨left + right, bottom + top⟩ 2, roundHalfEven (phi / (2 * pi)))] }) := by
    unfold World.addRoot; rw [Py.bind_ok (tick_none h.fuse)]; rfl
  refine sim_left h1 ?_
  have h2 : W R { w with added := w.added ++ [(Cx.divK ⟨left + right, bottom + top⟩ 2, roundHalfEven (phi / (2 * pi)))] }
      { x with added := x.added ++ [(⟨.fin ((left + right) / 2), .fin ((bottom + top) / 2)⟩, roundHalfEven (phi / (2 * pi)))] } := by
    refine ⟨⟨h.fuse, ?_, h.est⟩, h.wf, h.cache⟩
    show x.added ++ _ = List.map _ (w.added ++ _)
    rw [List.map_append, h.added]; rfl
  exact ⟨(sim_advance ctx _ h2).1, (sim_advance ctx _ h2).2⟩

/-- the refinement steps do the same on every finite rectangle -/
def DecideSim (R : σ → τ → Prop) (d : Decide σ K) (e : XDecide τ K) (ctx : RCtx K) (xctx : XCtx K) : Prop :=
  ∀ re im phi w x, W R w x →
    Sim (W R) (fun _ _ => True) (d re im phi ctx) (e (finRan re) (finRan im) (.fin phi) xctx) w x

theorem sim_simple (he : EstSim R est xest ctx xctx) (hc : Ctx ctx xctx) (pi : K) {d : Decide σ K} {e : XDecide τ K}
    (hd : DecideSim R d e ctx xctx) : DecideSim R (simpleDecide est pi d) (xSimple xest pi e) ctx xctx := by
  intro re im phi w x h
  obtain ⟨x1, x2⟩ := re
  obtain ⟨y1, y2⟩ := im
  unfold simpleDecide xSimple
  dsimp only [finRan]
  simp only [hc.precision, lt_f, sub_f, over_f, mid_f, mkPoint_f, Bool.and_eq_true, decide_eq_true_eq, gt_iff_lt]
  split_ifs
  · exact sim_advance ctx _ h
  · exact sim_root pi _ _ _ _ _ h
  · refine sim_bind (sim_phase he (x1, (x1 + x2) / 2) (y1, y2) h) fun p q w x hp h => ?_
    subst hp
    refine sim_bind (hd _ _ _ w x h) fun _ _ w x _ h => ?_
    refine sim_bind (sim_remove h _ _) fun _ _ w x _ h => ?_
    refine sim_bind (sim_phase he ((x1 + x2) / 2, x2) (y1, y2) h) fun p q w x hp h => ?_
    subst hp
    refine sim_bind (hd _ _ _ w x h) fun _ _ w x _ h => ?_
    exact sim_remove h _ _
  · refine sim_bind (sim_phase he (x1, x2) (y1, (y1 + y2) / 2) h) fun p q w x hp h => ?_
    subst hp
    refine sim_bind (hd _ _ _ w x h) fun _ _ w x _ h => ?_
    refine sim_bind (sim_remove h _ _) fun _ _ w x _ h => ?_
    refine sim_bind (sim_phase he (x1, x2) ((y1 + y2) / 2, y2) h) fun p q w x hp h => ?_
    subst hp
    refine sim_bind (hd _ _ _ w x h) fun _ _ w x _ h => ?_
    exact sim_remove h _ _

theorem sim_dispatch {body : Decide σ K → Decide σ K} {xbody : XDecide τ K → XDecide τ K}
    (hb : ∀ d e, DecideSim R d e ctx xctx → DecideSim R (body d) (xbody e) ctx xctx) :
    ∀ limit, DecideSim R (dispatch body limit) (xDispatch xbody limit) ctx xctx := by
  intro limit
  induction limit with
  | zero => intro re im phi w x h; exact sim_throw (by decide) h
  | succ n ih => exact hb _ _ ih

theorem sim_calcRoots (he : EstSim R est xest ctx xctx) (hc : Ctx ctx xctx) {pi : K} {variant : XVariant τ K}
    {body : Decide σ K → Decide σ K}
    (hb : ∀ d e, DecideSim R d e ctx xctx → DecideSim R (body d) (xDecide xest pi variant e) ctx xctx)
    (limit : ℕ) {w : World σ K} {x : XWorld τ K} (h : W0 R w x) :
    Sim (W R) (fun _ _ => True) (calcRoots est body limit ctx) (xCalcRoots xest pi variant limit xctx) w x := by
  unfold calcRoots xCalcRoots
  have hr : Sim (W R) (fun _ _ => True) (resetCache : Py (World σ K) Unit)
      (Py.modify fun w : XWorld τ K => { w with cache := [] }) w x := by
    refine ⟨trivial, ?_⟩
    show W R (if w.cache.dirty then { w with cache := w.cache.reset } else w) { x with cache := [] }
    by_cases hdirty : w.cache.dirty = true
    · rw [if_pos hdirty]
      refine ⟨⟨h.fuse, h.added, h.est⟩, ?_, fun a b => rfl⟩
      intro oc hoc
      cases hoc
    · rw [if_neg hdirty]
      have h0 : w.cache.data = [] := by
        unfold EstCache.dirty at hdirty
        simpa using hdirty
      refine ⟨⟨h.fuse, h.added, h.est⟩, ?_, fun a b => ?_⟩
      · intro oc hoc
        rw [h0] at hoc
        cases hoc
      · unfold entry
        rw [h0]; rfl
  refine sim_bind hr fun _ _ w x _ h => ?_
  rw [hc.reRan, hc.imRan]
  refine sim_bind (sim_phase he ctx.reRan ctx.imRan h) fun p q w x hp h => ?_
  subst hp
  exact sim_dispatch hb limit _ _ _ _ _ h

end

/-! ## The summation estimator -/

/-- a finite line with its phase increments -/
def finLine (v : PhiLine K) : XLine K := (v.1.map finC, v.2.map .fin)

theorem num_exact (a : K) : ∀ p, XNum.eq p (.fin a) = true ↔ p = .fin a := by
  intro p
  rw [XNum.eq_iff]
  constructor
  · exact fun h => h.1
  · rintro rfl; exact ⟨rfl, fun h => nomatch h⟩

theorem side_exact (a : K) (s : Side) : ∀ p, sideEq p (.fin a, s) = true ↔ p = (.fin a, s) := by
  intro p
  rw [sideEq_iff]
  constructor
  · exact fun h => h.1
  · rintro rfl; exact ⟨rfl, fun h => nomatch h⟩

/-- related inner dictionaries of the caches for lines -/
def Inner (i : Dict (K × Side) (PhiLine K)) (xi : XDict (XNum K × Side) (XLine K)) : Prop :=
  ∀ a s, lookup sideEq (.fin a, s) xi = (i.get? (a, s)).map finLine

/-- related caches for lines -/
def Lines (c : LineCache K) (xc : XLineCache K) : Prop :=
  ∀ z, (c.get? (z, 0) = none ∧ lookup XNum.eq (.fin z) xc = none) ∨
    ∃ i xi, c.get? (z, 0) = some i ∧ lookup XNum.eq (.fin z) xc = some xi ∧ Inner i xi

/-- related states of the estimators -/
def SumRel (s : SumState K) (x : XSumState K) : Prop := Lines s.horizontal x.horizontal ∧ Lines s.vertical x.vertical

theorem inner_put {i : Dict (K × Side) (PhiLine K)} {xi : XDict (XNum K × Side) (XLine K)} (h : Inner i xi) (a : K) (s : Side)
    (v : PhiLine K) : Inner (i.set (a, s) v) (put sideEq (.fin a, s) (finLine v) xi) := by
  intro b t
  rw [lookup_put (side_exact a s) (side_exact b t), Dict.get?_set, h]
  have e : ((XNum.fin a, s) = (XNum.fin b, t)) ↔ (a, s) = (b, t) := by simp
  simp only [e]
  split <;> rfl

theorem lines_store {c : LineCache K} {xc : XLineCache K} (h : Lines c xc) (z lo hi : K) (v : PhiLine K) :
    Lines (storeCache c z 0 lo hi v) (xStore xc (.fin z) (.fin lo) (.fin hi) (finLine v)) := by
  have hin : Inner ((c.get? (z, 0)).getD []) ((lookup XNum.eq (.fin z) xc).getD []) := by
    rcases h z with ⟨h1, h2⟩ | ⟨i, xi, h1, h2, h3⟩
    · rw [h1, h2]; intro a s; rfl
    · rw [h1, h2]; exact h3
  intro y
  unfold storeCache xStore
  dsimp only
  rw [Dict.get?_set, lookup_put (num_exact z) (num_exact y)]
  by_cases hy : z = y
  · subst hy
    right
    exact ⟨_, _, if_pos rfl, if_pos rfl, inner_put (inner_put hin lo .start v) hi .stop v⟩
  · rw [if_neg (by simpa using hy), if_neg (by simpa using hy)]
    exact h y

theorem cached_f {c : LineCache K} {xc : XLineCache K} (h : Lines c xc) (z lo hi : K) :
    xCached xc (.fin z) (.fin lo) (.fin hi) = (cachedLine c z 0 lo hi).map fun p => (p.1, finLine p.2) := by
  unfold xCached cachedLine
  rcases h z with ⟨h1, h2⟩ | ⟨i, xi, h1, h2, h3⟩
  · rw [h1, h2]; rfl
  · rw [h1, h2]
    dsimp only
    rw [h3 lo .start, h3 hi .stop]
    rcases i.get? (lo, .start) with _ | v
    · rcases i.get? (hi, .stop) with _ | v <;> rfl
    · rfl

theorem cutEnd_f (proj : Cx K → K) (xproj : XCx K → XNum K) (hp : ∀ z, xproj (finC z) = .fin (proj z)) (v : PhiLine K)
    (hi : K) : xCutEnd xproj (finLine v) (.fin hi) = (cutEnd proj v hi).map finLine := by
  unfold xCutEnd cutEnd finLine
  dsimp only
  rw [whereFrom_map finC _ (fun z => decide (proj z ≤ hi)) (fun z => by rw [hp, le_f])]
  split_ifs
  · rfl
  · simp [List.map_take]

theorem cutStartH_f (v : PhiLine K) (lo : K) : xCutStartH (finLine v) (.fin lo) = (cutStartH v lo).map finLine := by
  unfold xCutStartH cutStartH finLine
  dsimp only
  rw [whereFrom_map finC _ (fun z => decide (lo ≤ z.re)) (fun z => le_f _ _)]
  split_ifs
  · rfl
  · simp [List.map_drop]

theorem cutStartV_f (v : PhiLine K) (lo hi : K) : xCutStartV (finLine v) (.fin lo) (.fin hi) =
    (cutStartV v lo hi).map (Option.map finLine) := by
  unfold xCutStartV cutStartV finLine
  dsimp only
  rw [whereFrom_map finC _ (fun z => decide (z.im ≤ hi)) (fun z => le_f _ _),
    whereFrom_map finC _ (fun z => decide (lo ≤ z.im)) (fun z => le_f _ _)]
  split_ifs
  · rfl
  · generalize whereFrom (fun z : Cx K => decide (lo ≤ z.im)) 0 v.1 = l
    cases l with
    | nil => rfl
    | cons m l => simp [List.map_drop, Except.map]

theorem reuseH_f {c : LineCache K} {xc : XLineCache K} (h : Lines c xc) (lo hi y : K) :
    xReuseH xc (.fin lo) (.fin hi) (.fin y) = (reuseH c 0 lo hi y).map finLine := by
  unfold xReuseH reuseH
  rw [cached_f h]
  rcases cachedLine c y 0 lo hi with _ | ⟨s, v⟩
  · rfl
  · cases s
    · exact cutEnd_f _ _ (fun _ => rfl) v hi
    · exact cutStartH_f v lo

theorem reuseV_f {c : LineCache K} {xc : XLineCache K} (h : Lines c xc) (lo hi x : K) :
    xReuseV xc (.fin lo) (.fin hi) (.fin x) = (reuseV c 0 lo hi x).map (Option.map finLine) := by
  unfold xReuseV reuseV
  rw [cached_f h]
  rcases cachedLine c x 0 lo hi with _ | ⟨s, v⟩
  · rfl
  · cases s
    · show Except.ok (xCutEnd Cx.im (finLine v) (.fin hi)) = .ok ((cutEnd Cx.im v hi).map finLine)
      rw [cutEnd_f Cx.im _ (fun _ => rfl) v hi]
    · exact cutStartV_f v lo hi

theorem reuseV_error (c : LineCache K) (lo hi x : K) (e : Err) (h : reuseV c 0 lo hi x = .error e) : e = .indexError := by
  unfold reuseV at h
  generalize cachedLine c x 0 lo hi = o at h
  rcases o with _ | ⟨s, v⟩
  · cases h
  · cases s
    · cases h
    · dsimp only at h
      unfold cutStartV at h
      split_ifs at h
      generalize whereFrom (fun z : Cx K => decide (lo ≤ z.im)) 0 v.1 = l at h
      rcases l with _ | ⟨m, l⟩
      · injection h with h; exact h.symm
      · cases h

variable {cfg : SumCfg K} {xcfg : XSumCfg K}

theorem phases_f (hs : FiniteSum cfg xcfg) : ∀ fs : List (Cx K), (∀ v ∈ fs, v ≠ 0) →
    xPhases xcfg.phase (fs.map finC) = (phases cfg.arg fs).map .fin := by
  intro fs
  induction fs with
  | nil => intro _; rfl
  | cons a fs ih =>
    intro h
    cases fs with
    | nil => rfl
    | cons b fs =>
      have := ih (fun v hv => h v (List.mem_cons_of_mem _ hv))
      unfold xPhases phases at this ⊢
      simp only [List.map_cons, List.tail_cons, List.zipWith_cons_cons] at this ⊢
      rw [this, hs.phase a b (h a List.mem_cons_self)]

theorem dist_f (hs : FiniteSum cfg xcfg) (a b : Cx K) :
    XNum.lt (xcfg.dist (finC a) (finC b)) (.fin xcfg.maxPrecision) =
      decide (0 < cfg.maxPrecision ∧ (a - b).normSq < cfg.maxPrecision ^ 2) := by
  obtain ⟨d, h1, h2, h3⟩ := hs.dist a b
  rw [h1, lt_f, hs.maxPrecision, ← h3, decide_eq_decide]
  constructor
  · intro h
    exact ⟨lt_of_le_of_lt h2 h, pow_lt_pow_left₀ h h2 (by norm_num)⟩
  · rintro ⟨h4, h5⟩
    exact lt_of_pow_lt_pow_left₀ 2 h4.le h5

section
variable {ctx : RCtx K} {xctx : XCtx K}

theorem phases_length (arg : Cx K → K) (fs : List (Cx K)) : (phases arg fs).length = fs.length - 1 := by
  simp [phases]

theorem sim_refineLoop (hs : FiniteSum cfg xcfg) (hc : Ctx ctx xctx) :
    ∀ (n idx : ℕ) (zs : List (Cx K)) (ps : List K) (w : World (SumState K) K) (x : XWorld (XSumState K) K),
      ps.length ≤ zs.length - 1 → W SumRel w x →
      Sim (W SumRel) (fun v v' => v' = finLine v) (refineLoop cfg ctx n idx zs ps)
        (xRefineLoop xcfg xctx n idx (zs.map finC) (ps.map .fin)) w x := by
  intro n
  induction n with
  | zero => intro idx zs ps w x _ h; exact sim_throw (by decide) h
  | succ n ih =>
    intro idx zs ps w x hl h
    unfold refineLoop xRefineLoop
    rw [whereFrom_map XNum.fin _ (fun p => decide (cfg.deltaPhi ≤ |p|)) (fun p => by rw [abs_f, le_f, hs.deltaPhi])]
    rcases hw : whereFrom (fun p => decide (cfg.deltaPhi ≤ |p|)) 0 ps with _ | ⟨k, ks⟩
    · exact sim_pure rfl h
    · have hk : k < ps.length := by
        have := whereFrom_lt (fun p => decide (cfg.deltaPhi ≤ |p|)) ps 0 k (by rw [hw]; exact List.mem_cons_self)
        omega
      dsimp only
      rw [getD_map finC zs k 0 _ (by omega), getD_map finC zs (k + 1) 0 _ (by omega), getD_map XNum.fin ps k 0 _ hk,
        dist_f hs, abs_f, List.length_map, hs.numPts, hs.deltaPhi, hs.evals]
      simp only [decide_eq_true_eq]
      split_ifs
      · exact sim_pure rfl h
      · exact sim_pure rfl h
      · refine sim_bind (sim_funcArr cfg.evals _ _ ctx xctx hc _ w x h) fun r s w x hr h => ?_
        obtain ⟨h1, h2, h3, h4, h5⟩ := hr
        rw [h1, h2, phases_f hs _ h3]
        have := ih (idx + 1) (zs.take (k + 1) ++ (r.1.drop 1).dropLast ++ zs.drop (k + 1))
          (ps.take k ++ phases cfg.arg r.2 ++ ps.drop (k + 1)) w x ?_ h
        · simpa only [List.map_append, List.map_take, List.map_drop, List.map_dropLast] using this
        · simp only [List.length_append, List.length_take, List.length_drop, List.length_dropLast, phases_length]
          omega

theorem sim_phiArr (hs : FiniteSum cfg xcfg) (hc : Ctx ctx xctx) (a b : Cx K) {w : World (SumState K) K}
    {x : XWorld (XSumState K) K} (h : W SumRel w x) :
    Sim (W SumRel) (fun v v' => v' = finLine v) (genPhiArr cfg 0 a b ctx) (xPhiArr xcfg (finC a) (finC b) xctx) w x := by
  unfold genPhiArr xPhiArr
  rw [if_neg (by simp), hs.evals, hs.numPts, hs.steps]
  refine sim_bind (sim_funcArr cfg.evals a b ctx xctx hc cfg.numPts w x h) fun r s w x hr h => ?_
  obtain ⟨h1, h2, h3, h4, h5⟩ := hr
  rw [h1, h2, phases_f hs _ h3]
  exact sim_refineLoop hs hc cfg.steps 0 r.1 (phases cfg.arg r.2) w x (by rw [phases_length]; omega) h

theorem sim_slice (hs : FiniteSum cfg xcfg) (hc : Ctx ctx xctx) (a b : Cx K) {w : World (SumState K) K}
    {x : XWorld (XSumState K) K} (h : W SumRel w x) (o : Option (PhiLine K)) :
    Sim (W SumRel) (fun v v' => v' = finLine v) (sliceOrSample cfg 0 a b ctx o)
      (xSliceOrSample xcfg (finC a) (finC b) xctx (o.map finLine)) w x := by
  cases o with
  | some v => exact sim_pure rfl h
  | none => exact sim_phiArr hs hc a b h

theorem signed_f (a b : K) (v : PhiLine K) :
    xSigned (.fin a) (.fin b) (finLine v).2 = finC (Cx.ofK (lineSign a b * v.2.sum)) := by
  unfold xSigned finLine finC lineSign
  dsimp only
  rw [sum_f, lt_f, scale_f]
  simp only [decide_eq_true_eq]
  rfl

theorem sim_horizontal (hs : FiniteSum cfg xcfg) (hc : Ctx ctx xctx) (x1 x2 y : K) {w : World (SumState K) K}
    {x : XWorld (XSumState K) K} (h : W SumRel w x) :
    Sim (W SumRel) (fun d e => e = finC d) (retrieveCachedHorizontal cfg 0 x1 x2 y ctx)
      (xHorizontal xcfg (.fin x1) (.fin x2) (.fin y) xctx) w x := by
  unfold retrieveCachedHorizontal xHorizontal
  refine sim_get ?_
  dsimp only
  rw [sorted_f, mkPoint_f, mkPoint_f, reuseH_f h.est.1]
  refine sim_bind (sim_slice hs hc _ _ h _) fun v v' w x hv h => ?_
  subst hv
  refine sim_bind (A := fun _ _ => True) (sim_modify ?_) fun _ _ w x _ h => ?_
  · exact ⟨⟨h.fuse, h.added, ⟨lines_store h.est.1 _ _ _ _, h.est.2⟩⟩, h.wf, h.cache⟩
  · rw [signed_f]
    exact sim_pure rfl h

theorem sim_lift (c : LineCache K) (lo hi z : K) {w : World (SumState K) K} {x : XWorld (XSumState K) K} (h : W SumRel w x) :
    Sim (W SumRel) (fun r s => s = r.map finLine) (liftReuse (reuseV c 0 lo hi z))
      (xLift ((reuseV c 0 lo hi z).map (Option.map finLine))) w x := by
  rcases hr : reuseV c 0 lo hi z with e | r
  · have := reuseV_error c lo hi z e hr
    subst this
    exact sim_throw (by decide) h
  · exact sim_pure rfl h

theorem sim_vertical (hs : FiniteSum cfg xcfg) (hc : Ctx ctx xctx) (y1 y2 z : K) {w : World (SumState K) K}
    {x : XWorld (XSumState K) K} (h : W SumRel w x) :
    Sim (W SumRel) (fun d e => e = finC d) (retrieveCachedVertical cfg 0 y1 y2 z ctx)
      (xVertical xcfg (.fin y1) (.fin y2) (.fin z) xctx) w x := by
  unfold retrieveCachedVertical xVertical
  refine sim_get ?_
  dsimp only
  rw [sorted_f, mkPoint_f, mkPoint_f, reuseV_f h.est.2]
  refine sim_bind (sim_lift _ _ _ _ h) fun r s w x hr h => ?_
  subst hr
  refine sim_bind (sim_slice hs hc _ _ h _) fun v v' w x hv h => ?_
  subst hv
  refine sim_bind (A := fun _ _ => True) (sim_modify ?_) fun _ _ w x _ h => ?_
  · exact ⟨⟨h.fuse, h.added, ⟨h.est.1, lines_store h.est.2 _ _ _ _⟩⟩, h.wf, h.cache⟩
  · rw [signed_f]
    exact sim_pure rfl h

theorem sim_sumLine (hs : FiniteSum cfg xcfg) (hc : Ctx ctx xctx) :
    EstSim SumRel (sumLine cfg) (xSumLine xcfg) ctx xctx := by
  intro a b w x h
  unfold sumLine xSumLine
  show Sim _ _ _ (if XNum.eq (.fin a.im) (.fin b.im) = true then xHorizontal xcfg (.fin a.re) (.fin b.re) (.fin a.im) xctx
    else if XNum.eq (.fin a.re) (.fin b.re) = true then xVertical xcfg (.fin a.im) (.fin b.im) (.fin a.re) xctx
    else Py.throw .valueError) w x
  simp only [eq_f, decide_eq_true_eq]
  split_ifs
  · exact sim_horizontal hs hc _ _ _ h
  · exact sim_vertical hs hc _ _ _ h
  · exact sim_throw (by decide) h

/-! ## The quadrature estimator -/

variable {qcfg : QuadCfg K} {xqcfg : XQuadCfg K} {df : Cx K → Cx K} {xdf : XCx K → XCx K}

/-- related arrays of the quadrature estimator -/
def Arrays (a : List (Cx K) × List (Cx K)) (b : List (XCx K) × List (XCx K)) (size : ℕ) : Prop :=
  b.1 = a.1.map finC ∧ b.2 = a.2.map finC ∧ a.1.length = size

theorem sim_quadSample (hq : FiniteQuad qcfg xqcfg) (hdf : FiniteValues df xdf) (hc : Ctx ctx xctx) (a b : Cx K) (size : ℕ)
    {w : World σ K} {x : XWorld τ K} (h : W R w x) :
    Sim (W R) (fun r s => Arrays r s size) (quadSample qcfg df 0 a b ctx size)
      (xQuadSample xqcfg xdf (finC a) (finC b) xctx size) w x := by
  unfold quadSample xQuadSample
  rw [hq.evals]
  refine sim_bind (sim_funcArr qcfg.evals a b ctx xctx hc size w x h) fun r s w x hr h => ?_
  obtain ⟨h1, h2, h3, h4, h5⟩ := hr
  refine sim_pure ⟨h1, ?_, h4⟩ h
  rw [h1, h2]
  unfold logDeriv
  obtain ⟨zs, fs⟩ := r
  dsimp only at h3 ⊢
  clear h1 h2 h4 h5 h
  induction zs generalizing fs with
  | nil => rfl
  | cons z zs ih =>
    cases fs with
    | nil => rfl
    | cons v fs =>
      simp only [List.map_cons, List.zipWith_cons_cons]
      rw [ih fs (fun v hv => h3 v (List.mem_cons_of_mem _ hv)), hdf, hq.quot _ _ (h3 v List.mem_cons_self), zpow_zero, mul_one]

theorem sim_rombPy (hq : FiniteQuad qcfg xqcfg) (y : List K) (dx : K) {w : World σ K} {x : XWorld τ K} (h : W R w x) :
    Sim (W R) (fun r s => s = .fin r) (rombPy qcfg.romb y dx) (xRombPy xqcfg.romb (y.map .fin) (.fin dx)) w x := by
  unfold rombPy xRombPy
  rw [List.length_map]
  split_ifs
  · exact sim_pure (hq.romb y dx) h
  · exact sim_throw (by decide) h

theorem sim_quadRomb (hq : FiniteQuad qcfg xqcfg) (fs : List (Cx K)) (dx : K) {w : World σ K} {x : XWorld τ K} (h : W R w x) :
    Sim (W R) (fun r s => s = finRan r) (quadRomb qcfg fs dx) (xQuadRomb xqcfg (fs.map finC) (.fin dx)) w x := by
  unfold quadRomb xQuadRomb
  have e1 : (fs.map finC).map Cx.re = (fs.map Cx.re).map XNum.fin := by
    rw [List.map_map, List.map_map]; rfl
  have e2 : (fs.map finC).map Cx.im = (fs.map Cx.im).map XNum.fin := by
    rw [List.map_map, List.map_map]; rfl
  rw [e1, e2]
  refine sim_bind (sim_rombPy hq _ dx h) fun r s w x hr h => ?_
  subst hr
  refine sim_bind (sim_rombPy hq _ dx h) fun i j w x hi h => ?_
  subst hi
  exact sim_pure rfl h

/-- related local variables -/
structure Vars (v : QuadVars K) (x : XQuadVars K) : Prop where
  zStart : x.zStart = finC v.zStart
  zEnd : x.zEnd = finC v.zEnd
  samplePts : x.samplePts = v.samplePts
  zArr : x.zArr = v.zArr.map finC
  funcArr : x.funcArr = v.funcArr.map finC
  result : x.result = finRan v.result
  long : 2 ≤ v.zArr.length

theorem interleave_map {α β : Type} (g : α → β) : ∀ xs ys : List α,
    interleave (xs.map g) (ys.map g) = (interleave xs ys).map g := by
  intro xs
  induction xs with
  | nil => intro ys; cases ys <;> rfl
  | cons a xs ih =>
    intro ys
    cases ys with
    | nil => rfl
    | cons b ys => simp only [List.map_cons, interleave]; rw [ih]

theorem interleave_length {α : Type} : ∀ xs ys : List α, xs.length = ys.length →
    (interleave xs ys).length = 2 * ys.length := by
  intro xs
  induction xs with
  | nil => intro ys h; cases ys with | nil => rfl | cons b ys => cases h
  | cons a xs ih =>
    intro ys h
    cases ys with
    | nil => cases h
    | cons b ys =>
      simp only [List.length_cons, Nat.add_right_cancel_iff] at h
      simp only [interleave, List.length_cons]; rw [ih ys h]; omega

theorem sim_merge (old new : List (Cx K)) {w : World σ K} {x : XWorld τ K} (h : W R w x) :
    Sim (W R) (fun r s => s = r.map finC ∧ 2 * new.length ≤ r.length) (mergeArray old new)
      (xMerge (old.map finC) (new.map finC)) w x := by
  unfold mergeArray xMerge
  rw [← List.map_dropLast, List.length_map, List.length_map, List.getLast?_map]
  by_cases hl : old.dropLast.length = new.length
  · rw [if_pos hl, if_pos hl]
    rcases old.getLast? with _ | l
    · exact sim_throw (by decide) h
    · refine sim_pure ⟨?_, ?_⟩ h
      · rw [interleave_map]; simp
      · rw [List.length_append, interleave_length _ _ hl]; omega
  · rw [if_neg hl, if_neg hl]
    exact sim_throw (by decide) h

theorem sim_quadRefine (hq : FiniteQuad qcfg xqcfg) (hdf : FiniteValues df xdf) (hc : Ctx ctx xctx) {v : QuadVars K}
    {xv : XQuadVars K} (hv : Vars v xv) {w : World σ K} {x : XWorld τ K} (h : W R w x) :
    Sim (W R) Vars (quadRefine qcfg df 0 ctx v) (xQuadRefine xqcfg xdf xctx xv) w x := by
  unfold quadRefine xQuadRefine
  rw [hv.samplePts, hv.zArr, hv.funcArr, hv.zStart, hv.zEnd]
  have hlong := hv.long
  split_ifs
  · dsimp only
    rw [getD_map finC _ 0 0 _ (by omega), getD_map finC _ 1 0 _ (by omega), List.length_map,
      getD_map finC _ (v.zArr.length - 1) 0 _ (by omega), getD_map finC _ (v.zArr.length - 2) 0 _ (by omega), cmid_f, cmid_f]
    refine sim_bind (sim_quadSample hq hdf hc _ _ _ h) fun r s w x hr h => ?_
    obtain ⟨h1, h2, h3⟩ := hr
    rw [h1, h2]
    unfold mergeArrays
    rw [bind_assoc]
    refine sim_bind (sim_merge _ _ h) fun z z' w x hz h => ?_
    rw [bind_assoc]
    refine sim_bind (sim_merge _ _ h) fun f f' w x hf h => ?_
    refine sim_pure ⟨rfl, rfl, rfl, hz.1, hf.1, hv.result, ?_⟩ h
    have : 0 < 2 ^ v.samplePts := Nat.two_pow_pos _
    have := hz.2
    show 2 ≤ z.length
    omega
  · refine sim_bind (sim_quadSample hq hdf hc _ _ _ h) fun r s w x hr h => ?_
    obtain ⟨h1, h2, h3⟩ := hr
    refine sim_pure ⟨rfl, rfl, rfl, h1, h2, hv.result, ?_⟩ h
    have : 0 < 2 ^ (v.samplePts + 1) := Nat.two_pow_pos _
    show 2 ≤ r.1.length
    omega

theorem close_f (a b : K) : xClose (.fin a) (.fin b) = decide (|a - b| < 1 / 1000) := by
  unfold xClose
  rw [sub_f, abs_f, lt_f]

theorem sim_quadLoop (hq : FiniteQuad qcfg xqcfg) (hdf : FiniteValues df xdf) (hc : Ctx ctx xctx) (distance : K) :
    ∀ (fuel : ℕ) (v : QuadVars K) (xv : XQuadVars K) (w : World σ K) (x : XWorld τ K), Vars v xv → W R w x →
      Sim (W R) Vars (quadLoop qcfg df 0 ctx distance fuel v) (xQuadLoop xqcfg xdf xctx (.fin distance) fuel xv) w x := by
  intro fuel
  induction fuel with
  | zero => intro v xv w x _ h; exact sim_throw (by decide) h
  | succ n ih =>
    intro v xv w x hv h
    unfold quadLoop xQuadLoop
    rw [hv.samplePts]
    split_ifs
    · refine sim_bind (sim_quadRefine hq hdf hc hv h) fun v' xv' w x hv' h => ?_
      rw [over_f, hv'.funcArr, hv'.samplePts]
      refine sim_bind (sim_quadRomb hq _ _ h) fun r s w x hr h => ?_
      subst hr
      rw [hv.result]
      show Sim (W R) Vars _ (if (xClose (.fin r.1) (.fin v.result.1) && xClose (.fin r.2) (.fin v.result.2)) = true
        then _ else _) w x
      rw [close_f, close_f]
      simp only [Bool.and_eq_true, decide_eq_true_eq]
      split_ifs
      · exact sim_pure hv' h
      · exact ih _ _ w x ⟨hv'.zStart, hv'.zEnd, rfl, hv'.zArr, rfl, rfl, hv'.long⟩ h
    · exact sim_pure hv h

theorem quadResult_f (a b : Cx K) (r : K × K) (distance : K) :
    xQuadResult (finC a) (finC b) (finRan r) (.fin distance) =
      finC (Cx.divK ((b - a) * (⟨0, -1⟩ * Cx.ofK r.1 + Cx.ofK r.2)) distance) := by
  unfold xQuadResult finC finRan
  simp only [sub_f, scale_f, add_f, neg_f, mul_f, xInv, Cx.divK_re, Cx.divK_im, Cx.mul_re, Cx.mul_im, Cx.add_re, Cx.add_im, Cx.sub_re, Cx.sub_im,
    Cx.ofK_re, Cx.ofK_im, Cx.mk.injEq, XNum.fin.injEq, div_eq_mul_inv]
  constructor <;> ring

theorem sim_quadLine (hq : FiniteQuad qcfg xqcfg) (hdf : FiniteValues df xdf) (hc : Ctx ctx xctx) (h1 : ctx.df = some df)
    (h2 : xctx.df = some xdf) : EstSim R (quadLine qcfg) (xQuadLine xqcfg) ctx xctx := by
  intro a b w x h
  unfold quadLine xQuadLine
  rw [h1, h2]
  dsimp only
  rw [hq.dist, hq.steps, over_f]
  refine sim_bind (sim_quadSample hq hdf hc a b _ h) fun r s w x hr h => ?_
  obtain ⟨h3, h4, h5⟩ := hr
  rw [h4]
  refine sim_bind (sim_quadRomb hq _ _ h) fun res s' w x hres h => ?_
  subst hres
  refine sim_bind (sim_quadLoop hq hdf hc _ _ _ _ w x ⟨rfl, rfl, rfl, h3, rfl, rfl, ?_⟩ h) fun v xv w x hv h => ?_
  · have : 0 < 2 ^ expSamplePoints := Nat.two_pow_pos _
    show 2 ≤ r.1.length
    omega
  · rw [hv.zStart, hv.zEnd, hv.result, quadResult_f]
    exact sim_pure rfl h

theorem sim_quadNone (h1 : ctx.df = none) (h2 : xctx.df = none) :
    EstSim R (quadLine qcfg) (xQuadLine xqcfg) ctx xctx := by
  intro a b w x h
  unfold quadLine xQuadLine
  rw [h1, h2]
  exact sim_throw (by decide) h

end

/-! ## The Newton variant -/

section
variable {ctx : RCtx K} {xctx : XCtx K} {nt : NewtonSolver K} {xnt : XSolver K}

theorem sim_solver (o : Option (Cx K)) {w : World σ K} {x : XWorld τ K} (h : W R w x) :
    Sim (W R) (fun z z' => z' = finC z) (orRuntimeError o) (xOrRuntimeError (o.map finC)) w x := by
  cases o with
  | none => exact sim_throw (by decide) h
  | some z => exact sim_pure rfl h

theorem sim_addRoot (r : Root K) {w : World σ K} {x : XWorld τ K} (h : W R w x) :
    Sim (W R) (fun _ _ => True) (World.addRoot r) (addPoints [finRoot r]) w x := by
  have h1 : World.addRoot r w = (.ok (), { w with added := w.added ++ [r] }) := by
    unfold World.addRoot; rw [Py.bind_ok (tick_none h.fuse)]; rfl
  unfold Sim
  rw [h1]
  refine ⟨trivial, ⟨⟨h.fuse, ?_, h.est⟩, h.wf, h.cache⟩⟩
  show x.added ++ _ = List.map _ (w.added ++ _)
  rw [List.map_append, h.added]; rfl

theorem sim_newtonBlock (hn : FiniteSolver nt xnt) (hc : Ctx ctx xctx) (hd : FiniteDeriv ctx.df xctx.df) (re im : K × K)
    {w : World σ K} {x : XWorld τ K} (h : W R w x) :
    Sim (W R) (fun _ _ => True) (newtonBlock nt re im ctx) (xNewtonBlock xnt (finRan re) (finRan im) xctx) w x := by
  unfold newtonBlock xNewtonBlock
  dsimp only [finRan]
  simp only [add_f, scale_f, mkPoint_f, hc.precision]
  rw [hn.secant _ _ hc.f]
  refine sim_bind (sim_solver _ h) fun z z' w x hz h => ?_
  subst hz
  refine sim_bind (sim_addRoot (z, 1) h) fun _ _ w x _ h => ?_
  rcases hd with ⟨h1, h2⟩ | ⟨d, xd, h1, h2, h3⟩
  · rw [h1, h2]; exact sim_pure trivial h
  · rw [h1, h2]
    dsimp only
    rw [hn.newton _ _ _ _ hc.f h3, mul_comm (re.1 + re.2), mul_comm (im.1 + im.2)]
    refine sim_bind (sim_solver _ h) fun z z' w x hz h => ?_
    subst hz
    exact sim_addRoot (z, 1) h

theorem sim_except {m : Py (World σ K) Unit} {n : Py (XWorld τ K) Unit} {w : World σ K} {x : XWorld τ K}
    (h : Sim (W R) (fun _ _ => True) m n w x) :
    Sim (W R) (fun _ _ => True) (Py.exceptRuntimeError m) (Py.exceptRuntimeError n) w x := by
  obtain ⟨h1, h2⟩ := h
  unfold Sim Py.exceptRuntimeError
  rcases hr : m w with ⟨r, w'⟩
  rcases hs : n x with ⟨s, x'⟩
  rw [hr, hs] at h1 h2
  rcases r with e | a <;> rcases s with e' | b
  · obtain ⟨rfl, he⟩ := h1
    by_cases hq : e' = .runtimeError
    · subst hq; exact ⟨trivial, h2⟩
    · cases e' <;> first | exact absurd rfl hq | exact ⟨⟨rfl, he⟩, h2⟩
  · exact h1.elim
  · exact h1.elim
  · exact ⟨trivial, h2⟩

theorem sim_finally {m : Py (World σ K) Unit} {n : Py (XWorld τ K) Unit} {w : World σ K} {x : XWorld τ K} (a : K)
    (h : Sim (W R) (fun _ _ => True) m n w x) :
    Sim (W R) (fun _ _ => True) (Py.tryFinally m (World.advance ctx a)) n w x := by
  obtain ⟨h1, h2⟩ := h
  have h3 := sim_advance ctx a h2
  unfold Sim Py.tryFinally
  unfold Sim at h3
  rcases hr : World.advance ctx a (m w).2 with ⟨r, w'⟩
  rw [hr] at h3
  rcases r with e | u
  · exact h3.1.elim
  · exact ⟨h1, h3.2⟩

theorem sim_newton {est : LineEst σ K} {xest : XLineEst τ K} (he : EstSim R est xest ctx xctx) (hn : FiniteSolver nt xnt)
    (hc : Ctx ctx xctx) (hdf : FiniteDeriv ctx.df xctx.df) (pi : K) {d : Decide σ K} {e : XDecide τ K}
    (hd : DecideSim R d e ctx xctx) :
    DecideSim R (newtonDecide nt est pi d) (xDecide xest pi (.newton (xNewtonFew xnt)) e) ctx xctx := by
  intro re im phi w x h
  obtain ⟨x1, x2⟩ := re
  obtain ⟨y1, y2⟩ := im
  have hsimple := sim_simple he hc pi hd (x1, x2) (y1, y2) phi w x h
  have hroot := sim_root (ctx := ctx) pi x2 x1 y2 y1 phi h
  have hblock := sim_newtonBlock hn hc hdf (x1, x2) (y1, y2) h
  unfold newtonDecide xDecide
  dsimp only [finRan] at hsimple hroot hblock ⊢
  simp only [hc.precision, lt_f, sub_f, xeps, Bool.and_eq_true, decide_eq_true_eq, gt_iff_lt, and_assoc]
  split_ifs
  · exact hroot
  · exact sim_finally _ (sim_except hblock)
  · exact hsimple

end

/-! ## The finders -/

theorem domain_f (re im : K × K) (p : ℤ × ℤ) :
    xDomain (finRan re) (finRan im) p = (finRan (desymmetrizeDomain re im p).1, finRan (desymmetrizeDomain re im p).2) := by
  unfold xDomain desymmetrizeDomain finRan
  dsimp only
  rw [sorted_f, sorted_f]
  dsimp only
  rw [sub_f, add_f, sub_f, add_f, one_mul]

/-- a context with floating point numbers for a finite context -/
def xof (xf : XCx K → XCx K) (xdf : Option (XCx K → XCx K)) (ctx : RCtx K) : XCtx K :=
  ⟨xf, xdf, ctx.precision, finRan ctx.reRan, finRan ctx.imRan⟩

theorem ctx_xof {xf : XCx K → XCx K} {xdf : Option (XCx K → XCx K)} {ctx : RCtx K} (h : FiniteValues ctx.f xf) :
    Ctx ctx (xof xf xdf ctx) := ⟨h, rfl, rfl, rfl⟩

theorem serial_same {est : LineEst σ K} {xest : XLineEst τ K} {pi : K} {variant : XVariant τ K} {limit : ℕ}
    {body : Decide σ K → Decide σ K} (fd : Finder σ K) (xf : XCx K → XCx K) (xdf : Option (XCx K → XCx K)) (state : τ)
    (halg : fd.algorithm = calcRoots est body limit) (hf : FiniteValues fd.f xf) (hstate : R fd.est state)
    (hb : ∀ ctx xctx, ctx.f = fd.f → ctx.df = fd.df → xctx.df = xdf → Ctx ctx xctx → EstSim R est xest ctx xctx ∧
      ∀ d e, DecideSim R d e ctx xctx → DecideSim R (body d) (xDecide xest pi variant e) ctx xctx)
    (re im : K × K) (precision : Option (ℤ × ℤ)) :
    SameSearch (xCalculateRoots xest pi variant limit xf xdf state (finRan re) (finRan im) (precision.getD fd.precision))
      (fd.calculateRoots re im precision none) fd.container fd.info
      { f := fd.f
        reRan := (desymmetrizeDomain re im (searchPrecision precision fd.precision)).1
        imRan := (desymmetrizeDomain re im (searchPrecision precision fd.precision)).2
        precision := searchPrecision precision fd.precision } := by
  generalize hctx : (RCtx.mk fd.f fd.df (searchPrecision precision fd.precision)
    (desymmetrizeDomain re im (searchPrecision precision fd.precision)).1
    (desymmetrizeDomain re im (searchPrecision precision fd.precision)).2 fd.verbose) = ctx
  have hc : Ctx ctx (xof xf xdf ctx) := ctx_xof (by rw [← hctx]; exact hf)
  have h0 : W0 R (World.mk fd.cache fd.est [] [] none []) (XWorld.mk [] state []) := ⟨rfl, rfl, hstate⟩
  obtain ⟨he, hb'⟩ := hb ctx (xof xf xdf ctx) (by rw [← hctx]) (by rw [← hctx]) rfl hc
  have hsim := sim_calcRoots he hc hb' limit h0
  obtain ⟨h1, h2⟩ := hsim
  have hx : xCalculateRoots xest pi variant limit xf xdf state (finRan re) (finRan im) (precision.getD fd.precision) =
      ((xCalcRoots xest pi variant limit (xof xf xdf ctx) (XWorld.mk [] state [])).1,
        (xCalcRoots xest pi variant limit (xof xf xdf ctx) (XWorld.mk [] state [])).2.added) := by
    unfold xCalculateRoots
    dsimp only
    rw [domain_f, ← hctx]
    rfl
  refine ⟨(calcRoots est body limit ctx (World.mk fd.cache fd.est [] [] none [])).2.added, ?_, ?_⟩
  · rw [hx, h2.added]
    unfold Finder.calculateRoots
    dsimp only
    rw [halg, hctx]
    rcases hr : calcRoots est body limit ctx (World.mk fd.cache fd.est [] [] none []) with ⟨r, w'⟩
    rcases hs : xCalcRoots xest pi variant limit (xof xf xdf ctx) (XWorld.mk [] state []) with ⟨s, x'⟩
    rw [hr, hs] at h1
    rcases r with e | a <;> rcases s with e' | b
    · obtain ⟨rfl, hk⟩ := h1
      cases e' <;> first | exact absurd rfl hk | rfl
    · exact h1.elim
    · exact h1.elim
    · rfl
  · unfold Finder.calculateRoots
    dsimp only
    rw [halg, hctx]
    rcases hr : calcRoots est body limit ctx (World.mk fd.cache fd.est [] [] none []) with ⟨r, w'⟩
    rw [← hctx]
    rcases r with e | a
    · cases e <;> rfl
    · rfl

/-! ## The parallel finder -/

theorem linspaceR_f (a b : K) (n : ℕ) : xLinspaceR (.fin a) (.fin b) n = (linspaceR a b n).map .fin := by
  match n with
  | 0 => rfl
  | 1 =>
    unfold linspaceR xLinspaceR
    simp [List.range_succ]
  | n + 2 =>
    have hn : (n : K) + 1 ≠ 0 := by positivity
    have hc : (((n + 2 : ℕ) : K) - 1) = (n : K) + 1 := by push_cast; ring
    unfold linspaceR xLinspaceR
    dsimp only
    rw [List.range_succ (n := n + 1), List.map_append, List.map_append, List.map_map]
    congr 1
    · apply List.map_congr_left
      intro k _
      simp only [Function.comp_apply, sub_f, over_f, scale_f, add_f, XNum.fin.injEq, hc]
      field_simp
    · simp only [List.map_cons, List.map_nil, hc]
      have h1 : (((n + 1 : ℕ) : K) / ((n : K) + 1)) = 1 := by push_cast; exact div_self hn
      rw [h1]
      congr 2
      ring

theorem jobs_f (f : Cx K → Cx K) (df : Option (Cx K → Cx K)) (xf : XCx K → XCx K) (xdf : Option (XCx K → XCx K)) (n : ℕ)
    (re im : K × K) (p : ℤ × ℤ) (progress : Bool) :
    xCreateRootJobs xf xdf n (finRan re) (finRan im) p = (createRootJobs f df n re im p progress).map (xof xf xdf) := by
  unfold xCreateRootJobs createRootJobs
  dsimp only [finRan]
  rw [linspaceR_f, linspaceR_f, List.length_map, List.length_map, List.map_flatMap]
  apply List.flatMap_congr
  intro i hi
  rw [List.map_map]
  apply List.map_congr_left
  intro j hj
  rw [List.mem_range] at hi hj
  rw [getD_map XNum.fin _ i 0 _ (by omega), getD_map XNum.fin _ (i + 1) 0 _ (by omega),
    getD_map XNum.fin _ j 0 _ (by omega), getD_map XNum.fin _ (j + 1) 0 _ (by omega)]
  rfl

theorem jobs_mem {f : Cx K → Cx K} {df : Option (Cx K → Cx K)} {n : ℕ} {re im : K × K} {p : ℤ × ℤ} {progress : Bool}
    {ctx : RCtx K} (h : ctx ∈ createRootJobs f df n re im p progress) : ctx.f = f ∧ ctx.df = df := by
  unfold createRootJobs at h
  dsimp only at h
  obtain ⟨i, _, h⟩ := List.mem_flatMap.1 h
  obtain ⟨j, _, rfl⟩ := List.mem_map.1 h
  exact ⟨rfl, rfl⟩

theorem chunks_map {α β : Type} (g : α → β) (c : ℕ) : ∀ (n : ℕ) (l : List α),
    chunks c n (l.map g) = (chunks c n l).map (List.map g) := by
  intro n
  induction n with
  | zero => intro l; rfl
  | succ n ih =>
    intro l
    cases l with
    | nil => rfl
    | cons a l =>
      show ((a :: l).map g).take c :: chunks c n (((a :: l).map g).drop c) = _
      rw [← List.map_take, ← List.map_drop, ih]
      rfl

theorem chunks_mem {α : Type} (c : ℕ) : ∀ (n : ℕ) (l piece : List α), piece ∈ chunks c n l → ∀ a ∈ piece, a ∈ l := by
  intro n
  induction n with
  | zero => intro l piece h; cases h
  | succ n ih =>
    intro l piece h a ha
    cases l with
    | nil => cases h
    | cons b l =>
      rcases List.mem_cons.1 h with h | h
      · subst h; exact List.mem_of_mem_take ha
      · exact List.mem_of_mem_drop (ih _ _ h a ha)

theorem deliver_map {α β : Type} (g : α → β) : ∀ (turns : List ℕ) (out : List (List α)),
    deliver (out.map (List.map g)) turns = ((deliver out turns).1.map g, (deliver out turns).2.map (List.map g)) := by
  intro turns
  induction turns with
  | nil => intro out; rfl
  | cons i turns ih =>
    intro out
    unfold deliver
    rw [List.getElem?_map]
    rcases out[i]? with _ | l
    · exact ih out
    · cases l with
      | nil => exact ih out
      | cons a l =>
        have e : (out.map (List.map g)).set i (l.map g) = (out.set i l).map (List.map g) := by
          rw [List.map_set]
        show (g a :: (deliver ((out.map (List.map g)).set i (l.map g)) turns).1,
          (deliver ((out.map (List.map g)).set i (l.map g)) turns).2) = _
        rw [e, ih]
        rfl

section
variable {est : LineEst σ K} {xest : XLineEst τ K} {pi : K} {variant : XVariant τ K} {limit : ℕ}
  {body : Decide σ K → Decide σ K}

theorem sim_runJobs (fd : Finder σ K) (xf : XCx K → XCx K) (xdf : Option (XCx K → XCx K)) (hf : FiniteValues fd.f xf)
    (hb : ∀ ctx xctx, ctx.f = fd.f → ctx.df = fd.df → xctx.df = xdf → Ctx ctx xctx → EstSim R est xest ctx xctx ∧
      ∀ d e, DecideSim R d e ctx xctx → DecideSim R (body d) (xDecide xest pi variant e) ctx xctx) :
    ∀ (jobs : List (RCtx K)) (w : World σ K) (x : XWorld τ K), (∀ ctx ∈ jobs, ctx.f = fd.f ∧ ctx.df = fd.df) → W0 R w x →
      Sim (W0 R) (fun _ _ => True) (runJobs (calcRoots est body limit) jobs)
        (xRunJobs (xCalcRoots xest pi variant limit) (jobs.map (xof xf xdf))) w x := by
  intro jobs
  induction jobs with
  | nil => intro w x _ h; exact sim_pure trivial h
  | cons ctx jobs ih =>
    intro w x hj h
    rw [List.map_cons]
    unfold runJobs xRunJobs
    obtain ⟨h1, h2⟩ := hj ctx List.mem_cons_self
    have hc : Ctx ctx (xof xf xdf ctx) := ctx_xof (by rw [h1]; exact hf)
    obtain ⟨he, hb'⟩ := hb ctx (xof xf xdf ctx) h1 h2 rfl hc
    refine sim_bind (sim_mono (sim_calcRoots he hc hb' limit h) (fun _ _ h => h) (fun _ _ h => h.toW0)) fun _ _ w x _ h => ?_
    exact ih w x (fun c hc => hj c (List.mem_cons_of_mem _ hc)) h

theorem parallel_same (fd : Finder σ K) (xf : XCx K → XCx K) (xdf : Option (XCx K → XCx K)) (state : τ)
    (halg : fd.algorithm = calcRoots est body limit) (hf : FiniteValues fd.f xf) (hstate : R fd.est state)
    (hb : ∀ ctx xctx, ctx.f = fd.f → ctx.df = fd.df → xctx.df = xdf → Ctx ctx xctx → EstSim R est xest ctx xctx ∧
      ∀ d e, DecideSim R d e ctx xctx → DecideSim R (body d) (xDecide xest pi variant e) ctx xctx)
    (cpus : ℕ) (re im : K × K) (precision : Option (ℤ × ℤ)) (sched : Schedule) :
    SameSearch (xCalculateRootsParallel xest pi variant limit xf xdf state cpus (finRan re) (finRan im)
        (precision.getD fd.precision) sched)
      (fd.calculateRootsParallel cpus re im precision sched) fd.container fd.info
      { f := fd.f
        reRan := (desymmetrizeDomain re im (searchPrecision precision fd.precision)).1
        imRan := (desymmetrizeDomain re im (searchPrecision precision fd.precision)).2
        precision := precision.getD fd.precision } := by
  have hpiece : ∀ piece : List (RCtx K), (∀ ctx ∈ piece, ctx.f = fd.f ∧ ctx.df = fd.df) →
      ((xRunJobs (xCalcRoots xest pi variant limit) (piece.map (xof xf xdf)) (XWorld.mk [] state [])).1,
        (xRunJobs (xCalcRoots xest pi variant limit) (piece.map (xof xf xdf)) (XWorld.mk [] state [])).2.added) =
      ((runPiece fd piece).1, (runPiece fd piece).2.map finRoot) := by
    intro piece hp
    have h0 : W0 R (World.mk fd.cache fd.est [] [] none []) (XWorld.mk [] state []) := ⟨rfl, rfl, hstate⟩
    obtain ⟨h1, h2⟩ := sim_runJobs (limit := limit) fd xf xdf hf hb piece _ _ hp h0
    unfold runPiece
    dsimp only
    rw [halg, ← h2.added]
    congr 1
    generalize (runJobs (calcRoots est body limit) piece (World.mk fd.cache fd.est [] [] none [])).1 = r at h1 ⊢
    generalize (xRunJobs (xCalcRoots xest pi variant limit) (piece.map (xof xf xdf)) (XWorld.mk [] state [])).1 = s at h1 ⊢
    rcases r with e | a <;> rcases s with e' | b
    · rw [h1.1]
    · exact h1.elim
    · exact h1.elim
    · rfl
  generalize hd : desymmetrizeDomain re im (searchPrecision precision fd.precision) = dom
  have hp1 : ((precision.getD fd.precision).1 + 1, (precision.getD fd.precision).2 + 1) =
      searchPrecision precision fd.precision := rfl
  have hp2 : ((searchPrecision precision fd.precision).1 - 1, (searchPrecision precision fd.precision).2 - 1) =
      precision.getD fd.precision := by
    unfold searchPrecision
    dsimp only
    rw [add_sub_cancel_right, add_sub_cancel_right]
  generalize hj : createRootJobs fd.f fd.df cpus dom.1 dom.2 (searchPrecision precision fd.precision) fd.verbose = jobs
  have hmem : ∀ ctx ∈ jobs, ctx.f = fd.f ∧ ctx.df = fd.df := by
    intro ctx hc
    rw [← hj] at hc
    exact jobs_mem hc
  have hres : (chunks cpus jobs.length (jobs.map (xof xf xdf))).map (fun piece =>
      ((xRunJobs (xCalcRoots xest pi variant limit) piece (XWorld.mk [] state [])).1,
        (xRunJobs (xCalcRoots xest pi variant limit) piece (XWorld.mk [] state [])).2.added)) =
      ((chunks cpus jobs.length jobs).map (runPiece fd)).map fun r => (r.1, r.2.map finRoot) := by
    rw [chunks_map, List.map_map, List.map_map]
    apply List.map_congr_left
    intro piece hpc
    exact hpiece piece fun ctx hc => hmem ctx (chunks_mem _ _ _ _ hpc ctx hc)
  generalize hrs : (chunks cpus jobs.length jobs).map (runPiece fd) = results at hres
  have hx : xCalculateRootsParallel xest pi variant limit xf xdf state cpus (finRan re) (finRan im)
        (precision.getD fd.precision) sched =
      if sched.interrupted then (.ok (), (deliver (results.map Prod.snd) sched.turns).1.map finRoot)
      else match firstFailure sched (results.map Prod.fst) with
        | .ok _ => (.ok (), ((deliver (results.map Prod.snd) sched.turns).1 ++
            (deliver (results.map Prod.snd) sched.turns).2.flatten).map finRoot)
        | .error e => (.error e, []) := by
    unfold xCalculateRootsParallel
    dsimp only
    rw [hp1, domain_f, hd]
    dsimp only
    rw [jobs_f fd.f fd.df xf xdf cpus dom.1 dom.2 (searchPrecision precision fd.precision) fd.verbose, hj, List.length_map, hres,
      List.map_map, List.map_map]
    have e1 : List.map (Prod.snd ∘ fun r : Except Err Unit × List (Root K) => (r.1, r.2.map finRoot)) results =
        (results.map Prod.snd).map (List.map finRoot) := by
      rw [List.map_map]; rfl
    have e2 : List.map (Prod.fst ∘ fun r : Except Err Unit × List (Root K) => (r.1, r.2.map finRoot)) results =
        results.map Prod.fst := rfl
    rw [e1, e2, deliver_map]
    dsimp only
    rw [← List.map_flatten, ← List.map_append]
    split_ifs
    · rfl
    · rcases firstFailure sched (results.map Prod.fst) with e | u <;> rfl
  rw [hx]
  unfold SameSearch Finder.calculateRootsParallel
  dsimp only
  rw [hd, hj, hrs, hp2]
  generalize deliver (results.map Prod.snd) sched.turns = q
  by_cases hi : sched.interrupted = true
  · simp only [hi, if_true]
    exact ⟨_, rfl, rfl⟩
  · simp only [hi]
    rcases firstFailure sched (results.map Prod.fst) with e | u
    · exact ⟨[], rfl, rfl⟩
    · exact ⟨_, rfl, rfl⟩

end

end PyZeal.ExtLink
