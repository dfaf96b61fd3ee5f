import Verif.Proof.Ext

/-!
# C142, C143: undefined values and infinite bounds are not swallowed
-/

set_option linter.unusedSectionVars false

namespace PyZeal.Props
open Spec Ext
variable {K σ : Type} [Field K] [LinearOrder K]

/-! ## Finite numbers -/

theorem add_fin {a b : XNum K} {x : K} (h : XNum.add a b = .fin x) : (∃ u, a = .fin u) ∧ ∃ v, b = .fin v := by
  cases a <;> cases b <;> first | exact ⟨⟨_, rfl⟩, _, rfl⟩ | cases h

theorem neg_fin {a : XNum K} {x : K} (h : XNum.neg a = .fin x) : ∃ u, a = .fin u := by
  cases a <;> first | exact ⟨_, rfl⟩ | cases h

theorem scale_fin {c : K} {a : XNum K} {x : K} (h : XNum.scale c a = .fin x) : ∃ u, a = .fin u := by
  cases a with
  | fin u => exact ⟨u, rfl⟩
  | nan => cases h
  | pinf =>
    unfold XNum.scale at h
    split_ifs at h
  | ninf =>
    unfold XNum.scale at h
    split_ifs at h

theorem sub_fin {a b : XNum K} {x : K} (h : XNum.sub a b = .fin x) : (∃ u, a = .fin u) ∧ ∃ v, b = .fin v := by
  obtain ⟨h1, v, h2⟩ := add_fin h
  exact ⟨h1, neg_fin h2⟩

theorem cadd_finite {a b : XCx K} (h : FinitePoint (cadd a b)) : FinitePoint a ∧ FinitePoint b := by
  obtain ⟨x, y, h⟩ := h
  have h1 : XNum.add a.re b.re = .fin x := congrArg Cx.re h
  have h2 : XNum.add a.im b.im = .fin y := congrArg Cx.im h
  obtain ⟨⟨u, hu⟩, v, hv⟩ := add_fin h1
  obtain ⟨⟨u', hu'⟩, v', hv'⟩ := add_fin h2
  exact ⟨⟨u, u', Cx.ext hu hu'⟩, ⟨v, v', Cx.ext hv hv'⟩⟩

/-! ## Lines with an undefined first sample -/

/-- lines with an infinite or undefined end -/
theorem tainted_outside (ctx : XCtx K) (hf : UndefinedOutside ctx.f) (a b : XCx K)
    (h : ¬ FinitePoint a ∨ ¬ FinitePoint b) : Tainted ctx a b := by
  intro size hs
  obtain ⟨n, rfl⟩ : ∃ n, size = n + 2 := ⟨size - 2, by omega⟩
  refine ⟨fun zs => ∃ z z' rest, zs = z :: z' :: rest ∧ ¬ FinitePoint z, ?_, ?_, ?_⟩
  · unfold xLinspace
    dsimp only
    rw [List.range_succ_eq_map, List.map_cons]
    have hfirst : ¬ FinitePoint (cadd a ⟨XNum.scale ((0 : ℕ) : K) (XNum.over (XNum.sub b.re a.re) ((n : K) + 1)),
        XNum.scale ((0 : ℕ) : K) (XNum.over (XNum.sub b.im a.im) ((n : K) + 1))⟩) := by
      intro hfin
      obtain ⟨h1, x, y, h2⟩ := cadd_finite hfin
      have e1 : XNum.scale ((0 : ℕ) : K) (XNum.over (XNum.sub b.re a.re) ((n : K) + 1)) = .fin x := congrArg Cx.re h2
      have e2 : XNum.scale ((0 : ℕ) : K) (XNum.over (XNum.sub b.im a.im) ((n : K) + 1)) = .fin y := congrArg Cx.im h2
      obtain ⟨u, hu⟩ := scale_fin e1
      obtain ⟨u', hu'⟩ := scale_fin e2
      obtain ⟨v, hv⟩ := scale_fin hu
      obtain ⟨v', hv'⟩ := scale_fin hu'
      obtain ⟨⟨p, hp⟩, _⟩ := sub_fin hv
      obtain ⟨⟨q, hq⟩, _⟩ := sub_fin hv'
      rcases h with h | h
      · exact h h1
      · exact h ⟨p, q, Cx.ext hp hq⟩
    cases hr : (List.map (fun (k : ℕ) => cadd a
      ⟨XNum.scale (k : K) (XNum.over (XNum.sub b.re a.re) ((n : K) + 1)),
       XNum.scale (k : K) (XNum.over (XNum.sub b.im a.im) ((n : K) + 1))⟩) (List.map Nat.succ (List.range n))) with
    | nil => exact ⟨_, b, [], rfl, hfirst⟩
    | cons c cs => exact ⟨_, c, cs ++ [b], rfl, hfirst⟩
  · rintro zs ⟨z, z', rest, rfl, hz⟩ _
    exact ⟨_, _, _, rfl, fun h => hz (cadd_finite h).1⟩
  · rintro zs ⟨z, z', rest, rfl, hz⟩
    exact ⟨z, z', rest, rfl, hf z hz⟩

/-- horizontal lines which start at an undefined point, without exact zeros -/
theorem tainted_corner (ctx : XCtx K) (x0 x2 y0 : K) (hn : isNaN (ctx.f ⟨.fin x0, .fin y0⟩) = true)
    (hz : ∀ x, ¬ ExactZero ctx.f ⟨.fin x, .fin y0⟩) : Tainted ctx ⟨.fin x0, .fin y0⟩ ⟨.fin x2, .fin y0⟩ := by
  intro size hs
  obtain ⟨n, rfl⟩ : ∃ n, size = n + 2 := ⟨size - 2, by omega⟩
  refine ⟨fun zs => (∃ z' rest, zs = ⟨.fin x0, .fin y0⟩ :: z' :: rest) ∧ ∀ z ∈ zs, ∃ x, z = ⟨.fin x, .fin y0⟩, ?_, ?_, ?_⟩
  · have hk : ∀ k : ℕ, cadd (⟨.fin x0, .fin y0⟩ : XCx K)
        ⟨XNum.scale (k : K) (XNum.over (XNum.sub (.fin x2) (.fin x0)) ((n : K) + 1)),
         XNum.scale (k : K) (XNum.over (XNum.sub (.fin y0) (.fin y0)) ((n : K) + 1))⟩ =
        ⟨.fin (x0 + k * (((n : K) + 1)⁻¹ * (x2 + -x0))), .fin y0⟩ := by
      intro k
      have : y0 + (k : K) * (((n : K) + 1)⁻¹ * (y0 + -y0)) = y0 := by ring
      show (⟨.fin _, .fin (y0 + (k : K) * (((n : K) + 1)⁻¹ * (y0 + -y0)))⟩ : XCx K) = _
      rw [this]
    refine ⟨?_, ?_⟩
    · unfold xLinspace
      dsimp only
      rw [List.range_succ_eq_map, List.map_cons, hk]
      have h0 : x0 + ((0 : ℕ) : K) * (((n : K) + 1)⁻¹ * (x2 + -x0)) = x0 := by rw [Nat.cast_zero]; ring
      rw [h0]
      cases hr : List.map Nat.succ (List.range n) with
      | nil => exact ⟨_, [], rfl⟩
      | cons c cs => exact ⟨_, _, rfl⟩
    · intro z hm
      rcases List.mem_append.1 hm with hm | hm
      · obtain ⟨k, _, rfl⟩ := List.mem_map.1 hm
        exact ⟨_, hk k⟩
      · rw [List.mem_singleton.1 hm]
        exact ⟨x2, rfl⟩
  · rintro zs ⟨_, hall⟩ ⟨z, hm, he⟩
    obtain ⟨x, rfl⟩ := hall z hm
    exact absurd he (hz x)
  · rintro zs ⟨⟨z', rest, rfl⟩, _⟩
    exact ⟨_, z', rest, rfl, hn⟩

/-! ## The bottom edge -/

variable [FloorRing K]

/-- the estimator gives NaN on lines from the corner to the right, and keeps `I` on the other lines of a rectangle -/
structure Taints (est : XLineEst σ K) (ctx : XCtx K) (x0 : XNum K) (y0 : K) (L : XNum K → Prop) (I : σ → Prop) : Prop where
  bottom : ∀ x2 w, L x2 → I w.est → OnlyZeros ctx.f w → Post (est ⟨x0, .fin y0⟩ ⟨x2, .fin y0⟩ ctx) w
    (fun d w' => d.re = .nan ∧ I w'.est ∧ w'.cache = w.cache ∧ OnlyZeros ctx.f w') (OnlyZeros ctx.f)
  other : ∀ a b w, ¬ (a.im = .fin y0 ∧ b.im = .fin y0) → I w.est → OnlyZeros ctx.f w → Post (est a b ctx) w
    (fun _ w' => I w'.est ∧ w'.cache = w.cache ∧ OnlyZeros ctx.f w') (OnlyZeros ctx.f)

theorem sum_taints (cfg : XSumCfg K) (hp : SumPropagates cfg) (ctx : XCtx K) (x0 : XNum K) (y0 : K) (L : XNum K → Prop)
    (hL : ∀ x2, L x2 → XNum.lt x2 x0 = false ∧ Tainted ctx ⟨x0, .fin y0⟩ ⟨x2, .fin y0⟩) :
    Taints (xSumLine cfg) ctx x0 y0 L (RowOk x0 y0) where
  bottom x2 w h hi hz := by
    have he : XNum.eq (XNum.fin y0) (XNum.fin y0) = true := (XNum.eq_iff _ _).2 ⟨rfl, nofun⟩
    unfold xSumLine
    dsimp only
    rw [if_pos he]
    exact horizontal_bottom cfg hp ctx x0 x2 y0 (hL x2 h).1 (hL x2 h).2 w hz hi
  other a b w h hi hz := by
    unfold xSumLine
    split
    · rename_i he
      obtain ⟨e, _⟩ := (XNum.eq_iff _ _).1 he
      have hne : a.im ≠ .fin y0 := fun h' => h ⟨h', e ▸ h'⟩
      refine post_mono (horizontal_frame cfg ctx _ _ _ w hz) ?_ (fun _ h => h)
      rintro _ w' ⟨h1, h2, v, lo, hi', h3⟩
      refine ⟨?_, h1, h2⟩
      intro inner hin hn
      rw [h3] at hin
      dsimp only at hin
      rw [store_other _ _ _ _ _ _ hne] at hin
      exact hi inner hin hn
    · split
      · refine post_mono (vertical_frame cfg ctx _ _ _ w hz) ?_ (fun _ h => h)
        rintro _ w' ⟨h1, h2, h3⟩
        refine ⟨?_, h1, h2⟩
        intro inner hin hn
        rw [h3] at hin
        exact hi inner hin hn
      · exact post_throw hz

theorem quad_taints (cfg : XQuadCfg K) (hp : QuadPropagates cfg) (ctx : XCtx K) (x0 : XNum K) (y0 : K) (L : XNum K → Prop)
    (hL : ∀ x2, L x2 → XNum.lt x2 x0 = false ∧ Tainted ctx ⟨x0, .fin y0⟩ ⟨x2, .fin y0⟩) :
    Taints (σ := σ) (xQuadLine cfg) ctx x0 y0 L (fun _ => True) where
  bottom x2 w h _ hz := by
    refine post_mono (quadLine_tainted cfg hp _ _ ctx (hL x2 h).2 w hz) ?_ (fun _ h => h)
    rintro _ w' ⟨⟨h1, h2, h3⟩, h4⟩
    exact ⟨h4, trivial, h1, h3⟩
  other a b w _ _ hz := by
    refine post_mono (quadLine_frame cfg a b ctx w hz) ?_ (fun _ h => h)
    rintro _ w' ⟨h1, h2, h3⟩
    exact ⟨trivial, h1, h3⟩

/-- the estimator's cache: lines from the corner to the right are undefined -/
def CornerCache (x0 : XNum K) (y0 : K) (c : XDict (XCx K × XCx K) (XCx K)) : Prop :=
  ∀ b v, b.im = XNum.fin y0 → lookup lineEq ((⟨x0, .fin y0⟩ : XCx K), b) c = some v → v.re = .nan

/-- the invariant of the search -/
def CornerInv (ctx : XCtx K) (x0 : XNum K) (y0 : K) (I : σ → Prop) (w : XWorld σ K) : Prop :=
  OnlyZeros ctx.f w ∧ I w.est ∧ CornerCache x0 y0 w.cache

theorem corner_put {x0 : XNum K} {y0 : K} {c : XDict (XCx K × XCx K) (XCx K)} (hc : CornerCache x0 y0 c)
    (e : XCx K × XCx K) (v : XCx K) (h : e.1.im = .fin y0 → e.2.im = .fin y0 → v.re = .nan) :
    CornerCache x0 y0 (put lineEq e v c) := by
  intro b u hb hl
  rcases lookup_put (fun a b => lineEq_iff a b) hl with ⟨rfl, rfl⟩ | ⟨_, h'⟩
  · exact h rfl hb
  · exact hc b u hb h'

theorem edge_bottom (est : XLineEst σ K) (ctx : XCtx K) (x0 : XNum K) (y0 : K) (L : XNum K → Prop) (I : σ → Prop)
    (ht : Taints est ctx x0 y0 L I) (x2 : XNum K) (hx : L x2) (w : XWorld σ K) (hw : CornerInv ctx x0 y0 I w) :
    Post (xEdge est ctx (⟨x0, .fin y0⟩, ⟨x2, .fin y0⟩)) w (fun d w' => d.re = .nan ∧ CornerInv ctx x0 y0 I w')
      (OnlyZeros ctx.f) := by
  have hcomp : Post (xEdge.compute est ctx (⟨x0, .fin y0⟩, ⟨x2, .fin y0⟩)) w
      (fun d w' => d.re = .nan ∧ CornerInv ctx x0 y0 I w') (OnlyZeros ctx.f) := by
    unfold xEdge.compute
    refine post_bind (ht.bottom x2 w hx hw.2.1 hw.1) ?_
    rintro d w1 ⟨hd, h1, h2, h3⟩
    refine post_bind (P := fun _ w' => CornerInv ctx x0 y0 I w') (post_modify ⟨h3, h1, ?_⟩) ?_
    · dsimp only
      rw [h2]
      refine corner_put (corner_put hw.2.2 _ _ (fun _ _ => hd)) _ _ (fun _ _ => ?_)
      show XNum.neg d.re = .nan
      rw [hd]
      rfl
    · intro _ w2 hw2
      exact post_pure ⟨hd, hw2⟩
  unfold xEdge
  refine post_bind (P := fun a w' => w = a ∧ w = w') (post_get ⟨rfl, rfl⟩) ?_
  rintro _ _ ⟨rfl, rfl⟩
  rcases hl : lookup lineEq (⟨x0, .fin y0⟩, ⟨x2, .fin y0⟩) w.cache with _ | v
  · exact hcomp
  · have hv := hw.2.2 _ v rfl hl
    dsimp only
    split
    · exact hcomp
    · exact post_pure ⟨hv, hw⟩

theorem edge_other (est : XLineEst σ K) (ctx : XCtx K) (x0 : XNum K) (y0 : K) (L : XNum K → Prop) (I : σ → Prop)
    (ht : Taints est ctx x0 y0 L I) (e : XCx K × XCx K) (he : ¬ (e.1.im = .fin y0 ∧ e.2.im = .fin y0))
    (w : XWorld σ K) (hw : CornerInv ctx x0 y0 I w) :
    Post (xEdge est ctx e) w (fun _ w' => CornerInv ctx x0 y0 I w') (OnlyZeros ctx.f) := by
  have hcomp : Post (xEdge.compute est ctx e) w (fun _ w' => CornerInv ctx x0 y0 I w') (OnlyZeros ctx.f) := by
    unfold xEdge.compute
    refine post_bind (ht.other e.1 e.2 w he hw.2.1 hw.1) ?_
    rintro d w1 ⟨h1, h2, h3⟩
    refine post_bind (P := fun _ w' => CornerInv ctx x0 y0 I w') (post_modify ⟨h3, h1, ?_⟩) ?_
    · dsimp only
      rw [h2]
      exact corner_put (corner_put hw.2.2 _ _ (fun a b => absurd ⟨a, b⟩ he)) _ _ (fun a b => absurd ⟨b, a⟩ he)
    · intro _ w2 hw2
      exact post_pure hw2
  unfold xEdge
  refine post_bind (P := fun a w' => w = a ∧ w = w') (post_get ⟨rfl, rfl⟩) ?_
  rintro _ _ ⟨rfl, rfl⟩
  rcases hl : lookup lineEq e w.cache with _ | v
  · exact hcomp
  · dsimp only
    split
    · exact hcomp
    · exact post_pure hw

theorem phase_bottom (est : XLineEst σ K) (ctx : XCtx K) (x0 : XNum K) (y0 : K) (L : XNum K → Prop) (I : σ → Prop)
    (ht : Taints est ctx x0 y0 L I) (x2 : XNum K) (hx : L x2) (y2 : K) (hy : y0 < y2) (w : XWorld σ K)
    (hw : CornerInv ctx x0 y0 I w) :
    Post (xPhase est (x0, x2) (.fin y0, .fin y2) ctx) w (fun p w' => p = .nan ∧ CornerInv ctx x0 y0 I w')
      (OnlyZeros ctx.f) := by
  unfold xPhase xEdges xSumEdges
  have hne : (XNum.fin y2 : XNum K) ≠ .fin y0 := fun h => by injection h with h; exact absurd h (ne_of_gt hy)
  refine post_bind (P := fun (m : XCx K) w' => m.re = .nan ∧ CornerInv ctx x0 y0 I w')
    (post_bind (P := fun (d : XCx K) w' => d.re = .nan ∧ CornerInv ctx x0 y0 I w')
      (edge_bottom est ctx x0 y0 L I ht x2 hx w hw) ?_) ?_
  · rintro d w1 ⟨hd, h1⟩
    refine post_mono (sumEdges_post est ctx (CornerInv ctx x0 y0 I) _ ?_ _ w1 h1) ?_ (fun _ h => h)
    · intro e hm w hw
      refine edge_other est ctx x0 y0 L I ht e ?_ w hw
      simp only [List.mem_cons, List.not_mem_nil, or_false] at hm
      rcases hm with rfl | rfl | rfl
      · exact fun h => hne h.2
      · exact fun h => hne h.1
      · exact fun h => hne h.1
    · rintro p w2 ⟨h2, h3⟩
      refine ⟨h3 ?_, h2⟩
      show XNum.add (.fin 0) d.re = .nan
      rw [hd]
      rfl
  · rintro m w1 ⟨hm, h1⟩
    exact post_pure ⟨hm, h1⟩

variable [IsStrictOrderedRing K]

theorem mid_fin (a b : K) : XNum.mid (.fin a) (.fin b) = .fin (2⁻¹ * (a + b)) := rfl

/-- a search whose rectangle has an undefined lower left corner -/
theorem bottom_never (est : XLineEst σ K) (pi : K) (variant : XVariant σ K) (limit : ℕ) (ctx : XCtx K) (x0 : XNum K)
    (y0 : K) (L : XNum K → Prop) (I : σ → Prop) (ht : Taints est ctx x0 y0 L I) (hL : ∀ x2, L x2 → L (XNum.mid x0 x2))
    (hre : ctx.reRan.1 = x0 ∧ L ctx.reRan.2) (y2 : K) (him : ctx.imRan = (.fin y0, .fin y2)) (hy : y0 < y2)
    (w : XWorld σ K) (hw : OnlyZeros ctx.f w) (hi : I w.est) :
    Post (xCalcRoots est pi variant limit ctx) w (fun _ _ => False) (OnlyZeros ctx.f) := by
  refine calcRoots_never est pi variant ctx (CornerInv ctx x0 y0 I)
    (fun re im => re.1 = x0 ∧ L re.2 ∧ ∃ y2, im = (.fin y0, .fin y2) ∧ y0 < y2) ?_ ?_ (fun _ h => h.1) ?_ limit
    ⟨hre.1, hre.2, y2, him, hy⟩ w ⟨hw, hi, ?_⟩
  · rintro re im ⟨h1, h2, h3⟩
    refine ⟨h1, ?_, h3⟩
    dsimp only
    rw [h1]
    exact hL _ h2
  · rintro re im ⟨h1, h2, y, rfl, h3⟩
    refine ⟨h1, h2, 2⁻¹ * (y0 + y), rfl, ?_⟩
    have h4 : (2 : K)⁻¹ * (y0 + y) = (y0 + y) / 2 := by ring
    rw [h4]
    linarith
  · rintro ⟨r1, r2⟩ im w ⟨rfl, h2, y, rfl, h3⟩ hw
    exact phase_bottom est ctx _ y0 L I ht r2 h2 y h3 w hw
  · intro b v _ hl
    cases hl

/-! ## The rectangle searched -/

/-- the search fails, and what it added are exact zeros -/
theorem failed_of_post {f : XCx K → XCx K} {m : Py (XWorld σ K) Unit} {w : XWorld σ K}
    (h : Post m w (fun _ _ => False) (OnlyZeros f)) :
    ∃ e, (m w).1 = .error e ∧ ∀ r ∈ (m w).2.added, ExactZero f r.1 ∧ r.2 = 0 := by
  obtain ⟨h1, h2⟩ := h
  rcases hr : (m w).1 with e | a
  · exact ⟨e, rfl, h2 e hr⟩
  · exact (h1 a hr).elim

theorem sorted_fin (a b : K) : XNum.sorted (.fin a) (.fin b) = (.fin (min a b), .fin (max a b)) := by
  unfold XNum.sorted
  by_cases h : b < a
  · rw [if_pos (by simpa [XNum.lt] using h), min_eq_right h.le, max_eq_left h.le]
  · rw [if_neg (by simpa [XNum.lt] using h), min_eq_left (not_lt.1 h), max_eq_right (not_lt.1 h)]

theorem eps_pos (p : ℤ) : 0 < eps10 K p := by
  unfold eps10
  positivity

theorem finite_bottom_never (est : XLineEst σ K) (pi : K) (variant : XVariant σ K) (limit : ℕ) (f : XCx K → XCx K)
    (df : Option (XCx K → XCx K)) (state : σ) (I : σ → Prop) (x1 x2 y1 y2 : K) (p q : ℤ)
    (ht : ∀ ctx : XCtx K, ctx.f = f → ∀ L : XNum K → Prop, (∀ u, L u → XNum.lt u (.fin (min x1 x2 - eps10 K (p + 1))) = false ∧
      Tainted ctx ⟨.fin (min x1 x2 - eps10 K (p + 1)), .fin (min y1 y2 - 3 * eps10 K (q + 1))⟩
        ⟨u, .fin (min y1 y2 - 3 * eps10 K (q + 1))⟩) →
      Taints est ctx (.fin (min x1 x2 - eps10 K (p + 1))) (min y1 y2 - 3 * eps10 K (q + 1)) L I)
    (hi : I state)
    (hn : isNaN (f ⟨.fin (min x1 x2 - eps10 K (p + 1)), .fin (min y1 y2 - 3 * eps10 K (q + 1))⟩) = true)
    (hz : ∀ x, ¬ ExactZero f ⟨.fin x, .fin (min y1 y2 - 3 * eps10 K (q + 1))⟩) :
    ∃ e, (xCalculateRoots est pi variant limit f df state (.fin x1, .fin x2) (.fin y1, .fin y2) (p, q)).1 = .error e ∧
      ∀ r ∈ (xCalculateRoots est pi variant limit f df state (.fin x1, .fin x2) (.fin y1, .fin y2) (p, q)).2,
        ExactZero f r.1 ∧ r.2 = 0 := by
  have hp := eps_pos (K := K) (p + 1)
  have hq := eps_pos (K := K) (q + 1)
  have hx : min x1 x2 - eps10 K (p + 1) < max x1 x2 + 2 * eps10 K (p + 1) := by
    have := min_le_max (a := x1) (b := x2)
    linarith
  have hy : min y1 y2 - 3 * eps10 K (q + 1) < max y1 y2 + 4 * eps10 K (q + 1) := by
    have := min_le_max (a := y1) (b := y2)
    linarith
  have hd : xDomain (K := K) (.fin x1, .fin x2) (.fin y1, .fin y2) (p + 1, q + 1) =
      ((.fin (min x1 x2 - eps10 K (p + 1)), .fin (max x1 x2 + 2 * eps10 K (p + 1))),
       (.fin (min y1 y2 - 3 * eps10 K (q + 1)), .fin (max y1 y2 + 4 * eps10 K (q + 1)))) := by
    unfold xDomain
    dsimp only
    rw [sorted_fin, sorted_fin, sub_eq_add_neg, sub_eq_add_neg]
    rfl
  unfold xCalculateRoots
  dsimp only
  rw [hd]
  refine failed_of_post (bottom_never est pi variant limit _ _ _ (fun u => ∃ x, u = .fin x ∧ min x1 x2 - eps10 K (p + 1) < x) I
    (ht _ rfl _ ?_) ?_ ⟨rfl, _, rfl, hx⟩ _ rfl hy _ (fun r hr => (by cases hr)) hi)
  · rintro _ ⟨x, rfl, h⟩
    refine ⟨?_, tainted_corner _ _ _ _ hn hz⟩
    simpa [XNum.lt] using h.le
  · rintro _ ⟨x, rfl, h⟩
    refine ⟨2⁻¹ * (min x1 x2 - eps10 K (p + 1) + x), rfl, ?_⟩
    have h4 : (2 : K)⁻¹ * (min x1 x2 - eps10 K (p + 1) + x) = (min x1 x2 - eps10 K (p + 1) + x) / 2 := by ring
    rw [h4]
    linarith

/-- **C142** (summation estimator).  If `f` is undefined at the lower left corner of the searched rectangle and has no
exact zero at that height, the search raises an error; it does not return as if there were no roots, and what the
container has received until then are exact zeros. -/
theorem C142_sum (cfg : XSumCfg K) (hp : SumPropagates cfg) (pi : K) (variant : XVariant (XSumState K) K) (limit : ℕ)
    (f : XCx K → XCx K) (df : Option (XCx K → XCx K)) (x1 x2 y1 y2 : K) (p q : ℤ)
    (hn : isNaN (f ⟨.fin (min x1 x2 - eps10 K (p + 1)), .fin (min y1 y2 - 3 * eps10 K (q + 1))⟩) = true)
    (hz : ∀ x, ¬ ExactZero f ⟨.fin x, .fin (min y1 y2 - 3 * eps10 K (q + 1))⟩) :
    ∃ e, (xCalculateRoots (xSumLine cfg) pi variant limit f df ⟨[], []⟩ (.fin x1, .fin x2) (.fin y1, .fin y2) (p, q)).1 =
        .error e ∧
      ∀ r ∈ (xCalculateRoots (xSumLine cfg) pi variant limit f df ⟨[], []⟩ (.fin x1, .fin x2) (.fin y1, .fin y2) (p, q)).2,
        ExactZero f r.1 ∧ r.2 = 0 :=
  finite_bottom_never (xSumLine cfg) pi variant limit f df ⟨[], []⟩ _ x1 x2 y1 y2 p q
    (fun ctx _ L hL => sum_taints cfg hp ctx _ _ L hL) (fun _ h => (by cases h)) hn hz

/-- **C142** (quadrature estimator, in whatever state). -/
theorem C142_quad (cfg : XQuadCfg K) (hp : QuadPropagates cfg) (pi : K) (variant : XVariant σ K) (limit : ℕ)
    (f : XCx K → XCx K) (df : Option (XCx K → XCx K)) (state : σ) (x1 x2 y1 y2 : K) (p q : ℤ)
    (hn : isNaN (f ⟨.fin (min x1 x2 - eps10 K (p + 1)), .fin (min y1 y2 - 3 * eps10 K (q + 1))⟩) = true)
    (hz : ∀ x, ¬ ExactZero f ⟨.fin x, .fin (min y1 y2 - 3 * eps10 K (q + 1))⟩) :
    ∃ e, (xCalculateRoots (xQuadLine cfg) pi variant limit f df state (.fin x1, .fin x2) (.fin y1, .fin y2) (p, q)).1 =
        .error e ∧
      ∀ r ∈ (xCalculateRoots (xQuadLine cfg) pi variant limit f df state (.fin x1, .fin x2) (.fin y1, .fin y2) (p, q)).2,
        ExactZero f r.1 ∧ r.2 = 0 :=
  finite_bottom_never (xQuadLine cfg) pi variant limit f df state _ x1 x2 y1 y2 p q
    (fun ctx _ L hL => quad_taints cfg hp ctx _ _ L hL) trivial hn hz

/-! ## Infinite and undefined bounds -/

/-- the estimator keeps what is added exact, and gives NaN or fails on a vertical edge with infinite or undefined ends -/
structure TaintsAll (est : XLineEst σ K) (ctx : XCtx K) : Prop where
  any : ∀ a b w, OnlyZeros ctx.f w → Post (est a b ctx) w (fun _ w' => OnlyZeros ctx.f w') (OnlyZeros ctx.f)
  right : ∀ x y1 y2 w, y1.finite = false ∨ y2.finite = false → OnlyZeros ctx.f w →
    Post (est (mkPoint x y1) (mkPoint x y2) ctx) w (fun d w' => d.re = .nan ∧ OnlyZeros ctx.f w') (OnlyZeros ctx.f)

theorem mkPoint_not_finite (x y : XNum K) (h : y.finite = false) : mkPoint x y = ⟨.nan, y⟩ ∧ ¬ FinitePoint (mkPoint x y) := by
  have h1 : mkPoint x y = ⟨.nan, y⟩ := by unfold mkPoint; rw [h]; rfl
  refine ⟨h1, ?_⟩
  rw [h1]
  rintro ⟨u, v, hh⟩
  have := congrArg Cx.re hh
  cases this

theorem outside_right (x y1 y2 : XNum K) (h : y1.finite = false ∨ y2.finite = false) :
    ¬ FinitePoint (mkPoint x y1) ∨ ¬ FinitePoint (mkPoint x y2) :=
  h.imp (fun h => (mkPoint_not_finite x y1 h).2) (fun h => (mkPoint_not_finite x y2 h).2)

theorem sum_taintsAll (cfg : XSumCfg K) (hp : SumPropagates cfg) (ctx : XCtx K) (hf : UndefinedOutside ctx.f) :
    TaintsAll (xSumLine cfg) ctx where
  any a b w hz := by
    unfold xSumLine
    split
    · exact post_mono (horizontal_frame cfg ctx _ _ _ w hz) (fun _ _ h => h.2.1) (fun _ h => h)
    · split
      · exact post_mono (vertical_frame cfg ctx _ _ _ w hz) (fun _ _ h => h.2.1) (fun _ h => h)
      · exact post_throw hz
  right x y1 y2 w h hz := by
    unfold xSumLine
    split
    · rename_i he
      obtain ⟨e, _⟩ := (XNum.eq_iff _ _).1 he
      have e' : y1 = y2 := e
      subst e'
      have hy : y1.finite = false := h.elim id id
      obtain ⟨hm, hnf⟩ := mkPoint_not_finite x y1 hy
      rw [hm]
      dsimp only
      unfold xHorizontal
      refine post_bind (P := fun a w' => w = a ∧ w = w') (post_get ⟨rfl, rfl⟩) ?_
      rintro _ _ ⟨rfl, rfl⟩
      dsimp only
      have hs : XNum.sorted (XNum.nan : XNum K) .nan = (.nan, .nan) := rfl
      rw [hs]
      dsimp only
      have hr : xReuseH w.est.horizontal .nan .nan y1 = none := by
        unfold xReuseH xCached
        rcases lookup XNum.eq y1 w.est.horizontal with _ | inner
        · rfl
        · dsimp only
          rw [lookup_none_of_ne (fun a b => sideEq_iff a b) (k := (XNum.nan, Side.start)) (fun h => h rfl),
            lookup_none_of_ne (fun a b => sideEq_iff a b) (k := (XNum.nan, Side.stop)) (fun h => h rfl)]
          rfl
      rw [hr]
      have hnn : ¬ FinitePoint (mkPoint (XNum.nan : XNum K) y1) := (mkPoint_not_finite _ _ hy).2
      refine post_bind (phiArr_tainted cfg hp _ _ ctx (tainted_outside ctx hf _ _ (.inl hnn)) w hz) ?_
      rintro v w1 ⟨⟨h1, h2, h3⟩, ps, hv⟩
      refine post_bind (P := fun _ w' => OnlyZeros ctx.f w') (post_modify h3) ?_
      intro _ w2 h4
      refine post_pure ⟨?_, h4⟩
      unfold xSigned
      rw [hv, sum_nan]
      rfl
    · split
      · rename_i he
        exfalso
        obtain ⟨e, hne⟩ := (XNum.eq_iff _ _).1 he
        rcases h with h | h
        · rw [(mkPoint_not_finite x y1 h).1] at hne
          exact hne rfl
        · rw [e, (mkPoint_not_finite x y2 h).1] at hne
          exact hne rfl
      · exact post_throw hz

theorem quad_taintsAll (cfg : XQuadCfg K) (hp : QuadPropagates cfg) (ctx : XCtx K) (hf : UndefinedOutside ctx.f) :
    TaintsAll (σ := σ) (xQuadLine cfg) ctx where
  any a b w hz := post_mono (quadLine_frame cfg a b ctx w hz) (fun _ _ h => h.2.2) (fun _ h => h)
  right x y1 y2 w h hz :=
    post_mono (quadLine_tainted cfg hp _ _ ctx (tainted_outside ctx hf _ _ (outside_right x y1 y2 h)) w hz)
      (fun _ _ h => ⟨h.2, h.1.2.2⟩) (fun _ h => h)

theorem edge_any (est : XLineEst σ K) (ctx : XCtx K) (ht : TaintsAll est ctx) (e : XCx K × XCx K) (w : XWorld σ K)
    (hw : OnlyZeros ctx.f w) : Post (xEdge est ctx e) w (fun _ w' => OnlyZeros ctx.f w') (OnlyZeros ctx.f) := by
  have hcomp : Post (xEdge.compute est ctx e) w (fun _ w' => OnlyZeros ctx.f w') (OnlyZeros ctx.f) := by
    unfold xEdge.compute
    refine post_bind (ht.any e.1 e.2 w hw) ?_
    intro d w1 h1
    refine post_bind (P := fun _ w' => OnlyZeros ctx.f w') (post_modify h1) ?_
    intro _ w2 hw2
    exact post_pure hw2
  unfold xEdge
  refine post_bind (P := fun a w' => w = a ∧ w = w') (post_get ⟨rfl, rfl⟩) ?_
  rintro _ _ ⟨rfl, rfl⟩
  rcases hl : lookup lineEq e w.cache with _ | v
  · exact hcomp
  · dsimp only
    split
    · exact hcomp
    · exact post_pure hw

theorem edge_right (est : XLineEst σ K) (ctx : XCtx K) (ht : TaintsAll est ctx) (x y1 y2 : XNum K)
    (h : y1.finite = false ∨ y2.finite = false) (w : XWorld σ K) (hw : OnlyZeros ctx.f w) :
    Post (xEdge est ctx (mkPoint x y1, mkPoint x y2)) w (fun d w' => d.re = .nan ∧ OnlyZeros ctx.f w') (OnlyZeros ctx.f) := by
  unfold xEdge
  refine post_bind (P := fun a w' => w = a ∧ w = w') (post_get ⟨rfl, rfl⟩) ?_
  rintro _ _ ⟨rfl, rfl⟩
  have hl : lookup lineEq (mkPoint x y1, mkPoint x y2) w.cache = none := by
    refine lookup_none_of_ne (fun a b => lineEq_iff a b) ?_ _
    rintro ⟨h1, h2⟩
    rcases h with h | h
    · dsimp only at h1
      rw [(mkPoint_not_finite x y1 h).1] at h1
      cases h1
    · dsimp only at h2
      rw [(mkPoint_not_finite x y2 h).1] at h2
      cases h2
  rw [hl]
  dsimp only
  unfold xEdge.compute
  refine post_bind (ht.right x y1 y2 w h hw) ?_
  rintro d w1 ⟨hd, h1⟩
  refine post_bind (P := fun _ w' => OnlyZeros ctx.f w') (post_modify h1) ?_
  intro _ w2 hw2
  exact post_pure ⟨hd, hw2⟩

theorem phase_right (est : XLineEst σ K) (ctx : XCtx K) (ht : TaintsAll est ctx) (re im : XNum K × XNum K)
    (h : im.1.finite = false ∨ im.2.finite = false) (w : XWorld σ K) (hw : OnlyZeros ctx.f w) :
    Post (xPhase est re im ctx) w (fun p w' => p = .nan ∧ OnlyZeros ctx.f w') (OnlyZeros ctx.f) := by
  unfold xPhase xEdges xSumEdges
  refine post_bind (P := fun (m : XCx K) w' => m.re = .nan ∧ OnlyZeros ctx.f w')
    (post_bind (edge_any est ctx ht _ w hw) ?_) ?_
  · intro d w1 h1
    unfold xSumEdges
    refine post_bind (edge_right est ctx ht re.2 im.1 im.2 h w1 h1) ?_
    rintro d' w2 ⟨hd', h2⟩
    refine post_mono (sumEdges_post est ctx (OnlyZeros ctx.f) _ (fun e _ w hw => edge_any est ctx ht e w hw) _ w2 h2) ?_
      (fun _ h => h)
    rintro p w3 ⟨h3, h4⟩
    refine ⟨h4 ?_, h3⟩
    show XNum.add (XNum.add (.fin 0) d.re) d'.re = .nan
    rw [hd', add_nan]
  · rintro m w1 ⟨hm, h1⟩
    exact post_pure ⟨hm, h1⟩

theorem not_finite_iff (a : XNum K) : a.finite = false ↔ ∀ x, a ≠ .fin x := by
  cases a <;> simp [XNum.finite]

theorem add_not_finite {a b : XNum K} (h : a.finite = false ∨ b.finite = false) : (XNum.add a b).finite = false := by
  rw [not_finite_iff]
  intro x hx
  obtain ⟨⟨u, rfl⟩, v, rfl⟩ := add_fin hx
  rcases h with h | h <;> cases h

theorem sub_not_finite {a b : XNum K} (h : a.finite = false ∨ b.finite = false) : (XNum.sub a b).finite = false := by
  rw [not_finite_iff]
  intro x hx
  obtain ⟨⟨u, rfl⟩, v, rfl⟩ := sub_fin hx
  rcases h with h | h <;> cases h

theorem mid_not_finite {a b : XNum K} (h : a.finite = false ∨ b.finite = false) : (XNum.mid a b).finite = false := by
  rw [not_finite_iff]
  intro x hx
  obtain ⟨u, hu⟩ := scale_fin hx
  exact ((not_finite_iff _).1 (add_not_finite h)) u hu

theorem right_never (est : XLineEst σ K) (pi : K) (variant : XVariant σ K) (limit : ℕ) (ctx : XCtx K)
    (ht : TaintsAll est ctx) (h : ctx.imRan.1.finite = false ∨ ctx.imRan.2.finite = false) (w : XWorld σ K)
    (hw : OnlyZeros ctx.f w) :
    Post (xCalcRoots est pi variant limit ctx) w (fun _ _ => False) (OnlyZeros ctx.f) :=
  calcRoots_never est pi variant ctx (OnlyZeros ctx.f) (fun _ im => im.1.finite = false ∨ im.2.finite = false)
    (fun _ _ h => h) (fun _ _ h => h.elim .inl (fun h => .inr (mid_not_finite (.inr h)))) (fun _ h => h)
    (fun re im w h hw => phase_right est ctx ht re im h w hw) limit h w hw

theorem sorted_not_finite {a b : XNum K} (h : a.finite = false ∨ b.finite = false) :
    (XNum.sorted a b).1.finite = false ∨ (XNum.sorted a b).2.finite = false := by
  unfold XNum.sorted
  split
  · exact h.symm
  · exact h

theorem sorted_not_lt (a b : XNum K) : XNum.lt (XNum.sorted a b).2 (XNum.sorted a b).1 = false := by
  unfold XNum.sorted
  split
  · rename_i h
    cases a <;> cases b <;> first | rfl | skip
    all_goals simp_all [XNum.lt]
    exact h.le
  · rename_i h
    simpa using h

theorem widened_not_lt (a b : XNum K) (c d : K) (h : XNum.lt b a = false) (hf : a.finite = false ∨ b.finite = false) :
    XNum.lt (XNum.add b (.fin d)) (XNum.sub a (.fin c)) = false := by
  cases a <;> cases b <;> first | rfl | (cases h; done) | (rcases hf with hf | hf <;> cases hf)

theorem mid_not_lt (a b : XNum K) (h : XNum.lt b a = false) (hf : a.finite = false ∨ b.finite = false) :
    XNum.lt (XNum.mid a b) a = false := by
  have h2 : (0 : K) < 2⁻¹ := by positivity
  cases a <;> cases b <;>
    first
    | (cases h; done)
    | rfl
    | (rcases hf with hf | hf <;> cases hf; done)
    | (simp [XNum.mid, XNum.over, XNum.scale, XNum.add, XNum.lt])

theorem infinite_never (est : XLineEst σ K) (pi : K) (variant : XVariant σ K) (limit : ℕ) (f : XCx K → XCx K)
    (hf : UndefinedOutside f) (df : Option (XCx K → XCx K)) (state : σ) (I : XNum K → K → σ → Prop)
    (ht : ∀ ctx : XCtx K, ∀ x0 y0, ∀ L : XNum K → Prop, (∀ u, L u → XNum.lt u x0 = false ∧
      Tainted ctx ⟨x0, .fin y0⟩ ⟨u, .fin y0⟩) → Taints est ctx x0 y0 L (I x0 y0))
    (hi : ∀ x0 y0, I x0 y0 state) (ha : ∀ ctx : XCtx K, UndefinedOutside ctx.f → TaintsAll est ctx)
    (re im : XNum K × XNum K) (precision : ℤ × ℤ)
    (h : re.1.finite = false ∨ re.2.finite = false ∨ im.1.finite = false ∨ im.2.finite = false) :
    ∃ e, (xCalculateRoots est pi variant limit f df state re im precision).1 = .error e ∧
      ∀ r ∈ (xCalculateRoots est pi variant limit f df state re im precision).2, ExactZero f r.1 ∧ r.2 = 0 := by
  obtain ⟨x1, x2⟩ := re
  obtain ⟨y1, y2⟩ := im
  obtain ⟨p, q⟩ := precision
  unfold xCalculateRoots
  dsimp only
  by_cases him : y1.finite = false ∨ y2.finite = false
  · refine failed_of_post (right_never est pi variant limit _ (ha _ hf) ?_ _ (fun r hr => (by cases hr)))
    unfold xDomain
    dsimp only
    exact (sorted_not_finite him).imp (fun h => sub_not_finite (.inl h)) (fun h => add_not_finite (.inl h))
  · have hre : x1.finite = false ∨ x2.finite = false := by
      rcases h with h | h | h | h
      · exact .inl h
      · exact .inr h
      · exact absurd (.inl h) him
      · exact absurd (.inr h) him
    have hy1 : ∃ u, y1 = .fin u := by
      cases y1 <;> first | exact ⟨_, rfl⟩ | exact absurd (.inl rfl) him
    have hy2 : ∃ u, y2 = .fin u := by
      cases y2 <;> first | exact ⟨_, rfl⟩ | exact absurd (.inr rfl) him
    obtain ⟨u1, rfl⟩ := hy1
    obtain ⟨u2, rfl⟩ := hy2
    have hq := eps_pos (K := K) (q + 1)
    have hy : min u1 u2 + -(3 * eps10 K (q + 1)) < max u1 u2 + 4 * eps10 K (q + 1) := by
      have := min_le_max (a := u1) (b := u2)
      linarith
    unfold xDomain
    dsimp only
    rw [sorted_fin]
    have hs := sorted_not_finite hre
    have hl := sorted_not_lt x1 x2
    generalize XNum.sorted x1 x2 = s at hs hl
    refine failed_of_post (bottom_never est pi variant limit _ (XNum.sub s.1 (.fin (eps10 K (p + 1))))
      (min u1 u2 + -(3 * eps10 K (q + 1)))
      (fun u => XNum.lt u (XNum.sub s.1 (.fin (eps10 K (p + 1)))) = false ∧
        ((XNum.sub s.1 (.fin (eps10 K (p + 1)))).finite = false ∨ u.finite = false)) _
      (ht _ _ _ _ ?_) ?_ ⟨rfl, ?_⟩ _ rfl hy _ (fun r hr => (by cases hr)) (hi _ _))
    · rintro u ⟨hu1, hu2⟩
      refine ⟨hu1, tainted_outside _ hf _ _ ?_⟩
      refine hu2.imp ?_ ?_
      · rintro hh ⟨a, b, e⟩
        exact (not_finite_iff _).1 hh a (congrArg Cx.re e)
      · rintro hh ⟨a, b, e⟩
        exact (not_finite_iff _).1 hh a (congrArg Cx.re e)
    · rintro u ⟨hu1, hu2⟩
      exact ⟨mid_not_lt _ _ hu1 hu2, .inr (mid_not_finite hu2)⟩
    · exact ⟨widened_not_lt _ _ _ _ hl hs, hs.imp (fun h => sub_not_finite (.inl h)) (fun h => add_not_finite (.inl h))⟩

/-- **C143** (summation estimator).  If a bound of the search region is infinite or NaN, and `f` is undefined at points
that are not finite, the search raises an error, and what the container has received are exact zeros. -/
theorem C143_sum (cfg : XSumCfg K) (hp : SumPropagates cfg) (pi : K) (variant : XVariant (XSumState K) K) (limit : ℕ)
    (f : XCx K → XCx K) (hf : UndefinedOutside f) (df : Option (XCx K → XCx K)) (re im : XNum K × XNum K)
    (precision : ℤ × ℤ) (h : re.1.finite = false ∨ re.2.finite = false ∨ im.1.finite = false ∨ im.2.finite = false) :
    ∃ e, (xCalculateRoots (xSumLine cfg) pi variant limit f df ⟨[], []⟩ re im precision).1 = .error e ∧
      ∀ r ∈ (xCalculateRoots (xSumLine cfg) pi variant limit f df ⟨[], []⟩ re im precision).2,
        ExactZero f r.1 ∧ r.2 = 0 :=
  infinite_never (xSumLine cfg) pi variant limit f hf df ⟨[], []⟩ RowOk
    (fun ctx x0 y0 L hL => sum_taints cfg hp ctx x0 y0 L hL) (fun _ _ _ h => (by cases h))
    (fun ctx hf => sum_taintsAll cfg hp ctx hf) re im precision h

/-- **C143** (quadrature estimator, in whatever state). -/
theorem C143_quad (cfg : XQuadCfg K) (hp : QuadPropagates cfg) (pi : K) (variant : XVariant σ K) (limit : ℕ)
    (f : XCx K → XCx K) (hf : UndefinedOutside f) (df : Option (XCx K → XCx K)) (state : σ) (re im : XNum K × XNum K)
    (precision : ℤ × ℤ) (h : re.1.finite = false ∨ re.2.finite = false ∨ im.1.finite = false ∨ im.2.finite = false) :
    ∃ e, (xCalculateRoots (xQuadLine cfg) pi variant limit f df state re im precision).1 = .error e ∧
      ∀ r ∈ (xCalculateRoots (xQuadLine cfg) pi variant limit f df state re im precision).2,
        ExactZero f r.1 ∧ r.2 = 0 :=
  infinite_never (xQuadLine cfg) pi variant limit f hf df state (fun _ _ _ => True)
    (fun ctx x0 y0 L hL => quad_taints cfg hp ctx x0 y0 L hL) (fun _ _ => trivial)
    (fun ctx hf => quad_taintsAll cfg hp ctx hf) re im precision h

/-! ## The parallel finder -/

theorem firstFailure_first (s : Schedule) (e : Err) (rs : List (Except Err Unit)) :
    ∃ e', firstFailure s (.error e :: rs) = .error e' := ⟨_, rfl⟩

theorem jobs_first (f : XCx K → XCx K) (df : Option (XCx K → XCx K)) (n : ℕ) (re im : XNum K × XNum K) (p : ℤ × ℤ) :
    ∃ x2 y2 rest, xCreateRootJobs f df (n + 1) re im p =
      { f := f, df := df, precision := p,
        reRan := (XNum.add re.1 (XNum.scale ((0 : ℕ) : K) (XNum.over (XNum.sub re.2 re.1) ((n : K) + 1))), x2),
        imRan := (XNum.add im.1 (XNum.scale ((0 : ℕ) : K) (XNum.over (XNum.sub im.2 im.1) ((n : K) + 1))), y2) } :: rest ∧
      ((∃ a b, re = (.fin a, .fin b) ∧ a < b) → ∃ a u, re.1 = .fin a ∧ x2 = .fin u ∧ a < u) ∧
      ((∃ a b, im = (.fin a, .fin b) ∧ a < b) → ∃ a u, im.1 = .fin a ∧ y2 = .fin u ∧ a < u) := by
  have hl : ∀ a b : XNum K, (xLinspaceR a b (n + 1 + 1)).length - 1 = n + 1 := by
    intro a b
    simp [xLinspaceR]
  have h0 : ∀ a b : XNum K, (xLinspaceR a b (n + 1 + 1)).getD 0 .nan =
      XNum.add a (XNum.scale ((0 : ℕ) : K) (XNum.over (XNum.sub b a) ((n : K) + 1))) := by
    intro a b
    unfold xLinspaceR
    dsimp only
    rw [List.range_succ_eq_map]
    rfl
  have h1 : ∀ a b : K, a < b → ∃ u, (xLinspaceR (.fin a) (.fin b) (n + 1 + 1)).getD (0 + 1) .nan = .fin u ∧ a < u := by
    intro a b hab
    unfold xLinspaceR
    dsimp only
    cases n with
    | zero => exact ⟨b, rfl, hab⟩
    | succ m =>
      rw [List.range_succ_eq_map, List.range_succ_eq_map]
      refine ⟨a + ((Nat.succ 0 : ℕ) : K) * ((((m + 1 : ℕ) : K) + 1)⁻¹ * (b + -a)), rfl, ?_⟩
      have h2 : (0 : K) < (((m + 1 : ℕ) : K) + 1)⁻¹ := by positivity
      have h3 : (0 : K) < b + -a := by linarith
      have h4 := mul_pos h2 h3
      simp only [Nat.succ_eq_add_one, zero_add, Nat.cast_one, one_mul]
      linarith
  refine ⟨(xLinspaceR re.1 re.2 (n + 1 + 1)).getD (0 + 1) .nan, (xLinspaceR im.1 im.2 (n + 1 + 1)).getD (0 + 1) .nan, ?_⟩
  have hj : ∃ rest, xCreateRootJobs f df (n + 1) re im p =
      { f := f, df := df, precision := p,
        reRan := ((xLinspaceR re.1 re.2 (n + 1 + 1)).getD 0 .nan, (xLinspaceR re.1 re.2 (n + 1 + 1)).getD (0 + 1) .nan),
        imRan := ((xLinspaceR im.1 im.2 (n + 1 + 1)).getD 0 .nan, (xLinspaceR im.1 im.2 (n + 1 + 1)).getD (0 + 1) .nan) }
          :: rest := by
    unfold xCreateRootJobs
    dsimp only
    rw [hl, hl, List.range_succ_eq_map, List.flatMap_cons, List.map_cons, List.cons_append]
    exact ⟨_, rfl⟩
  obtain ⟨rest, hj⟩ := hj
  refine ⟨rest, ?_, ?_, ?_⟩
  · rw [hj, h0, h0]
  · rintro ⟨a, b, rfl, hab⟩
    obtain ⟨u, hu, h⟩ := h1 a b hab
    exact ⟨a, u, rfl, hu, h⟩
  · rintro ⟨a, b, rfl, hab⟩
    obtain ⟨u, hu, h⟩ := h1 a b hab
    exact ⟨a, u, rfl, hu, h⟩

/-- if the first job fails, so does the parallel search -/
theorem parallel_of_first (est : XLineEst σ K) (pi : K) (variant : XVariant σ K) (limit : ℕ) (f : XCx K → XCx K)
    (df : Option (XCx K → XCx K)) (state : σ) (n : ℕ) (re im : XNum K × XNum K) (precision : ℤ × ℤ)
    (sched : Schedule) (hs : sched.interrupted = false) (job : XCtx K) (rest : List (XCtx K))
    (hj : xCreateRootJobs f df (n + 1) (xDomain re im (precision.1 + 1, precision.2 + 1)).1
      (xDomain re im (precision.1 + 1, precision.2 + 1)).2 (precision.1 + 1, precision.2 + 1) = job :: rest)
    (h : Post (xCalcRoots est pi variant limit job) (⟨[], state, []⟩ : XWorld σ K) (fun _ _ => False) (OnlyZeros job.f)) :
    ∃ e, xCalculateRootsParallel est pi variant limit f df state (n + 1) re im precision sched = (.error e, []) := by
  obtain ⟨e, he, _⟩ := failed_of_post h
  unfold xCalculateRootsParallel
  dsimp only
  rw [hj, if_neg (by rw [hs]; exact Bool.false_ne_true), List.length_cons]
  unfold chunks
  rw [List.map_cons, List.map_cons, List.take_succ_cons]
  have hr : (xRunJobs (xCalcRoots est pi variant limit) (job :: rest.take n) (⟨[], state, []⟩ : XWorld σ K)).1 = .error e := by
    unfold xRunJobs
    rw [Py.bind_run]
    rcases hh : xCalcRoots est pi variant limit job (⟨[], state, []⟩ : XWorld σ K) with ⟨r, w'⟩
    rw [hh] at he
    dsimp only at he
    subst he
    rfl
  dsimp only
  rw [hr]
  exact ⟨_, rfl⟩

theorem finite_parallel_never (est : XLineEst σ K) (pi : K) (variant : XVariant σ K) (limit : ℕ) (f : XCx K → XCx K)
    (df : Option (XCx K → XCx K)) (state : σ) (I : XNum K → K → σ → Prop) (x1 x2 y1 y2 : K) (p q : ℤ)
    (ht : ∀ ctx : XCtx K, ∀ x0 y0, ∀ L : XNum K → Prop, (∀ u, L u → XNum.lt u x0 = false ∧
      Tainted ctx ⟨x0, .fin y0⟩ ⟨u, .fin y0⟩) → Taints est ctx x0 y0 L (I x0 y0))
    (hi : ∀ x0 y0, I x0 y0 state) (n : ℕ) (sched : Schedule) (hs : sched.interrupted = false)
    (hn : isNaN (f ⟨.fin (min x1 x2 - eps10 K (p + 1)), .fin (min y1 y2 - 3 * eps10 K (q + 1))⟩) = true)
    (hz : ∀ x, ¬ ExactZero f ⟨.fin x, .fin (min y1 y2 - 3 * eps10 K (q + 1))⟩) :
    ∃ e, xCalculateRootsParallel est pi variant limit f df state (n + 1) (.fin x1, .fin x2) (.fin y1, .fin y2) (p, q) sched =
      (.error e, []) := by
  have hp := eps_pos (K := K) (p + 1)
  have hq := eps_pos (K := K) (q + 1)
  have hx : min x1 x2 - eps10 K (p + 1) < max x1 x2 + 2 * eps10 K (p + 1) := by
    have := min_le_max (a := x1) (b := x2)
    linarith
  have hy : min y1 y2 - 3 * eps10 K (q + 1) < max y1 y2 + 4 * eps10 K (q + 1) := by
    have := min_le_max (a := y1) (b := y2)
    linarith
  have hd : xDomain (K := K) (.fin x1, .fin x2) (.fin y1, .fin y2) (p + 1, q + 1) =
      ((.fin (min x1 x2 - eps10 K (p + 1)), .fin (max x1 x2 + 2 * eps10 K (p + 1))),
       (.fin (min y1 y2 - 3 * eps10 K (q + 1)), .fin (max y1 y2 + 4 * eps10 K (q + 1)))) := by
    unfold xDomain
    dsimp only
    rw [sorted_fin, sorted_fin, sub_eq_add_neg, sub_eq_add_neg]
    rfl
  obtain ⟨u2, v2, rest, hj, h1, h2⟩ := jobs_first f df n
    (.fin (min x1 x2 - eps10 K (p + 1)), .fin (max x1 x2 + 2 * eps10 K (p + 1)))
    (.fin (min y1 y2 - 3 * eps10 K (q + 1)), .fin (max y1 y2 + 4 * eps10 K (q + 1))) (p + 1, q + 1)
  obtain ⟨a, u, ha, rfl, hau⟩ := h1 ⟨_, _, rfl, hx⟩
  obtain ⟨b, v, hb, rfl, hbv⟩ := h2 ⟨_, _, rfl, hy⟩
  injection ha with ha
  injection hb with hb
  subst ha
  subst hb
  have hstart : ∀ c d : K, XNum.add (.fin c) (XNum.scale ((0 : ℕ) : K) (XNum.over (XNum.sub (.fin d) (.fin c)) ((n : K) + 1))) =
      .fin c := by
    intro c d
    show XNum.fin (c + ((0 : ℕ) : K) * _) = _
    rw [Nat.cast_zero, zero_mul, add_zero]
  dsimp only at hj
  rw [hstart, hstart] at hj
  refine parallel_of_first est pi variant limit f df state n _ _ (p, q) sched hs _ rest (by rw [hd]; exact hj) ?_
  refine bottom_never est pi variant limit _ (.fin (min x1 x2 - eps10 K (p + 1))) (min y1 y2 - 3 * eps10 K (q + 1))
    (fun u => ∃ x, u = .fin x ∧ min x1 x2 - eps10 K (p + 1) < x) _
    (ht _ _ _ _ ?_) ?_ ⟨rfl, _, rfl, hau⟩ _ rfl hbv _ (fun r hr => (by cases hr)) (hi _ _)
  · rintro _ ⟨x, rfl, h⟩
    refine ⟨?_, tainted_corner _ _ _ _ hn hz⟩
    simpa [XNum.lt] using h.le
  · rintro _ ⟨x, rfl, h⟩
    refine ⟨2⁻¹ * (min x1 x2 - eps10 K (p + 1) + x), rfl, ?_⟩
    have h4 : (2 : K)⁻¹ * (min x1 x2 - eps10 K (p + 1) + x) = (min x1 x2 - eps10 K (p + 1) + x) / 2 := by ring
    rw [h4]
    linarith

theorem infinite_parallel_never (est : XLineEst σ K) (pi : K) (variant : XVariant σ K) (limit : ℕ) (f : XCx K → XCx K)
    (hf : UndefinedOutside f) (df : Option (XCx K → XCx K)) (state : σ) (I : XNum K → K → σ → Prop)
    (ht : ∀ ctx : XCtx K, ∀ x0 y0, ∀ L : XNum K → Prop, (∀ u, L u → XNum.lt u x0 = false ∧
      Tainted ctx ⟨x0, .fin y0⟩ ⟨u, .fin y0⟩) → Taints est ctx x0 y0 L (I x0 y0))
    (hi : ∀ x0 y0, I x0 y0 state) (ha : ∀ ctx : XCtx K, UndefinedOutside ctx.f → TaintsAll est ctx)
    (n : ℕ) (re im : XNum K × XNum K) (precision : ℤ × ℤ) (sched : Schedule) (hs : sched.interrupted = false)
    (h : re.1.finite = false ∨ re.2.finite = false ∨ im.1.finite = false ∨ im.2.finite = false) :
    ∃ e, xCalculateRootsParallel est pi variant limit f df state (n + 1) re im precision sched = (.error e, []) := by
  obtain ⟨x1, x2⟩ := re
  obtain ⟨y1, y2⟩ := im
  obtain ⟨p, q⟩ := precision
  obtain ⟨u2, v2, rest, hj, _, h2⟩ := jobs_first f df n (xDomain (x1, x2) (y1, y2) (p + 1, q + 1)).1
    (xDomain (x1, x2) (y1, y2) (p + 1, q + 1)).2 (p + 1, q + 1)
  refine parallel_of_first est pi variant limit f df state n _ _ (p, q) sched hs _ rest hj ?_
  have hbad : ∀ a b : XNum K, a.finite = false ∨ b.finite = false →
      (XNum.add a (XNum.scale ((0 : ℕ) : K) (XNum.over (XNum.sub b a) ((n : K) + 1)))).finite = false := by
    intro a b hab
    rw [not_finite_iff]
    intro x hx
    obtain ⟨⟨u, hu⟩, v, hv⟩ := add_fin hx
    obtain ⟨v', hv'⟩ := scale_fin hv
    obtain ⟨v'', hv''⟩ := scale_fin hv'
    exact (not_finite_iff _).1 (sub_not_finite hab.symm) _ hv''
  by_cases him : y1.finite = false ∨ y2.finite = false
  · refine right_never est pi variant limit _ (ha _ hf) (.inl (hbad _ _ ?_)) _ (fun r hr => (by cases hr))
    unfold xDomain
    dsimp only
    exact (sorted_not_finite him).imp (fun h => sub_not_finite (.inl h)) (fun h => add_not_finite (.inl h))
  · have hre : x1.finite = false ∨ x2.finite = false := by
      rcases h with h | h | h | h
      · exact .inl h
      · exact .inr h
      · exact absurd (.inl h) him
      · exact absurd (.inr h) him
    have hy1 : ∃ u, y1 = .fin u := by
      cases y1 <;> first | exact ⟨_, rfl⟩ | exact absurd (.inl rfl) him
    have hy2 : ∃ u, y2 = .fin u := by
      cases y2 <;> first | exact ⟨_, rfl⟩ | exact absurd (.inr rfl) him
    obtain ⟨u1, rfl⟩ := hy1
    obtain ⟨u2', rfl⟩ := hy2
    have hq := eps_pos (K := K) (q + 1)
    have hy : min u1 u2' + -(3 * eps10 K (q + 1)) < max u1 u2' + 4 * eps10 K (q + 1) := by
      have := min_le_max (a := u1) (b := u2')
      linarith
    have hbadx : (xDomain (x1, x2) (XNum.fin u1, XNum.fin u2') (p + 1, q + 1)).1.1.finite = false ∨
        (xDomain (x1, x2) (XNum.fin u1, XNum.fin u2') (p + 1, q + 1)).1.2.finite = false := by
      unfold xDomain
      dsimp only
      exact (sorted_not_finite hre).imp (fun h => sub_not_finite (.inl h)) (fun h => add_not_finite (.inl h))
    have hdy : (xDomain (x1, x2) (XNum.fin u1, XNum.fin u2') (p + 1, q + 1)).2 =
        (.fin (min u1 u2' + -(3 * eps10 K (q + 1))), .fin (max u1 u2' + 4 * eps10 K (q + 1))) := by
      unfold xDomain
      dsimp only
      rw [sorted_fin]
      rfl
    rw [hdy] at h2 ⊢
    obtain ⟨b, v, hb, rfl, hbv⟩ := h2 ⟨_, _, rfl, hy⟩
    injection hb with hb
    subst hb
    have hstart : ∀ c d : K, XNum.add (.fin c) (XNum.scale ((0 : ℕ) : K) (XNum.over (XNum.sub (.fin d) (.fin c)) ((n : K) + 1))) =
        .fin c := by
      intro c d
      show XNum.fin (c + ((0 : ℕ) : K) * _) = _
      rw [Nat.cast_zero, zero_mul, add_zero]
    dsimp only
    rw [hstart]
    have hx0 := hbad _ _ hbadx
    have hxn : XNum.add (xDomain (x1, x2) (XNum.fin u1, XNum.fin u2') (p + 1, q + 1)).1.1 (XNum.scale ((0 : ℕ) : K)
        (XNum.over (XNum.sub (xDomain (x1, x2) (XNum.fin u1, XNum.fin u2') (p + 1, q + 1)).1.2
          (xDomain (x1, x2) (XNum.fin u1, XNum.fin u2') (p + 1, q + 1)).1.1) ((n : K) + 1))) = .nan := by
      have hnf := sub_not_finite hbadx.symm
      generalize XNum.sub (xDomain (x1, x2) (XNum.fin u1, XNum.fin u2') (p + 1, q + 1)).1.2
          (xDomain (x1, x2) (XNum.fin u1, XNum.fin u2') (p + 1, q + 1)).1.1 = d at hnf ⊢
      have : XNum.scale ((0 : ℕ) : K) (XNum.over d ((n : K) + 1)) = .nan := by
        have hpos : (0 : K) < ((n : K) + 1)⁻¹ := by positivity
        cases d <;> simp [XNum.over, XNum.scale, XNum.finite, hpos, hpos.ne'] at hnf ⊢
      rw [this, add_nan]
    rw [hxn]
    refine bottom_never est pi variant limit _ .nan (min u1 u2' + -(3 * eps10 K (q + 1))) (fun _ => True) _
      (ht _ _ _ _ ?_) (fun _ _ => trivial) ⟨rfl, trivial⟩ _ rfl hbv _ (fun r hr => (by cases hr)) (hi _ _)
    intro u _
    refine ⟨lt_nan u, tainted_outside _ hf _ _ (.inl ?_)⟩
    rintro ⟨a, b, e⟩
    cases congrArg Cx.re e

/-- **C142** (parallel, summation estimator): an uninterrupted search raises an error, and nothing is transferred to the
finder's container; for every number of processes and every schedule. -/
theorem C142_parallel_sum (cfg : XSumCfg K) (hp : SumPropagates cfg) (pi : K) (variant : XVariant (XSumState K) K)
    (limit : ℕ) (f : XCx K → XCx K) (df : Option (XCx K → XCx K)) (x1 x2 y1 y2 : K) (p q : ℤ) (n : ℕ) (sched : Schedule)
    (hs : sched.interrupted = false)
    (hn : isNaN (f ⟨.fin (min x1 x2 - eps10 K (p + 1)), .fin (min y1 y2 - 3 * eps10 K (q + 1))⟩) = true)
    (hz : ∀ x, ¬ ExactZero f ⟨.fin x, .fin (min y1 y2 - 3 * eps10 K (q + 1))⟩) :
    ∃ e, xCalculateRootsParallel (xSumLine cfg) pi variant limit f df ⟨[], []⟩ (n + 1) (.fin x1, .fin x2)
      (.fin y1, .fin y2) (p, q) sched = (.error e, []) :=
  finite_parallel_never (xSumLine cfg) pi variant limit f df ⟨[], []⟩ RowOk x1 x2 y1 y2 p q
    (fun ctx x0 y0 L hL => sum_taints cfg hp ctx x0 y0 L hL) (fun _ _ _ h => (by cases h)) n sched hs hn hz

/-- **C142** (parallel, quadrature estimator) -/
theorem C142_parallel_quad (cfg : XQuadCfg K) (hp : QuadPropagates cfg) (pi : K) (variant : XVariant σ K)
    (limit : ℕ) (f : XCx K → XCx K) (df : Option (XCx K → XCx K)) (state : σ) (x1 x2 y1 y2 : K) (p q : ℤ) (n : ℕ)
    (sched : Schedule) (hs : sched.interrupted = false)
    (hn : isNaN (f ⟨.fin (min x1 x2 - eps10 K (p + 1)), .fin (min y1 y2 - 3 * eps10 K (q + 1))⟩) = true)
    (hz : ∀ x, ¬ ExactZero f ⟨.fin x, .fin (min y1 y2 - 3 * eps10 K (q + 1))⟩) :
    ∃ e, xCalculateRootsParallel (xQuadLine cfg) pi variant limit f df state (n + 1) (.fin x1, .fin x2)
      (.fin y1, .fin y2) (p, q) sched = (.error e, []) :=
  finite_parallel_never (xQuadLine cfg) pi variant limit f df state (fun _ _ _ => True) x1 x2 y1 y2 p q
    (fun ctx x0 y0 L hL => quad_taints cfg hp ctx x0 y0 L hL) (fun _ _ => trivial) n sched hs hn hz

/-- **C143** (parallel, summation estimator): an uninterrupted search raises an error, and nothing is transferred to the
finder's container. -/
theorem C143_parallel_sum (cfg : XSumCfg K) (hp : SumPropagates cfg) (pi : K) (variant : XVariant (XSumState K) K)
    (limit : ℕ) (f : XCx K → XCx K) (hf : UndefinedOutside f) (df : Option (XCx K → XCx K)) (re im : XNum K × XNum K)
    (precision : ℤ × ℤ) (n : ℕ) (sched : Schedule) (hs : sched.interrupted = false)
    (h : re.1.finite = false ∨ re.2.finite = false ∨ im.1.finite = false ∨ im.2.finite = false) :
    ∃ e, xCalculateRootsParallel (xSumLine cfg) pi variant limit f df ⟨[], []⟩ (n + 1) re im precision sched =
      (.error e, []) :=
  infinite_parallel_never (xSumLine cfg) pi variant limit f hf df ⟨[], []⟩ RowOk
    (fun ctx x0 y0 L hL => sum_taints cfg hp ctx x0 y0 L hL) (fun _ _ _ h => (by cases h))
    (fun ctx hf => sum_taintsAll cfg hp ctx hf) n re im precision sched hs h

/-- **C143** (parallel, quadrature estimator) -/
theorem C143_parallel_quad (cfg : XQuadCfg K) (hp : QuadPropagates cfg) (pi : K) (variant : XVariant σ K)
    (limit : ℕ) (f : XCx K → XCx K) (hf : UndefinedOutside f) (df : Option (XCx K → XCx K)) (state : σ)
    (re im : XNum K × XNum K) (precision : ℤ × ℤ) (n : ℕ) (sched : Schedule) (hs : sched.interrupted = false)
    (h : re.1.finite = false ∨ re.2.finite = false ∨ im.1.finite = false ∨ im.2.finite = false) :
    ∃ e, xCalculateRootsParallel (xQuadLine cfg) pi variant limit f df state (n + 1) re im precision sched =
      (.error e, []) :=
  infinite_parallel_never (xQuadLine cfg) pi variant limit f hf df state (fun _ _ _ => True)
    (fun ctx x0 y0 L hL => quad_taints cfg hp ctx x0 y0 L hL) (fun _ _ => trivial)
    (fun ctx hf => quad_taintsAll cfg hp ctx hf) n re im precision sched hs h

/-! ## The hypotheses can be met -/

/-- an estimator whose phases are 0 if defined -/
def extSumCfg : XSumCfg ℚ where
  numPts := 3
  deltaPhi := 1
  maxPrecision := 1 / 1000
  phase a b := if isNaN a || isNaN b then .nan else .fin 0
  dist _ _ := .fin 1
  evals _ := 5
  steps := 5

/-- an estimator whose integrals are 0 if defined -/
def extQuadCfg : XQuadCfg ℚ where
  quot _ v := if isNaN v then ⟨.nan, .nan⟩ else ⟨.fin 0, .fin 0⟩
  romb ys _ := if XNum.nan ∈ ys then .nan else .fin 0
  dist _ _ := .fin 1
  evals _ := 5
  steps := 8

/-- a function without zeros, defined in the right half plane -/
def extF (z : XCx ℚ) : XCx ℚ :=
  match z with
  | ⟨.fin x, .fin _⟩ => if 0 < x then ⟨.fin 1, .fin 0⟩ else ⟨.nan, .nan⟩
  | _ => ⟨.nan, .nan⟩

theorem extSum_propagates : SumPropagates extSumCfg where
  phase a b h := by
    show (if isNaN a || isNaN b then _ else _) = _
    rcases h with h | h
    · rw [h]; rfl
    · rw [h, Bool.or_true]; rfl
  points := by decide

theorem extQuad_propagates : QuadPropagates extQuadCfg where
  quot d v h := by
    show (if isNaN v then _ else _ : XCx ℚ).re = _
    rw [h]; rfl
  romb ys dx h := if_pos h

theorem extF_undefined : UndefinedOutside extF := by
  rintro ⟨a, b⟩ h
  cases a <;> cases b <;> first | rfl | exact absurd ⟨_, _, rfl⟩ h

theorem extF_no_zero (z : XCx ℚ) : ¬ ExactZero extF z := by
  intro h
  unfold ExactZero extF at h
  split at h
  · split at h
    · have := congrArg Cx.re h
      injection this with this
      exact absurd this one_ne_zero
    · cases congrArg Cx.re h
  · cases congrArg Cx.re h

/-- hypotheses of `C142_sum`, `C142_quad`: the region [0, 1] × [0, 1] -/
example : isNaN (extF ⟨.fin (min 0 1 - eps10 ℚ (1 + 1)), .fin (min 0 1 - 3 * eps10 ℚ (1 + 1))⟩) = true ∧
    ∀ x, ¬ ExactZero extF ⟨.fin x, .fin (min 0 1 - 3 * eps10 ℚ (1 + 1))⟩ :=
  ⟨by decide +kernel, fun _ => extF_no_zero _⟩

/-- the search with the summation estimator does return where the function is defined … -/
example : (xCalculateRoots (xSumLine extSumCfg) 3 .simple 50 extF none ⟨[], []⟩ (.fin 1, .fin 2) (.fin 0, .fin 1) (1, 1)).1 =
    .ok () := by decide +kernel

/-- … and fails in a region with an undefined corner, … -/
example : (xCalculateRoots (xSumLine extSumCfg) 3 .simple 50 extF none ⟨[], []⟩ (.fin 0, .fin 1) (.fin 0, .fin 1) (1, 1)).1 =
    .error .valueError := by decide +kernel

/-- … or if the region is a half strip -/
example : (xCalculateRoots (xSumLine extSumCfg) 3 .simple 50 extF none ⟨[], []⟩ (.fin 1, .pinf) (.fin 0, .fin 1) (1, 1)).1 =
    .error .recursionError := by decide +kernel

/-- the parallel search returns where the function is defined, and fails in a region with an undefined corner -/
example : (xCalculateRootsParallel (xSumLine extSumCfg) 3 .simple 50 extF none ⟨[], []⟩ 2 (.fin 1, .fin 2) (.fin 0, .fin 1) (1, 1)
      ⟨[], false, 0⟩).1 = .ok () ∧
    (xCalculateRootsParallel (xSumLine extSumCfg) 3 .simple 50 extF none ⟨[], []⟩ 2 (.fin 0, .fin 1) (.fin 0, .fin 1) (1, 1)
      ⟨[], false, 0⟩).1 = .error .valueError := by decide +kernel

end PyZeal.Props
