import Verif.Model.Algorithms
import Verif.Proof.Frames
import Mathlib.Algebra.BigOperators.Group.List.Basic

/-! # Lemmas about the argument based search -/

set_option linter.unusedSectionVars false

namespace PyZeal
open Spec
variable {K : Type} {σ : Type} [Field K] [LinearOrder K] [IsStrictOrderedRing K] [FloorRing K]

/-! ## One completed step -/

/-- does the code split the real side? -/
def SplitRe (p : ℤ × ℤ) (c : Cell K) : Prop :=
  (c.re.2 - c.re.1) / eps10 K p.1 > (c.im.2 - c.im.1) / eps10 K p.2

instance (p : ℤ × ℤ) (c : Cell K) : Decidable (SplitRe p c) := by unfold SplitRe; infer_instance

/-- the two halves into which the code splits a rectangle, with phases `phi1`, `phi2` -/
def half1 (p : ℤ × ℤ) (c : Cell K) (phi : K) : Cell K :=
  if SplitRe p c then ⟨(c.re.1, (c.re.1 + c.re.2) / 2), c.im, phi⟩
  else ⟨c.re, (c.im.1, (c.im.1 + c.im.2) / 2), phi⟩
def half2 (p : ℤ × ℤ) (c : Cell K) (phi : K) : Cell K :=
  if SplitRe p c then ⟨((c.re.1 + c.re.2) / 2, c.re.2), c.im, phi⟩
  else ⟨c.re, ((c.im.1 + c.im.2) / 2, c.im.2), phi⟩

/-- call of `decideRefinement` for a rectangle with phase -/
def Decide.at (d : Decide σ K) (ctx : RCtx K) (c : Cell K) : Py (World σ K) Unit := d c.re c.im c.phi ctx

/-- the recursive part of `simpleDecide`, with the two cache removals as parameters -/
def splitStep (est : LineEst σ K) (self : Decide σ K) (ctx : RCtx K) (c : Cell K) (e1 e2 : Cx K × Cx K) :
    Py (World σ K) Unit := do
  let phi1 ← phaseOf est (half1 ctx.precision c 0).re (half1 ctx.precision c 0).im ctx
  self.at ctx (half1 ctx.precision c phi1)
  cacheRemove e1.1 e1.2
  let phi2 ← phaseOf est (half2 ctx.precision c 0).re (half2 ctx.precision c 0).im ctx
  self.at ctx (half2 ctx.precision c phi2)
  cacheRemove e2.1 e2.2

/-- the edges removed from the cache after the halves are done -/
def dropEdge1 (p : ℤ × ℤ) (c : Cell K) : Cx K × Cx K :=
  if SplitRe p c then (⟨c.re.1, c.im.2⟩, ⟨c.re.1, c.im.1⟩) else (⟨c.re.1, c.im.1⟩, ⟨c.re.2, c.im.1⟩)
def dropEdge2 (p : ℤ × ℤ) (c : Cell K) : Cx K × Cx K :=
  if SplitRe p c then (⟨c.re.2, c.im.1⟩, ⟨c.re.2, c.im.2⟩) else (⟨c.re.2, c.im.2⟩, ⟨c.re.1, c.im.2⟩)

theorem simpleDecide_eq (est : LineEst σ K) (pi : K) (self : Decide σ K) (ctx : RCtx K) (c : Cell K) :
    (simpleDecide est pi self).at ctx c =
      if ¬ Cell.Turns pi c then World.advance ctx (Cell.area c)
      else if Cell.Small ctx.precision c then do
        World.addRoot (Cell.centre c, roundHalfEven (c.phi / (2 * pi)))
        World.advance ctx 0
      else splitStep est self ctx c (dropEdge1 ctx.precision c) (dropEdge2 ctx.precision c) := by
  unfold Decide.at simpleDecide
  have h1 : (c.phi < TWO_PI pi) ↔ ¬ Cell.Turns pi c := by
    unfold TWO_PI Cell.Turns; rw [not_le]
  have h2 : (c.re.2 - c.re.1 < eps10 K ctx.precision.1 ∧ c.im.2 - c.im.1 < eps10 K ctx.precision.2) ↔
      Cell.Small ctx.precision c := Iff.rfl
  have h3 : ((c.re.2 - c.re.1) / eps10 K ctx.precision.1 > (c.im.2 - c.im.1) / eps10 K ctx.precision.2) ↔
      SplitRe ctx.precision c := Iff.rfl
  simp only [h1, h2, h3]
  by_cases hc1 : Cell.Turns pi c
  · have hc1' : ¬ ¬ Cell.Turns pi c := not_not.2 hc1
    rw [if_neg hc1', if_neg hc1']
    by_cases hc2 : Cell.Small ctx.precision c
    · rw [if_pos hc2, if_pos hc2]
      unfold getRootFromRectangle
      simp only [sub_self, mul_zero]
      congr 3
    · rw [if_neg hc2, if_neg hc2]
      unfold splitStep half1 half2 dropEdge1 dropEdge2
      by_cases hc3 : SplitRe ctx.precision c
      · simp only [if_pos hc3]
        rfl
      · simp only [if_neg hc3]
        rfl
  · rw [if_pos hc1, if_pos hc1]
    rfl

/-! ## Completed runs as trees -/

/-- shape of a completed refinement with the phases reported for the halves -/
inductive Tree (K : Type)
  | leaf
  | node (phi1 : K) (t1 : Tree K) (phi2 : K) (t2 : Tree K)

/-- the tree describes a run which stops exactly at the cells with property `stop` -/
def Tree.Valid (stop : Cell K → Prop) (p : ℤ × ℤ) : Tree K → Cell K → Prop
  | .leaf, c => stop c
  | .node phi1 t1 phi2 t2, c =>
    ¬ stop c ∧ t1.Valid stop p (half1 p c phi1) ∧ t2.Valid stop p (half2 p c phi2)

/-- the rectangles evaluated below the root, in order -/
def Tree.log (p : ℤ × ℤ) : Tree K → Cell K → List (Cell K)
  | .leaf, _ => []
  | .node phi1 t1 phi2 t2, c =>
    half1 p c phi1 :: t1.log p (half1 p c phi1) ++ (half2 p c phi2 :: t2.log p (half2 p c phi2))

/-- the rectangles at which the refinement stops -/
def Tree.leaves (p : ℤ × ℤ) : Tree K → Cell K → List (Cell K)
  | .leaf, c => [c]
  | .node phi1 t1 phi2 t2, c => t1.leaves p (half1 p c phi1) ++ t2.leaves p (half2 p c phi2)

/-- the candidate belonging to a final rectangle -/
def candidate (pi : K) (c : Cell K) : Root K := (Cell.centre c, roundHalfEven (c.phi / (2 * pi)))

/-- progress reported for a final rectangle -/
def leafAdvance (pi : K) (c : Cell K) : K := if Cell.Turns pi c then 0 else Cell.area c

theorem Tree.leaves_eq_filter (stop : Cell K → Prop) [DecidablePred stop] (p : ℤ × ℤ) (t : Tree K)
    (c : Cell K) (h : t.Valid stop p c) :
    (c :: t.log p c).filter (fun c => decide (stop c)) = t.leaves p c := by
  induction t generalizing c with
  | leaf =>
    have h : stop c := h
    simp [Tree.log, Tree.leaves, h]
  | node phi1 t1 phi2 t2 ih1 ih2 =>
    obtain ⟨h0, h1, h2⟩ := h
    simp only [Tree.log, Tree.leaves]
    rw [List.filter_cons_of_neg (by simpa using h0), List.filter_append, ih1 _ h1, ih2 _ h2]

theorem Tree.leaves_stop (stop : Cell K → Prop) (p : ℤ × ℤ) (t : Tree K) (c : Cell K)
    (h : t.Valid stop p c) : ∀ l ∈ t.leaves p c, stop l := by
  classical
  rw [← Tree.leaves_eq_filter stop p t c h]
  intro l hl
  simpa using (List.mem_filter.1 hl).2

theorem Tree.leaves_subset_log (p : ℤ × ℤ) (t : Tree K) (c : Cell K) :
    ∀ l ∈ t.leaves p c, l ∈ c :: t.log p c := by
  induction t generalizing c with
  | leaf => intro l hl; simpa [Tree.leaves, Tree.log] using hl
  | node phi1 t1 phi2 t2 ih1 ih2 =>
    intro l hl
    simp only [Tree.leaves, List.mem_append] at hl
    simp only [Tree.log, List.mem_cons, List.mem_append]
    rcases hl with h | h
    · have := ih1 _ l h; simp only [List.mem_cons] at this; tauto
    · have := ih2 _ l h; simp only [List.mem_cons] at this; tauto

/-! ## Geometry of the halves -/

theorem has_halves (p : ℤ × ℤ) (c : Cell K) (phi1 phi2 : K) (z : Cx K) :
    Cell.Has c z ↔ Cell.Has (half1 p c phi1) z ∨ Cell.Has (half2 p c phi2) z := by
  unfold Cell.Has half1 half2
  split
  · dsimp only
    constructor
    · rintro ⟨h1, h2, h3, h4⟩
      rcases le_total z.re ((c.re.1 + c.re.2) / 2) with h | h
      · exact Or.inl ⟨h1, h, h3, h4⟩
      · exact Or.inr ⟨h, h2, h3, h4⟩
    · rintro (⟨h1, h2, h3, h4⟩ | ⟨h1, h2, h3, h4⟩)
      · exact ⟨h1, by linarith, h3, h4⟩
      · exact ⟨by linarith, h2, h3, h4⟩
  · dsimp only
    constructor
    · rintro ⟨h1, h2, h3, h4⟩
      rcases le_total z.im ((c.im.1 + c.im.2) / 2) with h | h
      · exact Or.inl ⟨h1, h2, h3, h⟩
      · exact Or.inr ⟨h1, h2, h, h4⟩
    · rintro (⟨h1, h2, h3, h4⟩ | ⟨h1, h2, h3, h4⟩)
      · exact ⟨h1, h2, h3, by linarith⟩
      · exact ⟨h1, h2, by linarith, h4⟩

theorem interior_halves (p : ℤ × ℤ) (c : Cell K) (phi1 phi2 : K) (z : Cx K) :
    ((Cell.Interior (half1 p c phi1) z ∨ Cell.Interior (half2 p c phi2) z) → Cell.Interior c z) ∧
    ¬ (Cell.Interior (half1 p c phi1) z ∧ Cell.Interior (half2 p c phi2) z) := by
  unfold Cell.Interior half1 half2
  split <;> dsimp only
  · constructor
    · rintro (⟨h1, h2, h3, h4⟩ | ⟨h1, h2, h3, h4⟩)
      · exact ⟨h1, by linarith, h3, h4⟩
      · exact ⟨by linarith, h2, h3, h4⟩
    · rintro ⟨⟨h1, h2, h3, h4⟩, ⟨g1, g2, g3, g4⟩⟩; linarith
  · constructor
    · rintro (⟨h1, h2, h3, h4⟩ | ⟨h1, h2, h3, h4⟩)
      · exact ⟨h1, h2, h3, by linarith⟩
      · exact ⟨h1, h2, by linarith, h4⟩
    · rintro ⟨⟨h1, h2, h3, h4⟩, ⟨g1, g2, g3, g4⟩⟩; linarith

theorem halfOpen_halves (p : ℤ × ℤ) (c : Cell K) (phi1 phi2 : K) (z : Cx K) :
    (Cell.HasHalfOpen c z ↔ Cell.HasHalfOpen (half1 p c phi1) z ∨ Cell.HasHalfOpen (half2 p c phi2) z) ∧
    ¬ (Cell.HasHalfOpen (half1 p c phi1) z ∧ Cell.HasHalfOpen (half2 p c phi2) z) := by
  unfold Cell.HasHalfOpen half1 half2
  split <;> dsimp only
  · refine ⟨⟨?_, ?_⟩, ?_⟩
    · rintro ⟨h1, h2, h3, h4⟩
      rcases lt_or_ge z.re ((c.re.1 + c.re.2) / 2) with h | h
      · exact Or.inl ⟨h1, h, h3, h4⟩
      · exact Or.inr ⟨h, h2, h3, h4⟩
    · rintro (⟨h1, h2, h3, h4⟩ | ⟨h1, h2, h3, h4⟩)
      · exact ⟨h1, by linarith, h3, h4⟩
      · exact ⟨by linarith, h2, h3, h4⟩
    · rintro ⟨⟨h1, h2, h3, h4⟩, ⟨g1, g2, g3, g4⟩⟩; linarith
  · refine ⟨⟨?_, ?_⟩, ?_⟩
    · rintro ⟨h1, h2, h3, h4⟩
      rcases lt_or_ge z.im ((c.im.1 + c.im.2) / 2) with h | h
      · exact Or.inl ⟨h1, h2, h3, h⟩
      · exact Or.inr ⟨h1, h2, h, h4⟩
    · rintro (⟨h1, h2, h3, h4⟩ | ⟨h1, h2, h3, h4⟩)
      · exact ⟨h1, h2, h3, by linarith⟩
      · exact ⟨h1, h2, by linarith, h4⟩
    · rintro ⟨⟨h1, h2, h3, h4⟩, ⟨g1, g2, g3, g4⟩⟩; linarith

theorem count_halves (p : ℤ × ℤ) (c : Cell K) (phi1 phi2 : K) (Z : List (Cx K)) :
    Cell.count c Z = Cell.count (half1 p c phi1) Z + Cell.count (half2 p c phi2) Z := by
  induction Z with
  | nil => rfl
  | cons z Z ih =>
    unfold Cell.count at ih ⊢
    obtain ⟨h1, h2⟩ := halfOpen_halves p c phi1 phi2 z
    by_cases ha : Cell.HasHalfOpen (half1 p c phi1) z
    · have hb : ¬ Cell.HasHalfOpen (half2 p c phi2) z := fun hb => h2 ⟨ha, hb⟩
      have hc : Cell.HasHalfOpen c z := h1.2 (Or.inl ha)
      simp only [List.filter_cons, ha, hb, hc, decide_true, decide_false, if_true, List.length_cons, ih]
      simp only [Bool.false_eq_true, if_false]
      omega
    · by_cases hb : Cell.HasHalfOpen (half2 p c phi2) z
      · have hc : Cell.HasHalfOpen c z := h1.2 (Or.inr hb)
        simp only [List.filter_cons, ha, hb, hc, decide_true, decide_false, if_true, List.length_cons, ih]
        simp only [Bool.false_eq_true, if_false]
        omega
      · have hc : ¬ Cell.HasHalfOpen c z := fun hc => by rcases h1.1 hc with h | h <;> contradiction
        simp only [List.filter_cons, ha, hb, hc, decide_false, Bool.false_eq_true, if_false, ih]

theorem area_halves (p : ℤ × ℤ) (c : Cell K) (phi1 phi2 : K) :
    Cell.area (half1 p c phi1) + Cell.area (half2 p c phi2) = Cell.area c := by
  unfold Cell.area half1 half2
  split <;> dsimp only <;> ring

/-- width and height are not negative -/
def Cell.Proper (c : Cell K) : Prop := c.re.1 ≤ c.re.2 ∧ c.im.1 ≤ c.im.2

theorem proper_halves (p : ℤ × ℤ) {c : Cell K} (phi1 phi2 : K) (h : c.Proper) :
    (half1 p c phi1).Proper ∧ (half2 p c phi2).Proper := by
  unfold Cell.Proper at h ⊢
  unfold half1 half2
  obtain ⟨h1, h2⟩ := h
  split <;> dsimp only <;> refine ⟨⟨?_, ?_⟩, ?_, ?_⟩ <;> linarith

/-! ## Tree lemmas -/

theorem Tree.area_leaves (p : ℤ × ℤ) (t : Tree K) (c : Cell K) :
    ((t.leaves p c).map Cell.area).sum = Cell.area c := by
  induction t generalizing c with
  | leaf => simp [Tree.leaves]
  | node phi1 t1 phi2 t2 ih1 ih2 =>
    simp only [Tree.leaves, List.map_append, List.sum_append]
    rw [ih1, ih2, area_halves]

theorem Tree.cover (p : ℤ × ℤ) (t : Tree K) (c : Cell K) (z : Cx K) :
    Cell.Has c z ↔ ∃ l ∈ t.leaves p c, Cell.Has l z := by
  induction t generalizing c with
  | leaf => simp [Tree.leaves]
  | node phi1 t1 phi2 t2 ih1 ih2 =>
    simp only [Tree.leaves, List.mem_append]
    rw [has_halves p c phi1 phi2, ih1, ih2]
    constructor
    · rintro (⟨l, h1, h2⟩ | ⟨l, h1, h2⟩)
      · exact ⟨l, Or.inl h1, h2⟩
      · exact ⟨l, Or.inr h1, h2⟩
    · rintro ⟨l, h1 | h1, h2⟩
      · exact Or.inl ⟨l, h1, h2⟩
      · exact Or.inr ⟨l, h1, h2⟩

theorem Tree.interior (p : ℤ × ℤ) (t : Tree K) (c : Cell K) (z : Cx K) (l : Cell K) (h : l ∈ t.leaves p c)
    (hz : Cell.Interior l z) : Cell.Interior c z := by
  induction t generalizing c with
  | leaf => simp only [Tree.leaves, List.mem_singleton] at h; rwa [← h]
  | node phi1 t1 phi2 t2 ih1 ih2 =>
    simp only [Tree.leaves, List.mem_append] at h
    obtain ⟨g1, _⟩ := interior_halves p c phi1 phi2 z
    rcases h with h | h
    · exact g1 (Or.inl (ih1 _ h))
    · exact g1 (Or.inr (ih2 _ h))

theorem Tree.disjoint (p : ℤ × ℤ) (t : Tree K) (c : Cell K) :
    (t.leaves p c).Pairwise fun a b => ∀ z, ¬ (Cell.Interior a z ∧ Cell.Interior b z) := by
  induction t generalizing c with
  | leaf => simp [Tree.leaves]
  | node phi1 t1 phi2 t2 ih1 ih2 =>
    simp only [Tree.leaves]
    rw [List.pairwise_append]
    refine ⟨ih1 _, ih2 _, ?_⟩
    intro a ha b hb z hz
    exact (interior_halves p c phi1 phi2 z).2 ⟨t1.interior p _ z a ha hz.1, t2.interior p _ z b hb hz.2⟩

theorem Tree.proper (p : ℤ × ℤ) (t : Tree K) (c : Cell K) (hc : c.Proper) :
    ∀ l ∈ t.leaves p c, l.Proper := by
  induction t generalizing c with
  | leaf => simpa [Tree.leaves] using hc
  | node phi1 t1 phi2 t2 ih1 ih2 =>
    obtain ⟨h1, h2⟩ := proper_halves p phi1 phi2 hc
    intro l hl
    simp only [Tree.leaves, List.mem_append] at hl
    rcases hl with h | h
    · exact ih1 _ h1 l h
    · exact ih2 _ h2 l h

/-- leaf counts add up -/
theorem Tree.count_leaves (p : ℤ × ℤ) (t : Tree K) (c : Cell K) (Z : List (Cx K)) :
    ((t.leaves p c).map fun l => Cell.count l Z).sum = Cell.count c Z := by
  induction t generalizing c with
  | leaf => simp [Tree.leaves]
  | node phi1 t1 phi2 t2 ih1 ih2 =>
    simp only [Tree.leaves, List.map_append, List.sum_append]
    rw [ih1, ih2, ← count_halves]

/-- number of evaluated rectangles when only rectangles with zeros are reported -/
theorem Tree.log_length (pi : K) (p : ℤ × ℤ) (Z : List (Cx K)) (t : Tree K) (c : Cell K)
    (stop : Cell K → Prop) (hstop : ∀ c, ¬ stop c → Cell.Turns pi c ∧ ¬ Cell.Small p c)
    (hv : t.Valid stop p c) (hex : ∀ l ∈ c :: t.log p c, Cell.Turns pi l → 1 ≤ Cell.count l Z)
    (m n : ℕ) (hm : c.re.2 - c.re.1 < 2 ^ m * eps10 K p.1) (hn : c.im.2 - c.im.1 < 2 ^ n * eps10 K p.2) :
    (t.log p c).length ≤ 2 * Cell.count c Z * (m + n) := by
  induction t generalizing c m n with
  | leaf => simp [Tree.log]
  | node phi1 t1 phi2 t2 ih1 ih2 =>
    obtain ⟨h0, h1, h2⟩ := hv
    have e1 := eps10_pos (K := K) p.1
    have e2 := eps10_pos (K := K) p.2
    obtain ⟨hturn, hsmall⟩ := hstop c h0
    have hcnt : 1 ≤ Cell.count c Z := hex c (by simp) hturn
    have hc := count_halves p c phi1 phi2 Z
    simp only [Tree.log, List.length_append, List.length_cons, List.cons_append] at hex ⊢
    have k1 : ∀ l ∈ half1 p c phi1 :: t1.log p (half1 p c phi1), Cell.Turns pi l → 1 ≤ Cell.count l Z := by
      intro l hl
      apply hex
      simp only [List.mem_cons, List.mem_append] at hl ⊢
      tauto
    have k2 : ∀ l ∈ half2 p c phi2 :: t2.log p (half2 p c phi2), Cell.Turns pi l → 1 ≤ Cell.count l Z := by
      intro l hl
      apply hex
      simp only [List.mem_cons, List.mem_append] at hl ⊢
      tauto
    by_cases hs : SplitRe p c
    · -- the real side is halved
      have hw : eps10 K p.1 ≤ c.re.2 - c.re.1 := by
        by_contra hlt
        push Not at hlt
        have : (c.re.2 - c.re.1) / eps10 K p.1 < 1 := (div_lt_one e1).2 hlt
        have h' : (c.im.2 - c.im.1) / eps10 K p.2 < 1 := lt_trans hs this
        exact hsmall ⟨hlt, (div_lt_one e2).1 h'⟩
      rcases m with _ | m
      · simp at hm; linarith
      · have r1 := ih1 _ h1 k1 m n (by
            simp only [half1, if_pos hs]; rw [pow_succ] at hm; linarith)
          (by simp only [half1, if_pos hs]; exact hn)
        have r2 := ih2 _ h2 k2 m n (by
            simp only [half2, if_pos hs]; rw [pow_succ] at hm; linarith)
          (by simp only [half2, if_pos hs]; exact hn)
        have e : 2 * Cell.count c Z * (m + 1 + n) = 2 * Cell.count (half1 p c phi1) Z * (m + n) +
            2 * Cell.count (half2 p c phi2) Z * (m + n) + 2 * Cell.count c Z := by rw [hc]; ring
        omega
    · have hw : eps10 K p.2 ≤ c.im.2 - c.im.1 := by
        by_contra hlt
        push Not at hlt
        have : (c.im.2 - c.im.1) / eps10 K p.2 < 1 := (div_lt_one e2).2 hlt
        have h' : (c.re.2 - c.re.1) / eps10 K p.1 < 1 := lt_of_le_of_lt (not_lt.1 hs) this
        exact hsmall ⟨(div_lt_one e1).1 h', hlt⟩
      rcases n with _ | n
      · simp at hn; linarith
      · have r1 := ih1 _ h1 k1 m n (by simp only [half1, if_neg hs]; exact hm)
          (by simp only [half1, if_neg hs]; rw [pow_succ] at hn; linarith)
        have r2 := ih2 _ h2 k2 m n (by simp only [half2, if_neg hs]; exact hm)
          (by simp only [half2, if_neg hs]; rw [pow_succ] at hn; linarith)
        have e : 2 * Cell.count c Z * (m + (n + 1)) = 2 * Cell.count (half1 p c phi1) Z * (m + n) +
            2 * Cell.count (half2 p c phi2) Z * (m + n) + 2 * Cell.count c Z := by rw [hc]; ring
        omega

/-! ## Completed runs -/

/-- what a completed run adds to the container: hits on boundaries (`none`) and the results for final cells -/
def Segments (f : Cx K → Cx K) (Leaf : Cell K → List (Root K) → Prop) (leaves : List (Cell K))
    (A : List (Root K)) : Prop :=
  ∃ segs : List (Option (Cell K) × List (Root K)), A = segs.flatMap Prod.snd ∧
    segs.filterMap Prod.fst = leaves ∧
    ∀ s ∈ segs, (s.1 = none → ∀ r ∈ s.2, r.2 = 0 ∧ f r.1 = 0) ∧ ∀ c, s.1 = some c → Leaf c s.2

theorem Segments.append {f : Cx K → Cx K} {Leaf : Cell K → List (Root K) → Prop} {l1 l2 : List (Cell K)}
    {A1 A2 : List (Root K)} (h1 : Segments f Leaf l1 A1) (h2 : Segments f Leaf l2 A2) :
    Segments f Leaf (l1 ++ l2) (A1 ++ A2) := by
  obtain ⟨s1, a1, b1, c1⟩ := h1
  obtain ⟨s2, a2, b2, c2⟩ := h2
  refine ⟨s1 ++ s2, by simp [a1, a2], by simp [b1, b2], ?_⟩
  intro s hs
  rcases List.mem_append.1 hs with hs | hs
  · exact c1 s hs
  · exact c2 s hs

theorem Segments.hits {f : Cx K → Cx K} {Leaf : Cell K → List (Root K) → Prop} {zs : List (Root K)}
    (h : ∀ r ∈ zs, r.2 = 0 ∧ f r.1 = 0) : Segments f Leaf [] zs :=
  ⟨[(none, zs)], by simp, by simp, by simpa using h⟩

theorem Segments.leaf {f : Cx K → Cx K} {Leaf : Cell K → List (Root K) → Prop} {zs : List (Root K)}
    {c : Cell K} (h : Leaf c zs) : Segments f Leaf [c] zs :=
  ⟨[(some c, zs)], by simp, by simp, by simpa using h⟩

theorem phaseOf_ok {est : LineEst σ K} {ctx : RCtx K} (hest : BoundaryHits est ctx) {re im : K × K}
    {w w' : World σ K} {phi : K} (h : phaseOf est re im ctx w = (.ok phi, w')) :
    w'.log = w.log ++ [⟨re, im, phi⟩] ∧ w'.advances = w.advances ∧ (w.fuse = none → w'.fuse = none) ∧
      ∃ zs, w'.added = w.added ++ zs ∧ ∀ r ∈ zs, r.2 = 0 ∧ ctx.f r.1 = 0 := by
  unfold phaseOf at h
  rw [Py.bind_run] at h
  have hm := calcMoment_hits hest 0 re im w
  rcases hc : calcMoment est 0 re im ctx w with ⟨_ | m, w1⟩ <;> rw [hc] at h hm
  · simp at h
  · obtain ⟨h1, h2, h3, zs, h4, h5⟩ := hm
    dsimp only at h h1 h2 h3 h4
    simp only [Py.bind_run, Py.modify_run, Py.pure_run, Prod.mk.injEq, Except.ok.injEq] at h
    obtain ⟨rfl, rfl⟩ := h
    exact ⟨by dsimp only; rw [h2], h1, h3, zs, h4, h5⟩

/-- the class's `decideRefinement` stops at cells with property `stop`, doing `act`, and splits otherwise -/
def Stops (est : LineEst σ K) (ctx : RCtx K) (body : Decide σ K → Decide σ K) (stop : Cell K → Prop)
    (act : Cell K → Py (World σ K) Unit) : Prop :=
  ∀ self c, (stop c → (body self).at ctx c = act c) ∧ (¬ stop c → (body self).at ctx c =
    splitStep est self ctx c (dropEdge1 ctx.precision c) (dropEdge2 ctx.precision c))

/-- effect of the action at a final cell -/
def LeafEffect (act : Cell K → Py (World σ K) Unit) (adv : Cell K → List K)
    (Leaf : Cell K → List (Root K) → Prop) : Prop :=
  ∀ c w w', act c w = (.ok (), w') → w'.log = w.log ∧ w'.advances = w.advances ++ adv c ∧
    ∃ A, w'.added = w.added ++ A ∧ Leaf c A

theorem dispatch_tree {est : LineEst σ K} {ctx : RCtx K} (hest : BoundaryHits est ctx)
    {body : Decide σ K → Decide σ K} {stop : Cell K → Prop} {act : Cell K → Py (World σ K) Unit}
    (hstop : Stops est ctx body stop act) {adv : Cell K → List K} {Leaf : Cell K → List (Root K) → Prop}
    (hleaf : LeafEffect act adv Leaf)
    (limit : ℕ) (c : Cell K) (w w' : World σ K)
    (h : (dispatch body limit).at ctx c w = (.ok (), w')) :
    ∃ t : Tree K, t.Valid stop ctx.precision c ∧ w'.log = w.log ++ t.log ctx.precision c ∧
      w'.advances = w.advances ++ (t.leaves ctx.precision c).flatMap adv ∧
      ∃ A, w'.added = w.added ++ A ∧ Segments ctx.f Leaf (t.leaves ctx.precision c) A := by
  induction limit generalizing c w w' with
  | zero => simp [dispatch, Decide.at] at h
  | succ limit ih =>
    have hd : (dispatch body (limit + 1)).at ctx c = (body (dispatch body limit)).at ctx c := rfl
    rw [hd] at h
    by_cases hs : stop c
    · rw [(hstop _ c).1 hs] at h
      obtain ⟨h1, h2, A, h3, h4⟩ := hleaf c w w' h
      exact ⟨.leaf, hs, by simp [Tree.log, h1], by simp [Tree.leaves, h2], A, h3, Segments.leaf h4⟩
    · rw [(hstop _ c).2 hs] at h
      unfold splitStep at h
      rw [Py.bind_run] at h
      rcases hp1 : phaseOf est (half1 ctx.precision c 0).re (half1 ctx.precision c 0).im ctx w
        with ⟨_ | phi1, w1⟩ <;> rw [hp1] at h
      · simp at h
      dsimp only at h
      rw [Py.bind_run] at h
      rcases hr1 : (dispatch body limit).at ctx (half1 ctx.precision c phi1) w1 with ⟨_ | _, w2⟩ <;>
        rw [hr1] at h
      · simp at h
      dsimp only at h
      rw [Py.bind_run] at h
      simp only [cacheRemove, Py.modify_run] at h
      rw [Py.bind_run] at h
      rcases hp2 : phaseOf est (half2 ctx.precision c 0).re (half2 ctx.precision c 0).im ctx
        { w2 with cache := w2.cache.remove 0 (dropEdge1 ctx.precision c).1 (dropEdge1 ctx.precision c).2 }
        with ⟨_ | phi2, w3⟩ <;> rw [hp2] at h
      · simp at h
      dsimp only at h
      rw [Py.bind_run] at h
      rcases hr2 : (dispatch body limit).at ctx (half2 ctx.precision c phi2) w3 with ⟨_ | _, w4⟩ <;>
        rw [hr2] at h
      · simp at h
      simp only [Py.modify_run, Prod.mk.injEq, true_and] at h
      subst h
      have e1 : (⟨(half1 ctx.precision c 0).re, (half1 ctx.precision c 0).im, phi1⟩ : Cell K) =
          half1 ctx.precision c phi1 := by unfold half1; split <;> rfl
      have e2 : (⟨(half2 ctx.precision c 0).re, (half2 ctx.precision c 0).im, phi2⟩ : Cell K) =
          half2 ctx.precision c phi2 := by unfold half2; split <;> rfl
      obtain ⟨a1, a2, a3, z1, a4, a5⟩ := phaseOf_ok hest hp1
      obtain ⟨t1, b1, b2, b3, A1, b4, b5⟩ := ih _ _ _ hr1
      obtain ⟨c1, c2, c3, z2, c4, c5⟩ := phaseOf_ok hest hp2
      obtain ⟨t2, d1, d2, d3, A2, d4, d5⟩ := ih _ _ _ hr2
      dsimp only at c1 c2 c3 c4
      refine ⟨.node phi1 t1 phi2 t2, ⟨hs, b1, d1⟩, ?_, ?_, z1 ++ A1 ++ (z2 ++ A2), ?_, ?_⟩
      · dsimp only
        rw [d2, c1, b2, a1, e1, e2]
        simp [Tree.log]
      · dsimp only
        rw [d3, c2, b3, a2]
        simp [Tree.leaves]
      · dsimp only
        rw [d4, c4, b4, a4]
        simp
      · have := ((Segments.hits (Leaf := Leaf) a5).append b5).append
          ((Segments.hits (Leaf := Leaf) c5).append d5)
        simpa [Tree.leaves] using this

/-- a completed run of `calcRoots` -/
theorem calcRoots_tree {est : LineEst σ K} {ctx : RCtx K} (hest : BoundaryHits est ctx)
    {body : Decide σ K → Decide σ K} {stop : Cell K → Prop} {act : Cell K → Py (World σ K) Unit}
    (hstop : Stops est ctx body stop act) {adv : Cell K → List K} {Leaf : Cell K → List (Root K) → Prop}
    (hleaf : LeafEffect act adv Leaf) (limit : ℕ) (w w' : World σ K)
    (h : calcRoots est body limit ctx w = (.ok (), w')) :
    ∃ (phi : K) (t : Tree K), t.Valid stop ctx.precision ⟨ctx.reRan, ctx.imRan, phi⟩ ∧
      w'.log = w.log ++ (⟨ctx.reRan, ctx.imRan, phi⟩ :: t.log ctx.precision ⟨ctx.reRan, ctx.imRan, phi⟩) ∧
      w'.advances = w.advances ++ (t.leaves ctx.precision ⟨ctx.reRan, ctx.imRan, phi⟩).flatMap adv ∧
      ∃ A, w'.added = w.added ++ A ∧
        Segments ctx.f Leaf (t.leaves ctx.precision ⟨ctx.reRan, ctx.imRan, phi⟩) A := by
  unfold calcRoots resetCache at h
  rw [Py.bind_run, Py.modify_run] at h
  dsimp only at h
  generalize hw0 : (if w.cache.dirty = true then { w with cache := w.cache.reset } else w) = w0 at h
  have g1 : w0.log = w.log := by rw [← hw0]; split <;> rfl
  have g2 : w0.advances = w.advances := by rw [← hw0]; split <;> rfl
  have g3 : w0.added = w.added := by rw [← hw0]; split <;> rfl
  rw [Py.bind_run] at h
  rcases hp : phaseOf est ctx.reRan ctx.imRan ctx w0 with ⟨_ | phi, w1⟩ <;> rw [hp] at h
  · simp at h
  dsimp only at h
  obtain ⟨a1, a2, a3, zs, a4, a5⟩ := phaseOf_ok hest hp
  obtain ⟨t, b1, b2, b3, A, b4, b5⟩ :=
    dispatch_tree hest hstop hleaf limit ⟨ctx.reRan, ctx.imRan, phi⟩ w1 w' h
  refine ⟨phi, t, b1, ?_, ?_, zs ++ A, ?_, ?_⟩
  · rw [b2, a1, g1]; simp
  · rw [b3, a2, g2]
  · rw [b4, a4, g3]; simp
  · exact (Segments.hits (Leaf := Leaf) a5).append b5

end PyZeal
