import Verif.Proof.Grid

/-! # The tree of rectangles of a search whose split points are arbitrary interior points

Rectangles are addressed by the list of the halves taken, the last one first. In floating point arithmetic the split points are rounded, so
that the rectangles of a search do not form a dyadic grid (`Proof/Grid`). -/

set_option linter.unusedSectionVars false

namespace PyZeal
open Spec

/-- search rectangle, choice of the side to be halved and split points -/
structure TGrid where
  re : ℝ × ℝ
  im : ℝ × ℝ
  spl : ℝ × ℝ → ℝ × ℝ → Bool
  mid : ℝ → ℝ → ℝ
  hre : re.1 < re.2
  him : im.1 < im.2
  hmid : ∀ a b, a < b → a < mid a b ∧ mid a b < b

/-- lists are nested or diverge -/
theorem diverge : ∀ p q : List Bool, p <:+ q ∨ q <:+ p ∨ ∃ c b, b :: c <:+ p ∧ (!b) :: c <:+ q
  | [], q => .inl (List.nil_suffix)
  | a :: p, q => by
    rcases diverge p q with h | h | ⟨c, b, h1, h2⟩
    · obtain ⟨l, rfl⟩ := h
      rcases List.eq_nil_or_concat l with rfl | ⟨l, x, rfl⟩
      · exact .inr (.inl (List.suffix_cons a _))
      · by_cases hx : x = a
        · subst hx
          exact .inl ⟨l, by simp⟩
        · refine .inr (.inr ⟨p, a, List.suffix_refl _, l, ?_⟩)
          have : x = !a := by cases x <;> cases a <;> simp_all
          simp [this]
    · exact .inr (.inl (h.trans (List.suffix_cons a _)))
    · exact .inr (.inr ⟨c, b, h1.trans (List.suffix_cons a _), h2⟩)

namespace TGrid
variable (G : TGrid)

/-- the half `b` of an interval -/
def halfI (b : Bool) (I : ℝ × ℝ) : ℝ × ℝ := if b then (G.mid I.1 I.2, I.2) else (I.1, G.mid I.1 I.2)

/-- the sides of the rectangle at an address; `hz = true`: real part -/
def iv : List Bool → Bool → ℝ × ℝ
  | [], hz => if hz then G.re else G.im
  | b :: p, hz => if G.spl (iv p true) (iv p false) = hz then G.halfI b (iv p hz) else iv p hz

/-- the side that is halved; `true`: real part -/
def dir (p : List Bool) : Bool := G.spl (G.iv p true) (G.iv p false)

theorem iv_cons (b : Bool) (p : List Bool) (hz : Bool) : G.iv (b :: p) hz = if G.dir p = hz then G.halfI b (G.iv p hz) else G.iv p hz := rfl

/-- repeated halving -/
def run (I : ℝ × ℝ) : List Bool → ℝ × ℝ
  | [] => I
  | b :: bs => G.halfI b (run I bs)

theorem halfI_lt (b : Bool) {I : ℝ × ℝ} (h : I.1 < I.2) : (G.halfI b I).1 < (G.halfI b I).2 := by
  have := G.hmid _ _ h
  unfold halfI
  cases b
  · exact this.1
  · exact this.2

theorem halfI_sub (b : Bool) {I : ℝ × ℝ} (h : I.1 < I.2) : I.1 ≤ (G.halfI b I).1 ∧ (G.halfI b I).2 ≤ I.2 := by
  have := G.hmid _ _ h
  unfold halfI
  cases b
  · exact ⟨le_rfl, this.2.le⟩
  · exact ⟨this.1.le, le_rfl⟩

theorem run_lt {I : ℝ × ℝ} (h : I.1 < I.2) : ∀ bs, (G.run I bs).1 < (G.run I bs).2
  | [] => h
  | b :: bs => G.halfI_lt b (run_lt h bs)

theorem run_append (I : ℝ × ℝ) (l bs : List Bool) : G.run I (l ++ bs) = G.run (G.run I bs) l := by
  induction l with
  | nil => rfl
  | cons b l ih => simp only [List.cons_append, run, ih]

theorem run_sub {I : ℝ × ℝ} (h : I.1 < I.2) : ∀ bs, I.1 ≤ (G.run I bs).1 ∧ (G.run I bs).2 ≤ I.2
  | [] => ⟨le_rfl, le_rfl⟩
  | b :: bs => by
    have h1 := run_sub h bs
    have h2 := G.halfI_sub b (G.run_lt h bs)
    exact ⟨h1.1.trans h2.1, h2.2.trans h1.2⟩

theorem run_suffix {I : ℝ × ℝ} (h : I.1 < I.2) {bs bs' : List Bool} (hs : bs <:+ bs') :
    (G.run I bs).1 ≤ (G.run I bs').1 ∧ (G.run I bs').2 ≤ (G.run I bs).2 := by
  obtain ⟨l, rfl⟩ := hs
  rw [run_append]
  exact G.run_sub (G.run_lt h bs) l

theorem iv_lt : ∀ p hz, (G.iv p hz).1 < (G.iv p hz).2
  | [], hz => by
    unfold iv
    split
    · exact G.hre
    · exact G.him
  | b :: p, hz => by
    rw [iv_cons]
    split
    · exact G.halfI_lt b (iv_lt p hz)
    · exact iv_lt p hz

/-- the sides of a descendant arise by repeated halving, through the sides of the rectangles in between -/
theorem iv_run (hz : Bool) {c q : List Bool} (h : c <:+ q) : ∃ bs, G.iv q hz = G.run (G.iv c hz) bs ∧
    ∀ bs', bs' <:+ bs → ∃ n, c <:+ n ∧ n <:+ q ∧ G.iv n hz = G.run (G.iv c hz) bs' := by
  obtain ⟨l, rfl⟩ := h
  induction l with
  | nil =>
    refine ⟨[], rfl, fun bs' h => ⟨c, List.suffix_refl _, List.suffix_refl _, ?_⟩⟩
    rw [List.suffix_nil.1 h]
    rfl
  | cons b l ih =>
    obtain ⟨bs, h1, h2⟩ := ih
    rw [List.cons_append]
    have up : ∀ bs', bs' <:+ bs → ∃ n, c <:+ n ∧ n <:+ b :: (l ++ c) ∧ G.iv n hz = G.run (G.iv c hz) bs' := by
      intro bs' hb
      obtain ⟨n, n1, n2, n3⟩ := h2 bs' hb
      exact ⟨n, n1, n2.trans (List.suffix_cons _ _), n3⟩
    by_cases hd : G.dir (l ++ c) = hz
    · have e : G.iv (b :: (l ++ c)) hz = G.run (G.iv c hz) (b :: bs) := by
        rw [iv_cons, if_pos hd, h1]
        rfl
      refine ⟨b :: bs, e, fun bs' hb => ?_⟩
      rcases List.suffix_cons_iff.1 hb with rfl | hb
      · exact ⟨b :: (l ++ c), ⟨b :: l, rfl⟩, List.suffix_refl _, e⟩
      · exact up bs' hb
    · exact ⟨bs, by rw [iv_cons, if_neg hd, h1], up⟩

/-- nested rectangles have nested sides -/
theorem iv_sub (hz : Bool) {p q : List Bool} (h : p <:+ q) : (G.iv p hz).1 ≤ (G.iv q hz).1 ∧ (G.iv q hz).2 ≤ (G.iv p hz).2 := by
  obtain ⟨bs, h1, _⟩ := G.iv_run hz h
  rw [h1]
  exact G.run_sub (G.iv_lt p hz) bs

/-- different halves have no common end at the same side -/
theorem halves_apart {I J K : ℝ × ℝ} {b : Bool} (hJ : J.1 < J.2) (hK : K.1 < K.2)
    (j : (G.halfI b I).1 ≤ J.1 ∧ J.2 ≤ (G.halfI b I).2) (k : (G.halfI (!b) I).1 ≤ K.1 ∧ K.2 ≤ (G.halfI (!b) I).2) :
    ¬ (K.1 = J.1 ∨ K.2 = J.2) := by
  unfold halfI at j k
  cases b <;> simp only [Bool.not_false, Bool.not_true, Bool.false_eq_true, if_true, if_false] at j k <;>
    rintro (h | h) <;> linarith [j.1, j.2, k.1, k.2]

/-- sides with a common end, one not containing the other -/
theorem walk (hz : Bool) {c1 c2 p q : List Bool} (h1 : c1 <:+ p) (h2 : c2 <:+ q) (he : G.iv c1 hz = G.iv c2 hz)
    (hs : (G.iv q hz).1 = (G.iv p hz).1 ∨ (G.iv q hz).2 = (G.iv p hz).2)
    (hn : ¬ ((G.iv q hz).1 ≤ (G.iv p hz).1 ∧ (G.iv p hz).2 ≤ (G.iv q hz).2)) :
    ∃ n, c2 <:+ n ∧ n <:+ q ∧ G.iv n hz = G.iv p hz := by
  obtain ⟨bp, p1, _⟩ := G.iv_run hz h1
  obtain ⟨bq, q1, q2⟩ := G.iv_run hz h2
  rw [he] at p1
  have hI := G.iv_lt c2 hz
  rw [p1, q1] at hs hn
  rcases diverge bp bq with h | h | ⟨c, b, d1, d2⟩
  · obtain ⟨n, n1, n2, n3⟩ := q2 bp h
    exact ⟨n, n1, n2, n3.trans p1.symm⟩
  · exact absurd (G.run_suffix hI h) hn
  · exact absurd hs (G.halves_apart (I := G.run (G.iv c2 hz) c) (b := b) (G.run_lt hI bp) (G.run_lt hI bq) (G.run_suffix hI d1) (G.run_suffix hI d2))

/-! ### edges -/

/-- the fixed coordinate of the edge `b` in direction `hz` -/
def ez (n : List Bool) (hz b : Bool) : ℝ := if b then (G.iv n (!hz)).2 else (G.iv n (!hz)).1
/-- lower and upper end of the edges in direction `hz` -/
def elo (n : List Bool) (hz : Bool) : ℝ := (G.iv n hz).1
def ehi (n : List Bool) (hz : Bool) : ℝ := (G.iv n hz).2

theorem elo_lt (n : List Bool) (hz : Bool) : G.elo n hz < G.ehi n hz := G.iv_lt n hz

/-- rectangles in different halves of a rectangle which have edges on a common line with a common end are on both sides of the line on which
the rectangle is split -/
theorem split_line {c p q : List Bool} {x : Bool} (d1 : x :: c <:+ p) (d2 : (!x) :: c <:+ q) {hz b b' : Bool} (h1 : G.ez q hz b' = G.ez p hz b)
    (h2 : G.elo q hz = G.elo p hz ∨ G.ehi q hz = G.ehi p hz) :
    G.dir c = !hz ∧ b = !x ∧ b' = x ∧ G.ez p hz b = G.mid (G.iv c (!hz)).1 (G.iv c (!hz)).2 := by
  by_cases hd : G.dir c = hz
  · have s1 := G.iv_sub hz d1
    have s2 := G.iv_sub hz d2
    rw [iv_cons, if_pos hd] at s1 s2
    exact absurd h2 (G.halves_apart (G.iv_lt p hz) (G.iv_lt q hz) s1 s2)
  · have hd' : G.dir c = !hz := by
      revert hd
      cases G.dir c <;> cases hz <;> simp
    refine ⟨hd', ?_⟩
    have s1 := G.iv_sub (!hz) d1
    have s2 := G.iv_sub (!hz) d2
    rw [iv_cons, if_pos hd'] at s1 s2
    have l1 := G.iv_lt p (!hz)
    have l2 := G.iv_lt q (!hz)
    unfold ez at h1 ⊢
    unfold halfI at s1 s2
    cases x <;> cases b <;> cases b' <;>
      simp only [Bool.not_false, Bool.not_true, Bool.false_eq_true, if_true, if_false, true_and, reduceCtorEq, false_and] at s1 s2 h1 ⊢ <;>
      linarith [s1.1, s1.2, s2.1, s2.2]

/-- Edges at the start or end of an edge of `p` which do not cover it belong to descendants of `p`, or of a rectangle on the other side of
this edge. -/
theorem finer {p q : List Bool} {hz b b' : Bool} (h1 : G.ez q hz b' = G.ez p hz b)
    (h2 : G.elo q hz = G.elo p hz ∨ G.ehi q hz = G.ehi p hz) (hn : ¬ (G.elo q hz ≤ G.elo p hz ∧ G.ehi p hz ≤ G.ehi q hz)) :
    p <:+ q ∨ ∃ n, n <:+ q ∧ G.ez n hz (!b) = G.ez p hz b ∧ G.elo n hz = G.elo p hz ∧ G.ehi n hz = G.ehi p hz := by
  rcases diverge p q with h | h | ⟨c, x, d1, d2⟩
  · exact .inl h
  · exact absurd (G.iv_sub hz h) hn
  · right
    obtain ⟨hd, rfl, rfl, hez⟩ := G.split_line d1 d2 h1 h2
    have hd' : G.dir c ≠ hz := by rw [hd]; cases hz <;> simp
    have e1 : ∀ y, G.iv (y :: c) hz = G.iv c hz := fun y => by rw [iv_cons, if_neg hd']
    obtain ⟨n, n1, n2, n3⟩ := G.walk hz d1 d2 ((e1 _).trans (e1 _).symm) h2 hn
    refine ⟨n, n2, ?_, by unfold elo; rw [n3], by unfold ehi; rw [n3]⟩
    rw [Bool.not_not]
    have s1 := G.iv_sub (!hz) n1
    have s2 := G.iv_sub (!hz) n2
    rw [iv_cons, if_pos hd] at s1
    rw [← h1] at hez ⊢
    unfold ez at hez ⊢
    unfold halfI at s1
    cases b' <;> simp only [Bool.not_false, Bool.not_true, Bool.false_eq_true, if_true, if_false] at hez s1 ⊢ <;>
      linarith [s1.1, s1.2, s2.1, s2.2]

/-- the oriented edge `(hz, b)` of a node: counterclockwise -/
def own (n : List Bool) (hz b : Bool) : Cx ℝ × Cx ℝ :=
  if xor hz b then (lpt hz (G.ez n hz b) (G.elo n hz), lpt hz (G.ez n hz b) (G.ehi n hz))
  else (lpt hz (G.ez n hz b) (G.ehi n hz), lpt hz (G.ez n hz b) (G.elo n hz))

/-- equal oriented edges belong to nested rectangles -/
theorem own_eq {m p : List Bool} {hz b hz' b' : Bool} (h : G.own m hz' b' = G.own p hz b) : m <:+ p ∨ p <:+ m := by
  have hm := (G.elo_lt m hz').ne
  have hp := (G.elo_lt p hz).ne
  have key : hz' = hz ∧ G.ez m hz' b' = G.ez p hz b ∧ G.elo m hz' = G.elo p hz ∧ b' = b := by
    unfold own at h
    split at h <;> split at h <;> rename_i x1 x2 <;> rw [Prod.mk.injEq] at h
    · obtain ⟨e1, e2, e3, _⟩ := lpt_inj h.1 h.2 hm
      subst e1
      refine ⟨rfl, e2, e3, ?_⟩
      cases hz' <;> cases b <;> cases b' <;> simp_all
    · obtain ⟨e1, e2, e3, e4⟩ := lpt_inj h.1 h.2 hm
      subst e1
      have := G.elo_lt m hz'
      have := G.elo_lt p hz'
      linarith
    · obtain ⟨e1, e2, e3, e4⟩ := lpt_inj h.1 h.2 hm.symm
      subst e1
      have := G.elo_lt m hz'
      have := G.elo_lt p hz'
      linarith
    · obtain ⟨e1, e2, e3, e4⟩ := lpt_inj h.1 h.2 hm.symm
      subst e1
      refine ⟨rfl, e2, e4, ?_⟩
      cases hz' <;> cases b <;> cases b' <;> simp_all
  obtain ⟨rfl, h1, h2, rfl⟩ := key
  rcases diverge m p with h | h | ⟨c, x, d1, d2⟩
  · exact .inl h
  · exact .inr h
  · obtain ⟨_, e1, e2, _⟩ := G.split_line d1 d2 h1.symm (.inl h2.symm)
    rw [e2] at e1
    cases x <;> simp at e1

/-- the edge of the neighbour is the reversed edge -/
theorem own_swap {p q : List Bool} {hz b : Bool} (h1 : G.ez q hz (!b) = G.ez p hz b) (h2 : G.elo q hz = G.elo p hz)
    (h3 : G.ehi q hz = G.ehi p hz) : (G.own q hz (!b)).swap = G.own p hz b := by
  unfold own
  rw [h1, h2, h3]
  cases hz <;> cases b <;> rfl

theorem own_ends (p : List Bool) (hz b : Bool) : ∃ x1 x2, G.own p hz b = (lpt hz (G.ez p hz b) x1, lpt hz (G.ez p hz b) x2) ∧
    ((x1 = G.elo p hz ∧ x2 = G.ehi p hz) ∨ (x1 = G.ehi p hz ∧ x2 = G.elo p hz)) := by
  unfold own
  split
  · exact ⟨_, _, rfl, .inl ⟨rfl, rfl⟩⟩
  · exact ⟨_, _, rfl, .inr ⟨rfl, rfl⟩⟩

end TGrid
end PyZeal
