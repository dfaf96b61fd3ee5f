import Verif.Proof.Float

/-! # Counting in completed searches in floating point arithmetic -/

set_option linter.unusedSectionVars false

namespace PyZeal
open Spec

variable {K : Type} {σ : Type} [Field K] [LinearOrder K] [IsStrictOrderedRing K] [FloorRing K]

theorem count_halvesF {A : FloatOps K} {u : K} (hA : Rounds A.fl u) (p : ℤ × ℤ) {c : Cell K} (hc : OkCell A c) (phi1 phi2 : K) (Z : List (Cx K)) :
    Cell.count c Z = Cell.count (halfF1 A p c phi1) Z + Cell.count (halfF2 A p c phi2) Z := by
  obtain ⟨⟨⟨m1, m2⟩, m3, m4⟩, h1, h2⟩ := hc
  obtain ⟨a1, a2⟩ := hA.le_mid m1 m2 h1
  obtain ⟨b1, b2⟩ := hA.le_mid m3 m4 h2
  have key : ∀ z, (Cell.HasHalfOpen c z ↔ Cell.HasHalfOpen (halfF1 A p c phi1) z ∨ Cell.HasHalfOpen (halfF2 A p c phi2) z) ∧
      ¬ (Cell.HasHalfOpen (halfF1 A p c phi1) z ∧ Cell.HasHalfOpen (halfF2 A p c phi2) z) := by
    intro z
    unfold halfF1 halfF2
    split
    · unfold Cell.HasHalfOpen
      dsimp only
      refine ⟨⟨?_, ?_⟩, ?_⟩
      · rintro ⟨z1, z2, z3, z4⟩
        rcases lt_or_ge z.re (A.mid c.re.1 c.re.2) with h | h
        · exact Or.inl ⟨z1, h, z3, z4⟩
        · exact Or.inr ⟨h, z2, z3, z4⟩
      · rintro (⟨z1, z2, z3, z4⟩ | ⟨z1, z2, z3, z4⟩)
        · exact ⟨z1, lt_of_lt_of_le z2 a2, z3, z4⟩
        · exact ⟨le_trans a1 z1, z2, z3, z4⟩
      · rintro ⟨⟨_, z2, _⟩, z1, _⟩
        exact absurd z2 (not_lt.2 z1)
    · unfold Cell.HasHalfOpen
      dsimp only
      refine ⟨⟨?_, ?_⟩, ?_⟩
      · rintro ⟨z1, z2, z3, z4⟩
        rcases lt_or_ge z.im (A.mid c.im.1 c.im.2) with h | h
        · exact Or.inl ⟨z1, z2, z3, h⟩
        · exact Or.inr ⟨z1, z2, h, z4⟩
      · rintro (⟨z1, z2, z3, z4⟩ | ⟨z1, z2, z3, z4⟩)
        · exact ⟨z1, z2, z3, lt_of_lt_of_le z4 b2⟩
        · exact ⟨z1, z2, le_trans b1 z3, z4⟩
      · rintro ⟨⟨_, _, _, z2⟩, _, _, z1, _⟩
        exact absurd z2 (not_lt.2 z1)
  unfold Cell.count
  induction Z with
  | nil => rfl
  | cons z Z ih =>
    obtain ⟨k1, k2⟩ := key z
    simp only [List.filter_cons, k1, decide_eq_true_eq]
    by_cases x1 : Cell.HasHalfOpen (halfF1 A p c phi1) z <;> by_cases x2 : Cell.HasHalfOpen (halfF2 A p c phi2) z
    · exact absurd ⟨x1, x2⟩ k2
    all_goals simp only [x1, x2, or_true, or_false, if_true, if_false, List.length_cons, ih] <;> omega

theorem zero_orders {f : Cx K → Cx K} {z : List (Root K)} (hz : ∀ r ∈ z, r.2 = 0 ∧ f r.1 = 0) :
    z.filter (fun r => decide (r.2 ≠ 0)) = [] ∧ (z.map Prod.snd).sum = 0 := by
  refine ⟨List.filter_eq_nil_iff.2 fun r hr => by simp [(hz r hr).1], List.sum_eq_zero fun x hx => ?_⟩
  obtain ⟨r, hr, rfl⟩ := List.mem_map.1 hx
  exact (hz r hr).1

/-- what a completed search in a rectangle with right decisions and orders has found, and the work it has done -/
theorem dispatchF_count {A : FloatOps K} {u : K} (hA : Rounds A.fl u) {est : LineEst σ K} {pi : K} {ctx : RCtx K} (hest : BoundaryHits est ctx)
    (hp : GoodPow A ctx.precision) (zeros : List (Cx K)) (limit : ℕ) (c : Cell K) (hc : OkCell A c) (w w' : World σ K)
    (h : (dispatch (simpleDecideF A est pi) limit).at ctx c w = (.ok (), w')) :
    ∃ L R, w'.log = w.log ++ L ∧ w'.added = w.added ++ R ∧
      ((∀ l ∈ c :: L, (Cell.TurnsF A pi l ↔ 1 ≤ Cell.count l zeros) ∧ roundHalfEven (A.fl (l.phi / A.fl (2 * pi))) = Cell.count l zeros) →
        R.filter (fun r => decide (r.2 ≠ 0)) = ((c :: L).filter fun l => decide (SmallF A ctx.precision l ∧ 1 ≤ Cell.count l zeros)).map
          (fun l => (⟨A.mid l.re.1 l.re.2, A.mid l.im.1 l.im.2⟩, (Cell.count l zeros : ℤ))) ∧
        (R.map Prod.snd).sum = Cell.count c zeros ∧
        ∀ B m n, Cell.Within B c → BelowF A ctx.precision (u * B) m n c → L.length ≤ 2 * Cell.count c zeros * (m + n)) := by
  induction limit generalizing c w w' with
  | zero => simp [dispatch, Decide.at] at h
  | succ limit ih =>
    have hd : (dispatch (simpleDecideF A est pi) (limit + 1)).at ctx c =
        (simpleDecideF A est pi (dispatch (simpleDecideF A est pi) limit)).at ctx c := rfl
    rw [hd, simpleDecideF_eq] at h
    by_cases hs : stopF A pi ctx.precision c
    · rw [if_pos hs] at h
      unfold actF at h
      by_cases ht : Cell.TurnsF A pi c
      · rw [if_neg (not_not.2 ht)] at h
        have hsm : SmallF A ctx.precision c := hs.resolve_left (not_not.2 ht)
        have key : w'.log = w.log ∧ w'.added = w.added ++ [candF A pi c] := by
          unfold World.addRoot World.advance at h
          simp only [Py.bind_run] at h
          rcases hf : w.fuse with _ | _ | n <;> simp [World.tick, hf] at h
          all_goals
            split at h <;> simp [Py.bind_run, World.tick] at h
          all_goals first
            | (obtain rfl := h; exact ⟨rfl, rfl⟩)
            | skip
          rcases n with _ | n <;> simp at h
          obtain rfl := h; exact ⟨rfl, rfl⟩
        refine ⟨[], [candF A pi c], by simp [key.1], key.2, fun hall => ?_⟩
        obtain ⟨t1, t2⟩ := hall c (by simp)
        have t3 := t1.1 ht
        have t4 : (candF A pi c).2 = Cell.count c zeros := t2
        have t5 : candF A pi c = (⟨A.mid c.re.1 c.re.2, A.mid c.im.1 c.im.2⟩, (Cell.count c zeros : ℤ)) := Prod.ext rfl t2
        refine ⟨?_, by simp [t4], by simp⟩
        have t6 : (candF A pi c).2 ≠ 0 := by rw [t4]; omega
        rw [List.filter_cons_of_pos (by simpa using t6), List.filter_cons_of_pos (by simpa using ⟨hsm, t3⟩), t5]
        rfl
      · rw [if_pos ht] at h
        have key : w'.log = w.log ∧ w'.added = w.added := by
          unfold World.advance at h
          split at h
          · simp only [Py.bind_run] at h
            rcases hf : w.fuse with _ | _ | n <;> simp [World.tick, hf] at h
            all_goals obtain rfl := h; exact ⟨rfl, rfl⟩
          · simp at h; obtain rfl := h; exact ⟨rfl, rfl⟩
        refine ⟨[], [], by simp [key.1], by simp [key.2], fun hall => ?_⟩
        obtain ⟨t1, t2⟩ := hall c (by simp)
        have t3 : Cell.count c zeros = 0 := by
          by_contra h0
          exact ht (t1.2 (by omega))
        refine ⟨?_, by simp [t3], by simp⟩
        rw [List.filter_cons_of_neg (by simp [t3])]
        rfl
    · rw [if_neg hs] at h
      unfold splitStepF at h
      rw [Py.bind_run] at h
      rcases hp1 : phaseOfF A est (halfF1 A ctx.precision c 0).re (halfF1 A ctx.precision c 0).im ctx w
        with ⟨_ | phi1, w1⟩ <;> rw [hp1] at h
      · simp at h
      dsimp only at h
      rw [Py.bind_run] at h
      rcases hr1 : (dispatch (simpleDecideF A est pi) limit).at ctx (halfF1 A ctx.precision c phi1) w1
        with ⟨_ | _, w2⟩ <;> rw [hr1] at h
      · simp at h
      dsimp only at h
      rw [Py.bind_run] at h
      simp only [cacheRemove, Py.modify_run] at h
      rw [Py.bind_run] at h
      generalize dropF1 A ctx.precision c = e1 at h
      rcases hp2 : phaseOfF A est (halfF2 A ctx.precision c 0).re (halfF2 A ctx.precision c 0).im ctx
        { w2 with cache := w2.cache.remove 0 e1.1 e1.2 }
        with ⟨_ | phi2, w3⟩ <;> rw [hp2] at h
      · simp at h
      dsimp only at h
      rw [Py.bind_run] at h
      rcases hr2 : (dispatch (simpleDecideF A est pi) limit).at ctx (halfF2 A ctx.precision c phi2) w3
        with ⟨_ | _, w4⟩ <;> rw [hr2] at h
      · simp at h
      simp only [Py.modify_run, Prod.mk.injEq, true_and] at h
      subst h
      have e1 : (⟨(halfF1 A ctx.precision c 0).re, (halfF1 A ctx.precision c 0).im, phi1⟩ : Cell K) =
          halfF1 A ctx.precision c phi1 := by unfold halfF1; split <;> rfl
      have e2 : (⟨(halfF2 A ctx.precision c 0).re, (halfF2 A ctx.precision c 0).im, phi2⟩ : Cell K) =
          halfF2 A ctx.precision c phi2 := by unfold halfF2; split <;> rfl
      have hcnt := count_halvesF hA ctx.precision hc phi1 phi2 zeros
      have hns : ¬ SmallF A ctx.precision c := fun h => hs (Or.inr h)
      have ht : Cell.TurnsF A pi c := by
        by_contra h; exact hs (Or.inl h)
      have hbel := fun B m n hB hb => belowF_halves (u := u) hA hp (R := B) hc hB hns (m := m) (n := n) hb
      obtain ⟨⟨k1, k2⟩, ⟨i1, i2⟩, _⟩ := halfF_ok hA (p := ctx.precision) hc phi1 phi2
      obtain ⟨a1, a3, z1, a4, a5⟩ := phaseOfF_ok hest hp1
      obtain ⟨L1, R1, b1, b2, b3⟩ := ih _ k1 _ _ hr1
      obtain ⟨c1, c3, z2, c4, c5⟩ := phaseOfF_ok hest hp2
      obtain ⟨L2, R2, d1, d2, d3⟩ := ih _ k2 _ _ hr2
      dsimp only at c1 c4
      rw [e1] at a1
      rw [e2] at c1
      replace hbel : ∀ B m n, Cell.Within B c → BelowF A ctx.precision (u * B) m n c → ∃ m' n', m' + n' + 1 = m + n ∧
          BelowF A ctx.precision (u * B) m' n' (halfF1 A ctx.precision c phi1) ∧ BelowF A ctx.precision (u * B) m' n' (halfF2 A ctx.precision c phi2) := by
        intro B m n hB hb
        obtain ⟨m', n', q1, q2⟩ := hbel B m n hB hb
        exact ⟨m', n', q1, (q2 phi1).1, (q2 phi2).2⟩
      generalize halfF1 A ctx.precision c phi1 = h1 at *
      generalize halfF2 A ctx.precision c phi2 = h2 at *
      refine ⟨h1 :: L1 ++ h2 :: L2, z1 ++ R1 ++ (z2 ++ R2), ?_, ?_, fun hall => ?_⟩
      · dsimp only
        rw [d1, c1, b1, a1]; simp
      · dsimp only
        rw [d2, c4, b2, a4]; simp
      · have q1 : ∀ l ∈ h1 :: L1, l ∈ c :: (h1 :: L1 ++ h2 :: L2) := fun l hl => List.mem_cons_of_mem _ (List.mem_append_left _ hl)
        have q2 : ∀ l ∈ h2 :: L2, l ∈ c :: (h1 :: L1 ++ h2 :: L2) := fun l hl => List.mem_cons_of_mem _ (List.mem_append_right _ hl)
        obtain ⟨f1, f2, f3⟩ := b3 fun l hl => hall l (q1 l hl)
        obtain ⟨g1, g2, g3⟩ := d3 fun l hl => hall l (q2 l hl)
        have zf := fun z hz => zero_orders (f := ctx.f) (z := z) hz
        have hpos := (hall c (by simp)).1.1 ht
        refine ⟨?_, ?_, ?_⟩
        · have hno : (c :: (h1 :: L1 ++ h2 :: L2)).filter (fun l => decide (SmallF A ctx.precision l ∧ 1 ≤ Cell.count l zeros)) =
              (h1 :: L1 ++ h2 :: L2).filter fun l => decide (SmallF A ctx.precision l ∧ 1 ≤ Cell.count l zeros) :=
            List.filter_cons_of_neg (fun h => hns (of_decide_eq_true h).1)
          rw [List.filter_append, List.filter_append, List.filter_append, (zf z1 a5).1, (zf z2 c5).1, f1, g1, hno, List.filter_append, List.map_append]
          rfl
        · simp only [List.map_append, List.sum_append, (zf z1 a5).2, (zf z2 c5).2, f2, g2, hcnt]
          push_cast
          ring
        · intro B m n hB hb
          obtain ⟨m', n', hmn, x1, x2⟩ := hbel B m n hB hb
          have q1 := f3 B m' n' (hB.of_in i1) x1
          have q2 := g3 B m' n' (hB.of_in i2) x2
          simp only [List.length_append, List.length_cons]
          have q3 : 2 * Cell.count c zeros * (m + n) = 2 * Cell.count h1 zeros * (m' + n') +
              2 * Cell.count h2 zeros * (m' + n') + 2 * Cell.count c zeros := by
            rw [← hmn, hcnt]; ring
          omega

theorem simpleArgumentF_count {A : FloatOps K} {u : K} (hA : Rounds A.fl u) {est : LineEst σ K} {pi : K} {ctx : RCtx K} (hest : BoundaryHits est ctx)
    (hp : GoodPow A ctx.precision) (zeros : List (Cx K)) (limit : ℕ) (hc : OkCell A ⟨ctx.reRan, ctx.imRan, 0⟩) (w w' : World σ K)
    (h : simpleArgumentF A est pi limit ctx w = (.ok (), w'))
    (hall : ∀ l ∈ newCells w w', (Cell.TurnsF A pi l ↔ 1 ≤ Cell.count l zeros) ∧
      roundHalfEven (A.fl (l.phi / A.fl (2 * pi))) = Cell.count l zeros) :
    (newRoots w w').filter (fun r => decide (r.2 ≠ 0)) =
      ((newCells w w').filter fun l => decide (SmallF A ctx.precision l ∧ 1 ≤ Cell.count l zeros)).map
        (fun l => (⟨A.mid l.re.1 l.re.2, A.mid l.im.1 l.im.2⟩, (Cell.count l zeros : ℤ))) ∧
    ((newRoots w w').map Prod.snd).sum = Cell.count ⟨ctx.reRan, ctx.imRan, 0⟩ zeros ∧
    ∀ B m n, Cell.Within B ⟨ctx.reRan, ctx.imRan, 0⟩ → BelowF A ctx.precision (u * B) m n ⟨ctx.reRan, ctx.imRan, 0⟩ →
      (newCells w w').length ≤ 1 + 2 * Cell.count ⟨ctx.reRan, ctx.imRan, 0⟩ zeros * (m + n) := by
  unfold simpleArgumentF resetCache at h
  rw [Py.bind_run, Py.modify_run] at h
  dsimp only at h
  generalize hw0 : (if w.cache.dirty = true then { w with cache := w.cache.reset } else w) = w0 at h
  have g1 : w0.log = w.log := by rw [← hw0]; split <;> rfl
  have g3 : w0.added = w.added := by rw [← hw0]; split <;> rfl
  rw [Py.bind_run] at h
  rcases hp0 : phaseOfF A est ctx.reRan ctx.imRan ctx w0 with ⟨_ | phi, w1⟩ <;> rw [hp0] at h
  · simp at h
  dsimp only at h
  obtain ⟨a1, a3, zs, a4, a5⟩ := phaseOfF_ok hest hp0
  obtain ⟨L, R, b1, b2, b3⟩ := dispatchF_count hA hest hp zeros limit ⟨ctx.reRan, ctx.imRan, phi⟩ hc w1 w' h
  have hcells : newCells w w' = ⟨ctx.reRan, ctx.imRan, phi⟩ :: L := by
    unfold newCells; rw [b1, a1, g1]; simp
  have hroots : newRoots w w' = zs ++ R := by unfold newRoots; rw [b2, a4, g3]; simp
  rw [hcells] at hall ⊢
  rw [hroots]
  obtain ⟨c1, c2, c3⟩ := b3 hall
  obtain ⟨hz1, hz2⟩ := zero_orders a5
  refine ⟨?_, ?_, fun B m n hB hb => ?_⟩
  · rw [List.filter_append, hz1, c1]
    rfl
  · rw [List.map_append, List.sum_append, hz2, c2, zero_add]
    rfl
  · have := c3 B m n hB hb
    rw [List.length_cons, Nat.add_comm]
    exact Nat.add_le_add_left this 1

end PyZeal
