import Verif.Proof.SumStep
import Verif.Proof.Estimator

/-! # Invariant of searches with the summation estimator -/

set_option linter.unusedSectionVars false

namespace PyZeal
open Spec

/-- the fixed data of a search -/
structure SumSetup (G : Grid) (S : Cx ℝ → Prop) (T : Cx ℝ → Cx ℝ → ℝ) (h eta : ℝ) (cfg : SumCfg ℝ) (ctx : RCtx ℝ) : Prop where
  ts : TurnSys ctx.f S T h eta
  hh : 0 ≤ h
  harg : ∀ z, cfg.arg z = Complex.arg (toC z)
  hδ : 0 < cfg.deltaPhi
  hn : 2 ≤ cfg.numPts
  hstep : ∀ n hz, (G.ehi n hz - G.elo n hz) / ((cfg.numPts : ℝ) - 1) ≤ h

/-- the estimator cache has a value for the oriented line `e` -/
def Has (c : EstCache ℝ) (e : Cx ℝ × Cx ℝ) : Prop := ∃ v, c.look 0 e.1 e.2 = some v

/-- `e` is an oriented edge of a completed rectangle -/
def DoneEdge (G : Grid) (Done : BoxAddr → Prop) (e : Cx ℝ × Cx ℝ) : Prop := ∃ m, Done m ∧ ∃ hz b, e = G.own m hz b

structure SumInv (G : Grid) (S : Cx ℝ → Prop) (T : Cx ℝ → Cx ℝ → ℝ) (h eta : ℝ) (VB VD Done : BoxAddr → Prop)
    (w : World (SumState ℝ) ℝ) : Prop where
  wf : CacheWF w.cache
  fuse : w.fuse = none
  up : ∀ q, VD q → ∀ k, k ≤ q.k → VD (G.anc k q)
  done : ∀ q, Done q → VD q
  line : ∀ hz z x s v, ent hz w.est z (x, s) = some v → ∃ q b, VB q ∧ z = G.ez q hz b ∧ x = s.pick (G.elo q hz) (G.ehi q hz) ∧
    Cover S T h (lpt hz z) (G.elo q hz) (G.ehi q hz) v
  val : ∀ a b v, w.cache.look 0 a b = some v → v ≠ 0 ∧ v.im = 0 ∧ |v.re - T a b| ≤ 2 * eta
  kept : ∀ q, VD q → ∀ hz b e, (e = G.own q hz b ∨ e = (G.own q hz b).swap) → Has w.cache e ∨ DoneEdge G Done e
  sym : ∀ e, Has w.cache e → Has w.cache e.swap ∨ DoneEdge G Done e.swap

variable {G : Grid} {S : Cx ℝ → Prop} {T : Cx ℝ → Cx ℝ → ℝ} {h eta : ℝ} {cfg : SumCfg ℝ} {ctx : RCtx ℝ} {VD Done : BoxAddr → Prop}

/-- all points of the edges of the rectangle `p` are in `S` -/
def Grid.Clear (G : Grid) (S : Cx ℝ → Prop) (p : BoxAddr) : Prop :=
  ∀ hz b t, G.elo p hz ≤ t → t ≤ G.ehi p hz → S (lpt hz (G.ez p hz b) t)

theorem Has.mono_store {c : EstCache ℝ} {e : Cx ℝ × Cx ℝ} {a b v : Cx ℝ} (he : Has c e) : Has (c.store 0 a b v) e := by
  obtain ⟨u, hu⟩ := he
  unfold Has
  rw [EstCache.look_store]
  split
  · exact ⟨v, rfl⟩
  · exact ⟨u, hu⟩

theorem has_store (c : EstCache ℝ) (a b v : Cx ℝ) : Has (c.store 0 a b v) (a, b) := by
  unfold Has
  rw [EstCache.look_store]
  exact ⟨v, by simp⟩

theorem has_store_iff {c : EstCache ℝ} {e : Cx ℝ × Cx ℝ} {a b v : Cx ℝ} (he : Has (c.store 0 a b v) e) : e = (a, b) ∨ Has c e := by
  obtain ⟨u, hu⟩ := he
  rw [EstCache.look_store] at hu
  split at hu
  · rename_i h; left; rw [h.2.1, h.2.2]
  · exact .inr ⟨u, hu⟩

theorem own_ends (G : Grid) (p : BoxAddr) (hz b : Bool) : ∃ x1 x2, G.own p hz b = (lpt hz (G.ez p hz b) x1, lpt hz (G.ez p hz b) x2) ∧
    ((x1 = G.elo p hz ∧ x2 = G.ehi p hz) ∨ (x1 = G.ehi p hz ∧ x2 = G.elo p hz)) := by
  unfold Grid.own
  split
  · exact ⟨_, _, rfl, .inl ⟨rfl, rfl⟩⟩
  · exact ⟨_, _, rfl, .inr ⟨rfl, rfl⟩⟩

/-- finer data at a line to be evaluated does not exist -/
theorem SumInv.no_finer {w : World (SumState ℝ) ℝ} {p : BoxAddr} (hI : SumInv G S T h eta (fun q => VD q ∨ q = p) VD Done w)
    (hnew : ∀ q, VD q → ¬ G.Desc p q) (hdone : ∀ m, Done m → ¬ G.Desc m p) {hz b b' : Bool}
    (hmiss : ¬ Has w.cache (G.own p hz b)) {q : BoxAddr} (hq : VD q ∨ q = p) (h1 : G.ez q hz b' = G.ez p hz b)
    (h2 : G.elo q hz = G.elo p hz ∨ G.ehi q hz = G.ehi p hz) : q.k ≤ p.k := by
  by_contra hk
  push Not at hk
  have hq : VD q := hq.resolve_right (by rintro rfl; exact lt_irrefl _ hk)
  rcases G.finer hk.le h1 h2 with hdesc | ⟨_, e1, e2, e3⟩
  · exact hnew q hq hdesc
  · have hn := hI.up q hq p.k hk.le
    rcases hI.kept _ hn hz (!b) (G.own p hz b) (.inr (G.own_swap e1 e2 e3).symm) with hh | ⟨m, hm, hz', b'', he⟩
    · exact hmiss hh
    · rcases G.own_eq he.symm with hd | hd
      · exact hdone m hm hd
      · exact hnew m (hI.done m hm) hd

theorem edge_inv (su : SumSetup G S T h eta cfg ctx) {p : BoxAddr}
    (hnew : ∀ q, VD q → ¬ G.Desc p q) (hdone : ∀ m, Done m → ¬ G.Desc m p) (hS : G.Clear S p) (hz b : Bool)
    {w w' : World (SumState ℝ) ℝ} (hI : SumInv G S T h eta (fun q => VD q ∨ q = p) VD Done w) {d : Cx ℝ}
    (hr : edgeMoment (strictLine (sumLine cfg)) 0 ctx (G.own p hz b) w = (.ok d, w')) :
    SumInv G S T h eta (fun q => VD q ∨ q = p) VD Done w' ∧
    (d.im = 0 ∧ |d.re - T (G.own p hz b).1 (G.own p hz b).2| ≤ 2 * eta) ∧
    (∀ e, (e = G.own p hz b ∨ e = (G.own p hz b).swap) → Has w'.cache e ∨ DoneEdge G Done e) ∧
    (∀ e, Has w.cache e → Has w'.cache e) ∧ w'.added = w.added := by
  rw [edgeMoment_run] at hr
  dsimp only at hr
  -- the counters of the cache
  have hlook : ∀ o x y, (w.cache.retrieve 0 (G.own p hz b).1 (G.own p hz b).2).2.look o x y = w.cache.look o x y :=
    fun o x y => EstCache.look_retrieve _ _ _ _ _ _ _
  have hI1 : SumInv G S T h eta (fun q => VD q ∨ q = p) VD Done
      { w with cache := (w.cache.retrieve 0 (G.own p hz b).1 (G.own p hz b).2).2 } := by
    refine ⟨hI.wf.of_data (w.cache.retrieve_data _ _ _), hI.fuse, hI.up, hI.done, hI.line, ?_, ?_, ?_⟩
    · intro x y v hv; exact hI.val x y v ((hlook _ _ _).symm.trans hv)
    · intro q hq hz' b' e he
      rcases hI.kept q hq hz' b' e he with ⟨v, hv⟩ | h
      · exact .inl ⟨v, (hlook _ _ _).trans hv⟩
      · exact .inr h
    · rintro e ⟨v, hv⟩
      rcases hI.sym e ⟨v, (hlook _ _ _).symm.trans hv⟩ with ⟨u, hu⟩ | h
      · exact .inl ⟨u, (hlook _ _ _).trans hu⟩
      · exact .inr h
  have hmono1 : ∀ e, Has w.cache e → Has (w.cache.retrieve 0 (G.own p hz b).1 (G.own p hz b).2).2 e :=
    fun e ⟨v, hv⟩ => ⟨v, (hlook _ _ _).trans hv⟩
  rcases hv : w.cache.look 0 (G.own p hz b).1 (G.own p hz b).2 with _ | v <;> rw [hv] at hr
  swap
  · -- cached
    obtain ⟨v1, v2, v3⟩ := hI.val _ _ _ hv
    dsimp only at hr
    rw [if_pos v1] at hr
    simp only [Prod.mk.injEq, Except.ok.injEq] at hr
    obtain ⟨rfl, rfl⟩ := hr
    refine ⟨hI1, ⟨v2, v3⟩, ?_, hmono1, rfl⟩
    rintro e (rfl | rfl)
    · exact .inl ⟨v, (hlook _ _ _).trans hv⟩
    · rcases hI.sym (G.own p hz b) ⟨v, hv⟩ with hs | hs
      · exact .inl (hmono1 _ hs)
      · exact .inr hs
  · -- evaluated
    have hmiss : ¬ Has w.cache (G.own p hz b) := by rintro ⟨v, hv'⟩; rw [hv] at hv'; simp at hv'
    generalize hw1 : ({ w with cache := (w.cache.retrieve 0 (G.own p hz b).1 (G.own p hz b).2).2 } : World (SumState ℝ) ℝ) = w1 at *
    have hadd1 : w1.added = w.added := by rw [← hw1]
    have hent1 : w1.est = w.est := by rw [← hw1]
    have hmono1' : ∀ e, Has w.cache e → Has w1.cache e := by rw [← hw1]; exact hmono1
    have hmiss1 : ¬ Has w1.cache (G.own p hz b) := by
      rw [← hw1]; rintro ⟨v, hv'⟩; exact hmiss ⟨v, (hlook _ _ _).symm.trans hv'⟩
    dsimp only at hr
    rw [compute_run, World.tick_none hI1.fuse] at hr
    dsimp only at hr
    unfold strictLine at hr
    rcases hs : sumLine cfg 0 (G.own p hz b).1 (G.own p hz b).2 ctx w1 with ⟨_ | d', w2⟩ <;> rw [hs] at hr
    · simp at hr
    dsimp only at hr
    by_cases hd0 : d' = 0
    · rw [if_pos hd0] at hr; simp at hr
    rw [if_neg hd0] at hr
    simp only [Prod.mk.injEq, Except.ok.injEq] at hr
    obtain ⟨rfl, rfl⟩ := hr
    obtain ⟨x1, x2, e1, e2⟩ := own_ends G p hz b
    have hlt := G.elo_lt p hz
    have hnf := fun (q : BoxAddr) (b' : Bool) => hI1.no_finer hnew hdone (b' := b') hmiss1 (q := q)
    rw [e1] at hs
    have step := line_step su.ts su.hh cfg su.harg su.hδ su.hn ctx rfl hlt e2 (su.hstep p hz) (hS hz b) hI1.fuse
      (by
        intro v hv
        obtain ⟨q, b', q1, q2, q3, q4⟩ := hI1.line _ _ _ _ _ hv
        refine ⟨G.ehi q hz, G.coarse_start (hnf q b' q1 q2.symm (.inl q3.symm)) q3.symm, ?_⟩
        rw [show G.elo p hz = G.elo q hz from q3]
        exact q4)
      (by
        intro v hv
        obtain ⟨q, b', q1, q2, q3, q4⟩ := hI1.line _ _ _ _ _ hv
        refine ⟨G.elo q hz, G.coarse_stop (hnf q b' q1 q2.symm (.inr q3.symm)) q3.symm, ?_⟩
        rw [show G.ehi p hz = G.ehi q hz from q3]
        exact q4) hs
    obtain ⟨s1, s2, s3, s4, s5, v, s6, s7⟩ := step
    have hTswap : T (lpt hz (G.ez p hz b) x2) (lpt hz (G.ez p hz b) x1) = -T (lpt hz (G.ez p hz b) x1) (lpt hz (G.ez p hz b) x2) := by
      rcases e2 with ⟨rfl, rfl⟩ | ⟨rfl, rfl⟩
      · exact su.ts.swap (lpt_isLine _ _) (hS hz b) le_rfl hlt.le hlt.le le_rfl
      · exact su.ts.swap (lpt_isLine _ _) (hS hz b) hlt.le le_rfl le_rfl hlt.le
    have hhas : ∀ e, Has w1.cache e → Has ((w2.cache.store 0 (G.own p hz b).1 (G.own p hz b).2 d').store 0
        (G.own p hz b).2 (G.own p hz b).1 (-d')) e := by
      intro e he
      refine Has.mono_store (Has.mono_store ?_)
      rw [s3]; exact he
    have hhas1 : Has ((w2.cache.store 0 (G.own p hz b).1 (G.own p hz b).2 d').store 0
        (G.own p hz b).2 (G.own p hz b).1 (-d')) (G.own p hz b) := Has.mono_store (has_store _ _ _ _)
    have hhas2 : Has ((w2.cache.store 0 (G.own p hz b).1 (G.own p hz b).2 d').store 0
        (G.own p hz b).2 (G.own p hz b).1 (-d')) (G.own p hz b).swap := has_store _ _ _ _
    refine ⟨⟨?_, s4, hI.up, hI.done, ?_, ?_, ?_, ?_⟩, ⟨s1, ?_⟩, ?_, fun e he => hhas e (hmono1' e he), s5.trans hadd1⟩
    · refine CacheWF.store (CacheWF.store ?_ _ _ _ _) _ _ _ _
      rw [s3]; exact hI1.wf
    · intro hz' z' x s u hu
      rcases s7 hz' z' _ u hu with ⟨rfl, rfl, hk, rfl⟩ | hu
      · refine ⟨p, b, .inr rfl, rfl, ?_, s6⟩
        rcases hk with hk | hk <;> rw [Prod.mk.injEq] at hk <;> obtain ⟨rfl, rfl⟩ := hk <;> rfl
      · exact hI1.line _ _ _ _ _ hu
    · intro x y u hu
      simp only [EstCache.look_store] at hu
      split at hu
      · rename_i hxy
        obtain ⟨_, rfl, rfl⟩ := hxy
        obtain rfl := Option.some.inj hu
        refine ⟨neg_ne_zero.2 hd0, by simp [s1], ?_⟩
        rw [e1]
        simp only [Cx.neg_re]
        rw [hTswap, ← abs_neg]
        rw [show -(-d'.re - -T (lpt hz (G.ez p hz b) x1) (lpt hz (G.ez p hz b) x2)) = d'.re - T (lpt hz (G.ez p hz b) x1) (lpt hz (G.ez p hz b) x2) by ring]
        exact s2
      · split at hu
        · rename_i hxy
          obtain ⟨_, rfl, rfl⟩ := hxy
          obtain rfl := Option.some.inj hu
          refine ⟨hd0, s1, ?_⟩
          rw [e1]
          exact s2
        · rw [s3] at hu; exact hI1.val _ _ _ hu
    · intro q hq hz' b' e he
      rcases hI1.kept q hq hz' b' e he with hh | hh
      · exact .inl (hhas e hh)
      · exact .inr hh
    · intro e he
      rcases has_store_iff he with rfl | he
      · exact .inl hhas1
      · rcases has_store_iff he with rfl | he
        · exact .inl hhas2
        · rw [s3] at he
          rcases hI1.sym e he with hh | hh
          · exact .inl (hhas _ hh)
          · exact .inr hh
    · rw [e1]; exact s2
    · rintro e (rfl | rfl)
      · exact .inl hhas1
      · exact .inl hhas2

end PyZeal
