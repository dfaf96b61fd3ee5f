import Verif.Spec.Noting
import Verif.Proof.SumSearch

/-! # No line is evaluated twice -/

set_option linter.unusedSectionVars false

namespace PyZeal
open Spec

/-- the evaluations noted since `n` entries -/
def notes {σ : Type} (n : ℕ) (w : World (σ × List (Note ℝ)) ℝ) : List (Note ℝ) := w.est.2.drop n

/-- a value different from 0 is cached for the line -/
def HasNZ (c : EstCache ℝ) (e : Cx ℝ × Cx ℝ) : Prop := ∃ v, c.look 0 e.1 e.2 = some v ∧ v ≠ 0

/-- the line was evaluated, in one direction or the other -/
def Noted (l : List (Note ℝ)) (e : Cx ℝ × Cx ℝ) : Prop := ∃ x ∈ l, x.line = e ∨ x.line = e.swap

theorem Noted.mono {l l' : List (Note ℝ)} {e : Cx ℝ × Cx ℝ} (h : Noted l e) (hl : ∀ x ∈ l, x ∈ l') : Noted l' e := by
  obtain ⟨x, hx, r⟩ := h
  exact ⟨x, hl x hx, r⟩

/-- invariant for the noted lines; `n`, `l`: length of notes and log before the search, `VB` the rectangles of which edges have been evaluated -/
structure OnceInv {σ : Type} (G : Grid) (n l : ℕ) (VB VD Done : BoxAddr → Prop) (w : World (σ × List (Note ℝ)) ℝ) : Prop where
  wf : CacheWF w.cache
  len : n ≤ w.est.2.length ∧ l ≤ w.log.length
  up : ∀ q, VD q → ∀ k, k ≤ q.k → VD (G.anc k q)
  done : ∀ q, Done q → VD q
  pair : (notes n w).Pairwise fun x y => x.value ≠ some 0 → x.Differ y
  known : ∀ x ∈ notes n w, x.value ≠ some 0 →
    (HasNZ w.cache x.line ∨ DoneEdge G Done x.line) ∧ (HasNZ w.cache x.line.swap ∨ DoneEdge G Done x.line.swap)
  src : ∀ e, Has w.cache e → Noted (notes n w) e
  from_ : ∀ x ∈ notes n w, ∃ q, VB q ∧ ∃ hz b, x.line = G.own q hz b
  all : ∀ q, VD q → ∀ hz b, Noted (notes n w) (G.own q hz b)
  seen : ∀ q, VD q → ∃ phi, G.cell q phi ∈ w.log.drop l
  cells : ∀ c ∈ w.log.drop l, ∃ q, VD q ∧ c = G.cell q c.phi

variable {σ : Type} {G : Grid} {ctx : RCtx ℝ} {VD Done : BoxAddr → Prop} {n l : ℕ}

theorem HasNZ.mono_store {c : EstCache ℝ} {e : Cx ℝ × Cx ℝ} {a b v : Cx ℝ} (h : HasNZ c e) (hne : e ≠ (a, b)) :
    HasNZ (c.store 0 a b v) e := by
  obtain ⟨u, hu, h0⟩ := h
  refine ⟨u, ?_, h0⟩
  rw [EstCache.look_store, if_neg]
  · exact hu
  · rintro ⟨_, rfl, rfl⟩; exact hne rfl

theorem Grid.own_ne_swap (G : Grid) (p : BoxAddr) (hz b : Bool) : G.own p hz b ≠ (G.own p hz b).swap := by
  have h := (G.elo_lt p hz).ne
  unfold Grid.own
  intro e
  split at e <;> rw [Prod.swap_prod_mk, Prod.mk.injEq] at e
  · exact h (lpt_inj e.1 e.2 h).2.2.1
  · exact h (lpt_inj e.1 e.2 h.symm).2.2.2

theorem noting_run (est : LineEst σ ℝ) (o : ℤ) (a b : Cx ℝ) (w : World (σ × List (Note ℝ)) ℝ) :
    noting est o a b ctx w = ((est o a b ctx (forget w)).1,
      { cache := (est o a b ctx (forget w)).2.cache,
        est := ((est o a b ctx (forget w)).2.est, w.est.2 ++ [⟨(a, b), (est o a b ctx (forget w)).1.toOption⟩]),
        added := (est o a b ctx (forget w)).2.added, advances := (est o a b ctx (forget w)).2.advances,
        fuse := (est o a b ctx (forget w)).2.fuse, log := (est o a b ctx (forget w)).2.log }) := rfl

theorem once_compute {est : LineEst σ ℝ} (hc : LeavesCache est ctx) (hlog : ∀ o a b w, (est o a b ctx w).2.log = w.log) {p : BoxAddr}
    (hnew : ∀ q, VD q → ¬ G.Desc p q) (hdone : ∀ m, Done m → ¬ G.Desc m p) (hz b : Bool)
    {w w' : World (σ × List (Note ℝ)) ℝ} (hI : OnceInv G n l (fun q => VD q ∨ q = p) VD Done w) {d : Cx ℝ}
    (hmiss : ¬ HasNZ w.cache (G.own p hz b))
    (hr : edgeMoment.compute (noting est) 0 ctx (G.own p hz b) w = (.ok d, w')) :
    OnceInv G n l (fun q => VD q ∨ q = p) VD Done w' ∧ Noted (notes n w') (G.own p hz b) ∧
    (∀ e ∈ notes n w, e ∈ notes n w') := by
  rw [compute_run] at hr
  rcases ht : World.tick w with ⟨_ | _, w1⟩ <;> rw [ht] at hr
  · simp at hr
  obtain ⟨t1, t2, t3, t4, t5⟩ := World.tick_ok ht
  dsimp only at hr t1 t2 t3 t4 t5
  rw [noting_run] at hr
  have hc1 := hc 0 (G.own p hz b).1 (G.own p hz b).2 (forget w1)
  have hl1 := hlog 0 (G.own p hz b).1 (G.own p hz b).2 (forget w1)
  rcases hs : est 0 (G.own p hz b).1 (G.own p hz b).2 ctx (forget w1) with ⟨_ | d', w2⟩ <;> rw [hs] at hr hc1 hl1
  · simp at hr
  dsimp only at hr hc1 hl1
  simp only [Prod.mk.injEq, Except.ok.injEq] at hr
  obtain ⟨_, rfl⟩ := hr
  have hc2 : w2.cache = w.cache := hc1.trans t4
  have hl2 : w2.log = w.log := hl1.trans t3
  generalize hN : (⟨G.own p hz b, some d'⟩ : Note ℝ) = N
  have hN1 : N.line = G.own p hz b := by rw [← hN]
  have hN2 : N.value = some d' := by rw [← hN]
  have hnote : (w1.est.2 ++ [(⟨((G.own p hz b).1, (G.own p hz b).2), Except.toOption (.ok d' : Except Err (Cx ℝ))⟩ : Note ℝ)]).drop n = notes n w ++ [N] := by
    rw [t5, List.drop_append_of_le_length hI.len.1, ← hN]
    rfl
  generalize hcc : (w2.cache.store 0 (G.own p hz b).1 (G.own p hz b).2 d').store 0 (G.own p hz b).2 (G.own p hz b).1 (-d') = c'
  have hne : G.own p hz b ≠ (G.own p hz b).swap := G.own_ne_swap p hz b
  have hh1 : Has c' (G.own p hz b) := by rw [← hcc]; exact Has.mono_store (has_store _ _ _ _)
  have hh2 : Has c' (G.own p hz b).swap := by rw [← hcc]; exact has_store _ _ _ _
  have hback : ∀ e, Has c' e → e = G.own p hz b ∨ e = (G.own p hz b).swap ∨ Has w.cache e := by
    intro e he
    rw [← hcc] at he
    rcases has_store_iff he with rfl | he
    · exact .inr (.inl rfl)
    · rcases has_store_iff he with rfl | he
      · exact .inl rfl
      · rw [hc2] at he; exact .inr (.inr he)
  have hnodone : ¬ DoneEdge G Done (G.own p hz b) := by
    rintro ⟨m, hm, hz', b', he⟩
    rcases G.own_eq he.symm with hd | hd
    · exact hdone m hm hd
    · exact hnew m (hI.done m hm) hd
  have hfresh : ∀ x ∈ notes n w, x.value ≠ some 0 → x.line ≠ G.own p hz b ∧ x.line ≠ (G.own p hz b).swap := by
    intro x hx h0
    obtain ⟨k1, k2⟩ := hI.known x hx h0
    constructor
    · intro e; rw [e] at k1
      exact k1.elim hmiss hnodone
    · intro e; rw [e, Prod.swap_swap] at k2
      exact k2.elim hmiss hnodone
  have hmonoNZ : ∀ e, HasNZ w.cache e → e ≠ G.own p hz b → e ≠ (G.own p hz b).swap → HasNZ c' e := by
    intro e he h1 h2
    rw [← hcc]
    refine HasNZ.mono_store (HasNZ.mono_store ?_ h1) h2
    rw [hc2]; exact he
  have hin : ∀ x ∈ notes n w, x ∈ notes n w ++ [N] := fun x hx => List.mem_append_left _ hx
  refine ⟨⟨?_, ?_, hI.up, hI.done, ?_, ?_, ?_, ?_, ?_, ?_, ?_⟩, ?_, ?_⟩
  · dsimp only
    rw [← hcc]
    refine CacheWF.store (CacheWF.store ?_ _ _ _ _) _ _ _ _
    rw [hc2]; exact hI.wf
  · refine ⟨?_, by rw [hl2]; exact hI.len.2⟩
    have := hI.len.1
    dsimp only
    rw [t5]
    simp only [List.length_append, List.length_singleton]
    omega
  · unfold notes
    dsimp only
    rw [hnote, List.pairwise_append]
    refine ⟨hI.pair, by simp, ?_⟩
    intro x hx y hy h0
    rw [List.mem_singleton] at hy
    subst hy
    unfold Note.Differ
    rw [hN1]
    exact hfresh x hx h0
  · unfold notes
    dsimp only
    rw [hnote]
    intro x hx h0
    rcases List.mem_append.1 hx with hx | hx
    · obtain ⟨f1, f2⟩ := hfresh x hx h0
      refine (hI.known x hx h0).imp (Or.imp_left fun h => hmonoNZ _ h f1 f2) (Or.imp_left fun h => hmonoNZ _ h ?_ ?_)
      · intro e; exact f2 (by rw [← e, Prod.swap_swap])
      · intro e; exact f1 (Prod.swap_injective e)
    · rw [List.mem_singleton] at hx
      subst hx
      rw [hN1]
      rw [hN2] at h0
      have hd0 : d' ≠ 0 := fun h => h0 (by rw [h])
      refine ⟨.inl ⟨d', ?_, hd0⟩, .inl ⟨-d', ?_, neg_ne_zero.2 hd0⟩⟩
      · rw [← hcc, EstCache.look_store, if_neg, EstCache.look_store, if_pos ⟨rfl, rfl, rfl⟩]
        rintro ⟨_, h1, h2⟩; exact hne (Prod.ext h1.symm h2.symm)
      · rw [← hcc, EstCache.look_store, if_pos ⟨rfl, rfl, rfl⟩]
  · unfold notes
    dsimp only
    rw [hnote]
    intro e he
    rcases hback e he with rfl | rfl | he
    · exact ⟨N, by simp, .inl hN1⟩
    · exact ⟨N, by simp, .inr (by rw [Prod.swap_swap]; exact hN1)⟩
    · exact (hI.src e he).mono hin
  · unfold notes
    dsimp only
    rw [hnote]
    intro x hx
    rcases List.mem_append.1 hx with hx | hx
    · exact hI.from_ x hx
    · rw [List.mem_singleton] at hx
      subst hx
      exact ⟨p, .inr rfl, hz, b, hN1⟩
  · unfold notes
    dsimp only
    rw [hnote]
    intro q hq hz' b'
    exact (hI.all q hq hz' b').mono hin
  · intro q hq; dsimp only; rw [hl2]; exact hI.seen q hq
  · dsimp only; rw [hl2]; exact hI.cells
  · unfold notes; dsimp only; rw [hnote]; exact ⟨N, by simp, .inl hN1⟩
  · intro e he; unfold notes; dsimp only; rw [hnote]; exact List.mem_append_left _ he

theorem once_edge {est : LineEst σ ℝ} (hc : LeavesCache est ctx) (hlog : ∀ o a b w, (est o a b ctx w).2.log = w.log) {p : BoxAddr}
    (hnew : ∀ q, VD q → ¬ G.Desc p q) (hdone : ∀ m, Done m → ¬ G.Desc m p) (hz b : Bool)
    {w w' : World (σ × List (Note ℝ)) ℝ} (hI : OnceInv G n l (fun q => VD q ∨ q = p) VD Done w) {d : Cx ℝ}
    (hr : edgeMoment (noting est) 0 ctx (G.own p hz b) w = (.ok d, w')) :
    OnceInv G n l (fun q => VD q ∨ q = p) VD Done w' ∧ Noted (notes n w') (G.own p hz b) ∧
    (∀ e ∈ notes n w, e ∈ notes n w') := by
  rw [edgeMoment_run] at hr
  dsimp only at hr
  have hlook : ∀ o x y, (w.cache.retrieve 0 (G.own p hz b).1 (G.own p hz b).2).2.look o x y = w.cache.look o x y :=
    fun o x y => EstCache.look_retrieve _ _ _ _ _ _ _
  have hhas : ∀ e, Has (w.cache.retrieve 0 (G.own p hz b).1 (G.own p hz b).2).2 e ↔ Has w.cache e := by
    intro e; unfold Has; simp only [hlook]
  have hnz : ∀ e, HasNZ (w.cache.retrieve 0 (G.own p hz b).1 (G.own p hz b).2).2 e ↔ HasNZ w.cache e := by
    intro e; unfold HasNZ; simp only [hlook]
  generalize hwc : ({ w with cache := (w.cache.retrieve 0 (G.own p hz b).1 (G.own p hz b).2).2 } : World (σ × List (Note ℝ)) ℝ) = wc at hr
  have hI' : OnceInv G n l (fun q => VD q ∨ q = p) VD Done wc := by
    rw [← hwc]
    refine ⟨hI.wf.of_data (w.cache.retrieve_data _ _ _), hI.len, hI.up, hI.done, hI.pair, ?_, ?_, hI.from_, hI.all, hI.seen, hI.cells⟩
    · intro x hx h0
      simp only [hnz]
      exact hI.known x hx h0
    · intro e he; exact hI.src e ((hhas e).1 he)
  rcases hv : w.cache.look 0 (G.own p hz b).1 (G.own p hz b).2 with _ | v <;> rw [hv] at hr
  swap
  · dsimp only at hr
    by_cases hv0 : v = 0
    · rw [if_neg (not_not_intro hv0)] at hr
      refine (once_compute hc hlog hnew hdone hz b hI' ?_ hr).imp_right fun h => ⟨h.1, by rw [← hwc] at h; exact h.2⟩
      rw [← hwc, hnz]
      rintro ⟨u, hu, hu0⟩
      rw [hv] at hu
      exact hu0 ((Option.some.inj hu).symm.trans hv0)
    · rw [if_pos hv0] at hr
      simp only [Prod.mk.injEq, Except.ok.injEq] at hr
      obtain ⟨_, rfl⟩ := hr
      subst hwc
      exact ⟨hI', hI.src _ ⟨v, hv⟩, fun e he => he⟩
  · refine (once_compute hc hlog hnew hdone hz b hI' ?_ hr).imp_right fun h => ⟨h.1, by rw [← hwc] at h; exact h.2⟩
    rw [← hwc, hnz]
    rintro ⟨u, hu, _⟩
    rw [hv] at hu
    simp at hu

theorem once_edges {est : LineEst σ ℝ} (hc : LeavesCache est ctx) (hlog : ∀ o a b w, (est o a b ctx w).2.log = w.log) {p : BoxAddr}
    (hnew : ∀ q, VD q → ¬ G.Desc p q) (hdone : ∀ m, Done m → ¬ G.Desc m p) (es : List (Bool × Bool)) {phi : Cx ℝ}
    {w w' : World (σ × List (Note ℝ)) ℝ} (hI : OnceInv G n l (fun q => VD q ∨ q = p) VD Done w) {m : Cx ℝ}
    (hr : sumEdges (noting est) 0 ctx (es.map fun e => G.own p e.1 e.2) phi w = (.ok m, w')) :
    OnceInv G n l (fun q => VD q ∨ q = p) VD Done w' ∧
    (∀ i ∈ es, Noted (notes n w') (G.own p i.1 i.2)) ∧ (∀ e ∈ notes n w, e ∈ notes n w') := by
  induction es generalizing phi w with
  | nil =>
    simp only [List.map_nil, sumEdges, Py.pure_run, Prod.mk.injEq, Except.ok.injEq] at hr
    obtain ⟨rfl, rfl⟩ := hr
    exact ⟨hI, by simp, fun e he => he⟩
  | cons i es ih =>
    simp only [List.map_cons, sumEdges, Py.bind_run] at hr
    rcases he : edgeMoment (noting est) 0 ctx (G.own p i.1 i.2) w with ⟨_ | d, w1⟩ <;> rw [he] at hr
    · simp at hr
    dsimp only at hr
    obtain ⟨a1, a2, a3⟩ := once_edge hc hlog hnew hdone i.1 i.2 hI he
    obtain ⟨b1, b2, b3⟩ := ih a1 hr
    refine ⟨b1, ?_, fun e he => b3 e (a3 e he)⟩
    intro j hj
    rcases List.mem_cons.1 hj with rfl | hj
    · exact a2.mono b3
    · exact b2 j hj

/-- the invariant is one of the search -/
theorem once_tree {est : LineEst σ ℝ} (hc : LeavesCache est ctx) (hlog : ∀ o a b w, (est o a b ctx w).2.log = w.log)
    {stop : Cell ℝ → Prop} {act : Cell ℝ → Py (World (σ × List (Note ℝ)) ℝ) Unit} (hact : Quiet act) :
    TreeInv G (noting est) ctx stop act (fun _ => True) (fun _ _ => True) (fun VD Done w => OnceInv G n l VD VD Done w) := by
  refine ⟨fun h => h.up, fun h => h.done, ?_, fun _ _ _ _ => trivial, ?_, ?_, ?_⟩
  · intro VD Done w w' p phi hI hnew hdone hup hob hr
    refine ⟨?_, trivial⟩
    unfold phaseOf calcMoment at hr
    rw [Py.bind_run, G.edges_eq] at hr
    have hI0 : OnceInv G n l (fun q => VD q ∨ q = p) VD Done w :=
      ⟨hI.wf, hI.len, hI.up, hI.done, hI.pair, hI.known, hI.src, fun e he => by
        obtain ⟨q, hq, r⟩ := hI.from_ e he
        exact ⟨q, .inl hq, r⟩, hI.all, hI.seen, hI.cells⟩
    rcases hm : sumEdges (noting est) 0 ctx
      ([(true, false), (false, true), (true, true), (false, false)].map fun e => G.own p e.1 e.2) 0 w with ⟨_ | m, w1⟩ <;> rw [hm] at hr
    · simp at hr
    simp only [Py.bind_run, Py.modify_run, Py.pure_run, Prod.mk.injEq, Except.ok.injEq] at hr
    obtain ⟨rfl, rfl⟩ := hr
    obtain ⟨a1, a2, a3⟩ := once_edges hc hlog hnew hdone _ hI0 hm
    have hl : ∀ c, (w1.log ++ [c]).drop l = w1.log.drop l ++ [c] := fun c => List.drop_append_of_le_length a1.len.2
    refine ⟨a1.wf, ⟨a1.len.1, ?_⟩, ?_, fun q hq => .inl (a1.done q hq), a1.pair, a1.known, a1.src, a1.from_, ?_, ?_, ?_⟩
    · have := a1.len.2
      simp only [List.length_append, List.length_singleton]
      omega
    · rintro q (hq | rfl) k hk
      · exact .inl (a1.up q hq k hk)
      · rcases hk.lt_or_eq with hk | rfl
        · exact .inl (hup k hk)
        · exact .inr (G.anc_self q)
    · rintro q (hq | rfl) hz b
      · exact a1.all q hq hz b
      · exact a2 (hz, b) (by cases hz <;> cases b <;> simp)
    · rintro q (hq | rfl)
      · obtain ⟨phi, hphi⟩ := a1.seen q hq
        exact ⟨phi, by rw [hl]; exact List.mem_append_left _ hphi⟩
      · exact ⟨m.re, by rw [hl]; exact List.mem_append_right _ (List.mem_singleton.2 rfl)⟩
    · intro c hcm
      rw [hl] at hcm
      rcases List.mem_append.1 hcm with hcm | hcm
      · obtain ⟨q, hq, e⟩ := a1.cells c hcm
        exact ⟨q, .inl hq, e⟩
      · rw [List.mem_singleton] at hcm
        subst hcm
        exact ⟨p, .inr rfl, rfl⟩
  · intro VD Done w w' c hI hr
    obtain ⟨a1, a2, _, a4⟩ := hact _ _ _ hr
    have hn : notes n w' = notes n w := by unfold notes; rw [a2]
    exact ⟨by rw [a1]; exact hI.wf, by rw [a2, a4]; exact hI.len, hI.up, hI.done, by rw [hn]; exact hI.pair,
      by rw [hn, a1]; exact hI.known, by rw [hn, a1]; exact hI.src, by rw [hn]; exact hI.from_, by rw [hn]; exact hI.all,
      by rw [a4]; exact hI.seen, by rw [a4]; exact hI.cells⟩
  · intro VD Done w m hz b x y hI hm he
    have hHas : ∀ e, HasNZ w.cache e → HasNZ (w.cache.remove 0 x y) e ∨ DoneEdge G Done e := by
      rintro e ⟨v, hv, h0⟩
      by_cases hxy : e = (x, y)
      · exact .inr ⟨m, hm, hz, b, hxy.trans he⟩
      · left
        refine ⟨v, ?_, h0⟩
        rw [EstCache.look_remove hI.wf, if_neg]
        · exact hv
        · rintro ⟨_, rfl, rfl⟩; exact hxy rfl
    have hsub : ∀ a c v, (w.cache.remove 0 x y).look 0 a c = some v → w.cache.look 0 a c = some v := by
      intro a c v hv
      rw [EstCache.look_remove hI.wf] at hv
      split at hv
      · simp at hv
      · exact hv
    refine ⟨hI.wf.remove _ _ _, hI.len, hI.up, hI.done, hI.pair, ?_, ?_, hI.from_, hI.all,
      hI.seen, hI.cells⟩
    · intro e hem h0
      exact (hI.known e hem h0).imp (fun h => h.elim (hHas _) .inr) (fun h => h.elim (hHas _) .inr)
    · rintro e ⟨v, hv⟩; exact hI.src e ⟨v, hsub _ _ _ hv⟩
  · intro VD Done w p hI hp
    have hd : ∀ e, DoneEdge G Done e → DoneEdge G (fun q => Done q ∨ q = p) e := by
      rintro e ⟨m, hm, r⟩; exact ⟨m, .inl hm, r⟩
    refine ⟨hI.wf, hI.len, hI.up, ?_, hI.pair, ?_, hI.src, hI.from_, hI.all, hI.seen, hI.cells⟩
    · rintro q (hq | rfl)
      · exact hI.done q hq
      · exact hp
    · intro e he h0; exact (hI.known e he h0).imp (Or.imp_right (hd _)) (Or.imp_right (hd _))

/-- invariants of whole searches -/
theorem TreeInv.search {τ : Type} {est : LineEst τ ℝ} {body : Decide τ ℝ → Decide τ ℝ} {stop : Cell ℝ → Prop} {act : Cell ℝ → Py (World τ ℝ) Unit}
    (hre : ctx.reRan.1 < ctx.reRan.2) (him : ctx.imRan.1 < ctx.imRan.2)
    {Inv : (BoxAddr → Prop) → (BoxAddr → Prop) → World τ ℝ → Prop}
    (ti : TreeInv (gridOf ctx.precision ctx.reRan ctx.imRan hre him) est ctx stop act (fun _ => True) (fun _ _ => True) Inv)
    (hstop : Stops est ctx body stop act)
    (limit : ℕ) (w w' : World τ ℝ) (hinit : ∀ c : EstCache ℝ, c.data = [] → Inv (fun _ => False) (fun _ => False) { w with cache := c })
    (hr : calcRoots est body limit ctx w = (.ok (), w')) : ∃ VD Done, Inv VD Done w' := by
  have hG := gridOf_fits ctx.precision ctx.reRan ctx.imRan hre him
  have hroot := cell_root ctx.precision ctx.reRan ctx.imRan hre him
  generalize gridOf ctx.precision ctx.reRan ctx.imRan hre him = G at *
  unfold calcRoots resetCache at hr
  rw [Py.bind_run, Py.modify_run] at hr
  dsimp only at hr
  generalize hw0 : (if w.cache.dirty = true then { w with cache := w.cache.reset } else w) = w0 at hr
  have hI : Inv (fun _ => False) (fun _ => False) w0 := by
    rw [← hw0]
    split
    · exact hinit _ rfl
    · rename_i hdirty
      unfold EstCache.dirty at hdirty
      simp only [Bool.not_eq_true, decide_eq_false_iff_not, not_lt, Nat.le_zero, List.length_eq_zero_iff] at hdirty
      exact hinit _ hdirty
  rw [Py.bind_run] at hr
  rcases hp : phaseOf est ctx.reRan ctx.imRan ctx w0 with ⟨_ | phi, w1⟩ <;> rw [hp] at hr
  · simp at hr
  dsimp only at hr
  have hp' : phaseOf est (G.cell ⟨0, 0, 0⟩ 0).re (G.cell ⟨0, 0, 0⟩ 0).im ctx w0 = (.ok phi, w1) := by
    rw [hroot]; exact hp
  obtain ⟨i1, _⟩ := ti.node hI (fun q hq => hq.elim) (fun m hm => hm.elim) (fun k hk => absurd hk (Nat.not_lt_zero k)) trivial hp'
  obtain ⟨VD', Done', h, _⟩ := ti.run hG hstop limit ⟨0, 0, 0⟩ phi _ _ w1 w' i1 (.inr rfl)
    (by
      rintro q (hq | rfl) _
      · exact hq.elim
      · rfl)
    (fun m hm => hm.elim) trivial trivial (by rw [hroot]; exact hr)
  exact ⟨VD', Done', h⟩

/-- the lines evaluated in a search are the edges of the evaluated rectangles, each once -/
theorem once_search {est : LineEst σ ℝ} (hc : LeavesCache est ctx) (hlog : ∀ o a b w, (est o a b ctx w).2.log = w.log)
    {body : Decide (σ × List (Note ℝ)) ℝ → Decide (σ × List (Note ℝ)) ℝ} {stop : Cell ℝ → Prop}
    {act : Cell ℝ → Py (World (σ × List (Note ℝ)) ℝ) Unit}
    (hre : ctx.reRan.1 < ctx.reRan.2) (him : ctx.imRan.1 < ctx.imRan.2)
    (hstop : Stops (noting est) ctx body stop act) (hact : Quiet act)
    (limit : ℕ) (w w' : World (σ × List (Note ℝ)) ℝ) (hr : calcRoots (noting est) body limit ctx w = (.ok (), w')) :
    (newNotes w w').Pairwise (fun x y => x.value ≠ some 0 → x.Differ y) ∧
    (∀ x ∈ newNotes w w', ∃ c ∈ newCells w w', x.line ∈ edges c.re c.im) ∧
    ∀ c ∈ newCells w w', ∀ e ∈ edges c.re c.im, ∃ x ∈ newNotes w w', x.line = e ∨ x.line = e.swap := by
  obtain ⟨VD, Done, hI⟩ := (once_tree (n := w.est.2.length) (l := w.log.length) hc hlog hact).search hre him hstop limit w w'
    (by
      intro c hcd
      have hl : ∀ a b, c.look 0 a b = none := by intro a b; unfold EstCache.look; rw [hcd]; rfl
      refine ⟨CacheWF.of_data (c := EstCache.init false) (CacheWF.init _) hcd, ⟨le_rfl, le_rfl⟩, fun q hq => hq.elim, fun q hq => hq, ?_, ?_, ?_, ?_,
        fun q hq => hq.elim, fun q hq => hq.elim, ?_⟩
      · simp [notes]
      · simp [notes]
      · rintro e ⟨v, hv⟩; dsimp only at hv; rw [hl] at hv; simp at hv
      · simp [notes]
      · simp) hr
  refine ⟨hI.pair, ?_, ?_⟩
  · intro e he
    obtain ⟨q, hq, hz, b, hb⟩ := hI.from_ e he
    obtain ⟨phi, hphi⟩ := hI.seen q hq
    refine ⟨_, hphi, ?_⟩
    rw [Grid.edges_eq, hb]
    exact List.mem_map.2 ⟨(hz, b), by cases hz <;> cases b <;> simp, rfl⟩
  · intro c hcm e he
    obtain ⟨q, hq, hqc⟩ := hI.cells c hcm
    rw [hqc, Grid.edges_eq] at he
    obtain ⟨i, _, rfl⟩ := List.mem_map.1 he
    exact hI.all q hq i.1 i.2

end PyZeal
