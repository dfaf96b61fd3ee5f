import Verif.Proof.Container
import Verif.Proof.SharedQueue
import Mathlib.Order.Interval.Set.Basic
import Mathlib.Tactic.NormNum

/-! # Properties C01–C16: containers and filters -/

set_option linter.unusedSectionVars false

namespace PyZeal.Props
open Spec
variable {K : Type} [Field K] [LinearOrder K] [IsStrictOrderedRing K] [FloorRing K]

/-- C01. After any history on a new rounding container, for whatever order the set is iterated in:
every reported root is its own rounding at the container's current precision, and no (root, order)
pair is reported twice. -/
theorem C01_rounded_no_duplicates (p : Option (ℤ × ℤ)) (sp : ℤ × ℤ) (ops : List (ROp K))
    (it : List (Root K))
    (hit : it.Perm ((RContainer.init p sp).run ops).1.rootSet) :
    (∀ z ∈ ((RContainer.init p sp).run ops).1.getRoots it,
      RoundsTo ((RContainer.init (K := K) p sp).run ops).1.precision z z) ∧ it.Nodup := by
  have h := (RInv.init (K := K) p sp).run ops
  refine ⟨?_, hit.nodup_iff.2 h.nodup⟩
  intro z hz
  obtain ⟨r, hr, rfl⟩ := List.mem_map.1 hz
  have := h.rounded r (hit.mem_iff.1 hr)
  rw [roundsTo_iff _ _ _ r.2]
  exact this.symm

/-- C02. Any history on a new rounding container does exactly what the abstract set machine `SetRun`
does: the return values are the same, and at the end the container holds the same pairs, has the
same precision; the abstract machine is deterministic, so this determines contents completely. -/
theorem C02_refines_set (p : Option (ℤ × ℤ)) (sp : ℤ × ℤ) (ops : List (ROp K)) :
    ∃ s outs, SetRun (SetState.new (p.getD sp)) ops s outs ∧
      (∀ s' outs', SetRun (SetState.new (K := K) (p.getD sp)) ops s' outs' → s' = s ∧ outs' = outs) ∧
      ((RContainer.init p sp).run ops).2 = outs ∧
      (∀ x, x ∈ ((RContainer.init p sp).run ops).1.rootSet ↔ x ∈ s.contents) ∧
      ((RContainer.init (K := K) p sp).run ops).1.precision = s.precision := by
  have h0 : (RContainer.init p sp : RContainer K).abs = SetState.new (p.getD sp) := by
    unfold RContainer.abs SetState.new RContainer.init
    congr 1
    ext x; simp
  have h := refine_run (RInv.init (K := K) p sp) ops
  rw [h0] at h
  exact ⟨_, _, h, fun s' o' h' => setRun_det h' h, rfl, fun x => Iff.rfl, rfl⟩

/-- C03, rounding container: the two reports are parallel and together list exactly the
held pairs, once each. -/
theorem C03_parallel_rounding (p : Option (ℤ × ℤ)) (sp : ℤ × ℤ) (ops : List (ROp K))
    (it : List (Root K)) (hit : it.Perm ((RContainer.init p sp).run ops).1.rootSet) :
    let c := ((RContainer.init p sp).run ops).1
    (c.getRoots it).length = (c.getRootOrders it).length ∧
    (∀ i (h : i < (c.getRoots it).length) (h' : i < (c.getRootOrders it).length),
      ((c.getRoots it)[i], (c.getRootOrders it)[i]) ∈ c.rootSet) ∧
    ((c.getRoots it).zip (c.getRootOrders it)).Perm c.rootSet := by
  refine ⟨by simp [RContainer.getRoots, RContainer.getRootOrders], ?_, ?_⟩
  swap
  · have e : ∀ l : List (Root K), (l.map Prod.fst).zip (l.map Prod.snd) = l := by
      intro l; rw [List.zip_map']; simp
    simp only [RContainer.getRoots, RContainer.getRootOrders, e]
    exact hit
  intro i h h'
  have : i < it.length := by simpa [RContainer.getRoots] using h
  have e : ((((RContainer.init p sp).run ops).1.getRoots it)[i],
    (((RContainer.init p sp).run ops).1.getRootOrders it)[i]) = it[i] := by
    simp [RContainer.getRoots, RContainer.getRootOrders]
  rw [e]
  exact hit.mem_iff.1 (List.getElem_mem this)

/-- C03, plain container: `getRoots` and `getRootOrders` called in either order with nothing in between. -/
theorem C03_parallel_plain (c : PContainer K) :
    c.getRoots.1.zip c.getRoots.2.getRootOrders.1 = c.roots ++ c.queue ∧
    c.getRoots.1.length = c.getRoots.2.getRootOrders.1.length ∧
    c.getRootOrders.2.getRoots.1.zip c.getRootOrders.1 = c.roots ++ c.queue ∧
    c.getRootOrders.2.getRoots.1.length = c.getRootOrders.1.length := by
  simp only [PContainer.getRoots, PContainer.getRootOrders, PContainer.transfer_eq,
    List.append_nil, List.length_map, and_true]
  rw [List.zip_map']
  simp

/-- C04. Two lists of additions under one context with the same members (any order, any
repetition, any log levels) leave the same contents and precision, from any start state. -/
theorem C04_order_irrelevant (c : RContainer K) (ctx : FilterCtx K)
    (rs rs' : List (Bool × Root K)) (h : ∀ r, r ∈ rs.map Prod.snd ↔ r ∈ rs'.map Prod.snd) :
    let a := rs.foldl (fun c r => c.addRoot r.1 r.2 ctx) c
    let b := rs'.foldl (fun c r => c.addRoot r.1 r.2 ctx) c
    (∀ x, x ∈ a.rootSet ↔ x ∈ b.rootSet) ∧ a.precision = b.precision := by
  intro a b
  have conv : ∀ (P : Root K → Prop) (l : List (Bool × Root K)),
      (∃ r ∈ l, P r.2) ↔ ∃ q ∈ l.map Prod.snd, P q := by
    intro P l
    constructor
    · rintro ⟨r, hr, hp⟩; exact ⟨r.2, List.mem_map.2 ⟨r, hr, rfl⟩, hp⟩
    · rintro ⟨q, hq, hp⟩
      obtain ⟨r, hr, rfl⟩ := List.mem_map.1 hq
      exact ⟨r, hr, hp⟩
  have key : ∀ P : Root K → Prop, (∃ r ∈ rs, P r.2) ↔ ∃ r ∈ rs', P r.2 := by
    intro P; rw [conv P rs, conv P rs']; simp only [h]
  obtain ⟨_, a2, a3⟩ := foldl_add ctx rs c
  obtain ⟨_, b2, b3⟩ := foldl_add ctx rs' c
  by_cases he : ∃ r ∈ rs, c.accepts r.2 ctx = true
  · have he' := (key fun q => c.accepts q ctx = true).1 he
    refine ⟨fun x => ?_, (a2 he).1.trans (b2 he').1.symm⟩
    rw [(a2 he).2 x, (b2 he').2 x,
      key fun q => c.accepts q ctx = true ∧ x = roundRoot q ctx.precision]
  · have he' : ¬ ∃ r ∈ rs', c.accepts r.2 ctx = true :=
      fun h' => he ((key fun q => c.accepts q ctx = true).2 h')
    have ea : a = c := a3 he
    have eb : b = c := b3 he'
    rw [ea, eb]; exact ⟨fun x => Iff.rfl, rfl⟩

/-- non-vacuity of C04: reordering and repeating real additions. -/
example : ∀ r, r ∈ ([(true, ((⟨1, 2⟩ : Cx ℚ), 1)), (false, (⟨3, 4⟩, 2))] : List (Bool × Root ℚ)).map
      Prod.snd ↔
    r ∈ ([(false, (⟨3, 4⟩, 2)), (false, (⟨1, 2⟩, 1)), (true, (⟨3, 4⟩, 2))] :
      List (Bool × Root ℚ)).map Prod.snd := by
  intro r; simp; tauto

/-- C05. Two histories that differ only in the log levels in force give the same return values and
the same container. -/
theorem C05_log_level_irrelevant (c : RContainer K) (ops ops' : List (ROp K))
    (h : List.Forall₂ SameCall ops ops') : c.run ops = c.run ops' := by
  induction h generalizing c with
  | nil => rfl
  | cons hs _ ih =>
    have : ∀ {a b : ROp K}, SameCall a b → c.step a = c.step b := by
      intro a b hab
      cases hab with
      | add r ctx i j => simp only [RContainer.step, addRoot_eq]
      | same => rfl
    simp only [RContainer.run, this hs, ih]

/-- C06. `removeRoot` in any state reachable by a history: the answer is whether the rounded pair is
held; afterwards that pair is gone and every other pair is unaffected, as are
precision and filters. -/
theorem C06_remove (p : Option (ℤ × ℤ)) (sp : ℤ × ℤ) (ops : List (ROp K)) (r : Root K) (w : Cx K) :
    let c := ((RContainer.init p sp).run ops).1
    RoundsTo c.precision r.1 w →
    ((c.removeRoot r).1 = true ↔ (w, r.2) ∈ c.rootSet) ∧
    (w, r.2) ∉ (c.removeRoot r).2.rootSet ∧
    (∀ x, x ≠ (w, r.2) → (x ∈ (c.removeRoot r).2.rootSet ↔ x ∈ c.rootSet)) ∧
    (c.removeRoot r).2.precision = c.precision ∧ (c.removeRoot r).2.filters = c.filters := by
  intro c hw
  have h : RInv c := (RInv.init (K := K) p sp).run ops
  have e : (w, r.2) = roundRoot r c.precision := (roundsTo_iff _ _ _ r.2).1 hw
  rw [e]
  unfold RContainer.removeRoot
  by_cases hm : roundRoot r c.precision ∈ c.rootSet
  · simp only [hm, if_true]
    refine ⟨trivial, ?_, ?_, trivial, trivial⟩
    · rw [h.nodup.mem_erase_iff]; simp
    · intro x hx; rw [h.nodup.mem_erase_iff]; simp [hx]
  · simp [hm]

/-- C06, second part: adding an accepted, not yet held root in the current precision and removing it
again restores the contents. -/
theorem C06_add_remove (p : Option (ℤ × ℤ)) (sp : ℤ × ℤ) (ops : List (ROp K)) (r : Root K)
    (ctx : FilterCtx K) (info : Bool) (w : Cx K) :
    let c := ((RContainer.init p sp).run ops).1
    RoundsTo c.precision r.1 w → (w, r.2) ∉ c.rootSet → ctx.precision = c.precision →
    (∀ key q, InForce ops key q → q r ctx = true) →
    (w, r.2) ∈ (c.addRoot info r ctx).rootSet ∧
    ((c.addRoot info r ctx).removeRoot r).1 = true ∧
    ∀ x, x ∈ ((c.addRoot info r ctx).removeRoot r).2.rootSet ↔ x ∈ c.rootSet := by
  intro c hw hn hp hf
  have h : RInv c := (RInv.init (K := K) p sp).run ops
  have e : (w, r.2) = roundRoot r c.precision := (roundsTo_iff _ _ _ r.2).1 hw
  have ha : c.accepts r ctx = true :=
    (accepts_iff h.wf r ctx).2 fun key q hq => hf key q ((get?_filters_iff p sp ops key q).1 hq)
  rw [e] at hn ⊢
  rw [addRoot_eq, if_pos ha, if_pos hp, hp]
  have hin : roundRoot r c.precision ∈ setAdd c.rootSet (roundRoot r c.precision) :=
    (mem_setAdd _ _ _).2 (Or.inr rfl)
  have hnd := nodup_setAdd h.nodup (roundRoot r c.precision)
  refine ⟨hin, ?_, ?_⟩
  · simp [RContainer.removeRoot, hin]
  · intro x
    simp only [RContainer.removeRoot, hin, if_true]
    rw [hnd.mem_erase_iff, mem_setAdd]
    constructor
    · rintro ⟨h1, h2 | h2⟩
      · exact h2
      · exact absurd h2 h1
    · intro hx; exact ⟨fun e => hn (e ▸ hx), Or.inl hx⟩

/-- non-vacuity of C06: a container over ℚ in which a removal happens and one in which it does not. -/
example : (((RContainer.init (K := ℚ) (some (1, 1)) (5, 5)).run
    [.add (⟨1/8, 1⟩, 2) ⟨id, (0, 1), (0, 1), (1, 1), 3⟩ true]).1.removeRoot (⟨1/10, 1⟩, 2)).1 = true ∧
    (((RContainer.init (K := ℚ) (some (1, 1)) (5, 5)).run
    [.add (⟨1/8, 1⟩, 2) ⟨id, (0, 1), (0, 1), (1, 1), 3⟩ true]).1.removeRoot (⟨1/10, 1⟩, 1)).1 = false
    := by
  decide +kernel

/-- C07. If some filter in force rejects the root, `addRoot` leaves the container exactly as it is; if
all accept it, the rounded root is held afterwards. (The precision of the context is arbitrary.) -/
theorem C07_filters_gate (p : Option (ℤ × ℤ)) (sp : ℤ × ℤ) (ops : List (ROp K)) (r : Root K)
    (ctx : FilterCtx K) (info : Bool) :
    let c := ((RContainer.init p sp).run ops).1
    ((∃ key q, InForce ops key q ∧ q r ctx = false) → c.addRoot info r ctx = c) ∧
    ((∀ key q, InForce ops key q → q r ctx = true) → ∃ w, RoundsTo ctx.precision r.1 w ∧
      (w, r.2) ∈ (c.addRoot info r ctx).rootSet ∧
      (c.addRoot info r ctx).precision = ctx.precision) := by
  intro c
  have h : RInv c := (RInv.init (K := K) p sp).run ops
  constructor
  · rintro ⟨key, q, hq, hr⟩
    rw [addRoot_eq, if_neg]
    intro ha
    have := (accepts_iff h.wf r ctx).1 ha key q ((get?_filters_iff p sp ops key q).2 hq)
    simp [hr] at this
  · intro hf
    have ha : c.accepts r ctx = true :=
      (accepts_iff h.wf r ctx).2 fun key q hq => hf key q ((get?_filters_iff p sp ops key q).1 hq)
    refine ⟨(roundRoot r ctx.precision).1, roundsTo_roundRoot _ r, ?_⟩
    rw [addRoot_eq, if_pos ha]
    exact ⟨(mem_setAdd _ _ _).2 (Or.inr rfl), rfl⟩

/-- C08. Which additions a container accepts is determined by the filters in force, i.e. for each key
the predicate registered last and not unregistered since: two histories after which the same filters
are in force accept the same roots; registering and unregistering never change held
roots or precision. -/
theorem C08_last_registration_wins (p p' : Option (ℤ × ℤ)) (sp sp' : ℤ × ℤ)
    (ops ops' : List (ROp K)) (hsame : ∀ key q, InForce ops key q ↔ InForce ops' key q)
    (r : Root K) (ctx : FilterCtx K) (i j : Bool) :
    let c := ((RContainer.init p sp).run ops).1
    let c' := ((RContainer.init p' sp').run ops').1
    (roundRoot r ctx.precision ∈ (c.addRoot i r ctx).rootSet ∧
        (c.addRoot i r ctx).precision = ctx.precision ∨ c.addRoot i r ctx = c) ∧
    ((∀ key q, InForce ops key q → q r ctx = true) →
      roundRoot r ctx.precision ∈ (c.addRoot i r ctx).rootSet ∧
      roundRoot r ctx.precision ∈ (c'.addRoot j r ctx).rootSet) ∧
    ((¬ ∀ key q, InForce ops key q → q r ctx = true) →
      c.addRoot i r ctx = c ∧ c'.addRoot j r ctx = c') ∧
    (∀ key q, (c.registerFilter q key).rootSet = c.rootSet ∧
      (c.registerFilter q key).precision = c.precision ∧
      (c.unregisterFilter key).rootSet = c.rootSet ∧
      (c.unregisterFilter key).precision = c.precision) ∧
    (∀ key, (∀ q, ¬ InForce ops key q) → c.unregisterFilter key = c) := by
  intro c c'
  have h : RInv c := (RInv.init (K := K) p sp).run ops
  have h' : RInv c' := (RInv.init (K := K) p' sp').run ops'
  have ha : c.accepts r ctx = true ↔ ∀ key q, InForce ops key q → q r ctx = true := by
    rw [accepts_iff h.wf]; simp only [c, get?_filters_iff]
  have ha' : c'.accepts r ctx = true ↔ ∀ key q, InForce ops key q → q r ctx = true := by
    rw [accepts_iff h'.wf]; simp only [c', get?_filters_iff, hsame]
  have hmem : ∀ (d : RContainer K) (i : Bool), d.accepts r ctx = true →
      roundRoot r ctx.precision ∈ (d.addRoot i r ctx).rootSet ∧
      (d.addRoot i r ctx).precision = ctx.precision := by
    intro d i hd; rw [addRoot_eq, if_pos hd]; exact ⟨(mem_setAdd _ _ _).2 (Or.inr rfl), rfl⟩
  have hrej : ∀ (d : RContainer K) (i : Bool), ¬ d.accepts r ctx = true →
      d.addRoot i r ctx = d := by
    intro d i hd; rw [addRoot_eq, if_neg hd]
  refine ⟨?_, fun hf => ⟨(hmem c i (ha.2 hf)).1, (hmem c' j (ha'.2 hf)).1⟩,
    fun hf => ⟨hrej c i fun e => hf (ha.1 e), hrej c' j fun e => hf (ha'.1 e)⟩,
    fun _ _ => ⟨rfl, rfl, rfl, rfl⟩, ?_⟩
  · by_cases hc : c.accepts r ctx = true
    · exact Or.inl (hmem c i hc)
    · exact Or.inr (hrej c i hc)
  · intro key hk
    have : c.filters.get? key = none := by
      rcases e : c.filters.get? key with _ | q
      · rfl
      · exact absurd ((get?_filters_iff p sp ops key q).1 e) (hk q)
    have hnk := (Dict.get?_eq_none_iff _ _).1 this
    have : c.filters.erase key = c.filters := by
      generalize c.filters = d at hnk
      induction d with
      | nil => rfl
      | cons e d ih =>
        simp only [Dict.keys, List.map_cons, List.mem_cons, not_or] at hnk ih
        simp only [Dict.erase]
        rw [if_neg (fun e => hnk.1 e.symm), ih hnk.2]
    unfold RContainer.unregisterFilter
    rw [this]

/-- C09 is false of the code: registering a filter does not clear the container, so a held root
may be one the registered filter rejects (for every filter context). -/
theorem C09_counterexample :
    ∃ (ops : List (ROp ℚ)) (key : String) (q : Filter ℚ) (x : Root ℚ),
      InForce ops key q ∧ x ∈ ((RContainer.init (some (3, 3)) (5, 5)).run ops).1.rootSet ∧
      ∀ r ctx, roundRoot r (3, 3) = x → q r ctx = false := by
  refine ⟨[.add (⟨1, 1⟩, 1) ⟨id, (0, 2), (0, 2), (3, 3), 3⟩ false,
    .register "k" (fun _ _ => false)], "k", fun _ _ => false, (⟨1, 1⟩, 1), ?_, ?_, ?_⟩
  · exact ⟨[_], [], rfl, by simp⟩
  · decide +kernel
  · intros; rfl

/-- C09, proved part: a root that came into the container after the registration of a filter
still in force was accepted by that filter. (Missing: roots already held when the filter
is registered, for which the claim is false, see `C09_counterexample`.) -/
theorem C09_partial (p : Option (ℤ × ℤ)) (sp : ℤ × ℤ) (pre post : List (ROp K)) (key : String)
    (q : Filter K) (hpost : ∀ op ∈ post, ¬ Touches key op) (x : Root K)
    (hx : x ∈ ((RContainer.init p sp).run (pre ++ .register key q :: post)).1.rootSet)
    (hnew : x ∉ ((RContainer.init p sp).run pre).1.rootSet) :
    ∃ r ctx info, ROp.add r ctx info ∈ post ∧ q r ctx = true ∧ RoundsTo ctx.precision r.1 x.1 ∧
      x.2 = r.2 := by
  induction post using List.reverseRecOn with
  | nil =>
    rw [(RContainer.run_append _ _ _).1] at hx
    exact absurd hx hnew
  | append_singleton post op ih =>
    have ih' := ih (fun o ho => hpost o (by simp [ho]))
    have hmono : (∃ r ctx info, ROp.add r ctx info ∈ post ∧ q r ctx = true ∧
        RoundsTo ctx.precision r.1 x.1 ∧ x.2 = r.2) →
        ∃ r ctx info, ROp.add r ctx info ∈ post ++ [op] ∧ q r ctx = true ∧
        RoundsTo ctx.precision r.1 x.1 ∧ x.2 = r.2 := by
      rintro ⟨r, ctx, info, h1, h2⟩; exact ⟨r, ctx, info, by simp [h1], h2⟩
    rw [← List.cons_append, ← List.append_assoc, (RContainer.run_append _ _ _).1] at hx
    have hinv := (RInv.init (K := K) p sp).run (pre ++ .register key q :: post)
    have hfor : InForce (pre ++ ROp.register key q :: post) key q :=
      ⟨pre, post, rfl, fun o ho => hpost o (by simp [ho])⟩
    have hget := (get?_filters_iff p sp _ key q).2 hfor
    generalize hc : ((RContainer.init p sp).run (pre ++ .register key q :: post)).1 = c at *
    by_cases hxc : x ∈ c.rootSet
    · exact hmono (ih' hxc)
    · cases op with
      | add r ctx info =>
        simp only [RContainer.run, RContainer.step, addRoot_eq] at hx
        by_cases ha : c.accepts r ctx = true
        · rw [if_pos ha] at hx
          rw [mem_setAdd] at hx
          rcases hx with hx | hx
          · split at hx
            · exact absurd hx hxc
            · simp at hx
          · refine ⟨r, ctx, info, by simp, (accepts_iff hinv.wf r ctx).1 ha key q hget, ?_, ?_⟩
            · rw [hx]; exact roundsTo_roundRoot _ r
            · rw [hx]; rfl
        · rw [if_neg ha] at hx; exact absurd hx hxc
      | remove r =>
        simp only [RContainer.run, RContainer.step, RContainer.removeRoot] at hx
        split at hx
        · exact absurd (List.mem_of_mem_erase hx) hxc
        · exact absurd hx hxc
      | clear => simp [RContainer.run, RContainer.step, RContainer.clear] at hx
      | register k q' => exact absurd hx hxc
      | unregister k => exact absurd hx hxc

/-- non-vacuity of `C09_partial`. -/
example : ((⟨1, 1⟩, 1) : Root ℚ) ∈ ((RContainer.init (some (3, 3)) (5, 5)).run
    ([] ++ .register "k" (fun r _ => decide (0 < r.2)) ::
      [.add (⟨1, 1⟩, 1) ⟨id, (0, 2), (0, 2), (3, 3), 3⟩ false])).1.rootSet := by decide +kernel

/-- C10 is false of the code: roots that coincide after rounding are both held when their orders
differ. -/
theorem C10_counterexample :
    ∃ ops : List (ROp ℚ), ∃ z : Cx ℚ,
      (((RContainer.init (some (3, 3)) (5, 5)).run ops).1.rootSet.map Prod.fst).count z = 2 := by
  refine ⟨[.add (⟨1, 1⟩, 1) ⟨id, (0, 2), (0, 2), (3, 3), 3⟩ false,
    .add (⟨1 + 1/10000, 1⟩, 2) ⟨id, (0, 2), (0, 2), (3, 3), 3⟩ false], ⟨1, 1⟩, ?_⟩
  decide +kernel

/-- C10, proved part: roots that coincide after rounding and have the same order are held once.
(Missing: coincidence in value with different orders, for which the claim is false.) -/
theorem C10_partial (p : Option (ℤ × ℤ)) (sp : ℤ × ℤ) (ops : List (ROp K)) (x : Root K) :
    ((RContainer.init p sp).run ops).1.rootSet.count x ≤ 1 :=
  List.nodup_iff_count_le_one.1 ((RInv.init (K := K) p sp).run ops).nodup x

/-- C11. Rounding a root: half a unit in the last kept digit in each coordinate, order kept,
correctly rounded, idempotent, monotone in each coordinate, identity on values that already have that
many decimals. -/
theorem C11_rounding (r s : Root K) (p : ℤ × ℤ) :
    |r.1.re - (roundRoot r p).1.re| ≤ (10 : K) ^ (-p.1) / 2 ∧
    |r.1.im - (roundRoot r p).1.im| ≤ (10 : K) ^ (-p.2) / 2 ∧
    (roundRoot r p).2 = r.2 ∧ RoundsTo p r.1 (roundRoot r p).1 ∧
    roundRoot (roundRoot r p) p = roundRoot r p ∧
    (r.1.re ≤ s.1.re → (roundRoot r p).1.re ≤ (roundRoot s p).1.re) ∧
    (r.1.im ≤ s.1.im → (roundRoot r p).1.im ≤ (roundRoot s p).1.im) ∧
    (HasDecimals p.1 r.1.re → HasDecimals p.2 r.1.im → roundRoot r p = r) ∧
    HasDecimals p.1 (roundRoot r p).1.re ∧ HasDecimals p.2 (roundRoot r p).1.im := by
  refine ⟨pyRound_err _ _, pyRound_err _ _, rfl, roundsTo_roundRoot _ r, roundRoot_idem _ _,
    fun h => pyRound_mono h _, fun h => pyRound_mono h _, ?_, pyRound_hasDecimals _ _,
    pyRound_hasDecimals _ _⟩
  intro h1 h2
  unfold roundRoot
  rw [pyRound_of_decimals h1, pyRound_of_decimals h2]

example : HasDecimals 2 (5 / 4 : ℚ) := ⟨125, by norm_num⟩

/-- C12. An accepted root with a precision different from the container's leaves exactly this
one root, rounded to the new precision, which is reported from then on. -/
theorem C12_precision_change (p : Option (ℤ × ℤ)) (sp : ℤ × ℤ) (ops : List (ROp K)) (r : Root K)
    (ctx : FilterCtx K) (info : Bool) :
    let c := ((RContainer.init p sp).run ops).1
    (∀ key q, InForce ops key q → q r ctx = true) → ctx.precision ≠ c.precision →
    ∃ w, RoundsTo ctx.precision r.1 w ∧ (c.addRoot info r ctx).rootSet = [(w, r.2)] ∧
      (c.addRoot info r ctx).precision = ctx.precision := by
  intro c hf hne
  have h : RInv c := (RInv.init (K := K) p sp).run ops
  have ha : c.accepts r ctx = true :=
    (accepts_iff h.wf r ctx).2 fun key q hq => hf key q ((get?_filters_iff p sp ops key q).1 hq)
  refine ⟨(roundRoot r ctx.precision).1, roundsTo_roundRoot _ r, ?_⟩
  rw [addRoot_eq, if_pos ha, if_neg hne]
  exact ⟨rfl, rfl⟩

/-- C13. What every call returns after any history `pre` on a plain container with a
private queue: `getRoots`/`getRootOrders` report all roots added so far, in order; `removeRoot`
answers False; the unsupported calls raise NotImplementedError. -/
theorem C13_plain_container (pre : List (POp K)) (op : POp K) :
    (((⟨[], []⟩ : PContainer K).run pre).2.step op).1 =
      match op with
      | .add _ _ => .none
      | .getRoots => .roots ((added pre).map Prod.fst)
      | .getRootOrders => .orders ((added pre).map Prod.snd)
      | .remove _ => .bool false
      | .clear => .raised .notImplementedError
      | .register _ _ => .raised .notImplementedError
      | .unregister _ => .raised .notImplementedError := by
  have h := PContainer.run_all (⟨[], []⟩ : PContainer K) pre
  simp only [List.append_nil, List.nil_append] at h
  cases op <;>
    simp [PContainer.step, PContainer.getRoots, PContainer.getRootOrders,
      PContainer.transfer_eq, PContainer.removeRoot, PContainer.clear, PContainer.registerFilter,
      PContainer.unregisterFilter, POut.ofPy, ← h]

/-- C14. Producers and `n` consumers on one queue, any schedule of atomic actions: with multiplicity,
every root put is in the queue or in exactly one consumer, and what a consumer holds of a producer is a
subsequence of what that producer put. -/
theorem C14_shared_queue {n : ℕ} (ops : List (SharedOp K n)) (x : ℕ × Root K) :
    let s := (SharedState.init n).run ops
    (putsOf ops).count x = s.queue.count x + ∑ i, (s.held i).count x ∧
    ∀ i producer, ((s.held i).filter (fun e => e.1 = producer)).Sublist
      ((putsOf ops).filter (fun e => e.1 = producer)) := by
  intro s
  obtain ⟨taken, h1, h2, h3⟩ := (SInv.init (K := K) (n := n)).run ops
  rw [List.nil_append] at h1
  constructor
  · rw [h1, List.count_append, h3, add_comm]
  · intro i producer
    apply List.Sublist.filter
    rw [h1]
    exact (h2 i).trans (List.sublist_append_left _ _)

/-- A schedule in which two consumers interleave. -/
def exampleSchedule : List (SharedOp ℚ 2) :=
  [.put 0 (⟨1, 1⟩, 1), .put 1 (⟨2, 2⟩, 1), .check 0, .check 1, .get 1, .get 0]

example : ((SharedState.init 2).run exampleSchedule).held 0 = [(1, (⟨2, 2⟩, 1))] ∧
    ((SharedState.init 2).run exampleSchedule).held 1 = [(0, (⟨1, 1⟩, 1))] := by
  decide +kernel

/-- C96, counterexample with two consumers: the emptiness test and `get` are separate, so a consumer can be left
waiting in `get` on an empty queue (its `getRoots` hangs) when another consumer takes the last root. -/
theorem C96_counterexample :
    ∃ ops : List (SharedOp ℚ 2), let s := (SharedState.init 2).run ops
      s.wants 0 = true ∧ s.queue = [] ∧ s.step (.get 0) = s := by
  refine ⟨[.put 0 (⟨1, 1⟩, 1), .check 0, .check 1, .get 1], ?_, ?_, ?_⟩
  · decide +kernel
  · decide +kernel
  · rfl

/-- C96 for a container that is the only one reading from the queue (as in a parallel search), whatever the producers
do meanwhile: whenever it is about to call `get` the queue has an element, so it never waits. -/
theorem C96_single_consumer_partial {n : ℕ} (i : Fin n) (ops : List (SharedOp K n))
    (h : ∀ op ∈ ops, ∀ j, op = .check j ∨ op = .get j → j = i) :
    let s := (SharedState.init n).run ops
    s.wants i = true → s.queue ≠ [] ∧ (s.step (.get i)).wants i = false := by
  intro s hw
  have hq : s.queue ≠ [] := by
    refine lone_never_blocks (i := i) (by simp [SharedState.init]) ops ?_ hw
    intro op ho j hj
    refine h op ho j ?_
    cases op with
    | put p r => exact absurd hj (by simp [SharedOp.consumer])
    | check k => simp only [SharedOp.consumer, Option.some.injEq] at hj; exact .inl (by rw [hj])
    | get k => simp only [SharedOp.consumer, Option.some.injEq] at hj; exact .inr (by rw [hj])
  refine ⟨hq, ?_⟩
  cases hl : s.queue with
  | nil => exact absurd hl hq
  | cons a l => simp [SharedState.step, hw, hl]

/-- C96, termination: when the producers are done, the transfer loop of the only reader makes exactly as many
rounds as there are roots in the queue; then the test fails, and the reader holds all these roots in order. -/
theorem C96_terminates_partial {n : ℕ} (i : Fin n) (s : SharedState K n) (hw : s.wants i = false) :
    let s' := s.run ((List.replicate s.queue.length [SharedOp.check i, .get i]).flatten)
    s'.queue = [] ∧ s'.held i = s.held i ++ s.queue ∧ (∀ j ≠ i, s'.held j = s.held j) ∧
    (s'.step (.check i)).wants i = false := by
  intro s'
  have e : s' = _ := transfer_drains hw
  rw [e]
  refine ⟨rfl, by simp, ?_, by simp [SharedState.step, hw]⟩
  intro j hj
  simp [Function.update_of_ne hj]

/-- a schedule with a lone reader interleaved with a producer -/
example : let ops : List (SharedOp ℚ 1) :=
      [.check 0, .put 0 (⟨1, 1⟩, 1), .check 0, .put 1 (⟨2, 2⟩, 1), .get 0, .check 0]
    let s := (SharedState.init 1).run ops
    s.wants 0 = true ∧ s.queue = [(1, (⟨2, 2⟩, 1))] ∧ s.held 0 = [(0, (⟨1, 1⟩, 1))] := by
  decide +kernel

/-- C15. With only the predefined ZERO_IN_BOUNDS filter registered, a new container accepts a root iff
it lies in the closed rectangle of the context, and is otherwise left alone. -/
theorem C15_zero_in_bounds (p : Option (ℤ × ℤ)) (sp : ℤ × ℤ) (t : ℤ) (r : Root K)
    (ctx : FilterCtx K) (info : Bool) :
    ∃ c, registerPreDefinedFilter .zeroInBounds t (.rounding (RContainer.init p sp)) =
        (.ok (), .rounding c) ∧
      ((r.1.re ∈ Set.Icc ctx.reRan.1 ctx.reRan.2 ∧ r.1.im ∈ Set.Icc ctx.imRan.1 ctx.imRan.2) →
        (c.addRoot info r ctx).rootSet = [roundRoot r ctx.precision]) ∧
      (¬ (r.1.re ∈ Set.Icc ctx.reRan.1 ctx.reRan.2 ∧ r.1.im ∈ Set.Icc ctx.imRan.1 ctx.imRan.2) →
        (c.addRoot info r ctx).rootSet = []) := by
  refine ⟨_, rfl, ?_, ?_⟩
  · intro h
    rw [addRoot_eq, if_pos]
    · by_cases hq : ctx.precision = p.getD sp <;>
        simp [RContainer.registerFilter, RContainer.init, setAdd, hq]
    · simpa [RContainer.accepts, RContainer.registerFilter, RContainer.init, Dict.set, zeroInBounds,
        Set.mem_Icc] using h
  · intro h
    rw [addRoot_eq, if_neg]
    · rfl
    · simpa [RContainer.accepts, RContainer.registerFilter, RContainer.init, Dict.set, zeroInBounds,
        Set.mem_Icc] using h

/-- C16, meaning of the filter: if `m` is the modulus of `f(z)`, a new container with only the
predefined FUNCTION_VALUE_ZERO filter with threshold `t` accepts `z` iff `m < 10^-t`. -/
theorem C16_function_value_zero (p : Option (ℤ × ℤ)) (sp : ℤ × ℤ) (t : ℤ) (r : Root K)
    (ctx : FilterCtx K) (info : Bool) (m : K) (hm0 : 0 ≤ m)
    (hm : m ^ 2 = (ctx.f r.1).re ^ 2 + (ctx.f r.1).im ^ 2) :
    ∃ c, registerPreDefinedFilter .functionValueZero t (.rounding (RContainer.init p sp)) =
        (.ok (), .rounding c) ∧
      (m < (10 : K) ^ (-t) → (c.addRoot info r ctx).rootSet = [roundRoot r ctx.precision]) ∧
      (¬ m < (10 : K) ^ (-t) → (c.addRoot info r ctx).rootSet = []) := by
  have hp : (0 : K) < (10 : K) ^ (-t) := zpow_pos (by norm_num) _
  have key : (ctx.f r.1).normSq < (eps10 K t) ^ 2 ↔ m < (10 : K) ^ (-t) := by
    have : (ctx.f r.1).normSq = m ^ 2 := by rw [hm]; unfold Cx.normSq; ring
    rw [this]; unfold eps10
    exact pow_lt_pow_iff_left₀ hm0 hp.le (by norm_num)
  refine ⟨_, rfl, ?_, ?_⟩
  · intro h
    rw [addRoot_eq, if_pos]
    · by_cases hq : ctx.precision = p.getD sp <;>
        simp [RContainer.registerFilter, RContainer.init, setAdd, hq]
    · simpa [RContainer.accepts, RContainer.registerFilter, RContainer.init, Dict.set,
        funcValueZero, key] using h
  · intro h
    rw [addRoot_eq, if_neg]
    · rfl
    · simpa [RContainer.accepts, RContainer.registerFilter, RContainer.init, Dict.set,
        funcValueZero, key] using h

/-- C16, monotone in the threshold. -/
theorem C16_threshold_monotone (t t' : ℤ) (ht : t ≤ t') (r : Root K) (ctx : FilterCtx K)
    (h : funcValueZero t' r ctx = true) : funcValueZero t r ctx = true := by
  have hp : (0 : K) < (10 : K) ^ (-t') := zpow_pos (by norm_num) _
  have hle : (10 : K) ^ (-t') ≤ (10 : K) ^ (-t) :=
    zpow_le_zpow_right₀ (by norm_num) (by omega)
  have h1 : (ctx.f r.1).normSq < ((10 : K) ^ (-t')) ^ 2 := of_decide_eq_true h
  exact decide_eq_true (lt_of_lt_of_le h1 (pow_le_pow_left₀ hp.le hle 2))

/-- C16, re-registration replaces, `registerDefaultFilters` installs both filters on a rounding container
(leaving other keys and the contents alone) and does nothing to a plain one, on which a
predefined filter cannot be registered at all. -/
theorem C16_registration (c : RContainer K) (t t' : ℤ) (ft : FilterType) (d : PContainer K) :
    (do registerPreDefinedFilter ft t; registerPreDefinedFilter ft t' : Py _ Unit)
        (.rounding c) = registerPreDefinedFilter ft t' (.rounding c) ∧
    (∃ c', registerDefaultFilters (.rounding c) = (.ok (), .rounding c') ∧
      c'.rootSet = c.rootSet ∧ c'.precision = c.precision ∧
      ∀ key, c'.filters.get? key =
        if key = "[function-value-zero]" then some (funcValueZero 3)
        else if key = "[zero-in-bounds]" then some zeroInBounds else c.filters.get? key) ∧
    registerDefaultFilters (.plain d) = (.ok (), .plain d) ∧
    registerPreDefinedFilter ft t (.plain d) = (.error .notImplementedError, .plain d) := by
  have hset : ∀ (d : Dict String (Filter K)) (k : String) (a b : Filter K),
      (d.set k a).set k b = d.set k b := by
    intro d k a b
    induction d with
    | nil => simp [Dict.set]
    | cons e d ih =>
      obtain ⟨k', v⟩ := e
      by_cases h : k' = k
      · simp [Dict.set, h]
      · simp [Dict.set, h, ih]
  refine ⟨?_, ⟨_, rfl, rfl, rfl, ?_⟩, rfl, ?_⟩
  · simp only [Py.bind_run, registerPreDefinedFilter, RContainer.registerFilter, hset]
  · intro key
    simp only [RContainer.registerFilter, Dict.get?_set, FilterType.value]
    by_cases h1 : key = "[function-value-zero]"
    · subst h1; simp
    · by_cases h2 : key = "[zero-in-bounds]"
      · subst h2; simp
      · simp [h1, h2]
        rw [if_neg (fun e => h2 e.symm), if_neg (fun e => h1 e.symm)]
  · rfl

end PyZeal.Props
