import Verif.Proof.Locator

/-!
# C54 – C58: the service locator
-/

set_option linter.unusedSectionVars false

namespace PyZeal.Props
open Spec Locator
variable {T V F W : Type} [DecidableEq T] {E : LEnv T V F W}

/-! A small concrete world for the examples: types are numbers, an object is its type and a payload,
`7` is `object`; the world counts calls of factory 0.  Factory 0 builds settings; factory 1 builds an
algorithm from the settings and a number with default 50; 2 and 3 need each other; 4 returns an object
of the wrong type. -/

def locEnv : LEnv Nat (Nat × Nat) Nat Nat where
  isInst v t := v.1 == t || t == 7
  none := (99, 0)
  sig f := match f with
    | 1 => [⟨"settings", none, some 0⟩, ⟨"n", some (50, 50), some 50⟩]
    | 2 => [⟨"other", none, some 3⟩]
    | 3 => [⟨"k", some (50, 1), some 50⟩, ⟨"other", none, some 2⟩]
    | _ => []
  call f args s := match f with
    | 0 => (.ok (0, s.world), ⟨s.loc, s.world + 1⟩)
    | 1 => (.ok (1, (args.map fun a => a.2.2).sum), s)
    | _ => (.ok (4, 0), s)

theorem locEnv_keep : FactoriesKeep locEnv := by
  intro f args s
  match f with
  | 0 => rfl
  | 1 => rfl
  | _ + 2 => rfl

def locStart : LState Nat (Nat × Nat) Nat Nat := ⟨Locator.empty, 5⟩

/-- a history with a seal, a clear, failed and successful registrations -/
def locOps : List (LOp Nat (Nat × Nat) Nat) :=
  [.singleton 0 (0, 3), .clear, .transient 0 0, .transient 1 0, .transient 1 1, .singleton 2 (3, 0),
    .singleton 5 (5, 8), .singleton 5 (5, 9), .resolve 1 [], .sealing, .transient 1 4, .singleton 5 (5, 1), .sealing]

/-! ## C54 -/

/-- **C54.** On a sealed locator every registration and every further `seal()` raises `ValueError`,
and the locator stays as it is, until `clearConfigurations` is called. -/
theorem C54_sealed (hE : FactoriesRespectSeal E) (n : Nat) (ops : List (LOp T V F)) :
    ∀ s : LState T V F W, s.loc.sealed = true → (∀ op ∈ ops, op ≠ .clear) →
      (final E n s ops).loc = s.loc ∧
      ∀ e ∈ events E n s ops,
        (∀ t v, e.1 = .singleton t v → e.2 = .error .valueError) ∧
        (∀ t f, e.1 = .transient t f → e.2 = .error .valueError) ∧
        (e.1 = .sealing → e.2 = .error .valueError) := by
  induction ops with
  | nil => intro s _ _; exact ⟨rfl, by intro e he; cases he⟩
  | cons op ops ih =>
    intro s hs hc
    have hloc : (step E n s op).2.loc = s.loc := by
      cases op with
      | singleton t v => simp [step, registerAsSingleton_run, hs]
      | transient t f => simp [step, registerAsTransient_run, hs]
      | resolve t kw => exact tryResolve_keep (P := fun l => l.sealed = true) hE n t kw s hs
      | sealing => simp [step, sealLocator_run, hs]
      | isSealed => rfl
      | clear => exact absurd rfl (hc _ List.mem_cons_self)
    obtain ⟨h1, h2⟩ := ih (step E n s op).2 (by rw [hloc]; exact hs)
      (fun o ho => hc o (List.mem_cons_of_mem _ ho))
    refine ⟨h1.trans hloc, fun e he => ?_⟩
    rcases List.mem_cons.1 he with rfl | he
    · refine ⟨?_, ?_, ?_⟩
      · rintro t v rfl; simp [step, registerAsSingleton_run, hs, answer]
      · rintro t f rfl; simp [step, registerAsTransient_run, hs, answer]
      · rintro rfl; simp [step, sealLocator_run, hs, answer]
    · exact h2 e he

/-- **C54.** `seal()` on an unsealed locator seals it, and keeps all registrations. -/
theorem C54_seal (s : LState T V F W) (h : s.loc.sealed = false) :
    (sealLocator s).1 = .ok () ∧ (sealLocator s).2.loc.sealed = true ∧
      (sealLocator s).2.loc.transient = s.loc.transient ∧
      (sealLocator s).2.loc.singleton = s.loc.singleton := by
  simp [sealLocator_run, h]

/-- **C54.** After `clearConfigurations` registrations are possible again. -/
theorem C54_clear_unseals (E : LEnv T V F W) (s : LState T V F W) (t : T) (f : F) (v : V) :
    let s' := (clearConfigurations s).2
    s'.loc = Locator.empty ∧ (registerAsTransient t f s').1 = .ok () ∧ (sealLocator s').1 = .ok () ∧
      (E.isInst v t = true → (registerAsSingleton E t v s').1 = .ok ()) := by
  refine ⟨rfl, rfl, rfl, fun h => ?_⟩
  rw [registerAsSingleton_run]
  show (if false = true then _ else _ : Except Err Unit × LState T V F W).1 = _
  simp [h]

example : FactoriesRespectSeal locEnv := fun f a s _ => locEnv_keep f a s
example : (final locEnv 9 locStart locOps).loc.sealed = true := by decide +kernel
/-- the calls after the first seal in the example fail -/
example : ((events locEnv 9 locStart locOps).drop 9).map (fun e => e.2.isOk) =
    [true, false, false, false] := by decide +kernel

/-! ## C55 -/

/-- **C55.** A service with a singleton registration in force resolves to the instance registered
last, whatever else is registered and whatever keyword arguments are given. -/
theorem C55_singleton (hE : FactoriesKeep E) (n : Nat) (s : LState T V F W) (ops : List (LOp T V F))
    (t : T) (v : V) (h : InForceSingleton (events E n s ops) t v) (m : Nat) (kw : Dict String V) :
    tryResolve E (m + 1) t kw (final E n s ops) = (.ok v, final E n s ops) := by
  obtain ⟨hi, hg⟩ := inForceSingleton_get (hE := hE) h
  have hf : found E (final E n s ops).loc t = v := by unfold found; rw [hg]; rfl
  rw [tryResolve_found E (by rw [hf]; exact hi), hf]

/-- **C55.** Without singleton, a service resolves through the factory registered last: what is
returned was returned by that factory. -/
theorem C55_transient (hE : FactoriesKeep E) (n : Nat) (s : LState T V F W) (hs : s.loc = Locator.empty)
    (ops : List (LOp T V F)) (t : T) (hn : E.isInst E.none t = false) (f : F)
    (h0 : NoSingleton (events E n s ops) t) (h : InForceTransient (events E n s ops) t f)
    (m : Nat) (kw : Dict String V) (v : V) (s' : LState T V F W)
    (hr : tryResolve E m t kw (final E n s ops) = (.ok v, s')) :
    ∃ args s1, E.call f args s1 = (.ok v, s') ∧ s1.loc = (final E n s ops).loc ∧
      args.map Prod.fst = (E.sig f).map Param.name := by
  rcases m with _ | m
  · cases hr
  have hg := inForceTransient_get (hE := hE) h
  have hg0 := noSingleton_get (hE := hE) hs h0
  have hi : E.isInst (found E (final E n s ops).loc t) t = false := by
    unfold found; rw [hg0]; exact hn
  rw [tryResolve_some E hi hg] at hr
  unfold build at hr
  rw [Py.bind_run] at hr
  have hkeep := collect_keep (P := fun _ => True)
    (fun t s _ => tryResolve_keep (P := fun _ => True) (fun f a s _ => hE f a s) m t [] s trivial)
    kw (E.sig f) (final E n s ops) trivial
  rcases he : collect (fun t' => tryResolve E m t' []) kw (E.sig f) (final E n s ops) with ⟨e | args, s1⟩
  · rw [he] at hr; cases hr
  · rw [he] at hr hkeep; dsimp only at hr hkeep
    rw [Py.bind_run] at hr
    rcases he2 : E.call f args s1 with ⟨e | v', s2⟩
    · rw [he2] at hr; cases hr
    · rw [he2] at hr; dsimp only at hr
      obtain ⟨rfl, -, rfl⟩ := checked_ok E hr
      refine ⟨args, s1, he2, hkeep, ?_⟩
      have aux : ∀ (ps : List (Param T V)) (s : LState T V F W) (args : List (String × V)) (s' : LState T V F W),
          collect (fun t' => tryResolve E m t' []) kw ps s = (.ok args, s') →
          args.map Prod.fst = ps.map Param.name := by
        intro ps
        induction ps with
        | nil => intro s args s' h; injection h with h1; injection h1 with h1; subst h1; rfl
        | cons p ps ih =>
          intro s args s' h
          unfold collect at h
          rw [Py.bind_run] at h
          rcases he : supply (fun t' => tryResolve E m t' []) kw p s with ⟨e | v, s1⟩
          · rw [he] at h; cases h
          · rw [he] at h; dsimp only at h
            rw [Py.bind_run] at h
            rcases he2 : collect (fun t' => tryResolve E m t' []) kw ps s1 with ⟨e | rest, s2⟩
            · rw [he2] at h; cases h
            · rw [he2] at h; dsimp only at h
              injection h with h1; injection h1 with h1; subst h1
              simp [ih _ _ _ he2]
      exact aux _ _ _ _ he

/-- **C55.** A service that is not registered raises `InvalidServiceConfiguration`, with no effect. -/
theorem C55_unregistered (hE : FactoriesKeep E) (n : Nat) (s : LState T V F W) (hs : s.loc = Locator.empty)
    (ops : List (LOp T V F)) (t : T) (hn : E.isInst E.none t = false)
    (h0 : NoSingleton (events E n s ops) t) (h1 : NoTransient (events E n s ops) t)
    (m : Nat) (kw : Dict String V) :
    tryResolve E (m + 1) t kw (final E n s ops) = (.error .invalidService, final E n s ops) := by
  have hg0 := noSingleton_get (hE := hE) hs h0
  exact tryResolve_none E (by unfold found; rw [hg0]; exact hn) (noTransient_get (hE := hE) hs h1) m kw

/-- **C55.** Whatever `tryResolve(T)` returns is an instance of `T`, in every state, also of factories
with arbitrary side effects. -/
theorem C55_type_safe (n : Nat) (t : T) (kw : Dict String V) (s s' : LState T V F W) (v : V)
    (h : tryResolve E n t kw s = (.ok v, s')) : E.isInst v t = true :=
  tryResolve_typed n t kw s s' v h

/-- **C55.** A factory that returns an object of the wrong type makes the resolution raise
`InvalidServiceConfiguration`; an exception of the factory is passed on. -/
theorem C55_factory_failure (s : LState T V F W) (t : T) (f : F)
    (h0 : s.loc.singleton.get? t = none) (hn : E.isInst E.none t = false)
    (hf : s.loc.transient.get? t = some f) (hsig : E.sig f = []) (m : Nat) (kw : Dict String V) :
    (∀ v s', E.call f [] s = (.ok v, s') → E.isInst v t = false →
      tryResolve E (m + 1) t kw s = (.error .invalidService, s')) ∧
    (∀ e s', E.call f [] s = (.error e, s') → tryResolve E (m + 1) t kw s = (.error e, s')) := by
  have hi : E.isInst (found E s.loc t) t = false := by unfold found; rw [h0]; exact hn
  have hc : collect (fun t' => tryResolve E m t' []) kw (E.sig f) s = (.ok [], s) := by rw [hsig]; rfl
  constructor
  · intro v s' h hv
    rw [tryResolve_some E hi hf]
    unfold build
    rw [Py.bind_ok hc, Py.bind_ok h]
    unfold checked; rw [if_neg (by simp [hv])]; rfl
  · intro e s' h
    rw [tryResolve_some E hi hf]
    unfold build
    rw [Py.bind_ok hc, Py.bind_error h]

/-- **C55, counterexample.** For a type of which `None` is an instance (`object`), `tryResolve`
returns `None` although a factory is registered, or although nothing is registered at all. -/
theorem C55_counterexample :
    (tryResolve locEnv 9 7 [] locStart).1 = .ok locEnv.none ∧
    (tryResolve locEnv 9 7 [] (final locEnv 9 locStart [.transient 7 0])).1 = .ok locEnv.none ∧
    InForceTransient (events locEnv 9 locStart [.transient 7 0]) 7 0 := by
  refine ⟨by rfl, by rfl, _, [], [], .ok none, ⟨?_, .inl rfl⟩, rfl, rfl, ?_⟩
  · intro e he; simp [events] at he; subst he; simp
  · intro e he; cases he

/-- in the example history, the singleton for 5 is the second one registered, and the factory for 1 the
second one, although later registrations were attempted -/
example : InForceSingleton (events locEnv 9 locStart locOps) 5 (5, 9) ∧
    InForceTransient (events locEnv 9 locStart locOps) 1 1 ∧
    NoSingleton (events locEnv 9 locStart locOps) 1 := by
  have hsc : SinceClear (events locEnv 9 locStart locOps) ((events locEnv 9 locStart locOps).drop 2) := by
    refine ⟨?_, .inr ⟨(events locEnv 9 locStart locOps).take 1, .ok none, rfl⟩⟩
    intro e he
    simp [locOps, events] at he
    rcases he with rfl | rfl | rfl | rfl | rfl | rfl | rfl | rfl | rfl | rfl | rfl <;> simp
  refine ⟨⟨_, ((events locEnv 9 locStart locOps).drop 2).take 5, (events locEnv 9 locStart locOps).drop 8,
      .ok none, hsc, rfl, rfl, ?_⟩,
    ⟨_, ((events locEnv 9 locStart locOps).drop 2).take 2, (events locEnv 9 locStart locOps).drop 5,
      .ok none, hsc, rfl, rfl, ?_⟩, ⟨_, hsc, ?_⟩⟩
  · intro e he
    simp only [locOps, events, List.drop_succ_cons, List.drop_zero, List.mem_cons, List.not_mem_nil, or_false] at he
    rcases he with rfl | rfl | rfl | rfl | rfl <;> rintro ⟨v, h1, h2⟩ <;>
      first | cases h1 | skip
    cases h2
  · intro e he
    simp only [locOps, events, List.drop_succ_cons, List.drop_zero, List.mem_cons, List.not_mem_nil, or_false] at he
    rcases he with rfl | rfl | rfl | rfl | rfl | rfl | rfl | rfl <;> rintro ⟨v, h1, h2⟩ <;>
      first | cases h1 | skip
    cases h2
  · intro e he
    simp only [locOps, events, List.drop_succ_cons, List.drop_zero, List.mem_cons, List.not_mem_nil, or_false] at he
    rcases he with rfl | rfl | rfl | rfl | rfl | rfl | rfl | rfl | rfl | rfl | rfl <;>
      rintro ⟨v, h1, h2⟩ <;> cases h1

/-- … and the algorithm is built from a fresh settings object (payload: the counter, 6 by now) and the
default 50 -/
example : (tryResolve locEnv 9 1 [("unused", (8, 8))] (final locEnv 9 locStart locOps)).1 = .ok (1, 56) := by
  decide +kernel

/-! ## C56 -/

/-- **C56.** Exactly how a service without singleton resolves through its factory `f`.  Either every
parameter received its argument — the keyword argument of that name, else the default, else the
service resolved for the annotation — and the factory was called with exactly these; or the first
parameter for which there is none failed, and the factory was not called. -/
theorem C56_arguments (s s' : LState T V F W) (t : T) (f : F) (kw : Dict String V) (hkw : kw.WF)
    (h0 : s.loc.singleton.get? t = none) (hn : E.isInst E.none t = false)
    (hf : s.loc.transient.get? t = some f) (m : Nat) (r : Except Err V)
    (h : tryResolve E (m + 1) t kw s = (r, s')) :
    let resolves := fun s t v s' => tryResolve E m t [] s = (.ok v, s')
    (∃ args s1, SuppliedAll E kw resolves s (E.sig f) args s1 ∧
      ((∃ v, E.call f args s1 = (.ok v, s') ∧ r = if E.isInst v t then .ok v else .error .invalidService) ∨
        ∃ e, E.call f args s1 = (.error e, s') ∧ r = .error e)) ∨
    (∃ ps1 p ps2 args s1 e, E.sig f = ps1 ++ p :: ps2 ∧ SuppliedAll E kw resolves s ps1 args s1 ∧
        (∀ v, (p.name, v) ∉ kw) ∧ p.default = none ∧ r = .error e ∧
        ((p.annotation = none ∧ e = .typeError) ∨
          ∃ t', p.annotation = some t' ∧ tryResolve E m t' [] s1 = (.error e, s'))) := by
  have hi : E.isInst (found E s.loc t) t = false := by unfold found; rw [h0]; exact hn
  rw [tryResolve_some E hi hf] at h
  exact build_cases hkw h

/-- **C56.** Keyword arguments that are not parameters of the factory are ignored: two sets of keyword
arguments which agree on the parameters give the same result. -/
theorem C56_surplus_ignored (s : LState T V F W) (t : T) (kw kw' : Dict String V)
    (h : ∀ f, s.loc.transient.get? t = some f → ∀ p ∈ E.sig f, kw.get? p.name = kw'.get? p.name) (m : Nat) :
    tryResolve E m t kw s = tryResolve E m t kw' s := by
  rcases m with _ | m
  · rfl
  by_cases hi : E.isInst (found E s.loc t) t = true
  · rw [tryResolve_found E hi, tryResolve_found E hi]
  · rw [Bool.not_eq_true] at hi
    rcases hf : s.loc.transient.get? t with _ | f
    · rw [tryResolve_none E hi hf, tryResolve_none E hi hf]
    · rw [tryResolve_some E hi hf, tryResolve_some E hi hf]
      unfold build
      rw [collect_congr _ _ (h f hf)]

/-- kwargs beat defaults and services; the annotation of `n` need not be a service -/
example : (tryResolve locEnv 9 1 [("n", (50, 7)), ("x", (1, 1))] (final locEnv 9 locStart locOps)).1 = .ok (1, 13) ∧
    (tryResolve locEnv 9 1 [("settings", (0, 100))] (final locEnv 9 locStart locOps)).1 = .ok (1, 150) := by
  decide +kernel

/-! ## C57 -/

/-- **C57.** Resolving a service leaves all registrations and the seal as they are (for factories that
do not themselves register services). -/
theorem C57_resolve_keeps (hE : FactoriesKeep E) (n : Nat) (t : T) (kw : Dict String V) (s : LState T V F W) :
    (tryResolve E n t kw s).2.loc = s.loc :=
  tryResolve_keep (P := fun _ => True) (fun f a s _ => hE f a s) n t kw s trivial

/-- **C57.** Resolving a singleton or an unknown service has no effect at all, whatever factories do. -/
theorem C57_resolve_pure (n : Nat) (t : T) (kw : Dict String V) (s : LState T V F W)
    (h : s.loc.transient.get? t = none ∨ ∃ v, s.loc.singleton.get? t = some v ∧ E.isInst v t = true) :
    (tryResolve E n t kw s).2 = s := by
  rcases n with _ | n
  · rfl
  by_cases hi : E.isInst (found E s.loc t) t = true
  · rw [tryResolve_found E hi]
  · rw [Bool.not_eq_true] at hi
    rcases h with h | ⟨v, hv, hvi⟩
    · rw [tryResolve_none E hi h]
    · unfold found at hi; rw [hv] at hi; simp [hvi] at hi

/-- **C57.** A registration or a seal that raises leaves the whole state unchanged. -/
theorem C57_failed_registration (n : Nat) (op : LOp T V F)
    (hop : ∀ t kw, op ≠ .resolve t kw) (s : LState T V F W) (h : (step E n s op).1.isOk = false) :
    (step E n s op).2 = s := by
  cases op with
  | singleton t v =>
    simp only [step, registerAsSingleton_run] at h ⊢
    split
    · rfl
    · rename_i h1
      split
      · rename_i h2; rw [if_neg h1, if_pos h2] at h; cases h
      · rfl
  | transient t f =>
    simp only [step, registerAsTransient_run] at h ⊢
    split
    · rfl
    · rename_i h1; rw [if_neg h1] at h; cases h
  | resolve t kw => exact absurd rfl (hop t kw)
  | sealing =>
    simp only [step, sealLocator_run] at h ⊢
    split
    · rfl
    · rename_i h1; rw [if_neg h1] at h; cases h
  | isSealed => rfl
  | clear => cases h

/-- **C57.** Registering one service leaves every other service alone. -/
theorem C57_registration_local (s : LState T V F W) (t t' : T) (ht : t ≠ t') (f : F) (v : V) :
    let s1 := (registerAsTransient t f s).2
    let s2 := (registerAsSingleton E t v s).2
    s1.loc.singleton = s.loc.singleton ∧ s1.loc.transient.get? t' = s.loc.transient.get? t' ∧
    s2.loc.transient = s.loc.transient ∧ s2.loc.singleton.get? t' = s.loc.singleton.get? t' ∧
    s1.world = s.world ∧ s2.world = s.world := by
  simp only [registerAsTransient_run, registerAsSingleton_run]
  by_cases h : s.loc.sealed = true
  · simp [h]
  · by_cases hi : E.isInst v t = true
    · simp [h, hi, Dict.get?_set, ht]
    · simp [h, hi, Dict.get?_set, ht]

example : ((events locEnv 9 locStart locOps).map (fun e => e.2.isOk)) =
    [true, true, true, true, true, false, true, true, true, true, false, false, false] := by decide +kernel

/-! ## C58 -/

/-- **C58.** If no service requires itself, directly or through others, then every resolution
terminates: some recursion depth suffices for all keyword arguments and all states of the rest of the
program, in that the result is the same for all larger bounds, and is not `RecursionError` (unless a
factory itself raises it). -/
theorem C58_terminates (hE : FactoriesKeep E) (l : Locator T V F)
    (hacyclic : ∀ t, ¬ Relation.TransGen (Requires E l) t t) (t : T) :
    ∃ N, ∀ m, N ≤ m → ∀ (kw : Dict String V) (s : LState T V F W), s.loc = l →
      tryResolve E m t kw s = tryResolve E N t kw s ∧
      ((∀ f args s, (E.call f args s).1 ≠ .error .recursionError) →
        (tryResolve E m t kw s).1 ≠ .error .recursionError) := by
  have hacc := acc_of_acyclic (E := E) hacyclic t
  obtain ⟨N, hN⟩ := tryResolve_stable hE hacc
  by_cases hC : ∀ f args s, (E.call f args s).1 ≠ .error .recursionError
  · obtain ⟨M, hM⟩ := tryResolve_noRec hE hC hacc
    refine ⟨max N M, fun m hm kw s hs => ⟨?_, fun _ => hM m (by omega) kw s hs⟩⟩
    rw [hN m (by omega) kw s hs, hN (max N M) (by omega) kw s hs]
  · exact ⟨N, fun m hm kw s hs => ⟨hN m hm kw s hs, fun h => absurd h hC⟩⟩

/-- **C58.** Services that require each other in a circle are never resolved, whatever the recursion
limit. -/
theorem C58_circle_never_resolves (hE : FactoriesKeep E) (l : Locator T V F) (S : T → Prop)
    (hS : ∀ t, S t → E.isInst E.none t = false ∧ ∃ t', S t' ∧ Requires E l t t')
    (t : T) (ht : S t) (n : Nat) (s s' : LState T V F W) (hs : s.loc = l) (v : V) :
    tryResolve E n t [] s ≠ (.ok v, s') :=
  tryResolve_never hE hS n t ht s s' v hs

/-- **C58.** If moreover the parameters before the circular one have defaults then the resolution
recurses forever: for every recursion limit it ends in `RecursionError`. -/
theorem C58_circle_recurses (l : Locator T V F) (S : T → Prop)
    (hS : ∀ t, S t → E.isInst E.none t = false ∧
      (∀ v, l.singleton.get? t = some v → E.isInst v t = false) ∧
      ∃ f ps1 p ps2 t', l.transient.get? t = some f ∧ E.sig f = ps1 ++ p :: ps2 ∧
        (∀ q ∈ ps1, q.default ≠ none) ∧ p.default = none ∧ p.annotation = some t' ∧ S t')
    (t : T) (ht : S t) (n : Nat) (s : LState T V F W) (hs : s.loc = l) :
    tryResolve E n t [] s = (.error .recursionError, s) :=
  tryResolve_recursion hS n t ht s hs

/-- the example history has no circles … -/
example : ∀ t, ¬ Relation.TransGen (Requires locEnv (final locEnv 9 locStart locOps).loc) t t := by
  have key : ∀ a b, Requires locEnv (final locEnv 9 locStart locOps).loc a b → b < a := by
    rintro a b ⟨-, f, p, hf, hp, hd, ha⟩
    have hmem := Dict.mem_of_get? hf
    have : (final locEnv 9 locStart locOps).loc.transient = [(0, 0), (1, 1)] := by decide +kernel
    rw [this] at hmem
    simp at hmem
    rcases hmem with ⟨rfl, rfl⟩ | ⟨rfl, rfl⟩
    · simp [locEnv] at hp
    · simp [locEnv] at hp
      rcases hp with rfl | rfl
      · simp at ha; omega
      · simp at hd
  intro t h
  have : ∀ a b, Relation.TransGen (Requires locEnv (final locEnv 9 locStart locOps).loc) a b → b < a := by
    intro a b h
    induction h with
    | single h => exact key _ _ h
    | tail _ h ih => exact (key _ _ h).trans ih
  exact absurd (this t t h) (by omega)

/-- … and registering the factories 2 and 3 for each other's services makes one -/
example (n : Nat) (w : Nat) : tryResolve locEnv n 2 [] ⟨⟨[(2, 2), (3, 3)], [], false⟩, w⟩ =
    (.error .recursionError, ⟨⟨[(2, 2), (3, 3)], [], false⟩, w⟩) := by
  refine C58_circle_recurses (E := locEnv) ⟨[(2, 2), (3, 3)], [], false⟩ (fun t => t = 2 ∨ t = 3) ?_ 2
    (.inl rfl) n _ rfl
  rintro t (rfl | rfl)
  · exact ⟨rfl, by simp, 2, [], _, [], 3, rfl, rfl, by simp, rfl, rfl, .inr rfl⟩
  · exact ⟨rfl, by simp, 3, [⟨"k", some (50, 1), some 50⟩], _, [], 2, rfl, rfl, by simp, rfl, rfl, .inl rfl⟩

end PyZeal.Props
