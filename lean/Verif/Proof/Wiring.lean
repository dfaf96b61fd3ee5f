import Verif.Spec.Wiring
import Verif.Proof.Locator

/-! # Proofs about the construction of finders through the locator -/

set_option linter.unusedSectionVars false

namespace PyZeal.Wiring
open Spec Locator
variable {α W : Type} {E : Env α W}

/-- a computation that leaves the locator alone -/
def Keeps {β : Type} (m : Py (State α W) β) : Prop := ∀ s, (m s).2.loc = s.loc

theorem Keeps.bind {β γ : Type} {m : Py (State α W) β} {k : β → Py (State α W) γ} (hm : Keeps m) (hk : ∀ b, Keeps (k b)) :
    Keeps (m >>= k) := by
  intro s
  rw [Py.bind_run]
  have h1 := hm s
  rcases he : m s with ⟨e | b, s1⟩
  · rw [he] at h1; exact h1
  · rw [he] at h1
    dsimp only at h1 ⊢
    rw [hk b s1, h1]

theorem Keeps.pure {β : Type} (b : β) : Keeps (Pure.pure b : Py (State α W) β) := fun _ => rfl
theorem Keeps.throw {β : Type} (e : Err) : Keeps (Py.throw e : Py (State α W) β) := fun _ => rfl
theorem Keeps.get : Keeps (Py.get : Py (State α W) (State α W)) := fun _ => rfl
theorem Keeps.outside {β : Type} (m : Py W β) : Keeps (Wiring.outside m : Py (State α W) β) := fun _ => rfl
theorem Keeps.mark (c : LoggerOwner) : Keeps (markLogger c : Py (State α W) Unit) := fun _ => rfl
theorem Keeps.read (o : Obj α) : Keeps (readAttributes E o : Py (State α W) Defaults) := fun _ => rfl

variable {R : resolver α W}

theorem settingsOf_keeps (h : ∀ t kw, Keeps (R t kw)) : Keeps (settingsOf E R) :=
  (h _ _).bind fun _ => .read _
theorem objectLogger_keeps (h : ∀ t kw, Keeps (R t kw)) : Keeps (objectLogger E R) :=
  (h _ _).bind fun _ => .outside _
theorem classLogger_keeps (h : ∀ t kw, Keeps (R t kw)) (c : LoggerOwner) : Keeps (classLogger E R c) := by
  refine Keeps.get.bind fun s => ?_
  split
  · exact .pure _
  · exact (objectLogger_keeps h).bind fun _ => .mark _
theorem argumentInit_keeps (h : ∀ t kw, Keeps (R t kw)) (k : ArgKind) (o : Obj α) : Keeps (argumentInit E R k o) :=
  (objectLogger_keeps h).bind fun _ => (h _ _).bind fun _ => (objectLogger_keeps h).bind fun _ => .pure _
theorem gridInit_keeps (h : ∀ t kw, Keeps (R t kw)) (n : Int) : Keeps (gridInit E R n) :=
  (objectLogger_keeps h).bind fun _ => .pure _
theorem precisionOr_keeps (h : ∀ t kw, Keeps (R t kw)) (p : Option (Int × Int)) : Keeps (precisionOr E R p) := by
  cases p with
  | some p => exact .pure _
  | none => exact (settingsOf_keeps h).bind fun _ => .pure _
theorem verboseOr_keeps (h : ∀ t kw, Keeps (R t kw)) (v : Option Bool) : Keeps (verboseOr E R v) := by
  cases v with
  | some p => exact .pure _
  | none => exact (h _ _).bind fun _ => (Keeps.read _).bind fun _ => .pure _
theorem algorithmCall_keeps (h : ∀ t kw, Keeps (R t kw)) {again} (ha : ∀ a, Keeps (again a)) (args : List (String × Obj α)) :
    Keeps (algorithmCall E R again args) := by
  refine (classLogger_keeps h _).bind fun _ => ?_
  split
  · exact gridInit_keeps h _
  · exact argumentInit_keeps h _ _
  · exact argumentInit_keeps h _ _
  · exact argumentInit_keeps h _ _
  · exact (settingsOf_keeps h).bind fun _ => ha _
theorem containerCall_keeps (h : ∀ t kw, Keeps (R t kw)) {again} (ha : ∀ a, Keeps (again a)) (args : List (String × Obj α)) :
    Keeps (containerCall E R again args) := by
  refine (classLogger_keeps h _).bind fun _ => ?_
  split
  · exact (precisionOr_keeps h _).bind fun _ => (objectLogger_keeps h).bind fun _ => .pure _
  · exact (objectLogger_keeps h).bind fun _ => .pure _
  · exact (settingsOf_keeps h).bind fun _ => ha _
theorem estimatorCall_keeps (h : ∀ t kw, Keeps (R t kw)) {again} (ha : ∀ a, Keeps (again a)) (args : List (String × Obj α)) :
    Keeps (estimatorCall E R again args) := by
  refine (classLogger_keeps h _).bind fun _ => ?_
  split
  · split
    · exact (objectLogger_keeps h).bind fun _ => .pure _
    · exact .throw _
  · exact .pure _
  · exact (settingsOf_keeps h).bind fun _ => ha _

theorem call_keeps (hE : ForeignKeep E) (n : Nat) : ∀ f args, Keeps (call E n f args) := by
  induction n with
  | zero => intro f args; exact .throw _
  | succ n ih =>
    have hr : ∀ t kw, Keeps (resolve E n t kw) := fun t kw s =>
      tryResolve_keep (P := fun _ => True) (fun f a s _ => ih f a s) (n + 1) t kw s trivial
    intro f args
    cases f with
    | settings => exact (Keeps.outside _).bind fun _ => .pure _
    | algorithm => exact algorithmCall_keeps hr (ih _) args
    | container => exact containerCall_keeps hr (ih _) args
    | estimator => exact estimatorCall_keeps hr (ih _) args
    | controller => exact .pure _
    | testHandler => exact .pure _
    | foreign k => exact fun s => hE k args s

theorem resolve_keeps (hE : ForeignKeep E) (n : Nat) (t : Svc) (kw : Dict String (Obj α)) : Keeps (resolve E n t kw) := fun s =>
  tryResolve_keep (P := fun _ => True) (fun f a s _ => call_keeps hE n f a s) (n + 1) t kw s trivial

theorem isInst_iff {o : Obj α} {t : Svc} : isInst o t = true ↔ IsA o t := by
  constructor
  · intro h
    cases o <;> first
      | exact absurd h Bool.false_ne_true
      | (have := eq_of_beq h; subst this; constructor)
      | exact .foreign _ (List.contains_iff_mem.1 h)
  · intro h
    cases h with
    | foreign n h => exact List.contains_iff_mem.2 h
    | _ => rfl
theorem isInst_false {o : Obj α} {t : Svc} (h : ¬ IsA o t) : isInst o t = false :=
  Bool.eq_false_iff.2 fun hi => h (isInst_iff.1 hi)
theorem attributes_iff {o : Obj α} {d : Defaults} : attributesOf E o = .ok d ↔ HasAttributes E o d := by
  constructor
  · intro h
    cases o <;> first
      | exact .foreign _ _ h
      | (injection h with h; subst h; constructor)
      | exact absurd h nofun
  · intro h
    cases h with
    | settings => rfl
    | foreign n ts h => exact h
theorem isInst_none (t : Svc) : isInst (Obj.none : Obj α) t = false := rfl

theorem notFound {n : Nat} {s : State α W} {t : Svc} (h : s.loc.singleton.get? t = none) :
    (env E n).isInst (found (env E n) s.loc t) t = false := by
  unfold found; rw [h]; rfl

/-- what the locator returns, it delivers -/
theorem resolve_delivered {n : Nat} {t : Svc} {kw : Dict String (Obj α)} (hkw : kw.WF) {s s' : State α W} {o : Obj α}
    (h : resolve E n t kw s = (.ok o, s')) : Delivered E n s t kw o s' ∧ IsA o t := by
  refine ⟨?_, isInst_iff.1 (tryResolve_typed _ _ _ _ _ _ h)⟩
  unfold resolve at h
  by_cases hi : (env E n).isInst (found (env E n) s.loc t) t = true
  · rw [tryResolve_found _ hi] at h
    injection h with h1 h2; injection h1 with h1
    refine .singleton ?_ h2.symm
    unfold found at hi h1
    cases hg : s.loc.singleton.get? t with
    | none => rw [hg] at hi; exact absurd hi (by simp [env, lenv, isInst_none])
    | some v => rw [hg] at h1; rw [← h1]; rfl
  · rw [Bool.not_eq_true] at hi
    rcases hf : s.loc.transient.get? t with _ | f
    · rw [tryResolve_none _ hi hf] at h; cases h
    · rw [tryResolve_some _ hi hf] at h
      rcases build_cases hkw h with ⟨args, s1, h1, ⟨v, h2, h3⟩ | ⟨e, h2, h3⟩⟩ | ⟨_, _, _, _, _, e, _, _, _, _, h3, _⟩
      · split at h3
        · injection h3 with h3; subst h3
          exact .factory f args s1 hf h1 h2
        · cases h3
      · cases h3
      · cases h3


/-- in every state satisfying `P` the computation returns `b`, and `P` holds again -/
def Ok {β : Type} (P : State α W → Prop) (m : Py (State α W) β) (b : β) : Prop := ∀ s, P s → ∃ s', m s = (.ok b, s') ∧ P s'

variable {P : State α W → Prop} {d : Defaults}

theorem Ok.bind {β γ : Type} {m : Py (State α W) β} {k : β → Py (State α W) γ} {b : β} {c : γ} (hm : Ok P m b) (hk : Ok P (k b) c) :
    Ok P (m >>= k) c := by
  intro s hs
  obtain ⟨s1, h1, hs1⟩ := hm s hs
  obtain ⟨s2, h2, hs2⟩ := hk s1 hs1
  exact ⟨s2, by rw [Py.bind_run, h1]; exact h2, hs2⟩

theorem Ok.pure {β : Type} (b : β) : Ok P (Pure.pure b : Py (State α W) β) b := fun s hs => ⟨s, rfl, hs⟩

theorem settings_ok (hS : SettingsSay E P d) (n : Nat) : Ok P (settingsOf E (resolve E (n + 1))) d := by
  intro s hs
  obtain ⟨o, s', h1, h2, h3, _⟩ := hS.settings n [] s hs
  refine ⟨s', ?_, h2⟩
  unfold settingsOf
  rw [Py.bind_run, h1]
  show (attributesOf E o, s') = _
  rw [attributes_iff.2 h3]

theorem logger_ok (hS : SettingsSay E P d) (n : Nat) : Ok P (objectLogger E (resolve E (n + 1))) () := by
  intro s hs
  obtain ⟨o, s', h1, h2, h3, s'', h4, h5⟩ := hS.settings n [] s hs
  refine ⟨s'', ?_, h5⟩
  unfold objectLogger
  rw [Py.bind_run, h1]
  exact h4

theorem mark_ok (hS : SettingsSay E P d) (c : LoggerOwner) : Ok P (markLogger c) () := fun s hs => ⟨_, rfl, hS.marks c s hs⟩

theorem classLogger_ok (hS : SettingsSay E P d) (n : Nat) (c : LoggerOwner) : Ok P (classLogger E (resolve E (n + 1)) c) () := by
  intro s hs
  unfold classLogger
  rw [Py.bind_run]
  show ∃ s', (if c ∈ s.world.loggers then Pure.pure () else _ : Py (State α W) Unit) s = _ ∧ _
  split
  · exact ⟨s, rfl, hs⟩
  · exact (logger_ok hS n).bind (mark_ok hS c) s hs

theorem precision_ok (hS : SettingsSay E P d) (n : Nat) (p : Option (Int × Int)) :
    Ok P (precisionOr E (resolve E (n + 1)) p) (p.getD d.precision) := by
  cases p with
  | some p => exact .pure _
  | none => exact (settings_ok hS n).bind (.pure _)

/-- the second half of `verboseOr` -/
def verboseRead (E : Env α W) (o : Obj α) : Py (State α W) Bool := do
  let d ← readAttributes E o
  pure d.verbose

theorem verbose_ok (hS : SettingsSay E P d) (n : Nat) (v : Option Bool) :
    Ok P (verboseOr E (resolve E (n + 1)) v) (v.getD d.verbose) := by
  cases v with
  | some p => exact .pure _
  | none =>
    intro s hs
    obtain ⟨o, s', h1, h2, h3, _⟩ := hS.settings n [("settingsType", .settingsType .DEFAULT)] s hs
    refine ⟨s', ?_, h2⟩
    show (resolve E (n + 1) .settings [("settingsType", .settingsType .DEFAULT)] >>= verboseRead E) s = _
    rw [Py.bind_run, h1]
    show (readAttributes E o >>= fun d => (Pure.pure d.verbose : Py (State α W) Bool)) s' = _
    rw [Py.bind_run, show readAttributes E o s' = (.ok d, s') from congrArg (fun x => (x, s')) (attributes_iff.2 h3)]
    rfl

/-- resolution through a factory all of whose arguments are there -/
theorem provided_ok {t : Svc} {f : Fac} (hp : ProvidedBy P t f) {n : Nat} {kw : Dict String (Obj α)} {args : List (String × Obj α)}
    (ha : ∀ (r : Svc → Py (State α W) (Obj α)) s, collect r kw (sig E f) s = (.ok args, s)) {o : Obj α} (hc : Ok P (call E n f args) o) (ho : isInst o t = true) :
    Ok P (resolve E n t kw) o := by
  intro s hs
  obtain ⟨h1, h2⟩ := hp s hs
  obtain ⟨s', h3, h4⟩ := hc s hs
  refine ⟨s', ?_, h4⟩
  unfold resolve
  rw [tryResolve_some _ (notFound h1) h2]
  unfold build
  rw [Py.bind_run]
  rw [show (env E n).sig f = sig E f from rfl, ha]
  dsimp only
  rw [Py.bind_run, show (env E n).call f args s = (.ok o, s') from h3]
  dsimp only
  unfold checked
  rw [if_pos (show (env E n).isInst o t = true from ho)]
  rfl

theorem call_estimator (n : Nat) (args : List (String × Obj α)) :
    call E (n + 1) .estimator args = estimatorCall E (resolve E n) (call E n .estimator) args := rfl
theorem call_algorithm (n : Nat) (args : List (String × Obj α)) :
    call E (n + 1) .algorithm args = algorithmCall E (resolve E n) (call E n .algorithm) args := rfl
theorem call_container (n : Nat) (args : List (String × Obj α)) :
    call E (n + 1) .container args = containerCall E (resolve E n) (call E n .container) args := rfl

/-- the estimator service of the package -/
theorem estimator_call_ok (hS : SettingsSay E P d) (hd : d.estimator ≠ .DEFAULT) (n : Nat) (et : EstimatorTypes) :
    Ok P (call E (n + 3) .estimator [("estimatorType", .estimatorType et), ("cache", .cache), ("numPts", .int 6500), ("deltaPhi", .num E.constants.deltaPhi), ("maxPrecision", .num E.constants.maxPrecision)])
      (stockEstimator E.constants (if et = .DEFAULT then d.estimator else et)) := by
  have explicit : ∀ n args (et : EstimatorTypes), et ≠ .DEFAULT → arg args "estimatorType" = .estimatorType et → arg args "numPts" = .int 6500 →
      arg args "deltaPhi" = .num E.constants.deltaPhi → arg args "maxPrecision" = .num E.constants.maxPrecision →
      Ok P (call E (n + 2) .estimator args) (stockEstimator E.constants et) := by
    intro n args et he h1 h2 h3 h4
    rw [call_estimator]
    refine (classLogger_ok hS n _).bind ?_
    rw [h1, h2, h3, h4]
    cases et with
    | SUMMATION_ESTIMATOR => exact (logger_ok hS n).bind (.pure _)
    | QUADRATURE_ESTIMATOR => exact .pure _
    | DEFAULT => exact absurd rfl he
  by_cases he : et = .DEFAULT
  · subst he
    rw [if_pos rfl]
    rw [call_estimator]
    refine (classLogger_ok hS (n + 1) _).bind ?_
    refine (settings_ok hS (n + 1)).bind ?_
    exact explicit n _ d.estimator hd rfl rfl rfl rfl
  · rw [if_neg he]
    exact explicit (n + 1) _ et he rfl rfl rfl rfl

/-- the keyword arguments an algorithm based on the argument principle asks for its estimator with; simple_holo.py 64-71 -/
def estimatorArgs (E : Env α W) (et : Obj α) : Dict String (Obj α) :=
  [("estimatorType", et), ("numPts", .int 6500), ("deltaPhi", .num E.constants.deltaPhi), ("maxPrecision", .num E.constants.maxPrecision), ("cache", .cache)]

theorem estimator_ok (hS : SettingsSay E P d) (hd : d.estimator ≠ .DEFAULT) (hp : ProvidedBy P .estimator .estimator) (n : Nat) (et : EstimatorTypes) :
    Ok P (resolve E (n + 3) .estimator (estimatorArgs E (.estimatorType et)))
      (stockEstimator E.constants (if et = .DEFAULT then d.estimator else et)) := by
  refine provided_ok hp (fun r s => rfl) (estimator_call_ok hS hd n et) ?_
  by_cases h : et = .DEFAULT
  · rw [if_pos h]; revert hd; cases d.estimator <;> first | (intro _; rfl) | (intro h; exact absurd rfl h)
  · rw [if_neg h]; revert h; cases et <;> first | (intro _; rfl) | (intro h; exact absurd rfl h)

/-- the algorithm service of the package, whatever provides the estimator `e` -/
theorem algorithm_call_ok (hS : SettingsSay E P d) (hd : d.algorithm ≠ .DEFAULT) (n : Nat) (ty : AlgorithmTypes) (et : EstimatorTypes) (k : Option Int) (e : Obj α)
    (he : ∀ m, n + 1 ≤ m → m ≤ n + 2 → Ok P (resolve E m .estimator (estimatorArgs E (.estimatorType et))) e) :
    Ok P (call E (n + 3) .algorithm [("algoType", .algoType ty), ("estimatorType", .estimatorType et), ("numSamplePoints", ofInt k)])
      (stockAlgorithm e k (if ty = .DEFAULT then d.algorithm else ty)) := by
  have hint : asInt (ofInt k : Obj α) = k := by cases k <;> rfl
  have hgrid : Factory.gridPoints k = if k.getD 0 = 0 then 50 else k.getD 0 := by
    rcases k with _ | k
    · rfl
    · unfold Factory.gridPoints
      split
      · rename_i h; cases h
      · rename_i h; injection h with h; subst h; rfl
      · rename_i n h1 h2
        injection h2 with h2; subst h2
        exact (if_neg h1).symm
  have explicit : ∀ m args (ty : AlgorithmTypes), n + 1 ≤ m → m ≤ n + 2 → ty ≠ .DEFAULT → arg args "algoType" = .algoType ty →
      arg args "estimatorType" = .estimatorType et → arg args "numSamplePoints" = ofInt k →
      Ok P (call E (m + 1) .algorithm args) (stockAlgorithm e k ty) := by
    intro m args ty hm hm2 hty h1 h2 h3
    obtain ⟨m', rfl⟩ : ∃ m', m = m' + 1 := ⟨m - 1, by omega⟩
    rw [call_algorithm]
    refine (classLogger_ok hS m' _).bind ?_
    rw [h1, h2, h3]
    have harg : ∀ kind, Ok P (argumentInit E (resolve E (m' + 1)) kind (.estimatorType et)) (.argument kind e) := fun kind =>
      (logger_ok hS m').bind ((he _ hm hm2).bind ((logger_ok hS m').bind (.pure _)))
    cases ty with
    | NEWTON_GRID =>
      rw [hint]
      dsimp only [asAlgorithm, stockAlgorithm]
      rw [hgrid]
      exact (logger_ok hS m').bind (.pure _)
    | SIMPLE_ARGUMENT => exact harg _
    | SIMPLE_ARGUMENT_NEWTON => exact harg _
    | ASSOCIATED_POLYNOMIAL => exact harg _
    | DEFAULT => exact absurd rfl hty
  by_cases h : ty = .DEFAULT
  · subst h
    rw [if_pos rfl]
    rw [call_algorithm]
    refine (classLogger_ok hS (n + 1) _).bind ?_
    refine (settings_ok hS (n + 1)).bind ?_
    exact explicit (n + 1) _ d.algorithm (by omega) (by omega) hd rfl rfl rfl
  · rw [if_neg h]
    exact explicit (n + 2) _ ty (by omega) (by omega) h rfl rfl rfl

theorem stockAlgorithm_inst (e : Obj α) (k : Option Int) (ty : AlgorithmTypes) (h : ty ≠ .DEFAULT) : isInst (stockAlgorithm e k ty) .algorithm = true := by
  revert h; cases ty <;> first | (intro _; rfl) | (intro h; exact absurd rfl h)

/-- the container service of the package -/
theorem container_call_ok (hS : SettingsSay E P d) (hd : d.container ≠ .DEFAULT) (n : Nat) (ty : ContainerTypes) (p : Option (Int × Int)) :
    Ok P (call E (n + 3) .container [("containerType", .containerType ty), ("precision", ofPair p), ("queue", .none)])
      (stockContainer (p.getD d.precision) (if ty = .DEFAULT then d.container else ty)) := by
  have hpair : asPair (ofPair p : Obj α) = p := by cases p <;> rfl
  have explicit : ∀ n args (ty : ContainerTypes), ty ≠ .DEFAULT → arg args "containerType" = .containerType ty →
      arg args "precision" = ofPair p → arg args "queue" = .none →
      Ok P (call E (n + 2) .container args) (stockContainer (p.getD d.precision) ty) := by
    intro n args ty hty h1 h2 h3
    rw [call_container]
    refine (classLogger_ok hS n _).bind ?_
    rw [h1, h2, h3, hpair]
    cases ty with
    | ROUNDING_CONTAINER => exact (precision_ok hS n p).bind ((logger_ok hS n).bind (.pure _))
    | PLAIN_CONTAINER => exact (logger_ok hS n).bind (.pure _)
    | DEFAULT => exact absurd rfl hty
  by_cases h : ty = .DEFAULT
  · subst h
    rw [if_pos rfl]
    rw [call_container]
    refine (classLogger_ok hS (n + 1) _).bind ?_
    refine (settings_ok hS (n + 1)).bind ?_
    exact explicit n _ d.container hd rfl rfl rfl
  · rw [if_neg h]
    exact explicit (n + 1) _ ty h rfl rfl rfl

theorem stockContainer_inst (p : Int × Int) (ty : ContainerTypes) (h : ty ≠ .DEFAULT) : isInst (stockContainer p ty : Obj α) .container = true := by
  revert h; cases ty <;> first | (intro _; rfl) | (intro h; exact absurd rfl h)

end PyZeal.Wiring
