import Verif.Proof.Wiring
import Verif.Props.Init
import Verif.Props.Plugins
import Verif.Props.Factories

/-!
# C123: a new finder uses the services in force
-/

set_option linter.unusedSectionVars false

namespace PyZeal.Props
open Spec Locator Wiring
variable {α W : Type} {E : Env α W}

/-- the keyword arguments with which `RootFinder` asks for its algorithm, container and settings (rootfinder.py 76-95) -/
def askAlgorithm (at' : AlgorithmTypes) (et : EstimatorTypes) (k : Option Int) : Dict String (Obj α) :=
  [("algoType", .algoType at'), ("estimatorType", .estimatorType et), ("numSamplePoints", ofInt k)]
def askContainer (ct : ContainerTypes) (p : Option (Int × Int)) : Dict String (Obj α) := [("containerType", .containerType ct), ("precision", ofPair p)]
def askSettings : Dict String (Obj α) := [("settingsType", .settingsType .DEFAULT)]
/-- … and with which algorithms based on the argument principle ask for their estimator (simple_holo.py 64-71) -/
def askEstimator (E : Env α W) (et : Obj α) : Dict String (Obj α) :=
  [("estimatorType", et), ("numPts", .int 6500), ("deltaPhi", .num E.constants.deltaPhi), ("maxPrecision", .num E.constants.maxPrecision), ("cache", .cache)]

/-- In a state with the registrations of `s` the locator delivered `o` for `t`, which is of that type. -/
def Used (E : Env α W) (s : State α W) (t : Svc) (kw : Dict String (Obj α)) (o : Obj α) : Prop :=
  IsA o t ∧ ∃ n s1 s2, s1.loc = s.loc ∧ Delivered E n s1 t kw o s2

theorem askAlgorithm_wf (at' : AlgorithmTypes) (et : EstimatorTypes) (k : Option Int) : (askAlgorithm at' et k : Dict String (Obj α)).WF :=
  show (["algoType", "estimatorType", "numSamplePoints"] : List String).Nodup by decide
theorem askContainer_wf (ct : ContainerTypes) (p : Option (Int × Int)) : (askContainer ct p : Dict String (Obj α)).WF :=
  show (["containerType", "precision"] : List String).Nodup by decide
theorem askSettings_wf : (askSettings : Dict String (Obj α)).WF := show (["settingsType"] : List String).Nodup by decide
theorem nil_wf : Dict.WF ([] : Dict String (Obj α)) := show ([] : List String).Nodup by decide
theorem askEstimator_wf (et : Obj α) : (askEstimator E et).WF :=
  show (["estimatorType", "numPts", "deltaPhi", "maxPrecision", "cache"] : List String).Nodup by decide

theorem used_of_resolve {n : Nat} {t : Svc} {kw : Dict String (Obj α)} (hkw : kw.WF) {s s1 s2 : State α W} {o : Obj α}
    (hl : s1.loc = s.loc) (h : resolve E n t kw s1 = (.ok o, s2)) : Used E s t kw o :=
  ⟨(resolve_delivered hkw h).2, n, s1, s2, hl, (resolve_delivered hkw h).1⟩

theorem keeps_ok {β : Type} {m : Py (State α W) β} (hm : Keeps m) {s s' : State α W} {b : β} (h : m s = (.ok b, s')) : s'.loc = s.loc := by
  have := hm s; rw [h] at this; exact this

theorem settingsOf_inv {n : Nat} {s s' : State α W} {d : Defaults} (h : settingsOf E (resolve E n) s = (.ok d, s')) :
    ∃ o, resolve E n .settings [] s = (.ok o, s') ∧ attributesOf E o = .ok d := by
  obtain ⟨o, s1, h1, h2⟩ := bind_inv h
  have h3 : (attributesOf E o, s1) = (.ok d, s') := h2
  injection h3 with h3 h4
  subst h4
  exact ⟨o, h1, h3⟩

/-- **C123.** Whatever is registered: if the constructor of a finder returns, then its algorithm is the object the locator delivers for
`FinderAlgorithm` with the constructor's arguments, its container the one for `RootContainer`; precision and verbosity are those given, and if none
is given, those of the settings service the locator delivers. Each of these is of the required type. The registrations are not changed. -/
theorem C123_services (hE : ForeignKeep E) (n : Nat) (ct : ContainerTypes) (at' : AlgorithmTypes) (et : EstimatorTypes) (p : Option (Int × Int))
    (k : Option Int) (v : Option Bool) (s s' : State α W) (r : Parts α) (h : finderInit E n ct at' et p k v s = (.ok r, s')) :
    Used E s .algorithm (askAlgorithm at' et k) r.algorithm ∧
    Used E s .container (askContainer ct p) r.container ∧
    (∀ q, p = some q → r.precision = q) ∧
    (p = none → ∃ o d, Used E s .settings [] o ∧ HasAttributes E o d ∧ r.precision = d.precision) ∧
    (∀ b, v = some b → r.verbose = b) ∧
    (v = none → ∃ o d, Used E s .settings askSettings o ∧ HasAttributes E o d ∧ r.verbose = d.verbose) ∧
    s'.loc = s.loc := by
  have hk := fun t kw => resolve_keeps hE n t kw
  obtain ⟨a, s1, h1, h⟩ := bind_inv h
  have l1 := keeps_ok (hk _ _) h1
  obtain ⟨c, s2, h2, h⟩ := bind_inv h
  have l2 := (keeps_ok (hk _ _) h2).trans l1
  obtain ⟨q, s3, h3, h⟩ := bind_inv h
  have l3 := (keeps_ok (precisionOr_keeps hk p) h3).trans l2
  obtain ⟨b, s4, h4, h⟩ := bind_inv h
  have l4 := (keeps_ok (verboseOr_keeps hk v) h4).trans l3
  obtain ⟨u, s5, h5, h⟩ := bind_inv h
  have l5 := (keeps_ok (objectLogger_keeps hk) h5).trans l4
  have h6 : ((.ok ⟨a, c, q, b⟩ : Except Err (Parts α)), s5) = (.ok r, s') := h
  injection h6 with h6 h7
  injection h6 with h6
  subst h6; subst h7
  refine ⟨used_of_resolve (askAlgorithm_wf _ _ _) rfl h1, used_of_resolve (askContainer_wf _ _) l1 h2, ?_, ?_, ?_, ?_, l5⟩
  · rintro q' rfl
    have h3' : ((.ok q' : Except Err (Int × Int)), s2) = (.ok q, s3) := h3
    injection h3' with h3' _
    injection h3' with h3'
    exact h3'.symm
  · rintro rfl
    obtain ⟨d, t1, g1, g2⟩ := bind_inv h3
    obtain ⟨o, g3, g4⟩ := settingsOf_inv g1
    have g2' : ((.ok d.precision : Except Err (Int × Int)), t1) = (.ok q, s3) := g2
    injection g2' with g2' _
    injection g2' with g2'
    exact ⟨o, d, used_of_resolve nil_wf l2 g3, attributes_iff.1 g4, g2'.symm⟩
  · rintro b' rfl
    have h3' : ((.ok b' : Except Err Bool), s3) = (.ok b, s4) := h4
    injection h3' with h3' _
    injection h3' with h3'
    exact h3'.symm
  · rintro rfl
    obtain ⟨o, t1, g1, g2⟩ := bind_inv h4
    obtain ⟨d, t2, g3, g4⟩ := bind_inv g2
    have g3' : (attributesOf E o, t1) = (.ok d, t2) := g3
    injection g3' with g3' _
    have g4' : ((.ok d.verbose : Except Err Bool), t2) = (.ok b, s4) := g4
    injection g4' with g4' _
    injection g4' with g4'
    exact ⟨o, d, used_of_resolve askSettings_wf l3 g1, attributes_iff.1 g3', g4'.symm⟩

/-- what the algorithm factory of the package returns: the estimator it contains was delivered by the locator -/
theorem algorithm_estimator (hE : ForeignKeep E) (n : Nat) : ∀ (args : List (String × Obj α)) (s s' : State α W) (o : Obj α),
    call E n .algorithm args s = (.ok o, s') → ∀ kind e, o = .argument kind e →
      Used E s .estimator (askEstimator E (arg args "estimatorType")) e ∧
      (asAlgorithm (arg args "algoType") ≠ .DEFAULT → stockAlgorithm e none (asAlgorithm (arg args "algoType")) = .argument kind e) := by
  induction n with
  | zero => intro args s s' o h; cases h
  | succ n ih =>
    intro args s s' o h kind e ho
    have hk := fun t kw => resolve_keeps hE n t kw
    rw [call_algorithm] at h
    obtain ⟨_, s1, h1, h⟩ := bind_inv h
    have l1 := keeps_ok (classLogger_keeps hk _) h1
    have hargument : ∀ kind', argumentInit E (resolve E n) kind' (arg args "estimatorType") s1 = (.ok o, s') →
        kind' = kind ∧ Used E s .estimator (askEstimator E (arg args "estimatorType")) e := by
      intro kind' h
      obtain ⟨_, s2, h2, h⟩ := bind_inv h
      have l2 := (keeps_ok (objectLogger_keeps hk) h2).trans l1
      obtain ⟨e', s3, h3, h⟩ := bind_inv h
      obtain ⟨_, s4, h4, h⟩ := bind_inv h
      have h5 : ((.ok (.argument kind' e') : Except Err (Obj α)), s4) = (.ok o, s') := h
      injection h5 with h5 _
      injection h5 with h5
      rw [ho] at h5
      injection h5 with h5 h6
      subst h5; subst h6
      exact ⟨rfl, used_of_resolve (askEstimator_wf _) l2 h3⟩
    rcases ha : asAlgorithm (arg args "algoType") with _ | _ | _ | _ | _ <;> rw [ha] at h <;> dsimp only at h
    all_goals first
      | (obtain ⟨g1, g2⟩ := hargument _ h
         subst g1
         exact ⟨g2, fun _ => rfl⟩)
      | (obtain ⟨_, s2, h2, h⟩ := bind_inv h
         have h5 : ((.ok (.newtonGrid _) : Except Err (Obj α)), s2) = (.ok o, s') := h
         injection h5 with h5 _
         injection h5 with h5
         rw [ho] at h5; cases h5)
      | (obtain ⟨d, s2, h2, h⟩ := bind_inv h
         have l2 := (keeps_ok (settingsOf_keeps hk) h2).trans l1
         obtain ⟨⟨g1, m, t1, t2, g2, g3⟩, _⟩ := ih _ _ _ _ h kind e ho
         exact ⟨⟨g1, m, t1, t2, g2.trans l2, g3⟩, fun h => absurd rfl h⟩)


/-- the factory of the package for algorithms is in force -/
def StockAlgorithms (s : State α W) : Prop := s.loc.singleton.get? .algorithm = none ∧ s.loc.transient.get? .algorithm = some .algorithm

theorem suppliedAll_algorithm {n : Nat} {kw : Dict String (Obj α)} (hkw : kw.WF) {R} {s s1 : State α W} {args : List (String × Obj α)} {at' : AlgorithmTypes} {et : EstimatorTypes} {k : Option Int}
    (hk : kw = askAlgorithm at' et k) (h : SuppliedAll (env E n) kw R s (sig E .algorithm) args s1) :
    args = askAlgorithm at' et k ∧ s1 = s := by
  subst hk
  have one : ∀ {s s1 : State α W} {p : Param Svc (Obj α)} {v v' : Obj α}, (p.name, v') ∈ askAlgorithm at' et k →
      Supplied (env E n) (askAlgorithm at' et k) R s p v s1 → v = v' ∧ s1 = s := by
    intro s s1 p v v' hm hs
    cases hs with
    | kwarg h =>
      refine ⟨?_, rfl⟩
      have h1 := Dict.get?_of_mem hkw h
      have h2 := Dict.get?_of_mem hkw hm
      rw [h1] at h2; injection h2
    | default h1 _ => exact absurd hm (h1 _)
    | service h1 _ _ _ => exact absurd hm (h1 _)
  cases h with
  | cons h1 h =>
    cases h with
    | cons h2 h =>
      cases h with
      | cons h3 h =>
        cases h
        obtain ⟨rfl, rfl⟩ := one (v' := .algoType at') (by simp [askAlgorithm]) h1
        obtain ⟨rfl, rfl⟩ := one (v' := .estimatorType et) (by simp [askAlgorithm]) h2
        obtain ⟨rfl, rfl⟩ := one (v' := ofInt k) (by simp [askAlgorithm]) h3
        exact ⟨rfl, rfl⟩

/-- **C123.** The algorithms of the package use the estimator service in force: if the algorithm of a new finder is one of those based on the
argument principle, its estimator is the object the locator delivers for `ArgumentEstimator` with the estimator type given to the constructor,
6500 points and the default thresholds. An algorithm type given explicitly determines the class. -/
theorem C123_estimator (hE : ForeignKeep E) (n : Nat) (ct : ContainerTypes) (at' : AlgorithmTypes) (et : EstimatorTypes) (p : Option (Int × Int))
    (k : Option Int) (v : Option Bool) (s s' : State α W) (hs : StockAlgorithms s) (r : Parts α)
    (h : finderInit E n ct at' et p k v s = (.ok r, s')) (kind : ArgKind) (e : Obj α) (hr : r.algorithm = .argument kind e) :
    Used E s .estimator (askEstimator E (.estimatorType et)) e ∧
    (at' ≠ .DEFAULT → stockAlgorithm e none at' = .argument kind e) := by
  obtain ⟨a, s1, h1, h⟩ := bind_inv h
  obtain ⟨c, s2, h2, h⟩ := bind_inv h
  obtain ⟨q, s3, h3, h⟩ := bind_inv h
  obtain ⟨b, s4, h4, h⟩ := bind_inv h
  obtain ⟨u, s5, h5, h⟩ := bind_inv h
  have h6 : ((.ok ⟨a, c, q, b⟩ : Except Err (Parts α)), s5) = (.ok r, s') := h
  injection h6 with h6 h7
  injection h6 with h6
  subst h6
  cases (resolve_delivered (askAlgorithm_wf at' et k) h1).1 with
  | singleton h _ => rw [hs.1] at h; cases h
  | factory f args t1 hf hargs hcall =>
    rw [hs.2] at hf
    injection hf with hf
    subst hf
    obtain ⟨g1, g2⟩ := suppliedAll_algorithm (askAlgorithm_wf at' et k) rfl hargs
    subst g1; subst g2
    exact algorithm_estimator hE n _ _ _ _ hcall kind e hr

/-- **C123.** With the services of the package for algorithms, estimators and containers, and any settings service that has the attributes `d`:
the constructor returns for every choice of arguments, and the finder is made of exactly what the arguments name, `d` deciding about those left
open. -/
theorem C123_stock {P : State α W → Prop} {d : Defaults} (hS : SettingsSay E P d) (ha : ProvidedBy P .algorithm .algorithm)
    (he : ProvidedBy P .estimator .estimator) (hc : ProvidedBy P .container .container) (hda : d.algorithm ≠ .DEFAULT) (hde : d.estimator ≠ .DEFAULT)
    (hdc : d.container ≠ .DEFAULT) (n : Nat) (ct : ContainerTypes) (at' : AlgorithmTypes) (et : EstimatorTypes) (p : Option (Int × Int)) (k : Option Int)
    (v : Option Bool) (s : State α W) (hs : P s) :
    ∃ s', finderInit E (n + 5) ct at' et p k v s =
      (.ok ⟨stockAlgorithm (stockEstimator E.constants (orDefault et .DEFAULT d.estimator)) k (orDefault at' .DEFAULT d.algorithm),
        stockContainer (p.getD d.precision) (orDefault ct .DEFAULT d.container), p.getD d.precision, v.getD d.verbose⟩, s') ∧ P s' := by
  have hEst : ∀ m, n + 2 + 1 ≤ m → m ≤ n + 2 + 2 → Ok P (resolve E m .estimator (estimatorArgs E (.estimatorType et)))
      (stockEstimator E.constants (if et = .DEFAULT then d.estimator else et)) := by
    intro m h1 _
    obtain ⟨m', rfl⟩ : ∃ m', m = m' + 3 := ⟨m - 3, by omega⟩
    exact estimator_ok hS hde he m' et
  have hA := provided_ok (E := E) ha (n := n + 5) (kw := askAlgorithm at' et k) (fun _ _ => rfl)
    (algorithm_call_ok hS hda (n + 2) at' et k _ hEst)
    (stockAlgorithm_inst _ _ _ (by split <;> assumption))
  have hC := provided_ok (E := E) hc (n := n + 5) (kw := askContainer ct p) (fun _ _ => rfl)
    (container_call_ok hS hdc (n + 2) ct p)
    (stockContainer_inst _ _ (by split <;> assumption))
  refine Ok.bind hA (Ok.bind hC (Ok.bind (precision_ok hS (n + 4) p) (Ok.bind (verbose_ok hS (n + 4) v) ?_))) s hs
  refine Ok.bind (logger_ok hS (n + 4)) ?_
  exact Ok.pure _

/-- **C123.** The same with an estimator service from elsewhere: wherever the package would use an estimator of its own, the one delivered by that
service is used. -/
theorem C123_other_estimator {P : State α W → Prop} {d : Defaults} (hS : SettingsSay E P d) (ha : ProvidedBy P .algorithm .algorithm)
    (hc : ProvidedBy P .container .container) (hda : d.algorithm ≠ .DEFAULT) (hdc : d.container ≠ .DEFAULT)
    (n : Nat) (ct : ContainerTypes) (at' : AlgorithmTypes) (et : EstimatorTypes) (e : Obj α)
    (he : ∀ m s, P s → ∃ s', resolve E (m + 1) .estimator (askEstimator E (.estimatorType et)) s = (.ok e, s') ∧ P s')
    (p : Option (Int × Int)) (k : Option Int) (v : Option Bool) (s : State α W) (hs : P s) :
    ∃ s', finderInit E (n + 5) ct at' et p k v s =
      (.ok ⟨stockAlgorithm e k (orDefault at' .DEFAULT d.algorithm),
        stockContainer (p.getD d.precision) (orDefault ct .DEFAULT d.container), p.getD d.precision, v.getD d.verbose⟩, s') ∧ P s' := by
  have hEst : ∀ m, n + 2 + 1 ≤ m → m ≤ n + 2 + 2 → Ok P (resolve E m .estimator (estimatorArgs E (.estimatorType et))) e := by
    intro m h1 _
    obtain ⟨m', rfl⟩ : ∃ m', m = m' + 1 := ⟨m - 1, by omega⟩
    exact he m'
  have hA := provided_ok (E := E) ha (n := n + 5) (kw := askAlgorithm at' et k) (fun _ _ => rfl)
    (algorithm_call_ok hS hda (n + 2) at' et k _ hEst)
    (stockAlgorithm_inst _ _ _ (by split <;> assumption))
  have hC := provided_ok (E := E) hc (n := n + 5) (kw := askContainer ct p) (fun _ _ => rfl)
    (container_call_ok hS hdc (n + 2) ct p)
    (stockContainer_inst _ _ (by split <;> assumption))
  refine Ok.bind hA (Ok.bind hC (Ok.bind (precision_ok hS (n + 4) p) (Ok.bind (verbose_ok hS (n + 4) v) ?_))) s hs
  refine Ok.bind (logger_ok hS (n + 4)) ?_
  exact Ok.pure _

/-! ## Settings services -/

/-- the registrations are `l`, and the rest of the world is as required -/
def At (l : Locator Svc (Obj α) Fac) (Q : W → Prop) (s : State α W) : Prop := s.loc = l ∧ Q s.world.world

/-- loggers can be set up with every settings service that has the attributes `d` -/
def LogsWith (E : Env α W) (Q : W → Prop) (d : Defaults) : Prop :=
  ∀ o w, Q w → HasAttributes E o d → ∃ w', E.initLogger o w = (.ok (), w') ∧ Q w'

theorem logs_at {l : Locator Svc (Obj α) Fac} {Q : W → Prop} {d : Defaults} (hlog : LogsWith E Q d) {o : Obj α} (ho : HasAttributes E o d) {s : State α W}
    (hs : At l Q s) : ∃ s'', outside (E.initLogger o) s = (.ok (), s'') ∧ At l Q s'' := by
  obtain ⟨w', h1, h2⟩ := hlog o _ hs.2 ho
  refine ⟨⟨s.loc, ⟨s.world.loggers, w'⟩⟩, ?_, hs.1, h2⟩
  unfold outside
  rw [h1]

/-- the settings service of the package: if the settings files say `d` -/
theorem settingsSay_files {l : Locator Svc (Obj α) Fac} {Q : W → Prop} {d : Defaults} (h0 : l.singleton.get? .settings = none)
    (h1 : l.transient.get? .settings = some .settings) (hload : ∀ w, Q w → ∃ w', E.loadSettings w = (.ok d, w') ∧ Q w') (hlog : LogsWith E Q d) :
    SettingsSay E (At l Q) d where
  settings n kw s hs := by
    obtain ⟨w', g1, g2⟩ := hload _ hs.2
    have hs' : At l Q (⟨s.loc, ⟨s.world.loggers, w'⟩⟩ : State α W) := ⟨hs.1, g2⟩
    refine ⟨.settings d, _, ?_, hs', .settings d, logs_at hlog (.settings d) hs'⟩
    have hf : s.loc.transient.get? .settings = some .settings := by rw [hs.1]; exact h1
    unfold resolve
    rw [tryResolve_some _ (notFound (by rw [hs.1]; exact h0)) hf]
    unfold build
    rw [Py.bind_run]
    have hcol : ∀ x : Option (Obj α), ∃ args, collect (fun t' => tryResolve (env E (n + 1)) (n + 1) t' []) kw (sig E .settings) s = (.ok args, s) := by
      intro _
      unfold sig collect supply
      rw [Py.bind_run]
      dsimp only
      cases kw.get? "settingsType" <;> exact ⟨_, rfl⟩
    obtain ⟨args, ha⟩ := hcol none
    rw [show (env E (n + 1)).sig .settings = sig E .settings from rfl, ha]
    dsimp only
    rw [Py.bind_run]
    have hcall : (env E (n + 1)).call .settings args s = (.ok (.settings d), ⟨s.loc, ⟨s.world.loggers, w'⟩⟩) := by
      show settingsCall E s = _
      unfold settingsCall
      rw [Py.bind_run]
      unfold outside
      rw [g1]
      rfl
    rw [hcall]
    rfl
  marks c s hs := hs

/-- a settings object registered as singleton -/
theorem settingsSay_singleton {l : Locator Svc (Obj α) Fac} {Q : W → Prop} {d : Defaults} {o : Obj α} (h0 : l.singleton.get? .settings = some o)
    (hi : IsA o .settings) (ho : HasAttributes E o d) (hlog : LogsWith E Q d) : SettingsSay E (At l Q) d where
  settings n kw s hs := by
    refine ⟨o, s, ?_, hs, ho, logs_at hlog ho hs⟩
    have hfound : found (env E (n + 1)) s.loc .settings = o := by unfold found; rw [hs.1, h0]; rfl
    unfold resolve
    rw [tryResolve_found _ (by rw [hfound]; exact isInst_iff.2 hi), hfound]
  marks c s hs := hs

/-- **C123.** A settings service registered by the user decides about everything the arguments leave open: with a singleton with attributes `d` in
force, and the other services those of the package. (The settings files play no role.) -/
theorem C123_own_settings {l : Locator Svc (Obj α) Fac} {Q : W → Prop} {d : Defaults} {o : Obj α} (h0 : l.singleton.get? .settings = some o)
    (hi : IsA o .settings) (ho : HasAttributes E o d) (hlog : LogsWith E Q d)
    (hstock : ∀ t f, (t, f) ∈ [(Svc.algorithm, Fac.algorithm), (.estimator, .estimator), (.container, .container)] →
      l.singleton.get? t = none ∧ l.transient.get? t = some f)
    (hda : d.algorithm ≠ .DEFAULT) (hde : d.estimator ≠ .DEFAULT) (hdc : d.container ≠ .DEFAULT) (n : Nat) (s : State α W) (hs : At l Q s) :
    ∃ s', finderInit E (n + 5) .DEFAULT .DEFAULT .DEFAULT none none none s =
      (.ok ⟨stockAlgorithm (stockEstimator E.constants d.estimator) none d.algorithm, stockContainer d.precision d.container, d.precision, d.verbose⟩, s') := by
  have hp : ∀ t f, (t, f) ∈ [(Svc.algorithm, Fac.algorithm), (.estimator, .estimator), (.container, .container)] → ProvidedBy (At l Q) t f := by
    intro t f h s hs
    rw [hs.1]
    exact hstock t f h
  obtain ⟨s', h1, _⟩ := C123_stock (settingsSay_singleton h0 hi ho hlog) (hp _ _ (by simp)) (hp _ _ (by simp)) (hp _ _ (by simp)) hda hde hdc n
    .DEFAULT .DEFAULT .DEFAULT none none none s hs
  exact ⟨s', h1⟩

/-! ## Failures -/

/-- **C123.** If the registered factory for algorithms raises, the constructor raises the same exception; if it returns something that is no
`FinderAlgorithm`, or if nothing is registered, the constructor raises `InvalidServiceConfiguration`. In each case no container was asked for: the state
is that in which the factory left it. -/
theorem C123_failure (n : Nat) (ct : ContainerTypes) (at' : AlgorithmTypes) (et : EstimatorTypes) (p : Option (Int × Int)) (k : Option Int) (v : Option Bool)
    (s : State α W) (h0 : s.loc.singleton.get? .algorithm = none) :
    (s.loc.transient.get? .algorithm = none → finderInit E n ct at' et p k v s = (.error .invalidService, s)) ∧
    ∀ f args s1, s.loc.transient.get? .algorithm = some f →
      SuppliedAll (env E n) (askAlgorithm at' et k) (fun s t v s' => tryResolve (env E n) n t [] s = (.ok v, s')) s (sig E f) args s1 →
      (∀ e s', call E n f args s1 = (.error e, s') → finderInit E n ct at' et p k v s = (.error e, s')) ∧
      ∀ o s', call E n f args s1 = (.ok o, s') → ¬ IsA o .algorithm → finderInit E n ct at' et p k v s = (.error .invalidService, s') := by
  have key : ∀ e s', resolve E n .algorithm (askAlgorithm at' et k) s = (.error e, s') → finderInit E n ct at' et p k v s = (.error e, s') := by
    intro e s' h
    unfold finderInit
    rw [Py.bind_run, show resolve E n .algorithm [("algoType", .algoType at'), ("estimatorType", .estimatorType et), ("numSamplePoints", ofInt k)] s = _ from h]
  refine ⟨fun h => key _ _ (tryResolve_none _ (notFound h0) h _ _), fun f args s1 hf ha => ?_⟩
  have hb : ∀ r : Except Err (Obj α) × State α W, build (env E n) n .algorithm (askAlgorithm at' et k) f s = r → resolve E n .algorithm (askAlgorithm at' et k) s = r := by
    intro r h
    unfold resolve
    rw [tryResolve_some _ (notFound h0) hf]
    exact h
  have hc : collect (fun t' => tryResolve (env E n) n t' []) (askAlgorithm at' et k) (sig E f) s = (.ok args, s1) :=
    (collect_ok (askAlgorithm_wf at' et k) _).2 ha
  refine ⟨fun e s' h => key _ _ (hb _ ?_), fun o s' h hi => key _ _ (hb _ ?_)⟩
  · unfold build
    rw [Py.bind_run, show (env E n).sig f = sig E f from rfl, hc]
    dsimp only
    rw [Py.bind_run, show (env E n).call f args s1 = _ from h]
  · unfold build
    rw [Py.bind_run, show (env E n).sig f = sig E f from rfl, hc]
    dsimp only
    rw [Py.bind_run, show (env E n).call f args s1 = _ from h]
    dsimp only
    unfold checked
    rw [if_neg (by rw [show (env E n).isInst o .algorithm = isInst o .algorithm from rfl, isInst_false hi]; exact Bool.false_ne_true)]
    rfl

/-! ## From the start of the program -/

/-- `initPyZEALServices` with the factories of the package, the plugins in a directory with these entries being loaded -/
def startEnv {C : Type} (E : Env α W) (n : Nat) (plug : PlugEnv Svc (Obj α) Fac (Rest W) C) (entries : List PyStr) : InitEnv (Obj α) Fac (Rest W) where
  env := env E (n + 1)
  limit := n + 2
  fSettings := .settings
  fAlgorithm := .algorithm
  fContainer := .container
  fEstimator := .estimator
  fController := .controller
  fTestHandler := .testHandler
  mkParser := pure (.foreign 2 [.parser])
  initLogger o := outside (E.initLogger o)
  loadPlugins := do
    let _ ← Plugins.loadPlugins plug (.ok entries)
    pure ()

/-- the package's own factory for a service -/
inductive Stock : Svc → Fac → Prop
  | settings : Stock .settings .settings
  | algorithm : Stock .algorithm .algorithm
  | container : Stock .container .container
  | estimator : Stock .estimator .estimator

/-- the factory to be used for `t`: that of the last plugin for `t`, the package's own if there is none -/
def InUse {C : Type} (plug : PlugEnv Svc (Obj α) Fac (Rest W) C) (ks : List C) (t : Svc) (f : Fac) : Prop :=
  LastProvided plug ks t f ∨ ((∀ c ∈ ks, ∀ v g, ¬ Provides plug c v t g) ∧ Stock t f)

/-- `o` was returned by the factory `f`, called with the keyword arguments `kw` as far as its parameters have these names -/
def MadeBy (E : Env α W) (t : Svc) (kw : Dict String (Obj α)) (f : Fac) (o : Obj α) : Prop :=
  IsA o t ∧ ∃ n args s s1 s2, SuppliedAll (env E n) kw (fun s t v s' => tryResolve (env E n) n t [] s = (.ok v, s')) s (sig E f) args s1 ∧
    call E n f args s1 = (.ok o, s2)

theorem madeBy_of_used {s : State α W} {t : Svc} {kw : Dict String (Obj α)} {o : Obj α} {f : Fac} (h : Used E s t kw o) (h0 : s.loc.singleton.get? t = none)
    (hf : s.loc.transient.get? t = some f) : MadeBy E t kw f o := by
  obtain ⟨hi, n, s1, s2, hl, hd⟩ := h
  refine ⟨hi, ?_⟩
  cases hd with
  | singleton h _ => rw [hl, h0] at h; cases h
  | factory f' args t1 hf' hargs hcall =>
    rw [hl, hf] at hf'
    injection hf' with hf'
    subst hf'
    exact ⟨n, args, s1, t1, s2, hargs, hcall⟩

theorem startEnv_tame {C : Type} (hE : ForeignKeep E) (n : Nat) (plug : PlugEnv Svc (Obj α) Fac (Rest W) C) (entries : List PyStr) :
    Tame (startEnv E n plug entries) :=
  ⟨fun f a s => call_keeps hE (n + 1) f a s, fun _ _ => rfl, fun _ => rfl⟩

/-- a successful registration leaves the locator open -/
theorem registerAsTransient_open {t : Svc} {f : Fac} {s s' : State α W} {u : Unit} (h : registerAsTransient t f s = (.ok u, s')) : s'.loc.sealed = false := by
  rw [registerAsTransient_run] at h
  split at h
  · cases h
  · rename_i hs
    injection h with h1 h2; subst h2
    exact Bool.eq_false_iff.2 hs

/-- After a successful start each service of the package is provided by the factory to be used, and nothing was registered as singleton. -/
theorem started {C : Type} (hE : ForeignKeep E) (n : Nat) (plug : PlugEnv Svc (Obj α) Fac (Rest W) C) (mods : PyStr → List (PyStr × Attr C))
    (hI : ImportsFrom plug mods) (hc : Comparable mods) (entries : List PyStr) (hdot : ∀ c ∈ entries, c.head? ≠ some '.') (ks : List C)
    (hk : Finds mods entries ks) (hp : ∀ c ∈ ks, ∃ v t f, Provides plug c v t f) (s s1 : IState (Obj α) Fac (Rest W)) (hs : s.initialized = false)
    (h : Init.initServices (startEnv E n plug entries) .SCRIPT s = (.ok (), s1)) :
    s1.st.loc.singleton = s.st.loc.singleton ∧ ∀ t f, InUse plug ks t f → s1.st.loc.transient.get? t = some f := by
  have hT := startEnv_tame hE n plug entries
  obtain ⟨st', hb, hr⟩ := returned hs (by rw [h])
  rw [h] at hr
  dsimp only at hr
  subst hr
  obtain ⟨t1, t2, t3, t4, h1, h2, h3, h4, h5⟩ := body_cases _ hb
  have e1 : t1.loc.singleton = s.st.loc.singleton ∧ t1.loc.transient = s.st.loc.transient.set .settings .settings := by
    unfold Init.registerSettings at h1; rw [if_pos (by decide)] at h1
    exact registerAsTransient_ok h1
  have e2 := setupLogger_keep hT h2
  have e3 := registerScript_ok h3
  have o3 : t3.loc.sealed = false := by
    unfold Init.registerScript at h3
    rw [if_pos (by decide)] at h3
    obtain ⟨_, _, _, h3⟩ := bind_inv h3
    obtain ⟨_, _, _, h3⟩ := bind_inv h3
    exact registerAsTransient_open h3
  have e4 : t4 = t3 := by
    unfold Init.registerCli at h4; rw [if_neg (by decide)] at h4
    injection h4 with _ h4; exact h4.symm
  subst e4
  unfold Init.plugins at h5
  rw [if_neg (by decide)] at h5
  have : Nonempty (LState Svc (Obj α) Fac (Rest W)) := ⟨s.st⟩
  obtain ⟨vs, s5, g1, g2, g3, g4⟩ := C77_factories_partial plug mods hI hc entries hdot ks hk hp t4 o3
  have h6 : (startEnv E n plug entries).loadPlugins t4 = (.ok (), s5) := by
    show (Plugins.loadPlugins plug (.ok entries) >>= fun _ => (pure () : Py (State α W) Unit)) t4 = _
    rw [Py.bind_ok g1]
    rfl
  rw [h6] at h5
  injection h5 with _ h5
  subst h5
  refine ⟨by rw [g3, e3.1, e2, e1.1], ?_⟩
  have et : t4.loc.transient = (((s.st.loc.transient.set .settings .settings).set .algorithm .algorithm).set .container .container).set .estimator .estimator := by
    rw [e3.2, e2, e1.2]; rfl
  rintro t f (hl | ⟨hno, hst⟩)
  · exact (g4 t).1 f hl
  · rw [(g4 t).2 hno, et]
    cases hst <;> simp [Dict.get?_set]

/-- **C123.** A program that initialises PyZEAL for scripts in a fresh process and then constructs finders, at any time and any number of times: the
algorithm, container and settings of each finder were made by the last plugin for that service, and by the package's own factory if there is no such
plugin. If the algorithm is one of the package's own based on the argument principle, this holds for its estimator, too. -/
theorem C123_start {C : Type} (hE : ForeignKeep E) (n : Nat) (plug : PlugEnv Svc (Obj α) Fac (Rest W) C) (mods : PyStr → List (PyStr × Attr C))
    (hI : ImportsFrom plug mods) (hc : Comparable mods) (entries : List PyStr) (hdot : ∀ c ∈ entries, c.head? ≠ some '.') (ks : List C)
    (hk : Finds mods entries ks) (hp : ∀ c ∈ ks, ∃ v t f, Provides plug c v t f) (s s1 : IState (Obj α) Fac (Rest W)) (hs : s.initialized = false)
    (hfresh : s.st.loc = Locator.empty) (h : Init.initServices (startEnv E n plug entries) .SCRIPT s = (.ok (), s1))
    (m : Nat) (ct : ContainerTypes) (at' : AlgorithmTypes) (et : EstimatorTypes) (p : Option (Int × Int)) (k : Option Int) (v : Option Bool)
    (s2 s' : State α W) (h2 : s2.loc = s1.st.loc) (r : Parts α) (hr : finderInit E m ct at' et p k v s2 = (.ok r, s')) :
    s'.loc = s1.st.loc ∧
    (∀ f, InUse plug ks .algorithm f → MadeBy E .algorithm (askAlgorithm at' et k) f r.algorithm) ∧
    (∀ f, InUse plug ks .container f → MadeBy E .container (askContainer ct p) f r.container) ∧
    (p = none → ∀ f, InUse plug ks .settings f → ∃ o d, MadeBy E .settings [] f o ∧ HasAttributes E o d ∧ r.precision = d.precision) ∧
    (v = none → ∀ f, InUse plug ks .settings f → ∃ o d, MadeBy E .settings askSettings f o ∧ HasAttributes E o d ∧ r.verbose = d.verbose) ∧
    (InUse plug ks .algorithm .algorithm → ∀ kind e, r.algorithm = .argument kind e → ∀ f, InUse plug ks .estimator f →
      MadeBy E .estimator (askEstimator E (.estimatorType et)) f e) := by
  obtain ⟨hsing, htrans⟩ := started hE n plug mods hI hc entries hdot ks hk hp s s1 hs h
  have hno : ∀ t, s2.loc.singleton.get? t = none := by intro t; rw [h2, hsing, hfresh]; rfl
  have htr : ∀ t f, InUse plug ks t f → s2.loc.transient.get? t = some f := by intro t f hf; rw [h2]; exact htrans t f hf
  obtain ⟨c1, c2, _, c4, _, c6, c7⟩ := C123_services hE m ct at' et p k v s2 s' r hr
  refine ⟨c7.trans h2, fun f hf => madeBy_of_used c1 (hno _) (htr _ f hf), fun f hf => madeBy_of_used c2 (hno _) (htr _ f hf), ?_, ?_, ?_⟩
  · intro hpn f hf
    obtain ⟨o, d, g1, g2, g3⟩ := c4 hpn
    exact ⟨o, d, madeBy_of_used g1 (hno _) (htr _ f hf), g2, g3⟩
  · intro hvn f hf
    obtain ⟨o, d, g1, g2, g3⟩ := c6 hvn
    exact ⟨o, d, madeBy_of_used g1 (hno _) (htr _ f hf), g2, g3⟩
  · intro ha kind e hre f hf
    exact madeBy_of_used (C123_estimator hE m ct at' et p k v s2 s' ⟨hno _, htr _ _ ha⟩ r hr kind e hre).1 (hno _) (htr _ f hf)

/-- Every service of the package has a factory in use, and only one. -/
theorem C123_inUse {C : Type} (plug : PlugEnv Svc (Obj α) Fac (Rest W) C) (ks : List C) (t : Svc) (f0 : Fac) (h0 : Stock t f0)
    [hne : Nonempty (State α W)] : ∃ f, InUse plug ks t f ∧ ∀ g, InUse plug ks t g → g = f := by
  have huniq : ∀ c v v' t t' f f', Provides plug c v t f → Provides plug c v' t' f' → f = f' := by
    intro c v v' t t' f f' h1 h2
    obtain ⟨s⟩ := hne
    obtain ⟨w, g1⟩ := h1.2.2 s
    obtain ⟨w', g2⟩ := h2.2.2 s
    rw [g1] at g2
    injection g2 with g2 _
    injection g2
  by_cases hex : ∃ c ∈ ks, ∃ v g, Provides plug c v t g
  · have hl : ∃ f, LastProvided plug ks t f := by
      clear h0
      induction ks with
      | nil => obtain ⟨c, h, _⟩ := hex; cases h
      | cons a ks ih =>
        by_cases h' : ∃ c ∈ ks, ∃ v g, Provides plug c v t g
        · obtain ⟨f, pre, c, post, v, e1, e2, e3⟩ := ih h'
          exact ⟨f, a :: pre, c, post, v, by rw [e1]; rfl, e2, e3⟩
        · obtain ⟨c, hc, v, g, hpr⟩ := hex
          rcases List.mem_cons.1 hc with rfl | hc
          · exact ⟨g, [], c, ks, v, rfl, hpr, fun c' hc' v' f' h'' => h' ⟨c', hc', v', f', h''⟩⟩
          · exact absurd ⟨c, hc, v, g, hpr⟩ h'
    obtain ⟨f, hf⟩ := hl
    refine ⟨f, .inl hf, ?_⟩
    rintro g (hg | ⟨hno, _⟩)
    · obtain ⟨pre, c, post, v, e1, e2, e3⟩ := hf
      obtain ⟨pre', c', post', v', e1', e2', e3'⟩ := hg
      rw [e1] at e1'
      rcases List.append_eq_append_iff.1 e1' with ⟨l, h1, h2⟩ | ⟨l, h1, h2⟩
      · cases l with
        | nil =>
          injection h2 with h2 _
          subst h2
          exact huniq _ _ _ _ _ _ _ e2' e2
        | cons b l =>
          injection h2 with h2 h3
          exact absurd e2' (e3 c' (by rw [h3]; simp) v' g)
      · cases l with
        | nil =>
          injection h2 with h2 _
          subst h2
          exact huniq _ _ _ _ _ _ _ e2' e2
        | cons b l =>
          injection h2 with h2 h3
          exact absurd e2 (e3' c (by rw [h3]; simp) v f)
    · obtain ⟨pre, c, post, v, e1, e2, e3⟩ := hf
      exact absurd e2 (hno c (by rw [e1]; simp) v f)
  · have hno : ∀ c ∈ ks, ∀ v g, ¬ Provides plug c v t g := fun c hc v g h => hex ⟨c, hc, v, g, h⟩
    refine ⟨f0, .inr ⟨hno, h0⟩, ?_⟩
    rintro g (⟨pre, c, post, v, e1, e2, e3⟩ | ⟨_, hg⟩)
    · exact absurd e2 (hno c (by rw [e1]; simp) v g)
    · cases h0 <;> cases hg <;> rfl

/-! ## The model without locator -/

/-- the objects of Model/Factories.lean as objects passing through the locator -/
def algorithmObj : AlgorithmObj α → Obj α
  | .newtonGrid n => .newtonGrid n
  | .simpleArgument e => .argument .simple (.estimator e)
  | .simpleArgumentNewton e => .argument .newton (.estimator e)
  | .associatedPolynomial e => .argument .polynomial (.estimator e)
def partsOf (p : Factory.FinderParts α) : Parts α := ⟨algorithmObj p.algorithm, .container p.container, p.precision, p.verbose⟩

theorem algorithmObj_eq {K : Factory.Constants α} {r : AlgorithmObj α} {ty : AlgorithmTypes} {et : EstimatorTypes} {k : Option Int}
    (h1 : algorithmClass r = ty)
    (h2 : ∀ e, algorithmEstimator r = some e → estimatorClass e = et ∧ (estimatorClass e = .SUMMATION_ESTIMATOR → e = .summation 6500 K.deltaPhi K.maxPrecision))
    (h3 : ∀ g, r = .newtonGrid g → (g = 50 ∧ (k = none ∨ k = some 0)) ∨ (k = some g ∧ g ≠ 0)) :
    algorithmObj r = stockAlgorithm (stockEstimator K et) k ty := by
  have he : ∀ e, algorithmEstimator r = some e → (.estimator e : Obj α) = stockEstimator K et := by
    intro e he
    obtain ⟨g1, g2⟩ := h2 e he
    subst g1
    cases e with
    | summation a b c => rw [g2 rfl]; rfl
    | quadrature => rfl
  subst h1
  cases r with
  | newtonGrid g =>
    rcases h3 g rfl with ⟨rfl, rfl | rfl⟩ | ⟨rfl, h0⟩
    · rfl
    · rfl
    · show Obj.newtonGrid g = Obj.newtonGrid (if g = 0 then 50 else g)
      rw [if_neg h0]
  | simpleArgument e => show Obj.argument _ _ = Obj.argument _ _; rw [he e rfl]
  | simpleArgumentNewton e => show Obj.argument _ _ = Obj.argument _ _; rw [he e rfl]
  | associatedPolynomial e => show Obj.argument _ _ = Obj.argument _ _; rw [he e rfl]

theorem containerObj_eq {c : ContainerObj} {ty : ContainerTypes} {p : Int × Int} (h1 : containerClass c = ty) (h2 : ∀ p', c = .rounding p' → p' = p)
    (h3 : ∀ q, c = .plain q → q = none) : (.container c : Obj α) = stockContainer p ty := by
  subst h1
  cases c with
  | rounding p' => rw [h2 p' rfl]; rfl
  | plain q => rw [h3 q rfl]; rfl

/-- **C123.** The factories as modelled for C61 and C102 (with the locator left out), wherever the settings say `d`, make the same finder as the
constructor going through the locator, if the services of the package are in force. -/
theorem C123_agrees {σ : Type} {F : FactoryEnv σ} {Q : σ → Prop} {P : State α W → Prop} {d : Defaults} (hF : Says F Q d) (hS : SettingsSay E P d)
    (ha : ProvidedBy P .algorithm .algorithm) (he : ProvidedBy P .estimator .estimator) (hc : ProvidedBy P .container .container)
    (hda : d.algorithm ≠ .DEFAULT) (hde : d.estimator ≠ .DEFAULT) (hdc : d.container ≠ .DEFAULT) (n : Nat) (ct : ContainerTypes) (at' : AlgorithmTypes)
    (et : EstimatorTypes) (p : Option (Int × Int)) (k : Option Int) (v : Option Bool) (s : State α W) (hs : P s) (t : σ) (ht : Q t) :
    ∃ q t' s', Factory.finderInit F E.constants (n + 4) ct at' et p k v t = (.ok q, t') ∧
      finderInit E (n + 5) ct at' et p k v s = (.ok (partsOf q), s') := by
  obtain ⟨s', h1, _⟩ := C123_stock hS ha he hc hda hde hdc n ct at' et p k v s hs
  obtain ⟨r, t', g1, g2, g3, g4, g5, g6, g7, g8, g9⟩ := C61_finder (K := E.constants) hF n hda hdc hde ct at' et p k v t ht
  refine ⟨r, t', s', g1, ?_⟩
  rw [h1]
  have hplain : ∀ q, r.container = .plain q → q = none := by
    intro q hq
    obtain ⟨a, t1, f1, f⟩ := bind_inv g1
    obtain ⟨c, t2, f2, f⟩ := bind_inv f
    obtain ⟨x, t3, f3, f⟩ := bind_inv f
    obtain ⟨y, t4, f4, f⟩ := bind_inv f
    have f5 : ((.ok ⟨a, c, x, y⟩ : Except Err (Factory.FinderParts α)), t4) = (.ok r, t') := f
    injection f5 with f5 _
    injection f5 with f5
    subst f5
    obtain ⟨_, _, b1, p1, _⟩ := C61_algorithm (K := E.constants) hF n at' hda et hde k t ht
    rw [f1] at b1
    injection b1 with _ b1
    subst b1
    obtain ⟨c', t2', e1, _, _, _, e5⟩ := C61_container hF (n + 2) ct hdc p none t1 p1
    rw [f2] at e1
    injection e1 with e1 _
    injection e1 with e1
    subst e1
    exact e5 q hq
  unfold partsOf
  rw [algorithmObj_eq g3 g4 g5, containerObj_eq g6 g7 hplain, g8, g9]

/-! ## Examples -/

/-- The settings files say `wDefaults`; logging counts. Factory 7 makes estimators, 8 something else, 9 raises, 10 makes algorithms, and asks for a container. -/
def wDefaults : Defaults := ⟨.ROUNDING_CONTAINER, .SIMPLE_ARGUMENT, .SUMMATION_ESTIMATOR, (6, 6), true⟩
def wEnv : Env Nat Nat where
  loadSettings w := (.ok wDefaults, w)
  initLogger _ w := (.ok (), w + 1)
  constants := ⟨1, 10⟩
  foreignSig
    | 7 => [⟨"numPts", none, none⟩, ⟨"bound", some (.num 3), none⟩]
    | 10 => [⟨"numSamplePoints", none, none⟩, ⟨"store", none, some .container⟩]
    | _ => []
  foreignCall k args s := (
    if k = 7 then .ok (.foreign (match arg args "numPts", arg args "bound" with | .int n, .num b => n.toNat + b | _, _ => 0) [.estimator])
    else if k = 8 then .ok (.foreign 0 [])
    else if k = 10 then
      .ok (.foreign (match arg args "numSamplePoints", arg args "store" with | .int n, .container _ => n.toNat | _, _ => 0) [.algorithm])
    else .error .keyError, s)
  attributes _ := .ok { wDefaults with precision := (2, 2), algorithm := .NEWTON_GRID }
theorem wEnv_keep : ForeignKeep wEnv := fun _ _ _ => rfl

/-- the registrations after the start of a script without plugins, an estimator factory in addition -/
def wLoc (e : Fac) : Locator Svc (Obj Nat) Fac :=
  ⟨[(.settings, .settings), (.algorithm, .algorithm), (.container, .container), (.estimator, e)], [], false⟩
def wState (e : Fac) : State Nat Nat := ⟨wLoc e, ⟨[], 0⟩⟩

/-- with the package's own services … -/
example : (finderInit wEnv 5 .DEFAULT .DEFAULT .DEFAULT none none none (wState .estimator)).1 =
    .ok ⟨.argument .simple (.estimator (.summation 6500 1 10)), .container (.rounding (6, 6)), (6, 6), true⟩ := by decide +kernel
/-- … with another estimator service (which does not know the parameter `bound` used here, so that its default 3 applies) … -/
example : (finderInit wEnv 5 .PLAIN_CONTAINER .ASSOCIATED_POLYNOMIAL .DEFAULT (some (3, 3)) none (some false) (wState (.foreign 7))).1 =
    .ok ⟨.argument .polynomial (.foreign 6503 [.estimator]), .container (.plain none), (3, 3), false⟩ := by decide +kernel
/-- … the Newton grid algorithm does not ask for it … -/
example : (finderInit wEnv 5 .DEFAULT .NEWTON_GRID .DEFAULT none (some 0) none (wState (.foreign 9))).1 =
    .ok ⟨.newtonGrid 50, .container (.rounding (6, 6)), (6, 6), true⟩ := by decide +kernel
/-- … a factory that raises, one that returns nonsense … -/
example : (finderInit wEnv 5 .DEFAULT .DEFAULT .DEFAULT none none none (wState (.foreign 9))).1 = .error .keyError := by decide +kernel
example : (finderInit wEnv 5 .DEFAULT .DEFAULT .DEFAULT none none none (wState (.foreign 8))).1 = .error .invalidService := by decide +kernel
/-- … an algorithm service depending on the container service. -/
example : (finderInit wEnv 5 .DEFAULT .DEFAULT .DEFAULT none (some 12) none
      ⟨⟨[(.settings, .settings), (.algorithm, .foreign 10), (.container, .container)], [], false⟩, ⟨[], 0⟩⟩).1 =
    .ok ⟨.foreign 12 [.algorithm], .container (.rounding (6, 6)), (6, 6), true⟩ := by decide +kernel

/-- hypotheses of the theorems: the settings service of the package … -/
theorem wEnv_says (e : Fac) : SettingsSay wEnv (At (wLoc e) fun _ => True) wDefaults :=
  settingsSay_files rfl rfl (fun w _ => ⟨w, rfl, trivial⟩) (fun _ w _ _ => ⟨w + 1, rfl, trivial⟩)
example : ProvidedBy (At (wLoc .estimator) fun (_ : Nat) => True) .estimator .estimator := by
  rintro s ⟨h, _⟩; rw [h]; exact ⟨rfl, rfl⟩
example : ∃ s', finderInit wEnv 5 .DEFAULT .SIMPLE_ARGUMENT_NEWTON .QUADRATURE_ESTIMATOR none none none (wState .estimator) =
    (.ok ⟨.argument .newton (.estimator .quadrature), .container (.rounding (6, 6)), (6, 6), true⟩, s') := by
  obtain ⟨s', h, _⟩ := C123_stock (wEnv_says .estimator) (by rintro s ⟨h, _⟩; rw [h]; exact ⟨rfl, rfl⟩) (by rintro s ⟨h, _⟩; rw [h]; exact ⟨rfl, rfl⟩)
    (by rintro s ⟨h, _⟩; rw [h]; exact ⟨rfl, rfl⟩) (by decide) (by decide) (by decide) 0 .DEFAULT .SIMPLE_ARGUMENT_NEWTON .QUADRATURE_ESTIMATOR none none none
    (wState .estimator) ⟨rfl, trivial⟩
  exact ⟨s', h⟩
/-- … another estimator service … -/
example (m : Nat) (s : State Nat Nat) (hs : At (wLoc (.foreign 7)) (fun _ => True) s) :
    ∃ s', resolve wEnv (m + 1) .estimator (askEstimator wEnv (.estimatorType .DEFAULT)) s = (.ok (.foreign 6503 [.estimator]), s') ∧
      At (wLoc (.foreign 7)) (fun _ => True) s' := by
  obtain ⟨l, w⟩ := s
  obtain ⟨rfl, _⟩ := hs
  exact ⟨_, rfl, rfl, trivial⟩
/-- … a settings service registered by the user. -/
example : ∃ s', finderInit wEnv 5 .DEFAULT .DEFAULT .DEFAULT none none none
      (⟨⟨(wLoc .estimator).transient, [(.settings, .foreign 4 [.settings])], false⟩, ⟨[], 0⟩⟩ : State Nat Nat) =
    (.ok ⟨.newtonGrid 50, .container (.rounding (2, 2)), (2, 2), true⟩, s') :=
  C123_own_settings (Q := fun _ => True) (d := { wDefaults with precision := (2, 2), algorithm := .NEWTON_GRID }) (o := .foreign 4 [.settings]) rfl (.foreign _ (by decide)) (.foreign _ _ rfl)
    (fun _ w _ _ => ⟨w + 1, rfl, trivial⟩)
    (by intro t f h
        simp only [List.mem_cons, List.not_mem_nil, or_false, Prod.mk.injEq] at h
        rcases h with ⟨rfl, rfl⟩ | ⟨rfl, rfl⟩ | ⟨rfl, rfl⟩ <;> exact ⟨rfl, rfl⟩)
    (by decide) (by decide) (by decide) 0 _ ⟨rfl, trivial⟩

/-- plugins: the classes 15 and 25 in the directory `plugDir` provide the estimator factories 9 and 7 -/
def wPlug : PlugEnv Svc (Obj Nat) Fac (Rest Nat) Nat where
  importModule n s := (.ok (plugMods n), s)
  getInstance c s := (.ok (.foreign c []), s)
  pluginType _ s := (.ok .estimator, s)
  factory c s := (.ok (.foreign (if c = 15 then 9 else 7)), s)
theorem wPlug_provides (c : Nat) : Provides wPlug c (.foreign c []) .estimator (.foreign (if c = 15 then 9 else 7)) :=
  ⟨fun s => ⟨s.world, rfl⟩, fun s => ⟨s.world, rfl⟩, fun s => ⟨s.world, rfl⟩⟩
theorem wPlug_only (c : Nat) (v : Obj Nat) (t : Svc) (f : Fac) (h : Provides wPlug c v t f) : t = .estimator := by
  obtain ⟨w, h⟩ := h.2.1 (wState .estimator)
  injection h with h _
  injection h with h
  exact h.symm
example : InUse wPlug [15, 25] .estimator (.foreign 7) := .inl ⟨[15], 25, [], _, rfl, wPlug_provides 25, by intro c h; cases h⟩
example : InUse wPlug [15, 25] .algorithm .algorithm := .inr ⟨fun c _ v g h => absurd (wPlug_only c v _ g h) (by decide), .algorithm⟩
/-- the start with these plugins … -/
def wStarted : IState (Obj Nat) Fac (Rest Nat) := (Init.initServices (startEnv wEnv 5 wPlug plugDir) .SCRIPT ⟨⟨Locator.empty, ⟨[], 0⟩⟩, false⟩).2
theorem wStarted_ok : Init.initServices (startEnv wEnv 5 wPlug plugDir) .SCRIPT ⟨⟨Locator.empty, ⟨[], 0⟩⟩, false⟩ = (.ok (), wStarted) := by rfl
/-- … and what a finder made afterwards consists of, by computation and by the theorem. -/
theorem wStarted_finder : (finderInit wEnv 5 .DEFAULT .DEFAULT .DEFAULT none none none wStarted.st).1 =
    .ok ⟨.argument .simple (.foreign 6503 [.estimator]), .container (.rounding (6, 6)), (6, 6), true⟩ := by decide +kernel
example : MadeBy wEnv .estimator (askEstimator wEnv (.estimatorType .DEFAULT)) (.foreign 7) (.foreign 6503 [.estimator]) := by
  have h := wStarted_finder
  rcases he : finderInit wEnv 5 .DEFAULT .DEFAULT .DEFAULT none none none wStarted.st with ⟨x, s'⟩
  rw [he] at h
  dsimp only at h
  subst h
  obtain ⟨_, _, _, _, _, h6⟩ := C123_start wEnv_keep 5 wPlug plugMods (fun n s => ⟨s.world, rfl⟩) plugMods_comparable plugDir (by decide) [15, 25] plugDir_finds
    (fun c _ => ⟨_, _, _, wPlug_provides c⟩) _ wStarted rfl rfl wStarted_ok 5 _ _ _ _ _ _ _ _ rfl _ he
  exact h6 (.inr ⟨fun c _ v g h => absurd (wPlug_only c v _ g h) (by decide), .algorithm⟩) _ _ rfl _
    (.inl ⟨[15], 25, [], _, rfl, wPlug_provides 25, by intro c h; cases h⟩)

end PyZeal.Props
