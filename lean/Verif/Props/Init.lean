import Verif.Model.Init
import Verif.Proof.Locator

/-!
# C59, C60: initialisation
-/

set_option linter.unusedSectionVars false

namespace PyZeal.Props
open Spec Locator Init
variable {V F W : Type} {I : InitEnv V F W}

/-- calls of `initPyZEALServices` one after the other, exceptions being caught: outcomes and state -/
def initAll (I : InitEnv V F W) : List InitMode → IState V F W → List (Except Err Unit) × IState V F W
  | [], s => ([], s)
  | m :: ms, s =>
    let r := initServices I m s
    let rest := initAll I ms r.2
    (r.1 :: rest.1, rest.2)

theorem initServices_run (m : InitMode) (s : IState V F W) :
    initServices I m s =
      if s.initialized then (.ok (), s)
      else match body I m s.st with
        | (.ok _, st) => (.ok (), ⟨st, true⟩)
        | (.error e, st) => (.error e, ⟨st, s.initialized⟩) := by
  show (if s.initialized then pure () else _ : Py (IState V F W) Unit) s = _
  split
  · rfl
  · rw [Py.bind_run]
    unfold lift
    rcases he : body I m s.st with ⟨e | u, st⟩ <;> rfl

/-! ## C59 -/

/-- **C59.** Once initialised, no further call in whatever modes has any effect, and none raises. -/
theorem C59_at_most_once (ms : List InitMode) (s : IState V F W) (h : s.initialized = true) :
    initAll I ms s = (ms.map fun _ => .ok (), s) := by
  induction ms with
  | nil => rfl
  | cons m ms ih =>
    have h1 : initServices I m s = (.ok (), s) := by rw [initServices_run, if_pos h]
    simp only [initAll, h1, ih, List.map_cons]

/-- **C59.** A call returns exactly if the services are initialised afterwards; a call that raises leaves
the handler uninitialised (so that a later call tries again). -/
theorem C59_initialized_iff_returned (m : InitMode) (s : IState V F W) :
    (initServices I m s).1 = .ok () ↔ (initServices I m s).2.initialized = true := by
  rw [initServices_run]
  by_cases h : s.initialized = true
  · simp [h]
  · rw [if_neg h]
    rcases he : body I m s.st with ⟨e | u, st⟩
    · simp [h]
    · simp

/-- **C59.** In every sequence of calls, those before the first one that returns all raise, that one
does the work, and all later ones return without effect. -/
theorem C59_history (ms : List InitMode) (s : IState V F W) (h : s.initialized = false) :
    (∀ r ∈ (initAll I ms s).1, r ≠ .ok ()) ∧ (initAll I ms s).2.initialized = false ∨
    ∃ pre m post s1, ms = pre ++ m :: post ∧ s1 = (initAll I pre s).2 ∧
      (∀ r ∈ (initAll I pre s).1, r ≠ .ok ()) ∧ s1.initialized = false ∧
      (initServices I m s1).1 = .ok () ∧ (initAll I ms s).2 = (initServices I m s1).2 := by
  induction ms generalizing s with
  | nil => exact .inl ⟨(by intro r hr; cases hr), h⟩
  | cons m ms ih =>
    by_cases hr : (initServices I m s).1 = .ok ()
    · right
      refine ⟨[], m, ms, s, rfl, rfl, (by intro r hr; cases hr), h, hr, ?_⟩
      have := (C59_initialized_iff_returned (I := I) m s).1 hr
      show (initAll I ms (initServices I m s).2).2 = _
      rw [C59_at_most_once ms _ this]
    · have hi : (initServices I m s).2.initialized = false := by
        have := mt (C59_initialized_iff_returned (I := I) m s).2 hr
        simpa using this
      rcases ih _ hi with ⟨h1, h2⟩ | ⟨pre, m', post, s1, h1, h2, h3, h4, h5, h6⟩
      · left
        refine ⟨fun r hr' => ?_, h2⟩
        rcases List.mem_cons.1 hr' with rfl | hr'
        · exact hr
        · exact h1 r hr'
      · right
        refine ⟨m :: pre, m', post, s1, by rw [h1]; rfl, h2, fun r hr' => ?_, h4, h5, h6⟩
        rcases List.mem_cons.1 hr' with rfl | hr'
        · exact hr
        · exact h3 r hr'

/-! ## C60 -/

/-- the factory `f` is registered for `t` -/
def hasFactory (s : LState Svc V F W) (t : Svc) (f : F) : Prop := s.loc.transient.get? t = some f

theorem registerAsTransient_ok {t : Svc} {f : F} {s s' : LState Svc V F W} {u : Unit}
    (h : registerAsTransient t f s = (.ok u, s')) :
    s'.loc.singleton = s.loc.singleton ∧ s'.loc.transient = s.loc.transient.set t f := by
  rw [registerAsTransient_run] at h
  split at h
  · cases h
  · injection h with h1 h2; subst h2; exact ⟨rfl, rfl⟩

theorem registerAsSingleton_ok {t : Svc} {v : V} {s s' : LState Svc V F W} {u : Unit} {E : LEnv Svc V F W}
    (h : registerAsSingleton E t v s = (.ok u, s')) :
    s'.loc.singleton = s.loc.singleton.set t v ∧ s'.loc.transient = s.loc.transient ∧ E.isInst v t = true := by
  rw [registerAsSingleton_run] at h
  split at h
  · cases h
  · split at h
    · rename_i hi
      injection h with h1 h2; subst h2; exact ⟨rfl, rfl, hi⟩
    · cases h

theorem bind_inv {σ α β : Type} {m : Py σ α} {k : α → Py σ β} {s s' : σ} {b : β}
    (h : (m >>= k) s = (.ok b, s')) : ∃ a s1, m s = (.ok a, s1) ∧ k a s1 = (.ok b, s') := by
  rw [Py.bind_run] at h
  rcases he : m s with ⟨e | a, s1⟩
  · rw [he] at h; cases h
  · rw [he] at h; exact ⟨a, s1, rfl, h⟩

/-- operations of the start-up that are not registrations leave the registrations alone -/
structure Tame (I : InitEnv V F W) : Prop where
  factories : FactoriesKeep I.env
  logger : ∀ v s, (I.initLogger v s).2.loc = s.loc
  parser : ∀ s, (I.mkParser s).2.loc = s.loc

theorem setupLogger_keep (hT : Tame I) {s s' : LState Svc V F W} {u : Unit}
    (h : setupLogger I s = (.ok u, s')) : s'.loc = s.loc := by
  obtain ⟨v, s1, h1, h2⟩ := bind_inv h
  have k1 := tryResolve_keep (P := fun _ => True) (fun f a s _ => hT.factories f a s) I.limit .settings [] s trivial
  rw [h1] at k1
  have k2 := hT.logger v s1
  rw [h2] at k2
  exact k2.trans k1

/-- the state in which plugins are loaded, for every mode -/
theorem body_cases (m : InitMode) {s s' : LState Svc V F W} {u : Unit} (h : body I m s = (.ok u, s')) :
    ∃ s1 s2 s3 s4, registerSettings I m s = (.ok (), s1) ∧ setupLogger I s1 = (.ok (), s2) ∧
      registerScript I m s2 = (.ok (), s3) ∧ registerCli I m s3 = (.ok (), s4) ∧
      plugins I m s4 = (.ok (), s') := by
  obtain ⟨_, s1, h1, h⟩ := bind_inv h
  obtain ⟨_, s2, h2, h⟩ := bind_inv h
  obtain ⟨_, s3, h3, h⟩ := bind_inv h
  obtain ⟨_, s4, h4, h⟩ := bind_inv h
  exact ⟨s1, s2, s3, s4, h1, h2, h3, h4, h⟩

theorem registerScript_ok {s s' : LState Svc V F W} {u : Unit}
    (h : registerScript I .SCRIPT s = (.ok u, s')) :
    s'.loc.singleton = s.loc.singleton ∧
      s'.loc.transient = ((s.loc.transient.set .algorithm I.fAlgorithm).set .container I.fContainer).set
        .estimator I.fEstimator := by
  unfold registerScript at h
  rw [if_pos (by decide)] at h
  obtain ⟨_, s1, h1, h⟩ := bind_inv h
  obtain ⟨_, s2, h2, h⟩ := bind_inv h
  have e1 := registerAsTransient_ok h1
  have e2 := registerAsTransient_ok h2
  have e3 := registerAsTransient_ok h
  exact ⟨by rw [e3.1, e2.1, e1.1], by rw [e3.2, e2.2, e1.2]⟩

theorem registerCli_ok (hT : Tame I) {s s' : LState Svc V F W} {u : Unit}
    (h : registerCli I .CLI s = (.ok u, s')) :
    ∃ p, I.env.isInst p .parser = true ∧ s'.loc.singleton = s.loc.singleton.set .parser p ∧
      s'.loc.transient = (s.loc.transient.set .controller I.fController).set .testHandler I.fTestHandler := by
  unfold registerCli at h
  rw [if_pos (by decide)] at h
  obtain ⟨p, s1, h1, h⟩ := bind_inv h
  obtain ⟨_, s2, h2, h⟩ := bind_inv h
  obtain ⟨_, s3, h3, h⟩ := bind_inv h
  have k := hT.parser s
  rw [h1] at k; dsimp only at k
  have e2 := registerAsSingleton_ok h2
  have e3 := registerAsTransient_ok h3
  have e4 := registerAsTransient_ok h
  refine ⟨p, e2.2.2, ?_, ?_⟩
  · rw [e4.1, e3.1, e2.1, k]
  · rw [e4.2, e3.2, e2.2.1, k]

theorem returned {m : InitMode} {s : IState V F W} (hs : s.initialized = false)
    (h : (initServices I m s).1 = .ok ()) :
    ∃ st, body I m s.st = (.ok (), st) ∧ (initServices I m s).2 = ⟨st, true⟩ := by
  rw [initServices_run, if_neg (by simp [hs])] at h ⊢
  rcases he : body I m s.st with ⟨e | u, st⟩
  · rw [he] at h; cases h
  · exact ⟨st, rfl, rfl⟩

/-- **C60.** After a successful start in SCRIPT mode: the settings, algorithm, container and estimator
services had their PyZEAL factories (all other registrations being as before), and then the plugins were
loaded successfully in that state. -/
theorem C60_script (hT : Tame I) (s : IState V F W) (hs : s.initialized = false)
    (h : (initServices I .SCRIPT s).1 = .ok ()) :
    ∃ st, hasFactory st .settings I.fSettings ∧ hasFactory st .algorithm I.fAlgorithm ∧
      hasFactory st .container I.fContainer ∧ hasFactory st .estimator I.fEstimator ∧
      st.loc.singleton = s.st.loc.singleton ∧
      (∀ t, t ≠ .settings → t ≠ .algorithm → t ≠ .container → t ≠ .estimator →
        st.loc.transient.get? t = s.st.loc.transient.get? t) ∧
      I.loadPlugins st = (.ok (), (initServices I .SCRIPT s).2.st) := by
  obtain ⟨st', hb, hr⟩ := returned hs h
  obtain ⟨s1, s2, s3, s4, h1, h2, h3, h4, h5⟩ := body_cases _ hb
  have e1 : s1.loc.singleton = s.st.loc.singleton ∧ s1.loc.transient = s.st.loc.transient.set .settings I.fSettings := by
    unfold registerSettings at h1; rw [if_pos (by decide)] at h1
    exact registerAsTransient_ok h1
  have e2 := setupLogger_keep hT h2
  have e3 := registerScript_ok h3
  have e4 : s4 = s3 := by
    unfold registerCli at h4; rw [if_neg (by decide)] at h4
    injection h4 with _ h4; exact h4.symm
  have e5 : I.loadPlugins s4 = (.ok (), st') := by
    unfold plugins at h5; rw [if_neg (by decide)] at h5; exact h5
  rw [e4] at e5
  have et : s3.loc.transient = (((s.st.loc.transient.set .settings I.fSettings).set .algorithm I.fAlgorithm).set
      .container I.fContainer).set .estimator I.fEstimator := by rw [e3.2, e2, e1.2]
  refine ⟨s3, ?_, ?_, ?_, ?_, ?_, ?_, by rw [hr]; exact e5⟩
  · unfold hasFactory; rw [et]; simp [Dict.get?_set]
  · unfold hasFactory; rw [et]; simp [Dict.get?_set]
  · unfold hasFactory; rw [et]; simp [Dict.get?_set]
  · unfold hasFactory; rw [et]; simp [Dict.get?_set]
  · rw [e3.1, e2, e1.1]
  · intro t t1 t2 t3 t4
    rw [et]; simp [Dict.get?_set, t1.symm, t2.symm, t3.symm, t4.symm]

/-- **C60.** After a successful start in CLI mode: settings, controller and test handler have their
PyZEAL factories, the parser is a singleton, and nothing else was registered. -/
theorem C60_cli (hT : Tame I) (s : IState V F W) (hs : s.initialized = false)
    (h : (initServices I .CLI s).1 = .ok ()) :
    let st := (initServices I .CLI s).2.st
    hasFactory st .settings I.fSettings ∧ hasFactory st .controller I.fController ∧
      hasFactory st .testHandler I.fTestHandler ∧
      (∃ p, st.loc.singleton.get? .parser = some p ∧ I.env.isInst p .parser = true) ∧
      (∀ t, t ≠ .parser → st.loc.singleton.get? t = s.st.loc.singleton.get? t) ∧
      (∀ t, t ≠ .settings → t ≠ .controller → t ≠ .testHandler →
        st.loc.transient.get? t = s.st.loc.transient.get? t) := by
  obtain ⟨st', hb, hr⟩ := returned hs h
  obtain ⟨s1, s2, s3, s4, h1, h2, h3, h4, h5⟩ := body_cases _ hb
  have e1 : s1.loc.singleton = s.st.loc.singleton ∧ s1.loc.transient = s.st.loc.transient.set .settings I.fSettings := by
    unfold registerSettings at h1; rw [if_pos (by decide)] at h1
    exact registerAsTransient_ok h1
  have e2 := setupLogger_keep hT h2
  have e3 : s3 = s2 := by
    unfold registerScript at h3; rw [if_neg (by decide)] at h3
    injection h3 with _ h3; exact h3.symm
  obtain ⟨p, hp, e4, e4'⟩ := registerCli_ok hT h4
  have e5 : st' = s4 := by
    unfold plugins at h5; rw [if_pos (by decide)] at h5
    injection h5 with _ h5; exact h5.symm
  have et : st'.loc.transient = ((s.st.loc.transient.set .settings I.fSettings).set .controller I.fController).set
      .testHandler I.fTestHandler := by rw [e5, e4', e3, e2, e1.2]
  have esg : st'.loc.singleton = s.st.loc.singleton.set .parser p := by rw [e5, e4, e3, e2, e1.1]
  rw [hr]
  refine ⟨?_, ?_, ?_, ⟨p, ?_, hp⟩, ?_, ?_⟩
  · unfold hasFactory; rw [et]; simp [Dict.get?_set]
  · unfold hasFactory; rw [et]; simp [Dict.get?_set]
  · unfold hasFactory; rw [et]; simp [Dict.get?_set]
  · rw [esg]; simp [Dict.get?_set]
  · intro t ht; rw [esg]; simp [Dict.get?_set, ht.symm]
  · intro t t1 t2 t3
    rw [et]; simp [Dict.get?_set, t1.symm, t2.symm, t3.symm]

/-- **C60.** In CLI mode plugins are not loaded: the start is the same whatever loading them would do. -/
theorem C60_cli_no_plugins (lp : Py (LState Svc V F W) Unit) (s : IState V F W) :
    initServices { I with loadPlugins := lp } .CLI s = initServices I .CLI s := by
  rw [initServices_run, initServices_run]
  rfl

/-- **C60.** In every mode with the GUI flag the start fails and changes nothing, unless a settings
service was registered before. -/
theorem C60_gui_fails (m : InitMode) (hm : m.gui = true) (s : IState V F W) (hs : s.initialized = false)
    (hn : I.env.isInst I.env.none .settings = false) (hl : I.limit ≠ 0)
    (h1 : s.st.loc.singleton.get? .settings = none) (h2 : s.st.loc.transient.get? .settings = none) :
    initServices I m s = (.error .invalidService, s) := by
  rw [initServices_run, if_neg (by simp [hs])]
  have hb : body I m s.st = (.error .invalidService, s.st) := by
    unfold body
    have : registerSettings I m s.st = (.ok (), s.st) := by
      unfold registerSettings
      rw [if_neg (by simp [InitMode.inside, InitMode.union, InitMode.CLI, InitMode.SCRIPT, hm])]; rfl
    rw [Py.bind_ok this]
    apply Py.bind_error
    unfold setupLogger
    apply Py.bind_error
    obtain ⟨n, hn'⟩ : ∃ n, I.limit = n + 1 := ⟨I.limit - 1, by omega⟩
    rw [hn']
    exact tryResolve_none I.env (by unfold found; rw [h1]; exact hn) h2 n []
  rw [hb]

/-- **C60.** In the combined mode CLI | SCRIPT only the settings service is registered, and the plugins
are loaded. -/
theorem C60_combined (hT : Tame I) (s : IState V F W) (hs : s.initialized = false)
    (h : (initServices I (.union .CLI .SCRIPT) s).1 = .ok ()) :
    ∃ st, st.loc.transient = s.st.loc.transient.set .settings I.fSettings ∧
      st.loc.singleton = s.st.loc.singleton ∧
      I.loadPlugins st = (.ok (), (initServices I (.union .CLI .SCRIPT) s).2.st) := by
  obtain ⟨st', hb, hr⟩ := returned hs h
  obtain ⟨s1, s2, s3, s4, h1, h2, h3, h4, h5⟩ := body_cases _ hb
  have e1 : s1.loc.singleton = s.st.loc.singleton ∧ s1.loc.transient = s.st.loc.transient.set .settings I.fSettings := by
    unfold registerSettings at h1; rw [if_pos (by decide)] at h1
    exact registerAsTransient_ok h1
  have e2 := setupLogger_keep hT h2
  have e3 : s3 = s2 := by
    unfold registerScript at h3; rw [if_neg (by decide)] at h3
    injection h3 with _ h3; exact h3.symm
  have e4 : s4 = s3 := by
    unfold registerCli at h4; rw [if_neg (by decide)] at h4
    injection h4 with _ h4; exact h4.symm
  have e5 : I.loadPlugins s4 = (.ok (), st') := by
    unfold plugins at h5; rw [if_neg (by decide)] at h5; exact h5
  rw [e4, e3] at e5
  exact ⟨s2, by rw [e2, e1.2], by rw [e2, e1.1], by rw [hr]; exact e5⟩

/-- **C60.** On a sealed locator a start in SCRIPT or CLI mode, or both, fails with `ValueError` and
changes nothing. -/
theorem C60_sealed (m : InitMode) (hm : m.gui = false) (s : IState V F W) (hs : s.initialized = false)
    (hsealed : s.st.loc.sealed = true) : initServices I m s = (.error .valueError, s) := by
  rw [initServices_run, if_neg (by simp [hs])]
  have hb : body I m s.st = (.error .valueError, s.st) := by
    unfold body
    apply Py.bind_error
    unfold registerSettings
    rw [if_pos (by simp [InitMode.inside, InitMode.union, InitMode.CLI, InitMode.SCRIPT, hm]),
      registerAsTransient_run, if_pos hsealed]
  rw [hb]

/-! a concrete start-up: objects are numbers, `n` being an instance of the type with number `n`; the world
is the list of log files; one plugin replaces the container factory -/

def svcNo : Svc → Nat
  | .settings => 0 | .algorithm => 1 | .container => 2 | .estimator => 3 | .parser => 4
  | .controller => 5 | .testHandler => 6 | .other n => n + 7

def initEnvEx : InitEnv Nat Nat (List Nat) where
  env := { isInst := fun v t => v == svcNo t, none := 1000, sig := fun _ => [], call := fun f _ s => (.ok f, s) }
  limit := 1000
  fSettings := 0
  fAlgorithm := 1
  fContainer := 2
  fEstimator := 3
  fController := 5
  fTestHandler := 6
  mkParser := pure 4
  initLogger := fun v => Py.modify fun s => ⟨s.loc, v :: s.world⟩
  loadPlugins := registerAsTransient (.other 0) 7

def initStart : IState Nat Nat (List Nat) := ⟨⟨Locator.empty, []⟩, false⟩

example : Tame initEnvEx := ⟨fun _ _ _ => rfl, fun _ _ => rfl, fun _ => rfl⟩

/-- a failed start in GUI mode, a successful one in SCRIPT mode, and an ignored one in CLI mode -/
example : ((initAll initEnvEx [.GUI, .SCRIPT, .CLI] initStart).1.map fun r => r matches .ok ()) = [false, true, true] ∧
    (initAll initEnvEx [.GUI, .SCRIPT, .CLI] initStart).2.st.loc.transient =
      [(.settings, 0), (.algorithm, 1), (.container, 2), (.estimator, 3), (.other 0, 7)] ∧
    (initAll initEnvEx [.CLI] initStart).2.st.loc.transient =
      [(.settings, 0), (.controller, 5), (.testHandler, 6)] ∧
    (initAll initEnvEx [.union .CLI .SCRIPT] initStart).2.st.loc.transient =
      [(.settings, 0), (.other 0, 7)] := by decide +kernel

end PyZeal.Props
