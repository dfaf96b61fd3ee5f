import Verif.Proof.Plugins
import Verif.Props.Init

/-!
# C74 – C79, C88: plugins
-/

set_option linter.unusedSectionVars false

namespace PyZeal.Props
open Spec Plugins Install

variable {T V F W C : Type} [DecidableEq T]

theorem not_dunder {s : PyStr} (h : dunder s = false) : ¬ Dunder s := fun hd => by
  rw [(dunder_iff s).2 hd] at h; cases h

/-! ## C74 -/

/-- **C74.** The entries that survive `discoverModules` and `isPyFile` are exactly the candidates of the
specification, and the (relative) module name is a dot and the stem. -/
theorem C74_candidates (entries : List PyStr) (c m : PyStr) :
    (c ∈ discoverModules entries ∧ isPyFile c = m ∧ m ≠ []) ↔
      (c ∈ entries ∧ ∃ stem, Candidate c stem ∧ m = '.' :: stem) := by
  constructor
  · rintro ⟨h1, rfl, h3⟩
    obtain ⟨h1, h2⟩ := List.mem_filter.1 h1
    have hd : ¬ Dunder c := fun h => by simp [(dunder_iff c).2 h] at h2
    rcases candidate_cases hd with ⟨h, -⟩ | ⟨stem, h, h'⟩
    · exact absurd h h3
    · exact ⟨h1, stem, h, h'⟩
  · rintro ⟨h1, stem, h, rfl⟩
    refine ⟨List.mem_filter.2 ⟨h1, ?_⟩, isPyFile_candidate h, by simp⟩
    simpa using fun hd => h.1 ((dunder_iff c).1 hd)

/-- an environment that writes down the names of the modules imported -/
def recorder (mods : PyStr → List (PyStr × Attr C)) (E : PlugEnv T V F (List PyStr) C) :
    PlugEnv T V F (List PyStr) C :=
  { E with importModule := fun n s => (.ok (mods n), ⟨s.loc, s.world ++ [n]⟩) }

/-- **C74 (partial).** Loading the plugins of a directory imports exactly the candidates, in the order of
the listing, by their stems relative to the plugin package; provided no entry of the directory begins with a
dot (see the counterexample).  (The classes found do not depend on this.) -/
theorem C74_imports_partial (mods : PyStr → List (PyStr × Attr C)) (hc : Comparable mods)
    (E : PlugEnv T V F (List PyStr) C) (entries : List PyStr) (hdot : ∀ c ∈ entries, c.head? ≠ some '.') :
    ∃ ns, Imports entries ns ∧ ∀ s : LState T V F (List PyStr), ∃ ks,
      locateAndLoadPlugins (recorder mods E) (.ok entries) s = (.ok ks, ⟨s.loc, s.world ++ ns⟩) := by
  suffices h : ∃ ns, Imports entries ns ∧ ∀ s : LState T V F (List PyStr), ∃ ks,
      locateLoop (recorder mods E) (discoverModules entries) s = (.ok ks, ⟨s.loc, s.world ++ ns⟩) from h
  induction entries with
  | nil => exact ⟨[], .nil, fun s => ⟨[], by rw [List.append_nil]; rfl⟩⟩
  | cons c cs ih =>
    obtain ⟨ns, h1, h2⟩ := ih fun c' h => hdot c' (List.mem_cons_of_mem _ h)
    by_cases hcand : ∃ stem, Candidate c stem
    · obtain ⟨stem, hcand⟩ := hcand
      refine ⟨_, .take hcand h1, fun s => ?_⟩
      rw [locateLoop_cons_take _ hcand (hdot c List.mem_cons_self)]
      have e1 : (recorder mods E).importModule (inPackage stem) s =
        (.ok (mods (inPackage stem)), ⟨s.loc, s.world ++ [inPackage stem]⟩) := rfl
      obtain ⟨ks, e3⟩ := h2 ⟨s.loc, s.world ++ [inPackage stem]⟩
      have ho : ∃ o, firstPlugin (discoverAttributes (mods (inPackage stem))) = .ok o := by
        rcases firstPlugin_spec (hc (inPackage stem)) with ⟨h, -⟩ | ⟨k, h, -⟩
        · exact ⟨_, h⟩
        · exact ⟨_, h⟩
      obtain ⟨o, ho⟩ := ho
      have e2 : (loadPlugin (mods (inPackage stem)) : Py (LState T V F (List PyStr)) (Option C))
          ⟨s.loc, s.world ++ [inPackage stem]⟩ = (.ok o, ⟨s.loc, s.world ++ [inPackage stem]⟩) := by
        unfold loadPlugin; rw [ho]; rfl
      refine ⟨o.toList ++ ks, ?_⟩
      rw [Py.bind_ok e1, Py.bind_ok e2, Py.bind_ok e3, Py.pure_run]
      simp
    · push Not at hcand
      exact ⟨ns, .skip hcand h1, fun s => by rw [locateLoop_cons_skip _ hcand]; exact h2 s⟩

/-- **C74, counterexample.** A candidate beginning with a dot (such as the lock file `.#x.py` of an editor) is
looked up outside of the plugin package. -/
theorem C74_counterexample :
    Candidate ".x.py".toList ".x".toList ∧
    resolveName pluginPackage (isPyFile ".x.py".toList) = .ok "pyzeal_plugins.x".toList ∧
    resolveName pluginPackage (isPyFile "...x.py".toList) = .error (.other 2) := by
  refine ⟨⟨?_, 'p', 'y', rfl, .inl rfl, .inl rfl, 'x', by decide, by decide⟩, by decide +kernel, by decide +kernel⟩
  exact not_dunder rfl

example : Imports ["a.py".toList, "__init__.py".toList, "notes.txt".toList, "B.PY".toList]
    [inPackage "a".toList, inPackage "B".toList] := by
  refine .take ⟨?_, 'p', 'y', rfl, .inl rfl, .inl rfl, 'a', by decide, by decide⟩ (.skip ?_ (.skip ?_
    (.take ⟨?_, 'P', 'Y', rfl, .inr rfl, .inr rfl, 'B', by decide, by decide⟩ .nil)))
  · exact not_dunder rfl
  · rintro stem ⟨h, -⟩; exact h ⟨_, rfl⟩
  · rintro stem ⟨-, h⟩; exact absurd (splitext_name h).2 (by decide)
  · exact not_dunder rfl

/-! ## C77 -/

theorem registerLoop_unsealed [Nonempty (LState T V F W)] (E : PlugEnv T V F W C) (cs : List C)
    (h : ∀ c ∈ cs, ∃ v t f, Provides E c v t f) : ∀ s : LState T V F W, s.loc.sealed = false →
    ∃ vs s', registerLoop E cs s = (.ok vs, s') ∧ s'.loc.sealed = false ∧ s'.loc.singleton = s.loc.singleton ∧
      ∀ t, (∀ f, LastProvided E cs t f → s'.loc.transient.get? t = some f) ∧
        ((∀ c ∈ cs, ∀ v f, ¬ Provides E c v t f) → s'.loc.transient.get? t = s.loc.transient.get? t) := by
  induction cs with
  | nil =>
    intro s hs
    refine ⟨[], s, rfl, hs, rfl, fun t => ⟨?_, fun _ => rfl⟩⟩
    rintro f ⟨pre, c, post, v, he, -⟩
    simp at he
  | cons c cs ih =>
    intro s hs
    obtain ⟨v, t, f, hp⟩ := h c List.mem_cons_self
    obtain ⟨w, h1⟩ := registerPlugin_ok E hp s
    rw [if_neg (by simp [hs])] at h1
    obtain ⟨vs, s', h2, h3, h4, h5⟩ := ih (fun c' hc => h c' (List.mem_cons_of_mem _ hc))
      ⟨{ s.loc with transient := s.loc.transient.set t f }, w⟩ hs
    refine ⟨v :: vs, s', ?_, h3, h4, fun t' => ⟨?_, ?_⟩⟩
    · show (registerPlugin E c >>= _) s = _
      rw [Py.bind_ok h1, Py.bind_ok h2]; rfl
    · rintro f' ⟨pre, c', post, v', he, hp', hpost⟩
      rcases pre with _ | ⟨x, pre⟩
      · injection he with he1 he2
        subst he1; subst he2
        rw [(h5 t').2 hpost]
        obtain rfl := quiet_functional hp.1 hp'.1
        obtain rfl := quiet_functional hp.2.1 hp'.2.1
        obtain rfl := quiet_functional hp.2.2 hp'.2.2
        rw [Dict.get?_set, if_pos rfl]
      · injection he with he1 he2
        exact (h5 t').1 f' ⟨pre, c', post, v', he2, hp', hpost⟩
    · intro hno
      rw [(h5 t').2 fun c' hc => hno c' (List.mem_cons_of_mem _ hc), Dict.get?_set, if_neg]
      rintro rfl
      exact hno c List.mem_cons_self v f hp

/-- **C77 (partial).** Loading the plugins found in a directory on an unsealed locator succeeds, and
afterwards the factory registered for a service is that of the last plugin (in the order of the listing) that
provides one, and the former one if none does; singletons are unchanged.  The plugins are those the
specification finds.  (Entries beginning with a dot are excluded, see C74; a singleton of the same type keeps
precedence, see the counterexample.) -/
theorem C77_factories_partial [Nonempty (LState T V F W)] (E : PlugEnv T V F W C)
    (mods : PyStr → List (PyStr × Attr C)) (hE : ImportsFrom E mods) (hc : Comparable mods) (entries : List PyStr)
    (hdot : ∀ c ∈ entries, c.head? ≠ some '.') (ks : List C) (hk : Finds mods entries ks)
    (hp : ∀ c ∈ ks, ∃ v t f, Provides E c v t f) (s : LState T V F W) (hs : s.loc.sealed = false) :
    ∃ vs s', loadPlugins E (.ok entries) s = (.ok vs, s') ∧ s'.loc.sealed = false ∧
      s'.loc.singleton = s.loc.singleton ∧
      ∀ t, (∀ f, LastProvided E ks t f → s'.loc.transient.get? t = some f) ∧
        ((∀ c ∈ ks, ∀ v f, ¬ Provides E c v t f) → s'.loc.transient.get? t = s.loc.transient.get? t) := by
  obtain ⟨ks', hf, hq⟩ := locateLoop_finds E hE hc entries hdot
  obtain rfl := finds_functional hk hf
  obtain ⟨w, h1⟩ := hq s
  obtain ⟨vs, s', h2, h3, h4, h5⟩ := registerLoop_unsealed E ks hp ⟨s.loc, w⟩ hs
  refine ⟨vs, s', ?_, h3, h4, h5⟩
  have h1' : locateAndLoadPlugins E (.ok entries) s = (.ok ks, ⟨s.loc, w⟩) := h1
  unfold loadPlugins
  rw [Py.bind_ok h1', h2]

/-- **C77 (partial).** Hence a service without singleton resolves through the factory of the last plugin
providing it: what is returned was returned by that factory (for factories that do not register services). -/
theorem C77_resolves_partial [Nonempty (LState T V F W)] (E : PlugEnv T V F W C) (L : LEnv T V F W)
    (mods : PyStr → List (PyStr × Attr C)) (hE : ImportsFrom E mods) (hc : Comparable mods) (entries : List PyStr)
    (hdot : ∀ c ∈ entries, c.head? ≠ some '.') (ks : List C) (hk : Finds mods entries ks)
    (hp : ∀ c ∈ ks, ∃ v t f, Provides E c v t f) (s s1 s' : LState T V F W) (hs : s.loc.sealed = false)
    (vs : List V) (hload : loadPlugins E (.ok entries) s = (.ok vs, s1))
    (t : T) (f : F) (hl : LastProvided E ks t f) (hn : L.isInst L.none t = false)
    (h0 : s.loc.singleton.get? t = none) (m : Nat) (kw : Dict String V) (v : V)
    (hr : Locator.tryResolve L m t kw s1 = (.ok v, s')) :
    ∃ args s2, L.call f args s2 = (.ok v, s') := by
  obtain ⟨vs', s1', h1, -, h3, h4⟩ := C77_factories_partial E mods hE hc entries hdot ks hk hp s hs
  rw [hload] at h1
  injection h1 with h1 h1'
  subst h1'
  rcases m with _ | m
  · cases hr
  have hg := (h4 t).1 f hl
  have hi : L.isInst (Locator.found L s1.loc t) t = false := by
    unfold Locator.found; rw [h3, h0]; exact hn
  rw [Locator.tryResolve_some L hi hg] at hr
  unfold Locator.build at hr
  rcases hcol : Locator.collect (fun t' => Locator.tryResolve L m t' []) kw (L.sig f) s1 with ⟨_ | args, s2⟩
  · rw [Py.bind_error hcol] at hr; cases hr
  rw [Py.bind_ok hcol] at hr
  rcases hcall : L.call f args s2 with ⟨_ | v', s3⟩
  · rw [Py.bind_error hcall] at hr; cases hr
  rw [Py.bind_ok hcall] at hr
  unfold Locator.checked at hr
  by_cases hv : L.isInst v' t = true
  · rw [if_pos hv] at hr
    injection hr with hr1 hr2
    injection hr1 with hr1
    subst hr1; subst hr2
    exact ⟨args, s2, hcall⟩
  · rw [if_neg hv] at hr; cases hr

/-- **C77.** On a sealed locator loading fails with the first plugin, and registers nothing. -/
theorem C77_sealed (E : PlugEnv T V F W C) (mods : PyStr → List (PyStr × Attr C)) (hE : ImportsFrom E mods)
    (hc : Comparable mods) (entries : List PyStr) (hdot : ∀ c ∈ entries, c.head? ≠ some '.') (k : C) (ks : List C)
    (hk : Finds mods entries (k :: ks)) (hp : ∃ v t f, Provides E k v t f) (s : LState T V F W)
    (hs : s.loc.sealed = true) :
    ∃ s', loadPlugins E (.ok entries) s = (.error .valueError, s') ∧ s'.loc = s.loc := by
  obtain ⟨ks', hf, hq⟩ := locateLoop_finds E hE hc entries hdot
  obtain rfl := finds_functional hk hf
  obtain ⟨w, h1⟩ := hq s
  obtain ⟨v, t, f, hp⟩ := hp
  obtain ⟨w', h2⟩ := registerPlugin_ok E hp ⟨s.loc, w⟩
  rw [if_pos hs] at h2
  have h1' : locateAndLoadPlugins E (.ok entries) s = (.ok (k :: ks), ⟨s.loc, w⟩) := h1
  refine ⟨⟨s.loc, w'⟩, ?_, rfl⟩
  unfold loadPlugins
  rw [Py.bind_ok h1']
  show (registerPlugin E k >>= _) _ = _
  rw [Py.bind_error h2]

/-- **C77.** All modules are imported before the first plugin is registered: if reading the directory or
importing one of the modules fails, no plugin is registered. -/
theorem C77_import_failure (E : PlugEnv T V F W C) (hE : ∀ n s, (E.importModule n s).2.loc = s.loc)
    (entries : Except Err (List PyStr)) (s s1 : LState T V F W) (e : Err)
    (h : locateAndLoadPlugins E entries s = (.error e, s1)) :
    loadPlugins E entries s = (.error e, s1) ∧ s1.loc = s.loc := by
  refine ⟨by unfold loadPlugins; exact Py.bind_error h, ?_⟩
  have lift_keep : ∀ {α : Type} (x : Except Err α) (s : LState T V F W), (lift x s).2 = s := by
    intro α x s; cases x <;> rfl
  have loop : ∀ (cs : List PyStr) (s : LState T V F W), (locateLoop E cs s).2.loc = s.loc := by
    intro cs
    induction cs with
    | nil => intro s; rfl
    | cons c cs ih =>
      intro s
      show ((if isPyFile c = [] then _ else _ : Py (LState T V F W) (List C)) s).2.loc = _
      by_cases hc : isPyFile c = []
      · rw [if_pos hc]; exact ih s
      · rw [if_neg hc]
        have himp : ∀ s, (importCandidate E (isPyFile c) s).2.loc = s.loc := by
          intro s
          unfold importCandidate
          rcases hn : resolveName pluginPackage (isPyFile c) with e | n
          · rfl
          · exact hE n s
        rcases h1 : importCandidate E (isPyFile c) s with ⟨_ | m, s1⟩
        · rw [Py.bind_error h1]; have := himp s; rw [h1] at this; exact this
        · rw [Py.bind_ok h1]
          have e1 := himp s; rw [h1] at e1
          rcases h2 : (loadPlugin m : Py (LState T V F W) (Option C)) s1 with ⟨_ | p, s2⟩
          · rw [Py.bind_error h2]
            have := lift_keep (firstPlugin (discoverAttributes m)) s1
            unfold loadPlugin at h2; rw [h2] at this
            show s2.loc = _
            rw [show s2 = s1 from this]; exact e1
          · rw [Py.bind_ok h2]
            have := lift_keep (firstPlugin (discoverAttributes m)) s1
            unfold loadPlugin at h2; rw [h2] at this
            have e2 : s2 = s1 := this
            rcases h3 : locateLoop E cs s2 with ⟨_ | ps, s3⟩
            · rw [Py.bind_error h3]; have e3 := ih s2; rw [h3] at e3
              show s3.loc = _
              rw [show s3.loc = s2.loc from e3, e2]; exact e1
            · rw [Py.bind_ok h3]; have e3 := ih s2; rw [h3] at e3
              show s3.loc = _
              rw [show s3.loc = s2.loc from e3, e2]; exact e1
  cases entries with
  | error e' => injection h with _ h; rw [← h]
  | ok es =>
    have := loop (discoverModules es) s
    have h' : locateLoop E (discoverModules es) s = (.error e, s1) := h
    rw [h'] at this; exact this

/-- A small world: service types, objects, factories and plugin classes are numbers; factory `f` returns
the object `100 * t + f`; plugin class `c` provides factory `c` for service `c % 10`. -/
def plugEnv : PlugEnv Nat Nat Nat (List PyStr) Nat where
  importModule n s := (.ok (if n = inPackage "a".toList then [("A".toList, .base), ("X".toList, .plugin 15), ("Y".toList, .plugin 27)]
    else if n = inPackage "b".toList then [("Z".toList, .plugin 25)] else []), ⟨s.loc, s.world ++ [n]⟩)
  getInstance c := pure c
  pluginType v := pure (v % 10)
  factory c := pure c

/-- the modules of this world -/
def plugMods (n : PyStr) : List (PyStr × Attr Nat) :=
  if n = inPackage "a".toList then [("A".toList, .base), ("X".toList, .plugin 15), ("Y".toList, .plugin 27)]
    else if n = inPackage "b".toList then [("Z".toList, .plugin 25)] else []

/-- the directory of this world -/
def plugDir : List PyStr := ["__init__.py".toList, "a.py".toList, "data.txt".toList, "b.py".toList]

theorem plugEnv_imports : ImportsFrom plugEnv plugMods := fun n s => ⟨s.world ++ [n], rfl⟩

theorem plugMods_comparable : Comparable plugMods := by
  intro n m h
  unfold plugMods at h
  split at h
  · simp at h
  · split at h <;> simp at h

theorem plugEnv_provides (c : Nat) : Provides plugEnv c c (c % 10) c :=
  ⟨fun s => ⟨s.world, rfl⟩, fun s => ⟨s.world, rfl⟩, fun s => ⟨s.world, rfl⟩⟩

theorem plugDir_finds : Finds plugMods plugDir [15, 25] := by
  refine .skip ?_ (.take (stem := "a".toList) ⟨?_, 'p', 'y', rfl, .inl rfl, .inl rfl, 'a', by decide, by decide⟩ ?_ (.skip ?_
    (.take (stem := "b".toList) ⟨?_, 'p', 'y', rfl, .inl rfl, .inl rfl, 'b', by decide, by decide⟩ ?_ .nil)))
  · rintro stem ⟨h, -⟩; exact h ⟨_, rfl⟩
  · exact not_dunder rfl
  · refine ⟨[("A".toList, .base)], "X".toList, [("Y".toList, .plugin 27)], rfl, ?_, ?_⟩
    · exact not_dunder rfl
    · intro m j h; simp at h
  · rintro stem ⟨-, h⟩; exact absurd (splitext_name h).2 (by decide)
  · exact not_dunder rfl
  · refine ⟨[], "Z".toList, [], rfl, ?_, ?_⟩
    · exact not_dunder rfl
    · intro m j h; cases h

example : LastProvided plugEnv [15, 25] 5 25 :=
  ⟨[15], 25, [], 25, rfl, plugEnv_provides 25, by intro c h; cases h⟩

/-- objects `n` are instances of the type `n / 100`, factory `f` returns `500 + f` -/
def plugLoc : LEnv Nat Nat Nat (List PyStr) :=
  { isInst := fun v t => v / 100 = t, none := 0, sig := fun _ => [], call := fun f _ => pure (500 + f) }

/-- **C77, counterexample.** A plugin does not replace a service that is registered as a singleton. -/
theorem C77_counterexample :
    let s : LState Nat Nat Nat (List PyStr) := ⟨⟨[], [(5, 599)], false⟩, []⟩
    let r := loadPlugins plugEnv (.ok plugDir) s
    r.1 = .ok [15, 25] ∧ r.2.loc.transient.get? 5 = some 25 ∧
      (Locator.tryResolve plugLoc 9 5 [] r.2).1 = .ok 599 := by
  refine ⟨by decide +kernel, by decide +kernel, by decide +kernel⟩

example : (Locator.tryResolve plugLoc 9 5 [] (loadPlugins plugEnv (.ok plugDir) ⟨⟨[(5, 1)], [], false⟩, []⟩).2).1 =
    .ok 525 := by decide +kernel

/-! ## C78 -/

/-- a number of calls of `getInstance` -/
def callLoader : Nat → Py LoaderState (List Nat)
  | 0 => pure []
  | n + 1 => do
    let i ← getLoader
    let l ← callLoader n
    pure (i :: l)

/-- **C78, counterexample.** Two calls return two different loaders. -/
theorem C78_counterexample : (callLoader 2 ⟨none, 0⟩).1 = .ok [0, 1] := rfl

/-- **C78 (partial).** If `_instance` has been set (by someone else) every call returns it; otherwise no two
calls ever return the same loader. -/
theorem C78_calls_partial (n : Nat) : ∀ s : LoaderState,
    (∀ i, s.inst = some i → callLoader n s = (.ok (List.replicate n i), s)) ∧
    (s.inst = none → ∃ l, (callLoader n s).1 = .ok l ∧ l.Nodup ∧ l.length = n ∧ (∀ i ∈ l, s.created ≤ i)) := by
  induction n with
  | zero => intro s; exact ⟨fun i _ => rfl, fun _ => ⟨[], rfl, List.nodup_nil, rfl, by simp⟩⟩
  | succ n ih =>
    intro s
    constructor
    · intro i hi
      have h1 : getLoader s = (.ok i, s) := by
        unfold getLoader
        rw [Py.bind_ok (Py.get_run s), hi]; rfl
      show (getLoader >>= _) s = _
      rw [Py.bind_ok h1, Py.bind_ok ((ih s).1 i hi)]
      rfl
    · intro hi
      have h1 : getLoader s = (.ok s.created, { s with created := s.created + 1 }) := by
        obtain ⟨inst, created⟩ := s
        dsimp only at hi
        subst hi
        rfl
      obtain ⟨l, h2, h3, h4, h5⟩ := (ih { s with created := s.created + 1 }).2 hi
      rcases hr : callLoader n { s with created := s.created + 1 } with ⟨r, s'⟩
      rw [hr] at h2
      dsimp only at h2
      subst h2
      refine ⟨s.created :: l, ?_, ?_, by simp [h4], ?_⟩
      · show ((getLoader >>= _) s).1 = _
        rw [Py.bind_ok h1, Py.bind_ok hr]; rfl
      · refine List.nodup_cons.2 ⟨fun hm => ?_, h3⟩
        have := h5 _ hm
        dsimp only at this
        omega
      · intro i hm
        rcases List.mem_cons.1 hm with rfl | hm
        · exact le_refl _
        · exact le_trans (Nat.le_succ _) (h5 i hm)

/-! ## C79 -/

/-- **C79.** The printed plugin has 30 characters for the name — its characters, and blanks if it is
shorter — followed by two blanks, `@ v` and the version numbers separated by dots. -/
theorem C79_aligned (name : PyStr) (a b c : Int) :
    ∃ field, pluginStr name (a, b, c) = field ++ ("  @ v" ++ toString a ++ "." ++ toString b ++ "." ++ toString c).toList ∧
      field.length = 30 ∧
      ∀ i, i < 30 → field[i]? = some (if h : i < name.length then name[i] else ' ') := by
  refine ⟨ljust 30 (name.take (min name.length 30)), ?_, ?_, ?_⟩
  · unfold pluginStr intStr
    simp
  · unfold ljust
    simp
  · intro i hi
    unfold ljust
    by_cases h : i < name.length
    · rw [List.getElem?_append_left (by simp; omega), dif_pos h, List.getElem?_take_of_lt (by omega)]
      exact List.getElem?_eq_getElem h
    · rw [List.getElem?_append_right (by simp; omega), dif_neg h, List.getElem?_replicate, if_pos (by simp; omega)]

example : pluginStr "my plugin".toList (1, 0, 2) = "my plugin                       @ v1.0.2".toList := by decide +kernel

/-! ## C75, C76 -/

/-- A file at a path has the last component of the path as its name. -/
theorem walk_last (fs : FSys) (hs : Sane fs) (p : PathS) : ∀ cur q, walk fs cur p = some q → fs.node q ≠ some .dir →
    (p = [] ∧ q = cur) ∨ ∃ pre, q = pre ++ [p.getLastD ""] ∧ p.getLastD "" ≠ "" := by
  induction p with
  | nil => intro cur q h _; injection h with h; exact .inl ⟨rfl, h.symm⟩
  | cons c cs ih =>
    intro cur q h hq
    right
    have go : (∃ pre, q = pre ++ [cs.getLastD ""] ∧ cs.getLastD "" ≠ "") →
        ∃ pre, q = pre ++ [(c :: cs).getLastD ""] ∧ (c :: cs).getLastD "" ≠ "" := by
      rintro ⟨pre, h2, h3⟩
      rcases cs with _ | ⟨d, ds⟩
      · exact absurd rfl h3
      · exact ⟨pre, h2, h3⟩
    unfold walk at h
    by_cases hd : fs.node cur = some .dir
    · rw [if_pos hd] at h
      by_cases h1 : c = "" ∨ c = "."
      · rw [if_pos h1] at h
        rcases ih cur q h hq with ⟨rfl, rfl⟩ | h2
        · exact absurd hd hq
        · exact go h2
      · rw [if_neg h1] at h
        by_cases h2 : c = ".."
        · rw [if_pos h2] at h
          rcases ih _ q h hq with ⟨rfl, rfl⟩ | h3
          · exfalso
            apply hq
            rcases List.eq_nil_or_concat cur with rfl | ⟨l, x, rfl⟩
            · exact hd
            · rw [List.concat_eq_append, List.dropLast_concat]
              rw [List.concat_eq_append] at hd
              exact hs l [x] (by rw [hd]; simp) (by simp)
          · exact go h3
        · rw [if_neg h2] at h
          rcases ih _ q h hq with ⟨rfl, rfl⟩ | h3
          · exact ⟨cur, rfl, fun e => h1 (.inl e)⟩
          · exact go h3
    · rw [if_neg hd] at h; cases h

theorem lookup_file {fs : FSys} (hs : Sane fs) {cwd q : List String} {p : PathS} {c : Nat}
    (h : lookup fs cwd p = some (q, .file c)) :
    fs.node q = some (.file c) ∧ ∃ pre, q = pre ++ [p.getLastD ""] := by
  unfold lookup at h
  rcases hl : locate fs cwd p with _ | q'
  · rw [hl] at h; cases h
  rw [hl] at h
  dsimp only at h
  rcases hn : fs.node q' with _ | n
  · rw [hn] at h; cases h
  rw [hn] at h
  injection h with h
  injection h with h1 h2
  subst h1; subst h2
  refine ⟨hn, ?_⟩
  have hq : fs.node q' ≠ some .dir := by rw [hn]; simp
  unfold locate at hl
  split at hl
  · rcases walk_last fs hs _ _ _ hl hq with ⟨h, -⟩ | ⟨pre, h, -⟩
    · cases h
    · exact ⟨pre, h⟩
  · cases hl
  · cases hl
  · rename_i h1 h2 h3
    rcases walk_last fs hs _ _ _ hl hq with ⟨h, -⟩ | ⟨pre, h, -⟩
    · exact absurd h h3
    · exact ⟨pre, h⟩

/-- the outcome of installing an existing path -/
theorem installPlugin_found {fs : FSys} {dir cwd q : List String} {src : PathS} {n : Node}
    (hnul : hasNul src = false) (h : lookup fs cwd src = some (q, n)) :
    installPlugin dir cwd src fs = match copy dir src q n fs with
      | (.ok _, fs') => (.ok true, fs')
      | (.error e, fs') => (.error e, fs') := by
  unfold installPlugin
  rw [Py.bind_ok (Py.get_run fs), if_neg (by simp [hnul]), h]
  show (copy dir src q n >>= fun _ => pure true) fs = _
  rw [Py.bind_run]
  rcases copy dir src q n fs with ⟨_ | _, fs'⟩ <;> rfl

/-- **C75 (partial).** Installing an existing file puts a copy of it, under its own name, into the plugin
directory and changes nothing else; provided the plugin directory is a writable directory, the file is not
already the one in the plugin directory, and there is no directory of this name. -/
theorem C75_install_partial (fs : FSys) (hs : Sane fs) (dir cwd : List String) (src : PathS)
    (hnul : hasNul src = false) (pre : List String) (name : String) (c : Nat)
    (h : lookup fs cwd src = some (pre ++ [name], .file c)) (hdir : fs.node dir = some .dir)
    (hw : fs.writable dir = true) (hself : pre ≠ dir) (hd : fs.node (dir ++ [name]) ≠ some .dir) :
    ∃ fs', installPlugin dir cwd src fs = (.ok true, fs') ∧ fs'.writable = fs.writable ∧
      fs'.node (dir ++ [name]) = some (.file c) ∧ ∀ x, x ≠ dir ++ [name] → fs'.node x = fs.node x := by
  obtain ⟨-, pre', he⟩ := lookup_file hs h
  have hn : src.getLastD "" = name := by
    have := congrArg List.getLast? he
    simpa using this.symm
  have ht : copyTarget fs dir src = dir ++ [name] := by
    unfold copyTarget; rw [if_pos hdir, hn]
  refine ⟨setNode fs (dir ++ [name]) (some (.file c)), ?_, rfl, ?_, ?_⟩
  · rw [installPlugin_found hnul h]
    have : copy dir src (pre ++ [name]) (.file c) fs = (.ok (), setNode fs (dir ++ [name]) (some (.file c))) := by
      unfold copy
      dsimp only
      rw [ht, if_neg (by simpa using hself)]
      split
      · rename_i h'; exact absurd h' hd
      · rw [List.dropLast_concat, if_pos hw]
    rw [this]
  · simp [setNode]
  · intro x hx; simp [setNode, hx]

/-- **C75.** Whatever the outcome of an installation, in every file system and for every path, at most the
entry of that name in the plugin directory (if it exists) is changed. -/
theorem C75_install_touches (fs : FSys) (dir cwd : List String) (src : PathS) (hdir : fs.node dir = some .dir) (x : List String)
    (hx : x ≠ dir ++ [src.getLastD ""]) : (installPlugin dir cwd src fs).2.node x = fs.node x := by
  have ht : copyTarget fs dir src = dir ++ [src.getLastD ""] := by
    unfold copyTarget; rw [if_pos hdir]
  have hcopy : ∀ q n, ((copy dir src q n fs).2).node x = fs.node x := by
    intro q n
    unfold copy
    cases n with
    | dir => rfl
    | file c =>
      dsimp only
      split
      · rfl
      · split
        · rfl
        · split
          · rw [ht]; unfold setNode; dsimp only; rw [if_neg hx]
          · rfl
  by_cases hnul : hasNul src = true
  · unfold installPlugin
    rw [Py.bind_ok (Py.get_run fs), if_pos hnul]; rfl
  · rw [Bool.not_eq_true] at hnul
    rcases h : lookup fs cwd src with _ | ⟨q, n⟩
    · unfold installPlugin
      rw [Py.bind_ok (Py.get_run fs), if_neg (by simp [hnul]), h]; rfl
    · rw [installPlugin_found hnul h]
      have := hcopy q n
      rcases hcc : copy dir src q n fs with ⟨_ | _, fs'⟩ <;> (rw [hcc] at this; exact this)

/-- **C75.** Installing a path at which there is nothing reports failure and changes nothing. -/
theorem C75_install_missing (fs : FSys) (dir cwd : List String) (src : PathS) (h : lookup fs cwd src = none) :
    installPlugin dir cwd src fs = (.ok false, fs) := by
  unfold installPlugin
  rw [Py.bind_ok (Py.get_run fs)]
  split
  · rfl
  · rw [h]; rfl

/-! the path of an entry of the plugin directory -/

theorem walk_append (fs : FSys) (a b : PathS) : ∀ cur, walk fs cur (a ++ b) = (walk fs cur a).bind (fun q => walk fs q b) := by
  induction a with
  | nil => intro cur; rfl
  | cons c cs ih =>
    intro cur
    simp only [List.cons_append, walk]
    split
    · split
      · exact ih cur
      · split
        · exact ih _
        · exact ih _
    · rfl

theorem walk_plain (fs : FSys) (hs : Sane fs) (p : PathS) (hp : ∀ n ∈ p, PlainName n) : ∀ cur, fs.node (cur ++ p) = some .dir →
    walk fs cur p = some (cur ++ p) := by
  induction p with
  | nil => intro cur _; simp [walk]
  | cons c cs ih =>
    intro cur h
    obtain ⟨h1, h2, h3, -⟩ := hp c List.mem_cons_self
    have hd : fs.node cur = some .dir := hs cur (c :: cs) (by rw [h]; simp) (by simp)
    unfold walk
    rw [if_pos hd, if_neg (by simp [h1, h2]), if_neg h3, ih (fun n hn => hp n (List.mem_cons_of_mem _ hn)) _ (by simpa using h)]
    simp

theorem plain_nul {l : List String} (h : ∀ n ∈ l, PlainName n) : hasNul l = false := by
  unfold hasNul
  rw [List.any_eq_false]
  intro n hn
  simpa using (h n hn).2.2.2

/-- a relative path below the plugin directory -/
theorem join_dir {dir : List String} (hne : dir ≠ []) (hp : ∀ n ∈ dir, PlainName n) {f : PathS}
    (hf : ∀ c cs, f ≠ "" :: c :: cs) : join (dirPath dir) f = "" :: (dir ++ f) := by
  unfold join
  split
  · rename_i c cs; exact absurd rfl (hf c cs)
  · rw [if_neg]
    · rfl
    · obtain ⟨l, x, rfl⟩ : ∃ l x, dir = l ++ [x] := ⟨_, _, (List.dropLast_append_getLast hne).symm⟩
      unfold dirPath
      rw [← List.cons_append, List.getLast?_concat]
      intro h
      injection h with h
      exact (hp x (by simp)).1 h

theorem lookup_below {fs : FSys} (hs : Sane fs) {dir cwd : List String} (hne : dir ≠ []) (hp : ∀ n ∈ dir, PlainName n)
    (hdir : fs.node dir = some .dir) {f : PathS} (hf : ∀ c cs, f ≠ "" :: c :: cs) :
    lookup fs cwd (join (dirPath dir) f) = match walk fs dir f with
      | none => none
      | some q => (fs.node q).map (fun n => (q, n)) := by
  rw [join_dir hne hp hf]
  unfold lookup locate
  obtain ⟨c, cs, rfl⟩ : ∃ c cs, dir = c :: cs := by
    rcases dir with _ | ⟨c, cs⟩
    · exact absurd rfl hne
    · exact ⟨c, cs, rfl⟩
  have : walk fs [] (c :: (cs ++ f)) = walk fs (c :: cs) f := by
    rw [← List.cons_append, walk_append, walk_plain fs hs (c :: cs) hp [] hdir]
    rfl
  simp only [List.cons_append, this]
  rfl

/-- **C75.** Uninstalling the name of a file in the plugin directory removes exactly this file. -/
theorem C75_uninstall (fs : FSys) (hs : Sane fs) (dir cwd : List String) (hne : dir ≠ []) (hp : ∀ n ∈ dir, PlainName n)
    (hdir : fs.node dir = some .dir) (hw : fs.writable dir = true) (name : String) (hname : PlainName name) (c : Nat)
    (h : fs.node (dir ++ [name]) = some (.file c)) :
    ∃ fs', uninstallPlugin dir cwd [name] fs = (.ok true, fs') ∧ fs'.writable = fs.writable ∧
      fs'.node (dir ++ [name]) = none ∧ ∀ x, x ≠ dir ++ [name] → fs'.node x = fs.node x := by
  have hf : ∀ c cs, [name] ≠ "" :: c :: cs := by intro c cs h; simp at h
  obtain ⟨n1, n2, n3, n4⟩ := hname
  have hwalk : walk fs dir [name] = some (dir ++ [name]) := by
    simp [walk, hdir, n1, n2, n3]
  have hl : lookup fs cwd (join (dirPath dir) [name]) = some (dir ++ [name], .file c) := by
    rw [lookup_below hs hne hp hdir hf, hwalk]
    dsimp only
    rw [h]; rfl
  have hnul : hasNul (join (dirPath dir) [name]) = false := by
    rw [join_dir hne hp hf]
    unfold hasNul
    rw [List.any_eq_false]
    intro x hx
    rcases List.mem_cons.1 hx with rfl | hx
    · decide
    · rcases List.mem_append.1 hx with hx | hx
      · simpa using (hp x hx).2.2.2
      · rw [List.mem_singleton.1 hx]; simpa using n4
  refine ⟨setNode fs (dir ++ [name]) none, ?_, rfl, by simp [setNode], fun x hx => by simp [setNode, hx]⟩
  unfold uninstallPlugin remove
  rw [if_neg (by simp [hnul]), hl]
  dsimp only
  rw [List.dropLast_concat, if_pos hw]

/-- **C75.** Uninstalling a name that is not in the plugin directory reports failure and changes nothing. -/
theorem C75_uninstall_absent (fs : FSys) (hs : Sane fs) (dir cwd : List String) (hne : dir ≠ [])
    (hp : ∀ n ∈ dir, PlainName n) (hdir : fs.node dir = some .dir) (name : String) (hname : PlainName name)
    (h : fs.node (dir ++ [name]) = none) :
    uninstallPlugin dir cwd [name] fs = (.ok false, fs) := by
  have hf : ∀ c cs, [name] ≠ "" :: c :: cs := by intro c cs h; simp at h
  obtain ⟨n1, n2, n3, n4⟩ := hname
  have hwalk : walk fs dir [name] = some (dir ++ [name]) := by
    simp [walk, hdir, n1, n2, n3]
  have hl : lookup fs cwd (join (dirPath dir) [name]) = none := by
    rw [lookup_below hs hne hp hdir hf, hwalk]
    dsimp only
    rw [h]; rfl
  have hnul : hasNul (join (dirPath dir) [name]) = false := by
    rw [join_dir hne hp hf]
    unfold hasNul
    rw [List.any_eq_false]
    intro x hx
    rcases List.mem_cons.1 hx with rfl | hx
    · decide
    · rcases List.mem_append.1 hx with hx | hx
      · simpa using (hp x hx).2.2.2
      · rw [List.mem_singleton.1 hx]; simpa using n4
  unfold uninstallPlugin remove
  rw [if_neg (by simp [hnul]), hl]

/-- **C75.** An operation that reports failure, or raises, has changed nothing. -/
theorem C75_failure_unchanged (fs : FSys) (dir cwd : List String) (p : PathS) :
    ((installPlugin dir cwd p fs).1 ≠ .ok true → (installPlugin dir cwd p fs).2 = fs) ∧
    ((uninstallPlugin dir cwd p fs).1 ≠ .ok true → (uninstallPlugin dir cwd p fs).2 = fs) := by
  constructor
  · intro h
    by_cases hnul : hasNul p = true
    · unfold installPlugin
      rw [Py.bind_ok (Py.get_run fs), if_pos hnul]; rfl
    · rw [Bool.not_eq_true] at hnul
      rcases hl : lookup fs cwd p with _ | ⟨q, n⟩
      · rw [C75_install_missing fs dir cwd p hl]
      · rw [installPlugin_found hnul hl] at h ⊢
        have hc : (copy dir p q n fs).1 ≠ .ok () → (copy dir p q n fs).2 = fs := by
          unfold copy
          cases n with
          | dir => intro _; rfl
          | file c =>
            dsimp only
            split
            · intro _; rfl
            · split
              · intro _; rfl
              · split
                · intro h; exact absurd rfl h
                · intro _; rfl
        rcases hcc : copy dir p q n fs with ⟨_ | _, fs'⟩
        · rw [hcc] at hc; exact hc (by simp)
        · rw [hcc] at h; exact absurd rfl h
  · intro h
    have hr : (remove cwd (join (dirPath dir) p) fs).1 ≠ .ok () → (remove cwd (join (dirPath dir) p) fs).2 = fs := by
      unfold remove
      split
      · intro _; rfl
      · split
        · split
          · intro h; exact absurd rfl h
          · intro _; rfl
        · intro _; rfl
    unfold uninstallPlugin at h ⊢
    split
    · rename_i hx; rw [hx] at h; exact absurd rfl h
    · rename_i hx; rw [hx] at hr; exact hr (by simp)
    · rename_i hx; rw [hx] at hr; exact hr (by simp)

/-- **C75 (partial).** Installing a file whose name was not in use and uninstalling it again restores the file
system. -/
theorem C75_roundtrip_partial (fs : FSys) (hs : Sane fs) (dir cwd : List String) (hne : dir ≠ [])
    (hp : ∀ n ∈ dir, PlainName n) (src : PathS) (hnul : hasNul src = false) (pre : List String) (name : String)
    (hname : PlainName name) (c : Nat) (h : lookup fs cwd src = some (pre ++ [name], .file c))
    (hdir : fs.node dir = some .dir) (hw : fs.writable dir = true) (hfree : fs.node (dir ++ [name]) = none) :
    ∃ fs1, installPlugin dir cwd src fs = (.ok true, fs1) ∧ uninstallPlugin dir cwd [name] fs1 = (.ok true, fs) := by
  have hself : pre ≠ dir := by
    rintro rfl
    rw [(lookup_file hs h).1] at hfree; cases hfree
  obtain ⟨fs1, h1, h2, h3, h4⟩ := C75_install_partial fs hs dir cwd src hnul pre name c h hdir hw hself (by rw [hfree]; simp)
  have hs1 : Sane fs1 := by
    intro q q' hq hq'
    have hqd : q ≠ dir ++ [name] := by
      rintro rfl
      have hne' : dir ++ [name] ++ q' ≠ dir ++ [name] := by simpa using hq'
      rw [h4 _ hne'] at hq
      have := hs (dir ++ [name]) q' hq hq'
      rw [hfree] at this; cases this
    rw [h4 q hqd]
    by_cases he : q ++ q' = dir ++ [name]
    · rcases List.eq_nil_or_concat q' with rfl | ⟨l, x, rfl⟩
      · exact absurd rfl hq'
      · rw [List.concat_eq_append, ← List.append_assoc] at he
        have he' := (List.append_inj' he rfl).1
        rcases l with _ | ⟨y, l⟩
        · rw [List.append_nil] at he'; rw [he']; exact hdir
        · exact hs q (y :: l) (by rw [he', hdir]; simp) (by simp)
    · rw [h4 _ he] at hq
      exact hs q q' hq hq'
  have hdn : dir ≠ dir ++ [name] := by simp
  obtain ⟨fs2, u1, u2, u3, u4⟩ := C75_uninstall fs1 hs1 dir cwd hne hp (by rw [h4 dir hdn]; exact hdir) (by rw [h2]; exact hw)
    name hname c h3
  refine ⟨fs1, h1, ?_⟩
  rw [u1]
  congr 1
  obtain ⟨n2, w2⟩ := fs2
  obtain ⟨n0, w0⟩ := fs
  congr 1
  · funext x
    by_cases hx : x = dir ++ [name]
    · subst hx; exact u3.trans hfree.symm
    · exact (u4 x hx).trans (h4 x hx)
  · exact u2.trans h2

/-- a file system: `/pyzeal/plugins/custom_plugins` with `p.py` in it, `/pyzeal/plugins/plugin_loader.py`, and
`/home/new.py`; everything is writable -/
def plugFS : FSys where
  node q := if q ∈ [[], ["pyzeal"], ["pyzeal", "plugins"], ["pyzeal", "plugins", "custom_plugins"], ["home"]] then some .dir
    else if q = ["pyzeal", "plugins", "custom_plugins", "p.py"] then some (.file 1)
    else if q = ["pyzeal", "plugins", "plugin_loader.py"] then some (.file 2)
    else if q = ["home", "new.py"] then some (.file 3) else none
  writable _ := true

/-- its plugin directory -/
def plugFSDir : List String := ["pyzeal", "plugins", "custom_plugins"]

/-- **C75, counterexample.** Installing a file that is in the plugin directory already (or a directory)
raises an exception. -/
theorem C75_counterexample :
    (installPlugin plugFSDir ["home"] ["", "pyzeal", "plugins", "custom_plugins", "p.py"] plugFS).1 = .error .osError ∧
    (installPlugin plugFSDir ["home"] ["", "home"] plugFS).1 = .error .osError := by
  constructor <;> rfl

/-- **C76, counterexample.** Uninstalling `../plugin_loader.py` removes a part of PyZEAL, uninstalling
`/home/new.py` removes a file of the user. -/
theorem C76_counterexample :
    let r1 := uninstallPlugin plugFSDir ["home"] ["..", "plugin_loader.py"] plugFS
    let r2 := uninstallPlugin plugFSDir ["home"] ["", "home", "new.py"] plugFS
    r1.1 = .ok true ∧ r1.2.node ["pyzeal", "plugins", "plugin_loader.py"] = none ∧
    r2.1 = .ok true ∧ r2.2.node ["home", "new.py"] = none := by
  refine ⟨by rfl, by rfl, by rfl, by rfl⟩

theorem walk_below (fs : FSys) (p : PathS) (hp : ".." ∉ p) : ∀ cur q, walk fs cur p = some q → cur <+: q := by
  induction p with
  | nil => intro cur q h; injection h with h; rw [h]
  | cons c cs ih =>
    intro cur q h
    have hcs : ".." ∉ cs := fun h => hp (List.mem_cons_of_mem _ h)
    unfold walk at h
    split at h
    · split at h
      · exact ih hcs cur q h
      · rw [if_neg (fun e : c = ".." => hp (by rw [e]; exact List.mem_cons_self))] at h
        exact (List.prefix_append cur [c]).trans (ih hcs _ q h)
    · cases h

/-- **C76 (partial).** A relative path without `..` can only remove something in the plugin directory.
(Missing: paths with `..` and absolute paths are not rejected.) -/
theorem C76_relative_partial (fs : FSys) (hs : Sane fs) (dir cwd : List String) (hne : dir ≠ [])
    (hp : ∀ n ∈ dir, PlainName n) (hdir : fs.node dir = some .dir) (f : PathS) (hrel : ∀ c cs, f ≠ "" :: c :: cs)
    (hdd : ".." ∉ f) (x : List String) (hx : ¬ dir <+: x) :
    (uninstallPlugin dir cwd f fs).2.node x = fs.node x := by
  have key : (remove cwd (join (dirPath dir) f) fs).2.node x = fs.node x := by
    unfold remove
    split
    · rfl
    · rw [lookup_below hs hne hp hdir hrel]
      rcases hw : walk fs dir f with _ | q
      · rfl
      · dsimp only
        rcases hn : fs.node q with _ | n
        · rfl
        · cases n with
          | dir => rfl
          | file c =>
            simp only [Option.map_some]
            split
            · have : x ≠ q := by rintro rfl; exact hx (walk_below fs f hdd dir x hw)
              simp [setNode, this]
            · rfl
  unfold uninstallPlugin
  split
  · rename_i h; rw [h] at key; exact key
  · rename_i h; rw [h] at key; exact key
  · rename_i h; rw [h] at key; exact key

theorem plugFS_sane : Sane plugFS := by
  intro q q' h hq
  rcases List.eq_nil_or_concat q' with rfl | ⟨l, x, rfl⟩
  · exact absurd rfl hq
  have hmem : q ++ l.concat x ∈ ([[], ["pyzeal"], ["pyzeal", "plugins"], ["pyzeal", "plugins", "custom_plugins"], ["home"],
      ["pyzeal", "plugins", "custom_plugins", "p.py"], ["pyzeal", "plugins", "plugin_loader.py"], ["home", "new.py"]] : List (List String)) := by
    by_contra hn
    apply h
    simp only [List.mem_cons, not_or] at hn
    simp only [plugFS, List.mem_cons]
    rw [if_neg (by simp only [not_or]; exact ⟨hn.1, hn.2.1, hn.2.2.1, hn.2.2.2.1, hn.2.2.2.2.1, by simp⟩), if_neg hn.2.2.2.2.2.1,
      if_neg hn.2.2.2.2.2.2.1, if_neg hn.2.2.2.2.2.2.2.1]
  have hlt : q.length < (q ++ l.concat x).length := by simp
  have hpre : q = (q ++ l.concat x).take q.length := by simp
  rw [hpre]
  generalize q.length = k at hlt
  generalize q ++ l.concat x = y at hmem hlt
  have all : ∀ y ∈ ([[], ["pyzeal"], ["pyzeal", "plugins"], ["pyzeal", "plugins", "custom_plugins"], ["home"],
      ["pyzeal", "plugins", "custom_plugins", "p.py"], ["pyzeal", "plugins", "plugin_loader.py"], ["home", "new.py"]] : List (List String)),
      ∀ k < y.length, plugFS.node (y.take k) = some .dir := by decide
  exact all y hmem k hlt

/-- the hypotheses of the theorems are met: installing `new.py` from the current directory -/
example : ∃ fs1, installPlugin plugFSDir ["home"] ["new.py"] plugFS = (.ok true, fs1) ∧
    uninstallPlugin plugFSDir ["home"] ["new.py"] fs1 = (.ok true, plugFS) :=
  C75_roundtrip_partial plugFS plugFS_sane plugFSDir ["home"] (by simp [plugFSDir]) (by unfold PlainName plugFSDir; decide) ["new.py"]
    (by decide) ["home"] "new.py" (by unfold PlainName; decide) 3 rfl rfl rfl rfl

/-! ## C88 -/

/-- an environment in which exactly the modules of the package plugins are installed to can be imported
(`ModuleNotFoundError` is tag 3) -/
def OnlyInstalled (E : PlugEnv T V F W C) : Prop :=
  ∀ n s, (∀ stem, n ≠ installedAs stem) → E.importModule n s = (.error (.other 3), s)

theorem inPackage_ne_installedAs (a b : PyStr) : inPackage a ≠ installedAs b := by
  intro h
  have := congrArg (List.take 7) h
  unfold inPackage installedAs at this
  rw [List.take_append_of_le_length (by decide), List.take_append_of_le_length (by decide)] at this
  exact absurd this (by decide)

/-- **C88 (partial).** What happens instead: if only the modules of the package plugins are installed to can be imported,
loading plugins raises `ModuleNotFoundError` as soon as the plugin directory contains a single Python file
(not beginning with underscores or a dot), whatever is in it. -/
theorem C88_no_plugin_loads_partial (E : PlugEnv T V F W C) (hE : OnlyInstalled E) (entries : List PyStr)
    (hdot : ∀ c ∈ entries, c.head? ≠ some '.') (s : LState T V F W) :
    (∀ c ∈ entries, ∀ stem, ¬ Candidate c stem) ∧ loadPlugins E (.ok entries) s = (.ok [], s) ∨
    (∃ c ∈ entries, ∃ stem, Candidate c stem) ∧ loadPlugins E (.ok entries) s = (.error (.other 3), s) := by
  have loop : (∀ c ∈ entries, ∀ stem, ¬ Candidate c stem) ∧ locateLoop E (discoverModules entries) s = (.ok [], s) ∨
      (∃ c ∈ entries, ∃ stem, Candidate c stem) ∧ locateLoop E (discoverModules entries) s = (.error (.other 3), s) := by
    induction entries with
    | nil => exact .inl ⟨by simp, rfl⟩
    | cons c cs ih =>
      by_cases hcand : ∃ stem, Candidate c stem
      · obtain ⟨stem, hcand⟩ := hcand
        right
        refine ⟨⟨c, List.mem_cons_self, stem, hcand⟩, ?_⟩
        rw [locateLoop_cons_take E hcand (hdot c List.mem_cons_self)]
        exact Py.bind_error (hE _ s fun b => inPackage_ne_installedAs stem b)
      · push Not at hcand
        rw [locateLoop_cons_skip E hcand]
        rcases ih fun c' h => hdot c' (List.mem_cons_of_mem _ h) with ⟨h1, h2⟩ | ⟨⟨c', h1, h1'⟩, h2⟩
        · left
          refine ⟨fun c' hc' => ?_, h2⟩
          rcases List.mem_cons.1 hc' with rfl | hc'
          · exact hcand
          · exact h1 c' hc'
        · exact .inr ⟨⟨c', List.mem_cons_of_mem _ h1, h1'⟩, h2⟩
  rcases loop with ⟨h1, h2⟩ | ⟨h1, h2⟩
  · left
    refine ⟨h1, ?_⟩
    have h2' : locateAndLoadPlugins E (.ok entries) s = (.ok [], s) := h2
    unfold loadPlugins
    rw [Py.bind_ok h2']; rfl
  · right
    refine ⟨h1, ?_⟩
    have h2' : locateAndLoadPlugins E (.ok entries) s = (.error (.other 3), s) := h2
    unfold loadPlugins
    exact Py.bind_error h2'

/-- **C88 (partial).** Then also the start in SCRIPT mode fails, and PyZEAL stays uninitialised. -/
theorem C88_start_fails_partial {V F W C : Type} (I : InitEnv V F W) (hT : Tame I) (E : PlugEnv Svc V F W C)
    (hE : OnlyInstalled E) (entries : List PyStr) (hdot : ∀ c ∈ entries, c.head? ≠ some '.')
    (hI : I.loadPlugins = (do let _ ← loadPlugins E (.ok entries); pure ()))
    (c stem : PyStr) (hc : c ∈ entries) (hcand : Candidate c stem) (s : IState V F W) (hs : s.initialized = false) :
    (Init.initServices I .SCRIPT s).1 ≠ .ok () ∧ (Init.initServices I .SCRIPT s).2.initialized = false := by
  have h : (Init.initServices I .SCRIPT s).1 ≠ .ok () := by
    intro h
    obtain ⟨st, -, -, -, -, -, -, hl⟩ := C60_script hT s hs h
    rcases C88_no_plugin_loads_partial E hE entries hdot st with ⟨h1, -⟩ | ⟨-, h2⟩
    · exact h1 c hc stem hcand
    · rw [hI, Py.bind_error h2] at hl
      cases hl
  refine ⟨h, ?_⟩
  rw [Ne, C59_initialized_iff_returned] at h
  simpa using h

/-- a world in which the file `a.py` in the plugin directory provides a plugin -/
def plugInstalled : PlugEnv Nat Nat Nat (List PyStr) Nat :=
  { plugEnv with importModule := fun n s =>
      if n = installedAs "a".toList then (.ok [("X".toList, .plugin 15)], s) else (.error (.other 3), s) }

/-- **C88, counterexample.** The plugin in the plugin directory is not loaded: an exception is raised. -/
theorem C88_counterexample :
    OnlyInstalled plugInstalled ∧
    loadPlugins plugInstalled (.ok ["__init__.py".toList, "a.py".toList]) ⟨Locator.empty, []⟩ =
      (.error (.other 3), ⟨Locator.empty, []⟩) := by
  have h : OnlyInstalled plugInstalled := by
    intro n s hn
    show (if n = installedAs "a".toList then _ else _) = _
    rw [if_neg (hn _)]
  refine ⟨h, ?_⟩
  rcases C88_no_plugin_loads_partial plugInstalled h ["__init__.py".toList, "a.py".toList] (by decide) ⟨Locator.empty, []⟩ with ⟨h1, -⟩ | ⟨-, h2⟩
  · exact absurd ⟨not_dunder rfl, 'p', 'y', rfl, .inl rfl, .inl rfl, 'a', by decide, by decide⟩ (h1 "a.py".toList (by simp) "a".toList)
  · exact h2

end PyZeal.Props
