import Verif.Spec.Settings
import Mathlib.Tactic.Common

/-!
# Lemmas about the settings services
-/

set_option linter.unusedSectionVars false

namespace PyZeal
open Spec
namespace Settings

/-! ## Loading depends on the files only through the values in force -/

theorem merge_get (known : List String) (k : String) (hk : k ∈ known) (items : Dict String Json) (hw : Dict.WF items) :
    ∀ cur : Dict String Json, (merge known cur items).get? k =
      match Dict.get? items k with
      | some j => some j
      | none => cur.get? k := by
  induction items with
  | nil => intro cur; rfl
  | cons e rest ih =>
    intro cur
    obtain ⟨k', j⟩ := e
    have hw' : Dict.WF rest := by
      unfold Dict.WF Dict.keys at hw ⊢; exact (List.nodup_cons.1 hw).2
    have hnk : k' ∉ Dict.keys rest := by
      unfold Dict.WF Dict.keys at hw; exact (List.nodup_cons.1 hw).1
    show (merge known (mergeStep known cur (k', j)) rest).get? k = _
    rw [ih hw', Dict.get?_cons]
    by_cases e : k' = k
    · subst e
      rw [(Dict.get?_eq_none_iff rest k').2 hnk, if_pos rfl]
      unfold mergeStep
      rw [if_pos hk, Dict.get?_set, if_pos rfl]
    · rw [if_neg e]
      have : (mergeStep known cur (k', j)).get? k = cur.get? k := by
        unfold mergeStep
        split
        · rw [Dict.get?_set, if_neg e]
        · rfl
      rw [this]

theorem readItems_usable {f : FileC} (h : Usable f) :
    ∃ d, readItems f = .ok d ∧ Dict.WF d ∧ ∀ k, d.get? k = stored f k := by
  rcases h with rfl | ⟨d, rfl, hw⟩
  · exact ⟨[], rfl, Dict.wf_nil, fun k => rfl⟩
  · exact ⟨d, rfl, hw, fun k => rfl⟩

theorem loadBoth_usable (known : List String) {fs : SettingsFS} (hd : Usable fs.default) (hc : Usable fs.custom) :
    ∃ cur, loadBoth known fs = .ok cur ∧ ∀ k ∈ known, cur.get? k = inForce fs k := by
  obtain ⟨d, h1, w1, g1⟩ := readItems_usable hd
  obtain ⟨c, h2, w2, g2⟩ := readItems_usable hc
  refine ⟨merge known (merge known [] d) c, ?_, fun k hk => ?_⟩
  · unfold loadBoth; rw [h1]; dsimp only; rw [h2]
  · rw [merge_get known k hk c w2, merge_get known k hk d w1]
    unfold inForce
    rw [g2, g1]
    rcases stored fs.custom k with _ | j
    · dsimp only
      rcases stored fs.default k with _ | j <;> rfl
    · rfl

/-- loading from the six values in force -/
def loadRaw (raw : Setting → Option Json) : Except Err Service :=
  match raw .container, raw .algorithm, raw .estimator with
  | some cj, some aj, some ej =>
    match findMember ContainerTypes.all ContainerTypes.value cj with
    | none => .error (.invalidSetting "container")
    | some c =>
    match findMember AlgorithmTypes.all AlgorithmTypes.value aj with
    | none => .error (.invalidSetting "algorithm")
    | some a =>
    match findMember EstimatorTypes.all EstimatorTypes.value ej with
    | none => .error (.invalidSetting "estimator")
    | some e =>
    match raw .level with
    | none => .error .keyError
    | some lj =>
    match readPrecision (raw .precision) with
    | .error e => .error e
    | .ok p? =>
    match findMember LogLevel.all LogLevel.name lj with
    | none => .error (.invalidSetting "level")
    | some l =>
    match readVerbose (raw .verbose) with
    | none => .error (.invalidSetting "verbose")
    | some v =>
    match p? with
    | none => .error (.invalidSetting "precision")
    | some p => .ok (mkService c a e l v p)
  | _, _, _ => .error .keyError

theorem load_eq_loadRaw {fs : SettingsFS} (hd : Usable fs.default) (hc : Usable fs.custom) :
    load fs = loadRaw (fun k => inForce fs k.key) := by
  obtain ⟨c1, h1, g1⟩ := loadBoth_usable coreKeys hd hc
  obtain ⟨c2, h2, g2⟩ := loadBoth_usable otherKeys hd hc
  have gc := g1 Setting.container.key (by simp [Setting.key, coreKeys])
  have ga := g1 Setting.algorithm.key (by simp [Setting.key, coreKeys])
  have ge := g1 Setting.estimator.key (by simp [Setting.key, coreKeys])
  have gl := g2 Setting.level.key (by simp [Setting.key, otherKeys])
  have gv := g2 Setting.verbose.key (by simp [Setting.key, otherKeys])
  have gp := g2 Setting.precision.key (by simp [Setting.key, otherKeys])
  unfold load loadCore loadRaw lookup
  simp only [h1, h2, gc, ga, ge, gl, gv, gp, bind, Except.bind, pure, Except.pure]
  rcases inForce fs Setting.container.key with _ | cj
  · rfl
  rcases inForce fs Setting.algorithm.key with _ | aj
  · rfl
  rcases inForce fs Setting.estimator.key with _ | ej
  · rfl
  dsimp only
  rcases findMember ContainerTypes.all ContainerTypes.value cj with _ | c
  · rfl
  rcases findMember AlgorithmTypes.all AlgorithmTypes.value aj with _ | a
  · rfl
  rcases findMember EstimatorTypes.all EstimatorTypes.value ej with _ | e
  · rfl
  dsimp only [need]
  rcases inForce fs Setting.level.key with _ | lj
  · rfl
  dsimp only
  rcases readPrecision (inForce fs Setting.precision.key) with e | p?
  · rfl
  dsimp only
  rcases findMember LogLevel.all LogLevel.name lj with _ | l
  · rfl
  dsimp only
  rcases readVerbose (inForce fs Setting.verbose.key) with _ | v
  · rfl
  rcases p? with _ | p <;> rfl

/-! ## Enumerations -/

theorem findMember_label {τ : Type} {all : List τ} {label : τ → String} {j : Json} {m : τ}
    (h : findMember all label j = some m) : j = .str (label m) := by
  unfold findMember at h
  split at h
  · rename_i s
    have := List.find?_some h
    simp at this; rw [this]
  · cases h

theorem findMember_none {τ : Type} {all : List τ} {label : τ → String} {j : Json}
    (h : findMember all label j = none) : ∀ m ∈ all, j ≠ .str (label m) := by
  rintro m hm rfl
  unfold findMember at h
  have := List.find?_eq_none.1 h m hm
  simp at this

theorem container_mem (c : ContainerTypes) : c ∈ ContainerTypes.all := by cases c <;> decide
theorem algorithm_mem (c : AlgorithmTypes) : c ∈ AlgorithmTypes.all := by cases c <;> decide
theorem estimator_mem (c : EstimatorTypes) : c ∈ EstimatorTypes.all := by cases c <;> decide
theorem level_mem (c : LogLevel) : c ∈ LogLevel.all := by cases c <;> decide

theorem container_find (c : ContainerTypes) :
    findMember ContainerTypes.all ContainerTypes.value (.str c.value) = some c := by cases c <;> rfl
theorem algorithm_find (c : AlgorithmTypes) :
    findMember AlgorithmTypes.all AlgorithmTypes.value (.str c.value) = some c := by cases c <;> rfl
theorem estimator_find (c : EstimatorTypes) :
    findMember EstimatorTypes.all EstimatorTypes.value (.str c.value) = some c := by cases c <;> rfl
theorem level_find (c : LogLevel) :
    findMember LogLevel.all LogLevel.name (.str c.name) = some c := by cases c <;> rfl

theorem readVerbose_some {j : Json} (h : j ≠ .null) : readVerbose (some j) = some (truth j) := by
  cases j <;> first | rfl | exact absurd rfl h

/-- what the six values in force must be -/
theorem loadRaw_ok {raw : Setting → Option Json} {svc : Service} (h : loadRaw raw = .ok svc) :
    ∀ k, ∃ j, raw k = some j ∧ Means k j (svc k) := by
  unfold loadRaw at h
  split at h
  · rename_i cj aj ej hc ha he
    split at h
    · cases h
    rename_i c hc'
    split at h
    · cases h
    rename_i a ha'
    split at h
    · cases h
    rename_i e he'
    split at h
    · cases h
    rename_i lj hl
    split at h
    · cases h
    rename_i p? hp
    split at h
    · cases h
    rename_i l hl'
    split at h
    · cases h
    rename_i v hv
    split at h
    · cases h
    rename_i p
    injection h with h; subst h
    have e1 := findMember_label hc'
    have e2 := findMember_label ha'
    have e3 := findMember_label he'
    have e4 := findMember_label hl'
    subst e1; subst e2; subst e3; subst e4
    intro k
    cases k with
    | container => exact ⟨_, hc, .container c⟩
    | algorithm => exact ⟨_, ha, .algorithm a⟩
    | estimator => exact ⟨_, he, .estimator e⟩
    | level => exact ⟨_, hl, .level l⟩
    | verbose =>
      unfold readVerbose at hv
      split at hv
      · cases hv
      · cases hv
      · rename_i j hj hjv
        injection hv with hv
        refine ⟨j, hjv, ?_⟩
        show Means .verbose j (.bool v)
        rw [← hv]
        exact .verbose (by rintro rfl; exact hj rfl)
    | precision =>
      unfold readPrecision at hp
      split at hp
      · rename_i x y rest hx
        injection hp with hp; injection hp with hp; subst hp
        exact ⟨_, hx, .precision x y rest⟩
      · cases hp
      · cases hp
  · cases h

theorem means_functional {k : Setting} {j : Json} {v v' : PyVal} (h : Means k j v) (h' : Means k j v') : v = v' := by
  cases h with
  | container c =>
    generalize hj : Json.str c.value = j at h'
    cases h' with
    | container c' => injection hj with hj; cases c <;> cases c' <;> first | rfl | (simp [ContainerTypes.value] at hj)
  | algorithm c =>
    generalize hj : Json.str c.value = j at h'
    cases h' with
    | algorithm c' => injection hj with hj; cases c <;> cases c' <;> first | rfl | (simp [AlgorithmTypes.value] at hj)
  | estimator c =>
    generalize hj : Json.str c.value = j at h'
    cases h' with
    | estimator c' => injection hj with hj; cases c <;> cases c' <;> first | rfl | (simp [EstimatorTypes.value] at hj)
  | level c =>
    generalize hj : Json.str c.name = j at h'
    cases h' with
    | level c' => injection hj with hj; cases c <;> cases c' <;> first | rfl | (simp [LogLevel.name] at hj)
  | verbose h => cases h'; rfl
  | precision x y rest => cases h'; rfl

theorem loadRaw_total {raw : Setting → Option Json} {svc : Service}
    (h : ∀ k, ∃ j, raw k = some j ∧ Means k j (svc k)) : loadRaw raw = .ok svc := by
  obtain ⟨cj, hc, mc⟩ := h .container
  obtain ⟨aj, ha, ma⟩ := h .algorithm
  obtain ⟨ej, he, me⟩ := h .estimator
  obtain ⟨lj, hl, ml⟩ := h .level
  obtain ⟨vj, hv, mv⟩ := h .verbose
  obtain ⟨pj, hp, mp⟩ := h .precision
  generalize xc : svc .container = vc at mc
  generalize xa : svc .algorithm = va at ma
  generalize xe : svc .estimator = ve at me
  generalize xl : svc .level = vl at ml
  generalize xv : svc .verbose = vv at mv
  generalize xp : svc .precision = vp at mp
  cases mc with
  | container c =>
  cases ma with
  | algorithm a =>
  cases me with
  | estimator e =>
  cases ml with
  | level l =>
  cases mv with
  | verbose hn =>
  cases mp with
  | precision x y rest =>
  unfold loadRaw
  rw [hc, ha, he, hl, hv, hp]
  dsimp only
  rw [container_find, algorithm_find, estimator_find, level_find, readVerbose_some hn]
  dsimp only [readPrecision]
  congr 1
  funext k
  cases k with
  | container => exact xc.symm
  | algorithm => exact xa.symm
  | estimator => exact xe.symm
  | level => exact xl.symm
  | verbose => exact xv.symm
  | precision => exact xp.symm

/-- the only ways in which loading from usable files fails -/
theorem loadRaw_error {raw : Setting → Option Json} {e : Err} (h : loadRaw raw = .error e) :
    (e = .keyError ∧ ∃ k, raw k = none) ∨
    (∃ slot, e = .invalidSetting slot ∧ ∃ k, ∀ j, raw k = some j → ∀ v, ¬ Means k j v) ∨
    (e = .indexError ∧ ∃ l, raw .precision = some (.arr l) ∧ l.length < 2) := by
  unfold loadRaw at h
  split at h
  · rename_i cj aj ej hc ha he
    split at h
    · rename_i hn
      injection h with h
      refine .inr (.inl ⟨_, h.symm, .container, ?_⟩)
      intro j hj v m; rw [hc] at hj; injection hj with hj; subst hj
      cases m with
      | container c => exact findMember_none hn c (container_mem c) rfl
    split at h
    · rename_i hn
      injection h with h
      refine .inr (.inl ⟨_, h.symm, .algorithm, ?_⟩)
      intro j hj v m; rw [ha] at hj; injection hj with hj; subst hj
      cases m with
      | algorithm c => exact findMember_none hn c (algorithm_mem c) rfl
    split at h
    · rename_i hn
      injection h with h
      refine .inr (.inl ⟨_, h.symm, .estimator, ?_⟩)
      intro j hj v m; rw [he] at hj; injection hj with hj; subst hj
      cases m with
      | estimator c => exact findMember_none hn c (estimator_mem c) rfl
    split at h
    · rename_i hn
      injection h with h
      exact .inl ⟨h.symm, .level, hn⟩
    rename_i lj hl
    split at h
    · rename_i e' hp
      injection h with h; subst h
      unfold readPrecision at hp
      split at hp
      · cases hp
      · rename_i l hx hl
        injection hp with hp
        refine .inr (.inr ⟨hp.symm, l, hl, ?_⟩)
        rcases l with _ | ⟨x, _ | ⟨y, rest⟩⟩
        · simp
        · simp
        · exact absurd rfl (hx x y rest)
      · cases hp
    rename_i p? hp
    split at h
    · rename_i hn
      injection h with h
      refine .inr (.inl ⟨_, h.symm, .level, ?_⟩)
      intro j hj v m; rw [hl] at hj; injection hj with hj; subst hj
      cases m with
      | level c => exact findMember_none hn c (level_mem c) rfl
    split at h
    · rename_i hn
      injection h with h
      refine .inr (.inl ⟨_, h.symm, .verbose, ?_⟩)
      intro j hj v m
      cases m with
      | verbose hne => rw [hj, readVerbose_some hne] at hn; cases hn
    split at h
    · injection h with h
      refine .inr (.inl ⟨_, h.symm, .precision, ?_⟩)
      intro j hj v m
      cases m with
      | precision x y rest => rw [hj] at hp; cases hp
    · cases h
  · rename_i hx
    injection h with h
    refine .inl ⟨h.symm, ?_⟩
    rcases hc : raw .container with _ | cj
    · exact ⟨_, hc⟩
    rcases ha : raw .algorithm with _ | aj
    · exact ⟨_, ha⟩
    rcases he : raw .estimator with _ | ej
    · exact ⟨_, he⟩
    exact absurd he (hx cj aj ej hc ha)

/-! ## Saving -/

theorem encode_valid {k : Setting} {v : PyVal} (h : Valid k v) :
    ∃ j, encode k v = .ok j ∧ Written k v j ∧ Means k j v := by
  cases h with
  | container c => exact ⟨_, rfl, .container c, .container c⟩
  | algorithm c => exact ⟨_, rfl, .algorithm c, .algorithm c⟩
  | estimator c => exact ⟨_, rfl, .estimator c, .estimator c⟩
  | level c => exact ⟨_, rfl, .level c, .level c⟩
  | verbose b => exact ⟨_, rfl, .verbose b, .verbose (j := .bool b) (by simp)⟩
  | precision p q => exact ⟨_, rfl, .precision p q, .precision (.int p) (.int q) []⟩

theorem createOrUpdate_error {k : Setting} {v : PyVal} {fs : SettingsFS} {e : Err}
    (h : (createOrUpdate k v fs).1 = .error e) : (createOrUpdate k v fs).2 = fs := by
  unfold createOrUpdate at h ⊢
  rcases hp : prepare fs k v with e' | j
  · rfl
  · rw [hp] at h; cases h

/-- what a successful update does -/
theorem createOrUpdate_ok {k : Setting} {v : PyVal} {fs fs' : SettingsFS}
    (h : createOrUpdate k v fs = (.ok (), fs')) :
    ∃ d j, readForUpdate fs.custom = .ok (.obj d) ∧ encode k v = .ok j ∧ fs.writable = true ∧
      fs' = { fs with custom := .json (.obj (Dict.set d k.key j)) } := by
  unfold createOrUpdate at h
  rcases hp : prepare fs k v with e | new
  · rw [hp] at h; cases h
  · rw [hp] at h; dsimp only at h
    injection h with h1 h2
    unfold prepare at hp
    simp only [bind, Except.bind, pure, Except.pure] at hp
    rcases hr : readForUpdate fs.custom with e | old
    · rw [hr] at hp; cases hp
    rw [hr] at hp; dsimp only at hp
    rcases he : encode k v with e | j
    · rw [he] at hp; cases hp
    rw [he] at hp; dsimp only at hp
    rcases hs : setItem k.key j old with e | new'
    · rw [hs] at hp; cases hp
    rw [hs] at hp; dsimp only at hp
    split at hp
    · rename_i hw
      injection hp with hp; subst hp
      unfold setItem at hs
      split at hs
      · rename_i d
        injection hs with hs; subst hs
        exact ⟨d, j, rfl, rfl, hw, h2.symm⟩
      · cases hs
    · cases hp

theorem prepare_usable {fs : SettingsFS} (hc : Usable fs.custom) (hw : fs.writable = true) {k : Setting} {v : PyVal}
    {j : Json} (he : encode k v = .ok j) :
    ∃ d, prepare fs k v = .ok (.obj (Dict.set d k.key j)) ∧ Dict.WF d ∧ ∀ x, Dict.get? d x = stored fs.custom x := by
  rcases hc with hc | ⟨d, hc, hwf⟩
  · refine ⟨[], ?_, Dict.wf_nil, fun x => by rw [hc]; rfl⟩
    unfold prepare
    simp only [bind, Except.bind, pure, Except.pure, hc, readForUpdate, he, setItem, hw, if_true]
  · refine ⟨d, ?_, hwf, fun x => by rw [hc]; rfl⟩
    unfold prepare
    simp only [bind, Except.bind, pure, Except.pure, hc, readForUpdate, he, setItem, hw, if_true]

/-- saving a valid value in a usable file succeeds, changes this key, and keeps the file usable -/
theorem createOrUpdate_valid {fs : SettingsFS} (hc : Usable fs.custom) (hw : fs.writable = true) {k : Setting}
    {v : PyVal} (hv : Valid k v) :
    ∃ fs' j, createOrUpdate k v fs = (.ok (), fs') ∧ fs'.default = fs.default ∧ fs'.writable = true ∧ Usable fs'.custom ∧
      Written k v j ∧ Means k j v ∧
      ∀ x, stored fs'.custom x = if k.key = x then some j else stored fs.custom x := by
  obtain ⟨j, he, hwr, hm⟩ := encode_valid hv
  obtain ⟨d, hp, hwf, hg⟩ := prepare_usable hc hw he
  refine ⟨⟨fs.default, .json (.obj (Dict.set d k.key j)), fs.writable⟩, j, ?_, rfl, hw,
    .inr ⟨_, rfl, hwf.set _ _⟩, hwr, hm, fun x => ?_⟩
  · unfold createOrUpdate
    rw [hp]; rfl
  · show Dict.get? (Dict.set d k.key j) x = _
    rw [Dict.get?_set, hg]

theorem key_inj {k k' : Setting} (h : k.key = k'.key) : k = k' := by
  cases k <;> cases k' <;> first | rfl | (simp [Setting.key] at h)

/-- hence a service created before and one created after differ exactly in that setting -/
theorem load_after {fs fs' : SettingsFS} (hd : Usable fs.default) (hc : Usable fs.custom) {svc : Service}
    (hl : load fs = .ok svc) (hd' : fs'.default = fs.default) (hc' : Usable fs'.custom) {k : Setting} {v : PyVal}
    {j : Json} (hm : Means k j v)
    (hst : ∀ x, stored fs'.custom x = if k.key = x then some j else stored fs.custom x) :
    load fs' = .ok (put svc k v) := by
  rw [load_eq_loadRaw (by rw [hd']; exact hd) hc']
  rw [load_eq_loadRaw hd hc] at hl
  have h := loadRaw_ok hl
  apply loadRaw_total
  intro k'
  unfold inForce
  rw [hst, hd']
  by_cases e : k' = k
  · subst e
    rw [if_pos rfl]
    exact ⟨j, rfl, by simpa [put] using hm⟩
  · rw [if_neg (fun x => e (key_inj x).symm)]
    have : put svc k v k' = svc k' := by simp [put, e]
    rw [this]
    exact h k'

end Settings
end PyZeal
