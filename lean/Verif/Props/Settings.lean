import Verif.Proof.Settings

/-!
# C62 – C69: settings
-/

set_option linter.unusedSectionVars false

namespace PyZeal.Props
open Spec Settings

/-- the shipped default file, a custom file with an unknown key, writable -/
def setFS : SettingsFS := ⟨shippedFile, .json (.obj [("theme", .str "dark"), ("verbose", .bool false)]), true⟩

theorem shipped_usable : Usable shippedFile := .inr ⟨_, rfl, by
  unfold Dict.WF Dict.keys; decide⟩

theorem setFS_usable : Usable setFS.custom := .inr ⟨_, rfl, by
  unfold Dict.WF Dict.keys; decide⟩

/-- the service with the shipped settings -/
def shippedService : Service :=
  mkService .ROUNDING_CONTAINER .SIMPLE_ARGUMENT .SUMMATION_ESTIMATOR .WARNING true (.int 5, .int 5)

theorem shipped_load (w : Bool) : load ⟨shippedFile, .absent, w⟩ = .ok shippedService := by
  rw [load_eq_loadRaw shipped_usable (.inl rfl)]; rfl

/-! ## C62 -/

/-- all values assigned have the right type, and services are created before they are used -/
def ProperOps (known : Nat → Prop) : List SOp → Prop
  | [] => True
  | .create i :: ops => ProperOps (fun j => j = i ∨ known j) ops
  | .assign i k v :: ops => known i ∧ Valid k v ∧ ProperOps known ops

/-- **C62.** From any usable files from which a service can be created: after any sequence of creating
services and assigning valid values through any of them, no operation has raised, and a newly created
service reports for every setting the value assigned last, or, if none was assigned, what it reported
at the beginning. -/
theorem C62_settings_persist (ops : List SOp) :
    ∀ (w : SWorld) (svc : Service), Usable w.fs.default → Usable w.fs.custom → w.fs.writable = true →
      load w.fs = .ok svc → ProperOps (fun i => w.services i ≠ none) ops →
      (∀ r ∈ (w.run ops).1, r = .ok ()) ∧
      ∃ svc', load (w.run ops).2.fs = .ok svc' ∧
        ∀ k, svc' k = match lastAssigned k ops with
          | some v => v
          | none => svc k := by
  induction ops with
  | nil =>
    intro w svc _ _ _ hl _
    exact ⟨(fun r hr => nomatch hr), svc, hl, fun k => rfl⟩
  | cons op ops ih =>
    intro w svc hd hc hw hl hp
    cases op with
    | create i =>
      have hs : w.step (.create i) = (.ok (), w.withService i svc) := by
        unfold SWorld.step; rw [hl]
      obtain ⟨h1, svc', h2, h3⟩ := ih (w.withService i svc) svc hd hc hw hl (by
        have hk : (fun j => (w.withService i svc).services j ≠ none) = (fun j => j = i ∨ w.services j ≠ none) := by
          funext j
          unfold SWorld.withService
          by_cases e : j = i <;> simp [e]
        rw [hk]; exact hp)
      have hr : w.run (.create i :: ops) =
          (.ok () :: ((w.withService i svc).run ops).1, ((w.withService i svc).run ops).2) := by
        show ((w.step (.create i)).1 :: ((w.step (.create i)).2.run ops).1, ((w.step (.create i)).2.run ops).2) = _
        rw [hs]
      rw [hr]
      refine ⟨?_, svc', h2, h3⟩
      intro r hr
      rcases List.mem_cons.1 hr with rfl | hr
      · rfl
      · exact h1 r hr
    | assign i k v =>
      obtain ⟨hi, hv, hp⟩ := hp
      rcases hsv : w.services i with _ | s
      · exact absurd hsv hi
      obtain ⟨fs', j, hu, hd', hw', hc', -, hm, hst⟩ := createOrUpdate_valid hc hw hv
      have hl' := load_after hd hc hl hd' hc' hm hst
      have hs : w.step (.assign i k v) = (.ok (), (SWorld.mk fs' w.services).withService i (put s k v)) := by
        have h1 : w.step (.assign i k v) = ((createOrUpdate k v w.fs).1,
            (SWorld.mk (createOrUpdate k v w.fs).2 w.services).withService i (put s k v)) := by
          unfold SWorld.step; dsimp only; rw [hsv]; rfl
        rw [h1, hu]
      obtain ⟨h1, svc', h2, h3⟩ := ih ((SWorld.mk fs' w.services).withService i (put s k v)) (put svc k v)
        (by show Usable fs'.default; rw [hd']; exact hd) hc' hw' hl' (by
        have hk : (fun j => ((SWorld.mk fs' w.services).withService i (put s k v)).services j ≠ none) =
            (fun j => w.services j ≠ none) := by
          funext j
          unfold SWorld.withService
          by_cases e : j = i <;> simp [e, hsv]
        rw [hk]; exact hp)
      have hr : w.run (.assign i k v :: ops) =
          (.ok () :: (((SWorld.mk fs' w.services).withService i (put s k v)).run ops).1,
            (((SWorld.mk fs' w.services).withService i (put s k v)).run ops).2) := by
        show ((w.step (.assign i k v)).1 :: ((w.step (.assign i k v)).2.run ops).1,
          ((w.step (.assign i k v)).2.run ops).2) = _
        rw [hs]
      rw [hr]
      refine ⟨?_, svc', h2, fun k' => ?_⟩
      · intro r hr
        rcases List.mem_cons.1 hr with rfl | hr
        · rfl
        · exact h1 r hr
      · rw [h3 k']
        simp only [lastAssigned]
        rcases he : lastAssigned k' ops with _ | v'
        · dsimp only
          by_cases e : k = k'
          · subst e; simp [put]
          · simp [put, e, Ne.symm e]
        · rfl

/-- **C62.** Starting from a fresh installation (no custom file), settings never assigned have their
shipped values. -/
theorem C62_shipped_defaults (ops : List SOp) (hp : ProperOps (fun _ => False) ops) :
    ∃ svc', load (SWorld.run ⟨⟨shippedFile, .absent, true⟩, fun _ => none⟩ ops).2.fs = .ok svc' ∧
      ∀ k, svc' k = match lastAssigned k ops with
        | some v => v
        | none => shippedService k :=
  (C62_settings_persist ops ⟨⟨shippedFile, .absent, true⟩, fun _ => none⟩ shippedService shipped_usable (.inl rfl) rfl
    (shipped_load true) (by
      have : (fun i : Nat => (fun _ => none : Nat → Option Service) i ≠ none) = fun _ => False := by
        funext i; simp
      rw [this]; exact hp)).2

/-- two services take turns -/
def setOps : List SOp :=
  [.create 0, .assign 0 .level (.level .DEBUG), .create 1, .assign 1 .precision (.tuple [.int 3, .int 4]),
    .assign 0 .level (.level .ERROR), .assign 1 .algorithm (.algorithm .NEWTON_GRID)]

example : ProperOps (fun _ => False) setOps :=
  ⟨.inl rfl, .level _, .inl rfl, .precision 3 4, .inr (.inl rfl), .level _, .inl rfl, .algorithm _, trivial⟩

example : (lastAssigned .level setOps, lastAssigned .verbose setOps) = (some (.level .ERROR), none) := rfl

/-! ## C63 -/

/-- **C63.** A successful update changes exactly the given key: the file afterwards is an object which has
the new value under this key and, under every other key, known or unknown, what it had before; the shipped
file is not touched. -/
theorem C63_only_one_key (k : Setting) (v : PyVal) (fs fs' : SettingsFS)
    (h : createOrUpdate k v fs = (.ok (), fs')) :
    fs'.default = fs.default ∧ (∃ d, fs'.custom = .json (.obj d)) ∧
      (∃ j, stored fs'.custom k.key = some j ∧ (Valid k v → Written k v j)) ∧
      ∀ x, x ≠ k.key → stored fs'.custom x = stored fs.custom x := by
  obtain ⟨d, j, hr, he, -, rfl⟩ := createOrUpdate_ok h
  refine ⟨rfl, ⟨_, rfl⟩, ⟨j, ?_, fun hv => ?_⟩, fun x hx => ?_⟩
  · show Dict.get? (Dict.set d k.key j) k.key = _
    rw [Dict.get?_set, if_pos rfl]
  · obtain ⟨j', he', hw, -⟩ := encode_valid hv
    rw [he] at he'; injection he' with he'; subst he'; exact hw
  · show Dict.get? (Dict.set d k.key j) x = _
    rw [Dict.get?_set, if_neg (Ne.symm hx)]
    unfold readForUpdate at hr
    split at hr
    · rename_i hc
      injection hr with hr; injection hr with hr; subst hr
      rw [hc]; rfl
    · cases hr
    · rename_i w hc
      injection hr with hr; subst hr
      rw [hc]; rfl

/-- **C63.** The order of the entries is kept, a new key being appended. -/
theorem C63_order (k : Setting) (v : PyVal) (d : Dict String Json) (dflt : FileC) (wr : Bool) (fs' : SettingsFS)
    (h : createOrUpdate k v ⟨dflt, .json (.obj d), wr⟩ = (.ok (), fs')) :
    ∃ d' : Dict String Json, fs'.custom = .json (.obj d') ∧ d'.keys = if k.key ∈ d.keys then d.keys else d.keys ++ [k.key] := by
  obtain ⟨d1, j, hr, he, -, rfl⟩ := createOrUpdate_ok h
  injection hr with hr; injection hr with hr; subst hr
  exact ⟨_, rfl, Dict.keys_set d k.key j⟩

example : (createOrUpdate .level (.level .INFO) setFS).1 = .ok () ∧
    stored (createOrUpdate .level (.level .INFO) setFS).2.custom "theme" = some (.str "dark") ∧
    stored (createOrUpdate .level (.level .INFO) setFS).2.custom "logLevel" = some (.str "INFO") :=
  ⟨rfl, rfl, rfl⟩

/-! ## C64 -/

/-- **C64.** An update that raises leaves the files as they are. -/
theorem C64_failure_keeps_file (k : Setting) (v : PyVal) (fs : SettingsFS) (e : Err)
    (h : (createOrUpdate k v fs).1 = .error e) : (createOrUpdate k v fs).2 = fs :=
  createOrUpdate_error h

/-- **C64.** A key which is not one of the settings is rejected, and the file left alone. -/
theorem C64_unknown_key (key : String) (v : PyVal) (fs : SettingsFS) :
    (key ∉ coreKeys → ∃ m, createOrUpdateCoreKey key v fs = (.error (.invalidSetting m), fs)) ∧
    (key ∉ otherKeys → ∃ m, createOrUpdateKey key v fs = (.error (.invalidSetting m), fs)) := by
  have hrej : ∃ m, rejectKey key fs = (.error (.invalidSetting m), fs) := by
    unfold rejectKey
    rcases fs with ⟨d, c, w⟩
    cases c with
    | absent => exact ⟨_, rfl⟩
    | broken => exact ⟨_, rfl⟩
    | json v => exact ⟨_, rfl⟩
  constructor
  · intro hk
    have hk' : key ≠ "defaultAlgorithm" ∧ key ≠ "defaultContainer" ∧ key ≠ "defaultEstimator" := by
      simpa [coreKeys, not_or] using hk
    have : coreSetting key = none := by
      simp [coreSetting, List.find?, Setting.key, hk'.1.symm, hk'.2.1.symm, hk'.2.2.symm]
    unfold createOrUpdateCoreKey
    rw [this]; exact hrej
  · intro hk
    have hk' : key ≠ "logLevel" ∧ key ≠ "verbose" ∧ key ≠ "precision" := by
      simpa [otherKeys, not_or] using hk
    have : otherSetting key = none := by
      simp [otherSetting, List.find?, Setting.key, hk'.1.symm, hk'.2.1.symm, hk'.2.2.symm]
    unfold createOrUpdateKey
    rw [this]; exact hrej

/-- **C64.** A file which is not valid JSON is never overwritten: every update raises
`InvalidSettingException`. -/
theorem C64_broken_file (k : Setting) (v : PyVal) (fs : SettingsFS) (h : fs.custom = .broken) :
    createOrUpdate k v fs = (.error (.invalidSetting "filename"), fs) := by
  unfold createOrUpdate prepare
  rw [h]; rfl

/-- **C64 (partial).** A value of the wrong type raises `InvalidSettingException` and leaves the file
unchanged — for the settings other than the precision, and for precisions that are not tuples or are pairs
of which one entry is not an integer.  Missing: see the counterexample. -/
theorem C64_wrong_type_partial (k : Setting) (v : PyVal) (fs : SettingsFS) (hv : ¬ Valid k v)
    (hfile : fs.custom ≠ .broken)
    (hp : k = .precision → ∀ l, v = .tuple l → ∃ x y, l = [x, y] ∧ ¬ (isInt x = true ∧ isInt y = true)) :
    ∃ m, createOrUpdate k v fs = (.error (.invalidSetting m), fs) := by
  have he : ∃ m, encode k v = .error (.invalidSetting m) := by
    cases k with
    | container => cases v <;> first | exact ⟨_, rfl⟩ | exact absurd (.container _) hv
    | algorithm => cases v <;> first | exact ⟨_, rfl⟩ | exact absurd (.algorithm _) hv
    | estimator => cases v <;> first | exact ⟨_, rfl⟩ | exact absurd (.estimator _) hv
    | level => cases v <;> first | exact ⟨_, rfl⟩ | exact absurd (.level _) hv
    | verbose => cases v <;> first | exact ⟨_, rfl⟩ | exact absurd (.verbose _) hv
    | precision =>
      cases v with
      | tuple l =>
        obtain ⟨x, y, rfl, h⟩ := hp rfl l rfl
        refine ⟨"default precision", ?_⟩
        show (if (isInt x && isInt y) = true then _ else _) = _
        rw [if_neg (by simpa using h)]
      | _ => exact ⟨_, rfl⟩
  obtain ⟨m, he⟩ := he
  have hr : ∃ j, readForUpdate fs.custom = .ok j := by
    rcases hc : fs.custom with _ | _ | j
    · exact ⟨_, rfl⟩
    · exact absurd hc hfile
    · exact ⟨_, rfl⟩
  obtain ⟨j, hr⟩ := hr
  refine ⟨m, ?_⟩
  have : prepare fs k v = .error (.invalidSetting m) := by
    unfold prepare
    simp only [bind, Except.bind, hr, he]
  unfold createOrUpdate
  rw [this]

/-- **C64, counterexample.** A tuple with fewer than two entries raises `IndexError`, and a tuple with three
integers (or with truth values) is accepted and written. -/
theorem C64_counterexample :
    createOrUpdate .precision (.tuple [.int 5]) setFS = (.error .indexError, setFS) ∧
    createOrUpdate .precision (.tuple []) setFS = (.error .indexError, setFS) ∧
    (createOrUpdate .precision (.tuple [.int 1, .int 2, .int 3]) setFS).1 = .ok () ∧
    (createOrUpdate .precision (.tuple [.bool true, .int 3]) setFS).1 = .ok () ∧
    ¬ Valid .precision (.tuple [.int 1, .int 2, .int 3]) ∧ ¬ Valid .precision (.tuple [.bool true, .int 3]) := by
  refine ⟨rfl, rfl, rfl, rfl, ?_, ?_⟩ <;> (intro h; cases h)

example : createOrUpdate .level (.str "DEBUG") setFS = (.error (.invalidSetting "default algorithm"), setFS) := rfl

/-! ## C65 -/

/-- **C65, counterexample.** Assigning an invalid value raises, but the service reports it from then on. -/
theorem C65_counterexample :
    let r := assign .precision (.str "high") ⟨setFS, shippedService⟩
    r.1 = .error (.invalidSetting "default precision") ∧ r.2.svc .precision = .str "high" :=
  ⟨rfl, by simp [assign, put]⟩

/-- **C65 (partial).** An assignment that raises leaves the files as they were (so that new services report
the old value), and the service still reports its old values for all *other* settings. -/
theorem C65_failed_assignment_partial (k : Setting) (v : PyVal) (s : SState) (e : Err)
    (h : (assign k v s).1 = .error e) :
    (assign k v s).2.fs = s.fs ∧ ∀ k', k' ≠ k → (assign k v s).2.svc k' = s.svc k' := by
  refine ⟨createOrUpdate_error h, fun k' hk => ?_⟩
  simp [assign, put, hk]

/-- After a successful assignment the service reports the new value, and the old ones otherwise. -/
theorem C65_successful_assignment (k : Setting) (v : PyVal) (s : SState) (k' : Setting) :
    (assign k v s).2.svc k' = if k' = k then v else s.svc k' := rfl

/-! ## C66 -/

/-- the file system if the process dies after `n` of the changes made while saving -/
def crashed (n : Nat) (j : Json) (fs : SettingsFS) : SettingsFS :=
  ((commitSteps j).take n).foldl (fun s g => g s) fs

/-- saving is these changes, one after the other -/
theorem saving_is_commit (k : Setting) (v : PyVal) (fs : SettingsFS) (j : Json) (h : prepare fs k v = .ok j) (n : Nat)
    (hn : 2 ≤ n) : createOrUpdate k v fs = (.ok (), crashed n j fs) := by
  unfold createOrUpdate crashed
  rw [h, List.take_of_length_le (by simp [commitSteps]; omega)]

/-- **C66, counterexample.** If the process dies between opening the file and writing it, no service can be
created any more, although one could be created from the old and from the new settings. -/
theorem C66_counterexample :
    ∃ j, prepare setFS .level (.level .INFO) = .ok j ∧
      load (crashed 1 j setFS) = .error .jsonDecodeError ∧
      (∃ s, load (crashed 0 j setFS) = .ok s) ∧ (∃ s, load (crashed 2 j setFS) = .ok s) := by
  refine ⟨_, rfl, rfl, ?_, ?_⟩
  · exact ⟨put shippedService .verbose (.bool false), by
      rw [load_eq_loadRaw (fs := crashed 0 _ setFS) shipped_usable setFS_usable]
      apply loadRaw_total
      intro k
      cases k with
      | container => exact ⟨_, rfl, .container .ROUNDING_CONTAINER⟩
      | algorithm => exact ⟨_, rfl, .algorithm .SIMPLE_ARGUMENT⟩
      | estimator => exact ⟨_, rfl, .estimator .SUMMATION_ESTIMATOR⟩
      | level => exact ⟨_, rfl, .level .WARNING⟩
      | verbose => exact ⟨_, rfl, .verbose (j := .bool false) (by simp)⟩
      | precision => exact ⟨_, rfl, .precision (.int 5) (.int 5) []⟩⟩
  · exact ⟨put (put shippedService .verbose (.bool false)) .level (.level .INFO), by
      rw [load_eq_loadRaw (fs := crashed 2 _ setFS) shipped_usable
        (.inr ⟨_, rfl, by unfold Dict.WF Dict.keys; decide⟩)]
      apply loadRaw_total
      intro k
      cases k with
      | container => exact ⟨_, rfl, .container .ROUNDING_CONTAINER⟩
      | algorithm => exact ⟨_, rfl, .algorithm .SIMPLE_ARGUMENT⟩
      | estimator => exact ⟨_, rfl, .estimator .SUMMATION_ESTIMATOR⟩
      | level => exact ⟨_, rfl, .level .INFO⟩
      | verbose => exact ⟨_, rfl, .verbose (j := .bool false) (by simp)⟩
      | precision => exact ⟨_, rfl, .precision (.int 5) (.int 5) []⟩⟩

/-- **C66 (partial).** There is only this one bad point: a process that dies before opening the file for
writing leaves the old settings, one that dies after writing it the new ones; and whenever it dies, the
shipped settings are intact. -/
theorem C66_crash_points_partial (k : Setting) (v : PyVal) (fs : SettingsFS) (j : Json) (h : prepare fs k v = .ok j)
    (n : Nat) : (crashed n j fs).default = fs.default ∧
      ((crashed n j fs = fs) ∨ (n = 1 ∧ (crashed n j fs).custom = .broken) ∨
        createOrUpdate k v fs = (.ok (), crashed n j fs)) := by
  rcases n with _ | _ | n
  · exact ⟨rfl, .inl rfl⟩
  · exact ⟨rfl, .inr (.inl ⟨rfl, rfl⟩)⟩
  · refine ⟨?_, .inr (.inr (saving_is_commit k v fs j h (n + 2) (by omega)))⟩
    unfold crashed
    rw [List.take_of_length_le (by simp [commitSteps])]
    rfl

/-- **C66 (partial).** After such a crash every start and every attempt to save raises until the file is
removed by hand. -/
theorem C66_stuck_partial (fs : SettingsFS) (hd : Usable fs.default) (h : fs.custom = .broken) (k : Setting) (v : PyVal) :
    load fs = .error .jsonDecodeError ∧ (createOrUpdate k v fs).1 = .error (.invalidSetting "filename") := by
  constructor
  · obtain ⟨d, h1, -, -⟩ := readItems_usable hd
    have h2 : ∀ known, loadBoth known fs = .error .jsonDecodeError := by
      intro known
      unfold loadBoth
      rw [h1, h]; rfl
    unfold load loadCore
    simp only [h2, bind, Except.bind]
  · rw [C64_broken_file k v fs h]

/-! ## C67 -/

/-- **C67, counterexample.** Both processes read before either writes: the first change is lost. -/
theorem C67_counterexample :
    ∃ sched fs', race .level (.level .INFO) .verbose (.bool true) sched (.start, .start, setFS) = (.done, .done, fs') ∧
      stored fs'.custom "logLevel" = none ∧ stored fs'.custom "verbose" = some (.bool true) :=
  ⟨[(true, true), (false, true), (true, true), (true, true), (false, true), (false, true)], _, rfl, rfl, rfl⟩

section Race
variable {ka kb : Setting} {va vb : PyVal} {ja jb : Json} {g : String → Option Json}

/-- the settings `g` with the changes `A`, `B` made -/
def withChange (k : Setting) (j : Json) (g : String → Option Json) : String → Option Json :=
  fun x => if k.key = x then some j else g x

/-- the possible contents of a readable file while two processes save -/
def Content (ka : Setting) (ja : Json) (kb : Setting) (jb : Json) (g h : String → Option Json) : Prop :=
  h = g ∨ h = withChange ka ja g ∨ h = withChange kb jb g ∨ h = withChange kb jb (withChange ka ja g)

theorem withChange_comm (h : ka ≠ kb) :
    withChange ka ja (withChange kb jb g) = withChange kb jb (withChange ka ja g) := by
  funext x
  unfold withChange
  by_cases h1 : ka.key = x
  · rw [if_pos h1, if_neg (fun h2 => h (key_inj (h1.trans h2.symm))), if_pos h1]
  · rw [if_neg h1, if_neg h1]

theorem withChange_idem : withChange ka ja (withChange ka ja g) = withChange ka ja g := by
  funext x
  unfold withChange
  by_cases h1 : ka.key = x <;> simp [h1]

theorem content_addA (hne : ka ≠ kb) {h : String → Option Json} (hc : Content ka ja kb jb g h) :
    withChange ka ja h = withChange ka ja g ∨ withChange ka ja h = withChange kb jb (withChange ka ja g) := by
  rcases hc with rfl | rfl | rfl | rfl
  · exact .inl rfl
  · exact .inl withChange_idem
  · exact .inr (withChange_comm hne)
  · right
    rw [withChange_comm hne, withChange_idem]

theorem content_addB (hne : ka ≠ kb) {h : String → Option Json} (hc : Content ka ja kb jb g h) :
    withChange kb jb h = withChange kb jb g ∨ withChange kb jb h = withChange kb jb (withChange ka ja g) := by
  rcases hc with rfl | rfl | rfl | rfl
  · exact .inl rfl
  · exact .inr rfl
  · exact .inl withChange_idem
  · exact .inr withChange_idem

/-- what a process holds while saving change `k, j` -/
def Holds (ka : Setting) (ja : Json) (kb : Setting) (jb : Json) (g : String → Option Json) (k : Setting) (j : Json) : Saver → Prop
  | .ready c => ∃ d, c = .obj d ∧ Dict.WF d ∧
      (Dict.get? d = withChange k j g ∨ Dict.get? d = withChange kb jb (withChange ka ja g))
  | .opened c => ∃ d, c = .obj d ∧ Dict.WF d ∧
      (Dict.get? d = withChange k j g ∨ Dict.get? d = withChange kb jb (withChange ka ja g))
  | _ => True

def Saver.touched : Saver → Bool
  | .opened _ => true
  | .done => true
  | _ => false

/-- the invariant of two processes saving at the same time -/
structure RaceInv (ka : Setting) (ja : Json) (kb : Setting) (jb : Json) (g : String → Option Json) (a b : Saver)
    (fs : SettingsFS) : Prop where
  writable : fs.writable = true
  file : fs.custom = .broken ∨ (Usable fs.custom ∧ Content ka ja kb jb g (stored fs.custom))
  changed : (Saver.touched a || Saver.touched b) = true → fs.custom = .broken ∨
    (stored fs.custom = withChange ka ja g ∨ stored fs.custom = withChange kb jb g ∨
      stored fs.custom = withChange kb jb (withChange ka ja g))
  holdsA : Holds ka ja kb jb g ka ja a
  holdsB : Holds ka ja kb jb g kb jb b

theorem stored_obj (d : Dict String Json) : stored (.json (.obj d)) = Dict.get? d := rfl

theorem raceInv_stepA (hne : ka ≠ kb) (hva : encode ka va = .ok ja) {a b : Saver} {fs : SettingsFS} (c : Bool)
    (h : RaceInv ka ja kb jb g a b fs) :
    RaceInv ka ja kb jb g (a.step ka va c fs).1 b (a.step ka va c fs).2 := by
  cases a with
  | start =>
    unfold Saver.step
    dsimp only
    rcases hp : prepare fs ka va with e | j
    · refine ⟨h.writable, h.file, fun ht => h.changed ?_, trivial, h.holdsB⟩
      simpa [Saver.touched] using ht
    · refine ⟨h.writable, h.file, fun ht => h.changed (by simpa [Saver.touched] using ht), ?_, h.holdsB⟩
      rcases h.file with hf | ⟨hu, hcont⟩
      · unfold prepare at hp; rw [hf] at hp; cases hp
      · obtain ⟨d, hp', hw, hg⟩ := prepare_usable hu h.writable hva
        rw [hp] at hp'; injection hp' with hp'; subst hp'
        refine ⟨_, rfl, hw.set _ _, ?_⟩
        have : Dict.get? (Dict.set d ka.key ja) = withChange ka ja (stored fs.custom) := by
          funext x; rw [Dict.get?_set, hg]; rfl
        rw [this]
        exact content_addA hne hcont
  | ready j =>
    exact ⟨h.writable, .inl rfl, fun _ => .inl rfl, h.holdsA, h.holdsB⟩
  | opened j =>
    obtain ⟨d, rfl, hw, hd⟩ := h.holdsA
    have key : ∀ fs' : SettingsFS, fs'.writable = true → fs'.custom = .json (.obj d) →
        RaceInv ka ja kb jb g .done b fs' := by
      intro fs' hwr hc
      refine ⟨hwr, .inr ⟨.inr ⟨d, hc, hw⟩, ?_⟩, fun _ => .inr ?_, trivial, h.holdsB⟩
      · rw [hc, stored_obj]
        rcases hd with hd | hd
        · exact .inr (.inl hd)
        · exact .inr (.inr (.inr hd))
      · rw [hc, stored_obj]
        rcases hd with hd | hd
        · exact .inl hd
        · exact .inr (.inr hd)
    unfold Saver.step
    dsimp only
    split
    · exact key _ h.writable rfl
    · cases c
      · exact ⟨h.writable, .inl rfl, fun _ => .inl rfl, trivial, h.holdsB⟩
      · exact key _ h.writable rfl
  | done => exact h
  | failed => exact h

theorem raceInv_stepB (hne : ka ≠ kb) (hvb : encode kb vb = .ok jb) {a b : Saver} {fs : SettingsFS} (c : Bool)
    (h : RaceInv ka ja kb jb g a b fs) :
    RaceInv ka ja kb jb g a (b.step kb vb c fs).1 (b.step kb vb c fs).2 := by
  cases b with
  | start =>
    unfold Saver.step
    dsimp only
    rcases hp : prepare fs kb vb with e | j
    · refine ⟨h.writable, h.file, fun ht => h.changed ?_, h.holdsA, trivial⟩
      simpa [Saver.touched] using ht
    · refine ⟨h.writable, h.file, fun ht => h.changed (by simpa [Saver.touched] using ht), h.holdsA, ?_⟩
      rcases h.file with hf | ⟨hu, hcont⟩
      · unfold prepare at hp; rw [hf] at hp; cases hp
      · obtain ⟨d, hp', hw, hg⟩ := prepare_usable hu h.writable hvb
        rw [hp] at hp'; injection hp' with hp'; subst hp'
        refine ⟨_, rfl, hw.set _ _, ?_⟩
        have : Dict.get? (Dict.set d kb.key jb) = withChange kb jb (stored fs.custom) := by
          funext x; rw [Dict.get?_set, hg]; rfl
        rw [this]
        exact content_addB hne hcont
  | ready j =>
    exact ⟨h.writable, .inl rfl, fun _ => .inl rfl, h.holdsA, h.holdsB⟩
  | opened j =>
    obtain ⟨d, rfl, hw, hd⟩ := h.holdsB
    have key : ∀ fs' : SettingsFS, fs'.writable = true → fs'.custom = .json (.obj d) →
        RaceInv ka ja kb jb g a .done fs' := by
      intro fs' hwr hc
      refine ⟨hwr, .inr ⟨.inr ⟨d, hc, hw⟩, ?_⟩, fun _ => .inr ?_, h.holdsA, trivial⟩
      · rw [hc, stored_obj]
        rcases hd with hd | hd
        · exact .inr (.inr (.inl hd))
        · exact .inr (.inr (.inr hd))
      · rw [hc, stored_obj]
        rcases hd with hd | hd
        · exact .inr (.inl hd)
        · exact .inr (.inr hd)
    unfold Saver.step
    dsimp only
    split
    · exact key _ h.writable rfl
    · cases c
      · exact ⟨h.writable, .inl rfl, fun _ => .inl rfl, h.holdsA, trivial⟩
      · exact key _ h.writable rfl
  | done => exact h
  | failed => exact h

theorem raceInv_run (hne : ka ≠ kb) (hva : encode ka va = .ok ja) (hvb : encode kb vb = .ok jb)
    (sched : List (Bool × Bool)) :
    ∀ s : Saver × Saver × SettingsFS, RaceInv ka ja kb jb g s.1 s.2.1 s.2.2 →
      RaceInv ka ja kb jb g (race ka va kb vb sched s).1 (race ka va kb vb sched s).2.1 (race ka va kb vb sched s).2.2 := by
  induction sched with
  | nil => intro s h; exact h
  | cons e sched ih =>
    intro ⟨a, b, fs⟩ h
    obtain ⟨who, c⟩ := e
    cases who with
    | true => exact ih _ (raceInv_stepA hne hva c h)
    | false => exact ih _ (raceInv_stepB hne hvb c h)

end Race

/-- **C67 (partial).** Two processes saving different settings at the same time, in any interleaving:
when both have finished, the file is unreadable, or it holds the old settings with at least one of the two
changes; no other setting is affected.  (Missing: that both changes are there.) -/
theorem C67_race_partial (ka kb : Setting) (hne : ka ≠ kb) (va vb : PyVal) (hva : Valid ka va) (hvb : Valid kb vb)
    (fs fs' : SettingsFS) (hc : Usable fs.custom) (hw : fs.writable = true) (sched : List (Bool × Bool))
    (h : race ka va kb vb sched (.start, .start, fs) = (.done, .done, fs')) :
    fs'.custom = .broken ∨
    ∃ ja jb, Written ka va ja ∧ Written kb vb jb ∧
      ((stored fs'.custom ka.key = some ja ∧ stored fs'.custom kb.key = some jb) ∨
        (stored fs'.custom ka.key = some ja ∧ stored fs'.custom kb.key = stored fs.custom kb.key) ∨
        (stored fs'.custom ka.key = stored fs.custom ka.key ∧ stored fs'.custom kb.key = some jb)) ∧
      ∀ x, x ≠ ka.key → x ≠ kb.key → stored fs'.custom x = stored fs.custom x := by
  obtain ⟨ja, hja, wa, -⟩ := encode_valid hva
  obtain ⟨jb, hjb, wb, -⟩ := encode_valid hvb
  have inv := raceInv_run (g := stored fs.custom) hne hja hjb sched (.start, .start, fs)
    ⟨hw, .inr ⟨hc, .inl rfl⟩, (by intro h; cases h), trivial, trivial⟩
  rw [h] at inv
  have hkk : ka.key ≠ kb.key := fun e => hne (key_inj e)
  rcases inv.changed rfl with hb | hb
  · exact .inl hb
  · right
    refine ⟨ja, jb, wa, wb, ?_, fun x h1 h2 => ?_⟩
    · rcases hb with hb | hb | hb <;> rw [hb] <;> simp only [withChange, if_true, if_neg hkk, if_neg (Ne.symm hkk)]
      · exact .inr (.inl ⟨trivial, trivial⟩)
      · exact .inr (.inr ⟨trivial, trivial⟩)
      · exact .inl ⟨trivial, trivial⟩
    · rcases hb with hb | hb | hb <;> rw [hb] <;> simp only [withChange, if_neg (Ne.symm h1), if_neg (Ne.symm h2)]

/-- **C67 (partial).** If one process has finished before the other one starts, both changes are in the
file. -/
theorem C67_serial_partial (ka kb : Setting) (hne : ka ≠ kb) (va vb : PyVal) (hva : Valid ka va) (hvb : Valid kb vb)
    (fs : SettingsFS) (hc : Usable fs.custom) (hw : fs.writable = true) (c : Bool) :
    ∃ fs' ja jb, race ka va kb vb
        [(true, c), (true, c), (true, c), (false, c), (false, c), (false, c)] (.start, .start, fs) = (.done, .done, fs') ∧
      Written ka va ja ∧ Written kb vb jb ∧
      stored fs'.custom ka.key = some ja ∧ stored fs'.custom kb.key = some jb := by
  obtain ⟨ja, hja, wa, -⟩ := encode_valid hva
  obtain ⟨jb, hjb, wb, -⟩ := encode_valid hvb
  have hkk : ka.key ≠ kb.key := fun e => hne (key_inj e)
  obtain ⟨d1, hp1, w1, g1⟩ := prepare_usable hc hw hja
  let fs1 : SettingsFS := ⟨fs.default, .json (.obj (Dict.set d1 ka.key ja)), fs.writable⟩
  have hc1 : Usable fs1.custom := .inr ⟨_, rfl, w1.set _ _⟩
  obtain ⟨d2, hp2, w2, g2⟩ := prepare_usable (fs := fs1) hc1 hw hjb
  refine ⟨⟨fs.default, .json (.obj (Dict.set d2 kb.key jb)), fs.writable⟩, ja, jb, ?_, wa, wb, ?_, ?_⟩
  · have s1 : Saver.step ka va c .start fs = (.ready (.obj (Dict.set d1 ka.key ja)), fs) := by
      unfold Saver.step; dsimp only; rw [hp1]
    have s2 : Saver.step kb vb c .start fs1 = (.ready (.obj (Dict.set d2 kb.key jb)), fs1) := by
      unfold Saver.step; dsimp only; rw [hp2]
    simp only [race, s1]
    have e1 : (Saver.step ka va c (Saver.step ka va c (.ready (.obj (Dict.set d1 ka.key ja))) fs).1
        (Saver.step ka va c (.ready (.obj (Dict.set d1 ka.key ja))) fs).2) = (.done, fs1) := rfl
    rw [e1]
    simp only [s2]
    rfl
  · show Dict.get? (Dict.set d2 kb.key jb) ka.key = _
    rw [Dict.get?_set, if_neg (Ne.symm hkk), g2]
    show Dict.get? (Dict.set d1 ka.key ja) ka.key = _
    rw [Dict.get?_set, if_pos rfl]
  · show Dict.get? (Dict.set d2 kb.key jb) kb.key = _
    rw [Dict.get?_set, if_pos rfl]

/-! ## C68 -/

/-- reads and assignments through one service -/
inductive UseOp
  | read (k : Setting)
  | write (k : Setting) (v : PyVal)

/-- what the reads return, through a JSON service; `none` if an assignment raised -/
def useJson : List UseOp → SState → Option (List PyVal)
  | [], _ => some []
  | .read k :: ops, s => (useJson ops s).map (s.svc k :: ·)
  | .write k v :: ops, s => match assign k v s with
    | (.ok _, s') => useJson ops s'
    | (.error _, _) => none

/-- what the reads return, through an in-memory service -/
def useRam : List UseOp → Service → Option (List PyVal)
  | [], _ => some []
  | .read k :: ops, s => (useRam ops s).map (s k :: ·)
  | .write k v :: ops, s => match ramAssign k v s with
    | (.ok _, s') => useRam ops s'
    | (.error _, _) => none

/-- **C68.** For every sequence of reads and valid assignments the in-memory service and the JSON service
return the same values, neither raising, if they start with the same values and the custom file is absent
or holds an object. -/
theorem C68_ram_equals_json (ops : List UseOp) (hv : ∀ k v, .write k v ∈ ops → Valid k v) :
    ∀ (fs : SettingsFS) (svc : Service), Usable fs.custom → fs.writable = true →
      useJson ops ⟨fs, svc⟩ = useRam ops svc ∧ useRam ops svc ≠ none := by
  induction ops with
  | nil => intro fs svc _ _; exact ⟨rfl, by simp [useRam]⟩
  | cons op ops ih =>
    have ih' := ih fun k v h => hv k v (List.mem_cons_of_mem _ h)
    intro fs svc hc hw
    cases op with
    | read k =>
      obtain ⟨h1, h2⟩ := ih' fs svc hc hw
      refine ⟨by simp only [useJson, useRam, h1], ?_⟩
      simp only [useRam]
      rcases h : useRam ops svc with _ | l
      · exact absurd h h2
      · simp
    | write k v =>
      obtain ⟨fs', j, hu, -, hw', hc', -⟩ := createOrUpdate_valid hc hw (hv k v List.mem_cons_self)
      have ha : assign k v ⟨fs, svc⟩ = (.ok (), ⟨fs', put svc k v⟩) := by
        unfold assign; dsimp only; rw [hu]
      have := ih' fs' (put svc k v) hc' hw'
      simp only [useJson, useRam, ha, ramAssign]
      exact this

/-- **C68.** Without the restriction to valid assignments the two differ: the JSON service raises. -/
theorem C68_invalid_differs (svc : Service) :
    useJson [.write .verbose (.int 1)] ⟨setFS, svc⟩ = none ∧ useRam [.write .verbose (.int 1)] svc = some [] := by
  constructor <;> rfl

example : useRam [.write .level (.level .INFO), .read .level, .read .verbose] shippedService =
    some [.level .INFO, .bool true] := by
  simp [useRam, ramAssign, put, shippedService, mkService]

/-! ## C69 -/

/-- **C69.** A new service reports, for each setting, the meaning of the value in the custom file if the key
is there, and of the value in the default file otherwise. -/
theorem C69_reports (fs : SettingsFS) (hd : Usable fs.default) (hc : Usable fs.custom) (svc : Service)
    (h : load fs = .ok svc) (k : Setting) : ∃ j, inForce fs k.key = some j ∧ Means k j (svc k) := by
  rw [load_eq_loadRaw hd hc] at h
  exact loadRaw_ok h k

/-- **C69.** If every setting has a meaningful value in force, the service is created. -/
theorem C69_total (fs : SettingsFS) (hd : Usable fs.default) (hc : Usable fs.custom)
    (h : ∀ k : Setting, ∃ j v, inForce fs k.key = some j ∧ Means k j v) : ∃ svc, load fs = .ok svc := by
  choose j v h1 h2 using h
  exact ⟨v, by rw [load_eq_loadRaw hd hc]; exact loadRaw_total fun k => ⟨j k, h1 k, h2 k⟩⟩

/-- **C69.** With the shipped default file every custom file leads to a service or to an exception according
to its own entries alone: a setting it does not mention has its shipped value. -/
theorem C69_key_by_key (c : FileC) (hc : Usable c) (w : Bool) (svc : Service) (h : load ⟨shippedFile, c, w⟩ = .ok svc)
    (k : Setting) :
    (stored c k.key = none → svc k = shippedService k) ∧
    (∀ j, stored c k.key = some j → Means k j (svc k)) := by
  obtain ⟨j, h1, h2⟩ := C69_reports _ shipped_usable hc svc h k
  obtain ⟨j', h1', h2'⟩ := C69_reports _ shipped_usable (.inl rfl) _ (shipped_load w) k
  constructor
  · intro hn
    unfold inForce at h1 h1'
    rw [hn] at h1
    rw [show stored (SettingsFS.custom ⟨shippedFile, .absent, w⟩) k.key = none from rfl] at h1'
    dsimp only at h1 h1'
    rw [h1] at h1'; injection h1' with h1'; subst h1'
    exact means_functional h2 h2'
  · intro j'' hj
    unfold inForce at h1
    rw [hj] at h1
    injection h1 with h1; subst h1; exact h2

/-- **C69.** Keys unknown to the service are ignored: it depends only on the values in force for its six
settings. -/
theorem C69_unknown_ignored (fs fs' : SettingsFS) (hd : Usable fs.default) (hc : Usable fs.custom)
    (hd' : Usable fs'.default) (hc' : Usable fs'.custom)
    (h : ∀ k : Setting, inForce fs k.key = inForce fs' k.key) : load fs = load fs' := by
  rw [load_eq_loadRaw hd hc, load_eq_loadRaw hd' hc']
  exact congrArg loadRaw (funext h)

/-- **C69.** If creating a service fails (with usable files), then with `KeyError` because no file provides
some key, or with `InvalidSettingException` because of a value without meaning, or with `IndexError` because
of a precision with fewer than two entries. -/
theorem C69_errors_partial (fs : SettingsFS) (hd : Usable fs.default) (hc : Usable fs.custom) (e : Err)
    (h : load fs = .error e) :
    (e = .keyError ∧ ∃ k : Setting, inForce fs k.key = none) ∨
    (∃ slot, e = .invalidSetting slot ∧ ∃ k : Setting, ∀ j, inForce fs k.key = some j → ∀ v, ¬ Means k j v) ∨
    (e = .indexError ∧ ∃ l, inForce fs "precision" = some (.arr l) ∧ l.length < 2) := by
  rw [load_eq_loadRaw hd hc] at h
  exact loadRaw_error h

/-- **C69, counterexample.** Unusable precisions are not rejected with `InvalidSettingException`: a single
entry raises `IndexError`, and a pair of strings is accepted. -/
theorem C69_counterexample :
    load ⟨shippedFile, .json (.obj [("precision", .arr [.int 5])]), true⟩ = .error .indexError ∧
    ∃ svc, load ⟨shippedFile, .json (.obj [("precision", .arr [.str "a", .str "b"])]), true⟩ = .ok svc ∧
      svc .precision = .tuple [.str "a", .str "b"] := by
  constructor
  · rw [load_eq_loadRaw shipped_usable (.inr ⟨_, rfl, by unfold Dict.WF Dict.keys; decide⟩)]; rfl
  · refine ⟨put shippedService .precision (.tuple [.str "a", .str "b"]), ?_, by simp [put]⟩
    rw [load_eq_loadRaw shipped_usable (.inr ⟨_, rfl, by unfold Dict.WF Dict.keys; decide⟩)]
    apply loadRaw_total
    intro k
    cases k with
    | container => exact ⟨_, rfl, .container .ROUNDING_CONTAINER⟩
    | algorithm => exact ⟨_, rfl, .algorithm .SIMPLE_ARGUMENT⟩
    | estimator => exact ⟨_, rfl, .estimator .SUMMATION_ESTIMATOR⟩
    | level => exact ⟨_, rfl, .level .WARNING⟩
    | verbose => exact ⟨_, rfl, .verbose (j := .bool true) (by simp)⟩
    | precision => exact ⟨_, rfl, .precision (.str "a") (.str "b") []⟩

/-- the custom file of the example overrides one key -/
example : ∃ svc, load setFS = .ok svc ∧ svc .verbose = .bool false ∧ svc .level = .level .WARNING := by
  obtain ⟨svc, h⟩ := C69_total setFS shipped_usable setFS_usable (by
    intro k
    cases k with
    | container => exact ⟨_, _, rfl, .container .ROUNDING_CONTAINER⟩
    | algorithm => exact ⟨_, _, rfl, .algorithm .SIMPLE_ARGUMENT⟩
    | estimator => exact ⟨_, _, rfl, .estimator .SUMMATION_ESTIMATOR⟩
    | level => exact ⟨_, _, rfl, .level .WARNING⟩
    | verbose => exact ⟨_, _, rfl, .verbose (j := .bool false) (by simp)⟩
    | precision => exact ⟨_, _, rfl, .precision (.int 5) (.int 5) []⟩)
  refine ⟨svc, h, ?_, ?_⟩
  · exact means_functional ((C69_key_by_key _ setFS_usable true svc h .verbose).2 (.bool false) rfl)
      (.verbose (j := .bool false) (by simp))
  · exact (C69_key_by_key _ setFS_usable true svc h .level).1 rfl

end PyZeal.Props
