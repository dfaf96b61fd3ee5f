import Verif.Spec.Show
import Verif.Props.Logging

/-!
# C139–C141: descriptions, the test runner, log levels of the factories
-/

set_option linter.unusedSectionVars false

namespace PyZeal.Props
open Spec Show
open Logging (LogWorld)

/-! ## C139 -/

theorem shown_iff (f : Named) (s : List Char) : ShownAs f s ↔ nameOr f = s := by
  obtain ⟨n⟩ := f
  constructor
  · intro h; cases h <;> rfl
  · rintro rfl
    cases n with
    | none => exact .unnamed
    | some n => exact .named n

theorem finderStr_eq (p : Bool) (f : Named) (df : Option Named) {a b : List Char} (ha : ShownAs f a)
    (hb : ShownDf df b) : finderStr p f df =
      (if p then "Parallel".toList else []) ++ "RootFinder(f=".toList ++ a ++ ", df=".toList ++ b ++ ")".toList := by
  rw [shown_iff] at ha
  have h1 : "ParallelRootFinder(f=".toList = "Parallel".toList ++ "RootFinder(f=".toList := by decide +kernel
  have h2 : ", df=".toList = ", ".toList ++ "df=".toList := by decide +kernel
  have h3 : "df=None)".toList = "df=".toList ++ ("None".toList ++ ")".toList) := by decide +kernel
  have e1 : ∀ d, (match d with
      | some d => ("RootFinder(f=".toList ++ a ++ ", ".toList) ++ ("df=".toList ++ nameOr d ++ ")".toList)
      | none => ("RootFinder(f=".toList ++ a ++ ", ".toList) ++ "df=None)".toList) = serialStr f d := by
    intro d; cases d <;> rw [← ha] <;> rfl
  have e2 : ∀ d, (match d with
      | some d => "ParallelRootFinder(f=".toList ++ (a ++ ", ".toList) ++ ("df=".toList ++ nameOr d ++ ")".toList)
      | none => "ParallelRootFinder(f=".toList ++ (a ++ ", ".toList) ++ "df=None)".toList) = parallelStr f d := by
    intro d; cases d <;> rw [← ha] <;> rfl
  unfold finderStr
  rw [← e1, ← e2, h1, h2, h3]
  generalize "Parallel".toList = x1
  generalize "RootFinder(f=".toList = x2
  generalize ", ".toList = x3
  generalize "df=".toList = x4
  generalize hN : "None".toList = x5 at hb ⊢
  generalize ")".toList = x6
  cases p <;> cases hb
  · subst hN; simp
  · rename_i h
    rw [shown_iff] at h
    simp [h]
  · subst hN; simp
  · rename_i h
    rw [shown_iff] at h
    simp [h]

/-- up to the first occurrence of a character -/
theorem char_split (c : Char) {a a' x x' : List Char} (h : c ∉ a) (h' : c ∉ a') (e : a ++ c :: x = a' ++ c :: x') :
    a = a' ∧ x = x' := by
  induction a generalizing a' with
  | nil =>
    cases a' with
    | nil => simpa using e
    | cons d a' => simp only [List.nil_append, List.cons_append, List.cons.injEq] at e; simp [← e.1] at h'
  | cons d a ih =>
    cases a' with
    | nil => simp only [List.nil_append, List.cons_append, List.cons.injEq] at e; simp [e.1] at h
    | cons d' a' =>
      simp only [List.cons_append, List.cons.injEq] at e
      have := ih (fun m => h (List.mem_cons_of_mem _ m)) (fun m => h' (List.mem_cons_of_mem _ m)) e.2
      exact ⟨by rw [e.1, this.1], this.2⟩

/-- **C139** (finders).  `str(finder)` tells the class of the finder, the name of its function and what is known
about its derivative: two finders (whose functions' names have no comma in them) have the same description exactly
if they agree in these. -/
theorem C139_finder (p p' : Bool) (f f' : Named) (df df' : Option Named) {a a' b b' : List Char}
    (ha : ShownAs f a) (ha' : ShownAs f' a') (hb : ShownDf df b) (hb' : ShownDf df' b')
    (hc : ',' ∉ a) (hc' : ',' ∉ a') :
    finderStr p f df = finderStr p' f' df' ↔ p = p' ∧ a = a' ∧ b = b' := by
  rw [finderStr_eq p f df ha hb, finderStr_eq p' f' df' ha' hb']
  have key : ∀ (pre : List Char), pre ++ "RootFinder(f=".toList ++ a ++ ", df=".toList ++ b ++ ")".toList =
      pre ++ "RootFinder(f=".toList ++ a' ++ ", df=".toList ++ b' ++ ")".toList → a = a' ∧ b = b' := by
    intro pre e
    simp only [List.append_assoc, List.append_cancel_left_eq] at e
    have := char_split ',' (x := ' ' :: 'd' :: 'f' :: '=' :: (b ++ ")".toList))
      (x' := ' ' :: 'd' :: 'f' :: '=' :: (b' ++ ")".toList)) hc hc' (by simpa using e)
    refine ⟨this.1, ?_⟩
    simpa using this.2
  constructor
  · intro e
    cases p <;> cases p'
    · exact ⟨rfl, key [] (by simpa using e)⟩
    · simp at e
    · simp at e
    · exact ⟨rfl, key "Parallel".toList (by simpa using e)⟩
  · rintro ⟨rfl, rfl, rfl⟩; rfl

/-- names with commas make the description ambiguous: `f` named `f, df=g` without derivative … -/
theorem C139_comma : finderStr false ⟨some "f".toList⟩ (some ⟨some "g, df=None".toList⟩) =
    finderStr false ⟨some "f, df=g".toList⟩ none := by decide +kernel

/-- and a derivative called `None` looks like none -/
theorem C139_none : finderStr false ⟨some "f".toList⟩ (some ⟨some "None".toList⟩) =
    finderStr false ⟨some "f".toList⟩ none := by decide +kernel

/-- **C139** (searches).  The description of a search written to the log names the function and determines the
rectangle, provided different bounds are shown differently (as Python does), without commas or brackets, and the
function's name has no bracket in it. -/
theorem C139_search {α : Type} (shown : α → List Char) (inj : ∀ x y, shown x = shown y → x = y)
    (nc : ∀ x, ',' ∉ shown x) (nb : ∀ x, ']' ∉ shown x) (f f' : Named) (re re' im im' : α × α) {a a' : List Char}
    (ha : ShownAs f a) (ha' : ShownAs f' a') (hc : '[' ∉ a) (hc' : '[' ∉ a') :
    functionDataToString shown f re im = functionDataToString shown f' re' im' ↔ a = a' ∧ re = re' ∧ im = im' := by
  rw [shown_iff] at ha ha'
  unfold functionDataToString
  rw [ha, ha']
  constructor
  · intro e
    have e1 := char_split '[' (a := a ++ " on rectangle ".toList) (a' := a' ++ " on rectangle ".toList)
      (x := shown re.1 ++ ',' :: ' ' :: (shown re.2 ++ ']' :: ' ' :: 'x' :: ' ' :: '[' ::
        (shown im.1 ++ ',' :: ' ' :: (shown im.2 ++ [']']))))
      (x' := shown re'.1 ++ ',' :: ' ' :: (shown re'.2 ++ ']' :: ' ' :: 'x' :: ' ' :: '[' ::
        (shown im'.1 ++ ',' :: ' ' :: (shown im'.2 ++ [']']))))
      (by simpa using hc) (by simpa using hc') (by simpa using e)
    have e2 := char_split ',' (nc _) (nc _) e1.2
    have e3 := char_split ']' (nb _) (nb _) (List.cons.inj e2.2).2
    have e4 := char_split ',' (nc im.1) (nc im'.1) (by simpa using e3.2)
    have e5 := char_split ']' (nb im.2) (nb im'.2) (List.cons.inj e4.2).2
    refine ⟨by simpa using e1.1, ?_, ?_⟩
    · exact Prod.ext (inj _ _ e2.1) (inj _ _ e3.1)
    · exact Prod.ext (inj _ _ e4.1) (inj _ _ e5.1)
  · rintro ⟨rfl, rfl, rfl⟩; rfl

/-- the natural numbers are shown in such a way -/
example : functionDataToString Logging.natStr ⟨some "f".toList⟩ (0, 12) (3, 4) = "f on rectangle [0, 12] x [3, 4]".toList := by
  decide +kernel

/-- and a description of a finder -/
example : finderStr true ⟨some "<lambda>".toList⟩ none = "ParallelRootFinder(f=<lambda>, df=None)".toList ∧
    finderStr false ⟨none⟩ (some ⟨some "df".toList⟩) = "RootFinder(f=<unnamed>, df=df)".toList := by
  decide +kernel

/-! ## C140 -/

/-- **C140** (where tests run).  `testModule` runs `pytest` exactly once, in the package's directory, whatever the
working directory was before, on the path below `tests` that the argument gives (or on the argument itself if it is
an absolute path); the returned status is that of this run, independent of everything that happened before. -/
theorem C140_run (status : Path → List Char → Nat) (pkg : Path) (module : List Char) (p : Proc) :
    ∃ arg, (module.head? = some '/' → arg = module) ∧ (module.head? ≠ some '/' → arg = "tests/".toList ++ module) ∧
      (testModule status (pkg ++ ["utils", "install_test_handler.py"]) module p).1 = .ok (status pkg arg) ∧
      (testModule status (pkg ++ ["utils", "install_test_handler.py"]) module p).2.runs = p.runs ++ [(pkg, arg)] := by
  have hd : (pkg ++ ["utils", "install_test_handler.py"]).dropLast.dropLast = pkg := by simp [List.dropLast_append_of_ne_nil]
  have hr : testModule status (pkg ++ ["utils", "install_test_handler.py"]) module p =
      (.ok (status pkg (joinPath "tests".toList module)),
        ⟨pkg, p.runs ++ [(pkg, joinPath "tests".toList module)]⟩) := by
    have : testModule status (pkg ++ ["utils", "install_test_handler.py"]) module p =
        (.ok (status (pkg ++ ["utils", "install_test_handler.py"]).dropLast.dropLast (joinPath "tests".toList module)),
          ⟨(pkg ++ ["utils", "install_test_handler.py"]).dropLast.dropLast,
            p.runs ++ [((pkg ++ ["utils", "install_test_handler.py"]).dropLast.dropLast, joinPath "tests".toList module)]⟩) := rfl
    rw [this, hd]
  refine ⟨joinPath "tests".toList module, ?_, ?_, ?_, ?_⟩
  · intro h
    cases module with
    | nil => cases h
    | cons c m => simp only [List.head?_cons, Option.some.injEq] at h; subst h; rfl
  · intro h
    unfold joinPath
    split
    · simp at h
    · rfl
  · rw [hr]
  · rw [hr]

/-- **C140** (what is left behind).  After `testModule` the working directory of the process is the package's
directory: log files of loggers initialised later go to `logs` in the package's directory, and no longer to the
directory the user's program was started in. -/
theorem C140_leaves (status : Path → List Char → Nat) (pkg : Path) (module : List Char) (p : Proc) :
    (testModule status (pkg ++ ["utils", "install_test_handler.py"]) module p).2.cwd = pkg ∧
      logDir (testModule status (pkg ++ ["utils", "install_test_handler.py"]) module p).2 = pkg ++ ["logs"] := by
  have hd : (pkg ++ ["utils", "install_test_handler.py"]).dropLast.dropLast = pkg := by simp [List.dropLast_append_of_ne_nil]
  have : (testModule status (pkg ++ ["utils", "install_test_handler.py"]) module p).2.cwd =
      (pkg ++ ["utils", "install_test_handler.py"]).dropLast.dropLast := rfl
  refine ⟨by rw [this, hd], ?_⟩
  unfold logDir
  rw [this, hd]

/-- a run from the user's home directory -/
example : (testModule (fun _ _ => 0) ["site-packages", "pyzeal", "utils", "install_test_handler.py"] "test_x.py".toList
    ⟨["home", "user"], []⟩).2 = ⟨["site-packages", "pyzeal"], [(["site-packages", "pyzeal"], "tests/test_x.py".toList)]⟩ := rfl

/-! ## C141 -/

open Logging

theorem runFactoryLog_append (E : LogEnv) (nameOf : Nat → String) (a b : List FactoryLogOp) (w : LogWorld) :
    runFactoryLog E nameOf (a ++ b) w = runFactoryLog E nameOf b (runFactoryLog E nameOf a w) := by
  induction a generalizing w with
  | nil => rfl
  | cons o a ih => exact ih _

theorem factorySetLevel_run (nameOf : Nat → String) (o : Nat) (l : LogLevel) (w : LogWorld) :
    factorySetLevel nameOf o l w = (.ok (), if w.hasLogger o then
      { w with logs := update [nameOf o] (fun g => { g with level := l.value }) w.logs } else w) := by
  have : factorySetLevel nameOf o l w =
      (if w.hasLogger o then onLogs (setLogLevel [nameOf o] l) else pure ()) w := rfl
  rw [this]
  cases w.hasLogger o <;> rfl

theorem getLogger_hasLogger (E : LogEnv) (nameOf : Nat → String) (o o' : Nat) (h : o' ≠ o) (w : LogWorld) :
    (getLogger E nameOf o' w).2.hasLogger o = w.hasLogger o := by
  have : getLogger E nameOf o' w = (if w.hasLogger o' then pure () else do
    onLogs (initLogger E [nameOf o'] w.settings)
    markLogger o' : Py LogWorld Unit) w := rfl
  rw [this]
  cases w.hasLogger o' with
  | true => rfl
  | false =>
    simp only [Bool.false_eq_true, if_false]
    rw [Py.bind_run, onLogs_run]
    cases hr : (initLogger E [nameOf o'] w.settings w.logs).1 with
    | error e => rfl
    | ok u =>
      show (if o = o' then true else w.hasLogger o) = w.hasLogger o
      rw [if_neg (fun e => h e.symm)]

theorem perform_unrequested (E : LogEnv) (nameOf : Nat → String) (o : Nat) (op : FactoryLogOp)
    (h : ¬ Requests o op) (w : LogWorld) : (op.perform E nameOf w).2.hasLogger o = w.hasLogger o := by
  cases op with
  | factoryLevel o' l =>
    show (factorySetLevel nameOf o' l w).2.hasLogger o = _
    rw [factorySetLevel_run]
    dsimp only
    split <;> rfl
  | other op =>
    cases op with
    | init n l => rfl
    | use o' => exact getLogger_hasLogger E nameOf o o' h w
    | setLevel o' l =>
      have h1 := getLogger_hasLogger E nameOf o o' h w
      show (Logging.setLevel E nameOf o' l w).2.hasLogger o = _
      unfold Logging.setLevel
      rw [Py.bind_run]
      cases hr : (getLogger E nameOf o' w) with
      | mk r w' =>
        rw [hr] at h1
        cases r with
        | error e => exact h1
        | ok u => exact h1
    | settings l => rfl
    | addHandler n i => rfl
    | clear n => rfl

theorem run_unrequested (E : LogEnv) (nameOf : Nat → String) (o : Nat) (h : List FactoryLogOp)
    (hn : ∀ op ∈ h, ¬ Requests o op) (w : LogWorld) :
    (runFactoryLog E nameOf h w).hasLogger o = w.hasLogger o := by
  induction h generalizing w with
  | nil => rfl
  | cons op h ih =>
    show (runFactoryLog E nameOf h (op.perform E nameOf w).2).hasLogger o = _
    rw [ih (fun x m => hn x (List.mem_cons_of_mem _ m)), perform_unrequested E nameOf o op (hn op (List.mem_cons_self ..))]

/-- **C141** (too early).  Setting the log level of a factory that was never asked for anything has no effect at
all, not even later: any history goes on as if the call had not been made. -/
theorem C141_too_early (E : LogEnv) (nameOf : Nat → String) (d : LogLevel) (pre post : List FactoryLogOp)
    (o : Nat) (l : LogLevel) (hn : ∀ op ∈ pre, ¬ Requests o op) :
    runFactoryLog E nameOf (pre ++ .factoryLevel o l :: post) (LogWorld.start d) =
      runFactoryLog E nameOf (pre ++ post) (LogWorld.start d) := by
  rw [runFactoryLog_append, runFactoryLog_append]
  have h := run_unrequested E nameOf o pre hn (LogWorld.start d)
  generalize runFactoryLog E nameOf pre (LogWorld.start d) = w at h
  show runFactoryLog E nameOf post (factorySetLevel nameOf o l w).2 = _
  rw [factorySetLevel_run, h]
  rfl

theorem perform_keeps_logger (E : LogEnv) (hm : E.mkdirOk = true) (ho : E.openOk = true) (nameOf : Nat → String)
    (o : Nat) (op : FactoryLogOp) (w : LogWorld) (h : w.hasLogger o = true) :
    (op.perform E nameOf w).2.hasLogger o = true := by
  by_cases hq : Requests o op
  · cases op with
    | factoryLevel o' l => exact hq.elim
    | other op =>
      cases op with
      | use o' =>
        obtain rfl : o' = o := hq
        show (getLogger E nameOf o' w).2.hasLogger o' = true
        have : getLogger E nameOf o' w = (if w.hasLogger o' then pure () else do
          onLogs (initLogger E [nameOf o'] w.settings)
          markLogger o' : Py LogWorld Unit) w := rfl
        rw [this, h]
        exact h
      | setLevel o' l =>
        obtain rfl : o' = o := hq
        have hg : getLogger E nameOf o' w = (.ok (), w) := by
          have : getLogger E nameOf o' w = (if w.hasLogger o' then pure () else do
            onLogs (initLogger E [nameOf o'] w.settings)
            markLogger o' : Py LogWorld Unit) w := rfl
          rw [this, h]
          rfl
        show (Logging.setLevel E nameOf o' l w).2.hasLogger o' = true
        unfold Logging.setLevel
        rw [Py.bind_run, hg]
        exact h
      | init n l => exact hq.elim
      | settings l => exact hq.elim
      | addHandler n i => exact hq.elim
      | clear n => exact hq.elim
  · rw [perform_unrequested E nameOf o op hq, h]

theorem run_keeps_logger (E : LogEnv) (hm : E.mkdirOk = true) (ho : E.openOk = true) (nameOf : Nat → String)
    (o : Nat) (h : List FactoryLogOp) (w : LogWorld) (hw : w.hasLogger o = true) :
    (runFactoryLog E nameOf h w).hasLogger o = true := by
  induction h generalizing w with
  | nil => exact hw
  | cons op h ih => exact ih _ (perform_keeps_logger E hm ho nameOf o op w hw)

theorem getLogger_marks (E : LogEnv) (hm : E.mkdirOk = true) (ho : E.openOk = true) (nameOf : Nat → String) (o : Nat)
    (w : LogWorld) : (getLogger E nameOf o w).2.hasLogger o = true := by
  have : getLogger E nameOf o w = (if w.hasLogger o then pure () else do
    onLogs (initLogger E [nameOf o] w.settings)
    markLogger o : Py LogWorld Unit) w := rfl
  rw [this]
  cases h : w.hasLogger o with
  | true => exact h
  | false =>
    simp only [Bool.false_eq_true, if_false]
    rw [Py.bind_run, onLogs_run, initLogger_ok E hm ho]
    show (if o = o then true else w.hasLogger o) = true
    rw [if_pos rfl]

theorem perform_level_kept (E : LogEnv) (nameOf : Nat → String) (o : Nat) (op : FactoryLogOp)
    (h : ¬ MayChangeLevel nameOf o op) (w : LogWorld) (hw : w.hasLogger o = true) :
    ((op.perform E nameOf w).2.logs.logger [nameOf o]).level = (w.logs.logger [nameOf o]).level := by
  cases op with
  | factoryLevel o' l =>
    show ((factorySetLevel nameOf o' l w).2.logs.logger [nameOf o]).level = _
    rw [factorySetLevel_run]
    dsimp only
    split
    · rw [update_logger, if_neg (fun e => h (List.cons.inj e).1.symm)]
    · rfl
  | other op =>
    by_cases hu : op = .use o
    · subst hu
      show ((getLogger E nameOf o w).2.logs.logger [nameOf o]).level = _
      have : getLogger E nameOf o w = (if w.hasLogger o then pure () else do
        onLogs (initLogger E [nameOf o] w.settings)
        markLogger o : Py LogWorld Unit) w := rfl
      rw [this, hw]
      rfl
    · refine perform_level_other E nameOf [nameOf o] op ?_ w
      intro hc
      cases op with
      | use o' => exact h ⟨fun e => hu (by rw [e]), (List.cons.inj hc).1⟩
      | init n l => exact h hc
      | setLevel o' l => exact h hc
      | settings l => exact hc
      | addHandler n i => exact hc
      | clear n => exact hc

theorem run_level_kept (E : LogEnv) (hm : E.mkdirOk = true) (ho : E.openOk = true) (nameOf : Nat → String) (o : Nat)
    (h : List FactoryLogOp) (hn : ∀ op ∈ h, ¬ MayChangeLevel nameOf o op) (w : LogWorld) (hw : w.hasLogger o = true) :
    ((runFactoryLog E nameOf h w).logs.logger [nameOf o]).level = (w.logs.logger [nameOf o]).level := by
  induction h generalizing w with
  | nil => rfl
  | cons op h ih =>
    show ((runFactoryLog E nameOf h (op.perform E nameOf w).2).logs.logger [nameOf o]).level = _
    rw [ih (fun x m => hn x (List.mem_cons_of_mem _ m)) _ (perform_keeps_logger E hm ho nameOf o op w hw),
      perform_level_kept E nameOf o op (hn op (List.mem_cons_self ..)) w hw]

/-- **C141** (in time).  Once a factory was asked for something, setting its log level sets the level of its
logger, which stays until something else is done to a logger of that name (further requests to the factory do not
matter, nor does a change of the default log level); no other logger, no handler and no default is changed. -/
theorem C141_in_time (E : LogEnv) (hm : E.mkdirOk = true) (ho : E.openOk = true) (nameOf : Nat → String)
    (w : LogWorld) (pre post : List FactoryLogOp) (o : Nat) (l : LogLevel)
    (hr : FactoryLogOp.other (.use o) ∈ pre) (hn : ∀ op ∈ post, ¬ MayChangeLevel nameOf o op) :
    ((runFactoryLog E nameOf (pre ++ .factoryLevel o l :: post) w).logs.logger [nameOf o]).level = l.value ∧
    (let before := runFactoryLog E nameOf pre w
     let after := runFactoryLog E nameOf (pre ++ [.factoryLevel o l]) w
     (∀ n, (after.logs.logger n).handlers = (before.logs.logger n).handlers) ∧
     (∀ n, n ≠ [nameOf o] → (after.logs.logger n).level = (before.logs.logger n).level) ∧
     after.settings = before.settings) := by
  have hw : (runFactoryLog E nameOf pre w).hasLogger o = true := by
    obtain ⟨a, b, rfl⟩ := List.append_of_mem hr
    rw [runFactoryLog_append]
    exact run_keeps_logger E hm ho nameOf o b _ (getLogger_marks E hm ho nameOf o _)
  rw [runFactoryLog_append, runFactoryLog_append]
  generalize runFactoryLog E nameOf pre w = v at hw
  have hs : (FactoryLogOp.factoryLevel o l).perform E nameOf v =
      (.ok (), { v with logs := update [nameOf o] (fun g => { g with level := l.value }) v.logs }) := by
    show factorySetLevel nameOf o l v = _
    rw [factorySetLevel_run, hw]
    rfl
  constructor
  · show ((runFactoryLog E nameOf post ((FactoryLogOp.factoryLevel o l).perform E nameOf v).2).logs.logger [nameOf o]).level = _
    rw [run_level_kept E hm ho nameOf o post hn, hs]
    · dsimp only
      rw [update_logger, if_pos rfl]
    · rw [hs]; exact hw
  · show (∀ n, (((FactoryLogOp.factoryLevel o l).perform E nameOf v).2.logs.logger n).handlers = _) ∧
      (∀ n, _ → (((FactoryLogOp.factoryLevel o l).perform E nameOf v).2.logs.logger n).level = _) ∧
      ((FactoryLogOp.factoryLevel o l).perform E nameOf v).2.settings = _
    rw [hs]
    refine ⟨fun n => ?_, fun n hne => ?_, rfl⟩
    · dsimp only
      rw [update_logger]
      split <;> rfl
    · dsimp only
      rw [update_logger, if_neg hne]

/-- a session: the level is set too early, the factory is used, the level is set again -/
example : ((runFactoryLog logEnv logNames [.factoryLevel 0 .DEBUG, .other (.use 0)] (LogWorld.start .WARNING)).logs.logger
      [logNames 0]).level = 30 ∧
    ((runFactoryLog logEnv logNames [.factoryLevel 0 .DEBUG, .other (.use 0), .factoryLevel 0 .DEBUG, .other (.use 0)]
      (LogWorld.start .WARNING)).logs.logger [logNames 0]).level = 10 := by decide +kernel

end PyZeal.Props
