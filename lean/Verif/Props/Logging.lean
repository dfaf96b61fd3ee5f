import Verif.Spec.Logging

/-!
# C82, C83, C93 – C95: logging
-/

set_option linter.unusedSectionVars false

namespace PyZeal.Props
open Spec Logging

/-! ## Lemmas -/

theorem self_mem_chain (n : LogName) : n ∈ chain n := by
  unfold chain
  rw [List.mem_reverse, List.mem_map]
  exact ⟨n.length, List.mem_range.2 (Nat.lt_succ_self _), List.take_length⟩

theorem chain_single (s : String) : chain [s] = [[s], []] := rfl

theorem initLogger_run (E : LogEnv) (n : LogName) (l : LogLevel) (s : LogState) :
    initLogger E n l s =
      if s.dirExists = false ∧ E.mkdirOk = false then (.error .osError, s)
      else ensureHandler E n (update n (fun g => { g with level := l.value }) { s with dirExists := true }) := by
  unfold initLogger
  rw [Py.bind_run]
  unfold ensureDir
  by_cases hd : s.dirExists = true
  · rw [if_pos hd, if_neg (by simp [hd])]
    dsimp only
    rw [Py.bind_run]
    have : setLogLevel n l s = (.ok (), update n (fun g => { g with level := l.value }) s) := rfl
    rw [this]
    dsimp only
    congr 2
    cases s
    simp at hd
    simp [hd]
  · rw [if_neg hd]
    by_cases hm : E.mkdirOk = true
    · rw [if_pos hm, if_neg (by simp [hm])]
      rfl
    · rw [if_neg hm, if_pos (by simp at hd hm; exact ⟨hd, hm⟩)]

theorem update_logger (n : LogName) (f : LoggerS → LoggerS) (s : LogState) (n' : LogName) :
    (update n f s).logger n' = if n' = n then f (s.logger n') else s.logger n' := rfl

/-- what initialising a logger does to the loggers -/
theorem initLogger_logger (E : LogEnv) (n : LogName) (l : LogLevel) (s : LogState) (n' : LogName) :
    (initLogger E n l s).2.logger n' = s.logger n' ∨
    (n' = n ∧ (initLogger E n l s).2.logger n' = ⟨l.value, (s.logger n).handlers⟩) ∨
    (n' = n ∧ (s.logger n).handlers = [] ∧ (initLogger E n l s).2.logger n' = ⟨l.value, [.pyzeal E.fileName]⟩) := by
  rw [initLogger_run]
  split
  · exact .inl rfl
  · unfold ensureHandler
    have hlev : ∀ n', (update n (fun g => { g with level := l.value }) { s with dirExists := true }).logger n' =
        if n' = n then ⟨l.value, (s.logger n').handlers⟩ else s.logger n' := fun _ => rfl
    split
    · dsimp only
      rw [hlev]
      by_cases he : n' = n
      · subst he; rw [if_pos rfl]; exact .inr (.inl ⟨rfl, rfl⟩)
      · rw [if_neg he]; exact .inl rfl
    · rename_i hh
      have hempty : (s.logger n).handlers = [] := by
        unfold hasHandlers at hh
        rw [Bool.not_eq_true, List.any_eq_false] at hh
        have := hh n (self_mem_chain n)
        rw [hlev, if_pos rfl] at this
        simpa using this
      split
      · dsimp only
        rw [update_logger, hlev]
        by_cases he : n' = n
        · subst he
          rw [if_pos rfl, if_pos rfl]
          refine .inr (.inr ⟨rfl, hempty, ?_⟩)
          dsimp only
          rw [hempty]
          rfl
        · rw [if_neg he, if_neg he]; exact .inl rfl
      · dsimp only
        rw [hlev]
        by_cases he : n' = n
        · subst he; rw [if_pos rfl]; exact .inr (.inl ⟨rfl, rfl⟩)
        · rw [if_neg he]; exact .inl rfl

theorem onLogs_run (m : Py LogState Unit) (w : LogWorld) : onLogs m w = ((m w.logs).1, { w with logs := (m w.logs).2 }) := rfl

theorem addHandler_run (E : LogEnv) (nameOf : Nat → String) (n : LogName) (id : Nat) (w : LogWorld) :
    (LogOp.addHandler n id).perform E nameOf w =
      (.ok (), { w with logs := update n (fun g => { g with handlers := g.handlers ++ [.user id] }) w.logs }) := rfl

theorem clear_run (E : LogEnv) (nameOf : Nat → String) (n : LogName) (w : LogWorld) :
    (LogOp.clear n).perform E nameOf w =
      (.ok (), { w with logs := update n (fun g => { g with handlers := [] }) w.logs }) := rfl

theorem setLogLevel_run (n : LogName) (l : LogLevel) (w : LogWorld) :
    onLogs (setLogLevel n l) w = (.ok (), { w with logs := update n (fun g => { g with level := l.value }) w.logs }) := rfl

theorem getLogger_logs (E : LogEnv) (nameOf : Nat → String) (o : Nat) (w : LogWorld) :
    (getLogger E nameOf o w).2.logs =
      if w.hasLogger o then w.logs else (initLogger E [nameOf o] w.settings w.logs).2 := by
  unfold getLogger
  rw [Py.bind_run, Py.get_run]
  dsimp only
  by_cases h : w.hasLogger o = true
  · rw [if_pos h, if_pos h]; rfl
  · rw [if_neg h, if_neg h, Py.bind_run, onLogs_run]
    rcases initLogger E [nameOf o] w.settings w.logs with ⟨_ | _, _⟩ <;> rfl

theorem setLevel_logs (E : LogEnv) (nameOf : Nat → String) (o : Nat) (l : LogLevel) (w : LogWorld) :
    (Logging.setLevel E nameOf o l w).2.logs = (getLogger E nameOf o w).2.logs ∨
    (Logging.setLevel E nameOf o l w).2.logs =
      update [nameOf o] (fun g => { g with level := l.value }) (getLogger E nameOf o w).2.logs := by
  unfold Logging.setLevel
  rw [Py.bind_run]
  rcases getLogger E nameOf o w with ⟨_ | _, w'⟩
  · exact .inl rfl
  · exact .inr rfl

/-! ## C82 -/

/-- number of handlers attached by PyZEAL -/
def ownHandlers (s : LogState) (n : LogName) : Nat := (s.logger n).handlers.countP ByPyZeal

theorem initLogger_own (E : LogEnv) (n : LogName) (l : LogLevel) (s : LogState) (h : ∀ n, ownHandlers s n ≤ 1)
    (n' : LogName) : ownHandlers (initLogger E n l s).2 n' ≤ 1 := by
  unfold ownHandlers
  rcases initLogger_logger E n l s n' with e | ⟨rfl, e⟩ | ⟨rfl, -, e⟩
  · rw [e]; exact h n'
  · rw [e]; exact h n'
  · rw [e]; exact Nat.le_refl 1

/-- **C82.** After any history – initialisations under any names, use of any objects, handlers attached or removed
by the user, failures of the file system – every logger has at most one handler attached by PyZEAL. -/
theorem C82_one_handler (E : LogEnv) (nameOf : Nat → String) (l : LogLevel) (h : List LogOp) (n : LogName) :
    ownHandlers (runLog E nameOf h (LogWorld.start l)).logs n ≤ 1 := by
  have step : ∀ (op : LogOp) (w : LogWorld), (∀ n, ownHandlers w.logs n ≤ 1) →
      ∀ n, ownHandlers (op.perform E nameOf w).2.logs n ≤ 1 := by
    intro op w hw
    have hget : ∀ o n, ownHandlers (getLogger E nameOf o w).2.logs n ≤ 1 := by
      intro o n
      rw [getLogger_logs]
      split
      · exact hw n
      · exact initLogger_own _ _ _ _ hw n
    cases op with
    | init n' l' => exact initLogger_own _ _ _ _ hw
    | use o => exact hget o
    | setLevel o l' =>
      intro n
      show ownHandlers (Logging.setLevel E nameOf o l' w).2.logs n ≤ 1
      rcases setLevel_logs E nameOf o l' w with e | e
      · rw [e]; exact hget o n
      · rw [e]
        have := hget o n
        unfold ownHandlers at this ⊢
        rw [update_logger]
        split <;> exact this
    | settings l' => exact hw
    | addHandler n' id =>
      intro n
      have := hw n
      rw [addHandler_run]
      dsimp only
      unfold ownHandlers at this ⊢
      rw [update_logger]
      split
      · show List.countP ByPyZeal ((w.logs.logger n).handlers ++ [.user id]) ≤ 1
        rw [List.countP_append]
        exact this
      · exact this
    | clear n' =>
      intro n
      have := hw n
      rw [clear_run]
      dsimp only
      unfold ownHandlers at this ⊢
      rw [update_logger]
      split
      · exact Nat.zero_le 1
      · exact this
  have key : ∀ (h : List LogOp) (w : LogWorld), (∀ n, ownHandlers w.logs n ≤ 1) →
      ∀ n, ownHandlers (runLog E nameOf h w).logs n ≤ 1 := by
    intro h
    induction h with
    | nil => intro w hw; exact hw
    | cons op h ih => intro w hw; exact ih _ (step op w hw)
  refine key h _ ?_ n
  intro n
  show ownHandlers Logging.fresh n ≤ 1
  unfold ownHandlers Logging.fresh
  dsimp only
  split <;> exact Nat.zero_le 1

theorem runLog_append (E : LogEnv) (nameOf : Nat → String) (a b : List LogOp) (w : LogWorld) :
    runLog E nameOf (a ++ b) w = runLog E nameOf b (runLog E nameOf a w) := by
  induction a generalizing w with
  | nil => rfl
  | cons o a ih => exact ih _

/-- operations that are not about a logger leave its level alone -/
theorem perform_level_other (E : LogEnv) (nameOf : Nat → String) (n : LogName) (op : LogOp) (h : ¬ Concerns nameOf n op)
    (w : LogWorld) : ((op.perform E nameOf w).2.logs.logger n).level = (w.logs.logger n).level := by
  have hinit : ∀ n' l (s : LogState), n' ≠ n → ((initLogger E n' l s).2.logger n) = s.logger n := by
    intro n' l s hne
    rcases initLogger_logger E n' l s n with e | ⟨e, -⟩ | ⟨e, -⟩
    · exact e
    · exact absurd e.symm hne
    · exact absurd e.symm hne
  have hget : ∀ o, [nameOf o] ≠ n → (getLogger E nameOf o w).2.logs.logger n = w.logs.logger n := by
    intro o hne
    rw [getLogger_logs]
    split
    · rfl
    · exact hinit _ _ _ hne
  cases op with
  | init n' l => show ((initLogger E n' l w.logs).2.logger n).level = _; rw [hinit _ _ _ h]
  | use o => show ((getLogger E nameOf o w).2.logs.logger n).level = _; rw [hget o h]
  | setLevel o l =>
    show ((Logging.setLevel E nameOf o l w).2.logs.logger n).level = _
    rcases setLevel_logs E nameOf o l w with e | e
    · rw [e, hget o h]
    · rw [e, update_logger, if_neg (fun e => h e.symm), hget o h]
  | settings l => rfl
  | addHandler n' id =>
    rw [addHandler_run]
    dsimp only
    rw [update_logger]
    split <;> rfl
  | clear n' =>
    rw [clear_run]
    dsimp only
    rw [update_logger]
    split <;> rfl

theorem runLog_level_other (E : LogEnv) (nameOf : Nat → String) (n : LogName) (h : List LogOp)
    (hno : ∀ op ∈ h, ¬ Concerns nameOf n op) (w : LogWorld) :
    ((runLog E nameOf h w).logs.logger n).level = (w.logs.logger n).level := by
  induction h generalizing w with
  | nil => rfl
  | cons op h ih =>
    rw [List.forall_mem_cons] at hno
    show ((runLog E nameOf h (op.perform E nameOf w).2).logs.logger n).level = _
    rw [ih hno.2, perform_level_other _ _ _ _ hno.1]

/-- with a working file system initialising succeeds and sets the level -/
theorem initLogger_level (E : LogEnv) (hm : E.mkdirOk = true) (n : LogName) (l : LogLevel) (s : LogState) :
    ((initLogger E n l s).2.logger n).level = l.value := by
  rw [initLogger_run, if_neg (by simp [hm])]
  unfold ensureHandler
  split
  · dsimp only; rw [update_logger, if_pos rfl]
  · split
    · dsimp only; rw [update_logger, if_pos rfl, update_logger, if_pos rfl]
    · dsimp only; rw [update_logger, if_pos rfl]

theorem initLogger_ok (E : LogEnv) (hm : E.mkdirOk = true) (ho : E.openOk = true) (n : LogName) (l : LogLevel) (s : LogState) :
    (initLogger E n l s).1 = .ok () := by
  rw [initLogger_run, if_neg (by simp [hm])]
  unfold ensureHandler
  split
  · rfl
  · simp only [ho, if_true]

theorem getLogger_ok (E : LogEnv) (hm : E.mkdirOk = true) (ho : E.openOk = true) (nameOf : Nat → String) (o : Nat)
    (w : LogWorld) : (getLogger E nameOf o w).1 = .ok () ∧ (getLogger E nameOf o w).2.settings = w.settings ∧
      ∀ o', (getLogger E nameOf o w).2.hasLogger o' = if o' = o then true else w.hasLogger o' := by
  unfold getLogger
  rw [Py.bind_run, Py.get_run]
  dsimp only
  by_cases h : w.hasLogger o = true
  · rw [if_pos h]
    refine ⟨rfl, rfl, fun o' => ?_⟩
    show w.hasLogger o' = _
    split
    · rename_i e; rw [e, h]
    · rfl
  · rw [if_neg h, Py.bind_run, onLogs_run, initLogger_ok E hm ho]
    exact ⟨rfl, rfl, fun _ => rfl⟩

/-- **C82.** The level of a logger is the one given in the last initialisation or `setLevel` (on any object which
uses this logger), if no operation in between was about this logger; provided directory and file can be
created. -/
theorem C82_level (E : LogEnv) (hm : E.mkdirOk = true) (ho : E.openOk = true) (nameOf : Nat → String) (d : LogLevel)
    (h1 h2 : List LogOp) (op : LogOp) (n : LogName) (l : LogLevel) (hop : GivesLevel nameOf n l op)
    (hno : ∀ op' ∈ h2, ¬ Concerns nameOf n op') :
    ((runLog E nameOf (h1 ++ op :: h2) (LogWorld.start d)).logs.logger n).level = l.value := by
  rw [runLog_append]
  show ((runLog E nameOf h2 (op.perform E nameOf (runLog E nameOf h1 (LogWorld.start d))).2).logs.logger n).level = _
  rw [runLog_level_other _ _ _ _ hno]
  generalize runLog E nameOf h1 (LogWorld.start d) = w
  cases op with
  | init n' l' =>
    obtain ⟨rfl, rfl⟩ := hop
    exact initLogger_level E hm _ _ _
  | setLevel o l' =>
    obtain ⟨rfl, rfl⟩ := hop
    show ((Logging.setLevel E nameOf o l' w).2.logs.logger [nameOf o]).level = _
    unfold Logging.setLevel
    have hg := (getLogger_ok E hm ho nameOf o w).1
    rw [Py.bind_run]
    rcases hgl : getLogger E nameOf o w with ⟨r, w'⟩
    rw [hgl] at hg
    cases hg
    dsimp only
    rw [setLogLevel_run]
    dsimp only
    rw [update_logger, if_pos rfl]
  | use o => exact hop.elim
  | settings l' => exact hop.elim
  | addHandler n' id => exact hop.elim
  | clear n' => exact hop.elim

theorem runLog_settings (E : LogEnv) (hm : E.mkdirOk = true) (ho : E.openOk = true) (nameOf : Nat → String)
    (op : LogOp) (w : LogWorld) (hno : ¬ IsSettings op) : (op.perform E nameOf w).2.settings = w.settings := by
  cases op with
  | init n l => rfl
  | use o => exact (getLogger_ok E hm ho nameOf o w).2.1
  | setLevel o l =>
    show (Logging.setLevel E nameOf o l w).2.settings = _
    have hg := getLogger_ok E hm ho nameOf o w
    unfold Logging.setLevel
    rw [Py.bind_run]
    rcases hgl : getLogger E nameOf o w with ⟨_ | _, w'⟩
    · rw [hgl] at hg; exact hg.2.1
    · rw [hgl] at hg; exact hg.2.1
  | settings l => exact absurd trivial hno
  | addHandler n id => rfl
  | clear n => rfl

theorem perform_hasLogger (E : LogEnv) (hm : E.mkdirOk = true) (ho : E.openOk = true) (nameOf : Nat → String)
    (op : LogOp) (w : LogWorld) (o : Nat) (hno : ¬ ConcernsObject o op) :
    (op.perform E nameOf w).2.hasLogger o = w.hasLogger o := by
  cases op with
  | init n l => rfl
  | use o' =>
    show (getLogger E nameOf o' w).2.hasLogger o = _
    rw [(getLogger_ok E hm ho nameOf o' w).2.2, if_neg (fun e => hno e.symm)]
  | setLevel o' l =>
    show (Logging.setLevel E nameOf o' l w).2.hasLogger o = _
    have hg := (getLogger_ok E hm ho nameOf o' w).2.2 o
    rw [if_neg (fun e => hno e.symm)] at hg
    unfold Logging.setLevel
    rw [Py.bind_run]
    rcases hgl : getLogger E nameOf o' w with ⟨_ | _, w'⟩
    · rw [hgl] at hg; exact hg
    · rw [hgl] at hg; exact hg
  | settings l => rfl
  | addHandler n id => rfl
  | clear n => rfl

/-- **C82.** When the logger of an object is used for the first time, its level becomes the default log level of
the settings at that time (`l`), and stays so if no later operation is about this logger. -/
theorem C82_first_use (E : LogEnv) (hm : E.mkdirOk = true) (ho : E.openOk = true) (nameOf : Nat → String) (d : LogLevel)
    (h0 h1 h2 : List LogOp) (o : Nat) (l : LogLevel) (hl : (h0 = [] ∧ l = d) ∨ ∃ h, h0 = h ++ [.settings l])
    (hs : ∀ op ∈ h1, ¬ IsSettings op) (hfirst : ∀ op ∈ h0 ++ h1, ¬ ConcernsObject o op)
    (hno : ∀ op' ∈ h2, ¬ Concerns nameOf [nameOf o] op') :
    ((runLog E nameOf (h0 ++ h1 ++ .use o :: h2) (LogWorld.start d)).logs.logger [nameOf o]).level = l.value := by
  rw [runLog_append]
  show ((runLog E nameOf h2 (getLogger E nameOf o (runLog E nameOf (h0 ++ h1) (LogWorld.start d))).2).logs.logger _).level = _
  rw [runLog_level_other _ _ _ _ hno]
  have hset : (runLog E nameOf (h0 ++ h1) (LogWorld.start d)).settings = l := by
    rw [runLog_append]
    have base : (runLog E nameOf h0 (LogWorld.start d)).settings = l := by
      rcases hl with ⟨rfl, rfl⟩ | ⟨h, rfl⟩
      · rfl
      · rw [runLog_append]; rfl
    have : ∀ (h : List LogOp) (w : LogWorld), (∀ op ∈ h, ¬ IsSettings op) → (runLog E nameOf h w).settings = w.settings := by
      intro h
      induction h with
      | nil => intro w _; rfl
      | cons op h ih =>
        intro w hh
        rw [List.forall_mem_cons] at hh
        show (runLog E nameOf h _).settings = _
        rw [ih _ hh.2, runLog_settings E hm ho nameOf op w hh.1]
    rw [this h1 _ hs, base]
  have hobj : ∀ (h : List LogOp) (w : LogWorld), (∀ op ∈ h, ¬ ConcernsObject o op) →
      (runLog E nameOf h w).hasLogger o = w.hasLogger o := by
    intro h
    induction h with
    | nil => intro w _; rfl
    | cons op h ih =>
      intro w hh
      rw [List.forall_mem_cons] at hh
      show (runLog E nameOf h _).hasLogger o = _
      rw [ih _ hh.2, perform_hasLogger E hm ho nameOf op w o hh.1]
  rw [getLogger_logs, hobj _ _ hfirst, if_neg (by simp [LogWorld.start]), hset]
  exact initLogger_level E hm _ _ _

/-- a session with two finders (objects 0 and 1, same module) and a container (object 2) -/
def logNames : Nat → String := fun o => if o = 2 then "rounding_container" else "rootfinder"

/-- a working file system -/
def logEnv : LogEnv := ⟨true, true, "pyzeal_01012024120000.log"⟩

example : GivesLevel logNames ["rootfinder"] .DEBUG (.setLevel 0 .DEBUG) ∧
    ∀ op' ∈ [LogOp.use 2, .settings .INFO], ¬ Concerns logNames ["rootfinder"] op' := by
  refine ⟨⟨rfl, rfl⟩, ?_⟩
  intro op hop
  rcases List.mem_cons.1 hop with rfl | hop
  · show ¬ ["rounding_container"] = ["rootfinder"]; decide
  · cases List.mem_singleton.1 hop; exact id

/-! ## C93 -/

/-- **C93.** If loggers have no dots in their names (as those of PyZEAL's objects) and the user attaches no handlers,
then after any history every record which an initialised logger lets through is written to the log file exactly
once. -/
theorem C93_once (E : LogEnv) (hm : E.mkdirOk = true) (ho : E.openOk = true) (nameOf : Nat → String) (d : LogLevel)
    (h : List LogOp) (hown : ∀ op ∈ h, OwnUse op) (s : String) (hinit : ∃ op ∈ h, Concerns nameOf [s] op) (level : Nat) :
    emit (runLog E nameOf h (LogWorld.start d)).logs [s] level =
      if isEnabledFor (runLog E nameOf h (LogWorld.start d)).logs [s] level then [.pyzeal E.fileName] else [] := by
  let Inv : List LogOp → LogWorld → Prop := fun h w =>
    (w.logs.logger []).handlers = [] ∧
    (∀ s, (w.logs.logger [s]).handlers = [] ∨ (w.logs.logger [s]).handlers = [.pyzeal E.fileName]) ∧
    (∀ o, w.hasLogger o = true → (w.logs.logger [nameOf o]).handlers = [.pyzeal E.fileName]) ∧
    (∀ s, (∃ op ∈ h, Concerns nameOf [s] op) → (w.logs.logger [s]).handlers = [.pyzeal E.fileName])
  have hinitL : ∀ (n : String) (l : LogLevel) (st : LogState), (st.logger []).handlers = [] →
      (∀ s, (st.logger [s]).handlers = [] ∨ (st.logger [s]).handlers = [.pyzeal E.fileName]) →
      ((initLogger E [n] l st).2.logger []).handlers = [] ∧
      (∀ s, ((initLogger E [n] l st).2.logger [s]).handlers =
        if s = n then [.pyzeal E.fileName] else (st.logger [s]).handlers) := by
    intro n l st h1 h2
    rw [initLogger_run, if_neg (by simp [hm])]
    generalize hst1 : update [n] (fun g => { g with level := l.value }) { st with dirExists := true } = st1
    have e1 : ∀ m, (st1.logger m).handlers = (st.logger m).handlers := by
      intro m; rw [← hst1, update_logger]; split <;> rfl
    have hh : hasHandlers st1 [n] = !(st.logger [n]).handlers.isEmpty := by
      unfold hasHandlers
      rw [chain_single]
      simp [e1, h1]
    unfold ensureHandler
    rw [hh]
    rcases h2 n with e | e
    · rw [e]
      rw [if_neg (by simp), if_pos ho]
      dsimp only
      refine ⟨?_, ?_⟩
      · rw [update_logger, if_neg (by simp), e1, h1]
      · intro s
        rw [update_logger]
        by_cases hs : s = n
        · subst hs; rw [if_pos rfl, if_pos rfl]; dsimp only; rw [e1, e]; rfl
        · rw [if_neg (by simpa using hs), if_neg hs, e1]
    · rw [e]
      rw [if_pos (by simp)]
      dsimp only
      refine ⟨by rw [e1, h1], ?_⟩
      intro s
      rw [e1]
      split
      · rename_i hs; rw [hs, e]
      · rfl
  have hget : ∀ o (h : List LogOp) w, Inv h w → Inv (h ++ [.use o]) (getLogger E nameOf o w).2 := by
    rintro o h w ⟨i1, i2, i3, i4⟩
    have hl := getLogger_logs E nameOf o w
    have hg := (getLogger_ok E hm ho nameOf o w).2.2
    by_cases hh : w.hasLogger o = true
    · rw [if_pos hh] at hl
      refine ⟨by rw [hl]; exact i1, fun s => by rw [hl]; exact i2 s, ?_, ?_⟩
      · intro o' ho'
        rw [hl]
        rw [hg] at ho'
        split at ho'
        · rename_i e; rw [e]; exact i3 o hh
        · exact i3 o' ho'
      · rintro s ⟨op, hop, hc⟩
        rw [hl]
        rcases List.mem_append.1 hop with hop | hop
        · exact i4 s ⟨op, hop, hc⟩
        · cases List.mem_singleton.1 hop
          have := i3 o hh
          rw [(hc : [nameOf o] = [s])] at this
          exact this
    · rw [if_neg hh] at hl
      obtain ⟨j1, j2⟩ := hinitL (nameOf o) w.settings w.logs i1 i2
      refine ⟨by rw [hl]; exact j1, ?_, ?_, ?_⟩
      · intro s
        rw [hl, j2]
        split
        · exact .inr rfl
        · exact i2 s
      · intro o' ho'
        rw [hl, j2]
        split
        · rfl
        · rename_i e
          rw [hg, if_neg (fun e' => e (by rw [e']))] at ho'
          exact i3 o' ho'
      · rintro s ⟨op, hop, hc⟩
        rw [hl, j2]
        split
        · rfl
        · rename_i e
          rcases List.mem_append.1 hop with hop | hop
          · exact i4 s ⟨op, hop, hc⟩
          · cases List.mem_singleton.1 hop
            exact absurd (List.cons.inj (hc : [nameOf o] = [s])).1.symm e
  have step : ∀ op (h : List LogOp) w, OwnUse op → Inv h w → Inv (h ++ [op]) (op.perform E nameOf w).2 := by
    intro op h w hop hw
    cases op with
    | init n l =>
      obtain ⟨n, rfl⟩ := hop
      obtain ⟨i1, i2, i3, i4⟩ := hw
      obtain ⟨j1, j2⟩ := hinitL n l w.logs i1 i2
      refine ⟨j1, ?_, ?_, ?_⟩
      · intro s
        show ((initLogger E [n] l w.logs).2.logger [s]).handlers = _ ∨ ((initLogger E [n] l w.logs).2.logger [s]).handlers = _
        rw [j2]
        split
        · exact .inr rfl
        · exact i2 s
      · intro o ho'
        show ((initLogger E [n] l w.logs).2.logger [nameOf o]).handlers = _
        rw [j2]
        split
        · rfl
        · exact i3 o ho'
      · rintro s ⟨op, hop, hc⟩
        show ((initLogger E [n] l w.logs).2.logger [s]).handlers = _
        rw [j2]
        split
        · rfl
        · rename_i e
          rcases List.mem_append.1 hop with hop | hop
          · exact i4 s ⟨op, hop, hc⟩
          · cases List.mem_singleton.1 hop
            exact absurd (List.cons.inj (hc : [n] = [s])).1.symm e
    | use o => exact hget o h w hw
    | setLevel o l =>
      obtain ⟨i1, i2, i3, i4⟩ := hget o h w hw
      show Inv _ (Logging.setLevel E nameOf o l w).2
      have hg := (getLogger_ok E hm ho nameOf o w).1
      have hrun : (Logging.setLevel E nameOf o l w).2 =
          { (getLogger E nameOf o w).2 with
            logs := update [nameOf o] (fun g => { g with level := l.value }) (getLogger E nameOf o w).2.logs } := by
        unfold Logging.setLevel
        rw [Py.bind_run]
        rcases hgl : getLogger E nameOf o w with ⟨r, w'⟩
        rw [hgl] at hg
        cases hg
        rfl
      rw [hrun]
      have e1 : ∀ m, ((update [nameOf o] (fun g => { g with level := l.value })
          (getLogger E nameOf o w).2.logs).logger m).handlers = ((getLogger E nameOf o w).2.logs.logger m).handlers := by
        intro m; rw [update_logger]; split <;> rfl
      refine ⟨by dsimp only; rw [e1]; exact i1, ?_, ?_, ?_⟩
      · intro s
        dsimp only
        rw [e1]; exact i2 s
      · intro o' h'
        dsimp only
        rw [e1]; exact i3 o' h'
      · rintro s ⟨op, hop, hc⟩
        dsimp only
        rw [e1]
        refine i4 s ?_
        rcases List.mem_append.1 hop with hop | hop
        · exact ⟨op, List.mem_append_left _ hop, hc⟩
        · cases List.mem_singleton.1 hop
          exact ⟨.use o, List.mem_append_right _ (List.mem_singleton.2 rfl), hc⟩
    | settings l =>
      obtain ⟨i1, i2, i3, i4⟩ := hw
      refine ⟨i1, i2, i3, ?_⟩
      rintro s ⟨op, hop, hc⟩
      refine i4 s ?_
      rcases List.mem_append.1 hop with hop | hop
      · exact ⟨op, hop, hc⟩
      · cases List.mem_singleton.1 hop; exact hc.elim
    | addHandler n id => exact hop.elim
    | clear n => exact hop.elim
  have run : ∀ (b a : List LogOp) w, (∀ op ∈ b, OwnUse op) → Inv a w → Inv (a ++ b) (runLog E nameOf b w) := by
    intro b
    induction b with
    | nil => intro a w _ hw; rw [List.append_nil]; exact hw
    | cons op b ih =>
      intro a w hb hw
      rw [List.forall_mem_cons] at hb
      have := ih (a ++ [op]) _ hb.2 (step op a w hb.1 hw)
      rw [List.append_assoc] at this
      exact this
  have hfin : Inv h (runLog E nameOf h (LogWorld.start d)) := by
    refine run h [] _ hown ⟨rfl, fun s => .inl rfl, ?_, ?_⟩
    · intro o ho'; cases ho'
    · rintro s ⟨op, hop, -⟩; cases hop
  obtain ⟨i1, -, -, i4⟩ := hfin
  unfold emit
  rw [chain_single]
  simp [i1, i4 s hinit]

/-- **C93, remark.** With dotted names, which `initLogger` accepts, records can be written twice: here those of
`a.b`, whose logger is initialised before that of `a`. -/
theorem C93_dotted_names : emit (runLog logEnv logNames [.init ["a", "b"] .INFO, .init ["a"] .INFO]
    (LogWorld.start .INFO)).logs ["a", "b"] 20 = [.pyzeal logEnv.fileName, .pyzeal logEnv.fileName] := by decide +kernel

example : (∀ op ∈ [LogOp.use 0, .setLevel 2 .DEBUG, .use 1], OwnUse op) ∧
    ∃ op ∈ [LogOp.use 0, .setLevel 2 .DEBUG, .use 1], Concerns logNames ["rounding_container"] op := by
  refine ⟨?_, .setLevel 2 .DEBUG, by simp, rfl⟩
  intro op hop
  simp only [List.mem_cons, List.not_mem_nil, or_false] at hop
  rcases hop with rfl | rfl | rfl <;> trivial

/-! ## C94 -/

/-- **C94, counterexample.** The level of a finder is set to `DEBUG`; then another finder is used for the first
time.  The level of the first is `WARNING` again. -/
theorem C94_counterexample :
    ((runLog logEnv logNames [.setLevel 0 .DEBUG] (LogWorld.start .WARNING)).logs.logger ["rootfinder"]).level = 10 ∧
    ((runLog logEnv logNames [.setLevel 0 .DEBUG, .use 1] (LogWorld.start .WARNING)).logs.logger ["rootfinder"]).level = 30 := by
  decide +kernel

/-- **C94 (partial).** The level set on an object stays as long as the logger of no other object of a class of the
same module is used, and `initLogger` is not called for it.  Missing: see the counterexample. -/
theorem C94_level_stays_partial (E : LogEnv) (hm : E.mkdirOk = true) (ho : E.openOk = true) (nameOf : Nat → String)
    (d : LogLevel) (h1 h2 : List LogOp) (o : Nat) (l : LogLevel)
    (hno : ∀ op ∈ h2, Concerns nameOf [nameOf o] op → op = .use o) :
    ((runLog E nameOf (h1 ++ .setLevel o l :: h2) (LogWorld.start d)).logs.logger [nameOf o]).level = l.value := by
  rw [runLog_append]
  have hw : ∃ w, (LogOp.perform E nameOf (.setLevel o l) (runLog E nameOf h1 (LogWorld.start d))).2 = w ∧
      (w.logs.logger [nameOf o]).level = l.value ∧ w.hasLogger o = true := by
    refine ⟨_, rfl, ?_, ?_⟩
    · have := C82_level E hm ho nameOf d h1 [] (.setLevel o l) [nameOf o] l ⟨rfl, rfl⟩ (by simp)
      rw [runLog_append] at this
      exact this
    · show (Logging.setLevel E nameOf o l _).2.hasLogger o = true
      obtain ⟨g1, -, g3⟩ := getLogger_ok E hm ho nameOf o (runLog E nameOf h1 (LogWorld.start d))
      unfold Logging.setLevel
      rw [Py.bind_run]
      rcases hgl : getLogger E nameOf o (runLog E nameOf h1 (LogWorld.start d)) with ⟨r, w'⟩
      rw [hgl] at g1 g3
      cases g1
      show w'.hasLogger o = true
      have := g3 o
      rw [if_pos rfl] at this
      exact this
  obtain ⟨w, e, hl, hh⟩ := hw
  show ((runLog E nameOf h2 (LogOp.perform E nameOf (.setLevel o l) _).2).logs.logger _).level = _
  rw [e]
  clear e
  induction h2 generalizing w with
  | nil => exact hl
  | cons op h2 ih =>
    rw [List.forall_mem_cons] at hno
    refine ih hno.2 _ ?_ ?_
    · by_cases hc : Concerns nameOf [nameOf o] op
      · rw [hno.1 hc]
        show ((getLogger E nameOf o w).2.logs.logger _).level = _
        rw [getLogger_logs, if_pos hh]
        exact hl
      · rw [perform_level_other _ _ _ _ hc]; exact hl
    · by_cases hc : ConcernsObject o op
      · have : Concerns nameOf [nameOf o] op := by
          cases op with
          | use o' => cases hc; rfl
          | setLevel o' l' => cases hc; rfl
          | init => exact hc.elim
          | settings => exact hc.elim
          | addHandler => exact hc.elim
          | clear => exact hc.elim
        rw [hno.1 this]
        show (getLogger E nameOf o w).2.hasLogger o = true
        rw [(getLogger_ok E hm ho nameOf o w).2.2, if_pos rfl]
      · rw [perform_hasLogger E hm ho nameOf op w o hc]; exact hh

/-! ## C95 -/

theorem setLevel_same (E : LogEnv) (hm : E.mkdirOk = true) (ho : E.openOk = true) (nameOf : Nat → String) (o : Nat)
    (l : LogLevel) (w : LogWorld) :
    (Logging.setLevel E nameOf o l w).1 = .ok () ∧
    ((Logging.setLevel E nameOf o l w).2.logs.logger [nameOf o]).level = l.value ∧
    ∀ n, n ≠ [nameOf o] → ((Logging.setLevel E nameOf o l w).2.logs.logger n) = w.logs.logger n := by
  obtain ⟨g1, -, -⟩ := getLogger_ok E hm ho nameOf o w
  have hl := getLogger_logs E nameOf o w
  have hrun : Logging.setLevel E nameOf o l w = (.ok (), { (getLogger E nameOf o w).2 with
      logs := update [nameOf o] (fun g => { g with level := l.value }) (getLogger E nameOf o w).2.logs }) := by
    unfold Logging.setLevel
    rw [Py.bind_run]
    rcases hgl : getLogger E nameOf o w with ⟨r, w'⟩
    rw [hgl] at g1
    cases g1
    rfl
  rw [hrun]
  refine ⟨rfl, ?_, ?_⟩
  · dsimp only
    rw [update_logger, if_pos rfl]
  · intro n hn
    dsimp only
    rw [update_logger, if_neg hn, hl]
    split
    · rfl
    · rcases initLogger_logger E [nameOf o] w.settings w.logs n with e | ⟨e, -⟩ | ⟨e, -⟩
      · exact e
      · exact absurd e hn
      · exact absurd e hn

/-- **C95 (partial).** `RootFinder.setLevel` sets the levels of the loggers of the finder, its container and its
algorithm, and of no others.  Missing: the objects behind the algorithm, see the counterexample. -/
theorem C95_finder_partial (E : LogEnv) (hm : E.mkdirOk = true) (ho : E.openOk = true) (nameOf : Nat → String)
    (f c a : Nat) (l : LogLevel) (w : LogWorld) :
    (finderSetLevel E nameOf f c a l w).1 = .ok () ∧
    (∀ o ∈ [f, c, a], ((finderSetLevel E nameOf f c a l w).2.logs.logger [nameOf o]).level = l.value) ∧
    ∀ n, (∀ o ∈ [f, c, a], n ≠ [nameOf o]) → (finderSetLevel E nameOf f c a l w).2.logs.logger n = w.logs.logger n := by
  obtain ⟨f1, f2, f3⟩ := setLevel_same E hm ho nameOf f l w
  rcases hf : Logging.setLevel E nameOf f l w with ⟨r, w1⟩
  rw [hf] at f1 f2 f3
  cases f1
  obtain ⟨c1, c2, c3⟩ := setLevel_same E hm ho nameOf c l w1
  rcases hc : Logging.setLevel E nameOf c l w1 with ⟨r, w2⟩
  rw [hc] at c1 c2 c3
  cases c1
  obtain ⟨a1, a2, a3⟩ := setLevel_same E hm ho nameOf a l w2
  have hrun : finderSetLevel E nameOf f c a l w = Logging.setLevel E nameOf a l w2 := by
    unfold finderSetLevel
    rw [Py.bind_ok hf, Py.bind_ok hc]
  rw [hrun]
  have keep : ∀ (n : LogName), ((Logging.setLevel E nameOf a l w2).2.logs.logger n).level = l.value ∨
      (Logging.setLevel E nameOf a l w2).2.logs.logger n = w2.logs.logger n := by
    intro n
    by_cases e : n = [nameOf a]
    · rw [e]; exact .inl a2
    · exact .inr (a3 n e)
  have keep2 : ∀ (n : LogName), (w2.logs.logger n).level = l.value ∨ w2.logs.logger n = w1.logs.logger n := by
    intro n
    by_cases e : n = [nameOf c]
    · rw [e]; exact .inl c2
    · exact .inr (c3 n e)
  refine ⟨a1, ?_, ?_⟩
  · intro o ho'
    simp only [List.mem_cons, List.not_mem_nil, or_false] at ho'
    rcases ho' with rfl | rfl | rfl
    · rcases keep [nameOf o] with e | e
      · exact e
      · rw [e]
        rcases keep2 [nameOf o] with e' | e'
        · exact e'
        · rw [e']; exact f2
    · rcases keep [nameOf o] with e | e
      · exact e
      · rw [e]; exact c2
    · exact a2
  · intro n hn
    rw [a3 n (hn a (by simp)), c3 n (hn c (by simp)), f3 n (hn f (by simp))]

/-- the objects of a root finder: finder, container, algorithm, estimator (3), cache (4) -/
def finderNames : Nat → String
  | 0 => "rootfinder"
  | 1 => "rounding_container"
  | 2 => "simple_holo"
  | 3 => "sum_estimator"
  | _ => "estimator_cache"

/-- **C95, counterexample.** After `setLevel(DEBUG)` on a finder, the argument estimator of its algorithm and the
estimator's cache still have the default level. -/
theorem C95_counterexample :
    let w := (finderSetLevel logEnv finderNames 0 1 2 .DEBUG
      (runLog logEnv finderNames [.use 0, .use 1, .use 2, .use 3, .use 4] (LogWorld.start .WARNING))).2
    (w.logs.logger ["simple_holo"]).level = 10 ∧ (w.logs.logger ["sum_estimator"]).level = 30 ∧
      (w.logs.logger ["estimator_cache"]).level = 30 := by
  decide +kernel

/-! ## C83 -/

theorem zfill2_length {n : Nat} (h : n < 100) : (zfill2 (natStr n)).length = 2 := by
  have h1 : (natStr n).length ≤ 2 := (Nat.length_toDigits_le_iff (by decide) (by decide)).2 h
  unfold zfill2
  rw [List.length_append, List.length_replicate]
  omega

theorem zfill2_inj {m n : Nat} (h : zfill2 (natStr m) = zfill2 (natStr n)) : m = n := by
  have key : ∀ k, Nat.ofDigitChars 10 (zfill2 (natStr k)) 0 = k := by
    intro k
    unfold zfill2 natStr
    rw [Nat.ofDigitChars_append, Nat.ofDigitChars_replicate_zero, Nat.mul_zero, Nat.ofDigitChars_ten_toDigits]
  rw [← key m, h, key n]

theorem natStr_inj {m n : Nat} (h : natStr m = natStr n) : m = n := by
  have key : ∀ k, Nat.ofDigitChars 10 (natStr k) 0 = k := fun k => Nat.ofDigitChars_ten_toDigits
  rw [← key m, h, key n]

/-- **C83.** Sessions started at different seconds use different log files. -/
theorem C83_different (d d' : DateTime) (h : DateOk d) (h' : DateOk d') (e : buildFileName d = buildFileName d') :
    d = d' := by
  unfold buildFileName at e
  rw [List.append_left_inj, List.append_right_inj] at e
  have l2 : ∀ {n}, n ≤ 60 → (zfill2 (natStr n)).length = 2 := fun hn => zfill2_length (by omega)
  have bd := h.day; have bd' := h'.day
  have bm := h.month; have bm' := h'.month
  have bh := h.hour; have bh' := h'.hour
  have bi := h.minute; have bi' := h'.minute
  have bs := h.second; have bs' := h'.second
  have hlast : (zfill2 (natStr d.minute) ++ zfill2 (natStr d.second)).length =
      (zfill2 (natStr d'.minute) ++ zfill2 (natStr d'.second)).length := by
    simp only [List.length_append]
    rw [l2 (by omega), l2 (by omega), l2 (by omega), l2 (by omega)]
  obtain ⟨e1, e2⟩ := List.append_inj' e hlast
  obtain ⟨e3, e4⟩ := List.append_inj e1 (by
    simp only [List.length_append]
    rw [l2 (by omega), l2 (by omega), l2 (by omega), l2 (by omega)])
  obtain ⟨e5, e6⟩ := List.append_inj e3 (by rw [l2 (by omega), l2 (by omega)])
  obtain ⟨e7, e8⟩ := List.append_inj' e4 (by rw [l2 (by omega), l2 (by omega)])
  obtain ⟨e9, e10⟩ := List.append_inj e2 (by rw [l2 (by omega), l2 (by omega)])
  cases d; cases d'
  simp only [DateTime.mk.injEq]
  exact ⟨natStr_inj e7, zfill2_inj e6, zfill2_inj e5, zfill2_inj e8, zfill2_inj e9, zfill2_inj e10⟩

/-- **C83.** For the years 1000 to 9999 the name has always the same length. -/
theorem C83_length (d : DateTime) (h : DateOk d) (hy : 1000 ≤ d.year) : (buildFileName d).length = 25 := by
  have l2 : ∀ {n}, n ≤ 60 → (zfill2 (natStr n)).length = 2 := fun hn => zfill2_length (by omega)
  have bd := h.day
  have bm := h.month
  have bh := h.hour
  have bi := h.minute
  have bs := h.second
  have by' := h.year
  have ly : (natStr d.year).length = 4 := by
    have h1 : (natStr d.year).length ≤ 4 := (Nat.length_toDigits_le_iff (by decide) (by decide)).2 (by omega)
    have h2 : ¬ (natStr d.year).length ≤ 3 := fun hc => by
      have := (Nat.length_toDigits_le_iff (b := 10) (by decide) (by decide)).1 hc
      omega
    omega
  unfold buildFileName
  simp only [List.length_append]
  rw [l2 (by omega), l2 (by omega), l2 (by omega), l2 (by omega), l2 (by omega), ly]
  rfl

example : DateOk ⟨2024, 3, 9, 7, 5, 0⟩ ∧ String.ofList (buildFileName ⟨2024, 3, 9, 7, 5, 0⟩) = "pyzeal_09032024070500.log" :=
  ⟨⟨by decide, by decide, by decide, by decide, by decide, by decide⟩, by decide +kernel⟩

end PyZeal.Props
