import Verif.Proof.ArgHelp
import Verif.Props.Cli

/-!
# C118 – C122: the command line, from the strings to the effects
-/

set_option linter.unusedSectionVars false

namespace PyZeal.Props
open Spec Settings Cli Args

/-! ## Examples -/

/-- decimal digits only -/
def exInt : PyStr → Option Int
  | '-' :: s => if s ≠ [] ∧ s.all Char.isDigit then some (-(s.foldl (fun n c => 10 * n + (c.toNat - 48 : Nat)) 0 : Nat)) else none
  | s => if s ≠ [] ∧ s.all Char.isDigit then some (s.foldl (fun n c => 10 * n + (c.toNat - 48 : Nat)) 0 : Nat) else none

/-- a reader for ASCII strings -/
def exReader : Reader := ⟨exInt, Char.isDigit, fun p => "usage: " ++ String.ofList p, "PyZEAL 1.0"⟩

theorem exReader_ok : DigitsOk exReader := ⟨by decide, by decide⟩

/-- words -/
def cmd (l : List String) : List PyStr := l.map String.toList

/-- an environment -/
def exEnv : CliEnv := ⟨asciiText, [], ["plugins"], fun _ => .ok [], pure []⟩

/-- `pyzeal -t change --alg newton_grid --precision 3 -4 --algorithm=simple_argument --log-level debug` -/
def exLine : List PyStr :=
  cmd ["-t", "change", "--alg", "newton_grid", "--precision", "3", "-4", "--algorithm=simple_argument", "--log-level", "debug"]

/-- its effects -/
def exEffects : List Effect :=
  [.test, .setting .algorithm "newton_grid", .precision 3 (-4), .setting .algorithm "simple_argument", .setting .level "debug"]

theorem abbrev_of {full : String} {s : PyStr} (h : s.isPrefixOf full.toList = true ∧ 3 ≤ s.length) : Abbrev full s :=
  ⟨List.isPrefixOf_iff_prefix.1 h.1, h.2⟩

theorem minus_four : Operand exReader changeNames "-4".toList := by
  refine .inr (.inr ⟨by decide, ?_, .inl ⟨['4'], .inl rfl, .inl ⟨by decide, by decide⟩⟩⟩)
  rintro ⟨n, hmem, ⟨c, x, hn, hs⟩ | ⟨p, hs, -, -⟩⟩
  · injection hs with _ hs
    injection hs with hc _
    subst hc
    have : n = "-4" := by rw [← String.ofList_toList (s := n), hn]; rfl
    subst this
    exact absurd hmem (by decide)
  · rcases hs with hs | ⟨x, hs⟩
    · injection hs with _ hs; injection hs with hs _; exact absurd hs (by decide)
    · injection hs with _ hs; injection hs with hs _; exact absurd hs (by decide)

theorem exLine_change : Line exReader exLine (some "change") exEffects :=
  .change (ws := cmd ["-t"]) (es := [.test])
    (.cons (TestItem.short 0) .nil)
    (.cons (w := cmd ["--alg", "newton_grid"]) (ChangeItem.apart .algorithm _ _ _ (abbrev_of (by decide)) .newton_grid)
      (.cons (w := cmd ["--precision", "3", "-4"])
        (ChangeItem.precision _ _ _ 3 (-4) (abbrev_of (by decide)) (by decide) (.inl (by decide)) (by decide) minus_four)
        (.cons (w := cmd ["--algorithm=simple_argument"])
          (ChangeItem.joined .algorithm "--algorithm".toList _ _ (abbrev_of (by decide)) .simple_argument)
          (.cons (w := cmd ["--log-level", "debug"]) (ChangeItem.apart .level _ _ _ (abbrev_of (by decide)) .debug) .nil))))

/-! ## C118 -/

/-- **C118.** A command line of the grammar is read as the grammar says: the program goes on with the attributes that the
effects, one after the other, give. -/
theorem C118_understood (E : CliEnv) {R : Reader} (hR : DigitsOk R) {argv : List PyStr} {sub : Option String}
    {es : List Effect} (h : Line R argv sub es) :
    mainPyZEAL E R argv = Cli.main E (argv.length + 1) (meaning sub es) := by
  obtain ⟨ns, h1, h2⟩ := parse_of_line hR h
  unfold mainPyZEAL
  rw [h1, ← h2]

/-- **C118.** Nothing but the command lines of the grammar is accepted. -/
theorem C118_exact {R : Reader} (hR : DigitsOk R) (argv : List PyStr) :
    (∃ ns, parse R argv = .ok ns) ↔ ∃ sub es, Line R argv sub es := by
  constructor
  · rintro ⟨ns, h⟩
    obtain ⟨sub, es, h1, -⟩ := line_of_parse hR h
    exact ⟨sub, es, h1⟩
  · rintro ⟨sub, es, h⟩
    obtain ⟨ns, h1, -⟩ := parse_of_line hR h
    exact ⟨ns, h1⟩

/-- **C118.** The grammar is not ambiguous: a command line has one meaning. -/
theorem C118_unambiguous {R : Reader} (hR : DigitsOk R) {argv : List PyStr} {sub sub' : Option String} {es es' : List Effect}
    (h : Line R argv sub es) (h' : Line R argv sub' es') : meaning sub es = meaning sub' es' := by
  obtain ⟨ns, h1, h2⟩ := parse_of_line hR h
  obtain ⟨ns', h3, h4⟩ := parse_of_line hR h'
  rw [h1] at h3
  cases h3
  rw [← h2, h4]

theorem option_set {k : Setting} {s : String} {v : PyVal} (h : Choice k s v) : OptionOk k (some (some s)) := .inr ⟨s, v, rfl, h⟩

theorem change_accepted {es : List Effect} (h : ∀ e ∈ es, e = .test ∨ IsChange e) : Accepted (meaning (some "change") es) := by
  have key : ∀ (es : List Effect), (∀ e ∈ es, e = .test ∨ IsChange e) → ∀ (c a e l v : Option (Option String))
      (p : Option (List Int)) (t : Bool), OptionOk .container c → OptionOk .algorithm a → OptionOk .estimator e →
      OptionOk .level l → OptionOk .verbose v → (p = .none ∨ ∃ m n, p = some [m, n]) →
      Accepted (es.foldl Effect.apply ⟨.none, c, a, e, l, v, some p, .none, .none, .none, .none, some t⟩) := by
    intro es
    induction es with
    | nil => intro _ c a e l v p t hc ha he hl hv hp; exact .change _ _ _ _ _ _ _ hc ha he hl hv hp
    | cons f es ih =>
      intro h c a e l v p t hc ha he hl hv hp
      have ih' := ih (fun e he => h e (List.mem_cons_of_mem _ he))
      rw [List.foldl_cons]
      rcases h f (by simp) with rfl | hf
      · exact ih' _ _ _ _ _ _ _ hc ha he hl hv hp
      · cases f with
        | setting k w =>
          obtain ⟨x, hx⟩ := hf
          cases k with
          | container => exact ih' _ _ _ _ _ _ _ (option_set hx) ha he hl hv hp
          | algorithm => exact ih' _ _ _ _ _ _ _ hc (option_set hx) he hl hv hp
          | estimator => exact ih' _ _ _ _ _ _ _ hc ha (option_set hx) hl hv hp
          | level => exact ih' _ _ _ _ _ _ _ hc ha he (option_set hx) hv hp
          | verbose => exact ih' _ _ _ _ _ _ _ hc ha he hl (option_set hx) hp
          | precision => exact ih' _ _ _ _ _ _ _ hc ha he hl hv hp
        | precision m n => exact ih' _ _ _ _ _ _ _ hc ha he hl hv (.inr ⟨m, n, rfl⟩)
        | _ => exact hf.elim
  exact key es h _ _ _ _ _ _ _ (.inl rfl) (.inl rfl) (.inl rfl) (.inl rfl) (.inl rfl) (.inl rfl)

/-- the paths -/
theorem splitPath_spec (s : PyStr) : PathOf s ((splitPath s).map String.ofList) := by
  have hmap : ((splitPath s).map String.ofList).map String.toList = splitPath s := by
    rw [List.map_map]
    have : (String.toList ∘ String.ofList) = id := by funext l; simp
    rw [this, List.map_id]
  unfold PathOf
  rw [hmap]
  have key : ∀ s, List.intercalate "/".toList (splitPath s) = s ∧ splitPath s ≠ [] ∧ ∀ c ∈ splitPath s, '/' ∉ c := by
    intro s
    induction s with
    | nil => exact ⟨rfl, by unfold splitPath; simp, by unfold splitPath; simp⟩
    | cons c s ih =>
      obtain ⟨h1, h2, h3⟩ := ih
      unfold splitPath
      rcases hs : splitPath s with _ | ⟨x, xs⟩
      · exact absurd hs h2
      · rw [hs] at h1 h3
        by_cases hc : c = '/'
        · rw [if_pos hc]
          refine ⟨?_, by simp, ?_⟩
          · have : List.intercalate "/".toList ([] :: x :: xs) = [] ++ "/".toList ++ List.intercalate "/".toList (x :: xs) := by
              simp [List.intercalate, List.intersperse]
            rw [this, h1, hc]; rfl
          · intro y hy
            rcases List.mem_cons.1 hy with rfl | hy
            · simp
            · exact h3 y hy
        · rw [if_neg hc]
          dsimp only
          refine ⟨?_, by simp, ?_⟩
          · rcases xs with _ | ⟨y, ys⟩
            · have e1 : List.intercalate "/".toList [x] = x := by simp [List.intercalate]
              have e2 : List.intercalate "/".toList [c :: x] = c :: x := by simp [List.intercalate]
              rw [e1] at h1
              rw [e2, h1]
            · have e : ∀ z, List.intercalate "/".toList (z :: y :: ys) = z ++ "/".toList ++ List.intercalate "/".toList (y :: ys) := by
                intro z; simp [List.intercalate, List.intersperse]
              rw [e] at h1 ⊢
              rw [← h1]; rfl
          · intro y hy
            rcases List.mem_cons.1 hy with rfl | hy
            · rw [List.mem_cons, not_or]
              exact ⟨fun e => hc e.symm, h3 x (by simp)⟩
            · exact h3 y (List.mem_cons_of_mem _ hy)
  refine ⟨(key s).1, ?_, ?_⟩
  · rw [Ne, List.map_eq_nil_iff]; exact (key s).2.1
  · intro c hc
    obtain ⟨x, hx, rfl⟩ := List.mem_map.1 hc
    rw [String.toList_ofList]
    exact (key s).2.2 x hx

/-- a string denotes one path -/
theorem pathOf_unique {s : PyStr} {p q : PathS} (hp : PathOf s p) (hq : PathOf s q) : p = q := by
  have inj : ∀ p q : PathS, p.map String.toList = q.map String.toList → p = q := by
    intro p q h
    have := congrArg (List.map String.ofList) h
    simpa [List.map_map, Function.comp_def] using this
  have e : ∀ (z y : PyStr) (ys : List PyStr), List.intercalate "/".toList (z :: y :: ys) =
      z ++ '/' :: List.intercalate "/".toList (y :: ys) := by
    intro z y ys; simp [List.intercalate, List.intersperse]
  have e1 : ∀ z : PyStr, List.intercalate "/".toList [z] = z := by intro z; simp [List.intercalate]
  have split : ∀ (a b x y : PyStr), '/' ∉ a → '/' ∉ b → a ++ '/' :: x = b ++ '/' :: y → a = b ∧ x = y := by
    intro a
    induction a with
    | nil =>
      intro b x y _ hb h
      rcases b with _ | ⟨c, b⟩
      · injection h with _ h; exact ⟨rfl, h⟩
      · injection h with h _; exact absurd (by rw [h]; simp) hb
    | cons c a ih =>
      intro b x y ha hb h
      rcases b with _ | ⟨d, b⟩
      · injection h with h _; exact absurd (by rw [h]; simp) ha
      · injection h with h h'
        obtain ⟨h1, h2⟩ := ih b x y (fun h => ha (List.mem_cons_of_mem _ h)) (fun h => hb (List.mem_cons_of_mem _ h)) h'
        exact ⟨by rw [h, h1], h2⟩
  have key : ∀ l m : List PyStr, l ≠ [] → m ≠ [] → (∀ c ∈ l, '/' ∉ c) → (∀ c ∈ m, '/' ∉ c) →
      List.intercalate "/".toList l = List.intercalate "/".toList m → l = m := by
    intro l
    induction l with
    | nil => intro m h; exact absurd rfl h
    | cons a l ih =>
      intro m _ hm hl hmm h
      rcases m with _ | ⟨b, m⟩
      · exact absurd rfl hm
      · rcases l with _ | ⟨a', l⟩ <;> rcases m with _ | ⟨b', m⟩
        · rw [e1, e1] at h; rw [h]
        · rw [e1, e] at h
          exact absurd (by rw [h]; simp) (hl a (by simp))
        · rw [e1, e] at h
          exact absurd (by rw [← h]; simp) (hmm b (by simp))
        · rw [e, e] at h
          obtain ⟨h1, h2⟩ := split _ _ _ _ (hl a (by simp)) (hmm b (by simp)) h
          rw [h1, ih (b' :: m) (by simp) (by simp) (fun c hc => hl c (List.mem_cons_of_mem _ hc))
            (fun c hc => hmm c (List.mem_cons_of_mem _ hc)) h2]
  refine inj p q (key _ _ ?_ ?_ ?_ ?_ (hp.1.trans hq.1.symm))
  · rw [Ne, List.map_eq_nil_iff]; exact hp.2.1
  · rw [Ne, List.map_eq_nil_iff]; exact hq.2.1
  · intro c hc; obtain ⟨x, hx, rfl⟩ := List.mem_map.1 hc; exact hp.2.2 x hx
  · intro c hc; obtain ⟨x, hx, rfl⟩ := List.mem_map.1 hc; exact hq.2.2 x hx

/-- the last element of a list of paths -/
theorem lastPath_snoc (l : List PyStr) (s : PyStr) : LastPath (l ++ [s]) (some ((splitPath s).map String.ofList)) :=
  .inr ⟨l, s, _, rfl, rfl, splitPath_spec s⟩

/-- the meaning of the options of `plugin` -/
theorem plugin_meaning {es : List Effect} (h : ∀ e ∈ es, e = .test ∨ IsPlugin e) :
    ∃ ls ms i u t, meaning (some "plugin") es =
        ⟨.none, .none, .none, .none, .none, .none, .none, some ls, some ms, some i, some u, some t⟩ ∧
      (ls = true ↔ .list ∈ es) ∧ (ms = true ↔ .modules ∈ es) ∧ (t = true ↔ .test ∈ es) ∧
      LastPath (es.filterMap Effect.installs) i ∧ LastPath (es.filterMap Effect.removes) u := by
  have key : ∀ n (es : List Effect), es.length = n → (∀ e ∈ es, e = .test ∨ IsPlugin e) →
    ∃ ls ms i u t, es.foldl Effect.apply (startNamespace (some "plugin")) =
        ⟨.none, .none, .none, .none, .none, .none, .none, some ls, some ms, some i, some u, some t⟩ ∧
      (ls = true ↔ .list ∈ es) ∧ (ms = true ↔ .modules ∈ es) ∧ (t = true ↔ .test ∈ es) ∧
      LastPath (es.filterMap Effect.installs) i ∧ LastPath (es.filterMap Effect.removes) u := by
    intro n
    induction n with
    | zero =>
      intro es hn _
      have := List.length_eq_zero_iff.1 hn
      subst this
      exact ⟨false, false, none, none, false, rfl, by simp, by simp, by simp, .inl ⟨rfl, rfl⟩, .inl ⟨rfl, rfl⟩⟩
    | succ n ih =>
      intro es hn h
      obtain ⟨init, e, rfl⟩ : ∃ init e, es = init ++ [e] := by
        rcases List.eq_nil_or_concat es with rfl | ⟨init, e, rfl⟩
        · cases hn
        · exact ⟨init, e, by simp⟩
      obtain ⟨ls, ms, i, u, t, h1, h2, h3, h4, h5, h6⟩ := ih init (by simp at hn; omega) (fun e he => h e (by simp [he]))
      have hi : ∀ f : Effect → Option PyStr, (init ++ [e]).filterMap f = init.filterMap f ++ (f e).toList := by
        intro f; rw [List.filterMap_append]; rcases hf : f e with _ | x <;> simp [hf]
      rw [List.foldl_append, List.foldl_cons, List.foldl_nil, h1, hi, hi]
      rcases h e (by simp) with rfl | he
      · exact ⟨ls, ms, i, u, true, rfl, by simpa using h2, by simpa using h3, by simp, by simpa [Effect.installs] using h5,
          by simpa [Effect.removes] using h6⟩
      · cases e with
        | list => exact ⟨true, ms, i, u, t, rfl, by simp, by simpa using h3, by simpa using h4,
            by simpa [Effect.installs] using h5, by simpa [Effect.removes] using h6⟩
        | modules => exact ⟨ls, true, i, u, t, rfl, by simpa using h2, by simp, by simpa using h4,
            by simpa [Effect.installs] using h5, by simpa [Effect.removes] using h6⟩
        | install p => exact ⟨ls, ms, _, u, t, rfl, by simpa using h2, by simpa using h3, by simpa using h4,
            lastPath_snoc _ p, by simpa [Effect.removes] using h6⟩
        | uninstall p => exact ⟨ls, ms, i, _, t, rfl, by simpa using h2, by simpa using h3, by simpa using h4,
            by simpa [Effect.installs] using h5, lastPath_snoc _ p⟩
        | _ => exact he.elim
  exact key _ es rfl h

/-- the meaning of lines with flags only -/
theorem flags_meaning {sub : Option String} (hsub : sub = none ∨ sub = some "view") {es : List Effect}
    (h : ∀ e ∈ es, e = .test ∨ (sub = some "view" ∧ e = .print)) :
    ∃ p t : Bool, meaning sub es = ⟨if sub = none then .none else some p, .none, .none, .none, .none, .none, .none, .none, .none,
        .none, .none, some t⟩ ∧ (p = true ↔ .print ∈ es) ∧ (t = true ↔ .test ∈ es) := by
  have key : ∀ n (es : List Effect), es.length = n → (∀ e ∈ es, e = .test ∨ (sub = some "view" ∧ e = .print)) →
      ∃ p t : Bool, es.foldl Effect.apply (startNamespace sub) = ⟨if sub = none then .none else some p, .none, .none, .none, .none,
        .none, .none, .none, .none, .none, .none, some t⟩ ∧ (p = true ↔ .print ∈ es) ∧ (t = true ↔ .test ∈ es) := by
    intro n
    induction n with
    | zero =>
      intro es hn _
      have := List.length_eq_zero_iff.1 hn
      subst this
      refine ⟨false, false, ?_, by simp, by simp⟩
      rcases hsub with rfl | rfl <;> rfl
    | succ n ih =>
      intro es hn h
      obtain ⟨init, e, rfl⟩ : ∃ init e, es = init ++ [e] := by
        rcases List.eq_nil_or_concat es with rfl | ⟨init, e, rfl⟩
        · cases hn
        · exact ⟨init, e, by simp⟩
      obtain ⟨p, t, h1, h2, h3⟩ := ih init (by simp at hn; omega) (fun e he => h e (by simp [he]))
      rw [List.foldl_append, List.foldl_cons, List.foldl_nil, h1]
      rcases h e (by simp) with rfl | ⟨rfl, rfl⟩
      · exact ⟨p, true, rfl, by simpa using h2, by simp⟩
      · exact ⟨true, t, rfl, by simp, by simpa using h3⟩
  exact key _ es rfl h

/-- what the effects of a line can be -/
theorem line_effects {R : Reader} {argv : List PyStr} {sub : Option String} {es : List Effect} (h : Line R argv sub es) :
    (sub = none ∧ ∀ e ∈ es, e = .test) ∨ (sub = some "view" ∧ ∀ e ∈ es, e = .test ∨ e = .print) ∨
      (sub = some "change" ∧ ∀ e ∈ es, e = .test ∨ IsChange e) ∨ (sub = some "plugin" ∧ ∀ e ∈ es, e = .test ∨ IsPlugin e) := by
  cases h with
  | bare h => exact .inl ⟨rfl, test_only h⟩
  | view h hv =>
    refine .inr (.inl ⟨rfl, ?_⟩)
    intro e he
    rcases List.mem_append.1 he with he | he
    · exact .inl (test_only h e he)
    · exact .inr (view_only hv e he)
  | change h hv =>
    refine .inr (.inr (.inl ⟨rfl, ?_⟩))
    intro e he
    rcases List.mem_append.1 he with he | he
    · exact .inl (test_only h e he)
    · exact .inr (change_only hv e he)
  | plugin h hv =>
    refine .inr (.inr (.inr ⟨rfl, ?_⟩))
    intro e he
    rcases List.mem_append.1 he with he | he
    · exact .inl (test_only h e he)
    · exact .inr (plugin_only hv e he)

theorem ne_some {a b : String} (h : a ≠ b) : some a ≠ some b := fun e => h (by injection e)

/-- **C118.** Whatever is accepted satisfies what the rest of the program needs: the theorems about `Accepted` arguments
(C70, C71, C90, C91, …) apply to every command line. -/
theorem C118_accepted {R : Reader} {argv : List PyStr} {sub : Option String} {es : List Effect} (h : Line R argv sub es) :
    Accepted (meaning sub es) := by
  have hh := line_effects h
  clear h
  rcases hh with ⟨rfl, h⟩ | ⟨rfl, h⟩ | ⟨rfl, h⟩ | ⟨rfl, h⟩
  · obtain ⟨p, t, h1, -, -⟩ := flags_meaning (.inl rfl) (fun e he => .inl (h e he))
    rw [h1]; exact .none t
  · obtain ⟨p, t, h1, -, -⟩ := flags_meaning (.inr rfl) (fun e he => (h e he).imp id (fun h => ⟨rfl, h⟩))
    rw [h1]; exact .view p t
  · exact change_accepted h
  · obtain ⟨ls, ms, i, u, t, h1, -⟩ := plugin_meaning h
    rw [h1]; exact .plugin ls ms i u t

example : mainPyZEAL exEnv exReader exLine = Cli.main exEnv 11
    ⟨none, some none, some (some "simple_argument"), some none, some (some "debug"), some none, some (some [3, -4]),
      none, none, none, none, some true⟩ := C118_understood exEnv exReader_ok exLine_change

/-! ## C119 -/

/-- **C119.** A command line that is not of the grammar ends the program before anything else is done: with status 2, or,
only if some word asks for it, with status 0 after a text was printed.  Settings, files and tests are not touched. -/
theorem C119_rejected (E : CliEnv) {R : Reader} (hR : DigitsOk R) {argv : List PyStr} (h : ¬ ∃ sub es, Line R argv sub es)
    (st : CState) : mainPyZEAL E R argv st = (.error (.systemExit 2), st) ∨
      ((∃ s ∈ argv, AsksHelp s) ∧ ∃ text, mainPyZEAL E R argv st = (.error (.systemExit 0), { st with out := st.out ++ [text] })) := by
  rcases hp : parse R argv with e | ns
  · have hrun : mainPyZEAL E R argv = stop R e := by unfold mainPyZEAL; rw [hp]
    rw [hrun]
    cases e with
    | error => exact .inl rfl
    | help prog => exact .inr ⟨parse_stop hp nofun, _, rfl⟩
    | version => exact .inr ⟨parse_stop hp nofun, _, rfl⟩
  · exact absurd ((C118_exact hR argv).1 ⟨ns, hp⟩) h

/-- help, for the parser with these options -/
theorem help_reads {acts : List Act} (hn : Neat acts) {prog : String} (h1 : findOption acts "-h".toList = some (helpAct prog))
    (h2 : ("--help".toList, helpAct prog) ∈ optionMap acts) {s : PyStr} (hs : HelpWord s) (ts : List (PyStr × Mark)) :
    ∃ f, Reads acts s ts f ∧ f.actions = [(helpAct prog, [])] := by
  rcases hs with rfl | ⟨h3, h4⟩
  · exact ⟨_, .short ['h'] [helpAct prog] rfl (by simp) (.cons h1 .nil), rfl⟩
  · exact ⟨_, .apart ("--help".toList, helpAct prog) [] h2 rfl h3 h4 (takeArgs_zero ts), rfl⟩

theorem sub_help {R : Reader} {name : String} {acts : List Act} (hget : subcommands.get? name.toList = some acts)
    (hname : name.toList.head? ≠ some '-') {ws vs rest : List PyStr} {es : List Effect} (hw : Items TestItem ws es) {e : Stop}
    (hvs : Unambiguous (vs ++ rest)) (hsub : parseKnown R acts none (vs ++ rest) = .error e) :
    parse R (ws ++ name.toList :: (vs ++ rest)) = .error e := by
  obtain ⟨tm, hcm⟩ := classify_total R mainNeat hvs
  have hcm' : classify R mainActs (name.toList :: (vs ++ rest)) = .ok ((name.toList, .arg) :: tm) :=
    cons_classify (fun e => hname (by rw [e]; rfl)) (parse_plain R _ hname) hcm
  obtain ⟨tw, h1, h2⟩ := loop_bwd mainNeat mainShort (mainFaithful R) (pos := some (runSubcommand R subcommands)) hw hcm'
  obtain ⟨fuel', hf, h3⟩ := h2 (tw ++ (name.toList, .arg) :: tm).length ⟨defaults mainActs [], [], []⟩ (Nat.le_refl _)
  unfold parse parseKnown
  rw [h1]
  dsimp only
  rw [h3]
  rcases fuel' with _ | fuel'
  · simp at hf
  · have hrun : loop R mainActs (some (runSubcommand R subcommands)) (fuel' + 1) ((name.toList, .arg) :: tm)
        ⟨applyD es (defaults mainActs []), [], []⟩ = .error e := by
      rw [loop_other rfl]
      have : consumePositionals (some (runSubcommand R subcommands)) ((name.toList, .arg) :: tm) ⟨applyD es (defaults mainActs []), [], []⟩ =
          some (runSubcommand R subcommands (name.toList :: tm.map Prod.fst) ⟨applyD es (defaults mainActs []), [], []⟩) := rfl
      rw [this, classify_length hcm]
      unfold runSubcommand
      dsimp only
      rw [hget]
      dsimp only
      rw [hsub]
    rw [hrun]

/-- **C119.** `-h`, `--help` (or a prefix of it) after options of the main parser prints the general help, and the
program ends with status 0. -/
theorem C119_help (E : CliEnv) (R : Reader) {ws rest : List PyStr} {es : List Effect} (hw : Items TestItem ws es) {s : PyStr}
    (hs : HelpWord s) (hrest : Unambiguous rest) (st : CState) :
    mainPyZEAL E R (ws ++ s :: rest) st =
      (.error (.systemExit 0), { st with out := st.out ++ [R.helpText "pyzeal".toList] }) := by
  have hp : parse R (ws ++ s :: rest) = .error (.help "pyzeal".toList) := by
    unfold parse
    rw [known_help mainNeat mainShort (mainFaithful R) _ hw (help_reads mainNeat rfl (.tail _ (.head _)) hs) (fun _ => rfl) hrest]
  unfold mainPyZEAL
  rw [hp]; rfl

/-- **C119.** `--version` (or a prefix of it) prints the version. -/
theorem C119_version (E : CliEnv) (R : Reader) {ws rest : List PyStr} {es : List Effect} (hw : Items TestItem ws es) {s : PyStr}
    (hs : Abbrev "--version" s) (hrest : Unambiguous rest) (st : CState) :
    mainPyZEAL E R (ws ++ s :: rest) st = (.error (.systemExit 0), { st with out := st.out ++ [R.versionText] }) := by
  have hp : parse R (ws ++ s :: rest) = .error .version := by
    unfold parse
    rw [known_help (a := addArgument ["--version"] .version) mainNeat mainShort (mainFaithful R) _ hw
      (fun ts => ⟨_, .apart ("--version".toList, addArgument ["--version"] .version) [] (.tail _ (.tail _ (.head _))) rfl hs.1 hs.2 (takeArgs_zero ts), rfl⟩)
      (fun _ => rfl) hrest]
  unfold mainPyZEAL
  rw [hp]; rfl

/-- **C119.** The same for the subcommands: the options before the word are not carried out, their own help is printed. -/
theorem C119_help_view (E : CliEnv) (R : Reader) {ws vs rest : List PyStr} {es fs : List Effect} (hw : Items TestItem ws es)
    (hv : Items ViewItem vs fs) {s : PyStr} (hs : HelpWord s) (hrest : Unambiguous (vs ++ s :: rest)) (st : CState) :
    mainPyZEAL E R (ws ++ "view".toList :: (vs ++ s :: rest)) st =
      (.error (.systemExit 0), { st with out := st.out ++ [R.helpText "pyzeal view".toList] }) := by
  have hp := sub_help (R := R) (name := "view") rfl (by decide) hw hrest
    (known_help viewNeat viewShort (viewFaithful R) none hv (help_reads viewNeat (prog := "pyzeal view") rfl (.tail _ (.head _)) hs)
      (fun _ => rfl) (fun r hr => hrest r (by simp [hr])))
  unfold mainPyZEAL
  rw [hp]; rfl

/-- **C119.** As above, for `change`. -/
theorem C119_help_change (E : CliEnv) {R : Reader} (hR : DigitsOk R) {ws vs rest : List PyStr} {es fs : List Effect}
    (hw : Items TestItem ws es) (hv : Items (ChangeItem R) vs fs) {s : PyStr} (hs : HelpWord s)
    (hrest : Unambiguous (vs ++ s :: rest)) (st : CState) :
    mainPyZEAL E R (ws ++ "change".toList :: (vs ++ s :: rest)) st =
      (.error (.systemExit 0), { st with out := st.out ++ [R.helpText "pyzeal change".toList] }) := by
  have hp := sub_help (R := R) (name := "change") rfl (by decide) hw hrest
    (known_help changeNeat changeShort (changeFaithful hR) none hv (help_reads changeNeat (prog := "pyzeal change") rfl (.tail _ (.head _)) hs)
      (fun _ => rfl) (fun r hr => hrest r (by simp [hr])))
  unfold mainPyZEAL
  rw [hp]; rfl

/-- **C119.** As above, for `plugin`. -/
theorem C119_help_plugin (E : CliEnv) {R : Reader} (hR : DigitsOk R) {ws vs rest : List PyStr} {es fs : List Effect}
    (hw : Items TestItem ws es) (hv : Items (PluginItem R) vs fs) {s : PyStr} (hs : HelpWord s)
    (hrest : Unambiguous (vs ++ s :: rest)) (st : CState) :
    mainPyZEAL E R (ws ++ "plugin".toList :: (vs ++ s :: rest)) st =
      (.error (.systemExit 0), { st with out := st.out ++ [R.helpText "pyzeal plugin".toList] }) := by
  have hp := sub_help (R := R) (name := "plugin") rfl (by decide) hw hrest
    (known_help pluginNeat pluginShort (pluginFaithful hR) none hv (help_reads pluginNeat (prog := "pyzeal plugin") rfl (.tail _ (.head _)) hs)
      (fun _ => rfl) (fun r hr => hrest r (by simp [hr])))
  unfold mainPyZEAL
  rw [hp]; rfl

example : mainPyZEAL exEnv exReader (cmd ["change", "--container", "rounding", "--algorithm", "bisection"]) cliState =
    (.error (.systemExit 2), cliState) := by
  have : parse exReader (cmd ["change", "--container", "rounding", "--algorithm", "bisection"]) = .error .error := by decide +kernel
  unfold mainPyZEAL
  rw [this]; rfl

example (st : CState) : mainPyZEAL exEnv exReader (cmd ["change", "--container", "rounding", "--help", "now"]) st =
    (.error (.systemExit 0), { st with out := st.out ++ ["usage: pyzeal change"] }) :=
  C119_help_change exEnv exReader_ok (ws := []) (vs := cmd ["--container", "rounding"]) (rest := cmd ["now"]) .nil
    (.cons (ChangeItem.apart .container _ _ _ (abbrev_of (by decide)) .rounding) .nil) (.inr (abbrev_of (by decide)))
    (by unfold Unambiguous; simp only [← List.isPrefixOf_iff_prefix]; decide) st

/-! ## C120 -/

theorem lastSets_snoc (es : List Effect) (e : Effect) (k : Setting) (v : PyVal) :
    LastSets (es ++ [e]) k v ↔ e.Sets k v ∨ ((¬ ∃ v', e.Sets k v') ∧ LastSets es k v) := by
  constructor
  · rintro ⟨pre, f, post, h1, h2, h3⟩
    rcases List.eq_nil_or_concat post with rfl | ⟨init, g, rfl⟩
    · have := List.append_inj' h1 rfl
      injection this.2 with h4
      exact .inl (h4 ▸ h2)
    · have h4 : es ++ [e] = (pre ++ f :: init) ++ [g] := by rw [h1]; simp
      have := List.append_inj' h4 rfl
      injection this.2 with h5
      subst h5
      exact .inr ⟨h3 e (by simp), pre, f, init, this.1, h2, fun e' he' => h3 e' (by simp [he'])⟩
  · rintro (h | ⟨h1, pre, f, post, h2, h3, h4⟩)
    · exact ⟨es, e, [], rfl, h, fun e' he' => (nomatch he')⟩
    · refine ⟨pre, f, post ++ [e], by rw [h2]; simp, h3, ?_⟩
      intro e' he'
      rcases List.mem_append.1 he' with he' | he'
      · exact h4 e' he'
      · rw [List.mem_singleton.1 he']; exact h1

theorem not_last_nil {k : Setting} {v : PyVal} : ¬ LastSets [] k v := by
  rintro ⟨pre, f, post, h, -⟩
  exact absurd (congrArg List.length h) (by simp)

/-- what one effect changes in the requests -/
theorem request_apply {e : Effect} (he : e = .test ∨ IsChange e) (ns : Namespace) (k : Setting) (v : PyVal) :
    CliRequest (e.apply ns) k v ↔ e.Sets k v ∨ ((¬ ∃ v', e.Sets k v') ∧ CliRequest ns k v) := by
  have keep : ∀ ns' : Namespace, (CliRequest ns' k v ↔ CliRequest ns k v) → (∀ v', ¬ e.Sets k v') →
      (CliRequest ns' k v ↔ e.Sets k v ∨ ((¬ ∃ v', e.Sets k v') ∧ CliRequest ns k v)) := by
    intro ns' h1 h2
    rw [h1]
    exact ⟨fun h => .inr ⟨fun ⟨v', h'⟩ => h2 v' h', h⟩, fun h => h.elim (fun h => absurd h (h2 v)) (fun h => h.2)⟩
  rcases he with rfl | he
  · refine keep _ ?_ (fun v' h => h)
    cases k <;> exact Iff.rfl
  · cases e with
    | setting j w =>
      obtain ⟨x, hx⟩ := he
      by_cases hk : j = k
      · subst hk
        have : CliRequest (Effect.apply ns (.setting j w)) j v ↔ Choice j w v := by
          cases j with
          | precision => cases hx
          | container => exact ⟨fun ⟨s, h1, h2⟩ => by injection h1 with h1; injection h1 with h1; exact h1 ▸ h2, fun h => ⟨w, rfl, h⟩⟩
          | algorithm => exact ⟨fun ⟨s, h1, h2⟩ => by injection h1 with h1; injection h1 with h1; exact h1 ▸ h2, fun h => ⟨w, rfl, h⟩⟩
          | estimator => exact ⟨fun ⟨s, h1, h2⟩ => by injection h1 with h1; injection h1 with h1; exact h1 ▸ h2, fun h => ⟨w, rfl, h⟩⟩
          | level => exact ⟨fun ⟨s, h1, h2⟩ => by injection h1 with h1; injection h1 with h1; exact h1 ▸ h2, fun h => ⟨w, rfl, h⟩⟩
          | verbose => exact ⟨fun ⟨s, h1, h2⟩ => by injection h1 with h1; injection h1 with h1; exact h1 ▸ h2, fun h => ⟨w, rfl, h⟩⟩
        rw [this]
        exact ⟨fun h => .inl ⟨rfl, h⟩, fun h => h.elim (fun h => h.2) (fun h => absurd ⟨x, rfl, hx⟩ h.1)⟩
      · refine keep _ ?_ (fun v' h => hk h.1)
        cases j <;> cases k <;> first | exact absurd rfl hk | exact Iff.rfl
    | precision m n =>
      by_cases hk : k = .precision
      · subst hk
        have : CliRequest (Effect.apply ns (.precision m n)) .precision v ↔ v = .tuple [.int m, .int n] := by
          constructor
          · rintro ⟨m', n', h1, h2⟩
            injection h1 with h1; injection h1 with h1; injection h1 with h1 h3; injection h3 with h3
            rw [h2, h1, h3]
          · intro h; exact ⟨m, n, rfl, h⟩
        rw [this]
        exact ⟨fun h => .inl ⟨rfl, h⟩, fun h => h.elim (fun h => h.2) (fun h => absurd ⟨_, rfl, rfl⟩ h.1)⟩
      · refine keep _ ?_ (fun v' h => hk h.1)
        cases k <;> first | exact absurd rfl hk | exact Iff.rfl
    | _ => exact he.elim

/-- the requests of a line -/
theorem request_last {es : List Effect} (h : ∀ e ∈ es, e = .test ∨ IsChange e) (k : Setting) (v : PyVal) :
    CliRequest (meaning (some "change") es) k v ↔ LastSets es k v := by
  have key : ∀ n (es : List Effect), es.length = n → (∀ e ∈ es, e = .test ∨ IsChange e) → ∀ k v,
      (CliRequest (es.foldl Effect.apply (startNamespace (some "change"))) k v ↔ LastSets es k v) := by
    intro n
    induction n with
    | zero =>
      intro es hn _ k v
      have := List.length_eq_zero_iff.1 hn
      subst this
      refine ⟨fun h => ?_, fun h => absurd h not_last_nil⟩
      cases k with
      | precision => obtain ⟨m, n, h1, -⟩ := h; cases h1
      | _ => obtain ⟨s, h1, -⟩ := h; cases h1
    | succ n ih =>
      intro es hn h k v
      obtain ⟨init, e, rfl⟩ : ∃ init e, es = init ++ [e] := by
        rcases List.eq_nil_or_concat es with rfl | ⟨init, e, rfl⟩
        · cases hn
        · exact ⟨init, e, by simp⟩
      rw [List.foldl_append, List.foldl_cons, List.foldl_nil, request_apply (h e (by simp)), lastSets_snoc,
        ih init (by simp at hn; omega) (fun e he => h e (by simp [he])) k v]
  exact key _ es rfl h k v

/-- whether tests are run -/
theorem change_test {es : List Effect} : (meaning (some "change") es).test = some true ↔ .test ∈ es := by
  have key : ∀ (es : List Effect) (ns : Namespace), (es.foldl Effect.apply ns).test = some true ↔ ns.test = some true ∨ .test ∈ es := by
    intro es
    induction es with
    | nil => intro ns; simp
    | cons e es ih =>
      intro ns
      rw [List.foldl_cons, ih]
      by_cases he : e = .test
      · subst he
        exact ⟨fun _ => .inr (by simp), fun _ => .inl rfl⟩
      · have : (Effect.apply ns e).test = ns.test := by
          cases e with
          | test => exact absurd rfl he
          | setting k w => cases k <;> rfl
          | _ => rfl
        rw [this, List.mem_cons]
        exact ⟨fun h => h.imp id .inr, fun h => h.imp id (fun h => h.resolve_left (fun e => he e.symm))⟩
  unfold meaning
  rw [key]
  exact ⟨fun h => h.resolve_left (fun h => absurd h (by decide)), .inr⟩

theorem change_list {es : List Effect} (h : ∀ e ∈ es, e = .test ∨ IsChange e) : (meaning (some "change") es).list = none := by
  have key : ∀ (es : List Effect), (∀ e ∈ es, e = .test ∨ IsChange e) → ∀ ns : Namespace,
      (es.foldl Effect.apply ns).list = ns.list := by
    intro es
    induction es with
    | nil => intro _ ns; rfl
    | cons e es ih =>
      intro h ns
      rw [List.foldl_cons, ih (fun e he => h e (List.mem_cons_of_mem _ he))]
      rcases h e (by simp) with rfl | he
      · rfl
      · cases e with
        | setting k w => cases k <;> rfl
        | precision m n => rfl
        | _ => exact he.elim
  exact key es h _

/-- **C120.** `pyzeal … change …`, from the strings to the files: every such command line of the grammar succeeds; a
setting that is given values ends up with the last of them, every other setting keeps its value, a new service will load
exactly this from the files, no other files change, and the tests are run exactly if asked for. -/
theorem C120_change (E : CliEnv) (hE : AsciiCase E.text) {R : Reader} (hR : DigitsOk R) {argv : List PyStr} {es : List Effect}
    (h : Line R argv (some "change") es) (st : CState) (hst : InSync st.sett) :
    ∃ st', mainPyZEAL E R argv st = (.ok (), st') ∧
      (∀ k v, LastSets es k v → st'.sett.svc k = v) ∧
      (∀ k, (¬ ∃ v, LastSets es k v) → st'.sett.svc k = st.sett.svc k) ∧
      load st'.sett.fs = .ok st'.sett.svc ∧ InSync st'.sett ∧ st'.fsys = st.fsys ∧
      (.test ∈ es → st'.tested = st.tested ++ testModules) ∧ (.test ∉ es → st'.tested = st.tested) := by
  have heff : ∀ e ∈ es, e = .test ∨ IsChange e := by
    rcases line_effects h with ⟨h1, -⟩ | ⟨h1, -⟩ | ⟨-, h1⟩ | ⟨h1, -⟩
    · cases h1
    · exact absurd h1 (ne_some (by decide))
    · exact h1
    · exact absurd h1 (ne_some (by decide))
  rw [C118_understood E hR h]
  obtain ⟨st', h1, h2, h3, h4, h5, h6⟩ :=
    C91_without_plugin E hE (argv.length + 1) (C118_accepted h) (change_list heff) st hst
  refine ⟨st', h1, ?_, ?_, h2.load, h2, h3, ?_, ?_⟩
  · intro k v hv; exact h5 k v ((request_last heff k v).2 hv)
  · intro k hk; exact h6 k (fun ⟨v, hv⟩ => hk ⟨v, (request_last heff k v).1 hv⟩)
  · intro ht; rw [h4, if_pos (change_test.2 ht)]
  · intro ht; rw [h4, if_neg (fun e => ht (change_test.1 e)), List.append_nil]

/-- **C120.** Only the last value given for each setting counts, not the order of the options, their abbreviation or the
way their arguments are attached: two command lines with the same last values lead to the same settings. -/
theorem C120_order (E : CliEnv) (hE : AsciiCase E.text) {R : Reader} (hR : DigitsOk R) {argv argv' : List PyStr}
    {es es' : List Effect} (h : Line R argv (some "change") es) (h' : Line R argv' (some "change") es')
    (hsame : ∀ k v, LastSets es k v ↔ LastSets es' k v) (st : CState) (hst : InSync st.sett) :
    (mainPyZEAL E R argv st).2.sett.svc = (mainPyZEAL E R argv' st).2.sett.svc := by
  obtain ⟨s, h1, h2, h3, -⟩ := C120_change E hE hR h st hst
  obtain ⟨s', h1', h2', h3', -⟩ := C120_change E hE hR h' st hst
  rw [h1, h1']
  funext k
  by_cases hk : ∃ v, LastSets es k v
  · obtain ⟨v, hv⟩ := hk
    exact (h2 k v hv).trans (h2' k v ((hsame k v).1 hv)).symm
  · exact (h3 k hk).trans (h3' k (fun ⟨v, hv⟩ => hk ⟨v, (hsame k v).2 hv⟩)).symm

theorem exEffects_last : LastSets exEffects .algorithm (.algorithm .SIMPLE_ARGUMENT) ∧
    ¬ ∃ v, LastSets exEffects .container v := by
  constructor
  · refine ⟨[.test, .setting .algorithm "newton_grid", .precision 3 (-4)], _, [.setting .level "debug"], rfl,
      ⟨rfl, .simple_argument⟩, ?_⟩
    intro e he
    rw [List.mem_singleton.1 he]
    rintro ⟨v, h, -⟩
    cases h
  · rintro ⟨v, pre, e, post, h1, h2, -⟩
    have : e ∈ exEffects := by rw [h1]; simp
    unfold exEffects at this
    simp only [List.mem_cons, List.not_mem_nil, or_false] at this
    rcases this with rfl | rfl | rfl | rfl | rfl
    · exact h2
    · cases h2.1
    · cases h2.1
    · cases h2.1
    · cases h2.1

example : ∃ st', mainPyZEAL exEnv exReader exLine cliState = (.ok (), st') ∧
    st'.sett.svc .algorithm = .algorithm .SIMPLE_ARGUMENT ∧ st'.sett.svc .container = .container .PLAIN_CONTAINER ∧
    st'.tested = testModules := by
  obtain ⟨st', h1, h2, h3, -, -, -, h4, -⟩ := C120_change exEnv asciiText_case exReader_ok exLine_change cliState cliState_sync
  exact ⟨st', h1, h2 _ _ exEffects_last.1, h3 _ exEffects_last.2, h4 (List.mem_cons_self ..)⟩

/-! ## C121 -/

/-- **C121.** `pyzeal … plugin …` with `--install` and `--uninstall` (each perhaps several times: the last one counts, or
not at all): the file given with `--install`, relative to the current directory, is installed, and if this succeeded the
plugin given with `--uninstall` is removed, whatever the order of the options; the command succeeds exactly if both did,
and exits with status 2 if the file to install or the plugin to remove does not exist. -/
theorem C121_files (E : CliEnv) {R : Reader} (hR : DigitsOk R) {argv : List PyStr} {es : List Effect}
    (h : Line R argv (some "plugin") es) (hl : .list ∉ es) (hm : .modules ∉ es) {i u : Option PathS}
    (hi : LastPath (es.filterMap Effect.installs) i) (hu : LastPath (es.filterMap Effect.removes) u)
    (hi0 : i ≠ some [""]) (hu0 : u ≠ some [""]) (st : CState) :
    let first := installing E i st.fsys
    let second := uninstalling E u first.2
    (first.1 = .ok true → (mainPyZEAL E R argv st).2.fsys = second.2 ∧
      ((mainPyZEAL E R argv st).1 = .ok () ↔ second.1 = .ok true) ∧
      (second.1 = .ok false → (mainPyZEAL E R argv st).1 = .error (.systemExit 2))) ∧
    (first.1 ≠ .ok true → (mainPyZEAL E R argv st).2.fsys = first.2 ∧ (mainPyZEAL E R argv st).1 ≠ .ok () ∧
      (first.1 = .ok false → (mainPyZEAL E R argv st).1 = .error (.systemExit 2))) := by
  have heff : ∀ e ∈ es, e = .test ∨ IsPlugin e := by
    rcases line_effects h with ⟨h1, -⟩ | ⟨h1, -⟩ | ⟨h1, -⟩ | ⟨-, h1⟩
    · cases h1
    · exact absurd h1 (ne_some (by decide))
    · exact absurd h1 (ne_some (by decide))
    · exact h1
  have same : ∀ {l : List PyStr} {p q : Option PathS}, LastPath l p → LastPath l q → p = q := by
    rintro l p q (⟨h1, h2⟩ | ⟨pre, s, x, h1, h2, h3⟩) (⟨h4, h5⟩ | ⟨pre', s', y, h4, h5, h6⟩)
    · rw [h2, h5]
    · rw [h1] at h4; exact absurd (congrArg List.length h4) (by simp)
    · rw [h1] at h4; exact absurd (congrArg List.length h4) (by simp)
    · rw [h1] at h4
      have := List.append_inj' h4 rfl
      injection this.2 with h7
      subst h7
      rw [h2, h5, pathOf_unique h3 h6]
  obtain ⟨ls, ms, i', u', t, h1, h2, h3, -, h5, h6⟩ := plugin_meaning heff
  have hls : ls = false := by cases ls with | false => rfl | true => exact absurd (h2.1 rfl) hl
  have hms : ms = false := by cases ms with | false => rfl | true => exact absurd (h3.1 rfl) hm
  rw [C118_understood E hR h, h1, hls, hms, same h5 hi, same h6 hu]
  exact C91_plugin_files E (argv.length + 1) i u t hi0 hu0 st

/-- **C121.** No `plugin` command changes the settings or their files (provided the code of the plugins does not). -/
theorem C121_settings (E : CliEnv) (hE : AsciiCase E.text) {R : Reader} (hR : DigitsOk R) {argv : List PyStr} {es : List Effect}
    (h : Line R argv (some "plugin") es) (hload : KeepsSettings E.loadPlugins) (st : CState) :
    (mainPyZEAL E R argv st).2.sett = st.sett := by
  rw [C118_understood E hR h]
  refine C91_plugin_keeps_settings E hE _ (C118_accepted h) ?_ hload st
  rcases line_effects h with ⟨h1, -⟩ | ⟨h1, -⟩ | ⟨h1, -⟩ | ⟨-, h1⟩
  · cases h1
  · exact absurd h1 (ne_some (by decide))
  · exact absurd h1 (ne_some (by decide))
  · obtain ⟨ls, ms, i', u', t, h2, -⟩ := plugin_meaning h1
    rw [h2]; exact nofun

/-- `pyzeal plugin --unin old.py --install=a/b.py` -/
theorem exLine_plugin : Line exReader (cmd ["plugin", "--unin", "old.py", "--install=a/b.py"]) (some "plugin")
    [.uninstall "old.py".toList, .install "a/b.py".toList] :=
  .plugin (ws := []) .nil (.cons (w := cmd ["--unin", "old.py"]) (PluginItem.uninstall _ _ (abbrev_of (by decide)) (.inl (by decide)))
    (.cons (w := cmd ["--install=a/b.py"]) (PluginItem.installJoined "--install".toList _ (abbrev_of (by decide))) .nil))

example : LastPath (List.filterMap Effect.installs [.uninstall "old.py".toList, .install "a/b.py".toList]) (some ["a", "b.py"]) :=
  .inr ⟨[], _, _, rfl, rfl, by unfold PathOf; decide⟩

/-! ## C122 -/

/-- the hints -/
def hint : String := "this is the CLI of the PyZEAL package. use '-h' for help."
def subHint : String := "use '-h' with your subcommand for help."

/-- a program run that prints `lines`, runs the tests if `t`, and changes nothing else -/
def Prints (m : Py CState Unit) (st : CState) (lines : List String) (t : Bool) : Prop :=
  m st = (.ok (), { st with out := st.out ++ lines, tested := st.tested ++ if t then testModules else [] })

theorem flags_main (E : CliEnv) (argc : Nat) (p t : Bool) (pr : Option Bool) (hpr : pr.getD false = p) (st : CState)
    (hst : ∀ k, Valid k (st.sett.svc k)) :
    Prints (Cli.main E argc ⟨pr, .none, .none, .none, .none, .none, .none, .none, .none, .none, .none, some t⟩) st
      ((if argc < 2 then [hint] else []) ++ (if p then [viewText st.sett.svc] else []) ++
        (if argc = 2 ∧ t = false then [subHint] else [])) t := by
  have hprint : ∀ (b : Bool) (l : String) (s : CState), printIf b l s = (.ok (), { s with out := s.out ++ if b then [l] else [] }) := by
    intro b l s
    cases b with
    | true => rfl
    | false => show (Except.ok (), s) = _; simp
  unfold Prints Cli.main
  rw [Py.bind_ok (hprint _ _ _)]
  have h2 := C90_view (settingsArgs ⟨pr, .none, .none, .none, .none, .none, .none, .none, .none, .none, .none, some t⟩)
    { st with out := st.out ++ if decide (argc < 2) = true then [hint] else [] } hst
  unfold hint at h2
  rw [Py.bind_ok h2]
  have h3 : ∀ s, handleChange E.text (settingsArgs ⟨pr, .none, .none, .none, .none, .none, .none, .none, .none, .none, .none, some t⟩) s
      = (.ok (), s) := fun s => rfl
  rw [Py.bind_ok (h3 _)]
  have h4 : ∀ s, handlePlugin E (pluginArgs ⟨pr, .none, .none, .none, .none, .none, .none, .none, .none, .none, .none, some t⟩) s
      = (.ok (), s) := fun s => rfl
  rw [Py.bind_ok (h4 _), Py.bind_ok (C91_testing _ _), hprint]
  have hdo : (settingsArgs ⟨pr, .none, .none, .none, .none, .none, .none, .none, .none, .none, .none, some t⟩).doPrint = p := hpr
  have ht : testArgs ⟨pr, .none, .none, .none, .none, .none, .none, .none, .none, .none, .none, some t⟩ = t := rfl
  rw [hdo, ht]
  have hb : (argc == 2 && !t) = decide (argc = 2 ∧ t = false) := by
    by_cases h : argc = 2 <;> cases t <;> simp [h]
  rw [hb]
  by_cases h1 : argc < 2 <;> by_cases h2 : argc = 2 ∧ t = false <;> simp [h1, h2, hint, subHint]

/-- **C122.** `pyzeal` without a subcommand: prints the hint exactly if there are no words at all; `-t` runs the tests;
nothing else happens. -/
theorem C122_bare (E : CliEnv) {R : Reader} (hR : DigitsOk R) {argv : List PyStr} {es : List Effect} (h : Line R argv none es)
    (st : CState) (hst : ∀ k, Valid k (st.sett.svc k)) :
    (argv = [] → Prints (mainPyZEAL E R argv) st [hint] false) ∧ (argv ≠ [] → Prints (mainPyZEAL E R argv) st [] true) := by
  have heff : ∀ e ∈ es, e = .test := by cases h with | bare h => exact test_only h
  obtain ⟨p, t, h1, -, h3⟩ := flags_meaning (.inl rfl) (fun e he => .inl (heff e he))
  have hne : argv = [] ↔ es = [] := by
    cases h with
    | bare h =>
      cases h with
      | nil => simp
      | cons hw hs => cases hw <;> simp
  rw [C118_understood E hR h, h1]
  have := flags_main E (argv.length + 1) false t none rfl st hst
  rw [if_pos rfl]
  constructor
  · intro ha
    have ht : t = false := by
      cases t with
      | false => rfl
      | true => have := h3.1 rfl; rw [hne.1 ha] at this; cases this
    rw [ha, ht] at this
    rw [ha, ht]
    exact this
  · intro ha
    have ht : t = true := by
      rcases es with _ | ⟨e, es⟩
      · exact absurd (hne.2 rfl) ha
      · exact h3.2 (by rw [heff e (by simp)]; simp)
    rw [ht] at this ⊢
    have hlen : ¬ argv.length + 1 < 2 := by
      rcases argv with _ | ⟨a, l⟩
      · exact absurd rfl ha
      · simp
    rw [if_neg hlen, if_neg (by decide), if_neg (by simp)] at this
    exact this

/-- **C122.** `pyzeal … view …`: prints the settings in force exactly if `-p` is given, the hint exactly if `view` is the
only word; the tests are run exactly if asked for; nothing is changed. -/
theorem C122_view (E : CliEnv) {R : Reader} (hR : DigitsOk R) {argv : List PyStr} {es : List Effect}
    (h : Line R argv (some "view") es) (st : CState) (hst : ∀ k, Valid k (st.sett.svc k)) :
    ∃ p t : Bool, (p = true ↔ .print ∈ es) ∧ (t = true ↔ .test ∈ es) ∧
      Prints (mainPyZEAL E R argv) st
        ((if p then [viewText st.sett.svc] else []) ++ (if argv.length = 1 then [subHint] else [])) t := by
  have heff : ∀ e ∈ es, e = .test ∨ e = .print := by
    rcases line_effects h with ⟨h1, -⟩ | ⟨-, h1⟩ | ⟨h1, -⟩ | ⟨h1, -⟩
    · cases h1
    · exact h1
    · exact absurd h1 (ne_some (by decide))
    · exact absurd h1 (ne_some (by decide))
  obtain ⟨p, t, h1, h2, h3⟩ := flags_meaning (.inr rfl) (fun e he => (heff e he).imp id (fun h => ⟨rfl, h⟩))
  refine ⟨p, t, h2, h3, ?_⟩
  rw [C118_understood E hR h, h1, if_neg nofun]
  have := flags_main E (argv.length + 1) p t (some p) rfl st hst
  have hlen : argv.length ≠ 0 ∧ (argv.length = 1 → t = false) := by
    generalize hsub : some "view" = sub at h
    cases h with
    | view hw hv =>
      refine ⟨by simp, ?_⟩
      intro hl
      cases t with
      | false => rfl
      | true =>
        exfalso
        have ht := h3.1 rfl
        cases hw with
        | nil =>
          rcases List.mem_append.1 ht with ht | ht
          · cases ht
          · exact absurd (view_only hv _ ht) nofun
        | cons hw hs => cases hw <;> simp at hl
    | bare => cases hsub
    | change => exact absurd hsub (ne_some (by decide))
    | plugin => exact absurd hsub (ne_some (by decide))
  rw [if_neg (by omega), List.nil_append] at this
  have hc : (argv.length + 1 = 2 ∧ t = false) ↔ argv.length = 1 := ⟨fun h => by omega, fun h => ⟨by omega, hlen.2 h⟩⟩
  rw [if_congr hc rfl rfl] at this
  exact this

example : Line exReader (cmd ["-tt", "view", "--pr"]) (some "view") [.test, .test, .print] :=
  .view (ws := cmd ["-tt"]) (.cons (TestItem.short 1) .nil) (.cons (ViewItem.long _ (abbrev_of (by decide))) .nil)

end PyZeal.Props
