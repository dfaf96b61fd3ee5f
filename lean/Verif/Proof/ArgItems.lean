import Verif.Proof.ArgStep

/-!
# The items of the command line
-/

set_option linter.unusedSectionVars false

namespace PyZeal.Args
open Spec

/-! ## Effects on the namespace -/

/-- what an effect does to the namespace of the parser -/
def effD : Effect → Dict PyStr Value → Dict PyStr Value
  | .test, d => d.set "test".toList (.bool true)
  | .print, d => d.set "print".toList (.bool true)
  | .setting .container w, d => d.set "container".toList (.str w.toList)
  | .setting .algorithm w, d => d.set "algorithm".toList (.str w.toList)
  | .setting .estimator w, d => d.set "estimator".toList (.str w.toList)
  | .setting .level w, d => d.set "log_level".toList (.str w.toList)
  | .setting .verbose w, d => d.set "verbose".toList (.str w.toList)
  | .setting .precision _, d => d
  | .precision m n, d => d.set "precision".toList (.ints [m, n])
  | .list, d => d.set "list".toList (.bool true)
  | .modules, d => d.set "modules".toList (.bool true)
  | .install p, d => d.set "install".toList (.str p)
  | .uninstall p, d => d.set "uninstall".toList (.str p)

/-- one effect after the other -/
def applyD (es : List Effect) (d : Dict PyStr Value) : Dict PyStr Value := es.foldl (fun d e => effD e d) d

theorem applyD_append (es fs : List Effect) (d : Dict PyStr Value) : applyD (es ++ fs) d = applyD fs (applyD es d) :=
  List.foldl_append

theorem set_other {d : Dict PyStr Value} {k : PyStr} {v : Value} {j : PyStr} (h : k ≠ j) : (d.set k v).get? j = d.get? j := by
  rw [Dict.get?_set, if_neg h]

theorem set_same {d : Dict PyStr Value} {k : PyStr} {v : Value} : (d.set k v).get? k = some v := by
  rw [Dict.get?_set, if_pos rfl]

theorem namespaceOf_effD (e : Effect) (d : Dict PyStr Value) : namespaceOf (effD e d) = e.apply (namespaceOf d) := by
  cases e with
  | setting k w =>
    cases k <;>
    · simp only [effD, Effect.apply, namespaceOf]
      try
        rw [set_same]
        repeat rw [set_other (by decide)]
        simp only [Option.map_some, asStr, String.ofList_toList]
  | test | print | precision m n | list | modules | install p | uninstall p =>
    all_goals
      simp only [effD, Effect.apply, namespaceOf]
      rw [set_same]
      repeat rw [set_other (by decide)]
      rfl

theorem namespaceOf_applyD (es : List Effect) (d : Dict PyStr Value) :
    namespaceOf (applyD es d) = es.foldl Effect.apply (namespaceOf d) := by
  induction es generalizing d with
  | nil => rfl
  | cons e es ih =>
    show namespaceOf (applyD es (effD e d)) = es.foldl Effect.apply (e.apply (namespaceOf d))
    rw [ih, namespaceOf_effD]

/-! ## Arguments of options -/

/-- strings marked as arguments -/
abbrev marked (args : List PyStr) : List (PyStr × Mark) := args.map (fun x => (x, Mark.arg))

theorem isArg_eq {m : Mark} (h : m.isArg = true) : m = .arg := by
  cases m with
  | arg => rfl
  | dashes => cases h
  | opt o => cases h

theorem takeArgs_ok {n : Nat} {ts : List (PyStr × Mark)} {args : List PyStr} (h : takeArgs n ts = .ok args) :
    args.length = n ∧ ∃ ts', ts = marked args ++ ts' := by
  unfold takeArgs at h
  split at h
  · rename_i hc
    cases h
    refine ⟨by rw [List.length_map]; exact hc.1, ts.drop n, ?_⟩
    have : marked ((ts.take n).map Prod.fst) = ts.take n := by
      have hall := hc.2
      generalize ts.take n = l at hall
      induction l with
      | nil => rfl
      | cons a l ih =>
        rw [List.all_cons, Bool.and_eq_true] at hall
        show (a.1, Mark.arg) :: marked (l.map Prod.fst) = a :: l
        rw [ih hall.2, ← isArg_eq hall.1]
    rw [this, List.take_append_drop]
  · cases h

theorem takeArgs_marked (args : List PyStr) (ts : List (PyStr × Mark)) : takeArgs args.length (marked args ++ ts) = .ok args := by
  have hlen : (marked args).length = args.length := List.length_map _
  have htake : (marked args ++ ts).take args.length = marked args := by
    rw [← hlen]; exact List.take_left
  unfold takeArgs
  have hall : (marked args).all (fun t => t.2.isArg) = true := by
    rw [List.all_eq_true]
    intro t ht
    obtain ⟨x, -, rfl⟩ := List.mem_map.1 ht
    rfl
  rw [htake, if_pos ⟨hlen, hall⟩, List.map_map]
  exact congrArg _ (List.map_id args)

/-- the strings count as arguments for a parser -/
def Args (R : Reader) (acts : List Act) (args : List PyStr) : Prop :=
  ∀ x ∈ args, x ≠ ['-', '-'] ∧ parseOptional R acts x = .ok .arg

/-- The items of a parser are those of a specification. -/
structure Faithful (R : Reader) (acts : List Act) (I : List PyStr → List Effect → Prop) : Prop where
  fwd : ∀ {s ts f ns ns'}, Reads acts s ts f → takeActions R f.actions ns = .ok ns' →
    ∃ args es ts', ts = marked args ++ ts' ∧ f.used = args.length ∧ (Args R acts args → I (s :: args) es) ∧ ns' = applyD es ns
  bwd : ∀ {w es}, I w es → ∃ s args, w = s :: args ∧ Args R acts args ∧
    ∀ ts, ∃ f, Reads acts s (marked args ++ ts) f ∧ f.used = args.length ∧
      ∀ ns, takeActions R f.actions ns = .ok (applyD es ns)

/-! ## Short options -/

theorem shorts_fwd {R : Reader} {acts : List Act} {P : Char → Prop} {eff : Char → Effect}
    (hP : ∀ c a ns ns', findOption acts ['-', c] = some a → takeAction R a [] ns = .ok ns' → P c ∧ ns' = effD (eff c) ns)
    {t : PyStr} {bs : List Act} (h : Shorts acts t bs) : ∀ {ns ns'},
      takeActions R (bs.map (fun b => (b, []))) ns = .ok ns' → (∀ c ∈ t, P c) ∧ ns' = applyD (t.map eff) ns := by
  induction h with
  | nil => intro ns ns' h; cases h; exact ⟨fun c h => (nomatch h), rfl⟩
  | @cons c t a bs hf hs ih =>
    intro ns ns' h
    have h' : (match takeAction R a [] ns with
      | .error e => Except.error e
      | .ok ns' => takeActions R (bs.map (fun b => (b, []))) ns') = .ok ns' := h
    rcases hta : takeAction R a [] ns with e | ns1
    · rw [hta] at h'; cases h'
    · rw [hta] at h'
      obtain ⟨h1, h2⟩ := hP c a ns ns1 hf hta
      obtain ⟨h3, h4⟩ := ih h'
      refine ⟨?_, ?_⟩
      · intro d hd
        rcases List.mem_cons.1 hd with rfl | hd
        · exact h1
        · exact h3 d hd
      · rw [h4, h2]; rfl

theorem shorts_bwd {R : Reader} {acts : List Act} {P : Char → Prop} {eff : Char → Effect}
    (hP : ∀ c, P c → ∃ a, findOption acts ['-', c] = some a ∧ ∀ ns, takeAction R a [] ns = .ok (effD (eff c) ns))
    (t : PyStr) (h : ∀ c ∈ t, P c) : ∃ bs, Shorts acts t bs ∧
      ∀ ns, takeActions R (bs.map (fun b => (b, []))) ns = .ok (applyD (t.map eff) ns) := by
  induction t with
  | nil => exact ⟨[], .nil, fun ns => rfl⟩
  | cons c t ih =>
    obtain ⟨a, h1, h2⟩ := hP c (h c (by simp))
    obtain ⟨bs, h3, h4⟩ := ih (fun d hd => h d (List.mem_cons_of_mem _ hd))
    refine ⟨a :: bs, .cons h1 h3, ?_⟩
    intro ns
    show (match takeAction R a [] ns with
      | .error e => Except.error e
      | .ok ns' => takeActions R (bs.map (fun b => (b, []))) ns') = _
    rw [h2]
    exact h4 _

theorem takeActions_one {R : Reader} {a : Act} {args : List PyStr} {ns : Dict PyStr Value} :
    takeActions R [(a, args)] ns = takeAction R a args ns := by
  show (match takeAction R a args ns with
      | .error e => Except.error e
      | .ok ns' => Except.ok ns') = _
  rcases takeAction R a args ns <;> rfl

/-! ## The tables of options -/

theorem mainOptions : optionMap mainActs =
    [("-h".toList, helpAct "pyzeal"), ("--help".toList, helpAct "pyzeal"), ("--version".toList, addArgument ["--version"] .version),
      ("-t".toList, addArgument ["-t", "--test"] .flag), ("--test".toList, addArgument ["-t", "--test"] .flag)] := rfl

theorem viewOptions : optionMap viewActs =
    [("-h".toList, helpAct "pyzeal view"), ("--help".toList, helpAct "pyzeal view"),
      ("-p".toList, addArgument ["-p", "--print"] .flag), ("--print".toList, addArgument ["-p", "--print"] .flag)] := rfl

/-- the choices for a setting -/
def choiceList : Setting → List String
  | .container => ["rounding"]
  | .algorithm => ["newton_grid", "simple_argument", "simple_argument_newton", "associated_polynomial"]
  | .estimator => ["summation", "quadrature"]
  | .level => ["debug", "info", "warning", "error", "critical"]
  | .verbose => ["true", "True", "false", "False"]
  | .precision => []

/-- the option for a setting -/
def settingAct (k : Setting) : Act := addArgument [optionName k] (choices (choiceList k))

theorem changeOptions : optionMap changeActs =
    [("-h".toList, helpAct "pyzeal change"), ("--help".toList, helpAct "pyzeal change"),
      ((optionName .container).toList, settingAct .container), ((optionName .algorithm).toList, settingAct .algorithm),
      ((optionName .estimator).toList, settingAct .estimator), ((optionName .level).toList, settingAct .level),
      ((optionName .verbose).toList, settingAct .verbose),
      ((optionName .precision).toList, addArgument ["--precision"] (.ints 2))] := rfl

theorem pluginOptions : optionMap pluginActs =
    [("-h".toList, helpAct "pyzeal plugin"), ("--help".toList, helpAct "pyzeal plugin"),
      ("-l".toList, addArgument ["-l", "--list"] .flag), ("--list".toList, addArgument ["-l", "--list"] .flag),
      ("-m".toList, addArgument ["-m", "--modules"] .flag), ("--modules".toList, addArgument ["-m", "--modules"] .flag),
      ("--install".toList, addArgument ["--install"] (.one none)),
      ("--uninstall".toList, addArgument ["--uninstall"] (.one none))] := rfl

theorem mainShort : ShortFlags mainActs := by
  intro e he _
  rw [mainOptions] at he
  simp only [List.mem_cons, List.not_mem_nil, or_false] at he
  rcases he with rfl | rfl | rfl | rfl | rfl <;> rfl

theorem viewShort : ShortFlags viewActs := by
  intro e he _
  rw [viewOptions] at he
  simp only [List.mem_cons, List.not_mem_nil, or_false] at he
  rcases he with rfl | rfl | rfl | rfl <;> rfl

theorem changeShort : ShortFlags changeActs := by
  intro e he hl
  rw [changeOptions] at he
  simp only [List.mem_cons, List.not_mem_nil, or_false] at he
  rcases he with rfl | rfl | rfl | rfl | rfl | rfl | rfl | rfl <;> first | rfl | exact absurd hl (by decide)

theorem pluginShort : ShortFlags pluginActs := by
  intro e he hl
  rw [pluginOptions] at he
  simp only [List.mem_cons, List.not_mem_nil, or_false] at he
  rcases he with rfl | rfl | rfl | rfl | rfl | rfl | rfl | rfl <;> first | rfl | exact absurd hl (by decide)

theorem abbrev_iff {full : String} {s : PyStr} : Abbrev full s ↔ s <+: full.toList ∧ 3 ≤ s.length := Iff.rfl

theorem args_nil (R : Reader) (acts : List Act) : Args R acts [] := fun x h => (nomatch h)

/-- the conclusion of `Faithful.fwd` for an option without arguments -/
theorem fwd_flag {R : Reader} {acts : List Act} {I : List PyStr → List Effect → Prop} {s : PyStr} {ts : List (PyStr × Mark)}
    {ns : Dict PyStr Value} {es : List Effect} (h : I [s] es) :
    ∃ args es' ts', ts = marked args ++ ts' ∧ 0 = args.length ∧ (Args R acts args → I (s :: args) es') ∧
      applyD es ns = applyD es' ns := ⟨[], es, ts, rfl, rfl, fun _ => h, rfl⟩

theorem length_zero {ts : List (PyStr × Mark)} {args : List PyStr} (h : takeArgs 0 ts = .ok args) : args = [] :=
  List.length_eq_zero_iff.1 (takeArgs_ok h).1

/-! ## The main parser -/

theorem mainFaithful (R : Reader) : Faithful R mainActs TestItem where
  fwd := by
    intro s ts f ns ns' hr ht
    cases hr with
    | apart e args he hl hs h3 ha =>
      rw [mainOptions] at he
      simp only [List.mem_cons, List.not_mem_nil, or_false] at he
      rw [takeActions_one] at ht
      rcases he with rfl | rfl | rfl | rfl | rfl
      · exact absurd hl (by decide)
      · cases ht
      · cases ht
      · exact absurd hl (by decide)
      · have hns : ns' = applyD [.test] ns := by cases ht; rfl
        rw [hns]
        exact fwd_flag (.long s ⟨hs, h3⟩)
    | joined e p x he hl hp h3 hs h1 =>
      rw [mainOptions] at he
      simp only [List.mem_cons, List.not_mem_nil, or_false] at he
      rcases he with rfl | rfl | rfl | rfl | rfl <;> cases h1
    | short t bs hs hne h =>
      obtain ⟨h1, h2⟩ := shorts_fwd (P := fun c => c = 't') (eff := fun _ => .test) (by
        intro c a ns ns' hf hta
        have hm := findOption_some hf
        rw [mainOptions] at hm
        simp only [List.mem_cons, List.not_mem_nil, or_false, Prod.mk.injEq] at hm
        rcases hm with ⟨e, rfl⟩ | ⟨e, -⟩ | ⟨e, -⟩ | ⟨e, rfl⟩ | ⟨e, -⟩
        · cases hta
        · cases e
        · cases e
        · cases hta; cases e; exact ⟨rfl, rfl⟩
        · cases e) h ht
      have ht' : t = List.replicate t.length 't' := List.eq_replicate_of_mem h1
      have he : t.map (fun _ => Effect.test) = List.replicate t.length .test := List.map_const' ..
      rcases hlen : t.length with _ | n
      · exact absurd (List.length_eq_zero_iff.1 hlen) hne
      · rw [hlen] at ht' he
        rw [h2, he]
        refine fwd_flag ?_
        rw [hs, ht']
        exact .short n
  bwd := by
    intro w es h
    cases h with
    | short n =>
      refine ⟨_, [], rfl, args_nil R _, ?_⟩
      intro ts
      obtain ⟨bs, h1, h2⟩ := shorts_bwd (R := R) (acts := mainActs) (P := fun c => c = 't') (eff := fun _ => .test) (by
        intro c hc
        subst hc
        exact ⟨_, rfl, fun ns => rfl⟩) (List.replicate (n + 1) 't') (fun c hc => List.eq_of_mem_replicate hc)
      refine ⟨_, .short _ bs rfl (by simp) h1, rfl, ?_⟩
      intro ns
      rw [h2, List.map_replicate]
    | long s hs =>
      refine ⟨s, [], rfl, args_nil R _, ?_⟩
      intro ts
      refine ⟨_, .apart ("--test".toList, addArgument ["-t", "--test"] .flag) [] (by rw [mainOptions]; simp) rfl hs.1 hs.2
        (takeArgs_zero _), rfl, ?_⟩
      intro ns
      rfl

/-! ## `view` -/

theorem viewFaithful (R : Reader) : Faithful R viewActs ViewItem where
  fwd := by
    intro s ts f ns ns' hr ht
    cases hr with
    | apart e args he hl hs h3 ha =>
      rw [viewOptions] at he
      simp only [List.mem_cons, List.not_mem_nil, or_false] at he
      rw [takeActions_one] at ht
      rcases he with rfl | rfl | rfl | rfl
      · exact absurd hl (by decide)
      · cases ht
      · exact absurd hl (by decide)
      · have hns : ns' = applyD [.print] ns := by cases ht; rfl
        rw [hns]
        exact fwd_flag (.long s ⟨hs, h3⟩)
    | joined e p x he hl hp h3 hs h1 =>
      rw [viewOptions] at he
      simp only [List.mem_cons, List.not_mem_nil, or_false] at he
      rcases he with rfl | rfl | rfl | rfl <;> cases h1
    | short t bs hs hne h =>
      obtain ⟨h1, h2⟩ := shorts_fwd (P := fun c => c = 'p') (eff := fun _ => .print) (by
        intro c a ns ns' hf hta
        have hm := findOption_some hf
        rw [viewOptions] at hm
        simp only [List.mem_cons, List.not_mem_nil, or_false, Prod.mk.injEq] at hm
        rcases hm with ⟨e, rfl⟩ | ⟨e, -⟩ | ⟨e, rfl⟩ | ⟨e, -⟩
        · cases hta
        · cases e
        · cases hta; cases e; exact ⟨rfl, rfl⟩
        · cases e) h ht
      have ht' : t = List.replicate t.length 'p' := List.eq_replicate_of_mem h1
      have he : t.map (fun _ => Effect.print) = List.replicate t.length .print := List.map_const' ..
      rcases hlen : t.length with _ | n
      · exact absurd (List.length_eq_zero_iff.1 hlen) hne
      · rw [hlen] at ht' he
        rw [h2, he]
        refine fwd_flag ?_
        rw [hs, ht']
        exact .short n
  bwd := by
    intro w es h
    cases h with
    | short n =>
      refine ⟨_, [], rfl, args_nil R _, ?_⟩
      intro ts
      obtain ⟨bs, h1, h2⟩ := shorts_bwd (R := R) (acts := viewActs) (P := fun c => c = 'p') (eff := fun _ => .print) (by
        intro c hc
        subst hc
        exact ⟨_, rfl, fun ns => rfl⟩) (List.replicate (n + 1) 'p') (fun c hc => List.eq_of_mem_replicate hc)
      refine ⟨_, .short _ bs rfl (by simp) h1, rfl, ?_⟩
      intro ns
      rw [h2, List.map_replicate]
    | long s hs =>
      refine ⟨s, [], rfl, args_nil R _, ?_⟩
      intro ts
      refine ⟨_, .apart ("--print".toList, addArgument ["-p", "--print"] .flag) [] (by rw [viewOptions]; simp) rfl hs.1 hs.2
        (takeArgs_zero _), rfl, ?_⟩
      intro ns
      rfl

/-! ## `plugin` -/

theorem pluginNames_eq : pluginNames.map String.toList = names pluginActs := rfl
theorem changeNames_eq : changeNames.map String.toList = names changeActs := rfl

theorem length_one {ts : List (PyStr × Mark)} {args : List PyStr} (h : takeArgs 1 ts = .ok args) :
    ∃ x ts', args = [x] ∧ ts = marked [x] ++ ts' := by
  obtain ⟨h1, ts', h2⟩ := takeArgs_ok h
  rcases args with _ | ⟨x, _ | ⟨y, args⟩⟩
  · cases h1
  · exact ⟨x, ts', rfl, h2⟩
  · cases h1

theorem length_two {ts : List (PyStr × Mark)} {args : List PyStr} (h : takeArgs 2 ts = .ok args) :
    ∃ x y ts', args = [x, y] ∧ ts = marked [x, y] ++ ts' := by
  obtain ⟨h1, ts', h2⟩ := takeArgs_ok h
  rcases args with _ | ⟨x, _ | ⟨y, _ | ⟨z, args⟩⟩⟩
  · cases h1
  · cases h1
  · exact ⟨x, y, ts', rfl, h2⟩
  · cases h1

theorem args_one {R : Reader} {acts : List Act} {x : PyStr} (h : Args R acts [x]) :
    x ≠ ['-', '-'] ∧ parseOptional R acts x = .ok .arg := h x (by simp)

theorem one_args {R : Reader} {acts : List Act} {x : PyStr} (h : x ≠ ['-', '-'] ∧ parseOptional R acts x = .ok .arg) :
    Args R acts [x] := by
  intro y hy
  rw [List.mem_singleton.1 hy]; exact h

theorem pluginFaithful {R : Reader} (hR : DigitsOk R) : Faithful R pluginActs (PluginItem R) where
  fwd := by
    intro s ts f ns ns' hr ht
    cases hr with
    | apart e args he hl hs h3 ha =>
      rw [pluginOptions] at he
      simp only [List.mem_cons, List.not_mem_nil, or_false] at he
      rw [takeActions_one] at ht
      rcases he with rfl | rfl | rfl | rfl | rfl | rfl | rfl | rfl
      · exact absurd hl (by decide)
      · cases ht
      · exact absurd hl (by decide)
      · have hns : ns' = applyD [.list] ns := by cases ht; rfl
        rw [hns]
        exact fwd_flag (.list s ⟨hs, h3⟩)
      · exact absurd hl (by decide)
      · have hns : ns' = applyD [.modules] ns := by cases ht; rfl
        rw [hns]
        exact fwd_flag (.modules s ⟨hs, h3⟩)
      · obtain ⟨x, ts', rfl, rfl⟩ := length_one ha
        have hns : ns' = applyD [.install x] ns := by cases ht; rfl
        exact ⟨[x], _, ts', rfl, rfl, fun h => .install s x ⟨hs, h3⟩
          ((operand_iff hR pluginNeat pluginNames_eq x).1 (args_one h)), hns⟩
      · obtain ⟨x, ts', rfl, rfl⟩ := length_one ha
        have hns : ns' = applyD [.uninstall x] ns := by cases ht; rfl
        exact ⟨[x], _, ts', rfl, rfl, fun h => .uninstall s x ⟨hs, h3⟩
          ((operand_iff hR pluginNeat pluginNames_eq x).1 (args_one h)), hns⟩
    | joined e p x he hl hp h3 hs h1 =>
      rw [pluginOptions] at he
      simp only [List.mem_cons, List.not_mem_nil, or_false] at he
      rw [takeActions_one] at ht
      rcases he with rfl | rfl | rfl | rfl | rfl | rfl | rfl | rfl
      · cases h1
      · cases h1
      · cases h1
      · cases h1
      · cases h1
      · cases h1
      · have hns : ns' = applyD [.install x] ns := by cases ht; rfl
        rw [hns, hs]
        exact fwd_flag (.installJoined p x ⟨hp, h3⟩)
      · have hns : ns' = applyD [.uninstall x] ns := by cases ht; rfl
        rw [hns, hs]
        exact fwd_flag (.uninstallJoined p x ⟨hp, h3⟩)
    | short t bs hs hne h =>
      obtain ⟨h1, h2⟩ := shorts_fwd (P := fun c => c = 'l' ∨ c = 'm') (eff := pluginFlag) (by
        intro c a ns ns' hf hta
        have hm := findOption_some hf
        rw [pluginOptions] at hm
        simp only [List.mem_cons, List.not_mem_nil, or_false, Prod.mk.injEq] at hm
        rcases hm with ⟨e, rfl⟩ | ⟨e, -⟩ | ⟨e, rfl⟩ | ⟨e, -⟩ | ⟨e, rfl⟩ | ⟨e, -⟩ | ⟨e, -⟩ | ⟨e, -⟩
        · cases hta
        · cases e
        · cases hta; cases e; exact ⟨.inl rfl, rfl⟩
        · cases e
        · cases hta; cases e; exact ⟨.inr rfl, rfl⟩
        · cases e
        · cases e
        · cases e) h ht
      rw [h2, hs]
      exact fwd_flag (.short t h1 hne)
  bwd := by
    intro w es h
    cases h with
    | short cs h hne =>
      refine ⟨_, [], rfl, args_nil R _, ?_⟩
      intro ts
      obtain ⟨bs, h1, h2⟩ := shorts_bwd (R := R) (acts := pluginActs) (P := fun c => c = 'l' ∨ c = 'm') (eff := pluginFlag) (by
        intro c hc
        rcases hc with rfl | rfl
        · exact ⟨_, rfl, fun ns => rfl⟩
        · exact ⟨_, rfl, fun ns => rfl⟩) cs h
      exact ⟨_, .short _ bs rfl hne h1, rfl, h2⟩
    | list s hs =>
      exact ⟨s, [], rfl, args_nil R _, fun ts => ⟨_, .apart ("--list".toList, addArgument ["-l", "--list"] .flag) []
        (by rw [pluginOptions]; simp) rfl hs.1 hs.2 (takeArgs_zero _), rfl, fun ns => rfl⟩⟩
    | modules s hs =>
      exact ⟨s, [], rfl, args_nil R _, fun ts => ⟨_, .apart ("--modules".toList, addArgument ["-m", "--modules"] .flag) []
        (by rw [pluginOptions]; simp) rfl hs.1 hs.2 (takeArgs_zero _), rfl, fun ns => rfl⟩⟩
    | install s p hs hp =>
      exact ⟨s, [p], rfl, one_args ((operand_iff hR pluginNeat pluginNames_eq p).2 hp),
        fun ts => ⟨_, .apart ("--install".toList, addArgument ["--install"] (.one none)) [p]
        (by rw [pluginOptions]; simp) rfl hs.1 hs.2 (takeArgs_marked [p] ts), rfl, fun ns => rfl⟩⟩
    | installJoined s p hs =>
      exact ⟨_, [], rfl, args_nil R _, fun ts => ⟨_, .joined ("--install".toList, addArgument ["--install"] (.one none)) s p
        (by rw [pluginOptions]; simp) rfl hs.1 hs.2 rfl rfl, rfl, fun ns => rfl⟩⟩
    | uninstall s p hs hp =>
      exact ⟨s, [p], rfl, one_args ((operand_iff hR pluginNeat pluginNames_eq p).2 hp),
        fun ts => ⟨_, .apart ("--uninstall".toList, addArgument ["--uninstall"] (.one none)) [p]
        (by rw [pluginOptions]; simp) rfl hs.1 hs.2 (takeArgs_marked [p] ts), rfl, fun ns => rfl⟩⟩
    | uninstallJoined s p hs =>
      exact ⟨_, [], rfl, args_nil R _, fun ts => ⟨_, .joined ("--uninstall".toList, addArgument ["--uninstall"] (.one none)) s p
        (by rw [pluginOptions]; simp) rfl hs.1 hs.2 rfl rfl, rfl, fun ns => rfl⟩⟩

/-! ## `change` -/

theorem choice_of {k : Setting} {w : String} (h : w ∈ choiceList k) : ∃ v, Choice k w v := by
  cases k with
  | container =>
    simp only [choiceList, List.mem_cons, List.not_mem_nil, or_false] at h
    subst h; exact ⟨_, .rounding⟩
  | algorithm =>
    simp only [choiceList, List.mem_cons, List.not_mem_nil, or_false] at h
    rcases h with rfl | rfl | rfl | rfl
    · exact ⟨_, .newton_grid⟩
    · exact ⟨_, .simple_argument⟩
    · exact ⟨_, .simple_argument_newton⟩
    · exact ⟨_, .associated_polynomial⟩
  | estimator =>
    simp only [choiceList, List.mem_cons, List.not_mem_nil, or_false] at h
    rcases h with rfl | rfl
    · exact ⟨_, .summation⟩
    · exact ⟨_, .quadrature⟩
  | level =>
    simp only [choiceList, List.mem_cons, List.not_mem_nil, or_false] at h
    rcases h with rfl | rfl | rfl | rfl | rfl
    · exact ⟨_, .debug⟩
    · exact ⟨_, .info⟩
    · exact ⟨_, .warning⟩
    · exact ⟨_, .error⟩
    · exact ⟨_, .critical⟩
  | verbose =>
    simp only [choiceList, List.mem_cons, List.not_mem_nil, or_false] at h
    rcases h with rfl | rfl | rfl | rfl
    · exact ⟨_, .true⟩
    · exact ⟨_, .True⟩
    · exact ⟨_, .false⟩
    · exact ⟨_, .False⟩
  | precision => cases h

theorem of_choice {k : Setting} {w : String} {v : PyVal} (h : Choice k w v) :
    w ∈ choiceList k ∧ k ≠ .precision ∧ w.toList.head? ≠ some '-' := by
  cases h <;> exact ⟨by decide, nofun, by decide⟩

theorem setting_action {R : Reader} {k : Setting} (hk : k ≠ .precision) {x : PyStr} {ns ns' : Dict PyStr Value}
    (h : takeAction R (settingAct k) [x] ns = .ok ns') :
    ∃ w v, x = w.toList ∧ Choice k w v ∧ ns' = applyD [.setting k w] ns := by
  have h' : (if x ∈ (choiceList k).map String.toList then
    .ok (ns.set (settingAct k).dest (.str x)) else .error .error) = (.ok ns' : Except Stop (Dict PyStr Value)) := h
  by_cases hx : x ∈ (choiceList k).map String.toList
  · rw [if_pos hx] at h'
    obtain ⟨w, hw, rfl⟩ := List.mem_map.1 hx
    obtain ⟨v, hv⟩ := choice_of hw
    refine ⟨w, v, rfl, hv, ?_⟩
    cases h'
    cases k with
    | precision => exact absurd rfl hk
    | _ => rfl
  · rw [if_neg hx] at h'; cases h'

theorem action_setting {R : Reader} {k : Setting} {w : String} {v : PyVal} (h : Choice k w v) (ns : Dict PyStr Value) :
    takeAction R (settingAct k) [w.toList] ns = .ok (applyD [.setting k w] ns) := by
  obtain ⟨h1, h2, -⟩ := of_choice h
  show (if w.toList ∈ (choiceList k).map String.toList then
    Except.ok (ns.set (settingAct k).dest (.str w.toList)) else Except.error Stop.error) = _
  rw [if_pos (List.mem_map.2 ⟨w, h1, rfl⟩)]
  cases k with
  | precision => exact absurd rfl h2
  | _ => rfl

theorem readInts_two {R : Reader} {x y : PyStr} {l : List Int} (h : readInts R [x, y] = .ok l) :
    ∃ m n, R.int x = some m ∧ R.int y = some n ∧ l = [m, n] := by
  unfold readInts at h
  rcases hx : R.int x with _ | m
  · rw [hx] at h; cases h
  · rw [hx] at h
    unfold readInts at h
    rcases hy : R.int y with _ | n
    · rw [hy] at h; cases h
    · rw [hy] at h; cases h
      exact ⟨m, n, rfl, rfl, rfl⟩

theorem two_readInts {R : Reader} {x y : PyStr} {m n : Int} (hx : R.int x = some m) (hy : R.int y = some n) :
    readInts R [x, y] = .ok [m, n] := by
  unfold readInts
  rw [hx]
  unfold readInts
  rw [hy]
  rfl

theorem setting_mem {k : Setting} (hk : k ≠ .precision) : ((optionName k).toList, settingAct k) ∈ optionMap changeActs := by
  rw [changeOptions]
  cases k with
  | precision => exact absurd rfl hk
  | _ => simp

theorem optionName_long (k : Setting) : isLong (optionName k).toList = true := by cases k <;> rfl

theorem changeFaithful {R : Reader} (hR : DigitsOk R) : Faithful R changeActs (ChangeItem R) where
  fwd := by
    intro s ts f ns ns' hr ht
    cases hr with
    | apart e args he hl hs h3 ha =>
      rw [changeOptions] at he
      simp only [List.mem_cons, List.not_mem_nil, or_false] at he
      rw [takeActions_one] at ht
      have hset : ∀ k : Setting, k ≠ .precision → e = ((optionName k).toList, settingAct k) →
          ∃ args' es ts', ts = marked args' ++ ts' ∧ e.2.kind.nargs = args'.length ∧
            (Args R changeActs args' → ChangeItem R (s :: args') es) ∧ ns' = applyD es ns := by
        intro k hk he
        subst he
        obtain ⟨x, ts', rfl, rfl⟩ := length_one ha
        obtain ⟨w, v, rfl, hv, hns⟩ := setting_action hk ht
        exact ⟨[w.toList], _, ts', rfl, rfl, fun _ => .apart k s w v ⟨hs, h3⟩ hv, hns⟩
      rcases he with rfl | rfl | h | h | h | h | h | rfl
      · exact absurd hl (by decide)
      · cases ht
      · exact hset .container nofun h
      · exact hset .algorithm nofun h
      · exact hset .estimator nofun h
      · exact hset .level nofun h
      · exact hset .verbose nofun h
      · obtain ⟨x, y, ts', rfl, rfl⟩ := length_two ha
        have ht' : (match readInts R [x, y] with
          | .error e => Except.error e
          | .ok l => Except.ok (ns.set "precision".toList (.ints l))) = (.ok ns' : Except Stop (Dict PyStr Value)) := ht
        rcases hri : readInts R [x, y] with _ | l
        · rw [hri] at ht'; cases ht'
        · rw [hri] at ht'
          obtain ⟨m, n, hx, hy, rfl⟩ := readInts_two hri
          refine ⟨[x, y], [.precision m n], ts', rfl, rfl, ?_, ?_⟩
          · intro h
            exact .precision s x y m n ⟨hs, h3⟩ hx ((operand_iff hR changeNeat changeNames_eq x).1 (h x (by simp))) hy
              ((operand_iff hR changeNeat changeNames_eq y).1 (h y (by simp)))
          · cases ht'; rfl
    | joined e p x he hl hp h3 hs h1 =>
      rw [changeOptions] at he
      simp only [List.mem_cons, List.not_mem_nil, or_false] at he
      rw [takeActions_one] at ht
      have hset : ∀ k : Setting, k ≠ .precision → e = ((optionName k).toList, settingAct k) →
          ∃ args' es ts', ts = marked args' ++ ts' ∧ 0 = args'.length ∧
            (Args R changeActs args' → ChangeItem R (s :: args') es) ∧ ns' = applyD es ns := by
        intro k hk he
        subst he
        obtain ⟨w, v, rfl, hv, hns⟩ := setting_action hk ht
        rw [hns, hs]
        exact fwd_flag (.joined k p w v ⟨hp, h3⟩ hv)
      rcases he with rfl | rfl | h | h | h | h | h | rfl
      · cases h1
      · cases h1
      · exact hset .container nofun h
      · exact hset .algorithm nofun h
      · exact hset .estimator nofun h
      · exact hset .level nofun h
      · exact hset .verbose nofun h
      · cases h1
    | short t bs hs hne h =>
      obtain ⟨h1, h2⟩ := shorts_fwd (P := fun _ => False) (eff := fun _ => .test) (by
        intro c a ns ns' hf hta
        have hm := findOption_some hf
        rw [changeOptions] at hm
        simp only [List.mem_cons, List.not_mem_nil, or_false, Prod.mk.injEq] at hm
        rcases hm with ⟨e, rfl⟩ | ⟨e, -⟩ | ⟨e, -⟩ | ⟨e, -⟩ | ⟨e, -⟩ | ⟨e, -⟩ | ⟨e, -⟩ | ⟨e, -⟩
        · cases hta
        all_goals cases e) h ht
      rcases t with _ | ⟨c, t⟩
      · exact absurd rfl hne
      · exact (h1 c (by simp)).elim
  bwd := by
    intro w es h
    cases h with
    | apart k s arg v hs hv =>
      obtain ⟨-, h2, h3⟩ := of_choice hv
      refine ⟨s, [arg.toList], rfl, one_args ⟨?_, parse_plain R _ h3⟩, ?_⟩
      · intro h; rw [h] at h3; exact h3 rfl
      · intro ts
        refine ⟨_, .apart _ [arg.toList] (setting_mem h2) (optionName_long k) hs.1 hs.2 (takeArgs_marked [arg.toList] ts), rfl, ?_⟩
        intro ns
        rw [takeActions_one]
        exact action_setting hv ns
    | joined k s arg v hs hv =>
      obtain ⟨-, h2, -⟩ := of_choice hv
      refine ⟨_, [], rfl, args_nil R _, ?_⟩
      intro ts
      refine ⟨_, .joined _ s arg.toList (setting_mem h2) (optionName_long k) hs.1 hs.2 rfl rfl, rfl, ?_⟩
      intro ns
      rw [takeActions_one]
      exact action_setting hv ns
    | precision s a b m n hs hm ha hn hb =>
      refine ⟨s, [a, b], rfl, ?_, ?_⟩
      · intro x hx
        rcases List.mem_cons.1 hx with rfl | hx
        · exact (operand_iff hR changeNeat changeNames_eq x).2 ha
        · rw [List.mem_singleton.1 hx]; exact (operand_iff hR changeNeat changeNames_eq b).2 hb
      · intro ts
        refine ⟨_, .apart ((optionName .precision).toList, addArgument ["--precision"] (.ints 2)) [a, b]
          (by rw [changeOptions]; simp) rfl hs.1 hs.2 (takeArgs_marked [a, b] ts), rfl, ?_⟩
        intro ns
        rw [takeActions_one]
        show (match readInts R [a, b] with
          | .error e => Except.error e
          | .ok l => Except.ok (ns.set "precision".toList (.ints l))) = _
        rw [two_readInts hm hn]
        rfl

end PyZeal.Args
