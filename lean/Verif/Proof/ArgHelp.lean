import Verif.Proof.ArgLine

/-!
# Help and version
-/

set_option linter.unusedSectionVars false

namespace PyZeal.Args
open Spec

/-- the options that print something and end the program -/
def isInfo : Act → Bool
  | ⟨_, _, .help _⟩ => true
  | ⟨_, _, .version⟩ => true
  | _ => false

/-- the strings of these options -/
def InfoNames (acts : List Act) : Prop :=
  ∀ e ∈ optionMap acts, isInfo e.2 = true → e.1 ∈ ["-h".toList, "--help".toList, "--version".toList]

theorem mainInfo : InfoNames mainActs := by unfold InfoNames; decide
theorem viewInfo : InfoNames viewActs := by unfold InfoNames; decide
theorem changeInfo : InfoNames changeActs := by unfold InfoNames; decide
theorem pluginInfo : InfoNames pluginActs := by unfold InfoNames; decide

theorem takeAction_stop {R : Reader} {a : Act} {args : List PyStr} {ns : Dict PyStr Value} {e : Stop}
    (h : takeAction R a args ns = .error e) (he : e ≠ .error) : isInfo a = true := by
  rcases a with ⟨n, d, k⟩
  unfold takeAction at h
  cases k with
  | flag => cases h
  | one cs =>
    rcases cs with _ | cs
    · cases h
    · dsimp only at h
      split at h
      · cases h
      · cases h; exact absurd rfl he
  | ints m =>
    exfalso
    dsimp only at h
    rcases hr : readInts R args with e' | l
    · rw [hr] at h
      cases h
      have : ∀ (l : List PyStr) (e : Stop), readInts R l = .error e → e = .error := by
        intro l
        induction l with
        | nil => intro e h; cases h
        | cons s l ih =>
          intro e h
          unfold readInts at h
          rcases hs : R.int s with _ | n
          · rw [hs] at h; cases h; rfl
          · rw [hs] at h
            dsimp only at h
            rcases hl : readInts R l with e' | l'
            · rw [hl] at h; cases h; exact ih _ hl
            · rw [hl] at h; cases h
      exact he (this _ _ hr)
    · rw [hr] at h; cases h
  | help p => rfl
  | version => rfl

theorem takeActions_stop {R : Reader} {l : List (Act × List PyStr)} {e : Stop} (he : e ≠ .error) : ∀ {ns : Dict PyStr Value},
    takeActions R l ns = .error e → ∃ p ∈ l, isInfo p.1 = true := by
  induction l with
  | nil => intro ns h; cases h
  | cons p l ih =>
    intro ns h
    rcases p with ⟨a, args⟩
    unfold takeActions at h
    rcases ht : takeAction R a args ns with e' | ns'
    · rw [ht] at h; cases h; exact ⟨(a, args), by simp, takeAction_stop ht he⟩
    · rw [ht] at h
      obtain ⟨p, hp, hi⟩ := ih h
      exact ⟨p, List.mem_cons_of_mem _ hp, hi⟩

theorem following_acts {a : Act} {rest : List (PyStr × Mark)} {f : Found} (h : following a rest = .ok f) :
    ∀ p ∈ f.actions, p.1 = a := by
  unfold following at h
  rcases ht : takeArgs a.kind.nargs rest with e | args
  · rw [ht] at h; cases h
  · rw [ht] at h; cases h
    intro p hp
    rw [List.mem_singleton.1 hp]

theorem following_err {a : Act} {rest : List (PyStr × Mark)} {e : Stop} (h : following a rest = .error e) : e = .error := by
  unfold following at h
  rcases ht : takeArgs a.kind.nargs rest with e' | args
  · rw [ht] at h; cases h
    unfold takeArgs at ht
    split at ht
    · cases ht
    · cases ht; rfl
  · rw [ht] at h; cases h

theorem map_push_ok {a : Act} {r : Except Stop Found} {f : Found} (h : r.map (Found.push a) = .ok f) :
    ∃ g, r = .ok g ∧ f.actions = (a, []) :: g.actions := by
  rcases r with e | g
  · cases h
  · cases h; exact ⟨g, rfl, rfl⟩

theorem map_push_err {a : Act} {r : Except Stop Found} {e : Stop} (h : r.map (Found.push a) = .error e) : r = .error e := by
  rcases r with e' | g
  · cases h; rfl
  · cases h

theorem explicit_err {acts : List Act} {rest : List (PyStr × Mark)} : ∀ (x : PyStr) {a : Act} {sh eq : Bool} {e : Stop},
    explicit acts rest a sh eq x = .error e → e = .error := by
  intro x
  generalize hn : x.length = n
  induction n using Nat.strongRecOn generalizing x with
  | _ n ih =>
    intro a sh eq e h
    rcases x with _ | ⟨c, s⟩
    · unfold explicit at h
      split at h <;> cases h
      rfl
    · rw [explicit.eq_def] at h
      dsimp only at h
      split at h
      · cases h
      · split at h
        · split at h
          · cases h; rfl
          · rcases hf : findOption acts ['-', c] with _ | b
            · rw [hf] at h; cases h
            · rw [hf] at h
              rcases s with _ | ⟨d, s⟩
              · exact following_err (map_push_err h)
              · dsimp only at h
                split at h
                · exact ih s.length (by rw [← hn]; simp; omega) s rfl (map_push_err h)
                · exact ih (d :: s).length (by rw [← hn]; simp) (d :: s) rfl (map_push_err h)
        · cases h; rfl

theorem explicit_acts {acts : List Act} {rest : List (PyStr × Mark)} : ∀ (x : PyStr) {a : Act} {eq : Bool} {f : Found},
    explicit acts rest a true eq x = .ok f → ∀ p ∈ f.actions, p.1 = a ∨ ∃ c ∈ x, findOption acts ['-', c] = some p.1 := by
  intro x
  generalize hn : x.length = n
  induction n using Nat.strongRecOn generalizing x with
  | _ n ih =>
    intro a eq f h p hp
    rcases x with _ | ⟨c, s⟩
    · unfold explicit at h
      split at h
      · cases h; rw [List.mem_singleton.1 hp]; exact .inl rfl
      · cases h
    · rw [explicit.eq_def] at h
      dsimp only at h
      split at h
      · cases h; rw [List.mem_singleton.1 hp]; exact .inl rfl
      · split at h
        · split at h
          · cases h
          · rcases hf : findOption acts ['-', c] with _ | b
            · rw [hf] at h; cases h; rw [List.mem_singleton.1 hp]; exact .inl rfl
            · rw [hf] at h
              rcases s with _ | ⟨d, s⟩
              · obtain ⟨g, h1, h2⟩ := map_push_ok h
                rw [h2] at hp
                rcases List.mem_cons.1 hp with rfl | hp
                · exact .inl rfl
                · exact .inr ⟨c, by simp, by rw [following_acts h1 p hp]; exact hf⟩
              · dsimp only at h
                split at h
                · obtain ⟨g, h1, h2⟩ := map_push_ok h
                  rw [h2] at hp
                  rcases List.mem_cons.1 hp with rfl | hp
                  · exact .inl rfl
                  · rcases ih s.length (by rw [← hn]; simp; omega) s rfl h1 p hp with h3 | ⟨c', h3, h4⟩
                    · exact .inr ⟨c, by simp, by rw [h3]; exact hf⟩
                    · exact .inr ⟨c', by simp [h3], h4⟩
                · obtain ⟨g, h1, h2⟩ := map_push_ok h
                  rw [h2] at hp
                  rcases List.mem_cons.1 hp with rfl | hp
                  · exact .inl rfl
                  · rcases ih (d :: s).length (by rw [← hn]; simp) (d :: s) rfl h1 p hp with h3 | ⟨c', h3, h4⟩
                    · exact .inr ⟨c, by simp, by rw [h3]; exact hf⟩
                    · exact .inr ⟨c', List.mem_cons_of_mem _ h3, h4⟩
        · cases h

theorem info_short {acts : List Act} (hi : InfoNames acts) {c : Char} {a : Act} (h : findOption acts ['-', c] = some a)
    (ha : isInfo a = true) : c = 'h' := by
  have := hi _ (findOption_some h) ha
  rcases List.mem_cons.1 this with e | e
  · injection e with _ e; injection e
  · rcases List.mem_cons.1 e with e | e
    · injection e with _ e; injection e with _ e; cases e
    · rcases List.mem_cons.1 e with e | e
      · injection e with _ e; injection e with _ e; cases e
      · cases e

theorem consume_info {R : Reader} {acts : List Act} (hn : Neat acts) (hz : ShortFlags acts) (hi : InfoNames acts) {s : PyStr}
    {o : Opt} (hs : s ≠ ['-', '-']) (ho : parseOptional R acts s = .ok (.opt o)) {ts : List (PyStr × Mark)} {f : Found}
    (h : consumeOptional acts s o ts = .ok f) {p : Act × List PyStr} (hp : p ∈ f.actions) (ha : isInfo p.1 = true) : AsksHelp s := by
  have hfall : fallback R s = .ok (.opt o) → False := by
    intro hf
    unfold fallback at hf
    split at hf
    · cases hf
    · split at hf
      · cases hf
      · cases hf
        cases h
        cases hp
  rcases string_cases s with h1 | rfl | rfl | ⟨x, rfl⟩ | ⟨c, t, hc, hs'⟩ | ⟨c, t, hc, rfl⟩
  · rw [parse_plain R acts h1] at ho; cases ho
  · rw [parse_dash R hn] at ho; cases ho
  · exact absurd rfl hs
  · rw [parse_dashes R hn (.inr ⟨x, rfl⟩)] at ho; cases ho
  · rw [parse_long R hn hs' hc] at ho
    unfold longMark at ho
    rcases hl : longOf acts (partition s).1 with _ | e
    · rw [hl] at ho; exact (hfall ho).elim
    · rw [hl] at ho
      cases ho
      obtain ⟨he, hpre⟩ := long_mem hl
      rcases partition_cases s with ⟨-, hq⟩ | ⟨q, x, -, -, hq⟩
      · rw [hq] at h hpre
        have hpa := following_acts (a := e.2) (rest := ts) h p hp
        rw [hpa] at ha
        have h3 : 3 ≤ s.length := by rw [hs']; simp
        have := hi e he ha
        rcases List.mem_cons.1 this with e1 | e1
        · exfalso
          have hle : s.length ≤ _ := hpre.length_le
          rw [e1] at hle
          have : "-h".toList.length = 2 := rfl
          omega
        · rcases List.mem_cons.1 e1 with e1 | e1
          · rw [e1] at hpre; exact .inl ⟨hpre, h3⟩
          · rw [List.mem_singleton.1 e1] at hpre; exact .inr (.inl ⟨hpre, h3⟩)
      · exfalso
        rw [hq] at h
        have hlong : isLong e.1 = true := by
          have hq' : ∃ q', (partition s).1 = '-' :: '-' :: q' := by
            rw [hs']
            unfold partition
            rw [if_neg (by decide)]
            unfold partition
            rw [if_neg (by decide)]
            exact ⟨_, rfl⟩
          obtain ⟨q', hq'⟩ := hq'
          rw [hq'] at hpre
          obtain ⟨u, hu⟩ := hpre
          rw [← hu]; rfl
        have h' : explicit acts ts e.2 (!isLong e.1) true x = .ok f := h
        rw [hlong] at h'
        rw [Bool.not_true, explicit_long] at h'
        split at h'
        · rename_i h1
          cases h'
          rw [List.mem_singleton.1 hp] at ha
          rcases he2 : e.2 with ⟨n, d, k⟩
          rw [he2] at ha h1
          cases k with
          | help _ => exact Nat.zero_ne_one h1
          | version => exact Nat.zero_ne_one h1
          | _ => exact Bool.false_ne_true ha
        · cases h'
  · rw [parse_short R hn t hc] at ho
    unfold shortMark at ho
    rcases hf : findOption acts ['-', c] with _ | a
    · rw [hf] at ho; exact (hfall ho).elim
    · rw [hf] at ho
      cases ho
      have hz0 := short_nargs hn hz hf
      refine .inr (.inr ⟨c :: t, rfl, fun e => hc (by injection e), ?_⟩)
      rcases t with _ | ⟨d, x⟩
      · rw [following_acts (a := a) (rest := ts) h p hp] at ha
        rw [info_short hi hf ha]; simp
      · unfold shortOpt at h
        dsimp only at h
        by_cases hd : d = '='
        · exfalso
          rw [if_pos hd] at h
          have h' : explicit acts ts a (!isLong ['-', c]) true x = .ok f := h
          rw [explicit_eq hz0] at h'; cases h'
        · rw [if_neg hd] at h
          have h' : explicit acts ts a (!isLong ['-', c]) false (d :: x) = .ok f := h
          rw [short_isLong hc, Bool.not_false] at h'
          rcases explicit_acts (d :: x) h' p hp with h1 | ⟨c', h1, h2⟩
          · rw [h1] at ha
            rw [info_short hi hf ha]; simp
          · rw [info_short hi h2 ha] at h1
            exact List.mem_cons_of_mem _ h1

/-- strings as they are classified -/
def Classified (R : Reader) (acts : List Act) (t : PyStr × Mark) : Prop :=
  ∀ o, t.2 = .opt o → t.1 ≠ ['-', '-'] ∧ parseOptional R acts t.1 = .ok (.opt o)

theorem classify_each {R : Reader} {acts : List Act} : ∀ {argv : List PyStr} {ts : List (PyStr × Mark)},
    classify R acts argv = .ok ts → ∀ t ∈ ts, Classified R acts t := by
  intro argv
  induction argv with
  | nil => intro ts h; cases h; intro t ht; cases ht
  | cons s ss ih =>
    intro ts h t ht o ho
    rcases classify_cons h with ⟨-, rfl⟩ | ⟨hs, m, l, hm, hl, rfl⟩
    · rcases List.mem_cons.1 ht with rfl | ht
      · cases ho
      · obtain ⟨x, -, rfl⟩ := List.mem_map.1 ht
        cases ho
    · rcases List.mem_cons.1 ht with rfl | ht
      · dsimp only at ho
        subst ho
        exact ⟨hs, hm⟩
      · exact ih hl t ht o ho

/-- a subcommand ends the program with a text only if asked to -/
def AsksFirst (pos : Positional) : Prop :=
  ∀ g, pos = some g → ∀ args st e, g args st = .error e → e ≠ .error → ∃ s ∈ args, AsksHelp s

theorem loop_stop {R : Reader} {acts : List Act} (hn : Neat acts) (hz : ShortFlags acts) (hi : InfoNames acts) {pos : Positional}
    (hpos : AsksFirst pos) {e : Stop} (he : e ≠ .error) : ∀ {fuel ts st}, (∀ t ∈ ts, Classified R acts t) →
      loop R acts pos fuel ts st = .error e → ∃ t ∈ ts, AsksHelp t.1 := by
  intro fuel
  induction fuel with
  | zero => intro ts st _ h; cases h
  | succ fuel ih =>
    intro ts st hts h
    rcases ts with _ | ⟨⟨s, m⟩, ts⟩
    · cases h
    · cases hm : m.isOpt with
      | true =>
        cases m with
        | arg => cases hm
        | dashes => cases hm
        | opt o =>
          obtain ⟨hs, ho⟩ := hts _ (List.mem_cons_self ..) o rfl
          rw [loop_opt] at h
          rcases hc : consumeOptional acts s o ts with e' | f
          · exfalso
            have : optionStep R acts s o ts st = .error e' := by unfold optionStep; rw [hc]
            rw [this] at h
            cases h
            unfold consumeOptional at hc
            rcases o with ⟨_ | a, n, q, _ | x⟩
            · cases hc
            · cases hc
            · exact he (following_err hc)
            · exact he (explicit_err x hc)
          · rcases ht : takeActions R f.actions st.ns with e' | ns
            · have : optionStep R acts s o ts st = .error e' := by unfold optionStep; rw [hc]; dsimp only; rw [ht]
              rw [this] at h
              cases h
              obtain ⟨p, hp, hpi⟩ := takeActions_stop he ht
              exact ⟨_, List.mem_cons_self .., consume_info hn hz hi hs ho hc hp hpi⟩
            · have : optionStep R acts s o ts st = .ok (ts.drop f.used, { st with ns := ns, extras := st.extras ++ f.extra }) := by
                unfold optionStep; rw [hc]; dsimp only; rw [ht]
              rw [this] at h
              obtain ⟨t, ht, ha⟩ := ih (fun t ht => hts t (List.mem_cons_of_mem _ (List.mem_of_mem_drop ht))) h
              exact ⟨t, List.mem_cons_of_mem _ (List.mem_of_mem_drop ht), ha⟩
      | false =>
        rw [loop_other hm] at h
        rcases hcp : consumePositionals pos ((s, m) :: ts) st with _ | r
        · rw [hcp] at h
          obtain ⟨t, ht, ha⟩ := ih (fun t ht => hts t (List.mem_cons_of_mem _ ht)) h
          exact ⟨t, List.mem_cons_of_mem _ ht, ha⟩
        · rw [hcp] at h
          dsimp only at h
          subst h
          unfold consumePositionals at hcp
          rcases pos with _ | g
          · cases hcp
          · dsimp only at hcp
            split at hcp
            · injection hcp with hcp
              obtain ⟨x, hx, ha⟩ := hpos g rfl _ _ _ hcp he
              obtain ⟨t, ht, rfl⟩ := List.mem_map.1 hx
              exact ⟨t, ht, ha⟩
            · cases hcp

theorem classify_err {R : Reader} {acts : List Act} (hn : Neat acts) : ∀ {argv : List PyStr} {e : Stop},
    classify R acts argv = .error e → e = .error := by
  intro argv
  induction argv with
  | nil => intro e h; cases h
  | cons s ss ih =>
    intro e h
    unfold classify at h
    split at h
    · cases h
    · rcases hm : parseOptional R acts s with e' | m
      · rw [hm] at h; cases h; exact (parse_error hn hm).1
      · rw [hm] at h
        dsimp only at h
        rcases hl : classify R acts ss with e' | l
        · rw [hl] at h; cases h; exact ih hl
        · rw [hl] at h; cases h

theorem known_stop {R : Reader} {acts : List Act} (hn : Neat acts) (hz : ShortFlags acts) (hi : InfoNames acts) {pos : Positional}
    (hpos : AsksFirst pos) {e : Stop} (he : e ≠ .error) {argv : List PyStr} (h : parseKnown R acts pos argv = .error e) :
    ∃ s ∈ argv, AsksHelp s := by
  unfold parseKnown at h
  rcases hc : classify R acts argv with e' | ts
  · rw [hc] at h; cases h; exact absurd (classify_err hn hc) he
  · rw [hc] at h
    dsimp only at h
    rcases hl : loop R acts pos ts.length ts ⟨defaults acts [], [], []⟩ with e' | st
    · rw [hl] at h; cases h
      obtain ⟨t, ht, ha⟩ := loop_stop hn hz hi hpos he (classify_each hc) hl
      refine ⟨t.1, ?_, ha⟩
      rw [← classify_length hc]
      exact List.mem_map_of_mem ht
    · rw [hl] at h; cases h

theorem none_first : AsksFirst none := fun g h => (nomatch h)

theorem sub_first (R : Reader) : AsksFirst (some (runSubcommand R subcommands)) := by
  intro g hg args st e h he
  cases hg
  unfold runSubcommand at h
  rcases args with _ | ⟨name, rest⟩
  · cases h; exact absurd rfl he
  · dsimp only at h
    rcases hs : subcommands.get? name with _ | acts
    · rw [hs] at h; cases h; exact absurd rfl he
    · rw [hs] at h
      dsimp only at h
      rcases hp : parseKnown R acts none rest with e' | ⟨ns, ex⟩
      · rw [hp] at h; cases h
        have : ∃ s ∈ rest, AsksHelp s := by
          rcases subcommands_cases hs with ⟨-, rfl⟩ | ⟨-, rfl⟩ | ⟨-, rfl⟩
          · exact known_stop viewNeat viewShort viewInfo none_first he hp
          · exact known_stop changeNeat changeShort changeInfo none_first he hp
          · exact known_stop pluginNeat pluginShort pluginInfo none_first he hp
        obtain ⟨s, h1, h2⟩ := this
        exact ⟨s, List.mem_cons_of_mem _ h1, h2⟩
      · rw [hp] at h; cases h

/-- **Texts only if asked for.** -/
theorem parse_stop {R : Reader} {argv : List PyStr} {e : Stop} (h : parse R argv = .error e) (he : e ≠ .error) :
    ∃ s ∈ argv, AsksHelp s := by
  unfold parse at h
  rcases hp : parseKnown R mainActs (some (runSubcommand R subcommands)) argv with e' | ⟨ns, ex⟩
  · rw [hp] at h; cases h
    exact known_stop mainNeat mainShort mainInfo (sub_first R) he hp
  · rw [hp] at h
    rcases ex with _ | ⟨x, ex⟩
    · cases h
    · cases h; exact absurd rfl he

/-! ## Asking for help -/

theorem classify_total (R : Reader) {acts : List Act} (hn : Neat acts) : ∀ {rest : List PyStr}, Unambiguous rest →
    ∃ ts, classify R acts rest = .ok ts := by
  intro rest
  induction rest with
  | nil => intro _; exact ⟨[], rfl⟩
  | cons s ss ih =>
    intro h
    obtain ⟨l, hl⟩ := ih (fun r hr => h r (List.mem_cons_of_mem _ hr))
    by_cases hs : s = ['-', '-']
    · refine ⟨(s, .dashes) :: marked ss, ?_⟩
      unfold classify; rw [if_pos hs]
    · rcases hm : parseOptional R acts s with e | m
      · exfalso
        rcases (parse_error hn hm).2 with h1 | ⟨x, h1⟩
        · exact hs h1
        · exact h s (by simp) ⟨x, h1.symm⟩
      · exact ⟨_, cons_classify hs hm hl⟩

theorem known_help {R : Reader} {acts : List Act} (hn : Neat acts) (hz : ShortFlags acts) {I : List PyStr → List Effect → Prop}
    (hI : Faithful R acts I) (pos : Positional) {ws : List PyStr} {es : List Effect} (hw : Items I ws es) {s : PyStr} {a : Act}
    {e : Stop} (hr : ∀ ts, ∃ f, Reads acts s ts f ∧ f.actions = [(a, [])]) (ha : ∀ ns, takeAction R a [] ns = .error e)
    {rest : List PyStr} (hrest : Unambiguous rest) : parseKnown R acts pos (ws ++ s :: rest) = .error e := by
  obtain ⟨ts, hts⟩ := classify_total R hn hrest
  obtain ⟨f, hf, hfa⟩ := hr ts
  obtain ⟨hne, o, ho, hco⟩ := of_reads (R := R) hn hz hf
  obtain ⟨tw, h1, h2⟩ := loop_bwd hn hz hI (pos := pos) hw (cons_classify hne ho hts)
  obtain ⟨fuel', hle, h3⟩ := h2 (tw ++ (s, .opt o) :: ts).length ⟨defaults acts [], [], []⟩ (Nat.le_refl _)
  unfold parseKnown
  rw [h1]
  dsimp only
  rw [h3]
  rcases fuel' with _ | fuel'
  · simp at hle
  · rw [loop_opt]
    have : optionStep R acts s o ts ⟨applyD es (defaults acts []), [], []⟩ = .error e := by
      unfold optionStep
      rw [hco]
      dsimp only
      rw [hfa]
      unfold takeActions
      rw [ha]
    rw [this]

end PyZeal.Args
