import Verif.Proof.ArgItems

/-!
# Whole command lines
-/

set_option linter.unusedSectionVars false

namespace PyZeal.Args
open Spec

/-! ## Classification of many strings -/

theorem classify_cons {R : Reader} {acts : List Act} {s : PyStr} {ss : List PyStr} {ts : List (PyStr × Mark)}
    (h : classify R acts (s :: ss) = .ok ts) :
    (s = ['-', '-'] ∧ ts = (s, .dashes) :: marked ss) ∨
      (s ≠ ['-', '-'] ∧ ∃ m l, parseOptional R acts s = .ok m ∧ classify R acts ss = .ok l ∧ ts = (s, m) :: l) := by
  unfold classify at h
  by_cases hs : s = ['-', '-']
  · rw [if_pos hs] at h; cases h; exact .inl ⟨hs, rfl⟩
  · rw [if_neg hs] at h
    rcases hm : parseOptional R acts s with e | m
    · rw [hm] at h; cases h
    · rw [hm] at h
      dsimp only at h
      rcases hl : classify R acts ss with e | l
      · rw [hl] at h; cases h
      · rw [hl] at h; cases h
        exact .inr ⟨hs, m, l, rfl, rfl, rfl⟩

theorem cons_classify {R : Reader} {acts : List Act} {s : PyStr} {ss : List PyStr} {m : Mark} {l : List (PyStr × Mark)}
    (hs : s ≠ ['-', '-']) (hm : parseOptional R acts s = .ok m) (hl : classify R acts ss = .ok l) :
    classify R acts (s :: ss) = .ok ((s, m) :: l) := by
  unfold classify
  rw [if_neg hs, hm]
  dsimp only
  rw [hl]

theorem classify_marked {R : Reader} {acts : List Act} : ∀ {args argv : List PyStr} {ts : List (PyStr × Mark)},
    classify R acts argv = .ok (marked args ++ ts) → ∃ rest, argv = args ++ rest ∧ Args R acts args ∧ classify R acts rest = .ok ts := by
  intro args
  induction args with
  | nil => intro argv ts h; exact ⟨argv, rfl, args_nil R acts, h⟩
  | cons a args ih =>
    intro argv ts h
    rcases argv with _ | ⟨s, ss⟩
    · cases h
    · rcases classify_cons h with ⟨-, h2⟩ | ⟨hs, m, l, hm, hl, h2⟩
      · cases h2
      · cases h2
        obtain ⟨rest, h3, h4, h5⟩ := ih hl
        refine ⟨rest, by rw [h3]; rfl, ?_, h5⟩
        intro x hx
        rcases List.mem_cons.1 hx with rfl | hx
        · exact ⟨hs, hm⟩
        · exact h4 x hx

theorem marked_classify {R : Reader} {acts : List Act} {rest : List PyStr} {ts : List (PyStr × Mark)} :
    ∀ {args : List PyStr}, Args R acts args → classify R acts rest = .ok ts →
      classify R acts (args ++ rest) = .ok (marked args ++ ts) := by
  intro args
  induction args with
  | nil => intro _ h; exact h
  | cons a args ih =>
    intro ha h
    exact cons_classify (ha a (by simp)).1 (ha a (by simp)).2 (ih (fun x hx => ha x (List.mem_cons_of_mem _ hx)) h)

/-! ## The loop -/

/-- a subcommand does not touch the strings that were not recognised -/
def KeepsExtras (pos : Positional) : Prop := ∀ g, pos = some g → ∀ args st st', g args st = .ok st' → st'.extras = st.extras

theorem optionStep_ok {R : Reader} {acts : List Act} {s : PyStr} {o : Opt} {ts ts' : List (PyStr × Mark)} {st st' : PState}
    (h : optionStep R acts s o ts st = .ok (ts', st')) : ∃ f ns, consumeOptional acts s o ts = .ok f ∧
      takeActions R f.actions st.ns = .ok ns ∧ ts' = ts.drop f.used ∧ st' = { st with ns := ns, extras := st.extras ++ f.extra } := by
  unfold optionStep at h
  rcases hc : consumeOptional acts s o ts with e | f
  · rw [hc] at h; cases h
  · rw [hc] at h
    dsimp only at h
    rcases ht : takeActions R f.actions st.ns with e | ns
    · rw [ht] at h; cases h
    · rw [ht] at h; cases h
      exact ⟨f, ns, rfl, ht, rfl, rfl⟩

theorem loop_opt {R : Reader} {acts : List Act} {pos : Positional} {fuel : Nat} {s : PyStr} {o : Opt} {ts : List (PyStr × Mark)}
    {st : PState} : loop R acts pos (fuel + 1) ((s, .opt o) :: ts) st = match optionStep R acts s o ts st with
      | .error e => Except.error e
      | .ok (ts', st') => loop R acts pos fuel ts' st' := rfl

theorem loop_other {R : Reader} {acts : List Act} {pos : Positional} {fuel : Nat} {s : PyStr} {m : Mark} {ts : List (PyStr × Mark)}
    {st : PState} (hm : m.isOpt = false) : loop R acts pos (fuel + 1) ((s, m) :: ts) st =
      match consumePositionals pos ((s, m) :: ts) st with
      | some r => r
      | none => loop R acts pos fuel ts { st with extras := st.extras ++ [s] } := by
  cases m with
  | arg => rfl
  | dashes => rfl
  | opt o => cases hm

theorem loop_extras {R : Reader} {acts : List Act} {pos : Positional} (hpos : KeepsExtras pos) : ∀ {fuel ts st st'},
    loop R acts pos fuel ts st = .ok st' → ∃ x, st'.extras = st.extras ++ x := by
  intro fuel
  induction fuel with
  | zero => intro ts st st' h; cases h; exact ⟨_, rfl⟩
  | succ fuel ih =>
    intro ts st st' h
    rcases ts with _ | ⟨⟨s, m⟩, ts⟩
    · cases h; exact ⟨[], (List.append_nil _).symm⟩
    · cases hm : m.isOpt with
      | true =>
        cases m with
        | arg => cases hm
        | dashes => cases hm
        | opt o =>
          rw [loop_opt] at h
          rcases ho : optionStep R acts s o ts st with e | ⟨ts', st1⟩
          · rw [ho] at h; cases h
          · rw [ho] at h
            obtain ⟨x, hx⟩ := ih h
            obtain ⟨f, ns, -, -, -, h4⟩ := optionStep_ok ho
            exact ⟨f.extra ++ x, by rw [hx, h4, List.append_assoc]⟩
      | false =>
        rw [loop_other hm] at h
        rcases hcp : consumePositionals pos ((s, m) :: ts) st with _ | r
        · rw [hcp] at h
          obtain ⟨x, hx⟩ := ih h
          exact ⟨[s] ++ x, by rw [hx, List.append_assoc]⟩
        · rw [hcp] at h
          dsimp only at h
          subst h
          unfold consumePositionals at hcp
          rcases pos with _ | g
          · cases hcp
          · dsimp only at hcp
            split at hcp
            · injection hcp with hcp
              exact ⟨[], by rw [hpos g rfl _ _ _ hcp, List.append_nil]⟩
            · cases hcp

/-- **The loop, read.**  If nothing was left over, the strings are items, up to the subcommand (if it was found). -/
theorem loop_fwd {R : Reader} {acts : List Act} (hn : Neat acts) (hz : ShortFlags acts) {I : List PyStr → List Effect → Prop}
    (hI : Faithful R acts I) {pos : Positional} (hpos : KeepsExtras pos) : ∀ {fuel argv ts st st'},
    classify R acts argv = .ok ts → ts.length ≤ fuel → loop R acts pos fuel ts st = .ok st' → st'.extras = [] →
    ∃ ws es rest, argv = ws ++ rest ∧ Items I ws es ∧
      ((rest = [] ∧ st' = { st with ns := applyD es st.ns }) ∨
        ∃ g, pos = some g ∧ g rest { st with ns := applyD es st.ns } = .ok st') := by
  intro fuel
  induction fuel with
  | zero =>
    intro argv ts st st' hc hlen h _
    have hts := List.length_eq_zero_iff.1 (Nat.le_zero.1 hlen)
    subst hts
    rcases argv with _ | ⟨s, ss⟩
    · cases h
      exact ⟨[], [], [], rfl, .nil, .inl ⟨rfl, by rw [List.map_nil, List.append_nil]; rfl⟩⟩
    · rcases classify_cons hc with ⟨-, h2⟩ | ⟨-, m, l, -, -, h2⟩ <;> cases h2
  | succ fuel ih =>
    intro argv ts st st' hc hlen h hx
    rcases argv with _ | ⟨s, ss⟩
    · cases hc; cases h
      exact ⟨[], [], [], rfl, .nil, .inl ⟨rfl, rfl⟩⟩
    · have hsub : ∀ m l, ts = (s, m) :: l → m.isOpt = false → l.map Prod.fst = ss →
          ∃ ws es rest, s :: ss = ws ++ rest ∧ Items I ws es ∧
            ((rest = [] ∧ st' = { st with ns := applyD es st.ns }) ∨
              ∃ g, pos = some g ∧ g rest { st with ns := applyD es st.ns } = .ok st') := by
        intro m l ht hm hl
        rw [ht, loop_other hm] at h
        rcases hcp : consumePositionals pos ((s, m) :: l) st with _ | r
        · rw [hcp] at h
          obtain ⟨x, hxx⟩ := loop_extras hpos h
          rw [hx] at hxx
          have := congrArg List.length hxx
          simp at this
        · rw [hcp] at h
          dsimp only at h
          subst h
          unfold consumePositionals at hcp
          rcases pos with _ | g
          · cases hcp
          · dsimp only at hcp
            split at hcp
            · injection hcp with hcp
              refine ⟨[], [], s :: ss, rfl, .nil, .inr ⟨g, rfl, ?_⟩⟩
              rw [← hcp, ← hl]
              rfl
            · cases hcp
      have hfst : ∀ (argv : List PyStr) (l : List (PyStr × Mark)), classify R acts argv = .ok l → l.map Prod.fst = argv := by
        intro argv
        induction argv with
        | nil => intro l h; cases h; rfl
        | cons a argv ih2 =>
          intro l h
          rcases classify_cons h with ⟨-, rfl⟩ | ⟨-, m, l', -, h2, rfl⟩
          · show a :: (marked argv).map Prod.fst = _
            rw [List.map_map]
            exact congrArg _ (List.map_id argv)
          · show a :: l'.map Prod.fst = _
            rw [ih2 l' h2]
      rcases classify_cons hc with ⟨-, rfl⟩ | ⟨hs, m, l, hm, hl, rfl⟩
      · exact hsub .dashes _ rfl rfl (by rw [List.map_map]; exact List.map_id ss)
      · cases m with
        | arg => exact hsub .arg l rfl rfl (hfst ss l hl)
        | dashes => exact hsub .dashes l rfl rfl (hfst ss l hl)
        | opt o =>
          rw [loop_opt] at h
          rcases ho : optionStep R acts s o l st with e | ⟨ts', st1⟩
          · rw [ho] at h; cases h
          · rw [ho] at h
            dsimp only at h
            obtain ⟨f, ns, h1, h2, h3, h4⟩ := optionStep_ok ho
            obtain ⟨x, hxx⟩ := loop_extras hpos h
            have hst1 : st1.extras = [] := by
              rw [hx] at hxx
              exact (List.append_eq_nil_iff.1 hxx.symm).1
            have hf0 : st.extras = [] ∧ f.extra = [] := by
              rw [h4] at hst1
              exact List.append_eq_nil_iff.1 hst1
            obtain ⟨args, es, ts2, g1, g2, g3, g4⟩ := hI.fwd (reads_of hn hz hm h1 hf0.2) h2
            have hts' : ts' = ts2 := by
              rw [h3, g1, g2]
              have : (marked args).length = args.length := List.length_map _
              rw [← this, List.drop_left]
            subst hts'
            rw [g1] at hl hlen
            obtain ⟨rest, r1, r2, r3⟩ := classify_marked hl
            have hlen' : ts'.length ≤ fuel := by
              simp only [List.length_cons, List.length_append] at hlen
              omega
            obtain ⟨ws, es', rest', i1, i2, i3⟩ := ih r3 hlen' h hx
            refine ⟨(s :: args) ++ ws, es ++ es', rest', ?_, .cons (g3 r2) i2, ?_⟩
            · rw [r1, i1]; simp
            · have hst : { st1 with ns := applyD es' st1.ns } = ({ st with ns := applyD (es ++ es') st.ns } : PState) := by
                rw [h4, hf0.1, hf0.2, g4, applyD_append, List.append_nil]
              rw [hst] at i3
              exact i3

/-- **The loop, written.** -/
theorem loop_bwd {R : Reader} {acts : List Act} (hn : Neat acts) (hz : ShortFlags acts) {I : List PyStr → List Effect → Prop}
    (hI : Faithful R acts I) {pos : Positional} {ws : List PyStr} {es : List Effect} (h : Items I ws es) :
    ∀ {rest ts}, classify R acts rest = .ok ts → ∃ tw, classify R acts (ws ++ rest) = .ok (tw ++ ts) ∧
      ∀ fuel st, (tw ++ ts).length ≤ fuel → ∃ fuel', ts.length ≤ fuel' ∧
        loop R acts pos fuel (tw ++ ts) st = loop R acts pos fuel' ts { st with ns := applyD es st.ns } := by
  induction h with
  | nil => intro rest ts h; exact ⟨[], h, fun fuel st hf => ⟨fuel, hf, rfl⟩⟩
  | @cons w es ws fs hw hs ih =>
    intro rest ts hrest
    obtain ⟨tw, h1, h2⟩ := ih hrest
    obtain ⟨s, args, rfl, ha, hr⟩ := hI.bwd hw
    obtain ⟨f, r1, r2, r3⟩ := hr (tw ++ ts)
    obtain ⟨hne, o, ho, hco⟩ := of_reads (R := R) hn hz r1
    refine ⟨(s, .opt o) :: marked args ++ tw, ?_, ?_⟩
    · have := cons_classify hne ho (marked_classify ha h1)
      simpa using this
    · intro fuel st hf
      rcases fuel with _ | fuel
      · simp at hf
      · have hstep : optionStep R acts s o (marked args ++ (tw ++ ts)) st = .ok (tw ++ ts, { st with ns := applyD es st.ns }) := by
          unfold optionStep
          rw [hco]
          dsimp only
          rw [r3]
          dsimp only
          have hlen : (marked args).length = args.length := List.length_map _
          rw [r2, ← hlen, List.drop_left]
          have hx : f.extra = [] := by cases r1 <;> rfl
          rw [hx, List.append_nil]
        have hrun : loop R acts pos (fuel + 1) ((s, .opt o) :: marked args ++ tw ++ ts) st =
            loop R acts pos fuel (tw ++ ts) { st with ns := applyD es st.ns } := by
          rw [List.append_assoc, List.cons_append, loop_opt, hstep]
        have hf' : (tw ++ ts).length ≤ fuel := by
          simp only [List.length_append, List.length_cons, List.cons_append] at hf ⊢
          omega
        obtain ⟨fuel', k1, k2⟩ := h2 fuel { st with ns := applyD es st.ns } hf'
        refine ⟨fuel', k1, ?_⟩
        rw [hrun, k2, applyD_append]

/-! ## Parsers of subcommands -/

theorem keeps_none : KeepsExtras none := fun g h => (nomatch h)

theorem sub_iff {R : Reader} {acts : List Act} (hn : Neat acts) (hz : ShortFlags acts) {I : List PyStr → List Effect → Prop}
    (hI : Faithful R acts I) (argv : List PyStr) (ns : Dict PyStr Value) :
    parseKnown R acts none argv = .ok (ns, []) ↔ ∃ es, Items I argv es ∧ ns = applyD es (defaults acts []) := by
  constructor
  · intro h
    unfold parseKnown at h
    rcases hc : classify R acts argv with e | ts
    · rw [hc] at h; cases h
    · rw [hc] at h
      dsimp only at h
      rcases hl : loop R acts none ts.length ts ⟨defaults acts [], [], []⟩ with e | st
      · rw [hl] at h; cases h
      · rw [hl] at h
        dsimp only at h
        injection h with h
        injection h with h1 h2
        obtain ⟨ws, es, rest, h3, h4, h5⟩ := loop_fwd hn hz hI keeps_none hc (Nat.le_refl _) hl (List.append_eq_nil_iff.1 h2).1
        rcases h5 with ⟨rfl, h5⟩ | ⟨g, h5, -⟩
        · rw [List.append_nil] at h3
          exact ⟨es, h3 ▸ h4, by rw [← h1, h5]⟩
        · cases h5
  · rintro ⟨es, hi, rfl⟩
    obtain ⟨tw, h1, h2⟩ := loop_bwd hn hz hI (pos := none) hi (rest := []) (ts := []) rfl
    rw [List.append_nil] at h1
    obtain ⟨fuel', -, h3⟩ := h2 (tw ++ []).length ⟨defaults acts [], [], []⟩ (Nat.le_refl _)
    unfold parseKnown
    rw [h1]
    dsimp only
    rw [h3]
    cases fuel' <;> rfl

/-! ## Namespaces -/

theorem update_get (m s : Dict PyStr Value) (hs : s.WF) (k : PyStr) : (update m s).get? k = (s.get? k).or (m.get? k) := by
  unfold update
  induction s generalizing m with
  | nil => rfl
  | cons e s ih =>
    have hw : e.1 ∉ Dict.keys s ∧ Dict.WF s := by
      unfold Dict.WF Dict.keys at hs ⊢
      rw [List.map_cons, List.nodup_cons] at hs
      exact hs
    rw [List.foldl_cons, ih _ hw.2, Dict.get?_set, Dict.get?_cons]
    by_cases hk : e.1 = k
    · rw [if_pos hk, if_pos hk]
      have : Dict.get? s k = none := (Dict.get?_eq_none_iff s k).2 (hk ▸ hw.1)
      rw [this]; rfl
    · rw [if_neg hk, if_neg hk]

theorem effD_wf {e : Effect} {d : Dict PyStr Value} (h : d.WF) : (effD e d).WF := by
  cases e with
  | setting k w => cases k <;> first | exact Dict.WF.set h _ _ | exact h
  | _ => exact Dict.WF.set h _ _

theorem applyD_wf (es : List Effect) {d : Dict PyStr Value} (h : d.WF) : (applyD es d).WF := by
  induction es generalizing d with
  | nil => exact h
  | cons e es ih => exact ih (effD_wf h)

/-- effects other than `test` -/
def NoTest (es : List Effect) : Prop := ∀ e ∈ es, e ≠ .test

theorem effD_test {e : Effect} (h : e ≠ .test) (d : Dict PyStr Value) : (effD e d).get? "test".toList = d.get? "test".toList := by
  cases e with
  | test => exact absurd rfl h
  | setting k w => cases k <;> first | exact set_other (by decide) | rfl
  | _ => exact set_other (by decide)

theorem applyD_test {es : List Effect} (h : NoTest es) (d : Dict PyStr Value) :
    (applyD es d).get? "test".toList = d.get? "test".toList := by
  induction es generalizing d with
  | nil => rfl
  | cons e es ih =>
    show (applyD es (effD e d)).get? _ = _
    rw [ih (fun e he => h e (List.mem_cons_of_mem _ he)), effD_test (h e (by simp))]

theorem apply_test {e : Effect} (h : e ≠ .test) (ns : Namespace) (b : Option Bool) :
    e.apply { ns with test := b } = { e.apply ns with test := b } := by
  cases e with
  | test => exact absurd rfl h
  | setting k w => cases k <;> rfl
  | _ => rfl

theorem foldl_test {es : List Effect} (h : NoTest es) (ns : Namespace) (b : Option Bool) :
    es.foldl Effect.apply { ns with test := b } = { es.foldl Effect.apply ns with test := b } := by
  induction es generalizing ns with
  | nil => rfl
  | cons e es ih =>
    rw [List.foldl_cons, List.foldl_cons, apply_test (h e (by simp)), ih (fun e he => h e (List.mem_cons_of_mem _ he))]

theorem items_all {I : List PyStr → List Effect → Prop} {P : Effect → Prop} (h : ∀ w es, I w es → ∀ e ∈ es, P e)
    {ws : List PyStr} {es : List Effect} (hi : Items I ws es) : ∀ e ∈ es, P e := by
  induction hi with
  | nil => intro e he; cases he
  | cons hw hs ih =>
    intro e he
    rcases List.mem_append.1 he with he | he
    · exact h _ _ hw e he
    · exact ih e he

theorem test_only {ws : List PyStr} {es : List Effect} (h : Items TestItem ws es) : ∀ e ∈ es, e = .test :=
  items_all (by
    intro w es h e he
    cases h with
    | short n => exact List.eq_of_mem_replicate he
    | long s hs => exact List.mem_singleton.1 he) h

theorem view_only {ws : List PyStr} {es : List Effect} (h : Items ViewItem ws es) : ∀ e ∈ es, e = .print :=
  items_all (by
    intro w es h e he
    cases h with
    | short n => exact List.eq_of_mem_replicate he
    | long s hs => exact List.mem_singleton.1 he) h

/-- the effects of `change` -/
def IsChange : Effect → Prop
  | .setting k w => ∃ v, Choice k w v
  | .precision _ _ => True
  | _ => False

/-- the effects of `plugin` -/
def IsPlugin : Effect → Prop
  | .list => True
  | .modules => True
  | .install _ => True
  | .uninstall _ => True
  | _ => False

theorem change_only {R : Reader} {ws : List PyStr} {es : List Effect} (h : Items (ChangeItem R) ws es) : ∀ e ∈ es, IsChange e :=
  items_all (by
    intro w es h e he
    cases h with
    | apart k s arg v hs hv => rw [List.mem_singleton.1 he]; exact ⟨v, hv⟩
    | joined k s arg v hs hv => rw [List.mem_singleton.1 he]; exact ⟨v, hv⟩
    | precision => rw [List.mem_singleton.1 he]; trivial) h

theorem plugin_only {R : Reader} {ws : List PyStr} {es : List Effect} (h : Items (PluginItem R) ws es) : ∀ e ∈ es, IsPlugin e :=
  items_all (by
    intro w es h e he
    cases h with
    | short cs hc hne =>
      obtain ⟨c, -, rfl⟩ := List.mem_map.1 he
      unfold pluginFlag
      split <;> trivial
    | _ => rw [List.mem_singleton.1 he]; trivial) h

theorem tests_namespace {es : List Effect} (h : ∀ e ∈ es, e = .test) (d : Dict PyStr Value) (k : PyStr) (hk : k ≠ "test".toList) :
    (applyD es d).get? k = d.get? k := by
  induction es generalizing d with
  | nil => rfl
  | cons e es ih =>
    show (applyD es (effD e d)).get? _ = _
    rw [ih (fun e he => h e (List.mem_cons_of_mem _ he)), h e (by simp)]
    exact set_other (fun e => hk e.symm)

/-- the namespaces of the two parsers, put together -/
theorem merge_namespace {m s : Dict PyStr Value} (hs : s.WF) (htest : s.get? "test".toList = none)
    (hm : ∀ k, k ≠ "test".toList → m.get? k = none) :
    namespaceOf (update m s) = { namespaceOf s with test := (namespaceOf m).test } := by
  have hget : ∀ k, k ≠ "test".toList → (update m s).get? k = s.get? k := by
    intro k hk
    rw [update_get m s hs, hm k hk, Option.or_none]
  have ht : (update m s).get? "test".toList = m.get? "test".toList := by
    rw [update_get m s hs, htest]; rfl
  unfold namespaceOf
  rw [hget _ (by decide), hget _ (by decide), hget _ (by decide), hget _ (by decide), hget _ (by decide), hget _ (by decide),
    hget _ (by decide), hget _ (by decide), hget _ (by decide), hget _ (by decide), hget _ (by decide), ht]

theorem line_namespace {acts : List Act} {sub : Option String} {es fs : List Effect} (hes : ∀ e ∈ es, e = .test) (hfs : NoTest fs)
    (hwf : (defaults acts []).WF) (htest : (defaults acts []).get? "test".toList = none)
    (hstart : namespaceOf (defaults acts []) = { startNamespace sub with test := none })
    (hst : (startNamespace sub).test = some false) :
    namespaceOf (update (applyD es (defaults mainActs [])) (applyD fs (defaults acts []))) = meaning sub (es ++ fs) := by
  rw [merge_namespace (applyD_wf fs hwf) (by rw [applyD_test hfs, htest]) ?_]
  · rw [namespaceOf_applyD, namespaceOf_applyD, hstart, foldl_test hfs]
    unfold meaning
    rw [List.foldl_append]
    have hall : ∀ (l : List Effect), (∀ e ∈ l, e = .test) → ∀ ns ns' : Namespace, ns.test = ns'.test →
        l.foldl Effect.apply ns = { ns with test := (l.foldl Effect.apply ns').test } := by
      intro l
      induction l with
      | nil => intro _ ns ns' h; rw [List.foldl_nil, List.foldl_nil, ← h]
      | cons e l ih =>
        intro hl ns ns' h
        rw [List.foldl_cons, List.foldl_cons, hl e (by simp),
          ih (fun e he => hl e (List.mem_cons_of_mem _ he)) (Effect.apply ns .test) (Effect.apply ns' .test) rfl]
        rfl
    rw [hall es hes (startNamespace sub) (namespaceOf (defaults mainActs [])) (by rw [hst]; rfl)]
    exact (foldl_test hfs _ _).symm
  · intro k hk
    rw [tests_namespace hes _ k hk]
    have hd : defaults mainActs [] = [("test".toList, .bool false)] := rfl
    rw [hd, Dict.get?_cons, if_neg (fun e => hk e.symm)]
    rfl

/-! ## The whole command line -/

theorem keeps_sub (R : Reader) : KeepsExtras (some (runSubcommand R subcommands)) := by
  intro g hg args st st' h
  cases hg
  unfold runSubcommand at h
  rcases args with _ | ⟨name, rest⟩
  · cases h
  · dsimp only at h
    rcases hs : subcommands.get? name with _ | acts
    · rw [hs] at h; cases h
    · rw [hs] at h
      dsimp only at h
      rcases hp : parseKnown R acts none rest with e | ⟨ns, ex⟩
      · rw [hp] at h; cases h
      · rw [hp] at h; cases h; rfl

theorem subcommands_cases {name : PyStr} {acts : List Act} (h : subcommands.get? name = some acts) :
    (name = "view".toList ∧ acts = viewActs) ∨ (name = "change".toList ∧ acts = changeActs) ∨
      (name = "plugin".toList ∧ acts = pluginActs) := by
  unfold subcommands at h
  rw [Dict.get?_cons] at h
  split at h
  · cases h; left; exact ⟨by symm; assumption, rfl⟩
  · rw [Dict.get?_cons] at h
    split at h
    · cases h; right; left; exact ⟨by symm; assumption, rfl⟩
    · rw [Dict.get?_cons] at h
      split at h
      · cases h; right; right; exact ⟨by symm; assumption, rfl⟩
      · cases h

theorem sub_run {R : Reader} {args : List PyStr} {st st' : PState} (hu : st.unrec = [])
    (h : runSubcommand R subcommands args st = .ok st') (hx : st'.unrec = []) :
    ∃ name rest acts ns, args = name :: rest ∧ subcommands.get? name = some acts ∧ parseKnown R acts none rest = .ok (ns, []) ∧
      st'.ns = update st.ns ns := by
  unfold runSubcommand at h
  rcases args with _ | ⟨name, rest⟩
  · cases h
  · dsimp only at h
    rcases hs : subcommands.get? name with _ | acts
    · rw [hs] at h; cases h
    · rw [hs] at h
      dsimp only at h
      rcases hp : parseKnown R acts none rest with e | ⟨ns, ex⟩
      · rw [hp] at h; cases h
      · rw [hp] at h; cases h
        rw [hu] at hx
        have : ex = [] := hx
        subst this
        exact ⟨name, rest, acts, ns, rfl, hs, hp, rfl⟩

theorem parse_ok {R : Reader} {argv : List PyStr} {ns : Dict PyStr Value} (h : parse R argv = .ok ns) :
    parseKnown R mainActs (some (runSubcommand R subcommands)) argv = .ok (ns, []) := by
  unfold parse at h
  rcases hp : parseKnown R mainActs (some (runSubcommand R subcommands)) argv with e | ⟨ns', ex⟩
  · rw [hp] at h; cases h
  · rw [hp] at h
    rcases ex with _ | ⟨x, ex⟩
    · cases h; rfl
    · cases h

/-- **Everything accepted is in the grammar.** -/
theorem line_of_parse {R : Reader} (hR : DigitsOk R) {argv : List PyStr} {ns : Dict PyStr Value} (h : parse R argv = .ok ns) :
    ∃ sub es, Line R argv sub es ∧ namespaceOf ns = meaning sub es := by
  have hk := parse_ok h
  unfold parseKnown at hk
  rcases hc : classify R mainActs argv with e | ts
  · rw [hc] at hk; cases hk
  rw [hc] at hk
  dsimp only at hk
  rcases hl : loop R mainActs (some (runSubcommand R subcommands)) ts.length ts ⟨defaults mainActs [], [], []⟩ with e | st
  · rw [hl] at hk; cases hk
  rw [hl] at hk
  dsimp only at hk
  injection hk with hk
  injection hk with h1 h2
  obtain ⟨hx, hu⟩ := List.append_eq_nil_iff.1 h2
  obtain ⟨ws, es, rest, h3, h4, h5⟩ := loop_fwd mainNeat mainShort (mainFaithful R) (keeps_sub R) hc (Nat.le_refl _) hl hx
  have htest := test_only h4
  rcases h5 with ⟨rfl, h5⟩ | ⟨g, hg, h5⟩
  · refine ⟨none, es, ?_, ?_⟩
    · rw [List.append_nil] at h3
      exact .bare (h3 ▸ h4)
    · rw [← h1, h5, namespaceOf_applyD]; rfl
  · cases hg
    obtain ⟨name, rest', acts, ns', rfl, hget, hpk, hns⟩ := sub_run rfl h5 hu
    rcases subcommands_cases hget with ⟨rfl, rfl⟩ | ⟨rfl, rfl⟩ | ⟨rfl, rfl⟩
    · obtain ⟨fs, hi, rfl⟩ := (sub_iff viewNeat viewShort (viewFaithful R) rest' ns').1 hpk
      refine ⟨some "view", es ++ fs, h3 ▸ .view h4 hi, ?_⟩
      rw [← h1, hns]
      exact line_namespace htest (fun e he => by rw [view_only hi e he]; exact nofun) (by unfold Dict.WF; decide) rfl rfl rfl
    · obtain ⟨fs, hi, rfl⟩ := (sub_iff changeNeat changeShort (changeFaithful hR) rest' ns').1 hpk
      refine ⟨some "change", es ++ fs, h3 ▸ .change h4 hi, ?_⟩
      rw [← h1, hns]
      exact line_namespace htest (fun e he hte => by have := change_only hi e he; rw [hte] at this; exact this)
        (by unfold Dict.WF; decide) rfl rfl rfl
    · obtain ⟨fs, hi, rfl⟩ := (sub_iff pluginNeat pluginShort (pluginFaithful hR) rest' ns').1 hpk
      refine ⟨some "plugin", es ++ fs, h3 ▸ .plugin h4 hi, ?_⟩
      rw [← h1, hns]
      exact line_namespace htest (fun e he hte => by have := plugin_only hi e he; rw [hte] at this; exact this)
        (by unfold Dict.WF; decide) rfl rfl rfl

/-- classification by the main parser succeeds if that by another one does -/
theorem classify_main {R : Reader} {acts : List Act} (hn : Neat acts) : ∀ {argv : List PyStr} {ts : List (PyStr × Mark)},
    classify R acts argv = .ok ts → ∃ ts', classify R mainActs argv = .ok ts' := by
  intro argv
  induction argv with
  | nil => intro ts _; exact ⟨[], rfl⟩
  | cons s ss ih =>
    intro ts h
    rcases classify_cons h with ⟨hs, -⟩ | ⟨hs, m, l, hm, hl, -⟩
    · refine ⟨(s, .dashes) :: marked ss, ?_⟩
      unfold classify; rw [if_pos hs]
    · obtain ⟨l', hl'⟩ := ih hl
      rcases hm' : parseOptional R mainActs s with e | m'
      · exfalso
        obtain ⟨-, h2⟩ := parse_error mainNeat hm'
        rw [parse_dashes R hn h2] at hm
        cases hm
      · exact ⟨_, cons_classify hs hm' hl'⟩

theorem classify_length {R : Reader} {acts : List Act} : ∀ {argv : List PyStr} {ts : List (PyStr × Mark)},
    classify R acts argv = .ok ts → ts.map Prod.fst = argv := by
  intro argv
  induction argv with
  | nil => intro l h; cases h; rfl
  | cons a argv ih2 =>
    intro l h
    rcases classify_cons h with ⟨-, rfl⟩ | ⟨-, m, l', -, h2, rfl⟩
    · show a :: (marked argv).map Prod.fst = _
      rw [List.map_map]
      exact congrArg _ (List.map_id argv)
    · show a :: l'.map Prod.fst = _
      rw [ih2 h2]

theorem parse_sub {R : Reader} {ws : List PyStr} {es : List Effect} (hw : Items TestItem ws es) {name : PyStr} {acts : List Act}
    (hget : subcommands.get? name = some acts) (hname : name.head? ≠ some '-') (hn : Neat acts) (hz : ShortFlags acts)
    {I : List PyStr → List Effect → Prop} (hI : Faithful R acts I) {vs : List PyStr} {fs : List Effect} (hv : Items I vs fs) :
    parse R (ws ++ name :: vs) = .ok (update (applyD es (defaults mainActs [])) (applyD fs (defaults acts []))) := by
  have hsub := (sub_iff hn hz hI vs _).2 ⟨fs, hv, rfl⟩
  obtain ⟨tv, hcv⟩ : ∃ tv, classify R acts vs = .ok tv := by
    unfold parseKnown at hsub
    rcases hc : classify R acts vs with e | ts
    · rw [hc] at hsub; cases hsub
    · exact ⟨ts, rfl⟩
  obtain ⟨tm, hcm⟩ := classify_main hn hcv
  have hcm' : classify R mainActs (name :: vs) = .ok ((name, .arg) :: tm) :=
    cons_classify (fun e => hname (by rw [e]; rfl)) (parse_plain R _ hname) hcm
  obtain ⟨tw, h1, h2⟩ := loop_bwd mainNeat mainShort (mainFaithful R) (pos := some (runSubcommand R subcommands)) hw hcm'
  obtain ⟨fuel', hf, h3⟩ := h2 (tw ++ (name, .arg) :: tm).length ⟨defaults mainActs [], [], []⟩ (Nat.le_refl _)
  unfold parse parseKnown
  rw [h1]
  dsimp only
  rw [h3]
  rcases fuel' with _ | fuel'
  · simp at hf
  · have hrun : loop R mainActs (some (runSubcommand R subcommands)) (fuel' + 1) ((name, .arg) :: tm)
        ⟨applyD es (defaults mainActs []), [], []⟩ =
        runSubcommand R subcommands (name :: vs) ⟨applyD es (defaults mainActs []), [], []⟩ := by
      rw [loop_other rfl]
      have : consumePositionals (some (runSubcommand R subcommands)) ((name, .arg) :: tm) ⟨applyD es (defaults mainActs []), [], []⟩ =
          some (runSubcommand R subcommands (name :: tm.map Prod.fst) ⟨applyD es (defaults mainActs []), [], []⟩) := rfl
      rw [this, classify_length hcm]
    rw [hrun]
    unfold runSubcommand
    dsimp only
    rw [hget]
    dsimp only
    rw [hsub]
    rfl

/-- **Everything in the grammar is accepted.** -/
theorem parse_of_line {R : Reader} (hR : DigitsOk R) {argv : List PyStr} {sub : Option String} {es : List Effect}
    (h : Line R argv sub es) : ∃ ns, parse R argv = .ok ns ∧ namespaceOf ns = meaning sub es := by
  cases h with
  | bare h =>
    obtain ⟨tw, h1, h2⟩ := loop_bwd mainNeat mainShort (mainFaithful R) (pos := some (runSubcommand R subcommands)) h
      (rest := []) (ts := []) rfl
    rw [List.append_nil] at h1
    obtain ⟨fuel', -, h3⟩ := h2 (tw ++ []).length ⟨defaults mainActs [], [], []⟩ (Nat.le_refl _)
    refine ⟨applyD es (defaults mainActs []), ?_, by rw [namespaceOf_applyD]; rfl⟩
    unfold parse parseKnown
    rw [h1]
    dsimp only
    rw [h3]
    cases fuel' <;> rfl
  | view h hv =>
    refine ⟨_, parse_sub h rfl (by decide) viewNeat viewShort (viewFaithful R) hv, ?_⟩
    exact line_namespace (test_only h) (fun e he => by rw [view_only hv e he]; exact nofun) (by unfold Dict.WF; decide) rfl rfl rfl
  | change h hv =>
    refine ⟨_, parse_sub h rfl (by decide) changeNeat changeShort (changeFaithful hR) hv, ?_⟩
    exact line_namespace (test_only h) (fun e he hte => by have := change_only hv e he; rw [hte] at this; exact this)
        (by unfold Dict.WF; decide) rfl rfl rfl
  | plugin h hv =>
    refine ⟨_, parse_sub h rfl (by decide) pluginNeat pluginShort (pluginFaithful hR) hv, ?_⟩
    exact line_namespace (test_only h) (fun e he hte => by have := plugin_only hv e he; rw [hte] at this; exact this)
        (by unfold Dict.WF; decide) rfl rfl rfl

end PyZeal.Args
