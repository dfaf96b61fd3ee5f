import Verif.Spec.Argparse

/-!
# The command line parser: classification of the argument strings

How `argparse` reads a single string, for option names with different initials.
-/

set_option linter.unusedSectionVars false

namespace PyZeal.Args

/-! ## Lists with at most one match -/

theorem filterMap_none {α β : Type} {l : List α} {q : α → Bool} (f : α → β) (h : ∀ a ∈ l, q a = false) :
    l.filterMap (fun e => if q e = true then some (f e) else none) = [] := by
  rw [List.filterMap_eq_nil_iff]
  intro a ha
  rw [if_neg (by rw [h a ha]; decide)]

theorem filterMap_one {α β : Type} {l : List α} {q : α → Bool} (f : α → β)
    (h : l.Pairwise (fun a b => ¬ (q a = true ∧ q b = true))) :
    l.filterMap (fun e => if q e = true then some (f e) else none) = ((l.find? q).map f).toList := by
  induction l with
  | nil => rfl
  | cons a l ih =>
    rw [List.pairwise_cons] at h
    cases hq : q a with
    | true =>
      rw [List.filterMap_cons_some (b := f a) (by rw [if_pos hq]), List.find?_cons_of_pos hq,
        filterMap_none f (fun b hb => by
          cases hb' : q b with
          | true => exact absurd ⟨hq, hb'⟩ (h.1 b hb)
          | false => rfl)]
      rfl
    | false =>
      rw [List.filterMap_cons_none (by rw [if_neg (by rw [hq]; decide)]), List.find?_cons_of_neg (by rw [hq]; decide)]
      exact ih h.2

theorem filterMap_congr' {α β : Type} {l : List α} {f g : α → Option β} (h : ∀ a ∈ l, f a = g a) :
    l.filterMap f = l.filterMap g := by
  induction l with
  | nil => rfl
  | cons a l ih =>
    rw [List.filterMap_cons, List.filterMap_cons, h a (by simp), ih (fun b hb => h b (List.mem_cons_of_mem _ hb))]

theorem find_one {α : Type} {l : List α} {q : α → Bool} (h : l.Pairwise (fun a b => ¬ (q a = true ∧ q b = true)))
    {e : α} (he : e ∈ l) (hq : q e = true) : l.find? q = some e := by
  induction l with
  | nil => cases he
  | cons a l ih =>
    rw [List.pairwise_cons] at h
    rcases List.mem_cons.1 he with rfl | he
    · exact List.find?_cons_of_pos hq
    · rw [List.find?_cons_of_neg (fun hqa => h.1 e he ⟨hqa, hq⟩)]
      exact ih h.2 he

/-! ## Names with different initials -/

/-- the option strings of a parser -/
def names (acts : List Act) : List PyStr := (optionMap acts).map Prod.fst

/-- a proper option string: a dash and a character, or two dashes and a word without `=` -/
def goodName : PyStr → Bool
  | ['-', c] => c ≠ '-' && c ≠ '='
  | '-' :: '-' :: c :: x => (c :: x).all (fun d => d ≠ '=')
  | _ => false

/-- Proper option strings with different initials. -/
structure Neat (acts : List Act) : Prop where
  good : ∀ n ∈ names acts, goodName n = true
  initials : (names acts).Pairwise (fun m n => m.take 3 ≠ n.take 3)
  two : 2 ≤ ((names acts).filter isLong).length

theorem mainNeat : Neat mainActs := ⟨by decide, by decide, by decide⟩
theorem viewNeat : Neat viewActs := ⟨by decide, by decide, by decide⟩
theorem changeNeat : Neat changeActs := ⟨by decide, by decide, by decide⟩
theorem pluginNeat : Neat pluginActs := ⟨by decide, by decide, by decide⟩

theorem goodName_cases {n : PyStr} (h : goodName n = true) :
    (∃ c, n = ['-', c] ∧ c ≠ '-' ∧ c ≠ '=') ∨ ∃ c x, n = '-' :: '-' :: c :: x ∧ '=' ∉ n ∧ c ≠ '=' := by
  unfold goodName at h
  split at h
  · rename_i c
    simp only [ne_eq, decide_not, Bool.and_eq_true, Bool.not_eq_eq_eq_not, Bool.not_true, decide_eq_false_iff_not] at h
    exact .inl ⟨c, rfl, h.1, h.2⟩
  · rename_i c x
    rw [List.all_eq_true] at h
    have : ∀ d ∈ c :: x, d ≠ '=' := fun d hd => of_decide_eq_true (h d hd)
    refine .inr ⟨c, x, rfl, ?_, this c (by simp)⟩
    intro hm
    rcases List.mem_cons.1 hm with e | hm
    · revert e; decide
    rcases List.mem_cons.1 hm with e | hm
    · revert e; decide
    exact this '=' hm rfl
  · cases h

theorem map_pairwise {α β : Type} (f : α → β) {l : List α} {r : β → β → Prop} (h : (l.map f).Pairwise r) :
    l.Pairwise (fun a b => r (f a) (f b)) := List.pairwise_map.1 h

/-- the entry for a long option, perhaps shortened -/
def longOf (acts : List Act) (p : PyStr) : Option (PyStr × Act) :=
  (optionMap acts).find? (fun e => p.isPrefixOf e.1)

theorem take_three {p n : PyStr} {c : Char} {x : PyStr} (hp : p = '-' :: '-' :: c :: x) (h : p <+: n) :
    n.take 3 = ['-', '-', c] := by
  obtain ⟨t, rfl⟩ := h
  rw [hp]; rfl

theorem long_unique {acts : List Act} (hn : Neat acts) {p : PyStr} {c : Char} {x : PyStr} (hp : p = '-' :: '-' :: c :: x) :
    (optionMap acts).Pairwise (fun a b => ¬ (p.isPrefixOf a.1 = true ∧ p.isPrefixOf b.1 = true)) := by
  refine (map_pairwise Prod.fst hn.initials).imp ?_
  intro a b hab ⟨h1, h2⟩
  rw [List.isPrefixOf_iff_prefix] at h1 h2
  exact hab ((take_three hp h1).trans (take_three hp h2).symm)

theorem findOption_some {acts : List Act} {s : PyStr} {a : Act} (h : findOption acts s = some a) :
    (s, a) ∈ optionMap acts := by
  unfold findOption at h
  rcases hf : (optionMap acts).find? (fun e => decide (e.1 = s)) with _ | e
  · rw [hf] at h; cases h
  · rw [hf] at h
    have h1 := List.mem_of_find?_eq_some hf
    have h2 : e.1 = s := by simpa using List.find?_some hf
    cases h
    rw [← h2]; exact h1

theorem findOption_name {acts : List Act} {s : PyStr} {a : Act} (h : findOption acts s = some a) : s ∈ names acts :=
  List.mem_map.2 ⟨_, findOption_some h, rfl⟩

theorem findOption_none {acts : List Act} {s : PyStr} (h : s ∉ names acts) : findOption acts s = none := by
  rcases he : findOption acts s with _ | a
  · rfl
  · exact absurd (findOption_name he) h

theorem findOption_none_iff {acts : List Act} {s : PyStr} (h : findOption acts s = none) : s ∉ names acts := by
  intro hs
  obtain ⟨e, he, rfl⟩ := List.mem_map.1 hs
  unfold findOption at h
  rw [Option.map_eq_none_iff, List.find?_eq_none] at h
  exact h e he (decide_eq_true rfl)

/-! ## Splitting at `=` -/

theorem partition_none {s : PyStr} (h : '=' ∉ s) : partition s = (s, none) := by
  induction s with
  | nil => rfl
  | cons c s ih =>
    rw [List.mem_cons, not_or] at h
    unfold partition
    rw [if_neg (fun e => h.1 e.symm), ih h.2]

theorem partition_eq {p x : PyStr} (h : '=' ∉ p) : partition (p ++ '=' :: x) = (p, some x) := by
  induction p with
  | nil => unfold partition; rfl
  | cons c p ih =>
    rw [List.mem_cons, not_or] at h
    show partition (c :: (p ++ '=' :: x)) = _
    unfold partition
    rw [if_neg (fun e => h.1 e.symm), ih h.2]

/-- every string is split -/
theorem partition_cases (s : PyStr) :
    ('=' ∉ s ∧ partition s = (s, none)) ∨ ∃ p x, s = p ++ '=' :: x ∧ '=' ∉ p ∧ partition s = (p, some x) := by
  by_cases h : '=' ∈ s
  · obtain ⟨p, x, hs, hp⟩ : ∃ p x, s = p ++ '=' :: x ∧ '=' ∉ p := by
      induction s with
      | nil => cases h
      | cons c s ih =>
        by_cases hc : c = '='
        · exact ⟨[], s, by rw [hc]; rfl, by simp⟩
        · obtain ⟨p, x, e, hp⟩ := ih (by rcases List.mem_cons.1 h with e | h; exact absurd e.symm hc; exact h)
          refine ⟨c :: p, x, by rw [e]; rfl, ?_⟩
          rw [List.mem_cons, not_or]; exact ⟨fun e => hc e.symm, hp⟩
    exact .inr ⟨p, x, hs, hp, hs ▸ partition_eq hp⟩
  · exact .inl ⟨h, partition_none h⟩

/-! ## Reading one string -/

/-- a string with a dash that is no option -/
def fallback (R : Reader) (s : PyStr) : Except Stop Mark :=
  if negativeNumber R s then .ok .arg else if ' ' ∈ s then .ok .arg else .ok (.opt ⟨none, s, false, none⟩)

/-- the reading of a string that starts with a long option -/
def longMark (R : Reader) (acts : List Act) (s : PyStr) : Except Stop Mark :=
  match longOf acts (partition s).1 with
  | some e => .ok (.opt ⟨some e.2, e.1, (partition s).2.isSome, (partition s).2⟩)
  | none => fallback R s

theorem long_mem {acts : List Act} {p : PyStr} {e : PyStr × Act} (h : longOf acts p = some e) :
    e ∈ optionMap acts ∧ p <+: e.1 :=
  ⟨List.mem_of_find?_eq_some h, by
    have h2 := List.find?_some h
    exact List.isPrefixOf_iff_prefix.1 h2⟩

theorem longOf_full {acts : List Act} (hn : Neat acts) {p : PyStr} {c : Char} {x : PyStr} (hp : p = '-' :: '-' :: c :: x)
    {e : PyStr × Act} (he : e ∈ optionMap acts) (h : p <+: e.1) : longOf acts p = some e :=
  find_one (long_unique hn hp) he (List.isPrefixOf_iff_prefix.2 h)

theorem parse_long (R : Reader) {acts : List Act} (hn : Neat acts) {c : Char} {t s : PyStr}
    (hs : s = '-' :: '-' :: c :: t) (hc : c ≠ '=') : parseOptional R acts s = longMark R acts s := by
  have hp1 : ∃ q, (partition s).1 = '-' :: '-' :: c :: q := by
    refine ⟨(partition t).1, ?_⟩
    have e : ∀ (d : Char) (u : PyStr), d ≠ '=' → (partition (d :: u)).1 = d :: (partition u).1 := by
      intro d u hd
      rw [partition, if_neg hd]
    rw [hs, e _ _ (by decide), e _ _ (by decide), e _ _ hc]
  obtain ⟨q, hq⟩ := hp1
  unfold parseOptional longMark
  rw [if_neg (by rw [hs]; exact fun h => h rfl)]
  rcases hf : findOption acts s with _ | a
  · dsimp only
    rw [if_neg (by rw [hs]; simp)]
    have htup : optionTuples acts s = ((longOf acts (partition s).1).map
        (fun e => (⟨some e.2, e.1, (partition s).2.isSome, (partition s).2⟩ : Opt))).toList := by
      unfold optionTuples
      rw [if_pos (by rw [hs]; rfl)]
      exact filterMap_one _ (long_unique hn hq)
    have hrest : (match optionTuples acts s with
          | [o] => Except.ok (Mark.opt o)
          | _ :: _ :: _ => .error .error
          | [] => if negativeNumber R s then .ok .arg else if ' ' ∈ s then .ok .arg
            else .ok (.opt ⟨none, s, false, none⟩)) = longMark R acts s := by
      rw [htup]
      unfold longMark
      rcases longOf acts (partition s).1 with _ | e
      · rfl
      · rfl
    rcases hx : (partition s).2 with _ | x
    · unfold longMark at hrest; rw [hx] at hrest; exact hrest
    · rcases hg : findOption acts (partition s).1 with _ | a
      · unfold longMark at hrest; rw [hx] at hrest; exact hrest
      · rw [longOf_full hn hq (findOption_some hg) (List.prefix_rfl)]
        rfl
  · have hmem := findOption_some hf
    have hgood := hn.good s (findOption_name hf)
    have hno : '=' ∉ s := by
      rcases goodName_cases hgood with ⟨c', e, h1, -⟩ | ⟨c', x, e, h1, -⟩
      · rw [hs] at e; cases e
      · exact h1
    have hpart := partition_none hno
    rw [hpart]
    rw [hpart] at hq
    dsimp only
    rw [longOf_full hn hq hmem List.prefix_rfl]
    rfl

/-- what follows a short option -/
def shortOpt (a : Act) (c : Char) : PyStr → Opt
  | [] => ⟨some a, ['-', c], false, none⟩
  | d :: x => if d = '=' then ⟨some a, ['-', c], true, some x⟩ else ⟨some a, ['-', c], false, some (d :: x)⟩

/-- the reading of a string that starts with a short option -/
def shortMark (R : Reader) (acts : List Act) (c : Char) (t : PyStr) : Except Stop Mark :=
  match findOption acts ['-', c] with
  | none => fallback R ('-' :: c :: t)
  | some a => .ok (.opt (shortOpt a c t))

theorem not_name {acts : List Act} (hn : Neat acts) {c : Char} {d : Char} {t : PyStr} (hc : c ≠ '-') :
    ('-' :: c :: d :: t) ∉ names acts := by
  intro h
  rcases goodName_cases (hn.good _ h) with ⟨c', e, -, -⟩ | ⟨c', x, e, -, -⟩
  · cases e
  · cases e; exact hc rfl

theorem not_single {acts : List Act} (hn : Neat acts) {c : Char} : [c] ∉ names acts := by
  intro h
  rcases goodName_cases (hn.good _ h) with ⟨c', e, -, -⟩ | ⟨c', x, e, -, -⟩ <;> cases e

theorem short_isLong {c : Char} {t : PyStr} (hc : c ≠ '-') : isLong ('-' :: c :: t) = false := by
  unfold isLong
  split
  · rename_i e; cases e; exact absurd rfl hc
  · rfl

theorem isLong_cases {s : PyStr} (h : isLong s = true) : ∃ t, s = '-' :: '-' :: t := by
  unfold isLong at h
  split at h
  · exact ⟨_, rfl⟩
  · cases h

/-- an element of the map is found under its name -/
theorem findOption_mem {acts : List Act} (hn : Neat acts) {e : PyStr × Act} (he : e ∈ optionMap acts) :
    findOption acts e.1 = some e.2 := by
  unfold findOption
  rw [find_one (e := e) ?_ he (decide_eq_true rfl)]
  · rfl
  · refine (map_pairwise Prod.fst hn.initials).imp ?_
    intro a b hab ⟨h1, h2⟩
    exact hab (by rw [of_decide_eq_true h1, of_decide_eq_true h2])

theorem parse_short (R : Reader) {acts : List Act} (hn : Neat acts) {c : Char} (t : PyStr) (hc : c ≠ '-') :
    parseOptional R acts ('-' :: c :: t) = shortMark R acts c t := by
  unfold parseOptional shortMark
  rw [if_neg (fun h => h rfl)]
  have hlen : ¬ ('-' :: c :: t).length = 1 := by simp
  rcases ht : t with _ | ⟨d, t'⟩
  · rcases hf : findOption acts ['-', c] with _ | a
    · dsimp only
      rw [if_neg (by simp)]
      have htup : optionTuples acts ['-', c] = [] := by
        unfold optionTuples
        rw [if_neg (by rw [short_isLong hc]; decide), List.filterMap_eq_nil_iff]
        intro e he
        have hne : e.1 ≠ ['-', c] := fun h => findOption_none_iff hf (h ▸ List.mem_map.2 ⟨e, he, rfl⟩)
        rw [if_neg (by exact hne), if_neg ?_]
        rw [List.isPrefixOf_iff_prefix]
        rintro ⟨u, hu⟩
        rcases goodName_cases (hn.good e.1 (List.mem_map.2 ⟨e, he, rfl⟩)) with ⟨c', h, -, -⟩ | ⟨c', x, h, -, -⟩
        · rw [h] at hu
          rcases u with _ | ⟨u, us⟩
          · exact hne (h.trans hu.symm)
          · cases hu
        · rw [h] at hu; cases hu; exact hc rfl
      have hmatch : ∀ x : Option PyStr, ∀ y : Option Act, (x = none ∨ y = none) → (match x, y with
          | some x, some a => Except.ok (Mark.opt ⟨some a, (partition ['-', c]).1, true, some x⟩)
          | _, _ => match optionTuples acts ['-', c] with
          | [o] => .ok (.opt o)
          | _ :: _ :: _ => .error .error
          | [] => if negativeNumber R ['-', c] then .ok .arg else if ' ' ∈ ['-', c] then .ok .arg
            else .ok (.opt ⟨none, ['-', c], false, none⟩)) = fallback R ['-', c] := by
        rw [htup]
        intro x y h
        rcases h with rfl | rfl
        · rfl
        · rcases x <;> rfl
      refine hmatch _ _ ?_
      by_cases h : '=' ∈ ['-', c]
      · right
        have hc' : c = '=' := by
          rcases List.mem_cons.1 h with e | h
          · exact absurd e (by decide)
          · exact (List.mem_singleton.1 h).symm
        rw [hc']
        exact findOption_none (not_single hn)
      · left; rw [partition_none h]
    · rfl
  · rw [findOption_none (not_name hn hc)]
    dsimp only
    rw [if_neg (by simp)]
    rcases hf : findOption acts ['-', c] with _ | a
    · dsimp only
      have htup : optionTuples acts ('-' :: c :: d :: t') = [] := by
        unfold optionTuples
        rw [if_neg (by rw [short_isLong hc]; decide), List.filterMap_eq_nil_iff]
        intro e he
        have hne : e.1 ≠ ['-', c] := fun h => findOption_none_iff hf (h ▸ List.mem_map.2 ⟨e, he, rfl⟩)
        rw [if_neg (by exact hne), if_neg ?_]
        rw [List.isPrefixOf_iff_prefix]
        rintro ⟨u, hu⟩
        exact not_name hn hc (d := d) (t := t' ++ u) (by
          have : '-' :: c :: d :: (t' ++ u) = e.1 := hu
          rw [this]; exact List.mem_map.2 ⟨e, he, rfl⟩)
      have hnone : (partition ('-' :: c :: d :: t')).2 = none ∨ findOption acts (partition ('-' :: c :: d :: t')).1 = none := by
        rcases partition_cases ('-' :: c :: d :: t') with ⟨-, h⟩ | ⟨p, x, h, hp, h'⟩
        · left; rw [h]
        · right
          rw [h']
          rcases p with _ | ⟨p1, _ | ⟨p2, _ | ⟨p3, p⟩⟩⟩
          · cases h
          · exact findOption_none (not_single hn)
          · cases h; exact hf
          · cases h; exact findOption_none (not_name hn hc)
      rcases hx : (partition ('-' :: c :: d :: t')).2 with _ | x
      · dsimp only; rw [htup]; rfl
      · rw [hx] at hnone
        rcases hnone with h | h
        · cases h
        · rw [h]; dsimp only; rw [htup]; rfl
    · have hcne : c ≠ '=' := by
        rcases goodName_cases (hn.good _ (findOption_name hf)) with ⟨c', e, -, h⟩ | ⟨c', x, e, -, -⟩
        · cases e; exact h
        · cases e
      dsimp only
      by_cases hd : d = '='
      · subst hd
        have hpart : partition ('-' :: c :: '=' :: t') = (['-', c], some t') :=
          partition_eq (p := ['-', c]) (by
            intro h
            rcases List.mem_cons.1 h with e | h
            · revert e; decide
            · exact hcne (List.mem_singleton.1 h).symm)
        rw [hpart]
        dsimp only
        rw [hf]
        rfl
      · have htup : optionTuples acts ('-' :: c :: d :: t') =
            [⟨some a, ['-', c], false, some (d :: t')⟩] := by
          unfold optionTuples
          rw [if_neg (by rw [short_isLong hc]; decide)]
          have : (fun e : PyStr × Act => if e.1 = ('-' :: c :: d :: t').take 2 then
                some (⟨some e.2, e.1, false, some (('-' :: c :: d :: t').drop 2)⟩ : Opt)
              else if ('-' :: c :: d :: t').isPrefixOf e.1 then some ⟨some e.2, e.1, false, none⟩ else none) =
            (fun e : PyStr × Act => if e.1 = ['-', c] then
                some (⟨some e.2, e.1, false, some (d :: t')⟩ : Opt)
              else if ('-' :: c :: d :: t').isPrefixOf e.1 then some ⟨some e.2, e.1, false, none⟩ else none) := rfl
          rw [this]
          have hcongr : (optionMap acts).filterMap (fun e : PyStr × Act => if e.1 = ['-', c] then
                some (⟨some e.2, e.1, false, some (d :: t')⟩ : Opt)
              else if ('-' :: c :: d :: t').isPrefixOf e.1 then some ⟨some e.2, e.1, false, none⟩ else none) =
            (optionMap acts).filterMap (fun e : PyStr × Act => if decide (e.1 = ['-', c]) = true then
                some (⟨some e.2, e.1, false, some (d :: t')⟩ : Opt) else none) := by
            refine filterMap_congr' ?_
            intro e he
            by_cases h : e.1 = ['-', c]
            · rw [if_pos h, if_pos (decide_eq_true h)]
            · have h2 : ¬ ('-' :: c :: d :: t').isPrefixOf e.1 = true := by
                rw [List.isPrefixOf_iff_prefix]
                rintro ⟨u, hu⟩
                exact not_name hn hc (d := d) (t := t' ++ u) (by
                  have : '-' :: c :: d :: (t' ++ u) = e.1 := hu
                  rw [this]; exact List.mem_map.2 ⟨e, he, rfl⟩)
              rw [if_neg h, if_neg h2, if_neg (by rw [decide_eq_false h]; decide)]
          have huniq : (optionMap acts).Pairwise (fun a b => ¬ (decide (a.1 = ['-', c]) = true ∧ decide (b.1 = ['-', c]) = true)) := by
            refine (map_pairwise Prod.fst hn.initials).imp ?_
            intro a b hab ⟨h1, h2⟩
            exact hab (by rw [of_decide_eq_true h1, of_decide_eq_true h2])
          rw [hcongr, filterMap_one _ huniq, find_one huniq (findOption_some hf) (decide_eq_true rfl)]
          rfl
        have hnone : (partition ('-' :: c :: d :: t')).2 = none ∨ findOption acts (partition ('-' :: c :: d :: t')).1 = none := by
          rcases partition_cases ('-' :: c :: d :: t') with ⟨-, h⟩ | ⟨p, x, h, hp, h'⟩
          · left; rw [h]
          · right
            rw [h']
            rcases p with _ | ⟨p1, _ | ⟨p2, _ | ⟨p3, p⟩⟩⟩
            · cases h
            · exact findOption_none (not_single hn)
            · cases h; exact absurd rfl hd
            · cases h; exact findOption_none (not_name hn hc)
        have hgoal : shortOpt a c (d :: t') = ⟨some a, ['-', c], false, some (d :: t')⟩ := if_neg hd
        rw [hgoal]
        rcases hx : (partition ('-' :: c :: d :: t')).2 with _ | x
        · dsimp only; rw [htup]
        · rw [hx] at hnone
          rcases hnone with h | h
          · cases h
          · rw [h]; dsimp only; rw [htup]

/-- two dashes and perhaps an argument: ambiguous -/
theorem parse_dashes (R : Reader) {acts : List Act} (hn : Neat acts) {s : PyStr}
    (hs : s = ['-', '-'] ∨ ∃ x, s = '-' :: '-' :: '=' :: x) : parseOptional R acts s = .error .error := by
  have hdd : ['-', '-'] ∉ names acts := by
    intro h
    rcases goodName_cases (hn.good _ h) with ⟨c', e, h, -⟩ | ⟨c', x, e, -, -⟩
    · cases e; exact h rfl
    · cases e
  have hnot : s ∉ names acts := by
    rcases hs with rfl | ⟨x, rfl⟩
    · exact hdd
    · intro h
      rcases goodName_cases (hn.good _ h) with ⟨c', e, -, -⟩ | ⟨c', x, e, -, h⟩
      · cases e
      · cases e; exact h rfl
  have hp : (partition s).1 = ['-', '-'] := by
    rcases hs with rfl | ⟨x, rfl⟩
    · rfl
    · rw [show ('-' :: '-' :: '=' :: x) = ['-', '-'] ++ '=' :: x from rfl, partition_eq (by decide)]
  have htup : ∃ o o' os, optionTuples acts s = o :: o' :: os := by
    have : optionTuples acts s = ((optionMap acts).filter (fun e => isLong e.1)).map
        (fun e => (⟨some e.2, e.1, (partition s).2.isSome, (partition s).2⟩ : Opt)) := by
      unfold optionTuples
      rw [if_pos (by rcases hs with rfl | ⟨x, rfl⟩ <;> rfl), hp]
      induction optionMap acts with
      | nil => rfl
      | cons e l ih =>
        rw [List.filter_cons, List.filterMap_cons, ih]
        have : List.isPrefixOf ['-', '-'] e.1 = isLong e.1 := by
          unfold isLong
          split
          · rename_i h
            rw [h]; rfl
          · rename_i hne
            rw [Bool.eq_false_iff]
            intro h
            rw [List.isPrefixOf_iff_prefix] at h
            obtain ⟨t, ht⟩ := h
            exact hne t ht.symm
        rw [this]
        cases isLong e.1 <;> rfl
    have hlen : 2 ≤ ((optionMap acts).filter (fun e => isLong e.1)).length := by
      have h2 := hn.two
      unfold names at h2
      rw [List.filter_map, List.length_map] at h2
      exact h2
    rw [this]
    generalize (optionMap acts).filter (fun e => isLong e.1) = l at hlen ⊢
    rcases l with _ | ⟨a, _ | ⟨b, l⟩⟩
    · exact absurd hlen (by decide)
    · exact absurd hlen (by simp)
    · exact ⟨_, _, _, rfl⟩
  obtain ⟨o, o', os, htup⟩ := htup
  unfold parseOptional
  rw [if_neg (by rcases hs with rfl | ⟨x, rfl⟩ <;> exact fun h => h rfl), findOption_none hnot]
  dsimp only
  rw [if_neg (by rcases hs with rfl | ⟨x, rfl⟩ <;> simp), hp, findOption_none hdd, htup]
  rcases (partition s).2 <;> rfl

end PyZeal.Args
