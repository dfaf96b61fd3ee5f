import Verif.Proof.ArgOperand

/-!
# One option of the command line
-/

set_option linter.unusedSectionVars false

namespace PyZeal.Args
open Spec

/-- short options have no arguments -/
def ShortFlags (acts : List Act) : Prop := ∀ e ∈ optionMap acts, isLong e.1 = false → e.2.kind.nargs = 0

/-- a string of short options -/
inductive Shorts (acts : List Act) : PyStr → List Act → Prop
  | nil : Shorts acts [] []
  | cons {c t a bs} (h : findOption acts ['-', c] = some a) (hs : Shorts acts t bs) : Shorts acts (c :: t) (a :: bs)

theorem short_char {acts : List Act} (hn : Neat acts) {c : Char} {a : Act} (h : findOption acts ['-', c] = some a) :
    c ≠ '-' ∧ c ≠ '=' := by
  rcases goodName_cases (hn.good _ (findOption_name h)) with ⟨c', e, h1, h2⟩ | ⟨c', x, e, -, -⟩
  · cases e; exact ⟨h1, h2⟩
  · cases e

theorem short_nargs {acts : List Act} (hn : Neat acts) (hz : ShortFlags acts) {c : Char} {a : Act}
    (h : findOption acts ['-', c] = some a) : a.kind.nargs = 0 :=
  hz _ (findOption_some h) (short_isLong (short_char hn h).1)

theorem takeArgs_zero (rest : List (PyStr × Mark)) : takeArgs 0 rest = .ok [] := by
  unfold takeArgs
  rw [if_pos ⟨rfl, rfl⟩]; rfl

theorem following_zero {a : Act} (h : a.kind.nargs = 0) (rest : List (PyStr × Mark)) :
    following a rest = .ok ⟨[(a, [])], [], 0⟩ := by
  unfold following
  rw [h, takeArgs_zero]

theorem explicit_eq {acts : List Act} {rest : List (PyStr × Mark)} {a : Act} (h : a.kind.nargs = 0) (short : Bool) (x : PyStr) :
    explicit acts rest a short true x = .error .error := by
  rcases x with _ | ⟨c, x⟩
  · unfold explicit; rw [if_neg (by rw [h]; decide)]
  · rw [explicit.eq_def]
    dsimp only
    rw [if_neg (by rw [h]; decide)]
    by_cases hs : a.kind.nargs = 0 ∧ short = true
    · rw [if_pos hs, if_pos (.inl rfl)]
    · rw [if_neg hs]

theorem explicit_long {acts : List Act} {rest : List (PyStr × Mark)} {a : Act} (eq : Bool) (x : PyStr) :
    explicit acts rest a false eq x = if a.kind.nargs = 1 then .ok ⟨[(a, [x])], [], 0⟩ else .error .error := by
  rcases x with _ | ⟨c, x⟩
  · rw [explicit.eq_def]
  · rw [explicit.eq_def]
    dsimp only
    by_cases h : a.kind.nargs = 1
    · rw [if_pos h, if_pos h]
    · rw [if_neg h, if_neg h, if_neg (fun h => nomatch h.2)]

/-- the step of the loop for a short option -/
theorem explicit_cons {acts : List Act} {rest : List (PyStr × Mark)} {a : Act} (h : a.kind.nargs = 0) {c : Char} (hc : c ≠ '-')
    (s : PyStr) : explicit acts rest a true false (c :: s) = match findOption acts ['-', c] with
      | none => .ok ⟨[(a, [])], ['-' :: c :: s], 0⟩
      | some b => match s with
        | [] => (following b rest).map (Found.push a)
        | d :: s' => if d = '=' then (explicit acts rest b true true s').map (Found.push a)
            else (explicit acts rest b true false (d :: s')).map (Found.push a) := by
  rw [explicit.eq_def]
  dsimp only
  rw [if_neg (by rw [h]; decide), if_pos ⟨h, rfl⟩, if_neg (by rintro (h | h); cases h; exact hc h)]
  rcases findOption acts ['-', c] with _ | b
  · rfl
  · rcases s with _ | ⟨d, s⟩ <;> rfl

theorem explicit_dash {acts : List Act} {rest : List (PyStr × Mark)} {a : Act} (h : a.kind.nargs = 0) (s : PyStr) :
    explicit acts rest a true false ('-' :: s) = .error .error := by
  rw [explicit.eq_def]
  dsimp only
  rw [if_neg (by rw [h]; decide), if_pos ⟨h, rfl⟩, if_pos (.inr rfl)]

theorem explicit_short {acts : List Act} (hn : Neat acts) (hz : ShortFlags acts) {rest : List (PyStr × Mark)} :
    ∀ (t : PyStr) {a : Act} {f : Found}, t ≠ [] → a.kind.nargs = 0 → explicit acts rest a true false t = .ok f → f.extra = [] →
      ∃ bs, Shorts acts t bs ∧ f = ⟨(a, []) :: bs.map (fun b => (b, [])), [], 0⟩ := by
  intro t
  induction t with
  | nil => intro a f h; exact absurd rfl h
  | cons c s ih =>
    intro a f _ ha h hx
    by_cases hc : c = '-'
    · subst hc; rw [explicit_dash ha] at h; cases h
    · rw [explicit_cons ha hc] at h
      rcases hf : findOption acts ['-', c] with _ | b
      · rw [hf] at h; cases h; cases hx
      · rw [hf] at h
        have hb := short_nargs hn hz hf
        rcases s with _ | ⟨d, s'⟩
        · dsimp only at h
          rw [following_zero hb] at h
          cases h
          exact ⟨[b], .cons hf .nil, rfl⟩
        · dsimp only at h
          by_cases hd : d = '='
          · rw [if_pos hd, explicit_eq hb] at h; cases h
          · rw [if_neg hd] at h
            rcases hg : explicit acts rest b true false (d :: s') with _ | g
            · rw [hg] at h; cases h
            · rw [hg] at h; cases h
              obtain ⟨bs, h1, h2⟩ := ih (by simp) hb hg hx
              refine ⟨b :: bs, .cons hf h1, ?_⟩
              rw [h2]; rfl

theorem explicit_shorts {acts : List Act} (hn : Neat acts) (hz : ShortFlags acts) {rest : List (PyStr × Mark)} {t : PyStr}
    {bs : List Act} (h : Shorts acts t bs) : ∀ {a : Act}, t ≠ [] → a.kind.nargs = 0 →
      explicit acts rest a true false t = .ok ⟨(a, []) :: bs.map (fun b => (b, [])), [], 0⟩ := by
  induction h with
  | nil => intro a h; exact absurd rfl h
  | @cons c s b bs hf hs ih =>
    intro a _ ha
    have hb := short_nargs hn hz hf
    rw [explicit_cons ha (short_char hn hf).1, hf]
    dsimp only
    rcases s with _ | ⟨d, s'⟩
    · cases hs
      dsimp only
      rw [following_zero hb]
      rfl
    · have hd : d ≠ '=' := by
        cases hs with
        | cons h _ => exact (short_char hn h).2
      dsimp only
      rw [if_neg hd, ih (by simp) hb]
      rfl

/-- What one option string, with the strings after it, can be. -/
inductive Reads (acts : List Act) (s : PyStr) (ts : List (PyStr × Mark)) : Found → Prop
  | apart (e : PyStr × Act) (args : List PyStr) (he : e ∈ optionMap acts) (hl : isLong e.1 = true) (hs : s <+: e.1)
      (h3 : 3 ≤ s.length) (ha : takeArgs e.2.kind.nargs ts = .ok args) : Reads acts s ts ⟨[(e.2, args)], [], e.2.kind.nargs⟩
  | joined (e : PyStr × Act) (p x : PyStr) (he : e ∈ optionMap acts) (hl : isLong e.1 = true) (hp : p <+: e.1)
      (h3 : 3 ≤ p.length) (hs : s = p ++ '=' :: x) (h1 : e.2.kind.nargs = 1) : Reads acts s ts ⟨[(e.2, [x])], [], 0⟩
  | short (t : PyStr) (bs : List Act) (hs : s = '-' :: t) (ht : t ≠ []) (h : Shorts acts t bs) :
      Reads acts s ts ⟨bs.map (fun b => (b, [])), [], 0⟩

theorem mem_isLong {acts : List Act} (hn : Neat acts) {e : PyStr × Act} (he : e ∈ optionMap acts) {c : Char} {x : PyStr} {p : PyStr}
    (hp : p = '-' :: '-' :: c :: x) (h : p <+: e.1) : isLong e.1 = true := by
  obtain ⟨u, hu⟩ := h
  rw [← hu, hp]; rfl

/-- **An option, read.** -/
theorem reads_of {R : Reader} {acts : List Act} (hn : Neat acts) (hz : ShortFlags acts) {s : PyStr} {o : Opt}
    {ts : List (PyStr × Mark)} {f : Found} (ho : parseOptional R acts s = .ok (.opt o))
    (hc : consumeOptional acts s o ts = .ok f) (hx : f.extra = []) : Reads acts s ts f := by
  have hfall : fallback R s = .ok (.opt o) → Reads acts s ts f := by
    intro h
    obtain ⟨m, hm, h2⟩ := fallback_ok R s
    rw [hm] at h
    rcases h2 with rfl | rfl
    · cases h
    · cases h
      have : consumeOptional acts s ⟨none, s, false, none⟩ ts = .ok ⟨[], [s], 0⟩ := rfl
      rw [this] at hc
      cases hc
      cases hx
  rcases string_cases s with h1 | rfl | rfl | ⟨x, rfl⟩ | ⟨c, t, hcne, hs⟩ | ⟨c, t, hcne, rfl⟩
  · rw [parse_plain R acts h1] at ho; cases ho
  · rw [parse_dash R hn] at ho; cases ho
  · rw [parse_dashes R hn (.inl rfl)] at ho; cases ho
  · rw [parse_dashes R hn (.inr ⟨x, rfl⟩)] at ho; cases ho
  · rw [parse_long R hn hs hcne] at ho
    unfold longMark at ho
    rcases he : longOf acts (partition s).1 with _ | e
    · rw [he] at ho; exact hfall ho
    · rw [he] at ho
      dsimp only at ho
      cases ho
      obtain ⟨hm, hp⟩ := long_mem he
      rcases partition_cases s with ⟨-, h4⟩ | ⟨p, x, h3, h4, h5⟩
      · rw [h4] at hp hc
        have hlong := mem_isLong hn hm hs hp
        have hcc : following e.2 ts = .ok f := hc
        unfold following at hcc
        rcases hta : takeArgs e.2.kind.nargs ts with _ | args
        · rw [hta] at hcc; cases hcc
        · rw [hta] at hcc
          cases hcc
          exact .apart e args hm hlong hp (by rw [hs]; simp) hta
      · rw [h5] at hp hc
        have hlen : 3 ≤ p.length := by
          rcases p with _ | ⟨p1, _ | ⟨p2, _ | ⟨p3, p⟩⟩⟩
          · rw [h3] at hs; cases hs
          · rw [h3] at hs; cases hs
          · rw [h3] at hs; cases hs; exact absurd rfl hcne
          · simp
        have hp3 : ∃ q, p = '-' :: '-' :: c :: q := by
          rcases p with _ | ⟨p1, _ | ⟨p2, _ | ⟨p3, p⟩⟩⟩
          · exact absurd hlen (by simp)
          · exact absurd hlen (by simp)
          · exact absurd hlen (by simp)
          · rw [h3] at hs
            injection hs with e1 hs
            injection hs with e2 hs
            injection hs with e3 hs
            exact ⟨p, by rw [e1, e2, e3]⟩
        obtain ⟨q, hq⟩ := hp3
        have hlong := mem_isLong hn hm hq hp
        have hcc : explicit acts ts e.2 (!isLong e.1) true x = .ok f := hc
        rw [hlong, Bool.not_true, explicit_long] at hcc
        by_cases h1 : e.2.kind.nargs = 1
        · rw [if_pos h1] at hcc; cases hcc
          exact .joined e p x hm hlong hp hlen h3 h1
        · rw [if_neg h1] at hcc; cases hcc
  · rw [parse_short R hn t hcne] at ho
    unfold shortMark at ho
    rcases he : findOption acts ['-', c] with _ | a
    · rw [he] at ho; exact hfall ho
    · rw [he] at ho
      dsimp only at ho
      cases ho
      have ha := short_nargs hn hz he
      rcases t with _ | ⟨d, t'⟩
      · have hcc : following a ts = .ok f := hc
        rw [following_zero ha] at hcc
        cases hcc
        exact .short [c] [a] rfl (by simp) (.cons he .nil)
      · unfold shortOpt at hc
        dsimp only at hc
        by_cases hd : d = '='
        · rw [if_pos hd] at hc
          have hcc : explicit acts ts a (!isLong ['-', c]) true t' = .ok f := hc
          rw [explicit_eq ha] at hcc
          cases hcc
        · rw [if_neg hd] at hc
          have hcc : explicit acts ts a (!isLong ['-', c]) false (d :: t') = .ok f := hc
          rw [short_isLong hcne, Bool.not_false] at hcc
          obtain ⟨bs, h1, h2⟩ := explicit_short hn hz (d :: t') (by simp) ha hcc hx
          rw [h2]
          exact .short (c :: d :: t') (a :: bs) rfl (by simp) (.cons he h1)

/-- **An option, written.** -/
theorem of_reads {R : Reader} {acts : List Act} (hn : Neat acts) (hz : ShortFlags acts) {s : PyStr}
    {ts : List (PyStr × Mark)} {f : Found} (h : Reads acts s ts f) :
    s ≠ ['-', '-'] ∧ ∃ o, parseOptional R acts s = .ok (.opt o) ∧ consumeOptional acts s o ts = .ok f := by
  have hlong : ∀ {p : PyStr} {e : PyStr × Act}, e ∈ optionMap acts → isLong e.1 = true → p <+: e.1 → 3 ≤ p.length →
      '=' ∉ p ∧ ∃ c q, c ≠ '=' ∧ p = '-' :: '-' :: c :: q := by
    intro p e he hl hp h3
    rcases goodName_cases (hn.good e.1 (List.mem_map.2 ⟨e, he, rfl⟩)) with ⟨c', h, h', -⟩ | ⟨c', x, h, h1, h2⟩
    · rw [h, short_isLong h'] at hl; cases hl
    · refine ⟨fun hm => h1 (hp.subset hm), c', ?_⟩
      obtain ⟨u, hu⟩ := hp
      rw [h] at hu
      rcases p with _ | ⟨p1, _ | ⟨p2, _ | ⟨p3, p⟩⟩⟩
      · exact absurd h3 (by decide)
      · exact absurd h3 (by simp)
      · exact absurd h3 (by simp)
      · injection hu with e1 hu
        injection hu with e2 hu
        injection hu with e3 hu
        exact ⟨p, h2, by rw [e1, e2, e3]⟩
  cases h with
  | apart e args he hl hs h3 ha =>
    obtain ⟨hno, c, q, hc, hq⟩ := hlong he hl hs h3
    refine ⟨by rw [hq]; exact fun h => (nomatch h), ⟨some e.2, e.1, false, none⟩, ?_, ?_⟩
    · rw [parse_long R hn hq hc]
      unfold longMark
      rw [partition_none hno]
      dsimp only
      rw [longOf_full hn hq he hs]
      rfl
    · show following e.2 ts = _
      unfold following
      rw [ha]
  | joined e p x he hl hp h3 hs h1 =>
    obtain ⟨hno, c, q, hc, hq⟩ := hlong he hl hp h3
    have hs' : s = '-' :: '-' :: c :: (q ++ '=' :: x) := by rw [hs, hq]; rfl
    refine ⟨by rw [hs']; exact fun h => (nomatch h), ⟨some e.2, e.1, true, some x⟩, ?_, ?_⟩
    · rw [parse_long R hn hs' hc]
      unfold longMark
      rw [hs, partition_eq hno]
      dsimp only
      rw [longOf_full hn hq he hp]
      rfl
    · show explicit acts ts e.2 (!isLong e.1) true x = _
      rw [hl, Bool.not_true, explicit_long, if_pos h1]
  | short t bs hs ht h =>
    cases h with
    | nil => exact absurd rfl ht
    | @cons c t' a bs' hf hs' =>
      obtain ⟨hc, -⟩ := short_char hn hf
      have ha := short_nargs hn hz hf
      refine ⟨by rw [hs]; intro h; cases h; exact hc rfl, shortOpt a c t', ?_, ?_⟩
      · rw [hs, parse_short R hn t' hc]
        unfold shortMark
        rw [hf]
      · rcases t' with _ | ⟨d, t''⟩
        · cases hs'
          show following a ts = _
          rw [following_zero ha]; rfl
        · have hd : d ≠ '=' := by
            cases hs' with
            | cons h _ => exact (short_char hn h).2
          have : shortOpt a c (d :: t'') = ⟨some a, ['-', c], false, some (d :: t'')⟩ := if_neg hd
          rw [this]
          show explicit acts ts a (!isLong ['-', c]) false (d :: t'') = _
          rw [short_isLong hc, Bool.not_false, explicit_shorts hn hz hs' (by simp) ha]
          rfl

end PyZeal.Args
