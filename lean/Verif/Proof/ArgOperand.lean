import Verif.Proof.Argparse

/-!
# Which strings count as arguments
-/

set_option linter.unusedSectionVars false

namespace PyZeal.Args
open Spec

theorem dropWhile_split {q : Char → Bool} {a b : PyStr} (ha : ∀ c ∈ a, q c = true) (hq : q '.' = false) :
    (a ++ '.' :: b).dropWhile q = '.' :: b := by
  induction a with
  | nil => rw [List.nil_append, List.dropWhile_cons_of_neg (by rw [hq]; decide)]
  | cons c a ih =>
    rw [List.cons_append, List.dropWhile_cons_of_pos (ha c (by simp))]
    exact ih (fun d hd => ha d (List.mem_cons_of_mem _ hd))

theorem mem_takeWhile' {q : Char → Bool} {s : PyStr} {c : Char} (h : c ∈ s.takeWhile q) : q c = true := by
  induction s with
  | nil => cases h
  | cons d s ih =>
    cases hd : q d with
    | true =>
      rw [List.takeWhile_cons_of_pos hd] at h
      rcases List.mem_cons.1 h with rfl | h
      · exact hd
      · exact ih h
    | false => rw [List.takeWhile_cons_of_neg (by rw [hd]; decide)] at h; cases h

theorem dropLast_snoc {s : PyStr} {c : Char} (h : s.getLast? = some c) : s = s.dropLast ++ [c] := by
  rcases List.eq_nil_or_concat s with rfl | ⟨t, d, rfl⟩
  · cases h
  · rw [List.concat_eq_append] at h ⊢
    rw [List.getLast?_concat] at h; cases h
    rw [List.dropLast_concat]

theorem digits_iff (R : Reader) (s : PyStr) : digits R s = true ↔ s ≠ [] ∧ ∀ c ∈ s, R.digit c = true := by
  unfold digits
  rw [Bool.and_eq_true, List.all_eq_true]
  rcases s with _ | ⟨c, s⟩ <;> simp

/-- the digits of a negative number -/
def NumBody (R : Reader) (d : PyStr) : Prop :=
  (d ≠ [] ∧ ∀ c ∈ d, R.digit c = true) ∨
    ∃ a b, d = a ++ '.' :: b ∧ (∀ c ∈ a, R.digit c = true) ∧ b ≠ [] ∧ ∀ c ∈ b, R.digit c = true

theorem numBody_iff {R : Reader} (hR : DigitsOk R) (d : PyStr) :
    (digits R d || ((d.dropWhile R.digit).head? == some '.' && digits R ((d.dropWhile R.digit).drop 1))) = true ↔
      NumBody R d := by
  rw [Bool.or_eq_true, Bool.and_eq_true, digits_iff, digits_iff, beq_iff_eq]
  refine or_congr Iff.rfl ⟨?_, ?_⟩
  · rintro ⟨h1, h2, h3⟩
    refine ⟨d.takeWhile R.digit, (d.dropWhile R.digit).drop 1, ?_, ?_, h2, h3⟩
    · rcases hd : d.dropWhile R.digit with _ | ⟨c, x⟩
      · rw [hd] at h1; cases h1
      · rw [hd] at h1; cases h1
        show d = d.takeWhile R.digit ++ '.' :: x
        rw [← hd, List.takeWhile_append_dropWhile]
    · intro c hc
      exact mem_takeWhile' hc
  · rintro ⟨a, b, rfl, ha, h2, h3⟩
    rw [dropWhile_split ha hR.point]
    exact ⟨rfl, h2, h3⟩

theorem numBody_last {R : Reader} (hR : DigitsOk R) {d : PyStr} (h : NumBody R d) : d.getLast? ≠ some '\n' := by
  intro he
  have hdig : R.digit '\n' = true := by
    rcases h with ⟨-, hall⟩ | ⟨a, b, rfl, -, hb, hall⟩
    · exact hall _ (List.mem_of_getLast? he)
    · rw [List.getLast?_append, List.getLast?_cons_of_ne_nil hb] at he
      rcases hl : b.getLast? with _ | c
      · exact absurd (List.getLast?_eq_none_iff.1 hl) hb
      · rw [hl] at he
        have : c = '\n' := by simpa using he
        exact this ▸ hall c (List.mem_of_getLast? hl)
  rw [hR.newline] at hdig
  cases hdig

theorem negativeNumber_iff {R : Reader} (hR : DigitsOk R) (s : PyStr) : negativeNumber R s = true ↔ NegNumber R s := by
  constructor
  · intro h
    unfold negativeNumber at h
    split at h
    · rename_i t
      rw [numBody_iff hR] at h
      refine ⟨chomp t, ?_, h⟩
      unfold chomp
      by_cases hl : t.getLast? = some '\n'
      · rw [if_pos hl]
        right
        congr 1
        exact dropLast_snoc hl
      · rw [if_neg hl]; left; rfl
    · cases h
  · rintro ⟨d, hs, hb⟩
    have hlast := numBody_last hR hb
    have : ∀ t, chomp t = d → negativeNumber R ('-' :: t) = true := by
      intro t ht
      show (digits R (chomp t) || _) = true
      rw [ht]
      exact (numBody_iff hR d).2 hb
    rcases hs with rfl | rfl
    · exact this d (if_neg hlast)
    · refine this _ ?_
      unfold chomp
      rw [if_pos (by simp), List.dropLast_concat]

theorem fallback_arg {R : Reader} (hR : DigitsOk R) (s : PyStr) :
    fallback R s = .ok .arg ↔ NegNumber R s ∨ ' ' ∈ s := by
  unfold fallback
  rw [← negativeNumber_iff hR]
  by_cases h1 : negativeNumber R s = true
  · rw [if_pos h1]; exact ⟨fun _ => .inl h1, fun _ => rfl⟩
  · rw [if_neg h1]
    by_cases h2 : ' ' ∈ s
    · rw [if_pos h2]; exact ⟨fun _ => .inr h2, fun _ => rfl⟩
    · rw [if_neg h2]
      exact ⟨nofun, fun h => (h.elim h1 h2).elim⟩

theorem fallback_ok (R : Reader) (s : PyStr) : ∃ m, fallback R s = .ok m ∧ (m = .arg ∨ m = .opt ⟨none, s, false, none⟩) := by
  unfold fallback
  split
  · exact ⟨_, rfl, .inl rfl⟩
  · split
    · exact ⟨_, rfl, .inl rfl⟩
    · exact ⟨_, rfl, .inr rfl⟩

theorem name_of {acts : List Act} {l : List String} (hl : l.map String.toList = names acts) {n : PyStr} (h : n ∈ names acts) :
    ∃ m ∈ l, m.toList = n := by rw [← hl] at h; exact List.mem_map.1 h

theorem of_name {acts : List Act} {l : List String} (hl : l.map String.toList = names acts) {m : String} (h : m ∈ l) :
    m.toList ∈ names acts := by rw [← hl]; exact List.mem_map.2 ⟨m, h, rfl⟩

/-- the shapes of strings -/
theorem string_cases (s : PyStr) : (s.head? ≠ some '-') ∨ s = ['-'] ∨ s = ['-', '-'] ∨ (∃ x, s = '-' :: '-' :: '=' :: x) ∨
    (∃ c t, c ≠ '=' ∧ s = '-' :: '-' :: c :: t) ∨ ∃ c t, c ≠ '-' ∧ s = '-' :: c :: t := by
  rcases s with _ | ⟨a, s⟩
  · left; exact fun h => nomatch h
  · by_cases ha : a = '-'
    · subst ha
      rcases s with _ | ⟨b, s⟩
      · right; left; rfl
      · by_cases hb : b = '-'
        · subst hb
          rcases s with _ | ⟨c, s⟩
          · right; right; left; rfl
          · by_cases hc : c = '='
            · subst hc; right; right; right; left; exact ⟨s, rfl⟩
            · right; right; right; right; left; exact ⟨c, s, hc, rfl⟩
        · right; right; right; right; right; exact ⟨b, s, hb, rfl⟩
    · left; intro h; cases h; exact ha rfl

theorem parse_plain (R : Reader) (acts : List Act) {s : PyStr} (h : s.head? ≠ some '-') :
    parseOptional R acts s = .ok .arg := if_pos h

theorem parse_dash (R : Reader) {acts : List Act} (hn : Neat acts) : parseOptional R acts ['-'] = .ok .arg := by
  unfold parseOptional
  rw [if_neg (fun h => h rfl), findOption_none (not_single hn)]
  rfl

theorem partition_long {p : PyStr} {s : PyStr} (hp : '=' ∉ p) (h : s = p ∨ ∃ x, s = p ++ '=' :: x) : (partition s).1 = p := by
  rcases h with rfl | ⟨x, rfl⟩
  · rw [partition_none hp]
  · rw [partition_eq hp]

theorem looks_long {acts : List Act} (hn : Neat acts) {l : List String} (hl : l.map String.toList = names acts)
    {c : Char} {t s : PyStr} (hc : c ≠ '=') (hs : s = '-' :: '-' :: c :: t) :
    LooksLike l s ↔ longOf acts (partition s).1 ≠ none := by
  constructor
  · rintro ⟨n, hnl, ⟨c', x, h1, h2⟩ | ⟨p, h1, h2, h3⟩⟩
    · rw [hs] at h2
      have hg := hn.good _ (of_name hl hnl)
      rw [h1] at hg
      rcases goodName_cases hg with ⟨c'', e, h, -⟩ | ⟨c'', x, e, -, -⟩
      · cases e; cases h2; exact absurd rfl h
      · cases e
    · have hp : (partition s).1 = '-' :: '-' :: p := by
        refine partition_long ?_ h1
        intro h
        rcases List.mem_cons.1 h with e | h
        · exact absurd e (by decide)
        rcases List.mem_cons.1 h with e | h
        · exact absurd e (by decide)
        exact h2 h
      obtain ⟨e, he, h4⟩ := List.mem_map.1 (of_name hl hnl)
      have hp3 : ∃ q, p = c :: q := by
        rcases h1 with h1 | ⟨x, h1⟩
        · rw [hs] at h1; cases h1; exact ⟨t, rfl⟩
        · rcases p with _ | ⟨d, q⟩
          · rw [hs] at h1; cases h1; exact absurd rfl hc
          · rw [hs] at h1; cases h1; exact ⟨q, rfl⟩
      obtain ⟨q, rfl⟩ := hp3
      rw [hp, longOf_full hn rfl he (h4 ▸ h3)]
      exact fun h => nomatch h
  · intro h
    rcases he : longOf acts (partition s).1 with _ | e
    · exact absurd he h
    · obtain ⟨h1, h2⟩ := long_mem he
      obtain ⟨m, hm, hme⟩ := name_of hl (List.mem_map.2 ⟨e, h1, rfl⟩ : e.1 ∈ names acts)
      refine ⟨m, hm, .inr ?_⟩
      rcases partition_cases s with ⟨h3, h4⟩ | ⟨p, x, h3, h4, h5⟩
      · refine ⟨c :: t, .inl hs, ?_, ?_⟩
        · intro h; exact h3 (by rw [hs]; exact List.mem_cons_of_mem _ (List.mem_cons_of_mem _ h))
        · rw [h4] at h2; rw [hme, ← hs]; exact h2
      · rcases p with _ | ⟨p1, _ | ⟨p2, p⟩⟩
        · rw [h3] at hs; cases hs
        · rw [h3] at hs; cases hs
        · rw [h5] at h2
          have : p1 = '-' ∧ p2 = '-' := by
            rw [h3] at hs
            injection hs with e1 hs
            injection hs with e2 hs
            exact ⟨e1, e2⟩
          obtain ⟨rfl, rfl⟩ := this
          refine ⟨p, .inr ⟨x, h3⟩, ?_, ?_⟩
          · intro h; exact h4 (List.mem_cons_of_mem _ (List.mem_cons_of_mem _ h))
          · rw [hme]; exact h2

theorem looks_short {acts : List Act} {l : List String} (hl : l.map String.toList = names acts)
    {c : Char} {t : PyStr} (hc : c ≠ '-') :
    LooksLike l ('-' :: c :: t) ↔ findOption acts ['-', c] ≠ none := by
  constructor
  · rintro ⟨n, hnl, ⟨c', x, h1, h2⟩ | ⟨p, h1, h2, h3⟩⟩
    · cases h2
      intro h
      exact findOption_none_iff h (h1 ▸ of_name hl hnl)
    · rcases h1 with h1 | ⟨x, h1⟩
      · cases h1; exact absurd rfl hc
      · cases h1; exact absurd rfl hc
  · intro h
    rcases he : findOption acts ['-', c] with _ | a
    · exact absurd he h
    · obtain ⟨m, hm, hme⟩ := name_of hl (findOption_name he)
      exact ⟨m, hm, .inl ⟨c, t, hme, rfl⟩⟩

/-- **Arguments.** The strings classified as arguments are the operands. -/
theorem operand_iff {R : Reader} (hR : DigitsOk R) {acts : List Act} (hn : Neat acts) {l : List String}
    (hl : l.map String.toList = names acts) (s : PyStr) :
    (s ≠ ['-', '-'] ∧ parseOptional R acts s = .ok .arg) ↔ Operand R l s := by
  unfold Operand
  rcases string_cases s with h | rfl | rfl | ⟨x, rfl⟩ | ⟨c, t, hc, hs⟩ | ⟨c, t, hc, rfl⟩
  · exact ⟨fun _ => .inl h, fun _ => ⟨fun e => h (by rw [e]; rfl), parse_plain R acts h⟩⟩
  · exact ⟨fun _ => .inr (.inl rfl), fun _ => ⟨by decide, parse_dash R hn⟩⟩
  · refine ⟨fun h => absurd rfl h.1, ?_⟩
    rintro (h | h | h)
    · exact absurd rfl h
    · cases h
    · exact absurd rfl h.1
  · rw [parse_dashes R hn (.inr ⟨x, rfl⟩)]
    refine ⟨fun h => (nomatch h.2), ?_⟩
    rintro (h | h | ⟨-, h, -⟩)
    · exact absurd rfl h
    · cases h
    · refine absurd ?_ h
      have h2 := hn.two
      rcases hf : (names acts).filter isLong with _ | ⟨n, ns⟩
      · rw [hf] at h2; exact absurd h2 (by decide)
      · have hmem : n ∈ (names acts).filter isLong := by rw [hf]; simp
        rw [List.mem_filter] at hmem
        obtain ⟨m, hm, hme⟩ := name_of hl hmem.1
        obtain ⟨u, hu⟩ := isLong_cases hmem.2
        refine ⟨m, hm, .inr ⟨[], .inr ⟨x, rfl⟩, by simp, ?_⟩⟩
        rw [hme, hu]
        exact ⟨u, rfl⟩
  · rw [parse_long R hn hs hc, looks_long hn hl hc hs]
    unfold longMark
    rcases longOf acts (partition s).1 with _ | e
    · dsimp only
      rw [fallback_arg hR]
      constructor
      · rintro ⟨h1, h2⟩; exact .inr (.inr ⟨h1, fun h => h rfl, h2⟩)
      · rintro (h | h | ⟨h1, -, h2⟩)
        · rw [hs] at h; exact absurd rfl h
        · rw [hs] at h; cases h
        · exact ⟨h1, h2⟩
    · dsimp only
      constructor
      · intro h; exact nomatch h.2
      · rintro (h | h | ⟨-, h, -⟩)
        · rw [hs] at h; exact absurd rfl h
        · rw [hs] at h; cases h
        · exact absurd (fun e => nomatch e) h
  · rw [parse_short R hn t hc, looks_short hl hc]
    unfold shortMark
    have hne : ('-' :: c :: t) ≠ ['-', '-'] := by intro h; cases h; exact hc rfl
    rcases findOption acts ['-', c] with _ | a
    · dsimp only
      rw [fallback_arg hR]
      constructor
      · rintro ⟨h1, h2⟩; exact .inr (.inr ⟨h1, fun h => h rfl, h2⟩)
      · rintro (h | h | ⟨h1, -, h2⟩)
        · exact absurd rfl h
        · cases h
        · exact ⟨h1, h2⟩
    · dsimp only
      constructor
      · intro h; exact nomatch h.2
      · rintro (h | h | ⟨-, h, -⟩)
        · exact absurd rfl h
        · cases h
        · exact absurd (fun e => nomatch e) h

/-- classification fails only for two dashes, perhaps with an argument -/
theorem parse_error {R : Reader} {acts : List Act} (hn : Neat acts) {s : PyStr} {e : Stop}
    (h : parseOptional R acts s = .error e) : e = .error ∧ (s = ['-', '-'] ∨ ∃ x, s = '-' :: '-' :: '=' :: x) := by
  rcases string_cases s with h1 | rfl | rfl | ⟨x, rfl⟩ | ⟨c, t, hc, hs⟩ | ⟨c, t, hc, rfl⟩
  · rw [parse_plain R acts h1] at h; cases h
  · rw [parse_dash R hn] at h; cases h
  · rw [parse_dashes R hn (.inl rfl)] at h; cases h; exact ⟨rfl, .inl rfl⟩
  · rw [parse_dashes R hn (.inr ⟨x, rfl⟩)] at h; cases h; exact ⟨rfl, .inr ⟨x, rfl⟩⟩
  · rw [parse_long R hn hs hc] at h
    unfold longMark at h
    rcases he : longOf acts (partition s).1 with _ | e
    · rw [he] at h; obtain ⟨m, hm, -⟩ := fallback_ok R s; dsimp only at h; rw [hm] at h; cases h
    · rw [he] at h; cases h
  · rw [parse_short R hn t hc] at h
    unfold shortMark at h
    rcases he : findOption acts ['-', c] with _ | e
    · rw [he] at h; obtain ⟨m, hm, -⟩ := fallback_ok R ('-' :: c :: t); dsimp only at h; rw [hm] at h; cases h
    · rw [he] at h; cases h

end PyZeal.Args
