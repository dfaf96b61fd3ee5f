import Verif.Spec.Plugins
import Verif.Proof.Locator

/-!
# Lemmas on plugin discovery and loading
-/

set_option linter.unusedSectionVars false

namespace PyZeal
open Spec Plugins Install

/-! ## File names -/

theorem dunder_iff (s : PyStr) : dunder s = true ↔ Dunder s := by
  unfold dunder Dunder
  rcases s with _ | ⟨a, _ | ⟨b, r⟩⟩
  · simp
  · simp
  · simp

theorem toLower_eq_p {c : Char} : c.toLower = 'p' ↔ c = 'p' ∨ c = 'P' := by
  constructor
  · intro h
    unfold Char.toLower at h
    split at h
    · right
      have h' := congrArg Char.val h
      apply Char.ext
      have : c.val + 32 = 112 := h'
      have e : c.val = 112 - 32 := by rw [← this]; simp
      rw [e]; rfl
    · exact .inl h
  · rintro (rfl | rfl) <;> rfl

theorem toLower_eq_y {c : Char} : c.toLower = 'y' ↔ c = 'y' ∨ c = 'Y' := by
  constructor
  · intro h
    unfold Char.toLower at h
    split at h
    · right
      have h' := congrArg Char.val h
      apply Char.ext
      have : c.val + 32 = 121 := h'
      have e : c.val = 121 - 32 := by rw [← this]; simp
      rw [e]; rfl
    · exact .inl h
  · rintro (rfl | rfl) <;> rfl

theorem splitext_name {s stem : PyStr} (h : PyFileName s stem) :
    (splitext s).1 = stem ∧ lower (splitext s).2 = ".py".toList := by
  obtain ⟨p, y, rfl, hp, hy, c, hc, hne⟩ := h
  have hp' : (p != '.') = true := by rcases hp with rfl | rfl <;> rfl
  have hy' : (y != '.') = true := by rcases hy with rfl | rfl <;> rfl
  have hr : (stem ++ ['.', p, y]).reverse = y :: p :: '.' :: stem.reverse := by simp
  have hall : ¬ (stem.reverse.all (· == '.')) = true := by
    intro h
    rw [List.all_eq_true] at h
    exact hne (by simpa using h c (by simpa using hc))
  have hd : (stem ++ ['.', p, y]).reverse.dropWhile (· != '.') = '.' :: stem.reverse := by
    rw [hr]; simp [List.dropWhile, hp', hy']
  have ht : (stem ++ ['.', p, y]).reverse.takeWhile (· != '.') = [y, p] := by
    rw [hr]; simp [List.takeWhile, hp', hy']
  unfold splitext
  simp only [hd, ht, if_neg hall]
  refine ⟨by simp, ?_⟩
  rcases hp with rfl | rfl <;> rcases hy with rfl | rfl <;> rfl

theorem name_of_splitext {s : PyStr} (h : lower (splitext s).2 = ".py".toList) :
    PyFileName s (splitext s).1 := by
  unfold splitext at h ⊢
  dsimp only at h ⊢
  rcases hb : s.reverse.dropWhile (· != '.') with _ | ⟨d, st⟩
  · rw [hb] at h; exact absurd h (by simp [lower])
  · rw [hb] at h
    dsimp only at h ⊢
    by_cases hall : (st.all (· == '.')) = true
    · rw [if_pos hall] at h; exact absurd h (by simp [lower])
    · rw [if_neg hall] at h ⊢
      have hd : d = '.' := by
        have := List.head?_dropWhile_not (p := (· != '.')) s.reverse
        rw [hb] at this
        simpa using this
      subst hd
      have hs : s = st.reverse ++ '.' :: (s.reverse.takeWhile (· != '.')).reverse := by
        have h1 := List.takeWhile_append_dropWhile (p := (· != '.')) (l := s.reverse)
        rw [hb] at h1
        have h2 := congrArg List.reverse h1
        rw [List.reverse_reverse] at h2
        exact h2.symm.trans (by simp)
      have hl : ∃ p y, (s.reverse.takeWhile (· != '.')).reverse = [p, y] ∧ p.toLower = 'p' ∧ y.toLower = 'y' := by
        unfold lower at h
        rw [List.map_cons] at h
        have h' : (s.reverse.takeWhile (· != '.')).reverse.map Char.toLower = ['p', 'y'] := (List.cons.inj h).2
        rcases hx : (s.reverse.takeWhile (· != '.')).reverse with _ | ⟨p, _ | ⟨y, _ | ⟨z, l⟩⟩⟩
        · rw [hx] at h'; simp at h'
        · rw [hx] at h'; simp at h'
        · rw [hx] at h'; simp only [List.map_cons, List.map_nil, List.cons.injEq] at h'
          exact ⟨p, y, rfl, h'.1, h'.2.1⟩
        · rw [hx] at h'; simp at h'
      obtain ⟨p, y, hx, hp, hy⟩ := hl
      refine ⟨p, y, ?_, toLower_eq_p.1 hp, toLower_eq_y.1 hy, ?_⟩
      · rw [hx] at hs; exact hs
      · by_contra hno
        push Not at hno
        apply hall
        rw [List.all_eq_true]
        intro c hc
        simpa using hno c (by simpa using hc)

theorem stem_unique {s a b : PyStr} (ha : PyFileName s a) (hb : PyFileName s b) : a = b :=
  (splitext_name ha).1.symm.trans (splitext_name hb).1

theorem isPyFile_candidate {c stem : PyStr} (h : Candidate c stem) : isPyFile c = '.' :: stem := by
  unfold isPyFile
  rw [if_neg]
  · rw [if_pos (splitext_name h.2).2, (splitext_name h.2).1]
  · rintro rfl
    exact h.1 ⟨"init__.py".toList, by decide⟩

theorem isPyFile_none {c : PyStr} (hd : ¬ Dunder c) (h : ∀ stem, ¬ Candidate c stem) : isPyFile c = [] := by
  unfold isPyFile
  split
  · rfl
  · rw [if_neg]
    intro he
    exact h _ ⟨hd, name_of_splitext he⟩

theorem candidate_cases {c : PyStr} (hd : ¬ Dunder c) :
    (isPyFile c = [] ∧ ∀ stem, ¬ Candidate c stem) ∨ ∃ stem, Candidate c stem ∧ isPyFile c = '.' :: stem := by
  by_cases h : ∃ stem, Candidate c stem
  · obtain ⟨stem, h⟩ := h
    exact .inr ⟨stem, h, isPyFile_candidate h⟩
  · push Not at h
    exact .inl ⟨isPyFile_none hd h, h⟩

theorem resolveName_candidate {stem : PyStr} (h : stem.head? ≠ some '.') :
    resolveName pluginPackage ('.' :: stem) = .ok (inPackage stem) := by
  have ht : ('.' :: stem).takeWhile (· == '.') = ['.'] := by
    rcases stem with _ | ⟨c, l⟩
    · rfl
    · have : (c == '.') = false := by simpa using h
      simp [List.takeWhile, this]
  have hd : ('.' :: stem).dropWhile (· == '.') = stem := by
    rcases stem with _ | ⟨c, l⟩
    · rfl
    · have : (c == '.') = false := by simpa using h
      simp [List.dropWhile, this]
  unfold resolveName
  simp only [ht, hd]
  rfl

/-! ## Loading -/

variable {T V F W C : Type} [DecidableEq T]

theorem firstPlugin_spec {attrs : List (PyStr × Attr C)} (hc : ∀ m, (m, Attr.ambiguous) ∉ attrs) :
    (firstPlugin (discoverAttributes attrs) = .ok none ∧ NoPlugin attrs) ∨
    ∃ k, firstPlugin (discoverAttributes attrs) = .ok (some k) ∧ FirstPlugin attrs k := by
  induction attrs with
  | nil => exact .inl ⟨rfl, fun m j h => by cases h⟩
  | cons a l ih =>
    obtain ⟨n, a⟩ := a
    have ih := ih fun m h => hc m (List.mem_cons_of_mem _ h)
    have skip : ∀ (_ : Dunder n ∨ ∀ j, a ≠ .plugin j),
        (NoPlugin l → NoPlugin ((n, a) :: l)) ∧ ∀ k, FirstPlugin l k → FirstPlugin ((n, a) :: l) k := by
      intro hskip
      have hn : ∀ m j, (m, Attr.plugin j) = (n, a) → Dunder m := by
        intro m j h
        injection h with h1 h2
        rcases hskip with h | h
        · rw [h1]; exact h
        · exact absurd h2.symm (h j)
      refine ⟨fun h m j hm => ?_, fun k ⟨pre, n', post, h1, h2, h3⟩ => ⟨(n, a) :: pre, n', post, by rw [h1]; rfl, h2, ?_⟩⟩
      · rcases List.mem_cons.1 hm with hm | hm
        · exact hn m j hm
        · exact h m j hm
      · intro m j hm
        rcases List.mem_cons.1 hm with hm | hm
        · exact hn m j hm
        · exact h3 m j hm
    by_cases hd : dunder n = true
    · have e : discoverAttributes ((n, a) :: l) = discoverAttributes l := by
        unfold discoverAttributes; rw [List.filter_cons_of_neg (by simp [hd])]
      rw [e]
      obtain ⟨s1, s2⟩ := skip (.inl ((dunder_iff n).1 hd))
      rcases ih with ⟨h1, h2⟩ | ⟨k, h1, h2⟩
      · exact .inl ⟨h1, s1 h2⟩
      · exact .inr ⟨k, h1, s2 k h2⟩
    · have e : discoverAttributes ((n, a) :: l) = (n, a) :: discoverAttributes l := by
        unfold discoverAttributes; rw [List.filter_cons_of_pos (by simp [hd])]
      rw [e]
      cases a with
      | base =>
        obtain ⟨s1, s2⟩ := skip (.inr (by intro j h; cases h))
        rcases ih with ⟨h1, h2⟩ | ⟨k, h1, h2⟩
        · exact .inl ⟨h1, s1 h2⟩
        · exact .inr ⟨k, h1, s2 k h2⟩
      | other =>
        obtain ⟨s1, s2⟩ := skip (.inr (by intro j h; cases h))
        rcases ih with ⟨h1, h2⟩ | ⟨k, h1, h2⟩
        · exact .inl ⟨h1, s1 h2⟩
        · exact .inr ⟨k, h1, s2 k h2⟩
      | plugin k =>
        exact .inr ⟨k, rfl, [], n, l, rfl, fun h => hd ((dunder_iff n).2 h), fun m j h => by cases h⟩
      | ambiguous => exact absurd List.mem_cons_self (hc n)

theorem importCandidate_ok (E : PlugEnv T V F W C) {stem : PyStr} (h : stem.head? ≠ some '.') :
    importCandidate E ('.' :: stem) = E.importModule (inPackage stem) := by
  unfold importCandidate
  rw [resolveName_candidate h]
  rfl

theorem candidate_head {c stem : PyStr} (h : Candidate c stem) (hc : c.head? ≠ some '.') : stem.head? ≠ some '.' := by
  obtain ⟨-, p, y, rfl, -, -, x, hx, -⟩ := h
  rcases stem with _ | ⟨d, l⟩
  · cases hx
  · simpa using hc

/-- the loop of `locateAndLoadPlugins` from the entries of the directory -/
theorem locateLoop_cons_dunder (E : PlugEnv T V F W C) {c : PyStr} {cs : List PyStr} (h : Dunder c) :
    locateLoop E (discoverModules (c :: cs)) = locateLoop E (discoverModules cs) := by
  unfold discoverModules
  rw [List.filter_cons_of_neg (by simp [(dunder_iff c).2 h])]

theorem locateLoop_cons_skip (E : PlugEnv T V F W C) {c : PyStr} {cs : List PyStr} (h : ∀ stem, ¬ Candidate c stem) :
    locateLoop E (discoverModules (c :: cs)) = locateLoop E (discoverModules cs) := by
  by_cases hd : Dunder c
  · exact locateLoop_cons_dunder E hd
  · have e : discoverModules (c :: cs) = c :: discoverModules cs := by
      unfold discoverModules
      rw [List.filter_cons_of_pos (by simpa using fun h => hd ((dunder_iff c).1 h))]
    rw [e]
    show (if isPyFile c = [] then _ else _) = _
    rw [if_pos (isPyFile_none hd h)]

theorem locateLoop_cons_take (E : PlugEnv T V F W C) {c stem : PyStr} {cs : List PyStr} (h : Candidate c stem)
    (hdot : c.head? ≠ some '.') :
    locateLoop E (discoverModules (c :: cs)) = (do
      let m ← E.importModule (inPackage stem)
      let p ← loadPlugin m
      let ps ← locateLoop E (discoverModules cs)
      pure (p.toList ++ ps)) := by
  have e : discoverModules (c :: cs) = c :: discoverModules cs := by
    unfold discoverModules
    rw [List.filter_cons_of_pos (by simpa using fun hd => h.1 ((dunder_iff c).1 hd))]
  rw [e]
  show (if isPyFile c = [] then _ else _) = _
  rw [isPyFile_candidate h, if_neg (by simp), importCandidate_ok E (candidate_head h hdot)]

theorem locateLoop_finds (E : PlugEnv T V F W C) {mods : PyStr → List (PyStr × Attr C)} (hE : ImportsFrom E mods)
    (hc : Comparable mods) (entries : List PyStr) (hdot : ∀ c ∈ entries, c.head? ≠ some '.') :
    ∃ ks, Finds mods entries ks ∧ Quiet (locateLoop E (discoverModules entries)) ks := by
  induction entries with
  | nil => exact ⟨[], .nil, fun s => ⟨s.world, rfl⟩⟩
  | cons c cs ih =>
    obtain ⟨ks, h1, h2⟩ := ih fun c' h => hdot c' (List.mem_cons_of_mem _ h)
    by_cases hcand : ∃ stem, Candidate c stem
    · obtain ⟨stem, hcand⟩ := hcand
      rw [locateLoop_cons_take E hcand (hdot c List.mem_cons_self)]
      have run : ∀ o : Option C, firstPlugin (discoverAttributes (mods (inPackage stem))) = .ok o →
          Quiet (do
            let m ← E.importModule (inPackage stem)
            let p ← loadPlugin m
            let ps ← locateLoop E (discoverModules cs)
            pure (p.toList ++ ps)) (o.toList ++ ks) := by
        intro o ho s
        obtain ⟨w1, e1⟩ := hE (inPackage stem) s
        have e2 : (loadPlugin (mods (inPackage stem)) : Py (LState T V F W) (Option C)) ⟨s.loc, w1⟩ =
            (.ok o, ⟨s.loc, w1⟩) := by unfold loadPlugin; rw [ho]; rfl
        obtain ⟨w3, e3⟩ := h2 ⟨s.loc, w1⟩
        exact ⟨w3, by rw [Py.bind_ok e1, Py.bind_ok e2, Py.bind_ok e3]; rfl⟩
      rcases firstPlugin_spec (hc (inPackage stem)) with ⟨ho, hn⟩ | ⟨k, ho, hk⟩
      · exact ⟨ks, .without hcand hn h1, run none ho⟩
      · exact ⟨k :: ks, .take hcand hk h1, run (some k) ho⟩
    · push Not at hcand
      exact ⟨ks, .skip hcand h1, by rw [locateLoop_cons_skip E hcand]; exact h2⟩

theorem finds_functional {mods : PyStr → List (PyStr × Attr C)} {entries : List PyStr} {ks ks' : List C}
    (h : Finds mods entries ks) (h' : Finds mods entries ks') : ks = ks' := by
  have uniq : ∀ {attrs : List (PyStr × Attr C)} {k : C}, FirstPlugin attrs k → ¬ NoPlugin attrs := by
    rintro attrs k ⟨pre, n, post, rfl, hn, -⟩ hno
    exact hn (hno n k (by simp))
  have uniq2 : ∀ {attrs : List (PyStr × Attr C)} {k k' : C}, FirstPlugin attrs k → FirstPlugin attrs k' → k = k' := by
    rintro attrs k k' ⟨pre, n, post, rfl, hn, hp⟩ ⟨pre', n', post', he, hn', hp'⟩
    rcases List.append_eq_append_iff.1 he with ⟨as, h1, h2⟩ | ⟨bs, h1, h2⟩
    · rcases as with _ | ⟨a, as⟩
      · simp at h2; exact h2.1.2
      · injection h2 with h2 h3
        subst h2
        exact absurd (hp' n k (by rw [h1]; simp)) hn
    · rcases bs with _ | ⟨a, as⟩
      · simp at h2; exact h2.1.2.symm
      · injection h2 with h2 h3
        subst h2
        exact absurd (hp n' k' (by rw [h1]; simp)) hn'
  induction h generalizing ks' with
  | nil => cases h'; rfl
  | skip h r ih =>
    cases h' with
    | skip _ r' => exact ih r'
    | without h2 _ _ => exact absurd h2 (h _)
    | take h2 _ _ => exact absurd h2 (h _)
  | without h hn r ih =>
    cases h' with
    | skip h2 _ => exact absurd h (h2 _)
    | without h2 _ r' => exact ih r'
    | take h2 hk _ =>
      rw [stem_unique h2.2 h.2] at hk
      exact absurd hn (uniq hk)
  | take h hk r ih =>
    cases h' with
    | skip h2 _ => exact absurd h (h2 _)
    | without h2 hn _ =>
      rw [stem_unique h2.2 h.2] at hn
      exact absurd hn (uniq hk)
    | take h2 hk' r' =>
      rw [stem_unique h2.2 h.2] at hk'
      rw [uniq2 hk hk', ih r']

/-! ## Registering -/

theorem quiet_functional {α : Type} {m : Py (LState T V F W) α} {a b : α} [Nonempty (LState T V F W)]
    (ha : Quiet m a) (hb : Quiet m b) : a = b := by
  obtain ⟨s⟩ := ‹Nonempty (LState T V F W)›
  obtain ⟨w, h⟩ := ha s
  obtain ⟨w', h'⟩ := hb s
  rw [h] at h'
  injection h' with h'
  injection h'

theorem registerPlugin_ok (E : PlugEnv T V F W C) {c : C} {v : V} {t : T} {f : F} (h : Provides E c v t f)
    (s : LState T V F W) :
    ∃ w, registerPlugin E c s = if s.loc.sealed then (.error .valueError, ⟨s.loc, w⟩) else
      (.ok v, ⟨{ s.loc with transient := s.loc.transient.set t f }, w⟩) := by
  obtain ⟨w1, h1⟩ := h.1 s
  obtain ⟨w2, h2⟩ := h.2.1 ⟨s.loc, w1⟩
  obtain ⟨w3, h3⟩ := h.2.2 ⟨s.loc, w2⟩
  refine ⟨w3, ?_⟩
  unfold registerPlugin
  rw [Py.bind_ok h1, Py.bind_ok h2, Py.bind_ok h3]
  have hr := Locator.registerAsTransient_run (T := T) (V := V) (F := F) (W := W) t f ⟨s.loc, w3⟩
  by_cases hs : s.loc.sealed = true
  · rw [if_pos hs] at hr ⊢
    exact Py.bind_error hr
  · rw [if_neg hs] at hr ⊢
    exact Py.bind_ok hr

end PyZeal
