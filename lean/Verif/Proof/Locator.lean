import Verif.Spec.Locator
import Mathlib.Logic.Relation
import Mathlib.Data.Fintype.Card
import Mathlib.Order.WellFounded
import Mathlib.Data.Set.Finite.List

/-!
# Lemmas about the service locator
-/

set_option linter.unusedSectionVars false

namespace PyZeal
open Spec
namespace Locator
variable {T V F W : Type} [DecidableEq T] (E : LEnv T V F W)

/-! ## The operations, case by case -/

theorem registerAsSingleton_run (t : T) (v : V) (s : LState T V F W) :
    registerAsSingleton E t v s =
      if s.loc.sealed then (.error .valueError, s)
      else if E.isInst v t then
        (.ok (), ⟨{ s.loc with singleton := s.loc.singleton.set t v }, s.world⟩)
      else (.error .invalidService, s) := by
  show (if s.loc.sealed then Py.throw .valueError else _ : Py (LState T V F W) Unit) s = _
  split
  · rfl
  · split <;> rfl

theorem registerAsTransient_run (t : T) (f : F) (s : LState T V F W) :
    registerAsTransient t f s =
      if s.loc.sealed then (.error .valueError, s)
      else (.ok (), ⟨{ s.loc with transient := s.loc.transient.set t f }, s.world⟩) := by
  show (if s.loc.sealed then Py.throw .valueError else _ : Py (LState T V F W) Unit) s = _
  split <;> rfl

theorem sealLocator_run (s : LState T V F W) :
    sealLocator s = if s.loc.sealed then (.error .valueError, s)
      else (.ok (), ⟨{ s.loc with sealed := true }, s.world⟩) := by
  show (if s.loc.sealed then Py.throw .valueError else _ : Py (LState T V F W) Unit) s = _
  split <;> rfl

theorem tryResolve_zero (t : T) (kw : Dict String V) (s : LState T V F W) :
    tryResolve E 0 t kw s = (.error .recursionError, s) := rfl

theorem tryResolve_found {t : T} {s : LState T V F W} (h : E.isInst (found E s.loc t) t = true)
    (n : Nat) (kw : Dict String V) :
    tryResolve E (n + 1) t kw s = (.ok (found E s.loc t), s) := by
  show (if _ then _ else _ : Py (LState T V F W) V) s = _
  rw [if_pos h]; rfl

theorem tryResolve_none {t : T} {s : LState T V F W} (h : E.isInst (found E s.loc t) t = false)
    (hf : s.loc.transient.get? t = none) (n : Nat) (kw : Dict String V) :
    tryResolve E (n + 1) t kw s = (.error .invalidService, s) := by
  show (if _ then _ else _ : Py (LState T V F W) V) s = _
  rw [if_neg (by simp [h]), hf]; rfl

/-- what happens once a factory was found -/
def build (n : Nat) (t : T) (kw : Dict String V) (f : F) : Py (LState T V F W) V := do
  let args ← collect (fun t' => tryResolve E n t' []) kw (E.sig f)
  let v ← E.call f args
  checked E t v

theorem tryResolve_some {t : T} {s : LState T V F W} (h : E.isInst (found E s.loc t) t = false)
    {f : F} (hf : s.loc.transient.get? t = some f) (n : Nat) (kw : Dict String V) :
    tryResolve E (n + 1) t kw s = build E n t kw f s := by
  show (if _ then _ else _ : Py (LState T V F W) V) s = _
  rw [if_neg (by simp [h]), hf]; rfl

theorem checked_state (t : T) (v : V) (s : LState T V F W) : (checked E t v s).2 = s := by
  unfold checked; split <;> rfl

theorem checked_ok {t : T} {v v' : V} {s s' : LState T V F W}
    (h : checked E t v s = (.ok v', s')) : v' = v ∧ E.isInst v t = true ∧ s' = s := by
  unfold checked at h
  split at h
  · rename_i hi
    injection h with h1 h2; injection h1 with h1; exact ⟨h1.symm, hi, h2.symm⟩
  · injection h with h1; cases h1

/-! ## Nothing but registration changes the locator -/

/-- factories do not change locators with property `P` -/
def KeepOn (P : Locator T V F → Prop) : Prop :=
  ∀ f args s, P s.loc → (E.call f args s).2.loc = s.loc

variable {E}

theorem supply_keep {P : Locator T V F → Prop} {resolve : T → Py (LState T V F W) V}
    (hr : ∀ t s, P s.loc → (resolve t s).2.loc = s.loc) (kw : Dict String V) (p : Param T V)
    (s : LState T V F W) (hs : P s.loc) : (supply resolve kw p s).2.loc = s.loc := by
  unfold supply
  rcases kw.get? p.name with _ | v
  · rcases p.default with _ | v
    · rcases p.annotation with _ | t
      · rfl
      · exact hr t s hs
    · rfl
  · rfl

theorem collect_keep {P : Locator T V F → Prop} {resolve : T → Py (LState T V F W) V}
    (hr : ∀ t s, P s.loc → (resolve t s).2.loc = s.loc) (kw : Dict String V) (ps : List (Param T V)) :
    ∀ s : LState T V F W, P s.loc → (collect resolve kw ps s).2.loc = s.loc := by
  induction ps with
  | nil => intro s _; rfl
  | cons p ps ih =>
    intro s hs
    have h1 := supply_keep hr kw p s hs
    unfold collect
    rw [Py.bind_run]
    rcases he : supply resolve kw p s with ⟨_ | v, s1⟩
    · rw [he] at h1; dsimp only at h1 ⊢; exact h1
    · rw [he] at h1
      dsimp only at h1 ⊢
      have h2 := ih s1 (by rw [h1]; exact hs)
      rw [Py.bind_run]
      rcases he2 : collect resolve kw ps s1 with ⟨_ | v, s2⟩ <;>
        (rw [he2] at h2; dsimp only at h2; exact h2.trans h1)

theorem tryResolve_keep {P : Locator T V F → Prop} (hE : KeepOn E P) (n : Nat) :
    ∀ (t : T) (kw : Dict String V) (s : LState T V F W), P s.loc →
      (tryResolve E n t kw s).2.loc = s.loc := by
  induction n with
  | zero => intro t kw s _; rfl
  | succ n ih =>
    intro t kw s hs
    by_cases h : E.isInst (found E s.loc t) t = true
    · rw [tryResolve_found E h]
    · rw [Bool.not_eq_true] at h
      rcases hf : s.loc.transient.get? t with _ | f
      · rw [tryResolve_none E h hf]
      · rw [tryResolve_some E h hf]
        unfold build
        have h1 := collect_keep (P := P) (fun t s hs => ih t [] s hs) kw (E.sig f) s hs
        rw [Py.bind_run]
        rcases he : collect (fun t' => tryResolve E n t' []) kw (E.sig f) s with ⟨_ | args, s1⟩
        · rw [he] at h1; dsimp only at h1 ⊢; exact h1
        · rw [he] at h1
          dsimp only at h1 ⊢
          have h2 := hE f args s1 (by rw [h1]; exact hs)
          rw [Py.bind_run]
          rcases he2 : E.call f args s1 with ⟨_ | v, s2⟩
          · rw [he2] at h2; exact h2.trans h1
          · rw [he2] at h2
            dsimp only at h2 ⊢
            rw [checked_state, h2, h1]

theorem tryResolve_typed (n : Nat) (t : T) (kw : Dict String V) (s s' : LState T V F W) (v : V)
    (h : tryResolve E n t kw s = (.ok v, s')) : E.isInst v t = true := by
  rcases n with _ | n
  · cases h
  · by_cases hi : E.isInst (found E s.loc t) t = true
    · rw [tryResolve_found E hi] at h
      injection h with h1; injection h1 with h1; rw [← h1]; exact hi
    · rw [Bool.not_eq_true] at hi
      rcases hf : s.loc.transient.get? t with _ | f
      · rw [tryResolve_none E hi hf] at h; cases h
      · rw [tryResolve_some E hi hf] at h
        unfold build at h
        rw [Py.bind_run] at h
        rcases he : collect (fun t' => tryResolve E n t' []) kw (E.sig f) s with ⟨_ | args, s1⟩
        · rw [he] at h; cases h
        · rw [he] at h; dsimp only at h
          rw [Py.bind_run] at h
          rcases he2 : E.call f args s1 with ⟨_ | v', s2⟩
          · rw [he2] at h; cases h
          · rw [he2] at h; dsimp only at h
            obtain ⟨rfl, hv, -⟩ := checked_ok E h
            exact hv

/-! ## Histories -/

theorem events_append (n : Nat) (a b : List (LOp T V F)) :
    ∀ s : LState T V F W, events E n s (a ++ b) = events E n s a ++ events E n (final E n s a) b := by
  induction a with
  | nil => intro s; rfl
  | cons op a ih => intro s; simp [events, final, ih]

theorem final_append (n : Nat) (a b : List (LOp T V F)) :
    ∀ s : LState T V F W, final E n s (a ++ b) = final E n (final E n s a) b := by
  induction a with
  | nil => intro s; rfl
  | cons op a ih => intro s; simp [final, ih]

theorem events_split (n : Nat) (ops : List (LOp T V F)) :
    ∀ (s : LState T V F W) (pre post : List (LOp T V F × Outcome V)), events E n s ops = pre ++ post →
      ∃ a b, ops = a ++ b ∧ pre = events E n s a ∧ post = events E n (final E n s a) b := by
  induction ops with
  | nil =>
    intro s pre post h
    have h' : pre ++ post = [] := h.symm
    obtain ⟨rfl, rfl⟩ := List.append_eq_nil_iff.1 h'
    exact ⟨[], [], rfl, rfl, rfl⟩
  | cons op ops ih =>
    intro s pre post h
    rcases pre with _ | ⟨e, pre⟩
    · exact ⟨[], op :: ops, rfl, rfl, h.symm⟩
    · simp only [events, List.cons_append, List.cons.injEq] at h
      obtain ⟨a, b, rfl, h2, h3⟩ := ih _ pre post h.2
      refine ⟨op :: a, b, rfl, ?_, ?_⟩
      · rw [← h.1, h2]; rfl
      · rw [h3]; rfl

theorem events_split_cons (n : Nat) (ops : List (LOp T V F)) (s : LState T V F W)
    (pre post : List (LOp T V F × Outcome V)) (e : LOp T V F × Outcome V)
    (h : events E n s ops = pre ++ e :: post) :
      ∃ a b, ops = a ++ e.1 :: b ∧ pre = events E n s a ∧ e.2 = (step E n (final E n s a) e.1).1 ∧
        post = events E n (step E n (final E n s a) e.1).2 b := by
  obtain ⟨a, b, rfl, h1, h2⟩ := events_split n ops s pre _ h
  rcases b with _ | ⟨op, b⟩
  · cases h2
  · simp only [events, List.cons.injEq] at h2
    obtain ⟨rfl, h2⟩ := h2
    exact ⟨a, b, rfl, h1, rfl, h2⟩

theorem step_keep_singleton (hE : FactoriesKeep E) (n : Nat) (s : LState T V F W) (t : T)
    (op : LOp T V F) (hc : op ≠ .clear) (hs : ¬ singletonFor t (op, (step E n s op).1)) :
    (step E n s op).2.loc.singleton.get? t = s.loc.singleton.get? t := by
  cases op with
  | singleton t' v =>
    by_cases e : t' = t
    · subst e
      simp only [step, registerAsSingleton_run] at hs ⊢
      split
      · rfl
      · rename_i h1
        split
        · rename_i h2
          exfalso; apply hs
          refine ⟨v, rfl, ?_⟩
          dsimp only; rw [if_neg h1, if_pos h2]; rfl
        · rfl
    · simp only [step, registerAsSingleton_run]
      split
      · rfl
      · split
        · simp [Dict.get?_set, e]
        · rfl
  | transient t' f =>
    simp only [step, registerAsTransient_run]
    split <;> rfl
  | resolve t' kw =>
    simp only [step]
    rw [tryResolve_keep (P := fun _ => True) (fun f a s _ => hE f a s) n t' kw s trivial]
  | sealing => simp only [step, sealLocator_run]; split <;> rfl
  | isSealed => rfl
  | clear => exact absurd rfl hc

theorem step_keep_transient (hE : FactoriesKeep E) (n : Nat) (s : LState T V F W) (t : T)
    (op : LOp T V F) (hc : op ≠ .clear) (hs : ¬ transientFor t (op, (step E n s op).1)) :
    (step E n s op).2.loc.transient.get? t = s.loc.transient.get? t := by
  cases op with
  | singleton t' v =>
    simp only [step, registerAsSingleton_run]
    split
    · rfl
    · split <;> rfl
  | transient t' f =>
    by_cases e : t' = t
    · subst e
      simp only [step, registerAsTransient_run] at hs ⊢
      split
      · rfl
      · rename_i h1
        exfalso; apply hs
        refine ⟨f, rfl, ?_⟩
        dsimp only; rw [if_neg h1]; rfl
    · simp only [step, registerAsTransient_run]
      split
      · rfl
      · simp [Dict.get?_set, e]
  | resolve t' kw =>
    simp only [step]
    rw [tryResolve_keep (P := fun _ => True) (fun f a s _ => hE f a s) n t' kw s trivial]
  | sealing => simp only [step, sealLocator_run]; split <;> rfl
  | isSealed => rfl
  | clear => exact absurd rfl hc

theorem final_keep_singleton (hE : FactoriesKeep E) (n : Nat) (t : T) (ops : List (LOp T V F)) :
    ∀ s : LState T V F W, NoClear (events E n s ops) → (∀ e ∈ events E n s ops, ¬ singletonFor t e) →
      (final E n s ops).loc.singleton.get? t = s.loc.singleton.get? t := by
  induction ops with
  | nil => intro s _ _; rfl
  | cons op ops ih =>
    intro s hc hs
    show (final E n (step E n s op).2 ops).loc.singleton.get? t = _
    rw [ih _ (fun e he => hc e (List.mem_cons_of_mem _ he)) (fun e he => hs e (List.mem_cons_of_mem _ he))]
    exact step_keep_singleton hE n s t op (hc _ List.mem_cons_self) (hs _ List.mem_cons_self)

theorem final_keep_transient (hE : FactoriesKeep E) (n : Nat) (t : T) (ops : List (LOp T V F)) :
    ∀ s : LState T V F W, NoClear (events E n s ops) → (∀ e ∈ events E n s ops, ¬ transientFor t e) →
      (final E n s ops).loc.transient.get? t = s.loc.transient.get? t := by
  induction ops with
  | nil => intro s _ _; rfl
  | cons op ops ih =>
    intro s hc hs
    show (final E n (step E n s op).2 ops).loc.transient.get? t = _
    rw [ih _ (fun e he => hc e (List.mem_cons_of_mem _ he)) (fun e he => hs e (List.mem_cons_of_mem _ he))]
    exact step_keep_transient hE n s t op (hc _ List.mem_cons_self) (hs _ List.mem_cons_self)

theorem step_singleton_ok (n : Nat) (s : LState T V F W) (t : T) (v : V)
    (h : (step E n s (.singleton t v)).1.isOk = true) :
    E.isInst v t = true ∧ (step E n s (.singleton t v)).2.loc.singleton.get? t = some v := by
  simp only [step, registerAsSingleton_run] at h ⊢
  split at h
  · simp [answer, Outcome.isOk] at h
  · split at h
    · rename_i h1 h2
      refine ⟨h2, ?_⟩
      rw [if_neg h1, if_pos h2]
      simp [Dict.get?_set]
    · simp [answer, Outcome.isOk] at h

theorem step_transient_ok (n : Nat) (s : LState T V F W) (t : T) (f : F)
    (h : (step E n s (.transient t f)).1.isOk = true) :
    (step E n s (.transient t f)).2.loc.transient.get? t = some f := by
  simp only [step, registerAsTransient_run] at h ⊢
  split at h
  · simp [answer, Outcome.isOk] at h
  · rename_i h1
    rw [if_neg h1]
    simp [Dict.get?_set]

/-- the history since the last clear starts from an empty locator, or is the whole history -/
theorem sinceClear_split {n : Nat} {s : LState T V F W} {ops : List (LOp T V F)}
    {recent : List (LOp T V F × Outcome V)} (h : SinceClear (events E n s ops) recent) :
    ∃ s1 b, recent = events E n s1 b ∧ final E n s ops = final E n s1 b ∧ (s1 = s ∨ s1.loc = empty) := by
  obtain ⟨-, h | ⟨old, o, h⟩⟩ := h
  · exact ⟨s, ops, h.symm, rfl, .inl rfl⟩
  · obtain ⟨a, b, hops, -, -, hr⟩ := events_split_cons n ops s old recent _ h
    refine ⟨_, b, hr, ?_, .inr ?_⟩
    · rw [hops, final_append]; rfl
    · rfl

theorem inForceSingleton_get {hE : FactoriesKeep E} {n : Nat} {s : LState T V F W} {ops : List (LOp T V F)}
    {t : T} {v : V} (h : InForceSingleton (events E n s ops) t v) :
    E.isInst v t = true ∧ (final E n s ops).loc.singleton.get? t = some v := by
  obtain ⟨recent, pre, post, o, hsc, hrec, hok, hpost⟩ := h
  obtain ⟨s1, b, h1, h2, -⟩ := sinceClear_split hsc
  obtain ⟨a, c, hops, -, ho, hp⟩ := events_split_cons n b s1 pre post _ (h1.symm.trans hrec)
  dsimp only at ho hops hp
  rw [ho] at hok
  obtain ⟨hi, hg⟩ := step_singleton_ok n _ t v hok
  refine ⟨hi, ?_⟩
  rw [h2, hops, final_append]
  show (final E n (step E n _ _).2 c).loc.singleton.get? t = some v
  rw [final_keep_singleton hE n t c _ _ (by rw [← hp]; exact hpost), hg]
  rw [← hp]
  intro e he
  exact hsc.1 e (by rw [hrec]; exact List.mem_append_right _ (List.mem_cons_of_mem _ he))

theorem inForceTransient_get {hE : FactoriesKeep E} {n : Nat} {s : LState T V F W} {ops : List (LOp T V F)}
    {t : T} {f : F} (h : InForceTransient (events E n s ops) t f) :
    (final E n s ops).loc.transient.get? t = some f := by
  obtain ⟨recent, pre, post, o, hsc, hrec, hok, hpost⟩ := h
  obtain ⟨s1, b, h1, h2, -⟩ := sinceClear_split hsc
  obtain ⟨a, c, hops, -, ho, hp⟩ := events_split_cons n b s1 pre post _ (h1.symm.trans hrec)
  dsimp only at ho hops hp
  rw [ho] at hok
  have hg := step_transient_ok n _ t f hok
  rw [h2, hops, final_append]
  show (final E n (step E n _ _).2 c).loc.transient.get? t = some f
  rw [final_keep_transient hE n t c _ _ (by rw [← hp]; exact hpost), hg]
  rw [← hp]
  intro e he
  exact hsc.1 e (by rw [hrec]; exact List.mem_append_right _ (List.mem_cons_of_mem _ he))

theorem noSingleton_get {hE : FactoriesKeep E} {n : Nat} {s : LState T V F W} (hs : s.loc = empty)
    {ops : List (LOp T V F)} {t : T} (h : NoSingleton (events E n s ops) t) :
    (final E n s ops).loc.singleton.get? t = none := by
  obtain ⟨recent, hsc, hno⟩ := h
  obtain ⟨s1, b, h1, h2, h3⟩ := sinceClear_split hsc
  have : s1.loc = empty := by rcases h3 with rfl | h3 <;> assumption
  rw [h2, final_keep_singleton hE n t b s1 (by rw [← h1]; exact hsc.1) (by rw [← h1]; exact hno), this]
  rfl

theorem noTransient_get {hE : FactoriesKeep E} {n : Nat} {s : LState T V F W} (hs : s.loc = empty)
    {ops : List (LOp T V F)} {t : T} (h : NoTransient (events E n s ops) t) :
    (final E n s ops).loc.transient.get? t = none := by
  obtain ⟨recent, hsc, hno⟩ := h
  obtain ⟨s1, b, h1, h2, h3⟩ := sinceClear_split hsc
  have : s1.loc = empty := by rcases h3 with rfl | h3 <;> assumption
  rw [h2, final_keep_transient hE n t b s1 (by rw [← h1]; exact hsc.1) (by rw [← h1]; exact hno), this]
  rfl

/-! ## Arguments -/

/-- `ServiceLocator.tryResolve(t)` returns `v` -/
def Returns (E : LEnv T V F W) (n : Nat) (s : LState T V F W) (t : T) (v : V) (s' : LState T V F W) : Prop :=
  tryResolve E n t [] s = (.ok v, s')

theorem supply_ok {kw : Dict String V} (hkw : kw.WF) {n : Nat} {p : Param T V} {s s' : LState T V F W} {v : V} :
    supply (fun t' => tryResolve E n t' []) kw p s = (.ok v, s') ↔
      Supplied E kw (Returns E n) s p v s' := by
  constructor
  · intro h
    unfold supply at h
    rcases hk : kw.get? p.name with _ | v'
    · have hno : ∀ v', (p.name, v') ∉ kw := fun v' hm => by
        rw [Dict.get?_of_mem hkw hm] at hk; cases hk
      rw [hk] at h; dsimp only at h
      rcases hd : p.default with _ | v'
      · rw [hd] at h; dsimp only at h
        rcases ha : p.annotation with _ | t
        · rw [ha] at h; cases h
        · rw [ha] at h; dsimp only at h
          exact .service hno hd ha h
      · rw [hd] at h
        injection h with h1 h2; injection h1 with h1; subst h1; subst h2
        exact .default hno hd
    · rw [hk] at h
      injection h with h1 h2; injection h1 with h1; subst h1; subst h2
      exact .kwarg (Dict.mem_of_get? hk)
  · intro h
    cases h with
    | kwarg h =>
      unfold supply; rw [Dict.get?_of_mem hkw h]; rfl
    | default hk h =>
      unfold supply
      have : kw.get? p.name = none := by
        rcases hx : kw.get? p.name with _ | v'
        · rfl
        · exact absurd (Dict.mem_of_get? hx) (hk v')
      rw [this, h]; rfl
    | service hk hd ha h =>
      unfold supply
      have : kw.get? p.name = none := by
        rcases hx : kw.get? p.name with _ | v'
        · rfl
        · exact absurd (Dict.mem_of_get? hx) (hk v')
      rw [this, hd, ha]; exact h

theorem collect_ok {kw : Dict String V} (hkw : kw.WF) {n : Nat} (ps : List (Param T V)) :
    ∀ {s s' : LState T V F W} {args : List (String × V)},
      collect (fun t' => tryResolve E n t' []) kw ps s = (.ok args, s') ↔
      SuppliedAll E kw (Returns E n) s ps args s' := by
  induction ps with
  | nil =>
    intro s s' args
    constructor
    · intro h
      injection h with h1 h2; injection h1 with h1; subst h1; subst h2; exact .nil
    · intro h; cases h; rfl
  | cons p ps ih =>
    intro s s' args
    constructor
    · intro h
      unfold collect at h
      rw [Py.bind_run] at h
      rcases he : supply (fun t' => tryResolve E n t' []) kw p s with ⟨_ | v, s1⟩
      · rw [he] at h; cases h
      · rw [he] at h; dsimp only at h
        rw [Py.bind_run] at h
        rcases he2 : collect (fun t' => tryResolve E n t' []) kw ps s1 with ⟨_ | rest, s2⟩
        · rw [he2] at h; cases h
        · rw [he2] at h; dsimp only at h
          injection h with h1 h2; injection h1 with h1; subst h1; subst h2
          exact .cons ((supply_ok hkw).1 he) (ih.1 he2)
    · intro h
      cases h with
      | cons h hs =>
        have h1 := (supply_ok hkw).2 h
        have h2 := ih.2 hs
        unfold collect
        rw [Py.bind_ok h1, Py.bind_ok h2]; rfl

/-- a parameter that gets no argument -/
theorem collect_error {kw : Dict String V} (hkw : kw.WF) {n : Nat} (ps : List (Param T V)) :
    ∀ {s s' : LState T V F W} {e : Err},
      collect (fun t' => tryResolve E n t' []) kw ps s = (.error e, s') →
      ∃ ps1 p ps2 args s1, ps = ps1 ++ p :: ps2 ∧ SuppliedAll E kw (Returns E n) s ps1 args s1 ∧
        (∀ v, (p.name, v) ∉ kw) ∧ p.default = none ∧
        ((p.annotation = none ∧ e = .typeError) ∨
          ∃ t', p.annotation = some t' ∧ tryResolve E n t' [] s1 = (.error e, s')) := by
  induction ps with
  | nil => intro s s' e h; cases h
  | cons p ps ih =>
    intro s s' e h
    unfold collect at h
    rw [Py.bind_run] at h
    rcases he : supply (fun t' => tryResolve E n t' []) kw p s with ⟨e' | v, s1⟩
    · rw [he] at h; dsimp only at h
      injection h with h1 h2; injection h1 with h1; subst h1; subst h2
      refine ⟨[], p, ps, [], s, rfl, .nil, ?_⟩
      unfold supply at he
      rcases hk : kw.get? p.name with _ | v'
      · have hno : ∀ v', (p.name, v') ∉ kw := fun v' hm => by
          rw [Dict.get?_of_mem hkw hm] at hk; cases hk
        rw [hk] at he; dsimp only at he
        refine ⟨hno, ?_⟩
        rcases hd : p.default with _ | v'
        · rw [hd] at he; dsimp only at he
          rcases ha : p.annotation with _ | t
          · rw [ha] at he
            injection he with h1; injection h1 with h1
            exact ⟨rfl, .inl ⟨rfl, h1.symm⟩⟩
          · rw [ha] at he; dsimp only at he
            exact ⟨rfl, .inr ⟨t, rfl, he⟩⟩
        · rw [hd] at he; cases he
      · rw [hk] at he; cases he
    · rw [he] at h; dsimp only at h
      rw [Py.bind_run] at h
      rcases he2 : collect (fun t' => tryResolve E n t' []) kw ps s1 with ⟨e' | rest, s2⟩
      · rw [he2] at h; dsimp only at h
        injection h with h1 h2; injection h1 with h1; subst h1; subst h2
        obtain ⟨ps1, q, ps2, args, s3, h1, h2, h3⟩ := ih he2
        exact ⟨p :: ps1, q, ps2, (p.name, v) :: args, s3, by rw [h1]; rfl,
          .cons ((supply_ok hkw).1 he) h2, h3⟩
      · rw [he2] at h; cases h

/-- the three ways a factory call can end -/
theorem build_cases {kw : Dict String V} (hkw : kw.WF) {n : Nat} {t : T} {f : F} {s s' : LState T V F W}
    {r : Except Err V} (h : build E n t kw f s = (r, s')) :
    (∃ args s1, SuppliedAll E kw (Returns E n) s (E.sig f) args s1 ∧
      ((∃ v, E.call f args s1 = (.ok v, s') ∧ r = if E.isInst v t then .ok v else .error .invalidService) ∨
        ∃ e, E.call f args s1 = (.error e, s') ∧ r = .error e)) ∨
    (∃ ps1 p ps2 args s1 e, E.sig f = ps1 ++ p :: ps2 ∧ SuppliedAll E kw (Returns E n) s ps1 args s1 ∧
        (∀ v, (p.name, v) ∉ kw) ∧ p.default = none ∧ r = .error e ∧
        ((p.annotation = none ∧ e = .typeError) ∨
          ∃ t', p.annotation = some t' ∧ tryResolve E n t' [] s1 = (.error e, s'))) := by
  unfold build at h
  rw [Py.bind_run] at h
  rcases he : collect (fun t' => tryResolve E n t' []) kw (E.sig f) s with ⟨e | args, s1⟩
  · right
    rw [he] at h; dsimp only at h
    injection h with h1 h2; subst h1; subst h2
    obtain ⟨ps1, p, ps2, args, s3, h1, h2, h3, h4, h5⟩ := collect_error hkw _ he
    exact ⟨ps1, p, ps2, args, s3, e, h1, h2, h3, h4, rfl, h5⟩
  · left
    rw [he] at h; dsimp only at h
    refine ⟨args, s1, (collect_ok hkw _).1 he, ?_⟩
    rw [Py.bind_run] at h
    rcases he2 : E.call f args s1 with ⟨e | v, s2⟩
    · rw [he2] at h; dsimp only at h
      injection h with h1 h2; subst h1; subst h2
      exact .inr ⟨e, rfl, rfl⟩
    · rw [he2] at h; dsimp only at h
      left
      unfold checked at h
      refine ⟨v, ?_, ?_⟩
      · split at h <;> (injection h with h1 h2; rw [h2])
      · split at h <;> (rename_i hi; injection h with h1 h2; rw [← h1]; simp [hi])

/-- only the keyword arguments that are parameters matter -/
theorem collect_congr (resolve : T → Py (LState T V F W) V) {kw kw' : Dict String V} (ps : List (Param T V)) :
    (∀ p ∈ ps, kw.get? p.name = kw'.get? p.name) → collect resolve kw ps = collect resolve kw' ps := by
  induction ps with
  | nil => intro _; rfl
  | cons p ps ih =>
    intro h
    unfold collect
    rw [ih (fun q hq => h q (List.mem_cons_of_mem _ hq))]
    unfold supply
    rw [h p List.mem_cons_self]

/-! ## Termination -/

/-- a locator entry that is used -/
theorem not_found_of_requires {l : Locator T V F} {t t' : T} (hn : E.isInst E.none t = false)
    (h : Requires E l t t') : E.isInst (found E l t) t = false := by
  unfold found
  rcases hg : l.singleton.get? t with _ | v
  · exact hn
  · exact h.1 v hg

theorem supply_stable (hE : FactoriesKeep E) {l : Locator T V F} (kw : Dict String V) (p : Param T V) {N : Nat}
    (h : ∀ t', p.default = none → p.annotation = some t' → ∀ m, N ≤ m → ∀ s : LState T V F W, s.loc = l →
      tryResolve E m t' [] s = tryResolve E N t' [] s)
    (m : Nat) (hm : N ≤ m) (s : LState T V F W) (hs : s.loc = l) :
    supply (fun t' => tryResolve E m t' []) kw p s = supply (fun t' => tryResolve E N t' []) kw p s := by
  unfold supply
  rcases kw.get? p.name with _ | v
  · rcases hd : p.default with _ | v
    · rcases ha : p.annotation with _ | t'
      · rfl
      · exact h t' hd ha m hm s hs
    · rfl
  · rfl

theorem collect_stable (hE : FactoriesKeep E) {l : Locator T V F} (kw : Dict String V) {N : Nat} (ps : List (Param T V)) :
    (∀ p ∈ ps, ∀ t', p.default = none → p.annotation = some t' → ∀ m, N ≤ m → ∀ s : LState T V F W, s.loc = l →
      tryResolve E m t' [] s = tryResolve E N t' [] s) →
    ∀ (m : Nat), N ≤ m → ∀ (s : LState T V F W), s.loc = l →
    collect (fun t' => tryResolve E m t' []) kw ps s = collect (fun t' => tryResolve E N t' []) kw ps s := by
  induction ps with
  | nil => intros; rfl
  | cons p ps ih =>
    intro h m hm s hs
    have h1 := supply_stable hE kw p (h p List.mem_cons_self) m hm s hs
    unfold collect
    rw [Py.bind_run, Py.bind_run, h1]
    have hk : (supply (fun t' => tryResolve E N t' []) kw p s).2.loc = s.loc :=
      supply_keep (P := fun _ => True)
        (fun t s _ => tryResolve_keep (P := fun _ => True) (fun f a s _ => hE f a s) N t [] s trivial) kw p s trivial
    rcases he : supply (fun t' => tryResolve E N t' []) kw p s with ⟨e | v, s1⟩
    · rfl
    · rw [he] at hk
      dsimp only
      rw [Py.bind_run, Py.bind_run, ih (fun q hq => h q (List.mem_cons_of_mem _ hq)) m hm s1 (hk.trans hs)]

/-- finitely many services, each of which stabilises, stabilise together -/
theorem exists_common {l : Locator T V F} (ps : List (Param T V)) :
    (∀ p ∈ ps, ∀ t', p.default = none → p.annotation = some t' →
      ∃ N, ∀ m, N ≤ m → ∀ (kw : Dict String V) (s : LState T V F W), s.loc = l → tryResolve E m t' kw s = tryResolve E N t' kw s) →
    ∃ N, ∀ p ∈ ps, ∀ t', p.default = none → p.annotation = some t' →
      ∀ m, N ≤ m → ∀ s : LState T V F W, s.loc = l → tryResolve E m t' [] s = tryResolve E N t' [] s := by
  induction ps with
  | nil => intro _; exact ⟨0, by simp⟩
  | cons p ps ih =>
    intro h
    obtain ⟨N1, h1⟩ := ih fun q hq => h q (List.mem_cons_of_mem _ hq)
    have h2 : ∃ N, ∀ t', p.default = none → p.annotation = some t' →
      ∀ m, N ≤ m → ∀ s : LState T V F W, s.loc = l → tryResolve E m t' [] s = tryResolve E N t' [] s := by
      rcases hd : p.default with _ | v
      · rcases ha : p.annotation with _ | t'
        · exact ⟨0, by simp⟩
        · obtain ⟨N, hN⟩ := h p List.mem_cons_self t' hd ha
          exact ⟨N, fun t'' _ e m hm s hs => by injection e with e; subst e; exact hN m hm [] s hs⟩
      · exact ⟨0, by simp⟩
    obtain ⟨N2, h2⟩ := h2
    refine ⟨max N1 N2, fun q hq t' hd ha m hm s hs => ?_⟩
    rcases List.mem_cons.1 hq with rfl | hq
    · rw [h2 t' hd ha m (by omega) s hs, h2 t' hd ha (max N1 N2) (by omega) s hs]
    · rw [h1 q hq t' hd ha m (by omega) s hs, h1 q hq t' hd ha (max N1 N2) (by omega) s hs]

theorem tryResolve_stable (hE : FactoriesKeep E) {l : Locator T V F} {t : T}
    (hacc : Acc (fun b a => Requires E l a b) t) :
    ∃ N, ∀ m, N ≤ m → ∀ (kw : Dict String V) (s : LState T V F W), s.loc = l →
      tryResolve E m t kw s = tryResolve E N t kw s := by
  induction hacc with
  | intro t _ ih =>
    by_cases hi : E.isInst (found E l t) t = true
    · refine ⟨1, fun m hm kw s hs => ?_⟩
      obtain ⟨m, rfl⟩ : ∃ k, m = k + 1 := ⟨m - 1, by omega⟩
      rw [tryResolve_found E (by rw [hs]; exact hi), tryResolve_found E (by rw [hs]; exact hi)]
    · rw [Bool.not_eq_true] at hi
      rcases hf : l.transient.get? t with _ | f
      · refine ⟨1, fun m hm kw s hs => ?_⟩
        obtain ⟨m, rfl⟩ : ∃ k, m = k + 1 := ⟨m - 1, by omega⟩
        rw [tryResolve_none E (by rw [hs]; exact hi) (by rw [hs]; exact hf),
          tryResolve_none E (by rw [hs]; exact hi) (by rw [hs]; exact hf)]
      · have hno : ∀ v, l.singleton.get? t = some v → E.isInst v t = false := by
          intro v hv
          unfold found at hi; rw [hv] at hi; exact hi
        obtain ⟨N, hN⟩ := exists_common (E := E) (l := l) (E.sig f)
          (fun p hp t' hd ha => ih t' ⟨hno, f, p, hf, hp, hd, ha⟩)
        refine ⟨N + 1, fun m hm kw s hs => ?_⟩
        obtain ⟨m, rfl⟩ : ∃ k, m = k + 1 := ⟨m - 1, by omega⟩
        rw [tryResolve_some E (by rw [hs]; exact hi) (by rw [hs]; exact hf),
          tryResolve_some E (by rw [hs]; exact hi) (by rw [hs]; exact hf)]
        unfold build
        rw [Py.bind_run, Py.bind_run, collect_stable hE kw (E.sig f) hN m (by omega) s hs]

/-- with acyclic dependencies the recursion bound is not what stops the resolution -/
theorem collect_noRec (hE : FactoriesKeep E) {l : Locator T V F} (kw : Dict String V) {N : Nat} (ps : List (Param T V)) :
    (∀ p ∈ ps, ∀ t', p.default = none → p.annotation = some t' → ∀ s : LState T V F W, s.loc = l →
      (tryResolve E N t' [] s).1 ≠ .error .recursionError) →
    ∀ (s : LState T V F W), s.loc = l →
      (collect (fun t' => tryResolve E N t' []) kw ps s).1 ≠ .error .recursionError := by
  induction ps with
  | nil => intro _ s _ h; cases h
  | cons p ps ih =>
    intro h s hs
    unfold collect
    rw [Py.bind_run]
    have hk : (supply (fun t' => tryResolve E N t' []) kw p s).2.loc = s.loc :=
      supply_keep (P := fun _ => True)
        (fun t s _ => tryResolve_keep (P := fun _ => True) (fun f a s _ => hE f a s) N t [] s trivial) kw p s trivial
    have h1 : (supply (fun t' => tryResolve E N t' []) kw p s).1 ≠ .error .recursionError := by
      unfold supply
      rcases kw.get? p.name with _ | v
      · rcases hd : p.default with _ | v
        · rcases ha : p.annotation with _ | t'
          · intro h; cases h
          · exact h p List.mem_cons_self t' hd ha s hs
        · intro h; cases h
      · intro h; cases h
    rcases he : supply (fun t' => tryResolve E N t' []) kw p s with ⟨e | v, s1⟩
    · rw [he] at h1; dsimp only at h1 ⊢; exact fun hh => h1 (by injection hh with hh; rw [hh])
    · rw [he] at hk
      dsimp only
      rw [Py.bind_run]
      have h2 := ih (fun q hq => h q (List.mem_cons_of_mem _ hq)) s1 (hk.trans hs)
      rcases he2 : collect (fun t' => tryResolve E N t' []) kw ps s1 with ⟨e | rest, s2⟩
      · rw [he2] at h2; dsimp only at h2 ⊢; exact h2
      · intro h; cases h

theorem exists_common_noRec {l : Locator T V F} (ps : List (Param T V)) :
    (∀ p ∈ ps, ∀ t', p.default = none → p.annotation = some t' →
      ∃ N, ∀ m, N ≤ m → ∀ (kw : Dict String V) (s : LState T V F W), s.loc = l → (tryResolve E m t' kw s).1 ≠ .error .recursionError) →
    ∃ N, ∀ m, N ≤ m → ∀ p ∈ ps, ∀ t', p.default = none → p.annotation = some t' →
      ∀ s : LState T V F W, s.loc = l → (tryResolve E m t' [] s).1 ≠ .error .recursionError := by
  induction ps with
  | nil => intro _; exact ⟨0, by simp⟩
  | cons p ps ih =>
    intro h
    obtain ⟨N1, h1⟩ := ih fun q hq => h q (List.mem_cons_of_mem _ hq)
    have h2 : ∃ N, ∀ m, N ≤ m → ∀ t', p.default = none → p.annotation = some t' →
      ∀ s : LState T V F W, s.loc = l → (tryResolve E m t' [] s).1 ≠ .error .recursionError := by
      rcases hd : p.default with _ | v
      · rcases ha : p.annotation with _ | t'
        · exact ⟨0, by simp⟩
        · obtain ⟨N, hN⟩ := h p List.mem_cons_self t' hd ha
          exact ⟨N, fun m hm t'' _ e s hs => by injection e with e; subst e; exact hN m hm [] s hs⟩
      · exact ⟨0, by simp⟩
    obtain ⟨N2, h2⟩ := h2
    refine ⟨max N1 N2, fun m hm q hq t' hd ha s hs => ?_⟩
    rcases List.mem_cons.1 hq with rfl | hq
    · exact h2 m (by omega) t' hd ha s hs
    · exact h1 m (by omega) q hq t' hd ha s hs

theorem tryResolve_noRec (hE : FactoriesKeep E)
    (hC : ∀ f args s, (E.call f args s).1 ≠ .error .recursionError) {l : Locator T V F} {t : T}
    (hacc : Acc (fun b a => Requires E l a b) t) :
    ∃ N, ∀ m, N ≤ m → ∀ (kw : Dict String V) (s : LState T V F W), s.loc = l →
      (tryResolve E m t kw s).1 ≠ .error .recursionError := by
  induction hacc with
  | intro t _ ih =>
    by_cases hi : E.isInst (found E l t) t = true
    · refine ⟨1, fun m hm kw s hs => ?_⟩
      obtain ⟨m, rfl⟩ : ∃ k, m = k + 1 := ⟨m - 1, by omega⟩
      rw [tryResolve_found E (by rw [hs]; exact hi)]
      intro h; cases h
    · rw [Bool.not_eq_true] at hi
      rcases hf : l.transient.get? t with _ | f
      · refine ⟨1, fun m hm kw s hs => ?_⟩
        obtain ⟨m, rfl⟩ : ∃ k, m = k + 1 := ⟨m - 1, by omega⟩
        rw [tryResolve_none E (by rw [hs]; exact hi) (by rw [hs]; exact hf)]
        intro h; cases h
      · have hno : ∀ v, l.singleton.get? t = some v → E.isInst v t = false := by
          intro v hv
          unfold found at hi; rw [hv] at hi; exact hi
        obtain ⟨N, hN⟩ := exists_common_noRec (E := E) (l := l) (E.sig f)
          (fun p hp t' hd ha => ih t' ⟨hno, f, p, hf, hp, hd, ha⟩)
        refine ⟨N + 1, fun m hm kw s hs => ?_⟩
        obtain ⟨m, rfl⟩ : ∃ k, m = k + 1 := ⟨m - 1, by omega⟩
        rw [tryResolve_some E (by rw [hs]; exact hi) (by rw [hs]; exact hf)]
        unfold build
        rw [Py.bind_run]
        have h1 := collect_noRec hE kw (E.sig f) (hN m (by omega)) s hs
        rcases he : collect (fun t' => tryResolve E m t' []) kw (E.sig f) s with ⟨e | args, s1⟩
        · rw [he] at h1; dsimp only at h1 ⊢; exact fun hh => h1 (by injection hh with hh; rw [hh])
        · dsimp only
          rw [Py.bind_run]
          have h2 := hC f args s1
          rcases he2 : E.call f args s1 with ⟨e | v, s2⟩
          · rw [he2] at h2; dsimp only at h2 ⊢; exact h2
          · dsimp only
            unfold checked
            split <;> (intro h; cases h)

/-- A finite registry without dependency cycles has well-founded dependencies. -/
theorem acc_of_acyclic {l : Locator T V F}
    (h : ∀ t, ¬ Relation.TransGen (Requires E l) t t) (t : T) :
    Acc (fun b a => Requires E l a b) t := by
  classical
  let K : Type := {x : T // x ∈ l.transient.keys}
  have : Finite K := (List.finite_toSet l.transient.keys)
  let r : K → K → Prop := fun b a => Relation.TransGen (Requires E l) a.1 b.1
  have : IsTrans K r := ⟨fun a b c h1 h2 => h2.trans h1⟩
  have : Std.Irrefl r := ⟨fun a ha => h a.1 ha⟩
  have wf : WellFounded r := Finite.wellFounded_of_trans_of_irrefl r
  have hreg : ∀ a b, Requires E l a b → a ∈ l.transient.keys := by
    rintro a b ⟨-, f, p, hf, -⟩
    by_contra hc
    rw [(Dict.get?_eq_none_iff _ _).2 hc] at hf; cases hf
  have key : ∀ x : K, Acc (fun b a => Requires E l a b) x.1 := by
    intro x
    induction x using wf.induction with
    | _ x ih =>
      constructor
      intro b hb
      by_cases hbk : b ∈ l.transient.keys
      · exact ih ⟨b, hbk⟩ (.single hb)
      · constructor
        intro c hc; exact absurd (hreg _ _ hc) hbk
  by_cases ht : t ∈ l.transient.keys
  · exact key ⟨t, ht⟩
  · constructor
    intro c hc; exact absurd (hreg _ _ hc) ht

theorem collect_fail_of_mem {kw : Dict String V} {resolve : T → Py (LState T V F W) V} {p : Param T V}
    (hk : kw.get? p.name = none) (hd : p.default = none) {t' : T} (ha : p.annotation = some t')
    (hr : ∀ s v s', resolve t' s ≠ (.ok v, s')) (ps : List (Param T V)) (hp : p ∈ ps) :
    ∀ s args s', collect resolve kw ps s ≠ (.ok args, s') := by
  induction ps with
  | nil => cases hp
  | cons q ps ih =>
    intro s args s' h
    unfold collect at h
    rw [Py.bind_run] at h
    rcases he : supply resolve kw q s with ⟨e | v, s1⟩
    · rw [he] at h; cases h
    · rw [he] at h; dsimp only at h
      rcases List.mem_cons.1 hp with rfl | hp
      · unfold supply at he
        rw [hk, hd, ha] at he
        exact hr _ _ _ he
      · rw [Py.bind_run] at h
        rcases he2 : collect resolve kw ps s1 with ⟨e | rest, s2⟩
        · rw [he2] at h; cases h
        · exact ih hp _ _ _ he2

/-- services depending on each other in circles are never resolved -/
theorem tryResolve_never (hE : FactoriesKeep E) {l : Locator T V F} {S : T → Prop}
    (hS : ∀ t, S t → E.isInst E.none t = false ∧ ∃ t', S t' ∧ Requires E l t t') (n : Nat) :
    ∀ t, S t → ∀ (s s' : LState T V F W) (v : V), s.loc = l → tryResolve E n t [] s ≠ (.ok v, s') := by
  induction n with
  | zero => intro t _ s s' v _ h; cases h
  | succ n ih =>
    intro t ht s s' v hs h
    obtain ⟨hn, t', ht', hreq⟩ := hS t ht
    have hi := not_found_of_requires hn hreq
    obtain ⟨-, f, p, hf, hp, hd, ha⟩ := hreq
    rw [← hs] at hi hf
    rw [tryResolve_some E hi hf] at h
    unfold build at h
    rw [Py.bind_run] at h
    rcases he : collect (fun t' => tryResolve E n t' []) [] (E.sig f) s with ⟨e | args, s1⟩
    · rw [he] at h; cases h
    · -- the resolution of the annotation fails in every state with this locator
      have aux : ∀ ps : List (Param T V), p ∈ ps → ∀ s args s', s.loc = l →
          collect (fun t' => tryResolve E n t' []) [] ps s ≠ (.ok args, s') := by
        intro ps
        induction ps with
        | nil => intro h; cases h
        | cons q ps ih2 =>
          intro hp s args s' hs h
          unfold collect at h
          rw [Py.bind_run] at h
          have hk : (supply (fun t' => tryResolve E n t' []) [] q s).2.loc = s.loc :=
            supply_keep (P := fun _ => True)
              (fun t s _ => tryResolve_keep (P := fun _ => True) (fun f a s _ => hE f a s) n t [] s trivial) [] q s trivial
          rcases he : supply (fun t' => tryResolve E n t' []) [] q s with ⟨e | v, s1⟩
          · rw [he] at h; cases h
          · rw [he] at h hk; dsimp only at h hk
            rcases List.mem_cons.1 hp with rfl | hp
            · unfold supply at he
              rw [Dict.get?_nil, hd, ha] at he
              exact ih t' ht' s s1 v hs he
            · rw [Py.bind_run] at h
              rcases he2 : collect (fun t' => tryResolve E n t' []) [] ps s1 with ⟨e | rest, s2⟩
              · rw [he2] at h; cases h
              · exact ih2 hp _ _ _ (hk.trans hs) he2
      exact aux _ hp _ _ _ hs he

/-- if the parameters before the circular one have defaults, the recursion bound is exhausted -/
theorem tryResolve_recursion {l : Locator T V F} {S : T → Prop}
    (hS : ∀ t, S t → E.isInst E.none t = false ∧
      (∀ v, l.singleton.get? t = some v → E.isInst v t = false) ∧
      ∃ f ps1 p ps2 t', l.transient.get? t = some f ∧ E.sig f = ps1 ++ p :: ps2 ∧
        (∀ q ∈ ps1, q.default ≠ none) ∧ p.default = none ∧ p.annotation = some t' ∧ S t') (n : Nat) :
    ∀ t, S t → ∀ (s : LState T V F W), s.loc = l →
      tryResolve E n t [] s = (.error .recursionError, s) := by
  induction n with
  | zero => intro t _ s _; rfl
  | succ n ih =>
    intro t ht s hs
    obtain ⟨hn, hsing, f, ps1, p, ps2, t', hf, hsig, hdef, hd, ha, ht'⟩ := hS t ht
    have hi : E.isInst (found E l t) t = false := by
      unfold found
      rcases hg : l.singleton.get? t with _ | v
      · exact hn
      · exact hsing v hg
    rw [← hs] at hi hf
    rw [tryResolve_some E hi hf]
    unfold build
    have aux : ∀ ps1 : List (Param T V), (∀ q ∈ ps1, q.default ≠ none) →
        collect (fun t' => tryResolve E n t' []) [] (ps1 ++ p :: ps2) s = (.error .recursionError, s) := by
      intro ps1
      induction ps1 with
      | nil =>
        intro _
        show collect _ _ (p :: ps2) s = _
        unfold collect
        apply Py.bind_error
        unfold supply
        rw [Dict.get?_nil, hd, ha]
        exact ih t' ht' s hs
      | cons q ps1 ih2 =>
        intro hq
        show collect _ _ (q :: (ps1 ++ p :: ps2)) s = _
        unfold collect
        have hq1 := hq q List.mem_cons_self
        rcases hqd : q.default with _ | v
        · exact absurd hqd hq1
        · have : supply (fun t' => tryResolve E n t' []) [] q s = (.ok v, s) := by
            unfold supply; rw [Dict.get?_nil, hqd]; rfl
          rw [Py.bind_ok this, Py.bind_error (ih2 fun q hq' => hq q (List.mem_cons_of_mem _ hq'))]
    rw [hsig, Py.bind_error (aux ps1 hdef)]

end Locator
end PyZeal
