import Verif.Spec.Lambda

/-!
# C80, C81, C92: the lambda wrapper
-/

set_option linter.unusedSectionVars false

namespace PyZeal.Props
open Spec Lambda

variable {V : Type}

/-! ## Histories -/

theorem runOps_append (a b : List (WrapOp V)) (s : LamState V) :
    runOps (a ++ b) s = ((runOps a s).1 ++ (runOps b (runOps a s).2).1, (runOps b (runOps a s).2).2) := by
  induction a generalizing s with
  | nil => rfl
  | cons o a ih =>
    show ((o.perform s).1 :: (runOps (a ++ b) (o.perform s).2).1, (runOps (a ++ b) (o.perform s).2).2) = _
    rw [ih]
    rfl

theorem runOps_func_none (h : List (WrapOp V)) (s : LamState V) :
    (runOps h s).2.func = none ↔ s.func = none ∧ ∀ o ∈ h, WrapOp.isLambda o = false := by
  induction h generalizing s with
  | nil => simp [runOps]
  | cons o h ih =>
    show (runOps h (o.perform s).2).2.func = none ↔ _
    rw [ih, List.forall_mem_cons]
    cases o with
    | lambda f m =>
      simp only [WrapOp.perform, wrapLambda, WrapOp.isLambda]
      rcases hs : s.func with _ | g
      · simp
      · cases m <;> simp [hs]
    | derivative f m =>
      simp only [WrapOp.perform, wrapDerivative, WrapOp.isLambda]
      split <;> simp

theorem runOps_derivative_none (h : List (WrapOp V)) (s : LamState V) :
    (runOps h s).2.derivative = none ↔ s.derivative = none ∧ ∀ o ∈ h, WrapOp.isLambda o = true := by
  induction h generalizing s with
  | nil => simp [runOps]
  | cons o h ih =>
    show (runOps h (o.perform s).2).2.derivative = none ↔ _
    rw [ih, List.forall_mem_cons]
    cases o with
    | derivative f m =>
      simp only [WrapOp.perform, wrapDerivative, WrapOp.isLambda]
      rcases hs : s.derivative with _ | g
      · simp
      · cases m <;> simp [hs]
    | lambda f m =>
      simp only [WrapOp.perform, wrapLambda, WrapOp.isLambda]
      split <;> simp

/-! ## C80 -/

/-- **C80.** After any history of calls, a call in save mode succeeds exactly if nothing of its kind (function or
derivative) was wrapped before, whatever was done to the other kind; otherwise it raises `ValueError` and leaves
the module as it was. -/
theorem C80_save (h : List (WrapOp V)) (o : WrapOp V) (hm : WrapOp.mode o = .save) :
    ((∀ o' ∈ h, WrapOp.isLambda o' ≠ WrapOp.isLambda o) → ∃ w, (o.perform (runOps h fresh).2).1 = .ok w) ∧
    ((∃ o' ∈ h, WrapOp.isLambda o' = WrapOp.isLambda o) →
      o.perform (runOps h fresh).2 = (.error .valueError, (runOps h fresh).2)) := by
  cases o with
  | lambda f m =>
    cases hm
    constructor
    · intro hn
      have : (runOps h fresh).2.func = none := (runOps_func_none h fresh).2
        ⟨rfl, fun o' ho' => by have := hn o' ho'; simp only [WrapOp.isLambda] at this ⊢; cases o' <;> simp_all⟩
      exact ⟨.func, by simp [WrapOp.perform, wrapLambda, this]⟩
    · rintro ⟨o', ho', e⟩
      have : (runOps h fresh).2.func ≠ none := fun hn => by
        have := ((runOps_func_none h fresh).1 hn).2 o' ho'
        rw [e] at this; cases this
      obtain ⟨g, hg⟩ := Option.ne_none_iff_exists'.1 this
      simp [WrapOp.perform, wrapLambda, hg]
  | derivative f m =>
    cases hm
    constructor
    · intro hn
      have : (runOps h fresh).2.derivative = none := (runOps_derivative_none h fresh).2
        ⟨rfl, fun o' ho' => by have := hn o' ho'; simp only [WrapOp.isLambda] at this ⊢; cases o' <;> simp_all⟩
      exact ⟨.derivative, by simp [WrapOp.perform, wrapDerivative, this]⟩
    · rintro ⟨o', ho', e⟩
      have : (runOps h fresh).2.derivative ≠ none := fun hn => by
        have := ((runOps_derivative_none h fresh).1 hn).2 o' ho'
        rw [e] at this; cases this
      obtain ⟨g, hg⟩ := Option.ne_none_iff_exists'.1 this
      simp [WrapOp.perform, wrapDerivative, hg]

/-- **C80.** In any history at most one save mode call of each kind succeeds: of two such calls the later fails. -/
theorem C80_at_most_once (h1 h2 h3 : List (WrapOp V)) (o o' : WrapOp V)
    (hk : WrapOp.isLambda o = WrapOp.isLambda o') (hm : WrapOp.mode o' = .save) :
    (runOps (h1 ++ o :: h2 ++ o' :: h3) fresh).1[(h1 ++ o :: h2).length]? = some (.error .valueError) := by
  have hlen : ∀ (l : List (WrapOp V)) (s : LamState V), (runOps l s).1.length = l.length := by
    intro l
    induction l with
    | nil => intro s; rfl
    | cons o l ih => intro s; show (runOps l _).1.length + 1 = _; rw [ih]; rfl
  rw [runOps_append, List.getElem?_append_right (by rw [hlen]; exact Nat.le_refl _), hlen, Nat.sub_self]
  show ((o'.perform (runOps (h1 ++ o :: h2) fresh).2).1 :: _)[0]? = _
  rw [(C80_save (h1 ++ o :: h2) o' hm).2 ⟨o, by simp, hk⟩]
  rfl

/-- **C80.** In unsave mode every call succeeds. -/
theorem C80_unsave (o : WrapOp V) (hm : WrapOp.mode o = .unsave) (s : LamState V) :
    ∃ w, (o.perform s).1 = .ok w := by
  cases o <;> cases hm <;> simp [WrapOp.perform, wrapLambda, wrapDerivative]

/-- **C80.** Functions and derivatives are independent: the function wrapped after a history is the one wrapped
after the history without the calls for derivatives, and vice versa. -/
theorem C80_independent (h : List (WrapOp V)) (s : LamState V) :
    (runOps h s).2.func = (runOps (h.filter WrapOp.isLambda) s).2.func ∧
    (runOps h s).2.derivative = (runOps (h.filter fun o => !WrapOp.isLambda o) s).2.derivative := by
  have kf : ∀ (h : List (WrapOp V)) (s s' : LamState V), s.func = s'.func →
      (runOps h s).2.func = (runOps (h.filter WrapOp.isLambda) s').2.func := by
    intro h
    induction h with
    | nil => intro s s' e; exact e
    | cons o h ih =>
      intro s s' e
      cases o with
      | lambda f m =>
        show (runOps h (wrapLambda f m s).2).2.func = (runOps (h.filter WrapOp.isLambda) (wrapLambda f m s').2).2.func
        apply ih
        simp only [wrapLambda, e]
        split <;> simp [e]
      | derivative f m =>
        show (runOps h (wrapDerivative f m s).2).2.func = (runOps (h.filter WrapOp.isLambda) s').2.func
        apply ih
        rw [← e]
        simp only [wrapDerivative]
        split <;> rfl
  have kd : ∀ (h : List (WrapOp V)) (s s' : LamState V), s.derivative = s'.derivative →
      (runOps h s).2.derivative = (runOps (h.filter fun o => !WrapOp.isLambda o) s').2.derivative := by
    intro h
    induction h with
    | nil => intro s s' e; exact e
    | cons o h ih =>
      intro s s' e
      cases o with
      | derivative f m =>
        show (runOps h (wrapDerivative f m s).2).2.derivative =
          (runOps (h.filter fun o => !WrapOp.isLambda o) (wrapDerivative f m s').2).2.derivative
        apply ih
        simp only [wrapDerivative, e]
        split <;> simp [e]
      | lambda f m =>
        show (runOps h (wrapLambda f m s).2).2.derivative =
          (runOps (h.filter fun o => !WrapOp.isLambda o) s').2.derivative
        apply ih
        rw [← e]
        simp only [wrapLambda]
        split <;> rfl
  exact ⟨kf h s s rfl, kd h s s rfl⟩

/-! ## C81 -/

/-- **C81 (partial).** The function returned by a successful `wrapLambda g` evaluates `g`, as long as no other
function is wrapped in unsave mode afterwards; other wrapping calls in between, if any, do not matter. -/
theorem C81_func_partial (h1 h2 : List (WrapOp V)) (g : PyFun V) (m : WrapMode) (w : Wrapped)
    (hok : (wrapLambda g m (runOps h1 fresh).2).1 = .ok w)
    (hno : ∀ o ∈ h2, WrapOp.isLambda o = true → WrapOp.mode o = .save) (z : V) :
    (call w z (runOps (h1 ++ .lambda g m :: h2) fresh).2).1 = g z := by
  have hs : ∀ (h : List (WrapOp V)) (s : LamState V), s.func = some g →
      (∀ o ∈ h, WrapOp.isLambda o = true → WrapOp.mode o = .save) → (runOps h s).2.func = some g := by
    intro h
    induction h with
    | nil => intro s e _; exact e
    | cons o h ih =>
      intro s e hall
      rw [List.forall_mem_cons] at hall
      show (runOps h (o.perform s).2).2.func = some g
      refine ih _ ?_ hall.2
      cases o with
      | lambda f m' => cases (hall.1 rfl : m' = .save); simp [WrapOp.perform, wrapLambda, e]
      | derivative f m' => simp only [WrapOp.perform, wrapDerivative]; split <;> exact e
  have hset : w = .func ∧ ((wrapLambda g m (runOps h1 fresh).2).2).func = some g := by
    revert hok
    simp only [wrapLambda]
    split
    · intro h; cases h
    · intro h; cases h; exact ⟨rfl, rfl⟩
  have hfin : (runOps (h1 ++ .lambda g m :: h2) fresh).2.func = some g := by
    rw [runOps_append]
    exact hs h2 _ hset.2 hno
  rw [hset.1]
  unfold call
  dsimp only
  rw [hfin]

/-- **C81 (partial).** The same for derivatives. -/
theorem C81_derivative_partial (h1 h2 : List (WrapOp V)) (g : PyFun V) (m : WrapMode) (w : Wrapped)
    (hok : (wrapDerivative g m (runOps h1 fresh).2).1 = .ok w)
    (hno : ∀ o ∈ h2, WrapOp.isLambda o = false → WrapOp.mode o = .save) (z : V) :
    (call w z (runOps (h1 ++ .derivative g m :: h2) fresh).2).1 = g z := by
  have hs : ∀ (h : List (WrapOp V)) (s : LamState V), s.derivative = some g →
      (∀ o ∈ h, WrapOp.isLambda o = false → WrapOp.mode o = .save) → (runOps h s).2.derivative = some g := by
    intro h
    induction h with
    | nil => intro s e _; exact e
    | cons o h ih =>
      intro s e hall
      rw [List.forall_mem_cons] at hall
      show (runOps h (o.perform s).2).2.derivative = some g
      refine ih _ ?_ hall.2
      cases o with
      | derivative f m' => cases (hall.1 rfl : m' = .save); simp [WrapOp.perform, wrapDerivative, e]
      | lambda f m' => simp only [WrapOp.perform, wrapLambda]; split <;> exact e
  have hset : w = .derivative ∧ ((wrapDerivative g m (runOps h1 fresh).2).2).derivative = some g := by
    revert hok
    simp only [wrapDerivative]
    split
    · intro h; cases h
    · intro h; cases h; exact ⟨rfl, rfl⟩
  have hfin : (runOps (h1 ++ .derivative g m :: h2) fresh).2.derivative = some g := by
    rw [runOps_append]
    exact hs h2 _ hset.2 hno
  rw [hset.1]
  unfold call
  dsimp only
  rw [hfin]

/-- **C81, counterexample.** Wrapping the identity and then, in unsave mode, the squaring function: the first
wrapper now squares. -/
theorem C81_counterexample :
    (runOps [WrapOp.lambda (fun n : Int => .ok n) .save, .lambda (fun n => .ok (n * n)) .unsave] fresh).1 =
      [.ok .func, .ok .func] ∧
    (call .func 3 (runOps [WrapOp.lambda (fun n : Int => .ok n) .save] fresh).2).1 = .ok 3 ∧
    (call .func 3 (runOps [WrapOp.lambda (fun n : Int => .ok n) .save, .lambda (fun n => .ok (n * n)) .unsave] fresh).2).1 =
      .ok 9 := ⟨rfl, rfl, rfl⟩

example : (wrapLambda (fun n : Int => .ok (2 * n)) .save
    (runOps [WrapOp.derivative (fun _ : Int => .ok 2) .save] fresh).2).1 = .ok .func := rfl

/-! ## C92 -/

/-- **C92 (partial).** In a forked worker the wrapped function evaluates what it evaluates in the parent at the
time of the fork, whatever the parent wraps later.  Missing: other start methods. -/
theorem C92_fork_partial (w : Wrapped) (z : V) (s : LamState V) :
    (call w z (inWorker .fork s)).1 = (call w z s).1 := rfl

/-- **C92, counterexample.** In a spawned worker every wrapped function raises `ValueError`, whatever was wrapped
by the parent. -/
theorem C92_counterexample (w : Wrapped) (z : V) (h : List (WrapOp V)) :
    (call w z (inWorker .spawn (runOps h fresh).2)).1 = .error .valueError := by
  cases w <;> rfl

end PyZeal.Props
