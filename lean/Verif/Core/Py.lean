/-!
# Exceptions and the state/exception monad

`Py σ α` is a Python computation that may change the mutable state `σ` and either
returns a value or raises.  The state changes made before an exception
are kept, as in Python.
-/

namespace PyZeal

/-- The exceptions that occur in the modelled code. -/
inductive Err
  | valueError | notImplementedError | runtimeError | recursionError
  | keyboardInterrupt | keyError | indexError | typeError
  | invalidSetting (setting : String)
  | invalidService
  | jsonDecodeError
  | osError
  | systemExit (code : Nat)
  /-- not a Python exception: the bound put on an unbounded loop of the model was exhausted -/
  | outOfFuel
  | other (tag : Nat)
deriving DecidableEq, Repr

/-- A Python computation over mutable state `σ`. -/
def Py (σ α : Type) : Type := σ → Except Err α × σ

namespace Py
variable {σ α β γ : Type}

protected def pure (a : α) : Py σ α := fun s => (.ok a, s)

protected def bind (m : Py σ α) (k : α → Py σ β) : Py σ β := fun s =>
  match m s with
  | (.ok a, s') => k a s'
  | (.error e, s') => (.error e, s')

instance : Monad (Py σ) where
  pure := Py.pure
  bind := Py.bind

/-- `raise e` -/
def throw (e : Err) : Py σ α := fun s => (.error e, s)
/-- read the state -/
def get : Py σ σ := fun s => (.ok s, s)
/-- change the state -/
def modify (f : σ → σ) : Py σ Unit := fun s => (.ok (), f s)

@[simp] theorem pure_run (a : α) (s : σ) : (pure a : Py σ α) s = (.ok a, s) := rfl
theorem bind_run (m : Py σ α) (k : α → Py σ β) (s : σ) :
    (m >>= k) s = match m s with
      | (.ok a, s') => k a s'
      | (.error e, s') => (.error e, s') := rfl
@[simp] theorem throw_run (e : Err) (s : σ) : (throw e : Py σ α) s = (.error e, s) := rfl
@[simp] theorem get_run (s : σ) : (get : Py σ σ) s = (.ok s, s) := rfl
@[simp] theorem modify_run (f : σ → σ) (s : σ) : (modify f) s = (.ok (), f s) := rfl

theorem bind_ok {m : Py σ α} {k : α → Py σ β} {s s' : σ} {a : α}
    (h : m s = (.ok a, s')) : (m >>= k) s = k a s' := by rw [bind_run, h]

theorem bind_error {m : Py σ α} {k : α → Py σ β} {s s' : σ} {e : Err}
    (h : m s = (.error e, s')) : (m >>= k) s = (.error e, s') := by rw [bind_run, h]

end Py

instance instLawfulPy {σ : Type} : LawfulMonad (Py σ) := LawfulMonad.mk'
  (id_map := by
    intro α x; funext s
    show Py.bind x (fun a => Py.pure a) s = x s
    unfold Py.bind Py.pure
    rcases x s with ⟨_ | _, _⟩ <;> rfl)
  (pure_bind := by intros; rfl)
  (bind_assoc := by
    intro α β γ x f g; funext s
    show Py.bind (Py.bind x f) g s = Py.bind x (fun a => Py.bind (f a) g) s
    unfold Py.bind
    rcases x s with ⟨_ | _, _⟩ <;> rfl)

end PyZeal
