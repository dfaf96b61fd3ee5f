import Verif.Spec.Several
import Verif.Spec.Build

/-! # Specification vocabulary: a program that changes settings, makes finders and uses them

The settings are read by constructors only (rootfinder.py 76-95, rounding_container.py 44, the factories); every finder has its own algorithm object and container,
as with the registrations of the package (initialization_handler.py 46-86, all transient). -/

namespace PyZeal.Spec
open Settings
variable {K : Type}

/-- a call of a constructor: `RootFinder(f, df, ...)`, or `ParallelRootFinder(f, df, ...)` on a machine with that many processors -/
structure Construction (K : Type) where
  parallel : Option ℕ
  f : Cx K → Cx K
  df : Option (Cx K → Cx K)
  args : FinderArgs

/-- a step of a program -/
inductive MixedOp (K : Type)
  | settings (op : SOp)
  | make (k : Construction K)
  | use (i : ℕ) (op : FinderOp K)

/-- what a program sees of a step; a finder gets a number when it is made -/
inductive MixedEvent (K : Type)
  | settings (r : Except Err Unit)
  | made (r : Except Err ℕ)
  | used (i : ℕ) (op : FinderOp K) (out : FinderOut K)
  /-- there is no finder of that number -/
  | missing

/-- the recipe for a finder with objects of its own, made of the parts of `fd` -/
def Recipe.of {σ : Type} (fd : Finder σ K) : Recipe σ K :=
  ⟨fd.f, fd.df, fd.precision, fd.verbose, fd.info, .new ⟨fd.algorithm, fd.cache, fd.est⟩, .new fd.container⟩

/-- the operations on the settings -/
def settingsOps : List (MixedOp K) → List SOp
  | [] => []
  | .settings op :: ops => op :: settingsOps ops
  | .make _ :: ops => settingsOps ops
  | .use _ _ :: ops => settingsOps ops

/-- the operations on finder `i` -/
def mixedUses (i : ℕ) : List (MixedOp K) → List (FinderOp K)
  | [] => []
  | .use j op :: ops => if j = i then op :: mixedUses i ops else mixedUses i ops
  | .make _ :: ops => mixedUses i ops
  | .settings _ :: ops => mixedUses i ops

/-- what was seen of the settings -/
def settingsSeen : List (MixedEvent K) → List (Except Err Unit)
  | [] => []
  | .settings r :: l => r :: settingsSeen l
  | .made _ :: l => settingsSeen l
  | .used _ _ _ :: l => settingsSeen l
  | .missing :: l => settingsSeen l

/-- what was seen of finder `i` -/
def finderSeen (i : ℕ) : List (MixedEvent K) → List (FinderOp K × FinderOut K)
  | [] => []
  | .used j op out :: l => if j = i then (op, out) :: finderSeen i l else finderSeen i l
  | .settings _ :: l => finderSeen i l
  | .made _ :: l => finderSeen i l
  | .missing :: l => finderSeen i l

/-- the number of finders made -/
def madeIn : List (MixedEvent K) → ℕ
  | [] => 0
  | .made (.ok _) :: l => madeIn l + 1
  | .made (.error _) :: l => madeIn l
  | .settings _ :: l => madeIn l
  | .used _ _ _ :: l => madeIn l
  | .missing :: l => madeIn l

section
variable [Field K] [LinearOrder K] [IsStrictOrderedRing K] [FloorRing K]

/-- the constructor at work -/
def Construction.build (X : Externals K) (k : Construction K) : Py SettingsFS (Finder (SumState K) K) :=
  match k.parallel with
  | none => newFinder fileEnv X k.f k.df k.args
  | some cpus => newParallelFinder fileEnv X cpus k.f k.df k.args

/-- one step of a program -/
def mixedStep (X : Externals K) (it : RContainer K → List (Root K)) (w : SWorld) (m : Memory (SumState K) K) : MixedOp K → MixedEvent K × SWorld × Memory (SumState K) K
  | .settings op => (.settings (w.step op).1, (w.step op).2, m)
  | .make k =>
    match k.build X w.fs with
    | (.ok fd, fs) => (.made (.ok m.finders.length), { w with fs := fs }, m.make (Recipe.of fd))
    | (.error e, fs) => (.made (.error e), { w with fs := fs }, m)
  | .use i op =>
    match m.finder? i with
    | none => (.missing, w, m)
    | some fd => (.used i op (useStep it fd op).1, w, m.store i (useStep it fd op).2)

/-- run a program: what it sees of each step, and the state at the end -/
def runMixed (X : Externals K) (it : RContainer K → List (Root K)) (w : SWorld) (m : Memory (SumState K) K) : List (MixedOp K) → List (MixedEvent K) × SWorld × Memory (SumState K) K
  | [] => ([], w, m)
  | op :: ops =>
    let s := mixedStep X it w m op
    let rest := runMixed X it s.2.1 s.2.2 ops
    (s.1 :: rest.1, rest.2)

end
end PyZeal.Spec
