import Verif.Spec.Disjoint

/-! # Specification vocabulary: programs with several finders

A program makes finders and uses them in any order. A finder refers to its algorithm object and its container; the service locator hands out a new object
for every request of a transient service and always the same object for a singleton (service_locator.py 92-121), so two finders may share an object. -/

namespace PyZeal.Spec
variable {σ K : Type}

/-- an algorithm object: what it does and its mutable state (the caches of its estimator) -/
structure AlgorithmObject (σ K : Type) where
  run : RCtx K → Py (World σ K) Unit
  cache : EstCache K
  est : σ

/-- what the locator hands out: a new object, or the object which got the number `n` when it was made -/
inductive Got (α : Type)
  | new (a : α)
  | shared (n : ℕ)

/-- what the constructor of a finder is given -/
structure Recipe (σ K : Type) where
  f : Cx K → Cx K
  df : Option (Cx K → Cx K)
  precision : ℤ × ℤ
  verbose : Bool
  info : Bool
  algorithm : Got (AlgorithmObject σ K)
  container : Got (AnyContainer K)

/-- a finder in memory: it refers to its algorithm object and to its container by their numbers -/
structure Handle (K : Type) where
  f : Cx K → Cx K
  df : Option (Cx K → Cx K)
  precision : ℤ × ℤ
  verbose : Bool
  info : Bool
  algorithm : ℕ
  container : ℕ

/-- the memory of a program: its finders and objects, in the order in which they were made -/
structure Memory (σ K : Type) where
  finders : List (Handle K)
  algorithms : List (AlgorithmObject σ K)
  containers : List (AnyContainer K)

/-- a step of a program -/
inductive ProgramOp (σ K : Type)
  | make (r : Recipe σ K)
  | use (i : ℕ) (op : FinderOp K)

/-- put an object into memory if it is new, and give its number -/
def Got.place {α : Type} (l : List α) : Got α → ℕ × List α
  | .new a => (l.length, l ++ [a])
  | .shared n => (n, l)

/-- the finder with number `i`, as the object the model of finders works with -/
def Memory.finder? (m : Memory σ K) (i : ℕ) : Option (Finder σ K) :=
  match m.finders[i]? with
  | none => none
  | some h =>
    match m.algorithms[h.algorithm]?, m.containers[h.container]? with
    | some a, some c => some ⟨h.f, h.df, a.run, h.precision, h.verbose, h.info, c, a.cache, a.est⟩
    | _, _ => none

/-- an operation on finder `i` left it as `fd`: what it refers to is changed in memory -/
def Memory.store (m : Memory σ K) (i : ℕ) (fd : Finder σ K) : Memory σ K :=
  match m.finders[i]? with
  | none => m
  | some h => { m with
      algorithms := m.algorithms.set h.algorithm ⟨fd.algorithm, fd.cache, fd.est⟩
      containers := m.containers.set h.container fd.container }

/-- make a finder -/
def Memory.make (m : Memory σ K) (r : Recipe σ K) : Memory σ K :=
  let a := r.algorithm.place m.algorithms
  let c := r.container.place m.containers
  ⟨m.finders ++ [⟨r.f, r.df, r.precision, r.verbose, r.info, a.1, c.1⟩], a.2, c.2⟩

/-- the memory of a program that has made no finder; it may have registered objects as singletons -/
def Memory.start (algorithms : List (AlgorithmObject σ K)) (containers : List (AnyContainer K)) : Memory σ K := ⟨[], algorithms, containers⟩

/-- the operations on finder `i` -/
def usesOf (i : ℕ) : List (ProgramOp σ K) → List (FinderOp K)
  | [] => []
  | .use j op :: ops => if j = i then op :: usesOf i ops else usesOf i ops
  | .make _ :: ops => usesOf i ops

/-- what was seen of the operations on finder `i` -/
def seenOf (i : ℕ) (l : List (ℕ × FinderOp K × FinderOut K)) : List (FinderOp K × FinderOut K) :=
  (l.filter fun x => x.1 = i).map Prod.snd

section
variable [Field K] [LinearOrder K] [IsStrictOrderedRing K] [FloorRing K]

/-- run a program: what it sees of the operations on its finders, in order, and the memory at the end (an operation on a finder which does not exist does
nothing) -/
def runProgram (it : RContainer K → List (Root K)) (m : Memory σ K) : List (ProgramOp σ K) → List (ℕ × FinderOp K × FinderOut K) × Memory σ K
  | [] => ([], m)
  | .make r :: ops => runProgram it (m.make r) ops
  | .use i op :: ops =>
    match m.finder? i with
    | none => runProgram it m ops
    | some fd =>
      let r := useStep it fd op
      let rest := runProgram it (m.store i r.2) ops
      ((i, op, r.1) :: rest.1, rest.2)

end

/-- the recipes of the finders a program makes; finder `i` is made with the `i`-th one -/
def recipes : List (ProgramOp σ K) → List (Recipe σ K)
  | [] => []
  | .make r :: ops => r :: recipes ops
  | .use _ _ :: ops => recipes ops

/-- the objects a recipe shares are among the first `na` algorithm objects and the first `nc` containers (the registered ones) -/
def Recipe.SharesBelow (na nc : ℕ) (r : Recipe σ K) : Prop :=
  (∀ n, r.algorithm = .shared n → n < na) ∧ ∀ n, r.container = .shared n → n < nc

/-- the finder a recipe with new objects describes (with the algorithm object `a` and the container `c`) -/
def Recipe.finder (r : Recipe σ K) (a : AlgorithmObject σ K) (c : AnyContainer K) : Finder σ K :=
  ⟨r.f, r.df, a.run, r.precision, r.verbose, r.info, c, a.cache, a.est⟩

end PyZeal.Spec
