import Verif.Spec.Finder

/-! # Specification vocabulary: programs that use a finder -/

namespace PyZeal.Spec
variable {σ K : Type}

/-- what a program does with a finder: search (with or without an interrupt), search in parallel, set a filter, read the roots, read the orders -/
inductive FinderOp (K : Type)
  | search (re im : K × K) (precision : Option (ℤ × ℤ)) (interrupt : Option ℕ)
  | searchParallel (cpus : ℕ) (re im : K × K) (precision : Option (ℤ × ℤ)) (sched : Schedule)
  | setFilter (t : FilterType) (threshold : ℤ)
  | roots
  | orders

/-- the operation only reads results -/
def FinderOp.reads : FinderOp K → Bool
  | .roots => true
  | .orders => true
  | _ => false

/-- what the program sees of an operation -/
inductive FinderOut (K : Type)
  | searched (outcome : Except Err Unit) (warned : Bool) (bar : Option (Bar K))
  | filterSet (outcome : Except Err Unit)
  | roots (l : List (Cx K))
  | orders (l : List ℤ)

section
variable [Field K] [LinearOrder K] [IsStrictOrderedRing K] [FloorRing K]

/-- one operation; `it` is the order in which sets are iterated -/
def useStep (it : RContainer K → List (Root K)) (fd : Finder σ K) : FinderOp K → FinderOut K × Finder σ K
  | .search re im p i =>
    let s := fd.calculateRoots re im p i
    (.searched s.outcome s.warned s.bar, s.finder)
  | .searchParallel cpus re im p sched =>
    let s := fd.calculateRootsParallel cpus re im p sched
    (.searched s.outcome s.warned s.bar, s.finder)
  | .setFilter t n =>
    let r := fd.setRootFilter t n
    (.filterSet r.1, r.2)
  | .roots => (.roots (fd.roots it).1, (fd.roots it).2)
  | .orders => (.orders (fd.orders it).1, (fd.orders it).2)

/-- operations one after the other: each with what is seen of it, and the finder at the end -/
def useFinder (it : RContainer K → List (Root K)) (fd : Finder σ K) : List (FinderOp K) → List (FinderOp K × FinderOut K) × Finder σ K
  | [] => ([], fd)
  | op :: ops =>
    let r := useStep it fd op
    let rest := useFinder it r.2 ops
    ((op, r.1) :: rest.1, rest.2)

end
end PyZeal.Spec
