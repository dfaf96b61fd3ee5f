import Verif.Model.Container

/-! # Model of several plain containers sharing one queue

`plain_container.py` with a `multiprocessing.Manager` queue (parallel_finder.py 99-121).
`put`, `empty` and `get` of the managed queue are atomic; everything between them may interleave. -/

namespace PyZeal
variable {K : Type}

/-- State: the shared queue (entries tagged with the producing process, a ghost tag),
for each consumer its `_roots` list, and whether it has passed the test
`not self.rootBuffer.empty()` and is about to call `get()`. -/
structure SharedState (K : Type) (n : ℕ) where
  queue : List (ℕ × Root K)
  held : Fin n → List (ℕ × Root K)
  wants : Fin n → Bool

/-- Atomic actions. -/
inductive SharedOp (K : Type) (n : ℕ)
  | put (producer : ℕ) (root : Root K)
  | check (consumer : Fin n)
  | get (consumer : Fin n)

/-- One atomic action: `addRoot` of a producer (plain_container.py 59), evaluation of the
loop condition (plain_container.py 93), one `append(get())` (plain_container.py 94). A `get` on an empty
queue blocks: the state stays as it is. -/
def SharedState.step {n : ℕ} (s : SharedState K n) : SharedOp K n → SharedState K n
  | .put p r => { s with queue := s.queue ++ [(p, r)] }
  | .check i =>
    if s.wants i then s
    else { s with wants := Function.update s.wants i (!s.queue.isEmpty) }
  | .get i =>
    if s.wants i then
      match s.queue with
      | [] => s
      | q :: qs => { queue := qs
                     held := Function.update s.held i (s.held i ++ [q])
                     wants := Function.update s.wants i false }
    else s

/-- initial state: empty queue, nothing held -/
def SharedState.init (n : ℕ) : SharedState K n :=
  { queue := [], held := fun _ => [], wants := fun _ => false }

/-- a schedule -/
def SharedState.run {n : ℕ} (s : SharedState K n) (ops : List (SharedOp K n)) : SharedState K n :=
  ops.foldl SharedState.step s

end PyZeal
