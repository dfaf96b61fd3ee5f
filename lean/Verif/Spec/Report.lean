import Verif.Spec.Finder

/-! # Specification vocabulary: what a root finding algorithm is expected to deliver -/

namespace PyZeal.Spec
variable {σ K : Type} [Field K] [LinearOrder K] [IsStrictOrderedRing K] [FloorRing K]

/-- An algorithm is sound for the function `f` (derivative `df`, zeros listed in `zeros`) at search precision `p` with tolerance `eps`: whenever a
search in a rectangle inside `region` completes, it has only added roots to what was there; every zero in the half-open rectangle has an added root
of positive order within `eps`; and every added root is an exact zero of `f` (order 0) or has positive order and is within `eps` of a zero in
the half-open rectangle. -/
def Sound (alg : RCtx K → Py (World σ K) Unit) (f : Cx K → Cx K) (df : Option (Cx K → Cx K)) (p : ℤ × ℤ) (region : Cell K)
    (zeros : List (Cx K)) (eps : K × K) : Prop :=
  ∀ ctx : RCtx K, ctx.f = f → ctx.df = df → ctx.precision = p → Cell.In ⟨ctx.reRan, ctx.imRan, 0⟩ region →
    ∀ w w', alg ctx w = (.ok (), w') →
      w.added <+: w'.added ∧
      (∀ z ∈ zeros, Cell.HasHalfOpen ⟨ctx.reRan, ctx.imRan, 0⟩ z → ∃ r ∈ newRoots w w', 1 ≤ r.2 ∧ Near eps z r.1) ∧
      ∀ r ∈ newRoots w w', (r.2 = 0 ∧ f r.1 = 0) ∨
        (1 ≤ r.2 ∧ ∃ z ∈ zeros, Cell.HasHalfOpen ⟨ctx.reRan, ctx.imRan, 0⟩ z ∧ Near eps z r.1)

/-- The external solver works for a function with these zeros: on every rectangle inside `region` with sides below 0.1 and exactly one zero, the secant
method started at the midpoints of the left and right side converges to within `10^-p` of the zero; and Newton's method started at the
centre, if a derivative is given, converges to within `10^-p` of the zero or gives up. -/
def SolverFinds (nt : NewtonSolver K) (f : Cx K → Cx K) (df : Option (Cx K → Cx K)) (p : ℤ × ℤ) (region : Cell K) (zeros : List (Cx K)) : Prop :=
  ∀ c : Cell K, Cell.In c region → c.re.2 - c.re.1 < 1 / 10 → c.im.2 - c.im.1 < 1 / 10 → ∀ z ∈ zeros, Cell.inside c zeros = [z] →
    (∃ z', nt.secant f ⟨c.re.1, (c.im.1 + c.im.2) / 2⟩ ⟨c.re.2, (c.im.1 + c.im.2) / 2⟩ (min (10 ^ (-p.1)) (10 ^ (-p.2))) = some z' ∧
      Near (10 ^ (-p.1), 10 ^ (-p.2)) z z') ∧
    ∀ g z', df = some g → nt.newton f g ⟨(c.re.1 + c.re.2) / 2, (c.im.1 + c.im.2) / 2⟩ (min (10 ^ (-p.1)) (10 ^ (-p.2))) = some z' →
      Near (10 ^ (-p.1), 10 ^ (-p.2)) z z'

/-- `pts` lists the `n * n` points of an equally spaced grid on the closed rectangle, column by column -/
def IsGrid (c : Cell K) (n : ℕ) (pts : List (Cx K)) : Prop :=
  pts.length = n * n ∧ ∀ i j, i < n → j < n →
    pts[i * n + j]? = some ⟨c.re.1 + i * ((c.re.2 - c.re.1) / (n - 1)), c.im.1 + j * ((c.im.2 - c.im.1) / (n - 1))⟩

/-- `cells` are `n * n` rectangles which tile `c` -/
def Tiles (n : ℕ) (cells : List (Cell K)) (c : Cell K) : Prop :=
  cells.length = n * n ∧ (∀ z, Cell.Has c z ↔ ∃ l ∈ cells, Cell.Has l z) ∧
  (cells.Pairwise fun a b => ∀ z, ¬ (Cell.Interior a z ∧ Cell.Interior b z)) ∧ ∀ l ∈ cells, Cell.In l c

end PyZeal.Spec
