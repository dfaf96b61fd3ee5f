import Verif.Spec.Ext
import Mathlib.Tactic.FieldSimp

set_option linter.unusedSectionVars false

/-! # Undefined values in the search: lemmas -/

namespace PyZeal.Ext
open Spec
variable {K σ : Type} [Field K] [LinearOrder K]

/-! ## Postconditions -/

/-- after a normal return `Q`, after an exception `E` -/
def Post {S α : Type} (m : Py S α) (w : S) (Q : α → S → Prop) (E : S → Prop) : Prop :=
  (∀ a, (m w).1 = .ok a → Q a (m w).2) ∧ (∀ e, (m w).1 = .error e → E (m w).2)

theorem post_pure {S α : Type} {a : α} {w : S} {Q : α → S → Prop} {E : S → Prop} (h : Q a w) : Post (pure a) w Q E :=
  ⟨fun b hb => by
    have : b = a := by
      have h' : (Except.ok a : Except Err α) = .ok b := hb
      injection h' with h'; exact h'.symm
    rw [this]; exact h, fun e he => by
    have h' : (Except.ok a : Except Err α) = .error e := he
    cases h'⟩

theorem post_throw {S α : Type} {e : Err} {w : S} {Q : α → S → Prop} {E : S → Prop} (h : E w) :
    Post (Py.throw e) w Q E :=
  ⟨fun b hb => (by
    have h' : (Except.error e : Except Err α) = .ok b := hb
    cases h'), fun e' _ => h⟩

theorem post_modify {S : Type} {g : S → S} {w : S} {Q : Unit → S → Prop} {E : S → Prop} (h : Q () (g w)) :
    Post (Py.modify g) w Q E :=
  ⟨fun _ _ => h, fun e he => by
    have h' : (Except.ok () : Except Err Unit) = .error e := he
    cases h'⟩

theorem post_get {S : Type} {w : S} {Q : S → S → Prop} {E : S → Prop} (h : Q w w) : Post Py.get w Q E :=
  ⟨fun b hb => by
    have h' : (Except.ok w : Except Err S) = .ok b := hb
    injection h' with h'; rw [← h']; exact h, fun e he => by
    have h' : (Except.ok w : Except Err S) = .error e := he
    cases h'⟩

theorem post_bind {S α β : Type} {m : Py S α} {k : α → Py S β} {w : S} {P : α → S → Prop} {Q : β → S → Prop}
    {E : S → Prop} (hm : Post m w P E) (hk : ∀ a w', P a w' → Post (k a) w' Q E) : Post (m >>= k) w Q E := by
  unfold Post
  rw [Py.bind_run]
  obtain ⟨h1, h2⟩ := hm
  rcases hr : m w with ⟨r, w'⟩
  rw [hr] at h1 h2
  cases r with
  | ok a => exact hk a w' (h1 a rfl)
  | error e => exact ⟨fun b hb => (by cases hb), fun e' _ => h2 e rfl⟩

theorem post_mono {S α : Type} {m : Py S α} {w : S} {P Q : α → S → Prop} {E E' : S → Prop} (hm : Post m w P E)
    (h : ∀ a w', P a w' → Q a w') (hE : ∀ w', E w' → E' w') : Post m w Q E' :=
  ⟨fun a ha => h _ _ (hm.1 a ha), fun e he => hE _ (hm.2 e he)⟩

/-! ## Numbers -/

theorem XNum.eq_iff (a b : XNum K) : XNum.eq a b = true ↔ a = b ∧ a ≠ .nan := by
  cases a <;> cases b <;> simp [XNum.eq]

theorem add_nan (a : XNum K) : XNum.add a .nan = .nan := by cases a <;> rfl
theorem nan_add (a : XNum K) : XNum.add .nan a = .nan := by cases a <;> rfl
theorem mul_nan (a : XNum K) : XNum.mul a .nan = .nan := by cases a <;> rfl
theorem nan_mul (a : XNum K) : XNum.mul .nan a = .nan := by cases a <;> rfl
theorem lt_nan (a : XNum K) : XNum.lt a .nan = false := by cases a <;> rfl
theorem nan_lt (a : XNum K) : XNum.lt .nan a = false := by cases a <;> rfl

theorem foldl_nan (l : List (XNum K)) : l.foldl XNum.add .nan = .nan := by
  induction l with
  | nil => rfl
  | cons a l ih => rw [List.foldl_cons, nan_add, ih]

theorem sum_nan (l : List (XNum K)) : XNum.sum (.nan :: l) = .nan := by
  unfold XNum.sum
  rw [List.foldl_cons, add_nan, foldl_nan]

theorem ceq_iff (a b : XCx K) : ceq a b = true ↔ a = b ∧ isNaN a = false := by
  obtain ⟨ar, ai⟩ := a
  obtain ⟨br, bi⟩ := b
  simp only [ceq, Bool.and_eq_true, XNum.eq_iff, isNaN, Bool.or_eq_false_iff, decide_eq_false_iff_not, Cx.mk.injEq]
  tauto

theorem lineEq_iff (a b : XCx K × XCx K) : lineEq a b = true ↔ a = b ∧ isNaN a.1 = false ∧ isNaN a.2 = false := by
  obtain ⟨a1, a2⟩ := a
  obtain ⟨b1, b2⟩ := b
  simp only [lineEq, Bool.and_eq_true, ceq_iff, Prod.mk.injEq]
  tauto

theorem sideEq_iff (a b : XNum K × Side) : sideEq a b = true ↔ a = b ∧ a.1 ≠ .nan := by
  obtain ⟨a1, a2⟩ := a
  obtain ⟨b1, b2⟩ := b
  simp only [sideEq, Bool.and_eq_true, XNum.eq_iff, decide_eq_true_eq, Prod.mk.injEq]
  tauto

/-! ## Dictionaries -/

theorem lookup_put_self {κ ν : Type} {eq : κ → κ → Bool} {k : κ} (h : eq k k = true) (v : ν) (d : XDict κ ν) :
    lookup eq k (put eq k v d) = some v := by
  simp [lookup, put, h]

theorem lookup_put_other {κ ν : Type} {eq : κ → κ → Bool} {ok : κ → Prop} (he : ∀ a b, eq a b = true ↔ a = b ∧ ok a)
    {k k' : κ} (h : k ≠ k') (v : ν) (d : XDict κ ν) : lookup eq k' (put eq k v d) = lookup eq k' d := by
  have h1 : eq k k' = false := by
    cases hh : eq k k' with
    | false => rfl
    | true => exact absurd ((he k k').1 hh).1 h
  unfold lookup put
  rw [List.find?_cons, h1]
  dsimp only
  congr 1
  induction d with
  | nil => rfl
  | cons e d ih =>
    rw [List.filter_cons]
    cases hk : eq e.1 k with
    | true =>
      have : eq e.1 k' = false := by
        cases hh : eq e.1 k' with
        | false => rfl
        | true => exact absurd ((((he _ _).1 hk).1).symm.trans ((he _ _).1 hh).1) h
      simp only [Bool.not_true, Bool.false_eq_true, if_false, List.find?_cons, this]
      exact ih
    | false =>
      simp only [Bool.not_false, if_true, List.find?_cons]
      rw [ih]

theorem lookup_none_of_ne {κ ν : Type} {eq : κ → κ → Bool} {ok : κ → Prop} (he : ∀ a b, eq a b = true ↔ a = b ∧ ok a)
    {k : κ} (h : ¬ ok k) (d : XDict κ ν) : lookup eq k d = none := by
  unfold lookup
  rw [List.find?_eq_none.2]
  · rfl
  · intro e _ hh
    obtain ⟨h1, h2⟩ := (he _ _).1 hh
    rw [h1] at h2
    exact h h2

theorem lookup_put {κ ν : Type} {eq : κ → κ → Bool} {ok : κ → Prop} (he : ∀ a b, eq a b = true ↔ a = b ∧ ok a)
    {k k' : κ} {v u : ν} {d : XDict κ ν} (h : lookup eq k' (put eq k v d) = some u) :
    (k = k' ∧ u = v) ∨ (k ≠ k' ∧ lookup eq k' d = some u) := by
  by_cases hk : k = k'
  · subst hk
    by_cases ho : ok k
    · rw [lookup_put_self ((he _ _).2 ⟨rfl, ho⟩)] at h
      injection h with h
      exact .inl ⟨rfl, h.symm⟩
    · rw [lookup_none_of_ne he ho] at h
      cases h
  · rw [lookup_put_other he hk] at h
    exact .inr ⟨hk, h⟩

/-! ## Sampling -/

/-- all roots added so far are exact zeros with order 0 -/
def OnlyZeros (f : XCx K → XCx K) (w : XWorld σ K) : Prop := ∀ r ∈ w.added, ExactZero f r.1 ∧ r.2 = 0

/-- nothing changed except for added exact zeros -/
def Frame (f : XCx K → XCx K) (w w' : XWorld σ K) : Prop :=
  w'.cache = w.cache ∧ w'.est = w.est ∧ OnlyZeros f w'

/-- what is moved by the loop of `genFuncArr` -/
def lineMove (a b : XCx K) (p : ℤ × ℤ) : XCx K :=
  if XNum.eq a.im b.im then ⟨.fin 0, .fin (2 * eps10 K p.2)⟩ else ⟨.fin (2 * eps10 K p.1), .fin 0⟩

/-- the first sample of the line is undefined, however often the line is moved -/
def Tainted (ctx : XCtx K) (a b : XCx K) : Prop :=
  ∀ size, 2 ≤ size → ∃ S : List (XCx K) → Prop, S (xLinspace a b size) ∧
    (∀ zs, S zs → (∃ z ∈ zs, ExactZero ctx.f z) → S (zs.map (cadd · (lineMove a b ctx.precision)))) ∧
    (∀ zs, S zs → ∃ z z' rest, zs = z :: z' :: rest ∧ isNaN (ctx.f z) = true)

theorem zero_iff (f : XCx K → XCx K) (z : XCx K) : ceq (f z) ⟨.fin 0, .fin 0⟩ = true ↔ ExactZero f z := by
  rw [ceq_iff]
  constructor
  · exact fun h => h.1
  · intro h
    refine ⟨h, ?_⟩
    rw [h]
    rfl

theorem funcLoop_post (f : XCx K → XCx K) (shift : XCx K) (S : List (XCx K) → Prop)
    (hS : ∀ zs, S zs → (∃ z ∈ zs, ExactZero f z) → S (zs.map (cadd · shift))) (n : ℕ) :
    ∀ (zs : List (XCx K)) (w : XWorld σ K), S zs → OnlyZeros f w →
      Post (xFuncLoop f shift n zs) w (fun r w' => S r.1 ∧ r.2 = r.1.map f ∧ Frame f w w') (OnlyZeros f) := by
  induction n with
  | zero => exact fun zs w _ hz => post_throw hz
  | succ n ih =>
    intro zs w hs hz
    unfold xFuncLoop
    dsimp only
    split
    · exact post_pure ⟨hs, rfl, rfl, rfl, hz⟩
    · rename_i hne
      have hmem : ∀ z ∈ zs.filter (fun z => ceq (f z) ⟨.fin 0, .fin 0⟩), z ∈ zs ∧ ExactZero f z := fun z hm => by
        rw [List.mem_filter, zero_iff] at hm
        exact hm
      have hz' : OnlyZeros f { w with added := w.added ++
          (zs.filter (fun z => ceq (f z) ⟨.fin 0, .fin 0⟩)).map (fun z => (z, (0 : ℤ))) } := by
        intro r hr
        rcases List.mem_append.1 hr with h | h
        · exact hz r h
        · obtain ⟨z, hm, rfl⟩ := List.mem_map.1 h
          exact ⟨(hmem z hm).2, rfl⟩
      refine post_bind (P := fun _ w' => w'.cache = w.cache ∧ w'.est = w.est ∧ OnlyZeros f w') ?_ ?_
      · exact post_modify ⟨rfl, rfl, hz'⟩
      · intro _ w' hw'
        have hex : ∃ z ∈ zs, ExactZero f z := by
          cases hfl : zs.filter (fun z => ceq (f z) ⟨.fin 0, .fin 0⟩) with
          | nil => rw [hfl] at hne; exact absurd rfl hne
          | cons z l => exact ⟨z, hmem z (by rw [hfl]; exact List.mem_cons_self ..)⟩
        refine post_mono (ih _ w' (hS zs hs hex) hw'.2.2) ?_ (fun _ h => h)
        rintro r w'' ⟨h1, h2, h3, h4, h5⟩
        exact ⟨h1, h2, h3.trans hw'.1, h4.trans hw'.2.1, h5⟩

theorem funcArr_frame (fuel : ℕ → ℕ) (a b : XCx K) (ctx : XCtx K) (size : ℕ) (w : XWorld σ K) (hz : OnlyZeros ctx.f w) :
    Post (xFuncArr fuel a b ctx size) w (fun _ w' => Frame ctx.f w w') (OnlyZeros ctx.f) :=
  post_mono (funcLoop_post ctx.f _ (fun _ => True) (fun _ _ _ => trivial) _ _ w trivial hz) (fun _ _ h => h.2.2)
    (fun _ h => h)

theorem funcArr_tainted (fuel : ℕ → ℕ) (a b : XCx K) (ctx : XCtx K) (ht : Tainted ctx a b) (size : ℕ) (hs : 2 ≤ size)
    (w : XWorld σ K) (hz : OnlyZeros ctx.f w) :
    Post (xFuncArr fuel a b ctx size) w (fun r w' => Frame ctx.f w w' ∧
      ∃ z z' zs v v' vs, r.1 = z :: z' :: zs ∧ r.2 = v :: v' :: vs ∧ isNaN v = true) (OnlyZeros ctx.f) := by
  obtain ⟨S, h1, h2, h3⟩ := ht size hs
  refine post_mono (funcLoop_post ctx.f (lineMove a b ctx.precision) S h2 _ _ w h1 hz) ?_ (fun _ h => h)
  rintro r w' ⟨hS, hr, hf⟩
  obtain ⟨z, z', rest, he, hn⟩ := h3 r.1 hS
  exact ⟨hf, z, z', rest, ctx.f z, ctx.f z', rest.map ctx.f, he, by rw [hr, he]; rfl, hn⟩

/-! ## The summation estimator -/

variable [FloorRing K]

theorem whereFrom_pos {α : Type} (p : α → Bool) (a : α) (l : List α) (ha : p a = false) (i : ℕ) :
    ∀ k rest, whereFrom p i (a :: l) = k :: rest → i < k := by
  intro k rest h
  have hge : ∀ (l : List α) (i k : ℕ) (rest), whereFrom p i l = k :: rest → i ≤ k := by
    intro l
    induction l with
    | nil => intro i k rest h; cases h
    | cons b l ih =>
      intro i k rest h
      unfold whereFrom at h
      split at h
      · injection h with h _; exact h ▸ le_refl _
      · exact le_trans (Nat.le_succ i) (ih _ _ _ h)
  unfold whereFrom at h
  rw [ha] at h
  exact hge l (i + 1) k rest h

theorem refineLoop_post (cfg : XSumCfg K) (ctx : XCtx K) (n : ℕ) :
    ∀ (idx : ℕ) (zArr : List (XCx K)) (phiArr : List (XNum K)) (w : XWorld (XSumState K) K), OnlyZeros ctx.f w →
      Post (xRefineLoop cfg ctx n idx zArr phiArr) w (fun r w' => Frame ctx.f w w' ∧
        ((∃ ps, phiArr = .nan :: ps) → ∃ ps, r.2 = .nan :: ps)) (OnlyZeros ctx.f) := by
  induction n with
  | zero => exact fun _ _ _ w hz => post_throw hz
  | succ n ih =>
    intro idx zArr phiArr w hz
    unfold xRefineLoop
    split
    · exact post_pure ⟨⟨rfl, rfl, hz⟩, fun h => h⟩
    · rename_i k rest hk
      dsimp only
      split
      · exact post_pure ⟨⟨rfl, rfl, hz⟩, fun h => h⟩
      · split
        · exact post_pure ⟨⟨rfl, rfl, hz⟩, fun h => h⟩
        · split
          · refine post_bind (funcArr_frame cfg.evals _ _ ctx _ w hz) ?_
            intro r w' hw'
            refine post_mono (ih _ _ _ w' hw'.2.2) ?_ (fun _ h => h)
            rintro r' w'' ⟨⟨h1, h2, h3⟩, h4⟩
            refine ⟨⟨h1.trans hw'.1, h2.trans hw'.2.1, h3⟩, ?_⟩
            rintro ⟨ps, rfl⟩
            apply h4
            have : 0 < k := whereFrom_pos _ _ _ rfl 0 k rest hk
            obtain ⟨j, rfl⟩ : ∃ j, k = j + 1 := ⟨k - 1, by omega⟩
            exact ⟨_, by rw [List.take_succ_cons, List.cons_append, List.cons_append]⟩
          · exact post_throw hz

theorem phiArr_frame (cfg : XSumCfg K) (a b : XCx K) (ctx : XCtx K) (w : XWorld (XSumState K) K)
    (hz : OnlyZeros ctx.f w) : Post (xPhiArr cfg a b ctx) w (fun _ w' => Frame ctx.f w w') (OnlyZeros ctx.f) := by
  unfold xPhiArr
  refine post_bind (funcArr_frame cfg.evals a b ctx _ w hz) ?_
  intro r w' hw'
  refine post_mono (refineLoop_post cfg ctx _ _ _ _ w' hw'.2.2) ?_ (fun _ h => h)
  rintro r' w'' ⟨⟨h1, h2, h3⟩, _⟩
  exact ⟨h1.trans hw'.1, h2.trans hw'.2.1, h3⟩

theorem phiArr_tainted (cfg : XSumCfg K) (hp : SumPropagates cfg) (a b : XCx K) (ctx : XCtx K) (ht : Tainted ctx a b)
    (w : XWorld (XSumState K) K) (hz : OnlyZeros ctx.f w) :
    Post (xPhiArr cfg a b ctx) w (fun r w' => Frame ctx.f w w' ∧ ∃ ps, r.2 = .nan :: ps) (OnlyZeros ctx.f) := by
  unfold xPhiArr
  refine post_bind (funcArr_tainted cfg.evals a b ctx ht _ hp.points w hz) ?_
  rintro r w' ⟨hw', z, z', zs, v, v', vs, hr1, hr2, hn⟩
  refine post_mono (refineLoop_post cfg ctx _ _ _ _ w' hw'.2.2) ?_ (fun _ h => h)
  rintro r' w'' ⟨⟨h1, h2, h3⟩, h4⟩
  refine ⟨⟨h1.trans hw'.1, h2.trans hw'.2.1, h3⟩, h4 ⟨xPhases cfg.phase (v' :: vs), ?_⟩⟩
  rw [hr2]
  show cfg.phase v v' :: _ = _
  rw [hp.phase v v' (.inl hn)]
  rfl

theorem sliceOrSample_frame (cfg : XSumCfg K) (a b : XCx K) (ctx : XCtx K) (o : Option (XLine K))
    (w : XWorld (XSumState K) K) (hz : OnlyZeros ctx.f w) :
    Post (xSliceOrSample cfg a b ctx o) w (fun _ w' => Frame ctx.f w w') (OnlyZeros ctx.f) := by
  cases o with
  | none => exact phiArr_frame cfg a b ctx w hz
  | some v => exact post_pure ⟨rfl, rfl, hz⟩

/-- the row of the corner in the internal cache: lines from the corner begin with an undefined phase -/
def RowOk (x0 : XNum K) (y0 : K) (s : XSumState K) : Prop :=
  ∀ inner, lookup XNum.eq (.fin y0) s.horizontal = some inner → x0 ≠ .nan →
    ∃ v ps, lookup sideEq (x0, .start) inner = some v ∧ v.2 = .nan :: ps

theorem cutEnd_first (proj : XCx K → XNum K) (v : XLine K) (hi : XNum K) {ps : List (XNum K)} (hv : v.2 = .nan :: ps)
    {u : XLine K} (h : xCutEnd proj v hi = some u) : ∃ ps, u.2 = .nan :: ps := by
  unfold xCutEnd at h
  dsimp only at h
  split at h
  · cases h
  · injection h with h
    subst h
    exact ⟨_, by dsimp only; rw [hv, List.take_succ_cons]⟩

theorem cutStartH_nan (v : XLine K) : xCutStartH v .nan = none := by
  unfold xCutStartH
  have : whereFrom (fun z : XCx K => XNum.le .nan z.re) 0 v.1 = [] := by
    have h : ∀ (l : List (XCx K)) i, whereFrom (fun z : XCx K => XNum.le .nan z.re) i l = [] := by
      intro l
      induction l with
      | nil => intro i; rfl
      | cons a l ih =>
        intro i
        unfold whereFrom
        have : XNum.le .nan a.re = false := by cases a.re <;> rfl
        rw [this]
        exact ih _
    exact h _ _
  rw [this]
  rfl

theorem store_row (c : XLineCache K) (y0 : K) (lo hi : XNum K) (v : XLine K) :
    lookup XNum.eq (.fin y0) (xStore c (.fin y0) lo hi v) =
      some (put sideEq (hi, .stop) v (put sideEq (lo, .start) v ((lookup XNum.eq (.fin y0) c).getD []))) := by
  unfold xStore
  exact lookup_put_self (k := XNum.fin y0) ((XNum.eq_iff _ _).2 ⟨rfl, nofun⟩) _ _

theorem store_other (c : XLineCache K) (y0 : K) (y lo hi : XNum K) (v : XLine K) (h : y ≠ .fin y0) :
    lookup XNum.eq (.fin y0) (xStore c y lo hi v) = lookup XNum.eq (.fin y0) c := by
  unfold xStore
  exact lookup_put_other (fun a b => XNum.eq_iff a b) h _ _

theorem xSigned_nan (a b : XNum K) (ps : List (XNum K)) : (xSigned a b (.nan :: ps)).re = .nan := by
  unfold xSigned
  rw [sum_nan]
  rfl

theorem sorted_of (a b : XNum K) (h : XNum.lt b a = false) : XNum.sorted a b = (a, b) := by
  unfold XNum.sorted
  rw [h]
  rfl

/-- the bottom line -/
theorem horizontal_bottom (cfg : XSumCfg K) (hp : SumPropagates cfg) (ctx : XCtx K) (x0 x2 : XNum K) (y0 : K)
    (hl : XNum.lt x2 x0 = false) (ht : Tainted ctx ⟨x0, .fin y0⟩ ⟨x2, .fin y0⟩) (w : XWorld (XSumState K) K)
    (hz : OnlyZeros ctx.f w) (hr : RowOk x0 y0 w.est) :
    Post (xHorizontal cfg x0 x2 (.fin y0) ctx) w (fun d w' => d.re = .nan ∧ RowOk x0 y0 w'.est ∧ w'.cache = w.cache ∧
      OnlyZeros ctx.f w') (OnlyZeros ctx.f) := by
  unfold xHorizontal
  refine post_bind (P := fun a w' => w = a ∧ w = w') (post_get ⟨rfl, rfl⟩) ?_
  rintro _ _ ⟨rfl, rfl⟩
  dsimp only
  rw [sorted_of x0 x2 hl]
  have hs : Post (xSliceOrSample cfg (mkPoint x0 (.fin y0)) (mkPoint x2 (.fin y0)) ctx
      (xReuseH w.est.horizontal x0 x2 (.fin y0))) w (fun r w' => Frame ctx.f w w' ∧ ∃ ps, r.2 = .nan :: ps)
      (OnlyZeros ctx.f) := by
    have hsample := phiArr_tainted cfg hp ⟨x0, .fin y0⟩ ⟨x2, .fin y0⟩ ctx ht w hz
    have hm : mkPoint x0 (.fin y0) = (⟨x0, .fin y0⟩ : XCx K) := rfl
    have hm' : mkPoint x2 (.fin y0) = (⟨x2, .fin y0⟩ : XCx K) := rfl
    rw [hm, hm']
    unfold xReuseH xCached
    rcases hc : lookup XNum.eq (.fin y0) w.est.horizontal with _ | inner
    · exact hsample
    · dsimp only
      by_cases hn : x0 = .nan
      · have hk : lookup sideEq (x0, .start) inner = none := by
          refine lookup_none_of_ne (fun a b => sideEq_iff a b) ?_ _
          rw [hn]; exact fun h => h rfl
        rw [hk]
        dsimp only
        rcases hstop : lookup sideEq (x2, Side.stop) inner with _ | v
        · exact hsample
        · simp only [Option.map_some]
          have hcs : xCutStartH v x0 = none := by rw [hn]; exact cutStartH_nan v
          rw [hcs]
          exact hsample
      · obtain ⟨v, ps, hv, hvn⟩ := hr inner hc hn
        rw [hv]
        dsimp only
        rcases hcut : xCutEnd Cx.re v x2 with _ | u
        · exact hsample
        · exact post_pure ⟨⟨rfl, rfl, hz⟩, cutEnd_first _ _ _ hvn hcut⟩
  refine post_bind hs ?_
  rintro v w1 ⟨⟨h1, h2, h3⟩, ps, hv⟩
  refine post_bind (P := fun _ w' => RowOk x0 y0 w'.est ∧ w'.cache = w.cache ∧ OnlyZeros ctx.f w') ?_ ?_
  · refine post_modify ⟨?_, h1, h3⟩
    intro inner hin hn
    dsimp only at hin
    rw [store_row] at hin
    injection hin with hin
    subst hin
    refine ⟨v, ps, ?_, hv⟩
    rw [lookup_put_other (fun a b => sideEq_iff a b) (by simp),
      lookup_put_self ((sideEq_iff _ _).2 ⟨rfl, hn⟩)]
  · rintro _ w2 hw2
    refine post_pure ⟨?_, hw2⟩
    rw [hv]
    exact xSigned_nan _ _ _

theorem horizontal_frame (cfg : XSumCfg K) (ctx : XCtx K) (x1 x2 y : XNum K) (w : XWorld (XSumState K) K)
    (hz : OnlyZeros ctx.f w) :
    Post (xHorizontal cfg x1 x2 y ctx) w (fun _ w' => w'.cache = w.cache ∧ OnlyZeros ctx.f w' ∧
      ∃ v lo hi, w'.est = { w.est with horizontal := xStore w.est.horizontal y lo hi v }) (OnlyZeros ctx.f) := by
  unfold xHorizontal
  refine post_bind (P := fun a w' => w = a ∧ w = w') (post_get ⟨rfl, rfl⟩) ?_
  rintro _ _ ⟨rfl, rfl⟩
  dsimp only
  refine post_bind (sliceOrSample_frame cfg _ _ ctx _ _ hz) ?_
  rintro v w1 ⟨h1, h2, h3⟩
  refine post_bind (P := fun _ w' => w'.cache = w.cache ∧ OnlyZeros ctx.f w' ∧
    ∃ v lo hi, w'.est = { w.est with horizontal := xStore w.est.horizontal y lo hi v })
      (post_modify ⟨h1, h3, v, _, _, by dsimp only; rw [h2]⟩) ?_
  intro _ w2 hw2
  exact post_pure hw2

theorem vertical_frame (cfg : XSumCfg K) (ctx : XCtx K) (y1 y2 x : XNum K) (w : XWorld (XSumState K) K)
    (hz : OnlyZeros ctx.f w) :
    Post (xVertical cfg y1 y2 x ctx) w (fun _ w' => w'.cache = w.cache ∧ OnlyZeros ctx.f w' ∧
      w'.est.horizontal = w.est.horizontal) (OnlyZeros ctx.f) := by
  unfold xVertical
  refine post_bind (P := fun a w' => w = a ∧ w = w') (post_get ⟨rfl, rfl⟩) ?_
  rintro _ _ ⟨rfl, rfl⟩
  dsimp only
  refine post_bind (P := fun _ w' => w = w') ?_ ?_
  · unfold xLift
    split
    · exact post_pure rfl
    · exact post_throw hz
  · rintro r _ rfl
    refine post_bind (sliceOrSample_frame cfg _ _ ctx _ _ hz) ?_
    rintro v w1 ⟨h1, h2, h3⟩
    refine post_bind (P := fun _ w' => w'.cache = w.cache ∧ OnlyZeros ctx.f w' ∧ w'.est.horizontal = w.est.horizontal)
      (post_modify ⟨h1, h3, by dsimp only; rw [h2]⟩) ?_
    intro _ w2 hw2
    exact post_pure hw2

/-! ## The quadrature estimator -/

theorem quadSample_frame (cfg : XQuadCfg K) (df : XCx K → XCx K) (a b : XCx K) (ctx : XCtx K) (size : ℕ)
    (w : XWorld σ K) (hz : OnlyZeros ctx.f w) :
    Post (xQuadSample cfg df a b ctx size) w (fun _ w' => Frame ctx.f w w') (OnlyZeros ctx.f) := by
  unfold xQuadSample
  refine post_bind (funcArr_frame cfg.evals a b ctx size w hz) ?_
  intro r w' hw'
  exact post_pure hw'

/-- the first sample of the logarithmic derivative is undefined -/
def BadArr (fs : List (XCx K)) : Prop := ∃ v v' vs, fs = v :: v' :: vs ∧ v.re = .nan

theorem quadSample_tainted (cfg : XQuadCfg K) (hp : QuadPropagates cfg) (df : XCx K → XCx K) (a b : XCx K)
    (ctx : XCtx K) (ht : Tainted ctx a b) (size : ℕ) (hs : 2 ≤ size) (w : XWorld σ K) (hz : OnlyZeros ctx.f w) :
    Post (xQuadSample cfg df a b ctx size) w (fun r w' => Frame ctx.f w w' ∧ BadArr r.2) (OnlyZeros ctx.f) := by
  unfold xQuadSample
  refine post_bind (funcArr_tainted cfg.evals a b ctx ht size hs w hz) ?_
  rintro r w' ⟨hw', z, z', zs, v, v', vs, hr1, hr2, hn⟩
  refine post_pure ⟨hw', cfg.quot (df z) v, cfg.quot (df z') v', List.zipWith (fun z v => cfg.quot (df z) v) zs vs, ?_,
    hp.quot _ _ hn⟩
  dsimp only
  rw [hr1, hr2]
  rfl

theorem rombPy_post (romb : List (XNum K) → XNum K → XNum K) (y : List (XNum K)) (dx : XNum K) (w : XWorld σ K)
    (E : XWorld σ K → Prop) (hE : E w) : Post (xRombPy romb y dx) w (fun r w' => r = romb y dx ∧ w' = w) E := by
  unfold xRombPy
  split
  · exact post_pure ⟨rfl, rfl⟩
  · exact post_throw hE

theorem quadRomb_post (cfg : XQuadCfg K) (fs : List (XCx K)) (dx : XNum K) (w : XWorld σ K) (E : XWorld σ K → Prop)
    (hE : E w) : Post (xQuadRomb cfg fs dx) w (fun r w' => r.1 = cfg.romb (fs.map Cx.re) dx ∧ w' = w) E := by
  unfold xQuadRomb
  refine post_bind (rombPy_post _ _ _ w E hE) ?_
  rintro r _ ⟨rfl, rfl⟩
  refine post_bind (rombPy_post _ _ _ _ E hE) ?_
  rintro i _ ⟨rfl, rfl⟩
  exact post_pure ⟨rfl, rfl⟩

theorem romb_bad (cfg : XQuadCfg K) (hp : QuadPropagates cfg) (fs : List (XCx K)) (h : BadArr fs) (dx : XNum K) :
    cfg.romb (fs.map Cx.re) dx = .nan := by
  obtain ⟨v, v', vs, rfl, hn⟩ := h
  apply hp.romb
  rw [List.map_cons, hn]
  exact List.mem_cons_self ..

theorem merge_post {α : Type} (old new : List α) (w : XWorld σ K) (E : XWorld σ K → Prop) (hE : E w) :
    Post (xMerge old new) w (fun r w' => w' = w ∧ ∀ a b rest, old = a :: b :: rest → ∃ c rest', r = a :: c :: rest') E := by
  unfold xMerge
  split
  · rename_i hlen
    split
    · rename_i l hl
      refine post_pure ⟨rfl, ?_⟩
      rintro a b rest rfl
      cases new with
      | nil => simp at hlen
      | cons n ns =>
        refine ⟨n, interleave ((b :: rest).dropLast) ns ++ [l], ?_⟩
        rw [List.dropLast_cons₂]
        rfl
    · exact post_throw hE
  · exact post_throw hE

theorem quadRefine_frame (cfg : XQuadCfg K) (df : XCx K → XCx K) (ctx : XCtx K) (v : XQuadVars K) (w : XWorld σ K)
    (hz : OnlyZeros ctx.f w) : Post (xQuadRefine cfg df ctx v) w (fun _ w' => Frame ctx.f w w') (OnlyZeros ctx.f) := by
  unfold xQuadRefine
  split
  · dsimp only
    refine post_bind (quadSample_frame cfg df _ _ ctx _ w hz) ?_
    intro new w1 hw1
    refine post_bind (merge_post _ _ w1 _ hw1.2.2) ?_
    rintro z _ ⟨rfl, _⟩
    refine post_bind (merge_post _ _ _ _ hw1.2.2) ?_
    rintro fs _ ⟨rfl, _⟩
    exact post_pure hw1
  · refine post_bind (quadSample_frame cfg df _ _ ctx _ w hz) ?_
    intro r w1 hw1
    exact post_pure hw1

theorem quadRefine_tainted (cfg : XQuadCfg K) (hp : QuadPropagates cfg) (df : XCx K → XCx K) (ctx : XCtx K)
    (v : XQuadVars K) (hv : BadArr v.funcArr) (ht : v.samplePts < expSamplePoints + 2 → Tainted ctx v.zStart v.zEnd)
    (w : XWorld σ K) (hz : OnlyZeros ctx.f w) :
    Post (xQuadRefine cfg df ctx v) w (fun v' w' => Frame ctx.f w w' ∧ BadArr v'.funcArr ∧
      v'.samplePts = v.samplePts + 1 ∧ (v'.samplePts < expSamplePoints + 2 → Tainted ctx v'.zStart v'.zEnd) ∧
      v'.result = v.result) (OnlyZeros ctx.f) := by
  unfold xQuadRefine
  split
  · rename_i hge
    dsimp only
    refine post_bind (quadSample_frame cfg df _ _ ctx _ w hz) ?_
    intro new w1 hw1
    refine post_bind (merge_post _ _ w1 _ hw1.2.2) ?_
    rintro z _ ⟨rfl, _⟩
    refine post_bind (merge_post _ _ _ _ hw1.2.2) ?_
    rintro fs _ ⟨rfl, hfs⟩
    obtain ⟨a, b, rest, he, hn⟩ := hv
    obtain ⟨c, rest', hc⟩ := hfs a b rest he
    refine post_pure ⟨hw1, ⟨a, c, rest', hc, hn⟩, rfl, ?_, rfl⟩
    intro hlt
    exact absurd hlt (by show ¬ v.samplePts + 1 < _; omega)
  · rename_i hlt
    refine post_bind (quadSample_tainted cfg hp df _ _ ctx (ht (by omega)) _ (by
      have := Nat.one_le_two_pow (n := v.samplePts + 1)
      omega) w hz) ?_
    rintro r w1 ⟨hw1, hb⟩
    exact post_pure ⟨hw1, hb, rfl, fun _ => ht (by omega), rfl⟩

theorem close_nan (b : XNum K) : xClose .nan b = false := by
  unfold xClose XNum.sub
  rw [nan_add]
  rfl

theorem quadLoop_frame (cfg : XQuadCfg K) (df : XCx K → XCx K) (ctx : XCtx K) (d : XNum K) (n : ℕ) :
    ∀ (v : XQuadVars K) (w : XWorld σ K), OnlyZeros ctx.f w →
      Post (xQuadLoop cfg df ctx d n v) w (fun _ w' => Frame ctx.f w w') (OnlyZeros ctx.f) := by
  induction n with
  | zero => exact fun v w hz => post_throw hz
  | succ n ih =>
    intro v w hz
    unfold xQuadLoop
    split
    · refine post_bind (quadRefine_frame cfg df ctx v w hz) ?_
      intro v' w1 hw1
      refine post_bind (quadRomb_post cfg _ _ w1 _ hw1.2.2) ?_
      rintro new _ ⟨_, rfl⟩
      split
      · exact post_pure hw1
      · refine post_mono (ih _ _ hw1.2.2) ?_ (fun _ h => h)
        rintro _ w2 ⟨h1, h2, h3⟩
        exact ⟨h1.trans hw1.1, h2.trans hw1.2.1, h3⟩
    · exact post_pure ⟨rfl, rfl, hz⟩

theorem quadLoop_tainted (cfg : XQuadCfg K) (hp : QuadPropagates cfg) (df : XCx K → XCx K) (ctx : XCtx K) (d : XNum K)
    (n : ℕ) : ∀ (v : XQuadVars K) (w : XWorld σ K), BadArr v.funcArr → v.result.1 = .nan →
      (v.samplePts < expSamplePoints + 2 → Tainted ctx v.zStart v.zEnd) → OnlyZeros ctx.f w →
      Post (xQuadLoop cfg df ctx d n v) w (fun v' w' => Frame ctx.f w w' ∧ v'.result.1 = .nan) (OnlyZeros ctx.f) := by
  induction n with
  | zero => exact fun v w _ _ _ hz => post_throw hz
  | succ n ih =>
    intro v w hb hn ht hz
    unfold xQuadLoop
    split
    · refine post_bind (quadRefine_tainted cfg hp df ctx v hb ht w hz) ?_
      rintro v' w1 ⟨hw1, hb', hs', ht', hr'⟩
      refine post_bind (quadRomb_post cfg _ _ w1 _ hw1.2.2) ?_
      rintro new _ ⟨hnew, rfl⟩
      rw [romb_bad cfg hp _ hb'] at hnew
      rw [hnew, close_nan]
      simp only [Bool.false_and, Bool.false_eq_true, if_false]
      refine post_mono (ih _ _ hb' hnew ht' hw1.2.2) ?_ (fun _ h => h)
      rintro _ w2 ⟨⟨h1, h2, h3⟩, h4⟩
      exact ⟨⟨h1.trans hw1.1, h2.trans hw1.2.1, h3⟩, h4⟩
    · exact post_pure ⟨⟨rfl, rfl, hz⟩, hn⟩

theorem quadResult_nan (a b : XCx K) (r : XNum K × XNum K) (d : XNum K) (h : r.1 = .nan) :
    (xQuadResult a b r d).re = .nan := by
  unfold xQuadResult
  rw [h]
  have h1 : XNum.scale 0 (XNum.nan : XNum K) = .nan := rfl
  dsimp only
  rw [h1, nan_add, mul_nan]
  unfold XNum.sub
  rw [nan_add, nan_mul]

theorem quadLine_frame (cfg : XQuadCfg K) (a b : XCx K) (ctx : XCtx K) (w : XWorld σ K) (hz : OnlyZeros ctx.f w) :
    Post (xQuadLine cfg a b ctx) w (fun _ w' => Frame ctx.f w w') (OnlyZeros ctx.f) := by
  unfold xQuadLine
  split
  · exact post_throw hz
  · rename_i df _
    refine post_bind (quadSample_frame cfg df a b ctx _ w hz) ?_
    intro r w1 hw1
    dsimp only
    refine post_bind (quadRomb_post cfg _ _ w1 _ hw1.2.2) ?_
    rintro res _ ⟨_, rfl⟩
    refine post_bind (quadLoop_frame cfg df ctx _ _ _ _ hw1.2.2) ?_
    rintro v w2 ⟨h1, h2, h3⟩
    exact post_pure ⟨h1.trans hw1.1, h2.trans hw1.2.1, h3⟩

theorem quadLine_tainted (cfg : XQuadCfg K) (hp : QuadPropagates cfg) (a b : XCx K) (ctx : XCtx K) (ht : Tainted ctx a b)
    (w : XWorld σ K) (hz : OnlyZeros ctx.f w) :
    Post (xQuadLine cfg a b ctx) w (fun d w' => Frame ctx.f w w' ∧ d.re = .nan) (OnlyZeros ctx.f) := by
  unfold xQuadLine
  split
  · exact post_throw hz
  · rename_i df _
    refine post_bind (quadSample_tainted cfg hp df a b ctx ht _ (by decide) w hz) ?_
    rintro r w1 ⟨hw1, hb⟩
    dsimp only
    refine post_bind (quadRomb_post cfg _ _ w1 _ hw1.2.2) ?_
    rintro res _ ⟨hres, rfl⟩
    rw [romb_bad cfg hp _ hb] at hres
    refine post_bind (quadLoop_tainted cfg hp df ctx _ _
      ⟨a, b, expSamplePoints, r.1, r.2, res⟩ _ hb hres (fun _ => ht) hw1.2.2) ?_
    rintro v w2 ⟨⟨h1, h2, h3⟩, h4⟩
    exact post_pure ⟨⟨h1.trans hw1.1, h2.trans hw1.2.1, h3⟩, quadResult_nan _ _ _ _ h4⟩

/-! ## Rectangles -/

/-- the recursion: if all rectangles of a family closed under taking the first half have an undefined phase, the
search of such a rectangle never ends normally -/
theorem decide_never (est : XLineEst σ K) (pi : K) (variant : XVariant σ K) (ctx : XCtx K) (I : XWorld σ K → Prop)
    (R : XNum K × XNum K → XNum K × XNum K → Prop)
    (hre : ∀ re im, R re im → R (re.1, XNum.mid re.1 re.2) im) (him : ∀ re im, R re im → R re (im.1, XNum.mid im.1 im.2))
    (hI : ∀ w, I w → OnlyZeros ctx.f w)
    (hph : ∀ re im w, R re im → I w → Post (xPhase est re im ctx) w (fun p w' => p = .nan ∧ I w') (OnlyZeros ctx.f))
    (limit : ℕ) : ∀ re im w, R re im → I w →
      Post (xDispatch (xDecide est pi variant) limit re im .nan ctx) w (fun _ _ => False) (OnlyZeros ctx.f) := by
  induction limit with
  | zero => exact fun re im w _ hi => post_throw (hI w hi)
  | succ n ih =>
    intro re im w hR hi
    have hs : Post (xSimple est pi (xDispatch (xDecide est pi variant) n) re im .nan ctx) w (fun _ _ => False)
        (OnlyZeros ctx.f) := by
      unfold xSimple
      dsimp only
      rw [nan_lt]
      simp only [Bool.false_eq_true, if_false]
      split
      · exact post_throw (hI w hi)
      · split
        · refine post_bind (hph _ _ w (hre re im hR) hi) ?_
          rintro _ w1 ⟨rfl, h1⟩
          refine post_bind (ih _ _ w1 (hre re im hR) h1) ?_
          rintro _ _ h
          exact h.elim
        · refine post_bind (hph _ _ w (him re im hR) hi) ?_
          rintro _ w1 ⟨rfl, h1⟩
          refine post_bind (ih _ _ w1 (him re im hR) h1) ?_
          rintro _ _ h
          exact h.elim
    unfold xDispatch
    cases variant with
    | simple => exact hs
    | newton few =>
      unfold xDecide
      dsimp only
      rw [lt_nan]
      simp only [Bool.false_and, Bool.false_eq_true, if_false]
      exact hs
    | polynomial few =>
      unfold xDecide
      dsimp only
      rw [lt_nan]
      simp only [Bool.false_and, Bool.false_eq_true, if_false]
      split
      · exact post_throw (hI w hi)
      · exact hs

/-- the whole search -/
theorem calcRoots_never (est : XLineEst σ K) (pi : K) (variant : XVariant σ K) (ctx : XCtx K) (I : XWorld σ K → Prop)
    (R : XNum K × XNum K → XNum K × XNum K → Prop)
    (hre : ∀ re im, R re im → R (re.1, XNum.mid re.1 re.2) im) (him : ∀ re im, R re im → R re (im.1, XNum.mid im.1 im.2))
    (hI : ∀ w, I w → OnlyZeros ctx.f w)
    (hph : ∀ re im w, R re im → I w → Post (xPhase est re im ctx) w (fun p w' => p = .nan ∧ I w') (OnlyZeros ctx.f))
    (limit : ℕ) (hR : R ctx.reRan ctx.imRan) (w : XWorld σ K) (hw : I { w with cache := [] }) :
    Post (xCalcRoots est pi variant limit ctx) w (fun _ _ => False) (OnlyZeros ctx.f) := by
  unfold xCalcRoots
  refine post_bind (P := fun _ w' => I w') (post_modify hw) ?_
  intro _ w1 h1
  refine post_bind (hph _ _ w1 hR h1) ?_
  rintro _ w2 ⟨rfl, h2⟩
  exact decide_never est pi variant ctx I R hre him hI hph limit _ _ w2 hR h2

/-- the loop over the edges keeps an invariant, and one undefined edge makes the phase undefined -/
theorem sumEdges_post (est : XLineEst σ K) (ctx : XCtx K) (I : XWorld σ K → Prop) (es : List (XCx K × XCx K))
    (h : ∀ e ∈ es, ∀ w, I w → Post (xEdge est ctx e) w (fun _ w' => I w') (OnlyZeros ctx.f)) :
    ∀ (phi : XCx K) (w : XWorld σ K), I w →
      Post (xSumEdges est ctx es phi) w (fun p w' => I w' ∧ (phi.re = .nan → p.re = .nan)) (OnlyZeros ctx.f) := by
  induction es with
  | nil => exact fun phi w hw => post_pure ⟨hw, fun h => h⟩
  | cons e es ih =>
    intro phi w hw
    unfold xSumEdges
    refine post_bind (h e (List.mem_cons_self ..) w hw) ?_
    intro d w1 h1
    refine post_mono (ih (fun e' m => h e' (List.mem_cons_of_mem _ m)) _ w1 h1) ?_ (fun _ h => h)
    rintro p w2 ⟨h2, h3⟩
    refine ⟨h2, fun hp => h3 ?_⟩
    show XNum.add phi.re d.re = .nan
    rw [hp, nan_add]

end PyZeal.Ext
