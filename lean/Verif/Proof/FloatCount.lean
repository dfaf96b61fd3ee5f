import Verif.Proof.FloatTurn
import Verif.Proof.Turn
import Verif.Spec.Turn

/-! # The number of turns computed in floating-point arithmetic is the number of zeros -/

set_option linter.unusedSectionVars false
set_option linter.unusedSimpArgs false

namespace PyZeal
open Spec
open Real

/-! ## computed sample points of a line -/

/-- the moving coordinate of `linspaceF` -/
noncomputable def linT (A : FloatOps ℝ) (a b : ℝ) : ℕ → List ℝ
  | 0 => []
  | 1 => [a]
  | n + 2 => a :: ((List.range n).map fun k =>
      A.fl (A.fl (((k + 1 : ℕ) : ℝ) * A.fl (A.fl (b - a) / ((n + 1 : ℕ) : ℝ))) + a)) ++ [b]

/-- a line whose fixed coordinate is a machine number -/
def MachineLine (fl : ℝ → ℝ) (pt : ℝ → Cx ℝ) : Prop :=
  (∃ y, Machine fl y ∧ pt = fun t => ⟨t, y⟩) ∨ ∃ x, Machine fl x ∧ pt = fun t => ⟨x, t⟩

theorem MachineLine.isLine {fl : ℝ → ℝ} {pt : ℝ → Cx ℝ} (h : MachineLine fl pt) : IsLine pt := by
  rcases h with ⟨y, _, h⟩ | ⟨x, _, h⟩
  · exact .inl ⟨y, h⟩
  · exact .inr ⟨x, h⟩

theorem linspaceF_line {A : FloatOps ℝ} {u : ℝ} (hA : Rounds A.fl u) {pt : ℝ → Cx ℝ} (hpt : MachineLine A.fl pt)
    (a b : ℝ) (n : ℕ) : linspaceF A (pt a) (pt b) n = (linT A a b n).map pt := by
  have h0 : A.fl 0 = 0 := hA.zero
  rcases n with _ | _ | n
  · rfl
  · rfl
  · rcases hpt with ⟨y, hy, rfl⟩ | ⟨x, hx, rfl⟩
    · unfold Machine at hy
      simp only [linspaceF, linT, List.map_append, List.map_cons, List.map_map, List.map_nil]
      congr 2
      apply List.map_congr_left
      intro k _
      apply Cx.ext <;> simp [FloatOps.cx, h0, hy]
    · unfold Machine at hx
      simp only [linspaceF, linT, List.map_append, List.map_cons, List.map_map, List.map_nil]
      congr 2
      apply List.map_congr_left
      intro k _
      apply Cx.ext <;> simp [FloatOps.cx, h0, hx]

/-- the computed multiple of the step: nonnegative, at most the length, and close to the exact one -/
theorem step_near {A : FloatOps ℝ} {u : ℝ} (hA : Rounds A.fl u) {a b : ℝ} (hab : a ≤ b) {n k : ℕ} (hk : k ≤ n)
    (hn : 4 * u * (n + 1) ≤ 1) :
    0 ≤ A.fl ((k : ℝ) * A.fl (A.fl (b - a) / ((n + 1 : ℕ) : ℝ))) ∧
    A.fl ((k : ℝ) * A.fl (A.fl (b - a) / ((n + 1 : ℕ) : ℝ))) ≤ b - a ∧
    |A.fl ((k : ℝ) * A.fl (A.fl (b - a) / ((n + 1 : ℕ) : ℝ))) - k * (b - a) / ((n + 1 : ℕ) : ℝ)| ≤ 4 * u * (b - a) := by
  have hu0 := hA.u_nonneg
  have hu := hA.u_small
  have nonneg : ∀ x, 0 ≤ x → 0 ≤ A.fl x := fun x hx => by
    have := hA.mono 0 x hx
    rwa [hA.zero] at this
  have up : ∀ x, 0 ≤ x → (1 - u) * x ≤ A.fl x ∧ A.fl x ≤ (1 + u) * x := fun x hx => by
    have := hA.near x
    rw [abs_of_nonneg hx, abs_le] at this
    constructor <;> linarith [this.1, this.2]
  set L := b - a with hL
  have hL0 : 0 ≤ L := sub_nonneg.2 hab
  have hn1 : (0 : ℝ) < ((n + 1 : ℕ) : ℝ) := by positivity
  have hk0 : (0 : ℝ) ≤ (k : ℝ) := by positivity
  set q := (k : ℝ) / ((n + 1 : ℕ) : ℝ) with hq
  have hq0 : 0 ≤ q := by positivity
  have hq1 : q ≤ 1 - 4 * u := by
    rw [hq, div_le_iff₀ hn1]
    have hk' : (k : ℝ) ≤ n := by exact_mod_cast hk
    push_cast
    linarith
  obtain ⟨l1, u1⟩ := up L hL0
  have h1 := nonneg L hL0
  have hd0 : 0 ≤ A.fl L / ((n + 1 : ℕ) : ℝ) := by positivity
  obtain ⟨l2, u2⟩ := up _ hd0
  have h2 := nonneg _ hd0
  have hm0 : 0 ≤ (k : ℝ) * A.fl (A.fl L / ((n + 1 : ℕ) : ℝ)) := mul_nonneg hk0 h2
  obtain ⟨l3, u3⟩ := up _ hm0
  have h3 := nonneg _ hm0
  set X := A.fl ((k : ℝ) * A.fl (A.fl L / ((n + 1 : ℕ) : ℝ))) with hX
  have e : (k : ℝ) * (A.fl L / ((n + 1 : ℕ) : ℝ)) = q * A.fl L := by rw [hq]; ring
  have hup : X ≤ (1 + u) ^ 3 * (q * L) := by
    calc X ≤ (1 + u) * ((k : ℝ) * A.fl (A.fl L / ((n + 1 : ℕ) : ℝ))) := u3
      _ ≤ (1 + u) * ((k : ℝ) * ((1 + u) * (A.fl L / ((n + 1 : ℕ) : ℝ)))) := by gcongr
      _ = (1 + u) ^ 2 * (q * A.fl L) := by rw [← e]; ring
      _ ≤ (1 + u) ^ 2 * (q * ((1 + u) * L)) := by gcongr
      _ = _ := by ring
  have hlo : (1 - u) ^ 3 * (q * L) ≤ X := by
    have hu1 : 0 ≤ 1 - u := by linarith
    calc (1 - u) ^ 3 * (q * L) = (1 - u) ^ 2 * (q * ((1 - u) * L)) := by ring
      _ ≤ (1 - u) ^ 2 * (q * A.fl L) := by gcongr
      _ = (1 - u) * ((k : ℝ) * ((1 - u) * (A.fl L / ((n + 1 : ℕ) : ℝ)))) := by rw [← e]; ring
      _ ≤ (1 - u) * ((k : ℝ) * A.fl (A.fl L / ((n + 1 : ℕ) : ℝ))) := by gcongr
      _ ≤ X := l3
  have c1 : (1 + u) ^ 3 ≤ 1 + 4 * u := by nlinarith [mul_nonneg hu0 hu0]
  have c2 : 1 - 4 * u ≤ (1 - u) ^ 3 := by nlinarith [mul_nonneg hu0 hu0, mul_nonneg hu0 (mul_nonneg hu0 hu0)]
  have hqL : 0 ≤ q * L := mul_nonneg hq0 hL0
  have hqL1 : q * L ≤ L := by nlinarith
  have up' : X ≤ (1 + 4 * u) * (q * L) := hup.trans (by gcongr)
  have lo' : (1 - 4 * u) * (q * L) ≤ X := le_trans (by gcongr) hlo
  refine ⟨h3, ?_, ?_⟩
  · refine up'.trans ?_
    have : (1 + 4 * u) * q ≤ 1 := by nlinarith
    nlinarith
  · have e2 : (k : ℝ) * L / ((n + 1 : ℕ) : ℝ) = q * L := by rw [hq]; ring
    rw [e2, abs_le]
    have : 4 * u * (q * L) ≤ 4 * u * L := by gcongr
    constructor <;> linarith

theorem linT_spec {A : FloatOps ℝ} {u : ℝ} (hA : Rounds A.fl u) {a b R : ℝ} (hab : a ≤ b) (ha : Machine A.fl a) (hb : Machine A.fl b)
    (haR : |a| ≤ R) (hbR : |b| ≤ R) {n : ℕ} (hn2 : 2 ≤ n) (hn : 4 * u * n ≤ 1) :
    (∀ t ∈ linT A a b n, a ≤ t ∧ t ≤ b ∧ Machine A.fl t) ∧
    (linT A a b n).IsChain (fun s t => s ≤ t ∧ t - s ≤ (b - a) / ((n : ℝ) - 1) + 18 * u * R) := by
  obtain ⟨m, rfl⟩ : ∃ m, n = m + 2 := ⟨n - 2, by omega⟩
  clear hn2
  have hu0 := hA.u_nonneg
  unfold Machine at ha hb
  have hR : 0 ≤ R := (abs_nonneg a).trans haR
  have hn' : 4 * u * ((m : ℝ) + 1) ≤ 1 := by push_cast at hn; nlinarith
  have en : (((m + 2 : ℕ) : ℝ) - 1) = ((m + 1 : ℕ) : ℝ) := by push_cast; ring
  rw [en]
  -- the points as a function of the index
  let x : ℕ → ℝ := fun k => A.fl ((k : ℝ) * A.fl (A.fl (b - a) / ((m + 1 : ℕ) : ℝ)))
  let P : ℕ → ℝ := fun k => if k = m + 1 then b else A.fl (x k + a)
  have hx0 : x 0 = 0 := by
    show A.fl (((0 : ℕ) : ℝ) * _) = 0
    rw [Nat.cast_zero, zero_mul, hA.zero]
  have hP0 : P 0 = a := by
    show (if (0 : ℕ) = m + 1 then b else A.fl (x 0 + a)) = a
    rw [if_neg (by omega), hx0, zero_add, ha]
  have hlist : linT A a b (m + 2) = (List.range (m + 2)).map P := by
    rw [List.range_succ, List.range_succ_eq_map, List.map_append, List.map_cons, hP0]
    simp only [linT, List.map_map, List.map_cons, List.map_nil]
    have hl : P (m + 1) = b := if_pos rfl
    rw [hl]
    congr 2
    apply List.map_congr_left
    intro k hk
    have : k < m := List.mem_range.1 hk
    show _ = if k.succ = m + 1 then b else _
    rw [if_neg (by omega)]
  have hxm : ∀ k, k ≤ m → 0 ≤ x k ∧ x k ≤ b - a ∧ |x k - k * (b - a) / ((m + 1 : ℕ) : ℝ)| ≤ 4 * u * (b - a) :=
    fun k hk => step_near hA hab hk hn'
  have hmono : ∀ k, x k ≤ x (k + 1) := by
    intro k
    apply hA.mono
    have h0 : 0 ≤ A.fl (A.fl (b - a) / ((m + 1 : ℕ) : ℝ)) := by
      have h1 : 0 ≤ A.fl (b - a) := by have := hA.mono 0 _ (sub_nonneg.2 hab); rwa [hA.zero] at this
      have h2 : 0 ≤ A.fl (b - a) / ((m + 1 : ℕ) : ℝ) := by positivity
      have := hA.mono 0 _ h2; rwa [hA.zero] at this
    exact mul_le_mul_of_nonneg_right (by push_cast; linarith) h0
  have hPin : ∀ k, k ≤ m + 1 → a ≤ P k ∧ P k ≤ b ∧ A.fl (P k) = P k := by
    intro k hk
    by_cases e : k = m + 1
    · have : P k = b := if_pos e
      rw [this]; exact ⟨hab, le_refl _, hb⟩
    · have e' : P k = A.fl (x k + a) := if_neg e
      obtain ⟨h1, h2, _⟩ := hxm k (by omega)
      rw [e']
      refine ⟨?_, ?_, hA.idem _⟩
      · have := hA.mono a (x k + a) (by linarith); rwa [ha] at this
      · have := hA.mono (x k + a) b (by linarith); rwa [hb] at this
  have hPnear : ∀ k, k ≤ m + 1 → |P k - (a + k * (b - a) / ((m + 1 : ℕ) : ℝ))| ≤ 9 * u * R := by
    intro k hk
    have hn1 : (0 : ℝ) < ((m + 1 : ℕ) : ℝ) := by positivity
    by_cases e : k = m + 1
    · have : P k = b := if_pos e
      rw [this, e]
      rw [mul_div_right_comm, div_self hn1.ne', one_mul, add_sub_cancel, sub_self, abs_zero]
      positivity
    · have e' : P k = A.fl (x k + a) := if_neg e
      obtain ⟨h1, h2, h3⟩ := hxm k (by omega)
      have h4 := hA.near (x k + a)
      have h5 : |x k + a| ≤ R := by
        rw [abs_le] at haR hbR ⊢
        constructor <;> linarith [haR.1, hbR.2]
      have h6 : u * |x k + a| ≤ u * R := by gcongr
      have h7 : 4 * u * (b - a) ≤ 4 * u * (2 * R) := by
        apply mul_le_mul_of_nonneg_left _ (by positivity)
        rw [abs_le] at haR hbR
        linarith [haR.1, hbR.2]
      rw [e']
      rw [abs_le] at h3 h4 ⊢
      constructor <;> linarith [h3.1, h3.2, h4.1, h4.2]
  rw [hlist]
  refine ⟨?_, ?_⟩
  · intro t ht
    obtain ⟨k, hk, rfl⟩ := List.mem_map.1 ht
    exact hPin k (by have := List.mem_range.1 hk; omega)
  · rw [List.isChain_map]
    refine (List.isChain_range (r := fun i j => P i ≤ P j ∧ P j - P i ≤ (b - a) / ((m + 1 : ℕ) : ℝ) + 18 * u * R) (n := m + 2)).2 ?_
    intro k hk
    have hk : k + 1 < m + 2 := by omega
    refine ⟨?_, ?_⟩
    · by_cases e : k + 1 = m + 1
      · have : P (k + 1) = b := if_pos e
        rw [this]; exact (hPin k (by omega)).2.1
      · have e1 : P (k + 1) = A.fl (x (k + 1) + a) := if_neg e
        have e2 : P k = A.fl (x k + a) := if_neg (by omega)
        rw [e1, e2]
        exact hA.mono _ _ (by linarith [hmono k])
    · have h1 := hPnear k (by omega)
      have h2 := hPnear (k + 1) (by omega)
      have e : ((k + 1 : ℕ) : ℝ) * (b - a) / ((m + 1 : ℕ) : ℝ) - k * (b - a) / ((m + 1 : ℕ) : ℝ) = (b - a) / ((m + 1 : ℕ) : ℝ) := by
        push_cast; ring
      rw [abs_le] at h1 h2
      linarith [h1.1, h2.2]

/-! ## chains of sample points -/

/-- increasing machine numbers leading from `lo` to `hi` in steps of at most `h` -/
def Fine (fl : ℝ → ℝ) (lo hi h : ℝ) (ts : List ℝ) : Prop :=
  (∀ t ∈ ts, lo ≤ t ∧ t ≤ hi ∧ Machine fl t) ∧ ts.IsChain (fun s t => s ≤ t ∧ t - s ≤ h) ∧
    ts.head? = some lo ∧ ts.getLast? = some hi

theorem splice_headT {z M : List ℝ} {k : ℕ} (hk : k + 1 < z.length) :
    (z.take (k + 1) ++ M ++ z.drop (k + 1)).head? = z.head? := by
  cases z with
  | nil => simp at hk
  | cons a t => simp

theorem splice_lastT {z M : List ℝ} {k : ℕ} (hk : k + 1 < z.length) :
    (z.take (k + 1) ++ M ++ z.drop (k + 1)).getLast? = z.getLast? := by
  have hne : z.drop (k + 1) ≠ [] := by
    intro e; have := congrArg List.length e; simp at this; omega
  rw [List.getLast?_append_of_ne_nil _ hne, List.getLast?_drop, if_neg (by omega)]

theorem split_atT {z : List ℝ} {k : ℕ} (hk : k + 1 < z.length) :
    ∃ A B, z = A ++ z.getD k 0 :: z.getD (k+1) 0 :: B ∧ A.length = k ∧
      z.take (k+1) = A ++ [z.getD k 0] ∧ z.drop (k+1) = z.getD (k+1) 0 :: B := by
  have h0 : k < z.length := by omega
  refine ⟨z.take k, z.drop (k + 2), ?_, by simp; omega, ?_, ?_⟩
  · rw [List.getD_eq_getElem _ _ h0, List.getD_eq_getElem _ _ hk,
      ← List.drop_eq_getElem_cons hk, ← List.drop_eq_getElem_cons h0, List.take_append_drop]
  · rw [List.getD_eq_getElem _ _ h0, List.take_append_getElem]
  · rw [List.getD_eq_getElem _ _ hk, ← List.drop_eq_getElem_cons hk]

theorem eq_cons_mid_concatT {l : List ℝ} {u v : ℝ} (h2 : 2 ≤ l.length)
    (hh : l.head? = some u) (hl : l.getLast? = some v) :
    l = u :: ((l.drop 1).dropLast ++ [v]) := by
  cases l with
  | nil => simp at h2
  | cons a t =>
    simp only [List.head?_cons, Option.some.injEq] at hh
    subst hh
    have ht : t ≠ [] := by rintro rfl; simp at h2
    rw [List.getLast?_cons_of_ne_nil ht, List.getLast?_eq_some_getLast ht, Option.some.injEq] at hl
    subst hl
    simp [List.dropLast_concat_getLast ht]

theorem Fine.refine {fl : ℝ → ℝ} {lo hi h : ℝ} {ts : List ℝ} (hf : Fine fl lo hi h ts) {k : ℕ} (hk : k + 1 < ts.length)
    {r : List ℝ} {h' : ℝ} (hr : Fine fl (ts.getD k 0) (ts.getD (k + 1) 0) h' r) (hr2 : 2 ≤ r.length) :
    Fine fl lo hi h (ts.take (k + 1) ++ (r.drop 1).dropLast ++ ts.drop (k + 1)) := by
  obtain ⟨f1, f2, f3, f4⟩ := hf
  obtain ⟨r1, r2, r3, r4⟩ := hr
  have hmem : ∀ i, i < ts.length → ts.getD i 0 ∈ ts := fun i hi => by
    rw [List.getD_eq_getElem _ _ hi]; exact List.getElem_mem hi
  refine ⟨?_, ?_, (splice_headT hk).trans f3, (splice_lastT hk).trans f4⟩
  · intro t ht
    simp only [List.mem_append] at ht
    rcases ht with (ht | ht) | ht
    · exact f1 t (List.mem_of_mem_take ht)
    · obtain ⟨a1, a2, a3⟩ := r1 t (List.mem_of_mem_drop (List.mem_of_mem_dropLast ht))
      exact ⟨(f1 _ (hmem k (by omega))).1.trans a1, a2.trans (f1 _ (hmem (k + 1) hk)).2.1, a3⟩
    · exact f1 t (List.mem_of_mem_drop ht)
  · obtain ⟨A, B, hz, hA, ht, hd⟩ := split_atT (z := ts) hk
    have hmid := eq_cons_mid_concatT hr2 r3 r4
    generalize (r.drop 1).dropLast = M at hmid ⊢
    rw [ht, hd]
    generalize ts.getD k 0 = s at *
    generalize ts.getD (k + 1) 0 = e at *
    rw [hz] at f2
    have c1 : (A ++ [s]).IsChain (fun s t => s ≤ t ∧ t - s ≤ h) := by
      have : A ++ s :: e :: B = (A ++ [s]) ++ (e :: B) := by simp
      rw [this] at f2
      exact f2.left_of_append
    have c3 : (e :: B).IsChain (fun s t => s ≤ t ∧ t - s ≤ h) := by
      have : A ++ s :: e :: B = (A ++ [s]) ++ (e :: B) := by simp
      rw [this] at f2
      exact f2.right_of_append
    have hse : e - s ≤ h := by
      have : A ++ s :: e :: B = A ++ ([s, e] ++ B) := by simp
      rw [this] at f2
      have := f2.right_of_append.left_of_append
      rw [List.isChain_cons_cons] at this
      exact this.1.2
    have c2 : (s :: (M ++ [e])).IsChain (fun s t => s ≤ t ∧ t - s ≤ h) := by
      rw [hmid] at r1 r2
      refine r2.imp_of_mem_imp ?_
      intro x y hx hy hxy
      refine ⟨hxy.1, ?_⟩
      have b1 := (r1 x hx).1
      have b2 := (r1 y hy).2.1
      linarith
    have j1 : (A ++ [s] ++ (M ++ [e])).IsChain (fun s t => s ≤ t ∧ t - s ≤ h) :=
      List.IsChain.append_overlap c1 (by simpa using c2) (by simp)
    have j2 : ((A ++ [s] ++ M) ++ [e] ++ B).IsChain (fun s t => s ≤ t ∧ t - s ≤ h) :=
      List.IsChain.append_overlap (by simpa using j1) (by simpa using c3) (by simp)
    simpa using j2

theorem linT_fine {A : FloatOps ℝ} {u : ℝ} (hA : Rounds A.fl u) {a b R : ℝ} (hab : a ≤ b) (ha : Machine A.fl a) (hb : Machine A.fl b)
    (haR : |a| ≤ R) (hbR : |b| ≤ R) {n : ℕ} (hn2 : 2 ≤ n) (hn : 4 * u * n ≤ 1) :
    Fine A.fl a b ((b - a) / ((n : ℝ) - 1) + 18 * u * R) (linT A a b n) := by
  obtain ⟨h1, h2⟩ := linT_spec hA hab ha hb haR hbR hn2 hn
  refine ⟨h1, h2, ?_, ?_⟩
  · obtain ⟨m, rfl⟩ : ∃ m, n = m + 2 := ⟨n - 2, by omega⟩
    rfl
  · obtain ⟨m, rfl⟩ : ∃ m, n = m + 2 := ⟨n - 2, by omega⟩
    exact List.getLast?_concat ..

/-! ## phases of a chain -/

section
variable {f : Cx ℝ → Cx ℝ} {T : Cx ℝ → Cx ℝ → ℝ} {h eta : ℝ} {Q : Cx ℝ → Prop}

/-- a computed phase between close points is the turn of the function, up to the error of phases -/
theorem phase_turn {S : SumOps ℝ} {δ : ℝ} (hph : PhaseWithin S δ) (ts : TurnSys f Q T h eta) (heta : eta ≤ 2) (hδ : δ ≤ 1 / 4)
    {pt : ℝ → Cx ℝ} (hpt : IsLine pt) {a b : ℝ} (ha : Q (pt a)) (hb : Q (pt b)) (hab : |b - a| ≤ h) :
    |S.phase (f (pt a)) (f (pt b)) - T (pt a) (pt b)| ≤ δ := by
  obtain ⟨h4, k, hk⟩ := hph _ _ (ts.ne _ ha) (ts.ne _ hb)
  have hT := ts.bound pt hpt a b ha hb hab
  have hang := ts.angle _ _ ha hb
  rw [← Real.Angle.coe_sub] at hang
  obtain ⟨m, hm⟩ := Real.Angle.angle_eq_iff_two_pi_dvd_sub.1 hang
  have p1 := Real.pi_gt_d2
  unfold toC at hm
  have hj : k = m := by
    have e : |2 * π * ((k : ℝ) - m)| < 2 * π := by
      rw [abs_le] at h4 hk hT
      rw [abs_lt]
      constructor <;> linarith [h4.1, h4.2, hk.1, hk.2, hT.1, hT.2]
    rw [abs_mul, abs_of_pos (by linarith)] at e
    have : |(k : ℝ) - m| < 1 := by
      by_contra hc
      push Not at hc
      nlinarith
    have : |k - m| < 1 := by exact_mod_cast this
    have := Int.abs_lt_one_iff.1 this
    omega
  rw [hj] at hk
  have : T (pt a) (pt b) = Complex.arg ⟨(f (pt b)).re, (f (pt b)).im⟩ - Complex.arg ⟨(f (pt a)).re, (f (pt a)).im⟩ + 2 * π * m := by
    linarith
  rwa [this]

theorem phases_turn {S : SumOps ℝ} {δ : ℝ} (hph : PhaseWithin S δ) (tt : TurnSys f Q T h eta) (heta : eta ≤ 2) (hδ : δ ≤ 1 / 4)
    {pt : ℝ → Cx ℝ} (hpt : IsLine pt) {lo hi : ℝ} (hQ : ∀ t, lo ≤ t → t ≤ hi → Q (pt t)) (ts : List ℝ) (a b : ℝ)
    (hin : ∀ t ∈ ts, lo ≤ t ∧ t ≤ hi) (hc : ts.IsChain (fun s t => s ≤ t ∧ t - s ≤ h))
    (ha : ts.head? = some a) (hb : ts.getLast? = some b) :
    |(phasesOf S.phase ((ts.map pt).map f)).sum - T (pt a) (pt b)| ≤ (phasesOf S.phase ((ts.map pt).map f)).length * δ := by
  induction ts generalizing a with
  | nil => simp at ha
  | cons x l ih =>
    simp only [List.head?_cons, Option.some.injEq] at ha
    subst ha
    cases l with
    | nil =>
      simp only [List.getLast?_singleton, Option.some.injEq] at hb
      subst hb
      obtain ⟨h1, h2⟩ := hin x (by simp)
      have := tt.add pt hpt lo hi hQ x x x h1 h2 h1 h2 h1 h2
      simp [phasesOf]
      linarith
    | cons y l =>
      rw [List.isChain_cons_cons] at hc
      obtain ⟨⟨c1, c2⟩, c3⟩ := hc
      have h1 := ih y (fun t ht => hin t (by simp at ht ⊢; tauto)) c3 rfl (by simpa using hb)
      obtain ⟨x1, x2⟩ := hin x (by simp)
      obtain ⟨y1, y2⟩ := hin y (by simp)
      obtain ⟨b1, b2⟩ := hin b (List.mem_of_getLast? hb)
      have h2 := phase_turn hph tt heta hδ hpt (hQ x x1 x2) (hQ y y1 y2) (by rw [abs_of_nonneg (by linarith)]; exact c2)
      have h3 := tt.add pt hpt lo hi hQ x y b x1 x2 y1 y2 b1 b2
      simp only [List.map_cons] at h1 ⊢
      rw [phasesOf_cons_cons, List.sum_cons, List.length_cons]
      push_cast
      rw [abs_le] at h1 h2 ⊢
      constructor <;> linarith [h1.1, h1.2, h2.1, h2.2]

/-- `v` is the turn from `a` to `b` up to the error of a computed line -/
def LineTurn (E B : ℝ) (T : Cx ℝ → Cx ℝ → ℝ) (a b : Cx ℝ) (v : ℝ) : Prop := |v| ≤ B ∧ |v - T a b| ≤ E

theorem fine_line {S : SumOps ℝ} {δ γ : ℝ} (hδ0 : 0 ≤ δ) (hγ : 0 ≤ γ) (hph : PhaseWithin S δ) {N : ℕ} (hsum : SumWithin S N γ)
    (tt : TurnSys f Q T h eta) (heta : eta ≤ 2) (hδ : δ ≤ 1 / 4) {fl : ℝ → ℝ}
    {pt : ℝ → Cx ℝ} (hpt : IsLine pt) {lo hi : ℝ} (hQ : ∀ t, lo ≤ t → t ≤ hi → Q (pt t)) {ts : List ℝ}
    (hf : Fine fl lo hi h ts) {p : List ℝ} (hp : p = phasesOf S.phase ((ts.map pt).map f)) (hN : p.length ≤ N) :
    LineTurn (lineErr N δ γ) (lineMax N γ) T (pt lo) (pt hi) (S.sum p) := by
  obtain ⟨h1, h2, h3, h4⟩ := hf
  have hs := hsum p hN
  have hin : ∀ t ∈ ts, lo ≤ t ∧ t ≤ hi := fun t ht => ⟨(h1 t ht).1, (h1 t ht).2.1⟩
  have hk := phases_turn hph tt heta hδ hpt hQ ts lo hi hin h2 h3 h4
  obtain ⟨_, ha⟩ := phasesOf_angle hph ((ts.map pt).map f) (f (pt lo)) (f (pt hi)) (by
    intro x hx
    obtain ⟨q, hq, rfl⟩ := List.mem_map.1 hx
    obtain ⟨t, ht, rfl⟩ := List.mem_map.1 hq
    exact tt.ne _ (hQ t (hin t ht).1 (hin t ht).2)) (by simp [h3]) (by simp [h4])
  rw [← hp] at hk ha
  have hN' : (p.length : ℝ) ≤ N := by exact_mod_cast hN
  have hle := abs_list_sum_le p
  have hγs : γ * (p.map abs).sum ≤ γ * (4 * N) := mul_le_mul_of_nonneg_left (by linarith) hγ
  have hδs : (p.length : ℝ) * δ ≤ N * δ := mul_le_mul_of_nonneg_right hN' hδ0
  unfold lineErr lineMax
  rw [abs_le] at hs hle
  refine ⟨?_, ?_⟩
  · rw [abs_le]
    constructor <;> nlinarith [hs.1, hs.2, hle.1, hle.2]
  · rw [abs_le] at hk ⊢
    constructor <;> nlinarith [hs.1, hs.2, hk.1, hk.2]

end

/-! ## the sampling loop -/

/-- sampling between two points of a line on which `f` has no zeros -/
theorem genFuncArrF_fine {σ : Type} {A : FloatOps ℝ} {u : ℝ} (hA : Rounds A.fl u) {S : SumOps ℝ} (hlin : S.lin = linspaceF A)
    {ctx : RCtx ℝ} {pt : ℝ → Cx ℝ} (hpt : MachineLine A.fl pt) {a b : ℝ} (hab : a ≤ b) (ha : Machine A.fl a) (hb : Machine A.fl b)
    (hne : ∀ t, a ≤ t → t ≤ b → ctx.f (pt t) ≠ 0) {n : ℕ} (hn2 : 2 ≤ n) (hn : 4 * u * n ≤ 1) (w : World σ ℝ) :
    genFuncArrF A S (pt a) (pt b) ctx n w =
      if S.evals n = 0 then (.error .outOfFuel, w)
      else (.ok ((linT A a b n).map pt, ((linT A a b n).map pt).map ctx.f), w) := by
  unfold genFuncArrF
  rw [hlin, linspaceF_line hA hpt]
  rcases he : S.evals n with _ | m
  · rfl
  rw [if_neg (by omega)]
  unfold genFuncLoopF
  have hin := (linT_spec hA hab ha hb (le_max_left |a| |b|) (le_max_right _ _) hn2 hn).1
  have he : (((linT A a b n).map pt).filter fun z => decide (ctx.f z = 0)).isEmpty = true := by
    rw [List.isEmpty_iff, List.filter_eq_nil_iff]
    intro z hz h0
    obtain ⟨t, ht, rfl⟩ := List.mem_map.1 hz
    exact hne t (hin t ht).1 (hin t ht).2.1 (of_decide_eq_true h0)
  dsimp only
  rw [if_pos he]
  rfl

/-- the refinement loop along a line on which `f` has no zeros -/
theorem refineLoopF_fine {A : FloatOps ℝ} {u : ℝ} (hA : Rounds A.fl u) {S : SumOps ℝ} (hlin : S.lin = linspaceF A)
    (hS : Samples S) {ctx : RCtx ℝ} {pt : ℝ → Cx ℝ} (hpt : MachineLine A.fl pt) {lo hi h : ℝ}
    (hne : ∀ t, lo ≤ t → t ≤ hi → ctx.f (pt t) ≠ 0) (F : ℕ)
    (hF : ∀ idx phi, idx ≤ S.steps → |phi| ≤ 4 → S.factor idx phi ≤ F) (hFu : 4 * u * F ≤ 1)
    (hph : ∀ u v, u ≠ 0 → v ≠ 0 → |S.phase u v| ≤ 4) (n : ℕ) :
    ∀ (idx : ℕ) (ts : List ℝ) (w : World (SumState ℝ) ℝ), idx + n ≤ S.steps → Fine A.fl lo hi h ts →
      (∀ v w', refineLoopF A S ctx n idx (ts.map pt) (phasesOf S.phase ((ts.map pt).map ctx.f)) w = (.ok v, w') →
        w' = w ∧ ∃ ts', Fine A.fl lo hi h ts' ∧ v = (ts'.map pt, phasesOf S.phase ((ts'.map pt).map ctx.f))) ∧
      ((∀ n, 1 ≤ S.evals n) → (∀ idx phi, 1 ≤ idx → S.deltaPhi ≤ |phi| → 99 * idx ≤ S.factor idx phi) →
        198 * S.numPts < 97 * ((S.steps - 1) * S.steps) → idx + n = S.steps → 0 < n →
        2 * S.numPts + 97 * (idx * (idx + 1)) ≤ 2 * ts.length →
        ∃ v, refineLoopF A S ctx n idx (ts.map pt) (phasesOf S.phase ((ts.map pt).map ctx.f)) w = (.ok v, w)) := by
  induction n with
  | zero =>
    intro idx ts w _ _
    exact ⟨fun v w' h => by simp [refineLoopF] at h, fun _ _ _ _ h => absurd h (by omega)⟩
  | succ n ih =>
    intro idx ts w hidx hfine
    obtain ⟨f1, f2, f3, f4⟩ := id hfine
    have hpos : 0 < ts.length := by
      cases ts with
      | nil => simp at f3
      | cons _ _ => simp
    generalize hp : phasesOf S.phase ((ts.map pt).map ctx.f) = p
    have hlen : p.length + 1 = ts.length := by rw [← hp]; simp; omega
    have hp4 : ∀ x ∈ p, |x| ≤ 4 := by
      intro x hx
      rw [← hp] at hx
      unfold phasesOf at hx
      obtain ⟨i, hi, rfl⟩ := List.getElem_of_mem hx
      simp only [List.getElem_zipWith]
      have hnz : ∀ y ∈ (ts.map pt).map ctx.f, y ≠ 0 := by
        intro y hy
        obtain ⟨q, hq, rfl⟩ := List.mem_map.1 hy
        obtain ⟨t, ht, rfl⟩ := List.mem_map.1 hq
        exact hne t (f1 t ht).1 (f1 t ht).2.1
      exact hph _ _ (hnz _ (List.getElem_mem _)) (hnz _ (List.mem_of_mem_tail (List.getElem_mem _)))
    have hdone : ∀ v w', ((.ok (ts.map pt, p), w) : Except Err (PhiLine ℝ) × World (SumState ℝ) ℝ) = (.ok v, w') →
        w' = w ∧ ∃ ts', Fine A.fl lo hi h ts' ∧ v = (ts'.map pt, phasesOf S.phase ((ts'.map pt).map ctx.f)) := by
      intro v w' e
      simp only [Prod.mk.injEq, Except.ok.injEq] at e
      exact ⟨e.2.symm, ts, hfine, by rw [hp]; exact e.1.symm⟩
    unfold refineLoopF
    rcases hw : whereFrom (fun p => decide (S.deltaPhi ≤ |p|)) 0 p with _ | ⟨k, t⟩
    · exact ⟨hdone, fun _ _ _ _ _ _ => ⟨_, rfl⟩⟩
    dsimp only
    split
    · exact ⟨hdone, fun _ _ _ _ _ _ => ⟨_, rfl⟩⟩
    split
    · exact ⟨hdone, fun _ _ _ _ _ _ => ⟨_, rfl⟩⟩
    rename_i hmax
    have hmax' : ts.length ≤ 100 * S.numPts := by
      have := not_lt.1 hmax
      simpa [maxZLength] using this
    obtain ⟨_, hk, hbig, _⟩ := whereFrom_cons hw
    simp only [Nat.sub_zero, decide_eq_true_eq] at hk hbig
    have hk1 : k + 1 < ts.length := by omega
    have hgd : p.getD k 0 = p[k] := List.getD_eq_getElem _ _ hk
    have hfac2 : 2 ≤ S.factor (idx + 1) (p.getD k 0) := hS.factor _ _ (by omega) (by rw [hgd]; exact hbig)
    have hfacF : S.factor (idx + 1) (p.getD k 0) ≤ F :=
      hF _ _ (by omega) (by rw [hgd]; exact hp4 _ (List.getElem_mem hk))
    have hmem : ∀ i, i < ts.length → ts.getD i 0 ∈ ts := fun i hi => by
      rw [List.getD_eq_getElem _ _ hi]; exact List.getElem_mem hi
    have hget : ∀ i, i < ts.length → (ts.map pt).getD i 0 = pt (ts.getD i 0) := fun i hi => by
      rw [List.getD_eq_getElem _ _ (by simpa using hi), List.getD_eq_getElem _ _ hi, List.getElem_map]
    obtain ⟨a1, a2, a3⟩ := f1 _ (hmem k (by omega))
    obtain ⟨b1, b2, b3⟩ := f1 _ (hmem (k + 1) hk1)
    have hle : ts.getD k 0 ≤ ts.getD (k + 1) 0 := by
      rw [List.getD_eq_getElem _ _ (by omega), List.getD_eq_getElem _ _ hk1]
      exact (List.isChain_iff_getElem.1 f2 k hk1).1
    have hu4 : 4 * u * (S.factor (idx + 1) (p.getD k 0) : ℕ) ≤ 1 := by
      have : ((S.factor (idx + 1) (p.getD k 0) : ℕ) : ℝ) ≤ F := by exact_mod_cast hfacF
      have := mul_le_mul_of_nonneg_left this (show 0 ≤ 4 * u by have := hA.u_nonneg; positivity)
      linarith
    have hg := genFuncArrF_fine (σ := SumState ℝ) hA hlin (ctx := ctx) hpt hle a3 b3
      (fun t t1 t2 => hne t (a1.trans t1) (t2.trans b2)) hfac2 hu4 w
    rw [hget k (by omega), hget (k + 1) hk1, Py.bind_run, hg]
    by_cases hev : S.evals (S.factor (idx + 1) (p.getD k 0)) = 0
    · rw [if_pos hev]
      refine ⟨fun v w' e => by simp at e, fun h1 => ?_⟩
      have := h1 (S.factor (idx + 1) (p.getD k 0))
      omega
    rw [if_neg hev]
    dsimp only
    have hrf := linT_fine hA hle a3 b3 (le_max_left _ _) (le_max_right _ _) hfac2 hu4
    generalize hr : linT A (ts.getD k 0) (ts.getD (k + 1) 0) (S.factor (idx + 1) (p.getD k 0)) = r at hrf ⊢
    have hrlen : r.length = S.factor (idx + 1) (p.getD k 0) := by
      have := linspaceF_length A (pt (ts.getD k 0)) (pt (ts.getD (k + 1) 0)) (S.factor (idx + 1) (p.getD k 0))
      rw [linspaceF_line hA hpt, List.length_map, hr] at this
      exact this
    have hnew := hfine.refine hk1 hrf (by omega)
    have ez : (ts.map pt).take (k + 1) ++ ((r.map pt).drop 1).dropLast ++ (ts.map pt).drop (k + 1) =
        (ts.take (k + 1) ++ (r.drop 1).dropLast ++ ts.drop (k + 1)).map pt := by
      simp only [List.map_append, List.map_take, List.map_drop, List.map_dropLast]
    have ep : p.take k ++ phasesOf S.phase ((r.map pt).map ctx.f) ++ p.drop (k + 1) =
        phasesOf S.phase (((ts.take (k + 1) ++ (r.drop 1).dropLast ++ ts.drop (k + 1)).map pt).map ctx.f) := by
      have hch : Chain S ctx.f (pt lo) (pt hi) (ts.map pt) p := by
        refine ⟨hp.symm, ?_, by simp [f3], by simp [f4]⟩
        intro x hx
        obtain ⟨t, ht, rfl⟩ := List.mem_map.1 hx
        exact hne t (f1 t ht).1 (f1 t ht).2.1
      obtain ⟨g1, g2, g3, g4⟩ := hrf
      have := (hch.refine (k := k) (by simpa using hk1) (r := r.map pt) (by simp; omega) (by
        intro x hx
        obtain ⟨t, ht, rfl⟩ := List.mem_map.1 hx
        exact hne t (a1.trans (g1 t ht).1) ((g1 t ht).2.1.trans b2)) (by
          rw [hget k (by omega), List.head?_map, g3]; rfl) (by
          rw [hget (k + 1) hk1, List.getLast?_map, g4]; rfl)).1
      rw [this, ez]
    rw [ez, ep]
    obtain ⟨i1, i2⟩ := ih (idx + 1) _ w (by omega) hnew
    refine ⟨i1, fun e1 e2 e3 e4 e5 e6 => ?_⟩
    have hf99 := e2 (idx + 1) (p.getD k 0) (by omega) (by rw [hgd]; exact hbig)
    have hn : 0 < n := by
      rcases Nat.eq_zero_or_pos n with rfl | h
      · exfalso
        have e : S.steps = idx + 1 := by omega
        rw [e] at e3
        simp only [Nat.add_sub_cancel] at e3
        omega
      · exact h
    refine i2 e1 e2 e3 (by omega) hn ?_
    simp only [List.length_append, List.length_take, List.length_drop, List.length_dropLast, hrlen]
    have : (idx + 1) * (idx + 1 + 1) = idx * (idx + 1) + 2 * (idx + 1) := by ring
    rw [this]
    omega

/-- What is used of the estimator and the line: see `C108_count`. -/
structure FineLine (A : FloatOps ℝ) (u : ℝ) (S : SumOps ℝ) (N : ℕ) (δ γ : ℝ) (f : Cx ℝ → Cx ℝ) (Q : Cx ℝ → Prop)
    (T : Cx ℝ → Cx ℝ → ℝ) (h eta : ℝ) : Prop where
  rounds : Rounds A.fl u
  arith : SumArith S N δ γ
  lin : S.lin = linspaceF A
  turns : TurnSys f Q T h eta
  eta2 : eta ≤ 2
  δ4 : δ ≤ 1 / 4
  uN : 4 * u * N ≤ 1

/-- what the sampling of a line is shown to do: it leaves the state alone, and the computed sum is the turn of `f` -/
def SideOk (A : FloatOps ℝ) (S : SumOps ℝ) (ctx : RCtx ℝ) (V : Cx ℝ → Cx ℝ → ℝ → Prop) (a b : Cx ℝ) : Prop :=
  ∀ (w w' : World (SumState ℝ) ℝ) v, genPhiArrF A S 0 a b ctx w = (.ok v, w') → w' = w ∧ V a b (S.sum v.2)

/-- the sampling of a line returns -/
def SideEnds (A : FloatOps ℝ) (S : SumOps ℝ) (ctx : RCtx ℝ) (a b : Cx ℝ) : Prop :=
  ∀ w : World (SumState ℝ) ℝ, ∃ v w', genPhiArrF A S 0 a b ctx w = (.ok v, w')

theorem genPhiArrF_fine {A : FloatOps ℝ} {u : ℝ} {S : SumOps ℝ} {N : ℕ} {δ γ : ℝ} {ctx : RCtx ℝ} {Q : Cx ℝ → Prop}
    {T : Cx ℝ → Cx ℝ → ℝ} {h eta : ℝ} (F : FineLine A u S N δ γ ctx.f Q T h eta) {pt : ℝ → Cx ℝ} (hpt : MachineLine A.fl pt)
    {lo hi R : ℝ} (hlh : lo ≤ hi) (hlo : Machine A.fl lo) (hhi : Machine A.fl hi) (hloR : |lo| ≤ R) (hhiR : |hi| ≤ R)
    (hh : (hi - lo) / ((S.numPts : ℝ) - 1) + 18 * u * R ≤ h) (hQ : ∀ t, lo ≤ t → t ≤ hi → Q (pt t)) :
    SideOk A S ctx (LineTurn (lineErr N δ γ) (lineMax N γ) T) (pt lo) (pt hi) ∧
    ((∀ n, 1 ≤ S.evals n) → (∀ idx phi, 1 ≤ idx → S.deltaPhi ≤ |phi| → 99 * idx ≤ S.factor idx phi) →
      198 * S.numPts < 97 * ((S.steps - 1) * S.steps) → SideEnds A S ctx (pt lo) (pt hi)) := by
  have hn2 := F.arith.samples.numPts
  have hu0 := F.rounds.u_nonneg
  have hN : 4 * u * (S.numPts : ℝ) ≤ 1 := by
    have h1 : S.numPts ≤ N := by have := F.arith.len0; omega
    have h1 : (S.numPts : ℝ) ≤ N := by exact_mod_cast h1
    have := mul_le_mul_of_nonneg_left h1 (show 0 ≤ 4 * u by positivity)
    linarith [F.uN]
  have hne : ∀ t, lo ≤ t → t ≤ hi → ctx.f (pt t) ≠ 0 := fun t t1 t2 => F.turns.ne _ (hQ t t1 t2)
  have hfine : Fine A.fl lo hi h (linT A lo hi S.numPts) := by
    obtain ⟨g1, g2, g3, g4⟩ := linT_fine F.rounds hlh hlo hhi hloR hhiR hn2 hN
    exact ⟨g1, g2.imp fun _ _ hxy => ⟨hxy.1, hxy.2.trans hh⟩, g3, g4⟩
  have hlenT : (linT A lo hi S.numPts).length = S.numPts := by
    have := linspaceF_length A (pt lo) (pt hi) S.numPts
    rwa [linspaceF_line F.rounds hpt, List.length_map] at this
  have hFu : 4 * u * ((N - 100 * S.numPts : ℕ) : ℝ) ≤ 1 := by
    have h1 : ((N - 100 * S.numPts : ℕ) : ℝ) ≤ N := by exact_mod_cast Nat.sub_le _ _
    have := mul_le_mul_of_nonneg_left h1 (show 0 ≤ 4 * u by positivity)
    linarith [F.uN]
  have hloop := fun w => refineLoopF_fine F.rounds F.lin F.arith.samples (ctx := ctx) hpt (h := h) hne (N - 100 * S.numPts)
    (fun idx phi h1 h2 => by have := F.arith.len idx phi h1 h2; omega) hFu
    (fun a b ha hb => (F.arith.phase a b ha hb).1) S.steps 0 (linT A lo hi S.numPts) w (by omega) hfine
  have hrun : ∀ w : World (SumState ℝ) ℝ, genPhiArrF A S 0 (pt lo) (pt hi) ctx w =
      if S.evals S.numPts = 0 then (.error .outOfFuel, w) else
        refineLoopF A S ctx S.steps 0 ((linT A lo hi S.numPts).map pt)
          (phasesOf S.phase (((linT A lo hi S.numPts).map pt).map ctx.f)) w := by
    intro w
    unfold genPhiArrF
    rw [if_neg (by simp), Py.bind_run, genFuncArrF_fine F.rounds F.lin hpt hlh hlo hhi hne hn2 hN]
    by_cases he : S.evals S.numPts = 0
    · rw [if_pos he, if_pos he]
    · rw [if_neg he, if_neg he]
  refine ⟨?_, ?_⟩
  · intro w w' v hv
    have hok := genPhiArrF_ok F.arith.samples (a := pt lo) (b := pt hi) (N - 100 * S.numPts)
      (fun idx phi h1 h2 => by have := F.arith.len idx phi h1 h2; omega)
      (fun a b ha hb => (F.arith.phase a b ha hb).1) w w' v hv
    rw [hrun] at hv
    split at hv
    · simp at hv
    · obtain ⟨e, ts', k1, k2⟩ := (hloop w).1 v w' hv
      refine ⟨e, ?_⟩
      have hl := hok.1
      have := F.arith.len0
      exact fine_line F.arith.δ0 F.arith.γ0 F.arith.phase F.arith.sum F.turns F.eta2 F.δ4 hpt.isLine hQ k1
        (by rw [k2]) (by omega)
  · intro h1 h2 h3 w
    rw [hrun, if_neg (by have := h1 S.numPts; omega)]
    obtain ⟨v, hv⟩ := (hloop w).2 h1 h2 h3 (by omega) (by
      rcases Nat.eq_zero_or_pos S.steps with h | h
      · rw [h] at h3; omega
      · exact h) (by rw [hlenT]; omega)
    exact ⟨v, w, hv⟩

/-! ## sides and rectangles -/

/-- one side of the rectangle, not seen before -/
theorem edgeF_side {A : FloatOps ℝ} {S : SumOps ℝ} {ctx : RCtx ℝ} {V : Cx ℝ → Cx ℝ → ℝ → Prop}
    (hneg : ∀ a b v, V a b v → V b a (-v)) (a b : Cx ℝ) (hab : a ≠ b) (hpar : a.im = b.im ∨ a.re = b.re)
    (lo hi : Cx ℝ) (hlh : (lo, hi) = (a, b) ∧ a.re ≤ b.re ∧ a.im ≤ b.im ∨ (lo, hi) = (b, a) ∧ b.re ≤ a.re ∧ b.im ≤ a.im)
    (hside : SideOk A S ctx V lo hi) (w : World (SumState ℝ) ℝ) (hw : w.fuse = none)
    (hc : w.cache.look 0 a b = none)
    (hH : a.im = b.im → w.est.horizontal.get? (a.im, 0) = none)
    (hV : a.re = b.re → w.est.vertical.get? (a.re, 0) = none) :
    (∀ phi w', edgeMoment (sumLineF A S) 0 ctx (a, b) w = (.ok phi, w') →
      phi.im = 0 ∧ V a b phi.re ∧ w'.added = w.added ∧ w'.fuse = none ∧
      (∀ u v, (u, v) ≠ (a, b) → (u, v) ≠ (b, a) → w'.cache.look 0 u v = w.cache.look 0 u v) ∧
      (∀ y, (a.im = b.im → y ≠ a.im) → w'.est.horizontal.get? (y, 0) = w.est.horizontal.get? (y, 0)) ∧
      (∀ x, (a.re = b.re → x ≠ a.re) → w'.est.vertical.get? (x, 0) = w.est.vertical.get? (x, 0))) ∧
    (SideEnds A S ctx lo hi → ∃ phi w', edgeMoment (sumLineF A S) 0 ctx (a, b) w = (.ok phi, w')) := by
  -- the line as sampled
  have key : ∀ w0 : World (SumState ℝ) ℝ, w0.est = w.est → ∃ s : ℝ, (∀ v, V lo hi v → V a b (s * v)) ∧
      sumLineF A S 0 a b ctx w0 = match genPhiArrF A S 0 lo hi ctx w0 with
        | (.error e, w1) => (.error e, w1)
        | (.ok v, w1) => (.ok (Cx.ofK (s * S.sum v.2)),
            if a.im = b.im then putH a.im 0 lo.re hi.re v w1 else putV a.re 0 lo.im hi.im v w1) := by
    intro w0 he
    unfold sumLineF
    by_cases h1 : a.im = b.im
    · have hre : a.re ≠ b.re := fun e => hab (Cx.ext e h1)
      refine ⟨lineSign a.re b.re, ?_, ?_⟩
      · intro v hv
        unfold lineSign
        rcases hlh with ⟨e, h2, _⟩ | ⟨e, h2, _⟩
        · simp only [Prod.mk.injEq] at e
          rw [if_pos (lt_of_le_of_ne h2 hre), one_mul, ← e.1, ← e.2]
          exact hv
        · simp only [Prod.mk.injEq] at e
          rw [if_neg (not_lt.2 h2), neg_one_mul, ← e.1, ← e.2]
          exact hneg _ _ _ hv
      · have hl : (⟨min a.re b.re, a.im⟩ : Cx ℝ) = lo ∧ (⟨max a.re b.re, a.im⟩ : Cx ℝ) = hi := by
          rcases hlh with ⟨e, h2, _⟩ | ⟨e, h2, _⟩
          · simp only [Prod.mk.injEq] at e
            rw [min_eq_left h2, max_eq_right h2, e.1, e.2]
            exact ⟨rfl, Cx.ext rfl h1⟩
          · simp only [Prod.mk.injEq] at e
            rw [min_eq_right h2, max_eq_left h2, e.1, e.2]
            exact ⟨Cx.ext rfl h1, rfl⟩
        have m1 : min a.re b.re = lo.re := congrArg Cx.re hl.1
        have m2 : max a.re b.re = hi.re := congrArg Cx.re hl.2
        rw [if_pos h1, horizontalF_run, he, reuseH_miss (hH h1), hl.1, hl.2, m1, m2]
        simp only [sliceOrSampleF]
        rcases genPhiArrF A S 0 lo hi ctx w0 with ⟨_ | _, _⟩
        · rfl
        · simp only [if_pos h1]
    · have h2 := hpar.resolve_left h1
      refine ⟨lineSign a.im b.im, ?_, ?_⟩
      · intro v hv
        unfold lineSign
        rcases hlh with ⟨e, _, h3⟩ | ⟨e, _, h3⟩
        · simp only [Prod.mk.injEq] at e
          rw [if_pos (lt_of_le_of_ne h3 h1), one_mul, ← e.1, ← e.2]
          exact hv
        · simp only [Prod.mk.injEq] at e
          rw [if_neg (not_lt.2 h3), neg_one_mul, ← e.1, ← e.2]
          exact hneg _ _ _ hv
      · have hl : (⟨a.re, min a.im b.im⟩ : Cx ℝ) = lo ∧ (⟨a.re, max a.im b.im⟩ : Cx ℝ) = hi := by
          rcases hlh with ⟨e, _, h3⟩ | ⟨e, _, h3⟩
          · simp only [Prod.mk.injEq] at e
            rw [min_eq_left h3, max_eq_right h3, e.1, e.2]
            exact ⟨rfl, Cx.ext h2 rfl⟩
          · simp only [Prod.mk.injEq] at e
            rw [min_eq_right h3, max_eq_left h3, e.1, e.2]
            exact ⟨Cx.ext h2 rfl, rfl⟩
        have m1 : min a.im b.im = lo.im := congrArg Cx.im hl.1
        have m2 : max a.im b.im = hi.im := congrArg Cx.im hl.2
        rw [if_neg h1, if_pos h2, verticalF_run, he, reuseV_miss (hV h2), hl.1, hl.2, m1, m2]
        simp only [sliceOrSampleF]
        rcases genPhiArrF A S 0 lo hi ctx w0 with ⟨_ | _, _⟩
        · rfl
        · simp only [if_neg h1]
  obtain ⟨s, hs, hrun⟩ := key { w with cache := (w.cache.retrieve 0 a b).2 } rfl
  have hmom : edgeMoment (sumLineF A S) 0 ctx (a, b) w = match sumLineF A S 0 a b ctx { w with cache := (w.cache.retrieve 0 a b).2 } with
      | (.error e, w1) => (.error e, w1)
      | (.ok d, w1) => (.ok d, { w1 with cache := (w1.cache.store 0 a b d).store 0 b a (-d) }) := by
    rw [edgeMoment_run, hc]
    dsimp only
    rw [compute_run, World.tick_none (by exact hw)]
    dsimp only
    rcases sumLineF A S 0 a b ctx { w with cache := (w.cache.retrieve 0 a b).2 } with ⟨_ | _, _⟩ <;> rfl
  rw [hmom, hrun]
  refine ⟨?_, ?_⟩
  · intro phi w' h
    rcases hg : genPhiArrF A S 0 lo hi ctx { w with cache := (w.cache.retrieve 0 a b).2 } with ⟨_ | v, w1⟩
    · rw [hg] at h; simp at h
    obtain ⟨rfl, hv⟩ := hside _ _ _ hg
    rw [hg] at h
    dsimp only at h
    simp only [Prod.mk.injEq, Except.ok.injEq] at h
    obtain ⟨rfl, rfl⟩ := h
    refine ⟨by simp, by simpa using hs _ hv, ?_, ?_, ?_, ?_, ?_⟩
    · split <;> rfl
    · split <;> exact hw
    · intro u v h1 h2
      dsimp only
      rw [EstCache.look_store, EstCache.look_store]
      rw [if_neg, if_neg]
      · split <;> simp only [putH, putV] <;> exact EstCache.look_retrieve ..
      · intro e; apply h1; simp_all
      · intro e; apply h2; simp_all
    · intro y hy
      by_cases h1 : a.im = b.im
      · rw [if_pos h1]
        simp only [putH]
        rw [storeCache_get, if_neg (by simp [Ne.symm (hy h1)])]
      · rw [if_neg h1]; rfl
    · intro x hx
      by_cases h1 : a.im = b.im
      · rw [if_pos h1]; rfl
      · rw [if_neg h1]
        simp only [putV]
        rw [storeCache_get, if_neg (by simp [Ne.symm (hx (hpar.resolve_left h1))])]
  · intro hE
    obtain ⟨v, w1, hg⟩ := hE { w with cache := (w.cache.retrieve 0 a b).2 }
    rw [hg]
    exact ⟨_, _, rfl⟩

/-- the phase around a rectangle is computed from the values along the sides -/
theorem calcMomentF_sides {A : FloatOps ℝ} {S : SumOps ℝ} {ctx : RCtx ℝ} {V : Cx ℝ → Cx ℝ → ℝ → Prop}
    (hneg : ∀ a b v, V a b v → V b a (-v)) {x1 x2 y1 y2 : ℝ} (hre : x1 < x2) (him : y1 < y2) (h0 : A.fl 0 = 0)
    (s1 : SideOk A S ctx V ⟨x1, y1⟩ ⟨x2, y1⟩) (s2 : SideOk A S ctx V ⟨x2, y1⟩ ⟨x2, y2⟩)
    (s3 : SideOk A S ctx V ⟨x1, y2⟩ ⟨x2, y2⟩) (s4 : SideOk A S ctx V ⟨x1, y1⟩ ⟨x1, y2⟩)
    (w : World (SumState ℝ) ℝ) (hw : w.fuse = none) (hc : w.cache.data = [])
    (hH : ∀ y, y = y1 ∨ y = y2 → w.est.horizontal.get? (y, 0) = none)
    (hV : ∀ x, x = x1 ∨ x = x2 → w.est.vertical.get? (x, 0) = none) :
    (∀ phi w', calcMomentF A (sumLineF A S) 0 (x1, x2) (y1, y2) ctx w = (.ok phi, w') →
      w'.added = w.added ∧ phi.im = 0 ∧ ∃ d1 d2 d3 d4, V ⟨x1, y1⟩ ⟨x2, y1⟩ d1 ∧ V ⟨x2, y1⟩ ⟨x2, y2⟩ d2 ∧
        V ⟨x2, y2⟩ ⟨x1, y2⟩ d3 ∧ V ⟨x1, y2⟩ ⟨x1, y1⟩ d4 ∧
        phi.re = A.fl (A.fl (A.fl (A.fl (0 + d1) + d2) + d3) + d4)) ∧
    (SideEnds A S ctx ⟨x1, y1⟩ ⟨x2, y1⟩ → SideEnds A S ctx ⟨x2, y1⟩ ⟨x2, y2⟩ → SideEnds A S ctx ⟨x1, y2⟩ ⟨x2, y2⟩ →
      SideEnds A S ctx ⟨x1, y1⟩ ⟨x1, y2⟩ → ∃ phi w', calcMomentF A (sumLineF A S) 0 (x1, x2) (y1, y2) ctx w = (.ok phi, w')) := by
  have hlook : ∀ u v, w.cache.look 0 u v = none := by
    intro u v; unfold EstCache.look; rw [hc]; rfl
  have hne := hre.ne
  have hne' := him.ne
  unfold calcMomentF edges
  simp only [sumEdgesF, Py.bind_run, Py.pure_run]
  -- bottom
  obtain ⟨B1, E1⟩ := edgeF_side hneg ⟨x1, y1⟩ ⟨x2, y1⟩ (fun e => hne (congrArg Cx.re e)) (.inl rfl) ⟨x1, y1⟩ ⟨x2, y1⟩
    (.inl ⟨rfl, hre.le, le_refl _⟩) s1 w hw (hlook _ _) (fun _ => hH _ (.inl rfl)) (fun e => absurd e hne)
  rcases h1 : edgeMoment (sumLineF A S) 0 ctx (⟨x1, y1⟩, ⟨x2, y1⟩) w with ⟨_ | d1, w1⟩
  · refine ⟨fun phi w' h => by simp at h, fun e1 _ _ _ => ?_⟩
    obtain ⟨_, _, h⟩ := E1 e1
    rw [h1] at h; simp at h
  obtain ⟨a1, b1, p1, c1, e1, f1, g1⟩ := B1 d1 w1 h1
  dsimp only
  -- right
  obtain ⟨B2, E2⟩ := edgeF_side hneg ⟨x2, y1⟩ ⟨x2, y2⟩ (fun e => hne' (congrArg Cx.im e)) (.inr rfl) ⟨x2, y1⟩ ⟨x2, y2⟩
    (.inl ⟨rfl, le_refl _, him.le⟩) s2 w1 c1
    (by rw [e1 _ _ (by simp [hne, hne.symm]) (by simp [hne', hne'.symm])]; exact hlook _ _)
    (fun e => absurd e hne') (fun _ => by rw [g1 _ (fun e => absurd e hne)]; exact hV _ (.inr rfl))
  rcases h2 : edgeMoment (sumLineF A S) 0 ctx (⟨x2, y1⟩, ⟨x2, y2⟩) w1 with ⟨_ | d2, w2⟩
  · refine ⟨fun phi w' h => by simp at h, fun _ e2 _ _ => ?_⟩
    obtain ⟨_, _, h⟩ := E2 e2
    rw [h2] at h; simp at h
  obtain ⟨a2, b2, p2, c2, e2, f2, g2⟩ := B2 d2 w2 h2
  dsimp only
  -- top
  obtain ⟨B3, E3⟩ := edgeF_side hneg ⟨x2, y2⟩ ⟨x1, y2⟩ (fun e => hne (congrArg Cx.re e).symm) (.inl rfl) ⟨x1, y2⟩ ⟨x2, y2⟩
    (.inr ⟨rfl, hre.le, le_refl _⟩) s3 w2 c2
    (by rw [e2 _ _ (by simp [hne', hne'.symm]) (by simp [hne, hne.symm]),
          e1 _ _ (by simp [hne, hne.symm]) (by simp [hne', hne'.symm])]; exact hlook _ _)
    (fun _ => by rw [f2 _ (fun e => absurd e hne'), f1 _ (fun _ => hne'.symm)]; exact hH _ (.inr rfl))
    (fun e => absurd e hne.symm)
  rcases h3 : edgeMoment (sumLineF A S) 0 ctx (⟨x2, y2⟩, ⟨x1, y2⟩) w2 with ⟨_ | d3, w3⟩
  · refine ⟨fun phi w' h => by simp at h, fun _ _ e3 _ => ?_⟩
    obtain ⟨_, _, h⟩ := E3 e3
    rw [h3] at h; simp at h
  obtain ⟨a3, b3, p3, c3, e3, f3, g3⟩ := B3 d3 w3 h3
  dsimp only
  -- left
  obtain ⟨B4, E4⟩ := edgeF_side hneg ⟨x1, y2⟩ ⟨x1, y1⟩ (fun e => hne' (congrArg Cx.im e).symm) (.inr rfl) ⟨x1, y1⟩ ⟨x1, y2⟩
    (.inr ⟨rfl, le_refl _, him.le⟩) s4 w3 c3
    (by rw [e3 _ _ (by simp [hne, hne.symm]) (by simp [hne', hne'.symm]),
          e2 _ _ (by simp [hne, hne.symm]) (by simp [hne, hne.symm]),
          e1 _ _ (by simp [hne', hne'.symm]) (by simp [hne, hne.symm])]; exact hlook _ _)
    (fun e => absurd e hne'.symm)
    (fun _ => by
      rw [g3 _ (fun e => absurd e hne.symm), g2 _ (fun _ => hne), g1 _ (fun e => absurd e hne)]
      exact hV _ (.inl rfl))
  rcases h4 : edgeMoment (sumLineF A S) 0 ctx (⟨x1, y2⟩, ⟨x1, y1⟩) w3 with ⟨_ | d4, w4⟩
  · refine ⟨fun phi w' h => by simp at h, fun _ _ _ e4 => ?_⟩
    obtain ⟨_, _, h⟩ := E4 e4
    rw [h4] at h; simp at h
  obtain ⟨a4, b4, p4, c4, e4, f4, g4⟩ := B4 d4 w4 h4
  dsimp only
  refine ⟨?_, fun _ _ _ _ => ⟨_, _, rfl⟩⟩
  intro phi w' h
  simp only [Prod.mk.injEq, Except.ok.injEq] at h
  obtain ⟨rfl, rfl⟩ := h
  refine ⟨p4.trans (p3.trans (p2.trans p1)), ?_, d1.re, d2.re, d3.re, d4.re, b1, b2, b3, b4, ?_⟩
  · simp [FloatOps.cx, a1, a2, a3, a4, h0]
  · simp [FloatOps.cx]

/-- the phase computed around a rectangle without zeros on its sides -/
theorem calcMomentF_count {A : FloatOps ℝ} {u : ℝ} (hA : Rounds A.fl u) {S : SumOps ℝ} {N : ℕ} {δ γ : ℝ} (hS : SumArith S N δ γ)
    (hlin : S.lin = linspaceF A) (hE : rectErr N δ γ u ≤ 1 / 4) (ctx : RCtx ℝ) {x1 x2 y1 y2 : ℝ} (hre : x1 < x2) (him : y1 < y2)
    (hm : Cell.Machine A.fl ⟨(x1, x2), (y1, y2), 0⟩) (R : ℝ) (hR : Cell.Within R ⟨(x1, x2), (y1, y2), 0⟩)
    (zeros : List (Cx ℝ)) (r g : Cx ℝ → ℝ) (M d : ℝ) (hf : Factored ctx.f (Cell.Boundary ⟨(x1, x2), (y1, y2), 0⟩) zeros r g M)
    (hM : 0 ≤ M) (hd : 0 < d) (hfar : ∀ z, Cell.Boundary ⟨(x1, x2), (y1, y2), 0⟩ z → Far d zeros z) (h : ℝ)
    (hh1 : (x2 - x1) / ((S.numPts : ℝ) - 1) + 18 * u * R ≤ h) (hh2 : (y2 - y1) / ((S.numPts : ℝ) - 1) + 18 * u * R ≤ h) (hhd : h < d)
    (hturn : (π / 2 * (zeros.length / d) + M) * h ≤ 2)
    (w : World (SumState ℝ) ℝ) (hw : w.fuse = none) (hc : w.cache.data = [])
    (hH : ∀ y, y = y1 ∨ y = y2 → w.est.horizontal.get? (y, 0) = none)
    (hV : ∀ x, x = x1 ∨ x = x2 → w.est.vertical.get? (x, 0) = none) :
    (∀ phi w', calcMomentF A (sumLineF A S) 0 (x1, x2) (y1, y2) ctx w = (.ok phi, w') →
      w'.added = w.added ∧ phi.im = 0 ∧ |phi.re| ≤ 5 * lineMax N γ ∧
      |phi.re - 2 * π * (Cell.count ⟨(x1, x2), (y1, y2), 0⟩ zeros : ℝ)| ≤ rectErr N δ γ u) ∧
    ((∀ n, 1 ≤ S.evals n) → (∀ idx phi, 1 ≤ idx → S.deltaPhi ≤ |phi| → 99 * idx ≤ S.factor idx phi) →
      198 * S.numPts < 97 * ((S.steps - 1) * S.steps) →
      ∃ phi w', calcMomentF A (sumLineF A S) 0 (x1, x2) (y1, y2) ctx w = (.ok phi, w')) := by
  have hpi := Real.pi_gt_d2
  have hδ := hS.δ0
  have hγ := hS.γ0
  have hu0 := hA.u_nonneg
  have hN : (200 : ℝ) ≤ N := by
    have := hS.len0
    have := hS.samples.numPts
    exact_mod_cast (by omega : 200 ≤ N)
  have hle : 0 ≤ lineErr N δ γ := by unfold lineErr; positivity
  have hM0 : 0 ≤ 11 * u * lineMax N γ := by unfold lineMax; positivity
  have hδ4 : δ ≤ 1 / 4 := by
    have : lineErr N δ γ ≤ 1 / 16 := by unfold rectErr at hE; linarith
    unfold lineErr at this
    nlinarith
  have huN : 4 * u * N ≤ 1 := by
    have : 11 * u * lineMax N γ ≤ 1 / 4 := by unfold rectErr at hE; linarith
    unfold lineMax at this
    have h1 : 11 * u * (4 * N * 1) ≤ 11 * u * (4 * N * (1 + γ)) := by gcongr; linarith
    nlinarith
  have tt := hf.turnSys (h := h) hd hhd hM (by linarith)
  set Q : Cx ℝ → Prop := fun z => Cell.Boundary ⟨(x1, x2), (y1, y2), 0⟩ z ∧ Far d zeros z with hQdef
  have F : FineLine A u S N δ γ ctx.f Q (turn zeros g) h ((π / 2 * (zeros.length / d) + M) * h) :=
    ⟨hA, hS, hlin, tt, hturn, hδ4, huN⟩
  have hb : ∀ z, Cell.Boundary ⟨(x1, x2), (y1, y2), 0⟩ z → Q z := fun z hz => ⟨hz, hfar z hz⟩
  obtain ⟨⟨m1, m2⟩, m3, m4⟩ := hm
  obtain ⟨⟨R1, R2⟩, R3, R4⟩ := hR
  dsimp only at m1 m2 m3 m4 R1 R2 R3 R4
  have hQh : ∀ y, y = y1 ∨ y = y2 → ∀ t, x1 ≤ t → t ≤ x2 → Q ⟨t, y⟩ := by
    intro y hy t t1 t2
    refine hb _ ⟨⟨t1, t2, ?_, ?_⟩, ?_⟩
    · rcases hy with rfl | rfl <;> linarith
    · rcases hy with rfl | rfl <;> linarith
    · rintro ⟨_, _, g3, g4⟩
      dsimp only at g3 g4
      rcases hy with rfl | rfl <;> linarith
  have hQv : ∀ x, x = x1 ∨ x = x2 → ∀ t, y1 ≤ t → t ≤ y2 → Q ⟨x, t⟩ := by
    intro x hx t t1 t2
    refine hb _ ⟨⟨?_, ?_, t1, t2⟩, ?_⟩
    · rcases hx with rfl | rfl <;> linarith
    · rcases hx with rfl | rfl <;> linarith
    · rintro ⟨g1, g2, _, _⟩
      dsimp only at g1 g2
      rcases hx with rfl | rfl <;> linarith
  have sh : ∀ y, y = y1 ∨ y = y2 → _ := fun y hy => genPhiArrF_fine F (ctx := ctx) (pt := fun t => ⟨t, y⟩)
    (.inl ⟨y, by rcases hy with rfl | rfl; exacts [m3, m4], rfl⟩) hre.le m1 m2 R1 R2 hh1 (hQh y hy)
  have sv : ∀ x, x = x1 ∨ x = x2 → _ := fun x hx => genPhiArrF_fine F (ctx := ctx) (pt := fun t => ⟨x, t⟩)
    (.inr ⟨x, by rcases hx with rfl | rfl; exacts [m1, m2], rfl⟩) him.le m3 m4 R3 R4 hh2 (hQv x hx)
  -- the turns back and forth
  let V : Cx ℝ → Cx ℝ → ℝ → Prop := fun a b v => LineTurn (lineErr N δ γ) (lineMax N γ) (turn zeros g) a b v ∨
    LineTurn (lineErr N δ γ) (lineMax N γ) (turn zeros g) b a (-v)
  have hneg : ∀ a b v, V a b v → V b a (-v) := by
    rintro a b v (h | h)
    · exact .inr (by rwa [neg_neg])
    · exact .inl h
  have lift : ∀ a b, SideOk A S ctx (LineTurn (lineErr N δ γ) (lineMax N γ) (turn zeros g)) a b → SideOk A S ctx V a b :=
    fun a b hs w w' v hv => ⟨(hs w w' v hv).1, .inl (hs w w' v hv).2⟩
  have back : ∀ pt, IsLine pt → ∀ lo hi a b, (∀ t, lo ≤ t → t ≤ hi → Q (pt t)) → lo ≤ a → a ≤ hi → lo ≤ b → b ≤ hi →
      turn zeros g (pt b) (pt a) = -turn zeros g (pt a) (pt b) := by
    intro pt hpt lo hi a b hq a1 a2 b1 b2
    have e1 := tt.add pt hpt lo hi hq a b a a1 a2 b1 b2 a1 a2
    have e2 := tt.add pt hpt lo hi hq a a a a1 a2 a1 a2 a1 a2
    linarith
  have use : ∀ a b v, turn zeros g b a = -turn zeros g a b → V a b v → LineTurn (lineErr N δ γ) (lineMax N γ) (turn zeros g) a b v := by
    rintro a b v e (h | ⟨h1, h2⟩)
    · exact h
    · refine ⟨by rwa [abs_neg] at h1, ?_⟩
      rw [e, ← abs_neg] at h2
      convert h2 using 2
      ring
  obtain ⟨c1, c2⟩ := calcMomentF_sides (ctx := ctx) hneg hre him hA.zero (lift _ _ (sh y1 (.inl rfl)).1) (lift _ _ (sv x2 (.inr rfl)).1)
    (lift _ _ (sh y2 (.inr rfl)).1) (lift _ _ (sv x1 (.inl rfl)).1) w hw hc hH hV
  refine ⟨?_, fun e1 e2 e3 => c2 ((sh y1 (.inl rfl)).2 e1 e2 e3) ((sv x2 (.inr rfl)).2 e1 e2 e3)
    ((sh y2 (.inr rfl)).2 e1 e2 e3) ((sv x1 (.inl rfl)).2 e1 e2 e3)⟩
  intro phi w' hp
  obtain ⟨p1, p2, d1, d2, d3, d4, v1, v2, v3, v4, e⟩ := c1 phi w' hp
  obtain ⟨B1, l1⟩ := use _ _ _ (back (fun t => ⟨t, y1⟩) (.inl ⟨y1, rfl⟩) x1 x2 x1 x2 (hQh y1 (.inl rfl)) (le_refl _) hre.le hre.le (le_refl _)) v1
  obtain ⟨B2, l2⟩ := use _ _ _ (back (fun t => ⟨x2, t⟩) (.inr ⟨x2, rfl⟩) y1 y2 y1 y2 (hQv x2 (.inr rfl)) (le_refl _) him.le him.le (le_refl _)) v2
  obtain ⟨B3, l3⟩ := use _ _ _ (back (fun t => ⟨t, y2⟩) (.inl ⟨y2, rfl⟩) x1 x2 x2 x1 (hQh y2 (.inr rfl)) hre.le (le_refl _) (le_refl _) hre.le) v3
  obtain ⟨B4, l4⟩ := use _ _ _ (back (fun t => ⟨x1, t⟩) (.inr ⟨x1, rfl⟩) y1 y2 y2 y1 (hQv x1 (.inl rfl)) him.le (le_refl _) (le_refl _) him.le) v4
  have around := turn_around (zeros := zeros) g hre him (by
    intro c hcz hbd
    have hQc : Q c := by
      rcases hbd with ⟨hx, k1, k2⟩ | ⟨hy, k1, k2⟩
      · exact hQv c.re hx c.im k1 k2
      · exact hQh c.im hy c.re k1 k2
    exact hQc.2.ne hd hcz rfl) 0
  have hs := sum4_near hA.near hA.u_nonneg hA.u_small B1 B2 B3 B4
  rw [← e] at hs
  have hB : 0 ≤ lineMax N γ := le_trans (abs_nonneg _) B1
  have huB : u * lineMax N γ ≤ 1 / 16 * lineMax N γ := mul_le_mul_of_nonneg_right hA.u_small hB
  refine ⟨p1, p2, ?_, ?_⟩
  · rw [abs_le] at B1 B2 B3 B4 hs ⊢
    constructor <;> linarith [B1.1, B1.2, B2.1, B2.2, B3.1, B3.2, B4.1, B4.2, hs.1, hs.2]
  · unfold rectErr
    rw [abs_le] at l1 l2 l3 l4 hs ⊢
    constructor <;> linarith [l1.1, l1.2, l2.1, l2.2, l3.1, l3.2, l4.1, l4.2, hs.1, hs.2]

end PyZeal
