import Verif.Proof.Interrupt
import Verif.Proof.Container
import Verif.Proof.Runs

/-! # Lemmas about root finders -/

set_option linter.unusedSectionVars false

namespace PyZeal
open Spec
variable {K σ : Type} [Field K] [LinearOrder K] [IsStrictOrderedRing K] [FloorRing K]

/-! ## Containers -/

/-- what a container does with a candidate: keep it or not, and in which form -/
def AnyContainer.keeps (c : AnyContainer K) (ctx : FilterCtx K) (r : Root K) : Bool :=
  match c with
  | .rounding c => c.accepts r ctx
  | .plain _ => true

def AnyContainer.form (c : AnyContainer K) (ctx : FilterCtx K) (r : Root K) : Root K :=
  match c with
  | .rounding _ => roundRoot r ctx.precision
  | .plain _ => r

theorem addRoots_rounding (info : Bool) (ctx : FilterCtx K) (c : RContainer K) (rs : List (Root K)) :
    AnyContainer.addRoots info ctx (.rounding c) rs =
      .rounding ((rs.map fun r => (info, r)).foldl (fun c r => c.addRoot r.1 r.2 ctx) c) := by
  unfold AnyContainer.addRoots
  induction rs generalizing c with
  | nil => rfl
  | cons r rs ih => simp only [List.foldl_cons, AnyContainer.addRoot, List.map_cons]; exact ih _

theorem addRoots_plain (info : Bool) (ctx : FilterCtx K) (c : PContainer K) (rs : List (Root K)) :
    AnyContainer.addRoots info ctx (.plain c) rs = .plain { c with queue := c.queue ++ rs } := by
  unfold AnyContainer.addRoots
  induction rs generalizing c with
  | nil => simp
  | cons r rs ih =>
    rw [List.foldl_cons]
    exact (ih (c.addRoot r ctx)).trans (by simp [PContainer.addRoot])

theorem mem_held_addRoots (info : Bool) (ctx : FilterCtx K) (c : AnyContainer K) (rs : List (Root K)) (x : Root K) :
    ((∃ r ∈ rs, c.keeps ctx r = true) →
      (x ∈ held (c.addRoots info ctx rs) ↔ (∃ r ∈ rs, c.keeps ctx r = true ∧ x = c.form ctx r) ∨
        (FilledWith ctx.precision c ∧ x ∈ held c))) ∧
    ((¬ ∃ r ∈ rs, c.keeps ctx r = true) → held (c.addRoots info ctx rs) = held c) := by
  rcases c with c | c
  · rw [addRoots_rounding]
    have h := foldl_add ctx (rs.map fun r => (info, r)) c
    dsimp only at h
    obtain ⟨_, h2, h3⟩ := h
    simp only [List.mem_map, exists_exists_and_eq_and] at h2 h3
    refine ⟨fun hex => ?_, fun hno => ?_⟩
    · have := (h2 hex).2 x
      simp only [held, AnyContainer.keeps, AnyContainer.form, FilledWith]
      rw [this, eq_comm (a := ctx.precision)]
    · simp only [held]; rw [h3 hno]
  · rw [addRoots_plain]
    simp only [held, AnyContainer.keeps, AnyContainer.form, FilledWith]
    refine ⟨fun _ => ?_, fun hno => ?_⟩
    · simp; tauto
    · have : rs = [] := by
        rcases rs with _ | ⟨r, rs⟩
        · rfl
        · exact absurd ⟨r, by simp⟩ hno
      subst this; simp

/-- fewer candidates lead to fewer roots, apart from those held before -/
theorem held_mono (info : Bool) (ctx : FilterCtx K) (c : AnyContainer K) {r1 r2 : List (Root K)} (h : r1 ⊆ r2)
    {x : Root K} (hx : x ∈ held (c.addRoots info ctx r1)) :
    x ∈ held (c.addRoots info ctx r2) ∨ x ∈ held c := by
  by_cases hex : ∃ r ∈ r1, c.keeps ctx r = true
  · have hex2 : ∃ r ∈ r2, c.keeps ctx r = true := by
      obtain ⟨r, hr, hk⟩ := hex; exact ⟨r, h hr, hk⟩
    left
    rw [(mem_held_addRoots info ctx c r2 x).1 hex2]
    rcases ((mem_held_addRoots info ctx c r1 x).1 hex).1 hx with ⟨r, hr, h1⟩ | h1
    · exact .inl ⟨r, h hr, h1⟩
    · exact .inr h1
  · right; rwa [(mem_held_addRoots info ctx c r1 x).2 hex] at hx

theorem held_keeps (info : Bool) (ctx : FilterCtx K) (c : AnyContainer K) (rs : List (Root K))
    (hc : IsEmpty c ∨ FilledWith ctx.precision c) {x : Root K} (hx : x ∈ held c) :
    x ∈ held (c.addRoots info ctx rs) := by
  rcases hc with hc | hc
  · rw [hc] at hx; simp at hx
  · by_cases hex : ∃ r ∈ rs, c.keeps ctx r = true
    · rw [(mem_held_addRoots info ctx c rs x).1 hex]; exact .inr ⟨hc, hx⟩
    · rwa [(mem_held_addRoots info ctx c rs x).2 hex]

theorem foldl_nodup (info : Bool) (ctx : FilterCtx K) (rs : List (Root K)) (c : RContainer K) (h : c.rootSet.Nodup) :
    ((rs.map fun r => (info, r)).foldl (fun c r => c.addRoot r.1 r.2 ctx) c).rootSet.Nodup := by
  induction rs generalizing c with
  | nil => exact h
  | cons r rs ih =>
    simp only [List.map_cons, List.foldl_cons]
    apply ih
    rw [addRoot_eq]
    split
    · apply nodup_setAdd
      split
      · exact h
      · exact List.nodup_nil
    · exact h

/-- the order in which candidates arrive does not matter -/
theorem held_perm (info : Bool) (ctx : FilterCtx K) (c : AnyContainer K) (hc : IsSet c) {r1 r2 : List (Root K)}
    (h : r1.Perm r2) : (held (c.addRoots info ctx r1)).Perm (held (c.addRoots info ctx r2)) := by
  have hm : ∀ x, x ∈ held (c.addRoots info ctx r1) ↔ x ∈ held (c.addRoots info ctx r2) := by
    intro x
    by_cases hex : ∃ r ∈ r1, c.keeps ctx r = true
    · have hex2 : ∃ r ∈ r2, c.keeps ctx r = true := by
        obtain ⟨r, hr, hk⟩ := hex; exact ⟨r, h.mem_iff.1 hr, hk⟩
      rw [(mem_held_addRoots info ctx c r1 x).1 hex, (mem_held_addRoots info ctx c r2 x).1 hex2]
      simp only [h.mem_iff]
    · have hex2 : ¬ ∃ r ∈ r2, c.keeps ctx r = true := by
        rintro ⟨r, hr, hk⟩; exact hex ⟨r, h.mem_iff.2 hr, hk⟩
      rw [(mem_held_addRoots info ctx c r1 x).2 hex, (mem_held_addRoots info ctx c r2 x).2 hex2]
  rcases c with c | c
  · rw [addRoots_rounding, addRoots_rounding] at *
    exact (List.perm_ext_iff_of_nodup (foldl_nodup info ctx r1 c hc) (foldl_nodup info ctx r2 c hc)).2 hm
  · rw [addRoots_plain, addRoots_plain]
    simp only [held]
    exact ((h.append_left c.queue)).append_left c.roots

theorem keeps_of_free {c : AnyContainer K} (h : RoundsFreely c) (ctx : FilterCtx K) (r : Root K) :
    c.keeps ctx r = true ∧ c.form ctx r = roundRoot r ctx.precision := by
  rcases c with c | c
  · have hf : c.filters = [] := h
    simp [AnyContainer.keeps, AnyContainer.form, RContainer.accepts, hf]
  · exact absurd h id

/-! ## Schedules -/

theorem flatten_set_perm {α : Type} {out : List (List α)} {i : ℕ} {x : α} {xs : List α}
    (h : out[i]? = some (x :: xs)) : (x :: (out.set i xs).flatten).Perm out.flatten := by
  induction out generalizing i with
  | nil => simp at h
  | cons l out ih =>
    rcases i with _ | i
    · simp only [List.getElem?_cons_zero, Option.some.injEq] at h
      subst h; simp
    · simp only [List.getElem?_cons_succ] at h
      have := ih h
      simp only [List.set_cons_succ, List.flatten_cons]
      calc x :: (l ++ (out.set i xs).flatten) |>.Perm (l ++ x :: (out.set i xs).flatten) :=
              List.perm_middle.symm
        _ |>.Perm (l ++ out.flatten) := this.append_left l

/-- every output is either delivered or still pending, exactly once -/
theorem deliver_perm {α : Type} (out : List (List α)) (turns : List ℕ) :
    ((deliver out turns).1 ++ (deliver out turns).2.flatten).Perm out.flatten := by
  induction turns generalizing out with
  | nil => simp [deliver]
  | cons i turns ih =>
    unfold deliver
    split
    · rename_i x xs h
      simp only [List.cons_append]
      exact ((ih _).cons x).trans (flatten_set_perm h)
    · exact ih out

theorem deliver_subset {α : Type} (out : List (List α)) (turns : List ℕ) :
    (deliver out turns).1 ⊆ out.flatten := fun _ hx =>
  (deliver_perm out turns).mem_iff.1 (List.mem_append_left _ hx)

theorem chunks_flatten {α : Type} {c : ℕ} (hc : 1 ≤ c) (n : ℕ) (l : List α) (h : l.length ≤ n) :
    (chunks c n l).flatten = l := by
  induction n generalizing l with
  | zero => have : l = [] := List.length_eq_zero_iff.1 (by omega); subst this; rfl
  | succ n ih =>
    rcases l with _ | ⟨a, l⟩
    · rfl
    · rw [chunks, List.flatten_cons, ih, List.take_append_drop]
      simp only [List.length_drop, List.length_cons] at h ⊢
      omega

theorem firstFailure_ok {s : Schedule} {rs : List (Except Err Unit)} (h : firstFailure s rs = .ok ()) :
    ∀ r ∈ rs, r = .ok () := by
  intro r hr
  rcases r with e | _
  · unfold firstFailure at h
    have hm : e ∈ rs.filterMap errorOf :=
      List.mem_filterMap.2 ⟨_, hr, rfl⟩
    split at h
    · rename_i h0; rw [h0] at hm; simp at hm
    · simp at h
  · rfl

theorem firstFailure_eq_ok_iff (s s' : Schedule) (rs : List (Except Err Unit)) :
    firstFailure s rs = .ok () ↔ firstFailure s' rs = .ok () := by
  unfold firstFailure
  split <;> simp_all

end PyZeal
