import Verif.Spec.Sessions
import Verif.Props.Argparse
import Verif.Props.Build

/-! # Proofs about histories of processes -/

set_option linter.unusedSectionVars false

namespace PyZeal.Props
open Spec Settings Args Cli

/-- proper operations of a script keep the files usable -/
theorem script_usable (ops : List SOp) : ∀ w : SWorld, Usable w.fs.default → Usable w.fs.custom → w.fs.writable = true →
    ∀ svc, load w.fs = .ok svc → ProperOps (fun i => w.services i ≠ none) ops →
    Usable (w.run ops).2.fs.default ∧ Usable (w.run ops).2.fs.custom ∧ (w.run ops).2.fs.writable = true := by
  induction ops with
  | nil => intro w hd hc hw _ _ _; exact ⟨hd, hc, hw⟩
  | cons op ops ih =>
    intro w hd hc hw svc hl hp
    cases op with
    | create i =>
      have hs : w.step (.create i) = (.ok (), w.withService i svc) := by
        unfold SWorld.step; rw [hl]
      have := ih (w.withService i svc) hd hc hw svc hl (by
        have hk : (fun j => (w.withService i svc).services j ≠ none) = (fun j => j = i ∨ w.services j ≠ none) := by
          funext j
          unfold SWorld.withService
          by_cases e : j = i <;> simp [e]
        rw [hk]; exact hp)
      have hr : (w.run (.create i :: ops)).2 = ((w.step (.create i)).2.run ops).2 := rfl
      rw [hr, hs]
      exact this
    | assign i k v =>
      obtain ⟨hi, hv, hp⟩ := hp
      rcases hsv : w.services i with _ | s
      · exact absurd hsv hi
      obtain ⟨fs', j, hu, hd', hw', hc', -, hm, hst⟩ := createOrUpdate_valid hc hw hv
      have hl' := load_after hd hc hl hd' hc' hm hst
      have hs : w.step (.assign i k v) = (.ok (), (SWorld.mk fs' w.services).withService i (Settings.put s k v)) := by
        have h1 : w.step (.assign i k v) = ((createOrUpdate k v w.fs).1,
            (SWorld.mk (createOrUpdate k v w.fs).2 w.services).withService i (Settings.put s k v)) := by
          unfold SWorld.step; dsimp only; rw [hsv]; rfl
        rw [h1, hu]
      have := ih ((SWorld.mk fs' w.services).withService i (Settings.put s k v))
        (by show Usable fs'.default; rw [hd']; exact hd) hc' hw' _ hl' (by
        have hk : (fun j => ((SWorld.mk fs' w.services).withService i (Settings.put s k v)).services j ≠ none) =
            (fun j => w.services j ≠ none) := by
          funext j
          unfold SWorld.withService
          by_cases e : j = i <;> simp [e, hsv]
        rw [hk]; exact hp)
      have hr : (w.run (.assign i k v :: ops)).2 = ((w.step (.assign i k v)).2.run ops).2 := rfl
      rw [hr, hs]
      exact this

/-- What is asked of a process: its surroundings are sane, plugins do not write settings, and scripts assign values of the right types through services
they have created. Nothing is asked of command lines. -/
def Sane : Process → Prop
  | .pyzeal E _ => AsciiCase E.text ∧ KeepsSettings E.loadPlugins
  | .script ops => ProperOps (fun _ => False) ops

/-- a command line of another kind than `change` leaves the settings alone -/
theorem other_line (E : CliEnv) (hE : AsciiCase E.text) (hload : KeepsSettings E.loadPlugins) {R : Reader} (hR : DigitsOk R) (argv : List PyStr)
    (hno : ¬ ∃ es, Line R argv (some "change") es) (st : CState) (hst : InSync st.sett) : (mainPyZEAL E R argv st).2.sett = st.sett := by
  by_cases h : ∃ sub es, Line R argv sub es
  · obtain ⟨sub, es, h⟩ := h
    rcases line_effects h with ⟨h1, -⟩ | ⟨h1, -⟩ | ⟨h1, -⟩ | ⟨h1, -⟩
    · subst h1
      obtain ⟨ha, hb⟩ := C122_bare E hR h st hst.valid
      by_cases e : argv = []
      · have := ha e; unfold Prints at this; rw [this]
      · have := hb e; unfold Prints at this; rw [this]
    · subst h1
      obtain ⟨p, t, -, -, hp⟩ := C122_view E hR h st hst.valid
      unfold Prints at hp
      rw [hp]
    · subst h1; exact absurd ⟨es, h⟩ hno
    · subst h1; exact C121_settings E hE hR h hload st
  · rcases C119_rejected E hR h st with h | ⟨-, t, h⟩ <;> rw [h]

/-- one process: the settings given get their values, the others stay -/
theorem process_step {R : Reader} (hR : DigitsOk R) (p : Process) (hp : Sane p) (m : Machine) (svc : Service) (h : InSync ⟨m.settings, svc⟩) :
    ∃ svc', InSync ⟨(p.run R m).settings, svc'⟩ ∧ (∀ k v, Process.Gives R p k v → svc' k = v) ∧
      ∀ k, (¬ ∃ v, Process.Gives R p k v) → svc' k = svc k := by
  cases p with
  | pyzeal E argv =>
    have hrun : (Process.pyzeal E argv).run R m =
        ⟨(mainPyZEAL E R argv ⟨⟨m.settings, svc⟩, m.files, [], []⟩).2.sett.fs, (mainPyZEAL E R argv ⟨⟨m.settings, svc⟩, m.files, [], []⟩).2.fsys⟩ := by
      have := h.load
      dsimp only at this
      unfold Process.run cliProcess; dsimp only
      rw [this]
    rw [hrun]
    by_cases hc : ∃ es, Line R argv (some "change") es
    · obtain ⟨es, hl⟩ := hc
      obtain ⟨st', e, h1, h2, -, h4, -⟩ := C120_change E hp.1 hR hl ⟨⟨m.settings, svc⟩, m.files, [], []⟩ h
      refine ⟨st'.sett.svc, by rw [e]; exact h4, ?_, ?_⟩
      · rintro k v ⟨es', hl', hv⟩
        obtain ⟨st'', e', h1', -⟩ := C120_change E hp.1 hR hl' ⟨⟨m.settings, svc⟩, m.files, [], []⟩ h
        rw [e] at e'
        injection e' with _ e'
        rw [e']
        exact h1' k v hv
      · intro k hk
        exact h2 k (fun ⟨v, hv⟩ => hk ⟨v, es, hl, hv⟩)
    · have := other_line E hp.1 hp.2 hR argv hc ⟨⟨m.settings, svc⟩, m.files, [], []⟩ h
      rw [this]
      exact ⟨svc, h, fun k v ⟨es, hl, _⟩ => absurd ⟨es, hl⟩ hc, fun _ _ => rfl⟩
  | script ops =>
    have hk : (fun i : Nat => (fun _ => none : Nat → Option Service) i ≠ none) = fun _ => False := by
      funext i; simp
    have hp' : ProperOps (fun i => (SWorld.mk m.settings (fun _ => none)).services i ≠ none) ops := by
      show ProperOps (fun i : Nat => (fun _ => none : Nat → Option Service) i ≠ none) ops
      rw [hk]; exact hp
    obtain ⟨-, svc', h1, h2⟩ := C62_settings_persist ops ⟨m.settings, fun _ => none⟩ svc h.default h.custom h.writable h.load hp'
    obtain ⟨u1, u2, u3⟩ := script_usable ops ⟨m.settings, fun _ => none⟩ h.default h.custom h.writable svc h.load hp'
    refine ⟨svc', ⟨u1, u2, u3, h1, ?_⟩, ?_, ?_⟩
    · intro k
      dsimp only
      rw [h2 k]
      rcases e : lastAssigned k ops with _ | v
      · exact h.valid k
      · exact valid_lastAssigned k ops _ hp v e
    · intro k v hv
      have : lastAssigned k ops = some v := hv
      rw [h2 k, this]
    · intro k hk
      rcases e : lastAssigned k ops with _ | v
      · rw [h2 k, e]
      · exact absurd ⟨v, e⟩ hk

/-- processes one after the other -/
theorem process_all {R : Reader} (hR : DigitsOk R) (ps : List Process) : (∀ p ∈ ps, Sane p) → ∀ (m : Machine) (svc : Service),
    InSync ⟨m.settings, svc⟩ → ∃ svc', InSync ⟨(runAll R ps m).settings, svc'⟩ ∧ (∀ k v, LastGiven R ps k v → svc' k = v) ∧
      ∀ k, (¬ ∃ v, LastGiven R ps k v) → svc' k = svc k := by
  induction ps with
  | nil =>
    intro _ m svc h
    refine ⟨svc, h, ?_, fun _ _ => rfl⟩
    rintro k v ⟨pre, p, post, e, -⟩
    cases pre <;> cases e
  | cons p ps ih =>
    intro hs m svc h
    obtain ⟨s1, h1, h2, h3⟩ := process_step hR p (hs p (by simp)) m svc h
    obtain ⟨s2, g1, g2, g3⟩ := ih (fun q hq => hs q (by simp [hq])) _ s1 h1
    refine ⟨s2, g1, ?_, ?_⟩
    · rintro k v ⟨pre, q, post, e, hq, hpost⟩
      cases pre with
      | nil =>
        injection e with e1 e2
        subst e1 e2
        rw [g3 k ?_]
        · exact h2 k v hq
        · rintro ⟨v', pre', q', post', e', hq', -⟩
          exact hpost q' (by rw [e']; simp) ⟨v', hq'⟩
      | cons p' pre =>
        injection e with e1 e2
        exact g2 k v ⟨pre, q, post, e2, hq, hpost⟩
    · intro k hk
      rw [g3 k ?_]
      · refine h3 k (fun ⟨v, hv⟩ => ?_)
        by_cases hps : ∃ v, LastGiven R ps k v
        · obtain ⟨w, pre, q, post, e, hq, hpost⟩ := hps
          exact hk ⟨w, p :: pre, q, post, by rw [e]; rfl, hq, hpost⟩
        · refine hk ⟨v, [], p, ps, rfl, hv, fun q hq ⟨w, hw⟩ => hps ?_⟩
          exact last_exists R k ps q hq w hw
      · rintro ⟨w, pre, q, post, e, hq, hpost⟩
        exact hk ⟨w, p :: pre, q, post, by rw [e]; rfl, hq, hpost⟩
where
  last_exists (R : Reader) (k : Setting) : ∀ (ps : List Process) (q : Process), q ∈ ps → ∀ w, Process.Gives R q k w → ∃ v, LastGiven R ps k v
    | p :: ps, q, hq, w, hw => by
      by_cases h : ∃ q' ∈ ps, ∃ w', Process.Gives R q' k w'
      · obtain ⟨q', hq', w', hw'⟩ := h
        obtain ⟨v, pre, r, post, e, h1, h2⟩ := last_exists R k ps q' hq' w' hw'
        exact ⟨v, p :: pre, r, post, by rw [e]; rfl, h1, h2⟩
      · rcases List.mem_cons.1 hq with rfl | hq
        · exact ⟨w, [], q, ps, rfl, hw, fun q' hq' hv => h ⟨q', hq', hv⟩⟩
        · exact absurd ⟨q, hq, w, hw⟩ h

end PyZeal.Props
