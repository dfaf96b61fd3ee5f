/-!
# Python dictionaries

A `dict` is an insertion-ordered association list.  `d[k] = v` overwrites in place or
appends; `del d[k]` / `d.pop(k)` removes the entry.
-/

namespace PyZeal

/-- A Python `dict` with keys `κ` and values `ν` in insertion order. -/
abbrev Dict (κ ν : Type) := List (κ × ν)

namespace Dict
variable {κ ν : Type} [DecidableEq κ]

/-- `d.get(k)` -/
def get? : Dict κ ν → κ → Option ν
  | [], _ => none
  | (k', v) :: d, k => if k' = k then some v else get? d k

/-- `d[k] = v` -/
def set : Dict κ ν → κ → ν → Dict κ ν
  | [], k, v => [(k, v)]
  | (k', v') :: d, k, v => if k' = k then (k, v) :: d else (k', v') :: set d k v

/-- `d.pop(k, None)` -/
def erase : Dict κ ν → κ → Dict κ ν
  | [], _ => []
  | (k', v') :: d, k => if k' = k then d else (k', v') :: erase d k

/-- the keys of the dictionary, `list(d)` -/
def keys (d : Dict κ ν) : List κ := d.map Prod.fst

/-- a dictionary has no key twice -/
def WF (d : Dict κ ν) : Prop := d.keys.Nodup

@[simp] theorem get?_nil (k : κ) : get? ([] : Dict κ ν) k = none := rfl

omit [DecidableEq κ] in
theorem wf_nil : WF ([] : Dict κ ν) := List.nodup_nil

theorem get?_cons (k' : κ) (v : ν) (d : Dict κ ν) (k : κ) :
    get? ((k', v) :: d) k = if k' = k then some v else get? d k := rfl

theorem get?_set (d : Dict κ ν) (k : κ) (v : ν) (j : κ) :
    (d.set k v).get? j = if k = j then some v else d.get? j := by
  induction d with
  | nil => simp [set, get?]
  | cons e d ih =>
    obtain ⟨k', v'⟩ := e
    by_cases h : k' = k
    · subst h; simp only [set, if_true, get?_cons]; split <;> rfl
    · simp only [set, if_neg h, get?_cons, ih]
      by_cases h2 : k' = j
      · subst h2; have : ¬ k = k' := fun e => h e.symm
        simp [this]
      · simp [h2]

theorem get?_eq_none_iff (d : Dict κ ν) (k : κ) : d.get? k = none ↔ k ∉ d.keys := by
  induction d with
  | nil => simp [keys]
  | cons e d ih =>
    obtain ⟨k', v'⟩ := e
    rw [get?_cons]
    by_cases h : k' = k
    · subst h; simp [keys]
    · simp only [if_neg h, ih, keys, List.map_cons, List.mem_cons, not_or]
      exact ⟨fun h2 => ⟨fun e => h e.symm, h2⟩, fun h2 => h2.2⟩

theorem keys_set (d : Dict κ ν) (k : κ) (v : ν) :
    (d.set k v).keys = if k ∈ d.keys then d.keys else d.keys ++ [k] := by
  induction d with
  | nil => simp [set, keys]
  | cons e d ih =>
    obtain ⟨k', v'⟩ := e
    by_cases h : k' = k
    · subst h; simp [set, keys]
    · have h' : ¬ k = k' := fun e => h e.symm
      simp only [keys] at ih
      simp only [set, if_neg h, keys, List.map_cons, ih, List.mem_cons, h', false_or]
      split <;> rename_i hk <;> simp [hk]

theorem WF.set {d : Dict κ ν} (h : d.WF) (k : κ) (v : ν) : (d.set k v).WF := by
  unfold WF; rw [keys_set]
  split
  · exact h
  · rename_i hk
    exact List.nodup_append.2 ⟨h, by simp, by
      intro a ha b hb; simp at hb; subst hb; intro e; subst e; exact hk ha⟩

theorem keys_erase_sublist (d : Dict κ ν) (k : κ) : (d.erase k).keys.Sublist d.keys := by
  induction d with
  | nil => simp [erase]
  | cons e d ih =>
    obtain ⟨k', v'⟩ := e
    simp only [erase]
    split
    · simp [keys]
    · simp only [keys, List.map_cons] at *
      exact ih.cons_cons _

theorem WF.erase {d : Dict κ ν} (h : d.WF) (k : κ) : (d.erase k).WF :=
  List.Nodup.sublist (keys_erase_sublist d k) h

theorem get?_erase {d : Dict κ ν} (h : d.WF) (k j : κ) :
    (d.erase k).get? j = if k = j then none else d.get? j := by
  induction d with
  | nil => simp [erase]
  | cons e d ih =>
    obtain ⟨k', v'⟩ := e
    have hd : WF d := by
      unfold WF keys at h ⊢; exact (List.nodup_cons.1 h).2
    have hk : k' ∉ keys d := by
      unfold WF keys at h; exact (List.nodup_cons.1 h).1
    by_cases e : k' = k
    · subst e
      simp only [Dict.erase, if_true, get?_cons]
      by_cases e2 : k' = j
      · subst e2; simp [(get?_eq_none_iff d k').2 hk]
      · simp [e2]
    · simp only [Dict.erase, if_neg e, get?_cons, ih hd]
      by_cases e2 : k' = j
      · subst e2; have : ¬ k = k' := fun x => e x.symm
        simp [this]
      · simp [e2]

theorem mem_of_get? {d : Dict κ ν} {k : κ} {v : ν} (h : d.get? k = some v) : (k, v) ∈ d := by
  induction d with
  | nil => simp at h
  | cons e d ih =>
    obtain ⟨k', v'⟩ := e
    rw [get?_cons] at h
    split at h
    · rename_i e; cases h; subst e; simp
    · exact List.mem_cons_of_mem _ (ih h)

theorem get?_of_mem {d : Dict κ ν} (hd : d.WF) {k : κ} {v : ν} (h : (k, v) ∈ d) :
    d.get? k = some v := by
  induction d with
  | nil => simp at h
  | cons e d ih =>
    obtain ⟨k', v'⟩ := e
    have hd' : WF d := by
      unfold WF keys at hd ⊢; exact (List.nodup_cons.1 hd).2
    have hk : k' ∉ keys d := by
      unfold WF keys at hd; exact (List.nodup_cons.1 hd).1
    rw [get?_cons]
    rcases List.mem_cons.1 h with h | h
    · cases h; simp
    · rw [if_neg]
      · exact ih hd' h
      · rintro rfl
        exact hk (List.mem_map.2 ⟨_, h, rfl⟩)

/-- values in force = values found by lookup -/
theorem mem_values_iff {d : Dict κ ν} (hd : d.WF) (v : ν) :
    v ∈ d.map Prod.snd ↔ ∃ k, d.get? k = some v := by
  constructor
  · intro h
    obtain ⟨⟨k, w⟩, hm, rfl⟩ := List.mem_map.1 h
    exact ⟨k, get?_of_mem hd hm⟩
  · rintro ⟨k, h⟩
    exact List.mem_map.2 ⟨_, mem_of_get? h, rfl⟩

end Dict
end PyZeal
