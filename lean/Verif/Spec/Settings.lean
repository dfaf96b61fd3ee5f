import Verif.Model.Settings

/-!
# Specification of the settings services
-/

namespace PyZeal.Spec
open Settings

/-- values of the right type for a setting -/
inductive Valid : Setting → PyVal → Prop
  | container (c) : Valid .container (.container c)
  | algorithm (a) : Valid .algorithm (.algorithm a)
  | estimator (e) : Valid .estimator (.estimator e)
  | level (l) : Valid .level (.level l)
  | verbose (b) : Valid .verbose (.bool b)
  | precision (p q : Int) : Valid .precision (.tuple [.int p, .int q])

/-- a settings file a service can work with: absent, or a JSON object -/
def Usable (f : FileC) : Prop := f = .absent ∨ ∃ d, f = .json (.obj d) ∧ Dict.WF d

/-- the value stored under a key -/
def stored : FileC → String → Option Json
  | .json (.obj d), k => Dict.get? d k
  | _, _ => none

/-- the value in force: from the custom file if it is there, else from the default file -/
def inForce (fs : SettingsFS) (k : String) : Option Json :=
  match stored fs.custom k with
  | some j => some j
  | none => stored fs.default k

/-- `v` is what the JSON value `j` means for a setting: a member of the enumeration by its value
(log levels by name), a truth value, the first two entries of an array. -/
inductive Means : Setting → Json → PyVal → Prop
  | container (c : ContainerTypes) : Means .container (.str c.value) (.container c)
  | algorithm (a : AlgorithmTypes) : Means .algorithm (.str a.value) (.algorithm a)
  | estimator (e : EstimatorTypes) : Means .estimator (.str e.value) (.estimator e)
  | level (l : LogLevel) : Means .level (.str l.name) (.level l)
  | verbose {j} (h : j ≠ .null) : Means .verbose j (.bool (truth j))
  | precision (x y rest) : Means .precision (.arr (x :: y :: rest)) (.tuple [ofJson x, ofJson y])

/-- what is written for a value -/
inductive Written : Setting → PyVal → Json → Prop
  | container (c : ContainerTypes) : Written .container (.container c) (.str c.value)
  | algorithm (a : AlgorithmTypes) : Written .algorithm (.algorithm a) (.str a.value)
  | estimator (e : EstimatorTypes) : Written .estimator (.estimator e) (.str e.value)
  | level (l : LogLevel) : Written .level (.level l) (.str l.name)
  | verbose (b) : Written .verbose (.bool b) (.bool b)
  | precision (p q : Int) : Written .precision (.tuple [.int p, .int q]) (.arr [.int p, .int q])

/-! ## Several services on one file system -/

/-- what programs do: create a service (kept under a number), assign to a setting of one of them -/
inductive SOp
  | create (i : Nat)
  | assign (i : Nat) (k : Setting) (v : PyVal)

/-- the file system and the services created so far -/
structure SWorld where
  fs : SettingsFS
  services : Nat → Option Service

/-- replace service number `i` -/
def SWorld.withService (w : SWorld) (i : Nat) (s : Service) : SWorld :=
  ⟨w.fs, fun j => if j = i then some s else w.services j⟩

/-- one operation; assigning to a service that was not created raises (there is no such object) -/
def SWorld.step (w : SWorld) : SOp → Except Err Unit × SWorld
  | .create i => match load w.fs with
    | .ok s => (.ok (), w.withService i s)
    | .error e => (.error e, w)
  | .assign i k v => match w.services i with
    | none => (.error .keyError, w)
    | some s =>
      let r := assign k v ⟨w.fs, s⟩
      (r.1, (SWorld.mk r.2.fs w.services).withService i r.2.svc)

/-- the operations one after the other: all outcomes and the final world -/
def SWorld.run : SWorld → List SOp → List (Except Err Unit) × SWorld
  | w, [] => ([], w)
  | w, op :: ops => ((w.step op).1 :: ((w.step op).2.run ops).1, ((w.step op).2.run ops).2)

/-- the value assigned last to `k`, through whichever service -/
def lastAssigned (k : Setting) : List SOp → Option PyVal
  | [] => none
  | .create _ :: ops => lastAssigned k ops
  | .assign _ k' v :: ops =>
    match lastAssigned k ops with
    | some v' => some v'
    | none => if k' = k then some v else none

/-! ## Two processes saving at the same time -/

/-- How far a process is with saving one setting. -/
inductive Saver
  | start
  /-- has read the file; holds the new content -/
  | ready (j : Json)
  /-- has opened (and truncated) the file -/
  | opened (j : Json)
  | done
  | failed

/-- One step of a process that sets `k` to `v`.  `clean` says whether, when it writes into a file the other
process has written to since it was opened, the result happens to be readable. -/
def Saver.step (k : Setting) (v : PyVal) (clean : Bool) : Saver → SettingsFS → Saver × SettingsFS
  | .start, fs => match prepare fs k v with
    | .ok j => (.ready j, fs)
    | .error _ => (.failed, fs)
  | .ready j, fs => (.opened j, truncate fs)
  | .opened j, fs => match fs.custom with
    | .broken => (.done, fill j fs)
    | _ => (.done, if clean then fill j fs else { fs with custom := .broken })
  | .done, fs => (.done, fs)
  | .failed, fs => (.failed, fs)

/-- Two processes in any interleaving: each entry of the schedule says which one moves. -/
def race (ka : Setting) (va : PyVal) (kb : Setting) (vb : PyVal) :
    List (Bool × Bool) → Saver × Saver × SettingsFS → Saver × Saver × SettingsFS
  | [], s => s
  | (true, clean) :: l, (a, b, fs) =>
    let r := a.step ka va clean fs
    race ka va kb vb l (r.1, b, r.2)
  | (false, clean) :: l, (a, b, fs) =>
    let r := b.step kb vb clean fs
    race ka va kb vb l (a, r.1, r.2)

end PyZeal.Spec
