import Verif.Model.Argparse
import Verif.Model.Build
import Verif.Spec.Settings

/-!
# One process after the other

Between processes only files remain: the settings files and the rest of the file system. A process is the program `pyzeal` with its words, or a
script that creates settings services and assigns to their properties.
-/

namespace PyZeal
open Settings Spec

/-- what is left when a process has ended -/
structure Machine where
  settings : SettingsFS
  files : FSys

/-- A process using PyZEAL. For a command line its surroundings (current directory, ...) are part of it; a script does the operations `SOp` of
Spec/Settings.lean (json_settings_service.py 36-150). -/
inductive Process
  | pyzeal (E : CliEnv) (argv : List PyStr)
  | script (ops : List SOp)

/-- A command line: `PyZEALEntry.mainPyZEAL`; cli/__main__.py 27-48. The initialisation (line 31; initialization_handler.py 57-65) reads the
settings for its log level: unreadable settings end the process here. Simplification: the settings service read here stands for those read later in the
same process (they agree as long as nobody else writes the files, cf. C62). -/
def cliProcess (E : CliEnv) (R : Args.Reader) (argv : List PyStr) (m : Machine) : Except Err Unit × List String × Machine :=
  match load m.settings with
  | .error e => (.error e, [], m)
  | .ok svc =>
    let r := Args.mainPyZEAL E R argv ⟨⟨m.settings, svc⟩, m.files, [], []⟩
    (r.1, r.2.out, ⟨r.2.sett.fs, r.2.fsys⟩)

/-- what a process leaves behind; a script starts without services -/
def Process.run (R : Args.Reader) : Process → Machine → Machine
  | .pyzeal E argv, m => (cliProcess E R argv m).2.2
  | .script ops, m => ⟨(SWorld.run ⟨m.settings, fun _ => none⟩ ops).2.fs, m.files⟩

/-- processes one after the other -/
def runAll (R : Args.Reader) (ps : List Process) (m : Machine) : Machine := ps.foldl (fun m p => p.run R m) m

end PyZeal
