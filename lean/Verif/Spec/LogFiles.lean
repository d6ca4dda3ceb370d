import Verif.Spec.ConfigFile
import Verif.Spec.Logging
/-!
# The log files a configuration file asks for

Told from the sections of the file.
-/

namespace Httpd.Spec

open Httpd

/-- What the names of the log files of a service begin with; the main section has no name. -/
inductive LogStem (logpath : Str) : Str → Str → Prop
  | main : LogStem logpath [] (logpath ++ u!"/httpd.")
  | service (name : Str) : name ≠ [] → LogStem logpath name (logpath ++ u!"/" ++ name ++ u!"/")

/-- One of the files is for this level. -/
def HasFileFor (cfgs : List AppenderConfig) (l : Level) : Prop :=
  ∃ level equal daily bufsize, AppenderConfig.file level equal daily bufsize ∈ cfgs ∧ LevelMeant level l

/-- What an entry of `appenders` asks for, after the entries `before`: the console; or the file named by its level; or, if an earlier entry
has that file, the file named by its level and its position. -/
inductive AppenderMeant (stem : Str) (service : Nat) (before : List AppenderConfig) : AppenderConfig → AppenderInit → Prop
  | console (level l) : LevelMeant level l → AppenderMeant stem service before (.console level) ⟨service, u!"colored", ⟨l, false⟩, none, false, 0⟩
  | file (level equal daily bufsize l) : LevelMeant level l → ¬ HasFileFor before l →
      AppenderMeant stem service before (.file level equal daily bufsize)
        ⟨service, u!"json", ⟨l, equal = some true⟩, some (stem ++ levelText l ++ u!".log"), daily, bufsize⟩
  | again (level equal daily bufsize l) : LevelMeant level l → HasFileFor before l →
      AppenderMeant stem service before (.file level equal daily bufsize)
        ⟨service, u!"json", ⟨l, equal = some true⟩, some (stem ++ levelText l ++ u!"." ++ natStr before.length ++ u!".log"), daily, bufsize⟩

/-- What a section asks for: nothing if it is disabled, else what its entries ask for, in order. -/
def SectionMeans (logpath name : Str) (service : Nat) (lc : LoggingConfig) (as : List AppenderInit) : Prop :=
  (lc.disable = some true ∧ as = []) ∨
  (lc.disable ≠ some true ∧ ∃ stem, LogStem logpath name stem ∧ as.length = lc.appenders.length ∧
    ∀ (i : Nat) (cfg : AppenderConfig) (a : AppenderInit), lc.appenders[i]? = some cfg → as[i]? = some a →
      AppenderMeant stem service (lc.appenders.take i) cfg a)

/-- The directory of the log files. -/
def LogPathSays (v : Toml) (logpath : Str) : Prop :=
  ∃ given, Given IsString [] (setting [u!"logpath", u!"log_path", u!"LogPath"] 3 v) given ∧
    ((given ≠ [] ∧ logpath = given) ∨ (given = [] ∧ logpath = u!"./logs/"))

end Httpd.Spec
