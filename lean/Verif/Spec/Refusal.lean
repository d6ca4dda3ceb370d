import Verif.Spec.Include
import Verif.Spec.LogFiles
import Verif.Model.Refusal
/-!
# Why a process refuses to start, and what it says
-/

namespace Httpd.Spec

open Httpd

/-- How a character is written within quotes; `x` has those outside ASCII. -/
inductive InQuotes (x : ErrorTexts) : Nat → Str → Prop
  | plain (c) : 32 ≤ c → c ≤ 126 → c ≠ 34 → c ≠ 92 → InQuotes x c [c]
  | quote : InQuotes x 34 u!"\\\""
  | backslash : InQuotes x 92 u!"\\\\"
  | nul : InQuotes x 0 u!"\\0"
  | tab : InQuotes x 9 u!"\\t"
  | newline : InQuotes x 10 u!"\\n"
  | cr : InQuotes x 13 u!"\\r"
  | short (c d) : c ≠ 0 → c ≠ 9 → c ≠ 10 → c ≠ 13 → u!"0123456789abcdef"[c]? = some d → InQuotes x c (u!"\\u{" ++ [d] ++ u!"}")
  | long (hi lo a b) : hi = 1 ∨ (hi = 7 ∧ lo = 15) → u!"0123456789abcdef"[hi]? = some a → u!"0123456789abcdef"[lo]? = some b →
      InQuotes x (16 * hi + lo) (u!"\\u{" ++ [a, b] ++ u!"}")
  | other (c) : 128 ≤ c → InQuotes x c (x.char c)

/-- The text `t` is the text `s` in quotes. -/
def Quoted (x : ErrorTexts) (s t : Str) : Prop := ∃ ts : List Str, Each2 (InQuotes x) s ts ∧ t = [34] ++ ts.flatten ++ [34]

/-- The file found by a pattern is a visible regular file. -/
def Visible (path : Str) (isFile : Bool) : Prop := isFile = true ∧ ∃ name, LastComponent path name ∧ name.head? ≠ some 46

/-- A file named on the command line keeps the process from starting, and the text `t` says why. -/
inductive Unfit (m : Machine) (x : ErrorTexts) (p : Profile) (file : Str) : Str → Prop
  /-- it cannot be read or is not TOML -/
  | unreadable : m.read file = none → Unfit m x p file (x.file file)
  /-- it is not a configuration -/
  | noConfig (v) : m.read file = some v → (∀ f, ¬ FileSays m.U p m.strict v f) → Unfit m x p file (x.file file)
  | workdir (v dir) : m.read file = some v → setting [u!"workdir", u!"Workdir"] 0 v = some (.str dir) → dir ≠ [] → m.chdir dir = false →
      Unfit m x p file (x.chdir dir)
  | pattern (v pat) : m.read file = some v → HasPattern v pat → m.glob pat = none → Unfit m x p file (x.pattern pat)
  /-- a file that it includes cannot be read -/
  | included (v pat gs path isFile toml) : m.read file = some v → HasPattern v pat → m.glob pat = some gs → GlobFile.ok path isFile false toml ∈ gs →
      Visible path isFile → Unfit m x p file (x.read path)
  /-- a file that it includes is not a service -/
  | noService (v pat gs path isFile toml t) : m.read file = some v → HasPattern v pat → m.glob pat = some gs → GlobFile.ok path isFile true toml ∈ gs →
      Visible path isFile → (∀ sv s, toml = some sv → ¬ ServiceSays m.U p m.strict sv s) →
      Quoted x (u!"load service failed, from `" ++ x.path path ++ u!"`, " ++ x.toml path) t → Unfit m x p file t
  /-- the name of an included service is that of a service listed in the file -/
  | takenListed (v pat gs path isFile readable toml k s ss sv t) : m.read file = some v → HasPattern v pat → m.glob pat = some gs →
      GlobFile.ok path isFile readable toml ∈ gs → FileAdds m.U p m.strict (.ok path isFile readable toml) [(k, s)] →
      setting [u!"services", u!"Services"] 9 v = some (.table ss) → (k, sv) ∈ ss →
      Quoted x (u!"service name `" ++ k ++ u!"` is exists, file: " ++ path) t → Unfit m x p file t
  /-- … or that of a service included before -/
  | takenIncluded (v : Toml) (incl : Str) (includes pats1 : List Str) (pat : Str) (pats2 : List Str) (fss : List (List GlobFile)) (gs1 : List GlobFile)
      (path : Str) (isFile readable : Bool) (toml : Option Toml) (gs2 : List GlobFile) (g : GlobFile) (k : Str) (s s' : ServiceConfig) (t : Str) : m.read file = some v →
      Given IsString [] (setting [u!"include", u!"Include"] 7 v) incl → Given (IsList IsString) [] (setting [u!"includes", u!"Includes"] 8 v) includes →
      patternsOf incl includes = pats1 ++ pat :: pats2 → pats1.map m.glob = fss.map some → m.glob pat = some (gs1 ++ .ok path isFile readable toml :: gs2) →
      g ∈ fss.flatten ++ gs1 → FileAdds m.U p m.strict g [(k, s')] → FileAdds m.U p m.strict (.ok path isFile readable toml) [(k, s)] →
      Quoted x (u!"service name `" ++ k ++ u!"` is exists, file: " ++ path) t → Unfit m x p file t
  | blankName (v k sv t) : m.read file = some v → Offers m.glob v k sv → trimUnicode k = [] → Quoted x u!"empty service name" t → Unfit m x p file t
  | emptyRoot (v k sv t) : m.read file = some v → Offers m.glob v k sv →
      Given (KindSays m.strict) .helloWorld (setting [u!"service", u!"Service"] 2 sv) (.fileSystem []) →
      Quoted x (u!"fs service `" ++ trimUnicode k ++ u!"` get an empty root path") t → Unfit m x p file t
  | noRoot (v k sv root t) : m.read file = some v → Offers m.glob v k sv →
      Given (KindSays m.strict) .helloWorld (setting [u!"service", u!"Service"] 2 sv) (.fileSystem root) → m.pathExists root = false →
      Quoted x (u!"fs service `" ++ trimUnicode k ++ u!"` get an non-exists root path `" ++ root ++ u!"`") t → Unfit m x p file t
  /-- a log file of the main section cannot be opened -/
  | mainLog (v : Toml) (logpath : Str) (lc : LoggingConfig) (as : List AppenderInit) (path : Str) : m.read file = some v → LogPathSays v logpath →
      Given (LoggingSays m.U p m.strict) logAll (setting [u!"log", u!"Log", u!"logging", u!"Logging"] 2 v) lc →
      SectionMeans logpath [] 0 lc as → some path ∈ as.map (·.path) → m.openOk path = false → Unfit m x p file (x.logFile path)
  /-- a log file of a service cannot be opened -/
  | serviceLog (v : Toml) (logpath k : Str) (sv : Toml) (lc : LoggingConfig) (idx : Nat) (as : List AppenderInit) (path : Str) : m.read file = some v → LogPathSays v logpath → Offers m.glob v k sv →
      Given (LoggingSays m.U p m.strict) logAll (setting [u!"log", u!"Log", u!"logging", u!"Logging"] 3 sv) lc →
      SectionMeans logpath (trimUnicode k) idx lc as → some path ∈ as.map (·.path) → m.openOk path = false → Unfit m x p file (x.logFile path)

end Httpd.Spec
