import Verif.Model.Whole
/-!
# Model of what is said when the process refuses to start

`main` returns an `anyhow::Result` (src/main.rs:270); Rust's standard library writes `Error: ` and the `{:?}` text of an `Err` to standard error, and that text is the
text of src/utils/anyhow.rs as it is (lines 11-15). Here: which text it is. The functions go along `loadFile` and `Config.initLogging`, which have everything
but the texts; `none` is "no `Err`". The texts of errors of the standard library and of the crates are parameters.
-/

namespace Httpd

/-- `{:?}` of what comes from outside. -/
structure ErrorTexts where
  /-- a character outside ASCII, within a string -/
  char : Nat → Str
  /-- the path of an included file -/
  path : Str → Str
  /-- the file named on the command line cannot be read, or is not a configuration -/
  file : Str → Str
  /-- the working directory cannot be entered -/
  chdir : Str → Str
  /-- the pattern is none -/
  pattern : Str → Str
  /-- an included file cannot be read -/
  read : Str → Str
  /-- an included file is not a service -/
  toml : Str → Str
  /-- a log file cannot be opened -/
  logFile : Str → Str
  /-- there is a logger already -/
  setLogger : Str

/-- A hexadecimal digit. -/
def hexChar (n : Nat) : Nat := if n < 10 then 48 + n else 87 + n

/-- `char::escape_debug`, as used by `{:?}` of a string. -/
def debugChar (x : ErrorTexts) (c : Nat) : Str :=
  if c = 0 then u!"\\0"
  else if c = 9 then u!"\\t"
  else if c = 10 then u!"\\n"
  else if c = 13 then u!"\\r"
  else if c = 34 then u!"\\\""
  else if c = 92 then u!"\\\\"
  else if c < 16 then u!"\\u{" ++ [hexChar c] ++ u!"}"
  else if c < 32 ∨ c = 127 then u!"\\u{" ++ [hexChar (c / 16), hexChar (c % 16)] ++ u!"}"
  else if c < 127 then [c]
  else x.char c

/-- `{:?}` of a string: what src/utils/anyhow.rs:18-20 `error` makes of a text. -/
def debugStr (x : ErrorTexts) (s : Str) : Str := [34] ++ s.flatMap (debugChar x) ++ [34]

/-- src/config/service.rs:123-142 `Service::autofix`: the error. -/
def ServiceSetting.refusal (x : ErrorTexts) (pathExists : Str → Bool) (name : Str) : ServiceSetting → Option Str
  | .fileSystem root =>
    if root.isEmpty then some (debugStr x (u!"fs service `" ++ name ++ u!"` get an empty root path"))
    else if !pathExists root then some (debugStr x (u!"fs service `" ++ name ++ u!"` get an non-exists root path `" ++ root ++ u!"`"))
    else none
  | _ => none

/-- src/config/mod.rs:163-172: the error of the loop of `Config::autofix`, nothing else of which fails. -/
def fixRefusal (x : ErrorTexts) (pathExists : Str → Bool) : List (Str × ServiceConfig) → Option Str
  | [] => none
  | (key, service) :: rest =>
    let name := trimUnicode key
    if name.isEmpty then some (debugStr x u!"empty service name")
    else
      match service.service.refusal x pathExists name with
      | some e => some e
      | none => fixRefusal x pathExists rest

/-- src/config/mod.rs:72-117: the error of the loop of `Config::include`. -/
def includeRefusal (x : ErrorTexts) : List GlobItem → List (Str × ServiceConfig) → Option Str
  | [], _ => none
  | .err :: es, services => includeRefusal x es services
  | .ok path isFile text parsed :: es, services =>
    match fileName path with
    | none => includeRefusal x es services
    | some basename =>
      if !isFile then includeRefusal x es services
      else if basename.head? = some 46 then includeRefusal x es services
      else if !text then some (x.read path)
      else
        match parsed with
        | none => some (debugStr x (u!"load service failed, from `" ++ x.path path ++ u!"`, " ++ x.toml path))
        | some service =>
          let trimmed := trimUnicode service.name
          match (if trimmed.isEmpty then nameWithoutExt path else .value trimmed) with
          | .error => some u!"filename failed"
          | .panic => none
          | .value name =>
            if services.any (fun s => s.1 = name) then
              some (debugStr x (u!"service name `" ++ name ++ u!"` is exists, file: " ++ path))
            else includeRefusal x es (services ++ [(name, { service with name := name })])

/-- src/config/mod.rs:71-119 and 128-133: the error of the patterns, one after the other. -/
def patternsRefusal (x : ErrorTexts) : List (Str × Option (List GlobItem)) → List (Str × ServiceConfig) → Option Str
  | [], _ => none
  | (pat, none) :: _, _ => some (x.pattern pat)
  | (_, some es) :: ps, services =>
    match includeRefusal x es services with
    | some e => some e
    | none =>
      match includeLoop es services with
      | .value services' => patternsRefusal x ps services'
      | _ => none

/-- src/config/mod.rs:121-147: the error of `Config::load`. -/
def loadRefusal (U : Unicode) (p : Profile) (strict : Bool) (x : ErrorTexts) (pathExists chdir : Str → Bool) (glob : Str → Option (List GlobFile))
    (order : List (Str × ServiceConfig) → List (Str × ServiceConfig)) (file : Str) (text : Option Toml) : Option Str :=
  match text with
  | none => some (x.file file)
  | some v =>
    match ConfigFile.de U p strict v with
    | .error => some (x.file file)
    | .panic => none
    | .value f =>
      if !f.workdir.isEmpty && !chdir f.workdir then some (x.chdir f.workdir)
      else
        let items := patternItems U p strict glob f.patterns
        match patternsRefusal x (f.patterns.zip items.1) f.config.services with
        | some e => some e
        | none =>
          match includeAll items.1 f.config.services with
          | .value services =>
            if items.2 then none
            else fixRefusal x pathExists (order (if services.length < 1 then [(u!"helloworld", defaultService)] else services))
          | _ => none

/-- src/config/logging.rs:105-174: the error of the loop of `LoggingConfig::init`; `open` is the only thing in it that fails
(src/logging/file_appender.rs:52, 71). -/
def openRefusal (x : ErrorTexts) (openOk : Str → Bool) (logpath name : Str) : List AppenderConfig → Nat → List Str → Option Str
  | [], _, _ => none
  | .console _ :: rest, idx, fps => openRefusal x openOk logpath name rest (idx + 1) fps
  | .file level _ _ _ :: rest, idx, fps =>
    let level := appenderLevel level
    let path := logPath1 logpath name level
    let path := if fps.contains path then logPath2 logpath name level idx else path
    if !openOk path then some (x.logFile path)
    else openRefusal x openOk logpath name rest (idx + 1) (path :: fps)

/-- src/config/mod.rs:181-195: the error of making the appenders, section after section. -/
def sectionsRefusal (x : ErrorTexts) (openOk : Str → Bool) (logpath : Str) : List LoggingConfig → Option Str
  | [] => none
  | c :: cs =>
    match (if c.disable = some true then none else openRefusal x openOk logpath c.serviceName c.appenders 0 []) with
    | some e => some e
    | none => sectionsRefusal x openOk logpath cs

/-- src/config/mod.rs:210-232: the error about a name of a renderer. -/
def rendererRefusal (x : ErrorTexts) (U : Unicode) : List Str → Option Str
  | [] => none
  | n :: ns =>
    match rendererFor U n with
    | none => some (debugStr x (u!"unknown log line renderer name(`json`, `colored`), `" ++ n ++ u!"`"))
    | some _ => rendererRefusal x U ns

/-- src/config/mod.rs:177-249 and src/logging/dispatcher.rs:61-133: the error of `Config::logging`. An error of `consumer.init` is not told: `init` does not return
(see `initLogging`). -/
def Config.loggingRefusal (x : ErrorTexts) (U : Unicode) (openOk midnight : Str → Bool) (order : List Str → List Str) (setOk : Bool) (c : Config) : Option Str :=
  if sectionsPanic openOk midnight c.logpath (c.logging :: c.services.map (·.2.logging)) then none
  else
    match sectionsRefusal x openOk c.logpath (c.logging :: c.services.map (·.2.logging)) with
    | some e => some e
    | none =>
      match c.appenders openOk with
      | none => none
      | some as =>
        match noteAppenders as 0 c.slab with
        | none => none
        | some samap =>
          match rendererRefusal x U (order (rendererNames as)) with
          | some e => some e
          | none =>
            match renderersFor U (order (rendererNames as)) with
            | none => none
            | some renderers =>
              match Consumer.init U ⟨as.map (·.appender), renderers, [], samap⟩ with
              | none => none
              | some _ => if setOk then none else some x.setLogger

/-- src/main.rs:47-65 and 270-272: the error with which `main` returns before anything is served. Without a file the configuration is fixed up, which fails
for no service. -/
def Machine.refusal (m : Machine) (x : ErrorTexts) (p : Profile) (arg : Str) : Option Str :=
  let file := fileArgument p arg
  match (if (trimUnicode file).isEmpty then fixRefusal x m.pathExists []
    else loadRefusal m.U p m.strict x m.pathExists m.chdir m.glob m.order file (m.read file)) with
  | some e => some e
  | none =>
    match loadConfigFrom p m.pathExists arg (fun file => loadFile m.U p m.strict m.pathExists m.chdir m.glob m.order (m.read file)) with
    | .value c => c.loggingRefusal x m.U m.openOk m.midnight m.names m.setOk
    | _ => none

/-- What is on standard error then. -/
def Machine.errorLine (m : Machine) (x : ErrorTexts) (p : Profile) (arg : Str) : Str :=
  match m.refusal x p arg with
  | some e => u!"Error: " ++ e ++ [10]
  | none => []

end Httpd
